import Verif.Ace.Lemmas

/-! # What each process adds to `Xi` -/

open Finset

namespace Sparc.Ace

variable (I : Inp)

/-- What the caller guarantees: bands spread over the processes; occupations in descending order and
never equal to the threshold; a column of `Xi` for every occupied band. -/
structure Inp.Ok (Psi : ℕ → Col) : Prop where
  Ns : 0 < I.Ns
  P : 0 < I.P
  Nocc : I.Nocc ≤ I.Ns
  batch : I.BatchOk
  desc : ∀ i j, i ≤ j → j < I.Ns → I.occ j ≤ I.occ i
  ne : ∀ i < I.Ns, I.occ i ≠ tol
  room : ∀ i < I.Ns, tol < I.occ i → i < I.Nocc
  psi : ∀ r < I.P, ∀ j < Groups.bandCount I.Ns I.P r,
    I.psi r j = Psi (Groups.bandStart I.Ns I.P r + j)

/-- What band `b` adds to `Xi[a]` at point `k`. -/
noncomputable def Inp.G (Psi : ℕ → Col) (k a b : ℕ) : ℝ :=
  if tol < I.occ b then
    -(I.occ b * Psi b k * I.pois (fun k => Psi b k * Psi a k) k / I.dV) else 0

/-- What the bands of process `q` add to `Xi[a]`. -/
noncomputable def Inp.S (Psi : ℕ → Col) (k a q : ℕ) : ℝ :=
  ∑ j ∈ range (I.nb q), I.G Psi k a (I.start q + j)

variable {I} {Psi : ℕ → Col}

theorem Inp.Ok.psi' (h : I.Ok Psi) (r : ℕ) (hr : r < I.P) (j : ℕ) (hj : j < I.nb r) :
    I.psi r j = Psi (I.start r + j) := h.psi r hr j hj

theorem sub_ok {a : ℕ} (ha : a < I.Nocc) (X : ℕ → Col) (o : ℝ) (u sol : Col) :
    ∃ X', I.sub X a o u sol = some X' ∧
      ∀ c k, X' c k = X c k + if c = a then -(o * u k * sol k / I.dV) else 0 := by
  refine ⟨_, if_pos ha, fun c k => ?_⟩
  by_cases h : c = a
  · subst h; simp; ring
  · simp [h]

theorem inside (h : I.Ok Psi) {r j : ℕ} (hr : r < I.P) (hj : j < I.nb r) : I.start r + j < I.Ns :=
  (cover I h.Ns h.P).inside r _ hr (by omega) (by omega)

theorem sum_pick (n s a : ℕ) (f : ℕ → ℝ) :
    ∑ i ∈ range n, (if a = s + i then f i else 0) = if s ≤ a ∧ a < s + n then f (a - s) else 0 := by
  by_cases h : s ≤ a ∧ a < s + n
  · rw [if_pos h, sum_eq_single (a - s)]
    · rw [if_pos (by omega)]
    · intro i _ hi; rw [if_neg (by omega)]
    · intro hn; exact absurd (mem_range.2 (by omega)) hn
  · rw [if_neg h]
    refine sum_eq_zero fun i hi => ?_
    have := mem_range.1 hi
    rw [if_neg (by omega)]

/-- The pass over the local pairs. -/
theorem halfLocal_ok (h : I.Ok Psi) {r : ℕ} (hr : r < I.P) (X : ℕ → Col) :
    ∃ X', I.halfLocal r X = some X' ∧ ∀ a < I.Nocc, ∀ k,
      X' a k = X a k + if I.Owns r a then I.S Psi k a r else 0 := by
  unfold Inp.halfLocal
  by_cases h0 : I.nbM r = 0
  · rw [if_pos h0]
    refine ⟨X, rfl, fun a ha k => ?_⟩
    rw [if_neg, add_zero]
    intro ho
    have := (lt_nbM I (r := r) (i := a - I.start r)).2 ⟨by unfold Inp.Owns at ho; omega,
      by unfold Inp.Owns at ho; omega⟩
    omega
  rw [if_neg h0, batches_eq I h.batch]
  have hmem : ∀ p ∈ I.localPairs r, p.2 < I.nb r ∧ p.2 ≤ p.1 ∧ p.1 < I.nbM r ∧
      ¬ I.occ (p.2 + I.start r) < tol := by
    intro p hp
    unfold Inp.localPairs at hp
    obtain ⟨j, hj, hp⟩ := List.mem_flatMap.1 hp
    split_ifs at hp with hlt
    · simp at hp
    · obtain ⟨i, hi, rfl⟩ := List.mem_map.1 hp
      have := List.mem_range'_1.1 hi
      exact ⟨List.mem_range.1 hj, this.1, by simp only; omega, hlt⟩
  obtain ⟨X', hX', hv⟩ := foldlM_add (I.localPairs r) (fun Xi p =>
      (I.sub Xi (I.start r + p.1) (I.occ (p.2 + I.start r)) (I.psi r p.2)
        (I.pois fun k => I.psi r p.2 k * I.psi r p.1 k)).bind fun Xi =>
        if p.1 ≠ p.2 ∧ tol < I.occ (p.1 + I.start r) then
          I.sub Xi (I.start r + p.2) (I.occ (p.1 + I.start r)) (I.psi r p.1)
            (I.pois fun k => I.psi r p.2 k * I.psi r p.1 k) else some Xi)
      (fun p a k => (if a = I.start r + p.1 then I.G Psi k a (I.start r + p.2) else 0) +
        if p.1 ≠ p.2 ∧ a = I.start r + p.2 then I.G Psi k a (I.start r + p.1) else 0)
      (by
        rintro ⟨i, j⟩ hp Y
        obtain ⟨hj, hji, hi, hocc⟩ := hmem _ hp
        dsimp only at hj hji hi hocc ⊢
        have hi' := (lt_nbM I).1 hi
        have hoj : tol < I.occ (I.start r + j) := by
          rw [add_comm] at hocc
          exact lt_of_le_of_ne (not_lt.1 hocc) (h.ne _ (inside h hr hj)).symm
        obtain ⟨Y1, hY1, e1⟩ := sub_ok (I := I) (a := I.start r + i) hi'.2 Y (I.occ (j + I.start r))
          (I.psi r j) (I.pois fun k => I.psi r j k * I.psi r i k)
        rw [hY1, Option.bind_some]
        by_cases hc : i ≠ j ∧ tol < I.occ (i + I.start r)
        · rw [if_pos hc]
          obtain ⟨Y2, hY2, e2⟩ := sub_ok (I := I) (a := I.start r + j)
            (by omega) Y1 (I.occ (i + I.start r))
            (I.psi r i) (I.pois fun k => I.psi r j k * I.psi r i k)
          refine ⟨Y2, hY2, fun a k => ?_⟩
          rw [e2, e1, h.psi' r hr i hi'.1, h.psi' r hr j hj, add_assoc]
          congr 2
          · by_cases hai : a = I.start r + i
            · rw [if_pos hai, if_pos hai, hai]
              unfold Inp.G; rw [if_pos hoj, add_comm j]
            · rw [if_neg hai, if_neg hai]
          · by_cases haj : a = I.start r + j
            · rw [if_pos haj, if_pos ⟨hc.1, haj⟩, haj]
              unfold Inp.G; rw [add_comm (I.start r) i, if_pos hc.2]
              simp only [mul_comm]
            · rw [if_neg haj, if_neg (by tauto)]
        · rw [if_neg hc]
          refine ⟨Y1, rfl, fun a k => ?_⟩
          rw [e1, h.psi' r hr i hi'.1, h.psi' r hr j hj]
          congr 1
          rw [show (if i ≠ j ∧ a = I.start r + j then I.G Psi k a (I.start r + i) else 0) = 0 from ?_,
            add_zero]
          · by_cases hai : a = I.start r + i
            · rw [if_pos hai, if_pos hai, hai]
              unfold Inp.G; rw [if_pos hoj, add_comm j]
            · rw [if_neg hai, if_neg hai]
          · split_ifs with hx
            · unfold Inp.G
              rw [if_neg]
              rw [add_comm]; tauto
            · rfl) X
  refine ⟨X', hX', fun a ha k => ?_⟩
  rw [hv]
  congr 1
  unfold Inp.localPairs
  rw [sum_flatMap, sum_range_list]
  have e : ∀ j ∈ range (I.nb r),
      (((if I.occ (j + I.start r) < tol then [] else
        (List.range' j (I.nbM r - j)).map fun i => (i, j)) : List (ℕ × ℕ)).map fun p =>
        (if a = I.start r + p.1 then I.G Psi k a (I.start r + p.2) else 0) +
        if p.1 ≠ p.2 ∧ a = I.start r + p.2 then I.G Psi k a (I.start r + p.1) else 0).sum =
      (if I.start r + j ≤ a ∧ a < I.start r + I.nbM r then I.G Psi k a (I.start r + j) else 0) +
      (if a = I.start r + j then
        ∑ i ∈ range (I.nb r), if j < i then I.G Psi k a (I.start r + i) else 0 else 0) := by
    intro j hj
    have hj := mem_range.1 hj
    by_cases hlt : I.occ (j + I.start r) < tol
    · rw [if_pos hlt]
      rw [add_comm] at hlt
      have hz : ∀ i, j ≤ i → i < I.nb r → I.G Psi k a (I.start r + i) = 0 := by
        intro i hji hi
        unfold Inp.G
        rw [if_neg]
        exact not_lt.2 (le_trans (h.desc _ _ (by omega) (inside h hr hi)) hlt.le)
      rw [hz j le_rfl hj]
      simp only [List.map_nil, List.sum_nil, ite_self, zero_add]
      symm
      split_ifs
      · refine sum_eq_zero fun i hi => ?_
        split_ifs with hji
        · exact hz i hji.le (mem_range.1 hi)
        · rfl
      · rfl
    · rw [if_neg hlt, List.map_map, sum_range'_list]
      simp only [Function.comp]
      rw [sum_add_distrib]
      congr 1
      · have := sum_pick (I.nbM r - j) (I.start r + j) a (fun _ => I.G Psi k a (I.start r + j))
        simp only [add_assoc] at this ⊢
        rw [this]
        by_cases hc : I.start r + j ≤ a ∧ a < I.start r + I.nbM r
        · rw [if_pos hc, if_pos (by omega)]
        · rw [if_neg hc, if_neg (by omega)]
      · by_cases haj : a = I.start r + j
        · rw [if_pos haj]
          have hz : ∀ i, I.nbM r ≤ i → i < I.nb r → I.G Psi k a (I.start r + i) = 0 := by
            intro i hi hi'
            unfold Inp.G
            rw [if_neg]
            intro hc
            have := h.room _ (inside h hr hi') hc
            have := (lt_nbM I (r := r) (i := i)).2 ⟨hi', this⟩
            omega
          have hjM : j < I.nbM r := (lt_nbM I).2 ⟨hj, by omega⟩
          have hb := nbM_le I r
          obtain ⟨m, hm⟩ : ∃ m, I.nb r = j + m := ⟨I.nb r - j, by omega⟩
          rw [hm, sum_range_add]
          rw [sum_eq_zero (s := range j) (fun i hi => by
            rw [if_neg]; have := mem_range.1 hi; omega), zero_add]
          obtain ⟨m', hm'⟩ : ∃ m', m = (I.nbM r - j) + m' := ⟨m - (I.nbM r - j), by omega⟩
          rw [hm', sum_range_add]
          rw [sum_eq_zero (s := range m') (fun i hi => by
            have := mem_range.1 hi
            rw [hz (j + (I.nbM r - j + i)) (by omega) (by omega), ite_self]), add_zero]
          refine sum_congr rfl fun i _ => ?_
          by_cases hi0 : i = 0
          · subst hi0; simp
          · have h1 : j + i ≠ j ∧ a = I.start r + j := ⟨by omega, haj⟩
            rw [if_pos h1, if_pos (by omega)]
        · rw [if_neg haj]
          refine sum_eq_zero fun i _ => ?_
          rw [if_neg (by tauto)]
  rw [sum_congr rfl e, sum_add_distrib, sum_pick]
  by_cases ho : I.Owns r a
  · rw [if_pos ho]
    have ho' := ho
    unfold Inp.Owns at ho'
    have hM : a - I.start r < I.nbM r := (lt_nbM I).2 ⟨by omega, by omega⟩
    rw [if_pos ho', ← sum_add_distrib]
    unfold Inp.S
    refine sum_congr rfl fun j hj => ?_
    by_cases hja : I.start r + j ≤ a
    · rw [if_pos (by omega), if_neg (by omega), add_zero]
    · rw [if_neg (by omega), if_pos (by omega), zero_add]
  · rw [if_neg ho, if_neg (by unfold Inp.Owns at ho; exact ho), add_zero]
    refine sum_eq_zero fun j hj => ?_
    rw [if_neg]
    unfold Inp.Owns at ho
    have := nbM_le I r
    omega

/-- The pass over the pairs with the orbitals of another process. -/
theorem allPair_ok (h : I.Ok Psi) {r s : ℕ} (hr : r < I.P) (sto : ℕ → Col)
    (hsto : ∀ j < I.nb (I.source r s), sto j = I.psi (I.source r s) j) (X : ℕ → Col) :
    ∃ X', I.allPair r s sto X = some X' ∧ ∀ a < I.Nocc, ∀ k,
      X' a k = X a k + if I.Skip r s then 0 else
        (if I.Owns r a then I.S Psi k a (I.source r s) else 0) +
        (if I.Owns (I.source r s) a then I.S Psi k a r else 0) := by
  have hq := source_lt I h.P r s
  unfold Inp.allPair
  by_cases hskip : I.Skip r s
  · simp only [if_pos hskip]
    rw [if_pos (by exact hskip)]
    exact ⟨X, rfl, by simp⟩
  simp only [if_neg hskip]
  rw [if_neg (by exact hskip)]
  generalize I.source r s = q at *
  have hz : ∀ a k i, I.nbM r ≤ i → i < I.nb r → I.G Psi k a (I.start r + i) = 0 := by
    intro a k i hi hi'
    unfold Inp.G
    rw [if_neg]
    intro hc
    have := h.room _ (inside h hr hi') hc
    have := (lt_nbM I (r := r) (i := i)).2 ⟨hi', this⟩
    omega
  have hSM : ∀ a k, I.S Psi k a r = ∑ i ∈ range (I.nbM r), I.G Psi k a (I.start r + i) := by
    intro a k
    unfold Inp.S
    have hb := nbM_le I r
    obtain ⟨m, hm⟩ : ∃ m, I.nb r = I.nbM r + m := ⟨I.nb r - I.nbM r, by omega⟩
    rw [hm, sum_range_add, sum_eq_zero (s := range m), add_zero]
    intro i hi
    have := mem_range.1 hi
    exact hz a k _ (by omega) (by omega)
  by_cases h0 : I.nbM r = 0
  · rw [if_pos h0]
    refine ⟨X, rfl, fun a ha k => ?_⟩
    rw [hSM, h0]
    rw [if_neg, sum_range_zero, ite_self, add_zero, add_zero]
    intro ho
    have := (lt_nbM I (r := r) (i := a - I.start r)).2 ⟨by unfold Inp.Owns at ho; omega,
      by unfold Inp.Owns at ho; omega⟩
    omega
  rw [if_neg h0, batches_eq I h.batch]
  have hmem : ∀ p ∈ I.remotePairs r q, p.2 < I.nb q ∧ p.1 < I.nbM r ∧
      ¬ (I.occ (p.2 + I.startSrc q) < tol ∧
        (I.occ (p.1 + I.start r) < tol ∨ I.Nocc ≤ p.2 + I.startSrc q)) := by
    intro p hp
    unfold Inp.remotePairs at hp
    obtain ⟨j, hj, hp⟩ := List.mem_flatMap.1 hp
    obtain ⟨i, hi, hp⟩ := List.mem_flatMap.1 hp
    dsimp only at hp
    split_ifs at hp with hc
    · simp at hp
    · simp only [List.mem_singleton] at hp
      subst hp
      exact ⟨List.mem_range.1 hj, List.mem_range.1 hi, hc⟩
  obtain ⟨X', hX', hv⟩ := foldlM_add (I.remotePairs r q) (fun Xi p =>
      (if tol < I.occ (p.2 + I.startSrc q) then
          I.sub Xi (I.start r + p.1) (I.occ (p.2 + I.startSrc q)) (sto p.2)
            (I.pois fun k => sto p.2 k * I.psi r p.1 k) else some Xi).bind fun Xi =>
        if tol < I.occ (p.1 + I.start r) then
          I.sub Xi (I.startSrc q + p.2) (I.occ (p.1 + I.start r)) (I.psi r p.1)
            (I.pois fun k => sto p.2 k * I.psi r p.1 k) else some Xi)
      (fun p a k => (if a = I.start r + p.1 then I.G Psi k a (I.start q + p.2) else 0) +
        if a = I.start q + p.2 then I.G Psi k a (I.start r + p.1) else 0)
      (by
        rintro ⟨i, j⟩ hp Y
        obtain ⟨hj, hi, hocc⟩ := hmem _ hp
        dsimp only at hj hi hocc ⊢
        rw [startSrc_eq I (by omega)] at hocc ⊢
        have hi' := (lt_nbM I).1 hi
        have hin := inside h hq hj
        have hps : ∀ k, sto j k = Psi (I.start q + j) k := fun k => by
          rw [hsto j hj, h.psi' q hq j hj]
        have hpi : ∀ k, I.psi r i k = Psi (I.start r + i) k := fun k => by
          exact congrFun (h.psi' r hr i hi'.1) k
        rw [add_comm j, add_comm i] at *
        have s1 : ∃ Y1, (if tol < I.occ (I.start q + j) then
            I.sub Y (I.start r + i) (I.occ (I.start q + j)) (sto j)
              (I.pois fun k => sto j k * I.psi r i k) else some Y) = some Y1 ∧ ∀ a k, Y1 a k = Y a k +
              (if a = I.start r + i then I.G Psi k a (I.start q + j) else 0) := by
          by_cases ho : tol < I.occ (I.start q + j)
          · rw [if_pos ho]
            obtain ⟨Y1, hY1, e1⟩ := sub_ok (I := I) (a := I.start r + i) hi'.2 Y (I.occ (I.start q + j))
              (sto j) (I.pois fun k => sto j k * I.psi r i k)
            refine ⟨Y1, hY1, fun a k => ?_⟩
            rw [e1]
            congr 1
            by_cases hai : a = I.start r + i
            · rw [if_pos hai, if_pos hai, hai]
              unfold Inp.G; rw [if_pos ho]; simp only [hps, hpi]
            · rw [if_neg hai, if_neg hai]
          · rw [if_neg ho]
            refine ⟨Y, rfl, fun a k => ?_⟩
            unfold Inp.G; simp [ho]
        obtain ⟨Y1, hY1, e1⟩ := s1
        rw [hY1, Option.bind_some]
        by_cases ho : tol < I.occ (I.start r + i)
        · rw [if_pos ho]
          have hlt : I.start q + j < I.Nocc := by
            by_contra hc
            apply hocc
            refine ⟨lt_of_le_of_ne (not_lt.1 fun hx => hc (h.room _ hin hx)) (h.ne _ hin), Or.inr (by omega)⟩
          obtain ⟨Y2, hY2, e2⟩ := sub_ok (I := I) (a := I.start q + j) hlt Y1 (I.occ (I.start r + i))
              (I.psi r i) (I.pois fun k => sto j k * I.psi r i k)
          refine ⟨Y2, hY2, fun a k => ?_⟩
          rw [e2, e1, add_assoc]
          congr 2
          by_cases haj : a = I.start q + j
          · rw [if_pos haj, if_pos haj, haj]
            unfold Inp.G; rw [if_pos ho]; simp only [hps, hpi]
            simp only [mul_comm]
          · rw [if_neg haj, if_neg haj]
        · rw [if_neg ho]
          refine ⟨Y1, rfl, fun a k => ?_⟩
          rw [e1]
          unfold Inp.G; simp [ho]) X
  refine ⟨X', hX', fun a ha k => ?_⟩
  rw [hv]
  congr 1
  unfold Inp.remotePairs
  rw [sum_flatMap, sum_range_list]
  have e : ∀ j ∈ range (I.nb q),
      (((List.range (I.nbM r)).flatMap fun i =>
          if I.occ (j + I.startSrc q) < tol ∧
            (I.occ (i + I.start r) < tol ∨ I.Nocc ≤ j + I.startSrc q) then [] else [(i, j)]).map
        fun p => (if a = I.start r + p.1 then I.G Psi k a (I.start q + p.2) else 0) +
        if a = I.start q + p.2 then I.G Psi k a (I.start r + p.1) else 0).sum =
      (if I.start r ≤ a ∧ a < I.start r + I.nbM r then I.G Psi k a (I.start q + j) else 0) +
      (if a = I.start q + j then I.S Psi k a r else 0) := by
    intro j hj
    have hj := mem_range.1 hj
    rw [startSrc_eq I (by omega), sum_flatMap, sum_range_list, hSM]
    have e' : ∀ i ∈ range (I.nbM r), ((if I.occ (j + I.start q) < tol ∧
            (I.occ (i + I.start r) < tol ∨ I.Nocc ≤ j + I.start q) then [] else [(i, j)]).map
        fun p : ℕ × ℕ => (if a = I.start r + p.1 then I.G Psi k a (I.start q + p.2) else 0) +
        if a = I.start q + p.2 then I.G Psi k a (I.start r + p.1) else 0).sum =
        (if a = I.start r + i then I.G Psi k a (I.start q + j) else 0) +
        if a = I.start q + j then I.G Psi k a (I.start r + i) else 0 := by
      intro i hi
      by_cases hc : I.occ (j + I.start q) < tol ∧
            (I.occ (i + I.start r) < tol ∨ I.Nocc ≤ j + I.start q)
      · rw [if_pos hc]
        rw [add_comm j, add_comm i] at hc
        have g1 : I.G Psi k a (I.start q + j) = 0 := by
          unfold Inp.G; rw [if_neg (not_lt.2 hc.1.le)]
        rw [g1, ite_self, zero_add]
        simp only [List.map_nil, List.sum_nil]
        split_ifs with haj
        · rcases hc.2 with h1 | h1
          · unfold Inp.G; rw [if_neg (not_lt.2 h1.le)]
          · omega
        · rfl
      · rw [if_neg hc]; simp
    rw [sum_congr rfl e', sum_add_distrib, sum_pick]
    congr 1
    split_ifs with haj
    · rfl
    · simp
  rw [sum_congr rfl e, sum_add_distrib, sum_pick]
  congr 1
  by_cases ho : I.Owns r a
  · have hM := (lt_nbM I (r := r) (i := a - I.start r)).2 ⟨by unfold Inp.Owns at ho; omega,
      by unfold Inp.Owns at ho; omega⟩
    rw [if_pos ho]
    unfold Inp.Owns at ho
    unfold Inp.S
    exact sum_congr rfl fun j _ => if_pos (by omega)
  · rw [if_neg ho]
    refine sum_eq_zero fun j _ => if_neg ?_
    unfold Inp.Owns at ho
    have := nbM_le I r
    omega

/-! ## The loop -/

theorem left_source {P r n : ℕ} (hr : r < P) (hn : n + 1 ≤ P) :
    ((r + P - 1) % P + P - n) % P = (r + P - (n + 1)) % P := by
  rw [mod_cases (n := r + P - 1) (by omega)]
  split_ifs with h
  · rw [mod_cases (by omega), mod_cases (by omega)]
    split_ifs <;> omega
  · rw [mod_cases (by omega), mod_cases (by omega)]
    split_ifs <;> omega

theorem transfer_ok (h : I.Ok Psi) {n : ℕ} (hn : n + 1 ≤ I.P) (send recv : ℕ → ℕ → Col)
    (hs : ∀ r < I.P, ∀ j < I.nb (I.source r n), send r j = I.psi (I.source r n) j) :
    ∃ b, I.transfer n send recv = some b ∧
      ∀ r < I.P, ∀ j < I.nb (I.source r (n + 1)), b r j = I.psi (I.source r (n + 1)) j := by
  have hl : ∀ r, (r + I.P - 1) % I.P < I.P := fun r => Nat.mod_lt _ h.P
  refine ⟨_, if_pos ?_, fun r hr j hj => ?_⟩
  · intro r hr
    dsimp only
    rw [left_source hr hn, Nat.sub_add_eq]
  · unfold Inp.source at hs hj ⊢
    dsimp only
    have hj' : j < I.nb (((r + I.P - 1) % I.P + I.P - n) % I.P) := by rw [left_source hr hn]; exact hj
    rw [if_pos hj', hs _ (hl r) j hj', left_source hr hn]

theorem source_zero {r : ℕ} (hr : r < I.P) : I.source r 0 = r := by
  unfold Inp.source; simp [Nat.mod_eq_of_lt hr]

/-- The state after `n + 1` passes. -/
theorem loop_ok (h : I.Ok Psi) (n : ℕ) (hn : n ≤ I.reps) :
    ∃ s, (List.range (n + 1)).foldlM I.rotation ⟨I.junk, I.junk, fun _ _ _ => 0⟩ = some s ∧
      (n < I.reps → ∀ r < I.P, ∀ j < I.nb (I.source r (n + 1)),
        (if (n + 1) % 2 = 1 then s.st1 else s.st2) r j = I.psi (I.source r (n + 1)) j) ∧
      ∀ r < I.P, ∀ a < I.Nocc, ∀ k, s.xi r a k = (if I.Owns r a then I.S Psi k a r else 0) +
        ∑ t ∈ range n, (if I.Skip r (t + 1) then 0 else
          (if I.Owns r a then I.S Psi k a (I.source r (t + 1)) else 0) +
          (if I.Owns (I.source r (t + 1)) a then I.S Psi k a r else 0)) := by
  have hreps := reps_eq I h.P
  have hP := h.P
  induction n with
  | zero =>
    obtain ⟨X, hX, hX'⟩ := each_ok I (fun r => I.halfLocal r (fun _ _ => 0))
      (fun r x => ∀ a < I.Nocc, ∀ k, x a k = if I.Owns r a then I.S Psi k a r else 0)
      (fun r hr => by
        obtain ⟨x, hx, e⟩ := halfLocal_ok h hr (fun _ _ => 0)
        exact ⟨x, hx, fun a ha k => by rw [e a ha k, zero_add]⟩)
    have hst : ∃ b, (if 0 < I.reps then I.transfer 0 I.psi I.junk else some I.junk) = some b ∧
        (0 < I.reps → ∀ r < I.P, ∀ j < I.nb (I.source r 1), b r j = I.psi (I.source r 1) j) := by
      by_cases h0 : 0 < I.reps
      · rw [if_pos h0]
        obtain ⟨b, hb, hb'⟩ := transfer_ok h (n := 0) (by omega) I.psi I.junk
          (fun r hr j _ => by rw [source_zero hr])
        exact ⟨b, hb, fun _ => hb'⟩
      · rw [if_neg h0]
        exact ⟨_, rfl, fun hc => absurd hc h0⟩
    obtain ⟨b, hb, hb'⟩ := hst
    refine ⟨⟨b, I.junk, X⟩, ?_, fun h0 => by simpa using hb' h0, fun r hr a ha k => ?_⟩
    · show (I.rotation ⟨I.junk, I.junk, fun _ _ _ => 0⟩ 0).bind some = _
      unfold Inp.rotation
      rw [if_pos rfl, hb, Option.bind_some, hX]; rfl
    · show X r a k = _
      rw [hX' r hr a ha k]; simp
  | succ n ih =>
    obtain ⟨s, hs, hbuf, hxi⟩ := ih (by omega)
    have hbuf := hbuf (by omega)
    rw [List.range_succ, List.foldlM_append, hs]
    simp only [Option.bind_eq_bind, Option.bind_some, List.foldlM_cons, List.foldlM_nil]
    unfold Inp.rotation
    rw [if_neg (by omega)]
    generalize hB : (if (n + 1) % 2 = 1 then s.st1 else s.st2) = buf at *
    generalize hO : (if (n + 1) % 2 = 1 then s.st2 else s.st1) = other at *
    obtain ⟨X, hX, hX'⟩ := each_ok I (fun r => I.allPair r (n + 1) (buf r) (s.xi r))
      (fun r x => ∀ a < I.Nocc, ∀ k, x a k = s.xi r a k + if I.Skip r (n + 1) then 0 else
        (if I.Owns r a then I.S Psi k a (I.source r (n + 1)) else 0) +
        (if I.Owns (I.source r (n + 1)) a then I.S Psi k a r else 0))
      (fun r hr => allPair_ok h hr (buf r) (hbuf r hr) (s.xi r))
    have hst : ∃ b, (if n + 1 ≠ I.reps then I.transfer (n + 1) buf other else some other) = some b ∧
        (n + 1 < I.reps → ∀ r < I.P, ∀ j < I.nb (I.source r (n + 1 + 1)),
          b r j = I.psi (I.source r (n + 1 + 1)) j) := by
      by_cases h0 : n + 1 ≠ I.reps
      · rw [if_pos h0]
        obtain ⟨b, hb, hb'⟩ := transfer_ok h (n := n + 1) (by omega) buf other hbuf
        exact ⟨b, hb, fun _ => hb'⟩
      · rw [if_neg h0]
        exact ⟨_, rfl, fun hc => absurd hc (by omega)⟩
    obtain ⟨b, hb, hb'⟩ := hst
    refine ⟨if (n + 1) % 2 = 1 then ⟨buf, b, X⟩ else ⟨b, buf, X⟩, ?_, fun h0 => ?_, fun r hr a ha k => ?_⟩
    · dsimp only
      rw [hb, Option.bind_some, hX]; rfl
    · have := hb' h0
      by_cases hpar : (n + 1) % 2 = 1
      · rw [if_pos hpar, if_neg (by omega)]; exact this
      · rw [if_neg hpar, if_pos (by omega)]; exact this
    · have hx : (if (n + 1) % 2 = 1 then (⟨buf, b, X⟩ : St) else ⟨b, buf, X⟩).xi = X := by
        split_ifs <;> rfl
      rw [hx, hX' r hr a ha k, hxi r hr a ha k, sum_range_succ, add_assoc]

/-- `Xi` after the sum over the processes. -/
theorem solvingForXi_ok (h : I.Ok Psi) :
    ∃ Xi, I.solvingForXi = some Xi ∧
      ∀ a < I.Nocc, ∀ k, Xi a k = ∑ b ∈ range I.Ns, I.G Psi k a b := by
  obtain ⟨s, hs, -, hxi⟩ := loop_ok h I.reps le_rfl
  unfold Inp.solvingForXi
  rw [hs]
  refine ⟨_, rfl, fun a ha k => ?_⟩
  rw [sum_range_list]
  obtain ⟨ra, hra, ho, hu⟩ := owner I h.Ns h.P (a := a) (by have := h.Nocc; omega)
  have hiff : ∀ q < I.P, (I.Owns q a ↔ q = ra) := fun q hq =>
    ⟨hu q hq, fun hx => hx ▸ ho⟩
  rw [sum_congr rfl (fun r hr => hxi r (mem_range.1 hr) a ha k), sum_add_distrib]
  have e1 : ∑ r ∈ range I.P, (if I.Owns r a then I.S Psi k a r else 0) = I.S Psi k a ra := by
    rw [sum_eq_single ra]
    · rw [if_pos ho]
    · intro q hq hne
      rw [if_neg fun hx => hne (hu q (mem_range.1 hq) hx)]
    · intro hx; exact absurd (mem_range.2 hra) hx
  have e2 : ∀ r ∈ range I.P, ∀ t ∈ range I.reps, (if I.Skip r (t + 1) then 0 else
          (if I.Owns r a then I.S Psi k a (I.source r (t + 1)) else 0) +
          (if I.Owns (I.source r (t + 1)) a then I.S Psi k a r else 0)) =
        (if I.Skip r (t + 1) then 0 else
          (if r = ra then I.S Psi k a (I.source r (t + 1)) else 0) +
          (if I.source r (t + 1) = ra then I.S Psi k a r else 0)) := by
    intro r hr t _
    simp only [hiff r (mem_range.1 hr), hiff _ (source_lt I h.P r (t + 1))]
  rw [e1, sum_congr rfl fun r hr => sum_congr rfl (e2 r hr),
    meet_once I h.P (fun q => I.S Psi k a q) hra]
  rw [← Density.sum_cover (cover I h.Ns h.P) (fun b => I.G Psi k a b)]
  have e3 : I.S Psi k a ra = ∑ q ∈ range I.P, if q = ra then I.S Psi k a q else 0 := by
    rw [sum_ite_eq']; simp [hra]
  rw [e3, ← sum_add_distrib]
  refine sum_congr rfl fun q _ => ?_
  by_cases hqr : q = ra
  · rw [if_pos hqr, if_pos hqr, add_zero]; rfl
  · rw [if_neg hqr, if_neg hqr, zero_add]; rfl

end Sparc.Ace

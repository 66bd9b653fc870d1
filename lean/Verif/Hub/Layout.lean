import Verif.Hub.Model

/-! # DFT+U: displacements of the inner products and of the occupation matrices -/

namespace Sparc.Hub

open Pres Loop

variable {𝕜 : Type} [RCLike 𝕜]

/-- The type of every atom, in order. -/
def uatoms (Ts : List UTyp) : List UTyp := Ts.flatMap fun T => List.replicate T.n T

/-- Number of entries of the atoms with U among the first `a`. -/
def upto (sz : UTyp → ℕ) (Ts : List UTyp) (a : ℕ) : ℕ :=
  (((uatoms Ts).take a).map fun T => if T.flag = true then sz T else 0).sum

theorem uatoms_length (Ts : List UTyp) : (uatoms Ts).length = natoms Ts := by
  unfold uatoms natoms
  simp [List.length_flatMap]

theorem uatoms_snoc (Ts : List UTyp) (T : UTyp) :
    uatoms (Ts ++ [T]) = uatoms Ts ++ List.replicate T.n T := by
  simp [uatoms]

theorem upto_snoc_le (sz : UTyp → ℕ) (Ts : List UTyp) (T : UTyp) {a : ℕ} (h : a ≤ natoms Ts) :
    upto sz (Ts ++ [T]) a = upto sz Ts a := by
  unfold upto
  rw [uatoms_snoc, List.take_append_of_le_length (by rw [uatoms_length]; exact h)]

theorem upto_snoc_add (sz : UTyp → ℕ) (Ts : List UTyp) (T : UTyp) {i : ℕ} (h : i ≤ T.n) :
    upto sz (Ts ++ [T]) (natoms Ts + i)
      = upto sz Ts (natoms Ts) + i * (if T.flag = true then sz T else 0) := by
  unfold upto
  rw [uatoms_snoc, ← uatoms_length, List.take_length_add_append, List.take_replicate,
    List.map_append, List.sum_append, List.map_replicate, List.sum_replicate, min_eq_left h,
    List.take_length, smul_eq_mul]

theorem natoms_snoc (Ts : List UTyp) (T : UTyp) : natoms (Ts ++ [T]) = natoms Ts + T.n := by
  simp [natoms]

/-- The fold over the types in `displ`. -/
def dstep (sz : UTyp → ℕ) (st : ℕ × ℕ × ℕ × (ℕ → ℤ)) (T : UTyp) : ℕ × ℕ × ℕ × (ℕ → ℤ) :=
  if T.flag = false then
      let a := st.1 + T.n
      (a, if st.2.2.1 = 0 then a else st.2.1, st.2.2)
    else
      let arr := if st.2.2.1 = 0 then Function.update st.2.2.2 st.1 0 else st.2.2.2
      let id := if st.2.2.1 = 0 then st.2.2.1 + 1 else st.2.2.1
      let r := (List.range T.n).foldl (fun (r : ℕ × (ℕ → ℤ)) iat =>
        let arr := if iat = 0 ∧ id ≠ 0 then Function.update r.2 r.1 (r.2 st.2.1) else r.2
        (r.1 + 1, Function.update arr (r.1 + 1) (arr r.1 + sz T))) (st.1, arr)
      (r.1, r.1, id, r.2)

/-- The atoms of one type with U: `z` is the size, `b` the entry the first one is copied from. -/
theorem inner (z id b ai : ℕ) (hid : id ≠ 0) (S : ℤ) (arr : ℕ → ℤ) (hS : arr b = S) (j : ℕ) :
    let r := (List.range j).foldl (fun (r : ℕ × (ℕ → ℤ)) iat =>
        let arr := if iat = 0 ∧ id ≠ 0 then Function.update r.2 r.1 (r.2 b) else r.2
        (r.1 + 1, Function.update arr (r.1 + 1) (arr r.1 + (z : ℤ)))) (ai, arr)
    r.1 = ai + j ∧ (0 < j → ∀ i ≤ j, r.2 (ai + i) = S + i * z)
      ∧ ∀ q, (q < ai ∨ ai + j < q) → r.2 q = arr q := by
  induction j with
  | zero =>
    refine ⟨rfl, fun h => absurd h (by omega), fun q _ => rfl⟩
  | succ j ih =>
    dsimp only at ih ⊢
    rw [List.range_succ, List.foldl_append, List.foldl_cons, List.foldl_nil]
    obtain ⟨h1, h2, h3⟩ := ih
    refine ⟨by rw [h1]; ring, fun _ i hi => ?_, fun q hq => ?_⟩
    · by_cases j0 : j = 0
      · subst j0
        simp only [List.range_zero, List.foldl_nil, hid, ne_eq, not_false_eq_true, and_self, if_true]
        have : i = 0 ∨ i = 1 := by omega
        rcases this with rfl | rfl
        · rw [Function.update_of_ne (by omega)]
          simp [hS]
        · simp [hS]
      · have h2' := h2 (by omega)
        rw [if_neg (by tauto)]
        dsimp only
        by_cases e : i = j + 1
        · subst e
          rw [h1, ← add_assoc, Function.update_self, h2' j le_rfl]
          push_cast; ring
        · rw [h1, Function.update_of_ne (by omega), h2' i (by omega)]
    · by_cases j0 : j = 0
      · subst j0
        simp only [List.range_zero, List.foldl_nil, hid, ne_eq, not_false_eq_true, and_self, if_true]
        rw [Function.update_of_ne (by omega), Function.update_of_ne (by omega)]
      · rw [if_neg (by tauto), h1]
        dsimp only
        rw [Function.update_of_ne (by omega), h3 q (by omega)]

/-- What holds after the types `Ts` have been processed. -/
structure Inv (sz : UTyp → ℕ) (Ts : List UTyp) (st : ℕ × ℕ × ℕ × (ℕ → ℤ)) : Prop where
  idx : st.1 = natoms Ts
  hnone : st.2.2.1 = 0 → st.2.1 = natoms Ts ∧ (∀ q, st.2.2.2 q = -1) ∧ ∀ T ∈ Ts, T.flag = false
  hsome : st.2.2.1 ≠ 0 → st.2.1 ≤ natoms Ts ∧ st.2.2.2 st.2.1 = upto sz Ts (natoms Ts)
    ∧ upto sz Ts st.2.1 = upto sz Ts (natoms Ts) ∧ (∀ q, st.2.1 < q → st.2.2.2 q = -1)
  vals : ∀ a T, (uatoms Ts)[a]? = some T → T.flag = true →
    st.2.2.2 a = upto sz Ts a ∧ st.2.2.2 (a + 1) = upto sz Ts (a + 1)
  nonneg : ∀ q, -1 ≤ st.2.2.2 q
  act : ∀ T ∈ Ts, T.flag = true → st.2.2.1 ≠ 0

theorem upto_unflagged (sz : UTyp → ℕ) (Ts : List UTyp) (h : ∀ T ∈ Ts, T.flag = false) (a : ℕ) :
    upto sz Ts a = 0 := by
  unfold upto
  refine List.sum_eq_zero fun x hx => ?_
  obtain ⟨T, hT, rfl⟩ := List.mem_map.1 hx
  have := List.mem_of_mem_take hT
  unfold uatoms at this
  obtain ⟨T', hT', hr⟩ := List.mem_flatMap.1 this
  rw [List.eq_of_mem_replicate hr, if_neg (by rw [h T' hT']; decide)]

theorem inv_step (sz : UTyp → ℕ) (Ts : List UTyp) (T : UTyp) (st : ℕ × ℕ × ℕ × (ℕ → ℤ))
    (hn : 0 < T.n) (h : Inv sz Ts st) : Inv sz (Ts ++ [T]) (dstep sz st T) := by
  obtain ⟨ai, ai2, id, arr⟩ := st
  obtain ⟨idx, hno, hso, hva, hnn, hact⟩ := h
  dsimp only at idx hno hso hva hnn hact
  subst idx
  have hlen := uatoms_length Ts
  by_cases hf : T.flag = false
  · have e1 : ∀ (a : ℕ) (T' : UTyp), (uatoms (Ts ++ [T]))[a]? = Option.some T' → T'.flag = true →
        (uatoms Ts)[a]? = Option.some T' := by
      intro a T' ha hT'
      rw [uatoms_snoc] at ha
      by_cases hlt : a < (uatoms Ts).length
      · rwa [List.getElem?_append_left hlt] at ha
      · rw [List.getElem?_append_right (by omega)] at ha
        have := List.eq_of_mem_replicate (List.mem_of_getElem? ha)
        rw [this, hf] at hT'
        exact absurd hT' (by decide)
    have e2 : upto sz (Ts ++ [T]) (natoms Ts + T.n) = upto sz Ts (natoms Ts) := by
      rw [upto_snoc_add sz Ts T le_rfl, if_neg (by rw [hf]; decide), Nat.mul_zero, Nat.add_zero]
    unfold dstep
    rw [if_pos hf]
    dsimp only
    refine ⟨(natoms_snoc Ts T).symm, fun h0 => ?_, fun h0 => ?_, fun a T' ha hT' => ?_, hnn,
      fun T' hT' hfl => ?_⟩
    · dsimp only at h0 ⊢
      obtain ⟨q1, q2, q3⟩ := hno h0
      refine ⟨by rw [if_pos h0, natoms_snoc], q2, fun T' hT' => ?_⟩
      rcases List.mem_append.1 hT' with h | h
      · exact q3 T' h
      · rw [List.mem_singleton.1 h]; exact hf
    · dsimp only at h0 ⊢
      obtain ⟨q1, q2, q3, q4⟩ := hso h0
      rw [if_neg h0, natoms_snoc, e2]
      exact ⟨by omega, q2, by rw [upto_snoc_le sz Ts T q1]; exact q3, q4⟩
    · dsimp only
      have ha' := e1 a T' ha hT'
      have hlt : a < natoms Ts := by
        rw [← hlen]; exact (List.getElem?_eq_some_iff.1 ha').1
      rw [upto_snoc_le sz Ts T (by omega), upto_snoc_le sz Ts T (by omega)]
      exact hva a T' ha' hT'
    · dsimp only
      rcases List.mem_append.1 hT' with h | h
      · exact hact T' h hfl
      · rw [List.mem_singleton.1 h, hf] at hfl
        exact absurd hfl (by decide)
  · have hft : T.flag = true := by simpa using hf
    set arr0 : ℕ → ℤ := if id = 0 then Function.update arr (natoms Ts) 0 else arr with harr0
    set id0 : ℕ := if id = 0 then id + 1 else id with hid0
    have hid1 : id0 ≠ 0 := by
      rw [hid0]; split <;> omega
    have hle : ai2 ≤ natoms Ts := by
      by_cases h0 : id = 0
      · exact (hno h0).1.le
      · exact (hso h0).1
    have hup : upto sz Ts ai2 = upto sz Ts (natoms Ts) := by
      by_cases h0 : id = 0
      · rw [(hno h0).1]
      · exact (hso h0).2.2.1
    have hS : arr0 ai2 = (upto sz Ts (natoms Ts) : ℤ) := by
      rw [harr0]
      by_cases h0 : id = 0
      · obtain ⟨q1, q2, q3⟩ := hno h0
        rw [if_pos h0, q1, Function.update_self, upto_unflagged sz Ts q3]; rfl
      · rw [if_neg h0]; exact (hso h0).2.1
    have hold : ∀ q < natoms Ts, arr0 q = arr q := by
      intro q hq
      rw [harr0]
      split
      · rw [Function.update_of_ne (by omega)]
      · rfl
    have hnew : ∀ q, natoms Ts < q → arr0 q = -1 := by
      intro q hq
      rw [harr0]
      by_cases h0 : id = 0
      · rw [if_pos h0, Function.update_of_ne (by omega)]
        exact (hno h0).2.1 q
      · rw [if_neg h0]
        exact (hso h0).2.2.2 q (by omega)
    obtain ⟨r1, r2, r3⟩ := inner (sz T) id0 ai2 (natoms Ts) hid1 _ arr0 hS T.n
    unfold dstep
    rw [if_neg hf]
    dsimp only
    rw [← harr0, ← hid0]
    set r := (List.range T.n).foldl (fun (r : ℕ × (ℕ → ℤ)) iat =>
        let arr := if iat = 0 ∧ id0 ≠ 0 then Function.update r.2 r.1 (r.2 ai2) else r.2
        (r.1 + 1, Function.update arr (r.1 + 1) (arr r.1 + (sz T : ℤ)))) (natoms Ts, arr0) with hr
    have r2' := r2 hn
    have eup : ∀ i ≤ T.n, (upto sz (Ts ++ [T]) (natoms Ts + i) : ℤ)
        = upto sz Ts (natoms Ts) + i * sz T := by
      intro i hi
      rw [upto_snoc_add sz Ts T hi, if_pos hft]
      push_cast; ring
    refine ⟨by rw [r1, natoms_snoc], fun h0 => absurd h0 hid1, fun _ => ?_, fun a T' ha hT' => ?_,
      fun q => ?_, fun _ _ _ => hid1⟩
    · dsimp only
      rw [r1, natoms_snoc]
      refine ⟨le_rfl, ?_, rfl, fun q hq => ?_⟩
      · rw [r2' T.n le_rfl, eup T.n le_rfl]
      · rw [r3 q (Or.inr hq)]
        exact hnew q (by omega)
    · dsimp only
      rw [uatoms_snoc] at ha
      by_cases hlt : a < natoms Ts
      · rw [List.getElem?_append_left (by omega)] at ha
        obtain ⟨v1, v2⟩ := hva a T' ha hT'
        rw [upto_snoc_le sz Ts T (by omega), upto_snoc_le sz Ts T (by omega)]
        refine ⟨by rw [r3 a (Or.inl hlt), hold a hlt, v1], ?_⟩
        by_cases e : a + 1 < natoms Ts
        · rw [r3 _ (Or.inl e), hold _ e, v2]
        · have e' : a + 1 = natoms Ts := by omega
          have := r2' 0 (by omega)
          rw [add_zero] at this
          rw [e', this]
          push_cast; ring
      · obtain ⟨i, rfl⟩ : ∃ i, a = natoms Ts + i := ⟨a - natoms Ts, by omega⟩
        have hi : i < T.n := by
          have := (List.getElem?_eq_some_iff.1 ha).1
          rw [List.length_append, hlen, List.length_replicate] at this
          omega
        refine ⟨by rw [r2' i hi.le, eup i hi.le], ?_⟩
        rw [add_assoc, r2' (i + 1) hi, eup (i + 1) hi]
    · dsimp only
      by_cases hq : natoms Ts ≤ q ∧ q ≤ natoms Ts + T.n
      · obtain ⟨i, rfl⟩ : ∃ i, q = natoms Ts + i := ⟨q - natoms Ts, by omega⟩
        rw [r2' i (by omega), ← eup i (by omega)]
        omega
      · rw [r3 q (by omega)]
        by_cases e : q < natoms Ts
        · rw [hold q e]; exact hnn q
        · rw [hnew q (by omega)]

theorem inv_all (sz : UTyp → ℕ) (Ts : List UTyp) (hn : ∀ T ∈ Ts, 0 < T.n) :
    Inv sz Ts (Ts.foldl (dstep sz) (0, 0, 0, fun _ => -1)) := by
  induction Ts using List.reverseRecOn with
  | nil =>
    refine ⟨rfl, fun _ => ⟨rfl, fun _ => rfl, fun T hT => by simp at hT⟩,
      fun h => absurd rfl h, fun a T h => ?_, fun _ => by simp, fun T hT => by simp at hT⟩
    simp [uatoms] at h
  | append_singleton Ts T ih =>
    rw [List.foldl_append, List.foldl_cons, List.foldl_nil]
    exact inv_step sz Ts T _ (hn T (by simp)) (ih fun T' h => hn T' (by simp [h]))

theorem displ_eq (sz : UTyp → ℕ) (Ts : List UTyp) :
    displ sz Ts = (Ts.foldl (dstep sz) (0, 0, 0, fun _ => -1)).2.2.2 := rfl

theorem displ_at (sz : UTyp → ℕ) (Ts : List UTyp) (hn : ∀ T ∈ Ts, 0 < T.n) {a : ℕ} {T : UTyp}
    (ha : (uatoms Ts)[a]? = some T) (hT : T.flag = true) :
    displ sz Ts a = upto sz Ts a ∧ displ sz Ts (a + 1) = upto sz Ts (a + 1) :=
  (inv_all sz Ts hn).vals a T ha hT

theorem lastU_spec (arr : ℕ → ℤ) (j b : ℕ) (hb : b ≤ j) (h0 : 0 ≤ arr b)
    (h : ∀ q, b < q → q ≤ j → arr q < 0) : lastU arr j = b := by
  induction j with
  | zero =>
    have : b = 0 := by omega
    subst this
    unfold lastU
    rw [if_pos h0]; rfl
  | succ j ih =>
    unfold lastU
    by_cases e : b = j + 1
    · subst e; rw [if_pos h0]
    · rw [if_neg (not_le.2 (h (j + 1) (by omega) le_rfl))]
      exact ih (by omega) fun q h1 h2 => h q h1 (by omega)

theorem lastU_none (arr : ℕ → ℤ) (j : ℕ) (h : ∀ q ≤ j, arr q < 0) : lastU arr j = -1 := by
  induction j with
  | zero => unfold lastU; rw [if_neg (not_le.2 (h 0 le_rfl))]
  | succ j ih =>
    unfold lastU
    rw [if_neg (not_le.2 (h (j + 1) le_rfl))]
    exact ih fun q hq => h q (by omega)

/-- The size of the arrays: the entry at the last index that is not negative. -/
theorem displ_last (sz : UTyp → ℕ) (Ts : List UTyp) (hn : ∀ T ∈ Ts, 0 < T.n)
    (hu : ∃ T ∈ Ts, T.flag = true) :
    0 ≤ lastU (displ sz Ts) (natoms Ts) ∧
      displ sz Ts (lastU (displ sz Ts) (natoms Ts)).toNat = upto sz Ts (natoms Ts) := by
  have I := inv_all sz Ts hn
  obtain ⟨T, hT, hf⟩ := hu
  obtain ⟨s1, s2, s3, s4⟩ := I.hsome (I.act T hT hf)
  have e := lastU_spec (displ sz Ts) (natoms Ts) _ s1 (by rw [displ_eq, s2]; omega)
    (fun q h1 _ => by rw [displ_eq, s4 q h1]; decide)
  rw [e]
  exact ⟨by omega, by rw [Int.toNat_natCast, displ_eq, s2]⟩

theorem displ_none (sz : UTyp → ℕ) (Ts : List UTyp) (hn : ∀ T ∈ Ts, 0 < T.n)
    (hu : ¬ ∃ T ∈ Ts, T.flag = true) (q : ℕ) : displ sz Ts q = -1 := by
  have I := inv_all sz Ts hn
  by_cases h0 : (Ts.foldl (dstep sz) (0, 0, 0, fun _ => -1)).2.2.1 = 0
  · exact (I.hnone h0).2.1 q
  · exfalso
    refine h0 ?_
    have : ∀ (l : List UTyp) (st : ℕ × ℕ × ℕ × (ℕ → ℤ)), (∀ T ∈ l, T.flag = false) →
        st.2.2.1 = 0 → (l.foldl (dstep sz) st).2.2.1 = 0 := by
      intro l
      induction l with
      | nil => exact fun st _ h => h
      | cons T l ih =>
        intro st hl h
        rw [List.foldl_cons]
        refine ih _ (fun T' h' => hl T' (by simp [h'])) ?_
        unfold dstep
        rw [if_pos (hl T (by simp))]
        exact h
    refine this Ts _ (fun T hT => ?_) rfl
    by_contra hc
    exact hu ⟨T, hT, by simpa using hc⟩

end Sparc.Hub

import Verif.Ace.Xi

/-! # The gather, the triangular solve and the compression -/

open Finset

namespace Sparc.Ace

variable {I : Inp} {Psi : ℕ → Col}

/-! ## The gather -/

theorem NB_pos : 0 < Groups.bandNB I.Ns I.P := by unfold Groups.bandNB; exact Nat.succ_pos _

theorem displ_eq (Ncol i : ℕ) : I.gatherDispl Ncol i =
    if i ≤ Ncol / Groups.bandNB I.Ns I.P then i * Groups.bandNB I.Ns I.P else Ncol := by
  have hNB : 0 < Groups.bandNB I.Ns I.P := NB_pos
  induction i with
  | zero => simp [Inp.gatherDispl]
  | succ i ih =>
    have hdm := Nat.div_add_mod Ncol (Groups.bandNB I.Ns I.P)
    rw [Inp.gatherDispl, ih]
    unfold Inp.gatherCount
    dsimp only
    generalize Groups.bandNB I.Ns I.P = NB at *
    generalize hq : Ncol / NB = q at *
    by_cases h1 : i < q
    · rw [if_pos h1.le, if_pos h1, if_pos (by omega)]; ring
    · by_cases h2 : i = q
      · subst h2
        rw [if_pos le_rfl, if_neg h1, if_pos rfl, if_neg (by omega), mul_comm]; exact hdm
      · rw [if_neg (by omega), if_neg h1, if_neg h2, if_neg (by omega), add_zero]

/-- The block of the gather that a process owns is the block of bands it fills. -/
theorem gather_block (Ncol : ℕ) (hN : Ncol ≤ I.Ns) (i c : ℕ) :
    (I.gatherDispl Ncol i ≤ c ∧ c < I.gatherDispl Ncol i + I.gatherCount Ncol i) ↔
      (c < Ncol ∧ I.Owns i c) := by
  have hNB : 0 < Groups.bandNB I.Ns I.P := NB_pos
  rw [displ_eq]
  unfold Inp.Owns Inp.start Inp.nb Groups.bandStart Groups.bandCount Inp.gatherCount
  dsimp only
  generalize Groups.bandNB I.Ns I.P = NB at *
  have d1 := Nat.div_add_mod Ncol NB
  have d2 := Nat.div_add_mod I.Ns NB
  have m1 := Nat.mod_lt Ncol hNB
  have m2 := Nat.mod_lt I.Ns hNB
  have hle : Ncol / NB ≤ I.Ns / NB := Nat.div_le_div_right hN
  generalize Ncol / NB = q1 at *
  generalize I.Ns / NB = q2 at *
  generalize Ncol % NB = r1 at *
  generalize I.Ns % NB = r2 at *
  have hmono : ∀ x y, x < y → NB * x + NB ≤ NB * y := fun x y h => by
    calc NB * x + NB = NB * (x + 1) := by ring
      _ ≤ NB * y := Nat.mul_le_mul_left _ h
  rw [mul_comm i NB]
  have c1 := hmono i q1
  have c2 := hmono q1 i
  have c3 := hmono i q2
  have c4 := hmono q2 i
  have c5 := hmono q1 q2
  have c6 : i = q1 → NB * i = NB * q1 := fun h => by rw [h]
  have c7 : i = q2 → NB * i = NB * q2 := fun h => by rw [h]
  have c8 : q1 = q2 → NB * q1 = NB * q2 := fun h => by rw [h]
  generalize NB * i = a at *
  generalize NB * q1 = b1 at *
  generalize NB * q2 = b2 at *
  split_ifs <;> omega

theorem foldl_cond {n : ℕ} (p : ℕ → ℕ → Prop) [∀ i c, Decidable (p i c)] (buf : ℕ → ℕ → Col) (v0 : ℕ → Col)
    (c g : ℕ) (hg : g < n) (hp : p g c) (hu : ∀ i < n, p i c → i = g) :
    (List.range n).foldl (fun v i => fun c => if p i c then buf i c else v c) v0 c = buf g c := by
  induction n with
  | zero => omega
  | succ n ih =>
    rw [List.range_succ, List.foldl_append]
    simp only [List.foldl_cons, List.foldl_nil]
    by_cases hn : p n c
    · rw [if_pos hn, hu n (by omega) hn]
    · rw [if_neg hn]
      have hgn : g ≠ n := fun h => hn (h ▸ hp)
      exact ih (by omega) (fun i hi => hu i (by omega))

/-- After the gather every column below `Ncol` is that of its owner. -/
theorem gather_at (hP : 0 < I.P) (hNs : 0 < I.Ns) {Ncol c : ℕ} (hN : Ncol ≤ I.Ns) (hc : c < Ncol)
    (buf : ℕ → ℕ → Col) : ∃ r < I.P, I.Owns r c ∧ I.gather Ncol buf c = buf r c := by
  obtain ⟨r, hr, ho, hu⟩ := owner I hNs hP (a := c) (by omega)
  refine ⟨r, hr, ho, ?_⟩
  unfold Inp.gather
  by_cases h1 : 1 < I.P
  · rw [if_pos h1]
    refine foldl_cond (fun i c => I.gatherDispl Ncol i ≤ c ∧
      c < I.gatherDispl Ncol i + I.gatherCount Ncol i) buf (buf 0) c r hr ?_ ?_
    · exact (gather_block Ncol hN r c).2 ⟨hc, ho⟩
    · intro i hi hx
      exact hu i hi ((gather_block Ncol hN i c).1 hx).2
  · rw [if_neg h1]
    have : r = 0 := by omega
    rw [this]

theorem dot_eq (u v : Col) : I.dot u v = ∑ k ∈ range I.Nd, u k * v k := sum_range_list _ _

theorem matM_at (h : I.Ok Psi) (Xi : ℕ → Col) {b : ℕ} (hb : b < I.Nocc) (a : ℕ) :
    I.matM Xi b a = ∑ k ∈ range I.Nd, Xi a k * Psi b k := by
  unfold Inp.matM
  obtain ⟨r, hr, ho, e⟩ := gather_at (I := I) h.P h.Ns h.Nocc hb (fun r c a =>
    if I.start r ≤ c ∧ c < I.start r + I.nbM r then I.dot (Xi a) (I.psi r (c - I.start r))
    else I.junk r c a)
  rw [e]
  unfold Inp.Owns at ho
  have hM := (lt_nbM I (r := r) (i := b - I.start r)).2 ⟨by omega, by omega⟩
  dsimp only
  rw [if_pos (by omega), dot_eq]
  have hp : I.psi r (b - I.start r) = Psi b := by
    rw [h.psi' r hr (b - I.start r) (by have := nbM_le I r; omega)]
    congr 1
    show I.start r + (b - I.start r) = b
    omega
  rw [hp]

theorem psiOuter_at (h : I.Ok Psi) {b : ℕ} (hb : b < I.Ns) : I.psiOuter b = Psi b := by
  unfold Inp.psiOuter
  obtain ⟨r, hr, ho, e⟩ := gather_at (I := I) h.P h.Ns le_rfl hb (fun r c =>
    if I.start r ≤ c ∧ c < I.start r + I.nb r then I.psi r (c - I.start r) else I.junk r c)
  unfold Inp.Owns at ho
  rw [e, if_pos ho]
  rw [h.psi' r hr (b - I.start r) (by omega)]
  congr 1
  show I.start r + (b - I.start r) = b
  omega

/-! ## The triangular solve -/

theorem trsm_keep (n : ℕ) (U B : ℕ → Col) (c : ℕ) (hc : n ≤ c) : trsm n U B c = B c := by
  unfold trsm
  induction n with
  | zero => rfl
  | succ n ih =>
    rw [List.range_succ, List.foldl_append]
    simp only [List.foldl_cons, List.foldl_nil]
    rw [Function.update_of_ne (by omega)]
    exact ih (by omega)

theorem trsm_succ (n : ℕ) (U B : ℕ → Col) : trsm (n + 1) U B =
    Function.update (trsm n U B) n fun k =>
      (trsm n U B n k - ((List.range n).map fun i => trsm n U B i k * U n i).sum) / U n n := by
  unfold trsm
  rw [List.range_succ, List.foldl_append]
  rfl

/-- The result times the triangular matrix is the right-hand side. -/
theorem trsm_ok (n : ℕ) (U B : ℕ → Col) (hU : ∀ j < n, U j j ≠ 0) :
    ∀ j < n, ∀ k, ∑ i ∈ range (j + 1), trsm n U B i k * U j i = B j k := by
  induction n with
  | zero => intro j hj; omega
  | succ n ih =>
    intro j hj k
    rw [trsm_succ]
    by_cases h : j = n
    · subst h
      rw [sum_range_succ, sum_congr rfl (fun i hi => by
        rw [Function.update_of_ne (by have := mem_range.1 hi; omega)]), Function.update_self,
        sum_range_list, trsm_keep j U B j le_rfl]
      have := hU j (by omega)
      field_simp
      ring
    · rw [← ih (fun j hj => hU j (by omega)) j (by omega) k]
      refine sum_congr rfl fun i hi => ?_
      rw [Function.update_of_ne (by have := mem_range.1 hi; omega)]

/-- What `dpotrf('U')` promises on the leading block of order `n`: the upper triangle of the result
times itself gives the upper triangle of the argument. -/
structure IsChol (n : ℕ) (A U : ℕ → Col) : Prop where
  ne : ∀ b < n, U b b ≠ 0
  prod : ∀ a b, a ≤ b → b < n → ∑ c ∈ range (a + 1), U a c * U b c = A b a

/-- The compressed vectors reproduce the factor. -/
theorem comp_coeff {n Nd : ℕ} {W V U A : ℕ → Col} (Psi : ℕ → Col)
    (hA : ∀ a b, a < n → b < n → A b a = - ∑ k ∈ range Nd, W a k * Psi b k)
    (hs : ∀ a b, a < n → b < n → A b a = A a b)
    (hU : IsChol n A U)
    (hV : ∀ j < n, ∀ k, ∑ i ∈ range (j + 1), V i k * U j i = W j k) {a : ℕ} (ha : a < n) :
    ∀ c < n, ∑ k ∈ range Nd, V c k * Psi a k = if c ≤ a then - U a c else 0 := by
  intro c
  induction c using Nat.strong_induction_on with
  | _ c ih =>
    intro hc
    have e1 : ∑ e ∈ range (c + 1), U c e * ∑ k ∈ range Nd, V e k * Psi a k = - A a c := by
      rw [hA c a hc ha, neg_neg]
      simp only [mul_sum]
      rw [sum_comm]
      refine sum_congr rfl fun k _ => ?_
      rw [← hV c hc k, sum_mul]
      exact sum_congr rfl fun e _ => by ring
    have e2 : ∑ e ∈ range (c + 1), U c e * (if e ≤ a then U a e else 0) = A a c := by
      by_cases hca : c ≤ a
      · rw [← hU.prod c a hca ha]
        refine sum_congr rfl fun e he => ?_
        rw [if_pos (by have := mem_range.1 he; omega)]
      · rw [hs c a hc ha, ← hU.prod a c (by omega) hc]
        obtain ⟨m, hm⟩ : ∃ m, c + 1 = (a + 1) + m := ⟨c - a, by omega⟩
        rw [hm, sum_range_add, sum_eq_zero (s := range m) (fun e _ => by
          rw [if_neg (by omega), mul_zero]), add_zero]
        refine sum_congr rfl fun e he => ?_
        rw [if_pos (by have := mem_range.1 he; omega), mul_comm]
    have e3 : ∑ e ∈ range (c + 1), U c e *
        ((∑ k ∈ range Nd, V e k * Psi a k) + if e ≤ a then U a e else 0) = 0 := by
      simp only [mul_add, sum_add_distrib]
      rw [e1, e2]; ring
    rw [sum_range_succ, sum_eq_zero (s := range c) (fun e he => by
      have he := mem_range.1 he
      rw [ih e he (by omega)]
      split_ifs <;> simp), zero_add] at e3
    have := (mul_eq_zero.1 e3).resolve_left (hU.ne c hc)
    by_cases hca : c ≤ a
    · rw [if_pos hca] at this ⊢; linarith
    · rw [if_neg hca] at this ⊢; linarith

end Sparc.Ace

import Verif.Kern.Model
import Mathlib.Analysis.SpecialFunctions.Pow.Deriv
import Mathlib.Analysis.SpecialFunctions.Sqrt
import Mathlib.Algebra.BigOperators.Group.List.Lemmas
import Mathlib.Algebra.Order.BigOperators.Ring.Finset
import Mathlib.Data.List.Perm.Basic
import Mathlib.Algebra.BigOperators.Field

/-!
# Properties of the kernel and of the rows of a prediction (C117)
-/

namespace Sparc.Kern
open Finset

variable {m : ℕ}

/-- Every atom is on exactly one process. -/
def Split (S : Sys m) : Prop := List.Perm ((List.range S.nproc).flatMap S.dom) (List.range S.natom)

theorem cosine (u v : Fin m → ℝ) : dot (fun k => u k / √(dot u u)) (fun k => v k / √(dot v v)) =
    (∑ k, u k * v k) / (√(∑ k, u k ^ 2) * √(∑ k, v k ^ 2)) := by
  have : ∀ w : Fin m → ℝ, dot w w = ∑ k, w k ^ 2 := fun w => sum_congr rfl fun k _ => by ring
  rw [this, this]
  unfold dot
  rw [sum_div]
  exact sum_congr rfl fun k _ => by rw [div_mul_div_comm]

/-- The kernel of an atom and a column: a power of the cosine of the angle between their descriptors; zero
for different elements. -/
theorem kernel_spec (S : Sys m) (i j : ℕ) : S.kernel i j = if S.el i = S.typ j then
    ((∑ k, S.X i k * S.T j k) / (√(∑ k, S.X i k ^ 2) * √(∑ k, S.T j k ^ 2))) ^ S.xi else 0 := by
  unfold Sys.kernel
  rw [cosine]

/-- It is between 0 and 1 for descriptors with a non-negative product, and 1 for descriptors of one
direction. -/
theorem kernel_range (S : Sys m) (i j : ℕ) (hxi : 0 ≤ S.xi) (h : 0 ≤ ∑ k, S.X i k * S.T j k) :
    0 ≤ S.kernel i j ∧ S.kernel i j ≤ 1 := by
  rw [kernel_spec]
  split
  · have h0 : 0 ≤ (∑ k, S.X i k * S.T j k) / (√(∑ k, S.X i k ^ 2) * √(∑ k, S.T j k ^ 2)) := by positivity
    refine ⟨Real.rpow_nonneg h0 _, Real.rpow_le_one h0 ?_ hxi⟩
    refine div_le_one_of_le₀ ?_ (by positivity)
    rw [← Real.sqrt_mul (sum_nonneg fun k _ => sq_nonneg _)]
    exact Real.le_sqrt_of_sq_le (sum_mul_sq_le_sq_mul_sq _ _ _)
  · exact ⟨le_rfl, zero_le_one⟩

theorem kernel_same (S : Sys m) (i j : ℕ) {t : ℝ} (ht : 0 < t) (hel : S.el i = S.typ j) (hX : ∀ k, S.X i k = t * S.T j k)
    (hT : ∃ k, S.T j k ≠ 0) : S.kernel i j = 1 := by
  rw [kernel_spec, if_pos hel]
  obtain ⟨k, hk⟩ := hT
  have hs : 0 < ∑ k, S.T j k ^ 2 := sum_pos' (fun k _ => sq_nonneg _) ⟨k, mem_univ _, by positivity⟩
  have h1 : ∑ k, S.X i k * S.T j k = t * ∑ k, S.T j k ^ 2 := by
    rw [mul_sum]; exact sum_congr rfl fun k _ => by rw [hX]; ring
  have h2 : ∑ k, S.X i k ^ 2 = t ^ 2 * ∑ k, S.T j k ^ 2 := by
    rw [mul_sum]; exact sum_congr rfl fun k _ => by rw [hX]; ring
  rw [h1, h2, Real.sqrt_mul (sq_nonneg t), Real.sqrt_sq ht.le, mul_assoc, Real.mul_self_sqrt hs.le,
    div_self (by positivity), Real.one_rpow]

/-- The derivative of the power of the cosine along any change of the descriptor of the atom: `xi` times the kernel
times the product of `zit` with the derivative of the descriptor. -/
theorem kernel_derivative (S : Sys m) {i j : ℕ} (hel : S.el i = S.typ j) (hpos : 0 < ∑ k, S.X i k * S.T j k)
    (x : ℝ → Fin m → ℝ) (dx : Fin m → ℝ) (h0 : x 0 = S.X i) (hx : ∀ k, HasDerivAt (fun t => x t k) (dx k) 0) :
    HasDerivAt (fun t => ((∑ k, x t k * S.T j k) / (√(∑ k, x t k ^ 2) * √(∑ k, S.T j k ^ 2))) ^ S.xi)
      (S.xi * S.kernel i j * dot (S.z i j) dx) 0 := by
  have hXX : 0 < ∑ k, S.X i k ^ 2 := by
    refine sum_pos' (fun k _ => sq_nonneg _) ?_
    by_contra hc
    push Not at hc
    have : ∀ k, S.X i k = 0 := fun k => by
      have := hc k (mem_univ k); nlinarith [sq_nonneg (S.X i k)]
    simp [this] at hpos
  have hTT : 0 < ∑ k, S.T j k ^ 2 := by
    refine sum_pos' (fun k _ => sq_nonneg _) ?_
    by_contra hc
    push Not at hc
    have : ∀ k, S.T j k = 0 := fun k => by
      have := hc k (mem_univ k); nlinarith [sq_nonneg (S.T j k)]
    simp [this] at hpos
  have hnum : HasDerivAt (fun t => ∑ k, x t k * S.T j k) (∑ k, dx k * S.T j k) 0 :=
    HasDerivAt.fun_sum fun k _ => (hx k).mul_const _
  have hsq : HasDerivAt (fun t => ∑ k, x t k ^ 2) (∑ k, 2 * S.X i k * dx k) 0 := by
    refine HasDerivAt.fun_sum fun k _ => ?_
    have := (hx k).mul (hx k)
    rw [h0] at this
    have e : (fun t => x t k ^ 2) = fun t => x t k * x t k := funext fun t => sq _
    rw [e]
    exact this.congr_deriv (by ring)
  have hrt : HasDerivAt (fun t => √(∑ k, x t k ^ 2)) ((∑ k, 2 * S.X i k * dx k) / (2 * √(∑ k, S.X i k ^ 2))) 0 := by
    have := hsq.sqrt (by rw [h0]; exact hXX.ne')
    rw [h0] at this
    exact this
  set a := √(∑ k, S.X i k ^ 2) with ha
  set b := √(∑ k, S.T j k ^ 2) with hb
  have hap : 0 < a := Real.sqrt_pos.2 hXX
  have hbp : 0 < b := Real.sqrt_pos.2 hTT
  have hq := hnum.div (hrt.mul_const b) (by rw [h0]; positivity)
  have hp := hq.rpow_const (p := S.xi) (Or.inl (by simp only [Pi.div_apply, h0]; positivity))
  have hval : S.kernel i j = ((∑ k, S.X i k * S.T j k) / (a * b)) ^ S.xi := by rw [kernel_spec, if_pos hel]
  have hz : dot (S.z i j) dx = (∑ k, dx k * S.T j k) / (∑ k, S.X i k * S.T j k) - (∑ k, S.X i k * dx k) / (a * a) := by
    have haa : √(dot (S.X i) (S.X i)) = a := by
      rw [ha]; congr 1; exact sum_congr rfl fun k _ => by ring
    unfold dot Sys.z
    simp only [if_pos hel]
    rw [sum_div, sum_div, ← sum_sub_distrib]
    refine sum_congr rfl fun k _ => ?_
    rw [haa]
    unfold dot
    ring
  refine hp.congr_deriv ?_
  simp only [Pi.div_apply, h0]
  rw [hval, hz, Real.rpow_sub (by positivity), Real.rpow_one]
  have h2 : ∑ k, 2 * S.X i k * dx k = 2 * ∑ k, S.X i k * dx k := by
    rw [mul_sum]; exact sum_congr rfl fun k _ => by ring
  rw [h2]
  have key : ∀ P Q R w : ℝ, P ≠ 0 → (Q * (a * b) - P * (2 * R / (2 * a) * b)) / (a * b) ^ 2 * S.xi * (w / (P / (a * b))) =
      S.xi * w * (Q / P - R / (a * a)) := by
    intro P Q R w hP
    have ha0 := hap.ne'
    have hb0 := hbp.ne'
    field_simp
  exact key _ _ _ _ hpos.ne'

/-- Rows of a stored matrix. -/
theorem place_inj {n r r' j j' : ℕ} (h : j < n) (h' : j' < n) (he : r * n + j = r' * n + j') : r = r' ∧ j = j' := by
  have hr : r = r' := by
    rcases lt_trichotomy r r' with hlt | heq | hgt
    · nlinarith
    · exact heq
    · nlinarith
  subst hr
  exact ⟨rfl, by omega⟩

/-- Sums over the processes and their atoms. -/
theorem all_atoms {S : Sys m} (hsplit : Split S) (g : ℕ → ℝ) :
    ∑ p ∈ range S.nproc, ((S.dom p).map g).sum = ∑ i ∈ range S.natom, g i := by
  have h1 : ∀ l : List ℕ, ((l.flatMap S.dom).map g).sum = (l.map fun p => ((S.dom p).map g).sum).sum := by
    intro l
    induction l with
    | nil => rfl
    | cons p l ih => simp [List.flatMap_cons, ih]
  have h2 := (hsplit.map g).sum_eq
  rw [h1] at h2
  have h3 : ∀ (n : ℕ) (f : ℕ → ℝ), ((List.range n).map f).sum = ∑ i ∈ range n, f i := fun n f => by
    induction n with
    | zero => rfl
    | succ n ih => rw [List.range_succ, sum_range_succ, List.map_append, List.sum_append, ih]; simp
  rw [h3, h3] at h2
  exact h2

/-- The first row: the mean over all atoms of the kernel with the column, whatever atoms the processes have. -/
theorem energy_row {S : Sys m} (hsplit : Split S) {j : ℕ} (hj : j < S.ncols) :
    S.predict 0 0 j = (∑ i ∈ range S.natom, S.kernel i j) / S.natom := by
  unfold Sys.predict Sys.rowOf Sys.assembled
  rw [all_atoms hsplit]
  simp only [if_true, zero_mul, zero_add]
  rw [sum_div]
  refine sum_congr rfl fun i _ => ?_
  have hE : S.addE i j = S.kernel i j / S.natom := by
    unfold Sys.addE
    rw [sum_eq_single j]
    · rw [if_pos rfl]
      split
      · ring
      · rename_i hne
        unfold Sys.kernel
        rw [if_neg fun h => hne h.symm, zero_div]
    · intro j' _ hne
      simp [hne]
    · intro h; exact absurd (mem_range.2 hj) h
  have hbig : ∀ r j', ¬ (r + 1) * S.ncols + j' = j := by
    intro r j' h
    nlinarith [Nat.zero_le (r * S.ncols)]
  have hF : S.addF i j = 0 := by
    unfold Sys.addF
    refine sum_eq_zero fun j' _ => ?_
    split
    · refine sum_eq_zero fun c _ => ?_
      have e1 : ∀ b, 3 * b + 1 + c = (3 * b + c) + 1 := fun b => by ring
      rw [e1, if_neg (hbig _ _), zero_add]
      refine sum_eq_zero fun q _ => ?_
      rw [e1, if_neg (hbig _ _)]
    · rfl
  have hS : S.addS i j = 0 := by
    unfold Sys.addS
    refine sum_eq_zero fun j' _ => ?_
    split
    · have e1 : ∀ q, 3 * S.natom + 1 + q = (3 * S.natom + q) + 1 := fun b => by ring
      split
      · refine sum_eq_zero fun q _ => ?_
        rw [e1, if_neg (hbig _ _)]
      · refine sum_eq_zero fun q _ => ?_
        rw [e1, if_neg (hbig _ _)]
    · rfl
  rw [hE, hF, hS]; ring

/-- The derivative of the descriptor of atom `i` when atom `a` moves along `c`: the slots that refer to `a`. -/
noncomputable def slots (S : Sys m) (i a c : ℕ) (k : Fin m) : ℝ :=
  (if i = a then S.D i 0 c k else 0) + ∑ q ∈ range (S.nl i).length, if (S.nl i)[q]! = a then S.D i (1 + q) c k else 0

theorem forces_place {S : Sys m} (hsplit : Split S) {a c j : ℕ} (ha : a < S.natom) (hc : c < 3) (hj : j < S.ncols) :
    S.assembled ((3 * a + 1 + c) * S.ncols + j) =
      S.Fs * ∑ i ∈ range S.natom, if S.el i = S.typ j then S.xi * S.kernel i j * dot (S.z i j) (slots S i a c) else 0 := by
  unfold Sys.assembled
  rw [all_atoms hsplit, mul_sum]
  refine sum_congr rfl fun i _ => ?_
  have hE : S.addE i ((3 * a + 1 + c) * S.ncols + j) = 0 := by
    unfold Sys.addE
    refine sum_eq_zero fun j' hj' => ?_
    have : j' ≠ (3 * a + 1 + c) * S.ncols + j := by
      have := mem_range.1 hj'
      intro h
      nlinarith [Nat.zero_le (3 * a * S.ncols), Nat.zero_le (c * S.ncols)]
    rw [if_neg this]; simp
  have hS : S.addS i ((3 * a + 1 + c) * S.ncols + j) = 0 := by
    unfold Sys.addS
    refine sum_eq_zero fun j' hj' => ?_
    have hne : ∀ q, ¬ (3 * S.natom + 1 + q) * S.ncols + j' = (3 * a + 1 + c) * S.ncols + j := by
      intro q h
      have := (place_inj (mem_range.1 hj') hj h).1
      omega
    split
    · split
      · exact sum_eq_zero fun q _ => if_neg (hne _)
      · exact sum_eq_zero fun q _ => if_neg (hne _)
    · rfl
  have hF : S.addF i ((3 * a + 1 + c) * S.ncols + j) =
      S.Fs * (if S.el i = S.typ j then S.xi * S.kernel i j * dot (S.z i j) (slots S i a c) else 0) := by
    have hiff : ∀ b c' j', c' < 3 → j' < S.ncols →
        ((3 * b + 1 + c') * S.ncols + j' = (3 * a + 1 + c) * S.ncols + j ↔ (b = a ∧ c' = c ∧ j' = j)) := by
      intro b c' j' hc' hj'
      constructor
      · intro h
        obtain ⟨h1, h2⟩ := place_inj hj' hj h
        omega
      · rintro ⟨rfl, rfl, rfl⟩; rfl
    unfold Sys.addF
    rw [sum_eq_single j]
    · by_cases hel : S.typ j = S.el i
      · rw [if_pos hel, if_pos hel.symm, sum_eq_single c]
        · simp only [hiff _ c j hc hj, and_true]
          have : dot (S.z i j) (slots S i a c) = (if i = a then dot (S.z i j) (S.D i 0 c) else 0) +
              ∑ q ∈ range (S.nl i).length, if (S.nl i)[q]! = a then dot (S.z i j) (S.D i (1 + q) c) else 0 := by
            unfold dot slots
            simp only [mul_add, sum_add_distrib, mul_sum, mul_ite, mul_zero]
            congr 1
            · split
              · rfl
              · simp
            · rw [sum_comm]
              refine sum_congr rfl fun q _ => ?_
              split
              · rfl
              · simp
          rw [this, mul_add, mul_add, mul_sum, mul_sum]
          congr 1
          · split <;> ring
          · exact sum_congr rfl fun q _ => by split <;> ring
        · intro c' hc' hne
          have h3 := mem_range.1 hc'
          simp only [hiff _ c' j h3 hj, hne, false_and, and_false, if_false, sum_const_zero, add_zero]
        · intro h; exact absurd (mem_range.2 hc) h
      · rw [if_neg hel, if_neg fun h => hel h.symm, mul_zero]
    · intro j' hj' hne
      split
      · refine sum_eq_zero fun c' hc' => ?_
        have h3 := mem_range.1 hc'
        simp only [hiff _ c' j' h3 (mem_range.1 hj'), hne, and_false, if_false, sum_const_zero, add_zero]
      · rfl
    · intro h; exact absurd (mem_range.2 hj) h
  rw [hE, hF, hS]; ring

/-- The rows for the forces are the scale times the derivative of the number of atoms times the row for the energy:
if the descriptors of all atoms, as functions of the displacement of the atom along a coordinate, have
the derivatives handed over, so has the sum of the kernels the derivative that the row holds.  On the
first process the rows follow those for energy and stress, on the others they begin at once. -/
theorem force_row {S : Sys m} (hsplit : Split S) {p q c j : ℕ} (hp : p < S.nproc) (hq : q < (S.dom p).length) (hc : c < 3)
    (hj : j < S.ncols) (hpos : ∀ i < S.natom, S.el i = S.typ j → 0 < ∑ k, S.X i k * S.T j k)
    (x : ℝ → ℕ → Fin m → ℝ) (h0 : ∀ i, x 0 i = S.X i)
    (hx : ∀ i k, HasDerivAt (fun t => x t i k)
      ((if i = (S.dom p)[q]! then S.D i 0 c k else 0) +
        ∑ s ∈ range (S.nl i).length, if (S.nl i)[s]! = (S.dom p)[q]! then S.D i (1 + s) c k else 0) 0) :
    ∃ g, HasDerivAt (fun t => ∑ i ∈ range S.natom, if S.el i = S.typ j then
        ((∑ k, x t i k * S.T j k) / (√(∑ k, x t i k ^ 2) * √(∑ k, S.T j k ^ 2))) ^ S.xi else 0) g 0 ∧
      S.predict p (if p = 0 then 1 + S.slen + (3 * q + c) else 3 * q + c) j = S.Fs * g := by
  have ha : (S.dom p)[q]! < S.natom := by
    have hmem : (S.dom p)[q]! ∈ S.dom p := by
      rw [getElem!_pos (S.dom p) q hq]; exact List.getElem_mem _
    have : (S.dom p)[q]! ∈ (List.range S.nproc).flatMap S.dom :=
      List.mem_flatMap.2 ⟨p, List.mem_range.2 hp, hmem⟩
    exact List.mem_range.1 (hsplit.mem_iff.1 this)
  refine ⟨∑ i ∈ range S.natom, if S.el i = S.typ j then
    S.xi * S.kernel i j * dot (S.z i j) (slots S i (S.dom p)[q]! c) else 0, ?_, ?_⟩
  rotate_left
  · unfold Sys.predict
    have hrow : S.rowOf p (if p = 0 then 1 + S.slen + (3 * q + c) else 3 * q + c) = 3 * (S.dom p)[q]! + 1 + c := by
      unfold Sys.rowOf
      by_cases h : p = 0
      · simp only [h, if_true]
        have e1 : 1 + S.slen + (3 * q + c) - 1 - S.slen = 3 * q + c := by omega
        rw [if_neg (by omega), if_neg (by omega), e1]
        have e2 : (3 * q + c) / 3 = q := by omega
        have e3 : (3 * q + c) % 3 = c := by omega
        rw [e2, e3]
      · simp only [h, if_false]
        have e2 : (3 * q + c) / 3 = q := by omega
        have e3 : (3 * q + c) % 3 = c := by omega
        rw [e2, e3]
    rw [hrow, forces_place hsplit ha hc hj]
  · refine HasDerivAt.fun_sum fun i hi => ?_
    split
    · rename_i hel
      exact kernel_derivative S hel (hpos i (mem_range.1 hi) hel) (fun t => x t i) _ (h0 i) (hx i)
    · exact hasDerivAt_const _ _

theorem energy_elsewhere (S : Sys m) (i r : ℕ) {j : ℕ} (hj : j < S.ncols) :
    S.addE i ((r + 1) * S.ncols + j) = 0 := by
  unfold Sys.addE
  refine sum_eq_zero fun j' hj' => ?_
  have : j' ≠ (r + 1) * S.ncols + j := by
    have := mem_range.1 hj'
    intro h
    nlinarith [Nat.zero_le (r * S.ncols)]
  rw [if_neg this]; simp

theorem force_elsewhere (S : Sys m) (hnl : ∀ i, ∀ b ∈ S.nl i, b < S.natom) {i : ℕ} (hi : i < S.natom) (s : ℕ) {j : ℕ}
    (hj : j < S.ncols) : S.addF i ((3 * S.natom + 1 + s) * S.ncols + j) = 0 := by
  unfold Sys.addF
  refine sum_eq_zero fun j' hj' => ?_
  split
  · refine sum_eq_zero fun c hc => ?_
    have hc' := mem_range.1 hc
    have hne : ∀ b, b < S.natom → ¬ (3 * b + 1 + c) * S.ncols + j' = (3 * S.natom + 1 + s) * S.ncols + j := by
      intro b hb h
      have := (place_inj (mem_range.1 hj') hj h).1
      omega
    rw [if_neg (hne i hi), zero_add]
    refine sum_eq_zero fun q hq => ?_
    have hq' := mem_range.1 hq
    refine if_neg (hne _ ?_)
    rw [getElem!_pos (S.nl i) q hq']
    exact hnl i _ (List.getElem_mem _)
  · rfl

/-- The rows for the stress: scale over volume times the derivative under strain. -/
theorem stress_row {S : Sys m} (hsplit : Split S) (hpress : S.press = false) {s j : ℕ} (hs : s < S.slen) (hj : j < S.ncols)
    (hpos : ∀ i < S.natom, S.el i = S.typ j → 0 < ∑ k, S.X i k * S.T j k)
    (hnl : ∀ i, ∀ b ∈ S.nl i, b < S.natom)
    (x : ℝ → ℕ → Fin m → ℝ) (h0 : ∀ i, x 0 i = S.X i) (hx : ∀ i k, HasDerivAt (fun t => x t i k) (S.DF i s k) 0) :
    ∃ g, HasDerivAt (fun t => ∑ i ∈ range S.natom, if S.el i = S.typ j then
        ((∑ k, x t i k * S.T j k) / (√(∑ k, x t i k ^ 2) * √(∑ k, S.T j k ^ 2))) ^ S.xi else 0) g 0 ∧
      S.predict 0 (1 + s) j = S.Ss s / S.vol * g := by
  refine ⟨∑ i ∈ range S.natom, if S.el i = S.typ j then S.xi * S.kernel i j * dot (S.z i j) (S.DF i s) else 0, ?_, ?_⟩
  · refine HasDerivAt.fun_sum fun i hi => ?_
    split
    · rename_i hel
      exact kernel_derivative S hel (hpos i (mem_range.1 hi) hel) (fun t => x t i) _ (h0 i) (hx i)
    · exact hasDerivAt_const _ _
  · unfold Sys.predict
    have hrow : S.rowOf 0 (1 + s) = 3 * S.natom + 1 + s := by
      unfold Sys.rowOf
      rw [if_pos rfl, if_neg (by omega), if_pos (by omega)]
      omega
    rw [hrow]
    unfold Sys.assembled
    rw [all_atoms hsplit, mul_sum]
    refine sum_congr rfl fun i hi => ?_
    have hE : S.addE i ((3 * S.natom + 1 + s) * S.ncols + j) = 0 := by
      rw [show 3 * S.natom + 1 + s = 3 * S.natom + s + 1 by ring]
      exact energy_elsewhere S i _ hj
    have hF := force_elsewhere S hnl (mem_range.1 hi) s hj
    have hS : S.addS i ((3 * S.natom + 1 + s) * S.ncols + j) =
        S.Ss s / S.vol * (if S.el i = S.typ j then S.xi * S.kernel i j * dot (S.z i j) (S.DF i s) else 0) := by
      unfold Sys.addS
      rw [sum_eq_single j]
      · by_cases hel : S.typ j = S.el i
        · rw [if_pos hel, if_pos hel.symm, hpress, if_neg (by simp), sum_eq_single s, if_pos rfl]
          · ring
          · intro q _ hne
            refine if_neg fun h => hne ?_
            have := (place_inj hj hj h).1
            omega
          · intro h; exact absurd (mem_range.2 hs) h
        · rw [if_neg hel, if_neg fun h => hel h.symm, mul_zero]
      · intro j' hj' hne
        have hn : ∀ q, ¬ (3 * S.natom + 1 + q) * S.ncols + j' = (3 * S.natom + 1 + s) * S.ncols + j := fun q h =>
          hne (place_inj (mem_range.1 hj') hj h).2
        rw [hpress]
        simp [hn]
      · intro h; exact absurd (mem_range.2 hj) h
    rw [hE, hF, hS]; ring

/-- When the pressure is trained, the row after that of the energy: minus a third of the scale over the volume times
the sum of the derivatives under the three diagonal strains. -/
theorem pressure_row {S : Sys m} (hsplit : Split S) (hpress : S.press = true) (hlen : 1 ≤ S.slen) {j : ℕ} (hj : j < S.ncols)
    (hpos : ∀ i < S.natom, S.el i = S.typ j → 0 < ∑ k, S.X i k * S.T j k)
    (hnl : ∀ i, ∀ b ∈ S.nl i, b < S.natom)
    (x : Fin 3 → ℝ → ℕ → Fin m → ℝ) (h0 : ∀ d i, x d 0 i = S.X i)
    (hx : ∀ d i k, HasDerivAt (fun t => x d t i k) (S.DF i (![0, 3, 5] d) k) 0) :
    ∃ g : Fin 3 → ℝ, (∀ d, HasDerivAt (fun t => ∑ i ∈ range S.natom, if S.el i = S.typ j then
        ((∑ k, x d t i k * S.T j k) / (√(∑ k, x d t i k ^ 2) * √(∑ k, S.T j k ^ 2))) ^ S.xi else 0) (g d) 0) ∧
      S.predict 0 1 j = -(S.Ss 0 / (3 * S.vol) * (g 0 + g 1 + g 2)) := by
  refine ⟨fun d => ∑ i ∈ range S.natom, if S.el i = S.typ j then
    S.xi * S.kernel i j * dot (S.z i j) (S.DF i (![0, 3, 5] d)) else 0, ?_, ?_⟩
  · intro d
    refine HasDerivAt.fun_sum fun i hi => ?_
    split
    · rename_i hel
      exact kernel_derivative S hel (hpos i (mem_range.1 hi) hel) (fun t => x d t i) _ (h0 d i) (hx d i)
    · exact hasDerivAt_const _ _
  · unfold Sys.predict
    have hrow : S.rowOf 0 1 = 3 * S.natom + 1 + 0 := by
      unfold Sys.rowOf
      rw [if_pos rfl, if_neg (by omega), if_pos (by omega)]
    rw [hrow]
    unfold Sys.assembled
    rw [all_atoms hsplit, ← sum_add_distrib, ← sum_add_distrib, mul_sum, ← sum_neg_distrib]
    refine sum_congr rfl fun i hi => ?_
    have hE : S.addE i ((3 * S.natom + 1 + 0) * S.ncols + j) = 0 := energy_elsewhere S i (3 * S.natom) hj
    rw [hE, force_elsewhere S hnl (mem_range.1 hi) 0 hj]
    have hS : S.addS i ((3 * S.natom + 1 + 0) * S.ncols + j) = if S.el i = S.typ j then
        ∑ q ∈ range 3, -(1 / 3 * (1 / S.vol) * S.Ss 0 * S.xi * S.kernel i j *
          dot (S.z i j) (S.DF i (![0, 3, 5] (Fin.ofNat 3 q)))) else 0 := by
      unfold Sys.addS
      rw [sum_eq_single j]
      · by_cases hel : S.typ j = S.el i
        · rw [if_pos hel, if_pos hel.symm, hpress, if_pos rfl]
          exact sum_congr rfl fun q _ => if_pos rfl
        · rw [if_neg hel, if_neg fun h => hel h.symm]
      · intro j' hj' hne
        have hn : ¬ (3 * S.natom + 1 + 0) * S.ncols + j' = (3 * S.natom + 1 + 0) * S.ncols + j := fun h => hne (by omega)
        rw [hpress]
        simp only [if_true, if_neg hn, sum_const_zero, ite_self]
      · intro h; exact absurd (mem_range.2 hj) h
    rw [hS]
    split
    · simp only [sum_range_succ, range_zero, sum_empty]
      have e0 : Fin.ofNat 3 0 = 0 := rfl
      have e1 : Fin.ofNat 3 1 = 1 := rfl
      have e2 : Fin.ofNat 3 2 = 2 := rfl
      rw [e0, e1, e2]
      rw [show S.Ss 0 / (3 * S.vol) = 1 / 3 * (1 / S.vol) * S.Ss 0 by rw [div_eq_mul_inv, mul_inv]; ring]
      ring
    · ring

/-- A system of two atoms on two processes. -/
def exS : Sys 2 where
  natom := 2
  ncols := 1
  slen := 6
  nproc := 2
  dom p := if p = 0 then [1] else [0]
  el _ := 0
  typ _ := 0
  X i := if i = 0 then ![1, 0] else ![1, 1]
  T _ := ![1, 2]
  xi := 4
  nl i := [1 - i]
  D _ _ _ := ![1, 0]
  DF _ _ := ![0, 1]
  Fs := 1
  Ss _ := 1
  vol := 1
  press := false

example : Split exS ∧ (∀ i < 2, 0 < ∑ k, exS.X i k * exS.T 0 k) ∧ ∀ i < 2, ∀ b ∈ exS.nl i, b < 2 := by
  refine ⟨?_, ?_, ?_⟩
  · show List.Perm [1, 0] [0, 1]
    exact List.Perm.swap _ _ _
  · intro i hi
    interval_cases i <;> simp [exS, Fin.sum_univ_two]
    norm_num
  · intro i hi b hb
    simp [exS] at hb
    omega

end Sparc.Kern

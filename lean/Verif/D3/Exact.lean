import Verif.D3.Total
import Mathlib.Algebra.BigOperators.Field

/-! The energy as a sum over all pairs and all triples of atoms and images. -/

namespace Sparc.D3

open Classical

/-- A function of three indices which is symmetric, summed over ordered triples. -/
theorem tri3_sum (n : ℕ) (S : ℕ → ℕ → ℕ → ℝ) (h1 : ∀ i < n, ∀ j < n, ∀ k < n, S i j k = S i k j)
    (h2 : ∀ i < n, ∀ j < n, ∀ k < n, S i j k = S j i k) :
    ∑ i ∈ Finset.range n, ∑ j ∈ Finset.range (i + 1), ∑ k ∈ Finset.range (j + 1), wgt i j k * S i j k
      = 1 / 6 * ∑ i ∈ Finset.range n, ∑ j ∈ Finset.range n, ∑ k ∈ Finset.range n, S i j k := by
  induction n with
  | zero => simp
  | succ n ih =>
    have ih := ih (fun i hi j hj k hk => h1 i (by omega) j (by omega) k (by omega))
      (fun i hi j hj k hk => h2 i (by omega) j (by omega) k (by omega))
    rw [Finset.sum_range_succ, ih]
    -- the new layer on the left
    have hl : ∑ j ∈ Finset.range (n + 1), ∑ k ∈ Finset.range (j + 1), wgt n j k * S n j k
        = 1 / 2 * ∑ j ∈ Finset.range n, ∑ k ∈ Finset.range n, S n j k
          + 1 / 2 * ∑ k ∈ Finset.range n, S n n k + 1 / 6 * S n n n := by
      rw [Finset.sum_range_succ, Finset.sum_range_succ (fun k => wgt n n k * S n n k), tri_sum, ← add_assoc]
      have t1 : ∑ j ∈ Finset.range n, ∑ k ∈ Finset.range (j + 1), wgt n j k * S n j k
          = 1 / 2 * ∑ j ∈ Finset.range n, ∑ k ∈ Finset.range (j + 1),
              (if j ≠ k then S n j k + S n k j else S n j k) := by
        rw [Finset.mul_sum]
        refine Finset.sum_congr rfl fun j hj => ?_
        rw [Finset.mul_sum]
        refine Finset.sum_congr rfl fun k hk => ?_
        simp only [Finset.mem_range] at hj hk
        unfold wgt
        by_cases hjk : j = k
        · subst hjk
          simp [show n ≠ j by omega]
        · simp only [ne_eq, hjk, not_false_eq_true, if_true]
          rw [h1 n (by omega) k (by omega) j (by omega)]
          simp [show n ≠ j by omega, show n ≠ k by omega]
          ring
      have t2 : ∑ k ∈ Finset.range n, wgt n n k * S n n k = 1 / 2 * ∑ k ∈ Finset.range n, S n n k := by
        rw [Finset.mul_sum]
        refine Finset.sum_congr rfl fun k hk => ?_
        simp only [Finset.mem_range] at hk
        unfold wgt
        simp [show n ≠ k by omega]
      have t3 : wgt n n n = 1 / 6 := by simp [wgt]
      rw [t1, t2, t3]
    rw [hl]
    -- the new layers on the right
    have e1 : ∀ i j, ∑ k ∈ Finset.range (n + 1), S i j k = ∑ k ∈ Finset.range n, S i j k + S i j n := fun i j =>
      Finset.sum_range_succ _ _
    simp only [e1, Finset.sum_range_succ _ n, Finset.sum_add_distrib]
    have a1 : ∑ i ∈ Finset.range n, ∑ j ∈ Finset.range n, S i j n
        = ∑ j ∈ Finset.range n, ∑ k ∈ Finset.range n, S n j k := by
      refine Finset.sum_congr rfl fun i hi => Finset.sum_congr rfl fun j hj => ?_
      simp only [Finset.mem_range] at hi hj
      rw [h1 i (by omega) j (by omega) n (by omega), h2 i (by omega) n (by omega) j (by omega)]
    have a2 : ∑ i ∈ Finset.range n, ∑ k ∈ Finset.range n, S i n k
        = ∑ j ∈ Finset.range n, ∑ k ∈ Finset.range n, S n j k := by
      refine Finset.sum_congr rfl fun i hi => Finset.sum_congr rfl fun j hj => ?_
      simp only [Finset.mem_range] at hi hj
      rw [h2 i (by omega) n (by omega) j (by omega)]
    have a3 : ∑ j ∈ Finset.range n, S n j n = ∑ k ∈ Finset.range n, S n n k := by
      refine Finset.sum_congr rfl fun j hj => ?_
      simp only [Finset.mem_range] at hj
      rw [h1 n (by omega) j (by omega) n (by omega)]
    have a4 : ∑ i ∈ Finset.range n, S i n n = ∑ k ∈ Finset.range n, S n n k := by
      refine Finset.sum_congr rfl fun j hj => ?_
      simp only [Finset.mem_range] at hj
      rw [h2 j (by omega) n (by omega) n (by omega), h1 n (by omega) j (by omega) n (by omega)]
    rw [a1, a2, a3, a4]
    ring

variable {I : Inp}

/-- What is asked for the sums: every image within a cut-off is in its box, the tables are symmetric, and every pair has
reference coefficients near its coordination numbers.  `A` are the cells there are. -/
structure Complete (I : Inp) (A : Img → Prop) : Prop where
  zero : A 0
  sub : ∀ T U, A T → A U → A (U - T)
  inA : ∀ T ∈ box I.nEG, A T
  le : ∀ d, I.nCN d ≤ I.nEG d
  coverR : ∀ i < I.natom, ∀ j < I.natom, ∀ T, A T → I.sep2 i j T ≤ I.rThr → T ∈ box I.nEG
  coverC : ∀ i < I.natom, ∀ j < I.natom, ∀ T, A T → I.sep2 i j T ≤ I.cnThr → T ∈ box I.nCN
  symR0 : ∀ i < I.natom, ∀ j < I.natom, I.r0 i j = I.r0 j i
  symV : ∀ i < I.natom, ∀ j < I.natom, ∀ s u, I.c6v i j s u = I.c6v j i u s
  symC : ∀ i < I.natom, ∀ j < I.natom, ∀ s u, I.c6i i j s u = I.c6j j i u s
  weight : ∀ i < I.natom, ∀ j < I.natom, 1e-99 < ∑ s ∈ Finset.range (I.maxci i), ∑ u ∈ Finset.range (I.maxci j),
    if 0 < I.c6v i j s u then Real.exp (-4 * ((I.c6i i j s u - I.CN i) ^ 2 + (I.c6j i j s u - I.CN j) ^ 2)) else 0

variable {A : Img → Prop}

theorem Complete.subset (h : Complete I A) : box I.nCN ⊆ box I.nEG := by
  intro T hT
  rw [mem_box] at hT ⊢
  have h0 := h.le 0
  have h1 := h.le 1
  have h2 := h.le 2
  omega

theorem Complete.neg (h : Complete I A) {T : Img} (hT : A T) : A (-T) := by
  have := h.sub T 0 hT h.zero
  rwa [zero_sub] at this

theorem Complete.W (h : Complete I A) {i j : ℕ} (hi : i < I.natom) (hj : j < I.natom) :
    1e-99 < I.W (I.CN i) (I.CN j) i j := by
  have := h.weight i hi j hj
  unfold Inp.W
  rw [samples_sum]
  exact this

/-- The interpolated coefficient. -/
noncomputable def Inp.cbar (I : Inp) (cn : ℕ → ℝ) (i j : ℕ) : ℝ :=
  (∑ s ∈ Finset.range (I.maxci i), ∑ u ∈ Finset.range (I.maxci j), if 0 < I.c6v i j s u then
      I.c6v i j s u * Real.exp (-4 * ((I.c6i i j s u - cn i) ^ 2 + (I.c6j i j s u - cn j) ^ 2)) else 0)
  / ∑ s ∈ Finset.range (I.maxci i), ∑ u ∈ Finset.range (I.maxci j), if 0 < I.c6v i j s u then
      Real.exp (-4 * ((I.c6i i j s u - cn i) ^ 2 + (I.c6j i j s u - cn j) ^ 2)) else 0

theorem pair_cbar (h : Complete I A) {i j : ℕ} (hi : i < I.natom) (hj : j < I.natom) :
    (I.pair i j).1 = I.cbar I.CN i j := by
  unfold Inp.pair
  rw [c6At_eq I _ _ i j (h.W hi hj)]
  unfold Inp.Z Inp.W Inp.cbar
  rw [samples_sum, samples_sum]
  refine congrArg₂ (· / ·) (Finset.sum_congr rfl fun s _ => Finset.sum_congr rfl fun u _ => ?_) rfl
  unfold Inp.wt K3
  simp only
  split
  · ring
  · ring

theorem cbar_symm (h : Complete I A) {i j : ℕ} (hi : i < I.natom) (hj : j < I.natom) (cn : ℕ → ℝ) :
    I.cbar cn i j = I.cbar cn j i := by
  unfold Inp.cbar
  refine congrArg₂ (· / ·) ?_ ?_
  · rw [Finset.sum_comm]
    refine Finset.sum_congr rfl fun s _ => Finset.sum_congr rfl fun u _ => ?_
    rw [h.symV i hi j hj, h.symC i hi j hj, ← h.symC j hj i hi, add_comm ((_ : ℝ) ^ 2)]
  · rw [Finset.sum_comm]
    refine Finset.sum_congr rfl fun s _ => Finset.sum_congr rfl fun u _ => ?_
    rw [h.symV i hi j hj, h.symC i hi j hj, ← h.symC j hj i hi, add_comm ((_ : ℝ) ^ 2)]

theorem sqrtC6_cbar (h : Complete I A) {i j : ℕ} (hi : i < I.natom) (hj : j < I.natom) :
    I.sqrtC6 i j = Real.sqrt (I.cbar I.CN i j) := by
  unfold Inp.sqrtC6
  split
  · rw [pair_cbar h hi hj]
  · rw [pair_cbar h hj hi, cbar_symm h hj hi]

/-- A pair and an image. -/
noncomputable def Inp.pairTerm (I : Inp) (c : ℕ → ℕ → ℝ) (i j : ℕ) (T : Img) : ℝ :=
  let r := Real.sqrt (I.sep2 i j T)
  if 1e-15 ≤ I.sep2 i j T ∧ I.sep2 i j T ≤ I.rThr then
    c i j / r ^ 6 / (1 + 6 * (I.rs6 * I.r0 i j / r) ^ 14)
      + 3 * (I.r2r4 i * I.r2r4 j) * I.s8 * c i j / r ^ 8 / (1 + 6 * (I.r0 i j / r) ^ 16)
  else 0

theorem E2_eq (h : Complete I A) {i j : ℕ} (hi : i < I.natom) (hj : j < I.natom) (T : Img) :
    I.E2 i j T = half i j * I.pairTerm (I.cbar I.CN) i j T := by
  unfold Inp.E2 Inp.pairTerm
  by_cases hs : I.sep2 i j T > I.rThr ∨ I.sep2 i j T < 1e-15
  · rw [if_pos hs]
    simp only
    rw [if_neg, mul_zero]
    rintro ⟨h1, h2⟩
    rcases hs with h3 | h3
    · exact absurd h3 (not_lt.2 h2)
    · exact absurd h3 (not_lt.2 h1)
  · rw [if_neg hs]
    push Not at hs
    simp only
    rw [if_pos ⟨hs.2, hs.1⟩, pair_cbar h hi hj]
    have sq : Real.sqrt (I.sep2 i j T) ^ 2 = I.sep2 i j T := Real.sq_sqrt (sep2_nonneg _ _ _ _)
    rw [show Real.sqrt (I.sep2 i j T) ^ 6 = I.sep2 i j T ^ 3 by rw [← sq, ← pow_mul, sq],
      show Real.sqrt (I.sep2 i j T) ^ 8 = I.sep2 i j T ^ 3 * I.sep2 i j T by
        rw [← pow_succ, ← sq, ← pow_mul, sq]]
    have e1 : I.rs6 * (I.r0 i j / Real.sqrt (I.sep2 i j T)) = I.rs6 * I.r0 i j / Real.sqrt (I.sep2 i j T) := by ring
    rw [e1, one_mul]
    ring

theorem pairTerm_symm (h : Complete I A) {i j : ℕ} (hi : i < I.natom) (hj : j < I.natom) (T : Img) :
    I.pairTerm (I.cbar I.CN) j i (-T) = I.pairTerm (I.cbar I.CN) i j T := by
  unfold Inp.pairTerm
  simp only [sep2_neg]
  rw [cbar_symm h hj hi, h.symR0 j hj i hi, mul_comm (I.r2r4 j)]

/-- A triple and two images, with the cosines of the three angles of the triangle. -/
noncomputable def Inp.tripleTerm (I : Inp) (c : ℕ → ℕ → ℝ) (i j k : ℕ) (T U : Img) : ℝ :=
  let x := Real.sqrt (I.sep2 i j T)
  let y := Real.sqrt (I.sep2 j k (U - T))
  let z := Real.sqrt (I.sep2 i k U)
  if (1e-15 ≤ I.sep2 i j T ∧ I.sep2 i j T ≤ I.cnThr) ∧ (1e-15 ≤ I.sep2 j k (U - T) ∧ I.sep2 j k (U - T) ≤ I.cnThr)
      ∧ (1e-15 ≤ I.sep2 i k U ∧ I.sep2 i k U ≤ I.cnThr) then
    Real.sqrt (c i j) * Real.sqrt (c i k) * Real.sqrt (c j k)
      * (3 * ((x ^ 2 + z ^ 2 - y ^ 2) / (2 * x * z)) * ((x ^ 2 + y ^ 2 - z ^ 2) / (2 * x * y))
          * ((y ^ 2 + z ^ 2 - x ^ 2) / (2 * y * z)) + 1)
      / (x * y * z) ^ 3
      / (1 + 6 * (4 / 3 / (x / I.r0 i j * (y / I.r0 j k) * (z / I.r0 i k)) ^ ((1 : ℝ) / 3)) ^ 16)
  else 0

theorem E3_eq (h : Complete I A) {i j k : ℕ} (hi : i < I.natom) (hj : j < I.natom) (hk : k < I.natom) (T U : Img) :
    I.E3 i j k T U = wgt i j k * I.tripleTerm (I.cbar I.CN) i j k T U := by
  unfold Inp.E3 Inp.tripleTerm
  by_cases hs : I.skip3 i j k T U
  · rw [if_pos hs]
    simp only
    rw [if_neg, mul_zero]
    rintro ⟨⟨h1, h2⟩, ⟨h3, h4⟩, h5, h6⟩
    unfold Inp.skip3 at hs
    rcases hs with (x | x) | (x | x) | (x | x) <;> linarith
  · rw [if_neg hs]
    unfold Inp.skip3 at hs
    push Not at hs
    obtain ⟨⟨h1, h2⟩, ⟨h3, h4⟩, h5, h6⟩ := hs
    simp only
    rw [if_pos ⟨⟨h2, h1⟩, ⟨h6, h5⟩, h4, h3⟩]
    unfold Inp.c9 Inp.damp3 ang3
    rw [sqrtC6_cbar h hi hj, sqrtC6_cbar h hi hk, sqrtC6_cbar h hj hk]
    have pA : 0 < I.sep2 i j T := lt_of_lt_of_le (by norm_num) h2
    have pB : 0 < I.sep2 j k (U - T) := lt_of_lt_of_le (by norm_num) h6
    have pC : 0 < I.sep2 i k U := lt_of_lt_of_le (by norm_num) h4
    have sA : Real.sqrt (I.sep2 i j T) ^ 2 = I.sep2 i j T := Real.sq_sqrt pA.le
    have sB : Real.sqrt (I.sep2 j k (U - T)) ^ 2 = I.sep2 j k (U - T) := Real.sq_sqrt pB.le
    have sC : Real.sqrt (I.sep2 i k U) ^ 2 = I.sep2 i k U := Real.sq_sqrt pC.le
    have qA := Real.sqrt_pos.2 pA
    have qB := Real.sqrt_pos.2 pB
    have qC := Real.sqrt_pos.2 pC
    have eD : (I.sep2 i j T * I.sep2 j k (U - T) * I.sep2 i k U) ^ (1.5 : ℝ)
        = (Real.sqrt (I.sep2 i j T) * Real.sqrt (I.sep2 j k (U - T)) * Real.sqrt (I.sep2 i k U)) ^ 3 := by
      have hp : 0 < Real.sqrt (I.sep2 i j T) * Real.sqrt (I.sep2 j k (U - T)) * Real.sqrt (I.sep2 i k U) := by
        positivity
      have : I.sep2 i j T * I.sep2 j k (U - T) * I.sep2 i k U
          = (Real.sqrt (I.sep2 i j T) * Real.sqrt (I.sep2 j k (U - T)) * Real.sqrt (I.sep2 i k U)) ^ (2 : ℝ) := by
        rw [Real.rpow_two, mul_pow, mul_pow, sA, sB, sC]
      rw [this, ← Real.rpow_mul hp.le, ← Real.rpow_natCast]
      norm_num
    rw [eD]
    have eg : Real.sqrt (I.sep2 i j T) / I.r0 i j * (Real.sqrt (I.sep2 i k U) / I.r0 i k)
          * (Real.sqrt (I.sep2 j k (U - T)) / I.r0 j k)
        = Real.sqrt (I.sep2 i j T) / I.r0 i j * (Real.sqrt (I.sep2 j k (U - T)) / I.r0 j k)
          * (Real.sqrt (I.sep2 i k U) / I.r0 i k) := by ring
    rw [eg]
    generalize (1 + 6 * (4 / 3 / (Real.sqrt (I.sep2 i j T) / I.r0 i j * (Real.sqrt (I.sep2 j k (U - T)) / I.r0 j k)
          * (Real.sqrt (I.sep2 i k U) / I.r0 i k)) ^ ((1 : ℝ) / 3)) ^ 16) = D
    generalize Real.sqrt (I.sep2 i j T) = x at *
    generalize Real.sqrt (I.sep2 j k (U - T)) = y at *
    generalize Real.sqrt (I.sep2 i k U) = z at *
    rw [← sA, ← sB, ← sC]
    have : (0.375 : ℝ) * (x ^ 2 + y ^ 2 - z ^ 2) * (x ^ 2 + z ^ 2 - y ^ 2) * (z ^ 2 + y ^ 2 - x ^ 2)
          / (x ^ 2 * y ^ 2 * z ^ 2)
        = 3 * ((x ^ 2 + z ^ 2 - y ^ 2) / (2 * x * z)) * ((x ^ 2 + y ^ 2 - z ^ 2) / (2 * x * y))
          * ((y ^ 2 + z ^ 2 - x ^ 2) / (2 * y * z)) := by
      field_simp
      ring
    rw [this]
    ring

theorem tripleTerm_swap (h : Complete I A) {i j k : ℕ} (hj : j < I.natom) (hk : k < I.natom)
    (T U : Img) : I.tripleTerm (I.cbar I.CN) i k j U T = I.tripleTerm (I.cbar I.CN) i j k T U := by
  unfold Inp.tripleTerm
  have e : I.sep2 k j (T - U) = I.sep2 j k (U - T) := by
    rw [show T - U = -(U - T) by simp, sep2_neg]
  simp only [e]
  rw [cbar_symm h hk hj, h.symR0 k hk j hj]
  refine if_congr (by tauto) ?_ rfl
  have e2 : Real.sqrt (I.sep2 i k U) / I.r0 i k * (Real.sqrt (I.sep2 j k (U - T)) / I.r0 j k)
        * (Real.sqrt (I.sep2 i j T) / I.r0 i j)
      = Real.sqrt (I.sep2 i j T) / I.r0 i j * (Real.sqrt (I.sep2 j k (U - T)) / I.r0 j k)
        * (Real.sqrt (I.sep2 i k U) / I.r0 i k) := by ring
  rw [e2]
  ring

theorem tripleTerm_turn (h : Complete I A) {i j k : ℕ} (hi : i < I.natom) (hj : j < I.natom)
    (T U : Img) : I.tripleTerm (I.cbar I.CN) j i k (-T) (U - T) = I.tripleTerm (I.cbar I.CN) i j k T U := by
  unfold Inp.tripleTerm
  have e : U - T - -T = U := by simp
  simp only [e, sep2_neg]
  rw [cbar_symm h hj hi, h.symR0 j hj i hi]
  refine if_congr (by tauto) ?_ rfl
  have e2 : Real.sqrt (I.sep2 i j T) / I.r0 i j * (Real.sqrt (I.sep2 i k U) / I.r0 i k)
        * (Real.sqrt (I.sep2 j k (U - T)) / I.r0 j k)
      = Real.sqrt (I.sep2 i j T) / I.r0 i j * (Real.sqrt (I.sep2 j k (U - T)) / I.r0 j k)
        * (Real.sqrt (I.sep2 i k U) / I.r0 i k) := by ring
  rw [e2]
  ring

/-- The pairs of cells of a triple. -/
noncomputable def Inp.cells2 (I : Inp) : Finset (Img × Img) :=
  (box I.nCN ×ˢ box I.nCN).filter fun p => p.2 - p.1 ∈ box I.nCN

theorem sum_cells2 (I : Inp) (g : Img → Img → ℝ) :
    ∑ T ∈ box I.nCN, ∑ U ∈ boxLH (scopeLo I.nCN T) (scopeHi I.nCN T), g T U = ∑ p ∈ I.cells2, g p.1 p.2 := by
  rw [Inp.cells2, Finset.sum_filter, Finset.sum_product]
  refine Finset.sum_congr rfl fun T hT => ?_
  rw [← Finset.sum_filter]
  refine Finset.sum_congr ?_ fun _ _ => rfl
  ext U
  simp only [Finset.mem_filter]
  exact ⟨fun hU => scope_mem _ hT hU, fun hU => mem_scope _ hU.1 hU.2⟩

/-- All images of a triple are counted by the pairs of cells in the box. -/
theorem sum_all (h : Complete I A) (B : Finset Img) (hB : box I.nCN ⊆ B) (hA : ∀ T ∈ B, A T) {i j k : ℕ}
    (hi : i < I.natom) (hj : j < I.natom) (hk : k < I.natom) (c : ℕ → ℕ → ℝ) :
    ∑ p ∈ I.cells2, I.tripleTerm c i j k p.1 p.2 = ∑ T ∈ B, ∑ U ∈ B, I.tripleTerm c i j k T U := by
  rw [← Finset.sum_product']
  refine Finset.sum_subset ?_ fun p hp hn => ?_
  · intro p hp
    rw [Inp.cells2, Finset.mem_filter, Finset.mem_product] at hp
    exact Finset.mem_product.2 ⟨hB hp.1.1, hB hp.1.2⟩
  · rw [Finset.mem_product] at hp
    unfold Inp.tripleTerm
    simp only
    rw [if_neg]
    rintro ⟨⟨_, h1⟩, ⟨_, h2⟩, _, h3⟩
    refine hn ?_
    rw [Inp.cells2, Finset.mem_filter, Finset.mem_product]
    exact ⟨⟨h.coverC i hi j hj _ (hA _ hp.1) h1, h.coverC i hi k hk _ (hA _ hp.2) h3⟩,
      h.coverC j hj k hk _ (h.sub _ _ (hA _ hp.1) (hA _ hp.2)) h2⟩

theorem energy2 (h : Complete I A) (B : Finset Img) (hB : box I.nEG ⊆ B) (hA : ∀ T ∈ B, A T) :
    (I.slots2.map fun s => I.E2 s.1 s.2.1 s.2.2.1).sum
      = 1 / 2 * ∑ i ∈ Finset.range I.natom, ∑ j ∈ Finset.range I.natom, ∑ T ∈ B,
          I.pairTerm (I.cbar I.CN) i j T := by
  rw [slots2_sum I fun i j T _ => I.E2 i j T]
  have hb : ∀ i ∈ Finset.range I.natom, ∀ j ∈ Finset.range I.natom,
      ∑ T ∈ B, I.pairTerm (I.cbar I.CN) i j T = ∑ T ∈ box I.nEG, I.pairTerm (I.cbar I.CN) i j T := by
    intro i hi j hj
    refine (Finset.sum_subset hB fun T hT hn => ?_).symm
    unfold Inp.pairTerm
    simp only
    rw [if_neg]
    rintro ⟨_, h2⟩
    exact hn (h.coverR i (Finset.mem_range.1 hi) j (Finset.mem_range.1 hj) T (hA T hT) h2)
  rw [Finset.sum_congr rfl fun i hi => Finset.sum_congr rfl (hb i hi), tri_sum, Finset.mul_sum]
  refine Finset.sum_congr rfl fun i hi => ?_
  rw [Finset.mul_sum]
  refine Finset.sum_congr rfl fun j hj => ?_
  simp only [Finset.mem_range] at hi hj
  have hj' : j < I.natom := by omega
  rw [Finset.sum_congr rfl fun T _ => E2_eq h hi hj' T, ← Finset.mul_sum]
  have es : ∑ T ∈ box I.nEG, I.pairTerm (I.cbar I.CN) j i T = ∑ T ∈ box I.nEG, I.pairTerm (I.cbar I.CN) i j T := by
    rw [← box_neg]
    exact Finset.sum_congr rfl fun T _ => pairTerm_symm h hi hj' T
  unfold half
  by_cases hij : i = j
  · subst hij; simp
  · rw [if_neg hij, if_pos hij, es]; ring

theorem energy3 (h : Complete I A) (B : Finset Img) (hB : box I.nCN ⊆ B) (hA : ∀ T ∈ B, A T) :
    (I.slots3.map fun s => I.E3 s.1 s.2.1 s.2.2.2.1 s.2.2.1 s.2.2.2.2).sum
      = 1 / 6 * ∑ i ∈ Finset.range I.natom, ∑ j ∈ Finset.range I.natom, ∑ k ∈ Finset.range I.natom,
          ∑ T ∈ B, ∑ U ∈ B, I.tripleTerm (I.cbar I.CN) i j k T U := by
  rw [slots3_sum I fun i j k T U => I.E3 i j k T U]
  set S : ℕ → ℕ → ℕ → ℝ := fun i j k => ∑ p ∈ I.cells2, I.tripleTerm (I.cbar I.CN) i j k p.1 p.2 with hS
  have e1 : ∀ i ∈ Finset.range I.natom, ∀ j ∈ Finset.range I.natom, ∀ k ∈ Finset.range I.natom,
      ∑ T ∈ B, ∑ U ∈ B, I.tripleTerm (I.cbar I.CN) i j k T U = S i j k := fun i hi j hj k hk =>
    (sum_all h B hB hA (Finset.mem_range.1 hi) (Finset.mem_range.1 hj) (Finset.mem_range.1 hk) _).symm
  rw [Finset.sum_congr rfl fun i hi => Finset.sum_congr rfl fun j hj => Finset.sum_congr rfl (e1 i hi j hj)]
  have s1 : ∀ i < I.natom, ∀ j < I.natom, ∀ k < I.natom, S i j k = S i k j := by
    intro i _ j hj k hk
    simp only [hS]
    refine Finset.sum_nbij' (fun p => (p.2, p.1)) (fun p => (p.2, p.1)) ?_ ?_ ?_ ?_ ?_
    · intro p hp
      rw [Inp.cells2, Finset.mem_filter, Finset.mem_product] at *
      refine ⟨⟨hp.1.2, hp.1.1⟩, ?_⟩
      have := hp.2
      rw [mem_box] at *
      simp only [Prod.fst_sub, Prod.snd_sub] at *
      omega
    · intro p hp
      rw [Inp.cells2, Finset.mem_filter, Finset.mem_product] at *
      refine ⟨⟨hp.1.2, hp.1.1⟩, ?_⟩
      have := hp.2
      rw [mem_box] at *
      simp only [Prod.fst_sub, Prod.snd_sub] at *
      omega
    · intros; rfl
    · intros; rfl
    · intro p _
      exact (tripleTerm_swap h hj hk p.1 p.2).symm
  have s2 : ∀ i < I.natom, ∀ j < I.natom, ∀ k < I.natom, S i j k = S j i k := by
    intro i hi j hj k _
    simp only [hS]
    have hmem : ∀ p ∈ I.cells2, (-p.1, p.2 - p.1) ∈ I.cells2 := by
      intro p hp
      rw [Inp.cells2, Finset.mem_filter, Finset.mem_product] at *
      obtain ⟨⟨h1, h2⟩, h3⟩ := hp
      refine ⟨⟨?_, h3⟩, ?_⟩
      · rw [mem_box] at *; simp only [Prod.fst_neg, Prod.snd_neg]; omega
      · simpa using h2
    refine Finset.sum_nbij' (fun p => (-p.1, p.2 - p.1)) (fun p => (-p.1, p.2 - p.1)) hmem hmem ?_ ?_ ?_
    · intro p _; simp
    · intro p _; simp
    · intro p _
      exact (tripleTerm_turn h hi hj p.1 p.2).symm
  rw [← tri3_sum I.natom S s1 s2]
  refine Finset.sum_congr rfl fun i hi => Finset.sum_congr rfl fun j hj => ?_
  rw [Finset.sum_comm' (t' := Finset.range (j + 1)) (s' := fun _ => box I.nCN) (by intro x y; tauto)]
  refine Finset.sum_congr rfl fun k hk => ?_
  simp only [Finset.mem_range] at hi hj hk
  rw [sum_cells2 I fun T U => I.E3 i j k T U]
  simp only [hS]
  rw [Finset.mul_sum]
  exact Finset.sum_congr rfl fun p _ => E3_eq h hi (by omega) (by omega) p.1 p.2

/-- The coordination number. -/
noncomputable def Inp.specCN (I : Inp) (B : Finset Img) (i : ℕ) : ℝ :=
  ∑ j ∈ Finset.range I.natom, ∑ T ∈ B, if 1e-20 < I.sep2 i j T ∧ I.sep2 i j T < I.cnThr then
    1 / (1 + Real.exp (-16 * ((I.rcov i + I.rcov j) / Real.sqrt (I.sep2 i j T) - 1))) else 0

theorem CN_spec (h : Complete I A) (B : Finset Img) (hB : box I.nCN ⊆ B) (hA : ∀ T ∈ B, A T) {i : ℕ}
    (hi : i < I.natom) : I.CN i = I.specCN B i := by
  rw [CN_sum, sum_flatMap, sum_range_list]
  refine Finset.sum_congr rfl fun j hj => ?_
  rw [List.map_map]
  refine (sum_cells I.nCN _).trans ?_
  refine (Finset.sum_subset hB fun T hT hn => ?_).trans (Finset.sum_congr rfl fun T _ => ?_)
  · simp only [Function.comp]
    rw [if_neg]
    rintro ⟨h1, _⟩
    refine hn (h.coverC i hi j (Finset.mem_range.1 hj) T (hA T hT) ?_)
    by_contra hc
    exact absurd h1 (not_lt.2 (Real.sqrt_le_sqrt (not_le.1 hc).le))
  · simp only [Function.comp]
    unfold K1
    refine if_congr ?_ rfl rfl
    constructor
    · rintro ⟨h1, h2⟩
      refine ⟨?_, (Real.sqrt_lt_sqrt_iff (sep2_nonneg _ _ _ _)).1 h1⟩
      have : ((1e-10 : ℝ)) ^ 2 < I.sep2 i j T := by
        rw [← Real.sq_sqrt (sep2_nonneg I i j T)]
        exact pow_lt_pow_left₀ h2 (by norm_num) two_ne_zero
      refine lt_of_eq_of_lt ?_ this
      norm_num
    · rintro ⟨h1, h2⟩
      refine ⟨Real.sqrt_lt_sqrt (sep2_nonneg _ _ _ _) h2, Real.lt_sqrt_of_sq_lt (lt_of_eq_of_lt ?_ h1)⟩
      norm_num

end Sparc.D3

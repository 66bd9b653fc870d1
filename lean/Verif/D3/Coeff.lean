import Verif.D3.Deriv

/-! The interpolated coefficient and its derivatives along a path. -/

namespace Sparc.D3

open Classical Filter Topology

theorem foldl_proj {S α : Type} (π : S → ℝ) (step : S → α → S) (f : α → ℝ) (l : List α)
    (h : ∀ a, ∀ s ∈ l, π (step a s) = π a + f s) (a : S) : π (l.foldl step a) = π a + (l.map f).sum := by
  induction l generalizing a with
  | nil => simp
  | cons x l ih =>
    rw [List.foldl_cons, ih (fun a s hs => h a s (by simp [hs])), h a x (by simp), List.map_cons, List.sum_cons]
    ring

/-- The pairs of samples, in loop order. -/
def Inp.samples (I : Inp) (i j : ℕ) : List (ℕ × ℕ) :=
  (List.range (I.maxci i)).flatMap fun (s : ℕ) => (List.range (I.maxci j)).map fun (u : ℕ) => (s, u)

/-- The weight of a sample. -/
noncomputable def Inp.wt (I : Inp) (p q : ℝ) (i j : ℕ) (s : ℕ × ℕ) : ℝ :=
  if 0 < I.c6v i j s.1 s.2 then Real.exp (K3 * ((I.c6i i j s.1 s.2 - p) ^ 2 + (I.c6j i j s.1 s.2 - q) ^ 2)) else 0

noncomputable def Inp.W (I : Inp) (p q : ℝ) (i j : ℕ) : ℝ := ((I.samples i j).map (I.wt p q i j)).sum

noncomputable def Inp.Z (I : Inp) (p q : ℝ) (i j : ℕ) : ℝ :=
  ((I.samples i j).map fun s => I.wt p q i j s * I.c6v i j s.1 s.2).sum

noncomputable def Inp.WI (I : Inp) (p q : ℝ) (i j : ℕ) : ℝ :=
  ((I.samples i j).map fun s => I.wt p q i j s * 2 * K3 * (p - I.c6i i j s.1 s.2)).sum

noncomputable def Inp.WJ (I : Inp) (p q : ℝ) (i j : ℕ) : ℝ :=
  ((I.samples i j).map fun s => I.wt p q i j s * 2 * K3 * (q - I.c6j i j s.1 s.2)).sum

noncomputable def Inp.ZI (I : Inp) (p q : ℝ) (i j : ℕ) : ℝ :=
  ((I.samples i j).map fun s => I.wt p q i j s * 2 * K3 * (p - I.c6i i j s.1 s.2) * I.c6v i j s.1 s.2).sum

noncomputable def Inp.ZJ (I : Inp) (p q : ℝ) (i j : ℕ) : ℝ :=
  ((I.samples i j).map fun s => I.wt p q i j s * 2 * K3 * (q - I.c6j i j s.1 s.2) * I.c6v i j s.1 s.2).sum

theorem acc_eq (I : Inp) (p q : ℝ) (i j : ℕ) :
    (I.c6Acc p q i j).weightSum = I.W p q i j ∧ (I.c6Acc p q i j).c6termSum = I.Z p q i j ∧
    (I.c6Acc p q i j).dWeightSumI = I.WI p q i j ∧ (I.c6Acc p q i j).dWeightSumJ = I.WJ p q i j ∧
    (I.c6Acc p q i j).dC6termSumI = I.ZI p q i j ∧ (I.c6Acc p q i j).dC6termSumJ = I.ZJ p q i j := by
  refine ⟨?_, ?_, ?_, ?_, ?_, ?_⟩
  · refine (foldl_proj C6Acc.weightSum (I.c6Step p q i j) (I.wt p q i j) _ ?_ _).trans (zero_add _)
    intro a s _
    unfold Inp.c6Step Inp.wt
    simp only [gt_iff_lt]
    split <;> simp
  · refine (foldl_proj C6Acc.c6termSum (I.c6Step p q i j) _ _ ?_ _).trans (zero_add _)
    intro a s _
    unfold Inp.c6Step Inp.wt
    simp only [gt_iff_lt]
    split <;> simp
  · refine (foldl_proj C6Acc.dWeightSumI (I.c6Step p q i j) _ _ ?_ _).trans (zero_add _)
    intro a s _
    unfold Inp.c6Step Inp.wt
    simp only [gt_iff_lt]
    split <;> simp
  · refine (foldl_proj C6Acc.dWeightSumJ (I.c6Step p q i j) _ _ ?_ _).trans (zero_add _)
    intro a s _
    unfold Inp.c6Step Inp.wt
    simp only [gt_iff_lt]
    split <;> simp
  · refine (foldl_proj C6Acc.dC6termSumI (I.c6Step p q i j) _ _ ?_ _).trans (zero_add _)
    intro a s _
    unfold Inp.c6Step Inp.wt
    simp only [gt_iff_lt]
    split <;> simp
  · refine (foldl_proj C6Acc.dC6termSumJ (I.c6Step p q i j) _ _ ?_ _).trans (zero_add _)
    intro a s _
    unfold Inp.c6Step Inp.wt
    simp only [gt_iff_lt]
    split <;> simp

theorem c6At_eq (I : Inp) (p q : ℝ) (i j : ℕ) (h : 1e-99 < I.W p q i j) :
    I.c6At p q i j = (I.Z p q i j / I.W p q i j,
      (I.ZI p q i j * I.W p q i j - I.WI p q i j * I.Z p q i j) / I.W p q i j ^ 2,
      (I.ZJ p q i j * I.W p q i j - I.WJ p q i j * I.Z p q i j) / I.W p q i j ^ 2) := by
  obtain ⟨h1, h2, h3, h4, h5, h6⟩ := acc_eq I p q i j
  unfold Inp.c6At
  simp only [h1, h2, h3, h4, h5, h6]
  rw [if_pos h]

theorem sum_lin {α : Type} (l : List α) (f g : α → ℝ) (a b : ℝ) :
    (l.map fun s => f s * a + g s * b).sum = (l.map f).sum * a + (l.map g).sum * b := by
  induction l with
  | nil => simp
  | cons x l ih => simp only [List.map_cons, List.sum_cons, ih]; ring

theorem hd_wt (I : Inp) {p q : ℝ → ℝ} {p' q' x : ℝ} (hp : HasDerivAt p p' x) (hq : HasDerivAt q q' x) (i j : ℕ)
    (s : ℕ × ℕ) : HasDerivAt (fun t => I.wt (p t) (q t) i j s)
      (I.wt (p x) (q x) i j s * 2 * K3 * (p x - I.c6i i j s.1 s.2) * p'
        + I.wt (p x) (q x) i j s * 2 * K3 * (q x - I.c6j i j s.1 s.2) * q') x := by
  unfold Inp.wt
  by_cases hc : 0 < I.c6v i j s.1 s.2
  · simp only [if_pos hc]
    have h1 := (hp.const_sub (I.c6i i j s.1 s.2)).pow 2
    have h2 := (hq.const_sub (I.c6j i j s.1 s.2)).pow 2
    refine ((h1.add h2).const_mul K3).exp.congr_deriv ?_
    simp only [Pi.pow_apply, Pi.add_apply]
    push_cast
    ring
  · simp only [if_neg hc]
    exact (hasDerivAt_const _ _).congr_deriv (by ring)

theorem hd_W (I : Inp) {p q : ℝ → ℝ} {p' q' x : ℝ} (hp : HasDerivAt p p' x) (hq : HasDerivAt q q' x) (i j : ℕ) :
    HasDerivAt (fun t => I.W (p t) (q t) i j) (I.WI (p x) (q x) i j * p' + I.WJ (p x) (q x) i j * q') x := by
  unfold Inp.WI Inp.WJ
  rw [← sum_lin]
  exact hd_listSum _ (fun s t => I.wt (p t) (q t) i j s) _ _ fun s _ => hd_wt I hp hq i j s

theorem hd_Z (I : Inp) {p q : ℝ → ℝ} {p' q' x : ℝ} (hp : HasDerivAt p p' x) (hq : HasDerivAt q q' x) (i j : ℕ) :
    HasDerivAt (fun t => I.Z (p t) (q t) i j) (I.ZI (p x) (q x) i j * p' + I.ZJ (p x) (q x) i j * q') x := by
  unfold Inp.ZI Inp.ZJ
  rw [← sum_lin]
  refine hd_listSum _ (fun s t => I.wt (p t) (q t) i j s * I.c6v i j s.1 s.2) _ _ fun s _ => ?_
  exact ((hd_wt I hp hq i j s).mul_const _).congr_deriv (by ring)

/-- The interpolated coefficient has the derivatives the code gives it. -/
theorem hd_c6At (I : Inp) {p q : ℝ → ℝ} {p' q' x : ℝ} (hp : HasDerivAt p p' x) (hq : HasDerivAt q q' x) (i j : ℕ)
    (h : 1e-99 < I.W (p x) (q x) i j) :
    HasDerivAt (fun t => (I.c6At (p t) (q t) i j).1)
      ((I.c6At (p x) (q x) i j).2.1 * p' + (I.c6At (p x) (q x) i j).2.2 * q') x := by
  have hW := hd_W I hp hq i j
  have hpos : 0 < I.W (p x) (q x) i j := lt_trans (by norm_num) h
  have hq := (hd_Z I hp hq i j).div hW hpos.ne'
  have hev : ∀ᶠ t in 𝓝 x, 1e-99 < I.W (p t) (q t) i j := continuousAt_const.eventually_lt hW.continuousAt h
  refine (hq.congr_of_eventuallyEq (hev.mono fun t ht => by rw [c6At_eq I _ _ i j ht]; rfl)).congr_deriv ?_
  rw [c6At_eq I _ _ i j h]
  simp only
  field_simp
  ring

theorem wt_nonneg (I : Inp) (p q : ℝ) (i j : ℕ) (s : ℕ × ℕ) : 0 ≤ I.wt p q i j s := by
  unfold Inp.wt; split
  · exact (Real.exp_pos _).le
  · exact le_rfl

theorem Z_pos (I : Inp) (p q : ℝ) (i j : ℕ) (h : 0 < I.W p q i j) : 0 < I.Z p q i j := by
  have nn : ∀ s, 0 ≤ I.wt p q i j s * I.c6v i j s.1 s.2 := fun s => by
    unfold Inp.wt; split
    · rename_i hc; exact mul_nonneg (Real.exp_pos _).le hc.le
    · simp
  rcases lt_or_eq_of_le (List.sum_nonneg (l := (I.samples i j).map fun s => I.wt p q i j s * I.c6v i j s.1 s.2)
    (by intro x hx; obtain ⟨s, _, rfl⟩ := List.mem_map.1 hx; exact nn s)) with hz | hz
  · exact hz
  · exfalso
    have hW : I.W p q i j = 0 := by
      unfold Inp.W
      refine List.sum_eq_zero fun x hx => ?_
      obtain ⟨s, hs, rfl⟩ := List.mem_map.1 hx
      have h0 : I.wt p q i j s * I.c6v i j s.1 s.2 = 0 := by
        have := List.all_zero_of_le_zero_le_of_sum_eq_zero
          (l := (I.samples i j).map fun s => I.wt p q i j s * I.c6v i j s.1 s.2)
          (by intro x hx; obtain ⟨s, _, rfl⟩ := List.mem_map.1 hx; exact nn s) hz.symm
          (x := I.wt p q i j s * I.c6v i j s.1 s.2) (List.mem_map.2 ⟨s, hs, rfl⟩)
        exact this
      rcases mul_eq_zero.1 h0 with h0 | h0
      · exact h0
      · unfold Inp.wt; rw [if_neg (by rw [h0]; exact lt_irrefl _)]
    exact h.ne' hW

variable {I : Inp} {v : ℕ → Fin 3 → ℝ} {M : Fin 3 → Fin 3 → ℝ}

theorem Regular.W (h : Regular I) {i j : ℕ} (hi : i < I.natom) (hj : j < I.natom) :
    1e-99 < I.W (I.CN i) (I.CN j) i j := by
  have := h.weight i hi j hj
  unfold Inp.W Inp.samples
  rw [sum_flatMap]
  simp only [List.map_map]
  rw [sum_range_list]
  refine lt_of_lt_of_eq this (Finset.sum_congr rfl fun s _ => ?_)
  rw [sum_range_list]
  rfl

theorem pair_pos (h : Regular I) {i j : ℕ} (hi : i < I.natom) (hj : j < I.natom) : 0 < (I.pair i j).1 := by
  unfold Inp.pair
  have hW := h.W hi hj
  rw [c6At_eq I _ _ i j hW]
  have hp : 0 < I.W (I.CN i) (I.CN j) i j := lt_trans (by norm_num) hW
  exact div_pos (Z_pos I _ _ i j hp) hp

theorem hd_pair (h : Regular I) {i j : ℕ} (hi : i < I.natom) (hj : j < I.natom) :
    HasDerivAt (fun t => ((I.move v M t).pair i j).1)
      ((I.pair i j).2.1 * I.CN' v M i + (I.pair i j).2.2 * I.CN' v M j) 0 := by
  have e : ∀ t, (I.move v M t).pair i j = I.c6At ((I.move v M t).CN i) ((I.move v M t).CN j) i j := fun t => rfl
  have e0 : I.pair i j = I.c6At ((I.move v M 0).CN i) ((I.move v M 0).CN j) i j := by rw [← e, move_zero]
  simp only [e]
  rw [e0]
  refine hd_c6At I (hd_CN h hi) (hd_CN h hj) i j ?_
  simp only [move_zero]
  exact h.W hi hj

theorem samples_sum (I : Inp) (i j : ℕ) (f : ℕ × ℕ → ℝ) :
    ((I.samples i j).map f).sum = ∑ s ∈ Finset.range (I.maxci i), ∑ u ∈ Finset.range (I.maxci j), f (s, u) := by
  unfold Inp.samples
  rw [sum_flatMap]
  simp only [List.map_map]
  rw [sum_range_list]
  refine Finset.sum_congr rfl fun s _ => ?_
  rw [sum_range_list]
  rfl

/-- On the diagonal both derivatives are the same. -/
theorem pair_diag (h : Regular I) {i : ℕ} (hi : i < I.natom) : (I.pair i i).2.1 = (I.pair i i).2.2 := by
  unfold Inp.pair
  have hW := h.W hi hi
  rw [c6At_eq I _ _ i i hW]
  have hs : ∀ s u, I.c6v i i s u = I.c6v i i u s := fun s u => (h.sym i hi s u).1
  have hc : ∀ s u, I.c6i i i s u = I.c6j i i u s := fun s u => (h.sym i hi s u).2
  have hwt : ∀ s u, I.wt (I.CN i) (I.CN i) i i (s, u) = I.wt (I.CN i) (I.CN i) i i (u, s) := fun s u => by
    unfold Inp.wt
    simp only [hs s u, hc s u, ← hc u s]
    rw [add_comm]
  have e1 : I.WI (I.CN i) (I.CN i) i i = I.WJ (I.CN i) (I.CN i) i i := by
    unfold Inp.WI Inp.WJ
    rw [samples_sum, samples_sum, Finset.sum_comm]
    refine Finset.sum_congr rfl fun s _ => Finset.sum_congr rfl fun u _ => ?_
    simp only [hwt u s, hc u s]
  have e2 : I.ZI (I.CN i) (I.CN i) i i = I.ZJ (I.CN i) (I.CN i) i i := by
    unfold Inp.ZI Inp.ZJ
    rw [samples_sum, samples_sum, Finset.sum_comm]
    refine Finset.sum_congr rfl fun s _ => Finset.sum_congr rfl fun u _ => ?_
    simp only [hwt u s, hc u s, hs u s]
  simp only [e1, e2]

theorem sqrtC6_pos (h : Regular I) {i j : ℕ} (hi : i < I.natom) (hj : j < I.natom) : 0 < I.sqrtC6 i j := by
  unfold Inp.sqrtC6; split
  · exact Real.sqrt_pos.2 (pair_pos h hi hj)
  · exact Real.sqrt_pos.2 (pair_pos h hj hi)

theorem hd_sqrtC6 (h : Regular I) {i j : ℕ} (hi : i < I.natom) (hj : j < I.natom) :
    HasDerivAt (fun t => (I.move v M t).sqrtC6 i j)
      ((I.dC6ij i j * I.CN' v M i + I.dC6ij j i * I.CN' v M j) / (2 * I.sqrtC6 i j)) 0 := by
  unfold Inp.sqrtC6
  by_cases hji : j ≤ i
  · simp only [if_pos hji]
    refine ((hd_pair h hi hj).sqrt ?_).congr_deriv ?_
    · rw [move_zero]; exact (pair_pos h hi hj).ne'
    · rw [move_zero]
      congr 1
      unfold Inp.dC6ij
      by_cases he : i = j
      · subst he
        simp only [if_true, pair_diag h hi]
      · rw [if_neg he, if_pos (by omega), if_neg (Ne.symm he), if_neg (by omega)]
  · simp only [if_neg hji]
    refine ((hd_pair h hj hi).sqrt ?_).congr_deriv ?_
    · rw [move_zero]; exact (pair_pos h hj hi).ne'
    · rw [move_zero]
      congr 1
      unfold Inp.dC6ij
      rw [if_neg (by omega), if_neg (by omega), if_neg (by omega), if_pos (by omega)]
      ring

end Sparc.D3

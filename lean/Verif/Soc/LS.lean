import Verif.Soc.Proj
import Mathlib.LinearAlgebra.Matrix.Kronecker

/-! # Spin-orbit coupling: angular momentum matrices -/

namespace Sparc.Soc

open Pres Matrix Kronecker

/-- `L_z` on the magnetic numbers `-l, …, l`. -/
def Lz (l : ℕ) : Matrix (Fin (2 * l + 1)) (Fin (2 * l + 1)) ℝ :=
  diagonal fun i => ((i : ℕ) : ℝ) - l

/-- The raising operator `L₊`: from `m` to `m + 1` with `√(l(l+1) - m(m+1))`. -/
noncomputable def Lp (l : ℕ) : Matrix (Fin (2 * l + 1)) (Fin (2 * l + 1)) ℝ := fun i j =>
  if (i : ℕ) = j + 1 then
    Real.sqrt (l * (l + 1) - (((j : ℕ) : ℝ) - l) * ((((j : ℕ) : ℝ) - l) + 1)) else 0

/-- `S_z` of spin one half. -/
noncomputable def Sz : Matrix (Fin 2) (Fin 2) ℝ := !![1 / 2, 0; 0, -(1 / 2)]

/-- The raising operator of spin one half. -/
def Sp : Matrix (Fin 2) (Fin 2) ℝ := !![0, 1; 0, 0]

/-- `L·S = L_z S_z + (L₊ S₋ + L₋ S₊)/2`. -/
noncomputable def LS (l : ℕ) : Matrix (Fin (2 * l + 1) × Fin 2) (Fin (2 * l + 1) × Fin 2) ℝ :=
  Lz l ⊗ₖ Sz + (1 / 2 : ℝ) • (Lp l ⊗ₖ Spᵀ + (Lp l)ᵀ ⊗ₖ Sp)

theorem root_sq (l : ℕ) (j : Fin (2 * l + 1)) :
    Real.sqrt (l * (l + 1) - (((j : ℕ) : ℝ) - l) * ((((j : ℕ) : ℝ) - l) + 1))
      * Real.sqrt (l * (l + 1) - (((j : ℕ) : ℝ) - l) * ((((j : ℕ) : ℝ) - l) + 1))
      = l * (l + 1) - (((j : ℕ) : ℝ) - l) * ((((j : ℕ) : ℝ) - l) + 1) := by
  refine Real.mul_self_sqrt ?_
  have h1 : (0 : ℝ) ≤ (j : ℕ) := Nat.cast_nonneg _
  have h2 : ((j : ℕ) : ℝ) ≤ 2 * l := by
    have := j.2
    have : (j : ℕ) ≤ 2 * l := by omega
    exact_mod_cast this
  have e : (l : ℝ) * (l + 1) - (((j : ℕ) : ℝ) - l) * ((((j : ℕ) : ℝ) - l) + 1)
      = (2 * l - (j : ℕ)) * ((j : ℕ) + 1) := by ring
  rw [e]
  exact mul_nonneg (by linarith) (by linarith)

/-- `[L_z, L₊] = L₊`. -/
theorem Lz_Lp (l : ℕ) : Lz l * Lp l - Lp l * Lz l = Lp l := by
  ext i j
  rw [Matrix.sub_apply, Lz, diagonal_mul, mul_diagonal]
  unfold Lp
  by_cases h : (i : ℕ) = j + 1
  · rw [if_pos h, h]
    push_cast
    ring
  · rw [if_neg h]
    ring

theorem Lz_Lm (l : ℕ) : Lz l * (Lp l)ᵀ - (Lp l)ᵀ * Lz l = -(Lp l)ᵀ := by
  have h := congrArg transpose (Lz_Lp l)
  rw [transpose_sub, transpose_mul, transpose_mul] at h
  have hz : (Lz l)ᵀ = Lz l := by unfold Lz; exact diagonal_transpose _
  rw [hz] at h
  rw [← neg_sub, h]

/-- `L₋ L₊ = l(l+1) - L_z² - L_z`. -/
theorem Lm_Lp (l : ℕ) : (Lp l)ᵀ * Lp l = ((l : ℝ) * (l + 1)) • (1 : Matrix _ _ ℝ)
    - Lz l * Lz l - Lz l := by
  ext i j
  rw [mul_apply, Lz, diagonal_mul_diagonal]
  simp only [Matrix.sub_apply, Matrix.smul_apply, Matrix.one_apply, transpose_apply, diagonal_apply,
    smul_eq_mul]
  by_cases hij : i = j
  · subst hij
    simp only [if_true, mul_one]
    have hval : ∀ k : Fin (2 * l + 1), Lp l k i * Lp l k i = if (k : ℕ) = i + 1 then
        (l : ℝ) * (l + 1) - (((i : ℕ) : ℝ) - l) * ((((i : ℕ) : ℝ) - l) + 1) else 0 := by
      intro k
      unfold Lp
      by_cases h : (k : ℕ) = i + 1
      · rw [if_pos h, if_pos h, root_sq]
      · rw [if_neg h, if_neg h, mul_zero]
    simp only [hval]
    by_cases hi : (i : ℕ) + 1 < 2 * l + 1
    · rw [Finset.sum_eq_single (⟨i + 1, hi⟩ : Fin (2 * l + 1))]
      · rw [if_pos rfl]
        ring
      · intro k _ hk
        rw [if_neg]
        intro h
        exact hk (Fin.ext h)
      · intro h
        exact absurd (Finset.mem_univ _) h
    · rw [Finset.sum_eq_zero]
      · have : (i : ℕ) = 2 * l := by have := i.2; omega
        rw [this]
        push_cast
        ring
      · intro k _
        rw [if_neg]
        have := k.2
        omega
  · simp only [if_neg hij, mul_zero, sub_zero]
    refine Finset.sum_eq_zero fun k _ => ?_
    unfold Lp
    by_cases h : (k : ℕ) = i + 1
    · have h' : ¬ (k : ℕ) = j + 1 := by
        intro e
        exact hij (Fin.ext (by omega))
      rw [if_neg h', mul_zero]
    · rw [if_neg h, zero_mul]

/-- `L₊ L₋ = l(l+1) - L_z² + L_z`. -/
theorem Lp_Lm (l : ℕ) : Lp l * (Lp l)ᵀ = ((l : ℝ) * (l + 1)) • (1 : Matrix _ _ ℝ)
    - Lz l * Lz l + Lz l := by
  ext i j
  rw [mul_apply, Lz, diagonal_mul_diagonal]
  simp only [Matrix.sub_apply, Matrix.add_apply, Matrix.smul_apply, Matrix.one_apply, transpose_apply,
    diagonal_apply, smul_eq_mul]
  by_cases hij : i = j
  · subst hij
    simp only [if_true, mul_one]
    have hval : ∀ k : Fin (2 * l + 1), Lp l i k * Lp l i k = if (i : ℕ) = k + 1 then
        (l : ℝ) * (l + 1) - (((i : ℕ) : ℝ) - l - 1) * (((i : ℕ) : ℝ) - l) else 0 := by
      intro k
      unfold Lp
      by_cases h : (i : ℕ) = k + 1
      · rw [if_pos h, if_pos h, root_sq, h]
        push_cast
        ring
      · rw [if_neg h, if_neg h, mul_zero]
    simp only [hval]
    by_cases hi : (i : ℕ) = 0
    · rw [Finset.sum_eq_zero]
      · rw [hi]
        push_cast
        ring
      · intro k _
        rw [if_neg]
        omega
    · have hlt : (i : ℕ) - 1 < 2 * l + 1 := by have := i.2; omega
      rw [Finset.sum_eq_single (⟨i - 1, hlt⟩ : Fin (2 * l + 1))]
      · rw [if_pos (by simp only; omega)]
        ring
      · intro k _ hk
        rw [if_neg]
        intro h
        exact hk (Fin.ext (by simp only; omega))
      · intro h
        exact absurd (Finset.mem_univ _) h
  · simp only [if_neg hij, mul_zero, sub_zero, add_zero]
    refine Finset.sum_eq_zero fun k _ => ?_
    unfold Lp
    by_cases h : (i : ℕ) = k + 1
    · have h' : ¬ (j : ℕ) = k + 1 := by
        intro e
        exact hij (Fin.ext (by omega))
      rw [if_neg h', mul_zero]
    · rw [if_neg h, zero_mul]

/-- The square of `L·S`. -/
theorem LS_sq (l : ℕ) : LS l * LS l = ((l : ℝ) * (l + 1) / 4) • (1 : Matrix _ _ ℝ)
    - (1 / 2 : ℝ) • LS l := by
  have z1 : Lz l * Lp l = Lp l * Lz l + Lp l := by rw [← sub_eq_iff_eq_add']; exact Lz_Lp l
  have z2 : Lz l * (Lp l)ᵀ = (Lp l)ᵀ * Lz l - (Lp l)ᵀ := by
    have := Lz_Lm l
    rw [sub_eq_iff_eq_add'] at this
    rw [this]; abel
  have hone : (1 : Matrix (Fin (2 * l + 1) × Fin 2) (Fin (2 * l + 1) × Fin 2) ℝ)
      = (1 : Matrix (Fin (2 * l + 1)) (Fin (2 * l + 1)) ℝ) ⊗ₖ (1 : Matrix (Fin 2) (Fin 2) ℝ) :=
    one_kronecker_one.symm
  unfold LS
  rw [hone]
  simp only [add_mul, mul_add, smul_mul_assoc, mul_smul_comm, ← mul_kronecker_mul, z1, z2,
    Lm_Lp, Lp_Lm]
  have s1 : Sz * Sz = (1 / 4 : ℝ) • (1 : Matrix (Fin 2) (Fin 2) ℝ) := by
    ext i j; fin_cases i <;> fin_cases j <;> simp [Sz, mul_apply, Fin.sum_univ_two] <;> norm_num
  have s2 : Sz * Spᵀ = -(1 / 2 : ℝ) • Spᵀ := by
    ext i j; fin_cases i <;> fin_cases j <;> simp [Sz, Sp, mul_apply, Fin.sum_univ_two]
  have s3 : Spᵀ * Sz = (1 / 2 : ℝ) • Spᵀ := by
    ext i j; fin_cases i <;> fin_cases j <;> simp [Sz, Sp, mul_apply, Fin.sum_univ_two]
  have s4 : Sz * Sp = (1 / 2 : ℝ) • Sp := by
    ext i j; fin_cases i <;> fin_cases j <;> simp [Sz, Sp, mul_apply, Fin.sum_univ_two]
  have s5 : Sp * Sz = -(1 / 2 : ℝ) • Sp := by
    ext i j; fin_cases i <;> fin_cases j <;> simp [Sz, Sp, mul_apply, Fin.sum_univ_two]
  have s6 : Spᵀ * Spᵀ = 0 := by
    ext i j; fin_cases i <;> fin_cases j <;> simp [Sp, mul_apply, Fin.sum_univ_two]
  have s7 : Sp * Sp = 0 := by
    ext i j; fin_cases i <;> fin_cases j <;> simp [Sp, mul_apply, Fin.sum_univ_two]
  have s8 : Spᵀ * Sp = (1 / 2 : ℝ) • (1 : Matrix (Fin 2) (Fin 2) ℝ) - Sz := by
    ext i j; fin_cases i <;> fin_cases j <;> simp [Sz, Sp, mul_apply, Fin.sum_univ_two] <;> norm_num
  have s9 : Sp * Spᵀ = (1 / 2 : ℝ) • (1 : Matrix (Fin 2) (Fin 2) ℝ) + Sz := by
    ext i j; fin_cases i <;> fin_cases j <;> simp [Sz, Sp, mul_apply, Fin.sum_univ_two] <;> norm_num
  simp only [s1, s2, s3, s4, s5, s6, s7, s8, s9]
  ext ⟨i, s⟩ ⟨j, t⟩
  simp only [Matrix.add_apply, Matrix.sub_apply, Matrix.smul_apply, kroneckerMap_apply, smul_eq_mul,
    Matrix.zero_apply]
  ring

variable {𝕜 : Type} [RCLike 𝕜]

/-- The sum with `L·S` written out. -/
theorem LS_sum (l : ℕ) (a b : ℕ → ℕ → 𝕜) :
    ∑ p : Fin (2 * l + 1) × Fin 2, ∑ p' : Fin (2 * l + 1) × Fin 2,
      a p.1 p.2 * ((LS l p p' : ℝ) : 𝕜) * b p'.1 p'.2
    = ((List.range (2 * l + 1)).map fun (i : ℕ) => (((((i : ℝ) - l) / 2 : ℝ)) : 𝕜)
        * (a i 0 * b i 0 - a i 1 * b i 1)).sum
      + ((List.range (2 * l + 1)).map fun (i : ℕ) => if i = 2 * l then 0 else
        ((Real.sqrt (l * (l + 1) - ((i : ℝ) - l) * (((i : ℝ) - l) + 1)) / 2 : ℝ) : 𝕜)
          * (a i 0 * b (i + 1) 1 + a (i + 1) 1 * b i 0)).sum := by
  have hLS : ∀ p p' : Fin (2 * l + 1) × Fin 2, LS l p p' = Lz l p.1 p'.1 * Sz p.2 p'.2
      + 1 / 2 * (Lp l p.1 p'.1 * Sp p'.2 p.2 + Lp l p'.1 p.1 * Sp p.2 p'.2) := by
    intro p p'
    simp only [LS, Matrix.add_apply, Matrix.smul_apply, kroneckerMap_apply, smul_eq_mul,
      transpose_apply]
  have hrange : ∀ f : ℕ → 𝕜, ((List.range (2 * l + 1)).map f).sum = ∑ i : Fin (2 * l + 1), f i := by
    intro f
    rw [Fin.sum_univ_eq_sum_range f, Finset.sum, Finset.range_val]
    rfl
  rw [hrange, hrange]
  simp only [Fintype.sum_prod_type, Fin.sum_univ_two, hLS]
  have s00 : Sz 0 0 = 1 / 2 := rfl
  have s01 : Sz 0 1 = 0 := rfl
  have s10 : Sz 1 0 = 0 := rfl
  have s11 : Sz 1 1 = -(1 / 2) := rfl
  have p00 : Sp 0 0 = 0 := rfl
  have p01 : Sp 0 1 = 1 := rfl
  have p10 : Sp 1 0 = 0 := rfl
  have p11 : Sp 1 1 = 0 := rfl
  simp only [s00, s01, s10, s11, p00, p01, p10, p11, Fin.val_zero, Fin.val_one, mul_zero, add_zero,
    zero_add, mul_one, Finset.sum_add_distrib]
  have hz : ∀ (c : ℝ) (f : ℕ → ℕ → 𝕜), ∑ x : Fin (2 * l + 1), ∑ x' : Fin (2 * l + 1),
      f x x' * ((Lz l x x' * c : ℝ) : 𝕜) = ∑ x : Fin (2 * l + 1),
        f x x * ((((x : ℕ) : ℝ) - l) * c : ℝ) := by
    intro c f
    refine Finset.sum_congr rfl fun x _ => ?_
    rw [Finset.sum_eq_single x]
    · unfold Lz
      rw [diagonal_apply_eq]
    · intro y _ hy
      unfold Lz
      rw [diagonal_apply_ne _ (Ne.symm hy)]
      simp
    · intro h
      exact absurd (Finset.mem_univ _) h
  have hp : ∀ (f : ℕ → ℕ → 𝕜), ∑ x : Fin (2 * l + 1), ∑ x' : Fin (2 * l + 1),
      f x x' * ((1 / 2 * Lp l x' x : ℝ) : 𝕜) = ∑ x : Fin (2 * l + 1),
        if (x : ℕ) = 2 * l then 0 else f x (x + 1)
          * ((Real.sqrt (l * (l + 1) - (((x : ℕ) : ℝ) - l) * ((((x : ℕ) : ℝ) - l) + 1)) / 2 : ℝ) : 𝕜) := by
    intro f
    refine Finset.sum_congr rfl fun x _ => ?_
    by_cases hx : (x : ℕ) = 2 * l
    · rw [if_pos hx]
      refine Finset.sum_eq_zero fun y _ => ?_
      unfold Lp
      rw [if_neg (by have := y.2; omega)]
      simp
    · rw [if_neg hx]
      have hlt : (x : ℕ) + 1 < 2 * l + 1 := by have := x.2; omega
      rw [Finset.sum_eq_single (⟨x + 1, hlt⟩ : Fin (2 * l + 1))]
      · unfold Lp
        rw [if_pos rfl]
        congr 2
        ring
      · intro y _ hy
        unfold Lp
        rw [if_neg]
        · simp
        · intro h
          exact hy (Fin.ext h)
      · intro h
        exact absurd (Finset.mem_univ _) h
  have e1 := hz (1 / 2) (fun x x' => a x 0 * b x' 0)
  have e2 := hz (-(1 / 2)) (fun x x' => a x 1 * b x' 1)
  have e3 := hp (fun x x' => a x 0 * b x' 1)
  have e4 := hp (fun x x' => a x' 1 * b x 0)
  rw [Finset.sum_comm] at e4
  have c1 : ∀ (u v w : 𝕜), u * w * v = u * v * w := fun u v w => by ring
  simp only [c1]
  rw [e1, e2, e3, e4, ← Finset.sum_add_distrib, ← Finset.sum_add_distrib]
  rw [← Finset.sum_add_distrib, ← Finset.sum_add_distrib]
  refine Finset.sum_congr rfl fun x _ => ?_
  by_cases hx : (x : ℕ) = 2 * l
  · simp only [if_pos hx]
    push_cast
    ring
  · simp only [if_neg hx]
    push_cast
    ring

end Sparc.Soc

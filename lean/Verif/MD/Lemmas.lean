import Verif.MD.Model
import Verif.Tac
import Mathlib.Algebra.Order.Chebyshev
import Mathlib.Algebra.BigOperators.Field

/-! # Molecular dynamics (lemmas) -/

namespace Sparc.MD

variable {A : Type} [Fintype A]

theorem v2_gauss (mass : A → ℝ) (v : V A) :
    ∑ i, (v i 0 * v i 0 + v i 1 * v i 1 + v i 2 * v i 2) * mass i = 2 * ke mass v := by
  rw [ke, Finset.mul_sum]
  exact Finset.sum_congr rfl fun i _ => by ring

theorem v2_eq (mass : A → ℝ) (v : V A) : v2 mass v = 2 * ke mass v := by
  rw [ke, Finset.mul_sum, v2]
  exact Finset.sum_congr rfl fun i _ => by ring

theorem ke_nonneg {mass : A → ℝ} (hm : ∀ i, 0 < mass i) (v : V A) : 0 ≤ ke mass v :=
  Finset.sum_nonneg fun i _ => by have := hm i; positivity

theorem ke_pos {mass : A → ℝ} (hm : ∀ i, 0 < mass i) {v : V A} (hv : v ≠ 0) : 0 < ke mass v := by
  rcases (ke_nonneg hm v).lt_or_eq with h | h
  · exact h
  · exfalso
    apply hv
    have h0 := (Finset.sum_eq_zero_iff_of_nonneg (fun i _ => by have := hm i; positivity)).1 h.symm
    funext i d
    have h1 := h0 i (Finset.mem_univ i)
    have hmi := hm i
    have h2 : v i 0 ^ 2 + v i 1 ^ 2 + v i 2 ^ 2 = 0 := by
      rcases mul_eq_zero.1 h1 with h | h
      · exfalso; norm_num at h; exact hmi.ne' h
      · exact h
    have e0 : v i 0 = 0 := by nlinarith [sq_nonneg (v i 0), sq_nonneg (v i 1), sq_nonneg (v i 2)]
    have e1 : v i 1 = 0 := by nlinarith [sq_nonneg (v i 0), sq_nonneg (v i 1), sq_nonneg (v i 2)]
    have e2 : v i 2 = 0 := by nlinarith [sq_nonneg (v i 0), sq_nonneg (v i 1), sq_nonneg (v i 2)]
    fin_cases d
    · exact e0
    · exact e1
    · exact e2

theorem ke_scale (mass : A → ℝ) (v : V A) (c : ℝ) :
    ke mass (fun i d => v i d * c) = c ^ 2 * ke mass v := by
  rw [ke, ke, Finset.mul_sum]
  exact Finset.sum_congr rfl fun i _ => by ring

/-- `f = m acc`: the products of forces and accelerations are a (doubled) kinetic energy. -/
theorem dot_acc {mass : A → ℝ} {f acc : V A} (h : ∀ i d, f i d = mass i * acc i d) :
    dot f acc = 2 * ke mass acc := by
  rw [dot, ke, Finset.mul_sum]
  exact Finset.sum_congr rfl fun i _ => by rw [h, h, h]; ring

theorem ke_combine {mass : A → ℝ} {f acc v : V A} (h : ∀ i d, f i d = mass i * acc i d) (s c : ℝ) :
    ke mass (fun i d => (v i d + acc i d * s) / c) =
      (ke mass v + s * dot f v + s ^ 2 * ke mass acc) / c ^ 2 := by
  simp only [ke, dot]
  rw [Finset.mul_sum, Finset.mul_sum, ← Finset.sum_add_distrib, ← Finset.sum_add_distrib,
    Finset.sum_div]
  refine Finset.sum_congr rfl fun i _ => ?_
  rw [h, h, h]
  by_cases hc : c = 0
  · subst hc; norm_num
  · field_simp; ring

theorem cauchy {mass : A → ℝ} (hm : ∀ i, 0 < mass i) {f acc v : V A}
    (h : ∀ i d, f i d = mass i * acc i d) :
    dot f v ^ 2 ≤ (2 * ke mass v) * (2 * ke mass acc) := by
  have key := Finset.sum_sq_le_sum_mul_sum_of_sq_le_mul (Finset.univ : Finset (A × Fin 3))
    (r := fun p => f p.1 p.2 * v p.1 p.2) (f := fun p => mass p.1 * v p.1 p.2 ^ 2)
    (g := fun p => mass p.1 * acc p.1 p.2 ^ 2)
    (fun p _ => by have := hm p.1; positivity) (fun p _ => by have := hm p.1; positivity)
    (fun p _ => by rw [h]; apply le_of_eq; ring)
  simp only [Fintype.sum_prod_type, Fin.sum_univ_three] at key
  rw [← v2_eq, ← v2_eq]
  have e : ∀ u : V A, v2 mass u =
      ∑ x, (mass x * u x 0 ^ 2 + mass x * u x 1 ^ 2 + mass x * u x 2 ^ 2) := fun u =>
    Finset.sum_congr rfl fun i _ => by ring
  rw [e, e]
  exact key

/-- The identity behind the Gaussian thermostat. -/
theorem gauss_identity {a b c s2 σ : ℝ} (hσ : σ ≠ 0) (hb : σ ^ 2 = b) (hc : c ^ 2 - s2 ^ 2 = 1) :
    1 + 2 * a * (a * (c - 1) / b + s2 / σ) + b * (a * (c - 1) / b + s2 / σ) ^ 2 =
      (a * s2 / σ + c) ^ 2 := by
  subst hb
  have e : a * (c - 1) / σ ^ 2 + s2 / σ = (a / σ * (c - 1) + s2) / σ := by field_simp
  have e2 : a * s2 / σ = a / σ * s2 := by ring
  have e3 : a = a / σ * σ := by field_simp
  rw [e, e2]
  generalize hα : a / σ = α at *
  rw [e3]
  field_simp
  linear_combination -(1 + α ^ 2) * hc + (2 * α ^ 2) * hc

theorem scdot_pos {a σ x : ℝ} (hσ : 0 < σ) (h : a ^ 2 ≤ σ ^ 2) :
    0 < a * Real.sinh x / σ + Real.cosh x := by
  have h1 : |a| ≤ σ := abs_le_of_sq_le_sq h hσ.le
  have h2 : |a * Real.sinh x / σ| ≤ |Real.sinh x| := by
    rw [abs_div, abs_mul, abs_of_pos hσ, div_le_iff₀ hσ]
    nlinarith [abs_nonneg (Real.sinh x)]
  have h3 : |Real.sinh x| < Real.cosh x := by
    rw [abs_lt]
    constructor
    · have := Real.cosh_add_sinh x
      have := Real.exp_pos x
      linarith
    · have := Real.cosh_sub_sinh x
      have := Real.exp_pos (-x)
      linarith
  have := neg_abs_le (a * Real.sinh x / σ)
  linarith

end Sparc.MD

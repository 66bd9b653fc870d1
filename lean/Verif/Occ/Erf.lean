import Mathlib.Analysis.SpecialFunctions.Gaussian.GaussianIntegral
import Mathlib.MeasureTheory.Integral.IntegralEqImproper
import Mathlib.MeasureTheory.Integral.DominatedConvergence
import Mathlib.Analysis.SpecialFunctions.Integrals.Basic
import Verif.Tac

/-! The error function as the integral it is defined by in C99 (`erf` in `math.h`). -/

namespace Sparc.Occ

open MeasureTheory Real Set Filter Topology

/-- `erf`. -/
noncomputable def erf (x : ℝ) : ℝ := 2 / √π * ∫ t in (0:ℝ)..x, exp (-t ^ 2)

theorem gauss_cont : Continuous fun t : ℝ => exp (-t ^ 2) := by fun_prop

theorem gauss_ii (a b : ℝ) : IntervalIntegrable (fun t : ℝ => exp (-t ^ 2)) volume a b :=
  gauss_cont.intervalIntegrable a b

theorem erf_sub (x y : ℝ) : erf y - erf x = 2 / √π * ∫ t in x..y, exp (-t ^ 2) := by
  unfold erf
  rw [← mul_sub, intervalIntegral.integral_interval_sub_left (gauss_ii _ _) (gauss_ii _ _)]

theorem sqrt_pi_pos : 0 < √π := Real.sqrt_pos.mpr pi_pos

theorem erf_strictMono : StrictMono erf := by
  intro x y h
  have h1 : 0 < ∫ t in x..y, exp (-t ^ 2) :=
    intervalIntegral.intervalIntegral_pos_of_pos (gauss_ii _ _) (fun t => exp_pos _) h
  have := erf_sub x y
  have h2 : 0 < 2 / √π := div_pos two_pos sqrt_pi_pos
  nlinarith [mul_pos h2 h1]

theorem erf_neg (x : ℝ) : erf (-x) = -erf x := by
  unfold erf
  have h := intervalIntegral.integral_comp_neg (a := 0) (b := x) (fun t : ℝ => exp (-t ^ 2))
  simp only [neg_zero] at h
  have h2 : (∫ t in (0:ℝ)..x, exp (-(-t) ^ 2)) = ∫ t in (0:ℝ)..x, exp (-t ^ 2) := by
    simp only [neg_sq]
  rw [h2] at h
  rw [intervalIntegral.integral_symm, ← h]
  ring

theorem erf_tendsto_top : Tendsto erf atTop (𝓝 1) := by
  have hi : IntegrableOn (fun t : ℝ => exp (-t ^ 2)) (Ioi 0) := by
    have := (integrable_exp_neg_mul_sq (b := 1) one_pos).integrableOn (s := Ioi 0)
    simpa using this
  have h := intervalIntegral_tendsto_integral_Ioi (0:ℝ) hi tendsto_id
  have hv : ∫ t in Ioi (0:ℝ), exp (-t ^ 2) = √π / 2 := by
    have := integral_gaussian_Ioi 1
    simpa using this
  rw [hv] at h
  have h2 := h.const_mul (2 / √π)
  have : 2 / √π * (√π / 2) = 1 := by
    have := sqrt_pi_pos.ne'; field_simp
  rw [this] at h2
  exact h2

theorem erf_tendsto_bot : Tendsto erf atBot (𝓝 (-1)) := by
  have h := (erf_tendsto_top.comp tendsto_neg_atBot_atTop).neg
  refine h.congr ?_
  intro x
  simp [erf_neg]

theorem erf_lt_one (x : ℝ) : erf x < 1 := by
  have h1 : erf x < erf (x + 1) := erf_strictMono (by linarith)
  have h2 : erf (x + 1) ≤ 1 :=
    erf_strictMono.monotone.ge_of_tendsto erf_tendsto_top (x + 1)
  linarith

theorem neg_one_lt_erf (x : ℝ) : -1 < erf x := by
  have := erf_lt_one (-x)
  rw [erf_neg] at this; linarith

/-- Slope at most `2/√π`, so half the difference is at most the distance. -/
theorem erf_lipschitz (x y : ℝ) : |erf y - erf x| ≤ 2 * |y - x| := by
  rw [erf_sub, abs_mul, abs_of_pos (div_pos two_pos sqrt_pi_pos)]
  have h1 : |∫ t in x..y, exp (-t ^ 2)| ≤ 1 * |y - x| := by
    have := intervalIntegral.norm_integral_le_of_norm_le_const (a := x) (b := y)
      (f := fun t : ℝ => exp (-t ^ 2)) (C := 1) (by
        intro t _
        rw [Real.norm_eq_abs, abs_of_pos (exp_pos _)]
        exact Real.exp_le_one_iff.mpr (by nlinarith [sq_nonneg t]))
    simpa using this
  have h2 : 1 ≤ √π := by
    rw [Real.one_le_sqrt]; linarith [Real.two_le_pi]
  have h3 : 2 / √π ≤ 2 := by
    rw [div_le_iff₀ sqrt_pi_pos]; linarith
  have := abs_nonneg (∫ t in x..y, exp (-t ^ 2))
  have h4 : 0 < 2 / √π := div_pos two_pos sqrt_pi_pos
  nlinarith [abs_nonneg (y - x)]

end Sparc.Occ

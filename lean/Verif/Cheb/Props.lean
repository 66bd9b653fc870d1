import Mathlib.Tactic.Ring
import Mathlib.Tactic.Linarith
import Mathlib.Tactic.FieldSimp
import Mathlib.Tactic.Module
import Mathlib.Algebra.Polynomial.Module.AEval
import Mathlib.Analysis.SpecialFunctions.Trigonometric.Chebyshev.RootsExtrema
import Mathlib.LinearAlgebra.Eigenspace.Minpoly
import Verif.Cheb.Model

/-! # C06: the Chebyshev filter is the scaled Chebyshev polynomial of the Hamiltonian -/

open Polynomial Polynomial.Chebyshev

namespace Sparc.Cheb

variable {V : Type*} [AddCommGroup V] [Module ℝ V]

/-- The shifted and scaled operator `(H - c)/e` with `c`, `e` centre and half width of
`[a, b]`. -/
noncomputable def scaledOp (H : V →ₗ[ℝ] V) (a b : ℝ) : Module.End ℝ V :=
  (2 / (b - a)) • (H - ((a + b) / 2) • (1 : Module.End ℝ V))

/-- The affine map sending `[a, b]` onto `[-1, 1]`. -/
noncomputable def scaled (a b t : ℝ) : ℝ := (2 * t - (a + b)) / (b - a)

theorem scaled_lt {a b t : ℝ} (hab : a < b) (ht : t < a) : scaled a b t < -1 := by
  unfold scaled
  rw [div_lt_iff₀ (by linarith)]; linarith

theorem scaled_abs {a b t : ℝ} (hab : a < b) (h1 : a ≤ t) (h2 : t ≤ b) : |scaled a b t| ≤ 1 := by
  unfold scaled
  rw [abs_div, abs_of_pos (show 0 < b - a by linarith), div_le_one (by linarith), abs_le]
  constructor <;> linarith

theorem T_ne (n : ℕ) {x : ℝ} (hx : x < -1) : (T ℝ (n : ℤ)).eval x ≠ 0 := by
  have h := one_le_abs_eval_T_real (n : ℤ) (x := x) (by rw [abs_of_neg (by linarith)]; linarith)
  intro h0
  rw [h0, abs_zero] at h
  linarith

theorem T_rec (n : ℕ) : T ℝ ((n + 2 : ℕ) : ℤ) = 2 * X * T ℝ ((n + 1 : ℕ) : ℤ) - T ℝ (n : ℤ) := by
  have := T_add_two ℝ (n : ℤ)
  push_cast
  exact this

/-- The loop invariant: after `k` iterations the two work arrays hold the scaled
Chebyshev vectors of consecutive degrees. -/
theorem filter_invariant (H : V →ₗ[ℝ] V) (a b a0 : ℝ) (hab : a < b) (ha0 : a0 < a) (v : V) (k : ℕ) :
    filter H (k + 1) a b a0 v =
      { X := (1 / (T ℝ (k : ℤ)).eval (scaled a b a0)) • aeval (scaledOp H a b) (T ℝ (k : ℤ)) v
        Y := (1 / (T ℝ ((k + 1 : ℕ) : ℤ)).eval (scaled a b a0)) •
          aeval (scaledOp H a b) (T ℝ ((k + 1 : ℕ) : ℤ)) v
        sigma := (T ℝ (k : ℤ)).eval (scaled a b a0) / (T ℝ ((k + 1 : ℕ) : ℤ)).eval (scaled a b a0) } := by
  have hx := scaled_lt hab ha0
  have hba : b - a ≠ 0 := by linarith
  have hd : 2 * a0 - (a + b) ≠ 0 := by linarith
  induction k with
  | zero =>
    unfold filter
    dsimp only
    rw [show 0 + 1 - 1 = 0 from rfl, Function.iterate_zero_apply]
    have e1 : (1 / 2 * (b - a)) / (a0 - 1 / 2 * (b + a)) = 1 / scaled a b a0 := by
      unfold scaled
      have : a0 - 1 / 2 * (b + a) = (2 * a0 - (a + b)) / 2 := by ring
      rw [this]; field_simp
    simp only [Nat.cast_zero, T_zero, map_one,
      Module.End.one_apply, eval_one, div_one, one_smul, zero_add, Nat.cast_one, T_one, aeval_X, eval_X]
    rw [e1]
    congr 1
    unfold hmul scaledOp
    simp only [LinearMap.smul_apply, LinearMap.sub_apply, Module.End.one_apply]
    have hs : scaled a b a0 ≠ 0 := by linarith
    have hsc : 1 / scaled a b a0 / (1 / 2 * (b - a)) = 1 / scaled a b a0 * (2 / (b - a)) := by
      field_simp
    rw [hsc, mul_smul]
    congr 2
    rw [neg_smul, ← sub_eq_add_neg]
    congr 2
    ring
  | succ k ih =>
    have step : filter H (k + 1 + 1) a b a0 v =
        body H ((1 / 2) * (b + a)) ((1 / 2) * (b - a)) (2 / (((1 / 2) * (b - a)) / (a0 - (1 / 2) * (b + a))))
          (filter H (k + 1) a b a0 v) := by
      unfold filter
      simp only [Nat.add_sub_cancel]
      rw [Function.iterate_succ_apply']
    rw [step, ih]
    have hg : 2 / (((1 / 2) * (b - a)) / (a0 - (1 / 2) * (b + a))) = 2 * scaled a b a0 := by
      unfold scaled
      have : a0 - 1 / 2 * (b + a) = (2 * a0 - (a + b)) / 2 := by ring
      rw [this]; field_simp
    rw [hg]
    have t0 := T_ne k hx
    have t1 := T_ne (k + 1) hx
    have t2 := T_ne (k + 2) hx
    have hr := congrArg (fun p => p.eval (scaled a b a0)) (T_rec k)
    simp only [eval_sub, eval_mul, eval_X, eval_ofNat] at hr
    have hro := congrArg (fun p => aeval (scaledOp H a b) p v) (T_rec k)
    simp only [map_sub, map_mul, aeval_X, map_ofNat, LinearMap.sub_apply, Module.End.mul_apply] at hro
    unfold body
    dsimp only
    have hs2 : 1 / (2 * scaled a b a0 - (T ℝ (k : ℤ)).eval (scaled a b a0) / (T ℝ ((k + 1 : ℕ) : ℤ)).eval (scaled a b a0))
        = (T ℝ ((k + 1 : ℕ) : ℤ)).eval (scaled a b a0) / (T ℝ ((k + 2 : ℕ) : ℤ)).eval (scaled a b a0) := by
      have : 2 * scaled a b a0 - (T ℝ (k : ℤ)).eval (scaled a b a0) / (T ℝ ((k + 1 : ℕ) : ℤ)).eval (scaled a b a0)
          = (T ℝ ((k + 2 : ℕ) : ℤ)).eval (scaled a b a0) / (T ℝ ((k + 1 : ℕ) : ℤ)).eval (scaled a b a0) := by
        rw [hr]; field_simp
      rw [this, one_div_div]
    rw [hs2]
    congr 1
    generalize hu : (aeval (scaledOp H a b)) (T ℝ ((k + 1 : ℕ) : ℤ)) v = u at *
    generalize hw : (aeval (scaledOp H a b)) (T ℝ (k : ℤ)) v = w at *
    rw [show k + 1 + 1 = k + 2 from rfl, hro]
    generalize (T ℝ ((k + 2 : ℕ) : ℤ)).eval (scaled a b a0) = y2 at *
    generalize (T ℝ ((k + 1 : ℕ) : ℤ)).eval (scaled a b a0) = y1 at *
    generalize (T ℝ (k : ℤ)).eval (scaled a b a0) = y0 at *
    have hop : hmul H (-(1 / 2 * (b + a))) ((1 / y1) • u) = ((1 / 2 * (b - a)) * (1 / y1)) • scaledOp H a b u := by
      unfold hmul scaledOp
      simp only [LinearMap.smul_apply, LinearMap.sub_apply, Module.End.one_apply, map_smul]
      have : (1 / 2 * (b - a)) * (1 / y1) * (2 / (b - a)) = 1 / y1 := by field_simp
      rw [smul_smul (1 / 2 * (b - a) * (1 / y1)), this]
      module
    rw [hop]
    have h2 : (2 : Module.End ℝ V) (scaledOp H a b u) = (2 : ℝ) • scaledOp H a b u := by
      rw [show (2 : Module.End ℝ V) = 1 + 1 by norm_num, LinearMap.add_apply, Module.End.one_apply, two_smul]
    rw [h2, smul_smul, smul_smul]
    have c1 : 2 * (y1 / y2) / (1 / 2 * (b - a)) * (1 / 2 * (b - a) * (1 / y1)) = 1 / y2 * 2 := by
      field_simp
    have c2 : y0 / y1 * (y1 / y2) * (1 / y0) = 1 / y2 := by field_simp
    rw [c1, c2]
    module

/-- **C06.** With bounds `a < b` and scaling point `a0 < a`, filtering with degree `m ≥ 1`
returns `T_m((H-c)/e) X / T_m((a0-c)/e)`. -/
theorem cheb_filter (H : V →ₗ[ℝ] V) (a b a0 : ℝ) (hab : a < b) (ha0 : a0 < a) (v : V) (m : ℕ)
    (hm : 1 ≤ m) :
    (filter H m a b a0 v).Y =
      (1 / (T ℝ (m : ℤ)).eval (scaled a b a0)) • aeval (scaledOp H a b) (T ℝ (m : ℤ)) v := by
  obtain ⟨k, rfl⟩ : ∃ k, m = k + 1 := ⟨m - 1, by omega⟩
  rw [filter_invariant H a b a0 hab ha0]

/-- **C06**, spectral form: an eigenvector is multiplied by the scalar filter function. -/
theorem cheb_filter_eigen (H : V →ₗ[ℝ] V) (a b a0 : ℝ) (hab : a < b) (ha0 : a0 < a) (v : V)
    (lam : ℝ) (hv : H v = lam • v) (m : ℕ) (hm : 1 ≤ m) :
    (filter H m a b a0 v).Y =
      ((T ℝ (m : ℤ)).eval (scaled a b lam) / (T ℝ (m : ℤ)).eval (scaled a b a0)) • v := by
  rw [cheb_filter H a b a0 hab ha0 v m hm]
  have hop : scaledOp H a b v = scaled a b lam • v := by
    unfold scaledOp scaled
    simp only [LinearMap.smul_apply, LinearMap.sub_apply, Module.End.one_apply, hv]
    rw [← sub_smul, smul_smul]
    congr 1
    have : b - a ≠ 0 := by linarith
    field_simp
  have hp : ∀ p : ℝ[X], aeval (scaledOp H a b) p v = p.eval (scaled a b lam) • v := by
    intro p
    induction p using Polynomial.induction_on' with
    | add p q hp hq => simp only [map_add, LinearMap.add_apply, hp, hq, eval_add, add_smul]
    | monomial n r =>
      rw [aeval_monomial, eval_monomial]
      simp only [Module.End.mul_apply, Module.algebraMap_end_apply]
      have : ((scaledOp H a b) ^ n) v = (scaled a b lam) ^ n • v := by
        induction n with
        | zero => simp
        | succ n ih => rw [pow_succ', Module.End.mul_apply, ih, map_smul, hop, smul_smul, ← pow_succ]
      rw [this, smul_smul]
  rw [hp, smul_smul]
  congr 1
  ring

/-- **C06**, damping: components with eigenvalue in the unwanted interval `[a, b]` are
multiplied by a factor below one in magnitude, namely at most `1/|T_m|`; the component at
`a0` is returned unchanged; components below `a0` are amplified. -/
theorem cheb_damps (a b a0 lam : ℝ) (hab : a < b) (ha0 : a0 < a) (m : ℕ) (hm : 1 ≤ m) :
    1 < |(T ℝ (m : ℤ)).eval (scaled a b a0)| ∧
    (a ≤ lam → lam ≤ b →
      |(T ℝ (m : ℤ)).eval (scaled a b lam) / (T ℝ (m : ℤ)).eval (scaled a b a0)| ≤
        1 / |(T ℝ (m : ℤ)).eval (scaled a b a0)|) ∧
    (lam = a0 → (T ℝ (m : ℤ)).eval (scaled a b lam) / (T ℝ (m : ℤ)).eval (scaled a b a0) = 1) := by
  have hx := scaled_lt hab ha0
  have h1 : 1 < |(T ℝ (m : ℤ)).eval (scaled a b a0)| :=
    one_lt_abs_eval_T_real (by omega) (by rw [abs_of_neg (by linarith)]; linarith)
  refine ⟨h1, ?_, ?_⟩
  · intro h2 h3
    rw [abs_div]
    exact div_le_div_of_nonneg_right (abs_eval_T_real_le_one _ (scaled_abs hab h2 h3)) (by linarith)
  · intro h
    rw [h, div_self (T_ne m hx)]

/-- `T_m` grows monotonically to the left of `-1`, so wanted components keep their order. -/
theorem cheb_amplifies (a b a0 lam : ℝ) (hab : a < b) (ha0 : a0 < a) (hl : lam ≤ a0) (m : ℕ) :
    1 ≤ (T ℝ (m : ℤ)).eval (scaled a b lam) / (T ℝ (m : ℤ)).eval (scaled a b a0) := by
  have hx := scaled_lt hab ha0
  have hle : scaled a b lam ≤ scaled a b a0 := by
    unfold scaled
    exact div_le_div_of_nonneg_right (by linarith) (by linarith)
  have hcosh : ∀ x : ℝ, x ≤ -1 → (T ℝ (m : ℤ)).eval x =
      ((m : ℤ).negOnePow : ℤ) * Real.cosh (m * Real.arcosh (-x)) := by
    intro x hx
    conv_lhs => rw [← neg_neg x, T_eval_neg, ← Real.cosh_arcosh (show 1 ≤ -x by linarith)]
    rw [T_real_cosh]; push_cast; rfl
  rw [hcosh _ (by linarith), hcosh _ (le_of_lt hx)]
  have hs : (((m : ℤ).negOnePow : ℤ) : ℝ) ≠ 0 := by
    have : ((m : ℤ).negOnePow : ℤ) ≠ 0 := Units.ne_zero _
    exact_mod_cast this
  rw [mul_div_mul_left _ _ hs, one_le_div (Real.cosh_pos _)]
  rw [Real.cosh_le_cosh]
  have p1 : 0 ≤ Real.arcosh (-scaled a b a0) := Real.arcosh_nonneg (by linarith)
  have p2 : Real.arcosh (-scaled a b a0) ≤ Real.arcosh (-scaled a b lam) := by
    rw [Real.arcosh_le_arcosh (by linarith) (by linarith)]; linarith
  rw [abs_of_nonneg (mul_nonneg (by positivity) p1), abs_of_nonneg (mul_nonneg (by positivity) (p1.trans p2))]
  exact mul_le_mul_of_nonneg_left p2 (by positivity)

/-- Concrete instance: the operator `3·` on `ℝ`, interval `[0, 5]`, `a0 = -1`, degree 7. -/
example : (filter (3 • (LinearMap.id : ℝ →ₗ[ℝ] ℝ)) 7 0 5 (-1) (2 : ℝ)).Y =
    ((T ℝ (7 : ℤ)).eval (scaled 0 5 3) / (T ℝ (7 : ℤ)).eval (scaled 0 5 (-1))) • (2 : ℝ) :=
  cheb_filter_eigen _ 0 5 (-1) (by norm_num) (by norm_num) 2 3 (by simp) 7 (by norm_num)

end Sparc.Cheb

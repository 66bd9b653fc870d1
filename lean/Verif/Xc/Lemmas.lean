import Verif.Xc.Model
import Mathlib.Analysis.SpecialFunctions.Pow.Deriv
import Mathlib.Analysis.SpecialFunctions.Sqrt
import Mathlib.Analysis.SpecialFunctions.Log.Deriv
import Mathlib.Analysis.SpecialFunctions.ExpDeriv
import Mathlib.Analysis.Convex.SpecificFunctions.Basic

namespace Sparc.Xc

open Real

/-! ## Powers of the density -/

theorem third_eq : (1.0 / 3.0 : ℝ) = 1 / 3 := by norm_num

theorem cube_m13 {x : ℝ} (hx : 0 < x) : (x ^ (-(1 / 3) : ℝ)) ^ 3 = 1 / x := by
  rw [← rpow_natCast, ← rpow_mul hx.le]
  norm_num [rpow_neg_one]

theorem m13_pos {x : ℝ} (hx : 0 < x) : 0 < x ^ (-(1 / 3) : ℝ) := rpow_pos_of_pos hx _

theorem m13_deriv {x : ℝ} (hx : 0 < x) :
    HasDerivAt (fun y : ℝ => y ^ (-(1 / 3) : ℝ)) (-(1 / 3) * x ^ (-(1 / 3) : ℝ) / x) x := by
  refine (hasDerivAt_rpow_const (Or.inl hx.ne')).congr_deriv ?_
  rw [rpow_sub_one hx.ne']
  ring

theorem p13_mul_m13 {x : ℝ} (hx : 0 < x) : x ^ (1 / 3 : ℝ) * x ^ (-(1 / 3) : ℝ) = 1 := by
  rw [← rpow_add hx]; norm_num

theorem p13_eq {x : ℝ} (hx : 0 < x) : x ^ (1 / 3 : ℝ) = (x ^ (-(1 / 3) : ℝ)) ^ 2 * x := by
  have h := p13_mul_m13 hx
  have h3 := cube_m13 hx
  have hp := m13_pos hx
  field_simp at h3
  have : x ^ (1 / 3 : ℝ) * x ^ (-(1 / 3) : ℝ) = (x ^ (-(1 / 3) : ℝ)) ^ 2 * x * x ^ (-(1 / 3) : ℝ) := by
    rw [h]; linarith
  exact mul_right_cancel₀ hp.ne' this

theorem p43_eq {x : ℝ} (hx : 0 < x) : x ^ (4 / 3 : ℝ) = x * x ^ (1 / 3 : ℝ) := by
  rw [show (4 / 3 : ℝ) = 1 + 1 / 3 by norm_num, rpow_add hx, rpow_one]

theorem p13_deriv {x : ℝ} (hx : 0 < x) :
    HasDerivAt (fun y : ℝ => y ^ (1 / 3 : ℝ)) (1 / 3 * x ^ (1 / 3 : ℝ) / x) x := by
  refine (hasDerivAt_rpow_const (Or.inl hx.ne')).congr_deriv ?_
  rw [rpow_sub_one hx.ne']
  ring

theorem p43_deriv {x : ℝ} (hx : 0 < x) :
    HasDerivAt (fun y : ℝ => y ^ (4 / 3 : ℝ)) (4 / 3 * x ^ (4 / 3 : ℝ) / x) x := by
  refine (hasDerivAt_rpow_const (Or.inl hx.ne')).congr_deriv ?_
  rw [rpow_sub_one hx.ne']
  ring

/-! ## The Perdew-Wang block -/

/-- The polynomial in the square root of `rs` inside the logarithm. -/
noncomputable def qq1 (aa b1 b2 b3 b4 r : ℝ) : ℝ :=
  2 * aa * (b1 * √r + b2 * r + b3 * r * √r + b4 * r * r)

theorem qq1_pos {aa b1 b2 b3 b4 r : ℝ} (ha : 0 < aa) (h1 : 0 < b1) (h2 : 0 < b2) (h3 : 0 < b3)
    (h4 : 0 < b4) (hr : 0 < r) : 0 < qq1 aa b1 b2 b3 b4 r := by
  have := Real.sqrt_pos.2 hr
  unfold qq1; positivity

theorem qq1_deriv (aa b1 b2 b3 b4 : ℝ) {r : ℝ} (hr : 0 < r) :
    HasDerivAt (qq1 aa b1 b2 b3 b4)
      (aa * (b1 * (1 / √r) + 2 * b2 + 3 * b3 * √r + 4 * b4 * r)) r := by
  have hs := Real.sqrt_pos.2 hr
  have hss : √r * √r = r := Real.mul_self_sqrt hr.le
  have d := Real.hasDerivAt_sqrt hr.ne'
  have di := hasDerivAt_id' r
  have := ((((d.const_mul b1).add (di.const_mul b2)).add ((di.const_mul b3).mul d)).add
    ((di.const_mul b4).mul di)).const_mul (2 * aa)
  refine this.congr_deriv ?_
  have hr' : r / √r = √r := by rw [div_eq_iff hs.ne']; exact hss.symm
  have e1 : b3 * r * (1 / (2 * √r)) = b3 * √r / 2 := by
    rw [show b3 * r * (1 / (2 * √r)) = b3 * (r / √r) / 2 by field_simp, hr']
  rw [e1]; field_simp; ring

theorem lsd_fst (aa a1 b1 b2 b3 b4 r m : ℝ) (hq : 0 < qq1 aa b1 b2 b3 b4 r) :
    (lsd aa a1 b1 b2 b3 b4 r (√r) m).1
      = -2 * aa * (1 + a1 * r) * log (1 + 1 / qq1 aa b1 b2 b3 b4 r) := by
  have : lsd aa a1 b1 b2 b3 b4 r (√r) m
      = (-2.0 * aa * (1.0 + a1 * r) * -log (qq1 aa b1 b2 b3 b4 r * qq1 aa b1 b2 b3 b4 r *
        (1.0 / (qq1 aa b1 b2 b3 b4 r * qq1 aa b1 b2 b3 b4 r + qq1 aa b1 b2 b3 b4 r))),
        (lsd aa a1 b1 b2 b3 b4 r (√r) m).2) := by
    unfold lsd qq1; norm_num
  rw [this]
  generalize qq1 aa b1 b2 b3 b4 r = q at hq
  have e : q * q * (1.0 / (q * q + q)) = (1 + 1 / q)⁻¹ := by
    have : q * q + q ≠ 0 := by positivity
    have : q + 1 ≠ 0 := by positivity
    norm_num; field_simp
  simp only [e, log_inv]
  norm_num

theorem lsd_snd (aa a1 b1 b2 b3 b4 r : ℝ) (hq : 0 < qq1 aa b1 b2 b3 b4 r) :
    (lsd aa a1 b1 b2 b3 b4 r (√r) (1 / √r)).2
      = -2 * aa * a1 * log (1 + 1 / qq1 aa b1 b2 b3 b4 r)
        + 2 * aa * (1 + a1 * r) * (aa * (b1 * (1 / √r) + 2 * b2 + 3 * b3 * √r + 4 * b4 * r))
          / (qq1 aa b1 b2 b3 b4 r * (qq1 aa b1 b2 b3 b4 r + 1)) := by
  have : (lsd aa a1 b1 b2 b3 b4 r (√r) (1 / √r)).2
      = -2.0 * aa * a1 * -log (qq1 aa b1 b2 b3 b4 r * qq1 aa b1 b2 b3 b4 r *
        (1.0 / (qq1 aa b1 b2 b3 b4 r * qq1 aa b1 b2 b3 b4 r + qq1 aa b1 b2 b3 b4 r)))
        - -2.0 * aa * (1.0 + a1 * r) * (aa * (b1 * (1 / √r) + 2.0 * b2 + 3.0 * b3 * √r + 4.0 * b4 * r))
          * (1.0 / (qq1 aa b1 b2 b3 b4 r * qq1 aa b1 b2 b3 b4 r + qq1 aa b1 b2 b3 b4 r)) := by
    unfold lsd qq1; norm_num
  rw [this]
  generalize qq1 aa b1 b2 b3 b4 r = q at hq
  have e : q * q * (1.0 / (q * q + q)) = (1 + 1 / q)⁻¹ := by
    have : q * q + q ≠ 0 := by positivity
    have : q + 1 ≠ 0 := by positivity
    norm_num; field_simp
  rw [e, log_inv]
  generalize (1 / √r) = z
  norm_num
  have : q * q + q ≠ 0 := by positivity
  have : q + 1 ≠ 0 := by positivity
  field_simp

theorem log_q_deriv {q : ℝ → ℝ} {q' x : ℝ} (h : HasDerivAt q q' x) (hq : 0 < q x) :
    HasDerivAt (fun y => log (1 + 1 / q y)) (-q' / (q x * (q x + 1))) x := by
  have h1 : HasDerivAt (fun y => 1 + 1 / q y) (-q' / q x ^ 2) x := by
    have := (h.inv hq.ne').const_add 1
    simpa [one_div] using this
  have hp : (1 + 1 / q x) ≠ 0 := by positivity
  refine (h1.log hp).congr_deriv ?_
  have : q x + 1 ≠ 0 := by positivity
  field_simp

/-- The block returns the derivative of its energy. -/
theorem lsd_deriv {aa b1 b2 b3 b4 : ℝ} (a1 : ℝ) (ha : 0 < aa) (h1 : 0 < b1) (h2 : 0 < b2)
    (h3 : 0 < b3) (h4 : 0 < b4) {r : ℝ} (hr : 0 < r) :
    HasDerivAt (fun y => -2 * aa * (1 + a1 * y) * log (1 + 1 / qq1 aa b1 b2 b3 b4 y))
      (lsd aa a1 b1 b2 b3 b4 r (√r) (1 / √r)).2 r := by
  have hq := qq1_pos ha h1 h2 h3 h4 hr
  have d := log_q_deriv (qq1_deriv aa b1 b2 b3 b4 hr) hq
  have := ((((hasDerivAt_id' r).const_mul a1).const_add 1).const_mul (-2 * aa)).mul d
  refine this.congr_deriv ?_
  rw [lsd_snd _ _ _ _ _ _ _ hq]
  ring

/-- The energy of the block is negative. -/
theorem lsd_neg {aa a1 b1 b2 b3 b4 : ℝ} (ha : 0 < aa) (ha1 : 0 < a1) (h1 : 0 < b1) (h2 : 0 < b2)
    (h3 : 0 < b3) (h4 : 0 < b4) {r : ℝ} (hr : 0 < r) :
    -2 * aa * (1 + a1 * r) * log (1 + 1 / qq1 aa b1 b2 b3 b4 r) < 0 := by
  have hq := qq1_pos ha h1 h2 h3 h4 hr
  have : 0 < log (1 + 1 / qq1 aa b1 b2 b3 b4 r) := log_pos (by
    have : 0 < 1 / qq1 aa b1 b2 b3 b4 r := by positivity
    linarith)
  have : 0 < 2 * aa * (1 + a1 * r) * log (1 + 1 / qq1 aa b1 b2 b3 b4 r) := by positivity
  linarith

/-! ## The gradient chain -/

theorem l1 : (1.0 : ℝ) = 1 := by norm_num
theorem l2 : (2.0 : ℝ) = 2 := by norm_num
theorem l3 : (3.0 : ℝ) = 3 := by norm_num
theorem l4 : (4.0 : ℝ) = 4 := by norm_num
theorem l05 : (0.5 : ℝ) = 1 / 2 := by norm_num
theorem l0 : (0.0 : ℝ) = 0 := by norm_num
theorem l6 : (6.0 : ℝ) = 6 := by norm_num
theorem l7 : (7.0 : ℝ) = 7 := by norm_num
theorem l8 : (8.0 : ℝ) = 8 := by norm_num

theorem d_mul {f g : ℝ → ℝ} {f' g' x : ℝ} (hf : HasDerivAt f f' x) (hg : HasDerivAt g g' x) :
    HasDerivAt (fun y => f y * g y) (f' * g x + f x * g') x := hf.mul hg

theorem d_inv {f : ℝ → ℝ} {f' x : ℝ} (hf : HasDerivAt f f' x) (h0 : f x ≠ 0) :
    HasDerivAt (fun y => 1 / f y) (-f' * (1 / f x) ^ 2) x := by
  have := (hf.inv h0).congr_deriv (show _ = -f' * (1 / f x) ^ 2 by field_simp)
  have e : (fun y => 1 / f y) = f⁻¹ := by funext y; simp
  rw [e]; exact this

theorem step_c {b : ℝ → ℝ} {b' x : ℝ} (hb : HasDerivAt b b' x) (h : b x < 0) :
    HasDerivAt (fun y => 1 / (exp (-b y) - 1))
      (1 / (exp (-b x) - 1) * (1 / (exp (-b x) - 1)) * exp (-b x) * b') x := by
  have h1 : 1 < exp (-b x) := by rw [Real.one_lt_exp_iff]; linarith
  have hd : HasDerivAt (fun y => exp (-b y) - 1) (exp (-b x) * -b') x :=
    (hb.neg.exp).sub_const 1
  refine (d_inv hd (by linarith)).congr_deriv ?_
  ring

theorem step_pade {X : ℝ → ℝ} {X' x : ℝ} (hX : HasDerivAt X X' x) :
    HasDerivAt (fun y => (1 + X y) * (1 / (1 + X y * (1 + X y))))
      (-X x * (2 + X x) * (1 / (1 + X x * (1 + X x))) ^ 2 * X') x := by
  have h0 : 1 + X x * (1 + X x) ≠ 0 := by nlinarith [sq_nonneg (X x), sq_nonneg (X x + 1)]
  have h1 : HasDerivAt (fun y => 1 + X y) X' x := hX.const_add 1
  have h2 : HasDerivAt (fun y => 1 + X y * (1 + X y)) (X' * (1 + X x) + X x * X') x :=
    (d_mul hX h1).const_add 1
  refine (d_mul h1 (d_inv h2 h0)).congr_deriv ?_
  field_simp
  ring

theorem step_rr {q : ℝ → ℝ} {q' x g k m : ℝ} (hm : g * k = m) (hq : HasDerivAt q q' x)
    (h : 0 < 1 + k * q x) :
    HasDerivAt (fun y => g * log (1 + k * q y)) (m * (1 / (1 + k * q x)) * q') x := by
  subst hm
  have h1 : HasDerivAt (fun y => 1 + k * q y) (k * q') x := (hq.const_mul k).const_add 1
  refine ((h1.log h.ne').const_mul g).congr_deriv ?_
  ring

/-- Along any curve on which the local energy, the spin factor and the reduced
gradient vary, the chain of `pbec_spin` returns the derivative of `hh`. -/
theorem ggaChain_deriv {beta gamma : ℝ} (hb : 0 < beta) (hg : 0 < gamma)
    {E P T : ℝ → ℝ} {er ez pp r' z' t' x : ℝ}
    (hE : HasDerivAt E (er * r' + ez * z') x) (hP : HasDerivAt P (pp * z') x)
    (hT : HasDerivAt T t' x) (hE0 : E x < 0) (hP0 : 0 < P x) (hT0 : 0 ≤ T x)
    (fp fr fz : ℝ → ℝ) :
    HasDerivAt (fun y => (ggaChain beta gamma (P y) (fp y) (E y) (fr y) (fz y) (T y)).hh)
      ((ggaChain beta gamma (P x) pp (E x) er ez (T x)).drs * r'
        + (ggaChain beta gamma (P x) pp (E x) er ez (T x)).dzeta * z'
        + (ggaChain beta gamma (P x) pp (E x) er ez (T x)).dtt * t') x := by
  simp only [ggaChain, l1, l2, l3]
  have hi := d_inv hP hP0.ne'
  have hgg : gamma * (1 / gamma) = 1 := by field_simp
  have hPP : P x * (1 / P x) = 1 := by field_simp
  have hi0 : 0 < 1 / P x := by positivity
  have hg0 : 0 < 1 / gamma := by positivity
  generalize 1 / gamma = gi at *
  -- bb
  have hB := d_mul hE (d_mul (d_mul (hi.const_mul gi) hi) hi)
  have hB0 : E x * (gi * (1 / P x) * (1 / P x) * (1 / P x)) < 0 :=
    mul_neg_of_neg_of_pos hE0 (by positivity)
  have hC := step_c hB hB0
  have hC0 : 0 < 1 / (exp (-(E x * (gi * (1 / P x) * (1 / P x) * (1 / P x)))) - 1) := by
    have : 1 < exp (-(E x * (gi * (1 / P x) * (1 / P x) * (1 / P x)))) := by
      rw [Real.one_lt_exp_iff]; linarith
    have : 0 < exp (-(E x * (gi * (1 / P x) * (1 / P x) * (1 / P x)))) - 1 := by linarith
    positivity
  have hA := d_mul (d_mul (hi.const_mul (beta * gi)) hi) hC
  have hX := d_mul hA hT
  have hpd := step_pade hX
  have hq := d_mul (d_mul (d_mul hT hi) hi) hpd
  have hX0 : 0 ≤ beta * gi * (1 / P x) * (1 / P x)
      * (1 / (exp (-(E x * (gi * (1 / P x) * (1 / P x) * (1 / P x)))) - 1)) * T x := by positivity
  have hr := step_rr (g := gamma) (k := beta * gi) (m := beta) (by linear_combination beta * hgg) hq (by positivity)
  have hfin := d_mul (d_mul (d_mul hP hP) hP) hr
  refine hfin.congr_deriv ?_
  generalize exp (-(E x * (gi * (1 / P x) * (1 / P x) * (1 / P x)))) = ex at *
  generalize 1 / (ex - 1) = cc at *
  generalize 1 / P x = i at *
  generalize 1 / (1 + beta * gi * i * i * cc * T x * (1 + beta * gi * i * i * cc * T x)) = pd at *
  generalize 1 / (1 + beta * gi * (T x * i * i * ((1 + beta * gi * i * i * cc * T x) * pd))) = dr at *
  generalize log (1 + beta * gi * (T x * i * i * ((1 + beta * gi * i * i * cc * T x) * pd))) = lg at *
  linear_combination (-3 * P x ^ 2 * gamma * lg * pp * z') * hPP

end Sparc.Xc

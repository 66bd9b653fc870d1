import Verif.Mgga.Model
import Verif.Mgga.Spec
import Verif.Xc.Lemmas

/-! # Derivatives of the exchange part -/

namespace Sparc.Mgga

open Real
open Xc (l0 l1 l2 l3 l4 l05 d_mul)

/-! ## The switching function -/

/-- The derivative of the switching function away from `α = 1`. -/
noncomputable def dsw (c1 c2 d a : ℝ) : ℝ :=
  if a > 1 then -d * exp (c2 / (1 - a)) * (c2 / (1 - a) / (1 - a))
  else exp (-c1 * a / (1 - a)) * (-c1 / (1 - a) / (1 - a))

theorem sw_deriv (c1 c2 d : ℝ) {a : ℝ} (ha : a ≠ 1) :
    HasDerivAt (Spec.sw c1 c2 d) (dsw c1 c2 d a) a := by
  have hn : (1 - a) ≠ 0 := sub_ne_zero.2 (Ne.symm ha)
  have hd : HasDerivAt (fun y : ℝ => 1 - y) (-1) a := (hasDerivAt_id' a).const_sub 1
  rcases lt_or_gt_of_ne ha with h | h
  · have h1 : HasDerivAt (fun y : ℝ => -c1 * y / (1 - y)) (-c1 / (1 - a) / (1 - a)) a := by
      refine (((hasDerivAt_id' a).const_mul (-c1)).div hd hn).congr_deriv ?_
      field_simp; ring
    have h2 := h1.exp
    have he : Spec.sw c1 c2 d =ᶠ[nhds a] fun y => exp (-c1 * y / (1 - y)) := by
      filter_upwards [Iio_mem_nhds h] with y hy
      simp only [Spec.sw, if_pos (show y < 1 from hy)]
    refine (h2.congr_of_eventuallyEq he).congr_deriv ?_
    simp only [dsw, if_neg (not_lt.2 h.le)]
  · have h1 : HasDerivAt (fun y : ℝ => c2 / (1 - y)) (c2 / (1 - a) / (1 - a)) a := by
      refine ((hasDerivAt_const a c2).div hd hn).congr_deriv ?_
      field_simp; ring
    have h2 := h1.exp.const_mul (-d)
    have he : Spec.sw c1 c2 d =ᶠ[nhds a] fun y => -d * exp (c2 / (1 - y)) := by
      filter_upwards [Ioi_mem_nhds h] with y hy
      have hy' : (1 : ℝ) < y := hy
      simp only [Spec.sw, if_neg (not_lt.2 hy'.le), if_neg hy'.ne']
    refine (h2.congr_of_eventuallyEq he).congr_deriv ?_
    simp only [dsw, if_pos h]
    ring

theorem fx_eq {a : ℝ} (ha : a ≠ 1) : fx a = Spec.sw 0.667 0.8 1.24 a := by
  unfold fx Spec.sw c1x c2x dx
  rcases lt_or_gt_of_ne ha with h | h
  · have : ¬ (a > 1.0) := by rw [l1]; exact not_lt.2 h.le
    rw [if_neg this, if_pos h, l1]
  · have : a > 1.0 := by rw [l1]; exact h
    rw [if_pos this, if_neg (not_lt.2 h.le), if_neg ha, l1]

theorem DfxDalpha_eq (a : ℝ) : DfxDalpha a = dsw 0.667 0.8 1.24 a := by
  simp only [DfxDalpha, dsw, c1x, c2x, dx, l1]

/-! ## The enhancement factor -/

theorem b2_eq : b2 = Spec.b2 := by unfold b2 Spec.b2; norm_num
theorem b1_eq : b1 = Spec.b1 := by unfold b1 Spec.b1; rw [b2_eq]; norm_num
theorem mu_eq : mu_ak = Spec.mu := by unfold mu_ak Spec.mu; norm_num
theorem b4_eq : b4 = Spec.b4 := by
  unfold b4 Spec.b4 k1; rw [b1_eq, mu_eq]; norm_num; ring

theorem x_eq (s a : ℝ) : xFir s + xSec s a = Spec.x s a := by
  unfold xFir xSec term1 term3 Spec.x b3
  rw [b1_eq, b2_eq, b4_eq, mu_eq, l1, l2, l05]
  rw [show -(1 / 2 : ℝ) * (1 - a) * (1 - a) = -(1 / 2) * (1 - a) ^ 2 by ring,
    show s * s = s ^ 2 by ring]
  ring

theorem hx1_eq (s a : ℝ) : hx1 s a = Spec.h1 s a := by
  unfold hx1 Spec.h1 k1; rw [x_eq, l1]

theorem Fx_eq (s : ℝ) {a : ℝ} (ha : a ≠ 1) : Fx s a = Spec.Fx s a := by
  unfold Fx Spec.Fx gx a1 hx0
  rw [hx1_eq, fx_eq ha, l1]

theorem mu_pos : 0 < Spec.mu := by unfold Spec.mu; norm_num
theorem b2_pos : 0 < Spec.b2 := by unfold Spec.b2; positivity

theorem b1_sq : Spec.b1 ^ 2 = 261121 / 10643400 := by
  unfold Spec.b1 Spec.b2
  rw [div_pow, mul_pow, Real.sq_sqrt (by norm_num)]
  norm_num

theorem b4_pos : 0 < Spec.b4 := by
  unfold Spec.b4 Spec.mu; rw [b1_sq]; norm_num

theorem x_nonneg (s a : ℝ) : 0 ≤ Spec.x s a := by
  have := mu_pos; have := b4_pos
  unfold Spec.x; positivity

theorem x_deriv {S A : ℝ → ℝ} {s' a' t : ℝ} (hS : HasDerivAt S s' t) (hA : HasDerivAt A a' t) :
    HasDerivAt (fun y => Spec.x (S y) (A y))
      (s' * DxDs (S t) (A t) + a' * DxDalpha (S t) (A t)) t := by
  have h2 : HasDerivAt (fun y => S y ^ 2) (2 * S t * s') t := by
    refine (hS.pow 2).congr_deriv ?_; norm_num
  have hm := mu_pos
  have e1 : HasDerivAt (fun y => exp (-|Spec.b4| * S y ^ 2 / Spec.mu))
      (exp (-|Spec.b4| * S t ^ 2 / Spec.mu) * (-|Spec.b4| * (2 * S t * s') / Spec.mu)) t :=
    ((h2.const_mul (-|Spec.b4|)).div_const Spec.mu).exp
  have e2 : HasDerivAt (fun y => 1 + Spec.b4 * S y ^ 2 / Spec.mu
      * exp (-|Spec.b4| * S y ^ 2 / Spec.mu))
      (Spec.b4 * (2 * S t * s') / Spec.mu * exp (-|Spec.b4| * S t ^ 2 / Spec.mu)
        + Spec.b4 * S t ^ 2 / Spec.mu * (exp (-|Spec.b4| * S t ^ 2 / Spec.mu)
          * (-|Spec.b4| * (2 * S t * s') / Spec.mu))) t :=
    (d_mul ((h2.const_mul Spec.b4).div_const Spec.mu) e1).const_add 1
  have e3 := d_mul (h2.const_mul Spec.mu) e2
  have hB : HasDerivAt (fun y => 1 - A y) (-a') t := hA.const_sub 1
  have hB2 : HasDerivAt (fun y => -(1 / 2 : ℝ) * (1 - A y) ^ 2)
      ((1 - A t) * a') t := by
    refine ((hB.pow 2).const_mul (-(1 / 2 : ℝ))).congr_deriv ?_
    push_cast; ring
  have e4 := (h2.const_mul Spec.b1).add (d_mul (hB.const_mul Spec.b2) hB2.exp)
  have e5 := e4.pow 2
  refine (e3.add e5).congr_deriv ?_
  simp only [DxDs, DxDalpha, term1, term2, term3, term4, b1_eq, b2_eq, b4_eq, mu_eq, b3, l1, l2,
    l05]
  rw [show -(1 / 2 : ℝ) * (1 - A t) * (1 - A t) = -(1 / 2) * (1 - A t) ^ 2 by ring,
    show S t * S t = S t ^ 2 by ring]
  simp only [Pi.add_apply]
  generalize exp (-(1 / 2 : ℝ) * (1 - A t) ^ 2) = E
  generalize exp (-|Spec.b4| * S t ^ 2 / Spec.mu) = G
  generalize |Spec.b4| = B
  push_cast
  field_simp
  ring

theorem h1_deriv {S A : ℝ → ℝ} {s' a' t : ℝ} (hS : HasDerivAt S s' t) (hA : HasDerivAt A a' t) :
    HasDerivAt (fun y => Spec.h1 (S y) (A y))
      ((s' * DxDs (S t) (A t) + a' * DxDalpha (S t) (A t)) * Dhx1Dx (S t) (A t)) t := by
  have hx := x_deriv hS hA
  have h0 := x_nonneg (S t) (A t)
  have hd : HasDerivAt (fun y => 1 + Spec.x (S y) (A y) / 0.065)
      ((s' * DxDs (S t) (A t) + a' * DxDalpha (S t) (A t)) / 0.065) t :=
    (hx.div_const 0.065).const_add 1
  have hp : (1 + Spec.x (S t) (A t) / 0.065) ≠ 0 := by positivity
  have := ((hasDerivAt_const t (0.065 : ℝ)).div hd hp).const_sub (1 + 0.065)
  refine this.congr_deriv ?_
  simp only [Dhx1Dx, x_eq, k1, l1]
  generalize (s' * DxDs (S t) (A t) + a' * DxDalpha (S t) (A t)) = q
  norm_num
  field_simp

theorem gx_deriv {S : ℝ → ℝ} {s' t : ℝ} (hS : HasDerivAt S s' t) (h : 0 < S t) :
    HasDerivAt (fun y => 1 - exp (-4.9479 / √(S y))) (Dgx (S t) s') t := by
  have hs := Real.sqrt_pos.2 h
  have h1 := ((hasDerivAt_const t (-4.9479 : ℝ)).div (hS.sqrt h.ne') hs.ne').exp.const_sub 1
  refine h1.congr_deriv ?_
  unfold Dgx a1
  have hss : √(S t) ^ 2 = S t := Real.sq_sqrt h.le
  rw [hss, l2]
  simp only [Pi.div_apply]
  field_simp
  ring

theorem Dgx_zero (s : ℝ) : Dgx s 0 = 0 := mul_zero _

/-- The derivative of the enhancement factor along a curve. -/
noncomputable def DF (s a s' a' : ℝ) : ℝ :=
  (hx1 s a + fx a * (hx0 - hx1 s a)) * Dgx s s'
    + gx s * (1.0 - fx a) * ((s' * DxDs s a + a' * DxDalpha s a) * Dhx1Dx s a)
    + gx s * (hx0 - hx1 s a) * (DfxDalpha a * a')

theorem Fx_deriv {S A : ℝ → ℝ} {s' a' t : ℝ} (hS : HasDerivAt S s' t) (hA : HasDerivAt A a' t)
    (h : 0 < S t) (ha : A t ≠ 1) :
    HasDerivAt (fun y => Spec.Fx (S y) (A y)) (DF (S t) (A t) s' a') t := by
  have hh := h1_deriv hS hA
  have hg := gx_deriv hS h
  have hf : HasDerivAt (fun y => Spec.sw 0.667 0.8 1.24 (A y))
      (dsw 0.667 0.8 1.24 (A t) * a') t := (sw_deriv _ _ _ ha).comp t hA
  have := d_mul (hh.add (d_mul hf (hh.const_sub 1.174))) hg
  refine this.congr_deriv ?_
  simp only [DF, hx1_eq, fx_eq ha, DfxDalpha_eq, gx, a1, hx0, l1, Pi.add_apply]
  ring

/-! ## The reduced variables -/

theorem c13_eq : c13 = (3 * π ^ 2) ^ (1 / 3 : ℝ) := by
  unfold c13; rw [l1, l3]; congr 1; ring

theorem c13_pos : 0 < c13 := by rw [c13_eq]; positivity

theorem c23_eq : c23 = (3 * π ^ 2) ^ (2 / 3 : ℝ) := by
  unfold c23
  rw [c13_eq, ← rpow_add (by positivity)]; norm_num

theorem c23_pos : 0 < c23 := by rw [c23_eq]; positivity

theorem rpow_deriv' (p : ℝ) {n : ℝ} (hn : 0 < n) :
    HasDerivAt (fun y : ℝ => y ^ p) (p * n ^ p / n) n := by
  refine (hasDerivAt_rpow_const (Or.inl hn.ne')).congr_deriv ?_
  rw [rpow_sub_one hn.ne']; ring

theorem pow_shift {n : ℝ} (hn : 0 < n) (p q : ℝ) (h : q = p + 1) : n ^ q = n ^ p * n := by
  rw [h, rpow_add hn, rpow_one]

theorem ds_zero : Spec.ds 0 = 1 := by unfold Spec.ds; norm_num

theorem vars_s (n g tau : ℝ) : (basicVars n g tau).s = Spec.s n g := by
  simp only [basicVars, Spec.s, c13_eq, l2]; norm_num

theorem vars_a (n g tau : ℝ) : (basicVars n g tau).a = Spec.alpha n 0 g tau := by
  simp only [basicVars, Spec.alpha, Spec.tauW, Spec.tauU, c23_eq, ds_zero]
  rw [show g * g = g ^ 2 by ring]
  norm_num

theorem s_deriv_n (g tau : ℝ) {n : ℝ} (hn : 0 < n) :
    HasDerivAt (fun y => Spec.s y g) (basicVars n g tau).dsdn n := by
  have hc := c13_pos
  have hp := rpow_pos_of_pos hn (4 / 3)
  have h := (hasDerivAt_const n g).div ((rpow_deriv' (4 / 3) hn).const_mul (2 * c13))
    (by positivity)
  have e : (fun y => Spec.s y g) = fun y => g / (2 * c13 * y ^ (4 / 3 : ℝ)) := by
    funext y; rw [c13_eq]; rfl
  rw [e]
  refine h.congr_deriv ?_
  have e7 : n ^ (7.0 / 3.0 : ℝ) = n ^ (4 / 3 : ℝ) * n := pow_shift hn _ _ (by norm_num)
  simp only [basicVars]
  rw [e7]
  generalize n ^ (4 / 3 : ℝ) = q at hp ⊢
  norm_num
  field_simp
  ring

theorem s_deriv_g (n tau g : ℝ) :
    HasDerivAt (fun y => Spec.s n y) (basicVars n g tau).dsddn g := by
  have h := (hasDerivAt_id' g).div_const (2 * (3 * π ^ 2) ^ (1 / 3 : ℝ) * n ^ (4 / 3 : ℝ))
  refine h.congr_deriv ?_
  simp only [basicVars, c13_eq]
  norm_num

theorem alpha_deriv_n (g tau : ℝ) {n : ℝ} (hn : 0 < n) :
    HasDerivAt (fun y => Spec.alpha y 0 g tau) (basicVars n g tau).dadn n := by
  have hc := c23_pos
  have hp := rpow_pos_of_pos hn (5 / 3)
  have hw : HasDerivAt (fun y => tau - Spec.tauW y g) (g ^ 2 / (8 * n ^ 2)) n := by
    refine (((hasDerivAt_const n (g ^ 2)).div ((hasDerivAt_id' n).const_mul 8)
      (by positivity)).const_sub tau).congr_deriv ?_
    field_simp
    ring
  have hu : HasDerivAt (fun y => 3 / 10 * c23 * y ^ (5 / 3 : ℝ) * 1)
      (3 / 10 * c23 * (5 / 3 * n ^ (5 / 3 : ℝ) / n)) n := by
    refine (((rpow_deriv' (5 / 3) hn).const_mul (3 / 10 * c23)).mul_const 1).congr_deriv ?_
    ring
  have h := hw.div hu (by positivity)
  have e : (fun y => Spec.alpha y 0 g tau)
      = fun y => (tau - Spec.tauW y g) / (3 / 10 * c23 * y ^ (5 / 3 : ℝ) * 1) := by
    funext y; simp only [Spec.alpha, Spec.tauU, c23_eq, ds_zero]
  rw [e]
  refine h.congr_deriv ?_
  have e5 : n ^ (5.0 / 3.0 : ℝ) = n ^ (2 / 3 : ℝ) * n := pow_shift hn _ _ (by norm_num)
  have e5' : n ^ (5 / 3 : ℝ) = n ^ (2 / 3 : ℝ) * n := pow_shift hn _ _ (by norm_num)
  have e2 : n ^ (2.0 / 3.0 : ℝ) = n ^ (2 / 3 : ℝ) := by norm_num
  simp only [basicVars, e5, e5', e2, Spec.tauW]
  have hq := rpow_pos_of_pos hn (2 / 3)
  generalize n ^ (2 / 3 : ℝ) = q at hq ⊢
  norm_num
  field_simp
  ring

theorem alpha_deriv_g (n g tau : ℝ) :
    HasDerivAt (fun y => Spec.alpha n 0 y tau) (basicVars n g tau).daddn g := by
  have h := ((((hasDerivAt_id' g).pow 2).div_const (8 * n)).const_sub tau).div_const
    (3 / 10 * (3 * π ^ 2) ^ (2 / 3 : ℝ) * n ^ (5 / 3 : ℝ) * Spec.ds 0)
  refine h.congr_deriv ?_
  simp only [basicVars, c23_eq, ds_zero]
  norm_num
  ring

theorem alpha_deriv_tau (n g tau : ℝ) :
    HasDerivAt (fun y => Spec.alpha n 0 g y) (basicVars n g tau).dadtau tau := by
  have h := ((hasDerivAt_id' tau).sub_const (g ^ 2 / (8 * n))).div_const
    (3 / 10 * (3 * π ^ 2) ^ (2 / 3 : ℝ) * n ^ (5 / 3 : ℝ) * Spec.ds 0)
  refine h.congr_deriv ?_
  simp only [basicVars, c23_eq, ds_zero]
  norm_num

theorem s_pos {n g : ℝ} (hn : 0 < n) (hg : 0 < g) : 0 < Spec.s n g := by
  unfold Spec.s; positivity

/-! ## The exchange energy -/

theorem exUnif_eq {n : ℝ} (hn : 0 < n) : exUnif n = Spec.exUnif n := by
  unfold exUnif Spec.exUnif
  have hp := pi_pos
  have e1 : (3.0 * π * π * n) ^ (1.0 / 3.0 : ℝ) = (3 / π) ^ (1 / 3 : ℝ) * π * n ^ (1 / 3 : ℝ) := by
    rw [show (3.0 * π * π * n) = (3 / π) * (π ^ 3) * n by rw [l3]; field_simp,
      mul_rpow (by positivity) hn.le, mul_rpow (by positivity) (by positivity), l1, l3,
      ← rpow_natCast π 3, ← rpow_mul hp.le]
    norm_num
  rw [e1, l3, l4]
  field_simp

theorem exUnif_deriv {n : ℝ} (hn : 0 < n) : HasDerivAt Spec.exUnif (DexUnif n) n := by
  refine ((rpow_deriv' (1 / 3) hn).const_mul (-(3 / 4) * (3 / π) ^ (1 / 3 : ℝ))).congr_deriv ?_
  unfold DexUnif
  have hp := pi_pos
  have e1 : (3.0 * π * π) ^ (1.0 / 3.0 : ℝ) = (3 / π) ^ (1 / 3 : ℝ) * π := by
    rw [show (3.0 * π * π) = (3 / π) * (π ^ 3) by norm_num; field_simp,
      mul_rpow (by positivity) (by positivity), l1, l3,
      ← rpow_natCast π 3, ← rpow_mul hp.le]
    norm_num
  have e2 : n ^ (1 / 3 : ℝ) = n ^ (-2.0 / 3.0 : ℝ) * n := pow_shift hn _ _ (by norm_num)
  rw [e1, e2, l4]
  field_simp

theorem calc_e {n g tau : ℝ} (hn : 0 < n) (ha : Spec.alpha n 0 g tau ≠ 1) :
    (calcScanx n (basicVars n g tau)).e = Spec.ex n g tau := by
  simp only [calcScanx, vars_s, vars_a, Fx_eq _ ha, exUnif_eq hn, Spec.ex]

theorem calc_v1 {n g tau : ℝ} (hn : 0 < n) (hg : 0 < g) (ha : Spec.alpha n 0 g tau ≠ 1) :
    HasDerivAt (fun y => y * Spec.ex y g tau) (calcScanx n (basicVars n g tau)).v1 n := by
  have hF := Fx_deriv (s_deriv_n g tau hn) (alpha_deriv_n g tau hn) (s_pos hn hg) ha
  have := d_mul (hasDerivAt_id' n) (d_mul (exUnif_deriv hn) hF)
  refine this.congr_deriv ?_
  simp only [calcScanx, vars_s, vars_a, ← exUnif_eq hn, ← Fx_eq _ ha, DF, l1]
  ring

theorem calc_v2 {n g tau : ℝ} (hn : 0 < n) (hg : 0 < g) (ha : Spec.alpha n 0 g tau ≠ 1) :
    HasDerivAt (fun y => n * Spec.ex n y tau) (calcScanx n (basicVars n g tau)).v2 g := by
  have hF := Fx_deriv (s_deriv_g n tau g) (alpha_deriv_g n g tau) (s_pos hn hg) ha
  have := (hF.const_mul (Spec.exUnif n)).const_mul n
  refine this.congr_deriv ?_
  simp only [calcScanx, vars_s, vars_a, ← exUnif_eq hn, DF, l1]
  ring

theorem calc_v3 {n g tau : ℝ} (hn : 0 < n) (hg : 0 < g) (ha : Spec.alpha n 0 g tau ≠ 1) :
    HasDerivAt (fun y => n * Spec.ex n g y) (calcScanx n (basicVars n g tau)).v3 tau := by
  have hF := Fx_deriv (hasDerivAt_const tau (Spec.s n g)) (alpha_deriv_tau n g tau)
    (s_pos hn hg) ha
  have := (hF.const_mul (Spec.exUnif n)).const_mul n
  refine this.congr_deriv ?_
  simp only [calcScanx, vars_s, vars_a, ← exUnif_eq hn, DF, Dgx_zero, l1]
  ring

end Sparc.Mgga

import Verif.Mgga.Exchange
import Verif.Xc.Lsda
import Mathlib.Analysis.Real.Pi.Bounds

/-! # Derivatives of the correlation part -/

namespace Sparc.Mgga

open Real
open Xc (l0 l1 l2 l3 l4 l05 d_mul)

theorem q4 : (-0.25 : ℝ) = -(1 / 4) := by norm_num
theorem q54 : (-1.25 : ℝ) = -(5 / 4) := by norm_num

/-- The derivative of `u ^ (-1/4)`. -/
theorem quart_deriv {U : ℝ → ℝ} {u' t : ℝ} (hU : HasDerivAt U u' t) (h : 0 < U t) :
    HasDerivAt (fun y => U y ^ (-(1 / 4) : ℝ)) (-(1 / 4) * U t ^ (-(5 / 4) : ℝ) * u') t := by
  refine (hU.rpow_const (p := -(1 / 4)) (Or.inl h.ne')).congr_deriv ?_
  rw [show (-(1 / 4) : ℝ) - 1 = -(5 / 4) by norm_num]
  ring

/-- A quarter root of a number above one stays below one. -/
theorem quart_le {u : ℝ} (h : 1 ≤ u) : u ^ (-(1 / 4) : ℝ) ≤ 1 :=
  rpow_le_one_of_one_le_of_nonpos h (by norm_num)

/-! ## The single-orbital limit -/

theorem ct_pos : 0 < ct := by unfold ct; positivity

theorem cx0_gt : -0.9 < cx0 := by
  unfold cx0
  have hp := pi_pos
  have h3 := pi_gt_three
  have h4 : π < 4 := pi_lt_four
  rw [l1, l3, l4, show (9.0 : ℝ) = 9 by norm_num]
  have h : (9 * π / 4) ^ (1 / 3 : ℝ) ≤ 3 := by
    have : (9 * π / 4) ^ (1 / 3 : ℝ) ≤ ((3 : ℝ) ^ (3 : ℝ)) ^ (1 / 3 : ℝ) := by
      refine Real.rpow_le_rpow (by positivity) ?_ (by norm_num)
      norm_num
      linarith
    rw [← rpow_mul (by norm_num)] at this
    norm_num at this ⊢
    exact this
  have hk : (3 / (4 * π)) ≤ 1 / 4 := by
    rw [div_le_iff₀ (by positivity)]
    linarith
  have hk0 : 0 < (3 / (4 * π)) := by positivity
  have h0 : 0 ≤ (9 * π / 4) ^ (1 / 3 : ℝ) := by positivity
  have e : -3 / (4 * π) = -(3 / (4 * π)) := by ring
  rw [e]
  generalize (9 * π / 4) ^ (1 / 3 : ℝ) = w at *
  generalize (3 / (4 * π)) = k at *
  norm_num
  nlinarith

theorem xiInf0_pos : 0 < xiInf0 := by
  have := cx0_gt
  unfold xiInf0 f0 betaRsInf betaConst
  have : 0 < cx0 - -0.9 := by linarith
  positivity

theorem chi_eq : xiInf0 = Spec.chiInf := by
  unfold xiInf0 Spec.chiInf betaRsInf betaConst cx0 f0
  rw [show (3.0 * π * π / 16.0 : ℝ) = 3 * π ^ 2 / 16 by norm_num; ring,
    show (2.0 / 3.0 : ℝ) = 2 / 3 by norm_num, show (1.0 / 3.0 : ℝ) = 1 / 3 by norm_num,
    show (9.0 * π / 4.0 : ℝ) = 9 * π / 4 by norm_num]
  norm_num
  left
  ring

theorem den_pos {r : ℝ} (hr : 0 < r) : 0 < 1.0 + b2c * √r + b3c * r := by
  have := Real.sqrt_nonneg r
  unfold b2c b3c; positivity

theorem ecLDA0_neg {r : ℝ} (hr : 0 < r) : ecLDA0 r < 0 := by
  have := den_pos hr
  unfold ecLDA0
  rw [neg_div]
  have : 0 < b1c / (1.0 + b2c * √r + b3c * r) := by unfold b1c; positivity
  linarith

theorem w0_pos {r : ℝ} (hr : 0 < r) : 0 < w0 r := by
  have h := ecLDA0_neg hr
  have : 0 < -ecLDA0 r / b1c := by
    have : 0 < -ecLDA0 r := by linarith
    unfold b1c; positivity
  have := (Real.one_lt_exp_iff).2 this
  unfold w0; rw [l1]; linarith

theorem ecLDA0_deriv {R : ℝ → ℝ} {r' t : ℝ} (hR : HasDerivAt R r' t) (hr : 0 < R t) :
    HasDerivAt (fun y => ecLDA0 (R y)) (DecLDA0Dn (R t) r') t := by
  have hs := Real.sqrt_pos.2 hr
  have hd := den_pos hr
  have h1 : HasDerivAt (fun y => 1.0 + b2c * √(R y) + b3c * R y)
      (b2c * (r' / (2 * √(R t))) + b3c * r') t :=
    (((hR.sqrt hr.ne').const_mul b2c).const_add 1.0).add (hR.const_mul b3c)
  refine ((hasDerivAt_const t (-b1c)).div h1 hd.ne').congr_deriv ?_
  unfold DecLDA0Dn
  generalize 1.0 + b2c * √(R t) + b3c * R t = D at *
  rw [l05]
  field_simp
  ring

theorem w0_deriv {R : ℝ → ℝ} {r' t : ℝ} (hR : HasDerivAt R r' t) (hr : 0 < R t) :
    HasDerivAt (fun y => w0 (R y)) (Dw0Dn (R t) r') t := by
  have h := ((ecLDA0_deriv hR hr).neg.div_const b1c).exp.sub_const 1.0
  refine h.congr_deriv ?_
  unfold Dw0Dn w0
  simp only [Pi.neg_apply, l1]
  ring

theorem u0_ge (s : ℝ) : 1 ≤ 1.0 + 4.0 * xiInf0 * s * s := by
  have h := xiInf0_pos
  rw [l1, l4]
  have := mul_nonneg h.le (mul_self_nonneg s)
  linarith

theorem g0_le (s : ℝ) : gInf0s s ≤ 1 := by unfold gInf0s; rw [q4]; exact quart_le (u0_ge s)

theorem g0_pos (s : ℝ) : 0 < gInf0s s := by
  unfold gInf0s; exact rpow_pos_of_pos (by have := u0_ge s; linarith) _

theorem g0_deriv {S : ℝ → ℝ} {s' t : ℝ} (hS : HasDerivAt S s' t) :
    HasDerivAt (fun y => gInf0s (S y)) (DgInf0sDs (S t) * s') t := by
  have h1 : HasDerivAt (fun y => 1.0 + 4.0 * xiInf0 * S y * S y)
      (4.0 * xiInf0 * s' * S t + 4.0 * xiInf0 * S t * s') t :=
    (d_mul (hS.const_mul (4.0 * xiInf0)) hS).const_add 1.0
  have h0 : 0 < 1.0 + 4.0 * xiInf0 * S t * S t := by have := u0_ge (S t); linarith
  have e : (fun y => gInf0s (S y))
      = fun y => (1.0 + 4.0 * xiInf0 * S y * S y) ^ (-(1 / 4) : ℝ) := by
    funext y; unfold gInf0s; rw [q4]
  rw [e]
  refine (quart_deriv h1 h0).congr_deriv ?_
  unfold DgInf0sDs
  simp only [q4, q54, l1, l2, l4]
  ring

theorem h0_arg {r : ℝ} (hr : 0 < r) (s : ℝ) : 0 < 1.0 + w0 r * (1.0 - gInf0s s) := by
  have h := w0_pos hr
  have := g0_le s
  have : 0 ≤ w0 r * (1 - gInf0s s) := mul_nonneg h.le (by linarith)
  rw [l1]; linarith

theorem H0_deriv {R S : ℝ → ℝ} {r' s' t : ℝ} (hR : HasDerivAt R r' t) (hS : HasDerivAt S s' t)
    (hr : 0 < R t) :
    HasDerivAt (fun y => H0 (R y) (S y)) (DH0Dn (R t) (S t) r' s') t := by
  have h := (d_mul (w0_deriv hR hr) ((g0_deriv hS).const_sub 1.0)).const_add 1.0
  have := (h.log (h0_arg hr (S t)).ne').const_mul b1c
  refine this.congr_deriv ?_
  unfold DH0Dn
  simp only [l1]
  ring

theorem DecLDA0_zero (r : ℝ) : DecLDA0Dn r 0 = 0 := mul_zero _

theorem DH0DDn_eq (r s s' : ℝ) : DH0DDn r s s' = DH0Dn r s 0 s' := by
  unfold DH0DDn DH0Dn Dw0Dn
  rw [DecLDA0_zero]
  simp

/-! ## The slowly varying limit -/

theorem rC_pos : 0 < rC := by unfold rC; norm_num

theorem betaC_pos {r : ℝ} (hr : 0 < r) : 0 < betaC r := by
  unfold betaC betaConst; positivity

/-- The derivative of `β`. -/
noncomputable def Dbeta (r r' : ℝ) : ℝ :=
  betaConst * (0.1 * (1 + 0.1778 * r) - 0.1778 * (1 + 0.1 * r)) / (1 + 0.1778 * r) ^ 2 * r'

theorem beta_deriv {R : ℝ → ℝ} {r' t : ℝ} (hR : HasDerivAt R r' t) (hr : 0 < R t) :
    HasDerivAt (fun y => betaC (R y)) (Dbeta (R t) r') t := by
  have h1 : HasDerivAt (fun y => betaConst * (1.0 + 0.1 * R y)) (betaConst * (0.1 * r')) t :=
    ((hR.const_mul 0.1).const_add 1.0).const_mul betaConst
  have h2 : HasDerivAt (fun y => 1.0 + 0.1778 * R y) (0.1778 * r') t :=
    (hR.const_mul 0.1778).const_add 1.0
  have h0 : 0 < 1.0 + 0.1778 * R t := by positivity
  refine (h1.div h2 h0.ne').congr_deriv ?_
  unfold Dbeta
  rw [l1] at *
  field_simp

theorem w1_pos {L P : ℝ} (hL : L < 0) (hP : 0 < P) : 0 < w1 L P := by
  have hr := rC_pos
  have : 0 < -L / (rC * P * P * P) := by
    have : 0 < -L := by linarith
    positivity
  have := (Real.one_lt_exp_iff).2 this
  unfold w1; rw [l1]; linarith

theorem AC_pos {r L P : ℝ} (hr : 0 < r) (hL : L < 0) (hP : 0 < P) : 0 < AC r L P := by
  have := w1_pos hL hP
  have := betaC_pos hr
  have := rC_pos
  unfold AC; positivity

theorem w1_deriv {L P : ℝ → ℝ} {l' p' t : ℝ} (hL : HasDerivAt L l' t) (hP : HasDerivAt P p' t)
    (h0 : 0 < P t) :
    HasDerivAt (fun y => w1 (L y) (P y)) (Dw1Dn (L t) (P t) l' p') t := by
  have hr := rC_pos
  have h3 : HasDerivAt (fun y => rC * P y * P y * P y)
      ((rC * p' * P t + rC * P t * p') * P t + rC * P t * P t * p') t :=
    d_mul (d_mul (hP.const_mul rC) hP) hP
  have h := ((hL.neg.div h3 (by positivity)).exp.sub_const 1.0)
  refine h.congr_deriv ?_
  unfold Dw1Dn w1
  simp only [Pi.div_apply, Pi.neg_apply]
  generalize exp (-L t / (rC * P t * P t * P t)) = E
  rw [l1, l3]
  field_simp
  ring

theorem AC_deriv {R L P : ℝ → ℝ} {r' l' p' t : ℝ} (hR : HasDerivAt R r' t)
    (hL : HasDerivAt L l' t) (hP : HasDerivAt P p' t) (hr : 0 < R t) (hl : L t < 0)
    (hp : 0 < P t) :
    HasDerivAt (fun y => AC (R y) (L y) (P y))
      (DADn (R t) (L t) (P t) l' p' (Dbeta (R t) r')) t := by
  have hc := rC_pos
  have hw := w1_pos hl hp
  have h := (beta_deriv hR hr).div ((w1_deriv hL hP hp).const_mul rC) (by positivity)
  refine h.congr_deriv ?_
  unfold DADn
  generalize w1 (L t) (P t) = w at *
  field_simp

theorem tC_deriv {R P S : ℝ → ℝ} {r' p' s' t : ℝ} (hR : HasDerivAt R r' t)
    (hP : HasDerivAt P p' t) (hS : HasDerivAt S s' t) (hr : 0 < R t) (hp : 0 < P t) :
    HasDerivAt (fun y => tC (R y) (P y) (S y)) (DtDn (R t) (P t) (S t) r' p' s') t := by
  have hs := Real.sqrt_pos.2 hr
  have hss : √(R t) ^ 2 = R t := Real.sq_sqrt hr.le
  have h := (hS.const_mul ct).div (d_mul hP (hR.sqrt hr.ne')) (by positivity)
  refine h.congr_deriv ?_
  unfold DtDn
  rw [l2, mul_pow, hss]
  field_simp

theorem ug_pos {r L P : ℝ} (hr : 0 < r) (hL : L < 0) (hP : 0 < P) (s : ℝ) :
    1 ≤ 1.0 + 4.0 * AC r L P * tC r P s * tC r P s := by
  have h := AC_pos hr hL hP
  have : 0 ≤ 4 * AC r L P * (tC r P s * tC r P s) := by
    have := mul_self_nonneg (tC r P s)
    positivity
  rw [l1, l4]; linarith

theorem gC_le {r L P : ℝ} (hr : 0 < r) (hL : L < 0) (hP : 0 < P) (s : ℝ) : gC r L P s ≤ 1 := by
  unfold gC; rw [q4]; exact quart_le (ug_pos hr hL hP s)

theorem gC_deriv {R L P S : ℝ → ℝ} {r' l' p' s' t : ℝ} (hR : HasDerivAt R r' t)
    (hL : HasDerivAt L l' t) (hP : HasDerivAt P p' t) (hS : HasDerivAt S s' t) (hr : 0 < R t)
    (hl : L t < 0) (hp : 0 < P t) :
    HasDerivAt (fun y => gC (R y) (L y) (P y) (S y))
      (DgDn (R t) (L t) (P t) (S t) r' l' p' s' (Dbeta (R t) r')) t := by
  have hA := AC_deriv hR hL hP hr hl hp
  have hT := tC_deriv hR hP hS hr hp
  have h1 := (d_mul (d_mul (hA.const_mul 4.0) hT) hT).const_add 1.0
  have h0 := ug_pos hr hl hp (S t)
  have e : (fun y => gC (R y) (L y) (P y) (S y)) = fun y =>
      (1.0 + 4.0 * AC (R y) (L y) (P y) * tC (R y) (P y) (S y) * tC (R y) (P y) (S y))
        ^ (-(1 / 4) : ℝ) := by
    funext y; unfold gC; rw [q4]
  rw [e]
  refine (quart_deriv h1 (by linarith)).congr_deriv ?_
  unfold DgDn
  simp only [q4, q54, l1, l2, l4]
  ring

theorem h1_arg {r L P : ℝ} (hr : 0 < r) (hL : L < 0) (hP : 0 < P) (s : ℝ) :
    0 < 1.0 + w1 L P * (1.0 - gC r L P s) := by
  have h := w1_pos hL hP
  have := gC_le hr hL hP s
  have : 0 ≤ w1 L P * (1 - gC r L P s) := mul_nonneg h.le (by linarith)
  rw [l1]; linarith

theorem H1_deriv {R L P S : ℝ → ℝ} {r' l' p' s' t : ℝ} (hR : HasDerivAt R r' t)
    (hL : HasDerivAt L l' t) (hP : HasDerivAt P p' t) (hS : HasDerivAt S s' t) (hr : 0 < R t)
    (hl : L t < 0) (hp : 0 < P t) :
    HasDerivAt (fun y => H1 (R y) (L y) (P y) (S y))
      (DH1Dn (R t) (L t) (P t) (S t) r' l' p' s' (Dbeta (R t) r')) t := by
  have hg := gC_deriv hR hL hP hS hr hl hp
  have hw := w1_deriv hL hP hp
  have h := (d_mul hw (hg.const_sub 1.0)).const_add 1.0
  have hlog := h.log (h1_arg hr hl hp (S t)).ne'
  have h3 : HasDerivAt (fun y => rC * P y * P y * P y)
      ((rC * p' * P t + rC * P t * p') * P t + rC * P t * P t * p') t :=
    d_mul (d_mul (hP.const_mul rC) hP) hP
  refine (d_mul h3 hlog).congr_deriv ?_
  unfold DH1Dn
  simp only [l1]
  ring

theorem Dbeta_zero (r : ℝ) : Dbeta r 0 = 0 := mul_zero _

theorem DtDDn_eq {r P s : ℝ} (s' : ℝ) (hr : 0 < r) (hP : 0 < P) (hs : 0 < s) :
    DtDDn r P s s' = DtDn r P s 0 0 s' := by
  have hq := Real.sqrt_pos.2 hr
  have hss : √r ^ 2 = r := Real.sq_sqrt hr.le
  unfold DtDDn DtDn tC
  rw [← hss, Real.sqrt_sq hq.le, l2]
  field_simp
  ring

theorem DH1DDn_eq {r P s : ℝ} (L s' : ℝ) (hr : 0 < r) (hP : 0 < P) (hs : 0 < s) :
    DH1DDn r L P s s' = DH1Dn r L P s 0 0 0 s' 0 := by
  have ew : Dw1Dn L P 0 0 = 0 := by unfold Dw1Dn; simp
  have eA : DADn r L P 0 0 0 = 0 := by unfold DADn; rw [ew]; simp
  have eg : DgDDn r L P s s' = DgDn r L P s 0 0 0 s' 0 := by
    unfold DgDDn DgDn
    rw [eA, DtDDn_eq s' hr hP hs]
    simp only [l1, l2, l4]
    ring
  unfold DH1DDn DH1Dn
  rw [ew, eg]
  simp only [l1]
  ring

/-- The weight with which an error in `dβ` enters `DH1Dn`. -/
noncomputable def wBeta (r L P s : ℝ) : ℝ :=
  P ^ 3 * tC r P s ^ 2 * (1.0 + 4.0 * AC r L P * tC r P s * tC r P s) ^ (-(5 / 4) : ℝ)
    / (1.0 + w1 L P * (1.0 - gC r L P s))

theorem DH1Dn_beta {r L P : ℝ} (hL : L < 0) (hP : 0 < P) (s dr dL dP ds b b' : ℝ) :
    DH1Dn r L P s dr dL dP ds b = DH1Dn r L P s dr dL dP ds b' + wBeta r L P s * (b - b') := by
  have hw := w1_pos hL hP
  have hc := rC_pos
  unfold DH1Dn wBeta DgDn DADn
  simp only [q4, q54, l1, l2, l4]
  generalize (1 + 4 * AC r L P * tC r P s * tC r P s) ^ (-(5 / 4) : ℝ) = U
  generalize (1 + w1 L P * (1 - gC r L P s)) = D
  generalize Dw1Dn L P dL dP = X
  generalize DtDn r P s dr dP ds = Y
  generalize log D = Z
  generalize w1 L P = w at *
  rw [← sub_eq_zero]
  by_cases hD : D = 0
  · subst hD; simp
  · field_simp
    ring

theorem wBeta_pos {r L P s : ℝ} (hr : 0 < r) (hL : L < 0) (hP : 0 < P) (hs : 0 < s) :
    0 < wBeta r L P s := by
  have h1 := h1_arg hr hL hP s
  have hq := Real.sqrt_pos.2 hr
  have ht : 0 < tC r P s := by
    have := ct_pos
    unfold tC; positivity
  have hU := rpow_pos_of_pos (show 0 < 1.0 + 4.0 * AC r L P * tC r P s * tC r P s by
    have := ug_pos hr hL hP s
    linarith) (-(5 / 4))
  unfold wBeta; positivity

/-! ## The local part -/

theorem lsd_eq (A a1 b1 b2 b3 b4 r : ℝ) :
    lsd A a1 b1 b2 b3 b4 r = Xc.lsd A a1 b1 b2 b3 b4 r (√r) (1.0 / √r) := rfl

theorem pwG_eq (A a1 b1 b2 b3 b4 r : ℝ) : Spec.pwG A a1 b1 b2 b3 b4 r
    = -2 * A * (1 + a1 * r) * log (1 + 1 / Xc.qq1 A b1 b2 b3 b4 r) := Xc.pwG_eq A a1 b1 b2 b3 b4 r

theorem lsd_fst {A b1 b2 b3 b4 : ℝ} (a1 : ℝ) (hA : 0 < A) (h1 : 0 < b1) (h2 : 0 < b2)
    (h3 : 0 < b3) (h4 : 0 < b4) {r : ℝ} (hr : 0 < r) :
    (lsd A a1 b1 b2 b3 b4 r).1 = Spec.pwG A a1 b1 b2 b3 b4 r := by
  rw [lsd_eq, pwG_eq, Xc.lsd_fst _ _ _ _ _ _ _ _ (Xc.qq1_pos hA h1 h2 h3 h4 hr)]

theorem lsd_deriv {A b1 b2 b3 b4 : ℝ} (a1 : ℝ) (hA : 0 < A) (h1 : 0 < b1) (h2 : 0 < b2)
    (h3 : 0 < b3) (h4 : 0 < b4) {r : ℝ} (hr : 0 < r) :
    HasDerivAt (Spec.pwG A a1 b1 b2 b3 b4) (lsd A a1 b1 b2 b3 b4 r).2 r := by
  have := Xc.lsd_deriv a1 hA h1 h2 h3 h4 hr
  have e : Spec.pwG A a1 b1 b2 b3 b4 = _ := funext fun y => pwG_eq A a1 b1 b2 b3 b4 y
  rw [e, lsd_eq, l1]; exact this

/-- The unpolarised local energy. -/
noncomputable def E0 : ℝ → ℝ := Spec.pwG 0.0310907 0.21370 7.5957 3.5876 1.6382 0.49294
/-- The polarised local energy. -/
noncomputable def E1 : ℝ → ℝ := Spec.pwG 0.01554535 0.20548 14.1189 6.1977 3.3662 0.62517
/-- Minus the spin stiffness. -/
noncomputable def Em : ℝ → ℝ := Spec.pwG 0.0168869 0.11125 10.357 3.6231 0.88026 0.49671

theorem lsd0_fst {r : ℝ} (hr : 0 < r) : (lsd0 r).1 = E0 r :=
  lsd_fst _ (by norm_num) (by norm_num) (by norm_num) (by norm_num) (by norm_num) hr
theorem lsd1_fst {r : ℝ} (hr : 0 < r) : (lsd1 r).1 = E1 r :=
  lsd_fst _ (by norm_num) (by norm_num) (by norm_num) (by norm_num) (by norm_num) hr
theorem lsdac_fst {r : ℝ} (hr : 0 < r) : (lsdac r).1 = Em r :=
  lsd_fst _ (by norm_num) (by norm_num) (by norm_num) (by norm_num) (by norm_num) hr
theorem lsd0_deriv {r : ℝ} (hr : 0 < r) : HasDerivAt E0 (lsd0 r).2 r :=
  lsd_deriv _ (by norm_num) (by norm_num) (by norm_num) (by norm_num) (by norm_num) hr
theorem lsd1_deriv {r : ℝ} (hr : 0 < r) : HasDerivAt E1 (lsd1 r).2 r :=
  lsd_deriv _ (by norm_num) (by norm_num) (by norm_num) (by norm_num) (by norm_num) hr
theorem lsdac_deriv {r : ℝ} (hr : 0 < r) : HasDerivAt Em (lsdac r).2 r :=
  lsd_deriv _ (by norm_num) (by norm_num) (by norm_num) (by norm_num) (by norm_num) hr

theorem E0_neg {r : ℝ} (hr : 0 < r) : E0 r < 0 := by
  unfold E0; rw [pwG_eq]
  exact Xc.lsd_neg (by norm_num) (by norm_num) (by norm_num) (by norm_num) (by norm_num)
    (by norm_num) hr
theorem E1_neg {r : ℝ} (hr : 0 < r) : E1 r < 0 := by
  unfold E1; rw [pwG_eq]
  exact Xc.lsd_neg (by norm_num) (by norm_num) (by norm_num) (by norm_num) (by norm_num)
    (by norm_num) hr
theorem Em_neg {r : ℝ} (hr : 0 < r) : Em r < 0 := by
  unfold Em; rw [pwG_eq]
  exact Xc.lsd_neg (by norm_num) (by norm_num) (by norm_num) (by norm_num) (by norm_num)
    (by norm_num) hr

theorem Em_lt_E0 {r : ℝ} (hr : 0 < r) : -Em r / 1.709921 < -E0 r := by
  have hs := Real.sqrt_pos.2 hr
  have hss : √r * √r = r := Real.mul_self_sqrt hr.le
  unfold Em E0
  rw [pwG_eq, pwG_eq]
  have q0 : 0 < Xc.qq1 0.0310907 7.5957 3.5876 1.6382 0.49294 r :=
    Xc.qq1_pos (by norm_num) (by norm_num) (by norm_num) (by norm_num) (by norm_num) hr
  have qm : 0 < Xc.qq1 0.0168869 10.357 3.6231 0.88026 0.49671 r :=
    Xc.qq1_pos (by norm_num) (by norm_num) (by norm_num) (by norm_num) (by norm_num) hr
  have hle : Xc.qq1 0.0168869 10.357 3.6231 0.88026 0.49671 r
      ≤ Xc.qq1 0.0310907 7.5957 3.5876 1.6382 0.49294 r := by
    unfold Xc.qq1
    have : 0 < r * √r := by positivity
    have : 0 < r * r := by positivity
    norm_num
    nlinarith
  have hmono := Xc.xlog_mono qm hle
  have hpoly : 0.0168869 * (1 + 0.11125 * r) * Xc.qq1 0.0310907 7.5957 3.5876 1.6382 0.49294 r
      < 1.709921 * (0.0310907 * (1 + 0.21370 * r))
        * Xc.qq1 0.0168869 10.357 3.6231 0.88026 0.49671 r := by
    unfold Xc.qq1
    generalize √r = s at *
    subst hss
    have : 0 < s ^ 2 := by positivity
    have : 0 < s ^ 3 := by positivity
    have : 0 < s ^ 4 := by positivity
    have : 0 < s ^ 5 := by positivity
    have : 0 < s ^ 6 := by positivity
    norm_num
    ring_nf
    linarith
  generalize Xc.qq1 0.0168869 10.357 3.6231 0.88026 0.49671 r = m at *
  generalize Xc.qq1 0.0310907 7.5957 3.5876 1.6382 0.49294 r = q at *
  have lm : 0 < log (1 + 1 / m) := log_pos (by
    have : 0 < 1 / m := by positivity
    linarith)
  have lq : 0 < log (1 + 1 / q) := log_pos (by
    have : 0 < 1 / q := by positivity
    linarith)
  generalize log (1 + 1 / m) = M at *
  generalize log (1 + 1 / q) = Q at *
  rw [div_lt_iff₀ (by norm_num)]
  have hA : 0 < 0.0168869 * (1 + 0.11125 * r) := by positivity
  have h1 := mul_le_mul_of_nonneg_left hmono hA.le
  have h2 := mul_lt_mul_of_pos_right hpoly lq
  have h3 : (0.0168869 * (1 + 0.11125 * r)) * M * m
      < 1.709921 * (0.0310907 * (1 + 0.21370 * r)) * Q * m := by nlinarith
  have h4 := lt_of_mul_lt_mul_right h3 qm.le
  linarith

theorem lsda_def (r z : ℝ) : Spec.lsda r z = E0 r + (-Em r) * (Spec.fz z / 1.709921) * (1 - z ^ 4)
    + (E1 r - E0 r) * Spec.fz z * z ^ 4 := rfl

theorem fz_eq (z : ℝ) : Spec.fz z = Xc.Spec.fz z := rfl
theorem phi_eq' (z : ℝ) : Spec.phi z = Xc.Spec.phi z := rfl

theorem lsda_neg {r z : ℝ} (hr : 0 < r) (h1 : -1 ≤ z) (h2 : z ≤ 1) : Spec.lsda r z < 0 := by
  have f0 := Xc.fz_nonneg h1 h2
  have f1 := Xc.fz_le_one h1 h2
  rw [← fz_eq] at f0 f1
  have hz : z ^ 4 ≤ 1 := by
    have : z ^ 2 ≤ 1 := by nlinarith
    nlinarith [sq_nonneg z]
  have hz0 : 0 ≤ z ^ 4 := by positivity
  have e0 := E0_neg hr
  have e1 := E1_neg hr
  have hm := Em_lt_E0 hr
  have hm0 := Em_neg hr
  rw [lsda_def]
  generalize Spec.fz z = f at *
  generalize E0 r = a at *
  generalize E1 r = b at *
  have hk : -Em r * (f / 1.709921) * (1 - z ^ 4) = (-Em r / 1.709921) * (f * (1 - z ^ 4)) := by
    ring
  rw [hk]
  have hkk : 0 < -Em r / 1.709921 := by
    have : 0 < -Em r := by linarith
    positivity
  generalize -Em r / 1.709921 = k at *
  generalize z ^ 4 = u at *
  have hfu : f * (1 - u) ≤ 1 - f * u := by nlinarith
  have h3 : k * (f * (1 - u)) ≤ k * (1 - f * u) := mul_le_mul_of_nonneg_left hfu hkk.le
  have hfu1 : f * u ≤ 1 := by nlinarith
  have hfu0 : 0 ≤ f * u := by positivity
  rcases hfu1.eq_or_lt with h | h
  · have : k * (f * (1 - u)) ≤ 0 := by rw [h] at h3; linarith
    nlinarith
  · have : k * (1 - f * u) < -a * (1 - f * u) := mul_lt_mul_of_pos_right hm (by linarith)
    nlinarith

theorem f_zeta_eq (z : ℝ) : f_zeta z = Spec.fz z := by
  unfold f_zeta Spec.fz; norm_num

theorem ec_lsda1_eq {r : ℝ} (hr : 0 < r) (z : ℝ) : ec_lsda1 r z = Spec.lsda r z := by
  unfold ec_lsda1 gcrs
  rw [lsd0_fst hr, lsd1_fst hr, lsdac_fst hr, f_zeta_eq, lsda_def]
  ring

theorem fz_zero : Spec.fz 0 = 0 := by unfold Spec.fz; norm_num

theorem lsda_zero (r : ℝ) : Spec.lsda r 0 = E0 r := by rw [lsda_def, fz_zero]; ring

theorem lsda_deriv {R Z : ℝ → ℝ} {r' z' t : ℝ} (hR : HasDerivAt R r' t) (hZ : HasDerivAt Z z' t)
    (hr : 0 < R t) (h1 : -1 < Z t) (h2 : Z t < 1) :
    HasDerivAt (fun y => Spec.lsda (R y) (Z y))
      (Dec_lsda1_Drs (R t) (Z t) * r' + Dec_lsda1_Dzeta (R t) (Z t) * z') t := by
  have d0 : HasDerivAt (fun y => E0 (R y)) ((lsd0 (R t)).2 * r') t := (lsd0_deriv hr).comp t hR
  have dm : HasDerivAt (fun y => Em (R y)) ((lsdac (R t)).2 * r') t := (lsdac_deriv hr).comp t hR
  have d1 : HasDerivAt (fun y => E1 (R y)) ((lsd1 (R t)).2 * r') t := (lsd1_deriv hr).comp t hR
  have df : HasDerivAt (fun y => Spec.fz (Z y)) (fp_zeta (Z t) * z') t := by
    have := (Xc.fz_deriv h1 h2).comp t hZ
    refine this.congr_deriv ?_
    unfold fp_zeta
    norm_num
    left; ring
  have dz : HasDerivAt (fun y => Z y ^ 4) (4 * Z t ^ 3 * z') t := by
    refine (hZ.pow 4).congr_deriv ?_
    norm_num
  have dz1 : HasDerivAt (fun y => 1 - Z y ^ 4) (-(4 * Z t ^ 3 * z')) t := dz.const_sub 1
  have t1 := d_mul (d_mul dm.neg (df.div_const 1.709921)) dz1
  have t2 := d_mul (d_mul (d1.sub d0) df) dz
  refine ((d0.add t1).add t2).congr_deriv ?_
  unfold Dec_lsda1_Drs Dec_lsda1_Dzeta gcrs
  rw [lsd0_fst hr, lsd1_fst hr, lsdac_fst hr]
  simp only [Pi.neg_apply, Pi.sub_apply, f_zeta_eq, l4]
  ring

end Sparc.Mgga

import Verif.Mgga.Spin

/-! # Bounds, and the derivative in `β` -/

namespace Sparc.Mgga

open Real
open Xc (l0 l1 l2 l3 l4 l05 d_mul)

/-! ## The switching function -/

theorem sw_lt_one {c1 c2 d a : ℝ} (h1 : 0 < c1) (hd : 0 < d) (h0 : 0 < a) (ha : a ≠ 1) :
    Spec.sw c1 c2 d a < 1 := by
  unfold Spec.sw
  rcases lt_or_gt_of_ne ha with h | h
  · rw [if_pos h, Real.exp_lt_one_iff]
    have : 0 < c1 * a / (1 - a) := by
      have : 0 < 1 - a := by linarith
      positivity
    have e : -c1 * a / (1 - a) = -(c1 * a / (1 - a)) := by ring
    rw [e]; linarith
  · rw [if_neg (not_lt.2 h.le), if_neg ha]
    have := exp_pos (c2 / (1 - a))
    nlinarith

theorem sw_ne_one {c1 c2 d a : ℝ} (h1 : 0 < c1) (hd : 0 < d) (h0 : a ≠ 0) (ha : a ≠ 1) :
    Spec.sw c1 c2 d a ≠ 1 := by
  unfold Spec.sw
  rcases lt_or_gt_of_ne ha with h | h
  · rw [if_pos h]
    intro hh
    rw [Real.exp_eq_one_iff, div_eq_zero_iff] at hh
    rcases hh with hh | hh
    · exact h0 (by nlinarith [mul_eq_zero.1 hh |>.resolve_left (by linarith)])
    · linarith
  · rw [if_neg (not_lt.2 h.le), if_neg ha]
    have := exp_pos (c2 / (1 - a))
    nlinarith

theorem sw_lo {c1 c2 d a : ℝ} (h : a < 1) : 0 < Spec.sw c1 c2 d a := by
  unfold Spec.sw; rw [if_pos h]; exact exp_pos _

theorem sw_le {c1 c2 d a : ℝ} (h1 : 0 < c1) (hd : 0 < d) (h0 : 0 ≤ a) (ha : a ≠ 1) :
    Spec.sw c1 c2 d a ≤ 1 := by
  rcases h0.eq_or_lt with h | h
  · subst h; unfold Spec.sw; norm_num
  · exact (sw_lt_one h1 hd h ha).le

theorem sw_hi {c1 c2 d a : ℝ} (h2 : 0 < c2) (hd : 0 < d) (h : 1 < a) :
    -d < Spec.sw c1 c2 d a ∧ Spec.sw c1 c2 d a < 0 := by
  unfold Spec.sw
  rw [if_neg (not_lt.2 h.le), if_neg h.ne']
  have hp := exp_pos (c2 / (1 - a))
  have hl : exp (c2 / (1 - a)) < 1 := by
    rw [Real.exp_lt_one_iff]
    exact div_neg_of_pos_of_neg h2 (by linarith)
  constructor <;> nlinarith

/-! ## Exchange -/

theorem h1_range (s a : ℝ) : 1 ≤ Spec.h1 s a ∧ Spec.h1 s a < 1.065 := by
  have hx := x_nonneg s a
  unfold Spec.h1
  have hd : 1 ≤ 1 + Spec.x s a / 0.065 := by
    have : 0 ≤ Spec.x s a / 0.065 := by positivity
    linarith
  have hp : 0 < 0.065 / (1 + Spec.x s a / 0.065) := by positivity
  have hq : 0.065 / (1 + Spec.x s a / 0.065) ≤ 0.065 := div_le_self (by norm_num) hd
  constructor <;> [linarith; (norm_num at hp hq ⊢; linarith)]

theorem gx_range {s : ℝ} (hs : 0 < s) : 0 < 1 - exp (-4.9479 / √s) ∧ 1 - exp (-4.9479 / √s) < 1 := by
  have hq := Real.sqrt_pos.2 hs
  have hl : exp (-4.9479 / √s) < 1 := by
    rw [Real.exp_lt_one_iff]
    exact div_neg_of_neg_of_pos (by norm_num) hq
  have := exp_pos (-4.9479 / √s)
  constructor <;> linarith

theorem mix_range {h f : ℝ} (h1 : 1 ≤ h) (h2 : h < 1.065)
    (hf : (0 < f ∧ f ≤ 1) ∨ (-1.24 < f ∧ f < 0)) :
    0 < h + f * (1.174 - h) ∧ h + f * (1.174 - h) ≤ 1.174 := by
  norm_num at *
  rcases hf with ⟨a, b⟩ | ⟨a, b⟩
  · constructor <;> nlinarith
  · constructor <;> nlinarith

theorem Fx_range {s a : ℝ} (hs : 0 < s) (h0 : 0 ≤ a) (ha : a ≠ 1) :
    0 < Spec.Fx s a ∧ Spec.Fx s a < 1.174 := by
  obtain ⟨h1, h2⟩ := h1_range s a
  obtain ⟨g1, g2⟩ := gx_range hs
  have hm := mix_range h1 h2 (f := Spec.sw 0.667 0.8 1.24 a) (by
    rcases lt_or_gt_of_ne ha with h | h
    · exact Or.inl ⟨sw_lo h, sw_le (by norm_num) (by norm_num) h0 ha⟩
    · exact Or.inr (sw_hi (by norm_num) (by norm_num) h))
  unfold Spec.Fx
  generalize 1 - exp (-4.9479 / √s) = G at *
  generalize Spec.h1 s a + Spec.sw 0.667 0.8 1.24 a * (1.174 - Spec.h1 s a) = M at *
  exact ⟨mul_pos hm.1 g1, by nlinarith⟩

theorem exUnif_neg {n : ℝ} (hn : 0 < n) : Spec.exUnif n < 0 := by
  have : 0 < (3 / 4) * (3 / π) ^ (1 / 3 : ℝ) * n ^ (1 / 3 : ℝ) := by
    have := pi_pos
    positivity
  unfold Spec.exUnif; linarith

theorem ex_range {n g tau : ℝ} (hn : 0 < n) (hg : 0 < g) (h0 : 0 ≤ Spec.alpha n 0 g tau)
    (ha : Spec.alpha n 0 g tau ≠ 1) :
    1.174 * Spec.exUnif n < Spec.ex n g tau ∧ Spec.ex n g tau < 0 := by
  obtain ⟨h1, h2⟩ := Fx_range (s_pos hn hg) h0 ha
  have hu := exUnif_neg hn
  unfold Spec.ex
  generalize Spec.Fx (Spec.s n g) (Spec.alpha n 0 g tau) = F at *
  constructor <;> nlinarith

theorem alpha_nonneg {n z g tau : ℝ} (hn : 0 < n) (h1 : -1 < z) (h2 : z < 1)
    (h : Spec.tauW n g ≤ tau) : 0 ≤ Spec.alpha n z g tau := by
  have hd := ds_pos h1 h2
  have : 0 ≤ tau - Spec.tauW n g := by linarith
  unfold Spec.alpha Spec.tauU
  positivity

/-! ## Correlation -/

theorem log_le_bound {w g c : ℝ} (hw : 0 < w) (hg : 0 < g) (hg1 : g ≤ 1) (hc : 0 ≤ c) {E : ℝ}
    (hE : w = exp (-E / c) - 1) (hc' : c ≠ 0) : E + c * log (1 + w * (1 - g)) ≤ 0 := by
  have h1 : 0 < 1 + w * (1 - g) := by nlinarith
  have h2 : log (1 + w * (1 - g)) ≤ -E / c := by
    rw [Real.log_le_iff_le_exp h1]
    have : exp (-E / c) = 1 + w := by rw [hE]; ring
    rw [this]; nlinarith
  have h3 := mul_le_mul_of_nonneg_left h2 hc
  have h4 : c * (-E / c) = -E := by field_simp
  linarith

theorem two_pow : (2 : ℝ) ^ (4 / 3 : ℝ) ≤ 2.52 := by
  have h : ((2 : ℝ) ^ (4 / 3 : ℝ)) ^ (3 : ℕ) ≤ 2.52 ^ (3 : ℕ) := by
    rw [← rpow_natCast, ← rpow_mul (by norm_num)]
    norm_num
  exact le_of_pow_le_pow_left₀ (by norm_num) (by norm_num) h

theorem Gc_nonneg {z : ℝ} (h1 : -1 < z) (h2 : z < 1) : 0 ≤ Gc z := by
  have hf : Spec.fz z ≤ 1 := Xc.fz_le_one h1.le h2.le
  have h43 : (2 : ℝ) < 2 ^ (4 / 3 : ℝ) := by
    have := Real.rpow_lt_rpow_of_exponent_lt (x := 2) (by norm_num) (show (1 : ℝ) < 4 / 3 by norm_num)
    rwa [rpow_one] at this
  have hd : Spec.dxz z - 1 ≤ 0.26 := by
    have := two_pow
    unfold Spec.fz at hf
    rw [div_le_one (by linarith)] at hf
    unfold Spec.dxz
    norm_num at *
    linarith
  have hz : z ^ 12 ≤ 1 := by
    have : z ^ 2 ≤ 1 := by nlinarith
    calc z ^ 12 = (z ^ 2) ^ 6 := by ring
      _ ≤ 1 := pow_le_one₀ (sq_nonneg z) this
  unfold Gc
  rw [dx_eq, l1]
  refine mul_nonneg ?_ (by linarith)
  norm_num at *
  linarith

theorem e0_nonpos {r z : ℝ} (hr : 0 < r) (h1 : -1 < z) (h2 : z < 1) (s : ℝ) :
    Spec.e0 r z s ≤ 0 := by
  rw [e0_eq]
  unfold ec0
  refine mul_nonpos_of_nonpos_of_nonneg ?_ (Gc_nonneg h1 h2)
  unfold H0
  rw [l1]
  refine log_le_bound (w0_pos hr) (g0_pos s) (g0_le s) (by unfold b1c; norm_num) ?_
    (by unfold b1c; norm_num)
  unfold w0; rw [l1]

theorem gC_pos {r L P : ℝ} (hr : 0 < r) (hL : L < 0) (hP : 0 < P) (s : ℝ) : 0 < gC r L P s := by
  have := ug_pos hr hL hP s
  unfold gC
  rw [q4]
  refine rpow_pos_of_pos ?_ _
  linarith

theorem e1_nonpos {r z : ℝ} (hr : 0 < r) (h1 : -1 < z) (h2 : z < 1) (s : ℝ) :
    Spec.e1 r z s ≤ 0 := by
  have hL := lsda_neg hr h1.le h2.le
  have hP := phi_pos h1 h2
  have hc := rC_pos
  rw [e1_eq]
  unfold ec1 H1
  rw [l1]
  refine log_le_bound (w1_pos hL hP) (gC_pos hr hL hP s) (gC_le hr hL hP s) (by positivity) ?_
    (by positivity)
  unfold w1; rw [l1]

theorem ec_nonpos {n z g tau : ℝ} (hn : 0 < n) (h1 : -1 < z) (h2 : z < 1)
    (h0 : 0 ≤ Spec.alpha n z g tau) (ha : Spec.alpha n z g tau < 1) : Spec.ec n z g tau ≤ 0 := by
  have a := e0_nonpos (rs_pos hn) h1 h2 (Spec.s n g)
  have b := e1_nonpos (rs_pos hn) h1 h2 (Spec.s n g)
  have c := sw_lo (c1 := 0.64) (c2 := 1.5) (d := 0.7) ha
  have d := sw_le (c1 := 0.64) (c2 := 1.5) (d := 0.7) (by norm_num) (by norm_num) h0 ha.ne
  unfold Spec.ec
  simp only
  nlinarith

/-! ## The derivative in `β` -/

theorem e1b_deriv {r z : ℝ} (hr : 0 < r) (h1 : -1 < z) (h2 : z < 1) (s : ℝ) :
    HasDerivAt (fun b => Spec.e1b b r z s) (wBeta r (Spec.lsda r z) (Spec.phi z) s)
      (Spec.beta r) := by
  have hL := lsda_neg hr h1.le h2.le
  have hP := phi_pos h1 h2
  have hw := w1_pos hL hP
  have hu := ug_pos hr hL hP s
  have ha := h1_arg hr hL hP s
  have eb : betaC r = Spec.beta r := by unfold betaC Spec.beta betaConst; rw [l1]
  have eA : AC r (Spec.lsda r z) (Spec.phi z)
      = Spec.beta r / (0.031091 * w1 (Spec.lsda r z) (Spec.phi z)) := by
    unfold AC rC; rw [eb]
  have e3 : rC * Spec.phi z * Spec.phi z * Spec.phi z = 0.031091 * Spec.phi z ^ 3 := by
    unfold rC; ring
  have eF : (fun b => Spec.e1b b r z s) = fun b => Spec.lsda r z + 0.031091 * Spec.phi z ^ 3
      * log (1 + w1 (Spec.lsda r z) (Spec.phi z)
        * (1 - (1 + 4 * (b / (0.031091 * w1 (Spec.lsda r z) (Spec.phi z)))
          * tC r (Spec.phi z) s ^ 2) ^ (-(1 / 4) : ℝ))) := by
    funext b
    unfold Spec.e1b w1 tC
    rw [e3, l1, ct_eq]
  have eW : wBeta r (Spec.lsda r z) (Spec.phi z) s = Spec.phi z ^ 3 * tC r (Spec.phi z) s ^ 2
      * (1 + 4 * (Spec.beta r / (0.031091 * w1 (Spec.lsda r z) (Spec.phi z)))
          * tC r (Spec.phi z) s ^ 2) ^ (-(5 / 4) : ℝ)
      / (1 + w1 (Spec.lsda r z) (Spec.phi z)
        * (1 - (1 + 4 * (Spec.beta r / (0.031091 * w1 (Spec.lsda r z) (Spec.phi z)))
          * tC r (Spec.phi z) s ^ 2) ^ (-(1 / 4) : ℝ))) := by
    unfold wBeta gC
    rw [eA, q4]
    simp only [l1, l4]
    have et : ∀ A t : ℝ, 4 * A * t * t = 4 * A * t ^ 2 := fun A t => by ring
    simp only [et]
  unfold gC at ha
  rw [eA, q4] at ha
  rw [eA] at hu
  simp only [l1, l4] at ha hu
  have et : ∀ A t : ℝ, 4 * A * t * t = 4 * A * t ^ 2 := fun A t => by ring
  simp only [et] at ha hu
  rw [eF, eW]
  generalize w1 (Spec.lsda r z) (Spec.phi z) = w at *
  generalize tC r (Spec.phi z) s = t at *
  generalize Spec.beta r = β at *
  have hU : HasDerivAt (fun b : ℝ => 1 + 4 * (b / (0.031091 * w)) * t ^ 2)
      (4 * (1 / (0.031091 * w)) * t ^ 2) β :=
    (((((hasDerivAt_id' β).div_const (0.031091 * w)).const_mul 4).mul_const (t ^ 2)).const_add 1)
  have hup : 0 < 1 + 4 * (β / (0.031091 * w)) * t ^ 2 := by linarith
  have hq := quart_deriv hU hup
  have := ((((hq.const_sub 1).const_mul w).const_add 1).log ha.ne').const_mul
    (0.031091 * Spec.phi z ^ 3) |>.const_add (Spec.lsda r z)
  refine this.congr_deriv ?_
  field_simp

end Sparc.Mgga

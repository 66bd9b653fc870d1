import Verif.Xc.Lemmas
import Verif.Xc.Spec

namespace Sparc.Xc

open Real

theorem pwG_eq (A a1 b1 b2 b3 b4 r : ℝ) :
    Spec.pwG A a1 b1 b2 b3 b4 r
      = -2 * A * (1 + a1 * r) * log (1 + 1 / qq1 A b1 b2 b3 b4 r) := by
  unfold Spec.pwG qq1
  congr 5
  ring

/-! ## Density to `rs` -/

theorem sqrt_rs {c w : ℝ} (hc : 0 < c) : √c * √w = √(c * w) := (Real.sqrt_mul hc.le w).symm

theorem rsm_eq {c x : ℝ} (hc : 0 < c) (hx : 0 < x) :
    1 / √c * (x * x ^ (-(1 / 3) : ℝ) * x ^ (-(1 / 3) : ℝ) * √(x ^ (-(1 / 3) : ℝ)))
      = 1 / √(c * x ^ (-(1 / 3) : ℝ)) := by
  have h3 := cube_m13 hx
  have hw := m13_pos hx
  generalize x ^ (-(1 / 3) : ℝ) = w at *
  rw [Real.sqrt_mul hc.le]
  have hsw := Real.sqrt_pos.2 hw
  have hsc := Real.sqrt_pos.2 hc
  have hss : √w * √w = w := Real.mul_self_sqrt hw.le
  have hxw : x * w ^ 3 = 1 := by rw [h3]; field_simp
  have : x * w * w * √w = 1 / √w := by
    rw [eq_div_iff hsw.ne']
    calc x * w * w * √w * √w = x * w * w * (√w * √w) := by ring
      _ = 1 := by rw [hss, ← hxw]; ring
  rw [this]; field_simp

/-! ## The spin interpolation -/

theorem two43 : (2 : ℝ) < 2 ^ (4 / 3 : ℝ) := by
  have := Real.rpow_lt_rpow_of_exponent_lt (x := (2 : ℝ)) (by norm_num)
    (show (1 : ℝ) < 4 / 3 by norm_num)
  rwa [rpow_one] at this

theorem fz_nonneg {z : ℝ} (h1 : -1 ≤ z) (h2 : z ≤ 1) : 0 ≤ Spec.fz z := by
  unfold Spec.fz
  have hd := two43
  refine div_nonneg ?_ (by linarith)
  have a := one_add_mul_self_le_rpow_one_add (s := z) h1 (p := 4 / 3) (by norm_num)
  have b := one_add_mul_self_le_rpow_one_add (s := -z) (by linarith) (p := 4 / 3) (by norm_num)
  have e : (1 + -z) = 1 - z := by ring
  rw [e] at b
  linarith

theorem fz_le_one {z : ℝ} (h1 : -1 ≤ z) (h2 : z ≤ 1) : Spec.fz z ≤ 1 := by
  unfold Spec.fz
  have hd := two43
  rw [div_le_one (by linarith)]
  have key : ∀ t : ℝ, 0 ≤ t → t ≤ 2 → t ^ (4 / 3 : ℝ) ≤ t * 2 ^ (1 / 3 : ℝ) := by
    intro t h0 h2
    rcases h0.eq_or_lt with h | h
    · subst h
      rw [zero_rpow (by norm_num)]; simp
    · rw [p43_eq h]
      exact mul_le_mul_of_nonneg_left (Real.rpow_le_rpow h0 h2 (by norm_num)) h0
  have a := key (1 + z) (by linarith) (by linarith)
  have b := key (1 - z) (by linarith) (by linarith)
  have c := p43_eq (show (0 : ℝ) < 2 by norm_num)
  rw [c]
  nlinarith

/-- `x log(1 + 1/x)` grows with `x`. -/
theorem xlog_mono {x y : ℝ} (hx : 0 < x) (hxy : x ≤ y) :
    x * log (1 + 1 / x) ≤ y * log (1 + 1 / y) := by
  have hy : 0 < y := lt_of_lt_of_le hx hxy
  -- Bernoulli: 1 + 1/x ≤ (1 + 1/y)^(y/x)
  have h := one_add_mul_self_le_rpow_one_add (s := 1 / y)
    (by have : 0 < 1 / y := by positivity
        linarith) (p := y / x) (by rw [le_div_iff₀ hx]; linarith)
  have e : 1 + y / x * (1 / y) = 1 + 1 / x := by field_simp
  rw [e] at h
  have hp : 0 < 1 + 1 / y := by positivity
  have hl := Real.log_le_log (by positivity) h
  rw [Real.log_rpow hp] at hl
  have := mul_le_mul_of_nonneg_left hl hx.le
  calc x * log (1 + 1 / x) ≤ x * (y / x * log (1 + 1 / y)) := this
    _ = y * log (1 + 1 / y) := by field_simp

theorem ec0_neg {r : ℝ} (hr : 0 < r) : Spec.ec0 r < 0 := by
  unfold Spec.ec0; rw [pwG_eq]
  exact lsd_neg (by norm_num) (by norm_num) (by norm_num) (by norm_num) (by norm_num)
    (by norm_num) hr

theorem ec1_neg {r : ℝ} (hr : 0 < r) : Spec.ec1 r < 0 := by
  unfold Spec.ec1; rw [pwG_eq]
  exact lsd_neg (by norm_num) (by norm_num) (by norm_num) (by norm_num) (by norm_num)
    (by norm_num) hr

theorem mac_neg {r : ℝ} (hr : 0 < r) : Spec.mac r < 0 := by
  unfold Spec.mac; rw [pwG_eq]
  exact lsd_neg (by norm_num) (by norm_num) (by norm_num) (by norm_num) (by norm_num)
    (by norm_num) hr

/-- The spin stiffness never outweighs the unpolarised energy. -/
theorem mac_lt_ec0 {r : ℝ} (hr : 0 < r) : -Spec.mac r / 1.709921 < -Spec.ec0 r := by
  have hs := Real.sqrt_pos.2 hr
  have hss : √r * √r = r := Real.mul_self_sqrt hr.le
  unfold Spec.mac Spec.ec0
  rw [pwG_eq, pwG_eq]
  have q0 : 0 < qq1 0.031091 7.5957 3.5876 1.6382 0.49294 r :=
    qq1_pos (by norm_num) (by norm_num) (by norm_num) (by norm_num) (by norm_num) hr
  have qm : 0 < qq1 0.016887 10.357 3.6231 0.88026 0.49671 r :=
    qq1_pos (by norm_num) (by norm_num) (by norm_num) (by norm_num) (by norm_num) hr
  have hle : qq1 0.016887 10.357 3.6231 0.88026 0.49671 r
      ≤ qq1 0.031091 7.5957 3.5876 1.6382 0.49294 r := by
    unfold qq1
    have : 0 < r * √r := by positivity
    have : 0 < r * r := by positivity
    norm_num
    nlinarith
  have hmono := xlog_mono qm hle
  have hpoly : 0.016887 * (1 + 0.11125 * r) * qq1 0.031091 7.5957 3.5876 1.6382 0.49294 r
      < 1.709921 * (0.031091 * (1 + 0.21370 * r))
        * qq1 0.016887 10.357 3.6231 0.88026 0.49671 r := by
    unfold qq1
    generalize √r = s at *
    subst hss
    have : 0 < s ^ 2 := by positivity
    have : 0 < s ^ 3 := by positivity
    have : 0 < s ^ 4 := by positivity
    have : 0 < s ^ 5 := by positivity
    have : 0 < s ^ 6 := by positivity
    norm_num
    ring_nf
    linarith
  generalize qq1 0.016887 10.357 3.6231 0.88026 0.49671 r = m at *
  generalize qq1 0.031091 7.5957 3.5876 1.6382 0.49294 r = q at *
  have lm : 0 < log (1 + 1 / m) := log_pos (by
    have : 0 < 1 / m := by positivity
    linarith)
  have lq : 0 < log (1 + 1 / q) := log_pos (by
    have : 0 < 1 / q := by positivity
    linarith)
  generalize log (1 + 1 / m) = M at *
  generalize log (1 + 1 / q) = Q at *
  rw [div_lt_iff₀ (by norm_num)]
  have hA : 0 < 0.016887 * (1 + 0.11125 * r) := by positivity
  have hB : 0 < 1.709921 * (0.031091 * (1 + 0.21370 * r)) := by positivity
  -- A M m ≤ A q Q < B m Q
  have h1 := mul_le_mul_of_nonneg_left hmono hA.le
  have h2 := mul_lt_mul_of_pos_right hpoly lq
  have h3 : (0.016887 * (1 + 0.11125 * r)) * M * m
      < 1.709921 * (0.031091 * (1 + 0.21370 * r)) * Q * m := by nlinarith
  have h4 := lt_of_mul_lt_mul_right h3 qm.le
  linarith

/-- The interpolated correlation energy is negative at every density and polarisation. -/
theorem pw92_neg {r z : ℝ} (hr : 0 < r) (h1 : -1 ≤ z) (h2 : z ≤ 1) : Spec.pw92 r z < 0 := by
  have a1 : -1 ≤ Spec.alpha * z := by unfold Spec.alpha; norm_num; linarith
  have a2 : Spec.alpha * z ≤ 1 := by unfold Spec.alpha; norm_num; linarith
  have f0 := fz_nonneg a1 a2
  have f1 := fz_le_one a1 a2
  have hz : z ^ 4 ≤ 1 := by
    have : z ^ 2 ≤ 1 := by nlinarith
    nlinarith [sq_nonneg z]
  have hz0 : 0 ≤ z ^ 4 := by positivity
  have e0 := ec0_neg hr
  have e1 := ec1_neg hr
  have hm := mac_lt_ec0 hr
  have hm0 := mac_neg hr
  unfold Spec.pw92
  generalize Spec.fz (Spec.alpha * z) = f at *
  generalize Spec.ec0 r = a at *
  generalize Spec.ec1 r = b at *
  have hk : -Spec.mac r * (f / 1.709921) * (1 - z ^ 4) = (-Spec.mac r / 1.709921) * (f * (1 - z ^ 4)) := by
    ring
  rw [hk]
  have hkk : 0 < -Spec.mac r / 1.709921 := by
    have : 0 < -Spec.mac r := by linarith
    positivity
  generalize -Spec.mac r / 1.709921 = k at *
  generalize z ^ 4 = u at *
  have hfu : f * (1 - u) ≤ 1 - f * u := by nlinarith
  have h3 : k * (f * (1 - u)) ≤ k * (1 - f * u) := mul_le_mul_of_nonneg_left hfu hkk.le
  have hfu1 : f * u ≤ 1 := by nlinarith
  have hfu0 : 0 ≤ f * u := by positivity
  rcases hfu1.eq_or_lt with h | h
  · have : k * (f * (1 - u)) ≤ 0 := by rw [h] at h3; linarith
    nlinarith
  · have : k * (1 - f * u) < -a * (1 - f * u) := mul_lt_mul_of_pos_right hm (by linarith)
    nlinarith

theorem fz_deriv {z : ℝ} (h1 : -1 < z) (h2 : z < 1) :
    HasDerivAt Spec.fz
      (4 / 3 * ((1 + z) ^ (1 / 3 : ℝ) - (1 - z) ^ (1 / 3 : ℝ)) / (2 ^ (4 / 3 : ℝ) - 2)) z := by
  have hp : 0 < 1 + z := by linarith
  have hm : 0 < 1 - z := by linarith
  have a : HasDerivAt (fun y : ℝ => (1 + y) ^ (4 / 3 : ℝ)) (4 / 3 * (1 + z) ^ (1 / 3 : ℝ)) z := by
    have := (p43_deriv hp).comp z ((hasDerivAt_id' z).const_add 1)
    refine this.congr_deriv ?_
    rw [p43_eq hp]; field_simp
  have b : HasDerivAt (fun y : ℝ => (1 - y) ^ (4 / 3 : ℝ)) (-(4 / 3 * (1 - z) ^ (1 / 3 : ℝ))) z := by
    have := (p43_deriv hm).comp z ((hasDerivAt_id' z).const_sub 1)
    refine this.congr_deriv ?_
    rw [p43_eq hm]; field_simp
  refine (((a.add b).sub_const 2).div_const (2 ^ (4 / 3 : ℝ) - 2)).congr_deriv ?_
  ring

theorem phi_deriv {z : ℝ} (h1 : -1 < z) (h2 : z < 1) :
    HasDerivAt Spec.phi
      (((1 + z) ^ (-(1 / 3) : ℝ) - (1 - z) ^ (-(1 / 3) : ℝ)) / 3) z := by
  have hp : 0 < 1 + z := by linarith
  have hm : 0 < 1 - z := by linarith
  have a : HasDerivAt (fun y : ℝ => (1 + y) ^ (2 / 3 : ℝ)) (2 / 3 * (1 + z) ^ (-(1 / 3) : ℝ)) z := by
    have := (hasDerivAt_rpow_const (p := 2 / 3) (Or.inl hp.ne')).comp z
      ((hasDerivAt_id' z).const_add 1)
    refine this.congr_deriv ?_
    norm_num
  have b : HasDerivAt (fun y : ℝ => (1 - y) ^ (2 / 3 : ℝ)) (-(2 / 3 * (1 - z) ^ (-(1 / 3) : ℝ))) z := by
    have := (hasDerivAt_rpow_const (p := 2 / 3) (Or.inl hm.ne')).comp z
      ((hasDerivAt_id' z).const_sub 1)
    refine this.congr_deriv ?_
    norm_num
  refine ((a.add b).div_const 2).congr_deriv ?_
  ring

theorem phi_pos {z : ℝ} (h1 : -1 < z) (h2 : z < 1) : 0 < Spec.phi z := by
  have hp : 0 < 1 + z := by linarith
  have hm : 0 < 1 - z := by linarith
  have := rpow_pos_of_pos hp (2 / 3)
  have := rpow_pos_of_pos hm (2 / 3)
  unfold Spec.phi; positivity

/-! ## The model's local part -/

/-- The `rs` the code forms. -/
noncomputable def rsOf (x : ℝ) : ℝ := 0.6203504908994000 * x ^ (-(1 / 3) : ℝ)

theorem rsOf_pos {x : ℝ} (hx : 0 < x) : 0 < rsOf x := by
  have := m13_pos hx
  unfold rsOf; positivity

theorem rsOf_deriv {x : ℝ} (hx : 0 < x) : HasDerivAt rsOf (-(1 / 3) * rsOf x / x) x := by
  refine ((m13_deriv hx).const_mul 0.6203504908994000).congr_deriv ?_
  unfold rsOf; ring

noncomputable def L0 (r : ℝ) := lsd 0.031091 0.21370 7.5957 3.5876 1.6382 0.49294 r (√r) (1 / √r)
noncomputable def Lm (r : ℝ) := lsd 0.016887 0.11125 10.357 3.6231 0.88026 0.49671 r (√r) (1 / √r)
noncomputable def L1 (r : ℝ) := lsd 0.015545 0.20548 14.1189 6.1977 3.3662 0.62517 r (√r) (1 / √r)

theorem L0_fst {r : ℝ} (hr : 0 < r) : (L0 r).1 = Spec.ec0 r := by
  unfold L0 Spec.ec0
  rw [pwG_eq, lsd_fst _ _ _ _ _ _ _ _ (qq1_pos (by norm_num) (by norm_num) (by norm_num)
    (by norm_num) (by norm_num) hr)]
theorem Lm_fst {r : ℝ} (hr : 0 < r) : (Lm r).1 = Spec.mac r := by
  unfold Lm Spec.mac
  rw [pwG_eq, lsd_fst _ _ _ _ _ _ _ _ (qq1_pos (by norm_num) (by norm_num) (by norm_num)
    (by norm_num) (by norm_num) hr)]
theorem L1_fst {r : ℝ} (hr : 0 < r) : (L1 r).1 = Spec.ec1 r := by
  unfold L1 Spec.ec1
  rw [pwG_eq, lsd_fst _ _ _ _ _ _ _ _ (qq1_pos (by norm_num) (by norm_num) (by norm_num)
    (by norm_num) (by norm_num) hr)]

theorem L0_deriv {r : ℝ} (hr : 0 < r) : HasDerivAt Spec.ec0 (L0 r).2 r := by
  have := lsd_deriv (aa := 0.031091) (b1 := 7.5957) (b2 := 3.5876) (b3 := 1.6382) (b4 := 0.49294)
    0.21370 (by norm_num) (by norm_num) (by norm_num) (by norm_num) (by norm_num) hr
  have e : Spec.ec0 = _ := funext fun y => pwG_eq 0.031091 0.21370 7.5957 3.5876 1.6382 0.49294 y
  rw [e]; exact this
theorem Lm_deriv {r : ℝ} (hr : 0 < r) : HasDerivAt Spec.mac (Lm r).2 r := by
  have := lsd_deriv (aa := 0.016887) (b1 := 10.357) (b2 := 3.6231) (b3 := 0.88026) (b4 := 0.49671)
    0.11125 (by norm_num) (by norm_num) (by norm_num) (by norm_num) (by norm_num) hr
  have e : Spec.mac = _ := funext fun y => pwG_eq 0.016887 0.11125 10.357 3.6231 0.88026 0.49671 y
  rw [e]; exact this
theorem L1_deriv {r : ℝ} (hr : 0 < r) : HasDerivAt Spec.ec1 (L1 r).2 r := by
  have := lsd_deriv (aa := 0.015545) (b1 := 14.1189) (b2 := 6.1977) (b3 := 3.3662) (b4 := 0.62517)
    0.20548 (by norm_num) (by norm_num) (by norm_num) (by norm_num) (by norm_num) hr
  have e : Spec.ec1 = _ := funext fun y => pwG_eq 0.015545 0.20548 14.1189 6.1977 3.3662 0.62517 y
  rw [e]; exact this

/-- `decrs_drs` of the code as a function of `rs` and `ζ`. -/
noncomputable def drsOf (r z : ℝ) : ℝ :=
  (L0 r).2 + Spec.fz (Spec.alpha * z)
    * (z ^ 4 * ((L1 r).2 - (L0 r).2 + (Lm r).2 * (1 / 1.709921)) - (Lm r).2 * (1 / 1.709921))

/-- `fp_zeta`. -/
noncomputable def fpOf (z : ℝ) : ℝ :=
  ((1 + Spec.alpha * z) ^ (1 / 3 : ℝ) - (1 - Spec.alpha * z) ^ (1 / 3 : ℝ))
    * (4 / 3 * (1 / (2 ^ (4 / 3 : ℝ) - 2)) * Spec.alpha)

/-- `decrs_dzeta` of the code as a function of `rs` and `ζ`. -/
noncomputable def dzOf (r z : ℝ) : ℝ :=
  (4 * z ^ 3 * Spec.fz (Spec.alpha * z) + fpOf z * z ^ 4)
    * (Spec.ec1 r - Spec.ec0 r + Spec.mac r * (1 / 1.709921))
    - fpOf z * Spec.mac r * (1 / 1.709921)

theorem az_bounds {z : ℝ} (h1 : -1 ≤ z) (h2 : z ≤ 1) :
    -1 < Spec.alpha * z ∧ Spec.alpha * z < 1 := by
  unfold Spec.alpha; norm_num; constructor <;> linarith

theorem fza_deriv {z : ℝ} (h1 : -1 ≤ z) (h2 : z ≤ 1) :
    HasDerivAt (fun y => Spec.fz (Spec.alpha * y)) (fpOf z) z := by
  obtain ⟨a, b⟩ := az_bounds h1 h2
  have := (fz_deriv a b).comp z ((hasDerivAt_id' z).const_mul Spec.alpha)
  refine this.congr_deriv ?_
  unfold fpOf; ring

theorem phia_deriv {z : ℝ} (h1 : -1 ≤ z) (h2 : z ≤ 1) :
    HasDerivAt (fun y => Spec.phi (Spec.alpha * y))
      (((1 + Spec.alpha * z) ^ (-(1 / 3) : ℝ) - (1 - Spec.alpha * z) ^ (-(1 / 3) : ℝ))
        * (1 / 3) * Spec.alpha) z := by
  obtain ⟨a, b⟩ := az_bounds h1 h2
  have := (phi_deriv a b).comp z ((hasDerivAt_id' z).const_mul Spec.alpha)
  refine this.congr_deriv ?_
  ring

theorem pw92_deriv {R Z : ℝ → ℝ} {r' z' x : ℝ} (hR : HasDerivAt R r' x) (hZ : HasDerivAt Z z' x)
    (hr : 0 < R x) (h1 : -1 ≤ Z x) (h2 : Z x ≤ 1) :
    HasDerivAt (fun y => Spec.pw92 (R y) (Z y))
      (drsOf (R x) (Z x) * r' + dzOf (R x) (Z x) * z') x := by
  have d0 : HasDerivAt (fun y => Spec.ec0 (R y)) ((L0 (R x)).2 * r') x := (L0_deriv hr).comp x hR
  have dm : HasDerivAt (fun y => Spec.mac (R y)) ((Lm (R x)).2 * r') x := (Lm_deriv hr).comp x hR
  have d1 : HasDerivAt (fun y => Spec.ec1 (R y)) ((L1 (R x)).2 * r') x := (L1_deriv hr).comp x hR
  have df : HasDerivAt (fun y => Spec.fz (Spec.alpha * Z y)) (fpOf (Z x) * z') x :=
    HasDerivAt.comp x (fza_deriv h1 h2) hZ
  have dz : HasDerivAt (fun y => Z y ^ 4) (4 * Z x ^ 3 * z') x := by
    refine (hZ.pow 4).congr_deriv ?_
    norm_num
  have dz1 : HasDerivAt (fun y => 1 - Z y ^ 4) (-(4 * Z x ^ 3 * z')) x := dz.const_sub 1
  have t1 := d_mul (d_mul dm.neg (df.div_const 1.709921)) dz1
  have t2 := d_mul (d_mul (d1.sub d0) df) dz
  have := (d0.add t1).add t2
  refine this.congr_deriv ?_
  unfold drsOf dzOf
  simp only [Pi.neg_apply, Pi.sub_apply]
  ring

theorem zetp13 {z : ℝ} (h : 0 < z) : z * (z ^ (-(1 / 3) : ℝ)) ^ 2 = z ^ (1 / 3 : ℝ) := by
  rw [p13_eq h]; ring

theorem lsda_rs (p : Pt) : (lsda p).rs = rsOf p.rho := by
  simp only [lsda, rsOf, third_eq]

theorem lsda_zeta {p : Pt} (h : 0 < p.rho) : (lsda p).zeta = (p.up - p.dn) / p.rho := by
  simp only [lsda, third_eq, cube_m13 h]; ring

theorem alpha_lit : (1 - 1.0e-6 : ℝ) = Spec.alpha := by unfold Spec.alpha; norm_num

theorem lsda_eq {p : Pt} (h : 0 < p.rho) {z : ℝ} (hz : z = (p.up - p.dn) / p.rho)
    (h1 : -1 ≤ z) (h2 : z ≤ 1) :
    (lsda p).ecrs = Spec.pw92 (rsOf p.rho) z ∧ (lsda p).drs = drsOf (rsOf p.rho) z
      ∧ (lsda p).dzeta = dzOf (rsOf p.rho) z := by
  have hz' : (p.up - p.dn) * (1 / p.rho) = z := by rw [hz]; ring
  have hr := rsOf_pos h
  obtain ⟨a1, a2⟩ := az_bounds h1 h2
  have c : (0 : ℝ) < 0.6203504908994000 := by norm_num
  have ez : z * Spec.alpha = Spec.alpha * z := mul_comm _ _
  have f1 : (1 + Spec.alpha * z) * (1 + Spec.alpha * z) ^ (1 / 3 : ℝ)
      = (1 + Spec.alpha * z) ^ (4 / 3 : ℝ) := (p43_eq (by linarith)).symm
  have f2 : (1 - Spec.alpha * z) * (1 - Spec.alpha * z) ^ (1 / 3 : ℝ)
      = (1 - Spec.alpha * z) ^ (4 / 3 : ℝ) := (p43_eq (by linarith)).symm
  have ef : ((1 + Spec.alpha * z) ^ (4 / 3 : ℝ) + (1 - Spec.alpha * z) ^ (4 / 3 : ℝ) - 2)
      * (1 / (2 ^ (4 / 3 : ℝ) - 2)) = Spec.fz (Spec.alpha * z) := by
    unfold Spec.fz; ring
  have e0 : lsd 0.031091 0.21370 7.5957 3.5876 1.6382 0.49294 (rsOf p.rho) (√(rsOf p.rho))
    (1 / √(rsOf p.rho)) = L0 (rsOf p.rho) := rfl
  have em : lsd 0.016887 0.11125 10.357 3.6231 0.88026 0.49671 (rsOf p.rho) (√(rsOf p.rho))
    (1 / √(rsOf p.rho)) = Lm (rsOf p.rho) := rfl
  have e1 : lsd 0.015545 0.20548 14.1189 6.1977 3.3662 0.62517 (rsOf p.rho) (√(rsOf p.rho))
    (1 / √(rsOf p.rho)) = L1 (rsOf p.rho) := rfl
  have er : 0.6203504908994000 * p.rho ^ (-(1 / 3) : ℝ) = rsOf p.rho := rfl
  simp only [lsda, l1, l2, l3, l4, cube_m13 h, hz', alpha_lit, ez,
    rsm_eq c h, sqrt_rs c, er, e0, em, e1,
    zetp13 (show 0 < 1 + Spec.alpha * z by linarith),
    zetp13 (show 0 < 1 - Spec.alpha * z by linarith), f1, f2, ef, L0_fst hr, L1_fst hr, Lm_fst hr]
  refine ⟨?_, ?_, ?_⟩
  · unfold Spec.pw92; ring
  · unfold drsOf; rfl
  · unfold dzOf fpOf; rfl

end Sparc.Xc

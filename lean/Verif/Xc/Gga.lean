import Verif.Xc.Lsda
import Mathlib.Analysis.Complex.ExponentialBounds

namespace Sparc.Xc

open Real

/-! ## Exchange of one spin channel -/

theorem muOf_pos (f : ℕ) : 0 < muOf f := by unfold muOf; split_ifs <;> norm_num

theorem kappaOf_pos (f : ℕ) : 0 < kappaOf f := by unfold kappaOf; split_ifs <;> norm_num

theorem enh_deriv (f : ℕ) {S : ℝ → ℝ} {S' x : ℝ} (hS : HasDerivAt S S' x) (h0 : 0 ≤ S x) :
    HasDerivAt (fun y => 1 + kappaOf f * (1 - divss f (S y))) (dfxdss f (S x) * S') x := by
  have hk := kappaOf_pos f
  have hm := muOf_pos f
  have hmk : kappaOf f * (muOf f / kappaOf f) = muOf f := by field_simp
  have hmk0 : 0 < muOf f / kappaOf f := by positivity
  by_cases h3 : f = 3
  · simp only [divss, dfxdss, h3, if_true]
    rw [← h3]
    have h1 : HasDerivAt (fun y => -(muOf f / kappaOf f) * S y) (-(muOf f / kappaOf f) * S') x :=
      hS.const_mul _
    refine (((h1.exp).const_sub 1).const_mul (kappaOf f)).const_add 1 |>.congr_deriv ?_
    linear_combination (exp (-(muOf f / kappaOf f) * S x) * S') * hmk
  · simp only [divss, dfxdss, h3, if_false, l1]
    have h1 : HasDerivAt (fun y => 1 + muOf f / kappaOf f * S y) (muOf f / kappaOf f * S') x :=
      (hS.const_mul _).const_add 1
    have h2 := d_inv h1 (by positivity)
    refine ((h2.const_sub 1).const_mul (kappaOf f)).const_add 1 |>.congr_deriv ?_
    linear_combination ((1 / (1 + muOf f / kappaOf f * S x)) ^ 2 * S') * hmk

/-- `s²` of a spin channel. -/
noncomputable def ssOf (x g : ℝ) : ℝ :=
  g * ((1 / 4) * (1 / (6 * π * π) ^ (1 / 3 : ℝ)) * (1 / (6 * π * π) ^ (1 / 3 : ℝ))
    * (x ^ (-(1 / 3) : ℝ)) ^ 8)

/-- `ex_lsd` of a spin channel. -/
noncomputable def exl (x : ℝ) : ℝ :=
  -((3 / 4) / π) * (6 * π * π) ^ (1 / 3 : ℝ) * x ^ (1 / 3 : ℝ)

theorem exl_eq {x : ℝ} (hx : 0 < x) : exl x = -((3 / 4) / π) * (6 * π * π) ^ (1 / 3 : ℝ)
    * (x ^ (-(1 / 3) : ℝ) * x ^ (-(1 / 3) : ℝ) * x) := by
  unfold exl; rw [p13_eq hx]; ring

theorem exl_deriv {x : ℝ} (hx : 0 < x) : HasDerivAt exl (1 / 3 * exl x / x) x := by
  refine ((p13_deriv hx).const_mul (-((3 / 4) / π) * (6 * π * π) ^ (1 / 3 : ℝ))).congr_deriv ?_
  unfold exl; ring

theorem ssOf_nonneg {x g : ℝ} (hx : 0 < x) (hg : 0 ≤ g) : 0 ≤ ssOf x g := by
  have := m13_pos hx
  have : 0 < (6 * π * π) ^ (1 / 3 : ℝ) := rpow_pos_of_pos (by positivity) _
  unfold ssOf; positivity

theorem ssOf_deriv {x : ℝ} (g : ℝ) (hx : 0 < x) :
    HasDerivAt (fun y => ssOf y g) (-8 / 3 * (ssOf x g * (x ^ (-(1 / 3) : ℝ)) ^ 3)) x := by
  have := (((m13_deriv hx).pow 8).const_mul ((1 / 4) * (1 / (6 * π * π) ^ (1 / 3 : ℝ))
    * (1 / (6 * π * π) ^ (1 / 3 : ℝ)))).const_mul g
  refine this.congr_deriv ?_
  rw [cube_m13 hx]
  unfold ssOf
  push_cast
  field_simp

theorem chan_fst (f : ℕ) {x : ℝ} (g : ℝ) (hx : 0 < x) :
    (pbexChan f x g).1 = exl x * (1 + kappaOf f * (1 - divss f (ssOf x g))) := by
  have e : g * (1 / 4 * (1 / (6 * π * π) ^ (1 / 3 : ℝ)) * (1 / (6 * π * π) ^ (1 / 3 : ℝ))
      * (x ^ (-(1 / 3) : ℝ) * x ^ (-(1 / 3) : ℝ) * x ^ (-(1 / 3) : ℝ)
        * (x ^ (-(1 / 3) : ℝ) * x ^ (-(1 / 3) : ℝ) * x ^ (-(1 / 3) : ℝ))
        * x ^ (-(1 / 3) : ℝ) * x ^ (-(1 / 3) : ℝ))) = ssOf x g := by
    unfold ssOf; ring
  simp only [pbexChan, l1, l3, l4, l6, e, exl_eq hx]

theorem chan_v (f : ℕ) {x : ℝ} (g : ℝ) (hx : 0 < x) :
    (pbexChan f x g).2.1 = exl x * (4 / 3 * (1 + kappaOf f * (1 - divss f (ssOf x g)))
      + x * (dfxdss f (ssOf x g) * (-8 / 3 * (ssOf x g * (x ^ (-(1 / 3) : ℝ)) ^ 3)))) := by
  have e : g * (1 / 4 * (1 / (6 * π * π) ^ (1 / 3 : ℝ)) * (1 / (6 * π * π) ^ (1 / 3 : ℝ))
      * (x ^ (-(1 / 3) : ℝ) * x ^ (-(1 / 3) : ℝ) * x ^ (-(1 / 3) : ℝ)
        * (x ^ (-(1 / 3) : ℝ) * x ^ (-(1 / 3) : ℝ) * x ^ (-(1 / 3) : ℝ))
        * x ^ (-(1 / 3) : ℝ) * x ^ (-(1 / 3) : ℝ))) = ssOf x g := by
    unfold ssOf; ring
  simp only [pbexChan, l1, l3, l4, l6, l8, e, exl_eq hx]
  ring

theorem chan_v2 (f : ℕ) {x : ℝ} (g : ℝ) (hx : 0 < x) :
    (pbexChan f x g).2.2 = exl x * x * (dfxdss f (ssOf x g) * (2 * ssOf x 1)) := by
  have e : g * (1 / 4 * (1 / (6 * π * π) ^ (1 / 3 : ℝ)) * (1 / (6 * π * π) ^ (1 / 3 : ℝ))
      * (x ^ (-(1 / 3) : ℝ) * x ^ (-(1 / 3) : ℝ) * x ^ (-(1 / 3) : ℝ)
        * (x ^ (-(1 / 3) : ℝ) * x ^ (-(1 / 3) : ℝ) * x ^ (-(1 / 3) : ℝ))
        * x ^ (-(1 / 3) : ℝ) * x ^ (-(1 / 3) : ℝ))) = ssOf x g := by
    unfold ssOf; ring
  simp only [pbexChan, l1, l2, l3, l4, l6, e, exl_eq hx]
  unfold ssOf
  ring

theorem chan_deriv (f : ℕ) {x g : ℝ} (hx : 0 < x) (hg : 0 ≤ g) :
    HasDerivAt (fun y => y * (pbexChan f y g).1) (pbexChan f x g).2.1 x := by
  have hF := enh_deriv f (ssOf_deriv g hx) (ssOf_nonneg hx hg)
  have h := d_mul (hasDerivAt_id' x) (d_mul (exl_deriv hx) hF)
  have h' := h.congr_deriv (show _ = (pbexChan f x g).2.1 by
    rw [chan_v f g hx]; field_simp; ring)
  refine h'.congr_of_eventuallyEq ?_
  filter_upwards [lt_mem_nhds hx] with y hy
  rw [chan_fst f g hy]

theorem chan_deriv_sigma (f : ℕ) {x g : ℝ} (hx : 0 < x) (hg : 0 ≤ g) :
    HasDerivAt (fun y => x * (pbexChan f x y).1) ((pbexChan f x g).2.2 / 2) g := by
  have hs : HasDerivAt (fun y => ssOf x y) (ssOf x 1) g := by
    have := (hasDerivAt_id' g).mul_const (ssOf x 1)
    refine (this.congr_of_eventuallyEq ?_).congr_deriv (one_mul _)
    filter_upwards with y
    unfold ssOf; ring
  have hF := enh_deriv f hs (ssOf_nonneg hx hg)
  have h := ((hF.const_mul (exl x)).const_mul x)
  have h' := h.congr_deriv (show _ = (pbexChan f x g).2.2 / 2 by
    rw [chan_v2 f g hx]; ring)
  refine h'.congr_of_eventuallyEq ?_
  filter_upwards with y
  rw [chan_fst f y hx]

/-- The unpolarised routine is one channel with half the density. -/
theorem pbex_chan (f : ℕ) (x g : ℝ) :
    (pbex f x g).e = (pbexChan f (x / 2) (g / 4)).1 ∧ (pbex f x g).v = (pbexChan f (x / 2) (g / 4)).2.1
      ∧ (pbex f x g).v2 = (pbexChan f (x / 2) (g / 4)).2.2 / 2 := by
  simp only [pbex, pbexChan, l1, l2, l3, l4, l6, l8, l05]
  refine ⟨trivial, trivial, ?_⟩
  ring

/-! ## The refitted PW86 exchange -/

/-- The enhancement factor as a function of `s`. -/
noncomputable def fsOf (s : ℝ) : ℝ :=
  (1 + 1.851 * (s * s) + 17.33 * (s * s * s * s) + 0.163 * (s * s * s * (s * s) * s)) ^ (1 / 15 : ℝ)

noncomputable def dfOf (s : ℝ) : ℝ :=
  1 / (15 * fsOf s ^ (14 : ℝ)) * (2 * 1.851 * s + 4 * 17.33 * (s * s * s)
    + 6 * 0.163 * (s * s * s * (s * s)))

theorem poly_pos {s : ℝ} :
    0 < 1 + 1.851 * (s * s) + 17.33 * (s * s * s * s) + 0.163 * (s * s * s * (s * s) * s) := by
  have h2 : 0 ≤ s * s := mul_self_nonneg s
  have h4 : 0 ≤ s * s * s * s := by
    have := mul_nonneg h2 h2
    have e : s * s * s * s = s * s * (s * s) := by ring
    rw [e]; exact this
  have h6 : 0 ≤ s * s * s * (s * s) * s := by
    have e : s * s * s * (s * s) * s = s * s * (s * s) * (s * s) := by ring
    rw [e]; exact mul_nonneg (mul_nonneg h2 h2) h2
  positivity

theorem fsOf_deriv (s : ℝ) : HasDerivAt fsOf (dfOf s) s := by
  have hp := poly_pos (s := s)
  have d := hasDerivAt_id' s
  have d2 := d_mul d d
  have d3 := d_mul d2 d
  have d4 := d_mul d3 d
  have d5 := d_mul d3 d2
  have d6 := d_mul d5 d
  have dp : HasDerivAt (fun s : ℝ => 1 + 1.851 * (s * s) + 17.33 * (s * s * s * s)
      + 0.163 * (s * s * s * (s * s) * s))
      (2 * 1.851 * s + 4 * 17.33 * (s * s * s) + 6 * 0.163 * (s * s * s * (s * s))) s := by
    refine ((((d2.const_mul 1.851).const_add 1).add (d4.const_mul 17.33)).add
      (d6.const_mul 0.163)).congr_deriv ?_
    ring
  refine ((dp.rpow_const (p := 1 / 15) (Or.inl hp.ne'))).congr_deriv ?_
  unfold dfOf fsOf
  generalize 1 + 1.851 * (s * s) + 17.33 * (s * s * s * s) + 0.163 * (s * s * s * (s * s) * s) = q
    at *
  rw [← rpow_mul hp.le, show (1 / 15 : ℝ) - 1 = -(1 / 15 * 14) by norm_num, rpow_neg hp.le]
  have := rpow_pos_of_pos hp (1 / 15 * 14)
  field_simp

/-- The shape common to the two PW86 routines. -/
noncomputable def pw86E (a b x g : ℝ) : ℝ := a * x ^ (4 / 3 : ℝ) * fsOf (√g / (b * x ^ (4 / 3 : ℝ)))

theorem pw86_deriv {b x : ℝ} (a g : ℝ) (hb : 0 < b) (hx : 0 < x) :
    HasDerivAt (fun y => pw86E a b y g)
      (a * (4 / 3) * (x ^ (1 / 3 : ℝ) * fsOf (√g / (b * x ^ (4 / 3 : ℝ)))
        - √g / (b * x) * dfOf (√g / (b * x ^ (4 / 3 : ℝ))))) x := by
  have hq : 0 < x ^ (4 / 3 : ℝ) := rpow_pos_of_pos hx _
  have h13 : 0 < x ^ (1 / 3 : ℝ) := rpow_pos_of_pos hx _
  have d := p43_deriv hx
  have ds : HasDerivAt (fun y => √g / (b * y ^ (4 / 3 : ℝ)))
      (-(4 / 3) * (√g / (b * x ^ (4 / 3 : ℝ))) / x) x := by
    have := (d_inv (d.const_mul b) (by positivity)).const_mul (√g)
    refine (this.congr_of_eventuallyEq ?_).congr_deriv ?_
    · filter_upwards with y
      ring
    · field_simp
  have hF : HasDerivAt (fun y => fsOf (√g / (b * y ^ (4 / 3 : ℝ)))) _ x :=
    HasDerivAt.comp x (fsOf_deriv _) ds
  refine (d_mul (d.const_mul a) hF).congr_deriv ?_
  generalize fsOf (√g / (b * x ^ (4 / 3 : ℝ))) = F
  generalize dfOf (√g / (b * x ^ (4 / 3 : ℝ))) = D
  rw [p43_eq hx]
  field_simp
  ring

theorem pw86_deriv_sigma {b x g : ℝ} (a : ℝ) (hb : 0 < b) (hx : 0 < x) (hg : 0 < g) :
    HasDerivAt (fun y => pw86E a b x y)
      (a * dfOf (√g / (b * x ^ (4 / 3 : ℝ))) / (b * √g) / 2) g := by
  have hq : 0 < x ^ (4 / 3 : ℝ) := rpow_pos_of_pos hx _
  have hs := Real.sqrt_pos.2 hg
  have ds : HasDerivAt (fun y => √y / (b * x ^ (4 / 3 : ℝ))) (1 / (2 * √g) / (b * x ^ (4 / 3 : ℝ))) g :=
    (Real.hasDerivAt_sqrt hg.ne').div_const _
  have hF : HasDerivAt (fun y => fsOf (√y / (b * x ^ (4 / 3 : ℝ)))) _ g :=
    HasDerivAt.comp g (fsOf_deriv _) ds
  refine (hF.const_mul (a * x ^ (4 / 3 : ℝ))).congr_deriv ?_
  generalize dfOf (√g / (b * x ^ (4 / 3 : ℝ))) = D
  field_simp

theorem floor_eq {g : ℝ} (h : 1e-14 ≤ g) : floorSigma g = g := by
  unfold floorSigma; exact if_neg (not_lt.2 h)

theorem floor_pos (g : ℝ) : 0 < floorSigma g := by
  unfold floorSigma
  split_ifs with h
  · norm_num
  · have : (0 : ℝ) < 1e-14 := by norm_num
    linarith [not_lt.1 h]

theorem rPW86x_e {x : ℝ} (g : ℝ) (hx : 0 < x) :
    x * (rPW86x x g).e = pw86E (-0.738558766382022) 6.18733545256027 x (floorSigma g) := by
  simp only [rPW86x, pw86E, fsOf, l1, l3, l4, show (15.0 : ℝ) = 15 by norm_num, p43_eq hx]
  ring

theorem rPW86x_v {x : ℝ} (g : ℝ) :
    (rPW86x x g).v = -0.738558766382022 * (4 / 3) * (x ^ (1 / 3 : ℝ)
        * fsOf (√(floorSigma g) / (6.18733545256027 * x ^ (4 / 3 : ℝ)))
        - √(floorSigma g) / (6.18733545256027 * x)
          * dfOf (√(floorSigma g) / (6.18733545256027 * x ^ (4 / 3 : ℝ)))) := by
  simp only [rPW86x, dfOf, fsOf, l1, l2, l3, l4, l6, show (15.0 : ℝ) = 15 by norm_num,
    show (14.0 : ℝ) = 14 by norm_num]

theorem rPW86x_v2 {x : ℝ} (g : ℝ) :
    (rPW86x x g).v2 = -0.738558766382022
      * dfOf (√(floorSigma g) / (6.18733545256027 * x ^ (4 / 3 : ℝ)))
      / (6.18733545256027 * √(floorSigma g)) := by
  simp only [rPW86x, dfOf, fsOf, l1, l2, l3, l4, l6, show (15.0 : ℝ) = 15 by norm_num,
    show (14.0 : ℝ) = 14 by norm_num]

/-- `2^(1/3)`. -/
noncomputable def c2 : ℝ := 2 ^ (1 / 3 : ℝ)

theorem c2_pos : 0 < c2 := rpow_pos_of_pos (by norm_num) _

theorem rchan_1 (x g : ℝ) :
    (rPW86xChan x g).1
      = pw86E (-0.738558766382022 * c2) (c2 * 6.18733545256027) x (floorSigma g) := by
  have e : (1 / 3 + 1 : ℝ) = 4 / 3 := by norm_num
  simp only [rPW86xChan, pw86E, c2, fsOf, l1, l2, l3, l4, show (15.0 : ℝ) = 15 by norm_num, e]

theorem rchan_2 {x : ℝ} (g : ℝ) (hx : 0 < x) :
    (rPW86xChan x g).2.1 = -0.738558766382022 * c2 * (4 / 3) * (x ^ (1 / 3 : ℝ)
        * fsOf (√(floorSigma g) / (c2 * 6.18733545256027 * x ^ (4 / 3 : ℝ)))
        - √(floorSigma g) / (c2 * 6.18733545256027 * x)
          * dfOf (√(floorSigma g) / (c2 * 6.18733545256027 * x ^ (4 / 3 : ℝ)))) := by
  have h := c2_pos
  have e : (rPW86xChan x g).2.1 = -0.738558766382022 * (4 / 3) * (c2 * x ^ (1 / 3 : ℝ)
        * fsOf (√(floorSigma g) / (c2 * 6.18733545256027 * x ^ (4 / 3 : ℝ)))
        - √(floorSigma g) / (6.18733545256027 * x)
          * dfOf (√(floorSigma g) / (c2 * 6.18733545256027 * x ^ (4 / 3 : ℝ)))) := by
    simp only [rPW86xChan, dfOf, fsOf, c2, l1, l2, l3, l4, l6, show (15.0 : ℝ) = 15 by norm_num,
      show (14.0 : ℝ) = 14 by norm_num]
  rw [e]
  generalize fsOf (√(floorSigma g) / (c2 * 6.18733545256027 * x ^ (4 / 3 : ℝ))) = F
  generalize dfOf (√(floorSigma g) / (c2 * 6.18733545256027 * x ^ (4 / 3 : ℝ))) = D
  field_simp

theorem rchan_3 {x : ℝ} (g : ℝ) :
    (rPW86xChan x g).2.2 = -0.738558766382022 * c2
      * dfOf (√(floorSigma g) / (c2 * 6.18733545256027 * x ^ (4 / 3 : ℝ)))
      / (c2 * 6.18733545256027 * √(floorSigma g)) := by
  have h := c2_pos
  have hf := Real.sqrt_pos.2 (floor_pos g)
  have e : (rPW86xChan x g).2.2 = -0.738558766382022
      * dfOf (√(floorSigma g) / (c2 * 6.18733545256027 * x ^ (4 / 3 : ℝ)))
      / (6.18733545256027 * √(floorSigma g)) := by
    simp only [rPW86xChan, dfOf, fsOf, c2, l1, l2, l3, l4, l6, show (15.0 : ℝ) = 15 by norm_num,
      show (14.0 : ℝ) = 14 by norm_num]
  rw [e]
  generalize dfOf (√(floorSigma g) / (c2 * 6.18733545256027 * x ^ (4 / 3 : ℝ))) = D
  field_simp

/-! ## PBE correlation -/

theorem gammaC_eq : gammaC = Spec.gamma := by
  unfold gammaC Spec.gamma; rw [l1, l2]; ring

theorem gamma_pos : 0 < gammaC := by
  unfold gammaC
  have : log 2 < 1 := by
    rw [Real.log_lt_iff_lt_exp (by norm_num)]
    have := Real.exp_one_gt_d9; linarith
  rw [l1, l2]
  have : 0 < 1 - log 2 := by linarith
  positivity

theorem beta_pos (f : ℕ) : 0 < betaOf f := by unfold betaOf; split_ifs <;> norm_num

theorem coeffTT_pos : 0 < coeffTT := by
  have : 0 < (3.0 * π * π) ^ (1.0 / 3.0 : ℝ) := rpow_pos_of_pos (by positivity) _
  unfold coeffTT; positivity

/-- `tt` of the code. -/
noncomputable def ttOf (x g : ℝ) : ℝ := g * coeffTT * (x ^ (-(1 / 3) : ℝ)) ^ 7

theorem ttOf_nonneg {x g : ℝ} (hx : 0 < x) (hg : 0 ≤ g) : 0 ≤ ttOf x g := by
  have := m13_pos hx
  have := coeffTT_pos
  unfold ttOf; positivity

theorem ttOf_deriv {x : ℝ} (g : ℝ) (hx : 0 < x) :
    HasDerivAt (fun y => ttOf y g) (-7 / 3 * ttOf x g / x) x := by
  refine (((m13_deriv hx).pow 7).const_mul (g * coeffTT)).congr_deriv ?_
  unfold ttOf
  push_cast
  field_simp

theorem ttOf_deriv_sigma (x g : ℝ) : HasDerivAt (fun y => ttOf x y) (ttOf x 1) g := by
  have := (hasDerivAt_id' g).mul_const (ttOf x 1)
  refine (this.congr_of_eventuallyEq ?_).congr_deriv (one_mul _)
  filter_upwards with y
  unfold ttOf; ring

/-- The square of the reduced gradient of the paper. -/
theorem tt_spec {x g ph : ℝ} (hx : 0 < x) (hp : 0 < ph) :
    ttOf x g / ph ^ 2 = Spec.t2 x g ph := by
  have hw := m13_pos hx
  have h3 := cube_m13 hx
  have hm := p13_mul_m13 hx
  have hk : 0 < (3 * π ^ 2) ^ (1 / 3 : ℝ) := rpow_pos_of_pos (by positivity) _
  have hx3 : 0 < x ^ (1 / 3 : ℝ) := rpow_pos_of_pos hx _
  have e1 : (3 * π ^ 2 * x) ^ (1 / 3 : ℝ) = (3 * π ^ 2) ^ (1 / 3 : ℝ) * x ^ (1 / 3 : ℝ) :=
    mul_rpow (by positivity) hx.le
  have e2 : (2 * ph * √(4 * ((3 * π ^ 2) ^ (1 / 3 : ℝ) * x ^ (1 / 3 : ℝ)) / π) * x) ^ 2
      = 16 / π * (3 * π ^ 2) ^ (1 / 3 : ℝ) * ph ^ 2 * (x ^ (1 / 3 : ℝ) * x ^ 2) := by
    have := Real.sq_sqrt (show 0 ≤ 4 * ((3 * π ^ 2) ^ (1 / 3 : ℝ) * x ^ (1 / 3 : ℝ)) / π by positivity)
    calc _ = 4 * ph ^ 2 * (√(4 * ((3 * π ^ 2) ^ (1 / 3 : ℝ) * x ^ (1 / 3 : ℝ)) / π)) ^ 2 * x ^ 2 := by
          ring
      _ = _ := by rw [this]; ring
  have e3 : coeffTT = 1 / (16 / π * (3 * π ^ 2) ^ (1 / 3 : ℝ)) := by
    unfold coeffTT
    rw [l1, l3, show (16.0 : ℝ) = 16 by norm_num, show 3 * π * π = 3 * π ^ 2 by ring]
  unfold Spec.t2 ttOf
  rw [e1, e2, e3]
  generalize (3 * π ^ 2) ^ (1 / 3 : ℝ) = k at *
  generalize x ^ (-(1 / 3) : ℝ) = w at *
  generalize x ^ (1 / 3 : ℝ) = v at *
  have hxw : x * w ^ 3 = 1 := by rw [h3]; field_simp
  have h7 : w ^ 7 * (v * x ^ 2) = 1 := by
    calc w ^ 7 * (v * x ^ 2) = (x * w ^ 3) ^ 2 * (v * w) := by ring
      _ = 1 := by rw [hxw, hm]; ring
  have h7' : w ^ 7 = 1 / (v * x ^ 2) := by rw [eq_div_iff (by positivity)]; exact h7
  rw [h7']
  have := Real.pi_pos
  field_simp

theorem hh_spec {beta ph ec tt : ℝ} (pp er ez : ℝ) (hp : 0 < ph) :
    (ggaChain beta gammaC ph pp ec er ez tt).hh = Spec.pbeH beta ec ph (tt / ph ^ 2) := by
  have hg := gamma_pos
  simp only [ggaChain, Spec.pbeH, l1, ← gammaC_eq]
  have e1 : -(ec * (1 / gammaC * (1 / ph) * (1 / ph) * (1 / ph))) = -ec / (gammaC * ph ^ 3) := by
    field_simp
  rw [e1]
  generalize 1 / (exp (-ec / (gammaC * ph ^ 3)) - 1) = cc
  have e2 : beta * (1 / gammaC) * (1 / ph) * (1 / ph) * cc * tt
      = beta / gammaC * cc * (tt / ph ^ 2) := by field_simp
  rw [e2]
  have e3 : 1 + beta / gammaC * cc * (tt / ph ^ 2) + (beta / gammaC * cc) ^ 2 * (tt / ph ^ 2) ^ 2
      = 1 + beta / gammaC * cc * (tt / ph ^ 2) * (1 + beta / gammaC * cc * (tt / ph ^ 2)) := by ring
  rw [e3]
  have e4 : tt * (1 / ph) * (1 / ph) = tt / ph ^ 2 := by field_simp
  rw [e4]
  generalize tt / ph ^ 2 = t
  generalize beta / gammaC * cc * t = X
  have e5 : 1 + beta * (1 / gammaC) * (t * ((1 + X) * (1 / (1 + X * (1 + X)))))
      = 1 + beta / gammaC * t * ((1 + X) / (1 + X * (1 + X))) := by ring
  rw [e5]
  ring

end Sparc.Xc

import Verif.Xc.Gga
import Mathlib.Analysis.Real.Pi.Bounds

/-!
# C54: the exchange-correlation potentials are the derivatives of the energy

For every functional of `exchangeCorrelation.c` that this file models: the energy
per electron is the published formula, the potential written is the derivative of
the energy density `rho * e` by the (spin) density, and the gradient term is twice
its derivative by the squared gradient.  The spin routines agree with the
unpolarised ones through the exact spin-scaling relation.
-/

namespace Sparc.Xc

open Real

/-! ## Slater exchange -/

/-- A cube root lies between two numbers whose cubes enclose the radicand. -/
theorem cbrt_between {a b q : ℝ} (ha : 0 ≤ a) (hb : 0 ≤ b) (h1 : a ^ 3 ≤ q) (h2 : q ≤ b ^ 3) :
    a ≤ q ^ (1 / 3 : ℝ) ∧ q ^ (1 / 3 : ℝ) ≤ b := by
  have hq : 0 ≤ q := le_trans (by positivity) h1
  have hc : (q ^ (1 / 3 : ℝ)) ^ 3 = q := by
    rw [← rpow_natCast, ← rpow_mul hq]; norm_num
  have h0 : 0 ≤ q ^ (1 / 3 : ℝ) := rpow_nonneg hq _
  constructor
  · exact le_of_pow_le_pow_left₀ (n := 3) (by norm_num) h0 (by rw [hc]; exact h1)
  · exact le_of_pow_le_pow_left₀ (n := 3) (by norm_num) hb (by rw [hc]; exact h2)

theorem c3pi : |0.98474502184269654 - (3 / π) ^ (1 / 3 : ℝ)| ≤ 1e-16 := by
  have h1 := Real.pi_gt_d20
  have h2 := Real.pi_lt_d20
  have h := cbrt_between (a := 0.98474502184269649) (b := 0.98474502184269659) (q := 3 / π)
    (by norm_num) (by norm_num)
    (by rw [le_div_iff₀ Real.pi_pos]
        refine le_trans (mul_le_mul_of_nonneg_left h2.le (by norm_num)) ?_
        norm_num)
    (by rw [div_le_iff₀ Real.pi_pos]
        refine le_trans ?_ (mul_le_mul_of_nonneg_left h1.le (by norm_num))
        norm_num)
  rw [abs_le]; constructor <;> linarith [h.1, h.2]

/-- The Slater energy is the exchange energy of the uniform gas, to the accuracy of
the printed constant. -/
theorem slater_energy (x : ℝ) (hx : 0 < x) :
    |(slater x).e - Spec.exUnif x| ≤ 1e-15 * x ^ (1 / 3 : ℝ) := by
  have hp : 0 < x ^ (1 / 3 : ℝ) := rpow_pos_of_pos hx _
  have h := abs_le.1 c3pi
  have e : (slater x).e - Spec.exUnif x
      = (3 / 4 * (3 / π) ^ (1 / 3 : ℝ) - 0.738558766382022) * x ^ (1 / 3 : ℝ) := by
    simp only [slater, Spec.exUnif]; ring
  rw [e, abs_mul, abs_of_pos hp]
  refine mul_le_mul_of_nonneg_right ?_ hp.le
  rw [abs_le]; constructor <;> linarith [h.1, h.2]

/-- The Slater potential is the derivative of the energy density, to the accuracy of
the two printed constants. -/
theorem slater_potential (x : ℝ) (hx : 0 < x) :
    ∃ d, HasDerivAt (fun r => r * (slater r).e) d x
      ∧ |(slater x).v - d| ≤ 1e-15 * x ^ (1 / 3 : ℝ) := by
  have hp : 0 < x ^ (1 / 3 : ℝ) := rpow_pos_of_pos hx _
  refine ⟨-(4 / 3 * 0.738558766382022) * x ^ (1 / 3 : ℝ), ?_, ?_⟩
  · have := d_mul (hasDerivAt_id' x) ((p13_deriv hx).const_mul (-0.738558766382022))
    refine this.congr_deriv ?_
    field_simp; ring
  · have e : (slater x).v - -(4 / 3 * 0.738558766382022) * x ^ (1 / 3 : ℝ)
        = (4 / 3 * 0.738558766382022 - 0.9847450218426965) * x ^ (1 / 3 : ℝ) := by
      simp only [slater]; ring
    rw [e, abs_mul, abs_of_pos hp]
    refine mul_le_mul_of_nonneg_right ?_ hp.le
    norm_num [abs_le]

example : ∃ d, HasDerivAt (fun r => r * (slater r).e) d 0.02
    ∧ |(slater 0.02).v - d| ≤ 1e-15 * 0.02 ^ (1 / 3 : ℝ) := slater_potential _ (by norm_num)

/-! ## Perdew-Wang correlation -/

theorem c4pi : |0.62035049089939999 - (3 / (4 * π)) ^ (1 / 3 : ℝ)| ≤ 1e-16 := by
  have h1 := Real.pi_gt_d20
  have h2 := Real.pi_lt_d20
  have h := cbrt_between (a := 0.62035049089939994) (b := 0.62035049089940004) (q := 3 / (4 * π))
    (by norm_num) (by norm_num)
    (by rw [le_div_iff₀ (by positivity)]
        refine le_trans (mul_le_mul_of_nonneg_left (mul_le_mul_of_nonneg_left h2.le
          (by norm_num)) (by norm_num)) ?_
        norm_num)
    (by rw [div_le_iff₀ (by positivity)]
        refine le_trans ?_ (mul_le_mul_of_nonneg_left (mul_le_mul_of_nonneg_left h1.le
          (by norm_num)) (by norm_num))
        norm_num)
  rw [abs_le]; constructor <;> linarith [h.1, h.2]

theorem pw_rs {x : ℝ} (hx : 0 < x) (c : ℝ) : c / x ^ (1 / 3 : ℝ) = c * x ^ (-(1 / 3) : ℝ) := by
  rw [rpow_neg hx.le]; rfl

theorem pw_e (x : ℝ) : (pw x).e = Spec.ec0 (0.6203504908993999 / x ^ (1 / 3 : ℝ)) := by
  have e : (1 / 3 : ℝ) = 1 / 3 := rfl
  simp only [pw, Spec.ec0, Spec.pwG, l1, l2]
  congr 5
  ring

/-- The energy of `pw` is the Perdew-Wang formula at the radius `rs = (3/(4 π n))^(1/3)`,
formed with a constant right to `10⁻¹⁵`. -/
theorem pw_energy : ∃ c : ℝ, |c - (3 / (4 * π)) ^ (1 / 3 : ℝ)| ≤ 1e-15
    ∧ ∀ x, 0 < x → (pw x).e = Spec.ec0 (c / x ^ (1 / 3 : ℝ)) := by
  refine ⟨0.6203504908993999, ?_, fun x _ => pw_e x⟩
  have h := abs_le.1 c4pi
  rw [abs_le]; constructor <;> linarith [h.1, h.2]

/-- The potential of `pw` is the derivative of the energy density. -/
theorem pw_potential (x : ℝ) (hx : 0 < x) : HasDerivAt (fun r => r * (pw r).e) (pw x).v x := by
  have hr : 0 < 0.6203504908993999 * x ^ (-(1 / 3) : ℝ) := by
    have := m13_pos hx; positivity
  have hd := (m13_deriv hx).const_mul 0.6203504908993999
  have he : HasDerivAt (fun y : ℝ => Spec.ec0 (0.6203504908993999 * y ^ (-(1 / 3) : ℝ))) _ x :=
    HasDerivAt.comp x (L0_deriv hr) hd
  have h := d_mul (hasDerivAt_id' x) he
  refine (h.congr_of_eventuallyEq ?_).congr_deriv ?_
  · filter_upwards [lt_mem_nhds hx] with y hy
    rw [pw_e, pw_rs hy]
  have hv : (pw x).v = Spec.ec0 (0.6203504908993999 * x ^ (-(1 / 3) : ℝ))
      - (0.6203504908993999 * x ^ (-(1 / 3) : ℝ)) / 3
        * (L0 (0.6203504908993999 * x ^ (-(1 / 3) : ℝ))).2 := by
    have hq : 0 < qq1 0.031091 7.5957 3.5876 1.6382 0.49294 (0.6203504908993999 * x ^ (-(1 / 3) : ℝ)) :=
      qq1_pos (by norm_num) (by norm_num) (by norm_num) (by norm_num) (by norm_num) hr
    unfold L0 Spec.ec0
    rw [lsd_snd _ _ _ _ _ _ _ hq, pwG_eq]
    simp only [pw, l1, l2, l3, pw_rs hx]
    generalize 0.6203504908993999 * x ^ (-(1 / 3) : ℝ) = r at *
    have eq : 2 * 31091e-6 * (7.5957 * √r + 3.5876 * r + 1.6382 * (r * √r) + 0.49294 * (r * r))
        = qq1 0.031091 7.5957 3.5876 1.6382 0.49294 r := by unfold qq1; ring
    rw [eq]
    generalize qq1 0.031091 7.5957 3.5876 1.6382 0.49294 r = q at *
    have hs := Real.sqrt_pos.2 hr
    generalize log (1 + 1 / q) = lg
    field_simp
    ring
  rw [hv]
  field_simp
  ring

example : HasDerivAt (fun r => r * (pw r).e) (pw 0.02).v 0.02 := pw_potential _ (by norm_num)

/-! ## Perdew-Zunger correlation -/

/-- The Perdew-Zunger energy, on either side of `rs = 1`. -/
theorem pz_energy : ∃ c : ℝ, |c - (3 / (4 * π)) ^ (1 / 3 : ℝ)| ≤ 1e-15
    ∧ ∀ x, 0 < x →
      ((c / x ^ (1 / 3 : ℝ) < 1 → (pz x).e = 0.0311 * log (c / x ^ (1 / 3 : ℝ)) - 0.048
        + 0.002 * (c / x ^ (1 / 3 : ℝ)) * log (c / x ^ (1 / 3 : ℝ)) - 0.0116 * (c / x ^ (1 / 3 : ℝ)))
      ∧ (1 ≤ c / x ^ (1 / 3 : ℝ) → (pz x).e = -0.1423 / (1 + 1.0529 * √(c / x ^ (1 / 3 : ℝ))
        + 0.3334 * (c / x ^ (1 / 3 : ℝ))))) := by
  refine ⟨0.6203504908993999, ?_, fun x hx => ⟨fun h => ?_, fun h => ?_⟩⟩
  · have h := abs_le.1 c4pi
    rw [abs_le]; constructor <;> linarith [h.1, h.2]
  · simp only [pz, l1, if_pos h]
    ring
  · simp only [pz, l1, if_neg (not_lt.2 h)]

/-- The potential of `pz` is the derivative of the energy density at every density
except the one at which the two fits meet. -/
theorem pz_potential (x : ℝ) (hx : 0 < x) (hne : 0.6203504908993999 / x ^ (1 / 3 : ℝ) ≠ 1) :
    HasDerivAt (fun r => r * (pz r).e) (pz x).v x := by
  have hr : 0 < 0.6203504908993999 * x ^ (-(1 / 3) : ℝ) := by
    have := m13_pos hx; positivity
  have hd := (m13_deriv hx).const_mul 0.6203504908993999
  have hcont : ContinuousAt (fun y : ℝ => 0.6203504908993999 / y ^ (1 / 3 : ℝ)) x :=
    continuousAt_const.div (p13_deriv hx).continuousAt (rpow_pos_of_pos hx _).ne'
  rcases lt_or_gt_of_ne hne with h | h
  · have hlog := hd.log hr.ne'
    have key := d_mul (hasDerivAt_id' x) ((((hlog.const_mul 0.0311).add_const (-0.048)).add
      (d_mul (hd.const_mul 0.002) hlog)).add (hd.const_mul (-0.0116)))
    refine (key.congr_of_eventuallyEq ?_).congr_deriv ?_
    · filter_upwards [lt_mem_nhds hx, hcont.eventually_lt_const h] with y hy hlt
      rw [pw_rs hy] at hlt
      simp only [pz, l1, pw_rs hy, if_pos hlt]
      rfl
    rw [pw_rs hx] at h
    simp only [pz, l1, pw_rs hx, if_pos h, l2, l3]
    simp only [Pi.add_apply]
    generalize log (0.6203504908993999 * x ^ (-(1 / 3) : ℝ)) = lg
    have hw := m13_pos hx
    field_simp
    ring
  · have hs := Real.sqrt_pos.2 hr
    have hsq := hd.sqrt hr.ne'
    have hden : HasDerivAt (fun y : ℝ => 1 + 1.0529 * √(0.6203504908993999 * y ^ (-(1 / 3) : ℝ))
        + 0.3334 * (0.6203504908993999 * y ^ (-(1 / 3) : ℝ))) _ x :=
      ((hsq.const_mul 1.0529).const_add 1).add (hd.const_mul 0.3334)
    have hpos : 0 < 1 + 1.0529 * √(0.6203504908993999 * x ^ (-(1 / 3) : ℝ))
        + 0.3334 * (0.6203504908993999 * x ^ (-(1 / 3) : ℝ)) := by positivity
    have key := d_mul (hasDerivAt_id' x) ((d_inv hden hpos.ne').const_mul (-0.1423))
    refine (key.congr_of_eventuallyEq ?_).congr_deriv ?_
    · filter_upwards [lt_mem_nhds hx, hcont.eventually_const_lt h] with y hy hlt
      rw [pw_rs hy] at hlt
      simp only [pz, l1, pw_rs hy, if_neg (not_lt.2 hlt.le)]
      ring
    rw [pw_rs hx] at h
    simp only [pz, l1, pw_rs hx, if_neg (not_lt.2 h.le), l3, l4, l6, l7]
    have hw := m13_pos hx
    have hsr : √(0.6203504908993999 * x ^ (-(1 / 3) : ℝ)) ^ 2
        = 0.6203504908993999 * x ^ (-(1 / 3) : ℝ) := Real.sq_sqrt hr.le
    have e : 0.6203504908993999 * (-(1 / 3) * x ^ (-(1 / 3) : ℝ) / x)
        = -(1 / 3) * (0.6203504908993999 * x ^ (-(1 / 3) : ℝ)) / x := by ring
    rw [e]
    generalize √(0.6203504908993999 * x ^ (-(1 / 3) : ℝ)) = s at *
    generalize 0.6203504908993999 * x ^ (-(1 / 3) : ℝ) = r at *
    subst hsr
    field_simp
    ring

/-- The two fits do not meet: the energy jumps at `rs = 1`, so no potential could be
its derivative there.  The jump is in the published parameters. -/
theorem pz_jump : ∃ x : ℝ, 0 < x ∧ 0.6203504908993999 / x ^ (1 / 3 : ℝ) = 1
    ∧ ¬ ContinuousAt (fun r => (pz r).e) x := by
  have hc : (0 : ℝ) < 0.6203504908993999 := by norm_num
  have hroot : ((0.6203504908993999 : ℝ) ^ 3) ^ (1 / 3 : ℝ) = 0.6203504908993999 := by
    rw [← rpow_natCast, ← rpow_mul hc.le]; norm_num
  have hx : (0 : ℝ) < 0.6203504908993999 ^ 3 := by positivity
  refine ⟨0.6203504908993999 ^ 3, hx, by rw [hroot]; field_simp, fun hcon => ?_⟩
  set x0 : ℝ := 0.6203504908993999 ^ 3 with hx0
  have hcont : ContinuousAt (fun y : ℝ => 0.6203504908993999 / y ^ (1 / 3 : ℝ)) x0 :=
    continuousAt_const.div (p13_deriv hx).continuousAt (rpow_pos_of_pos hx _).ne'
  have hrs : 0.6203504908993999 / x0 ^ (1 / 3 : ℝ) = 1 := by rw [hx0, hroot]; field_simp
  have hlog : ContinuousAt (fun y : ℝ => log (0.6203504908993999 / y ^ (1 / 3 : ℝ))) x0 :=
    hcont.log (by rw [hrs]; norm_num)
  have hg : ContinuousAt (fun y : ℝ => 0.0311 * log (0.6203504908993999 / y ^ (1 / 3 : ℝ)) + -0.048
      + 0.002 * (0.6203504908993999 / y ^ (1 / 3 : ℝ)) * log (0.6203504908993999 / y ^ (1 / 3 : ℝ))
      + -0.0116 * (0.6203504908993999 / y ^ (1 / 3 : ℝ))) x0 :=
    (((continuousAt_const.mul hlog).add continuousAt_const).add
      ((continuousAt_const.mul hcont).mul hlog)).add (continuousAt_const.mul hcont)
  have h1 := hcon.tendsto.mono_left (nhdsWithin_le_nhds (s := Set.Ioi x0))
  have h2 := hg.tendsto.mono_left (nhdsWithin_le_nhds (s := Set.Ioi x0))
  have heq : (fun r => (pz r).e) =ᶠ[nhdsWithin x0 (Set.Ioi x0)]
      (fun y : ℝ => 0.0311 * log (0.6203504908993999 / y ^ (1 / 3 : ℝ)) + -0.048
      + 0.002 * (0.6203504908993999 / y ^ (1 / 3 : ℝ)) * log (0.6203504908993999 / y ^ (1 / 3 : ℝ))
      + -0.0116 * (0.6203504908993999 / y ^ (1 / 3 : ℝ))) := by
    filter_upwards [self_mem_nhdsWithin] with y hy
    have hy' : x0 < y := hy
    have hlt : 0.6203504908993999 / y ^ (1 / 3 : ℝ) < 1 := by
      rw [div_lt_one (rpow_pos_of_pos (hx.trans hy') _)]
      have := Real.rpow_lt_rpow hx.le hy' (show (0 : ℝ) < 1 / 3 by norm_num)
      rwa [hx0, hroot] at this
    simp only [pz, l1, if_pos hlt]
  have h3 := h2.congr' heq.symm
  have := tendsto_nhds_unique h1 h3
  rw [hrs] at this
  simp only [pz, l1, hrs] at this
  norm_num at this

example : HasDerivAt (fun r => r * (pz r).e) (pz 1).v 1 := pz_potential _ (by norm_num)
  (by rw [one_rpow]; norm_num)

/-! ## PBE exchange -/

theorem exl_spec {x : ℝ} (hx : 0 < x) : exl (x / 2) = Spec.exUnif x := by
  unfold exl Spec.exUnif
  have hpi := Real.pi_pos
  have h : (6 * π * π) ^ (1 / 3 : ℝ) * (x / 2) ^ (1 / 3 : ℝ) = π * (3 / π) ^ (1 / 3 : ℝ) * x ^ (1 / 3 : ℝ) := by
    have e : π = (π ^ 3) ^ (1 / 3 : ℝ) := by
      rw [← rpow_natCast, ← rpow_mul hpi.le]; norm_num
    have e2 : π * (3 / π) ^ (1 / 3 : ℝ) = (π ^ 3 * (3 / π)) ^ (1 / 3 : ℝ) := by
      rw [mul_rpow (by positivity) (by positivity), ← e]
    rw [e2, ← mul_rpow (by positivity) (by positivity), ← mul_rpow (by positivity) hx.le]
    congr 1
    field_simp
    ring
  have h2 : -(3 / 4 / π) * (6 * π * π) ^ (1 / 3 : ℝ) * (x / 2) ^ (1 / 3 : ℝ)
      = -(3 / 4 / π) * ((6 * π * π) ^ (1 / 3 : ℝ) * (x / 2) ^ (1 / 3 : ℝ)) := by ring
  rw [h2, h]
  field_simp

theorem ss_spec {x : ℝ} (g : ℝ) (hx : 0 < x) : ssOf (x / 2) (g / 4) = Spec.s2 x g := by
  unfold ssOf Spec.s2
  have hpi := Real.pi_pos
  have h3 : 0 < (3 * π ^ 2) ^ (1 / 3 : ℝ) := rpow_pos_of_pos (by positivity) _
  have h2 : 0 < (2 : ℝ) ^ (1 / 3 : ℝ) := rpow_pos_of_pos (by norm_num) _
  have e6 : (6 * π * π) ^ (1 / 3 : ℝ) = 2 ^ (1 / 3 : ℝ) * (3 * π ^ 2) ^ (1 / 3 : ℝ) := by
    rw [← mul_rpow (by norm_num) (by positivity)]; congr 1; ring
  have ex : (x / 2) ^ (-(1 / 3) : ℝ) = 2 ^ (1 / 3 : ℝ) * x ^ (-(1 / 3) : ℝ) := by
    rw [div_rpow hx.le (by norm_num), rpow_neg (by norm_num : (0 : ℝ) ≤ 2)]
    field_simp
  have h23 : ((2 : ℝ) ^ (1 / 3 : ℝ)) ^ 3 = 2 := by
    rw [← rpow_natCast, ← rpow_mul (by norm_num)]; norm_num
  have hw := m13_pos hx
  have hw3 := cube_m13 hx
  have hv := p13_eq hx
  rw [e6, ex, p43_eq hx, hv]
  generalize x ^ (-(1 / 3) : ℝ) = w at *
  generalize (3 * π ^ 2) ^ (1 / 3 : ℝ) = k at *
  generalize (2 : ℝ) ^ (1 / 3 : ℝ) = t at *
  have hx' : x = 1 / w ^ 3 := by rw [hw3]; field_simp
  rw [hx']
  field_simp
  have : t ^ 6 = 4 := by rw [show t ^ 6 = (t ^ 3) ^ 2 by ring, h23]; norm_num
  rw [this]; ring

theorem enh_spec {f : ℕ} (hf : f = 1 ∨ f = 2 ∨ f = 3 ∨ f = 4) {s : ℝ} (hs : 0 ≤ s) :
    1 + kappaOf f * (1 - divss f s) = Spec.enh f s := by
  rcases hf with h | h | h | h <;> subst h <;>
    simp only [kappaOf, divss, muOf, Spec.enh, Spec.fPBE, Spec.fRPBE, l1, l8] <;> norm_num
  · field_simp; ring
  · field_simp; ring
  · ring
  · field_simp; ring

/-- The energy of `pbex` is the uniform-gas energy times the published enhancement
factor at the published reduced gradient. -/
theorem pbex_energy {f : ℕ} (hf : f = 1 ∨ f = 2 ∨ f = 3 ∨ f = 4) (x g : ℝ) (hx : 0 < x)
    (hg : 0 ≤ g) : (pbex f x g).e = Spec.exUnif x * Spec.enh f (Spec.s2 x g) := by
  have hx2 : 0 < x / 2 := by positivity
  have hg4 : 0 ≤ g / 4 := by positivity
  rw [(pbex_chan f x g).1, chan_fst f _ hx2, exl_spec hx, enh_spec hf (ssOf_nonneg hx2 hg4),
    ss_spec g hx]

/-- The potentials of `pbex`. -/
theorem pbex_potential (f : ℕ) (x g : ℝ) (hx : 0 < x) (hg : 0 ≤ g) :
    HasDerivAt (fun r => r * (pbex f r g).e) (pbex f x g).v x
      ∧ HasDerivAt (fun q => x * (pbex f x q).e) ((pbex f x g).v2 / 2) g := by
  have hx2 : 0 < x / 2 := by positivity
  have hg4 : 0 ≤ g / 4 := by positivity
  constructor
  · have h : HasDerivAt (fun r => (r / 2) * (pbexChan f (r / 2) (g / 4)).1)
        ((pbexChan f (x / 2) (g / 4)).2.1 * (1 / 2)) x :=
      HasDerivAt.comp x (h := fun r : ℝ => r / 2) (chan_deriv f hx2 hg4)
        ((hasDerivAt_id' x).div_const 2)
    refine ((h.const_mul 2).congr_of_eventuallyEq ?_).congr_deriv ?_
    · filter_upwards with r
      rw [(pbex_chan f r g).1]; ring
    · rw [(pbex_chan f x g).2.1]; ring
  · have h : HasDerivAt (fun q => (x / 2) * (pbexChan f (x / 2) (q / 4)).1)
        ((pbexChan f (x / 2) (g / 4)).2.2 / 2 * (1 / 4)) g :=
      HasDerivAt.comp g (h := fun r : ℝ => r / 4) (chan_deriv_sigma f hx2 hg4)
        ((hasDerivAt_id' g).div_const 4)
    refine ((h.const_mul 2).congr_of_eventuallyEq ?_).congr_deriv ?_
    · filter_upwards with r
      rw [(pbex_chan f x r).1]; ring
    · rw [(pbex_chan f x g).2.2]; ring

example : HasDerivAt (fun r => r * (pbex 3 r 0.01).e) (pbex 3 0.02 0.01).v 0.02 :=
  (pbex_potential 3 0.02 0.01 (by norm_num) (by norm_num)).1

/-- The spin-polarised exchange energy obeys the exact spin scaling
`E(n↑, n↓) = (E(2 n↑) + E(2 n↓)) / 2` with the unpolarised routine. -/
theorem pbexSpin_scaling (f : ℕ) (p : Pt) (hu : 0 < p.up) (hd : 0 < p.dn)
    (hr : p.rho = p.up + p.dn) :
    p.rho * (pbexSpin f p).e = (2 * p.up * (pbex f (2 * p.up) (4 * p.sgu)).e
      + 2 * p.dn * (pbex f (2 * p.dn) (4 * p.sgd)).e) / 2 := by
  have hrho : 0 < p.rho := by rw [hr]; positivity
  rw [(pbex_chan _ _ _).1, (pbex_chan _ _ _).1]
  have e1 : 2 * p.up / 2 = p.up := by ring
  have e2 : 2 * p.dn / 2 = p.dn := by ring
  have e3 : 4 * p.sgu / 4 = p.sgu := by ring
  have e4 : 4 * p.sgd / 4 = p.sgd := by ring
  rw [e1, e2, e3, e4]
  simp only [pbexSpin, third_eq, cube_m13 hrho, l0]
  field_simp
  ring

/-- The point with the given spin densities and squared gradients. -/
def mk (u d g gu gd : ℝ) : Pt := { rho := u + d, up := u, dn := d, sg := g, sgu := gu, sgd := gd }

theorem pbexSpin_e (f : ℕ) {u d g gu gd : ℝ} (hu : 0 < u + d) :
    (u + d) * (pbexSpin f (mk u d g gu gd)).e
      = u * (pbexChan f u gu).1 + d * (pbexChan f d gd).1 := by
  simp only [pbexSpin, mk, third_eq, cube_m13 hu, l0]
  field_simp
  ring

/-- The potentials of `pbex_spin`: derivatives of the energy density by the two spin
densities and the two squared gradients. -/
theorem pbexSpin_potential (f : ℕ) (u d g gu gd : ℝ) (hu : 0 < u) (hd : 0 < d) (hgu : 0 ≤ gu)
    (hgd : 0 ≤ gd) :
    HasDerivAt (fun y => (y + d) * (pbexSpin f (mk y d g gu gd)).e)
        (pbexSpin f (mk u d g gu gd)).vu u
      ∧ HasDerivAt (fun y => (u + y) * (pbexSpin f (mk u y g gu gd)).e)
        (pbexSpin f (mk u d g gu gd)).vd d
      ∧ HasDerivAt (fun y => (u + d) * (pbexSpin f (mk u d g y gd)).e)
        ((pbexSpin f (mk u d g gu gd)).v2u / 2) gu
      ∧ HasDerivAt (fun y => (u + d) * (pbexSpin f (mk u d g gu y)).e)
        ((pbexSpin f (mk u d g gu gd)).v2d / 2) gd := by
  have hud : 0 < u + d := by positivity
  refine ⟨?_, ?_, ?_, ?_⟩
  · refine ((chan_deriv f hu hgu).add_const (d * (pbexChan f d gd).1)).congr_of_eventuallyEq ?_
    filter_upwards [lt_mem_nhds hu] with y hy
    exact pbexSpin_e f (by positivity)
  · refine ((chan_deriv f hd hgd).const_add (u * (pbexChan f u gu).1)).congr_of_eventuallyEq ?_
    filter_upwards [lt_mem_nhds hd] with y hy
    exact pbexSpin_e f (by positivity)
  · refine ((chan_deriv_sigma f hu hgu).add_const (d * (pbexChan f d gd).1)).congr_of_eventuallyEq ?_
    filter_upwards with y
    exact pbexSpin_e f hud
  · refine ((chan_deriv_sigma f hd hgd).const_add (u * (pbexChan f u gu).1)).congr_of_eventuallyEq ?_
    filter_upwards with y
    exact pbexSpin_e f hud

example : HasDerivAt (fun y => (y + 0.01) * (pbexSpin 1 (mk y 0.01 0 0.02 0.03)).e)
    (pbexSpin 1 (mk 0.02 0.01 0 0.02 0.03)).vu 0.02 :=
  (pbexSpin_potential 1 0.02 0.01 0 0.02 0.03 (by norm_num) (by norm_num) (by norm_num)
    (by norm_num)).1

/-! ## Slater exchange with spin -/

theorem exLsd_eq {x : ℝ} (hx : 0 < x) : exLsd x = exl x := by
  simp only [exLsd, l1, l3, l4, l6, exl_eq hx]

/-- `slater_spin` is the uniform-gas exchange, spin-scaled. -/
theorem slaterSpin_energy (p : Pt) (hu : 0 < p.up) (hd : 0 < p.dn) (hr : p.rho = p.up + p.dn) :
    p.rho * (slaterSpin p).e
      = (2 * p.up * Spec.exUnif (2 * p.up) + 2 * p.dn * Spec.exUnif (2 * p.dn)) / 2 := by
  have hrho : 0 < p.rho := by rw [hr]; positivity
  have e1 := exl_spec (show 0 < 2 * p.up by positivity)
  have e2 := exl_spec (show 0 < 2 * p.dn by positivity)
  rw [show 2 * p.up / 2 = p.up by ring] at e1
  rw [show 2 * p.dn / 2 = p.dn by ring] at e2
  rw [← e1, ← e2]
  simp only [slaterSpin, third_eq, cube_m13 hrho, l0, exLsd_eq hu, exLsd_eq hd]
  field_simp
  ring

/-- The potentials of `slater_spin`. -/
theorem slaterSpin_potential (u d g gu gd : ℝ) (hu : 0 < u) (hd : 0 < d) :
    HasDerivAt (fun y => (y + d) * (slaterSpin (mk y d g gu gd)).e)
        (slaterSpin (mk u d g gu gd)).vu u
      ∧ HasDerivAt (fun y => (u + y) * (slaterSpin (mk u y g gu gd)).e)
        (slaterSpin (mk u d g gu gd)).vd d := by
  have key : ∀ {x : ℝ}, 0 < x → HasDerivAt (fun y => y * exl y) (4 / 3 * exl x) x := by
    intro x hx
    refine (d_mul (hasDerivAt_id' x) (exl_deriv hx)).congr_deriv ?_
    field_simp; ring
  have he : ∀ {a b : ℝ}, 0 < a → 0 < b → (a + b) * (slaterSpin (mk a b g gu gd)).e
      = a * exl a + b * exl b := by
    intro a b ha hb
    simp only [slaterSpin, mk, third_eq, cube_m13 (show 0 < a + b by positivity), l0, exLsd_eq ha,
      exLsd_eq hb]
    field_simp; ring
  constructor
  · have e : (slaterSpin (mk u d g gu gd)).vu = 4 / 3 * exl u := by
      simp only [slaterSpin, mk, exLsd_eq hu, l3, l4]
    rw [e]
    refine ((key hu).add_const (d * exl d)).congr_of_eventuallyEq ?_
    filter_upwards [lt_mem_nhds hu] with y hy
    exact he hy hd
  · have e : (slaterSpin (mk u d g gu gd)).vd = 4 / 3 * exl d := by
      simp only [slaterSpin, mk, exLsd_eq hd, l3, l4]
    rw [e]
    refine ((key hd).const_add (u * exl u)).congr_of_eventuallyEq ?_
    filter_upwards [lt_mem_nhds hd] with y hy
    exact he hu hy

example : HasDerivAt (fun y => (y + 0.01) * (slaterSpin (mk y 0.01 0 0 0)).e)
    (slaterSpin (mk 0.02 0.01 0 0 0)).vu 0.02 :=
  (slaterSpin_potential 0.02 0.01 0 0 0 (by norm_num) (by norm_num)).1

/-! ## Refitted PW86 exchange -/

/-- The energy of `rPW86x`: uniform-gas exchange times the PW86 enhancement factor,
with constants right to `10⁻¹³`. -/
theorem rPW86x_energy : ∃ a b : ℝ, |a - 3 / 4 * (3 / π) ^ (1 / 3 : ℝ)| ≤ 1e-15
    ∧ |b - 2 * (3 * π ^ 2) ^ (1 / 3 : ℝ)| ≤ 1e-13
    ∧ ∀ x g, 0 < x → 1e-14 ≤ g →
      (rPW86x x g).e = -a * x ^ (1 / 3 : ℝ) * Spec.fPW86 (g / (b * x ^ (4 / 3 : ℝ)) ^ 2) := by
  refine ⟨0.738558766382022, 6.18733545256027, ?_, ?_, ?_⟩
  · have h := abs_le.1 c3pi
    rw [abs_le]; constructor <;> linarith [h.1, h.2]
  · have h1 := Real.pi_gt_d20
    have h2 := Real.pi_lt_d20
    have hp := Real.pi_pos
    have hsq1 : (3.14159265358979323846 : ℝ) ^ 2 ≤ π ^ 2 := pow_le_pow_left₀ (by norm_num) h1.le 2
    have hsq2 : π ^ 2 ≤ (3.14159265358979323847 : ℝ) ^ 2 := pow_le_pow_left₀ hp.le h2.le 2
    have h := cbrt_between (a := 3.09366772628010) (b := 3.09366772628017) (q := 3 * π ^ 2)
      (by norm_num) (by norm_num)
      (by refine le_trans ?_ (mul_le_mul_of_nonneg_left hsq1 (by norm_num))
          norm_num)
      (by refine le_trans (mul_le_mul_of_nonneg_left hsq2 (by norm_num)) ?_
          norm_num)
    rw [abs_le]; constructor <;> linarith [h.1, h.2]
  · intro x g hx hg
    have hx3 := rpow_pos_of_pos hx (4 / 3)
    have hg0 : 0 ≤ g := le_trans (by norm_num) hg
    have e : √g / (6.18733545256027 * x ^ (4 / 3 : ℝ)) * (√g / (6.18733545256027 * x ^ (4 / 3 : ℝ)))
        = g / (6.18733545256027 * x ^ (4 / 3 : ℝ)) ^ 2 := by
      rw [div_mul_div_comm, Real.mul_self_sqrt hg0]; ring
    simp only [rPW86x, floor_eq hg, l1, l3, l4, show (15.0 : ℝ) = 15 by norm_num, Spec.fPW86]
    generalize √g / (6.18733545256027 * x ^ (4 / 3 : ℝ)) = s at *
    rw [← e]
    congr 1
    congr 1
    ring

/-- The potentials of `rPW86x`. -/
theorem rPW86x_potential (x g : ℝ) (hx : 0 < x) :
    HasDerivAt (fun r => r * (rPW86x r g).e) (rPW86x x g).v x
      ∧ (1e-14 < g → HasDerivAt (fun q => x * (rPW86x x q).e) ((rPW86x x g).v2 / 2) g) := by
  constructor
  · have h := pw86_deriv (b := 6.18733545256027) (-0.738558766382022) (floorSigma g) (by norm_num) hx
    rw [rPW86x_v]
    refine h.congr_of_eventuallyEq ?_
    filter_upwards [lt_mem_nhds hx] with y hy
    exact rPW86x_e g hy
  · intro hg
    have hg0 : 0 < g := lt_trans (by norm_num) hg
    have h := pw86_deriv_sigma (b := 6.18733545256027) (-0.738558766382022) (by norm_num) hx hg0
    rw [rPW86x_v2, floor_eq hg.le]
    refine h.congr_of_eventuallyEq ?_
    filter_upwards [lt_mem_nhds hg] with y hy
    rw [rPW86x_e y hx, floor_eq hy.le]

/-- Where the squared gradient is above the floor the spin routine is the spin-scaled
unpolarised one. -/
theorem rPW86xSpin_scaling (p : Pt) (hu : 0 < p.up) (hd : 0 < p.dn) (hr : p.rho = p.up + p.dn)
    (hgu : 1e-14 ≤ p.sgu) (hgd : 1e-14 ≤ p.sgd) :
    p.rho * (rPW86xSpin p).e = (2 * p.up * (rPW86x (2 * p.up) (4 * p.sgu)).e
      + 2 * p.dn * (rPW86x (2 * p.dn) (4 * p.sgd)).e) / 2 := by
  have hrho : 0 < p.rho := by rw [hr]; positivity
  have key : ∀ {x g : ℝ}, 0 < x → 1e-14 ≤ g →
      (rPW86xChan x g).1 = (2 * x) * (rPW86x (2 * x) (4 * g)).e / 2 := by
    intro x g hx hg
    have hg0 : 0 ≤ g := le_trans (by norm_num) hg
    rw [rPW86x_e _ (by positivity), rchan_1, floor_eq hg, floor_eq (by linarith)]
    unfold pw86E
    have e1 : (2 * x) ^ (4 / 3 : ℝ) = 2 * c2 * x ^ (4 / 3 : ℝ) := by
      rw [mul_rpow (by norm_num) hx.le, p43_eq (by norm_num : (0 : ℝ) < 2)]; rfl
    have e2 : √(4 * g) = 2 * √g := by
      rw [Real.sqrt_mul (by norm_num), show (4 : ℝ) = 2 ^ 2 by norm_num,
        Real.sqrt_sq (by norm_num)]
    have h2 := c2_pos
    have hx4 := rpow_pos_of_pos hx (4 / 3)
    rw [e1, e2]
    have e3 : 2 * √g / (6.18733545256027 * (2 * c2 * x ^ (4 / 3 : ℝ)))
        = √g / (c2 * 6.18733545256027 * x ^ (4 / 3 : ℝ)) := by field_simp
    rw [e3]; ring
  simp only [rPW86xSpin]
  rw [key hu hgu, key hd hgd]
  field_simp

/-- The potentials of `rPW86x_spin`. -/
theorem rPW86xSpin_potential (u d g gu gd : ℝ) (hu : 0 < u) (hd : 0 < d) :
    HasDerivAt (fun y => (y + d) * (rPW86xSpin (mk y d g gu gd)).e)
        (rPW86xSpin (mk u d g gu gd)).vu u
      ∧ HasDerivAt (fun y => (u + y) * (rPW86xSpin (mk u y g gu gd)).e)
        (rPW86xSpin (mk u d g gu gd)).vd d
      ∧ (1e-14 < gu → HasDerivAt (fun y => (u + d) * (rPW86xSpin (mk u d g y gd)).e)
        ((rPW86xSpin (mk u d g gu gd)).v2u / 2) gu)
      ∧ (1e-14 < gd → HasDerivAt (fun y => (u + d) * (rPW86xSpin (mk u d g gu y)).e)
        ((rPW86xSpin (mk u d g gu gd)).v2d / 2) gd) := by
  have hud : 0 < u + d := by positivity
  have he : ∀ {a b ga gb : ℝ}, 0 < a + b → (a + b) * (rPW86xSpin (mk a b g ga gb)).e
      = (rPW86xChan a ga).1 + (rPW86xChan b gb).1 := by
    intro a b ga gb h
    simp only [rPW86xSpin, mk]; field_simp
  have hb : 0 < c2 * 6.18733545256027 := by have := c2_pos; positivity
  have dx : ∀ {x : ℝ} (q : ℝ), 0 < x →
      HasDerivAt (fun y => (rPW86xChan y q).1) (rPW86xChan x q).2.1 x := by
    intro x q hx
    have h := pw86_deriv (b := c2 * 6.18733545256027) (-0.738558766382022 * c2) (floorSigma q) hb hx
    rw [rchan_2 q hx]
    refine h.congr_of_eventuallyEq ?_
    filter_upwards with y
    exact rchan_1 y q
  have dg : ∀ {x q : ℝ}, 0 < x → 1e-14 < q →
      HasDerivAt (fun y => (rPW86xChan x y).1) ((rPW86xChan x q).2.2 / 2) q := by
    intro x q hx hq
    have hq0 : 0 < q := lt_trans (by norm_num) hq
    have h := pw86_deriv_sigma (b := c2 * 6.18733545256027) (-0.738558766382022 * c2) hb hx hq0
    rw [rchan_3, floor_eq hq.le]
    refine h.congr_of_eventuallyEq ?_
    filter_upwards [lt_mem_nhds hq] with y hy
    rw [rchan_1, floor_eq hy.le]
  refine ⟨?_, ?_, fun h => ?_, fun h => ?_⟩
  · refine ((dx gu hu).add_const ((rPW86xChan d gd).1)).congr_of_eventuallyEq ?_
    filter_upwards [lt_mem_nhds hu] with y hy
    exact he (by positivity)
  · refine ((dx gd hd).const_add ((rPW86xChan u gu).1)).congr_of_eventuallyEq ?_
    filter_upwards [lt_mem_nhds hd] with y hy
    exact he (by positivity)
  · refine ((dg hu h).add_const ((rPW86xChan d gd).1)).congr_of_eventuallyEq ?_
    filter_upwards with y
    exact he hud
  · refine ((dg hd h).const_add ((rPW86xChan u gu).1)).congr_of_eventuallyEq ?_
    filter_upwards with y
    exact he hud

example : HasDerivAt (fun q => 0.02 * (rPW86x 0.02 q).e) ((rPW86x 0.02 0.01).v2 / 2) 0.01 :=
  (rPW86x_potential 0.02 0.01 (by norm_num)).2 (by norm_num)

/-! ## PBE correlation -/

theorem pbec_chain (f : ℕ) {x : ℝ} (g : ℝ) (hx : 0 < x) :
    (pbec f x g).e = Spec.ec0 (rsOf x)
        + (ggaChain (betaOf f) gammaC 1 0 (Spec.ec0 (rsOf x)) (L0 (rsOf x)).2 0 (ttOf x g)).hh
      ∧ (pbec f x g).v = Spec.ec0 (rsOf x) - rsOf x / 3 * (L0 (rsOf x)).2
        + ((ggaChain (betaOf f) gammaC 1 0 (Spec.ec0 (rsOf x)) (L0 (rsOf x)).2 0 (ttOf x g)).hh
          - 1 / 3 * rsOf x
            * (ggaChain (betaOf f) gammaC 1 0 (Spec.ec0 (rsOf x)) (L0 (rsOf x)).2 0 (ttOf x g)).drs
          - 7 / 3 * ttOf x g
            * (ggaChain (betaOf f) gammaC 1 0 (Spec.ec0 (rsOf x)) (L0 (rsOf x)).2 0 (ttOf x g)).dtt)
      ∧ (pbec f x g).v2 = x * (2 * ttOf x 1)
        * (ggaChain (betaOf f) gammaC 1 0 (Spec.ec0 (rsOf x)) (L0 (rsOf x)).2 0 (ttOf x g)).dtt := by
  have hc : (0 : ℝ) < 0.6203504908994000 := by norm_num
  have hw : (2 : ℝ) ^ (-(1 / 3) : ℝ) * (x / 2) ^ (-(1 / 3) : ℝ) = x ^ (-(1 / 3) : ℝ) := by
    rw [← mul_rpow (by norm_num) (by positivity)]; congr 1; ring
  have er : 0.6203504908994000 * x ^ (-(1 / 3) : ℝ) = rsOf x := rfl
  have e0 : lsd 0.031091 0.21370 7.5957 3.5876 1.6382 0.49294 (rsOf x) (√(rsOf x))
    (1 / √(rsOf x)) = L0 (rsOf x) := rfl
  have et : 1 / 2 * g * (2 * ttOf x 1) = ttOf x g := by unfold ttOf; ring
  have et1 : 2 * (x ^ (-(1 / 3) : ℝ) * x ^ (-(1 / 3) : ℝ) * x ^ (-(1 / 3) : ℝ))
      * (x ^ (-(1 / 3) : ℝ) * x ^ (-(1 / 3) : ℝ) * x ^ (-(1 / 3) : ℝ)) * x ^ (-(1 / 3) : ℝ)
      * coeffTT = 2 * ttOf x 1 := by unfold ttOf; ring
  simp only [pbec, ggaChain, l1, l2, l3, l05, l7, hw, rsm_eq hc hx, sqrt_rs hc, er, e0,
    L0_fst (rsOf_pos hx), et, et1, div_one, mul_one, one_mul]
  refine ⟨trivial, trivial, trivial⟩

/-- The energy of `pbec`: the Perdew-Wang energy plus the gradient term of PBE. -/
theorem pbec_energy : ∃ c : ℝ, |c - (3 / (4 * π)) ^ (1 / 3 : ℝ)| ≤ 1e-15
    ∧ ∀ f x g, 0 < x → (pbec f x g).e = Spec.ec0 (c * x ^ (-(1 / 3) : ℝ))
      + Spec.pbeH (if f = 2 then 0.046 else 0.066725) (Spec.ec0 (c * x ^ (-(1 / 3) : ℝ))) 1
        (Spec.t2 x g 1) := by
  refine ⟨0.6203504908994000, ?_, fun f x g hx => ?_⟩
  · have h := abs_le.1 c4pi
    rw [abs_le]; constructor <;> linarith [h.1, h.2]
  · rw [(pbec_chain f g hx).1, hh_spec _ _ _ one_pos, tt_spec hx one_pos]
    rfl

/-- The potentials of `pbec`. -/
theorem pbec_potential (f : ℕ) (x g : ℝ) (hx : 0 < x) (hg : 0 ≤ g) :
    HasDerivAt (fun r => r * (pbec f r g).e) (pbec f x g).v x
      ∧ HasDerivAt (fun q => x * (pbec f x q).e) ((pbec f x g).v2 / 2) g := by
  have hr := rsOf_pos hx
  have hE : HasDerivAt (fun y => Spec.ec0 (rsOf y))
      ((L0 (rsOf x)).2 * (-(1 / 3) * rsOf x / x) + 0 * 0) x := by
    refine (HasDerivAt.comp x (L0_deriv hr) (rsOf_deriv hx)).congr_deriv ?_
    ring
  obtain ⟨_, hv, hv2⟩ := pbec_chain f g hx
  constructor
  · have hH := ggaChain_deriv (P := fun _ => 1) (pp := 0) (beta_pos f) gamma_pos hE
      ((hasDerivAt_const x (1 : ℝ)).congr_deriv (by ring))
      (ttOf_deriv g hx) (ec0_neg hr) one_pos (ttOf_nonneg hx hg) (fun _ => 0)
      (fun y => (L0 (rsOf y)).2) (fun _ => 0)
    have h := d_mul (hasDerivAt_id' x) (hE.add hH)
    refine (h.congr_of_eventuallyEq ?_).congr_deriv ?_
    · filter_upwards [lt_mem_nhds hx] with y hy
      rw [(pbec_chain f g hy).1]; rfl
    · rw [hv]
      simp only [Pi.add_apply]
      field_simp
      ring
  · have hE' : HasDerivAt (fun _ : ℝ => Spec.ec0 (rsOf x)) ((L0 (rsOf x)).2 * 0 + 0 * 0) g :=
      (hasDerivAt_const g _).congr_deriv (by ring)
    have hH := ggaChain_deriv (P := fun _ => 1) (pp := 0) (beta_pos f) gamma_pos hE'
      ((hasDerivAt_const g (1 : ℝ)).congr_deriv (by ring))
      (ttOf_deriv_sigma x g) (ec0_neg hr) one_pos (ttOf_nonneg hx hg) (fun _ => 0)
      (fun y => (L0 (rsOf x)).2) (fun _ => 0)
    have h := (hE'.add hH).const_mul x
    refine (h.congr_of_eventuallyEq ?_).congr_deriv ?_
    · filter_upwards with y
      rw [(pbec_chain f y hx).1]; rfl
    · rw [hv2]; ring

example : HasDerivAt (fun r => r * (pbec 1 r 0.01).e) (pbec 1 0.02 0.01).v 0.02 :=
  (pbec_potential 1 0.02 0.01 (by norm_num) (by norm_num)).1

/-! ## Correlation with spin -/

theorem zeta_bounds {u d : ℝ} (hu : 0 < u) (hd : 0 < d) :
    -1 ≤ (u - d) / (u + d) ∧ (u - d) / (u + d) ≤ 1 := by
  have h : 0 < u + d := by positivity
  constructor
  · rw [le_div_iff₀ h]; linarith
  · rw [div_le_iff₀ h]; linarith

theorem zeta_up {u d : ℝ} (hu : 0 < u) (hd : 0 < d) :
    HasDerivAt (fun y => (y - d) / (y + d)) ((1 - (u - d) / (u + d)) / (u + d)) u := by
  have h : 0 < u + d := by positivity
  refine (((hasDerivAt_id' u).sub_const d).div ((hasDerivAt_id' u).add_const d) h.ne').congr_deriv ?_
  field_simp

theorem zeta_dn {u d : ℝ} (hu : 0 < u) (hd : 0 < d) :
    HasDerivAt (fun y => (u - y) / (u + y)) ((-1 - (u - d) / (u + d)) / (u + d)) d := by
  have h : 0 < u + d := by positivity
  refine (((hasDerivAt_id' d).const_sub u).div ((hasDerivAt_id' d).const_add u) h.ne').congr_deriv ?_
  field_simp

theorem pwSpin_at {u d : ℝ} (g gu gd : ℝ) (hu : 0 < u) (hd : 0 < d) :
    (pwSpin (mk u d g gu gd)).e = Spec.pw92 (rsOf (u + d)) ((u - d) / (u + d)) := by
  have h : 0 < u + d := by positivity
  obtain ⟨z1, z2⟩ := zeta_bounds hu hd
  exact (lsda_eq (p := mk u d g gu gd) h rfl z1 z2).1

/-- The energy of `pw_spin` is the Perdew-Wang interpolation. -/
theorem pwSpin_energy : ∃ c : ℝ, |c - (3 / (4 * π)) ^ (1 / 3 : ℝ)| ≤ 1e-15
    ∧ ∀ u d g gu gd, 0 < u → 0 < d → (pwSpin (mk u d g gu gd)).e
      = Spec.pw92 (c * (u + d) ^ (-(1 / 3) : ℝ)) ((u - d) / (u + d)) := by
  refine ⟨0.6203504908994000, ?_, fun u d g gu gd hu hd => ?_⟩
  · have h := abs_le.1 c4pi
    rw [abs_le]; constructor <;> linarith [h.1, h.2]
  · rw [pwSpin_at g gu gd hu hd]; rfl

/-- The potentials of `pw_spin`. -/
theorem pwSpin_potential (u d g gu gd : ℝ) (hu : 0 < u) (hd : 0 < d) :
    HasDerivAt (fun y => (y + d) * (pwSpin (mk y d g gu gd)).e) (pwSpin (mk u d g gu gd)).vu u
      ∧ HasDerivAt (fun y => (u + y) * (pwSpin (mk u y g gu gd)).e)
        (pwSpin (mk u d g gu gd)).vd d := by
  have h : 0 < u + d := by positivity
  obtain ⟨z1, z2⟩ := zeta_bounds hu hd
  obtain ⟨q1, q2, q3⟩ := lsda_eq (p := mk u d g gu gd) h rfl z1 z2
  have hz : (lsda (mk u d g gu gd)).zeta = (u - d) / (u + d) := lsda_zeta h
  have hrs : (lsda (mk u d g gu gd)).rs = rsOf (u + d) := lsda_rs _
  have hrp := rsOf_pos h
  have hm1 : (mk u d g gu gd).rho = u + d := rfl
  have hm3 : (mk u d g gu gd).up = u := rfl
  have hm4 : (mk u d g gu gd).dn = d := rfl
  rw [hm1, hm3, hm4] at q1 q2 q3
  constructor
  · have hR : HasDerivAt (fun y => rsOf (y + d)) (-(1 / 3) * rsOf (u + d) / (u + d)) u :=
      (HasDerivAt.comp u (h := fun y => y + d) (rsOf_deriv h) ((hasDerivAt_id' u).add_const d)).congr_deriv
        (mul_one _)
    have hE := pw92_deriv hR (zeta_up hu hd) hrp z1 z2
    have hF := d_mul ((hasDerivAt_id' u).add_const d) hE
    refine (hF.congr_of_eventuallyEq ?_).congr_deriv ?_
    · filter_upwards [lt_mem_nhds hu] with y hy
      rw [pwSpin_at g gu gd hy hd]
    · simp only [pwSpin, q1, q2, q3, hz, hrs, l1, l3, hm1]
      generalize (u - d) / (u + d) = z
      field_simp
      ring
  · have hR : HasDerivAt (fun y => rsOf (u + y)) (-(1 / 3) * rsOf (u + d) / (u + d)) d :=
      (HasDerivAt.comp d (h := fun y => u + y) (rsOf_deriv h) ((hasDerivAt_id' d).const_add u)).congr_deriv
        (mul_one _)
    have hE := pw92_deriv hR (zeta_dn hu hd) hrp z1 z2
    have hF := d_mul ((hasDerivAt_id' d).const_add u) hE
    refine (hF.congr_of_eventuallyEq ?_).congr_deriv ?_
    · filter_upwards [lt_mem_nhds hd] with y hy
      rw [pwSpin_at g gu gd hu hy]
    · simp only [pwSpin, q1, q2, q3, hz, hrs, l1, l3, hm1]
      generalize (u - d) / (u + d) = z
      field_simp
      ring

example : HasDerivAt (fun y => (y + 0.01) * (pwSpin (mk y 0.01 0 0 0)).e)
    (pwSpin (mk 0.02 0.01 0 0 0)).vu 0.02 :=
  (pwSpin_potential 0.02 0.01 0 0 0 (by norm_num) (by norm_num)).1

/-- `phip_zeta` of the code. -/
noncomputable def ppOf (z : ℝ) : ℝ :=
  ((1 + Spec.alpha * z) ^ (-(1 / 3) : ℝ) - (1 - Spec.alpha * z) ^ (-(1 / 3) : ℝ))
    * (1 / 3) * Spec.alpha

/-- The gradient chain at a point. -/
noncomputable def chainAt (f : ℕ) (u d g : ℝ) : Gga :=
  ggaChain (betaOf f) gammaC (Spec.phi (Spec.alpha * ((u - d) / (u + d)))) (ppOf ((u - d) / (u + d)))
    (Spec.pw92 (rsOf (u + d)) ((u - d) / (u + d))) (drsOf (rsOf (u + d)) ((u - d) / (u + d)))
    (dzOf (rsOf (u + d)) ((u - d) / (u + d))) (ttOf (u + d) g)

theorem pbecSpin_at (f : ℕ) {u d : ℝ} (g gu gd : ℝ) (hu : 0 < u) (hd : 0 < d) :
    (pbecSpin f (mk u d g gu gd)).e = Spec.pw92 (rsOf (u + d)) ((u - d) / (u + d))
        + (chainAt f u d g).hh
      ∧ (pbecSpin f (mk u d g gu gd)).vu = (pwSpin (mk u d g gu gd)).vu
        + ((chainAt f u d g).hh - 1 / 3 * rsOf (u + d) * (chainAt f u d g).drs
          - (u - d) / (u + d) * (chainAt f u d g).dzeta
          - 7 / 3 * ttOf (u + d) g * (chainAt f u d g).dtt + (chainAt f u d g).dzeta)
      ∧ (pbecSpin f (mk u d g gu gd)).vd = (pwSpin (mk u d g gu gd)).vd
        + ((chainAt f u d g).hh - 1 / 3 * rsOf (u + d) * (chainAt f u d g).drs
          - (u - d) / (u + d) * (chainAt f u d g).dzeta
          - 7 / 3 * ttOf (u + d) g * (chainAt f u d g).dtt - (chainAt f u d g).dzeta)
      ∧ (pbecSpin f (mk u d g gu gd)).v2 = (u + d) * (2 * ttOf (u + d) 1)
          * (chainAt f u d g).dtt := by
  have h : 0 < u + d := by positivity
  obtain ⟨z1, z2⟩ := zeta_bounds hu hd
  obtain ⟨q1, q2, q3⟩ := lsda_eq (p := mk u d g gu gd) h rfl z1 z2
  have hz : (lsda (mk u d g gu gd)).zeta = (u - d) / (u + d) := lsda_zeta h
  have hrs : (lsda (mk u d g gu gd)).rs = rsOf (u + d) := lsda_rs _
  have hm1 : (mk u d g gu gd).rho = u + d := rfl
  have hm2 : (mk u d g gu gd).sg = g := rfl
  have hm3 : (mk u d g gu gd).up = u := rfl
  have hm4 : (mk u d g gu gd).dn = d := rfl
  rw [hm1, hm3, hm4] at q1 q2 q3
  obtain ⟨a1, a2⟩ := az_bounds z1 z2
  have ea : (u - d) / (u + d) * Spec.alpha = Spec.alpha * ((u - d) / (u + d)) := mul_comm _ _
  have p23 : ∀ {x : ℝ}, 0 < x → x ^ (-(1 / 3) : ℝ) * x = x ^ (2 / 3 : ℝ) := by
    intro x hx
    have : x ^ (-(1 / 3) : ℝ) * x = x ^ (-(1 / 3) : ℝ) * x ^ (1 : ℝ) := by rw [rpow_one]
    rw [this, ← rpow_add hx]; norm_num
  have ephi : ((1 + Spec.alpha * ((u - d) / (u + d))) ^ (2 / 3 : ℝ)
      + (1 - Spec.alpha * ((u - d) / (u + d))) ^ (2 / 3 : ℝ)) * (1 / 2)
      = Spec.phi (Spec.alpha * ((u - d) / (u + d))) := by unfold Spec.phi; ring
  have epp : ((1 + Spec.alpha * ((u - d) / (u + d))) ^ (-(1 / 3) : ℝ)
      - (1 - Spec.alpha * ((u - d) / (u + d))) ^ (-(1 / 3) : ℝ)) * (1 / 3) * Spec.alpha
      = ppOf ((u - d) / (u + d)) := rfl
  have et : 1 / 2 * g * (2 * ttOf (u + d) 1) = ttOf (u + d) g := by unfold ttOf; ring
  have et1 : 2 * ((u + d) ^ (-(1 / 3) : ℝ)) ^ 3
      * ((u + d) ^ (-(1 / 3) : ℝ)) ^ 3 * (u + d) ^ (-(1 / 3) : ℝ)
      * coeffTT = 2 * ttOf (u + d) 1 := by unfold ttOf; ring
  have ec : ggaChain (betaOf f) gammaC (Spec.phi (Spec.alpha * ((u - d) / (u + d))))
      (ppOf ((u - d) / (u + d))) (Spec.pw92 (rsOf (u + d)) ((u - d) / (u + d)))
      (drsOf (rsOf (u + d)) ((u - d) / (u + d)))
      (dzOf (rsOf (u + d)) ((u - d) / (u + d))) (ttOf (u + d) g) = chainAt f u d g := rfl
  simp only [pbecSpin, pwSpin, l1, l2, l3, l05, l7, alpha_lit, hz, hrs, q1, q2, q3, hm1, hm2, ea,
    p23 (show 0 < 1 + Spec.alpha * ((u - d) / (u + d)) by linarith),
    p23 (show 0 < 1 - Spec.alpha * ((u - d) / (u + d)) by linarith), ephi, epp, et, et1, ec]
  refine ⟨trivial, trivial, trivial, trivial⟩

/-- The energy of `pbec_spin`: the Perdew-Wang interpolation plus the gradient term of
PBE with its spin factor. -/
theorem pbecSpin_energy : ∃ c : ℝ, |c - (3 / (4 * π)) ^ (1 / 3 : ℝ)| ≤ 1e-15
    ∧ ∀ f u d g gu gd, 0 < u → 0 < d → (pbecSpin f (mk u d g gu gd)).e
      = Spec.pw92 (c * (u + d) ^ (-(1 / 3) : ℝ)) ((u - d) / (u + d))
        + Spec.pbeH (if f = 2 then 0.046 else 0.066725)
          (Spec.pw92 (c * (u + d) ^ (-(1 / 3) : ℝ)) ((u - d) / (u + d)))
          (Spec.phi (Spec.alpha * ((u - d) / (u + d))))
          (Spec.t2 (u + d) g (Spec.phi (Spec.alpha * ((u - d) / (u + d))))) := by
  refine ⟨0.6203504908994000, ?_, fun f u d g gu gd hu hd => ?_⟩
  · have h := abs_le.1 c4pi
    rw [abs_le]; constructor <;> linarith [h.1, h.2]
  · obtain ⟨z1, z2⟩ := zeta_bounds hu hd
    obtain ⟨a1, a2⟩ := az_bounds z1 z2
    have hp := phi_pos a1 a2
    rw [(pbecSpin_at f g gu gd hu hd).1]
    unfold chainAt
    rw [hh_spec _ _ _ hp, tt_spec (by positivity) hp]
    rfl

/-- The potentials of `pbec_spin`. -/
theorem pbecSpin_potential (f : ℕ) (u d g gu gd : ℝ) (hu : 0 < u) (hd : 0 < d) (hg : 0 ≤ g) :
    HasDerivAt (fun y => (y + d) * (pbecSpin f (mk y d g gu gd)).e)
        (pbecSpin f (mk u d g gu gd)).vu u
      ∧ HasDerivAt (fun y => (u + y) * (pbecSpin f (mk u y g gu gd)).e)
        (pbecSpin f (mk u d g gu gd)).vd d
      ∧ HasDerivAt (fun y => (u + d) * (pbecSpin f (mk u d y gu gd)).e)
        ((pbecSpin f (mk u d g gu gd)).v2 / 2) g := by
  have h : 0 < u + d := by positivity
  obtain ⟨z1, z2⟩ := zeta_bounds hu hd
  obtain ⟨a1, a2⟩ := az_bounds z1 z2
  have hp := phi_pos a1 a2
  have hneg := pw92_neg (rsOf_pos h) z1 z2
  have hT0 := ttOf_nonneg h hg
  have hrp := rsOf_pos h
  obtain ⟨_, hvu, hvd, hv2⟩ := pbecSpin_at f g gu gd hu hd
  have hpw := pwSpin_potential u d g gu gd hu hd
  refine ⟨?_, ?_, ?_⟩
  · have hR : HasDerivAt (fun y => rsOf (y + d)) (-(1 / 3) * rsOf (u + d) / (u + d)) u :=
      (HasDerivAt.comp u (h := fun y => y + d) (rsOf_deriv h) ((hasDerivAt_id' u).add_const d)).congr_deriv
        (mul_one _)
    have hT : HasDerivAt (fun y => ttOf (y + d) g) (-7 / 3 * ttOf (u + d) g / (u + d)) u :=
      (HasDerivAt.comp u (h := fun y => y + d) (ttOf_deriv g h) ((hasDerivAt_id' u).add_const d)).congr_deriv
        (mul_one _)
    have hZ := zeta_up hu hd
    have hE := pw92_deriv hR hZ hrp z1 z2
    have hP : HasDerivAt (fun y => Spec.phi (Spec.alpha * ((y - d) / (y + d)))) _ u :=
      HasDerivAt.comp u (h := fun y => (y - d) / (y + d)) (phia_deriv z1 z2) hZ
    have hH := ggaChain_deriv (beta_pos f) gamma_pos hE hP hT hneg hp hT0
      (fun y => ppOf ((y - d) / (y + d))) (fun y => drsOf (rsOf (y + d)) ((y - d) / (y + d)))
      (fun y => dzOf (rsOf (y + d)) ((y - d) / (y + d)))
    have hF := hpw.1.add (d_mul ((hasDerivAt_id' u).add_const d) hH)
    refine (hF.congr_of_eventuallyEq ?_).congr_deriv ?_
    · filter_upwards [lt_mem_nhds hu] with y hy
      rw [(pbecSpin_at f g gu gd hy hd).1, Pi.add_apply, pwSpin_at g gu gd hy hd]
      show (y + d) * (_ + (chainAt f y d g).hh) = (y + d) * _ + (y + d) * (chainAt f y d g).hh
      ring
    · rw [hvu]
      show _ + (1 * (chainAt f u d g).hh + (u + d) * ((chainAt f u d g).drs * _
        + (chainAt f u d g).dzeta * _ + (chainAt f u d g).dtt * _)) = _
      generalize chainAt f u d g = ch
      generalize (u - d) / (u + d) = z
      field_simp
      ring
  · have hR : HasDerivAt (fun y => rsOf (u + y)) (-(1 / 3) * rsOf (u + d) / (u + d)) d :=
      (HasDerivAt.comp d (h := fun y => u + y) (rsOf_deriv h) ((hasDerivAt_id' d).const_add u)).congr_deriv
        (mul_one _)
    have hT : HasDerivAt (fun y => ttOf (u + y) g) (-7 / 3 * ttOf (u + d) g / (u + d)) d :=
      (HasDerivAt.comp d (h := fun y => u + y) (ttOf_deriv g h) ((hasDerivAt_id' d).const_add u)).congr_deriv
        (mul_one _)
    have hZ := zeta_dn hu hd
    have hE := pw92_deriv hR hZ hrp z1 z2
    have hP : HasDerivAt (fun y => Spec.phi (Spec.alpha * ((u - y) / (u + y)))) _ d :=
      HasDerivAt.comp d (h := fun y => (u - y) / (u + y)) (phia_deriv z1 z2) hZ
    have hH := ggaChain_deriv (beta_pos f) gamma_pos hE hP hT hneg hp hT0
      (fun y => ppOf ((u - y) / (u + y))) (fun y => drsOf (rsOf (u + y)) ((u - y) / (u + y)))
      (fun y => dzOf (rsOf (u + y)) ((u - y) / (u + y)))
    have hF := hpw.2.add (d_mul ((hasDerivAt_id' d).const_add u) hH)
    refine (hF.congr_of_eventuallyEq ?_).congr_deriv ?_
    · filter_upwards [lt_mem_nhds hd] with y hy
      rw [(pbecSpin_at f g gu gd hu hy).1, Pi.add_apply, pwSpin_at g gu gd hu hy]
      show (u + y) * (_ + (chainAt f u y g).hh) = (u + y) * _ + (u + y) * (chainAt f u y g).hh
      ring
    · rw [hvd]
      show _ + (1 * (chainAt f u d g).hh + (u + d) * ((chainAt f u d g).drs * _
        + (chainAt f u d g).dzeta * _ + (chainAt f u d g).dtt * _)) = _
      generalize chainAt f u d g = ch
      generalize (u - d) / (u + d) = z
      field_simp
      ring
  · have hE : HasDerivAt (fun _ : ℝ => Spec.pw92 (rsOf (u + d)) ((u - d) / (u + d)))
        (drsOf (rsOf (u + d)) ((u - d) / (u + d)) * 0 + dzOf (rsOf (u + d)) ((u - d) / (u + d)) * 0) g :=
      (hasDerivAt_const g _).congr_deriv (by ring)
    have hP : HasDerivAt (fun _ : ℝ => Spec.phi (Spec.alpha * ((u - d) / (u + d))))
        (ppOf ((u - d) / (u + d)) * 0) g := (hasDerivAt_const g _).congr_deriv (by ring)
    have hH := ggaChain_deriv (beta_pos f) gamma_pos hE hP (ttOf_deriv_sigma (u + d) g) hneg hp hT0
      (fun _ => ppOf ((u - d) / (u + d))) (fun _ => drsOf (rsOf (u + d)) ((u - d) / (u + d)))
      (fun _ => dzOf (rsOf (u + d)) ((u - d) / (u + d)))
    have hF := (hE.add hH).const_mul (u + d)
    refine (hF.congr_of_eventuallyEq ?_).congr_deriv ?_
    · filter_upwards with y
      rw [(pbecSpin_at f y gu gd hu hd).1]
      rfl
    · rw [hv2]
      unfold chainAt
      ring

example : HasDerivAt (fun y => (y + 0.01) * (pbecSpin 1 (mk y 0.01 0.02 0 0)).e)
    (pbecSpin 1 (mk 0.02 0.01 0.02 0 0)).vu 0.02 :=
  (pbecSpin_potential 1 0.02 0.01 0.02 0 0 (by norm_num) (by norm_num) (by norm_num)).1

/-- Without polarisation `pbec_spin` is `pbec`: same energy, and both spin potentials
are the unpolarised one. -/
theorem pbecSpin_unpolarised (f : ℕ) (n g gu gd : ℝ) (hn : 0 < n) :
    (pbecSpin f (mk n n g gu gd)).e = (pbec f (n + n) g).e
      ∧ (pbecSpin f (mk n n g gu gd)).vu = (pbec f (n + n) g).v
      ∧ (pbecSpin f (mk n n g gu gd)).vd = (pbec f (n + n) g).v
      ∧ (pbecSpin f (mk n n g gu gd)).v2 = (pbec f (n + n) g).v2 := by
  have h : 0 < n + n := by positivity
  obtain ⟨a1, a2, a3, a4⟩ := pbecSpin_at f g gu gd hn hn
  obtain ⟨b1, b2, b3⟩ := pbec_chain f g h
  have z0 : (n - n) / (n + n) = 0 := by rw [sub_self, zero_div]
  obtain ⟨q1, q2, q3⟩ := lsda_eq (p := mk n n g gu gd) h (z := 0) z0.symm (by norm_num) (by norm_num)
  have hz : (lsda (mk n n g gu gd)).zeta = 0 := by rw [lsda_zeta h]; exact z0
  have hrs : (lsda (mk n n g gu gd)).rs = rsOf (n + n) := lsda_rs _
  have f0 : Spec.fz 0 = 0 := by unfold Spec.fz; norm_num
  have p0 : Spec.phi 0 = 1 := by unfold Spec.phi; norm_num
  have e1 : ∀ r, Spec.pw92 r 0 = Spec.ec0 r := by
    intro r; unfold Spec.pw92; rw [mul_zero, f0]; ring
  have e2 : ∀ r, drsOf r 0 = (L0 r).2 := by
    intro r; unfold drsOf; rw [mul_zero, f0]; ring
  have e3 : ∀ r, dzOf r 0 = 0 := by
    intro r; unfold dzOf fpOf; rw [mul_zero, f0]; norm_num
  have e4 : ppOf 0 = 0 := by unfold ppOf; rw [mul_zero]; norm_num
  have ec : chainAt f n n g = ggaChain (betaOf f) gammaC 1 0 (Spec.ec0 (rsOf (n + n)))
      (L0 (rsOf (n + n))).2 0 (ttOf (n + n) g) := by
    unfold chainAt
    rw [z0, mul_zero, p0, e1, e2, e3, e4]
  have ez : (chainAt f n n g).dzeta = 0 := by
    rw [ec]; simp only [ggaChain, l1, l2, l3]; ring
  have hm1 : (mk n n g gu gd).rho = n + n := rfl
  have hpu : (pwSpin (mk n n g gu gd)).vu = Spec.ec0 (rsOf (n + n)) - rsOf (n + n) / 3 * (L0 (rsOf (n + n))).2 := by
    simp only [pwSpin, q1, q2, q3, hz, hrs, third_eq, e1, e2, e3, hm1]; ring
  have hpd : (pwSpin (mk n n g gu gd)).vd = Spec.ec0 (rsOf (n + n)) - rsOf (n + n) / 3 * (L0 (rsOf (n + n))).2 := by
    simp only [pwSpin, q1, q2, q3, hz, hrs, third_eq, e1, e2, e3, hm1]; ring
  refine ⟨?_, ?_, ?_, ?_⟩
  · rw [a1, b1, z0, e1, ec]
  · rw [a2, b2, hpu, ez, z0, ec]; ring
  · rw [a3, b2, hpd, ez, z0, ec]; ring
  · rw [a4, b3, ec]

end Sparc.Xc

import Verif.Mgga.Bounds
import Mathlib.Analysis.Real.Pi.Bounds

/-!
# SCAN: the potentials are derivatives of the energy

`Spec` holds the functional as published.  `g = √σ` is the norm of the gradient of the
density.  The energy density of a point is `ρ ε`; the code returns `ε`, the derivative of
`ρ ε` in the density, twice its derivative in `σ` (the form `vxc2` has in the rest of the
program, where it multiplies the gradient), and its derivative in the kinetic energy
density.  The code divides by `1 - α` and by `√σ`; the statements exclude `α = 1` and
`σ = 0`, where it produces a NaN.
-/

namespace Sparc.Mgga

open Real

/-- From a derivative in the norm of the gradient to one in its square. -/
theorem sigma_form {F : ℝ → ℝ} {v sg : ℝ} (hs : 0 < sg) (h : HasDerivAt F v (√sg)) :
    HasDerivAt (fun y => F (√y)) (v / √sg / 2) sg := by
  have := h.comp sg (hasDerivAt_sqrt hs.ne')
  refine this.congr_deriv ?_
  have := Real.sqrt_pos.2 hs
  field_simp

/-! ## Exchange (C69) -/

/-- The energy returned is that of the published functional. -/
theorem scanx_energy {rho sg tau : ℝ} (hr : 0 < rho) (ha : Spec.alpha rho 0 (√sg) tau ≠ 1) :
    (scanx rho sg tau).e = Spec.ex rho (√sg) tau := calc_e hr ha

/-- The first potential is the derivative in the density. -/
theorem scanx_v1 {rho sg tau : ℝ} (hr : 0 < rho) (hs : 0 < sg)
    (ha : Spec.alpha rho 0 (√sg) tau ≠ 1) :
    HasDerivAt (fun y => y * Spec.ex y (√sg) tau) (scanx rho sg tau).v1 rho :=
  calc_v1 hr (Real.sqrt_pos.2 hs) ha

/-- The second potential is twice the derivative in the square of the gradient. -/
theorem scanx_v2 {rho sg tau : ℝ} (hr : 0 < rho) (hs : 0 < sg)
    (ha : Spec.alpha rho 0 (√sg) tau ≠ 1) :
    HasDerivAt (fun y => rho * Spec.ex rho (√y) tau) ((scanx rho sg tau).v2 / 2) sg :=
  sigma_form hs (calc_v2 hr (Real.sqrt_pos.2 hs) ha)

/-- The third potential is the derivative in the kinetic energy density. -/
theorem scanx_v3 {rho sg tau : ℝ} (hr : 0 < rho) (hs : 0 < sg)
    (ha : Spec.alpha rho 0 (√sg) tau ≠ 1) :
    HasDerivAt (fun y => rho * Spec.ex rho (√sg) y) (scanx rho sg tau).v3 tau :=
  calc_v3 hr (Real.sqrt_pos.2 hs) ha

/-- A doubled square root. -/
theorem two_sqrt_pos {x : ℝ} (h : 0 < x) : 0 < 2 * √x := by
  have := Real.sqrt_pos.2 h; linarith

theorem chan_eq (rho g tau : ℝ) :
    scanxChan rho g tau = calcScanx (2 * rho) (basicVars (2 * rho) (2 * g) (2 * tau)) := by
  unfold scanxChan
  rw [Xc.l2, mul_comm]

/-- The energy density with spin is half the sum over the two spins of the energy density
of an unpolarised system with twice the density of that spin. -/
theorem scanxSpin_energy {p : Pt} (hr : p.rho = p.up + p.dn) (hu : 0 < p.up) (hd : 0 < p.dn)
    (hau : Spec.alpha (2 * p.up) 0 (2 * √p.sgu) (2 * p.tauu) ≠ 1)
    (had : Spec.alpha (2 * p.dn) 0 (2 * √p.sgd) (2 * p.taud) ≠ 1) :
    p.rho * (scanxSpin p).e
      = (2 * p.up * Spec.ex (2 * p.up) (2 * √p.sgu) (2 * p.tauu)
        + 2 * p.dn * Spec.ex (2 * p.dn) (2 * √p.sgd) (2 * p.taud)) / 2 := by
  have h0 : p.rho ≠ 0 := by rw [hr]; positivity
  simp only [scanxSpin, chan_eq]
  rw [calc_e (by linarith) hau, calc_e (by linarith) had]
  field_simp

theorem half_deriv {F : ℝ → ℝ} {v x : ℝ} (h : HasDerivAt F v (2 * x)) :
    HasDerivAt (fun y => F (2 * y) / 2) v x := by
  refine ((h.comp x ((hasDerivAt_id' x).const_mul 2)).div_const 2).congr_deriv ?_
  ring

/-- Spin up: derivative in the density of that spin. -/
theorem scanxSpin_v1u {p : Pt} (hu : 0 < p.up) (hs : 0 < p.sgu)
    (ha : Spec.alpha (2 * p.up) 0 (2 * √p.sgu) (2 * p.tauu) ≠ 1) :
    HasDerivAt (fun y => 2 * y * Spec.ex (2 * y) (2 * √p.sgu) (2 * p.tauu) / 2)
      (scanxSpin p).v1u p.up := by
  simp only [scanxSpin, chan_eq]
  exact half_deriv (calc_v1 (by linarith) (two_sqrt_pos hs) ha)

/-- Spin down: derivative in the density of that spin. -/
theorem scanxSpin_v1d {p : Pt} (hd : 0 < p.dn) (hs : 0 < p.sgd)
    (ha : Spec.alpha (2 * p.dn) 0 (2 * √p.sgd) (2 * p.taud) ≠ 1) :
    HasDerivAt (fun y => 2 * y * Spec.ex (2 * y) (2 * √p.sgd) (2 * p.taud) / 2)
      (scanxSpin p).v1d p.dn := by
  simp only [scanxSpin, chan_eq]
  exact half_deriv (calc_v1 (by linarith) (two_sqrt_pos hs) ha)

/-- Spin up: twice the derivative in the square of the gradient of that spin. -/
theorem scanxSpin_v2u {p : Pt} (hu : 0 < p.up) (hs : 0 < p.sgu)
    (ha : Spec.alpha (2 * p.up) 0 (2 * √p.sgu) (2 * p.tauu) ≠ 1) :
    HasDerivAt (fun y => 2 * p.up * Spec.ex (2 * p.up) (2 * √y) (2 * p.tauu) / 2)
      ((scanxSpin p).v2u / 2) p.sgu := by
  simp only [scanxSpin, chan_eq]
  exact sigma_form (F := fun x => 2 * p.up * Spec.ex (2 * p.up) (2 * x) (2 * p.tauu) / 2) hs
    (half_deriv (F := fun x => 2 * p.up * Spec.ex (2 * p.up) x (2 * p.tauu))
      (calc_v2 (by linarith) (two_sqrt_pos hs) ha))

/-- Spin down: twice the derivative in the square of the gradient of that spin. -/
theorem scanxSpin_v2d {p : Pt} (hd : 0 < p.dn) (hs : 0 < p.sgd)
    (ha : Spec.alpha (2 * p.dn) 0 (2 * √p.sgd) (2 * p.taud) ≠ 1) :
    HasDerivAt (fun y => 2 * p.dn * Spec.ex (2 * p.dn) (2 * √y) (2 * p.taud) / 2)
      ((scanxSpin p).v2d / 2) p.sgd := by
  simp only [scanxSpin, chan_eq]
  exact sigma_form (F := fun x => 2 * p.dn * Spec.ex (2 * p.dn) (2 * x) (2 * p.taud) / 2) hs
    (half_deriv (F := fun x => 2 * p.dn * Spec.ex (2 * p.dn) x (2 * p.taud))
      (calc_v2 (by linarith) (two_sqrt_pos hs) ha))

/-- Spin up: derivative in the kinetic energy density of that spin. -/
theorem scanxSpin_v3u {p : Pt} (hu : 0 < p.up) (hs : 0 < p.sgu)
    (ha : Spec.alpha (2 * p.up) 0 (2 * √p.sgu) (2 * p.tauu) ≠ 1) :
    HasDerivAt (fun y => 2 * p.up * Spec.ex (2 * p.up) (2 * √p.sgu) (2 * y) / 2)
      (scanxSpin p).v3u p.tauu := by
  simp only [scanxSpin, chan_eq]
  exact half_deriv (F := fun x => 2 * p.up * Spec.ex (2 * p.up) (2 * √p.sgu) x)
    (calc_v3 (by linarith) (two_sqrt_pos hs) ha)

/-- Spin down: derivative in the kinetic energy density of that spin. -/
theorem scanxSpin_v3d {p : Pt} (hd : 0 < p.dn) (hs : 0 < p.sgd)
    (ha : Spec.alpha (2 * p.dn) 0 (2 * √p.sgd) (2 * p.taud) ≠ 1) :
    HasDerivAt (fun y => 2 * p.dn * Spec.ex (2 * p.dn) (2 * √p.sgd) (2 * y) / 2)
      (scanxSpin p).v3d p.taud := by
  simp only [scanxSpin, chan_eq]
  exact half_deriv (F := fun x => 2 * p.dn * Spec.ex (2 * p.dn) (2 * √p.sgd) x)
    (calc_v3 (by linarith) (two_sqrt_pos hs) ha)

/-! ## Correlation (C70) -/

/-- The energy returned is that of the published functional. -/
theorem scanc_energy {rho sg tau : ℝ} (hr : 0 < rho) (ha : Spec.alpha rho 0 (√sg) tau ≠ 1) :
    (scanc rho sg tau).e = Spec.ec rho 0 (√sg) tau := calcC_e hr ha

/-- The second potential is twice the derivative in the square of the gradient. -/
theorem scanc_v2 {rho sg tau : ℝ} (hr : 0 < rho) (hs : 0 < sg)
    (ha : Spec.alpha rho 0 (√sg) tau ≠ 1) :
    HasDerivAt (fun y => rho * Spec.ec rho 0 (√y) tau) ((scanc rho sg tau).v2 / 2) sg :=
  sigma_form (F := fun x => rho * Spec.ec rho 0 x tau) hs (calcC_v2 hr (Real.sqrt_pos.2 hs) ha)

/-- The third potential is the derivative in the kinetic energy density. -/
theorem scanc_v3 {rho sg tau : ℝ} (hr : 0 < rho) (hs : 0 < sg)
    (ha : Spec.alpha rho 0 (√sg) tau ≠ 1) :
    HasDerivAt (fun y => rho * Spec.ec rho 0 (√sg) y) (scanc rho sg tau).v3 tau :=
  calcC_v3 hr (Real.sqrt_pos.2 hs) ha

/-- The rational factor of `β` as a function of the density. -/
noncomputable def betaFactor (n : ℝ) : ℝ := (1 + 0.1 * Spec.rs n) / (1 + 0.1778 * Spec.rs n)

theorem betaFactor_deriv {N : ℝ → ℝ} {t : ℝ} (hN : HasDerivAt N 1 t) (hn : 0 < N t) :
    HasDerivAt (fun y => betaFactor (N y))
      ((0.1 - 0.1778) / (1 + 0.1778 * Spec.rs (N t)) ^ 2 * DrsDn (N t)) t := by
  have hR := rs_deriv hN hn
  have hp := rs_pos hn
  have h0 : 1 + 0.1778 * Spec.rs (N t) ≠ 0 := by positivity
  refine (((hR.const_mul 0.1).const_add 1).div ((hR.const_mul 0.1778).const_add 1)
    h0).congr_deriv ?_
  field_simp
  ring

theorem betaErr_eq (r r' : ℝ) : betaErr r r'
    = 4.4939685078e-7 * ((0.1 - 0.1778) / (1 + 0.1778 * r) ^ 2 * r') := by
  unfold betaErr
  rw [show (0.066725 - 0.06672455060314922 : ℝ) = 4.4939685078e-7 by norm_num]
  ring

/-- The first potential is the derivative in the density up to the error of the constant
0.066725 in the derivative of `β` (the energy has 0.06672455060314922): the excess is
`ρ (1 - f(α))` times the derivative of `ε_c^1` in `β` times `4.4939685078e-7` times the
derivative of the rational factor of `β`.  Missing for the full claim: the excess is not
zero, see `scanc_v1_fails`. -/
theorem scanc_v1_partial {rho sg tau : ℝ} (hr : 0 < rho)
    (ha : Spec.alpha rho 0 (√sg) tau ≠ 1) :
    ∃ b q : ℝ,
      HasDerivAt (fun x => Spec.e1b x (Spec.rs rho) 0 (Spec.s rho (√sg))) b
        (Spec.beta (Spec.rs rho)) ∧
      HasDerivAt betaFactor q rho ∧
      HasDerivAt (fun y => y * Spec.ec y 0 (√sg) tau)
        ((scanc rho sg tau).v1 - rho * ((1 - Spec.sw 0.64 1.5 0.7 (Spec.alpha rho 0 (√sg) tau))
          * (b * (4.4939685078e-7 * q)))) rho := by
  refine ⟨_, _, e1b_deriv (rs_pos hr) (by norm_num) (by norm_num) _,
    betaFactor_deriv (hasDerivAt_id' rho) hr, ?_⟩
  rw [← betaErr_eq]
  exact calcC_v1 hr ha

/-- At every point with a gradient and with `α` neither 0 nor 1 the first potential is not
the derivative of the energy. -/
theorem scanc_v1_fails {rho sg tau : ℝ} (hr : 0 < rho) (hs : 0 < sg)
    (h0 : Spec.alpha rho 0 (√sg) tau ≠ 0) (ha : Spec.alpha rho 0 (√sg) tau ≠ 1) :
    ¬ HasDerivAt (fun y => y * Spec.ec y 0 (√sg) tau) (scanc rho sg tau).v1 rho := by
  intro h
  have h' := (calcC_v1 hr ha).unique h
  have hz : rho * ((1 - Spec.sw 0.64 1.5 0.7 (Spec.alpha rho 0 (√sg) tau))
      * (wBeta (Spec.rs rho) (Spec.lsda (Spec.rs rho) 0) (Spec.phi 0) (Spec.s rho (√sg))
        * betaErr (Spec.rs rho) (DrsDn rho))) ≠ 0 := by
    refine mul_ne_zero hr.ne' (mul_ne_zero ?_ (mul_ne_zero ?_ ?_))
    · exact sub_ne_zero.2 (Ne.symm (sw_ne_one (by norm_num) (by norm_num) h0 ha))
    · exact (wBeta_pos (rs_pos hr) (lsda_neg (rs_pos hr) (by norm_num) (by norm_num))
        (phi_pos (by norm_num) (by norm_num)) (s_pos hr (Real.sqrt_pos.2 hs))).ne'
    · exact betaErr_ne (rs_pos hr) (drs_neg hr).ne
  change (scanc rho sg tau).v1 - _ = _ at h'
  exact hz (by linarith)

/-- The energy with spin. -/
theorem scancSpin_energy {p : Pt} (hr : p.rho = p.up + p.dn) (hu : 0 < p.up) (hd : 0 < p.dn)
    (ha : Spec.alpha p.rho ((p.up - p.dn) / p.rho) (√p.sg) p.tau ≠ 1) :
    (scancSpin p).e = Spec.ec p.rho ((p.up - p.dn) / p.rho) (√p.sg) p.tau :=
  calcS_e (by rw [hr]; linarith) ha

/-- With spin: twice the derivative in the square of the gradient of the total density. -/
theorem scancSpin_v2 {p : Pt} (hr : p.rho = p.up + p.dn) (hu : 0 < p.up) (hd : 0 < p.dn)
    (hs : 0 < p.sg) (ha : Spec.alpha p.rho ((p.up - p.dn) / p.rho) (√p.sg) p.tau ≠ 1) :
    HasDerivAt (fun y => p.rho * Spec.ec p.rho ((p.up - p.dn) / p.rho) (√y) p.tau)
      ((scancSpin p).v2 / 2) p.sg := by
  unfold scancSpin
  rw [hr] at ha ⊢
  exact sigma_form
    (F := fun x => (p.up + p.dn) * Spec.ec (p.up + p.dn) ((p.up - p.dn) / (p.up + p.dn)) x p.tau)
    hs (calcS_v2 hu hd (Real.sqrt_pos.2 hs) ha)

/-- With spin: the derivative in the kinetic energy density. -/
theorem scancSpin_v3 {p : Pt} (hr : p.rho = p.up + p.dn) (hu : 0 < p.up) (hd : 0 < p.dn)
    (hs : 0 < p.sg) (ha : Spec.alpha p.rho ((p.up - p.dn) / p.rho) (√p.sg) p.tau ≠ 1) :
    HasDerivAt (fun y => p.rho * Spec.ec p.rho ((p.up - p.dn) / p.rho) (√p.sg) y)
      (scancSpin p).v3 p.tau := by
  unfold scancSpin
  rw [hr] at ha ⊢
  exact calcS_v3 hu hd (Real.sqrt_pos.2 hs) ha

/-- With spin: the derivative in the density of spin up, up to the error described at
`scanc_v1_partial`. -/
theorem scancSpin_v1u_partial {p : Pt} (hr : p.rho = p.up + p.dn) (hu : 0 < p.up)
    (hd : 0 < p.dn) (ha : Spec.alpha p.rho ((p.up - p.dn) / p.rho) (√p.sg) p.tau ≠ 1) :
    ∃ b q : ℝ,
      HasDerivAt (fun x => Spec.e1b x (Spec.rs p.rho) ((p.up - p.dn) / p.rho)
        (Spec.s p.rho (√p.sg))) b (Spec.beta (Spec.rs p.rho)) ∧
      HasDerivAt betaFactor q p.rho ∧
      HasDerivAt (fun y => (y + p.dn)
          * Spec.ec (y + p.dn) ((y - p.dn) / (y + p.dn)) (√p.sg) p.tau)
        ((scancSpin p).v1u - p.rho * ((1 - Spec.sw 0.64 1.5 0.7
          (Spec.alpha p.rho ((p.up - p.dn) / p.rho) (√p.sg) p.tau))
            * (b * (4.4939685078e-7 * q)))) p.up := by
  obtain ⟨h1, h2⟩ := zeta_lt hu hd
  have hn : 0 < p.up + p.dn := by linarith
  unfold scancSpin
  rw [hr] at ha ⊢
  refine ⟨_, _, e1b_deriv (rs_pos hn) h1 h2 _, betaFactor_deriv (hasDerivAt_id' _) hn, ?_⟩
  rw [← betaErr_eq]
  exact calcS_v1u hu hd ha

/-- With spin: the derivative in the density of spin down, up to the error described at
`scanc_v1_partial`. -/
theorem scancSpin_v1d_partial {p : Pt} (hr : p.rho = p.up + p.dn) (hu : 0 < p.up)
    (hd : 0 < p.dn) (ha : Spec.alpha p.rho ((p.up - p.dn) / p.rho) (√p.sg) p.tau ≠ 1) :
    ∃ b q : ℝ,
      HasDerivAt (fun x => Spec.e1b x (Spec.rs p.rho) ((p.up - p.dn) / p.rho)
        (Spec.s p.rho (√p.sg))) b (Spec.beta (Spec.rs p.rho)) ∧
      HasDerivAt betaFactor q p.rho ∧
      HasDerivAt (fun y => (p.up + y)
          * Spec.ec (p.up + y) ((p.up - y) / (p.up + y)) (√p.sg) p.tau)
        ((scancSpin p).v1d - p.rho * ((1 - Spec.sw 0.64 1.5 0.7
          (Spec.alpha p.rho ((p.up - p.dn) / p.rho) (√p.sg) p.tau))
            * (b * (4.4939685078e-7 * q)))) p.dn := by
  obtain ⟨h1, h2⟩ := zeta_lt hu hd
  have hn : 0 < p.up + p.dn := by linarith
  unfold scancSpin
  rw [hr] at ha ⊢
  refine ⟨_, _, e1b_deriv (rs_pos hn) h1 h2 _, betaFactor_deriv (hasDerivAt_id' _) hn, ?_⟩
  rw [← betaErr_eq]
  exact calcS_v1d hu hd ha

theorem v1err_ne {n z g tau : ℝ} (hn : 0 < n) (h1 : -1 < z) (h2 : z < 1) (hg : 0 < g)
    (h0 : Spec.alpha n z g tau ≠ 0) (ha : Spec.alpha n z g tau ≠ 1) : v1err n z g tau ≠ 0 := by
  refine mul_ne_zero hn.ne' (mul_ne_zero ?_ (mul_ne_zero ?_ ?_))
  · exact sub_ne_zero.2 (Ne.symm (sw_ne_one (by norm_num) (by norm_num) h0 ha))
  · exact (wBeta_pos (rs_pos hn) (lsda_neg (rs_pos hn) h1.le h2.le) (phi_pos h1 h2)
      (s_pos hn hg)).ne'
  · exact betaErr_ne (rs_pos hn) (drs_neg hn).ne

/-- With spin too neither of the two first potentials is the derivative of the energy,
unless `α` is 0 or 1. -/
theorem scancSpin_v1_fails {p : Pt} (hr : p.rho = p.up + p.dn) (hu : 0 < p.up) (hd : 0 < p.dn)
    (hs : 0 < p.sg) (h0 : Spec.alpha p.rho ((p.up - p.dn) / p.rho) (√p.sg) p.tau ≠ 0)
    (ha : Spec.alpha p.rho ((p.up - p.dn) / p.rho) (√p.sg) p.tau ≠ 1) :
    ¬ HasDerivAt (fun y => (y + p.dn)
        * Spec.ec (y + p.dn) ((y - p.dn) / (y + p.dn)) (√p.sg) p.tau) (scancSpin p).v1u p.up ∧
    ¬ HasDerivAt (fun y => (p.up + y)
        * Spec.ec (p.up + y) ((p.up - y) / (p.up + y)) (√p.sg) p.tau) (scancSpin p).v1d p.dn := by
  obtain ⟨h1, h2⟩ := zeta_lt hu hd
  have hn : 0 < p.up + p.dn := by linarith
  unfold scancSpin
  rw [hr] at ha h0 ⊢
  have hz := v1err_ne hn h1 h2 (Real.sqrt_pos.2 hs) h0 ha
  constructor
  · intro h
    have := (calcS_v1u hu hd ha).unique h
    exact hz (by linarith)
  · intro h
    have := (calcS_v1d hu hd ha).unique h
    exact hz (by linarith)

/-- With equal spin densities the correlation energy with spin is the one without. -/
theorem scancSpin_unpolarised {p : Pt} (hr : p.rho = p.up + p.dn) (he : p.up = p.dn)
    (hu : 0 < p.up) (ha : Spec.alpha p.rho 0 (√p.sg) p.tau ≠ 1) :
    (scancSpin p).e = (scanc p.rho p.sg p.tau).e := by
  have hd : 0 < p.dn := he ▸ hu
  have hz : (p.up - p.dn) / p.rho = 0 := by rw [he]; simp
  rw [scancSpin_energy hr hu hd (by rwa [hz]), scanc_energy (by rw [hr]; linarith) ha, hz]

/-- With equal spin densities the exchange energy with spin is the one without. -/
theorem scanxSpin_unpolarised {rho sg tau : ℝ} (hr : 0 < rho) (hs : 0 ≤ sg)
    (ha : Spec.alpha rho 0 (√sg) tau ≠ 1) :
    (scanxSpin ⟨rho, rho / 2, rho / 2, sg, sg / 4, sg / 4, tau, tau / 2, tau / 2⟩).e
      = (scanx rho sg tau).e := by
  have hq : 2 * √(sg / 4) = √sg := by
    rw [show sg / 4 = sg / 2 ^ 2 by norm_num, Real.sqrt_div hs, Real.sqrt_sq (by norm_num)]
    ring
  have h2 : ∀ x : ℝ, 2 * (x / 2) = x := fun x => by ring
  have h := scanxSpin_energy (p := ⟨rho, rho / 2, rho / 2, sg, sg / 4, sg / 4, tau, tau / 2, tau / 2⟩)
    (by ring) (by positivity) (by positivity) (by simp only [hq, h2]; exact ha)
    (by simp only [hq, h2]; exact ha)
  simp only [hq, h2] at h
  rw [scanx_energy hr ha]
  refine mul_left_cancel₀ hr.ne' (h.trans ?_)
  ring

/-! ## Bounds (C71) -/

/-- For a kinetic energy density not below that of von Weizsäcker the exchange energy is
negative and lies above 1.174 times that of the uniform gas of the same density. -/
theorem scanx_bounds {rho sg tau : ℝ} (hr : 0 < rho) (hs : 0 < sg) (ht : sg / (8 * rho) ≤ tau)
    (ha : Spec.alpha rho 0 (√sg) tau ≠ 1) :
    1.174 * (-(3 / 4) * (3 / π) ^ (1 / 3 : ℝ) * rho ^ (1 / 3 : ℝ)) < (scanx rho sg tau).e ∧
      (scanx rho sg tau).e < 0 := by
  rw [scanx_energy hr ha]
  refine ex_range hr (Real.sqrt_pos.2 hs) (alpha_nonneg hr (by norm_num) (by norm_num) ?_) ha
  unfold Spec.tauW
  rwa [Real.sq_sqrt hs.le]

/-- The same with spin: the energy per electron lies between zero and 1.174 times the
exchange energy of the uniform gas with the same spin densities. -/
theorem scanxSpin_bounds {p : Pt} (hr : p.rho = p.up + p.dn) (hu : 0 < p.up) (hd : 0 < p.dn)
    (hsu : 0 < p.sgu) (hsd : 0 < p.sgd) (htu : p.sgu / (8 * p.up) ≤ p.tauu)
    (htd : p.sgd / (8 * p.dn) ≤ p.taud)
    (hau : Spec.alpha (2 * p.up) 0 (2 * √p.sgu) (2 * p.tauu) ≠ 1)
    (had : Spec.alpha (2 * p.dn) 0 (2 * √p.sgd) (2 * p.taud) ≠ 1) :
    1.174 * (p.up * Spec.exUnif (2 * p.up) + p.dn * Spec.exUnif (2 * p.dn))
        < p.rho * (scanxSpin p).e ∧ p.rho * (scanxSpin p).e < 0 := by
  rw [scanxSpin_energy hr hu hd hau had]
  have key : ∀ {n sg t : ℝ}, 0 < n → 0 < sg → sg / (8 * n) ≤ t →
      Spec.alpha (2 * n) 0 (2 * √sg) (2 * t) ≠ 1 →
      1.174 * Spec.exUnif (2 * n) < Spec.ex (2 * n) (2 * √sg) (2 * t) ∧
        Spec.ex (2 * n) (2 * √sg) (2 * t) < 0 := by
    intro n sg t hn hs ht ha
    refine ex_range (by linarith) (two_sqrt_pos hs)
      (alpha_nonneg (by linarith) (by norm_num) (by norm_num) ?_) ha
    unfold Spec.tauW
    rw [mul_pow, Real.sq_sqrt hs.le]
    have : 2 ^ 2 * sg / (8 * (2 * n)) = 2 * (sg / (8 * n)) := by field_simp
    linarith
  obtain ⟨a, b⟩ := key hu hsu htu hau
  obtain ⟨c, d⟩ := key hd hsd htd had
  constructor <;> nlinarith

/-- The correlation energy is not positive for `0 ≤ α < 1`. -/
theorem scanc_nonpos {rho sg tau : ℝ} (hr : 0 < rho)
    (h0 : 0 ≤ Spec.alpha rho 0 (√sg) tau) (ha : Spec.alpha rho 0 (√sg) tau < 1) :
    (scanc rho sg tau).e ≤ 0 := by
  rw [scanc_energy hr ha.ne]
  exact ec_nonpos hr (by norm_num) (by norm_num) h0 ha

/-- The same with spin. -/
theorem scancSpin_nonpos {p : Pt} (hr : p.rho = p.up + p.dn) (hu : 0 < p.up) (hd : 0 < p.dn)
    (h0 : 0 ≤ Spec.alpha p.rho ((p.up - p.dn) / p.rho) (√p.sg) p.tau)
    (ha : Spec.alpha p.rho ((p.up - p.dn) / p.rho) (√p.sg) p.tau < 1) :
    (scancSpin p).e ≤ 0 := by
  rw [scancSpin_energy hr hu hd ha.ne]
  obtain ⟨h1, h2⟩ := zeta_lt hu hd
  rw [← hr] at h1 h2
  exact ec_nonpos (by rw [hr]; linarith) h1 h2 h0 ha

/-! ## Examples -/

theorem tauU_one_gt : 2 < Spec.tauU 1 := by
  unfold Spec.tauU
  have h : (27 : ℝ) < 3 * π ^ 2 := by nlinarith [pi_gt_three]
  have h9 : (9 : ℝ) < (3 * π ^ 2) ^ (2 / 3 : ℝ) := by
    have := Real.rpow_lt_rpow (by norm_num) h (show (0 : ℝ) < 2 / 3 by norm_num)
    have e : (27 : ℝ) ^ (2 / 3 : ℝ) = 9 := by
      rw [show (27 : ℝ) = 3 ^ (3 : ℝ) by norm_num, ← rpow_mul (by norm_num)]
      norm_num
    rwa [e] at this
  rw [one_rpow]
  linarith

/-- A point with density 1, `σ = 4` and `τ = 1` has `0 < α < 1`. -/
theorem ex_alpha : 0 < Spec.alpha 1 0 (√4) 1 ∧ Spec.alpha 1 0 (√4) 1 < 1 := by
  have h := tauU_one_gt
  unfold Spec.alpha
  rw [ds_zero]
  unfold Spec.tauW
  rw [Real.sq_sqrt (by norm_num)]
  constructor
  · exact div_pos (by norm_num) (by linarith)
  · rw [div_lt_one (by linarith)]; norm_num; linarith

/-- The point of the examples with spin: both spins half of the point above. -/
noncomputable def exPt : Pt := ⟨1, 1 / 2, 1 / 2, 4, 1, 1, 1, 1 / 2, 1 / 2⟩

theorem exPt_up : Spec.alpha (2 * exPt.up) 0 (2 * √exPt.sgu) (2 * exPt.tauu) ≠ 1 := by
  have h := ex_alpha.2.ne
  have h4 : √(4 : ℝ) = 2 := by rw [show (4 : ℝ) = 2 ^ 2 by norm_num, Real.sqrt_sq (by norm_num)]
  simp only [exPt, Real.sqrt_one, mul_one]
  rw [h4] at h
  norm_num
  exact h

/-- A polarised point: spin densities 3/4 and 1/4. -/
noncomputable def exPol : Pt := ⟨1, 3 / 4, 1 / 4, 4, 1, 1, 1, 1 / 2, 1 / 2⟩

theorem exPol_c :
    0 < Spec.alpha exPol.rho ((exPol.up - exPol.dn) / exPol.rho) (√exPol.sg) exPol.tau ∧
    Spec.alpha exPol.rho ((exPol.up - exPol.dn) / exPol.rho) (√exPol.sg) exPol.tau < 1 := by
  have h := tauU_one_gt
  have hd : 3 / 4 ≤ Spec.ds (1 / 2) := by
    have h1 := Real.rpow_le_rpow_of_exponent_le (x := 3 / 2) (by norm_num)
      (show (1 : ℝ) ≤ 5 / 3 by norm_num)
    have h2 : (0 : ℝ) < (1 / 2) ^ (5 / 3 : ℝ) := by positivity
    rw [rpow_one] at h1
    unfold Spec.ds
    norm_num at *
    linarith
  have e : (exPol.up - exPol.dn) / exPol.rho = 1 / 2 := by norm_num [exPol]
  rw [e]
  simp only [exPol]
  unfold Spec.alpha Spec.tauW
  rw [Real.sq_sqrt (by norm_num)]
  have hp : 1 < Spec.tauU 1 * Spec.ds (1 / 2) := by nlinarith
  constructor
  · exact div_pos (by norm_num) (by linarith)
  · rw [div_lt_one (by linarith)]; norm_num at *; linarith

example : (scanx 1 4 1).e = Spec.ex 1 (√4) 1 := scanx_energy (by norm_num) ex_alpha.2.ne
example : HasDerivAt (fun y => y * Spec.ex y (√4) 1) (scanx 1 4 1).v1 1 :=
  scanx_v1 (by norm_num) (by norm_num) ex_alpha.2.ne
example : HasDerivAt (fun y => 1 * Spec.ex 1 (√y) 1) ((scanx 1 4 1).v2 / 2) 4 :=
  scanx_v2 (by norm_num) (by norm_num) ex_alpha.2.ne
example : HasDerivAt (fun y => 1 * Spec.ex 1 (√4) y) (scanx 1 4 1).v3 1 :=
  scanx_v3 (by norm_num) (by norm_num) ex_alpha.2.ne
example := scanxSpin_energy (p := exPt) (by norm_num [exPt]) (by norm_num [exPt])
  (by norm_num [exPt]) exPt_up exPt_up
example := scanxSpin_v1u (p := exPt) (by norm_num [exPt]) (by norm_num [exPt]) exPt_up
example := scanxSpin_v1d (p := exPt) (by norm_num [exPt]) (by norm_num [exPt]) exPt_up
example := scanxSpin_v2u (p := exPt) (by norm_num [exPt]) (by norm_num [exPt]) exPt_up
example := scanxSpin_v2d (p := exPt) (by norm_num [exPt]) (by norm_num [exPt]) exPt_up
example := scanxSpin_v3u (p := exPt) (by norm_num [exPt]) (by norm_num [exPt]) exPt_up
example := scanxSpin_v3d (p := exPt) (by norm_num [exPt]) (by norm_num [exPt]) exPt_up
example : (scanc 1 4 1).e = Spec.ec 1 0 (√4) 1 := scanc_energy (by norm_num) ex_alpha.2.ne
example := scanc_v1_partial (rho := 1) (sg := 4) (tau := 1) (by norm_num) ex_alpha.2.ne
example : ¬ HasDerivAt (fun y => y * Spec.ec y 0 (√4) 1) (scanc 1 4 1).v1 1 :=
  scanc_v1_fails (by norm_num) (by norm_num) ex_alpha.1.ne' ex_alpha.2.ne
example := scanc_v2 (rho := 1) (sg := 4) (tau := 1) (by norm_num) (by norm_num) ex_alpha.2.ne
example := scanc_v3 (rho := 1) (sg := 4) (tau := 1) (by norm_num) (by norm_num) ex_alpha.2.ne
example := scancSpin_energy (p := exPol) (by norm_num [exPol]) (by norm_num [exPol])
  (by norm_num [exPol]) exPol_c.2.ne
example := scancSpin_v1u_partial (p := exPol) (by norm_num [exPol]) (by norm_num [exPol])
  (by norm_num [exPol]) exPol_c.2.ne
example := scancSpin_v1d_partial (p := exPol) (by norm_num [exPol]) (by norm_num [exPol])
  (by norm_num [exPol]) exPol_c.2.ne
example := scancSpin_v1_fails (p := exPol) (by norm_num [exPol]) (by norm_num [exPol])
  (by norm_num [exPol]) (by norm_num [exPol]) exPol_c.1.ne' exPol_c.2.ne
example := scancSpin_v2 (p := exPol) (by norm_num [exPol]) (by norm_num [exPol])
  (by norm_num [exPol]) (by norm_num [exPol]) exPol_c.2.ne
example := scancSpin_v3 (p := exPol) (by norm_num [exPol]) (by norm_num [exPol])
  (by norm_num [exPol]) (by norm_num [exPol]) exPol_c.2.ne
example := scancSpin_unpolarised (p := exPt) (by norm_num [exPt]) rfl
  (by norm_num [exPt]) ex_alpha.2.ne
example := scanxSpin_unpolarised (rho := 1) (sg := 4) (tau := 1) (by norm_num) (by norm_num)
  ex_alpha.2.ne
example : (scanx 1 4 1).e < 0 :=
  (scanx_bounds (by norm_num) (by norm_num) (by norm_num) ex_alpha.2.ne).2
example := scanxSpin_bounds (p := exPt) (by norm_num [exPt]) (by norm_num [exPt])
  (by norm_num [exPt]) (by norm_num [exPt]) (by norm_num [exPt]) (by norm_num [exPt])
  (by norm_num [exPt]) exPt_up exPt_up
example : (scanc 1 4 1).e ≤ 0 := scanc_nonpos (by norm_num) ex_alpha.1.le ex_alpha.2
example := scancSpin_nonpos (p := exPol) (by norm_num [exPol]) (by norm_num [exPol])
  (by norm_num [exPol]) exPol_c.1.le exPol_c.2

end Sparc.Mgga

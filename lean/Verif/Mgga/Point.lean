import Verif.Mgga.Corr

/-! # The correlation energy of one point -/

namespace Sparc.Mgga

open Real
open Xc (l0 l1 l2 l3 l4 l05 d_mul)

/-! ## The limits in the notation of the paper -/

theorem phi_eq (z : ℝ) : phiC z = Spec.phi z := by unfold phiC Spec.phi; norm_num

theorem dx_eq (z : ℝ) : dxC z = Spec.dxz z := by unfold dxC Spec.dxz; norm_num

theorem e0_eq (r z s : ℝ) : Spec.e0 r z s = ec0 r z s := by
  unfold Spec.e0 ec0 H0 Gc gInf0s w0 ecLDA0 b1c b2c b3c
  rw [dx_eq, chi_eq, q4, l1, l4, show 4 * Spec.chiInf * s * s = 4 * Spec.chiInf * s ^ 2 by ring]

theorem ct_eq : ct = (3 * π ^ 2 / 16) ^ (1 / 3 : ℝ) := by
  unfold ct
  rw [show (3.0 * π * π / 16.0 : ℝ) = 3 * π ^ 2 / 16 by norm_num; ring, l1, l3]

theorem e1_eq (r z s : ℝ) : Spec.e1 r z s = ec1 r (Spec.lsda r z) (Spec.phi z) s := by
  have e3 : rC * Spec.phi z * Spec.phi z * Spec.phi z = 0.031091 * Spec.phi z ^ 3 := by
    unfold rC; ring
  have eb : betaC r = Spec.beta r := by unfold betaC Spec.beta betaConst; rw [l1]
  unfold Spec.e1 Spec.e1b ec1 H1 gC AC w1
  rw [e3, eb, q4, l1, l4]
  unfold tC rC
  rw [ct_eq]
  have et : ∀ A t : ℝ, 4 * A * t * t = 4 * A * t ^ 2 := fun A t => by ring
  simp only [et]

theorem fc_eq {a : ℝ} (ha : a ≠ 1) : fc a = Spec.sw 0.64 1.5 0.7 a := by
  unfold fc Spec.sw c1c c2c dc
  rcases lt_or_gt_of_ne ha with h | h
  · have : ¬ (a > 1.0) := by rw [l1]; exact not_lt.2 h.le
    rw [if_neg this, if_pos h, l1]
  · have : a > 1.0 := by rw [l1]; exact h
    rw [if_pos this, if_neg (not_lt.2 h.le), if_neg ha, l1]

theorem DfcDalpha_eq (a : ℝ) : DfcDalpha a = dsw 0.64 1.5 0.7 a := by
  simp only [DfcDalpha, dsw, fc, c1c, c2c, dc, l1]
  split_ifs <;> ring

/-! ## Derivatives in the polarisation -/

theorem p_add_deriv (p : ℝ) {z : ℝ} (h : -1 < z) :
    HasDerivAt (fun y : ℝ => (1 + y) ^ p) (p * (1 + z) ^ (p - 1)) z := by
  have := (hasDerivAt_rpow_const (p := p) (Or.inl (show (1 + z) ≠ 0 by linarith))).comp z
    ((hasDerivAt_id' z).const_add 1)
  exact this.congr_deriv (by ring)

theorem p_sub_deriv (p : ℝ) {z : ℝ} (h : z < 1) :
    HasDerivAt (fun y : ℝ => (1 - y) ^ p) (-(p * (1 - z) ^ (p - 1))) z := by
  have := (hasDerivAt_rpow_const (p := p) (Or.inl (show (1 - z) ≠ 0 by linarith))).comp z
    ((hasDerivAt_id' z).const_sub 1)
  exact this.congr_deriv (by ring)

theorem phi_deriv {Z : ℝ → ℝ} {z' t : ℝ} (hZ : HasDerivAt Z z' t) (h1 : -1 < Z t)
    (h2 : Z t < 1) : HasDerivAt (fun y => Spec.phi (Z y)) (DphiDn (Z t) z') t := by
  have h := (((p_add_deriv (2 / 3) h1).add (p_sub_deriv (2 / 3) h2)).div_const 2).comp t hZ
  refine h.congr_deriv ?_
  unfold DphiDn
  rw [show (2 / 3 : ℝ) - 1 = -1 / 3 by norm_num, show (-1.0 / 3.0 : ℝ) = -1 / 3 by norm_num]
  simp only [l1, l2, l3, l05]
  ring

theorem Gc_deriv {Z : ℝ → ℝ} {z' t : ℝ} (hZ : HasDerivAt Z z' t) (h1 : -1 < Z t)
    (h2 : Z t < 1) : HasDerivAt (fun y => Gc (Z y)) (DGc (Z t) z') t := by
  have hd : HasDerivAt (fun y => Spec.dxz (Z y))
      ((4 / 3 * (1 + Z t) ^ (1 / 3 : ℝ) - 4 / 3 * (1 - Z t) ^ (1 / 3 : ℝ)) / 2 * z') t := by
    have h := (((p_add_deriv (4 / 3) h1).add (p_sub_deriv (4 / 3) h2)).div_const 2).comp t hZ
    refine h.congr_deriv ?_
    rw [show (4 / 3 : ℝ) - 1 = 1 / 3 by norm_num]
    ring
  have h12 : HasDerivAt (fun y => 1 - Z y ^ 12) (-(12 * Z t ^ 11 * z')) t := by
    refine ((hZ.pow 12).const_sub 1).congr_deriv ?_
    norm_num
  have h := d_mul (((hd.sub_const 1).const_mul 2.3631).const_sub 1) h12
  have e : (fun y => Gc (Z y))
      = fun y => (1 - 2.3631 * (Spec.dxz (Z y) - 1)) * (1 - Z y ^ 12) := by
    funext y; unfold Gc; rw [dx_eq, l1]
  rw [e]
  refine h.congr_deriv ?_
  unfold DGc
  rw [dx_eq]
  simp only [l1, l2, l3, l4, show (12.0 : ℝ) = 12 by norm_num, show (-12.0 : ℝ) = -12 by norm_num]
  ring

theorem phi_pos {z : ℝ} (h1 : -1 < z) (h2 : z < 1) : 0 < Spec.phi z := Xc.phi_pos h1 h2

/-! ## Along a curve -/

/-- The derivative of `ε_c^0`. -/
noncomputable def D0 (r z s r' z' s' : ℝ) : ℝ :=
  (DecLDA0Dn r r' + DH0Dn r s r' s') * Gc z + (ecLDA0 r + H0 r s) * DGc z z'

/-- The derivative of `ε_c^1`, from the derivative `b'` of `β`. -/
noncomputable def D1 (r z s r' l' z' s' b' : ℝ) : ℝ :=
  l' + DH1Dn r (Spec.lsda r z) (Spec.phi z) s r' l' (DphiDn z z') s' b'

theorem e0_deriv {R Z S : ℝ → ℝ} {r' z' s' t : ℝ} (hR : HasDerivAt R r' t)
    (hZ : HasDerivAt Z z' t) (hS : HasDerivAt S s' t) (hr : 0 < R t) (h1 : -1 < Z t)
    (h2 : Z t < 1) :
    HasDerivAt (fun y => Spec.e0 (R y) (Z y) (S y)) (D0 (R t) (Z t) (S t) r' z' s') t := by
  have h := d_mul ((ecLDA0_deriv hR hr).add (H0_deriv hR hS hr)) (Gc_deriv hZ h1 h2)
  have e : (fun y => Spec.e0 (R y) (Z y) (S y))
      = fun y => (ecLDA0 (R y) + H0 (R y) (S y)) * Gc (Z y) := by
    funext y; rw [e0_eq]; rfl
  rw [e]
  exact h

theorem e1_deriv {R Z S : ℝ → ℝ} {r' l' z' s' t : ℝ} (hR : HasDerivAt R r' t)
    (hL : HasDerivAt (fun y => Spec.lsda (R y) (Z y)) l' t)
    (hZ : HasDerivAt Z z' t) (hS : HasDerivAt S s' t) (hr : 0 < R t) (h1 : -1 < Z t)
    (h2 : Z t < 1) :
    HasDerivAt (fun y => Spec.e1 (R y) (Z y) (S y))
      (D1 (R t) (Z t) (S t) r' l' z' s' (Dbeta (R t) r')) t := by
  have h := hL.add (H1_deriv hR hL (phi_deriv hZ h1 h2) hS hr (lsda_neg hr h1.le h2.le)
    (phi_pos h1 h2))
  have e : (fun y => Spec.e1 (R y) (Z y) (S y))
      = fun y => Spec.lsda (R y) (Z y)
        + H1 (R y) (Spec.lsda (R y) (Z y)) (Spec.phi (Z y)) (S y) := by
    funext y; rw [e1_eq]; rfl
  rw [e]
  exact h

/-- The derivative of `ε_c`, with `b'` in the place of the derivative of `β`. -/
noncomputable def DE (r z s a r' l' z' s' a' b' : ℝ) : ℝ :=
  D1 r z s r' l' z' s' b'
    + Spec.sw 0.64 1.5 0.7 a * (D0 r z s r' z' s' - D1 r z s r' l' z' s' b')
    + dsw 0.64 1.5 0.7 a * a' * (Spec.e0 r z s - Spec.e1 r z s)

theorem ec_deriv {R Z S A : ℝ → ℝ} {r' l' z' s' a' t : ℝ} (hR : HasDerivAt R r' t)
    (hL : HasDerivAt (fun y => Spec.lsda (R y) (Z y)) l' t)
    (hZ : HasDerivAt Z z' t) (hS : HasDerivAt S s' t) (hA : HasDerivAt A a' t) (hr : 0 < R t)
    (h1 : -1 < Z t) (h2 : Z t < 1) (ha : A t ≠ 1) :
    HasDerivAt (fun y => Spec.e1 (R y) (Z y) (S y) + Spec.sw 0.64 1.5 0.7 (A y)
        * (Spec.e0 (R y) (Z y) (S y) - Spec.e1 (R y) (Z y) (S y)))
      (DE (R t) (Z t) (S t) (A t) r' l' z' s' a' (Dbeta (R t) r')) t := by
  have hf : HasDerivAt (fun y => Spec.sw 0.64 1.5 0.7 (A y)) (dsw 0.64 1.5 0.7 (A t) * a') t :=
    (sw_deriv _ _ _ ha).comp t hA
  have d0 := e0_deriv hR hZ hS hr h1 h2
  have d1 := e1_deriv hR hL hZ hS hr h1 h2
  refine (d1.add (d_mul hf (d0.sub d1))).congr_deriv ?_
  unfold DE
  simp only [Pi.sub_apply]
  ring

theorem DE_beta {r z s : ℝ} (a r' l' z' s' a' b b' : ℝ) (hr : 0 < r) (h1 : -1 < z) (h2 : z < 1) :
    DE r z s a r' l' z' s' a' b = DE r z s a r' l' z' s' a' b'
      + (1 - Spec.sw 0.64 1.5 0.7 a) * (wBeta r (Spec.lsda r z) (Spec.phi z) s * (b - b')) := by
  unfold DE D1
  rw [DH1Dn_beta (lsda_neg hr h1.le h2.le) (phi_pos h1 h2) s r' l' (DphiDn z z') s' b b']
  ring

/-! ## The Seitz radius -/

theorem rs_eq (n : ℝ) : rsC n = Spec.rs n := by
  unfold rsC Spec.rs
  rw [show (0.75 / (π * n) : ℝ) = 3 / (4 * π * n) by
    rw [show (0.75 : ℝ) = 3 / 4 by norm_num, div_div]; ring_nf, l1, l3]

theorem rs_pos {n : ℝ} (hn : 0 < n) : 0 < Spec.rs n := by unfold Spec.rs; positivity

theorem rs_form {n : ℝ} (hn : 0 < n) : Spec.rs n = (4 * π / 3 * n) ^ (-(1 / 3) : ℝ) := by
  unfold Spec.rs
  rw [rpow_neg (by positivity), ← inv_rpow (by positivity)]
  congr 1
  field_simp

theorem drs_eq {n : ℝ} (hn : 0 < n) : DrsDn n = -(1 / 3) * Spec.rs n / n := by
  unfold DrsDn
  rw [rs_form hn, show (-4.0 / 3.0 : ℝ) = -(1 / 3) - 1 by norm_num,
    show (4.0 * π / 3.0 * n : ℝ) = 4 * π / 3 * n by norm_num, rpow_sub_one (by positivity)]
  rw [show (9.0 : ℝ) = 9 by norm_num, show (-4.0 : ℝ) = -4 by norm_num]
  field_simp
  ring

theorem drs_neg {n : ℝ} (hn : 0 < n) : DrsDn n < 0 := by
  rw [drs_eq hn]
  have := rs_pos hn
  have : 0 < 1 / 3 * Spec.rs n / n := by positivity
  have e : -(1 / 3) * Spec.rs n / n = -(1 / 3 * Spec.rs n / n) := by ring
  rw [e]; linarith

theorem rs_deriv {N : ℝ → ℝ} {n' t : ℝ} (hN : HasDerivAt N n' t) (hn : 0 < N t) :
    HasDerivAt (fun y => Spec.rs (N y)) (DrsDn (N t) * n') t := by
  have h : HasDerivAt Spec.rs (DrsDn (N t)) (N t) := by
    have h1 : HasDerivAt (fun y => (4 * π / 3 * y) ^ (-(1 / 3) : ℝ))
        (-(1 / 3) * Spec.rs (N t) / N t) (N t) := by
      have hp : (4 * π / 3 * N t) ≠ 0 := by positivity
      refine (((hasDerivAt_id' (N t)).const_mul (4 * π / 3)).rpow_const
        (p := -(1 / 3)) (Or.inl hp)).congr_deriv ?_
      rw [rs_form hn, rpow_sub_one hp]
      field_simp
    rw [drs_eq hn]
    refine h1.congr_of_eventuallyEq ?_
    filter_upwards [Ioi_mem_nhds hn] with y hy
    exact rs_form hy
  exact h.comp t hN

/-! ## Without spin -/

theorem dL_eq {n : ℝ} (hn : 0 < n) :
    Dec_lsda1Dn n (Spec.rs n) = (lsd0 (Spec.rs n)).2 * DrsDn n := by
  rw [drs_eq hn]
  have hr := rs_pos hn
  generalize Spec.rs n = r at *
  have hq : 0 < Xc.qq1 0.0310907 7.5957 3.5876 1.6382 0.49294 r :=
    Xc.qq1_pos (by norm_num) (by norm_num) (by norm_num) (by norm_num) (by norm_num) hr
  unfold lsd0
  rw [lsd_eq, l1, Xc.lsd_snd _ _ _ _ _ _ _ hq]
  have ed : 2.0 * 0.0310907 * (7.5957 * √r + 3.5876 * r + 1.6382 * √r * r + 0.49294 * r ^ 2)
      = Xc.qq1 0.0310907 7.5957 3.5876 1.6382 0.49294 r := by
    unfold Xc.qq1; rw [l2]; ring
  unfold Dec_lsda1Dn
  simp only [ed]
  generalize Xc.qq1 0.0310907 7.5957 3.5876 1.6382 0.49294 r = q at *
  have hs := Real.sqrt_pos.2 hr
  rw [l1, l2, l3]
  generalize log (1 + 1 / q) = lg
  generalize √r = w at *
  rw [show q * q + q = q * (q + 1) by ring]
  have : q + 1 ≠ 0 := by positivity
  norm_num
  field_simp
  ring

theorem calcC_e {n g tau : ℝ} (hn : 0 < n) (ha : Spec.alpha n 0 g tau ≠ 1) :
    (calcScanc n (basicVars n g tau)).e = Spec.ec n 0 g tau := by
  simp only [calcScanc, vars_s, vars_a, rs_eq, phi_eq, lsd0_fst (rs_pos hn), ← lsda_zero,
    ← e0_eq, ← e1_eq, fc_eq ha, Spec.ec]

/-- The difference between the constant in `DbetaDn` and the one in `beta`, times the
derivative of the rational factor of `β`. -/
noncomputable def betaErr (r r' : ℝ) : ℝ :=
  (0.066725 - 0.06672455060314922) * (0.1 - 0.1778) / (1 + 0.1778 * r) ^ 2 * r'

theorem Dbeta_err {r : ℝ} (hr : 0 < r) (r' : ℝ) : DbetaDn r r' - Dbeta r r' = betaErr r r' := by
  unfold DbetaDn Dbeta betaErr betaConst
  rw [l1]
  have : 1 + 0.1778 * r ≠ 0 := by positivity
  field_simp
  ring

theorem betaErr_ne {r r' : ℝ} (hr : 0 < r) (h : r' ≠ 0) : betaErr r r' ≠ 0 := by
  unfold betaErr
  refine mul_ne_zero (div_ne_zero (by norm_num) ?_) h
  positivity

theorem DGc_zero : DGc 0 0 = 0 := by unfold DGc; norm_num
theorem Gc_zero : Gc 0 = 1 := by unfold Gc dxC; norm_num

theorem lsda_deriv_n {n : ℝ} (hn : 0 < n) :
    HasDerivAt (fun y => Spec.lsda (Spec.rs y) 0) (Dec_lsda1Dn n (Spec.rs n)) n := by
  have h := (lsd0_deriv (rs_pos hn)).comp n (rs_deriv (hasDerivAt_id' n) hn)
  have e : (fun y => Spec.lsda (Spec.rs y) 0) = E0 ∘ fun y => Spec.rs y := by
    funext y; exact lsda_zero _
  rw [e, dL_eq hn]
  exact h.congr_deriv (by ring)

theorem calcC_v1_form {n g tau : ℝ} (hn : 0 < n) (ha : Spec.alpha n 0 g tau ≠ 1) :
    (calcScanc n (basicVars n g tau)).v1 = Spec.ec n 0 g tau
      + n * DE (Spec.rs n) 0 (Spec.s n g) (Spec.alpha n 0 g tau) (DrsDn n)
        (Dec_lsda1Dn n (Spec.rs n)) 0 (basicVars n g tau).dsdn (basicVars n g tau).dadn
        (DbetaDn (Spec.rs n) (DrsDn n)) := by
  rw [← calcC_e hn ha]
  simp only [calcScanc, vars_s, vars_a, rs_eq, phi_eq, lsd0_fst (rs_pos hn), ← lsda_zero,
    ← e0_eq, ← e1_eq, fc_eq ha, DE, D0, D1, DfcDalpha_eq, DGc_zero, l0]
  norm_num

theorem calcC_v1 {n g tau : ℝ} (hn : 0 < n) (ha : Spec.alpha n 0 g tau ≠ 1) :
    HasDerivAt (fun y => y * Spec.ec y 0 g tau)
      ((calcScanc n (basicVars n g tau)).v1
        - n * ((1 - Spec.sw 0.64 1.5 0.7 (Spec.alpha n 0 g tau))
          * (wBeta (Spec.rs n) (Spec.lsda (Spec.rs n) 0) (Spec.phi 0) (Spec.s n g)
            * betaErr (Spec.rs n) (DrsDn n)))) n := by
  have hE := ec_deriv (rs_deriv (hasDerivAt_id' n) hn) (lsda_deriv_n hn)
    (hasDerivAt_const n (0 : ℝ)) (s_deriv_n g tau hn) (alpha_deriv_n g tau hn) (rs_pos hn)
    (by norm_num) (by norm_num) ha
  have := d_mul (hasDerivAt_id' n) hE
  refine this.congr_deriv ?_
  rw [calcC_v1_form hn ha, DE_beta _ _ _ _ _ _ (DbetaDn _ _) (Dbeta (Spec.rs n) (DrsDn n * 1))
    (rs_pos hn) (by norm_num) (by norm_num), mul_one, Dbeta_err (rs_pos hn)]
  unfold Spec.ec
  ring

theorem D0_zero (r s s' : ℝ) : D0 r 0 s 0 0 s' = DH0DDn r s s' * Gc 0 := by
  unfold D0; rw [DecLDA0_zero, DGc_zero, DH0DDn_eq]; ring

theorem DphiDn_zero (z : ℝ) : DphiDn z 0 = 0 := mul_zero _
theorem DGc_zero' (z : ℝ) : DGc z 0 = 0 := by unfold DGc; simp

theorem DE_s {r z s : ℝ} (a s' a' : ℝ) (hr : 0 < r) (h1 : -1 < z) (h2 : z < 1) (hs : 0 < s) :
    DE r z s a 0 0 0 s' a' 0
      = DH1DDn r (Spec.lsda r z) (Spec.phi z) s s' + Spec.sw 0.64 1.5 0.7 a
          * (DH0DDn r s s' * Gc z - DH1DDn r (Spec.lsda r z) (Spec.phi z) s s')
        + dsw 0.64 1.5 0.7 a * a' * (Spec.e0 r z s - Spec.e1 r z s) := by
  unfold DE D0 D1
  rw [DecLDA0_zero, DGc_zero', DphiDn_zero, ← DH0DDn_eq, ← DH1DDn_eq _ s' hr (phi_pos h1 h2) hs]
  ring

theorem DE_t {r z s : ℝ} (a a' : ℝ) (hr : 0 < r) (h1 : -1 < z) (h2 : z < 1) (hs : 0 < s) :
    DE r z s a 0 0 0 0 a' 0
      = dsw 0.64 1.5 0.7 a * a' * (Spec.e0 r z s - Spec.e1 r z s) := by
  rw [DE_s a 0 a' hr h1 h2 hs]
  have e0 : DH0DDn r s 0 = 0 := by unfold DH0DDn; simp
  have e1 : DH1DDn r (Spec.lsda r z) (Spec.phi z) s 0 = 0 := by
    unfold DH1DDn DgDDn DtDDn; simp
  rw [e0, e1]
  ring

theorem calcC_v2 {n g tau : ℝ} (hn : 0 < n) (hg : 0 < g) (ha : Spec.alpha n 0 g tau ≠ 1) :
    HasDerivAt (fun y => n * Spec.ec n 0 y tau) (calcScanc n (basicVars n g tau)).v2 g := by
  have hE := ec_deriv (hasDerivAt_const g (Spec.rs n))
    (hasDerivAt_const g (Spec.lsda (Spec.rs n) 0)) (hasDerivAt_const g (0 : ℝ))
    (s_deriv_g n tau g) (alpha_deriv_g n g tau) (rs_pos hn) (by norm_num) (by norm_num) ha
  refine (hE.const_mul n).congr_deriv ?_
  rw [Dbeta_zero, DE_s _ _ _ (rs_pos hn) (by norm_num) (by norm_num) (s_pos hn hg)]
  simp only [calcScanc, vars_s, vars_a, rs_eq, phi_eq, lsd0_fst (rs_pos hn), ← lsda_zero,
    ← e0_eq, ← e1_eq, fc_eq ha, DfcDalpha_eq]

theorem calcC_v3 {n g tau : ℝ} (hn : 0 < n) (hg : 0 < g) (ha : Spec.alpha n 0 g tau ≠ 1) :
    HasDerivAt (fun y => n * Spec.ec n 0 g y) (calcScanc n (basicVars n g tau)).v3 tau := by
  have hE := ec_deriv (hasDerivAt_const tau (Spec.rs n))
    (hasDerivAt_const tau (Spec.lsda (Spec.rs n) 0)) (hasDerivAt_const tau (0 : ℝ))
    (hasDerivAt_const tau (Spec.s n g)) (alpha_deriv_tau n g tau) (rs_pos hn) (by norm_num)
    (by norm_num) ha
  refine (hE.const_mul n).congr_deriv ?_
  rw [Dbeta_zero, DE_t _ _ (rs_pos hn) (by norm_num) (by norm_num) (s_pos hn hg)]
  simp only [calcScanc, vars_s, vars_a, rs_eq, phi_eq, lsd0_fst (rs_pos hn), ← lsda_zero,
    ← e0_eq, ← e1_eq, DfcDalpha_eq]

end Sparc.Mgga

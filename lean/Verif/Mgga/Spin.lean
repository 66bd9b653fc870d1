import Verif.Mgga.Point

/-! # The spin-polarised functionals -/

namespace Sparc.Mgga

open Real
open Xc (l0 l1 l2 l3 l4 l05 d_mul)

theorem ds_pos {z : ℝ} (h1 : -1 < z) (h2 : z < 1) : 0 < Spec.ds z := by
  have : 0 < 1 + z := by linarith
  have : 0 < 1 - z := by linarith
  unfold Spec.ds; positivity

theorem alpha_curve {N Z : ℝ → ℝ} {n' z' t : ℝ} (g tau : ℝ) (hN : HasDerivAt N n' t)
    (hZ : HasDerivAt Z z' t) (hn : 0 < N t) (h1 : -1 < Z t) (h2 : Z t < 1) :
    HasDerivAt (fun y => Spec.alpha (N y) (Z y) g tau)
      ((g ^ 2 / (8 * N t ^ 2) * n' * (Spec.tauU (N t) * Spec.ds (Z t))
        - (tau - Spec.tauW (N t) g) * (c23 / 2 * N t ^ (2 / 3 : ℝ) * n' * Spec.ds (Z t)
          + Spec.tauU (N t) * (5 / 3 * ((1 + Z t) ^ (2 / 3 : ℝ) - (1 - Z t) ^ (2 / 3 : ℝ)) * z' / 2)))
        / (Spec.tauU (N t) * Spec.ds (Z t)) ^ 2) t := by
  have hc := c23_pos
  have hp := rpow_pos_of_pos hn (5 / 3)
  have hd := ds_pos h1 h2
  have hw : HasDerivAt (fun y => tau - Spec.tauW (N y) g) (g ^ 2 / (8 * N t ^ 2) * n') t := by
    refine (((hasDerivAt_const t (g ^ 2)).div (hN.const_mul 8)
      (by positivity)).const_sub tau).congr_deriv ?_
    field_simp
    ring
  have hu : HasDerivAt (fun y => Spec.tauU (N y)) (c23 / 2 * N t ^ (2 / 3 : ℝ) * n') t := by
    refine ((hN.rpow_const (p := 5 / 3) (Or.inl hn.ne')).const_mul
      (3 / 10 * (3 * π ^ 2) ^ (2 / 3 : ℝ))).congr_deriv ?_
    rw [← c23_eq, show (5 / 3 : ℝ) - 1 = 2 / 3 by norm_num]
    ring
  have hds : HasDerivAt (fun y => Spec.ds (Z y))
      (5 / 3 * ((1 + Z t) ^ (2 / 3 : ℝ) - (1 - Z t) ^ (2 / 3 : ℝ)) * z' / 2) t := by
    refine (((p_add_deriv (5 / 3) h1).add (p_sub_deriv (5 / 3) h2)).div_const 2).comp t hZ
      |>.congr_deriv ?_
    rw [show (5 / 3 : ℝ) - 1 = 2 / 3 by norm_num]
    ring
  have hU : 0 < Spec.tauU (N t) := by unfold Spec.tauU; positivity
  exact hw.div (d_mul hu hds) (by positivity)

theorem varsC_s (n u d g tau : ℝ) : (basicVarsC n u d g tau).s = Spec.s n g := by
  simp only [basicVarsC, Spec.s, c13_eq, l2]; norm_num

theorem varsC_a (n u d g tau : ℝ) :
    (basicVarsC n u d g tau).a = Spec.alpha n ((u - d) / n) g tau := by
  simp only [basicVarsC, Spec.alpha, Spec.tauW, Spec.tauU, c23_eq, Spec.ds]
  rw [show g * g = g ^ 2 by ring]
  norm_num

theorem varsC_z (n u d g tau : ℝ) : (basicVarsC n u d g tau).zeta = (u - d) / n := rfl

theorem zeta_lt {u d : ℝ} (hu : 0 < u) (hd : 0 < d) :
    -1 < (u - d) / (u + d) ∧ (u - d) / (u + d) < 1 := by
  have : 0 < u + d := by linarith
  rw [lt_div_iff₀ this, div_lt_iff₀ this]
  constructor <;> linarith

theorem zeta_deriv_u {u d : ℝ} (hu : 0 < u) (hd : 0 < d) (g tau : ℝ) :
    HasDerivAt (fun y => (y - d) / (y + d)) (basicVarsC (u + d) u d g tau).dzup u := by
  have h0 : u + d ≠ 0 := by positivity
  refine (((hasDerivAt_id' u).sub_const d).div ((hasDerivAt_id' u).add_const d) h0).congr_deriv ?_
  simp only [basicVarsC, l2]
  field_simp
  ring

theorem zeta_deriv_d {u d : ℝ} (hu : 0 < u) (hd : 0 < d) (g tau : ℝ) :
    HasDerivAt (fun y => (u - y) / (u + y)) (basicVarsC (u + d) u d g tau).dzdn d := by
  have h0 : u + d ≠ 0 := by positivity
  refine (((hasDerivAt_id' d).const_sub u).div ((hasDerivAt_id' d).const_add u) h0).congr_deriv ?_
  simp only [basicVarsC, show (-2.0 : ℝ) = -2 by norm_num]
  field_simp
  ring

theorem dadn_form {n : ℝ} (hn : 0 < n) (z g tau z' : ℝ) :
    (-(-g * g / (8 * n * n)) * (3.0 / 10.0 * c23 * n ^ (5.0 / 3.0 : ℝ)
          * (((1.0 + z) ^ (5.0 / 3.0 : ℝ) + (1 - z) ^ (5.0 / 3.0 : ℝ)) / 2.0))
        - (tau - g * g / (8.0 * n)) * (c23 / 2.0 * n ^ (2.0 / 3.0 : ℝ)
            * (((1.0 + z) ^ (5.0 / 3.0 : ℝ) + (1 - z) ^ (5.0 / 3.0 : ℝ)) / 2.0)
          + 3.0 / 10.0 * c23 * n ^ (5.0 / 3.0 : ℝ)
            * (5.0 / 3.0 * ((1.0 + z) ^ (2.0 / 3.0 : ℝ) - (1.0 - z) ^ (2.0 / 3.0 : ℝ)) * z' / 2.0)))
      / ((3.0 / 10.0 * c23 * n ^ (5.0 / 3.0 : ℝ)
          * (((1.0 + z) ^ (5.0 / 3.0 : ℝ) + (1 - z) ^ (5.0 / 3.0 : ℝ)) / 2.0))
        * (3.0 / 10.0 * c23 * n ^ (5.0 / 3.0 : ℝ)
          * (((1.0 + z) ^ (5.0 / 3.0 : ℝ) + (1 - z) ^ (5.0 / 3.0 : ℝ)) / 2.0)))
    = (g ^ 2 / (8 * n ^ 2) * 1 * (Spec.tauU n * Spec.ds z)
        - (tau - Spec.tauW n g) * (c23 / 2 * n ^ (2 / 3 : ℝ) * 1 * Spec.ds z
          + Spec.tauU n * (5 / 3 * ((1 + z) ^ (2 / 3 : ℝ) - (1 - z) ^ (2 / 3 : ℝ)) * z' / 2)))
        / (Spec.tauU n * Spec.ds z) ^ 2 := by
  have e5 : (5.0 / 3.0 : ℝ) = 5 / 3 := by norm_num
  have e2 : (2.0 / 3.0 : ℝ) = 2 / 3 := by norm_num
  have e8 : (8.0 : ℝ) = 8 := by norm_num
  have e3 : (3.0 / 10.0 : ℝ) = 3 / 10 := by norm_num
  rw [e5, e2, e8, e3, l1, l2]
  have hU : Spec.tauU n = 3 / 10 * c23 * n ^ (5 / 3 : ℝ) := by unfold Spec.tauU; rw [c23_eq]
  have hD : Spec.ds z = ((1 + z) ^ (5 / 3 : ℝ) + (1 - z) ^ (5 / 3 : ℝ)) / 2 := rfl
  rw [← hU, ← hD]
  unfold Spec.tauW
  generalize Spec.tauU n = U
  generalize Spec.ds z = D
  congr 1
  · field_simp
  · ring

theorem alpha_deriv_u {u d : ℝ} (hu : 0 < u) (hd : 0 < d) (g tau : ℝ) :
    HasDerivAt (fun y => Spec.alpha (y + d) ((y - d) / (y + d)) g tau)
      (basicVarsC (u + d) u d g tau).dadnup u := by
  obtain ⟨h1, h2⟩ := zeta_lt hu hd
  have h := alpha_curve g tau ((hasDerivAt_id' u).add_const d) (zeta_deriv_u hu hd g tau)
    (show 0 < u + d by linarith) h1 h2
  refine h.congr_deriv ?_
  exact (dadn_form (by linarith) _ g tau _).symm

theorem alpha_deriv_d {u d : ℝ} (hu : 0 < u) (hd : 0 < d) (g tau : ℝ) :
    HasDerivAt (fun y => Spec.alpha (u + y) ((u - y) / (u + y)) g tau)
      (basicVarsC (u + d) u d g tau).dadndn d := by
  obtain ⟨h1, h2⟩ := zeta_lt hu hd
  have h := alpha_curve g tau ((hasDerivAt_id' d).const_add u) (zeta_deriv_d hu hd g tau)
    (show 0 < u + d by linarith) h1 h2
  refine h.congr_deriv ?_
  exact (dadn_form (by linarith) _ g tau _).symm

theorem alphaC_deriv_g (n u d g tau : ℝ) :
    HasDerivAt (fun y => Spec.alpha n ((u - d) / n) y tau) (basicVarsC n u d g tau).daddn g := by
  have h := ((((hasDerivAt_id' g).pow 2).div_const (8 * n)).const_sub tau).div_const
    (3 / 10 * (3 * π ^ 2) ^ (2 / 3 : ℝ) * n ^ (5 / 3 : ℝ) * Spec.ds ((u - d) / n))
  refine h.congr_deriv ?_
  simp only [basicVarsC, c23_eq, Spec.ds]
  norm_num
  congr 1
  ring

theorem alphaC_deriv_tau (n u d g tau : ℝ) :
    HasDerivAt (fun y => Spec.alpha n ((u - d) / n) g y) (basicVarsC n u d g tau).dadtau tau := by
  have h := ((hasDerivAt_id' tau).sub_const (g ^ 2 / (8 * n))).div_const
    (3 / 10 * (3 * π ^ 2) ^ (2 / 3 : ℝ) * n ^ (5 / 3 : ℝ) * Spec.ds ((u - d) / n))
  refine h.congr_deriv ?_
  simp only [basicVarsC, c23_eq, Spec.ds]
  norm_num

theorem s_dsdn_eq (n u d g tau : ℝ) :
    (basicVarsC n u d g tau).dsdn = (basicVars n g tau).dsdn := rfl

theorem s_dsddn_eq (n u d g tau : ℝ) :
    (basicVarsC n u d g tau).dsddn = (basicVars n g tau).dsddn := rfl

theorem calcS_e {n u d g tau : ℝ} (hn : 0 < n) (ha : Spec.alpha n ((u - d) / n) g tau ≠ 1) :
    (calcScancSpin n (basicVarsC n u d g tau)).e = Spec.ec n ((u - d) / n) g tau := by
  simp only [calcScancSpin, varsC_s, varsC_a, varsC_z, rs_eq, phi_eq, ec_lsda1_eq (rs_pos hn),
    ← e0_eq, ← e1_eq, fc_eq ha, Spec.ec]

theorem dLup_eq {u d : ℝ} (hu : 0 < u) (hd : 0 < d) (g tau X Y : ℝ) :
    (-Spec.rs (u + d) * 1.0 / 3.0 * X - (u - d) / (u + d) * Y + Y) / (u + d)
      = X * (DrsDn (u + d) * 1) + Y * (basicVarsC (u + d) u d g tau).dzup := by
  have h0 : 0 < u + d := by positivity
  rw [drs_eq h0]
  simp only [basicVarsC, l1, l2, l3]
  field_simp
  ring

theorem dLdn_eq {u d : ℝ} (hu : 0 < u) (hd : 0 < d) (g tau X Y : ℝ) :
    (-Spec.rs (u + d) * 1.0 / 3.0 * X - (u - d) / (u + d) * Y - Y) / (u + d)
      = X * (DrsDn (u + d) * 1) + Y * (basicVarsC (u + d) u d g tau).dzdn := by
  have h0 : 0 < u + d := by positivity
  rw [drs_eq h0]
  simp only [basicVarsC, l1, l3, show (-2.0 : ℝ) = -2 by norm_num]
  field_simp
  ring

/-- The error of the first potential that comes from the constant in `DbetaDn`. -/
noncomputable def v1err (n z g tau : ℝ) : ℝ :=
  n * ((1 - Spec.sw 0.64 1.5 0.7 (Spec.alpha n z g tau))
    * (wBeta (Spec.rs n) (Spec.lsda (Spec.rs n) z) (Spec.phi z) (Spec.s n g)
      * betaErr (Spec.rs n) (DrsDn n)))

theorem calcS_v1u {u d g tau : ℝ} (hu : 0 < u) (hd : 0 < d)
    (ha : Spec.alpha (u + d) ((u - d) / (u + d)) g tau ≠ 1) :
    HasDerivAt (fun y => (y + d) * Spec.ec (y + d) ((y - d) / (y + d)) g tau)
      ((calcScancSpin (u + d) (basicVarsC (u + d) u d g tau)).v1u
        - v1err (u + d) ((u - d) / (u + d)) g tau) u := by
  obtain ⟨h1, h2⟩ := zeta_lt hu hd
  have hn : 0 < u + d := by linarith
  have hN : HasDerivAt (fun y => y + d) 1 u := (hasDerivAt_id' u).add_const d
  have hR := rs_deriv hN hn
  have hZ := zeta_deriv_u hu hd g tau
  have hS : HasDerivAt (fun y => Spec.s (y + d) g) (basicVarsC (u + d) u d g tau).dsdn u := by
    refine ((s_deriv_n g tau hn).comp u hN).congr_deriv ?_
    rw [mul_one, s_dsdn_eq]
  have hE := ec_deriv hR (lsda_deriv hR hZ (rs_pos hn) h1 h2) hZ hS (alpha_deriv_u hu hd g tau)
    (rs_pos hn) h1 h2 ha
  refine (d_mul hN hE).congr_deriv ?_
  rw [← dLup_eq hu hd g tau]
  simp only [mul_one]
  have hb := DE_beta (s := Spec.s (u + d) g) (Spec.alpha (u + d) ((u - d) / (u + d)) g tau)
    (DrsDn (u + d)) ((-Spec.rs (u + d) * 1.0 / 3.0
      * Dec_lsda1_Drs (Spec.rs (u + d)) ((u - d) / (u + d)) - (u - d) / (u + d)
      * Dec_lsda1_Dzeta (Spec.rs (u + d)) ((u - d) / (u + d))
      + Dec_lsda1_Dzeta (Spec.rs (u + d)) ((u - d) / (u + d))) / (u + d))
    (basicVarsC (u + d) u d g tau).dzup (basicVarsC (u + d) u d g tau).dsdn
    (basicVarsC (u + d) u d g tau).dadnup (DbetaDn (Spec.rs (u + d)) (DrsDn (u + d)))
    (Dbeta (Spec.rs (u + d)) (DrsDn (u + d))) (rs_pos hn) h1 h2
  rw [Dbeta_err (rs_pos hn)] at hb
  have hv : (calcScancSpin (u + d) (basicVarsC (u + d) u d g tau)).v1u
      = Spec.ec (u + d) ((u - d) / (u + d)) g tau + (u + d) * DE (Spec.rs (u + d))
        ((u - d) / (u + d)) (Spec.s (u + d) g) (Spec.alpha (u + d) ((u - d) / (u + d)) g tau)
        (DrsDn (u + d)) ((-Spec.rs (u + d) * 1.0 / 3.0
          * Dec_lsda1_Drs (Spec.rs (u + d)) ((u - d) / (u + d)) - (u - d) / (u + d)
          * Dec_lsda1_Dzeta (Spec.rs (u + d)) ((u - d) / (u + d))
          + Dec_lsda1_Dzeta (Spec.rs (u + d)) ((u - d) / (u + d))) / (u + d))
        (basicVarsC (u + d) u d g tau).dzup (basicVarsC (u + d) u d g tau).dsdn
        (basicVarsC (u + d) u d g tau).dadnup
        (DbetaDn (Spec.rs (u + d)) (DrsDn (u + d))) := by
    rw [← calcS_e hn ha]
    simp only [calcScancSpin, varsC_s, varsC_a, varsC_z, rs_eq, phi_eq, ec_lsda1_eq (rs_pos hn),
      ← e0_eq, ← e1_eq, fc_eq ha, DE, D0, D1, DfcDalpha_eq]
  rw [hv, hb]
  unfold v1err Spec.ec
  ring

theorem calcS_v1d {u d g tau : ℝ} (hu : 0 < u) (hd : 0 < d)
    (ha : Spec.alpha (u + d) ((u - d) / (u + d)) g tau ≠ 1) :
    HasDerivAt (fun y => (u + y) * Spec.ec (u + y) ((u - y) / (u + y)) g tau)
      ((calcScancSpin (u + d) (basicVarsC (u + d) u d g tau)).v1d
        - v1err (u + d) ((u - d) / (u + d)) g tau) d := by
  obtain ⟨h1, h2⟩ := zeta_lt hu hd
  have hn : 0 < u + d := by linarith
  have hN : HasDerivAt (fun y => u + y) 1 d := (hasDerivAt_id' d).const_add u
  have hR := rs_deriv hN hn
  have hZ := zeta_deriv_d hu hd g tau
  have hS : HasDerivAt (fun y => Spec.s (u + y) g) (basicVarsC (u + d) u d g tau).dsdn d := by
    refine ((s_deriv_n g tau hn).comp d hN).congr_deriv ?_
    rw [mul_one, s_dsdn_eq]
  have hE := ec_deriv hR (lsda_deriv hR hZ (rs_pos hn) h1 h2) hZ hS (alpha_deriv_d hu hd g tau)
    (rs_pos hn) h1 h2 ha
  refine (d_mul hN hE).congr_deriv ?_
  rw [← dLdn_eq hu hd g tau]
  simp only [mul_one]
  have hb := DE_beta (s := Spec.s (u + d) g) (Spec.alpha (u + d) ((u - d) / (u + d)) g tau)
    (DrsDn (u + d)) ((-Spec.rs (u + d) * 1.0 / 3.0
      * Dec_lsda1_Drs (Spec.rs (u + d)) ((u - d) / (u + d)) - (u - d) / (u + d)
      * Dec_lsda1_Dzeta (Spec.rs (u + d)) ((u - d) / (u + d))
      - Dec_lsda1_Dzeta (Spec.rs (u + d)) ((u - d) / (u + d))) / (u + d))
    (basicVarsC (u + d) u d g tau).dzdn (basicVarsC (u + d) u d g tau).dsdn
    (basicVarsC (u + d) u d g tau).dadndn (DbetaDn (Spec.rs (u + d)) (DrsDn (u + d)))
    (Dbeta (Spec.rs (u + d)) (DrsDn (u + d))) (rs_pos hn) h1 h2
  rw [Dbeta_err (rs_pos hn)] at hb
  have hv : (calcScancSpin (u + d) (basicVarsC (u + d) u d g tau)).v1d
      = Spec.ec (u + d) ((u - d) / (u + d)) g tau + (u + d) * DE (Spec.rs (u + d))
        ((u - d) / (u + d)) (Spec.s (u + d) g) (Spec.alpha (u + d) ((u - d) / (u + d)) g tau)
        (DrsDn (u + d)) ((-Spec.rs (u + d) * 1.0 / 3.0
          * Dec_lsda1_Drs (Spec.rs (u + d)) ((u - d) / (u + d)) - (u - d) / (u + d)
          * Dec_lsda1_Dzeta (Spec.rs (u + d)) ((u - d) / (u + d))
          - Dec_lsda1_Dzeta (Spec.rs (u + d)) ((u - d) / (u + d))) / (u + d))
        (basicVarsC (u + d) u d g tau).dzdn (basicVarsC (u + d) u d g tau).dsdn
        (basicVarsC (u + d) u d g tau).dadndn
        (DbetaDn (Spec.rs (u + d)) (DrsDn (u + d))) := by
    rw [← calcS_e hn ha]
    simp only [calcScancSpin, varsC_s, varsC_a, varsC_z, rs_eq, phi_eq, ec_lsda1_eq (rs_pos hn),
      ← e0_eq, ← e1_eq, fc_eq ha, DE, D0, D1, DfcDalpha_eq]
  rw [hv, hb]
  unfold v1err Spec.ec
  ring

theorem calcS_v2 {u d g tau : ℝ} (hu : 0 < u) (hd : 0 < d) (hg : 0 < g)
    (ha : Spec.alpha (u + d) ((u - d) / (u + d)) g tau ≠ 1) :
    HasDerivAt (fun y => (u + d) * Spec.ec (u + d) ((u - d) / (u + d)) y tau)
      (calcScancSpin (u + d) (basicVarsC (u + d) u d g tau)).v2 g := by
  obtain ⟨h1, h2⟩ := zeta_lt hu hd
  have hn : 0 < u + d := by linarith
  have hE := ec_deriv (hasDerivAt_const g (Spec.rs (u + d)))
    (hasDerivAt_const g (Spec.lsda (Spec.rs (u + d)) ((u - d) / (u + d))))
    (hasDerivAt_const g ((u - d) / (u + d)))
    (s_deriv_g (u + d) tau g) (alphaC_deriv_g (u + d) u d g tau) (rs_pos hn) h1 h2 ha
  refine (hE.const_mul (u + d)).congr_deriv ?_
  rw [Dbeta_zero, DE_s _ _ _ (rs_pos hn) h1 h2 (s_pos hn hg)]
  simp only [calcScancSpin, varsC_s, varsC_a, varsC_z, rs_eq, phi_eq, ec_lsda1_eq (rs_pos hn),
    ← e0_eq, ← e1_eq, fc_eq ha, DfcDalpha_eq, s_dsddn_eq]

theorem calcS_v3 {u d g tau : ℝ} (hu : 0 < u) (hd : 0 < d) (hg : 0 < g)
    (ha : Spec.alpha (u + d) ((u - d) / (u + d)) g tau ≠ 1) :
    HasDerivAt (fun y => (u + d) * Spec.ec (u + d) ((u - d) / (u + d)) g y)
      (calcScancSpin (u + d) (basicVarsC (u + d) u d g tau)).v3 tau := by
  obtain ⟨h1, h2⟩ := zeta_lt hu hd
  have hn : 0 < u + d := by linarith
  have hE := ec_deriv (hasDerivAt_const tau (Spec.rs (u + d)))
    (hasDerivAt_const tau (Spec.lsda (Spec.rs (u + d)) ((u - d) / (u + d))))
    (hasDerivAt_const tau ((u - d) / (u + d)))
    (hasDerivAt_const tau (Spec.s (u + d) g)) (alphaC_deriv_tau (u + d) u d g tau) (rs_pos hn)
    h1 h2 ha
  refine (hE.const_mul (u + d)).congr_deriv ?_
  rw [Dbeta_zero, DE_t _ _ (rs_pos hn) h1 h2 (s_pos hn hg)]
  simp only [calcScancSpin, varsC_s, varsC_a, varsC_z, rs_eq, phi_eq, ec_lsda1_eq (rs_pos hn),
    ← e0_eq, ← e1_eq, DfcDalpha_eq]

end Sparc.Mgga

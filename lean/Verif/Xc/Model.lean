import Verif.Tac
import Mathlib.Analysis.SpecialFunctions.Pow.Real
import Mathlib.Analysis.SpecialFunctions.Trigonometric.Basic

/-!
# Exchange-correlation functionals: `exchangeCorrelation.c`

Each routine loops over the grid points and treats every point on its own, so
the model gives the body of the loop: the numbers read at one point and the
numbers written for it.  Where the C arrays hold several columns per point
(total, up, down for the density and for the squared gradient) the columns are
named fields; `spn_i = 0` is `u` and `spn_i = 1` is `d`.

Simplifications (all definitions of this file):
* `double` arithmetic is real arithmetic; `pow`, `cbrt`, `sqrt`, `log`, `exp`
  are the real functions (`cbrt x` is `x^(1/3)`: the densities that reach these
  routines were raised to `xc_rhotol > 0` by `add_rho_core`, lines 1268-1269).
-/

namespace Sparc.Xc

open Real

/-- What an unpolarised routine writes at a point: energy per electron,
`d(rho e)/d rho`, and the gradient term. -/
structure Out where
  e : ℝ
  v : ℝ
  v2 : ℝ

/-- What a spin-polarised exchange routine writes at a point. -/
structure OutX where
  e : ℝ
  vu : ℝ
  vd : ℝ
  v2u : ℝ
  v2d : ℝ

/-- What a spin-polarised correlation routine writes at a point. -/
structure OutC where
  e : ℝ
  vu : ℝ
  vd : ℝ
  v2 : ℝ

/-- `slater`, exchangeCorrelation.c 459-469. -/
noncomputable def slater (rho : ℝ) : Out :=
  let C2 := (0.738558766382022 : ℝ)
  let C3 := (0.9847450218426965 : ℝ)
  let rho_cbrt := rho ^ (1 / 3 : ℝ)
  { e := -C2 * rho_cbrt, v := -C3 * rho_cbrt, v2 := 0 }

/-- `pw`, exchangeCorrelation.c 475-499. -/
noncomputable def pw (rho : ℝ) : Out :=
  let p := (1.0 : ℝ)
  let A := (0.031091 : ℝ)
  let alpha1 := (0.21370 : ℝ)
  let beta1 := (7.5957 : ℝ)
  let beta2 := (3.5876 : ℝ)
  let beta3 := (1.6382 : ℝ)
  let beta4 := (0.49294 : ℝ)
  let C31 := (0.6203504908993999 : ℝ)
  let rho_cbrt := rho ^ (1 / 3 : ℝ)
  let rs := C31 / rho_cbrt
  let rs_sqrt := √rs
  let rs_pow_1p5 := rs * rs_sqrt
  let rs_pow_p := rs
  let rs_pow_pplus1 := rs_pow_p * rs
  let G1 := log (1.0 + 1.0 / (2.0 * A * (beta1 * rs_sqrt + beta2 * rs + beta3 * rs_pow_1p5
    + beta4 * rs_pow_pplus1)))
  let G2 := 2.0 * A * (beta1 * rs_sqrt + beta2 * rs + beta3 * rs_pow_1p5 + beta4 * rs_pow_pplus1)
  let ec := -2.0 * A * (1.0 + alpha1 * rs) * G1
  { e := ec
    v := ec - (rs / 3.0) * (-2.0 * A * alpha1 * G1 + (2.0 * A * (1.0 + alpha1 * rs)
      * (A * (beta1 / rs_sqrt + 2.0 * beta2 + 3.0 * beta3 * rs_sqrt
        + 2.0 * (p + 1.0) * beta4 * rs_pow_p))) / (G2 * (G2 + 1.0)))
    v2 := 0 }

open Classical in
/-- `pz`, exchangeCorrelation.c 505-530. -/
noncomputable def pz (rho : ℝ) : Out :=
  let A := (0.0311 : ℝ)
  let B := (-0.048 : ℝ)
  let C := (0.002 : ℝ)
  let D := (-0.0116 : ℝ)
  let gamma1 := (-0.1423 : ℝ)
  let beta1 := (1.0529 : ℝ)
  let beta2 := (0.3334 : ℝ)
  let C31 := (0.6203504908993999 : ℝ)
  let rho_cbrt := rho ^ (1 / 3 : ℝ)
  let rs := C31 / rho_cbrt
  if rs < 1.0 then
    { e := A * log rs + B + C * rs * log rs + D * rs
      v := log rs * (A + (2.0 / 3.0) * C * rs) + (B - (1.0 / 3.0) * A)
        + (1.0 / 3.0) * (2.0 * D - C) * rs
      v2 := 0 }
  else
    let sqrtrs := √rs
    { e := gamma1 / (1.0 + beta1 * √rs + beta2 * rs)
      v := (gamma1 + (7.0 / 6.0) * gamma1 * beta1 * sqrtrs
        + (4.0 / 3.0) * gamma1 * beta2 * rs) / (1 + beta1 * sqrtrs + beta2 * rs) ^ 2
      v2 := 0 }

/-- `mu_[iflag-1]`, exchangeCorrelation.c 542 and 889; the `assert` of line 541
bounds the flag, so values outside 1..4 are not reached. -/
noncomputable def muOf (iflag : ℕ) : ℝ := if iflag = 2 then 10.0 / 81.0 else 0.2195149727645171

/-- `kappa_[iflag-1]`, exchangeCorrelation.c 543 and 890. -/
noncomputable def kappaOf (iflag : ℕ) : ℝ := if iflag = 4 then 1.245 else 0.804

/-- `divss`, exchangeCorrelation.c 568-574 and 917-923. -/
noncomputable def divss (iflag : ℕ) (ss : ℝ) : ℝ :=
  if iflag = 3 then exp (-(muOf iflag / kappaOf iflag) * ss)
  else 1.0 / (1.0 + (muOf iflag / kappaOf iflag) * ss)

/-- `dfxdss`, exchangeCorrelation.c 568-574 and 917-923. -/
noncomputable def dfxdss (iflag : ℕ) (ss : ℝ) : ℝ :=
  if iflag = 3 then muOf iflag * divss iflag ss
  else muOf iflag * (divss iflag ss * divss iflag ss)

/-- `pbex`, exchangeCorrelation.c 540-586. -/
noncomputable def pbex (iflag : ℕ) (rho sigma : ℝ) : Out :=
  let kappa := kappaOf iflag
  let threefourth_divpi := (3.0 / 4.0) / π
  let third := (1.0 / 3.0 : ℝ)
  let sixpi2_1_3 := (6.0 * π * π) ^ third
  let sixpi2m1_3 := 1.0 / sixpi2_1_3
  let rho_updn := rho / 2.0
  let rho_updnm1_3 := rho_updn ^ (-third)
  let rhomot := rho_updnm1_3
  let ex_lsd := -threefourth_divpi * sixpi2_1_3 * (rhomot * rhomot * rho_updn)
  let rho_inv := rhomot * rhomot * rhomot
  let coeffss := (1.0 / 4.0) * sixpi2m1_3 * sixpi2m1_3 * (rho_inv * rho_inv * rhomot * rhomot)
  let ss := (sigma / 4.0) * coeffss
  let fx := 1.0 + kappa * (1.0 - divss iflag ss)
  let dssdn := (-8.0 / 3.0) * (ss * rho_inv)
  let dfxdn := dfxdss iflag ss * dssdn
  let dssdg := 2.0 * coeffss
  let dfxdg := dfxdss iflag ss * dssdg
  { e := ex_lsd * fx
    v := ex_lsd * ((4.0 / 3.0) * fx + rho_updn * dfxdn)
    v2 := 0.5 * ex_lsd * rho_updn * dfxdg }

open Classical in
/-- The floor put on the squared gradient, exchangeCorrelation.c 601 and 957. -/
noncomputable def floorSigma (sigma : ℝ) : ℝ := if sigma < 1e-14 then 1e-14 else sigma

/-- `rPW86x`, exchangeCorrelation.c 591-616. -/
noncomputable def rPW86x (rho sigma0 : ℝ) : Out :=
  let a := (1.851 : ℝ)
  let b := (17.33 : ℝ)
  let c := (0.163 : ℝ)
  let s_prefactor := (6.18733545256027 : ℝ)
  let Ax := (-0.738558766382022 : ℝ)
  let four_thirds := (4.0 / 3.0 : ℝ)
  let sigma := floorSigma sigma0
  let grad_rho := √sigma
  let s := grad_rho / (s_prefactor * rho ^ four_thirds)
  let s_2 := s * s
  let s_3 := s_2 * s
  let s_4 := s_3 * s
  let s_5 := s_3 * s_2
  let s_6 := s_5 * s
  let fs := (1.0 + a * s_2 + b * s_4 + c * s_6) ^ (1.0 / 15.0 : ℝ)
  let df_ds := (1.0 / (15.0 * fs ^ (14.0 : ℝ))) * (2.0 * a * s + 4.0 * b * s_3 + 6.0 * c * s_5)
  { e := Ax * rho ^ (1.0 / 3.0 : ℝ) * fs
    v := Ax * four_thirds * (rho ^ (1.0 / 3.0 : ℝ) * fs - grad_rho / (s_prefactor * rho) * df_ds)
    v2 := Ax * df_ds / (s_prefactor * grad_rho) }

/-- Formulas A6-A8 of the Perdew-Wang correlation, exchangeCorrelation.c 664-670
(`pbec`), 822-828, 830-836, 838-844 (`pw_spin`), 1028-1034, 1036-1042, 1044-1050
(`pbec_spin`): the same seven lines with three sets of parameters.  Returns the
energy and its derivative by `rs`.  `sqr_rs` and `rsm1_2` are the variables of
those names. -/
noncomputable def lsd (aa a1 b1 b2 b3 b4 rs sqr_rs rsm1_2 : ℝ) : ℝ × ℝ :=
  let q0 := -2.0 * aa * (1.0 + a1 * rs)
  let q1 := 2.0 * aa * (b1 * sqr_rs + b2 * rs + b3 * rs * sqr_rs + b4 * rs * rs)
  let q1p := aa * (b1 * rsm1_2 + 2.0 * b2 + 3.0 * b3 * sqr_rs + 4.0 * b4 * rs)
  let den := 1.0 / (q1 * q1 + q1)
  let lg := -log (q1 * q1 * den)
  (q0 * lg, -2.0 * aa * a1 * lg - q0 * q1p * den)

/-- `beta_[iflag-1]`, exchangeCorrelation.c 628 and 987. -/
noncomputable def betaOf (iflag : ℕ) : ℝ := if iflag = 2 then 0.046 else 0.066725

/-- `gamma`, exchangeCorrelation.c 632 and 991. -/
noncomputable def gammaC : ℝ := (1.0 - log 2.0) / (π * π)

/-- `coeff_tt`, exchangeCorrelation.c 642 and 1002. -/
noncomputable def coeffTT : ℝ := 1.0 / (16.0 / π * (3.0 * π * π) ^ (1.0 / 3.0 : ℝ))

/-- `pbec`, exchangeCorrelation.c 626-754.  `phi_zeta_inv`, `phi3_zeta` are the
constants 1 of lines 634-635. -/
noncomputable def pbec (iflag : ℕ) (rho sigma : ℝ) : Out :=
  let beta := betaOf iflag
  let gamma := gammaC
  let gamma_inv := 1.0 / gamma
  let phi_zeta_inv := (1.0 : ℝ)
  let phi3_zeta := (1.0 : ℝ)
  let gamphi3inv := gamma_inv
  let third := (1.0 / 3.0 : ℝ)
  let twom1_3 := (2.0 : ℝ) ^ (-third)
  let rsfac := (0.6203504908994000 : ℝ)
  let sq_rsfac := √rsfac
  let sq_rsfac_inv := 1.0 / sq_rsfac
  let rho_updn := rho / 2.0
  let rho_updnm1_3 := rho_updn ^ (-third)
  let rhom1_3 := twom1_3 * rho_updnm1_3
  let rhotot_inv := rhom1_3 * rhom1_3 * rhom1_3
  let rhotmo6 := √rhom1_3
  let rhoto6 := rho * rhom1_3 * rhom1_3 * rhotmo6
  let rs := rsfac * rhom1_3
  let sqr_rs := sq_rsfac * rhotmo6
  let rsm1_2 := sq_rsfac_inv * rhoto6
  let ec0 := lsd 0.031091 0.21370 7.5957 3.5876 1.6382 0.49294 rs sqr_rs rsm1_2
  let ecrs := ec0.1
  let decrs_drs := ec0.2
  let bb := ecrs * gamphi3inv
  let dbb_drs := decrs_drs * gamphi3inv
  let exp_pbe := exp (-bb)
  let cc := 1.0 / (exp_pbe - 1.0)
  let dcc_dbb := cc * cc * exp_pbe
  let dcc_drs := dcc_dbb * dbb_drs
  let coeff_aa := beta * gamma_inv * phi_zeta_inv * phi_zeta_inv
  let aa := coeff_aa * cc
  let daa_drs := coeff_aa * dcc_drs
  let grrho2 := sigma
  let dtt_dg := 2.0 * rhotot_inv * rhotot_inv * rhom1_3 * coeffTT
  let tt := 0.5 * grrho2 * dtt_dg
  let xx := aa * tt
  let dxx_drs := daa_drs * tt
  let dxx_dtt := aa
  let pade_den := 1.0 / (1.0 + xx * (1.0 + xx))
  let pade := (1.0 + xx) * pade_den
  let dpade_dxx := -xx * (2.0 + xx) * pade_den ^ 2
  let dpade_drs := dpade_dxx * dxx_drs
  let dpade_dtt := dpade_dxx * dxx_dtt
  let coeff_qq := tt * phi_zeta_inv * phi_zeta_inv
  let qq := coeff_qq * pade
  let dqq_drs := coeff_qq * dpade_drs
  let dqq_dtt := pade * phi_zeta_inv * phi_zeta_inv + coeff_qq * dpade_dtt
  let arg_rr := 1.0 + beta * gamma_inv * qq
  let div_rr := 1.0 / arg_rr
  let rr := gamma * log arg_rr
  let drr_dqq := beta * div_rr
  let drr_drs := drr_dqq * dqq_drs
  let drr_dtt := drr_dqq * dqq_dtt
  let hh := phi3_zeta * rr
  let dhh_drs := phi3_zeta * drr_drs
  let dhh_dtt := phi3_zeta * drr_dtt
  let drhohh_drho := hh - third * rs * dhh_drs - (7.0 / 3.0) * tt * dhh_dtt
  { e := ecrs + hh
    v := ecrs - (rs / 3.0) * decrs_drs + drhohh_drho
    v2 := rho * dtt_dg * dhh_dtt }

/-- The columns a spin-polarised routine reads at one point: densities (total,
up, down) and squared gradients (total, up, down). -/
structure Pt where
  rho : ℝ
  up : ℝ
  dn : ℝ
  sg : ℝ
  sgu : ℝ
  sgd : ℝ

/-- `ex_lsd` of one spin channel, exchangeCorrelation.c 773-775 and 909-911. -/
noncomputable def exLsd (rho_updn : ℝ) : ℝ :=
  let rhomot := rho_updn ^ (-(1.0 / 3.0) : ℝ)
  let ex_lsd := -((3.0 / 4.0) / π) * (6.0 * π * π) ^ (1.0 / 3.0 : ℝ)
    * (rhomot * rhomot * rho_updn)
  ex_lsd

/-- `slater_spin`, exchangeCorrelation.c 759-781. -/
noncomputable def slaterSpin (p : Pt) : OutX :=
  let third := (1.0 / 3.0 : ℝ)
  let rhom1_3 := p.rho ^ (-third)
  let rhotot_inv := rhom1_3 ^ 3
  let extot := 0.0 + exLsd p.up * p.up + exLsd p.dn * p.dn
  { e := extot * rhotot_inv
    vu := (4.0 / 3.0) * exLsd p.up
    vd := (4.0 / 3.0) * exLsd p.dn
    v2u := 0
    v2d := 0 }

/-- One turn of the spin loop of `pbex_spin`, exchangeCorrelation.c 908-934:
the triple `(ex_gga, vx, v2x)`. -/
noncomputable def pbexChan (iflag : ℕ) (rho_updn sigma : ℝ) : ℝ × ℝ × ℝ :=
  let kappa := kappaOf iflag
  let threefourth_divpi := (3.0 / 4.0) / π
  let third := (1.0 / 3.0 : ℝ)
  let sixpi2_1_3 := (6.0 * π * π) ^ third
  let sixpi2m1_3 := 1.0 / sixpi2_1_3
  let rhomot := rho_updn ^ (-third)
  let ex_lsd := -threefourth_divpi * sixpi2_1_3 * (rhomot * rhomot * rho_updn)
  let rho_inv := rhomot * rhomot * rhomot
  let coeffss := (1.0 / 4.0) * sixpi2m1_3 * sixpi2m1_3 * (rho_inv * rho_inv * rhomot * rhomot)
  let ss := sigma * coeffss
  let fx := 1.0 + kappa * (1.0 - divss iflag ss)
  let ex_gga := ex_lsd * fx
  let dssdn := (-8.0 / 3.0) * (ss * rho_inv)
  let dfxdn := dfxdss iflag ss * dssdn
  let dssdg := 2.0 * coeffss
  let dfxdg := dfxdss iflag ss * dssdg
  (ex_gga, ex_lsd * ((4.0 / 3.0) * fx + rho_updn * dfxdn), ex_lsd * rho_updn * dfxdg)

/-- `pbex_spin`, exchangeCorrelation.c 887-938. -/
noncomputable def pbexSpin (iflag : ℕ) (p : Pt) : OutX :=
  let third := (1.0 / 3.0 : ℝ)
  let rhom1_3 := p.rho ^ (-third)
  let rhotot_inv := rhom1_3 ^ 3
  let cu := pbexChan iflag p.up p.sgu
  let cd := pbexChan iflag p.dn p.sgd
  let extot := 0.0 + cu.1 * p.up + cd.1 * p.dn
  { e := extot * rhotot_inv
    vu := cu.2.1
    vd := cd.2.1
    v2u := cu.2.2
    v2d := cd.2.2 }

/-- One turn of the loop of `rPW86x_spin`, exchangeCorrelation.c 957-970: the
triple `(exUpDn, vdWDFVx1, vdWDFVx2)`. -/
noncomputable def rPW86xChan (rho sigma0 : ℝ) : ℝ × ℝ × ℝ :=
  let a := (1.851 : ℝ)
  let b := (17.33 : ℝ)
  let c := (0.163 : ℝ)
  let s_prefactor := (6.18733545256027 : ℝ)
  let Ax := (-0.738558766382022 : ℝ)
  let four_thirds := (4.0 / 3.0 : ℝ)
  let two_pow13 := (2.0 : ℝ) ^ (1.0 / 3.0 : ℝ)
  let sigma := floorSigma sigma0
  let grad_rho := √sigma
  let s := grad_rho / (two_pow13 * s_prefactor * rho ^ four_thirds)
  let s_2 := s * s
  let s_3 := s_2 * s
  let s_4 := s_3 * s
  let s_5 := s_3 * s_2
  let s_6 := s_5 * s
  let fs := (1.0 + a * s_2 + b * s_4 + c * s_6) ^ (1.0 / 15.0 : ℝ)
  let df_ds := (1.0 / (15.0 * fs ^ (14.0 : ℝ))) * (2.0 * a * s + 4.0 * b * s_3 + 6.0 * c * s_5)
  (Ax * two_pow13 * rho ^ (1.0 / 3.0 + 1.0 : ℝ) * fs,
   Ax * four_thirds * (two_pow13 * rho ^ (1.0 / 3.0 : ℝ) * fs
     - grad_rho / (s_prefactor * rho) * df_ds),
   Ax * df_ds / (s_prefactor * grad_rho))

/-- `rPW86x_spin`, exchangeCorrelation.c 944-976, called (line 254) with the
squared gradients from the second column on. -/
noncomputable def rPW86xSpin (p : Pt) : OutX :=
  let cu := rPW86xChan p.up p.sgu
  let cd := rPW86xChan p.dn p.sgd
  { e := (cu.1 + cd.1) / p.rho
    vu := cu.2.1
    vd := cd.2.1
    v2u := cu.2.2
    v2d := cd.2.2 }

/-- What the spin interpolation hands on: `ecrs`, `decrs_drs`, `decrs_dzeta`. -/
structure Lsda where
  rs : ℝ
  zeta : ℝ
  ecrs : ℝ
  drs : ℝ
  dzeta : ℝ

/-- The local part common to `pw_spin` (exchangeCorrelation.c 789-859) and
`pbec_spin` (993-1065), which repeats it word for word. -/
noncomputable def lsda (p : Pt) : Lsda :=
  let third := (1.0 / 3.0 : ℝ)
  let alpha_zeta2 := (1.0 - 1.0e-6 : ℝ)
  let alpha_zeta := (1.0 - 1.0e-6 : ℝ)
  let rsfac := (0.6203504908994000 : ℝ)
  let sq_rsfac := √rsfac
  let sq_rsfac_inv := 1.0 / sq_rsfac
  let fsec_inv := (1.0 / 1.709921 : ℝ)
  let factf_zeta := 1.0 / ((2.0 : ℝ) ^ (4.0 / 3.0 : ℝ) - 2.0)
  let factfp_zeta := 4.0 / 3.0 * factf_zeta * alpha_zeta2
  let rhom1_3 := p.rho ^ (-third)
  let rhotot_inv := rhom1_3 ^ 3
  let zeta := (p.up - p.dn) * rhotot_inv
  let zetp := 1.0 + zeta * alpha_zeta
  let zetm := 1.0 - zeta * alpha_zeta
  let zetpm1_3 := zetp ^ (-third)
  let zetmm1_3 := zetm ^ (-third)
  let rhotmo6 := √rhom1_3
  let rhoto6 := p.rho * rhom1_3 * rhom1_3 * rhotmo6
  let rs := rsfac * rhom1_3
  let sqr_rs := sq_rsfac * rhotmo6
  let rsm1_2 := sq_rsfac_inv * rhoto6
  let ec0 := lsd 0.031091 0.21370 7.5957 3.5876 1.6382 0.49294 rs sqr_rs rsm1_2
  let mac := lsd 0.016887 0.11125 10.357 3.6231 0.88026 0.49671 rs sqr_rs rsm1_2
  let ec1 := lsd 0.015545 0.20548 14.1189 6.1977 3.3662 0.62517 rs sqr_rs rsm1_2
  let zetp_1_3 := (1.0 + zeta * alpha_zeta) * zetpm1_3 ^ 2
  let zetm_1_3 := (1.0 - zeta * alpha_zeta) * zetmm1_3 ^ 2
  let f_zeta := ((1.0 + zeta * alpha_zeta2) * zetp_1_3 + (1.0 - zeta * alpha_zeta2) * zetm_1_3
    - 2.0) * factf_zeta
  let fp_zeta := (zetp_1_3 - zetm_1_3) * factfp_zeta
  let zeta4 := zeta ^ 4
  let gcrs := ec1.1 - ec0.1 + mac.1 * fsec_inv
  let ecrs := ec0.1 + f_zeta * (zeta4 * gcrs - mac.1 * fsec_inv)
  let dgcrs_drs := ec1.2 - ec0.2 + mac.2 * fsec_inv
  let decrs_drs := ec0.2 + f_zeta * (zeta4 * dgcrs_drs - mac.2 * fsec_inv)
  let dfzeta4_dzeta := 4.0 * zeta ^ 3 * f_zeta + fp_zeta * zeta4
  let decrs_dzeta := dfzeta4_dzeta * gcrs - fp_zeta * mac.1 * fsec_inv
  { rs := rs, zeta := zeta, ecrs := ecrs, drs := decrs_drs, dzeta := decrs_dzeta }

/-- `pw_spin`, exchangeCorrelation.c 787-866. -/
noncomputable def pwSpin (p : Pt) : OutC :=
  let l := lsda p
  let third := (1.0 / 3.0 : ℝ)
  let vxcadd := l.ecrs - l.rs * third * l.drs - l.zeta * l.dzeta
  { e := l.ecrs, vu := vxcadd + l.dzeta, vd := vxcadd - l.dzeta, v2 := 0 }

/-- What the gradient part of `pbec_spin` hands on. -/
structure Gga where
  hh : ℝ
  drs : ℝ
  dzeta : ℝ
  dtt : ℝ

/-- The chain of definitions from `phi_zeta` to `hh` in `pbec_spin`,
exchangeCorrelation.c 1078-1141 (without the lines 1102-1105 that define `tt`,
which come in through the argument `tt`). -/
noncomputable def ggaChain (beta gamma phi_zeta phip_zeta ecrs decrs_drs decrs_dzeta tt : ℝ) :
    Gga :=
  let gamma_inv := 1.0 / gamma
  let phi_zeta_inv := 1.0 / phi_zeta
  let phi_logder := phip_zeta * phi_zeta_inv
  let phi3_zeta := phi_zeta * phi_zeta * phi_zeta
  let gamphi3inv := gamma_inv * phi_zeta_inv * phi_zeta_inv * phi_zeta_inv
  let bb := ecrs * gamphi3inv
  let dbb_drs := decrs_drs * gamphi3inv
  let dbb_dzeta := gamphi3inv * (decrs_dzeta - 3.0 * ecrs * phi_logder)
  let exp_pbe := exp (-bb)
  let cc := 1.0 / (exp_pbe - 1.0)
  let dcc_dbb := cc * cc * exp_pbe
  let dcc_drs := dcc_dbb * dbb_drs
  let dcc_dzeta := dcc_dbb * dbb_dzeta
  let coeff_aa := beta * gamma_inv * phi_zeta_inv * phi_zeta_inv
  let aa := coeff_aa * cc
  let daa_drs := coeff_aa * dcc_drs
  let daa_dzeta := -2.0 * aa * phi_logder + coeff_aa * dcc_dzeta
  let xx := aa * tt
  let dxx_drs := daa_drs * tt
  let dxx_dzeta := daa_dzeta * tt
  let dxx_dtt := aa
  let pade_den := 1.0 / (1.0 + xx * (1.0 + xx))
  let pade := (1.0 + xx) * pade_den
  let dpade_dxx := -xx * (2.0 + xx) * pade_den ^ 2
  let dpade_drs := dpade_dxx * dxx_drs
  let dpade_dtt := dpade_dxx * dxx_dtt
  let dpade_dzeta := dpade_dxx * dxx_dzeta
  let coeff_qq := tt * phi_zeta_inv * phi_zeta_inv
  let qq := coeff_qq * pade
  let dqq_drs := coeff_qq * dpade_drs
  let dqq_dtt := pade * phi_zeta_inv * phi_zeta_inv + coeff_qq * dpade_dtt
  let dqq_dzeta := coeff_qq * (dpade_dzeta - 2.0 * pade * phi_logder)
  let arg_rr := 1.0 + beta * gamma_inv * qq
  let div_rr := 1.0 / arg_rr
  let rr := gamma * log arg_rr
  let drr_dqq := beta * div_rr
  let drr_drs := drr_dqq * dqq_drs
  let drr_dtt := drr_dqq * dqq_dtt
  let drr_dzeta := drr_dqq * dqq_dzeta
  { hh := phi3_zeta * rr
    drs := phi3_zeta * drr_drs
    dzeta := phi3_zeta * (drr_dzeta + 3.0 * rr * phi_logder)
    dtt := phi3_zeta * drr_dtt }

/-- `pbec_spin`, exchangeCorrelation.c 985-1156. -/
noncomputable def pbecSpin (iflag : ℕ) (p : Pt) : OutC :=
  let l := lsda p
  let third := (1.0 / 3.0 : ℝ)
  let alpha_zeta := (1.0 - 1.0e-6 : ℝ)
  let rhom1_3 := p.rho ^ (-third)
  let rhotot_inv := rhom1_3 ^ 3
  let zetpm1_3 := (1.0 + l.zeta * alpha_zeta) ^ (-third)
  let zetmm1_3 := (1.0 - l.zeta * alpha_zeta) ^ (-third)
  let vxcadd := l.ecrs - l.rs * third * l.drs - l.zeta * l.dzeta
  let phi_zeta := (zetpm1_3 * (1.0 + l.zeta * alpha_zeta)
    + zetmm1_3 * (1.0 - l.zeta * alpha_zeta)) * 0.5
  let phip_zeta := (zetpm1_3 - zetmm1_3) * third * alpha_zeta
  let grrho2 := p.sg
  let dtt_dg := 2.0 * rhotot_inv * rhotot_inv * rhom1_3 * coeffTT
  let tt := 0.5 * grrho2 * dtt_dg
  let h := ggaChain (betaOf iflag) gammaC phi_zeta phip_zeta l.ecrs l.drs l.dzeta tt
  let drhohh_drho := h.hh - third * l.rs * h.drs - l.zeta * h.dzeta - (7.0 / 3.0) * tt * h.dtt
  { e := l.ecrs + h.hh
    vu := vxcadd + l.dzeta + (drhohh_drho + h.dzeta)
    vd := vxcadd - l.dzeta + (drhohh_drho - h.dzeta)
    v2 := p.rho * dtt_dg * h.dtt }

end Sparc.Xc

import Verif.Tac
import Mathlib.Analysis.SpecialFunctions.Pow.Real
import Mathlib.Analysis.SpecialFunctions.Trigonometric.Basic

/-!
# The SCAN meta-GGA of `xc/mgga/mGGAscan.c`

One grid point of the loops, in real arithmetic.  The C code divides by `s` and by
`1 - α`; at `s = 0` and at `α = 1` it produces NaN, and the model says nothing about
these points (the theorems assume `σ > 0` and `α ≠ 1`).  Each C local that depends on
the direction of differentiation (`…Dn`, `…DDn`, `…Dtau`, `…Dnup`, `…Dndn`) is kept as
a definition of its own wherever the code writes a different formula for it.
-/

namespace Sparc.Mgga

open Real

/-- The energy per electron and the three potentials of one point. -/
structure Out where
  e : ℝ
  v1 : ℝ
  v2 : ℝ
  v3 : ℝ

/-- `s_dsdn_dsddn[0..2][i]` and `alpha_dadn_daddn_dadtau[0..3][i]`. -/
structure Vars where
  s : ℝ
  dsdn : ℝ
  dsddn : ℝ
  a : ℝ
  dadn : ℝ
  daddn : ℝ
  dadtau : ℝ

/-- `threeMPi2_1o3`, `xc/mgga/mGGAscan.c` 63. -/
noncomputable def c13 : ℝ := (3.0 * π * π) ^ (1.0 / 3.0 : ℝ)

/-- `threeMPi2_2o3`, `xc/mgga/mGGAscan.c` 64. -/
noncomputable def c23 : ℝ := c13 * c13

/-- `basic_MGGA_variables`, `xc/mgga/mGGAscan.c` 66-78, one point. -/
noncomputable def basicVars (rho normDrho tau : ℝ) : Vars :=
  let tauw := normDrho * normDrho / (8 * rho)
  let tauUnif := 3.0 / 10.0 * c23 * rho ^ (5.0 / 3.0 : ℝ)
  let DtauwDn := -normDrho * normDrho / (8 * rho * rho)
  let DtauwDDn := normDrho / (4 * rho)
  let DtauUnifDn := c23 / 2.0 * rho ^ (2.0 / 3.0 : ℝ)
  { s := normDrho / (2.0 * c13 * rho ^ (4.0 / 3.0 : ℝ))
    dsdn := -2.0 * normDrho / (3.0 * c13 * rho ^ (7.0 / 3.0 : ℝ))
    dsddn := 1.0 / (2.0 * c13 * rho ^ (4.0 / 3.0 : ℝ))
    a := (tau - tauw) / tauUnif
    dadn := (-DtauwDn * tauUnif - (tau - tauw) * DtauUnifDn) / (tauUnif * tauUnif)
    daddn := (-DtauwDDn) / tauUnif
    dadtau := 1.0 / tauUnif }

/-! ## Exchange -/

/-- `xc/mgga/mGGAscan.c` 89. -/
noncomputable def k1 : ℝ := 0.065
/-- `xc/mgga/mGGAscan.c` 90. -/
noncomputable def mu_ak : ℝ := 10.0 / 81.0
/-- `xc/mgga/mGGAscan.c` 91. -/
noncomputable def b2 : ℝ := √(5913.0 / 405000.0)
/-- `xc/mgga/mGGAscan.c` 92. -/
noncomputable def b1 : ℝ := 511.0 / 13500.0 / (2.0 * b2)
/-- `xc/mgga/mGGAscan.c` 93. -/
noncomputable def b3 : ℝ := 0.5
/-- `xc/mgga/mGGAscan.c` 94. -/
noncomputable def b4 : ℝ := mu_ak * mu_ak / k1 - 1606.0 / 18225.0 - b1 * b1
/-- `xc/mgga/mGGAscan.c` 96. -/
noncomputable def hx0 : ℝ := 1.174
/-- `xc/mgga/mGGAscan.c` 98. -/
noncomputable def c1x : ℝ := 0.667
/-- `xc/mgga/mGGAscan.c` 99. -/
noncomputable def c2x : ℝ := 0.8
/-- `xc/mgga/mGGAscan.c` 100. -/
noncomputable def dx : ℝ := 1.24
/-- `xc/mgga/mGGAscan.c` 102. -/
noncomputable def a1 : ℝ := 4.9479

/-- `epsilon_xUnif`, `xc/mgga/mGGAscan.c` 105. -/
noncomputable def exUnif (rho : ℝ) : ℝ := -3.0 / (4.0 * π) * (3.0 * π * π * rho) ^ (1.0 / 3.0 : ℝ)

/-- `term1`, `xc/mgga/mGGAscan.c` 110. -/
noncomputable def term1 (s : ℝ) : ℝ :=
  1.0 + b4 * (s * s) / mu_ak * exp (-|b4| * (s * s) / mu_ak)

/-- `xFir`, `xc/mgga/mGGAscan.c` 111. -/
noncomputable def xFir (s : ℝ) : ℝ := mu_ak * (s * s) * term1 s

/-- `term3`, `xc/mgga/mGGAscan.c` 112. -/
noncomputable def term3 (s a : ℝ) : ℝ :=
  2.0 * (b1 * (s * s) + b2 * (1.0 - a) * exp (-b3 * (1.0 - a) * (1.0 - a)))

/-- `xSec`, `xc/mgga/mGGAscan.c` 113. -/
noncomputable def xSec (s a : ℝ) : ℝ := (term3 s a / 2.0) * (term3 s a / 2.0)

/-- `hx1`, `xc/mgga/mGGAscan.c` 114. -/
noncomputable def hx1 (s a : ℝ) : ℝ := 1.0 + k1 - k1 / (1.0 + (xFir s + xSec s a) / k1)

/-- `fx`, `xc/mgga/mGGAscan.c` 115-121. -/
noncomputable def fx (a : ℝ) : ℝ :=
  if a > 1.0 then -dx * exp (c2x / (1.0 - a)) else exp (-c1x * a / (1.0 - a))

/-- `gx`, `xc/mgga/mGGAscan.c` 122-123. -/
noncomputable def gx (s : ℝ) : ℝ := 1.0 - exp (-a1 / √s)

/-- `Fx`, `xc/mgga/mGGAscan.c` 124. -/
noncomputable def Fx (s a : ℝ) : ℝ := (hx1 s a + fx a * (hx0 - hx1 s a)) * gx s

/-- `term2`, `xc/mgga/mGGAscan.c` 127. -/
noncomputable def term2 (s : ℝ) : ℝ :=
  s * s * (b4 / mu_ak * exp (-|b4| * (s * s) / mu_ak)
    + b4 * (s * s) / mu_ak * exp (-|b4| * (s * s) / mu_ak) * (-|b4| / mu_ak))

/-- `term4`, `xc/mgga/mGGAscan.c` 128. -/
noncomputable def term4 (a : ℝ) : ℝ :=
  b2 * (-exp (-b3 * (1.0 - a) * (1.0 - a))
    + (1.0 - a) * exp (-b3 * (1.0 - a) * (1.0 - a)) * (2 * b3 * (1.0 - a)))

/-- `DxDs`, `xc/mgga/mGGAscan.c` 130. -/
noncomputable def DxDs (s a : ℝ) : ℝ := 2 * s * (mu_ak * (term1 s + term2 s) + b1 * term3 s a)

/-- `DxDalpha`, `xc/mgga/mGGAscan.c` 131. -/
noncomputable def DxDalpha (s a : ℝ) : ℝ := term3 s a * term4 a

/-- `DgxDn` and `DgxDDn`, `xc/mgga/mGGAscan.c` 137-138; `ds` is `dsdn` or `dsddn`. -/
noncomputable def Dgx (s ds : ℝ) : ℝ := -exp (-a1 / √s) * (a1 / 2.0 / √s / s) * ds

/-- `Dhx1Dx`, `xc/mgga/mGGAscan.c` 139. -/
noncomputable def Dhx1Dx (s a : ℝ) : ℝ :=
  1.0 / (1.0 + (xFir s + xSec s a) / k1) / (1.0 + (xFir s + xSec s a) / k1)

/-- `DfxDalpha`, `xc/mgga/mGGAscan.c` 144-150. -/
noncomputable def DfxDalpha (a : ℝ) : ℝ :=
  if a > 1.0 then -dx * exp (c2x / (1.0 - a)) * (c2x / (1.0 - a) / (1.0 - a))
  else exp (-c1x * a / (1.0 - a)) * (-c1x / (1.0 - a) / (1 - a))

/-- `Depsilon_xUnifDn`, `xc/mgga/mGGAscan.c` 159. -/
noncomputable def DexUnif (rho : ℝ) : ℝ :=
  -(3.0 * π * π) ^ (1.0 / 3.0 : ℝ) / (4.0 * π) * rho ^ (-2.0 / 3.0 : ℝ)

/-- `Calculate_scanx`, `xc/mgga/mGGAscan.c` 104-163, one point. -/
noncomputable def calcScanx (rho : ℝ) (v : Vars) : Out :=
  let s := v.s
  let alpha := v.a
  let DxDn := v.dsdn * DxDs s alpha + v.dadn * DxDalpha s alpha
  let DxDDn := v.dsddn * DxDs s alpha + v.daddn * DxDalpha s alpha
  let DxDtau := v.dadtau * DxDalpha s alpha
  let DgxDn := Dgx s v.dsdn
  let DgxDDn := Dgx s v.dsddn
  let Dhx1Dn := DxDn * Dhx1Dx s alpha
  let Dhx1DDn := DxDDn * Dhx1Dx s alpha
  let Dhx1Dtau := DxDtau * Dhx1Dx s alpha
  let DfxDn := DfxDalpha alpha * v.dadn
  let DfxDDn := DfxDalpha alpha * v.daddn
  let DfxDtau := DfxDalpha alpha * v.dadtau
  let DFxDn := (hx1 s alpha + fx alpha * (hx0 - hx1 s alpha)) * DgxDn
    + gx s * (1.0 - fx alpha) * Dhx1Dn + gx s * (hx0 - hx1 s alpha) * DfxDn
  let DFxDDn := (hx1 s alpha + fx alpha * (hx0 - hx1 s alpha)) * DgxDDn
    + gx s * (1.0 - fx alpha) * Dhx1DDn + gx s * (hx0 - hx1 s alpha) * DfxDDn
  let DFxDtau := gx s * (1.0 - fx alpha) * Dhx1Dtau + gx s * (hx0 - hx1 s alpha) * DfxDtau
  { e := exUnif rho * Fx s alpha
    v1 := (exUnif rho + rho * DexUnif rho) * Fx s alpha + rho * exUnif rho * DFxDn
    v2 := rho * exUnif rho * DFxDDn
    v3 := rho * exUnif rho * DFxDtau }

/-- `scanx`, `xc/mgga/mGGAscan.c` 24-59, one point: `normDrho` 38-40, the two calls
42-44, the division of `v2x` 46-48. -/
noncomputable def scanx (rho sigma tau : ℝ) : Out :=
  let normDrho := √sigma
  let o := calcScanx rho (basicVars rho normDrho tau)
  { o with v2 := o.v2 / normDrho }

/-! ## Exchange with spin -/

/-- The density, gradient square and kinetic energy density of one point with spin:
`rho[i]`, `rho[i + DMnd]`, `rho[i + 2*DMnd]`, and the same for `sigma` and `tau`. -/
structure Pt where
  rho : ℝ
  up : ℝ
  dn : ℝ
  sg : ℝ
  sgu : ℝ
  sgd : ℝ
  tau : ℝ
  tauu : ℝ
  taud : ℝ

/-- Exchange with spin: one energy, two values of each potential. -/
structure OutX where
  e : ℝ
  v1u : ℝ
  v1d : ℝ
  v2u : ℝ
  v2d : ℝ
  v3u : ℝ
  v3d : ℝ

/-- One channel of `basic_MGSGA_variables_exchange` and `Calculate_scanx_spin`,
`xc/mgga/mGGAscan.c` 376-391 and 420-477: the bodies are those of the functions without
spin, evaluated at `theRho = 2*rho[i]`, `theNormDrho = 2*normDrho[i]`,
`theTau = 2*tau[i]` (376-378, 420). -/
noncomputable def scanxChan (rho normDrho tau : ℝ) : Out :=
  calcScanx (rho * 2.0) (basicVars (2 * rho) (2 * normDrho) (2 * tau))

/-- `scanx_spin`, `xc/mgga/mGGAscan.c` 331-368, with the final loop of
`Calculate_scanx_spin` 481-483, one point. -/
noncomputable def scanxSpin (p : Pt) : OutX :=
  let u := scanxChan p.up (√p.sgu) p.tauu
  let d := scanxChan p.dn (√p.sgd) p.taud
  { e := (p.up * u.e + p.dn * d.e) / p.rho
    v1u := u.v1
    v1d := d.v1
    v2u := u.v2 / √p.sgu
    v2d := d.v2 / √p.sgd
    v3u := u.v3
    v3d := d.v3 }

/-! ## Correlation -/

/-- `xc/mgga/mGGAscan.c` 208 and 583. -/
noncomputable def b1c : ℝ := 0.0285764
/-- `xc/mgga/mGGAscan.c` 209 and 584. -/
noncomputable def b2c : ℝ := 0.0889
/-- `xc/mgga/mGGAscan.c` 210 and 585. -/
noncomputable def b3c : ℝ := 0.125541
/-- `xc/mgga/mGGAscan.c` 211 and 586. -/
noncomputable def betaConst : ℝ := 0.06672455060314922
/-- `xc/mgga/mGGAscan.c` 212 and 587. -/
noncomputable def betaRsInf : ℝ := betaConst * 0.1 / 0.1778
/-- `xc/mgga/mGGAscan.c` 213 and 588. -/
noncomputable def f0 : ℝ := -0.9
/-- `r`, `xc/mgga/mGGAscan.c` 223 and 613. -/
noncomputable def rC : ℝ := 0.031091
/-- `xc/mgga/mGGAscan.c` 225 and 616. -/
noncomputable def c1c : ℝ := 0.64
/-- `xc/mgga/mGGAscan.c` 226 and 617. -/
noncomputable def c2c : ℝ := 1.5
/-- `xc/mgga/mGGAscan.c` 227 and 618. -/
noncomputable def dc : ℝ := 0.7

/-- `phi`, `xc/mgga/mGGAscan.c` 231 and 627. -/
noncomputable def phiC (zeta : ℝ) : ℝ :=
  ((1.0 + zeta) ^ (2.0 / 3.0 : ℝ) + (1.0 - zeta) ^ (2.0 / 3.0 : ℝ)) / 2.0

/-- `dx`, `xc/mgga/mGGAscan.c` 232 and 628. -/
noncomputable def dxC (zeta : ℝ) : ℝ :=
  ((1.0 + zeta) ^ (4.0 / 3.0 : ℝ) + (1.0 - zeta) ^ (4.0 / 3.0 : ℝ)) / 2.0

/-- `rs`, `xc/mgga/mGGAscan.c` 235 and 631. -/
noncomputable def rsC (rho : ℝ) : ℝ := (0.75 / (π * rho)) ^ (1.0 / 3.0 : ℝ)

/-- `ecLDA0`, `xc/mgga/mGGAscan.c` 237 and 633. -/
noncomputable def ecLDA0 (rs : ℝ) : ℝ := -b1c / (1.0 + b2c * √rs + b3c * rs)

/-- `cx0`, `xc/mgga/mGGAscan.c` 238 and 634. -/
noncomputable def cx0 : ℝ := -3.0 / (4.0 * π) * (9.0 * π / 4.0) ^ (1.0 / 3.0 : ℝ)

/-- `Gc`, `xc/mgga/mGGAscan.c` 239 and 635; `pow(zeta, 12.0)` is the integer power. -/
noncomputable def Gc (zeta : ℝ) : ℝ := (1.0 - 2.3631 * (dxC zeta - 1.0)) * (1.0 - zeta ^ 12)

/-- `w0`, `xc/mgga/mGGAscan.c` 240 and 636. -/
noncomputable def w0 (rs : ℝ) : ℝ := exp (-ecLDA0 rs / b1c) - 1.0

/-- `xiInf0`, `xc/mgga/mGGAscan.c` 241 and 637. -/
noncomputable def xiInf0 : ℝ :=
  (3.0 * π * π / 16.0) ^ (2.0 / 3.0 : ℝ) * (betaRsInf * 1.0 / (cx0 - f0))

/-- `gInf0s`, `xc/mgga/mGGAscan.c` 242 and 638. -/
noncomputable def gInf0s (s : ℝ) : ℝ := (1.0 + 4.0 * xiInf0 * s * s) ^ (-0.25 : ℝ)

/-- `H0`, `xc/mgga/mGGAscan.c` 243 and 639. -/
noncomputable def H0 (rs s : ℝ) : ℝ := b1c * log (1.0 + w0 rs * (1.0 - gInf0s s))

/-- `ec0`, `xc/mgga/mGGAscan.c` 244 and 640. -/
noncomputable def ec0 (rs zeta s : ℝ) : ℝ := (ecLDA0 rs + H0 rs s) * Gc zeta

/-- `beta`, `xc/mgga/mGGAscan.c` 247 and 644. -/
noncomputable def betaC (rs : ℝ) : ℝ := betaConst * (1.0 + 0.1 * rs) / (1.0 + 0.1778 * rs)

/-- A block `q0`, `q1`, `q1p`, `den`, `log` of `xc/mgga/mGGAscan.c` (646-652, 654-660,
662-668; 249-253 without the derivative): the energy and its derivative in `rs`. -/
noncomputable def lsd (AA alpha1 beta1 beta2 beta3 beta4 rs : ℝ) : ℝ × ℝ :=
  let sqrRs := √rs
  let rsmHalf := 1.0 / sqrRs
  let q0 := -2.0 * AA * (1.0 + alpha1 * rs)
  let q1 := 2.0 * AA * (beta1 * sqrRs + beta2 * rs + beta3 * rs * sqrRs + beta4 * rs * rs)
  let q1p := AA * (beta1 * rsmHalf + 2.0 * beta2 + 3.0 * beta3 * sqrRs + 4.0 * beta4 * rs)
  let den := 1.0 / (q1 * q1 + q1)
  let lg := -log (q1 * q1 * den)
  (q0 * lg, -2.0 * AA * alpha1 * lg - q0 * q1p * den)

/-- `ecrs0`, `Decrs0_Drs`, `xc/mgga/mGGAscan.c` 591-596 and 646-652; `ec_lsda1`
without spin, 216-221 and 249-253. -/
noncomputable def lsd0 (rs : ℝ) : ℝ × ℝ := lsd 0.0310907 0.21370 7.5957 3.5876 1.6382 0.49294 rs

/-- `ac`, `Dac_Drs`, `xc/mgga/mGGAscan.c` 598-603 and 654-660. -/
noncomputable def lsdac (rs : ℝ) : ℝ × ℝ := lsd 0.0168869 0.11125 10.357 3.6231 0.88026 0.49671 rs

/-- `ecrs1`, `Decrs1_Drs`, `xc/mgga/mGGAscan.c` 605-610 and 662-668. -/
noncomputable def lsd1 (rs : ℝ) : ℝ × ℝ := lsd 0.01554535 0.20548 14.1189 6.1977 3.3662 0.62517 rs

/-- `w1`, `xc/mgga/mGGAscan.c` 255-256 and 676-677; `L` is `ec_lsda1`. -/
noncomputable def w1 (L phi : ℝ) : ℝ := exp (-L / (rC * phi * phi * phi)) - 1.0

/-- `A`, `xc/mgga/mGGAscan.c` 257 and 678. -/
noncomputable def AC (rs L phi : ℝ) : ℝ := betaC rs / (rC * w1 L phi)

/-- `pow(3.0*M_PI*M_PI/16.0, 1.0/3.0)`, `xc/mgga/mGGAscan.c` 258 and 679. -/
noncomputable def ct : ℝ := (3.0 * π * π / 16.0) ^ (1.0 / 3.0 : ℝ)

/-- `t`, `xc/mgga/mGGAscan.c` 258 and 679. -/
noncomputable def tC (rs phi s : ℝ) : ℝ := ct * s / (phi * √rs)

/-- `g`, `xc/mgga/mGGAscan.c` 259 and 680. -/
noncomputable def gC (rs L phi s : ℝ) : ℝ :=
  (1.0 + 4.0 * AC rs L phi * tC rs phi s * tC rs phi s) ^ (-0.25 : ℝ)

/-- `H1`, `xc/mgga/mGGAscan.c` 260 and 681. -/
noncomputable def H1 (rs L phi s : ℝ) : ℝ :=
  rC * phi * phi * phi * log (1.0 + w1 L phi * (1.0 - gC rs L phi s))

/-- `ec1`, `xc/mgga/mGGAscan.c` 261 and 682. -/
noncomputable def ec1 (rs L phi s : ℝ) : ℝ := L + H1 rs L phi s

/-- `fc`, `xc/mgga/mGGAscan.c` 264-270 and 685-691. -/
noncomputable def fc (a : ℝ) : ℝ :=
  if a > 1.0 then -dc * exp (c2c / (1.0 - a)) else exp (-c1c * a / (1.0 - a))

/-- `DrsDn`, `xc/mgga/mGGAscan.c` 274 and 696. -/
noncomputable def DrsDn (rho : ℝ) : ℝ :=
  -4.0 * π / 9.0 * (4.0 * π / 3.0 * rho) ^ (-4.0 / 3.0 : ℝ)

/-- `DgInf0sDs`, `xc/mgga/mGGAscan.c` 277 and 704. -/
noncomputable def DgInf0sDs (s : ℝ) : ℝ :=
  -0.25 * (1.0 + 4.0 * xiInf0 * s * s) ^ (-1.25 : ℝ) * (4.0 * xiInf0 * 2.0 * s)

/-- `DecLDA0Dn`, `xc/mgga/mGGAscan.c` 280 and 707. -/
noncomputable def DecLDA0Dn (rs drs : ℝ) : ℝ :=
  b1c * (0.5 * b2c / √rs + b3c) / (1.0 + b2c * √rs + b3c * rs) ^ 2 * drs

/-- `Dw0Dn`, `xc/mgga/mGGAscan.c` 281 and 708. -/
noncomputable def Dw0Dn (rs drs : ℝ) : ℝ := (w0 rs + 1.0) * (-DecLDA0Dn rs drs / b1c)

/-- `DH0Dn`, `xc/mgga/mGGAscan.c` 278, 282 and 705, 709. -/
noncomputable def DH0Dn (rs s drs dsdn : ℝ) : ℝ :=
  b1c * (Dw0Dn rs drs * (1.0 - gInf0s s) - w0 rs * (DgInf0sDs s * dsdn))
    / (1.0 + w0 rs * (1.0 - gInf0s s))

/-- `DH0DDn`, `xc/mgga/mGGAscan.c` 279, 283 and 706, 710. -/
noncomputable def DH0DDn (rs s dsddn : ℝ) : ℝ :=
  b1c * (-w0 rs * (DgInf0sDs s * dsddn)) / (1.0 + w0 rs * (1.0 - gInf0s s))

/-- `DbetaDn`, `xc/mgga/mGGAscan.c` 293 and 736. -/
noncomputable def DbetaDn (rs drs : ℝ) : ℝ :=
  0.066725 * (0.1 * (1.0 + 0.1778 * rs) - 0.1778 * (1.0 + 0.1 * rs)) / (1.0 + 0.1778 * rs)
    / (1.0 + 0.1778 * rs) * drs

/-- `DphiDn`, `xc/mgga/mGGAscan.c` 294 and `DphiDnup`, `DphiDndn`, 737-738. -/
noncomputable def DphiDn (zeta dz : ℝ) : ℝ :=
  0.5 * (2.0 / 3.0 * (1.0 + zeta) ^ (-1.0 / 3.0 : ℝ) - 2.0 / 3.0 * (1.0 - zeta) ^ (-1.0 / 3.0 : ℝ))
    * dz

/-- `DtDn`, `xc/mgga/mGGAscan.c` 295 and `DtDnup`, `DtDndn`, 739-740. -/
noncomputable def DtDn (rs phi s drs dphi dsdn : ℝ) : ℝ :=
  ct * (phi * √rs * dsdn - s * (dphi * √rs + phi * drs / (2.0 * √rs))) / (phi * phi * rs)

/-- `DtDDn`, `xc/mgga/mGGAscan.c` 296 and 741. -/
noncomputable def DtDDn (rs phi s dsddn : ℝ) : ℝ := tC rs phi s * dsddn / s

/-- `Dw1Dn`, `xc/mgga/mGGAscan.c` 297 and `Dw1Dnup`, `Dw1Dndn`, 742-743. -/
noncomputable def Dw1Dn (L phi dL dphi : ℝ) : ℝ :=
  (w1 L phi + 1.0) * (-(rC * phi * phi * phi * dL - rC * L * (3.0 * phi * phi * dphi))
    / (rC * phi * phi * phi) / (rC * phi * phi * phi))

/-- `DADn`, `xc/mgga/mGGAscan.c` 298 and `DADnup`, `DADndn`, 744-745. -/
noncomputable def DADn (rs L phi dL dphi dbeta : ℝ) : ℝ :=
  (w1 L phi * dbeta - betaC rs * Dw1Dn L phi dL dphi) / (rC * w1 L phi * w1 L phi)

/-- `DgDn`, `xc/mgga/mGGAscan.c` 299 and `DgDnup`, `DgDndn`, 746-747. -/
noncomputable def DgDn (rs L phi s drs dL dphi dsdn dbeta : ℝ) : ℝ :=
  -0.25 * (1.0 + 4.0 * AC rs L phi * tC rs phi s * tC rs phi s) ^ (-1.25 : ℝ)
    * (4.0 * (DADn rs L phi dL dphi dbeta * tC rs phi s * tC rs phi s
      + 2.0 * AC rs L phi * tC rs phi s * DtDn rs phi s drs dphi dsdn))

/-- `DgDDn`, `xc/mgga/mGGAscan.c` 300 and 748. -/
noncomputable def DgDDn (rs L phi s dsddn : ℝ) : ℝ :=
  -0.25 * (1.0 + 4.0 * AC rs L phi * tC rs phi s * tC rs phi s) ^ (-1.25 : ℝ)
    * (4.0 * 2.0 * AC rs L phi * tC rs phi s * DtDDn rs phi s dsddn)

/-- `DH1Dn`, `xc/mgga/mGGAscan.c` 301 and `DH1Dnup`, `DH1Dndn`, 749-750. -/
noncomputable def DH1Dn (rs L phi s drs dL dphi dsdn dbeta : ℝ) : ℝ :=
  3 * rC * phi * phi * dphi * log (1.0 + w1 L phi * (1.0 - gC rs L phi s))
    + rC * phi * phi * phi * (Dw1Dn L phi dL dphi * (1.0 - gC rs L phi s)
        - w1 L phi * DgDn rs L phi s drs dL dphi dsdn dbeta)
      / (1.0 + w1 L phi * (1.0 - gC rs L phi s))

/-- `DH1DDn`, `xc/mgga/mGGAscan.c` 302 and 751. -/
noncomputable def DH1DDn (rs L phi s dsddn : ℝ) : ℝ :=
  rC * phi * phi * phi * (-w1 L phi * DgDDn rs L phi s dsddn)
    / (1.0 + w1 L phi * (1.0 - gC rs L phi s))

/-- `DfcDalpha`, `xc/mgga/mGGAscan.c` 308-314 and 760-766. -/
noncomputable def DfcDalpha (a : ℝ) : ℝ :=
  if a > 1.0 then fc a * (c2c / (1.0 - a) / (1.0 - a))
  else fc a * (-c1c / (1.0 - a) / (1.0 - a))

/-- `Dec_lsda1Dn` without spin, `xc/mgga/mGGAscan.c` 288-291; `p = 1.0` (215), so
`pow(rs, p + 1.0)` and `pow(rs, p)` are written as integer powers. -/
noncomputable def Dec_lsda1Dn (rho rs : ℝ) : ℝ :=
  let AA := 0.0310907
  let den := 2.0 * AA * (7.5957 * √rs + 3.5876 * rs + 1.6382 * √rs * rs + 0.49294 * rs ^ 2);
  -(rs / rho / 3.0) * (-2.0 * AA * 0.21370 * log (1.0 + 1.0 / den)
    - ((-2.0 * AA * (1.0 + 0.21370 * rs)) * (AA * (7.5957 / √rs + 2.0 * 3.5876
        + 3.0 * 1.6382 * √rs + 2.0 * (1.0 + 1.0) * 0.49294 * rs))) / (den * den + den))

/-- `Calculate_scanc`, `xc/mgga/mGGAscan.c` 229-324, one point. -/
noncomputable def calcScanc (rho : ℝ) (v : Vars) : Out :=
  let zeta : ℝ := 0
  let phi := phiC zeta
  let s := v.s
  let alpha := v.a
  let rs := rsC rho
  let ec_0 := ec0 rs zeta s
  let L := (lsd0 rs).1
  let ec_1 := ec1 rs L phi s
  let epsilonc := ec_1 + fc alpha * (ec_0 - ec_1)
  let DzetaDn : ℝ := 0.0
  let drs := DrsDn rho
  let DdxDn := (4.0 / 3.0 * (1.0 + zeta) ^ (1.0 / 3.0 : ℝ)
    - 4.0 / 3.0 * (1.0 - zeta) ^ (1.0 / 3.0 : ℝ)) * DzetaDn
  let DGcDn := -2.3631 * DdxDn * (1.0 - zeta ^ 12)
    + (1.0 - 2.3631 * (dxC zeta - 1)) * (12.0 * zeta ^ 11 * DzetaDn)
  let Dec0Dn := (DecLDA0Dn rs drs + DH0Dn rs s drs v.dsdn) * Gc zeta
    + (ecLDA0 rs + H0 rs s) * DGcDn
  let Dec0DDn := DH0DDn rs s v.dsddn * Gc zeta
  let dL := Dec_lsda1Dn rho rs
  let dphi := DphiDn zeta DzetaDn
  let Dec1Dn := dL + DH1Dn rs L phi s drs dL dphi v.dsdn (DbetaDn rs drs)
  let Dec1DDn := DH1DDn rs L phi s v.dsddn
  let DfcDn := DfcDalpha alpha * v.dadn
  let DfcDDn := DfcDalpha alpha * v.daddn
  let DfcDtau := DfcDalpha alpha * v.dadtau
  let DepsiloncDn := Dec1Dn + fc alpha * (Dec0Dn - Dec1Dn) + DfcDn * (ec_0 - ec_1)
  let DepsiloncDDn := Dec1DDn + fc alpha * (Dec0DDn - Dec1DDn) + DfcDDn * (ec_0 - ec_1)
  let DepsiloncDtau := DfcDtau * (ec_0 - ec_1)
  { e := epsilonc
    v1 := epsilonc + rho * DepsiloncDn
    v2 := rho * DepsiloncDDn
    v3 := rho * DepsiloncDtau }

/-- `scanc`, `xc/mgga/mGGAscan.c` 169-204, one point: `normDrho` 183-185, the two calls
187-189, the division of `v2c` 191-193. -/
noncomputable def scanc (rho sigma tau : ℝ) : Out :=
  let normDrho := √sigma
  let o := calcScanc rho (basicVars rho normDrho tau)
  { o with v2 := o.v2 / normDrho }

/-! ## Correlation with spin -/

/-- `s_dsdn_dsddn`, `alpha_dadnup_dadndn_daddn_dadtau` and `zeta_dzetadnup_dzetadndn`. -/
structure VarsC where
  s : ℝ
  dsdn : ℝ
  dsddn : ℝ
  a : ℝ
  dadnup : ℝ
  dadndn : ℝ
  daddn : ℝ
  dadtau : ℝ
  zeta : ℝ
  dzup : ℝ
  dzdn : ℝ

/-- Correlation with spin: one energy, two values of the first potential. -/
structure OutC where
  e : ℝ
  v1u : ℝ
  v1d : ℝ
  v2 : ℝ
  v3 : ℝ

/-- `basic_MGSGA_variables_correlation`, `xc/mgga/mGGAscan.c` 545-570, one point. -/
noncomputable def basicVarsC (rho up dn normDrho tau : ℝ) : VarsC :=
  let zeta := (up - dn) / rho
  let tauw := normDrho * normDrho / (8.0 * rho)
  let ds := ((1.0 + zeta) ^ (5.0 / 3.0 : ℝ) + (1 - zeta) ^ (5.0 / 3.0 : ℝ)) / 2.0
  let tauUnif := 3.0 / 10.0 * c23 * rho ^ (5.0 / 3.0 : ℝ) * ds
  let dzup := 2.0 * dn / (rho * rho)
  let dzdn := -2.0 * up / (rho * rho)
  let DtauwDn := -normDrho * normDrho / (8 * rho * rho)
  let DtauwDDn := normDrho / (4 * rho)
  let DdsDnup := 5.0 / 3.0 * ((1.0 + zeta) ^ (2.0 / 3.0 : ℝ) - (1.0 - zeta) ^ (2.0 / 3.0 : ℝ))
    * dzup / 2.0
  let DdsDndn := 5.0 / 3.0 * ((1.0 + zeta) ^ (2.0 / 3.0 : ℝ) - (1.0 - zeta) ^ (2.0 / 3.0 : ℝ))
    * dzdn / 2.0
  let DtauUnifDnup := c23 / 2.0 * rho ^ (2.0 / 3.0 : ℝ) * ds
    + 3.0 / 10.0 * c23 * rho ^ (5.0 / 3.0 : ℝ) * DdsDnup
  let DtauUnifDndn := c23 / 2.0 * rho ^ (2.0 / 3.0 : ℝ) * ds
    + 3.0 / 10.0 * c23 * rho ^ (5.0 / 3.0 : ℝ) * DdsDndn
  { s := normDrho / (2.0 * c13 * rho ^ (4.0 / 3.0 : ℝ))
    dsdn := -2.0 * normDrho / (3.0 * c13 * rho ^ (7.0 / 3.0 : ℝ))
    dsddn := 1.0 / (2.0 * c13 * rho ^ (4.0 / 3.0 : ℝ))
    a := (tau - tauw) / tauUnif
    dadnup := (-DtauwDn * tauUnif - (tau - tauw) * DtauUnifDnup) / (tauUnif * tauUnif)
    dadndn := (-DtauwDn * tauUnif - (tau - tauw) * DtauUnifDndn) / (tauUnif * tauUnif)
    daddn := (-DtauwDDn) / tauUnif
    dadtau := 1.0 / tauUnif
    zeta := zeta
    dzup := dzup
    dzdn := dzdn }

/-- `f_zeta`, `xc/mgga/mGGAscan.c` 670. -/
noncomputable def f_zeta (zeta : ℝ) : ℝ :=
  ((1.0 + zeta) ^ (4.0 / 3.0 : ℝ) + (1.0 - zeta) ^ (4.0 / 3.0 : ℝ) - 2.0)
    / (2.0 ^ (4.0 / 3.0 : ℝ) - 2.0)

/-- `fp_zeta`, `xc/mgga/mGGAscan.c` 671. -/
noncomputable def fp_zeta (zeta : ℝ) : ℝ :=
  ((1.0 + zeta) ^ (1.0 / 3.0 : ℝ) - (1.0 - zeta) ^ (1.0 / 3.0 : ℝ)) * 4.0 / 3.0
    / (2.0 ^ (4.0 / 3.0 : ℝ) - 2.0)

/-- `gcrs`, `xc/mgga/mGGAscan.c` 673. -/
noncomputable def gcrs (rs : ℝ) : ℝ := (lsd1 rs).1 - (lsd0 rs).1 + (lsdac rs).1 / 1.709921

/-- `ec_lsda1` with spin, `xc/mgga/mGGAscan.c` 672, 674. -/
noncomputable def ec_lsda1 (rs zeta : ℝ) : ℝ :=
  (lsd0 rs).1 + f_zeta zeta * (zeta ^ 4 * gcrs rs - (lsdac rs).1 / 1.709921)

/-- `Dec_lsda1_Drs`, `xc/mgga/mGGAscan.c` 719-720. -/
noncomputable def Dec_lsda1_Drs (rs zeta : ℝ) : ℝ :=
  let DgcrsDrs := (lsd1 rs).2 - (lsd0 rs).2 + (lsdac rs).2 / 1.709921
  (lsd0 rs).2 + f_zeta zeta * (zeta ^ 4 * DgcrsDrs - (lsdac rs).2 / 1.709921)

/-- `Dec_lsda1_Dzeta`, `xc/mgga/mGGAscan.c` 724-725. -/
noncomputable def Dec_lsda1_Dzeta (rs zeta : ℝ) : ℝ :=
  let Dfzeta4_Dzeta := 4.0 * (zeta * zeta * zeta) * f_zeta zeta + fp_zeta zeta * zeta ^ 4
  Dfzeta4_Dzeta * gcrs rs - fp_zeta zeta * (lsdac rs).1 / 1.709921

/-- `DGcDnup`, `DGcDndn`, `xc/mgga/mGGAscan.c` 697-699, 703. -/
noncomputable def DGc (zeta dz : ℝ) : ℝ :=
  let Ddx := (4.0 / 3.0 * (1.0 + zeta) ^ (1.0 / 3.0 : ℝ)
    - 4.0 / 3.0 * (1.0 - zeta) ^ (1.0 / 3.0 : ℝ)) / 2.0 * dz;
  -2.3631 * Ddx * (1.0 - zeta ^ 12) + (1.0 - 2.3631 * (dxC zeta - 1)) * (-12.0 * zeta ^ 11 * dz)

/-- `Calculate_scanc_spin`, `xc/mgga/mGGAscan.c` 625-778, one point. -/
noncomputable def calcScancSpin (rho : ℝ) (v : VarsC) : OutC :=
  let zeta := v.zeta
  let phi := phiC zeta
  let s := v.s
  let alpha := v.a
  let rs := rsC rho
  let ec_0 := ec0 rs zeta s
  let L := ec_lsda1 rs zeta
  let ec_1 := ec1 rs L phi s
  let epsilonc := ec_1 + fc alpha * (ec_0 - ec_1)
  let DzetaDnup := v.dzup
  let DzetaDndn := v.dzdn
  let drs := DrsDn rho
  let DGcDnup := DGc zeta DzetaDnup
  let DGcDndn := DGc zeta DzetaDndn
  let Dec0Dnup := (DecLDA0Dn rs drs + DH0Dn rs s drs v.dsdn) * Gc zeta
    + (ecLDA0 rs + H0 rs s) * DGcDnup
  let Dec0Dndn := (DecLDA0Dn rs drs + DH0Dn rs s drs v.dsdn) * Gc zeta
    + (ecLDA0 rs + H0 rs s) * DGcDndn
  let Dec0DDn := DH0DDn rs s v.dsddn * Gc zeta
  let dLup := (-rs * 1.0 / 3.0 * Dec_lsda1_Drs rs zeta - zeta * Dec_lsda1_Dzeta rs zeta
    + Dec_lsda1_Dzeta rs zeta) / rho
  let dLdn := (-rs * 1.0 / 3.0 * Dec_lsda1_Drs rs zeta - zeta * Dec_lsda1_Dzeta rs zeta
    - Dec_lsda1_Dzeta rs zeta) / rho
  let DphiDnup := DphiDn zeta DzetaDnup
  let DphiDndn := DphiDn zeta DzetaDndn
  let Dec1Dnup := dLup + DH1Dn rs L phi s drs dLup DphiDnup v.dsdn (DbetaDn rs drs)
  let Dec1Dndn := dLdn + DH1Dn rs L phi s drs dLdn DphiDndn v.dsdn (DbetaDn rs drs)
  let Dec1DDn := DH1DDn rs L phi s v.dsddn
  let DfcDnup := DfcDalpha alpha * v.dadnup
  let DfcDndn := DfcDalpha alpha * v.dadndn
  let DfcDDn := DfcDalpha alpha * v.daddn
  let DfcDtau := DfcDalpha alpha * v.dadtau
  let DepsiloncDnup := Dec1Dnup + fc alpha * (Dec0Dnup - Dec1Dnup) + DfcDnup * (ec_0 - ec_1)
  let DepsiloncDndn := Dec1Dndn + fc alpha * (Dec0Dndn - Dec1Dndn) + DfcDndn * (ec_0 - ec_1)
  let DepsiloncDDn := Dec1DDn + fc alpha * (Dec0DDn - Dec1DDn) + DfcDDn * (ec_0 - ec_1)
  let DepsiloncDtau := DfcDtau * (ec_0 - ec_1)
  { e := epsilonc
    v1u := epsilonc + rho * DepsiloncDnup
    v1d := epsilonc + rho * DepsiloncDndn
    v2 := rho * DepsiloncDDn
    v3 := rho * DepsiloncDtau }

/-- `scanc_spin`, `xc/mgga/mGGAscan.c` 491-535, one point: `normDrho` 510-512, the two
calls 514-516, the division of `v2c` 518-520. -/
noncomputable def scancSpin (p : Pt) : OutC :=
  let normDrho := √p.sg
  let o := calcScancSpin p.rho (basicVarsC p.rho p.up p.dn normDrho p.tau)
  { o with v2 := o.v2 / normDrho }

end Sparc.Mgga

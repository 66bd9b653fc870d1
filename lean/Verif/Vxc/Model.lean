import Verif.Xc.Model
import Mathlib.Algebra.BigOperators.Fin

/-!
# Assembly of the exchange-correlation potential and energy

`Calculate_Vxc`, `Calculate_Exc` and their helpers in `/repo/src/exchangeCorrelation.c`, and
the finite-difference gradient `Gradient_vec_dir` of `/repo/src/gradVecRoutines.c` as seen by
its caller.

Simplifications (all definitions of this file):
* `double` arithmetic is real arithmetic.
* The grid is seen as a whole: each field is a function on the grid points, and
  `MPI_Allreduce` in `Calculate_Exc` is part of the sum.  The index `i + n*DMnd` of the C
  arrays is the value at point `i` of column `n`.
* `CyclixFlag = 0`, `ixc[2] = 0` (no meta-GGA), `ixc[3] = 0` (no nonlocal van der Waals part),
  `spin_typ` 0 or 1, and no hybrid after its first outer iteration apart from PBE0.
-/

namespace Sparc.Vxc

open Xc

/-- What `SPARC_OBJ` holds about the cell and the grid. -/
structure Cell where
  /-- `Nx`, `Ny`, `Nz` -/
  N : Fin 3 → ℕ
  /-- `1 - BCx` etc. -/
  per : Fin 3 → Bool
  FDn : ℕ
  /-- `D1_stencil_coeffs_x`, `_y`, `_z` -/
  w : Fin 3 → ℕ → ℝ
  /-- `cell_typ > 10 && cell_typ < 20` -/
  oblique : Bool
  lapcT : ℕ → ℝ
  dV : ℝ

/-- Grid points. -/
abbrev Pnt (C : Cell) := (d : Fin 3) → Fin (C.N d)

/-- A field on the grid. -/
abbrev Fld (C : Cell) := Pnt C → ℝ

/-- Position along an axis after the boundary condition. -/
def wrap (N : ℕ) (per : Bool) (I : ℤ) : ℤ := if per then I % N else I

open Classical in
/-- The value that stands in the halo for position `x`: the image under the periods, zero
beyond a non-periodic boundary; gradVecRoutines.c 247-301. -/
noncomputable def ext (C : Cell) (f : Fld C) (x : Fin 3 → ℤ) : ℝ :=
  if h : ∀ d, 0 ≤ wrap (C.N d) (C.per d) (x d) ∧ wrap (C.N d) (C.per d) (x d) < C.N d then
    f fun d => ⟨(wrap (C.N d) (C.per d) (x d)).toNat, by have := h d; omega⟩
  else 0

/-- The position `s` steps from `g` along `dir`. -/
def step {C : Cell} (g : Pnt C) (dir : Fin 3) (s : ℤ) : Fin 3 → ℤ :=
  Function.update (fun d => ((g d : ℕ) : ℤ)) dir ((g dir : ℕ) + s)

/-- `Gradient_vec_dir` with `c = 0`, gradVecRoutines.c 61-311; the sum is that of `Calc_DX`. -/
noncomputable def grad (C : Cell) (dir : Fin 3) (f : Fld C) : Fld C := fun g =>
  (List.range' 1 C.FDn).foldl (fun acc (p : ℕ) =>
    acc + (ext C f (step g dir p) - ext C f (step g dir (-p))) * C.w dir p)
    (f g * 0)

/-- `compute_norm_square`, exchangeCorrelation.c 1232-1248. -/
def normSquare (C : Cell) (v1 v2 v3 : ℝ) : ℝ :=
  if C.oblique then
    v1 * (C.lapcT 0 * v1 + 2 * C.lapcT 1 * v2) + v2 * (C.lapcT 4 * v2 + 2 * C.lapcT 5 * v3)
      + v3 * (C.lapcT 8 * v3 + 2 * C.lapcT 2 * v1)
  else v1 * v1 + v2 * v2 + v3 * v3

/-- `Drho_times_v2xc`, exchangeCorrelation.c 1284-1305: the new `Drho_x`, `Drho_y`, `Drho_z`. -/
def timesV2 (C : Cell) (D : Fin 3 → Fld C) (v2 : Fld C) : Fin 3 → Fld C :=
  if C.oblique then
    ![fun i => (D 0 i * C.lapcT 0 + D 1 i * C.lapcT 1 + D 2 i * C.lapcT 2) * v2 i,
      fun i => (D 0 i * C.lapcT 3 + D 1 i * C.lapcT 4 + D 2 i * C.lapcT 5) * v2 i,
      fun i => (D 0 i * C.lapcT 6 + D 1 i * C.lapcT 7 + D 2 i * C.lapcT 8) * v2 i]
  else ![fun i => D 0 i * v2 i, fun i => D 1 i * v2 i, fun i => D 2 i * v2 i]

/-- Options: `NLCC_flag`, `electronDens_core`, `xc_rhotol`, `xc_sigmatol`, `isgradient`. -/
structure Opt (C : Cell) where
  nlcc : Bool
  core : Fld C
  rhotol : ℝ
  sigmatol : ℝ
  isgradient : Bool

/-- One entry of `add_rho_core` for a column with factor `c` on the core density,
exchangeCorrelation.c 1260-1269. -/
noncomputable def addCore {C : Cell} (O : Opt C) (c : ℝ) (rho : Fld C) : Fld C := fun i =>
  let r := if O.nlcc then rho i + c * O.core i else rho i
  if r < O.rhotol then O.rhotol else r

/-- Square norm of the gradient of a column, `calculate_square_norm_of_gradient`,
exchangeCorrelation.c 1217-1224. -/
noncomputable def sigmaOf {C : Cell} (O : Opt C) (rho : Fld C) : Fld C := fun i =>
  max (normSquare C (grad C 0 rho i) (grad C 1 rho i) (grad C 2 rho i)) O.sigmatol

/-- `iexch` for `spin_typ = 0`, exchangeCorrelation.c 92-120.  Without gradient the C code passes
`sigma = NULL`; the routines selected then do not read it. -/
noncomputable def exch (ixc opt : ℕ) (rho sigma : ℝ) : Out :=
  match ixc with
  | 1 => slater rho
  | 2 => pbex opt rho sigma
  | 3 => rPW86x rho sigma
  | _ => { e := 0, v := 0, v2 := 0 }

/-- `icorr` for `spin_typ = 0`, exchangeCorrelation.c 122-155; `rPW86x` (`ixc[0] = 3`) has put
a floor on `sigma` by then (line 601).  `pz` and `pw` leave `v2c` alone: they are
selected without gradient, or with the gradient term of the correlation set to zero by the
van der Waals branch. -/
noncomputable def corr (ixc0 ixc opt : ℕ) (rho sigma : ℝ) : Out :=
  let sigma := if ixc0 = 3 then floorSigma sigma else sigma
  match ixc with
  | 1 => pz rho
  | 2 => pw rho
  | 3 => pbec opt rho sigma
  | _ => { e := 0, v := 0, v2 := 0 }

/-- Functional: `ixc[0]`, `ixc[1]`, `xcoption`, and the factor `1-exx_frac` of PBE0 (1 if the
scaling of exchangeCorrelation.c 157-163 does not apply). -/
structure Fun where
  ixc0 : ℕ
  ixc1 : ℕ
  opt0 : ℕ
  opt1 : ℕ
  scale : ℝ

/-- Exchange and correlation at a point after the scaling, exchangeCorrelation.c 92-163 and
178-183. -/
noncomputable def point (F : Fun) (rho sigma : ℝ) : Out :=
  let x := exch F.ixc0 F.opt0 rho sigma
  let c := corr F.ixc0 F.ixc1 F.opt1 rho sigma
  { e := x.e * F.scale + c.e, v := x.v * F.scale + c.v, v2 := x.v2 * F.scale + c.v2 }

/-- `e_xc`, `spin_typ = 0`. -/
noncomputable def exc {C : Cell} (O : Opt C) (K : ℝ → ℝ → Out) (dens : Fld C) : Fld C := fun i =>
  let rho := addCore O 1 dens
  (K (rho i) (sigmaOf O rho i)).e

/-- `XCPotential`, `spin_typ = 0`: exchangeCorrelation.c 178-214; `K` is the functional at a
point. -/
noncomputable def vxc {C : Cell} (O : Opt C) (K : ℝ → ℝ → Out) (dens : Fld C) : Fld C :=
  let rho := addCore O 1 dens
  let sigma := sigmaOf O rho
  let v : Fld C := fun i => (K (rho i) (sigma i)).v
  if O.isgradient then
    let D := timesV2 C (fun d => grad C d rho) fun i => (K (rho i) (sigma i)).v2
    fun i => v i + (-grad C 0 (D 0) i - grad C 1 (D 1) i - grad C 2 (D 2) i)
  else v

/-- `Calculate_Exc`, exchangeCorrelation.c 429-453, from the total density and `e_xc`. -/
noncomputable def excTotal {C : Cell} (O : Opt C) (dens e : Fld C) : ℝ :=
  let rho := addCore O 1 dens
  (∑ i, rho i * e i) * C.dV

/-- Exchange with `spin_typ = 1`, exchangeCorrelation.c 244-272. -/
noncomputable def exchSpin (ixc opt : ℕ) (p : Pt) : OutX :=
  match ixc with
  | 1 => slaterSpin p
  | 2 => pbexSpin opt p
  | 3 => rPW86xSpin p
  | _ => { e := 0, vu := 0, vd := 0, v2u := 0, v2d := 0 }

/-- Correlation with `spin_typ = 1`, exchangeCorrelation.c 274-307, for `pw` and `pbec`. -/
noncomputable def corrSpin (ixc opt : ℕ) (p : Pt) : OutC :=
  match ixc with
  | 2 => pwSpin p
  | 3 => pbecSpin opt p
  | _ => { e := 0, vu := 0, vd := 0, v2 := 0 }

/-- The exchange after the scaling of PBE0, exchangeCorrelation.c 309-317. -/
noncomputable def exchScaled (F : Fun) (p : Pt) : OutX :=
  let x := exchSpin F.ixc0 F.opt0 p
  { e := x.e * F.scale, vu := x.vu * F.scale, vd := x.vd * F.scale
    v2u := x.v2u * F.scale, v2d := x.v2d * F.scale }

/-- The columns of `rho` and `sigma` at a point, `spin_typ = 1`: `add_rho_core` with three
columns (exchangeCorrelation.c 1254-1278) and `calculate_square_norm_of_gradient`. -/
noncomputable def spinPoint {C : Cell} (O : Opt C) (up dn : Fld C) (i : Pnt C) : Pt :=
  let u := addCore O 0.5 up
  let d := addCore O 0.5 dn
  let t : Fld C := fun i => u i + d i
  { rho := t i, up := u i, dn := d i, sg := sigmaOf O t i, sgu := sigmaOf O u i,
    sgd := sigmaOf O d i }

/-- `e_xc`, `spin_typ = 1`, exchangeCorrelation.c 335. -/
noncomputable def excSpin {C : Cell} (O : Opt C) (Kx : Pt → OutX) (Kc : Pt → OutC)
    (up dn : Fld C) : Fld C := fun i =>
  (Kx (spinPoint O up dn i)).e + (Kc (spinPoint O up dn i)).e

/-- `XCPotential`, `spin_typ = 1`, both columns: exchangeCorrelation.c 334-371. -/
noncomputable def vxcSpin {C : Cell} (O : Opt C) (Kx : Pt → OutX) (Kc : Pt → OutC)
    (up dn : Fld C) : Fld C × Fld C :=
  let u := addCore O 0.5 up
  let d := addCore O 0.5 dn
  let t : Fld C := fun i => u i + d i
  let p := spinPoint O up dn
  let vu : Fld C := fun i => (Kx (p i)).vu + (Kc (p i)).vu
  let vd : Fld C := fun i => (Kx (p i)).vd + (Kc (p i)).vd
  if O.isgradient then
    let Dt := timesV2 C (fun a => grad C a t) fun i => (Kc (p i)).v2
    let Du := timesV2 C (fun a => grad C a u) fun i => (Kx (p i)).v2u
    let Dd := timesV2 C (fun a => grad C a d) fun i => (Kx (p i)).v2d
    (fun i => vu i + (-grad C 0 (Dt 0) i - grad C 1 (Dt 1) i - grad C 2 (Dt 2) i
        - grad C 0 (Du 0) i - grad C 1 (Du 1) i - grad C 2 (Du 2) i),
      fun i => vd i + (-grad C 0 (Dt 0) i - grad C 1 (Dt 1) i - grad C 2 (Dt 2) i
        - grad C 0 (Dd 0) i - grad C 1 (Dd 1) i - grad C 2 (Dd 2) i))
  else (vu, vd)

/-- `Calculate_Xcpotential_Noncollinear` at a point, exchangeCorrelation.c 1781-1802:
`V11`, `V22`, the real and the imaginary part of `V12`. -/
noncomputable def noncollinear (magtol vup vdw mx my mz norm : ℝ) : Fin 4 → ℝ :=
  let p := vup + vdw
  let m := vup - vdw
  if norm > magtol then
    ![0.5 * p + 0.5 * m * mz / norm, 0.5 * p - 0.5 * m * mz / norm, 0.5 * m * mx / norm,
      -0.5 * m * my / norm]
  else ![0.5 * p, 0.5 * p, 0, 0]

end Sparc.Vxc

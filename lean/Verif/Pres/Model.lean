import Verif.Coord.Model
import Verif.Infl.Model
import Verif.Loop
import Mathlib.Analysis.RCLike.Basic
import Mathlib.Analysis.SpecialFunctions.Trigonometric.Basic
import Mathlib.Data.Fin.VecNotation

/-!
# Stress tensor and pressure (model)

`/repo/src/stress.c`: `Calculate_ionic_stress_linear` (63-117), `Calculate_electronic_stress_linear`
(132-242), `Calculate_XC_stress_nlcc` (250-502), `Calculate_XC_stress` (508-622),
`Calculate_local_stress` (631-1071), `Calculate_nonlocal_kinetic_stress_linear` and `_kpt`
(1107-1709) with the routines they call (1276-2005).  `/repo/src/pressure.c`:
`Calculate_electronic_pressure` (56-144), `Calculate_XC_pressure` (151-226),
`Calculate_XC_pressure_nlcc` (233-450), `Calculate_local_pressure` (456-781),
`Calculate_nonlocal_pressure_linear` and `_kpt` (815-1126) with the routines they call.
`/repo/src/forces.c`: `Compute_Integral_psi_Chi` and `_kpt` (849-884, 1167-1231).

Simplifications.  `double` becomes `ℝ`; `double _Complex` becomes an `RCLike` field, so that the
routines of the Γ-point (real orbitals) are the same definitions over `ℝ` with one k-point of
weight one and `k = 0`.  Arrays are functions of the flat position.  The seven (four) blocks of
`alpha` are separate arrays.  The derivatives delivered by `Gradient_vectors_dir` (modelled in
`Verif.Grad`) are arrays of the process; the potentials and charges `VJ`, `VJ_ref`, `bJ`,
`bJ_ref`, `rhocJ` of an image, computed by the same statements in both files (and modelled in
`Verif.Pchg`), are arrays of the image.  BLAS products are the sums they compute.
`MPI_Allreduce` is the sum of the processes' values.  Left out: cyclix cells, spectral
quadrature, exact exchange, Hubbard, meta-GGA, D3 and vdW-DF terms.
-/

namespace Sparc.Pres

open Loop

/-- The six stored components `xx, xy, xz, yy, yz, zz`. -/
abbrev Ten := Fin 6 → ℝ

/-- What all the routines share: the geometry of the cell, the spacings `delta_x/y/z`, `dV`,
half the order, the first-derivative coefficients and `spin_typ`. -/
structure Env where
  G : Coord.Geom
  h : ℝ × ℝ × ℝ
  dV : ℝ
  FDn : ℕ
  D1x : ℕ → ℝ
  D1y : ℕ → ℝ
  D1z : ℕ → ℝ
  spin : ℕ

/-- `cell_measure`, pressure.c:125-132 and everywhere in stress.c. -/
noncomputable def measure (det : ℝ) (bc : ℤ × ℤ × ℤ) (L : ℝ × ℝ × ℝ) : ℝ :=
  let m := det
  let m := if bc.1 = 0 then m * L.1 else m
  let m := if bc.2.1 = 0 then m * L.2.1 else m
  if bc.2.2 = 0 then m * L.2.2 else m

/-! ### Processes of `dmcomm_phi` -/

/-- An image of an atom: its box, and the arrays computed for it. -/
structure Img where
  R : Infl.Rec
  VJ : ℤ → ℝ
  VJref : ℤ → ℝ
  bJ : ℤ → ℝ
  bJref : ℤ → ℝ
  rhocJ : ℤ → ℝ

/-- A process of `dmcomm_phi`: `DMVertices[0], [2], [4]`, `Nx_d`, `Ny_d`, `Nd_d`, `Nspdentd`, the
derivatives of density and potential, `Dxcdgrho`, the grid functions and the images by type. -/
structure Dom where
  lo : ℤ × ℤ × ℤ
  nx : ℤ
  ny : ℤ
  nd : ℕ
  ncol : ℕ
  Dr : ℕ → ℝ × ℝ × ℝ
  Dxc : ℕ → ℝ
  Dphi : ℕ → ℝ × ℝ × ℝ
  rho : ℤ → ℝ
  b : ℤ → ℝ
  bref : ℤ → ℝ
  phi : ℤ → ℝ
  Vc : ℤ → ℝ
  Vxc : ℤ → ℝ
  imgs : List (List Img)

/-- The central difference loop `for (p = 1; p <= FDn; p++) v += (m[q+p*s] - m[q-p*s]) * c[p]`. -/
noncomputable def d1 (FDn : ℕ) (c : ℕ → ℝ) (m : ℤ → ℝ) (q s : ℤ) : ℝ :=
  (List.range FDn).foldl
    (fun v (i : ℕ) => v + (m (q + (i + 1 : ℕ) * s) - m (q - (i + 1 : ℕ) * s)) * c (i + 1)) 0

/-- The three central differences at place `q` of a box with rows of length `nx` and planes of
length `nx * ny`. -/
noncomputable def grad (E : Env) (m : ℤ → ℝ) (nx ny q : ℤ) : ℝ × ℝ × ℝ :=
  (d1 E.FDn E.D1x m q 1, d1 E.FDn E.D1y m q nx, d1 E.FDn E.D1z m q (nx * ny))

/-- Sizes of the box of an image. -/
def ext (R : Infl.Rec) : ℤ × ℤ × ℤ := (R.xe - R.xs + 1, R.ye - R.ys + 1, R.ze - R.zs + 1)

/-- The nodes of the box of an image, in loop order. -/
def nodes (R : Infl.Rec) : List (ℕ × ℕ × ℕ) :=
  box (ext R).1.toNat (ext R).2.1.toNat (ext R).2.2.toNat

/-- `(x1_R1, x2_R2, x3_R3)`, pressure.c:720-722 (and the same in the other three routines). -/
noncomputable def disp (E : Env) (D : Dom) (R : Infl.Rec) (t : ℕ × ℕ × ℕ) : ℝ × ℝ × ℝ :=
  let i := R.xs - D.lo.1 + t.1
  let j := R.ys - D.lo.2.1 + t.2.1
  let k := R.zs - D.lo.2.2 + t.2.2
  (((i + D.lo.1 : ℤ) : ℝ) * E.h.1 - R.x, ((j + D.lo.2.1 : ℤ) : ℝ) * E.h.2.1 - R.y,
   ((k + D.lo.2.2 : ℤ) : ℝ) * E.h.2.2 - R.z)

/-- The place `ishift_DM` of a node of the box in the arrays of the process. -/
def place (D : Dom) (R : Infl.Rec) (t : ℕ × ℕ × ℕ) : ℤ :=
  (R.zs - D.lo.2.2 + t.2.2) * D.nx * D.ny + (R.ys - D.lo.2.1 + t.2.1) * D.nx
    + (R.xs - D.lo.1 + t.1)

/-! ### Exchange and correlation -/

/-- The gradient term of one process in `Calculate_XC_pressure`, pressure.c:182-203. -/
noncomputable def gradP (E : Env) (D : Dom) : ℝ :=
  let l := E.G.lapc
  if E.G.cellTyp = 0 then
    (List.range (D.ncol * D.nd)).foldl (fun acc i =>
      acc + ((D.Dr i).1 * (D.Dr i).1 + (D.Dr i).2.1 * (D.Dr i).2.1 + (D.Dr i).2.2 * (D.Dr i).2.2)
        * D.Dxc i) 0 * E.dV
  else
    let l0 := l 0
    let l1 := 2 * l 1
    let l2 := 2 * l 2
    let l3 := l 4
    let l4 := 2 * l 5
    let l5 := l 8
    (List.range (D.ncol * D.nd)).foldl (fun acc i =>
      acc + ((D.Dr i).1 * (l0 * (D.Dr i).1 + l1 * (D.Dr i).2.1)
        + (D.Dr i).2.1 * (l3 * (D.Dr i).2.1 + l4 * (D.Dr i).2.2)
        + (D.Dr i).2.2 * (l5 * (D.Dr i).2.2 + l2 * (D.Dr i).1)) * D.Dxc i) 0 * E.dV

/-- The gradient term of one process in `Calculate_XC_stress`, stress.c:545-575. -/
noncomputable def gradS (E : Env) (D : Dom) : Ten :=
  E.dV • (List.range (D.ncol * D.nd)).foldl (fun (acc : Ten) i =>
    let g := if E.G.cellTyp = 0 then D.Dr i else Coord.gradToCart E.G (D.Dr i)
    acc + ![g.1 * g.1 * D.Dxc i, g.1 * g.2.1 * D.Dxc i, g.1 * g.2.2 * D.Dxc i,
      g.2.1 * g.2.1 * D.Dxc i, g.2.1 * g.2.2 * D.Dxc i, g.2.2 * g.2.2 * D.Dxc i]) 0

/-- The array `drhocJ` of one image, pressure.c:366-393 and stress.c:400-426. -/
noncomputable def drhoc (E : Env) (I : Img) : ℤ → ℝ × ℝ × ℝ :=
  let order : ℤ := 2 * E.FDn
  let e := ext I.R
  let nxp := e.1 + order
  let nyp := e.2.1 + order
  let nzp := e.2.2 + order
  let nx2p := nxp + order
  let ny2p := nyp + order
  fill (box nxp.toNat nyp.toNat nzp.toNat)
    (fun t => (t.2.2 : ℤ) * nxp * nyp + t.2.1 * nxp + t.1)
    (fun t => grad E I.rhocJ nx2p ny2p
      ((t.2.2 + E.FDn) * nx2p * ny2p + (t.2.1 + E.FDn) * nx2p + (t.1 + E.FDn)))
    (fun _ => (0, 0, 0))

/-- `Vxc_val`, pressure.c:416-420 and stress.c:449-453. -/
noncomputable def vxcAt (E : Env) (D : Dom) (q : ℤ) : ℝ :=
  if E.spin = 0 then D.Vxc q else 0.5 * (D.Vxc q + D.Vxc (D.nd + q))

/-- The vectors entering the core-charge integrals, pressure.c:404-415 and stress.c:437-448: the
gradient of the core charge and the displacement, both in Cartesian components. -/
noncomputable def coreVecs (E : Env) (D : Dom) (I : Img) (t : ℕ × ℕ × ℕ) :
    (ℝ × ℝ × ℝ) × (ℝ × ℝ × ℝ) :=
  let order : ℤ := 2 * E.FDn
  let nxp := (ext I.R).1 + order
  let nyp := (ext I.R).2.1 + order
  let x := disp E D I.R t
  let g := drhoc E I ((t.2.2 + E.FDn) * nxp * nyp + (t.2.1 + E.FDn) * nxp + (t.1 + E.FDn))
  if E.G.cellTyp ≠ 0 then (Coord.gradToCart E.G g, Coord.toCart E.G x) else (g, x)

/-- `Calculate_XC_pressure_nlcc` on one process, pressure.c:258-436. -/
noncomputable def nlccP (E : Env) (D : Dom) : ℝ :=
  D.imgs.foldl (fun acc l => l.foldl (fun acc (I : Img) => (nodes I.R).foldl (fun acc t =>
    let v := coreVecs E D I t
    acc + (v.1.1 * v.2.1 + v.1.2.1 * v.2.2.1 + v.1.2.2 * v.2.2.2) * vxcAt E D (place D I.R t))
    acc) acc) 0 * E.dV

/-- `Calculate_XC_stress_nlcc` on one process, stress.c:283-472. -/
noncomputable def nlccS (E : Env) (D : Dom) : Ten :=
  E.dV • D.imgs.foldl (fun acc l => l.foldl (fun acc (I : Img) => (nodes I.R).foldl
    (fun (acc : Ten) t =>
      let v := coreVecs E D I t
      let w := vxcAt E D (place D I.R t)
      acc + ![v.1.1 * v.2.1 * w, v.1.1 * v.2.2.1 * w, v.1.1 * v.2.2.2 * w,
        v.1.2.1 * v.2.2.1 * w, v.1.2.1 * v.2.2.2 * w, v.1.2.2 * v.2.2.2 * w]) acc) acc) 0

/-- `Calculate_XC_pressure`, pressure.c:151-226. -/
noncomputable def xcPressure (E : Env) (Exc corr : ℝ) (isgrad nlcc : Bool) (ps : List Dom) : ℝ :=
  let p := 3 * Exc - corr
  let p := if isgrad then p - (ps.map (gradP E)).sum else p
  if nlcc then p + (ps.map (nlccP E)).sum else p

/-- `Calculate_XC_stress`, stress.c:508-605. -/
noncomputable def xcStress (E : Env) (V Exc corr : ℝ) (isgrad nlcc : Bool) (ps : List Dom) : Ten :=
  let s : Ten := ![Exc - corr, 0, 0, Exc - corr, 0, Exc - corr]
  let s := if isgrad then s - (ps.map (gradS E)).sum else s
  let s : Ten := fun i => s i / V
  if nlcc then
    let n := (ps.map (nlccS E)).sum
    fun i => s i + n i / V
  else s

/-! ### Electrostatics -/

/-- `inv_4PI`. -/
noncomputable def inv4pi : ℝ := 0.25 / Real.pi

/-- The part of `pressure_el` from the nodes of the process, pressure.c:523-543. -/
noncomputable def elNodesP (E : Env) (D : Dom) : ℝ :=
  let l := E.G.lapc
  let sum (f : ℕ → ℝ) : ℝ := (List.range D.nd).foldl (fun acc i => acc + f i) 0
  let t2 := sum fun i => (D.rho i + 3 * D.b i) * D.phi i
  if E.G.cellTyp = 0 then
    let t1 := sum fun i => (D.Dphi i).1 * (D.Dphi i).1 + (D.Dphi i).2.1 * (D.Dphi i).2.1
      + (D.Dphi i).2.2 * (D.Dphi i).2.2
    inv4pi * t1 + 0.5 * t2
  else
    let xx := sum fun i => (D.Dphi i).1 * (D.Dphi i).1
    let yy := sum fun i => (D.Dphi i).2.1 * (D.Dphi i).2.1
    let zz := sum fun i => (D.Dphi i).2.2 * (D.Dphi i).2.2
    let xy := sum fun i => (D.Dphi i).1 * (D.Dphi i).2.1
    let xz := sum fun i => (D.Dphi i).1 * (D.Dphi i).2.2
    let yz := sum fun i => (D.Dphi i).2.1 * (D.Dphi i).2.2
    inv4pi * (l 0 * xx + l 4 * yy + l 8 * zz + 2 * (l 1 * xy + l 2 * xz + l 5 * yz)) + 0.5 * t2

/-- The part of `stress_el` from the nodes of the process, stress.c:703-713. -/
noncomputable def elNodesS (E : Env) (D : Dom) : Ten :=
  (List.range D.nd).foldl (fun (acc : Ten) i =>
    let g := Coord.gradToCart E.G (D.Dphi i)
    let t1 := 0.5 * (D.b i - D.rho i) * D.phi i
    acc + ![inv4pi * g.1 * g.1 + t1, inv4pi * g.1 * g.2.1, inv4pi * g.1 * g.2.2,
      inv4pi * g.2.1 * g.2.1 + t1, inv4pi * g.2.1 * g.2.2, inv4pi * g.2.2 * g.2.2 + t1]) 0

/-- The differences of the arrays of an image at a node, pressure.c:691-715 and
stress.c:882-904, 951-971: of `bJ`, `bJ_ref`, `VJ`, `VJ_ref`, with the places `indx_ex` and
`indx_2ex` of the node in the two extended boxes. -/
structure Diff where
  b : ℝ × ℝ × ℝ
  bref : ℝ × ℝ × ℝ
  V : ℝ × ℝ × ℝ
  Vref : ℝ × ℝ × ℝ
  q : ℤ
  q2 : ℤ

/-- See `Diff`. -/
noncomputable def diffs (E : Env) (I : Img) (t : ℕ × ℕ × ℕ) : Diff :=
  let n : ℤ := E.FDn
  let order : ℤ := 2 * E.FDn
  let nxp := (ext I.R).1 + order
  let nyp := (ext I.R).2.1 + order
  let nx2p := nxp + order
  let ny2p := nyp + order
  let q := (t.2.2 + n) * nxp * nyp + (t.2.1 + n) * nxp + (t.1 + n)
  let q2 := (t.2.2 + order) * nx2p * ny2p + (t.2.1 + order) * nx2p + (t.1 + order)
  ⟨grad E I.bJ nxp nyp q, grad E I.bJref nxp nyp q, grad E I.VJ nx2p ny2p q2,
   grad E I.VJref nx2p ny2p q2, q, q2⟩

/-- One node of one image in `Calculate_local_pressure`, pressure.c:718-735: `(pressure_el,
pressure_corr)`. -/
noncomputable def elStepP (E : Env) (D : Dom) (I : Img) (s : ℝ × ℝ) (t : ℕ × ℕ × ℕ) : ℝ × ℝ :=
  let d := diffs E I t
  let x := disp E D I.R t
  let p := place D I.R t
  let el := s.1 + (d.b.1 * x.1 + d.b.2.1 * x.2.1 + d.b.2.2 * x.2.2) * D.phi p
  let t1 := D.Vc p - I.VJref d.q2
  let t2 := D.Vc p
  let t3 := D.b p + D.bref p
  let corr := s.2 + (d.bref.1 * t1 + d.b.1 * t2 + (d.Vref.1 - d.V.1) * t3
    - d.Vref.1 * I.bJref d.q) * x.1
  let corr := corr + (d.bref.2.1 * t1 + d.b.2.1 * t2 + (d.Vref.2.1 - d.V.2.1) * t3
    - d.Vref.2.1 * I.bJref d.q) * x.2.1
  let corr := corr + (d.bref.2.2 * t1 + d.b.2.2 * t2 + (d.Vref.2.2 - d.V.2.2) * t3
    - d.Vref.2.2 * I.bJref d.q) * x.2.2
  (el, corr)

/-- One node of one image in `Calculate_local_stress`, stress.c:907-930 (orthogonal) and
974-1004 (oblique): `(stress_el, stress_corr)`. -/
noncomputable def elStepS (E : Env) (D : Dom) (I : Img) (s : Ten × Ten) (t : ℕ × ℕ × ℕ) :
    Ten × Ten :=
  let d := diffs E I t
  let cg (v : ℝ × ℝ × ℝ) := if E.G.cellTyp = 0 then v else Coord.gradToCart E.G v
  let x := if E.G.cellTyp = 0 then disp E D I.R t else Coord.toCart E.G (disp E D I.R t)
  let db := cg d.b
  let dbr := cg d.bref
  let dv := cg d.V
  let dvr := cg d.Vref
  let p := place D I.R t
  let f := D.phi p
  let t1 := D.Vc p - I.VJref d.q2
  let t2 := D.Vc p
  let t3 := D.b p + D.bref p
  let tx := dbr.1 * t1 + db.1 * t2 + (dvr.1 - dv.1) * t3 - dvr.1 * I.bJref d.q
  let ty := dbr.2.1 * t1 + db.2.1 * t2 + (dvr.2.1 - dv.2.1) * t3 - dvr.2.1 * I.bJref d.q
  let tz := dbr.2.2 * t1 + db.2.2 * t2 + (dvr.2.2 - dv.2.2) * t3 - dvr.2.2 * I.bJref d.q
  (s.1 + ![db.1 * x.1 * f, db.1 * x.2.1 * f, db.1 * x.2.2 * f, db.2.1 * x.2.1 * f,
     db.2.1 * x.2.2 * f, db.2.2 * x.2.2 * f],
   s.2 + ![tx * x.1, tx * x.2.1, tx * x.2.2, ty * x.2.1, ty * x.2.2, tz * x.2.2])

/-- `Calculate_local_pressure` on one process, pressure.c:523-748. -/
noncomputable def elP (E : Env) (D : Dom) : ℝ :=
  let s := D.imgs.foldl (fun s l => l.foldl (fun s (I : Img) =>
    (nodes I.R).foldl (elStepP E D I) s) s) (elNodesP E D, 0)
  (s.1 + 0.5 * s.2) * E.dV

/-- `Calculate_local_stress` on one process, stress.c:703-1017. -/
noncomputable def elS (E : Env) (D : Dom) : Ten :=
  let s := D.imgs.foldl (fun s l => l.foldl (fun s (I : Img) =>
    (nodes I.R).foldl (elStepS E D I) s) s) (elNodesS E D, 0)
  fun i => (s.1 i + 0.5 * s.2 i) * E.dV

/-- `Calculate_local_pressure`, pressure.c:748-755. -/
noncomputable def localPressure (E : Env) (Esc : ℝ) (ps : List Dom) : ℝ :=
  (ps.map (elP E)).sum + 3 * Esc

/-- `Calculate_local_stress`, stress.c:1016-1040. -/
noncomputable def localStress (E : Env) (V Esc : ℝ) (ps : List Dom) : Ten :=
  let s := (ps.map (elS E)).sum + ![Esc, 0, 0, Esc, 0, Esc]
  fun i => s i / V

/-! ### Nonlocal pseudopotential and kinetic energy -/

/-- The `option` argument of the k-point routines. -/
inductive Opt
  | SC
  | SO1
  | SO2
  deriving DecidableEq

/-- What the loops read about an atom type: `lmax`, `localPsd`, `ppl`, `ppl_soc`, `Gamma`,
`Gamma_soc`, `nAtomv`. -/
structure Typ where
  lmax : ℕ
  lloc : ℤ
  ppl : ℕ → ℕ
  pplSoc : ℕ → ℕ
  gam : ℕ → ℝ
  gamSoc : ℕ → ℝ
  n : ℕ

variable {𝕜 : Type} [RCLike 𝕜]

/-- An image in `Atom_Influence_nloc`: its position, `atom_index`, `ndc`, `grid_pos`, and the
matrices `Chi_c` (`Chi`), `Chisowt0`, `Chisowtl`, `Chisowtnl` as functions of row and column. -/
structure NImg (𝕜 : Type) where
  R : ℝ × ℝ × ℝ
  atom : ℕ
  ndc : ℕ
  pos : ℕ → ℕ
  chi : ℕ → ℕ → 𝕜
  so0 : ℕ → ℕ → 𝕜
  sol : ℕ → ℕ → 𝕜
  sonl : ℕ → ℕ → 𝕜

/-- A process of `dmcomm`: `DMVertices_dmcomm[0], [2], [4]`, `Nx_d_dmcomm`, `Ny_d_dmcomm`,
`Nd_d_dmcomm`, the orbitals, their derivatives along the three lattice directions (in the same
layout) and the images by type. -/
structure PDom (𝕜 : Type) where
  lo : ℤ × ℤ × ℤ
  nx : ℕ
  ny : ℕ
  nd : ℕ
  psi : ℕ → 𝕜
  D : Fin 3 → ℕ → 𝕜
  imgs : List (List (NImg 𝕜))

/-- The processes sharing a set of spins, k-points and bands: `Nband_bandcomm`,
`Nspinor_spincomm`, `Nkpts_kptcomm`, `band_start_indx`, `Nstates`, `occ`, `kptWts_loc`, `k1_loc`
`k2_loc` `k3_loc` and the processes of `dmcomm`. -/
structure Grp (𝕜 : Type) where
  ncol : ℕ
  nsp : ℕ
  Nk : ℕ
  b0 : ℕ
  Ns : ℕ
  occ : ℕ → ℝ
  wt : ℕ → ℝ
  k : ℕ → ℝ × ℝ × ℝ
  doms : List (PDom 𝕜)

/-- The types, `IP_displ` and `IP_displ_SOC`, `n_atom`, `nproj` and `nprojso_ext`, the cell
lengths, `occfac` and `Nkpts`. -/
structure NEnv where
  Ts : List Typ
  IP : ℕ → ℕ
  IPsoc : ℕ → ℕ
  natom : ℕ
  np : ℕ → ℕ
  npSoc : ℕ → ℕ
  L : ℝ × ℝ × ℝ
  occfac : ℝ
  Nkpts : ℕ

/-- `IP_displ` for an option, pressure.c:1227, stress.c:1742. -/
def NEnv.ip (N : NEnv) (o : Opt) : ℕ → ℕ := if o = .SC then N.IP else N.IPsoc

/-- `nproj` for an option and a type, pressure.c:1160. -/
def NEnv.nproj (N : NEnv) (o : Opt) (ityp : ℕ) : ℕ := if o = .SC then N.np ityp else N.npSoc ityp

/-- `nproj` of a type, nlocVecRoutines.c:440-444 and 626-630 (the same loop at 780-784), and
`nprojso_ext`, spinOrbitCoupling.c:250-267 (372-376). -/
def nprojOf (o : Opt) (T : Typ) : ℕ :=
  if o = .SC then
    (List.range (T.lmax + 1)).foldl (fun (n l : ℕ) =>
      if (l : ℤ) = T.lloc then n else n + T.ppl l * (2 * l + 1)) 0
  else
    (List.range' 1 T.lmax).foldl (fun (n l : ℕ) =>
      if (l : ℤ) = T.lloc then n else n + T.pplSoc (l - 1) * (2 * l)) 0

/-- `CalculateNonlocalInnerProductIndex`, nlocVecRoutines.c:769-791, and
`CalculateNonlocalInnerProductIndexSOC`, spinOrbitCoupling.c:363-383. -/
def ipTable (o : Opt) (Ts : List Typ) : ℕ → ℕ :=
  (Ts.foldl (fun (st : ℕ × (ℕ → ℕ)) T => (List.range T.n).foldl (fun (st : ℕ × (ℕ → ℕ)) _ =>
    (st.1 + 1, Function.update st.2 (st.1 + 1) (st.2 st.1 + nprojOf o T))) st)
    (0, fun _ => 0)).2

/-- The tables as they are set up before the solver starts. -/
def mkEnv (Ts : List Typ) (L : ℝ × ℝ × ℝ) (occfac : ℝ) (Nkpts : ℕ) : NEnv where
  Ts := Ts
  IP := ipTable .SC Ts
  IPsoc := ipTable .SO1 Ts
  natom := (Ts.map Typ.n).sum
  np i := (Ts[i]?.map (nprojOf .SC)).getD 0
  npSoc i := (Ts[i]?.map (nprojOf .SO1)).getD 0
  L := L
  occfac := occfac
  Nkpts := Nkpts

/-- `bloch_fac` of the integrals with `psi`-derivatives, pressure.c:1171-1172. -/
noncomputable def bloch (L k R : ℝ × ℝ × ℝ) : 𝕜 :=
  let th := -k.1 * (⌊R.1 / L.1⌋ * L.1) - k.2.1 * (⌊R.2.1 / L.2.1⌋ * L.2.1)
    - k.2.2 * (⌊R.2.2 / L.2.2⌋ * L.2.2)
  ((Real.cos th : ℝ) : 𝕜) + ((Real.sin th : ℝ) : 𝕜) * RCLike.I

/-- `bloch_fac` of the integrals with `psi`, forces.c:1202-1203. -/
noncomputable def blochC (L k R : ℝ × ℝ × ℝ) : 𝕜 :=
  let th := -k.1 * (⌊R.1 / L.1⌋ * L.1) - k.2.1 * (⌊R.2.1 / L.2.1⌋ * L.2.1)
    - k.2.2 * (⌊R.2.2 / L.2.2⌋ * L.2.2)
  ((Real.cos th : ℝ) : 𝕜) - ((Real.sin th : ℝ) : 𝕜) * RCLike.I

/-- `m[q] += v`. -/
def addAt (m : ℕ → 𝕜) (q : ℕ) (v : 𝕜) : ℕ → 𝕜 := Function.update m q (m q + v)

/-- The loops over k-points, types, images, spinors, bands and projectors of the three
`Compute_Integral_` routines: `v` is what is added to the entry of `alpha` (or `beta`). -/
noncomputable def integral (N : NEnv) (P : Grp 𝕜) (o : Opt) (D : PDom 𝕜)
    (v : ℕ → NImg 𝕜 → ℕ → ℕ → ℕ → 𝕜) : ℕ → 𝕜 :=
  let ip := N.ip o
  (List.range P.Nk).foldl (fun m k => D.imgs.zipIdx.foldl (fun m (li : List (NImg 𝕜) × ℕ) =>
    if N.nproj o li.2 = 0 then m
    else li.1.foldl (fun m (I : NImg 𝕜) => (List.range P.nsp).foldl (fun m s =>
      (List.range P.ncol).foldl (fun m n => (List.range (N.nproj o li.2)).foldl (fun m p =>
        addAt m (ip N.natom * P.ncol * P.nsp * k + (ip N.natom * P.ncol * s + ip I.atom * P.ncol)
          + (n * N.nproj o li.2 + p)) (v k I s n p)) m) m) m) m) m) (fun _ => 0)

/-- `Compute_Integral_psi_Chi_kpt`, forces.c:1167-1231 (849-884 for the Γ-point). -/
noncomputable def alpha (E : Env) (N : NEnv) (P : Grp 𝕜) (o : Opt) (D : PDom 𝕜) : ℕ → 𝕜 :=
  integral N P o D fun k I s n p =>
    let chi := match o with
      | .SC => I.chi
      | .SO1 => I.so0
      | .SO2 => if s = 0 then I.sol else I.sonl
    blochC N.L (P.k k) I.R * (E.dV : 𝕜) * ((List.range I.ndc).map fun i => chi i p *
      (starRingEnd 𝕜) (D.psi (k * (D.nd * P.nsp * P.ncol) + (n * (D.nd * P.nsp) + s * D.nd)
        + I.pos i))).sum

/-- The displacement of a node of the process from an image, pressure.c:1188-1194 and
stress.c:1770-1776. -/
noncomputable def ndisp (E : Env) (D : PDom 𝕜) (R : ℝ × ℝ × ℝ) (indx : ℕ) : ℝ × ℝ × ℝ :=
  let k := indx / (D.nx * D.ny)
  let j := (indx - k * (D.nx * D.ny)) / D.nx
  let i := indx % D.nx
  (((i : ℤ) + D.lo.1 : ℤ) * E.h.1 - R.1, ((j : ℤ) + D.lo.2.1 : ℤ) * E.h.2.1 - R.2.1,
   ((k : ℤ) + D.lo.2.2 : ℤ) * E.h.2.2 - R.2.2)

/-- The component of a triple, `(d == 0) ? a : ((d == 1) ? b : c)`. -/
def comp (d : Fin 3) (x : ℝ × ℝ × ℝ) : ℝ := if d = 0 then x.1 else if d = 1 then x.2.1 else x.2.2

/-- The sum and its position shared by the two routines below: `dpsi` is the derivative, `X` the
displacement factor. -/
noncomputable def chiX (N : NEnv) (P : Grp 𝕜) (o : Opt) (D : PDom 𝕜) (dpsi : ℕ → 𝕜)
    (X : NImg 𝕜 → ℕ → ℝ) : ℕ → 𝕜 :=
  integral N P o D fun k I s n p =>
    let chi := match o with
      | .SC => I.chi
      | .SO1 => I.so0
      | .SO2 => if s = 0 then I.sonl else I.sol
    let is := if o = .SO2 then 1 - s else s
    bloch N.L (P.k k) I.R * ((List.range I.ndc).map fun i => (starRingEnd 𝕜) (chi i p) *
      (dpsi (k * (D.nd * P.nsp * P.ncol) + (n * (D.nd * P.nsp) + is * D.nd) + I.pos i)
        * ((X I (I.pos i) : ℝ) : 𝕜))).sum

/-- `Compute_Integral_Chi_XmRjp_beta_Dpsi_kpt`, pressure.c:1134-1208 (894-943 for the Γ-point):
derivative along the lattice direction `d` times the displacement along it. -/
noncomputable def betaP (E : Env) (N : NEnv) (P : Grp 𝕜) (o : Opt) (D : PDom 𝕜) (d : Fin 3) :
    ℕ → 𝕜 :=
  chiX N P o D (D.D d) fun I indx => comp d (ndisp E D I.R indx)

/-- `dpsi_full` in direction `c`, stress.c:1531-1580 (1137-1173 for the Γ-point). -/
noncomputable def dpsiFull (E : Env) (D : PDom 𝕜) (c : Fin 3) (q : ℕ) : 𝕜 :=
  if E.G.cellTyp = 0 then D.D c q
  else (E.G.grad c.val : 𝕜) * D.D 0 q + (E.G.grad (c.val + 3) : 𝕜) * D.D 1 q
    + (E.G.grad (c.val + 6) : 𝕜) * D.D 2 q

/-- `Compute_Integral_Chi_StXmRjp_beta_Dpsi_kpt`, stress.c:1719-1791 (1276-1324 for the
Γ-point): Cartesian derivative `c` times the Cartesian displacement `c'`. -/
noncomputable def betaS (E : Env) (N : NEnv) (P : Grp 𝕜) (o : Opt) (D : PDom 𝕜) (c c' : Fin 3) :
    ℕ → 𝕜 :=
  chiX N P o D (dpsiFull E D c) fun I indx =>
    let x := ndisp E D I.R indx
    E.G.U c'.val * x.1 + E.G.U (3 + c'.val) * x.2.1 + E.G.U (6 + c'.val) * x.2.2

/-- `ppl` for an option, pressure.c:1251. -/
def pplOf (o : Opt) (T : Typ) (l : ℕ) : ℕ := if o = .SC then T.ppl l else T.pplSoc (l - 1)

/-- `mexclude`, pressure.c:1250. -/
def mex (o : Opt) (l : ℕ) : ℤ :=
  match o with
  | .SC => l + 1
  | .SO1 => 0
  | .SO2 => l

/-- `scaled_gamma_Jl`, pressure.c:1261-1263. -/
noncomputable def coef (o : Opt) (T : Typ) (s ld np l : ℕ) (m : ℤ) : ℝ :=
  match o with
  | .SC => T.gam (ld + np)
  | .SO1 => (if s = 0 then 1 else -1) * 0.5 * m * T.gamSoc (ld + np)
  | .SO2 => 0.5 * Real.sqrt ((l * (l + 1) : ℤ) - m * (m + 1)) * T.gamSoc (ld + np)

section Walk

variable {M : Type} [AddCommGroup M] [Module ℝ M]

/-- The loop over `m`: `count` and the sum. -/
noncomputable def mLoop (o : Opt) (T : Typ) (s ld np l : ℕ) (f : ℕ → M) (st : ℕ × M) : ℕ × M :=
  (List.range (2 * l + 1)).foldl (fun (st : ℕ × M) (i : ℕ) =>
    let m : ℤ := (i : ℤ) - l
    if m = mex o l then st else (st.1 + 1, st.2 + coef o T s ld np l m • f st.1)) st

/-- The loops over `l`, `np` and `m` for one band, pressure.c:1246-1274, stress.c:1964-1994:
`count` and the sum of the coefficients times `f count`. -/
noncomputable def lLoop (o : Opt) (T : Typ) (s : ℕ) (f : ℕ → M) (c : ℕ) : ℕ × M :=
  let l0 := if o = .SC then 0 else 1
  let r := (List.range' l0 (T.lmax + 1 - l0)).foldl (fun (st : ℕ × ℕ × M) (l : ℕ) =>
    if (l : ℤ) = T.lloc then (st.1, st.2.1 + pplOf o T l, st.2.2)
    else
      let r := (List.range (pplOf o T l)).foldl
        (fun (x : ℕ × M) np => mLoop o T s st.2.1 np l f x) (st.1, st.2.2)
      (r.1, st.2.1 + pplOf o T l, r.2)) (c, 0, 0)
  (r.1, r.2.2)

/-- The loop over the bands for one atom: `count` and `pJ` (`SJ`, `eJ`). -/
noncomputable def bandLoop (E : Env) (P : Grp 𝕜) (o : Opt) (T : Typ) (k s : ℕ) (f : ℕ → M)
    (c : ℕ) : ℕ × M :=
  (List.range P.ncol).foldl (fun (st : ℕ × M) n =>
    let g := P.occ (k * P.Ns + (if E.spin = 1 then s * P.Nk * P.Ns else 0) + (P.b0 + n))
    let r := lLoop o T s f st.1
    (r.1, st.2 + g • r.2)) (c, 0)

/-- The loops over types and atoms for one k-point and spinor; `sc` is the factor of the weight
in the final line. -/
noncomputable def atomLoop (E : Env) (N : NEnv) (P : Grp 𝕜) (o : Opt) (sc : ℝ) (k s : ℕ)
    (f : ℕ → M) (st : ℕ × M) : ℕ × M :=
  N.Ts.foldl (fun (st : ℕ × M) T => (List.range T.n).foldl (fun (st : ℕ × M) _ =>
    let r := bandLoop E P o T k s f st.1
    (r.1, st.2 + (sc * (P.wt k / N.Nkpts)) • r.2)) st) st

/-- The loops of `Compute_pressure_nloc_by_integrals_kpt`, pressure.c:1234-1286, and
`Compute_stress_tensor_nloc_by_integrals_kpt`, stress.c:1951-2004. -/
noncomputable def walk (E : Env) (N : NEnv) (P : Grp 𝕜) (o : Opt) (sc : ℝ) (f : ℕ → M) : M :=
  ((List.range P.Nk).foldl (fun st k => (List.range P.nsp).foldl
    (fun st s => atomLoop E N P o sc k s f st) st) ((0, 0) : ℕ × M)).2

end Walk

/-- `creal(a)*creal(b) - cimag(a)*cimag(b)`. -/
def reMul (a b : 𝕜) : ℝ := RCLike.re a * RCLike.re b - RCLike.im a * RCLike.im b

/-- `Compute_pressure_nloc_by_integrals_kpt`, pressure.c:1215-1286 (949-1000). -/
noncomputable def nlP (E : Env) (N : NEnv) (P : Grp 𝕜) (o : Opt) (al : ℕ → 𝕜)
    (be : Fin 3 → ℕ → 𝕜) : ℝ :=
  walk E N P o (-2) fun c => reMul (al c) (be 0 c) + reMul (al c) (be 1 c) + reMul (al c) (be 2 c)

/-- `Compute_stress_tensor_nloc_by_integrals_kpt`, stress.c:1930-2005 (1427-1487); `be c c'` is
the block of derivative `c` and displacement `c'`. -/
noncomputable def nlS (E : Env) (N : NEnv) (P : Grp 𝕜) (o : Opt) (al : ℕ → 𝕜)
    (be : Fin 3 → Fin 3 → ℕ → 𝕜) : Ten :=
  walk E N P o (-1) fun c => ![reMul (al c) (be 0 0 c), reMul (al c) (be 0 1 c),
    reMul (al c) (be 0 2 c), reMul (al c) (be 1 1 c), reMul (al c) (be 1 2 c),
    reMul (al c) (be 2 2 c)]

/-- `Compute_Nonlocal_Energy_by_integrals_kpt`, stress.c:1847-1922 (1375-1422): for `SO2` only
the first spinor is visited and the two halves of `alpha` are combined. -/
noncomputable def nlE (E : Env) (N : NEnv) (P : Grp 𝕜) (o : Opt) (al : ℕ → 𝕜) : ℝ :=
  let shift := N.ip o N.natom * P.ncol
  if o = .SO2 then
    ((List.range P.Nk).foldl (fun st k => ((List.range P.nsp).take 1).foldl (fun st s =>
      let r := atomLoop E N P o 1 k s (fun c => 2 * (RCLike.re (al c) * RCLike.re (al (c + shift))
        + RCLike.im (al c) * RCLike.im (al (c + shift)))) st
      (r.1 + shift, r.2)) st) ((0, 0) : ℕ × ℝ)).2
  else walk E N P o 1 fun c => RCLike.re (al c) * RCLike.re (al c)
    + RCLike.im (al c) * RCLike.im (al c)

/-- The options visited: `SC`, and with spin-orbit coupling `SO1` and `SO2`. -/
def opts (soc : Bool) : List Opt := if soc then [.SC, .SO1, .SO2] else [.SC]

/-- `energy_nl` of one group, stress.c:1644-1656 (1209-1215) and pressure.c:1090-1098. -/
noncomputable def energyNl (E : Env) (N : NEnv) (soc : Bool) (P : Grp 𝕜) : ℝ :=
  ((opts soc).map fun o => nlE E N P o ((P.doms.map (alpha E N P o)).sum)).sum
    * (N.occfac / E.dV)

/-- `Calculate_nonlocal_pressure_kpt`, pressure.c:1006-1126 (815-888), summed over the groups. -/
noncomputable def nonlocalPressure (E : Env) (N : NEnv) (soc : Bool) (Ps : List (Grp 𝕜)) : ℝ :=
  (Ps.map fun P => ((opts soc).map fun o => nlP E N P o ((P.doms.map (alpha E N P o)).sum)
    (fun d => (P.doms.map fun D => betaP E N P o D d).sum)).sum * N.occfac
    - energyNl E N soc P).sum

/-- `Calculate_nonlocal_kinetic_stress_kpt`, stress.c:1493-1709 (1107-1266): `stress_nl`. -/
noncomputable def nonlocalStress (E : Env) (N : NEnv) (V : ℝ) (soc : Bool) (Ps : List (Grp 𝕜)) :
    Ten :=
  let s : Ten := (Ps.map fun P =>
    let s := (N.occfac * 2) • ((opts soc).map fun o => nlS E N P o
      ((P.doms.map (alpha E N P o)).sum)
      (fun c c' => (P.doms.map fun D => betaS E N P o D c c').sum)).sum
    let e := energyNl E N soc P
    (![s 0 - e, s 1, s 2, s 3 - e, s 4, s 5 - e] : Ten)).sum
  fun i => s i / V

/-- `Compute_stress_tensor_kinetic_kpt` on one process, stress.c:1797-1839 (1330-1369), for
one pair of directions. -/
noncomputable def kinPair (E : Env) (N : NEnv) (P : Grp 𝕜) (D : PDom 𝕜) (c c' : Fin 3) : ℝ :=
  (List.range P.Nk).foldl (fun acc k =>
    let tk := (List.range P.ncol).foldl (fun tk n => (List.range P.nsp).foldl (fun tk s =>
      let dd := (List.range D.nd).foldl (fun dd i =>
        let q := k * (D.nd * P.nsp * P.ncol) + n * (D.nd * P.nsp) + s * D.nd + i
        dd + (RCLike.re (dpsiFull E D c q) * RCLike.re (dpsiFull E D c' q)
          + RCLike.im (dpsiFull E D c q) * RCLike.im (dpsiFull E D c' q))) 0
      let g := P.occ (k * P.Ns + (if E.spin = 1 then s * P.Nk * P.Ns else 0) + (n + P.b0))
      tk + dd * g) tk) 0
    acc - N.occfac * P.wt k / N.Nkpts * tk) 0

/-- `stress_k`, stress.c:1614, 1622-1624, 1670-1707. -/
noncomputable def kineticStress (E : Env) (N : NEnv) (V : ℝ) (Ps : List (Grp 𝕜)) : Ten :=
  let s : Ten := (Ps.map fun P => (P.doms.map fun D =>
    (![kinPair E N P D 0 0, kinPair E N P D 0 1, kinPair E N P D 0 2, kinPair E N P D 1 1,
      kinPair E N P D 1 2, kinPair E N P D 2 2] : Ten)).sum).sum
  fun i => s i / V

/-! ### Totals -/

/-- The scalars of a converged calculation: `Exc`, `Exc_corr`, `Esc`, `Eband`, `Escc`. -/
structure Scal where
  Exc : ℝ
  corr : ℝ
  Esc : ℝ
  Eband : ℝ
  Escc : ℝ

/-- The total pressure of `Calculate_electronic_pressure`, pressure.c:121-136. -/
noncomputable def pressure (E : Env) (N : NEnv) (V : ℝ) (isgrad nlcc soc : Bool) (s : Scal)
    (ps : List Dom) (Ps : List (Grp 𝕜)) : ℝ :=
  (-2 * (s.Eband + s.Escc) + xcPressure E s.Exc s.corr isgrad nlcc ps
    + localPressure E s.Esc ps + nonlocalPressure E N soc Ps) / (-3 * V)

/-- The components set to zero for slabs and wires, stress.c:214-231. -/
def clear (BC : ℕ) (bc : ℤ × ℤ × ℤ) (s : Ten) : Ten :=
  if BC = 3 then
    if bc.1 = 0 ∧ bc.2.1 = 0 then ![s 0, s 1, 0, s 3, 0, 0]
    else if bc.1 = 0 ∧ bc.2.2 = 0 then ![s 0, 0, s 2, 0, 0, s 5]
    else if bc.2.1 = 0 ∧ bc.2.2 = 0 then ![0, 0, 0, s 3, s 4, s 5]
    else s
  else if BC = 4 then
    if bc.1 = 0 then ![s 0, 0, 0, 0, 0, 0]
    else if bc.2.1 = 0 then ![0, 0, 0, s 3, 0, 0]
    else if bc.2.2 = 0 then ![0, 0, 0, 0, 0, s 5]
    else s
  else s

/-- The total stress and the pressure of `Calculate_electronic_stress_linear`,
stress.c:198-233; the pressure is `none` when it is not set. -/
noncomputable def stress (E : Env) (N : NEnv) (V : ℝ) (BC : ℕ) (bc : ℤ × ℤ × ℤ)
    (isgrad nlcc soc : Bool) (s : Scal) (ps : List Dom) (Ps : List (Grp 𝕜)) : Ten × Option ℝ :=
  let t : Ten := fun i => kineticStress E N V Ps i + xcStress E V s.Exc s.corr isgrad nlcc ps i
    + nonlocalStress E N V soc Ps i + localStress E V s.Esc ps i
  (clear BC bc t, if BC = 2 then some (-1.0 * (t 0 + t 3 + t 5) / 3.0) else none)

/-! ### Ions -/

/-- The ionic stress and the ionic pressure of `Calculate_ionic_stress_linear`, stress.c:63-117
(before they are added to the totals).  An atom is its mass and its velocity. -/
noncomputable def ionic (V : ℝ) (BC : ℕ) (at_ : List (ℝ × (Fin 3 → ℝ))) : Ten × Option ℝ :=
  let acc := at_.foldl (fun (s : (Fin 3 → ℝ) × ℝ) a => (s.1 + a.1 • a.2, s.2 + a.1)) (0, 0)
  let avg : Fin 3 → ℝ := fun j => acc.1 j / acc.2
  let cmp (j k : Fin 3) : ℝ :=
    at_.foldl (fun s a => s - a.1 * (a.2 j - avg j) * (a.2 k - avg k)) 0
  let s : Ten := ![cmp 0 0, cmp 0 1, cmp 0 2, cmp 1 1, cmp 1 2, cmp 2 2]
  let t : Ten := fun i => s i / V
  (t, if BC = 2 then some (-1.0 * (t 0 + t 3 + t 5) / 3.0) else none)

end Sparc.Pres

import Verif.Lap.Model
import Verif.Infl.Model
import Mathlib.Analysis.SpecialFunctions.Trigonometric.Basic

/-!
# Pseudocharge densities (model)

`Generate_PseudoChargeDensity`, `Calc_lapV`, `Calculate_Pseudopot_Ref` and `poisson_RHS`,
`/repo/src/electrostatics.c:772-1586`, with the end of `Calculate_elecstPotential` (1671-1677).

Simplifications.  `double` becomes `ℝ`, `int` becomes `ℤ` or `ℕ`.  The three splines of an atom
type (`rVloc`, `rhoIsoAtom`, `rho_c_table`) enter as functions of the distance; the interpolation
itself is modelled in `Verif.Spline`.  The arrays allocated for one image (`R`, `VJ`, `VJ_ref`,
`rho_J`, `rho_c_J`, `bJ`, `bJ_ref`, `dV1`, `dV2`) are memories whose entries hold the junk `J`
until they are written.  The counter `count` of the distance loop is written out as
`i + j*nxp + k*nxp*nyp`.  The cyclix cell types (above 20) are left out.  `order = 2*FDn`.
`MPI_Allreduce` over `dmcomm_phi` is the sum of the list of the processes' values.
-/

namespace Sparc.Pchg

open Loop Lap

/-! ### One image -/

/-- `Calculate_Pseudopot_Ref`, electrostatics.c:1465-1483, for one distance.  `Z` is the
argument `Znucl`; the program passes minus the valence charge (956). -/
noncomputable def vref (rcut Z R : ℝ) : ℝ :=
  if R ≤ rcut then
    let R2 := R * R
    let C3 := rcut * rcut * rcut
    let C6 := C3 * C3
    (R2 * (R2 * R * (5.6 / C6 + R * (1.8 * R / (C6 * rcut * rcut) - 6.0 / (C6 * rcut)))
      - 2.8 / C3) + 2.4 / rcut) * Z
  else Z / R

/-- What the routine reads about one atom type: `Znucl`, `Vloc_0`, the last radius of the radial
grid (`rchrg`, electrostatics.c:864) and the three splines. -/
structure Spec where
  Z : ℝ
  Vloc0 : ℝ
  rchrg : ℝ
  rV : ℝ → ℝ
  rho : ℝ → ℝ
  rhoc : ℝ → ℝ

/-- `VJ` at one distance, electrostatics.c:968-986. -/
noncomputable def vj (S : Spec) (R : ℝ) : ℝ :=
  if |R| < Infl.tol then S.Vloc0
  else if R > S.rchrg then -S.Z / R
  else S.rV R / R

/-- `rho_J` at one distance, electrostatics.c:995-1014. -/
noncomputable def rhoj (S : Spec) (R : ℝ) : ℝ := if R > S.rchrg then 0 else S.rho R

/-- `rho_c_J` at one distance, electrostatics.c:1004-1014. -/
noncomputable def rhocj (S : Spec) (R : ℝ) : ℝ := if R > S.rchrg then 0 else S.rhoc R

/-- The length of `(x, y, z)`, electrostatics.c:910 for `cell_typ == 0` and 923-924 for the
oblique types; `none` for the others (the cyclix branch, 938, is left out). -/
noncomputable def len (typ : ℕ) (metric : ℕ → ℝ) (x y z : ℝ) : Option ℝ :=
  if typ = 0 then some (Real.sqrt (x * x + y * y + z * z))
  else if 10 < typ ∧ typ < 20 then
    some (Real.sqrt (metric 0 * (x * x) + metric 1 * (x * y) + metric 2 * (x * z)
      + metric 4 * (y * y) + metric 5 * (y * z) + metric 8 * (z * z)))
  else none

/-- `Calc_lapV`, electrostatics.c:1262-1408 (cell types 0 and 11 to 17); the rest of the
`switch` is `none`: the cyclix types are left out, any other exits.  `dV1` and `dV2` are the
contents of the fresh arrays. -/
noncomputable def calcLapV (C : Coefs) (typ : ℕ) (V : Mem) (FDn : ℕ) (nxp nyp nzp nx ny nz : ℤ)
    (w : ℕ → ℝ) (w2 : ℝ) (dV1 dV2 bJ : Mem) : Option Mem :=
  let n : ℤ := FDn
  let nxny := nx * ny
  let nxnyE := nxp * nyp
  let nxEny := nxp * ny
  let nxnyEx := nx * nyp
  if typ = 0 then
    some (stencil3 V FDn nx nxp nxny nxnyE 0 nx 0 ny 0 nz n n n w w2 0 V bJ)
  else if typ = 11 then
    let D := calcDX V dV1 FDn nxp nxp nxp nxnyE nxEny 0 nxp 0 ny 0 nz 0 n n C.D1y 0
    some (stencil4 V D FDn 1 nx nxp nxp nxny nxnyE nxEny 0 nx 0 ny 0 nz n n n n 0 0 w w2 0 V bJ)
  else if typ = 12 then
    let D := calcDX V dV1 FDn nxnyE nxp nxp nxnyE nxEny 0 nxp 0 ny 0 nz 0 n n C.D1z 0
    some (stencil4 V D FDn 1 nx nxp nxp nxny nxnyE nxEny 0 nx 0 ny 0 nz n n n n 0 0 w w2 0 V bJ)
  else if typ = 13 then
    let D := calcDX V dV1 FDn nxnyE nxp nx nxnyE nxnyEx 0 nx 0 nyp 0 nz n 0 n C.D1z 0
    some (stencil4 V D FDn nx nx nxp nx nxny nxnyE nxnyEx 0 nx 0 ny 0 nz n n n 0 n 0 w w2 0 V bJ)
  else if typ = 14 then
    let D := calcDX12 V dV1 FDn nxp nxnyE nxp nxp nxnyE nxEny 0 nxp 0 ny 0 nz 0 n n C.D1xy C.D1xz
    some (stencil4 V D FDn 1 nx nxp nxp nxny nxnyE nxEny 0 nx 0 ny 0 nz n n n n 0 0 w w2 0 V bJ)
  else if typ = 15 then
    let D := calcDX12 V dV1 FDn 1 nxp nxp nx nxnyE nxny 0 nx 0 ny 0 nzp n n 0 C.D1zx C.D1zy
    some (stencil4 V D FDn nxny nx nxp nx nxny nxnyE nxny 0 nx 0 ny 0 nz n n n 0 0 n w w2 0 V bJ)
  else if typ = 16 then
    let D := calcDX12 V dV1 FDn 1 nxnyE nxp nx nxnyE nxnyEx 0 nx 0 nyp 0 nz n 0 n C.D1yx C.D1yz
    some (stencil4 V D FDn nx nx nxp nx nxny nxnyE nxnyEx 0 nx 0 ny 0 nz n n n 0 n 0 w w2 0 V bJ)
  else if typ = 17 then
    let D1 := calcDX12 V dV1 FDn nxp nxnyE nxp nxp nxnyE nxEny 0 nxp 0 ny 0 nz 0 n n C.D1xy C.D1xz
    let D2 := calcDX V dV2 FDn nxnyE nxp nx nxnyE nxnyEx 0 nx 0 nyp 0 nz n 0 n C.D1z 0
    some (stencil5 V D1 D2 FDn 1 nx nx nxp nxp nx nxny nxnyE nxEny nxnyEx 0 nx 0 ny 0 nz
      n n n n 0 0 0 n 0 w w2 0 V bJ)
  else none

/-- The grid functions of one process and the local part of `Esc`. -/
structure St where
  at_ : Mem
  core : Mem
  magx : Mem
  magy : Mem
  magz : Mem
  b : Mem
  bref : Mem
  Vc : Mem
  Esc : ℝ

/-- What the whole calculation shares: cell type, `metricT`, stencil coefficients, half the
order, `REFERENCE_CUTOFF`, `spin_typ`, and the junk in fresh arrays. -/
structure Env where
  typ : ℕ
  metric : ℕ → ℝ
  C : Coefs
  FDn : ℕ
  rcut : ℝ
  spin : ℕ
  J : Mem
  Jw : ℕ → ℝ

/-- `m[q] += v`. -/
def add (m : Mem) (q : ℤ) (v : ℝ) : Mem := Function.update m q (m q + v)

/-- `inv_4PI`, electrostatics.c:791. -/
noncomputable def inv4pi : ℝ := 0.25 / Real.pi

/-- `Lap_wt`, electrostatics.c:827-835. -/
noncomputable def weights (E : Env) : ℕ → ℝ :=
  if E.typ = 0 then lapWeights E.C E.FDn (-inv4pi) E.Jw else lapWt E.C E.typ E.FDn (-inv4pi) E.Jw

/-- `w2_diag`, electrostatics.c:825. -/
noncomputable def w2diag (E : Env) : ℝ := (E.C.D2x 0 + E.C.D2y 0 + E.C.D2z 0) * -inv4pi

/-- A loop over the extended box writing a function of the position,
`m[i + j*nxp + k*nxp*nyp] = f i j k`, over junk. -/
def tabulate (nxp nyp nzp : ℤ) (f : ℕ → ℕ → ℕ → ℝ) (junk : Mem) : Mem :=
  fill (box nxp.toNat nyp.toNat nzp.toNat)
    (fun t => (t.2.2 : ℤ) * (nxp * nyp) + t.2.1 * nxp + t.1) (fun t => f t.1 t.2.1 t.2.2) junk

/-- A loop `for (i = 0; i < n; i++) out[i] = f(R[i])` over a fresh array. -/
def pointwise (n : ℤ) (f : ℝ → ℝ) (R junk : Mem) : Mem := fun q =>
  if 0 ≤ q ∧ q < n then f (R q) else junk q

/-- The array `R` of one image, electrostatics.c:890-930: the distance between the image at
`(x0, y0, z0)` and the nodes of the extended box.  For other cell types it stays unwritten. -/
noncomputable def dists (E : Env) (dx dy dz : ℝ) (R : Infl.Rec) (nxp nyp nzp : ℤ) : Mem :=
  let icor := R.xs - E.FDn
  let jcor := R.ys - E.FDn
  let kcor := R.zs - E.FDn
  let xsh := R.x - dx * icor
  let ysh := R.y - dy * jcor
  let zsh := R.z - dz * kcor
  if E.typ = 0 ∨ 10 < E.typ ∧ E.typ < 20 then
    tabulate nxp nyp nzp (fun i j k =>
      (len E.typ E.metric (i * dx - xsh) (j * dy - ysh) (k * dz - zsh)).getD 0) E.J
  else E.J

/-- One turn of the loop adding the atomic densities, electrostatics.c:1016-1042; `rho` and
`rhoc` are `rho_J` and `rho_c_J`, `p` the place of the node in them. -/
noncomputable def densStep (E : Env) (G : Infl.Geo) (S : Spec) (R : Infl.Rec) (rho rhoc : Mem)
    (p : ℕ × ℕ × ℕ → ℤ) (s : St) (t : ℕ × ℕ × ℕ) : St :=
  let DMnx := G.X.hi - G.X.lo + 1
  let DMny := G.Y.hi - G.Y.lo + 1
  let DMnz := G.Z.hi - G.Z.lo + 1
  let kDM := t.2.2 + R.zs - G.Z.lo
  let jDM := t.2.1 + R.ys - G.Y.lo
  let iDM := t.1 + R.xs - G.X.lo
  if kDM < 0 ∨ kDM ≥ DMnz then s
  else if jDM < 0 ∨ jDM ≥ DMny then s
  else if iDM < 0 ∨ iDM ≥ DMnx then s
  else
    let q := kDM * (DMnx * DMny) + jDM * DMnx + iDM
    let s := { s with at_ := add s.at_ q (rho (p t)), core := add s.core q (rhoc (p t)) }
    if E.spin = 1 then
      { s with magz := add s.magz q (R.spin.2.2 / S.Z * rho (p t)) }
    else if E.spin = 2 then
      { s with magx := add s.magx q (R.spin.1 / S.Z * rho (p t))
               magy := add s.magy q (R.spin.2.1 / S.Z * rho (p t))
               magz := add s.magz q (R.spin.2.2 / S.Z * rho (p t)) }
    else s

/-- One turn of the loop adding the charges, electrostatics.c:1065-1088; `p` is the
place of the node in the extended arrays. -/
noncomputable def chgStep (G : Infl.Geo) (R : Infl.Rec) (nx ny : ℤ) (bJ bJref VJ VJref : Mem)
    (p : ℕ × ℕ × ℕ → ℤ) (s : St) (t : ℕ × ℕ × ℕ) : St :=
  let DMnx := G.X.hi - G.X.lo + 1
  let DMny := G.Y.hi - G.Y.lo + 1
  let dK := R.zs - G.Z.lo
  let dJ := R.ys - G.Y.lo
  let dI := R.xs - G.X.lo
  let q : ℤ := (t.2.2 + dK) * DMnx * DMny + (t.2.1 + dJ) * DMnx + (t.1 + dI)
  let o : ℤ := t.2.2 * (nx * ny) + t.2.1 * nx + t.1
  { s with
    b := add s.b q (bJ o)
    bref := add s.bref q (bJref o)
    Vc := add s.Vc q (VJref (p t) - VJ (p t))
    Esc := s.Esc - bJref o * VJref (p t) }

/-- The body of the loop over the images of one type, electrostatics.c:866-1093. -/
noncomputable def image (E : Env) (G : Infl.Geo) (S : Spec) (s : St) (R : Infl.Rec) : Option St :=
  let nx := R.xe - R.xs + 1
  let ny := R.ye - R.ys + 1
  let nz := R.ze - R.zs + 1
  let order : ℤ := 2 * E.FDn
  let nxp := nx + order
  let nyp := ny + order
  let nzp := nz + order
  let ndex := nxp * nyp * nzp
  let D := dists E G.X.h G.Y.h G.Z.h R nxp nyp nzp
  let VJref := pointwise ndex (vref E.rcut (-S.Z)) D E.J
  let VJ := pointwise ndex (vj S) D E.J
  let rho := pointwise ndex (rhoj S) D E.J
  let rhoc := pointwise ndex (rhocj S) D E.J
  let nodes := box nx.toNat ny.toNat nz.toNat
  let atp (t : ℕ × ℕ × ℕ) : ℤ :=
    (t.2.2 + E.FDn) * (nxp * nyp) + (t.2.1 + E.FDn) * nxp + (t.1 + E.FDn)
  -- 1016-1042
  let s := nodes.foldl (densStep E G S R rho rhoc atp) s
  -- 1058-1063
  (calcLapV E.C E.typ VJ E.FDn nxp nyp nzp nx ny nz (weights E) (w2diag E) E.J E.J E.J).bind
    fun bJ =>
  (calcLapV E.C E.typ VJref E.FDn nxp nyp nzp nx ny nz (weights E) (w2diag E) E.J E.J E.J).bind
    fun bJref =>
  some (nodes.foldl (chgStep G R nx ny bJ bJref VJ VJref atp) s)

/-- The zeroed grid functions, electrostatics.c:843-862. -/
def zero : St := ⟨fun _ => 0, fun _ => 0, fun _ => 0, fun _ => 0, fun _ => 0, fun _ => 0,
  fun _ => 0, fun _ => 0, 0⟩

/-- The loop over the images of one type. -/
noncomputable def images (E : Env) (G : Infl.Geo) (S : Spec) (s : Option St)
    (recs : List Infl.Rec) : Option St :=
  recs.foldl (fun s R => s.bind fun s => image E G S s R) s

/-- The loops over types and images on one process, electrostatics.c:843-1095; `infl` is
`Atom_Influence_local`, one list for each type. -/
noncomputable def accumulate (E : Env) (G : Infl.Geo) (Ss : List Spec)
    (infl : List (List Infl.Rec)) : Option St :=
  (Ss.zip infl).foldl (fun s p => images E G p.1 s p.2) (some zero)

/-! ### Integrals and scaling -/

/-- The number of nodes of a process, `DMnd`. -/
def nd (G : Infl.Geo) : ℤ :=
  (G.X.hi - G.X.lo + 1) * (G.Y.hi - G.Y.lo + 1) * (G.Z.hi - G.Z.lo + 1)

/-- A loop over the nodes of the process adding up `f` in memory order. -/
noncomputable def total (G : Infl.Geo) (f : ℤ → ℝ) (init : ℝ) : ℝ :=
  (List.range (nd G).toNat).foldl (fun acc (i : ℕ) => acc + f i) init

/-- `int_b`, `int_rho`, `Esc` of one process, electrostatics.c:1098-1126. -/
noncomputable def integrals (G : Infl.Geo) (dV : ℝ) (s : St) : ℝ × ℝ × ℝ :=
  (total G s.b 0 * dV, total G s.at_ 0 * dV,
   total G (fun i => (s.b i + s.bref i) * s.Vc i) s.Esc * (dV * 0.5))

/-- The scaled density and `Nelectron_check` of one process, electrostatics.c:1146-1158. -/
noncomputable def scale (G : Infl.Geo) (dV fac : ℝ) (s : St) : St × ℝ :=
  let a : Mem := fun i => if 0 ≤ i ∧ i < nd G then s.at_ i * fac else s.at_ i
  ({ s with at_ := a }, total G a 0 * dV)

/-- The results on `dmcomm_phi`: the grid functions of each process, `Esc`, `PosCharge` and
`NegCharge`. -/
structure Out where
  st : List St
  Esc : ℝ
  pos : ℝ
  neg : ℝ

/-- electrostatics.c:1098-1158 and 1214-1215 on all the processes of `dmcomm_phi`. -/
noncomputable def finish (dV net : ℝ) (ps : List (Infl.Geo × St)) : Out :=
  let ints := ps.map fun p => integrals p.1 dV p.2
  let Esc := (ints.map fun t => t.2.2).sum
  let pos := -(ints.map fun t => t.1).sum
  let neg := -(ints.map fun t => t.2.1).sum
  let fac := (net - pos) / neg
  let sc := ps.map fun p => scale p.1 dV fac p.2
  ⟨sc.map Prod.fst, Esc, pos, (sc.map Prod.snd).sum * -1⟩

/-- `Generate_PseudoChargeDensity` on all the processes of `dmcomm_phi`, each with its own list
of influencing atoms; `none` when a process exits. -/
noncomputable def generate (E : Env) (dV net : ℝ) (Ss : List Spec)
    (procs : List (Infl.Geo × List (List Infl.Rec))) : Option Out :=
  (procs.mapM fun p => (accumulate E p.1 Ss p.2).map fun s => (p.1, s)).map (finish dV net)

/-- `netM` for `spin_typ` 1 and 2 (the components 1 to 3), electrostatics.c:1161-1201. -/
noncomputable def netM (dV : ℝ) (ps : List (Infl.Geo × St)) : ℝ × ℝ × ℝ :=
  ((ps.map fun p => total p.1 p.2.magx 0 * dV).sum, (ps.map fun p => total p.1 p.2.magy 0 * dV).sum,
   (ps.map fun p => total p.1 p.2.magz 0 * dV).sum)

/-! ### The Poisson problem -/

/-- `poisson_RHS`, electrostatics.c:1505-1585: the right hand side of one process.  `dcor` is the
boundary correction (multipole, surface or wire) computed from the uncorrected right hand side;
it is used unless all three directions are periodic. -/
noncomputable def poissonRHS (net Lx Ly Lz det : ℝ) (bcx bcy bcz : ℤ) (b rho : Mem)
    (dcor : Mem → Mem) : Mem :=
  let r0 : Mem := fun i => 4.0 * Real.pi * (b i + rho i)
  let r1 : Mem :=
    if |net| > Infl.tol then
      let bkgd := net / (Lx * Ly * Lz * det)
      fun i => r0 i + 4.0 * Real.pi * bkgd
    else r0
  let np := 3 - (bcx + bcy + bcz)
  if np = 0 ∨ np = 2 ∨ np = 1 then fun i => r1 i - dcor r1 i else r1

/-- The shift of the potential of a periodic system, electrostatics.c:1671-1677, on all the
processes: `VectorSum`, division by `Nd`, `VectorShift`. -/
noncomputable def phiShift (bc : ℤ) (Nd : ℝ) (ps : List (Infl.Geo × Mem)) : List Mem :=
  if bc = 2 then
    let sh := (ps.map fun p => total p.1 p.2 0).sum / Nd
    ps.map fun p => fun i => if 0 ≤ i ∧ i < nd p.1 then p.2 i + -sh else p.2 i
  else ps.map Prod.snd

end Sparc.Pchg

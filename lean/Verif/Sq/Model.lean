import Verif.Lap.Model
import Verif.Grid.Model
import Verif.Nloc.Model
import Verif.Occ.Model

/-!
# Spectral quadrature (model)

`/repo/src/linearScaling/sq.c`, `sqDensity.c`, `sqEnergy.c`, the routines
`GetNonlocalProjectorsForNode` and `Vnl_vec_mult_SQ` of `sqNlocVecRoutines.c`, and
`Vector2Norm`, `VectorDotProduct` of `/repo/src/tools.c`.

Simplifications.  `double` is `ℝ`, `int` is `ℕ` or `ℤ`; arrays are total functions of the index
with arbitrary initial contents; a `dgemv` is the sum it computes.  Division by zero gives NaN in
the program and 0 here; the theorems about the recurrence exclude it.  The accelerated version
(`ACCEL_SQ_LanczosAlgorithm_gauss`) and the exact-exchange term of `HsubTimesVec` are left out.
-/

namespace Sparc.Sq

open Loop Lap

/-! ### The Hamiltonian of one node -/

/-- `stencil_3axis_thread_variable_radius_sq`, sq.c:521-568 (and its copy for radius 6,
600-649). -/
def stencilSq (x0 : Mem) (radius : ℕ) (sy syE sz szE : ℤ) (xs xe ys ye zs ze : ℤ)
    (xE yE zE : ℤ) (coef : ℕ → ℝ) (coef0 b : ℝ) (v0 : Mem) (syV szV is js ks : ℤ) (y : Mem) : Mem :=
  fill (box (xe - xs).toNat (ye - ys).toNat (ze - zs).toNat)
    (fun t => (zs + t.2.2) * sz + (ys + t.2.1) * sy + (xs + t.1))
    (fun t =>
      let q : ℤ := (zE + t.2.2) * szE + (yE + t.2.1) * syE + (xs + t.1 + (xE - xs))
      let o : ℤ := (zs + t.2.2 + ks) * szV + (ys + t.2.1 + js) * syV + (xs + t.1 + is)
      let res := (List.range' 1 radius).foldl (fun acc (r : ℕ) =>
        acc + ((x0 (q - r) + x0 (q + r)) * coef (3 * r)
          + (x0 (q - r * syE) + x0 (q + r * syE)) * coef (3 * r + 1)
          + (x0 (q - r * szE) + x0 (q + r * szE)) * coef (3 * r + 2))) (coef0 * x0 q)
      res + b * (v0 o * x0 q))
    y

/-- Sizes: `nloc`, `DMnx_SQ`, `DMny_SQ`, `DMnz_SQ` and `order/2`. -/
structure Sizes where
  nloc0 : ℕ
  nloc1 : ℕ
  nloc2 : ℕ
  DMnx : ℕ
  DMny : ℕ
  DMnz : ℕ
  FDn : ℕ

/-- `Nx_loc`, sqInitialization.c:61. -/
def Sizes.nx (S : Sizes) : ℕ := 1 + 2 * S.nloc0
/-- `Ny_loc`, sqInitialization.c:62. -/
def Sizes.ny (S : Sizes) : ℕ := 1 + 2 * S.nloc1
/-- `Nz_loc`, sqInitialization.c:63. -/
def Sizes.nz (S : Sizes) : ℕ := 1 + 2 * S.nloc2
/-- `Nd_loc`, sqInitialization.c:64. -/
def Sizes.nd (S : Sizes) : ℕ := S.nx * S.ny * S.nz
/-- `DMnx_PR`, sqInitialization.c:66. -/
def Sizes.px (S : Sizes) : ℕ := S.DMnx + 2 * S.nloc0
/-- `DMny_PR`, sqInitialization.c:67. -/
def Sizes.py (S : Sizes) : ℕ := S.DMny + 2 * S.nloc1

/-- `Lap_vec_mult_orth_SQ`, sq.c:363-420.  `xex` are the contents of `pSQ->x_ex` and `wt` those of
`Lap_weights` before the call; `y` those of `Hx`. -/
noncomputable def lapSq (C : Coefs) (S : Sizes) (a : ℝ) (Veff xex : Mem) (wt : ℕ → ℝ) (nd : ℕ) (y : Mem)
    (x : Mem) : Mem :=
  let nxEx : ℤ := S.nx + 2 * S.FDn
  let nyEx : ℤ := S.ny + 2 * S.FDn
  let k := nd / (S.DMnx * S.DMny)
  let j := (nd - k * (S.DMnx * S.DMny)) / S.DMnx
  let i := nd % S.DMnx
  let w := pack [C.D2x, C.D2y, C.D2z] 0 S.FDn 0 a wt
  let e := Grid.restrictSub
    ⟨nxEx, S.nx, nxEx * nyEx, S.nx * S.ny, S.FDn, S.nx + S.FDn - 1, S.FDn, S.ny + S.FDn - 1, S.FDn,
      S.nz + S.FDn - 1, 0, 0, 0⟩ x xex
  stencilSq e S.FDn S.nx nxEx (S.nx * S.ny) (nxEx * nyEx) 0 S.nx 0 S.ny 0 S.nz S.FDn S.FDn S.FDn
    w (w 0 + w 1 + w 2) 1 Veff S.px (S.px * S.py) i j k y

/-- One image of `Atom_Influence_nloc` and its block of `nlocProj`: `grid_pos[iat]` (its length is
`ndc[iat]`) and the flat array `Chi[iat]`. -/
structure Img where
  gpos : List ℤ
  chi : ℕ → ℝ

/-- The loop applying `Gamma`, sqNlocVecRoutines.c:223-238. -/
noncomputable def applyGamma (T : Nloc.Psd) (alpha : ℕ → ℝ) : ℕ → ℝ :=
  ((List.range (T.lmax + 1)).foldl
    (fun (u : ℕ × ℕ × (ℕ → ℝ)) (l : ℕ) =>
      if (l : ℤ) = T.lloc then (u.1 + T.ppl l, u.2)
      else
        let u' := (List.range (T.ppl l)).foldl
          (fun (u' : ℕ × (ℕ → ℝ)) np =>
            (Infl.irange (-(l : ℤ)) l).foldl
              (fun (u' : ℕ × (ℕ → ℝ)) _ =>
                (u'.1 + 1, Function.update u'.2 u'.1 (u'.2 u'.1 * T.gamma (u.1 + np)))) u') u.2
        (u.1 + T.ppl l, u'))
    (0, 0, alpha)).2.2

/-- One image in `Vnl_vec_mult_SQ`, sqNlocVecRoutines.c:212-244. -/
noncomputable def vnlImg (T : Nloc.Psd) (dV : ℝ) (x Hx : Mem) (I : Img) : Mem :=
  let ndc := I.gpos.length
  let xrc : ℕ → ℝ := fun i => x (I.gpos.getD i 0)
  let alpha : ℕ → ℝ := fun c => dV * ((List.range ndc).map fun i => I.chi (c * ndc + i) * xrc i).sum
  let alpha := applyGamma T alpha
  let out : ℕ → ℝ := fun i =>
    ((List.range (Nloc.nproj T)).map fun c => I.chi (c * ndc + i) * alpha c).sum
  (List.range ndc).foldl (fun (H : Mem) (i : ℕ) =>
    Function.update H (I.gpos.getD i 0) (H (I.gpos.getD i 0) + out i)) Hx

/-- `Vnl_vec_mult_SQ`, sqNlocVecRoutines.c:197-248. -/
noncomputable def vnlSq (types : List (Nloc.Psd × List Img)) (dV : ℝ) (x Hx : Mem) : Mem :=
  types.foldl (fun Hx To =>
    if Nloc.nproj To.1 = 0 then Hx else To.2.foldl (vnlImg To.1 dV x) Hx) Hx

/-- What `HsubTimesVec` reads. -/
structure Ham where
  C : Coefs
  S : Sizes
  Veff : Mem
  xex : Mem
  wt : ℕ → ℝ
  /-- per node of the process: `Atom_Influence_nloc_SQ[nd]` and `nlocProj_SQ[nd]` by type -/
  types : ℕ → List (Nloc.Psd × List Img)
  dV : ℝ
  /-- contents of the output buffer before the call -/
  y : Mem

/-- `HsubTimesVec`, sq.c:338-350 (without exact exchange). -/
noncomputable def hsub (E : Ham) (nd : ℕ) (x : Mem) : Mem :=
  vnlSq (E.types nd) E.dV x (lapSq E.C E.S (-(1 / 2)) E.Veff E.xex E.wt nd E.y x)

/-! ### Projectors restricted to the box of a node -/

/-- Decoding of an index of the PR domain, sqNlocVecRoutines.c:108-110 (and 163-165). -/
def decodePR (S : Sizes) (g : ℕ) : ℕ × ℕ × ℕ :=
  let k := g / (S.px * S.py)
  (g % S.px, (g - k * (S.px * S.py)) / S.px, k)

/-- The node of the process, sqNlocVecRoutines.c:72-74. -/
def decodeDM (S : Sizes) (nd : ℕ) : ℕ × ℕ × ℕ :=
  let k := nd / (S.DMnx * S.DMny)
  (nd % S.DMnx, (nd - k * (S.DMnx * S.DMny)) / S.DMnx, k)

/-- `flag == 0`, sqNlocVecRoutines.c:112-118: the grid point `g` is kept for node `nd`. -/
noncomputable def keep (S : Sizes) (dx dy dz : ℝ) (nd g : ℕ) : Prop :=
  let p := decodePR S g
  let q := decodeDM S nd
  let rz2 : ℝ := (((p.2.2 : ℤ) - (q.2.2 + S.nloc2 : ℤ) : ℤ) * dz) ^ 2
  let ry2 : ℝ := (((p.2.1 : ℤ) - (q.2.1 + S.nloc1 : ℤ) : ℤ) * dy) ^ 2
  let rx2 : ℝ := (((p.1 : ℤ) - (q.1 + S.nloc0 : ℤ) : ℤ) * dx) ^ 2
  let rcut := max (max (S.nloc0 * dx) (S.nloc1 * dy)) (S.nloc2 * dz)
  ¬ rx2 + ry2 + rz2 > rcut * rcut

/-- The index stored for a kept grid point, sqNlocVecRoutines.c:167-170. -/
def nodePos (S : Sizes) (nd g : ℕ) : ℤ :=
  let p := decodePR S g
  let q := decodeDM S nd
  ((p.1 : ℤ) - q.1) + ((p.2.1 : ℤ) - q.2.1) * S.nx + ((p.2.2 : ℤ) - q.2.2) * S.nx * S.ny

open Classical in
/-- One image restricted to node `nd`, sqNlocVecRoutines.c:101-130 and 150-180; the image is
dropped when nothing is left. -/
noncomputable def restrictImg (S : Sizes) (dx dy dz : ℝ) (nproj nd : ℕ) (gpos : List ℕ)
    (chi : ℕ → ℝ) : Option Img :=
  let ipos := (List.range gpos.length).filter fun ip => decide (keep S dx dy dz nd (gpos.getD ip 0))
  let ndc := ipos.length
  if ndc = 0 then none
  else some
    { gpos := ipos.map fun ip => nodePos S nd (gpos.getD ip 0)
      chi := fun q => if q < ndc * nproj then chi (ipos.getD (q % ndc) 0 + q / ndc * gpos.length)
        else 0 }

/-! ### Lanczos recurrence -/

/-- `VectorDotProduct` on `MPI_COMM_SELF`, tools.c:780-791. -/
def dot (N : ℕ) (u v : Mem) : ℝ := (List.range N).foldl (fun s (i : ℕ) => s + u i * v i) 0

/-- `Vector2Norm` on `MPI_COMM_SELF`, tools.c:742-754. -/
noncomputable def norm2 (N : ℕ) (u : Mem) : ℝ :=
  √((List.range N).foldl (fun s (i : ℕ) => s + u i * u i) 0)

/-- `for (i..) lanczos_vec[le_count++] = v[i]`. -/
def store (N : ℕ) (v : Mem) (lv : ℕ → ℝ) (le : ℕ) : ℕ → ℝ := fun q =>
  if le ≤ q ∧ q < le + N then v ((q - le : ℕ) : ℤ) else lv q

/-- State of `LanczosAlgorithm_gauss`. -/
structure LSt where
  vkm1 : Mem
  vk : Mem
  aa : ℕ → ℝ
  bb : ℕ → ℝ
  lv : ℕ → ℝ
  le : ℕ

/-- Entry and first step, sq.c:136-170. -/
noncomputable def lanczosInit (H : Mem → Mem) (N : ℕ) (t0 : Mem) (lv aa bb : ℕ → ℝ) : LSt :=
  let val := norm2 N t0
  let vkm1 : Mem := fun i => t0 i / val
  let lv := store N vkm1 lv 0
  let vk := H vkm1
  let a0 := dot N vkm1 vk
  let vk : Mem := fun i => vk i - a0 * vkm1 i
  let b0 := norm2 N vk
  let vk : Mem := fun i => vk i / b0
  ⟨vkm1, vk, Function.update aa 0 a0, Function.update bb 0 b0, store N vk lv N, N + N⟩

/-- One pass of the loop, sq.c:174-197. -/
noncomputable def lanczosStep (H : Mem → Mem) (N npl : ℕ) (st : LSt) (count : ℕ) : LSt :=
  let vkp1 := H st.vk
  let a := dot N st.vk vkp1
  let vkp1 : Mem := fun i => vkp1 i - a * st.vk i - st.bb count * st.vkm1 i
  let val := norm2 N vkp1
  let vk : Mem := fun i => vkp1 i / val
  let aa := Function.update st.aa (count + 1) a
  let bb := Function.update st.bb (count + 1) val
  if (count : ℤ) ≠ (npl : ℤ) - 2 then ⟨st.vk, vk, aa, bb, store N vk st.lv st.le, st.le + N⟩
  else ⟨st.vk, vk, aa, bb, st.lv, st.le⟩

/-- `LanczosAlgorithm_gauss` up to the eigensolver, sq.c:123-197. -/
noncomputable def lanczos (H : Mem → Mem) (N npl : ℕ) (t0 : Mem) (lv aa bb : ℕ → ℝ) : LSt :=
  (List.range (npl - 1)).foldl (lanczosStep H N npl) (lanczosInit H N t0 lv aa bb)

/-! ### Tridiagonal eigensolver -/

/-- Arrays of `TridiagEigenSolve_gauss`. -/
structure QSt where
  d : ℕ → ℝ
  e : ℕ → ℝ
  z : ℕ → ℕ → ℝ

/-- The search for a negligible subdiagonal entry, sq.c:250-253. -/
noncomputable def findM (n : ℕ) (d e : ℕ → ℝ) : ℕ → ℕ → ℕ
  | 0, m => m
  | f + 1, m =>
    if m + 2 ≤ n then
      if |e m| + (|d m| + |d (m + 1)|) = |d m| + |d (m + 1)| then m else findM n d e f (m + 1)
    else m

/-- `SIGN(a,b)`, sq.c:41. -/
noncomputable def sign (a b : ℝ) : ℝ := if b ≥ 0 then |a| else -|a|

/-- State of the inner loop, with a flag for `break`. -/
structure SSt where
  q : QSt
  g : ℝ
  s : ℝ
  c : ℝ
  p : ℝ
  brk : Bool

/-- One pass of the loop over `i`, sq.c:265-286. -/
noncomputable def qlStep (n m : ℕ) (st : SSt) (i : ℕ) : SSt :=
  if st.brk then st else
  let f := st.s * st.q.e i
  let b := st.c * st.q.e i
  let r := √(st.g * st.g + f * f)
  let e := Function.update st.q.e (i + 1) r
  if r = 0 then
    { st with
      q := ⟨Function.update st.q.d (i + 1) (st.q.d (i + 1) - st.p), Function.update e m 0, st.q.z⟩
      brk := true }
  else
    let s := f / r
    let c := st.g / r
    let g := st.q.d (i + 1) - st.p
    let r := (st.q.d i - g) * s + 2 * c * b
    let p := s * r
    let d := Function.update st.q.d (i + 1) (g + p)
    let g := c * r - b
    let z : ℕ → ℕ → ℝ := fun k =>
      if k < n then
        let f := st.q.z k (i + 1)
        let row := Function.update (st.q.z k) (i + 1) (s * st.q.z k i + c * f)
        Function.update row i (c * row i - s * f)
      else st.q.z k
    ⟨⟨d, e, z⟩, g, s, c, p, false⟩

/-- One sweep, sq.c:259-291. -/
noncomputable def sweep (n l m : ℕ) (st : QSt) : QSt :=
  let g := (st.d (l + 1) - st.d l) / (2 * st.e l)
  let r := √(g * g + 1)
  let g := st.d m - st.d l + st.e l / (g + sign r g)
  let o := ((List.range (m - l)).map fun t => m - 1 - t).foldl (qlStep n m) ⟨st, g, 1, 1, 0, false⟩
  if o.brk then o.q
  else
    let d := Function.update o.q.d l (o.q.d l - o.p)
    ⟨d, Function.update (Function.update o.q.e l o.g) m 0, o.q.z⟩

/-- The `do … while` loop for one `l`, sq.c:248-292; the argument counts the iterations left until
`iter++ == 200` (`none` is `exit(1)`). -/
noncomputable def qlIter (n l : ℕ) : ℕ → QSt → Option QSt
  | left, st =>
    let m := findM n st.d st.e n l
    if m = l then some st
    else match left with
      | 0 => none
      | left + 1 => qlIter n l left (sweep n l m st)

/-- `TridiagEigenSolve_gauss` up to the loop over `l`, sq.c:216-293. -/
noncomputable def tridiag (n : ℕ) (diag sub : ℕ → ℝ) : Option QSt :=
  (List.range n).foldl (fun (o : Option QSt) l => o.bind (qlIter n l 200))
    (some ⟨diag, Function.update sub (n - 1) 0, fun i j => if i = j then 1 else 0⟩)

/-- What is kept for a node: `gnd`, `gwt`, `w`, `lanczos_vec`, `lambda_min`, `lambda_max`. -/
structure Node where
  gnd : ℕ → ℝ
  gwt : ℕ → ℝ
  w : ℕ → ℝ
  lv : ℕ → ℝ
  lmin : ℝ
  lmax : ℝ

/-- The extreme values, sq.c:309-317. -/
noncomputable def extremes (n : ℕ) (d : ℕ → ℝ) : ℝ × ℝ :=
  (List.range' 1 (n - 1)).foldl (fun (p : ℝ × ℝ) i =>
    if d i > p.2 then (p.1, d i) else if d i < p.1 then (d i, p.2) else p) (d 0, d 0)

/-- The output of `TridiagEigenSolve_gauss`, sq.c:295-317; `w[i*n + j] = z[j][i]`. -/
noncomputable def outputs (n : ℕ) (lv : ℕ → ℝ) (q : QSt) : Node :=
  ⟨q.d, fun i => q.z 0 i * q.z 0 i, fun t => q.z (t % n) (t / n), lv,
    (extremes n q.d).1, (extremes n q.d).2⟩

/-- `center`, sq.c:92. -/
def center (S : Sizes) : ℕ := S.nloc0 + S.nloc1 * S.nx + S.nloc2 * S.nx * S.ny

/-- `LanczosAlgorithm_gauss` on a start vector, sq.c:123-205. -/
noncomputable def lanczosGauss (H : Mem → Mem) (N npl : ℕ) (t0 : Mem) (lv aa bb : ℕ → ℝ) :
    Option Node :=
  let st := lanczos H N npl t0 lv aa bb
  (tridiag npl st.aa st.bb).map (outputs npl st.lv)

/-- `GaussQuadrature` for one node and one spin, sq.c:92-103: the start vector is the unit vector
at the centre of the box.  `lv`, `aa`, `bb` are the contents of the buffers. -/
noncomputable def gaussNode (E : Ham) (npl nd : ℕ) (lv aa bb : ℕ → ℝ) : Option Node :=
  lanczosGauss (hsub E nd) E.S.nd npl (Function.update (fun _ => 0) (center E.S : ℤ) 1) lv aa bb

/-! ### Density, density matrix, electron count, energies -/

/-- `rho_pc`, sqDensity.c:135-139. -/
noncomputable def rhoPc (npl : ℕ) (beta ef : ℝ) (type : ℕ) (gnd gwt : ℕ → ℝ) : ℝ :=
  (List.range npl).foldl (fun s j => s + gwt j * Occ.smearing beta (gnd j) ef type) 0

/-- `Calculate_elecDens_Gauss`, sqDensity.c:129-152, before the transfer to the other grid: `gnd`
and `gwt` of process `s` of the spin bridge at `[i + spn_i*DMnd]`; `spnStart s` is
`spin_start_indx`, `nsLoc` is `Nspin_spincomm`, `np` is `npspin`. -/
noncomputable def elecDens (DMnd npl nspin nspdentd nsLoc np : ℕ) (spnStart : ℕ → ℕ)
    (beta ef occfac dV : ℝ) (type : ℕ) (gnd gwt : ℕ → ℕ → ℕ → ℝ) (me : ℕ) : ℕ → ℝ :=
  let loc (s : ℕ) : ℕ → ℝ :=
    fill ((List.range nsLoc).flatMap fun (sp : ℕ) => (List.range DMnd).map fun (i : ℕ) => (sp, i))
      (fun t : ℕ × ℕ => (nspin - 1) * DMnd + (t.2 + (t.1 + spnStart s) * DMnd))
      (fun t => occfac * rhoPc npl beta ef type (gnd s (t.2 + t.1 * DMnd)) (gwt s (t.2 + t.1 * DMnd)) / dV)
      (fun _ => 0)
  let rho : ℕ → ℝ :=
    if np > 1 then fun q => if q < nspdentd * DMnd then ((List.range np).map fun s => loc s q).sum
      else loc me q
    else loc me
  if nspin > 1 then fill (List.range DMnd) id (fun i => rho (DMnd + i) + rho (DMnd * 2 + i)) rho
  else rho

/-- `Gauss_density_matrix_col`, sqDensity.c:175-199; `V` and `w` are flat column-major arrays. -/
noncomputable def dmCol (Nd npl : ℕ) (beta ef dV : ℝ) (type : ℕ) (V w D : ℕ → ℝ) : ℕ → ℝ :=
  let wte1 : ℕ → ℝ := fun j => w (j * npl)
  let gd : ℕ → ℝ := fun j => wte1 j * Occ.smearing beta (D j) ef type
  let wg : ℕ → ℝ := fun r => ((List.range npl).map fun j => w (j * npl + r) * gd j).sum
  fun i => 1 / dV * ((List.range npl).map fun r => V (r * Nd + i) * wg r).sum

/-- The local sum of `occ_constraint_SQ_gauss`, sqEnergy.c:140-146. -/
noncomputable def occLocal (K npl : ℕ) (beta lf occfac : ℝ) (type : ℕ) (gnd gwt : ℕ → ℕ → ℝ) : ℝ :=
  (List.range K).foldl (fun g k => (List.range npl).foldl (fun g j =>
    g + occfac * gwt k j * Occ.smearing beta (gnd k j) lf type) g) 0

/-- `occ_constraint_SQ_gauss`, sqEnergy.c:132-156; processes `p < P` of `dmcomm_SQ` and `s < np` of
the spin bridge. -/
noncomputable def occConstraint (P np K npl : ℕ) (beta occfac posCharge : ℝ) (type : ℕ)
    (gnd gwt : ℕ → ℕ → ℕ → ℕ → ℝ) (me : ℕ) (lf : ℝ) : ℝ :=
  let g (s : ℕ) := ((List.range P).map fun p =>
    occLocal K npl beta lf occfac type (gnd s p) (gwt s p)).sum
  let tot := if np > 1 then ((List.range np).map g).sum else g me
  (tot - posCharge) / posCharge

/-- `UbandFunc`, sqEnergy.c:163-168. -/
noncomputable def uband (t lf bet : ℝ) (type : ℕ) : ℝ := t * Occ.smearing bet t lf type

/-- `EentFunc`, sqEnergy.c:173-184. -/
noncomputable def eent (t lf bet : ℝ) (type : ℕ) : ℝ :=
  let focc := Occ.smearing bet t lf type
  if |focc| < 1 / 100 * Occ.tempTol ∨ |focc - 1| < 1 / 100 * Occ.tempTol then 0
  else focc * Real.log focc + (1 - focc) * Real.log (1 - focc)

/-- `Calculate_Eband_SQ_Gauss` before the reductions, sqEnergy.c:73-82. -/
noncomputable def ebandLocal (nsLoc DMnd npl : ℕ) (beta ef occfac : ℝ) (type : ℕ)
    (gnd gwt : ℕ → ℕ → ℝ) : ℝ :=
  (List.range nsLoc).foldl (fun E sp => (List.range DMnd).foldl (fun E i =>
    E + occfac * (List.range npl).foldl (fun s j =>
      s + uband (gnd (i + sp * DMnd) j) ef beta type * gwt (i + sp * DMnd) j) 0) E) 0

/-- `Calculate_electronicEntropy_SQ_Gauss` before the reductions, sqEnergy.c:107-117. -/
noncomputable def entropyLocal (nsLoc DMnd npl : ℕ) (beta ef occfac : ℝ) (type : ℕ)
    (gnd gwt : ℕ → ℕ → ℝ) : ℝ :=
  (List.range nsLoc).foldl (fun E sp => (List.range DMnd).foldl (fun E i =>
    E + occfac * (List.range npl).foldl (fun s j =>
      s + eent (gnd (i + sp * DMnd) j) ef beta type * gwt (i + sp * DMnd) j) 0 / beta) E) 0

end Sparc.Sq

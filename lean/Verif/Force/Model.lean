import Verif.Pres.Model

/-!
# Forces on the atoms (model)

`/repo/src/forces.c`: `Calculate_EGS_Forces` (49-139), `Calculate_local_forces_linear` (157-453),
`Calculate_forces_xc_linear` (473-703), `Calculate_nonlocal_forces_linear` and `_kpt` (750-844,
995-1159), `Compute_Integral_Chi_Dpsi` and `_kpt` (890-921, 1240-1305),
`Compute_force_nloc_by_integrals` and `_kpt` (926-989, 1313-1392), `Symmetrize_forces`
(1399-1428).  `/repo/src/xc/vdW/d3/d3forceStress.c`: `add_d3_forces` (100-104).

Simplifications, as in `Verif.Pres`: `double` becomes `ℝ`, `double _Complex` an `RCLike` field (the
Γ-point routines are the same definitions over `ℝ` with one k-point of weight one and `k = 0`;
they multiply by `Gamma` after the sum over `m`).  An image carries the arrays computed for it:
for the local forces `VJ` and `VJ_ref` on its box widened by `order/2` nodes on each side, `bJ` and
`bJ_ref` on its box; for the core charge `rhocJ` on its box widened by `order` nodes.  The derivatives delivered
by `Gradient_vectors_dir` are arrays of the process.  `MPI_Allreduce` is the sum of the processes'
values.  `forces` is the array of the root process, which is the one that is used: only there are
the nonlocal forces added.  The forces of the Hubbard term are an argument.  Left out: cyclix
versions of the integrals, spectral quadrature, orbital-free calculations.
-/

namespace Sparc.Force

open Loop Pres

/-- `forces[3*a + d]` as a function of atom and direction. -/
abbrev Forces := ℕ → Fin 3 → ℝ

/-- `forces[3*a+d] += v_d` for the three directions. -/
def bump (F : Forces) (a : ℕ) (v : Fin 3 → ℝ) : Forces := Function.update F a (F a + v)

/-- A process of `dmcomm_phi` with the derivatives of `phi` and `Vc` along the lattice
directions, forces.c:208-222. -/
structure FDom where
  D : Pres.Dom
  Dphi : ℤ → ℝ × ℝ × ℝ
  DVc : ℤ → ℝ × ℝ × ℝ

/-! ### Local forces -/

/-- One node of one image, forces.c:366-368, 371-373, 384-419: `force` and `force_corr`. -/
noncomputable def node (E : Env) (P : FDom) (I : Img) (s : (Fin 3 → ℝ) × (Fin 3 → ℝ))
    (t : ℕ × ℕ × ℕ) : (Fin 3 → ℝ) × (Fin 3 → ℝ) :=
  let n : ℤ := E.FDn
  let nx := (ext I.R).1
  let ny := (ext I.R).2.1
  let nxp := nx + 2 * n
  let nyp := ny + 2 * n
  let VcJ : ℤ → ℝ := fun q => I.VJref q - I.VJ q
  let ishiftp := (t.2.2 + n) * nxp * nyp + (t.2.1 + n) * nxp + (t.1 + n)
  let ishift := (t.2.2 : ℤ) * nx * ny + t.2.1 * nx + t.1
  let q := place P.D I.R t
  let d := grad E VcJ nxp nyp ishiftp
  let bb := P.D.b q + P.D.bref q
  let bJ := I.bJ ishift + I.bJref ishift
  let f := P.Dphi q
  let v := P.DVc q
  (s.1 - ![I.bJ ishift * f.1, I.bJ ishift * f.2.1, I.bJ ishift * f.2.2],
   s.2 + ![d.1 * bb - v.1 * bJ, d.2.1 * bb - v.2.1 * bJ, d.2.2 * bb - v.2.2 * bJ])

/-- What one image adds to the force on its atom, forces.c:381-426. -/
noncomputable def imgForce (E : Env) (P : FDom) (I : Img) : Fin 3 → ℝ :=
  let s := (nodes I.R).foldl (node E P I) (0, 0)
  fun d => (s.1 d + 0.5 * s.2 d) * E.dV

/-- `Calculate_local_forces_linear` on one process, forces.c:194-197, 224-434. -/
noncomputable def localOn (E : Env) (P : FDom) : Forces :=
  P.D.imgs.foldl (fun F l => l.foldl (fun F (I : Img) => bump F I.R.idx (imgForce E P I)) F) 0

/-- `Calculate_local_forces_linear`, forces.c:448. -/
noncomputable def localForces (E : Env) (ps : List FDom) : Forces := (ps.map (localOn E)).sum

/-! ### Core charges -/

/-- What one image adds to `forces_xc`, forces.c:628-688 (`drhocJ` by the same loops as in
`stress.c`). -/
noncomputable def xcImg (E : Env) (D : Dom) (I : Img) : Fin 3 → ℝ :=
  let n : ℤ := E.FDn
  let nxp := (ext I.R).1 + 2 * n
  let nyp := (ext I.R).2.1 + 2 * n
  let s := (nodes I.R).foldl (fun (s : Fin 3 → ℝ) t =>
    let g := drhoc E I ((t.2.2 + n) * nxp * nyp + (t.2.1 + n) * nxp + (t.1 + n))
    let g := if E.G.cellTyp ≠ 0 then Coord.gradToCart E.G g else g
    let v := vxcAt E D (place D I.R t)
    s + ![v * g.1, v * g.2.1, v * g.2.2]) 0
  fun d => s d * E.dV

/-- `Calculate_forces_xc_linear` on one process, forces.c:503-694. -/
noncomputable def xcOn (E : Env) (D : Dom) : Forces :=
  D.imgs.foldl (fun F l => l.foldl (fun F (I : Img) => bump F I.R.idx (xcImg E D I)) F) 0

/-- `Calculate_forces_xc_linear`, forces.c:697. -/
noncomputable def xcForces (E : Env) (ps : List FDom) : Forces := (ps.map fun P => xcOn E P.D).sum

/-! ### Nonlocal forces -/

variable {𝕜 : Type} [RCLike 𝕜]

/-- `Compute_Integral_Chi_Dpsi_kpt`, forces.c:1240-1305 (890-921 for the Γ-point), with the
derivative along the lattice direction `d`. -/
noncomputable def beta (N : NEnv) (P : Grp 𝕜) (o : Opt) (D : PDom 𝕜) (d : Fin 3) : ℕ → 𝕜 :=
  integral N P o D fun k I s n p =>
    let chi := match o with
      | .SC => I.chi
      | .SO1 => I.so0
      | .SO2 => if s = 0 then I.sonl else I.sol
    let is := if o = .SO2 then 1 - s else s
    bloch N.L (P.k k) I.R * ((List.range I.ndc).map fun i => (starRingEnd 𝕜) (chi i p) *
      D.D d (k * (D.nd * P.nsp * P.ncol) + (n * (D.nd * P.nsp) + is * D.nd) + I.pos i)).sum

/-- The loops over types, atoms and bands for one k-point and spinor, forces.c:1339-1389
(944-987): `count` and `force_nloc`. -/
noncomputable def spinorLoop (E : Env) (N : NEnv) (P : Grp 𝕜) (o : Opt) (k s : ℕ)
    (f : ℕ → Fin 3 → ℝ) (st : ℕ × Forces) : ℕ × Forces :=
  let fac := N.occfac * 2.0 * P.wt k / N.Nkpts
  let r := N.Ts.foldl (fun (st : ℕ × ℕ × Forces) T =>
    (List.range T.n).foldl (fun (st : ℕ × ℕ × Forces) _ =>
      let r := bandLoop E P o T k s f st.1
      (r.1, st.2.1 + 1, bump st.2.2 st.2.1 (-(fac • r.2)))) st) (st.1, 0, st.2)
  (r.1, r.2.2)

/-- `Compute_force_nloc_by_integrals_kpt`, forces.c:1313-1392 (926-989). -/
noncomputable def byIntegrals (E : Env) (N : NEnv) (P : Grp 𝕜) (o : Opt) (al : ℕ → 𝕜)
    (be : Fin 3 → ℕ → 𝕜) (F : Forces) : Forces :=
  ((List.range P.Nk).foldl (fun st k => (List.range P.nsp).foldl (fun st s =>
    spinorLoop E N P o k s (fun c => ![reMul (al c) (be 0 c), reMul (al c) (be 1 c),
      reMul (al c) (be 2 c)]) st) st) ((0, F) : ℕ × Forces)).2

/-- `force_nloc` of one group, forces.c:1022-1121 (764-809). -/
noncomputable def groupForce (E : Env) (N : NEnv) (soc : Bool) (P : Grp 𝕜) : Forces :=
  (opts soc).foldl (fun F o => byIntegrals E N P o ((P.doms.map (alpha E N P o)).sum)
    (fun d => (P.doms.map fun D => beta N P o D d).sum) F) 0

/-- `force_nloc` after the reductions, forces.c:1123-1136 (812-820). -/
noncomputable def nonlocalForces (E : Env) (N : NEnv) (soc : Bool) (Ps : List (Grp 𝕜)) : Forces :=
  (Ps.map (groupForce E N soc)).sum

/-! ### All together -/

/-- `Symmetrize_forces`, forces.c:1399-1428; `cyc` is the test on cyclix systems. -/
noncomputable def symmetrize (natom : ℕ) (cyc : Bool) (F : Forces) : Forces :=
  let sh : Fin 3 → ℝ := fun d => (List.range natom).foldl (fun s a => s + F a d) 0
  let sh : Fin 3 → ℝ := fun d => sh d / natom
  let sh : Fin 3 → ℝ := if cyc then ![0, 0, sh 2] else sh
  fun a d => if a < natom then F a d - sh d else F a d

/-- `nonCart2Cart_grad` on the entries of an atom, forces.c:88-92. -/
noncomputable def cart (E : Env) (F : Forces) : Forces :=
  if 10 < E.G.cellTyp ∧ E.G.cellTyp < 20 then
    fun a =>
      let g := Coord.gradToCart E.G (F a 0, F a 1, F a 2)
      ![g.1, g.2.1, g.2.2]
  else F

/-- The switches of `Calculate_EGS_Forces`: `is_hubbard` with the forces of that term,
`NLCC_flag`, `d3Flag` with `d3Grads`, the cyclix test of `Symmetrize_forces`, `SOC_Flag`,
`RelaxFlag`, `MDFlag` and `mvAtmConstraint`. -/
structure Sw where
  hub : Option Forces
  nlcc : Bool
  d3 : Option Forces
  cyc : Bool
  soc : Bool
  relax : ℤ
  md : ℤ
  mv : Forces

/-- `Calculate_EGS_Forces`, forces.c:49-139, on the root process. -/
noncomputable def egsForces (E : Env) (N : NEnv) (w : Sw) (ps : List FDom) (Ps : List (Grp 𝕜)) :
    Forces :=
  let F := localForces E ps
  let F := F + nonlocalForces E N w.soc Ps
  let F := match w.hub with
    | some H => F + H
    | none => F
  let F := cart E F
  let F := if w.nlcc then F + xcForces E ps else F
  let F := match w.d3 with
    | some g => F - g
    | none => F
  let F := symmetrize N.natom w.cyc F
  if w.relax = 1 ∨ w.md = 1 then fun a d => F a d * w.mv a d else F

end Sparc.Force

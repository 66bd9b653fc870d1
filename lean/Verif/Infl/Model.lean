import Mathlib.Algebra.Order.Archimedean.Real.Basic
import Mathlib.Algebra.Order.Floor.Ring

/-!
# Influencing atoms (model)

`GetInfluencingAtoms`, `/repo/src/electrostatics.c:578-766`, and `GetInfluencingAtoms_nloc`,
`/repo/src/nlocVecRoutines.c:43-386`: the lists of the atom images whose pseudocharge or
projectors reach the box of grid nodes held by one process.  `double` is replaced by `ℝ`, `int`
by `ℤ`; a growing C array written at `count` is a list extended at its end, so the number of
records written by the second sweep can be compared with the number counted (and allocated) by
the first.  `CalculateDistance` enters as a function of two points.
-/

namespace Sparc.Infl

/-- `TEMP_TOL`, electrostatics.c:33 and nlocVecRoutines.c:32. -/
noncomputable def tol : ℝ := 1 / 10 ^ 12

/-- What the routines read about one direction: `BCx`, `range_x`, `xin` (0 in y and z),
`delta_x`, `Nx` and the two entries of `DMVertices`; `sq` and `rcut` are the SQ flag and
`pSQ->nloc[0] * delta_x` (nlocVecRoutines.c:124-126). -/
structure Axis where
  bc : ℤ
  L : ℝ
  org : ℝ
  h : ℝ
  N : ℤ
  lo : ℤ
  hi : ℤ
  sq : Bool
  rcut : ℝ

/-- The three directions. -/
structure Geo where
  X : Axis
  Y : Axis
  Z : Axis

/-- `DMxs`, electrostatics.c:604-608, nlocVecRoutines.c:77-81. -/
noncomputable def dms (a : Axis) : ℝ := a.org + a.lo * a.h

/-- `DMxe`, electrostatics.c:605-609: the edge of the last cell. -/
noncomputable def dme (a : Axis) : ℝ := a.org + (a.hi + 1) * a.h

/-- `DMxe` of the nonlocal routine, nlocVecRoutines.c:78-82: the last node. -/
noncomputable def dmeN (a : Axis) : ℝ := a.org + a.hi * a.h

/-- `for (i = a; i <= b; i++)`. -/
def irange (a b : ℤ) : List ℤ := (List.range (b - a + 1).toNat).map fun (n : ℕ) => a + n

/-- `ppmax`, electrostatics.c:628-640 (again 688-700). -/
noncomputable def imgMax (a : Axis) (rb x0 : ℝ) : ℤ :=
  if a.bc = 0 then ⌊(rb + a.L - x0) / a.L + tol⌋ else 0

/-- `ppmin`, electrostatics.c:628-640 (again 688-700). -/
noncomputable def imgMin (a : Axis) (rb x0 : ℝ) : ℤ :=
  if a.bc = 0 then -⌊(rb + x0) / a.L + tol⌋ else 0

/-- `ppmax` of the nonlocal routine, nlocVecRoutines.c:120-151 (again 207-237). -/
noncomputable def imgMaxN (a : Axis) (rc x0 : ℝ) : ℤ :=
  if a.bc = 0 then
    if a.sq then ⌊(rc + a.L - x0 + a.rcut) / a.L + tol⌋ else ⌊(rc + a.L - x0) / a.L + tol⌋
  else 0

/-- `ppmin` of the nonlocal routine, nlocVecRoutines.c:120-151 (again 207-237). -/
noncomputable def imgMinN (a : Axis) (rc x0 : ℝ) : ℤ :=
  if a.bc = 0 then
    if a.sq then -⌊(rc + x0 + a.rcut) / a.L + tol⌋ else -⌊(rc + x0) / a.L + tol⌋
  else 0

/-- The `continue` test of one direction, electrostatics.c:644-650. -/
def skip (s e rb x : ℝ) : Prop := x < s - rb ∨ x ≥ e + rb

open Classical in
/-- The triple loop over images with its three `continue` tests, electrostatics.c:642-654 and
703-755, nlocVecRoutines.c:154-166 and 240-312. -/
noncomputable def sweep {σ : Type} (zs ys xs : List ℤ) (sz sy sx : ℤ → Prop)
    (body : σ → ℤ → ℤ → ℤ → σ) (s : σ) : σ :=
  zs.foldl (fun s r => if sz r then s else
    ys.foldl (fun s q => if sy q then s else
      xs.foldl (fun s p => if sx p then s else body s p q r) s) s) s

/-- One record of `Atom_Influence_local[ityp]`. -/
structure Rec where
  x : ℝ
  y : ℝ
  z : ℝ
  idx : ℕ
  spin : ℝ × ℝ × ℝ
  xs : ℤ
  xe : ℤ
  ys : ℤ
  ye : ℤ
  zs : ℤ
  ze : ℤ

/-- `rb_xl`, electrostatics.c:729-733. -/
noncomputable def rbl (a : Axis) (x rb : ℝ) : ℤ := ⌈(x - a.org - rb) / a.h⌉

/-- `rb_xr`, electrostatics.c:730-734. -/
noncomputable def rbr (a : Axis) (x rb : ℝ) : ℤ := ⌊(x - a.org + rb) / a.h⌋

/-- One atom type: `CUTOFF_x/y/z` and `nAtomv`. -/
structure Typ where
  rbx : ℝ
  rby : ℝ
  rbz : ℝ
  n : ℕ

/-- The body of the second sweep, electrostatics.c:713-750: the record of one image. -/
noncomputable def mkRec (G : Geo) (T : Typ) (pos spin : ℕ → ℝ) (J : ℕ) (p q r : ℤ) : Rec :=
  let x := pos (3 * J) + G.X.L * p
  let y := pos (3 * J + 1) + G.Y.L * q
  let z := pos (3 * J + 2) + G.Z.L * r
  { x := x, y := y, z := z, idx := J
    spin := (spin (3 * J), spin (3 * J + 1), spin (3 * J + 2))
    xs := max G.X.lo (rbl G.X x T.rbx)
    xe := min G.X.hi (rbr G.X x T.rbx)
    ys := max G.Y.lo (rbl G.Y y T.rby)
    ye := min G.Y.hi (rbr G.Y y T.rby)
    zs := max G.Z.lo (rbl G.Z z T.rbz)
    ze := min G.Z.hi (rbr G.Z z T.rbz) }

open Classical in
/-- The update of one entry of `isRbOut`, electrostatics.c:737-742. -/
noncomputable def outNow (a : Axis) (x rb : ℝ) (old : Bool) : Bool :=
  if a.bc = 1 ∧ (rbl a x rb < 0 ∨ rbr a x rb ≥ a.N) then true else old

/-- First sweep over one atom, electrostatics.c:623-654: `count_overlap_local` is advanced. -/
noncomputable def countAtom (G : Geo) (T : Typ) (pos : ℕ → ℝ) (J : ℕ) (count : ℕ) : ℕ :=
  let x0 := pos (3 * J)
  let y0 := pos (3 * J + 1)
  let z0 := pos (3 * J + 2)
  sweep (irange (imgMin G.Z T.rbz z0) (imgMax G.Z T.rbz z0))
    (irange (imgMin G.Y T.rby y0) (imgMax G.Y T.rby y0))
    (irange (imgMin G.X T.rbx x0) (imgMax G.X T.rbx x0))
    (fun r => skip (dms G.Z) (dme G.Z) T.rbz (z0 + G.Z.L * r))
    (fun q => skip (dms G.Y) (dme G.Y) T.rby (y0 + G.Y.L * q))
    (fun p => skip (dms G.X) (dme G.X) T.rbx (x0 + G.X.L * p))
    (fun c _ _ _ => c + 1) count

/-- Second sweep over one atom, electrostatics.c:683-755: records are appended and the flags
`isRbOut` raised. -/
noncomputable def fillAtom (G : Geo) (T : Typ) (pos spin : ℕ → ℝ) (J : ℕ)
    (s : List Rec × Bool × Bool × Bool) : List Rec × Bool × Bool × Bool :=
  let x0 := pos (3 * J)
  let y0 := pos (3 * J + 1)
  let z0 := pos (3 * J + 2)
  sweep (irange (imgMin G.Z T.rbz z0) (imgMax G.Z T.rbz z0))
    (irange (imgMin G.Y T.rby y0) (imgMax G.Y T.rby y0))
    (irange (imgMin G.X T.rbx x0) (imgMax G.X T.rbx x0))
    (fun r => skip (dms G.Z) (dme G.Z) T.rbz (z0 + G.Z.L * r))
    (fun q => skip (dms G.Y) (dme G.Y) T.rby (y0 + G.Y.L * q))
    (fun p => skip (dms G.X) (dme G.X) T.rbx (x0 + G.X.L * p))
    (fun s p q r =>
      (s.1 ++ [mkRec G T pos spin J p q r],
       outNow G.X (x0 + G.X.L * p) T.rbx s.2.1,
       outNow G.Y (y0 + G.Y.L * q) T.rby s.2.2.1,
       outNow G.Z (z0 + G.Z.L * r) T.rbz s.2.2.2)) s

/-- State of the loop over types, electrostatics.c:614-758: `atmcount`, `atmcount2`, the
finished types with the count each was allocated for, and `isRbOut`. -/
structure St where
  atm : ℕ
  atm2 : ℕ
  out : List (ℕ × List Rec)
  flags : Bool × Bool × Bool

/-- One turn of the loop over types, electrostatics.c:616-757. -/
noncomputable def typeStep (G : Geo) (pos spin : ℕ → ℝ) (s : St) (T : Typ) : St :=
  let first := (List.range T.n).foldl
    (fun (c : ℕ × ℕ) _ => (c.1 + 1, countAtom G T pos c.1 c.2)) (s.atm, 0)
  if first.2 = 0 then
    { s with atm := first.1, atm2 := first.1, out := s.out ++ [(0, [])] }
  else
    let second := (List.range T.n).foldl
      (fun (c : ℕ × List Rec × Bool × Bool × Bool) _ =>
        (c.1 + 1, fillAtom G T pos spin c.1 c.2)) (s.atm2, [], s.flags)
    { atm := first.1, atm2 := second.1, out := s.out ++ [(first.2, second.2.1)],
      flags := second.2.2 }

/-- `GetInfluencingAtoms` up to the final reduction, electrostatics.c:590-758. -/
noncomputable def influence (G : Geo) (types : List Typ) (pos spin : ℕ → ℝ) : St :=
  types.foldl (typeStep G pos spin) ⟨0, 0, [], (false, false, false)⟩

/-- The warning, electrostatics.c:759-764, for the processes `Gs`: `MPI_LAND` over all of
them, then the three flags are or-ed. -/
noncomputable def warns (Gs : List Geo) (types : List Typ) (pos spin : ℕ → ℝ) : Bool :=
  let fl := Gs.map fun G => (influence G types pos spin).flags
  (fl.all fun f => f.1) || (fl.all fun f => f.2.1) || (fl.all fun f => f.2.2)

/-! ## The nonlocal routine -/

/-- One atom type for the nonlocal routine: the radii `psd[ityp].rc[0..lmax]`, whether the
cell is orthogonal (`cell_typ == 0`), `CUTOFF_x/y/z`, `nAtomv`. -/
structure NTyp where
  rcs : List ℝ
  orth : Bool
  cx : ℝ
  cy : ℝ
  cz : ℝ
  n : ℕ

/-- The largest radius, nlocVecRoutines.c:96-100. -/
noncomputable def rcMax (T : NTyp) : ℝ := T.rcs.foldl max 0

/-- `rcbox_x/y/z`, nlocVecRoutines.c:103-110. -/
noncomputable def rcbox (T : NTyp) : ℝ × ℝ × ℝ :=
  if T.orth then (rcMax T, rcMax T, rcMax T) else (T.cx, T.cy, T.cz)

/-- One record of `Atom_Influence_nloc[ityp]`; `ndc` is the length of `gpos`. -/
structure NRec where
  x : ℝ
  y : ℝ
  z : ℝ
  idx : ℕ
  xs : ℤ
  xe : ℤ
  ys : ℤ
  ye : ℤ
  zs : ℤ
  ze : ℤ
  gpos : List ℤ

open Classical in
/-- The nodes of the box inside the sphere, nlocVecRoutines.c:284-302. -/
noncomputable def sphere (G : Geo) (dist : ℝ × ℝ × ℝ → ℝ × ℝ × ℝ → ℝ) (rc : ℝ)
    (c : ℝ × ℝ × ℝ) (xs xe ys ye zs ze : ℤ) : List ℤ :=
  let DMnx := G.X.hi - G.X.lo + 1
  let DMny := G.Y.hi - G.Y.lo + 1
  (irange zs ze).foldl (fun acc (k : ℤ) =>
    (irange ys ye).foldl (fun acc (j : ℤ) =>
      (irange xs xe).foldl (fun acc (i : ℤ) =>
        let r2 := dist (G.X.org + i * G.X.h, j * G.Y.h, k * G.Z.h) c
        if r2 * r2 ≤ rc * rc then
          acc ++ [(k - G.Z.lo) * (DMnx * DMny) + (j - G.Y.lo) * DMnx + (i - G.X.lo)]
        else acc) acc) acc) []

/-- The record of one image in the second sweep, nlocVecRoutines.c:250-304. -/
noncomputable def mkNRec (G : Geo) (dist : ℝ × ℝ × ℝ → ℝ × ℝ × ℝ → ℝ) (T : NTyp)
    (pos : ℕ → ℝ) (J : ℕ) (p q r : ℤ) : NRec :=
  let b := rcbox T
  let x := pos (3 * J) + G.X.L * p
  let y := pos (3 * J + 1) + G.Y.L * q
  let z := pos (3 * J + 2) + G.Z.L * r
  let xs := max G.X.lo ⌈(x - G.X.org - b.1) / G.X.h⌉
  let xe := min G.X.hi ⌊(x - G.X.org + b.1) / G.X.h⌋
  let ys := max G.Y.lo ⌈(y - b.2.1) / G.Y.h⌉
  let ye := min G.Y.hi ⌊(y + b.2.1) / G.Y.h⌋
  let zs := max G.Z.lo ⌈(z - b.2.2) / G.Z.h⌉
  let ze := min G.Z.hi ⌊(z + b.2.2) / G.Z.h⌋
  { x := x, y := y, z := z, idx := J, xs := xs, xe := xe, ys := ys, ye := ye, zs := zs, ze := ze
    gpos := sphere G dist (rcMax T) (x, y, z) xs xe ys ye zs ze }

/-- First sweep over one atom, nlocVecRoutines.c:115-166. -/
noncomputable def countAtomN (G : Geo) (T : NTyp) (pos : ℕ → ℝ) (J : ℕ) (count : ℕ) : ℕ :=
  let b := rcbox T
  let x0 := pos (3 * J)
  let y0 := pos (3 * J + 1)
  let z0 := pos (3 * J + 2)
  sweep (irange (imgMinN G.Z b.2.2 z0) (imgMaxN G.Z b.2.2 z0))
    (irange (imgMinN G.Y b.2.1 y0) (imgMaxN G.Y b.2.1 y0))
    (irange (imgMinN G.X b.1 x0) (imgMaxN G.X b.1 x0))
    (fun r => skip (dms G.Z) (dmeN G.Z) b.2.2 (z0 + G.Z.L * r))
    (fun q => skip (dms G.Y) (dmeN G.Y) b.2.1 (y0 + G.Y.L * q))
    (fun p => skip (dms G.X) (dmeN G.X) b.1 (x0 + G.X.L * p))
    (fun c _ _ _ => c + 1) count

/-- Second sweep over one atom, nlocVecRoutines.c:202-312: records (with possibly no node),
and `count_overlap_nloc_sphere`. -/
noncomputable def fillAtomN (G : Geo) (dist : ℝ × ℝ × ℝ → ℝ × ℝ × ℝ → ℝ) (T : NTyp)
    (pos : ℕ → ℝ) (J : ℕ) (s : List NRec × ℕ) : List NRec × ℕ :=
  let b := rcbox T
  let x0 := pos (3 * J)
  let y0 := pos (3 * J + 1)
  let z0 := pos (3 * J + 2)
  sweep (irange (imgMinN G.Z b.2.2 z0) (imgMaxN G.Z b.2.2 z0))
    (irange (imgMinN G.Y b.2.1 y0) (imgMaxN G.Y b.2.1 y0))
    (irange (imgMinN G.X b.1 x0) (imgMaxN G.X b.1 x0))
    (fun r => skip (dms G.Z) (dmeN G.Z) b.2.2 (z0 + G.Z.L * r))
    (fun q => skip (dms G.Y) (dmeN G.Y) b.2.1 (y0 + G.Y.L * q))
    (fun p => skip (dms G.X) (dmeN G.X) b.1 (x0 + G.X.L * p))
    (fun s p q r =>
      let R := mkNRec G dist T pos J p q r
      (s.1 ++ [R], if R.gpos.length > 0 then s.2 + 1 else s.2)) s

/-- The result for one type: the number of temporary records allocated and written, the number
of final records allocated (`n_atom`), and the final records. -/
structure NOut where
  alloc : ℕ
  written : ℕ
  nAtom : ℕ
  recs : List NRec

/-- State of the loop over types: `atmcount`, `atmcount2`, and the finished types. -/
structure NSt where
  atm : ℕ
  atm2 : ℕ
  out : List NOut

/-- One turn of the loop over types, nlocVecRoutines.c:96-379. -/
noncomputable def typeStepN (G : Geo) (dist : ℝ × ℝ × ℝ → ℝ × ℝ × ℝ → ℝ) (pos : ℕ → ℝ)
    (s : NSt) (T : NTyp) : NSt :=
  let first := (List.range T.n).foldl
    (fun (c : ℕ × ℕ) _ => (c.1 + 1, countAtomN G T pos c.1 c.2)) (s.atm, 0)
  if first.2 = 0 then
    { atm := first.1, atm2 := first.1, out := s.out ++ [⟨0, 0, 0, []⟩] }
  else
    let second := (List.range T.n).foldl
      (fun (c : ℕ × List NRec × ℕ) _ => (c.1 + 1, fillAtomN G dist T pos c.1 c.2))
      (s.atm2, [], 0)
    if second.2.2 = 0 then
      { atm := first.1, atm2 := first.1,
        out := s.out ++ [⟨first.2, second.2.1.length, 0, []⟩] }
    else
      { atm := first.1, atm2 := second.1,
        out := s.out ++ [⟨first.2, second.2.1.length, second.2.2, second.2.1.foldl
          (fun acc R => if R.gpos.length > 0 then acc ++ [R] else acc) []⟩] }

/-- `GetInfluencingAtoms_nloc`, nlocVecRoutines.c:94-380. -/
noncomputable def influenceN (G : Geo) (dist : ℝ × ℝ × ℝ → ℝ × ℝ × ℝ → ℝ) (types : List NTyp)
    (pos : ℕ → ℝ) : NSt :=
  types.foldl (typeStepN G dist pos) ⟨0, 0, []⟩

/-- How a stored position is turned back into a node, nlocVecRoutines.c:465-472 (C division and
remainder; positions are not negative). -/
def decode (G : Geo) (g : ℤ) : ℤ × ℤ × ℤ :=
  let DMnx := G.X.hi - G.X.lo + 1
  let DMny := G.Y.hi - G.Y.lo + 1
  let k := g / (DMnx * DMny)
  let j := (g - k * (DMnx * DMny)) / DMnx
  let i := g % DMnx
  (i + G.X.lo, j + G.Y.lo, k + G.Z.lo)

end Sparc.Infl

import Mathlib.Data.Real.Sqrt
import Mathlib.Data.Real.Archimedean
import Mathlib.Algebra.Order.Floor.Ring

/-!
# Neighbour lists of the machine-learned force field (model)

`/repo/src/mlff/soap_descriptor.c:156-319`, one atom of the domain at a time.  Exact real arithmetic;
helical cells (`cell_typ` between 20 and 30) are left out.  The growable arrays are lists (their model is
`Verif.DyArr`).
-/

namespace Sparc.Neigh

/-- Orthogonal cell (`cell_typ == 0`) or a cell given by unit lattice vectors (`10 < cell_typ < 20`). -/
inductive Geometry
  | orth
  | skew (U : Fin 9 → ℝ)

/-- Data of a structure: lattice lengths, periodic axes (`BC == 0`), atoms. -/
structure Struc where
  geo : Geometry
  L1 : ℝ
  L2 : ℝ
  L3 : ℝ
  perx : Bool
  pery : Bool
  perz : Bool
  natom : ℕ
  x : ℕ → ℝ
  y : ℕ → ℝ
  z : ℕ → ℝ
  typ : ℕ → ℕ

/-- Highest image, soap_descriptor.c:191, 195, 199 (zero on axes that are not periodic). -/
noncomputable def imgP (per : Bool) (rc L a : ℝ) : ℤ := if per then max 0 ⌈(rc - L + a) / L⌉ else 0

/-- Lowest image, soap_descriptor.c:192, 196, 200. -/
noncomputable def imgN (per : Bool) (rc L a : ℝ) : ℤ := if per then max 0 ⌈(rc - a) / L⌉ else 0

/-- `for (img = -n; img <= p; img++)`, soap_descriptor.c:216, 219, 222. -/
def irange (n p : ℤ) : List ℤ := (List.range (n + p + 1).toNat).map fun (t : ℕ) => -n + (t : ℤ)

/-- Squared distance of the displacement `(d1, d2, d3)` along the lattice directions,
soap_descriptor.c:237-250. -/
def dist2 (g : Geometry) (d1 d2 d3 : ℝ) : ℝ :=
  match g with
  | .orth => d1 * d1 + d2 * d2 + d3 * d3
  | .skew U =>
    let dx := U 0 * d1 + U 3 * d2 + U 6 * d3
    let dy := U 1 * d1 + U 4 * d2 + U 7 * d3
    let dz := U 2 * d1 + U 5 * d2 + U 8 * d3
    dx * dx + dy * dy + dz * dz

open Classical in
/-- Whether image `m` of atom `j` is entered for atom `i`, soap_descriptor.c:217-251. -/
noncomputable def accept (S : Struc) (rcut : ℝ) (i j : ℕ) (m : ℤ × ℤ × ℤ) : Bool :=
  if j = i ∧ m.1 = 0 ∧ m.2.1 = 0 ∧ m.2.2 = 0 then false
  else
    let dr := Real.sqrt (dist2 S.geo (S.x j + m.1 * S.L1 - S.x i) (S.y j + m.2.1 * S.L2 - S.y i)
      (S.z j + m.2.2 * S.L3 - S.z i))
    if dr ≥ rcut ∨ dr = 0 then false else true

/-- The lists of one atom. -/
structure Lists where
  /-- `neighborList` with the image arrays. -/
  nl : List (ℕ × ℤ × ℤ × ℤ)
  /-- `neighborList_elemWise` with the image arrays. -/
  nlE : ℕ → List (ℕ × ℤ × ℤ × ℤ)
  /-- `unique_neighborList`. -/
  ul : List ℕ
  /-- `unique_neighborList_elemWise`. -/
  ulE : ℕ → List ℕ
  /-- `if_self_image`. -/
  self : Bool

/-- Append to the list of one element. -/
def push {α : Type} (f : ℕ → List α) (e : ℕ) (a : α) : ℕ → List α := fun k => if k = e then f k ++ [a] else f k

/-- Body of the image loops, soap_descriptor.c:224-286; the second component is `count_unique`. -/
noncomputable def visit (S : Struc) (rcut : ℝ) (i j : ℕ) (s : Lists × ℕ) (m : ℤ × ℤ × ℤ) : Lists × ℕ :=
  if accept S rcut i j m then
    let l := s.1
    let l := if j = i then { l with self := true } else l
    let l := if s.2 = 0 ∧ j ≠ i then { l with ul := l.ul ++ [j], ulE := push l.ulE (S.typ j) j } else l
    ({ l with nl := l.nl ++ [(j, m)], nlE := push l.nlE (S.typ j) (j, m) }, s.2 + 1)
  else s

/-- The images of an atom in loop order, soap_descriptor.c:216-223. -/
def images (nx px ny py nz pz : ℤ) : List (ℤ × ℤ × ℤ) :=
  (irange nx px).flatMap fun a => (irange ny py).flatMap fun b => (irange nz pz).map fun c => (a, b, c)

/-- Loop over the atoms, soap_descriptor.c:175-290. `gy`, `gz` are the entries of `geometric_ratio`. -/
noncomputable def nlist (S : Struc) (rcut gy gz : ℝ) (i : ℕ) : Lists :=
  let ims := images (imgN S.perx rcut S.L1 (S.x i)) (imgP S.perx rcut S.L1 (S.x i))
    (imgN S.pery (rcut * gy) S.L2 (S.y i)) (imgP S.pery (rcut * gy) S.L2 (S.y i))
    (imgN S.perz (rcut * gz) S.L3 (S.z i)) (imgP S.perz (rcut * gz) S.L3 (S.z i))
  (List.range S.natom).foldl (fun l j => (ims.foldl (visit S rcut i j) (l, 0)).1)
    ⟨[], fun _ => [], [], fun _ => [], false⟩

/-- `lin_search`, soap_descriptor.c:130-137. -/
def linSearch : List ℕ → ℕ → ℤ
  | [], _ => -1
  | a :: l, x => if a = x then 0 else
    let r := linSearch l x
    if r = -1 then -1 else r + 1

/-- `localID_neighbours` of element `e`, soap_descriptor.c:302-306. -/
def localId (l : Lists) (e : ℕ) : List ℤ := (l.nlE e).map fun t => linSearch (l.ulE e) t.1

end Sparc.Neigh

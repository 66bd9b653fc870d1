import Verif.Loop

/-!
# Enumeration of boxes and restriction to boxes (model)

`/repo/src/tools.c`: `c_ndgrid`, `is_grid_outside`, `grid_outside_region`, `restrict_to_subgrid`.
Arrays are total functions on indices.
-/

namespace Sparc.Grid

/-- Consecutive assignments `X[start + count] = ..; count++`. -/
def writeSeq {α : Type} (start : ℕ) (l : List α) (X : ℕ → α) : ℕ → α := fun p =>
  if start ≤ p then (l[p - start]?).getD (X p) else X p

/-- `c_ndgrid_recursion`, tools.c:1177-1194.  `xs`, `xe` are the corners of the box.  An empty axis
gives `none`: the code then divides by zero or works with negative counts. -/
def ndgridRec (xs xe : ℕ → ℤ) : ℕ → ℕ → ℕ → (ℕ → ℤ) → Option (ℕ → ℤ)
  | 0, _, _, X => some X
  | d + 1, ncopy, nnodes, X =>
    let nnd := (xe d - xs d + 1).toNat
    if nnd = 0 then none
    else
      let m := nnodes / nnd
      if m = 0 then none
      else
        let vals := (List.range ncopy).flatMap fun _ => (List.range nnd).flatMap fun (i : ℕ) =>
          List.replicate m (xs d + i)
        ndgridRec xs xe d (ncopy * nnodes / m) m (writeSeq (nnodes * ncopy * d) vals X)

/-- `c_ndgrid`, tools.c:1143-1154. -/
def ndgrid (ndims : ℕ) (xs xe : ℕ → ℤ) (X : ℕ → ℤ) : Option (ℕ → ℤ) :=
  let nnodes := (List.range ndims).foldl (fun p i => p * (xe i - xs i + 1).toNat) 1
  ndgridRec xs xe ndims 1 nnodes X

/-- `is_grid_outside`, tools.c:1077-1088.  `D` and `N` are `DMVerts` and `gridsizes`. -/
def isGridOutside (ip jp kp oi oj ok : ℤ) (D : Fin 6 → ℤ) (N : Fin 3 → ℤ) : Bool :=
  let i := ip + oi + D 0
  let j := jp + oj + D 2
  let k := kp + ok + D 4
  decide (i < 0) || decide (i ≥ N 0) || decide (j < 0) || decide (j ≥ N 1) || decide (k < 0) ||
    decide (k ≥ N 2)

/-- Value of a C comparison. -/
def b2i (b : Bool) : ℤ := if b then 1 else 0

/-- `grid_outside_region`, tools.c:1109-1123. -/
def gridOutsideRegion (ip jp kp oi oj ok : ℤ) (D : Fin 6 → ℤ) (N : Fin 3 → ℤ) : ℤ :=
  let i := ip + oi + D 0
  let j := jp + oj + D 2
  let k := kp + ok + D 4
  let ii := b2i (decide (0 ≤ i)) - b2i (decide (i < N 0))
  let jj := b2i (decide (0 ≤ j)) - b2i (decide (j < N 1))
  let kk := b2i (decide (0 ≤ k)) - b2i (decide (k < N 2))
  let r := (kk + 1) * 9 + (jj + 1) * 3 + (ii + 1)
  if r = 13 then -1 else if r < 13 then r else r - 1

/-- Corners, strides and source corner of `restrict_to_subgrid`. -/
structure Sub where
  (syo syi szo szi : ℤ)
  (x0 x1 y0 y1 z0 z1 : ℤ)
  (xi yi zi : ℤ)

/-- The integers `a, .., b`. -/
def irange (a b : ℤ) : List ℤ := (List.range (b + 1 - a).toNat).map fun (t : ℕ) => a + t

/-- `restrict_to_subgrid`, tools.c:2871-2904. -/
def restrictSub {α : Type} (S : Sub) (vi vo : ℤ → α) : ℤ → α :=
  let si := S.xi - S.x0
  let sj := S.yi - S.y0
  let sk := S.zi - S.z0
  Loop.fill
    ((irange S.z0 S.z1).flatMap fun k => (irange S.y0 S.y1).flatMap fun j =>
      (irange S.x0 S.x1).map fun i => (i, j, k))
    (fun t : ℤ × ℤ × ℤ => t.2.2 * S.szo + t.2.1 * S.syo + t.1)
    (fun t => vi ((t.2.2 + sk) * S.szi + (t.2.1 + sj) * S.syi + (t.1 + si)))
    vo

end Sparc.Grid

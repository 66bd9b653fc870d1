import Mathlib.Analysis.SpecialFunctions.Pow.Real

/-!
# Lattice geometry (model)

`Cart2nonCart_transformMat`, `nonCart2Cart_coord`, `Cart2nonCart_coord`,
`nonCart2Cart_grad`, `CalculateDistance` and the cell-type decision,
`/repo/src/initialization.c`.  `double` is replaced by `ℝ`, C arrays of length 9 by
functions `ℕ → ℝ` read at indices below 9.  The cyclix (helical) branches are left out.
-/

namespace Sparc.Coord

/-- `TEMP_TOL`, initialization.c:53. -/
noncomputable def tempTol : ℝ := 1 / 10 ^ 12

/-- `LatUVec`, initialization.c:3533-3541. -/
noncomputable def latU (L : ℕ → ℝ) (n : ℕ) : ℝ :=
  let i := n / 3
  let mag := Real.sqrt (L (3 * i) ^ 2 + L (3 * i + 1) ^ 2 + L (3 * i + 2) ^ 2)
  L n / mag

/-- The accumulated determinant, initialization.c:3544-3552 (C integer division). -/
noncomputable def jacbdet (U : ℕ → ℝ) : ℝ :=
  (List.range 3).foldl (fun (acc : ℝ) (i : ℕ) =>
    (List.range 3).foldl (fun (acc : ℝ) (j : ℕ) =>
      (List.range 3).foldl (fun (acc : ℝ) (k : ℕ) =>
        if i ≠ j ∧ j ≠ k ∧ k ≠ i then
          acc + (((((i : ℤ) - (j : ℤ)) * ((j : ℤ) - (k : ℤ)) * ((k : ℤ) - (i : ℤ))).tdiv 2 : ℤ) : ℝ) * U (3 * i) * U (3 * j + 1) * U (3 * k + 2)
        else acc) acc) acc) 0

/-- `metricT`, initialization.c:3561-3574. -/
noncomputable def metricT (U : ℕ → ℝ) (n : ℕ) : ℝ :=
  let i := n / 3
  let j := n % 3
  let s := (List.range 3).foldl (fun acc k => acc + U (3 * i + k) * U (3 * j + k)) 0
  if n = 1 ∨ n = 2 ∨ n = 5 then 2 * s else s

/-- `gradT`, initialization.c:3577-3581 (entry `3*j + i`). -/
noncomputable def gradT (U : ℕ → ℝ) (det : ℝ) (n : ℕ) : ℝ :=
  let j := n / 3
  let i := n % 3
  (U (3 * ((j + 1) % 3) + (i + 1) % 3) * U (3 * ((j + 2) % 3) + (i + 2) % 3)
    - U (3 * ((j + 1) % 3) + (i + 2) % 3) * U (3 * ((j + 2) % 3) + (i + 1) % 3)) / det

/-- `lapcT`, initialization.c:3584-3593. -/
noncomputable def lapcT (g : ℕ → ℝ) (n : ℕ) : ℝ :=
  let i := n / 3
  let j := n % 3
  (List.range 3).foldl (fun acc k => acc + g (3 * i + k) * g (3 * j + k)) 0

open Classical in
/-- Preliminary cell type, initialization.c:1870-1891: 1 if some pair of lattice vectors is
not orthogonal, otherwise 17 if some vector is not aligned with its axis, otherwise 0. -/
noncomputable def cellTyp0 (L : ℕ → ℝ) : ℕ :=
  let dot (i j : ℕ) := |L (3 * i) * L (3 * j) + L (3 * i + 1) * L (3 * j + 1) + L (3 * i + 2) * L (3 * j + 2)|
  if dot 0 1 > tempTol ∨ dot 0 2 > tempTol ∨ dot 1 2 > tempTol then 1
  else if |L 1| > tempTol ∨ |L 2| > tempTol ∨ |L 3| > tempTol ∨ |L 5| > tempTol ∨ |L 6| > tempTol ∨ |L 7| > tempTol
    then 17
  else 0

open Classical in
/-- Final cell type, initialization.c:3596-3609 (left as it was when no branch applies). -/
noncomputable def cellTyp1 (l : ℕ → ℝ) (typ : ℕ) : ℕ :=
  if |l 1| > tempTol ∧ |l 2| < tempTol ∧ |l 5| < tempTol then 11
  else if |l 1| < tempTol ∧ |l 2| > tempTol ∧ |l 5| < tempTol then 12
  else if |l 1| < tempTol ∧ |l 2| < tempTol ∧ |l 5| > tempTol then 13
  else if |l 1| > tempTol ∧ |l 2| > tempTol ∧ |l 5| < tempTol then 14
  else if |l 1| < tempTol ∧ |l 2| > tempTol ∧ |l 5| > tempTol then 15
  else if |l 1| > tempTol ∧ |l 2| < tempTol ∧ |l 5| > tempTol then 16
  else if |l 1| > tempTol ∧ |l 2| > tempTol ∧ |l 5| > tempTol then 17
  else typ

/-- The geometry fields of `SPARC_OBJ` filled in by `Cart2nonCart_transformMat`. -/
structure Geom where
  U : ℕ → ℝ
  det : ℝ
  metric : ℕ → ℝ
  grad : ℕ → ℝ
  lapc : ℕ → ℝ
  cellTyp : ℕ

open Classical in
/-- Set-up of the geometry: initialization.c:1867-1891 followed by
`Cart2nonCart_transformMat`, 3527-3615.  `none` is `exit(EXIT_FAILURE)`. -/
noncomputable def transformMat (L : ℕ → ℝ) : Option Geom :=
  let U := latU L
  let det := jacbdet U
  if det ≤ 0 then none
  else
    let g := gradT U det
    some { U := U, det := det, metric := metricT U, grad := g, lapc := lapcT g,
           cellTyp := cellTyp1 (lapcT g) (cellTyp0 L) }

/-- `nonCart2Cart_coord`, initialization.c:3649-3653. -/
noncomputable def toCart (G : Geom) (p : ℝ × ℝ × ℝ) : ℝ × ℝ × ℝ :=
  (G.U 0 * p.1 + G.U 3 * p.2.1 + G.U 6 * p.2.2,
   G.U 1 * p.1 + G.U 4 * p.2.1 + G.U 7 * p.2.2,
   G.U 2 * p.1 + G.U 5 * p.2.1 + G.U 8 * p.2.2)

/-- `Cart2nonCart_coord`, initialization.c:3664-3668. -/
noncomputable def ofCart (G : Geom) (p : ℝ × ℝ × ℝ) : ℝ × ℝ × ℝ :=
  (G.grad 0 * p.1 + G.grad 1 * p.2.1 + G.grad 2 * p.2.2,
   G.grad 3 * p.1 + G.grad 4 * p.2.1 + G.grad 5 * p.2.2,
   G.grad 6 * p.1 + G.grad 7 * p.2.1 + G.grad 8 * p.2.2)

/-- `nonCart2Cart_grad`, initialization.c:3676-3682. -/
noncomputable def gradToCart (G : Geom) (p : ℝ × ℝ × ℝ) : ℝ × ℝ × ℝ :=
  (G.grad 0 * p.1 + G.grad 3 * p.2.1 + G.grad 6 * p.2.2,
   G.grad 1 * p.1 + G.grad 4 * p.2.1 + G.grad 7 * p.2.2,
   G.grad 2 * p.1 + G.grad 5 * p.2.1 + G.grad 8 * p.2.2)

/-- `CalculateDistance`, initialization.c:3687-3700.  `none`: the output is not written. -/
noncomputable def calcDist (G : Geom) (p q : ℝ × ℝ × ℝ) : Option ℝ :=
  if G.cellTyp = 0 then
    some (Real.sqrt ((p.1 - q.1) ^ 2 + (p.2.1 - q.2.1) ^ 2 + (p.2.2 - q.2.2) ^ 2))
  else if 10 < G.cellTyp ∧ G.cellTyp < 20 then
    let xx := p.1 - q.1
    let yy := p.2.1 - q.2.1
    let zz := p.2.2 - q.2.2
    some (Real.sqrt (G.metric 0 * (xx * xx) + G.metric 1 * (xx * yy) + G.metric 2 * (xx * zz)
      + G.metric 4 * (yy * yy) + G.metric 5 * (yy * zz) + G.metric 8 * (zz * zz)))
  else none

end Sparc.Coord

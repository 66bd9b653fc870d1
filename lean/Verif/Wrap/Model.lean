import Mathlib.Algebra.Order.Archimedean.Real.Basic
import Mathlib.Algebra.Order.Floor.Ring
import Mathlib.Analysis.SpecialFunctions.Trigonometric.Basic
import Verif.Coord.Model

/-!
# Mapping atoms back into the cell (model)

`SPARC_copy_input` (`/repo/src/initialization.c:2014-2082`), `wraparound_dynamics`
(`/repo/src/md.c:1808-1860`), `map_atom_coord` (`/repo/src/socket/driver.c:515-590`).
`double` is replaced by `ℝ`.  The array `atom_pos` is the list of its atoms, each a function
`Fin 3 → ℝ`.  `none` is `exit(EXIT_FAILURE)` (the check is made by one rank, the exit ends
the whole job).
-/

namespace Sparc.Wrap

/-- C `fmod`: remainder of the division truncated towards zero. -/
noncomputable def fmod (x y : ℝ) : ℝ :=
  x - (if x / y < 0 then (⌈x / y⌉ : ℤ) else (⌊x / y⌋ : ℤ)) * y

open Classical in
/-- Body of the loop for a periodic direction, initialization.c:2018-2023 and md.c:1845-1851. -/
noncomputable def wrap (len x : ℝ) : ℝ :=
  if x < 0 ∨ x ≥ len then
    let x := fmod x len
    x + (if x < 0 then 1 else 0) * len
  else x

open Classical in
/-- Body of the loop for a periodic direction in the socket driver, driver.c:523-528
(`x > range` instead of `x >= range`). -/
noncomputable def wrapSock (len x : ℝ) : ℝ :=
  if x < 0 ∨ x > len then
    let x := fmod x len
    x + (if x < 0 then 1 else 0) * len
  else x

/-- One direction: periodic (`bc = 0`) maps every atom with `w`, otherwise the run ends when
`bad` holds of some atom. -/
noncomputable def mapDir (w : ℝ → ℝ) (bad : ℝ → Bool) (bc : ℕ) (d : Fin 3)
    (atoms : List (Fin 3 → ℝ)) : Option (List (Fin 3 → ℝ)) :=
  if bc = 0 then some (atoms.map fun a => Function.update a d (w (a d)))
  else if atoms.any (fun a => bad (a d)) then none
  else some atoms

/-- Cell data used by the three mappings. -/
structure Cell where
  bc : Fin 3 → ℕ
  range : Fin 3 → ℝ
  xin : ℝ

/-- Lower end of the domain in each direction: `xin` for x, `0` for y and z. -/
noncomputable def Cell.lo (c : Cell) (d : Fin 3) : ℝ := if d = 0 then c.xin else 0

open Classical in
/-- Input mapping, initialization.c:2014-2082. -/
noncomputable def mapInput (c : Cell) (atoms : List (Fin 3 → ℝ)) : Option (List (Fin 3 → ℝ)) := do
  let a ← mapDir (wrap (c.range 0)) (fun x => decide (x < c.xin ∨ x > c.range 0 + c.xin)) (c.bc 0) 0 atoms
  let a ← mapDir (wrap (c.range 1)) (fun x => decide (x < 0 ∨ x > c.range 1)) (c.bc 1) 1 a
  mapDir (wrap (c.range 2)) (fun x => decide (x < 0 ∨ x > c.range 2)) (c.bc 2) 2 a

open Classical in
/-- `map_atom_coord`, driver.c:515-590. -/
noncomputable def mapSocket (c : Cell) (atoms : List (Fin 3 → ℝ)) : Option (List (Fin 3 → ℝ)) := do
  let a ← mapDir (wrapSock (c.range 0)) (fun x => decide (x < c.xin ∨ x > c.range 0 + c.xin)) (c.bc 0) 0 atoms
  let a ← mapDir (wrapSock (c.range 1)) (fun x => decide (x < 0 ∨ x > c.range 1)) (c.bc 1) 1 a
  mapDir (wrapSock (c.range 2)) (fun x => decide (x < 0 ∨ x > c.range 2)) (c.bc 2) 2 a

open Classical in
/-- The direction loop of `wraparound_dynamics`, md.c:1820-1858 (no cyclix). -/
noncomputable def mapDynDirs (c : Cell) (atoms : List (Fin 3 → ℝ)) : Option (List (Fin 3 → ℝ)) := do
  let a ← mapDir (wrap (c.range 0)) (fun x => decide (x ≥ c.range 0 ∨ x < 0)) (c.bc 0) 0 atoms
  let a ← mapDir (wrap (c.range 1)) (fun x => decide (x ≥ c.range 1 ∨ x < 0)) (c.bc 1) 1 a
  mapDir (wrap (c.range 2)) (fun x => decide (x ≥ c.range 2 ∨ x < 0)) (c.bc 2) 2 a

/-- Read a Cartesian triple as lattice coordinates, via `Coord.ofCart`. -/
noncomputable def toLattice (G : Coord.Geom) (a : Fin 3 → ℝ) : Fin 3 → ℝ :=
  let p := Coord.ofCart G (a 0, a 1, a 2)
  ![p.1, p.2.1, p.2.2]

/-- `wraparound_dynamics`, md.c:1808-1860: Cartesian to lattice coordinates for cells that
are not axis-aligned, then the direction loop. -/
noncomputable def wraparound (G : Coord.Geom) (c : Cell) (atoms : List (Fin 3 → ℝ)) :
    Option (List (Fin 3 → ℝ)) :=
  let atoms := if G.cellTyp ≠ 0 then atoms.map (toLattice G) else atoms
  mapDynDirs c atoms

/-- `wraparound_velocity`, md.c:1865-1892: the new `(vx, vy)`; `angle` is `shift` in
direction 1 and `twist * shift` in direction 2. -/
noncomputable def wrapVelocity (angle : ℝ) (v : ℝ × ℝ) : ℝ × ℝ :=
  (Real.cos angle * v.1 - Real.sin angle * v.2, Real.sin angle * v.1 + Real.cos angle * v.2)

end Sparc.Wrap

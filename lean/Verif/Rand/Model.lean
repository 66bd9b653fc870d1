import Mathlib.Data.Real.Basic
import Verif.Loop

/-!
# Seeded random vectors (model)

`SeededRandVec`, `/repo/src/tools.c:967-993` (the complex version tools.c:1004-1030 has the same body),
and the initial orbitals, `/repo/src/orbitalElecDensInit.c:410-427` (lines 378-389 are the case of one
k-point).  The generator is a parameter: `gen s` stands for `rand() / RAND_MAX` directly after
`srand(s)`.  Integers are unbounded here; `seed_overflow` in the properties looks at `int`.
-/

namespace Sparc.Rand

open Loop

/-- Index range of a block, both ends included (`DMVert`). -/
structure Vert where
  x0 : ℕ
  x1 : ℕ
  y0 : ℕ
  y1 : ℕ
  z0 : ℕ
  z1 : ℕ

/-- Points of a block along each axis, tools.c:975-977. -/
def Vert.nx (v : Vert) : ℕ := v.x1 + 1 - v.x0
def Vert.ny (v : Vert) : ℕ := v.y1 + 1 - v.y0
def Vert.nz (v : Vert) : ℕ := v.z1 + 1 - v.z0

/-- `index_g`, tools.c:973-974 and 986. -/
def indexG (v : Vert) (gx gy : ℕ) (t : ℕ × ℕ × ℕ) : ℕ :=
  (v.z0 + t.2.2) * (gx * gy) + (v.y0 + t.2.1) * gx + (v.x0 + t.1)

/-- `index`, tools.c:979-980 and 987. -/
def index (v : Vert) (t : ℕ × ℕ × ℕ) : ℕ := t.2.2 * (v.nx * v.ny) + t.2.1 * v.nx + t.1

/-- The number stored, tools.c:988-989. -/
def draw (gen : ℕ → ℝ) (rmin rmax : ℝ) (seed : ℕ) : ℝ := rmin + (rmax - rmin) * gen seed

/-- `SeededRandVec`, tools.c:967-993. -/
def seededRandVec (gen : ℕ → ℝ) (v : Vert) (gx gy : ℕ) (rmin rmax : ℝ) (offset : ℕ) (vec : ℕ → ℝ) :
    ℕ → ℝ :=
  fill (box v.nx v.ny v.nz) (index v) (fun t => draw gen rmin rmax (indexG v gx gy t + 1 + offset)) vec

/-- One process: its block, k-points, bands and spinors (first global index and number). -/
structure Proc where
  v : Vert
  k0 : ℕ
  nk : ℕ
  b0 : ℕ
  nb : ℕ
  s0 : ℕ
  ns : ℕ

/-- Global sizes: grid, spinors, states. -/
structure Sizes where
  gx : ℕ
  gy : ℕ
  gz : ℕ
  nspinor : ℕ
  nstates : ℕ

/-- `Nd`. -/
def Sizes.nd (g : Sizes) : ℕ := g.gx * g.gy * g.gz

/-- `shift_g`, orbitalElecDensInit.c:411-420; `o = (spinor, n, k)` are the local loop indices. -/
def shiftG (g : Sizes) (p : Proc) (o : ℕ × ℕ × ℕ) : ℕ :=
  (p.k0 + o.2.2) * (g.nd * g.nspinor * g.nstates) + (p.b0 + o.2.1) * (g.nd * g.nspinor) +
    (p.s0 + o.1) * g.nd

/-- `shift`, orbitalElecDensInit.c:353-354 and 421. -/
def shift (p : Proc) (o : ℕ × ℕ × ℕ) : ℕ :=
  let dmnd := p.v.nx * p.v.ny * p.v.nz
  o.2.2 * (dmnd * p.ns * p.nb) + o.2.1 * (dmnd * p.ns) + o.1 * dmnd

/-- All writes of orbitalElecDensInit.c:414-426, with the inner loops of `SeededRandVec`. -/
def visits (p : Proc) : List ((ℕ × ℕ × ℕ) × (ℕ × ℕ × ℕ)) :=
  (box p.ns p.nb p.nk).flatMap fun o => (box p.v.nx p.v.ny p.v.nz).map fun t => (o, t)

/-- Initial orbitals with fixed seeds. -/
noncomputable def initOrbitals (gen : ℕ → ℝ) (g : Sizes) (p : Proc) (vec : ℕ → ℝ) : ℕ → ℝ :=
  fill (visits p) (fun q => shift p q.1 + index p.v q.2)
    (fun q => draw gen (-1 / 2) (1 / 2) (indexG p.v g.gx g.gy q.2 + 1 + shiftG g p q.1)) vec

end Sparc.Rand

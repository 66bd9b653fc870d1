import Verif.Tac
import Mathlib.Analysis.SpecialFunctions.Log.Basic
import Mathlib.Analysis.SpecialFunctions.Trigonometric.Basic

/-!
# Outer potential of wires

Model of `PartrialDipole_wire` (`/repo/src/electrostatics.c` 2203-2482): one direction is periodic,
called Z, and the outer potential in the two Dirichlet directions is that of lines of charge.  It is
computed for the layers beyond four sides and stored in one array with four blocks.

Simplifications: real arithmetic; the sums over the processes of a line (2310-2312) and of a plane
(2372-2374) are sums over the grid.  The regions of a process and the correction made from them
(2380-2476) are those of `Verif/Bdry`; here the largest region, that of the full grid, and the part of it a
process reads.
-/

namespace Sparc.Wire
open Finset

/-- Grid sizes `NX`, `NY`, `NZ`, spacings `dX`, `dY`, half the order, and the right-hand side. -/
structure Par where
  NX : ℕ
  NY : ℕ
  NZ : ℕ
  dX : ℝ
  dY : ℝ
  fdn : ℕ
  f : ℕ → ℕ → ℕ → ℝ

/-- A side: whether it is one in the Y direction, and whether it is the upper one. -/
abbrev Side := Bool × Bool

/-- `rho_av` (electrostatics.c 2271-2293, 2310-2312). -/
noncomputable def Par.rhoAv (P : Par) (i j : ℕ) : ℝ := (∑ k ∈ range P.NZ, P.f i j k) / (P.NZ * 4 * Real.pi)

/-- `V_av_nbr` (electrostatics.c 2316-2320): where the block of a side begins. -/
def Par.off (P : Par) : Side → ℕ
  | (false, false) => 0
  | (false, true) => P.fdn * P.NY
  | (true, false) => P.fdn * 2 * P.NY
  | (true, true) => P.fdn * (2 * P.NY + P.NX)

/-- `DMCorVert`, first index of the direction (electrostatics.c 2221-2226). -/
def Par.corLo (P : Par) (s : Side) (y : Bool) : ℤ :=
  if y = s.1 ∧ s.2 then (if y then (P.NY : ℤ) else P.NX) - P.fdn else 0

/-- `DMCorVert`, last index of the direction (electrostatics.c 2221-2226). -/
def Par.corHi (P : Par) (s : Side) (y : Bool) : ℤ :=
  if y = s.1 ∧ !s.2 then (P.fdn : ℤ) - 1 else (if y then (P.NY : ℤ) else P.NX) - 1

/-- `DMVert_phi`, first index (electrostatics.c 2322-2344). -/
def Par.phiLo (P : Par) (s : Side) (y : Bool) : ℤ :=
  if y = s.1 then (if s.2 then P.corLo s y + P.fdn else P.corLo s y - P.fdn) else P.corLo s y

/-- `DMVert_phi`, last index (electrostatics.c 2322-2344). -/
def Par.phiHi (P : Par) (s : Side) (y : Bool) : ℤ :=
  if y = s.1 then (if s.2 then P.corHi s y + P.fdn else P.corHi s y - P.fdn) else P.corHi s y

/-- `nX_phi_full` (electrostatics.c 2358, 2423). -/
def Par.nX (P : Par) (s : Side) : ℤ := P.phiHi s false - P.phiLo s false + 1

/-- Place in the array of the point `i`, `j` beyond a side (electrostatics.c 2365, 2430-2432). -/
def Par.idx (P : Par) (s : Side) (i j : ℤ) : ℤ :=
  P.off s + (j - P.phiLo s true) * P.nX s + (i - P.phiLo s false)

/-- Length of `V_av` (electrostatics.c 2315). -/
def Par.len (P : Par) : ℕ := 2 * P.fdn * (P.NX + P.NY)

/-- What is subtracted for one line of charge at one outer point (electrostatics.c 2348-2365). -/
noncomputable def Par.part (P : Par) (ip jp : ℕ) (i j : ℤ) : ℝ :=
  let r2 := ((i : ℝ) * P.dX - ip * P.dX) * (i * P.dX - ip * P.dX) +
    ((j : ℝ) * P.dY - jp * P.dY) * (j * P.dY - jp * P.dY)
  P.rhoAv ip jp * Real.log r2 * (P.dX * P.dY)

/-- The array `V_av` after all loops (electrostatics.c 2346-2374): the element with number `n` collects
what is written to its place, over lines of charge, sides and points. -/
noncomputable def Par.vAv (P : Par) (n : ℤ) : ℝ :=
  ∑ jp ∈ range P.NY, ∑ ip ∈ range P.NX, ∑ s : Side,
    ∑ j ∈ Icc (P.phiLo s true) (P.phiHi s true), ∑ i ∈ Icc (P.phiLo s false) (P.phiHi s false),
      if P.idx s i j = n then -P.part ip jp i j else 0

/-- `phi` at the point `i`, `j` beyond a side (electrostatics.c 2425-2436); `none` is a read outside
the array. -/
noncomputable def Par.phi (P : Par) (s : Side) (i j : ℤ) : Option ℝ :=
  if 0 ≤ P.idx s i j ∧ P.idx s i j < P.len then some (P.vAv (P.idx s i j)) else none

end Sparc.Wire

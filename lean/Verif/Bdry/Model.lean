import Verif.Tac
import Verif.Loop
import Mathlib.Analysis.SpecialFunctions.Trigonometric.Basic

/-!
# Boundary values of the electrostatic potential

Model of `/repo/src/electrostatics.c`: right-hand side of the Poisson equation (`poisson_RHS`,
1494-1585), the correction for potentials that do not vanish outside the grid in the Dirichlet
directions (`apply_multipole_expansion`, 2652-2820; the same loops in `PartrialDipole_surface`,
2082-2184), the multipole expansion (2667-2688, 2758-2774) and the potential of a charged or polar
slab (`PartrialDipole_surface`, 1954-2189).

Simplifications: real arithmetic; sums over processes are sums over the grid; the correction is that
of orthogonal cells (the code has no others); the harmonics are handed over as functions.  The outer
potential of a wire (2203-2482) is in `Verif/Wire`.
-/

namespace Sparc.Bdry
open Finset

/-- Indices of a grid point, or sizes. -/
abbrev Pt := Fin 3 → ℤ

/-- Grid sizes, `FDn`, `DMVertices` (lower and upper), and the coefficients
`D2_stencil_coeffs_x/y/z`. -/
structure Geo where
  N : Pt
  fdn : ℕ
  lo : Pt
  hi : Pt
  c : Fin 3 → ℕ → ℝ

/-- One of the six sides: direction and whether it is the upper one (`nbr_i = 2 * direction + upper`). -/
abbrev Side := Fin 3 × Bool

/-- The sides in the order of `nbr_i` (electrostatics.c 2719). -/
def sides : List Side := [(0, false), (0, true), (1, false), (1, true), (2, false), (2, true)]

/-- `DMCorVert[nbr_i][2 * a]` (electrostatics.c 2711-2716). -/
def Geo.corLo (G : Geo) (f : Side) (a : Fin 3) : ℤ := if a = f.1 ∧ f.2 then G.N a - G.fdn else 0

/-- `DMCorVert[nbr_i][2 * a + 1]` (electrostatics.c 2711-2716). -/
def Geo.corHi (G : Geo) (f : Side) (a : Fin 3) : ℤ := if a = f.1 ∧ !f.2 then G.fdn - 1 else G.N a - 1

/-- `is`, `js`, `ks` (electrostatics.c 2720-2725). -/
def Geo.s (G : Geo) (f : Side) (a : Fin 3) : ℤ := max (G.corLo f a) (G.lo a)

/-- `ie`, `je`, `ke` (electrostatics.c 2720-2725). -/
def Geo.e (G : Geo) (f : Side) (a : Fin 3) : ℤ := min (G.corHi f a) (G.hi a)

/-- `nd_cor` (electrostatics.c 2726-2729). -/
def Geo.ndCor (G : Geo) (f : Side) : ℤ :=
  (G.e f 0 - G.s f 0 + 1) * (G.e f 1 - G.s f 1 + 1) * (G.e f 2 - G.s f 2 + 1)

/-- `is_phi`, `js_phi`, `ks_phi` (electrostatics.c 2734-2750). -/
def Geo.phiLo (G : Geo) (f : Side) (a : Fin 3) : ℤ :=
  if a = f.1 then (if f.2 then G.N a else G.s f a - G.fdn) else G.s f a

/-- `ie_phi`, `je_phi`, `ke_phi` (electrostatics.c 2734-2750). -/
def Geo.phiHi (G : Geo) (f : Side) (a : Fin 3) : ℤ :=
  if a = f.1 then (if f.2 then G.e f a + G.fdn else -1) else G.e f a

/-- `nx_phi`, `ny_phi`, `nz_phi` (electrostatics.c 2752-2754). -/
def Geo.phiN (G : Geo) (f : Side) (a : Fin 3) : ℤ := G.phiHi f a - G.phiLo f a + 1

/-- The array `phi`, first index fastest (electrostatics.c 2759-2774 with the positions of
2600-2614; 2124-2143 for the slab): `out` is the potential at a point outside the grid. -/
def Geo.phiArr (G : Geo) (f : Side) (out : Pt → ℝ) : List ℝ :=
  (Loop.box (G.phiN f 0).toNat (G.phiN f 1).toNat (G.phiN f 2).toNat).map fun t =>
    out ![(t.1 : ℤ) + G.phiLo f 0, (t.2.1 : ℤ) + G.phiLo f 1, (t.2.2 : ℤ) + G.phiLo f 2]

/-- The macro `phi(i,j,k)` (electrostatics.c 2657); `none` is a read outside the array. -/
def Geo.read (G : Geo) (f : Side) (out : Pt → ℝ) (q : Pt) : Option ℝ :=
  let idx := q 2 * G.phiN f 0 * G.phiN f 1 + q 1 * G.phiN f 0 + q 0
  if 0 ≤ idx then (G.phiArr f out)[idx.toNat]? else none

/-- What one pass over `p` subtracts at the point `x` of the side (electrostatics.c 2778-2810). -/
def Geo.term (G : Geo) (f : Side) (out : Pt → ℝ) (x : Pt) (p : ℕ) : Option ℝ :=
  let q : Pt := fun a => x a - G.phiLo f a
  if f.2 then
    if x f.1 + p ≥ G.N f.1 then
      (G.read f out (Function.update q f.1 (q f.1 + p))).map (G.c f.1 p * ·)
    else some 0
  else
    if x f.1 - p < 0 then
      (G.read f out (Function.update q f.1 (q f.1 - p))).map (G.c f.1 p * ·)
    else some 0

/-- The loops over the points of a side visit `x` (electrostatics.c 2731, 2777-2782). -/
def Geo.Visits (G : Geo) (f : Side) (x : Pt) : Prop :=
  0 < G.ndCor f ∧ ∀ a, G.s f a ≤ x a ∧ x a ≤ G.e f a

instance (G : Geo) (f : Side) (x : Pt) : Decidable (G.Visits f x) := by unfold Geo.Visits; infer_instance

/-- The macro `d(i,j,k)` (electrostatics.c 2656, 2777-2782): place of the point in the array `d` of `DMnx * DMny * DMnz`
elements. -/
def Geo.dIdx (G : Geo) (x : Pt) : ℤ :=
  (x 2 - G.lo 2) * (G.hi 0 - G.lo 0 + 1) * (G.hi 1 - G.lo 1 + 1) + (x 1 - G.lo 1) * (G.hi 0 - G.lo 0 + 1) + (x 0 - G.lo 0)

/-- The correction `d` at the point `x` of the domain: the sides in Dirichlet directions one after
the other (all with `apply_multipole_expansion`, electrostatics.c 2719-2816; those with `BC` 1 in
`PartrialDipole_surface`, 2085), `p` from 1 to `FDn`. -/
def Geo.corr (G : Geo) (bc : Fin 3 → Bool) (out : Pt → ℝ) (x : Pt) : Option ℝ :=
  sides.foldlM (fun d f =>
    if bc f.1 ∧ G.Visits f x then
      (List.range G.fdn).foldlM (fun d p => (G.term f out x (p + 1)).map (d - ·)) d
    else some d) 0

/-- Right-hand side before the correction (electrostatics.c 1507-1521): `V` is
`Lx*Ly*Lz*Jacbdet`.  `TEMP_TOL` only tells a nonzero integer charge from zero. -/
noncomputable def rhs (b rho : ℝ) (netCharge : ℤ) (V : ℝ) : ℝ :=
  let r := 4 * Real.pi * (b + rho)
  if netCharge ≠ 0 then r + 4 * Real.pi * (netCharge / V) else r

/-- `Qlm` (electrostatics.c 2667-2688), `m` counted from 0 to `2 l`. -/
noncomputable def moment {n : ℕ} (dV : ℝ) (f r : Fin n → ℝ) (Y : ℕ → ℕ → Fin n → ℝ) (l m : ℕ) : ℝ :=
  (∑ i, r i ^ l * f i * Y l m i) * dV

/-- The potential at a point at distance `r` outside the grid (electrostatics.c 2759-2774; `LMAX`
2661). -/
noncomputable def multipole (Q : ℕ → ℕ → ℝ) (r : ℝ) (Y : ℕ → ℕ → ℝ) : ℝ :=
  ∑ l ∈ range 7, ∑ m ∈ range (2 * l + 1), 1 / ((2 * l + 1) * r ^ (l + 1)) * Y l m * Q l m

/-- The average over a plane (electrostatics.c 2021-2041, 2052-2053). -/
noncomputable def rhoAv {nz nxy : ℕ} (f : Fin nz → Fin nxy → ℝ) (k : Fin nz) : ℝ :=
  (∑ i, f k i) / (nxy * 4 * Real.pi)

/-- `P0` (electrostatics.c 2057-2072). -/
noncomputable def p0 {nz nxy : ℕ} (f : Fin nz → Fin nxy → ℝ) (dZ : ℝ) : ℝ :=
  ∑ k, rhoAv f k * ((k : ℝ) * dZ) * dZ

/-- `phi_av` at the coordinate `Z` outside the grid (electrostatics.c 2137-2138). -/
noncomputable def slab {nz nxy : ℕ} (f : Fin nz → Fin nxy → ℝ) (dZ netCharge A Z : ℝ) : ℝ :=
  let v := -2 * Real.pi * (netCharge / A * Z - p0 f dZ)
  if Z ≤ 0 then v * (-1) else v

end Sparc.Bdry

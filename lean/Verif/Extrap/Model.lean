import Verif.Tac
import Verif.Wrap.Model

/-!
# Initial density and charge extrapolation

`Init_electronDensity` and `elecDensExtrapolation` (`/repo/src/orbitalElecDensInit.c`); the
extrapolation of the Hubbard occupation matrices (`occMatExtrapolation`,
`/repo/src/xc/hubbard/occupationMatrix.c:129-290`) is the same code on other arrays, so the arrays
extrapolated are functions on an arbitrary index type `D` (process and grid point, or atom, spin,
row and column).

Simplifications.  Doubles are reals.  Positions are functions of atom and direction.  The coordinate
changes of a cell that is not orthogonal are linear maps (the matrices are those of C16; cyclix is
left out).  `LAPACKE_dgelsd` is a parameter.  Reading the density from a file is left out.  `none`
is `exit(EXIT_FAILURE)`.
-/

namespace Sparc.Extrap

open Finset

/-- `3*n_atom` coordinates, by atom and direction. -/
abbrev Pos := ℕ → Fin 3 → ℝ

/-- What is used of the cell. -/
structure Cell where
  /-- `BC` is 0 (periodic) in a direction; otherwise it is 1 -/
  per : Fin 3 → Bool
  /-- `range_x`, `range_y`, `range_z` -/
  range : Fin 3 → ℝ
  /-- `cell_typ != 0` -/
  nonorth : Bool
  /-- `Cart2nonCart_coord`, initialization.c 3659-3669 -/
  lat : (Fin 3 → ℝ) →ₗ[ℝ] (Fin 3 → ℝ)
  /-- `nonCart2Cart_coord`, initialization.c 3644-3654 -/
  cart : (Fin 3 → ℝ) →ₗ[ℝ] (Fin 3 → ℝ)

/-- The loops `if(cell_typ != 0) ... Cart2nonCart_coord`. -/
def conv (C : Cell) (x : Pos) : Pos := if C.nonorth then fun a => C.lat (x a) else x

/-- The loops `if(cell_typ != 0) ... nonCart2Cart_coord`. -/
def unconv (C : Cell) (x : Pos) : Pos := if C.nonorth then fun a => C.cart (x a) else x

open Classical in
/-- `wraparound_dynamics`, md.c 1808-1860.  The result is left in cell coordinates. -/
noncomputable def wrapDyn (C : Cell) (n : ℕ) (x : Pos) : Option Pos :=
  let y := conv C x
  if ∃ a < n, ∃ d, C.per d = false ∧ (y a d ≥ C.range d ∨ y a d < 0) then none
  else some fun a d => if C.per d then Wrap.wrap (C.range d) (y a d) else y a d

/-- The arrays kept between steps: `atom_pos_nm`, `atom_pos_0dt`, `_1dt`, `_2dt`, and
`delectronDens`, `delectronDens_0dt`, `_1dt`, `_2dt`. -/
structure Hist (D : Type) where
  nm : Pos
  p0 : Pos
  p1 : Pos
  p2 : Pos
  d : D → ℝ
  d0 : D → ℝ
  d1 : D → ℝ
  d2 : D → ℝ

/-- The positions without wraparound from those of the step before, orbitalElecDensInit.c 236-260
(dynamics) and 274-295 (relaxation). -/
noncomputable def unwrap (C : Cell) (n : ℕ) (nm pos : Pos) : Option Pos := do
  let t1 ← wrapDyn C n nm
  let t2 := conv C pos
  let m := conv C nm
  some (unconv C fun a d => m a d + (t2 a d - t1 a d))

/-- `atom_pos_nm` of this step, orbitalElecDensInit.c 227-300: the positions themselves in the first
call (by `MDCount` in dynamics, by `elecgs_Count - StressCount` in relaxation). -/
noncomputable def newPos (C : Cell) (n : ℕ) (md : Bool) (mdCount gs : ℕ) (nm pos : Pos) : Option Pos :=
  if (if md then mdCount else gs) = 1 then some pos else unwrap C n nm pos

/-- `elecDensExtrapolation`, orbitalElecDensInit.c 212-333; `gs` is `elecgs_Count - StressCount`,
`gelsd A B D p q` the answer for the matrix with rows `A B` and `B D` and right side `p q`. -/
noncomputable def extrap {D : Type} (C : Cell) (n : ℕ) (md : Bool) (mdCount gs : ℕ)
    (gelsd : ℝ → ℝ → ℝ → ℝ → ℝ → ℝ × ℝ) (pos : Pos) (rho rhoAt : D → ℝ) (H : Hist D) :
    Option (Hist D) := do
  let d2 := H.d1
  let d1 := H.d0
  let d0 := fun i => rho i - rhoAt i
  let nm ← newPos C n md mdCount gs H.nm pos
  let t1 := fun a d => H.p0 a d - H.p1 a d
  let t2 := fun a d => H.p1 a d - H.p2 a d
  let t3 := fun a d => nm a d - H.p0 a d
  let s := gelsd (∑ a ∈ range n, ∑ d, t1 a d * t1 a d) (∑ a ∈ range n, ∑ d, t1 a d * t2 a d)
    (∑ a ∈ range n, ∑ d, t2 a d * t2 a d) (∑ a ∈ range n, ∑ d, t1 a d * t3 a d)
    (∑ a ∈ range n, ∑ d, t2 a d * t3 a d)
  let dd := if gs ≥ 3 then
      fun i => (1 + s.1) * d0 i + (s.2 - s.1) * d1 i - s.2 * d2 i
    else H.d
  some ⟨nm, nm, H.p0, H.p1, dd, d0, d1, d2⟩

/-! ### The steps of dynamics or relaxation -/

/-- `atom_pos` (Cartesian between the steps) and the arrays above. -/
structure St (D : Type) where
  pos : Pos
  H : Hist D

/-- The first ground-state calculation: `Init_electronDensity` stores the positions in
`atom_pos_0dt` (orbitalElecDensInit.c 159-162) while `atom_pos` is in cell coordinates; at the end
`atom_pos` is made Cartesian (electronicGroundState.c 310-318).  The other arrays of `H` are
uninitialised. -/
def start {D : Type} (C : Cell) (x0 : Pos) (H : Hist D) : St D :=
  ⟨unconv C x0, ⟨H.nm, x0, H.p1, H.p2, H.d, H.d0, H.d1, H.d2⟩⟩

/-- Step `k ≥ 1` (md.c 642-655 and the other integrators, relax.c 628-642 and 830-844): the atoms
are moved by `disp`, the extrapolation is done, `Check_atomlocation` wraps, the ground state is
calculated and `atom_pos` made Cartesian.  Both counters are `k`.  `rho j` and `rhoAt j` are
`electronDens` and `electronDens_at` after ground state `j`. -/
noncomputable def step {D : Type} (C : Cell) (n : ℕ) (md : Bool)
    (gelsd : ℝ → ℝ → ℝ → ℝ → ℝ → ℝ × ℝ) (disp : Pos) (rho rhoAt : ℕ → D → ℝ) (k : ℕ) (s : St D) :
    Option (St D) := do
  let pos := fun a d => s.pos a d + disp a d
  let H ← extrap C n md k k gelsd pos (rho (k - 1)) (rhoAt (k - 1)) s.H
  let w ← wrapDyn C n pos
  some ⟨unconv C w, H⟩

/-- The run: after ground state 0 and after each step. -/
noncomputable def run {D : Type} (C : Cell) (n : ℕ) (md : Bool)
    (gelsd : ℝ → ℝ → ℝ → ℝ → ℝ → ℝ × ℝ) (disp : ℕ → Pos) (rho rhoAt : ℕ → D → ℝ) (x0 : Pos)
    (H : Hist D) : ℕ → Option (St D)
  | 0 => some (start C x0 H)
  | k + 1 => (run C n md gelsd disp rho rhoAt x0 H k).bind
      (step C n md gelsd (disp (k + 1)) rho rhoAt (k + 1))

/-! ### The initial density -/

/-- Inputs of `Init_electronDensity`. -/
structure Par where
  /-- number of processes of `dmcomm_phi` -/
  np : ℕ
  /-- `Nd_d` of each process -/
  nd : ℕ → ℕ
  cyclix : Bool
  /-- `Intgwt_phi` -/
  wt : ℕ → ℕ → ℝ
  dV : ℝ
  PosCharge : ℝ
  /-- `xc_rhotol` -/
  rhotol : ℝ
  /-- `MDFlag == 1 || RelaxFlag == 1` -/
  moving : Bool

open Classical in
/-- The density before scaling, orbitalElecDensInit.c 165-177. -/
noncomputable def rawDens (P : Par) (gs : ℕ) (rhoAt delta rho : ℕ → ℕ → ℝ) : ℕ → ℕ → ℝ := fun p i =>
  if gs ≥ 3 ∧ P.moving = true then
    let y := rhoAt p i + delta p i
    if y < 0 then P.rhotol else y
  else rho p i

/-- `int_rho`, orbitalElecDensInit.c 179-191. -/
noncomputable def intRho (P : Par) (f : ℕ → ℕ → ℝ) : ℝ :=
  if P.cyclix then ∑ p ∈ range P.np, ∑ i ∈ range (P.nd p), f p i * P.wt p i
  else ∑ p ∈ range P.np, (∑ i ∈ range (P.nd p), f p i) * P.dV

/-- `Init_electronDensity`, orbitalElecDensInit.c 109-205: the total density. -/
noncomputable def initDens (P : Par) (gs : ℕ) (rhoAt delta rho : ℕ → ℕ → ℝ) : ℕ → ℕ → ℝ :=
  if gs = 0 then rhoAt
  else fun p i => rawDens P gs rhoAt delta rho p i *
    (P.PosCharge / intRho P (rawDens P gs rhoAt delta rho))

/-- The two diagonal densities from the second step on, orbitalElecDensInit.c 196-202. -/
noncomputable def initSpin (P : Par) (gs : ℕ) (rhoAt delta rho mag : ℕ → ℕ → ℝ) :
    (ℕ → ℕ → ℝ) × (ℕ → ℕ → ℝ) :=
  (fun p i => (initDens P gs rhoAt delta rho p i + mag p i) / 2,
   fun p i => (initDens P gs rhoAt delta rho p i - mag p i) / 2)

/-- `scal_fac` of the superposed density of the first step, electrostatics.c 1145-1158. -/
noncomputable def atScale (NetCharge PosCharge NegCharge : ℝ) (f : ℕ → ℕ → ℝ) : ℕ → ℕ → ℝ :=
  fun p i => f p i * ((NetCharge - PosCharge) / NegCharge)

end Sparc.Extrap

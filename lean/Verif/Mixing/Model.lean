import Mathlib.Algebra.BigOperators.Group.Finset.Basic
import Mathlib.Algebra.Module.Pi
import Mathlib.Data.Real.Basic
import Mathlib.Data.Fintype.Card

/-!
# Pulay mixing (model)

`/repo/src/mixing.c:213-447` (`Mixing_periodic_pulay`), `AndersonExtrapWtdAvg` at 77-104,
`/repo/src/electronicGroundState.c:122-126` (history cleared before each SCF cycle) and
`1255-1270` (`Update_mixing_hist_xk`).

A field distributed over the processes of `dmcomm_phi` is identified with the global field on
the grid `G`; `VectorSum` is the sum over the grid, `VectorShift` adds a constant.  A mixed
variable has components `n < Nspden`; a component is a function on `G`.  `double` becomes `ℝ`.
The least-squares routine and the Kerker preconditioner are arbitrary functions, so every
theorem holds whatever they return.  `CyclixFlag` is covered by the weights `w` (uniform `dV`
otherwise).
-/

namespace Sparc.Mixing

variable {G : Type} [Fintype G]

/-- A mixed variable: component, grid point. -/
abbrev Vec (G : Type) := ℕ → G → ℝ

/-- Input parameters read by `Mixing_periodic_pulay`, mixing.c:228-235. -/
structure Par (G : Type) where
  /-- `MixingHistory` -/
  m : ℕ
  /-- `PulayFrequency` -/
  p : ℕ
  beta : ℝ
  omega : ℝ
  betaMag : ℝ
  omegaMag : ℝ
  /-- `PulayRestartFlag` -/
  restart : Bool
  /-- `spin_typ > 0` -/
  spin : Bool
  /-- `MixingVariable == 0` -/
  density : Bool
  /-- `-NegCharge` -/
  nelec : ℝ
  /-- integration weights (`dV`, or `Intgwt_phi`) -/
  w : G → ℝ
  /-- extrapolation weights `mix_Gamma` from the least-squares problem -/
  coef : Vec G → (ℕ → Vec G) → ℕ → ℝ
  /-- preconditioner of component 0; first argument the mixing parameter -/
  prec0 : ℝ → (G → ℝ) → G → ℝ
  /-- preconditioner of the magnetisation components -/
  precM : ℝ → (G → ℝ) → G → ℝ

/-- The arrays kept between calls. -/
structure State (G : Type) where
  xk : Vec G
  xkm1 : Vec G
  fk : Vec G
  fkm1 : Vec G
  R : ℕ → Vec G
  F : ℕ → Vec G

/-- Arrays at the start of an SCF cycle: histories zero (electronicGroundState.c:124-125),
`x_k = x_{k-1} =` input (1255-1270); `f0` is whatever the residual arrays held. -/
def init (x0 f0 : Vec G) : State G where
  xk := x0
  xkm1 := x0
  fk := f0
  fkm1 := f0
  R := 0
  F := 0

/-- `Pulay_mixing_flag`, mixing.c:238. -/
def pulay (P : Par G) (iter : ℕ) : Bool := (iter + 1) % P.p = 0 ∧ iter > 0

/-- History update of one array, mixing.c:280-306. -/
def store (P : Par G) (iter : ℕ) (H : ℕ → Vec G) (v : Vec G) : ℕ → Vec G :=
  if iter > 0 then
    let ih := (iter - 1) % P.m
    if P.restart = true ∧ ih = 0 then
      fun j => if j = 0 then v else if j < P.m then 0 else H j
    else Function.update H ih v
  else H

/-- Values available after the history update, mixing.c:270-306. -/
def upd (P : Par G) (iter : ℕ) (g : Vec G) (s : State G) : State G :=
  let fkm1 := if iter > 0 then s.fk else s.fkm1
  let fk := g - s.xk
  { s with
    fk := fk
    fkm1 := fkm1
    R := store P iter s.R (s.xk - s.xkm1)
    F := store P iter s.F (fk - fkm1) }

/-- `AndersonExtrapWtdAvg`, mixing.c:77-104, one of the two averages. -/
def wavg (m : ℕ) (v : Vec G) (H : ℕ → Vec G) (g : ℕ → ℝ) : Vec G :=
  v - ∑ j ∈ Finset.range m, g j • H j

/-- `x_wavg`, mixing.c:315-327. -/
def xw (P : Par G) (iter : ℕ) (u : State G) : Vec G :=
  if pulay P iter then wavg P.m u.xk u.R (P.coef u.fk u.F) else u.xk

/-- `f_wavg`, mixing.c:315-327. -/
def fw (P : Par G) (iter : ℕ) (u : State G) : Vec G :=
  if pulay P iter then wavg P.m u.fk u.F (P.coef u.fk u.F) else u.fk

/-- Preconditioned residual before the shift, mixing.c:337-379. -/
def pf (P : Par G) (iter : ℕ) (f : Vec G) : Vec G := fun n =>
  let amix := if pulay P iter then P.beta else P.omega
  let amixMag := if pulay P iter then P.betaMag else P.omegaMag
  if n = 0 then P.prec0 amix (f 0) else P.precM amixMag (f n)

/-- Shift that restores the integral of the residual, mixing.c:381-390 with 329-335. -/
noncomputable def shifted (P : Par G) (f q : Vec G) : Vec G := fun n i =>
  if P.spin then q n i + ((∑ j, f n j) - ∑ j, q n j) / Fintype.card G else q n i

/-- `x_{k+1}` before the density is clamped, mixing.c:393. -/
noncomputable def next (P : Par G) (iter : ℕ) (u : State G) : Vec G :=
  xw P iter u + shifted P (fw P iter u) (pf P iter (fw P iter u))

/-- Clamp of negative values, mixing.c:398-403. -/
noncomputable def clamp (x : Vec G) : Vec G := fun n i => if n = 0 ∧ x n i < 0 then 0 else x n i

/-- `int_rho`, mixing.c:412-418. -/
def integral (P : Par G) (x : Vec G) : ℝ := ∑ i, P.w i * x 0 i

/-- Rescaling of the density, mixing.c:419-422. -/
noncomputable def rescale (P : Par G) (x : Vec G) : Vec G := fun n i =>
  if n = 0 then x n i * (P.nelec / integral P x) else x n i

open Classical in
/-- One call of `Mixing_periodic_pulay`; `none` when `int_rho` is zero, so that the scaling
factor is not a number. -/
noncomputable def step (P : Par G) (iter : ℕ) (g : Vec G) (s : State G) : Option (State G) :=
  let u := upd P iter g s
  let x := next P iter u
  if P.density then
    let c := clamp x
    if integral P c = 0 then none
    else some { u with xkm1 := u.xk, xk := rescale P c }
  else some { u with xkm1 := u.xk, xk := x }

/-- The SCF loop: `g k` is the output variable of iteration `k` (any function of everything
that came before). -/
noncomputable def run (P : Par G) (g : ℕ → Vec G) (x0 f0 : Vec G) : ℕ → Option (State G)
  | 0 => some (init x0 f0)
  | k + 1 => (run P g x0 f0 k).bind (step P k (g k))

/-- `Calculate_diagonal_Density`, electronDensity.c:323-330, called at mixing.c:424-433. -/
noncomputable def diagonal (rho m : ℝ) : ℝ × ℝ := (0.5 * (rho + m), 0.5 * (rho - m))

end Sparc.Mixing

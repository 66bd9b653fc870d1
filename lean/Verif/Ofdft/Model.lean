import Verif.Tac
import Mathlib.Analysis.SpecialFunctions.Pow.Real
import Mathlib.Analysis.Real.Sqrt

/-!
# Orbital-free density functional theory

Model of `/repo/src/ofdft/ofdft.c`: the line search `Brent_Emin` (264-359), the energy of a trial
vector (366-428), the operator applied to the square root of the density (212-255), the
normalisation (757-772) and the conjugate-gradient loop `OFDFT_NLCG_TETER` (63-204).

Simplifications:
* real arithmetic instead of floating point;
* a vector is the vector on the whole grid: the sums over the processes of `VectorDotProduct`,
  `Vector2Norm` and `MPI_Allreduce` are the sums over all grid points;
* the Laplacian, the electrostatic potential of a density, the exchange-correlation energy and its
  potential are functions given with the system (they are modelled in other topics);
* spin is not allowed with this method (initialization.c 2868-2872), so there is one density.
-/

namespace Sparc.Ofdft
open Finset

/-- The variables of the line search (ofdft.c 268, 281-293).  `fv`, `fw`, `fx` are the stored
energies of `v`, `w`, `x`. -/
structure BSt where
  a : ℝ
  b : ℝ
  d : ℝ
  e : ℝ
  v : ℝ
  w : ℝ
  x : ℝ
  fv : ℝ
  fw : ℝ
  fx : ℝ

/-- `tol1` of the present point (ofdft.c 296; `zeps` 276). -/
noncomputable def BSt.tol1 (tol : ℝ) (s : BSt) : ℝ := tol * |s.x| + 1 / 10 ^ 10

/-- `xm` (ofdft.c 295). -/
noncomputable def BSt.xm (s : BSt) : ℝ := 0.5 * (s.a + s.b)

/-- The test that ends the search (ofdft.c 297-298). -/
def BSt.done (tol : ℝ) (s : BSt) : Prop :=
  |s.x - s.xm| ≤ 2 * s.tol1 tol - 0.5 * (s.b - s.a)

/-- The golden-section step: new `(d, e)` (label `one`, ofdft.c 316-318; `cgold` 275). -/
noncomputable def golden (s : BSt) : ℝ × ℝ :=
  let e := if s.xm ≤ s.x then s.a - s.x else s.b - s.x
  (0.3819660 * e, e)

open Classical in
/-- The step `(d, e)` of one iteration: parabolic interpolation if the step before last was longer
than the tolerance and the proposal is acceptable, else golden section (ofdft.c 299-318). -/
noncomputable def stepLen (tol : ℝ) (s : BSt) : ℝ × ℝ :=
  let tol1 := s.tol1 tol
  let tol2 := 2 * tol1
  if |s.e| > tol1 then
    let r := (s.x - s.w) * (s.fx - s.fv)
    let q := (s.x - s.v) * (s.fx - s.fw)
    let p := (s.x - s.v) * q - (s.x - s.w) * r
    let q := 2 * (q - r)
    let p := if q > 0 then -p else p
    let q := |q|
    if |p| ≥ |0.5 * q * s.e| ∨ p ≤ q * (s.a - s.x) ∨ p ≥ q * (s.b - s.x) then golden s
    else
      let u := s.x + p / q
      if u - s.a < tol2 ∨ s.b - u < tol2 then (if s.xm - s.x ≥ 0 then |tol1| else -|tol1|, s.d)
      else (p / q, s.d)
  else golden s

/-- The point tried next, at least `tol1` away from the present one (label `two`,
ofdft.c 320-323). -/
noncomputable def trial (tol : ℝ) (s : BSt) : ℝ :=
  let d := (stepLen tol s).1
  if |d| ≥ s.tol1 tol then s.x + d else s.x + (if d ≥ 0 then |s.tol1 tol| else -|s.tol1 tol|)

open Classical in
/-- The changes after the trial point `u` has got the energy `fu` (ofdft.c 325-352). -/
noncomputable def update (s : BSt) (d e u fu : ℝ) : BSt :=
  if fu ≤ s.fx then
    { a := if u ≥ s.x then s.x else s.a, b := if u ≥ s.x then s.b else s.x, d := d, e := e,
      v := s.w, fv := s.fw, w := s.x, fw := s.fx, x := u, fx := fu }
  else
    let a := if u < s.x then u else s.a
    let b := if u < s.x then s.b else u
    if fu ≤ s.fw ∨ s.w = s.x then
      { a := a, b := b, d := d, e := e, v := s.w, fv := s.fw, w := u, fw := fu, x := s.x, fx := s.fx }
    else if fu ≤ s.fv ∨ s.v = s.x ∨ s.v = s.w then
      { a := a, b := b, d := d, e := e, v := u, fv := fu, w := s.w, fw := s.fw, x := s.x, fx := s.fx }
    else { s with a := a, b := b, d := d, e := e }

/-- What the line search leaves: its variables, the points at which the energy was calculated (the
last one first) and `iter`. -/
structure BOut where
  s : BSt
  pts : List ℝ
  iter : ℕ

open Classical in
/-- The loop (ofdft.c 294-353); the first argument is the number of passes left. -/
noncomputable def brentLoop (f : ℝ → ℝ) (tol : ℝ) : ℕ → BOut → BOut
  | 0, o => o
  | k + 1, o =>
    if o.s.done tol then o
    else
      let de := stepLen tol o.s
      let u := trial tol o.s
      brentLoop f tol k ⟨update o.s de.1 de.2 u (f u), u :: o.pts, o.iter + 1⟩

/-- `Brent_Emin`: from the middle of the interval from 0 to 1, `iter` from 1 to less than 100
(ofdft.c 271-294). -/
noncomputable def brent (f : ℝ → ℝ) (tol : ℝ) : BOut :=
  brentLoop f tol 99
    ⟨⟨0, 1, 0, 0, 0.5, 0.5, 0.5, f 0.5, f 0.5, f 0.5⟩, [0.5], 1⟩

/-- A system: grid volume element, number of electrons, prefactor of the Thomas-Fermi energy, weight
of the gradient term, `Esc`, number of atoms, `TOL_OFDFT`, Laplacian, exchange-correlation energy
and potential of a density, electrostatic potential of a density, pseudocharge. -/
structure Sys (n : ℕ) where
  dV : ℝ
  N : ℝ
  Cf : ℝ
  lam : ℝ
  Esc : ℝ
  natom : ℝ
  tol : ℝ
  lap : (Fin n → ℝ) → Fin n → ℝ
  exc : (Fin n → ℝ) → ℝ
  vxc : (Fin n → ℝ) → Fin n → ℝ
  phi : (Fin n → ℝ) → Fin n → ℝ
  b : Fin n → ℝ

variable {n : ℕ}

/-- `init_OFDFT`: the prefactor of the Thomas-Fermi energy (ofdft.c 55-58). -/
noncomputable def thomasFermi : ℝ := 0.3 * (3 * Real.pi * Real.pi) ^ ((2 : ℝ) / 3)

/-- `u * u`, stored as the electron density (ofdft.c 220-221, 373-374). -/
def sq (u : Fin n → ℝ) : Fin n → ℝ := fun i => u i * u i

/-- `HamiltonianVecRoutines_OFDFT` (ofdft.c 220-253): potential of the density `u * u` plus the
Thomas-Fermi potential, and `-λ/2` times the Laplacian. -/
noncomputable def Sys.ham (S : Sys n) (u : Fin n → ℝ) : Fin n → ℝ := fun i =>
  -0.5 * S.lam * S.lap u i +
    (S.phi (sq u) i + S.vxc (sq u) i + 5 / 3 * S.Cf * (sq u i) ^ ((2 : ℝ) / 3)) * u i

/-- `ofdftTotalEnergy` (ofdft.c 400-423): `dens` is the stored electron density, from which all terms
but the gradient term are calculated; the gradient term is that of the vector handed over. -/
noncomputable def Sys.energy (S : Sys n) (dens u : Fin n → ℝ) : ℝ :=
  let e1 := (∑ i, S.b i * S.phi dens i) * (0.5 * S.dV)
  let e2 := (∑ i, dens i * S.phi dens i) * (0.5 * S.dV)
  let t1 := (∑ i, (dens i) ^ ((5 : ℝ) / 3)) * (S.Cf * S.dV)
  let t2 := (∑ i, u i * S.lap u i) * (-0.5 * S.dV)
  S.exc dens + (e1 + e2) + (t1 + S.lam * t2) + S.Esc

/-- `cst` (ofdft.c 108, 370). -/
noncomputable def Sys.cst (S : Sys n) : ℝ := √(S.N / S.dV)

/-- `extend_normalized_vector` (ofdft.c 764-771). -/
noncomputable def extend (u d : Fin n → ℝ) (s c : ℝ) : Fin n → ℝ :=
  let w : Fin n → ℝ := fun i => u i + s * d i
  let nrm := √(∑ i, w i * w i)
  fun i => |w i * (c / nrm)|

/-- `energy_constraint` (ofdft.c 370-381). -/
noncomputable def Sys.lineE (S : Sys n) (u d : Fin n → ℝ) (s : ℝ) : ℝ :=
  let nu := extend u d s S.cst
  S.energy (sq nu) nu / S.natom

/-- The residual: `eta` and `r` (ofdft.c 126-130, 137-141). -/
noncomputable def Sys.res (S : Sys n) (u : Fin n → ℝ) : Fin n → ℝ :=
  let F := S.ham u
  let eta := (∑ i, F i * u i) * (S.dV / S.N)
  fun i => -2 * (F i - eta * u i)

/-- The state of the iteration: `u`, the stored density, `d`, `r_old`, `iter2`. -/
structure St (n : ℕ) where
  u : Fin n → ℝ
  dens : Fin n → ℝ
  d : Fin n → ℝ
  rold : Fin n → ℝ
  iter2 : ℕ

open Classical in
/-- One line search and the move (ofdft.c 132-133, 175-176), with tolerance `tol2` (106).  Leaves the new vector
and the density of the last trial point, which is what `energy_constraint` stored (373-374).
`none`: some point of the interval gives the zero vector, whose normalisation is 0/0 (769). -/
noncomputable def Sys.move (S : Sys n) (u d : Fin n → ℝ) : Option ((Fin n → ℝ) × (Fin n → ℝ)) :=
  if ∃ s : ℝ, 0 ≤ s ∧ s ≤ 1 ∧ ∀ i, u i + s * d i = 0 then none
  else
    let o := brent (S.lineE u d) (1 / 10 ^ 2)
    some (extend u d o.s.x S.cst, sq (extend u d (o.pts.headD 0) S.cst))

open Classical in
/-- The direction: the residual after 30 passes or if `xi` is not positive, else the conjugate one;
with `iter2` (ofdft.c 164-174, 179). -/
noncomputable def newDir (r rold d : Fin n → ℝ) (iter2 : ℕ) : (Fin n → ℝ) × ℕ :=
  let xi := ((∑ i, r i * r i) - ∑ i, rold i * r i) / ∑ i, rold i * rold i
  if iter2 = 30 ∨ xi ≤ 0 then (r, 1) else (fun i => xi * d i + r i, iter2 + 1)

open Classical in
/-- The loop (ofdft.c 136-181); the first argument is the number of passes left.  The flag says
whether it ended by the test of the residual (163, `tol1` 104).  The stored density is `u * u` after
`HamiltonianVecRoutines_OFDFT` and that of the last trial point after a move.  `none` also stands for
the division 0/0 or by zero in `xi` (166). -/
noncomputable def Sys.loop (S : Sys n) : ℕ → St n → Option (St n × Bool)
  | 0, t => some (t, false)
  | k + 1, t =>
    let r := S.res t.u
    if (∑ i, r i * r i) < S.tol * S.tol * n then some ({ t with dens := sq t.u }, true)
    else if (∑ i, t.rold i * t.rold i) = 0 then none
    else
      let de := newDir r t.rold t.d t.iter2
      match S.move t.u de.1 with
      | none => none
      | some p => S.loop k ⟨p.1, p.2, de.1, r, de.2⟩

/-- What is left at the end: the vector, the stored density, whether the loop converged and the
energy (ofdft.c 196). -/
structure Out (n : ℕ) where
  u : Fin n → ℝ
  dens : Fin n → ℝ
  conv : Bool
  etot : ℝ

/-- `OFDFT_NLCG_TETER` (ofdft.c 63-204) from the stored density `rho`: a first move along the
residual, `d` zero (112), at most `maxit` passes (1500, line 102). -/
noncomputable def Sys.run (S : Sys n) (maxit : ℕ) (rho : Fin n → ℝ) : Option (Out n) :=
  let u : Fin n → ℝ := fun i => √|rho i|
  let r := S.res u
  match S.move u r with
  | none => none
  | some p =>
    match S.loop maxit ⟨p.1, p.2, fun _ => 0, r, 0⟩ with
    | none => none
    | some (t, c) => some ⟨t.u, t.dens, c, S.energy t.dens t.u⟩

end Sparc.Ofdft

import Mathlib.Data.Real.Basic
import Mathlib.Algebra.Module.LinearMap.Defs

/-!
# Chebyshev filtering (model)

`ChebyshevFiltering`, `/repo/src/eigenSolver.c:722-797`.  `double` is replaced by `ℝ`; a
block of orbitals is one element of a real vector space `V` (the loops over `n` and `i`
act entrywise and therefore as vector operations); `Hamiltonian_vectors_mult` with
diagonal shift `s` (`/repo/src/hamiltonianVecRoutines.c`) is an arbitrary linear map plus
`s` times the identity.
-/

namespace Sparc.Cheb

variable {V : Type*} [AddCommGroup V] [Module ℝ V]

/-- `Hamiltonian_vectors_mult(..., s, X, Y)`: `Y = (H + s I) X`. -/
def hmul (H : V →ₗ[ℝ] V) (s : ℝ) (X : V) : V := H X + s • X

/-- Variables live during the loop of `ChebyshevFiltering`. -/
structure State (V : Type*) where
  X : V
  Y : V
  sigma : ℝ

/-- Body of the loop, eigenSolver.c:771-794. -/
noncomputable def body (H : V →ₗ[ℝ] V) (c e gamma : ℝ) (s : State V) : State V :=
  let sigma2 := 1 / (gamma - s.sigma)
  let Ynew := hmul H (-c) s.Y
  let vscal := 2 * sigma2 / e
  let vscal2 := s.sigma * sigma2
  let Ynew := vscal • Ynew
  let Ynew := Ynew - vscal2 • s.X
  { X := s.Y, Y := Ynew, sigma := sigma2 }

/-- `ChebyshevFiltering`, eigenSolver.c:745-796: final contents of `X` and `Y`
(`for (j = 1; j < m; j++)` is `m - 1` iterations, none if `m = 0`). -/
noncomputable def filter (H : V →ₗ[ℝ] V) (m : ℕ) (a b a0 : ℝ) (X : V) : State V :=
  let e := (1 / 2) * (b - a)
  let c := (1 / 2) * (b + a)
  let sigma1 := e / (a0 - c)
  let gamma := 2 / sigma1
  let Y := hmul H (-c) X
  let Y := (sigma1 / e) • Y
  (body H c e gamma)^[m - 1] { X := X, Y := Y, sigma := sigma1 }

end Sparc.Cheb

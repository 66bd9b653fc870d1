import Mathlib.Analysis.InnerProductSpace.Basic
import Mathlib.Analysis.InnerProductSpace.Orthonormal
import Mathlib.LinearAlgebra.Dimension.Finite
import Mathlib.LinearAlgebra.FiniteDimensional.Basic

/-!
# Linear solvers (model)

`/repo/src/linearSolver.c` (`AAR`, `CG`) and the extrapolation they use,
`/repo/src/mixing.c:48-104`.  A vector distributed over the processes is identified with the
global vector, an element of a real inner product space; `VectorDotProduct` and `Vector2Norm`
are the inner product and the norm.  `double` is replaced by `ℝ`.  The least-squares routine
`LAPACKE_dgelsd` is an arbitrary function `coef` of the right-hand side and the history.
-/

namespace Sparc.Solver

variable {V : Type} [NormedAddCommGroup V] [InnerProductSpace ℝ V]

/-- Parameters of `AAR`: residual operator `x ↦ A x` (`res_fun` computes `b - A x`),
preconditioner, and numbers. -/
structure AARPar (V : Type) where
  A : V → V
  prec : V → V
  /-- extrapolation weights returned by the least-squares routine for `f` and history `F` -/
  coef : V → (ℕ → V) → ℕ → ℝ
  omega : ℝ
  beta : ℝ
  m : ℕ
  p : ℕ

/-- Local variables of `AAR` at the loop test. -/
structure AARState (V : Type) where
  x : V
  r : V
  xOld : V
  fOld : V
  X : ℕ → V
  F : ℕ → V
  rnorm : ℝ
  iter : ℕ

/-- `AndersonExtrapWtdAvg`, mixing.c:77-104: `v - H * Gamma` over the `m` columns. -/
def wavg (m : ℕ) (v : V) (H : ℕ → V) (g : ℕ → ℝ) : V := v - ∑ j ∈ Finset.range m, g j • H j

/-- `AndersonExtrapolation`, mixing.c:48-68. -/
def anderson (P : AARPar V) (x f : V) (X F : ℕ → V) : V :=
  let g := P.coef f F
  wavg P.m x X g + P.beta • wavg P.m f F g

/-- Circular history update, linearSolver.c:94-100. -/
def push (m iter : ℕ) (H : ℕ → V) (v : V) : ℕ → V :=
  if iter > 0 then Function.update H ((iter - 1) % m) v else H

/-- Values at the first loop test, linearSolver.c:72-88. -/
def aarInit (P : AARPar V) (b x0 : V) (tol : ℝ) : AARState V where
  x := x0
  r := b - P.A x0
  xOld := x0
  fOld := 0
  X := fun _ => 0
  F := fun _ => 0
  rnorm := tol * ‖b‖ + 1
  iter := 0

/-- One pass of the loop, linearSolver.c:90-142. -/
def aarStep (P : AARPar V) (b : V) (s : AARState V) : AARState V :=
  let f := P.prec s.r
  let X := push P.m s.iter s.X (s.x - s.xOld)
  let F := push P.m s.iter s.F (f - s.fOld)
  if (s.iter + 1) % P.p = 0 ∧ s.iter > 0 then
    let x := anderson P s.x f X F
    let r := b - P.A x
    { x := x, r := r, xOld := s.x, fOld := f, X := X, F := F, rnorm := ‖r‖, iter := s.iter + 1 }
  else
    let x := s.x + P.omega • f
    { x := x, r := b - P.A x, xOld := s.x, fOld := f, X := X, F := F, rnorm := s.rnorm, iter := s.iter + 1 }

open Classical in
/-- `while (r_2norm > tol && iter_count < max_iter)`, linearSolver.c:89; `tol` already scaled;
`fuel` is `max_iter - iter_count`. -/
noncomputable def aarLoop (P : AARPar V) (b : V) (tol : ℝ) : ℕ → AARState V → AARState V
  | 0, s => s
  | n + 1, s => if s.rnorm > tol then aarLoop P b tol n (aarStep P b s) else s

/-- `AAR`. -/
noncomputable def aar (P : AARPar V) (b x0 : V) (tol : ℝ) (maxIter : ℕ) : AARState V :=
  aarLoop P b (tol * ‖b‖) maxIter (aarInit P b x0 tol)

/-! ### Conjugate gradients, linearSolver.c:169-234: solves `-L x = b` -/

/-- Local variables at the loop test. -/
structure CGState (V : Type) where
  x : V
  r : V
  d : V
  delta : ℝ
  err : ℝ
  iter : ℕ

/-- linearSolver.c:184-195. -/
def cgInit (L : V →ₗ[ℝ] V) (b x0 : V) (tol : ℝ) : CGState V where
  x := x0
  r := b + L x0
  d := b + L x0
  delta := ‖b + L x0‖
  err := tol * ‖b‖ + 1
  iter := 0

open Classical in
/-- One pass, linearSolver.c:197-224; `none` when a division by zero makes the iterate NaN. -/
noncomputable def cgStep (L : V →ₗ[ℝ] V) (b : V) (sqrtN : ℕ) (s : CGState V) : Option (CGState V) :=
  let q := L s.d
  let dq := inner ℝ s.d q
  if dq = 0 then none
  else
    let alpha := -s.delta * s.delta / dq
    let x := s.x + alpha • s.d
    let r := if s.iter % sqrtN = 0 then b + L x else s.r + alpha • q
    let deltaNew := ‖r‖
    if s.delta * s.delta = 0 then none
    else
      let beta := deltaNew * deltaNew / (s.delta * s.delta)
      some { x := x, r := r, d := r + beta • s.d, delta := deltaNew, err := deltaNew, iter := s.iter + 1 }

open Classical in
/-- `while (iter_count < max_iter && err > tol)`, linearSolver.c:196. -/
noncomputable def cgLoop (L : V →ₗ[ℝ] V) (b : V) (sqrtN : ℕ) (tol : ℝ) : ℕ → CGState V → Option (CGState V)
  | 0, s => some s
  | n + 1, s =>
    if s.err > tol then
      match cgStep L b sqrtN s with
      | none => none
      | some s' => cgLoop L b sqrtN tol n s'
    else some s

/-- `CG`. -/
noncomputable def cg (L : V →ₗ[ℝ] V) (b x0 : V) (sqrtN : ℕ) (tol : ℝ) (maxIter : ℕ) : Option (CGState V) :=
  cgLoop L b sqrtN (tol * ‖b‖) maxIter (cgInit L b x0 tol)

end Sparc.Solver

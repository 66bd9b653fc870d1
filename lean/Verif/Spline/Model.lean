import Mathlib.Data.Real.Basic
import Mathlib.Data.Real.Archimedean
import Mathlib.Algebra.Order.Floor.Ring

/-!
# Cubic splines (model)

`/repo/src/tools.c:372-591`.  Tables are functions `ℕ → ℝ` with a length; real numbers are exact.  A read
outside a table gives the outcome `bad`, a call of `exit` the outcome `exit`.
-/

namespace Sparc.Spline

/-- Outcome of a routine. -/
inductive Res (α : Type)
  | exit
  | bad
  | ok (a : α)

/-- Sequencing. -/
def Res.bind {α β : Type} (r : Res α) (f : α → Res β) : Res β :=
  match r with
  | .exit => .exit
  | .bad => .bad
  | .ok a => f a

/-- `x[i] = v`. -/
def upd (x : ℕ → ℝ) (i : ℕ) (v : ℝ) : ℕ → ℝ := fun k => if k = i then v else x k

/-! ## Tridiagonal systems -/

/-- `b`, `D` and `F` after the rows up to `i` of the forward elimination, tools.c:423-437; `none` is the
`exit` for a small pivot. -/
noncomputable def forward (A B C D : ℕ → ℝ) : ℕ → Option (ℝ × (ℕ → ℝ) × (ℕ → ℝ))
  | 0 => if |B 0| < 1 / 10 ^ 50 then none else some (B 0, upd D 0 (D 0 / B 0), fun _ => 0)
  | i + 1 => (forward A B C D i).bind fun s =>
    let F := upd s.2.2 (i + 1) (C i / s.1)
    let b := B (i + 1) - A (i + 1) * F (i + 1)
    if |b| < 1 / 10 ^ 50 then none
    else some (b, upd s.2.1 (i + 1) ((s.2.1 (i + 1) - s.2.1 i * A (i + 1)) / b), F)

/-- Back substitution for `i = n - 1, …, 0`, tools.c:439-440. -/
def backward (F : ℕ → ℝ) : ℕ → (ℕ → ℝ) → ℕ → ℝ
  | 0, D => D
  | n + 1, D => backward F n (upd D n (D n - D (n + 1) * F (n + 1)))

/-- `tridiag_gen`, tools.c:413-443, for `len ≥ 1`. -/
noncomputable def tridiag (A B C D : ℕ → ℝ) (len : ℕ) : Option (ℕ → ℝ) :=
  (forward A B C D (len - 1)).map fun s => backward s.2.2 (len - 1) s.2.1

/-! ## Derivatives of the table -/

/-- Spacing `X[i+1] - X[i]` and slope. -/
def h (X : ℕ → ℝ) (i : ℕ) : ℝ := X (i + 1) - X i
noncomputable def r (X Y : ℕ → ℝ) (i : ℕ) : ℝ := (Y (i + 1) - Y i) / h X i

/-- Lower diagonal, tools.c:393 and 399 (after the loop `h0`, `h1` belong to the last inner row). -/
def lowA (X : ℕ → ℝ) (len i : ℕ) : ℝ :=
  if i = len - 1 then (h X (len - 3) + h X (len - 2)) * (h X (len - 3) + h X (len - 2)) else h X i

/-- Diagonal, tools.c:386, 394 and 400. -/
def diagB (X : ℕ → ℝ) (len i : ℕ) : ℝ :=
  if i = 0 then h X 1 * (h X 0 + h X 1)
  else if i = len - 1 then h X (len - 3) * (h X (len - 3) + h X (len - 2))
  else 2 * (h X (i - 1) + h X i)

/-- Upper diagonal, tools.c:387 and 395. -/
def upC (X : ℕ → ℝ) (i : ℕ) : ℝ :=
  if i = 0 then (h X 0 + h X 1) * (h X 0 + h X 1) else h X (i - 1)

/-- Right-hand side, tools.c:388, 396 and 401. -/
noncomputable def rhs (X Y : ℕ → ℝ) (len i : ℕ) : ℝ :=
  if i = 0 then r X Y 0 * (3 * h X 0 * h X 1 + 2 * h X 1 * h X 1) + r X Y 1 * h X 0 * h X 0
  else if i = len - 1 then
    r X Y (len - 3) * h X (len - 2) * h X (len - 2) +
      r X Y (len - 2) * (3 * h X (len - 3) * h X (len - 2) + 2 * h X (len - 3) * h X (len - 3))
  else 3 * (r X Y (i - 1) * h X i + r X Y i * h X (i - 1))

/-- `getYD_gen`, tools.c:372-406; tables shorter than three are read outside (line 384). -/
noncomputable def getYD (X Y : ℕ → ℝ) (len : ℕ) : Res (ℕ → ℝ) :=
  if len < 3 then .bad
  else match tridiag (lowA X len) (diagB X len) (upC X) (rhs X Y len) len with
    | none => .exit
    | some d => .ok d

/-! ## Evaluation -/

/-- Coefficients of the interval `j`: left end and `A0 … A3`. -/
structure Coef where
  p1 : ℝ
  a0 : ℝ
  a1 : ℝ
  a2 : ℝ
  a3 : ℝ

/-- tools.c:476-481 and 581-586. -/
noncomputable def coef (X Y D : ℕ → ℝ) (j : ℕ) : Coef :=
  let dx := 1 / (X (j + 1) - X j)
  let dy := (Y (j + 1) - Y j) * dx
  ⟨X j, Y j, D j, dx * (3 * dy - 2 * D j - D (j + 1)), dx * dx * (-2 * dy + D j + D (j + 1))⟩

/-- Horner's rule, tools.c:484-485. -/
def Coef.eval (c : Coef) (p : ℝ) : ℝ :=
  let x := p - c.p1
  ((c.a3 * x + c.a2) * x + c.a1) * x + c.a0

open Classical in
/-- `for (; j < len1 && p2 > X1[j]; j++);`, tools.c:471. -/
noncomputable def advance (n : ℕ) (X : ℕ → ℝ) (p : ℝ) (j : ℕ) : ℕ :=
  if h : j < n ∧ p > X j then advance n X p (j + 1) else j
termination_by n - j
decreasing_by omega

open Classical in
/-- Interval of `p`, tools.c:471-474: `bad` if `X1[len1]` is read or `j` becomes negative. -/
noncomputable def locate (n : ℕ) (X : ℕ → ℝ) (p : ℝ) (j : ℕ) : Res ℕ :=
  let j := advance n X p j
  if n ≤ j then .bad
  else if p < X j then (if j = 0 then .bad else .ok (j - 1))
  else if n ≤ j + 1 then .bad
  else .ok j

open Classical in
/-- The loop of `SplineInterp`, tools.c:466-486. -/
noncomputable def interpLoop (n : ℕ) (X Y D : ℕ → ℝ) : ℕ → ℝ → Coef → List ℝ → Res (List ℝ)
  | _, _, _, [] => .ok []
  | j, p3, c, p :: rest =>
    if p > p3 then
      (locate n X p j).bind fun j =>
        let c := coef X Y D j
        (interpLoop n X Y D j (X (j + 1)) c rest).bind fun vs => .ok (c.eval p :: vs)
    else (interpLoop n X Y D j p3 c rest).bind fun vs => .ok (c.eval p :: vs)

open Classical in
/-- `SplineInterp`, tools.c:450-487. -/
noncomputable def splineInterp (n : ℕ) (X Y D : ℕ → ℝ) (pts : List ℝ) : Res (List ℝ) :=
  match pts with
  | [] => .ok []
  | p :: rest =>
    if p < X 0 ∨ (p :: rest).getLast (by simp) > X (n - 1) then .exit
    else interpLoop n X Y D 0 (p - 1) ⟨p - 1, 0, 0, 0, 0⟩ (p :: rest)

open Classical in
/-- `SortSplineInterp`, tools.c:517-544.  `ind` is the order found by `qsort`; the result array first holds
the sorted abscissae. -/
noncomputable def sortSplineInterp (n : ℕ) (X Y D : ℕ → ℝ) (ind : List ℕ) (pts : ℕ → ℝ) : Res (ℕ → ℝ) :=
  let sorted := ind.map pts
  let inside := (sorted.reverse.dropWhile fun p => decide (p > X (n - 1))).reverse
  (splineInterp n X Y D inside).bind fun vs =>
    .ok ((ind.zip vs).foldl (fun y t => upd y t.1 t.2) fun k => sorted.getD k 0)

open Classical in
/-- `SplineInterpUniform`, tools.c:552-591, one point; `none` leaves the result as it is. -/
noncomputable def uniform1 (n : ℕ) (X Y D : ℕ → ℝ) (p : ℝ) : Res (Option ℝ) :=
  if p > X (n - 1) then .ok none
  else
    let j : ℤ := ⌊(p - X 0) / (X 1 - X 0)⌋
    if j < 0 ∨ n ≤ j + 1 then .bad
    else .ok (some ((coef X Y D j.toNat).eval p))

end Sparc.Spline

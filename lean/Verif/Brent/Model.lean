import Mathlib.Data.Real.Basic
import Mathlib.Algebra.Order.Group.Abs

/-!
# Brent's root search (model)

`Calculate_FermiLevel` and `local_Calculate_FermiLevel`
(`/repo/src/occupation.c:182-285`, `291-408`) and `BrentsFun` (`/repo/src/relax.c:1367-1465`)
contain the same algorithm.  Differences are parameters: the function tolerance (`EPSILON`
in the Fermi search, `tol_f` in the volume search), the number of bracket expansions (10 or
3), sorting of the end points (`min`/`max` only in the Fermi search), the `SIGN` macro at
zero, and what happens when the iterations run out.  `double` is replaced by `ℝ`; a division
by zero is a separate outcome; the points at which the function is called are recorded.
-/

namespace Sparc.Brent

open Classical

/-- `EPSILON`, occupation.c:185, relax.c:1369. -/
noncomputable def eps : ℝ := 1 / 10 ^ 16

/-- Parameters of one search. -/
structure Par where
  tol : ℝ
  tolf : ℝ
  /-- `SIGN(a,0)`: `true` in relax.c:30 (`>=`), `false` in occupation.c:186 (`>`). -/
  signAtZero : Bool

/-- Local variables of the search; `evals` lists the arguments passed to the function. -/
structure St where
  a : ℝ
  b : ℝ
  c : ℝ
  fa : ℝ
  fb : ℝ
  fc : ℝ
  d : ℝ
  e : ℝ
  evals : List ℝ

/-- occupation.c:226-229: `b` and `c` on the same side, take `a` as the other end. -/
noncomputable def adjust1 (s : St) : St :=
  if (s.fb > 0 ∧ s.fc > 0) ∨ (s.fb < 0 ∧ s.fc < 0) then
    { s with c := s.a, fc := s.fa, e := s.b - s.a, d := s.b - s.a }
  else s

/-- occupation.c:230-233: make `b` the better end (`a = b; b = c; c = a`). -/
noncomputable def adjust2 (s : St) : St :=
  if |s.fc| < |s.fb| then
    { s with a := s.b, b := s.c, c := s.b, fa := s.fb, fb := s.fc, fc := s.fb }
  else s

/-- `tol1`, occupation.c:234. -/
noncomputable def tol1 (P : Par) (s : St) : ℝ := 2 * eps * |s.b| + (1 / 2) * P.tol

/-- `xm`, occupation.c:235. -/
noncomputable def xm (s : St) : ℝ := (1 / 2) * (s.c - s.b)

/-- Numerator and denominator of the interpolation step before the sign change,
occupation.c:239-247; `none` is a division by zero. -/
noncomputable def interp (s : St) : Option (ℝ × ℝ) :=
  if s.fa = 0 then none
  else
    let sv := s.fb / s.fa
    if s.a = s.c then some (2 * xm s * sv, 1 - sv)
    else if s.fc = 0 then none
    else
      let q := s.fa / s.fc
      let r := s.fb / s.fc
      some (sv * (2 * xm s * q * (q - r) - (s.b - s.a) * (r - 1)), (q - 1) * (r - 1) * (sv - 1))

/-- New `(d, e)`, occupation.c:237-266. -/
noncomputable def newStep (P : Par) (s : St) : Option (ℝ × ℝ) :=
  if |s.e| ≥ tol1 P s ∧ |s.fa| > |s.fb| then
    match interp s with
    | none => none
    | some (p0, q0) =>
      let q := if p0 > 0 then -q0 else q0
      let p := |p0|
      let tol1q := tol1 P s * q
      let min1 := 3 * xm s * q - |tol1q|
      let eq := s.e * q
      let min2 := |eq|
      if 2 * p < (if min1 < min2 then min1 else min2) then
        if q = 0 then none else some (p / q, s.d)
      else some (xm s, xm s)
  else some (xm s, xm s)

/-- `SIGN(a,b)`. -/
noncomputable def sign (P : Par) (a b : ℝ) : ℝ :=
  if b > 0 ∨ (P.signAtZero ∧ b = 0) then |a| else -|a|

/-- Result of one pass through the loop body. -/
inductive Res where
  | found (b : ℝ) (evals : List ℝ)
  | next (s : St)
  | divZero

/-- Loop body, occupation.c:226-277. -/
noncomputable def body (f : ℝ → ℝ) (P : Par) (s0 : St) : Res :=
  let s := adjust2 (adjust1 s0)
  if |xm s| ≤ tol1 P s ∨ |s.fb| < P.tolf then .found s.b s.evals
  else
    match newStep P s with
    | none => .divZero
    | some (d, e) =>
      let b := if |d| > tol1 P s then s.b + d else s.b + sign P (tol1 P s) (xm s)
      .next { s with a := s.b, fa := s.fb, d := d, e := e, b := b, fb := f b, evals := s.evals ++ [b] }

/-- Outcome of a search. -/
inductive Out where
  | found (b : ℝ) (evals : List ℝ)
  /-- iterations used up with last trial `b` (exit in the Fermi search, `return b` with a
  warning in the volume search). -/
  | exceeded (b : ℝ) (evals : List ℝ)
  /-- no sign change after the expansions: `exit`. -/
  | noBracket (evals : List ℝ)
  | divZero

/-- `for (iter = 1; iter <= max_iter; iter++)`, occupation.c:225-278. -/
noncomputable def run (f : ℝ → ℝ) (P : Par) : ℕ → St → Out
  | 0, s => .exceeded s.b s.evals
  | n + 1, s =>
    match body f P s with
    | .found b ev => .found b ev
    | .divZero => .divZero
    | .next s' => run f P n s'

/-- `while (fa * fb > 0.0 && ext_count++ < n)`, occupation.c:203-216: the bracket and the
points evaluated. -/
noncomputable def expand (f : ℝ → ℝ) : ℕ → ℝ → ℝ → List ℝ → ℝ × ℝ × List ℝ
  | 0, a, b, ev => (a, b, ev)
  | n + 1, a, b, ev =>
    if f a * f b > 0 then
      let w := b - a
      let a' := a - w / 2
      let b' := b + w / 2
      expand f n a' b' (ev ++ [a', b'])
    else (a, b, ev)

/-- The search after the choice of the end points, occupation.c:196-278, relax.c:1381-1462. -/
noncomputable def search (f : ℝ → ℝ) (P : Par) (nExt maxIter : ℕ) (x1 x2 : ℝ) : Out :=
  let r := expand f nExt x1 x2 [x1, x2]
  let a := r.1
  let b := r.2.1
  if f a * f b > 0 then .noBracket r.2.2
  else run f P maxIter { a := a, b := b, c := b, fa := f a, fb := f b, fc := f b, d := 0, e := 0, evals := r.2.2 }

/-- The Fermi-level search: sorted end points, 10 expansions, function tolerance `EPSILON`. -/
noncomputable def fermiSearch (f : ℝ → ℝ) (tol : ℝ) (maxIter : ℕ) (x1 x2 : ℝ) : Out :=
  search f { tol := tol, tolf := eps, signAtZero := false } 10 maxIter (min x1 x2) (max x1 x2)

/-- `BrentsFun`: end points as given, 3 expansions, function tolerance `tol_f`. -/
noncomputable def volumeSearch (f : ℝ → ℝ) (tolx tolf : ℝ) (maxIter : ℕ) (x1 x2 : ℝ) : Out :=
  search f { tol := tolx, tolf := tolf, signAtZero := true } 3 maxIter x1 x2

end Sparc.Brent

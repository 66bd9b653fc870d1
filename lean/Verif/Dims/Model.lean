import Mathlib.Analysis.SpecialFunctions.Pow.Real
import Mathlib.Algebra.Order.Floor.Ring
import Mathlib.Data.Rat.Cast.Order

/-!
# Automatic process grids (model)

`SPARC_Dims_create`, `/repo/src/parallelization.c:1226-1424`, for one, two and three dimensions.

Simplifications.  Arithmetic is exact: `double` values are real numbers (the initial estimates) or
rational numbers (`rnormi`).  The positive factor `r2` common to all `rnormi` of one call is left out:
`rnormi` is only compared with `min_rnorm`, which holds the `rnormi` of an earlier candidate (the
comparison with the initial `1e4` is never reached, because candidates with `npi <= 0` are skipped).
`none` stands for a division by zero (`minsize = 0`).
-/

namespace Sparc.Dims

/-- One dimension, parallelization.c:1231-1233. -/
def dims1 (n g m : ℕ) : Option ℕ := if m = 0 then none else some (max (min n (g / m)) 1)

/-- Candidate value near the estimate, parallelization.c:1247, 1264, 1323, 1348, 1371; `w` is
`NPSTRIDE*2+1`. -/
def cand (w : ℤ) (n : ℕ) (t : ℤ) : ℤ := if t > 0 then (if t ≤ n then t else t - w) else t + w

/-- The scan over all candidates, parallelization.c:1280-1297 and 1391-1408.  State: best candidate,
`max_npi`, `min_rnorm`.  An entry that was zeroed is `none`.  With `fixed` the branch for equal
numbers of processes also asks for the minimum size, as the first branch does; the code has
`fixed = false`. -/
def scanStep {β : Type} (fixed : Bool) (n : ℕ) (npi : β → ℕ) (ok : β → Bool) (rn : β → ℚ)
    (st : Option β × ℕ × ℚ) (e : Option β) : Option β × ℕ × ℚ :=
  match e with
  | none => st
  | some c =>
    if npi c < st.2.1 ∨ n < npi c ∨ npi c = 0 then st
    else if st.2.1 < npi c ∧ ok c then (some c, npi c, rn c)
    else if npi c = st.2.1 ∧ rn c < st.2.2 ∧ (fixed → ok c) then (some c, st.2.1, rn c)
    else st

def scan {β : Type} (fixed : Bool) (n : ℕ) (npi : β → ℕ) (ok : β → Bool) (rn : β → ℚ)
    (l : List (Option β)) : Option β :=
  (l.foldl (scanStep fixed n npi ok rn) (none, 0, 10000)).1

/-- A candidate of the inner loops: kept if it lies in `1 .. n`. -/
def entry {β : Type} (w : ℤ) (n : ℕ) (t : ℤ) (f : ℕ → Option β) : Option (Option β) :=
  let x := cand w n t
  if 0 < x ∧ x ≤ n then (f x.toNat).map some else some none

/-- Squared difference of the block sizes, parallelization.c:1252-1254, 1269-1271. -/
def rn2 (g0 g1 : ℕ) (c : ℕ × ℕ) : ℚ :=
  let a : ℚ := (g0 : ℚ) / c.1
  let b : ℚ := (g1 : ℚ) / c.2
  (a - b) * (a - b)

def ok2 (g0 g1 m : ℕ) (c : ℕ × ℕ) : Bool := decide (g0 / c.1 ≥ m) && decide (g1 / c.2 ≥ m)

/-- Two dimensions, parallelization.c:1234-1307.  `e` gives the initial estimates
`round(gridsizes[i] * r)`.  The second component is `ierr`. -/
def dims2 (fixed : Bool) (e : ℕ → ℕ × ℕ → ℕ → ℤ × ℤ) (n : ℕ) (g : ℕ × ℕ) (m : ℕ) :
    Option ((ℕ × ℕ) × ℕ) := do
  let d := e n g m
  let l0 ← (List.range 11).mapM fun (i : ℕ) => entry 11 n (d.1 + i - 5) fun x =>
    (dims1 (max 1 (n / x)) g.2 m).map fun y => (x, y)
  let l1 ← (List.range 11).mapM fun (j : ℕ) => entry 11 n (d.2 + j - 5) fun y =>
    (dims1 (max 1 (n / y)) g.1 m).map fun x => (x, y)
  pure (match scan fixed n (fun c => c.1 * c.2) (ok2 g.1 g.2 m) (rn2 g.1 g.2) (l0 ++ l1) with
    | some c => (c, 0)
    | none => ((n, 1), 1))

/-- Sum of squared differences, parallelization.c:1330-1334 and the like. -/
def rn3 (g0 g1 g2 : ℕ) (c : ℕ × ℕ × ℕ) : ℚ :=
  let a : ℚ := (g0 : ℚ) / c.1
  let b : ℚ := (g1 : ℚ) / c.2.1
  let d : ℚ := (g2 : ℚ) / c.2.2
  (a - b) * (a - b) + (a - d) * (a - d) + (b - d) * (b - d)

def ok3 (g0 g1 g2 m : ℕ) (c : ℕ × ℕ × ℕ) : Bool :=
  decide (g0 / c.1 ≥ m) && decide (g1 / c.2.1 ≥ m) && decide (g2 / c.2.2 ≥ m)

/-- Value of `ierr` left by the calls for the candidates: every call sets it, so the last one counts. -/
def lastErr {β : Type} (l : List (Option (β × ℕ))) : ℕ :=
  match (l.filterMap id).getLast? with
  | some c => c.2
  | none => 0

/-- Three dimensions, parallelization.c:1308-1418.  The second component is `ierr`; the two-dimensional
calls write to the same variable. -/
def dims3 (fixed : Bool) (e2 : ℕ → ℕ × ℕ → ℕ → ℤ × ℤ) (e3 : ℕ → ℕ × ℕ × ℕ → ℕ → ℤ × ℤ × ℤ) (n : ℕ)
    (g : ℕ × ℕ × ℕ) (m : ℕ) : Option ((ℕ × ℕ × ℕ) × ℕ) := do
  let d := e3 n g m
  let l0 ← (List.range 5).mapM fun (i : ℕ) => entry 5 n (d.1 + i - 2) fun x =>
    (dims2 fixed e2 (max 1 (n / x)) (g.2.1, g.2.2) m).map fun c => ((x, c.1.1, c.1.2), c.2)
  let l1 ← (List.range 5).mapM fun (j : ℕ) => entry 5 n (d.2.1 + j - 2) fun y =>
    (dims2 fixed e2 (max 1 (n / y)) (g.1, g.2.2) m).map fun c => ((c.1.1, y, c.1.2), c.2)
  let l2 ← (List.range 5).mapM fun (k : ℕ) => entry 5 n (d.2.2 + k - 2) fun z =>
    (dims2 fixed e2 (max 1 (n / z)) (g.1, g.2.1) m).map fun c => ((c.1.1, c.1.2, z), c.2)
  let l := l0 ++ l1 ++ l2
  pure (match scan fixed n (fun c => c.1.1 * c.1.2.1 * c.1.2.2) (fun c => ok3 g.1 g.2.1 g.2.2 m c.1)
      (fun c => rn3 g.1 g.2.1 g.2.2 c.1) l with
    | some c => (c.1, lastErr l)
    | none => ((n, 1, 1), 1))

/-- C `round` of a non-negative number. -/
noncomputable def cround (x : ℝ) : ℤ := ⌊x + 1 / 2⌋

/-- `r` in two dimensions, parallelization.c:1237-1238. -/
noncomputable def r2 (n : ℕ) (g : ℕ × ℕ) (m : ℕ) : ℝ :=
  min (Real.sqrt n / Real.sqrt ((g.1 : ℝ) * g.2)) (1 / m)

/-- `r` in three dimensions, parallelization.c:1312-1313. -/
noncomputable def r3 (n : ℕ) (g : ℕ × ℕ × ℕ) (m : ℕ) : ℝ :=
  min ((n : ℝ) ^ (1 / 3 : ℝ) / ((g.1 : ℝ) * g.2.1 * g.2.2) ^ (1 / 3 : ℝ)) (1 / m)

/-- Initial estimates, parallelization.c:1242-1243. -/
noncomputable def est2 (n : ℕ) (g : ℕ × ℕ) (m : ℕ) : ℤ × ℤ :=
  (cround (g.1 * r2 n g m), cround (g.2 * r2 n g m))

/-- Initial estimates, parallelization.c:1317-1319. -/
noncomputable def est3 (n : ℕ) (g : ℕ × ℕ × ℕ) (m : ℕ) : ℤ × ℤ × ℤ :=
  (cround (g.1 * r3 n g m), cround (g.2.1 * r3 n g m), cround (g.2.2 * r3 n g m))

/-- `SPARC_Dims_create` in two dimensions. -/
noncomputable def dimsCreate2 (n : ℕ) (g : ℕ × ℕ) (m : ℕ) : Option ((ℕ × ℕ) × ℕ) := dims2 false est2 n g m

/-- `SPARC_Dims_create` in three dimensions. -/
noncomputable def dimsCreate3 (n : ℕ) (g : ℕ × ℕ × ℕ) (m : ℕ) : Option ((ℕ × ℕ × ℕ) × ℕ) :=
  dims3 false est2 est3 n g m

end Sparc.Dims

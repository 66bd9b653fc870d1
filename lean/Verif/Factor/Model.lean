import Mathlib.Algebra.Order.Ring.Rat
import Mathlib.Algebra.Order.Ring.Abs

/-!
# Divisor lists and process-grid splitting in two dimensions (model)

Transcription of `factor`, `sorted_factor`, `ceil_div` (`/repo/src/tools.c`) and
`workload_assigned`, `dims_divide_2d`, `ScaLAPACK_Dims_2D_BLCYC`
(`/repo/src/parallelization.c`).  Integers are unbounded.
-/

namespace Sparc.Factor

/-- Loop of `factor`, tools.c:319-327.  `out` is the list stored so far by
`xferFactors` (tools.c:293-307: append the buffer), `buf` is the local buffer
`flist[301]`.  `none` is the buffer overflow that would be undefined behaviour in C.
Returns the exit value of `dvsr`, the stored list and the buffer. -/
def factorLoop (num d : Nat) (out buf : List Nat) : Option (Nat × List Nat × List Nat) :=
  if _h : d * d < num then
    if num % d ≠ 0 then factorLoop num (d + 1) out buf
    else
      let out' := if buf.length = 300 then out ++ buf else out
      let buf' := if buf.length = 300 then [] else buf
      if buf'.length + 2 ≤ 301 then factorLoop num (d + 1) out' (buf' ++ [d, num / d])
      else none
  else some (d, out, buf)
termination_by num - d
decreasing_by
  all_goals
    have : d ≤ d * d := by
      rcases Nat.eq_zero_or_pos d with h0 | h0
      · subst h0; exact Nat.le_refl 0
      · exact Nat.le_mul_of_pos_left d h0
    omega

/-- `factor`, tools.c:309-332. -/
def factor (num : Nat) : Option (List Nat) :=
  match factorLoop num 1 [] [] with
  | none => none
  | some (d, out, buf) =>
    if d * d = num then
      if buf.length + 1 ≤ 301 then some (out ++ (buf ++ [d])) else none
    else some (out ++ buf)

/-- Assignment `a[i] = v` into an allocated array; `none` if out of bounds. -/
def write (a : List (Option Nat)) (i : Nat) (v : Option Nat) : Option (List (Option Nat)) :=
  if i < a.length then some (a.set i v) else none

/-- First copy loop of `sorted_factor`, tools.c:346-348 (`i` from `i` to `m-1`);
reading past the end of the source list is `none`. -/
def copyFirst (lst : List Nat) (m i : Nat) (a : List (Option Nat)) : Option (List (Option Nat)) :=
  if i < m then
    match lst[2 * i]? with
    | none => none
    | some v =>
      match write a i (some v) with
      | none => none
      | some a' => copyFirst lst m (i + 1) a'
  else some a
termination_by m - i

/-- Second copy loop of `sorted_factor`, tools.c:350-354 (`ind` counts down). -/
def copySecond (lst : List Nat) (len i ind : Nat) (a : List (Option Nat)) :
    Option (List (Option Nat)) :=
  if i < len then
    match lst[i]? with
    | none => none
    | some v =>
      match write a ind (some v) with
      | none => none
      | some a' => copySecond lst len (i + 2) (ind - 1) a'
  else some a
termination_by len - i

/-- `sorted_factor`, tools.c:336-359.  The new list is `malloc`ed, i.e. uninitialised
(`none` entries) before the two copy loops. -/
def sortedFactor (num : Nat) : Option (List (Option Nat)) :=
  match factor num with
  | none => none
  | some lst =>
    let len := lst.length
    match copyFirst lst ((len + 1) / 2) 0 (List.replicate len none) with
    | none => none
    | some a => copySecond lst len 1 (len - 1) a

/-- `ceil_div`, tools.c:363-366. -/
def ceilDiv (x y : Nat) : Nat := (x + y - 1) / y

/-- `workload_assigned`, parallelization.c:1500-1504. -/
def workloadAssigned (Nk Ns np1 np2 : Nat) : Nat := ceilDiv Nk np1 * ceilDiv Ns np2

/-- Result of scanning one divisor list in `dims_divide_2d`. -/
inductive Scan where
  /-- the function returned with this pair -/
  | ret (c1 c2 : Nat)
  /-- the loop goes on with the current best pair and load -/
  | cont (c1 c2 best : Nat)
  /-- an uninitialised entry was read -/
  | ub

/-- Inner loop of `dims_divide_2d`, parallelization.c:1576-1592.
`search_count` is never incremented in the C code, so its test is constantly false
and is left out. -/
def scanFactors (N1 N2 p : Nat) : List (Option Nat) → Nat → Nat → Nat → Scan
  | [], c1, c2, best => .cont c1 c2 best
  | none :: _, _, _, _ => .ub
  | some fac1 :: fs, c1, c2, best =>
    let fac2 := p / fac1
    let load := workloadAssigned N1 N2 fac2 fac1
    let c1' := if load < best then fac2 else c1
    let c2' := if load < best then fac1 else c2
    let best' := if load < best then load else best
    if N1 % fac2 = 0 ∧ N2 % fac1 = 0 then .ret c1' c2'
    else scanFactors N1 N2 p fs c1' c2' best'

/-- Outer loop of `dims_divide_2d`, parallelization.c:1570-1594 (`p` counts down to 1).
`none`: fell off the end without assigning the result, or undefined behaviour. -/
def dims2dLoop (N1 N2 : Nat) : Nat → Nat → Nat → Nat → Option (Nat × Nat)
  | 0, _, _, _ => none
  | p + 1, c1, c2, best =>
    match sortedFactor (p + 1) with
    | none => none
    | some facs =>
      match scanFactors N1 N2 (p + 1) facs c1 c2 best with
      | .ret a b => some (a, b)
      | .cont a b best' => dims2dLoop N1 N2 p a b best'
      | .ub => none

/-- `dims_divide_2d`, parallelization.c:1561-1595.  Division by `cur1 = min np N1`
needs `np, N1 > 0` (else undefined: `none`). -/
def dimsDivide2d (N1 N2 np : Nat) : Option (Nat × Nat) :=
  let cur1 := min np N1
  if cur1 = 0 then none
  else
    let cur2 := min (np / cur1) N2
    if cur2 = 0 then none
    else
      let best := workloadAssigned N1 N2 cur1 cur2
      let npUp := if np > N1 * N2 then N1 * N2 else np
      dims2dLoop N1 N2 npUp cur1 cur2 best

/-- Loop of `ScaLAPACK_Dims_2D_BLCYC`, parallelization.c:1459-1472.  `diff i` is the
smaller of `diff1`, `diff2` for pair `i`; `gt` is the comparison `>`.  The initial value
`1e20` of `last_diff` is never compared because of the test `i > 0`.
Returns `(i, ind1, ind2, diff)` at loop exit. -/
def blcycLoop {D : Type} (gt : D → D → Bool) (diff : Nat → D) (half : Nat)
    (i : Nat) (last : D) (ind1 ind2 : Nat) : Nat × Nat × Nat × D :=
  if i < half then
    if 0 < i ∧ gt (diff i) last = true then (i, (i - 1) * 2, (i - 1) * 2 + 1, diff i)
    else blcycLoop gt diff half (i + 1) (diff i) (i * 2) (i * 2 + 1)
  else (i, ind1, ind2, last)
termination_by half - i

/-- `ScaLAPACK_Dims_2D_BLCYC`, parallelization.c:1439-1489, generic in the number type
of the differences: `diff a b` is the value computed from the factor pair `(a, b)`
(lines 1460-1462), `diffc c` the one from the central factor (line 1475), `zero` the
initial value of `diff`.  After the loop `diff` and `last_diff` agree unless the loop
was left by `break`.  The `getD` in the loop is always in range (`2*i+1 < count`). -/
def blcycDims {D : Type} (gt : D → D → Bool) (zero : D) (diff : Nat → Nat → D)
    (diffc : Nat → D) (g0 g1 nproc : Nat) : Option (Nat × Nat) :=
  match factor nproc with
  | none => none
  | some lst =>
    let r := blcycLoop gt (fun i => diff (lst.getD (2 * i) 0) (lst.getD (2 * i + 1) 0))
      (lst.length / 2) 0 zero 0 0
    let central := lst.length % 2 = 1 ∧ r.1 = lst.length / 2 ∧
      gt r.2.2.2 (diffc (lst.getD (lst.length - 1) 0)) = true
    let ind1 := if central then lst.length - 1 else r.2.1
    let ind2 := if central then lst.length - 1 else r.2.2.1
    match lst[ind1]?, lst[ind2]? with
    | some f1, some f2 => if g0 > g1 then some (f2, f1) else some (f1, f2)
    | _, _ => none

/-- `ScaLAPACK_Dims_2D_BLCYC` with exact rational arithmetic in place of `double`. -/
def blcycDimsQ (g0 g1 nproc : Nat) : Option (Nat × Nat) :=
  blcycDims (D := Rat) (fun a b => decide (b < a)) 0
    (fun a b =>
      let diff1 := |(g1 : Rat) / a - (g0 : Rat) / b|
      let diff2 := |(g0 : Rat) / a - (g1 : Rat) / b|
      if diff1 < diff2 then diff1 else diff2)
    (fun c => |(g1 : Rat) / c - (g0 : Rat) / c|) g0 g1 nproc

end Sparc.Factor

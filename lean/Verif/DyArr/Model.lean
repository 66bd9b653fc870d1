import Mathlib.Data.Nat.Notation
import Mathlib.Data.Int.Notation
import Mathlib.Data.List.Basic

/-!
# Growable integer array (model)

`/repo/src/mlff/ddbp_tools.c:58-175`.  The memory is the list of its cells, `none` an uninitialised cell;
the operations return `none` for an access outside the allocated memory and for reading an
uninitialised cell.  Allocation is assumed to succeed (the code asserts it).
-/

namespace Sparc.DyArr

/-- `INIT_CAPACITY`, ddbp_types.h:23. -/
def initCap : ℕ := 4

/-- `dyArray`: allocated cells (their number is `capacity`) and `len`. -/
structure Arr where
  mem : List (Option ℤ)
  len : ℕ

/-- `init_dyarray`, ddbp_tools.c:58-66. -/
def init : Arr := ⟨List.replicate initCap none, 0⟩

/-- `realloc_dyarray`, ddbp_tools.c:75-82: the common part of the data is kept. -/
def realloc (a : Arr) (n : ℕ) : Arr := { a with mem := a.mem.take n ++ List.replicate (n - a.mem.length) none }

/-- `dyarray_double_capacity`, ddbp_tools.c:91-96. -/
def double (a : Arr) : Arr :=
  let c := if a.mem.length ≠ 0 then 2 * a.mem.length else initCap
  realloc a (max c initCap)

/-- `dyarray_half_capacity`, ddbp_tools.c:105-110. -/
def half (a : Arr) : Arr := realloc a (max (a.mem.length / 2) initCap)

/-- `append_dyarray`, ddbp_tools.c:116-128. -/
def append (a : Arr) (x : ℤ) : Option Arr :=
  let a := if a.len = a.mem.length then double a else a
  if a.len < a.mem.length then some ⟨a.mem.set a.len (some x), a.len + 1⟩ else none

/-- Result of `pop_dyarray`. -/
inductive Pop
  | exit                        -- empty array: message and `exit(1)`
  | ok (a : Arr) (x : ℤ)
  | bad                         -- invalid read

/-- `pop_dyarray`, ddbp_tools.c:134-149. -/
def pop (a : Arr) : Pop :=
  if a.len < 1 then .exit
  else
    let a := { a with len := a.len - 1 }
    let a := if 4 * a.len < a.mem.length then half a else a
    match a.mem[a.len]? with
    | some (some x) => .ok a x
    | _ => .bad

/-- `clear_dyarray`, ddbp_tools.c:158-163. -/
def clear (a : Arr) : Arr := { realloc a initCap with len := 0 }

/-- `delete_dyarray`, ddbp_tools.c:169-175. -/
def delete (_ : Arr) : Arr := ⟨[], 0⟩

/-- Operations of a client. -/
inductive Op
  | append (x : ℤ)
  | pop
  | clear
  | delete

/-- A run: final array and popped values; the whole result is `none` after an invalid access, and the
values stop at an `exit`. -/
def run : Arr → List Op → Option (Option Arr × List ℤ)
  | a, [] => some (some a, [])
  | a, .append x :: r => (append a x).bind fun a => run a r
  | a, .clear :: r => run (clear a) r
  | a, .delete :: r => run (delete a) r
  | a, .pop :: r =>
    match pop a with
    | .exit => some (none, [])
    | .bad => none
    | .ok a x => (run a r).map fun s => (s.1, x :: s.2)

end Sparc.DyArr

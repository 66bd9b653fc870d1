import Mathlib.Data.List.Basic

/-!
# Path simplification (model)

`simplifyPath`, `getNextLevel`, `goLower`, `goUpper`, `/repo/src/tools.c:116-239`.

A C string is the list of its characters.  `none` stands for a write beyond the end of a buffer.  The
output buffer `newpath` is taken to be large enough (its `snprintf` truncates otherwise).
-/

namespace Sparc.Path

abbrev Str := List Char

/-- Size of the two work buffers, tools.c:127-132. -/
def bufLen (path : Str) : ℕ := max 8 (path.length + 1)

/-- `getNextLevel`, tools.c:197-215: the first character, then the name after any further slashes. -/
def nextLevel (c : Char) (path : Str) : Str × Str :=
  let r := path.dropWhile (· = '/')
  (c :: r.takeWhile (· ≠ '/'), r.dropWhile (· ≠ '/'))

/-- Copy of the path (from `head` on) and prefix. -/
structure St where
  cpy : Str
  pre : Str

/-- `goLower`, tools.c:217-225; `hd` is the offset of `head`. -/
def goLower (len hd : ℕ) (s : St) (level : Str) : Option St :=
  let c := s.cpy ++ level
  if hd + c.length + 1 ≤ len then some { s with cpy := c } else none

/-- `goUpper`, tools.c:228-239. -/
def goUpper (len : ℕ) (s : St) : Option St := do
  let pre ←
    if s.cpy = [] ∧ s.pre ≠ ['/'] then
      (let q := s.pre ++ ['.', '.', '/']
       if q.length + 1 ≤ len then some q else none)
    else some s.pre
  pure ⟨(s.cpy.reverse.dropWhile (· ≠ '/')).tail.reverse, pre⟩

theorem dropWhile_length {p : Char → Bool} (l : Str) : (l.dropWhile p).length ≤ l.length := by
  induction l with
  | nil => simp
  | cons a l ih => rw [List.dropWhile_cons]; split_ifs <;> simp; omega

theorem nextLevel_length (c : Char) (path : Str) : (nextLevel c path).2.length ≤ path.length := by
  unfold nextLevel
  exact Nat.le_trans (dropWhile_length _) (by first | exact dropWhile_length _ | exact Nat.le_refl _)

/-- The loop tools.c:164-174. -/
def loop (len hd : ℕ) (s : St) (path : Str) : Option St :=
  match path with
  | [] => some s
  | c :: r =>
    let lv := nextLevel c r
    if lv.1 = ['/', '.'] ∨ lv.1 = ['/'] then loop len hd s lv.2
    else if lv.1 = ['/', '.', '.'] then (goUpper len s).bind fun s => loop len hd s lv.2
    else (goLower len hd s lv.1).bind fun s => loop len hd s lv.2
termination_by path.length
decreasing_by
  all_goals
    have := nextLevel_length c r
    simp only [List.length_cons]
    omega

/-- First level and initial prefix, tools.c:141-162: state, offset of `head`, rest of the path. -/
def first (path : Str) : St × ℕ × Str :=
  let w := path.takeWhile (· ≠ '/')
  let rest := path.dropWhile (· ≠ '/')
  if w = [] then (⟨[], ['/']⟩, 0, rest)
  else if w = ['.', '.'] then (⟨[], ['.', '.', '/']⟩, 2, rest)
  else if w = ['.'] then (⟨[], ['.', '/']⟩, 1, rest)
  else (⟨w, ['.', '/']⟩, 0, rest)

/-- Skip repeated slashes at the beginning, tools.c:176-178. -/
def skipSlashes : Str → Str
  | '/' :: '/' :: r => skipSlashes ('/' :: r)
  | l => l

/-- Final assembly, tools.c:176-192. -/
def finish (s : St) : Str :=
  let c := skipSlashes s.cpy
  let c := if s.pre ≠ [] ∧ s.pre.getLast? = some '/' ∧ c.head? = some '/' then c.tail else c
  let pre := if s.pre.take 2 = ['.', '/'] then s.pre.drop 2 else s.pre
  if pre = [] ∧ c = [] then ['.'] else pre ++ c

/-- `simplifyPath`, tools.c:116-195, for a non-empty path. -/
def simplify (path : Str) : Option Str :=
  let len := bufLen path
  let f := first (path.dropWhile (· = ' '))
  (loop len f.2.1 f.1 f.2.2).map finish

end Sparc.Path

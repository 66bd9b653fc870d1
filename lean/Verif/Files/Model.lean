import Mathlib.Data.Nat.Notation
import Mathlib.Data.Int.Notation
import Mathlib.Data.List.Basic

/-!
# Output names, option lines and boundary conditions (model)

* output file names and their suffix, `/repo/src/initialization.c:1732-1822`;
* `readStringInputsFromLine`, `/repo/src/readfiles.c:69-101`;
* boundary conditions: reading `readfiles.c:218-264`, checks `readfiles.c:1051-1064`, translation
  `initialization.c:1857-1926`, grid sizes `initialization.c:1942-1944`;
* removal of stress components, `/repo/src/stress.c:215-231`.

Strings are lists of characters; truncation at `L_STRING` characters is not modelled.
-/

namespace Sparc.Files

abbrev Str := List Char

/-! ## Output names -/

/-- `%02d`. -/
def pad2 (i : ℕ) : Str := if i < 10 then '0' :: Nat.toDigits 10 i else Nat.toDigits 10 i

/-- `"%s_%02d"`, initialization.c:1763 and 1788-1820; the unsuffixed name for 0. -/
def tagged (name : Str) (i : ℕ) : Str := if i = 0 then name else name ++ '_' :: pad2 i

/-- Extensions of the files that take the suffix, in the order of initialization.c:1733-1752. -/
def exts : List Str :=
  [".out", ".static", ".atom", ".eigen", ".aimd", ".geopt", ".dens", ".densUp", ".densDwn", ".psi",
   ".kedens", ".kedensUp", ".kedensDwn", ".xcedens", ".exxedens", ".exxedensUp", ".exxedensDwn"].map
    String.toList

/-- Extensions of the files that never take it, initialization.c:1739-1741. -/
def restartExts : List Str := [".restart", ".restart-0", ".restart-1"].map String.toList

/-- The search loop initialization.c:1761-1764, `MAX_OUTPUT = 100`. -/
def search (exist : Str → Bool) (out : Str) (i : ℕ) : ℕ :=
  if exist (tagged out i) ∧ i ≤ 100 then search exist out (i + 1) else i
termination_by 101 - i

/-- Suffix in use after initialization.c:1782-1821: the names stay as they are above the limit. -/
def suffix (exist : Str → Bool) (base : Str) : ℕ :=
  let i := search exist (base ++ ".out".toList) 0
  if i > 100 then 0 else i

/-- All names written by a run. -/
def outputs (exist : Str → Bool) (base : Str) : List Str :=
  exts.map (fun e => tagged (base ++ e) (suffix exist base)) ++ restartExts.map (base ++ ·)

/-! ## Option lines -/

/-- `strtok(·, " ")`: the token and what is left. -/
def nextToken (l : Str) : Option (Str × Str) :=
  let r := l.dropWhile (· = ' ')
  if r = [] then none else some (r.takeWhile (· ≠ ' '), (r.dropWhile (· ≠ ' ')).tail)

theorem dropWhile_length {p : Char → Bool} (l : Str) : (l.dropWhile p).length ≤ l.length := by
  induction l with
  | nil => simp
  | cons a l ih => rw [List.dropWhile_cons]; split_ifs <;> simp; omega

theorem nextToken_length (l : Str) (t r : Str) (h : nextToken l = some (t, r)) : r.length < l.length := by
  unfold nextToken at h
  dsimp only at h
  split_ifs at h with h0
  simp only [Option.some.injEq, Prod.mk.injEq] at h
  rw [← h.2, List.length_tail]
  refine Nat.lt_of_le_of_lt (Nat.sub_le_sub_right (dropWhile_length _) 1) ?_
  have h2 := dropWhile_length (p := fun x => decide (x = ' ')) l
  have h3 := List.length_pos_iff.mpr h0
  omega

/-- The loop readfiles.c:77-99; `none` is the return value -1. -/
def readLoop (max count : ℕ) (l : Str) : Option (List Str) :=
  match h : nextToken l with
  | none => some []
  | some (t, rest) =>
    let t := t.takeWhile (· ≠ '\n')
    if t.head? = some '#' ∨ t = [] then some []
    else if max ≤ count then none
    else (readLoop max (count + 1) rest).map (t :: ·)
termination_by l.length
decreasing_by exact nextToken_length l _ _ h

/-- `readStringInputsFromLine`, readfiles.c:69-101. -/
def readStrings (line : Str) (max : ℕ) : Option (List Str) := readLoop max 0 line

/-! ## Boundary conditions -/

/-- `BC`, `BCx`, `BCy`, `BCz`. -/
structure Bc where
  bc : ℤ
  x : ℤ
  y : ℤ
  z : ℤ
  deriving DecidableEq

/-- Defaults, initialization.c:795-796. -/
def bcDefault : Bc := ⟨-1, -1, -1, -1⟩

/-- A word of the `BC:` option, case ignored. -/
inductive Word | p | d | c | h | other
  deriving DecidableEq

/-- Reading of `BC:`, readfiles.c:222-263; `none` is the error exit. -/
def readBC (s : Bc) (w1 w2 w3 : Word) : Option Bc := do
  let s ← match w1 with
    | .p => some { s with x := 0 }
    | .d => some { s with x := 1 }
    | _ => none
  let s ← match w2 with
    | .p => some { s with y := 0 }
    | .d => some { s with y := 1 }
    | .c => some { s with y := 0, bc := 5 }
    | _ => none
  match w3 with
  | .p => some { s with z := 0 }
  | .d => some { s with z := 1 }
  | .h => some { s with z := 0, bc := if s.bc = 5 then 7 else 6 }
  | _ => none

/-- The check of isolated clusters, readfiles.c:1051-1064: passes or exits. -/
def clusterCheck (s : Bc) (orthogonal : Bool) : Bool := !(s.bc = 1 && !orthogonal)

/-- Translation, initialization.c:1857-1926 and `CellTyp_cyclix`, cyclix_tools.c:118-134; `none` is the
error exit. -/
def translate (s : Bc) : Option Bc :=
  if 5 ≤ s.bc ∧ s.bc ≤ 7 then
    if s.bc = 5 then some ⟨5, 1, 0, 0⟩
    else if s.bc = 6 then some ⟨6, 1, 1, 0⟩
    else some ⟨7, 1, 0, 0⟩
  else if s.bc > 0 then
    if s.bc = 1 then some ⟨1, 1, 1, 1⟩
    else if s.bc = 2 then some ⟨2, 0, 0, 0⟩
    else if s.bc = 3 then some ⟨3, 0, 0, 1⟩
    else if s.bc = 4 then some ⟨4, 1, 1, 0⟩
    else none
  else if s.x ≥ 0 ∧ s.y ≥ 0 ∧ s.z ≥ 0 then
    let n := s.x + s.y + s.z
    if n = 0 then some { s with bc := 2 }
    else if n = 1 then some { s with bc := 3 }
    else if n = 2 then some { s with bc := 4 }
    else if n = 3 then some { s with bc := 1 }
    else some s
  else some ⟨2, 0, 0, 0⟩

/-- Numbers of grid points, initialization.c:1942-1944. -/
def nodes (s : Bc) (nx ny nz : ℤ) : ℤ × ℤ × ℤ := (nx + s.x, ny + s.y, nz + s.z)

/-- Stress components xx, xy, xz, yy, yz, zz after stress.c:215-231. -/
def maskStress {R : Type} [Zero R] (s : Bc) (σ : Fin 6 → R) : Fin 6 → R :=
  let clear (l : List (Fin 6)) : Fin 6 → R := fun i => if i ∈ l then 0 else σ i
  if s.bc = 3 then
    if s.x = 0 ∧ s.y = 0 then clear [2, 4, 5]
    else if s.x = 0 ∧ s.z = 0 then clear [1, 3, 4]
    else if s.y = 0 ∧ s.z = 0 then clear [0, 1, 2]
    else σ
  else if s.bc = 4 then
    if s.x = 0 then clear [1, 2, 3, 4, 5]
    else if s.y = 0 then clear [0, 1, 2, 4, 5]
    else if s.z = 0 then clear [0, 1, 2, 3, 4]
    else σ
  else σ

end Sparc.Files

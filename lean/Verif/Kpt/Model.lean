import Mathlib.Analysis.SpecialFunctions.Trigonometric.Basic
import Verif.Wrap.Model

/-!
# Monkhorst-Pack mesh and its time-reversal reduction (model)

`Calculate_kpoints`, `/repo/src/initialization.c:3179-3420` (non-cyclix branch).
`double` is replaced by `ℝ`; the tolerance `TEMP_TOL` is kept.
-/

namespace Sparc.Kpt

open Classical

/-- A k-point `(k1, k2, k3)`. -/
abbrev Pt := ℝ × ℝ × ℝ

/-- Index triple `(nk1, nk2, nk3)` of the three nested loops. -/
abbrev Idx := ℤ × ℤ × ℤ

/-- Inputs: mesh `K`, shifts, cell lengths, EXX down-sampling factors. -/
structure Inp where
  Kx : ℕ
  Ky : ℕ
  Kz : ℕ
  sx : ℝ
  sy : ℝ
  sz : ℝ
  Lx : ℝ
  Ly : ℝ
  Lz : ℝ

/-- `TEMP_TOL`, initialization.c:53. -/
noncomputable def tol : ℝ := 1 / 10 ^ 12

/-- `nk1_s = -floor((K - 1)/2)` (integer division), initialization.c:3246. -/
def nkStart (K : ℕ) : ℤ := -(((K : ℤ) - 1).tdiv 2)

/-- `for (nk = nk_s; nk < nk_s + K; nk++)`, initialization.c:3253-3255. -/
def nkRange (K : ℕ) : List ℤ := (List.range K).map fun (i : ℕ) => nkStart K + (i : ℤ)

/-- Reduced coordinate, initialization.c:3267-3272. -/
noncomputable def kred (K : ℕ) (s : ℝ) (n : ℤ) : ℝ :=
  Wrap.fmod ((n : ℝ) * 1 / K + s / K + 1 / 2 - tol) 1 - 1 / 2 + tol

/-- `k = k_red * 2.0 * M_PI / L`, initialization.c:3277-3279. -/
noncomputable def kcart (K : ℕ) (s L : ℝ) (n : ℤ) : ℝ := kred K s n * 2 * Real.pi / L

/-- Mesh point for a triple of loop indices. -/
noncomputable def kpt (I : Inp) (n : Idx) : Pt :=
  (kcart I.Kx I.sx I.Lx n.1, kcart I.Ky I.sy I.Ly n.2.1, kcart I.Kz I.sz I.Lz n.2.2)

/-- Order in which the nested loops visit the mesh, initialization.c:3253-3255. -/
def idxs (I : Inp) : List Idx :=
  (nkRange I.Kx).flatMap fun a => (nkRange I.Ky).flatMap fun b => (nkRange I.Kz).map fun c => (a, b, c)

/-- One component of the pairing test, initialization.c:3283-3285
(`sum = 2.0 * M_PI / L`, 3238-3240). -/
def pairs1 (L a b : ℝ) : Prop := |a + b| < tol ∨ |a + b - 2 * Real.pi / L| < tol

/-- Pairing test of a new point with a kept one, initialization.c:3283-3285. -/
def pairs (I : Inp) (q p : Pt) : Prop :=
  pairs1 I.Lx q.1 p.1 ∧ pairs1 I.Ly q.2.1 p.2.1 ∧ pairs1 I.Lz q.2.2 p.2.2

/-- Body of the mesh loop: search the kept points, append with weight 1 or set the found
weight to 2, initialization.c:3281-3299.  The arrays `k1, k2, k3, kptWts` are one list. -/
noncomputable def step {P : Type*} (M : P → P → Prop) (st : List (P × ℝ)) (q : P) : List (P × ℝ) :=
  match st.findIdx? (fun e => decide (M q e.1)) with
  | none => st ++ [(q, 1)]
  | some i => st.modify i (fun e => (e.1, 2))

/-- The reduced list with weights (`Nkpts_sym` is its length). -/
noncomputable def reduced (I : Inp) : List (Pt × ℝ) :=
  (idxs I).foldl (fun st n => step (pairs I) st (kpt I n)) []

/-! ### Down-sampled mesh for exact exchange -/

/-- Slot flag in one direction, initialization.c:3302-3321. -/
noncomputable def slot (D K : ℕ) (s L : ℝ) (n : ℤ) : Bool :=
  if D = 0 then decide (|kcart K s L n| < tol)
  else decide ((n - nkStart K + 1).tmod D = 0)

/-- `Kx_hf`, initialization.c:3208-3230. -/
def hfCount1 (D K : ℕ) : ℕ := if D = 0 then 1 else K / D

/-- Down-sampled points in loop order, initialization.c:3323-3328. -/
noncomputable def hfPts (I : Inp) (D : ℕ × ℕ × ℕ) : List Pt :=
  ((idxs I).filter fun n =>
    slot D.1 I.Kx I.sx I.Lx n.1 && slot D.2.1 I.Ky I.sy I.Ly n.2.1 && slot D.2.2 I.Kz I.sz I.Lz n.2.2).map (kpt I)

/-- `flag_0x`: some mesh point has a zero component, initialization.c:3304, 3309, 3316. -/
noncomputable def hasZero (K : ℕ) (s L : ℝ) : Bool := (nkRange K).any fun n => decide (|kcart K s L n| < tol)

/-- Error exits for the down-sampling, initialization.c:3189-3205 and 3337-3351. -/
noncomputable def hfAccepted (I : Inp) (D : ℕ × ℕ × ℕ) : Prop :=
  (0 < D.1 → I.Kx % D.1 = 0) ∧ (0 < D.2.1 → I.Ky % D.2.1 = 0) ∧ (0 < D.2.2 → I.Kz % D.2.2 = 0) ∧
  (D.1 = 0 → hasZero I.Kx I.sx I.Lx) ∧ (D.2.1 = 0 → hasZero I.Ky I.sy I.Ly) ∧ (D.2.2 = 0 → hasZero I.Kz I.sz I.Lz)

/-- Equality test of initialization.c:3355-3357. -/
def same (p q : Pt) : Prop := |p.1 - q.1| < tol ∧ |p.2.1 - q.2.1| < tol ∧ |p.2.2 - q.2.2| < tol

/-- The second search loop, initialization.c:3364-3372: no `break`, so the last index that
satisfies the test remains; `0` is the initial value from `calloc`. -/
noncomputable def lastIdx {P : Type*} (kept : List P) (A : P → Prop) (n : ℕ) : ℕ :=
  (List.range n).foldl (fun ind k =>
    match kept[k]? with
    | some p => if A p then k else ind
    | none => ind) 0

/-- `kpthf_ind` and `kpthf_pn` of one down-sampled point, initialization.c:3353-3373: first
index with equal coordinates (`pn = 1`), otherwise the last index of a paired point
(`pn = 0`), otherwise the zero of `calloc`. -/
noncomputable def hfMap (I : Inp) (kept : List Pt) (q : Pt) : ℕ × ℕ :=
  match kept.findIdx? (fun p => decide (same p q)) with
  | some i => (i, 1)
  | none =>
    (lastIdx kept (fun p => pairs I p q) kept.length, 0)

/-- `kpts_hf_red_list`, initialization.c:3376-3389: values in order of first occurrence. -/
def redList (ind : List ℕ) : List ℕ :=
  ind.foldl (fun acc v => if v ∈ acc then acc else acc ++ [v]) []

/-- The fixed-size rows `kpthfred2kpthf[k][3]`, initialization.c:3391-3404: the row of `v`
receives the positions of `v`; `none` is a write past the third entry. -/
def invRow (ind : List ℕ) (v : ℕ) : Option (List ℕ) :=
  (List.range ind.length).foldl (fun row k =>
    match row with
    | none => none
    | some r => if ind[k]? = some v then (if r.length + 1 < 3 then some (r ++ [k]) else none) else some r) (some [])

end Sparc.Kpt

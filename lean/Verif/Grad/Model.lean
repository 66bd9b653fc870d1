import Verif.Halo.Model
import Verif.Bloch.Model

/-!
# Distributed first derivative along a direction (model)

`Gradient_vectors_dir` and `Gradient_vec_dir` (`/repo/src/gradVecRoutines.c`), and the routines for
complex orbitals, `Gradient_vectors_dir_kpt` and `Gradient_vec_dir_kpt`
(`/repo/src/gradVecRoutinesKpt.c`).

The block is extended along one direction only, and only the two neighbours in this direction get
values; the other slots exchange empty messages.  The two files repeat the same exchange, so it is
written once for any type of values, with the map that is applied to a value of a slot as an
argument (none for real functions, a phase for complex ones).  The neighbour order, the send ranges
and the semantics of `MPI_Ineighbor_alltoallv` are those of `Verif.Halo`; so are the
simplifications.  The order of the stencil is `2 * FDn`.  The cyclix cell types are left out.
-/

namespace Sparc.Grad

open Loop Lap Halo Bloch

/-- `isDir[d]`, gradVecRoutines.c:74. -/
def isDir (dir d : Fin 3) : ℤ := if dir = d then 1 else 0

/-- `exDir[d]`, gradVecRoutines.c:75. -/
def exDir (L : Layout) (dir d : Fin 3) : ℤ := isDir dir d * L.FDn

/-- `DMnx_ex`, `DMny_ex`, `DMnz_ex`, gradVecRoutines.c:84-86. -/
def sizeEx (L : Layout) (dir : Fin 3) (D : Fin 3 → ℤ) (d : Fin 3) : ℤ := D d + 2 * L.FDn * isDir dir d

/-- Index in `x_ex`, gradVecRoutines.c:192-199. -/
def gIdx (L : Layout) (dir : Fin 3) (D : Fin 3 → ℤ) (n : ℕ) (i j k : ℤ) : ℤ :=
  n * (sizeEx L dir D 0 * sizeEx L dir D 1 * sizeEx L dir D 2) +
    k * (sizeEx L dir D 0 * sizeEx L dir D 1) + j * sizeEx L dir D 0 + i

/-- The loops `for (nbr_i = dir*2; nbr_i < dir*2+2; nbr_i++)`. -/
def slots (dir : Fin 3) : List ℕ := [2 * dir.val, 2 * dir.val + 1]

/-- `sendcounts` = `recvcounts`, gradVecRoutines.c:119-121. -/
def gcount (L : Layout) (dir : Fin 3) (D : Fin 3 → ℤ) (s : ℕ) : ℤ :=
  let x := L.ncol * L.FDn * (D 1 * D 2 * isDir dir 0)
  let y := L.ncol * L.FDn * (D 0 * D 2 * isDir dir 1)
  let z := L.ncol * L.FDn * (D 0 * D 1 * isDir dir 2)
  [x, x, y, y, z, z].getD s 0

/-- `sdispls` = `rdispls`, gradVecRoutines.c:123-128. -/
def gdispl (L : Layout) (dir : Fin 3) (D : Fin 3 → ℤ) (s : ℕ) : ℤ :=
  ((List.range s).map (gcount L dir D)).sum

/-- Receive ranges, gradVecRoutines.c:207-224 and 249-266. -/
def grecv (L : Layout) (dir : Fin 3) (D : Fin 3 → ℤ) : ℕ → Region :=
  let e := exDir L dir
  mkRegion [0, D 0 + e 0, e 0, e 0, e 0, e 0]
    [e 0, D 0 + 2 * e 0, D 0 + e 0, D 0 + e 0, D 0 + e 0, D 0 + e 0]
    [e 1, e 1, 0, D 1 + e 1, e 1, e 1]
    [D 1 + e 1, D 1 + e 1, e 1, D 1 + 2 * e 1, D 1 + e 1, D 1 + e 1]
    [e 2, e 2, e 2, e 2, 0, D 2 + e 2]
    [D 2 + e 2, D 2 + e 2, D 2 + e 2, D 2 + e 2, e 2, D 2 + 2 * e 2]

section exchange

variable {V : Type} [Zero V]

/-- `x_out`, gradVecRoutines.c:130-147; the ranges of 97-102 are those of `send6`. -/
def gOut (L : Layout) (dir : Fin 3) (D : Fin 3 → ℤ) (ldi : ℤ) (x : ℤ → V) : List V :=
  (slots dir).flatMap fun s => packSlot D ldi L.ncol (send6 D L.FDn (nbrcount6 L s)) x

/-- The message of slot `s`. -/
def gMessage (L : Layout) (dir : Fin 3) (D : Fin 3 → ℤ) (ldi : ℤ) (x : ℤ → V) (s : ℕ) : List V :=
  ((gOut L dir D ldi x).drop (gdispl L dir D s).toNat).take (gcount L dir D s).toNat

/-- The part of `x_in` of one slot; `x_in` is initialised with zeros (gradVecRoutines.c:113). -/
noncomputable def gRecvSlot (L : Layout) (dir : Fin 3) (ldi : Proc → ℤ) (xs : Proc → ℤ → V) (p : Proc)
    (s : ℕ) : Option (List V) :=
  match slotNbr L (exch6 L) p s with
  | none => some (List.replicate (gcount L dir (L.isize p) s).toNat 0)
  | some q => do
    let s' ← partner L (exch6 L) p q s
    let m := gMessage L dir (L.isize q) (ldi q) (xs q) s'
    if m.length = (gcount L dir (L.isize p) s).toNat then some m else none

/-- `x_in`. -/
noncomputable def gIn (L : Layout) (dir : Fin 3) (ldi : Proc → ℤ) (xs : Proc → ℤ → V) (p : Proc) :
    Option (List V) := do
  let l ← (List.range 6).mapM (gRecvSlot L dir ldi xs p)
  pure l.flatten

/-- The places of `x_ex` written from `x_in`, in order, with what is done to the value:
gradVecRoutines.c:230-244, gradVecRoutinesKpt.c:235-258. -/
def gPlaces (L : Layout) (dir : Fin 3) (p : Proc) (f : ℕ → V → V) : List (ℤ × (V → V)) :=
  (slots dir).flatMap fun s => (List.range L.ncol).flatMap fun n =>
    let R := grecv L dir (L.isize p) s
    R.cells.map fun t =>
      (gIdx L dir (L.isize p) n (R.lo 0 + t.1) (R.lo 1 + t.2.1) (R.lo 2 + t.2.2), f s)

/-- Copy of the block into `x_ex`, gradVecRoutines.c:188-203.  `count++` is written as the index it
has at that point. -/
def gCopyIn (L : Layout) (dir : Fin 3) (ldi : ℤ) (p : Proc) (x : ℤ → V) (m : ℤ → V) : ℤ → V :=
  let D := L.isize p
  fill ((List.range L.ncol).flatMap fun n =>
      (box (L.size p 0) (L.size p 1) (L.size p 2)).map fun t => (n, t))
    (fun w => gIdx L dir D w.1 (exDir L dir 0 + w.2.1) (exDir L dir 1 + w.2.2.1)
      (exDir L dir 2 + w.2.2.2))
    (fun w => x (xIdx D ldi w.1 w.2.1 w.2.2.1 w.2.2.2)) m

/-- Filling of the halo with several processes. -/
noncomputable def gMany (L : Layout) (dir : Fin 3) (f : ℕ → V → V) (ldi : Proc → ℤ)
    (xs : Proc → ℤ → V) (p : Proc) (m : ℤ → V) : Option (ℤ → V) := do
  let b ← gIn L dir ldi xs p
  let places := gPlaces L dir p f
  if b.length < places.length then none
  else some (fill (places.zip b) (fun w => w.1.1) (fun w => w.1.2 w.2)
    (gCopyIn L dir (ldi p) p (xs p) m))

/-- Assignments of one slot with one process: gradVecRoutines.c:273-285,
gradVecRoutinesKpt.c:292-315. -/
def gCopySlot (L : Layout) (dir : Fin 3) (ldi : ℤ) (p : Proc) (src dst : Region) (f : V → V)
    (x : ℤ → V) (m : ℤ → V) : ℤ → V :=
  let D := L.isize p
  fill ((List.range L.ncol).flatMap fun n => src.cells.map fun t => (n, t))
    (fun w => gIdx L dir D w.1 (dst.lo 0 + w.2.1) (dst.lo 1 + w.2.2.1) (dst.lo 2 + w.2.2.2))
    (fun w => f (x (xIdx D ldi w.1 (src.lo 0 + w.2.1) (src.lo 1 + w.2.2.1) (src.lo 2 + w.2.2.2)))) m

/-- The zeros beyond a non-periodic boundary, gradVecRoutines.c:286-298. -/
noncomputable def gZeroSlot (L : Layout) (dir : Fin 3) (p : Proc) (dst : Region) (m : ℤ → V) : ℤ → V :=
  let D := L.isize p
  fill ((List.range L.ncol).flatMap fun n => dst.cells.map fun t => (n, t))
    (fun w => gIdx L dir D w.1 (dst.lo 0 + w.2.1) (dst.lo 1 + w.2.2.1) (dst.lo 2 + w.2.2.2))
    (fun _ => 0) m

/-- `x_ex`; `m` is its uninitialised contents. -/
noncomputable def gXex (L : Layout) (dir : Fin 3) (f : ℕ → V → V) (ldi : Proc → ℤ)
    (xs : Proc → ℤ → V) (p : Proc) (m : ℤ → V) : Option (ℤ → V) :=
  if L.dims 0 * L.dims 1 * L.dims 2 > 1 then gMany L dir f ldi xs p m
  else
    let D := L.isize p
    some ((slots dir).foldl (fun m s =>
      if L.per (Fin.ofNat 3 (s / 2)) then
        gCopySlot L dir (ldi p) p (send6 D L.FDn ((s : ℤ) + (1 - 2 * (s % 2 : ℕ))).toNat)
          (grecv L dir D s) (f s) (xs p) m
      else gZeroSlot L dir p (grecv L dir D s) m) (gCopyIn L dir (ldi p) p (xs p) m))

/-- `x_ex+n*DMnd_ex`, gradVecRoutines.c:305. -/
def gColumn (L : Layout) (dir : Fin 3) (p : Proc) (n : ℕ) (xex : ℤ → V) : ℤ → V := fun q =>
  let D := L.isize p
  xex (n * (sizeEx L dir D 0 * sizeEx L dir D 1 * sizeEx L dir D 2) + q)

end exchange

/-- `pshift_ex`, gradVecRoutines.c:164, 171, 178. -/
def pshift (L : Layout) (dir : Fin 3) (D : Fin 3 → ℤ) : ℤ :=
  match dir with
  | 0 => 1
  | 1 => sizeEx L dir D 0
  | 2 => sizeEx L dir D 0 * sizeEx L dir D 1

/-- `D1_stencil_coeffs_dim`, gradVecRoutines.c:162-186; entry 0 is set to zero (159). -/
def coeffsDim (C : Coefs) (dir : Fin 3) (r : ℕ) : ℝ :=
  if r = 0 then 0 else
  match dir with
  | 0 => C.D1x r
  | 1 => C.D1y r
  | 2 => C.D1z r

/-- Column `n` of the result of `Gradient_vec_dir` on process `p`: the call of `Calc_DX`,
gradVecRoutines.c:304-307. -/
noncomputable def gradVecDir (L : Layout) (C : Coefs) (dir : Fin 3) (c : ℝ) (ldi : Proc → ℤ)
    (xs : Proc → Mem) (p : Proc) (ex0 Dx : Mem) (n : ℕ) : Option Mem :=
  (gXex L dir (fun _ v => v) ldi xs p ex0).map fun xex =>
    let D := L.isize p
    calcDX (gColumn L dir p n xex) Dx L.FDn (pshift L dir D) (sizeEx L dir D 0) (D 0)
      (sizeEx L dir D 0 * sizeEx L dir D 1) (D 0 * D 1) 0 (D 0) 0 (D 1) 0 (D 2)
      (exDir L dir 0) (exDir L dir 1) (exDir L dir 2) (coeffsDim C dir) c

/-- Column `i` of the result of `Gradient_vectors_dir`: one call with one column for
`x+i*ldi`, gradVecRoutines.c:49-50.  `ex0 i` and `Dx i` are the previous contents of the work
array and of the column of the result. -/
noncomputable def gradVectorsDir (L : Layout) (C : Coefs) (dir : Fin 3) (c : ℝ) (ldi : Proc → ℤ)
    (xs : Proc → Mem) (p : Proc) (ex0 Dx : ℕ → Mem) (i : ℕ) : Option Mem :=
  gradVecDir { L with ncol := 1 } C dir c ldi (fun q a => xs q (i * ldi q + a)) p (ex0 i) (Dx i) 0

/-! ### Complex orbitals -/

/-- `is_grid_outside`, tools.c:1077-1088, with the origin shifts `-exDir`. -/
def gOutside (L : Layout) (dir : Fin 3) (p : Proc) (i j k : ℤ) : Bool :=
  let ig := i + -exDir L dir 0 + L.start p 0
  let jg := j + -exDir L dir 1 + L.start p 1
  let kg := k + -exDir L dir 2 + L.start p 2
  decide (ig < 0) || decide (ig ≥ L.N 0) || decide (jg < 0) || decide (jg ≥ L.N 1) ||
    decide (kg < 0) || decide (kg ≥ L.N 2)

/-- What is done to a value of slot `s`: the phase of the slot if its first point is outside the
cell, gradVecRoutinesKpt.c:178-191 and 243-245, 301-303.  All three directions use the one number
`*kpt_vec`. -/
noncomputable def gScale (L : Layout) (dir : Fin 3) (len : Fin 3 → ℝ) (kvec : ℝ) (p : Proc) (s : ℕ)
    (v : ℂ) : ℂ :=
  let R := grecv L dir (L.isize p) s
  v * (if gOutside L dir p (R.lo 0) (R.lo 1) (R.lo 2) then
    (phases6 ⟨fun _ => kvec, len⟩).getD s 0 else 1)

/-- `D1_stencil_coeffs_dirs[dir]`, gradVecRoutinesKpt.c:167-170. -/
def coeffsDirs (C : Coefs) : Fin 3 → ℕ → ℝ := ![C.D1x, C.D1y, C.D1z]

/-- Column `n` of the result of `Gradient_vec_dir_kpt` on process `p`,
gradVecRoutinesKpt.c:334-337. -/
noncomputable def gradVecDirK (L : Layout) (C : Coefs) (dir : Fin 3) (len : Fin 3 → ℝ) (kvec : ℝ)
    (c : ℝ) (ldi : Proc → ℤ) (xs : Proc → MemK) (p : Proc) (ex0 Dx : MemK) (n : ℕ) : Option MemK :=
  (gXex L dir (gScale L dir len kvec p) ldi xs p ex0).map fun xex =>
    let D := L.isize p
    calcDXK (gColumn L dir p n xex) Dx L.FDn (pshift L dir D) (sizeEx L dir D 0) (D 0)
      (sizeEx L dir D 0 * sizeEx L dir D 1) (D 0 * D 1) 0 (D 0) 0 (D 1) 0 (D 2)
      (exDir L dir 0) (exDir L dir 1) (exDir L dir 2) (coeffsDirs C dir) c

/-- Column `i` of the result of `Gradient_vectors_dir_kpt`, gradVecRoutinesKpt.c:51-52. -/
noncomputable def gradVectorsDirK (L : Layout) (C : Coefs) (dir : Fin 3) (len : Fin 3 → ℝ) (kvec : ℝ)
    (c : ℝ) (ldi : Proc → ℤ) (xs : Proc → MemK) (p : Proc) (ex0 Dx : ℕ → MemK) (i : ℕ) :
    Option MemK :=
  gradVecDirK { L with ncol := 1 } C dir len kvec c ldi (fun q a => xs q (i * ldi q + a)) p
    (ex0 i) (Dx i) 0

end Sparc.Grad

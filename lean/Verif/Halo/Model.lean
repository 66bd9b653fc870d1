import Verif.Loop
import Verif.Block.Model
import Verif.Lap.Model
import Verif.Halo.Tables
import Mathlib.Data.Fin.VecNotation

/-!
# Halo exchange of the distributed Laplacian (model)

The communication part of `Lap_plus_diag_vec_mult_orth` and `Lap_plus_diag_vec_mult_nonorth`
(`/repo/src/lapVecRoutines.c`) and the neighbour lists set up in `Setup_Comms`
(`/repo/src/parallelization.c`).

All processes run the same code, so the exchange is a function of the family `xs` of the local
arrays.  Simplifications: `double` becomes `ℝ`, arrays are total functions on indices; the exchange
is written for any type of values, because the routines for complex orbitals repeat it;
buffers that are filled with `count++` are lists.  `MPI_Ineighbor_alltoallv` follows the message
order semantics of the MPI 3 standard: every process sends one message per slot and posts one
receive per slot, both in slot order; the `m`-th receive from a given process takes the `m`-th
message that this process sent here; a slot whose neighbour is `MPI_PROC_NULL` leaves its part of
the receive buffer untouched.  A message of the wrong length, a receive without message, and a
read past the end of the receive buffer are the outcome `none`.
-/

namespace Sparc.Halo

open Loop Lap

/-- Distribution of a grid over a Cartesian process grid. -/
structure Layout where
  /-- grid points per axis (`Nx`, `Ny`, `Nz`) -/
  N : Fin 3 → ℕ
  /-- processes per axis -/
  dims : Fin 3 → ℕ
  /-- `periods`, i.e. `1 - BCx` etc. -/
  per : Fin 3 → Bool
  FDn : ℕ
  ncol : ℕ

/-- Cartesian coordinates of a process. -/
abbrev Proc := Fin 3 → ℕ

/-- Points of the block of a process, parallelization.c:900-902. -/
def Layout.size (L : Layout) (p : Proc) (d : Fin 3) : ℕ :=
  Block.blockDecompose (L.N d) (L.dims d) (p d)

/-- First point of the block, parallelization.c:906, 908, 910. -/
def Layout.start (L : Layout) (p : Proc) (d : Fin 3) : ℕ :=
  Block.blockNstart (L.N d) (L.dims d) (p d)

def Layout.isize (L : Layout) (p : Proc) : Fin 3 → ℤ := fun d => L.size p d

/-! ### Neighbours -/

/-- One pass of the loop over directions, parallelization.c:949-965; `none` is
`MPI_PROC_NULL`.  The neighbours of a Cartesian communicator are found the same way by the MPI
library. -/
def axisStep (dim : ℕ) (per : Bool) (c : ℕ) (e : ℤ) : Option ℕ :=
  let n : ℤ := c + e
  if per then
    if n < 0 then some (n + dim).toNat
    else if n ≥ dim then some (n - dim).toNat
    else some n.toNat
  else if n < 0 ∨ n ≥ dim then none
  else some n.toNat

/-- The neighbour at offset `e`, parallelization.c:946-970. -/
def nbr (L : Layout) (p : Proc) (e : Fin 3 → ℤ) : Option Proc := do
  let a ← axisStep (L.dims 0) (L.per 0) (p 0) (e 0)
  let b ← axisStep (L.dims 1) (L.per 1) (p 1) (e 1)
  let c ← axisStep (L.dims 2) (L.per 2) (p 2) (e 2)
  pure ![a, b, c]

/-- Neighbour order of a three-dimensional Cartesian communicator (MPI standard). -/
def offs6 : List (Fin 3 → ℤ) :=
  [![-1, 0, 0], ![1, 0, 0], ![0, -1, 0], ![0, 1, 0], ![0, 0, -1], ![0, 0, 1]]

/-- Neighbour order of the distributed graph communicator: the loop parallelization.c:939-943
over `k`, `j`, `i` from -1 to 1 that skips the process itself. -/
def offs26 : List (Fin 3 → ℤ) :=
  ([-1, 0, 1].flatMap fun k => [-1, 0, 1].flatMap fun j => [-1, 0, 1].flatMap fun i =>
    if i = 0 ∧ j = 0 ∧ k = 0 then [] else [![i, j, k]])

/-! ### Regions -/

/-- Index ranges `lo d ≤ · < hi d` of a three-fold loop. -/
structure Region where
  lo : Fin 3 → ℤ
  hi : Fin 3 → ℤ

/-- Number of passes of each loop. -/
def Region.width (R : Region) (d : Fin 3) : ℕ := (R.hi d - R.lo d).toNat

/-- The passes of `for k { for j { for i } }`, counted from the start of each range. -/
def Region.cells (R : Region) : List (ℕ × ℕ × ℕ) := box (R.width 0) (R.width 1) (R.width 2)

/-- The six index arrays of a slot. -/
def mkRegion (is ie js je ks ke : List ℤ) (s : ℕ) : Region where
  lo := ![is.getD s 0, js.getD s 0, ks.getD s 0]
  hi := ![ie.getD s 0, je.getD s 0, ke.getD s 0]

/-- Send ranges of the orthogonal routine, lapVecRoutines.c:376-381. -/
def send6 (D : Fin 3 → ℤ) (F : ℤ) : ℕ → Region :=
  mkRegion [0, D 0 - F, 0, 0, 0, 0] [F, D 0, D 0, D 0, D 0, D 0]
    [0, 0, 0, D 1 - F, 0, 0] [D 1, D 1, F, D 1, D 1, D 1]
    [0, 0, 0, 0, 0, D 2 - F] [D 2, D 2, D 2, D 2, F, D 2]

/-- Receive ranges of the orthogonal routine, lapVecRoutines.c:487-492. -/
def recv6 (D : Fin 3 → ℤ) (F : ℤ) : ℕ → Region :=
  mkRegion [0, D 0 + F, F, F, F, F] [F, D 0 + 2 * F, D 0 + F, D 0 + F, D 0 + F, D 0 + F]
    [F, F, 0, D 1 + F, F, F] [D 1 + F, D 1 + F, F, D 1 + 2 * F, D 1 + F, D 1 + F]
    [F, F, F, F, 0, D 2 + F] [D 2 + F, D 2 + F, D 2 + F, D 2 + F, F, D 2 + 2 * F]

/-- `(int)(dims[d] < 3 && periods[d])`, lapVecRoutines.c:400. -/
def swap6 (L : Layout) (d : ℕ) : Bool :=
  decide (L.dims (Fin.ofNat 3 d) < 3) && L.per (Fin.ofNat 3 d)

/-- `nbrcount`, lapVecRoutines.c:400. -/
def nbrcount6 (L : Layout) (s : ℕ) : ℕ :=
  ((s : ℤ) + (1 - 2 * (s % 2 : ℕ)) * (if swap6 L (s / 2) then 1 else 0)).toNat

/-- The choice between the two sets of ranges, lapVecRoutines.c:657, 717, 778. -/
def plain26 (L : Layout) (d : Fin 3) : Bool := decide (L.dims d > 2) || !L.per d

/-- Send ranges with several processes, lapVecRoutines.c:657-836. -/
def send26 (L : Layout) (D : Fin 3 → ℤ) (F : ℤ) : ℕ → Region :=
  mkRegion
    (if plain26 L 0 then istart26A (D 0) F else istart26B (D 0) F)
    (if plain26 L 0 then iend26A (D 0) F else iend26B (D 0) F)
    (if plain26 L 1 then jstart26A (D 1) F else jstart26B (D 1) F)
    (if plain26 L 1 then jend26A (D 1) F else jend26B (D 1) F)
    (if plain26 L 2 then kstart26A (D 2) F else kstart26B (D 2) F)
    (if plain26 L 2 then kend26A (D 2) F else kend26B (D 2) F)

/-- Receive ranges, lapVecRoutines.c:839-866 and 898-925. -/
def recv26 (D : Fin 3 → ℤ) (F : ℤ) : ℕ → Region :=
  mkRegion (istart26in (D 0) F) (iend26in (D 0) F) (jstart26in (D 1) F) (jend26in (D 1) F)
    (kstart26in (D 2) F) (kend26in (D 2) F)

/-- Source ranges with one process, lapVecRoutines.c:868-895. -/
def one26 (D : Fin 3 → ℤ) (F : ℤ) : ℕ → Region :=
  mkRegion (istart26one (D 0) F) (iend26one (D 0) F) (jstart26one (D 1) F) (jend26one (D 1) F)
    (kstart26one (D 2) F) (kend26one (D 2) F)

/-- `sendcounts` = `recvcounts` of the orthogonal routine, lapVecRoutines.c:426-428. -/
def count6 (D : Fin 3 → ℤ) (F : ℤ) (ncol : ℕ) (s : ℕ) : ℤ :=
  let x := ncol * F * (D 1 * D 2)
  let y := ncol * F * (D 0 * D 2)
  let z := ncol * F * (D 0 * D 1)
  [x, x, y, y, z, z].getD s 0

/-- `sendcounts` = `recvcounts` of the oblique routine, lapVecRoutines.c:1014-1024. -/
def count26 (D : Fin 3 → ℤ) (F : ℤ) (ncol : ℕ) (s : ℕ) : ℤ :=
  if s ∈ [0, 2, 6, 8, 17, 19, 23, 25] then ncol * F * F * F
  else if s ∈ [1, 7, 18, 24] then ncol * D 0 * F * F
  else if s ∈ [3, 5, 20, 22] then ncol * F * D 1 * F
  else if s ∈ [4, 21] then ncol * (D 0 * D 1) * F
  else if s ∈ [9, 11, 14, 16] then ncol * F * F * D 2
  else if s ∈ [10, 15] then ncol * D 0 * F * D 2
  else ncol * F * D 1 * D 2

/-! ### The exchange -/

/-- What the two routines do differently. -/
structure Exch where
  offs : List (Fin 3 → ℤ)
  /-- send range of a slot for a block of given size -/
  send : (Fin 3 → ℤ) → ℕ → Region
  recv : (Fin 3 → ℤ) → ℕ → Region
  count : (Fin 3 → ℤ) → ℕ → ℤ

def exch6 (L : Layout) : Exch where
  offs := offs6
  send D s := send6 D L.FDn (nbrcount6 L s)
  recv D := recv6 D L.FDn
  count D := count6 D L.FDn L.ncol

def exch26 (L : Layout) : Exch where
  offs := offs26
  send D := send26 L D L.FDn
  recv D := recv26 D L.FDn
  count D := count26 D L.FDn L.ncol

/-- Index of point `(i, j, k)` of column `n` in `x`: macro `X`, lapVecRoutines.c:313; also
1044-1050. -/
def xIdx (D : Fin 3 → ℤ) (ldi : ℤ) (n : ℕ) (i j k : ℤ) : ℤ :=
  n * ldi + k * (D 0 * D 1) + j * D 0 + i

/-- Index in `x_ex`: macro `x_ex`, lapVecRoutines.c:314; also 1085-1092. -/
def exIdx (D : Fin 3 → ℤ) (F : ℤ) (n : ℕ) (i j k : ℤ) : ℤ :=
  n * ((D 0 + 2 * F) * (D 1 + 2 * F) * (D 2 + 2 * F)) + k * ((D 0 + 2 * F) * (D 1 + 2 * F)) +
    j * (D 0 + 2 * F) + i

variable {V : Type} [Zero V]

/-- Part of `x_out` for one slot: lapVecRoutines.c:407-415, 1043-1055. -/
def packSlot (D : Fin 3 → ℤ) (ldi : ℤ) (ncol : ℕ) (R : Region) (x : ℤ → V) : List V :=
  (List.range ncol).flatMap fun n => R.cells.map fun t =>
    x (xIdx D ldi n (R.lo 0 + t.1) (R.lo 1 + t.2.1) (R.lo 2 + t.2.2))

/-- `x_out`. -/
def xOut (E : Exch) (D : Fin 3 → ℤ) (ldi : ℤ) (ncol : ℕ) (x : ℤ → V) : List V :=
  (List.range E.offs.length).flatMap fun s => packSlot D ldi ncol (E.send D s) x

/-- `sdispls` = `rdispls`, lapVecRoutines.c:430-435, 1026-1029. -/
def displ (E : Exch) (D : Fin 3 → ℤ) (s : ℕ) : ℤ :=
  ((List.range s).map (E.count D)).sum

/-- The message of slot `s`. -/
def message (E : Exch) (D : Fin 3 → ℤ) (ldi : ℤ) (ncol : ℕ) (x : ℤ → V) (s : ℕ) : List V :=
  ((xOut E D ldi ncol x).drop (displ E D s).toNat).take (E.count D s).toNat

/-- Neighbour of a slot. -/
def slotNbr (L : Layout) (E : Exch) (p : Proc) (s : ℕ) : Option Proc :=
  nbr L p (E.offs.getD s 0)

/-- The slots of `p` whose neighbour is `q`, in slot order. -/
def slotsTo (L : Layout) (E : Exch) (p q : Proc) : List ℕ :=
  (List.range E.offs.length).filter fun s => slotNbr L E p s = some q

/-- The slot of `q` whose message is received in slot `s` of `p`: the one with the same position
among the messages from `q` to `p`. -/
def partner (L : Layout) (E : Exch) (p q : Proc) (s : ℕ) : Option ℕ :=
  (slotsTo L E q p)[(slotsTo L E p q).idxOf s]?

/-- The part of `x_in` of one slot; `x_in` is initialised with zeros (lapVecRoutines.c:393,
1033). -/
noncomputable def recvSlot (L : Layout) (E : Exch) (ldi : Proc → ℤ) (xs : Proc → ℤ → V) (p : Proc)
    (s : ℕ) : Option (List V) :=
  match slotNbr L E p s with
  | none => some (List.replicate (E.count (L.isize p) s).toNat 0)
  | some q => do
    let s' ← partner L E p q s
    let m := message E (L.isize q) (ldi q) L.ncol (xs q) s'
    if m.length = (E.count (L.isize p) s).toNat then some m else none

/-- `x_in`. -/
noncomputable def xIn (L : Layout) (E : Exch) (ldi : Proc → ℤ) (xs : Proc → ℤ → V) (p : Proc) :
    Option (List V) := do
  let l ← (List.range E.offs.length).mapM (recvSlot L E ldi xs p)
  pure l.flatten

/-- The places of `x_ex` that are written from `x_in`, in order: lapVecRoutines.c:509-526,
1159-1173. -/
def inPlaces (L : Layout) (E : Exch) (p : Proc) : List ℤ :=
  (List.range E.offs.length).flatMap fun s => (List.range L.ncol).flatMap fun n =>
    let R := E.recv (L.isize p) s
    R.cells.map fun t =>
      exIdx (L.isize p) L.FDn n (R.lo 0 + t.1) (R.lo 1 + t.2.1) (R.lo 2 + t.2.2)

/-- Copy of the block into `x_ex`, lapVecRoutines.c:466-476, 1084-1097.  `count++` is written
as the index it has at that point. -/
def copyIn (L : Layout) (ldi : ℤ) (p : Proc) (x : ℤ → V) (m : ℤ → V) : ℤ → V :=
  let D := L.isize p
  fill ((List.range L.ncol).flatMap fun n =>
      (box (L.size p 0) (L.size p 1) (L.size p 2)).map fun t => (n, t))
    (fun w => exIdx D L.FDn w.1 (L.FDn + w.2.1) (L.FDn + w.2.2.1) (L.FDn + w.2.2.2))
    (fun w => x (xIdx D ldi w.1 w.2.1 w.2.2.1 w.2.2.2)) m

/-- Filling of the halo with several processes. -/
noncomputable def haloMany (L : Layout) (E : Exch) (ldi : Proc → ℤ) (xs : Proc → ℤ → V) (p : Proc)
    (m : ℤ → V) : Option (ℤ → V) := do
  let b ← xIn L E ldi xs p
  let places := inPlaces L E p
  if b.length < places.length then none
  else some (fill (places.zip b) Prod.fst Prod.snd (copyIn L (ldi p) p (xs p) m))

/-- Assignments of one slot when there is one process: the source range shifted to the receive
range, lapVecRoutines.c:556-564, 1188-1202. -/
def copySlot (L : Layout) (ldi : ℤ) (p : Proc) (src dst : Region) (x : ℤ → V) (m : ℤ → V) : ℤ → V :=
  let D := L.isize p
  fill ((List.range L.ncol).flatMap fun n => src.cells.map fun t => (n, t))
    (fun w => exIdx D L.FDn w.1 (dst.lo 0 + w.2.1) (dst.lo 1 + w.2.2.1) (dst.lo 2 + w.2.2.2))
    (fun w => x (xIdx D ldi w.1 (src.lo 0 + w.2.1) (src.lo 1 + w.2.2.1) (src.lo 2 + w.2.2.2))) m

/-- The zeros written by lapVecRoutines.c:566-574. -/
noncomputable def zeroSlot (L : Layout) (p : Proc) (dst : Region) (m : ℤ → V) : ℤ → V :=
  let D := L.isize p
  fill ((List.range L.ncol).flatMap fun n => dst.cells.map fun t => (n, t))
    (fun w => exIdx D L.FDn w.1 (dst.lo 0 + w.2.1) (dst.lo 1 + w.2.2.1) (dst.lo 2 + w.2.2.2))
    (fun _ => 0) m

/-- `x_ex` of `Lap_plus_diag_vec_mult_orth`; `m` is its uninitialised contents. -/
noncomputable def xex6 (L : Layout) (ldi : Proc → ℤ) (xs : Proc → ℤ → V) (p : Proc) (m : ℤ → V) :
    Option (ℤ → V) :=
  if L.dims 0 * L.dims 1 * L.dims 2 > 1 then haloMany L (exch6 L) ldi xs p m
  else
    let D := L.isize p
    some ((List.range 6).foldl (fun m s =>
      if L.per (Fin.ofNat 3 (s / 2)) then
        copySlot L (ldi p) p (send6 D L.FDn ((s : ℤ) + (1 - 2 * (s % 2 : ℕ))).toNat) (recv6 D L.FDn s)
          (xs p) m
      else zeroSlot L p (recv6 D L.FDn s) m) (copyIn L (ldi p) p (xs p) m))

/-- `x_ex` of `Lap_plus_diag_vec_mult_nonorth`; it is allocated with zeros
(lapVecRoutines.c:1080). -/
noncomputable def xex26 (L : Layout) (ldi : Proc → ℤ) (xs : Proc → ℤ → V) (p : Proc) : Option (ℤ → V) :=
  if L.dims 0 * L.dims 1 * L.dims 2 > 1 then haloMany L (exch26 L) ldi xs p (fun _ => 0)
  else
    let D := L.isize p
    some ((List.range 26).foldl (fun m s =>
      if (isnonzero26 L.per).getD s false then
        copySlot L (ldi p) p (one26 D L.FDn s) (recv26 D L.FDn s) (xs p) m
      else m) (copyIn L (ldi p) p (xs p) (fun _ => 0)))

/-- Arguments of the Laplacian that are the same on every process, and the local arrays. -/
structure Call where
  a : ℝ
  b : ℝ
  c : ℝ
  v : Option (Proc → Mem)
  /-- leading dimension of `x` -/
  ldi : Proc → ℤ
  x : Proc → Mem
  /-- previous contents of `x_ex`, `Dx1`, `Dx2`, `y` of the column, `Lap_wt` -/
  ex0 : Mem
  Dx1 : Mem
  Dx2 : Mem
  y : Mem
  wt : ℕ → ℝ

/-- Arguments of the kernels for column `n`: `x_ex+n*DMnd_ex`, lapVecRoutines.c:585-591. -/
def kernelArgs (L : Layout) (p : Proc) (Q : Call) (n : ℕ) (xex : Mem) : Lap.Args where
  DMnx := L.size p 0
  DMny := L.size p 1
  DMnz := L.size p 2
  FDn := L.FDn
  a := Q.a
  b := Q.b
  c := Q.c
  v := Q.v.map (· p)
  x := Q.x p
  xex q := xex (n * ((L.isize p 0 + 2 * L.FDn) * (L.isize p 1 + 2 * L.FDn) *
    (L.isize p 2 + 2 * L.FDn)) + q)
  Dx1 := Q.Dx1
  Dx2 := Q.Dx2
  y := Q.y
  wt := Q.wt

/-- Column `n` of the result of `Lap_plus_diag_vec_mult_orth` on process `p`. -/
noncomputable def lapOrth (L : Layout) (C : Coefs) (Q : Call) (p : Proc) (n : ℕ) : Option Mem :=
  (xex6 L Q.ldi Q.x p Q.ex0).map fun xex => orth C (kernelArgs L p Q n xex)

/-- Column `n` of the result of `Lap_plus_diag_vec_mult_nonorth` on process `p`. -/
noncomputable def lapNonorth (L : Layout) (C : Coefs) (typ : ℕ) (Q : Call) (p : Proc) (n : ℕ) :
    Option Mem :=
  (xex26 L Q.ldi Q.x p).map fun xex => nonorth C typ (kernelArgs L p Q n xex)

end Sparc.Halo

import Verif.Loop
import Verif.Block.Model
import Verif.Grid.Model
import Mathlib.Data.Fin.VecNotation
import Mathlib.Algebra.Order.Group.Int

/-!
# Redistribution of grid functions between process layouts (model)

`Set_D2D_Target` and `D2D`, `/repo/src/parallelization.c`.

All processes run the same code, so the transfer is a function of the family of local arrays.
Processes of the two communicators are named by their ranks in them, messages by ranks in
`union_comm`; `tS` and `tR` translate.  Arrays are total functions on indices; message buffers are
lists of the announced length.  Between two processes messages arrive in the order they were sent,
and a receive takes the first message not yet taken (all tags are equal).  `none` stands for a
division by zero, a process that does not exist, a missing message, a message of another length
than expected or a read outside a message.
-/

namespace Sparc.D2D

open Loop

/-- A triple indexed by axis, for use as C array. -/
def arr (f : Fin 3 → ℤ) : ℕ → ℤ := fun a => if a = 0 then f 0 else if a = 1 then f 1 else f 2

/-- What both layouts share. -/
structure Setup where
  /-- `gridsizes` -/
  N : Fin 3 → ℕ
  sdims : Fin 3 → ℕ
  rdims : Fin 3 → ℕ
  /-- rank in `union_comm` of a rank of `send_comm` (`MPI_Group_translate_ranks`) -/
  tS : ℕ → ℕ
  tR : ℕ → ℕ

/-- Number of processes. -/
def procs (dims : Fin 3 → ℕ) : ℕ := dims 0 * dims 1 * dims 2

/-- `MPI_Cart_coords`: row-major, MPI standard. -/
def cartCoords (dims : Fin 3 → ℕ) (r : ℕ) : Fin 3 → ℕ :=
  ![r / (dims 1 * dims 2), r / dims 2 % dims 1, r % dims 2]

/-- `MPI_Cart_rank`. -/
def cartRank (dims : Fin 3 → ℕ) (c : Fin 3 → ℤ) : Option ℕ :=
  if (0 ≤ c 0 ∧ c 0 < dims 0) ∧ (0 ≤ c 1 ∧ c 1 < dims 1) ∧ (0 ≤ c 2 ∧ c 2 < dims 2) then
    some (((c 0).toNat * dims 1 + (c 1).toNat) * dims 2 + (c 2).toNat)
  else none

/-- Corners of the block with the given coordinates: `DMVertices`, parallelization.c:900-911;
also 2336-2338, 2426-2428, 2461-2463. -/
def vert (N dims : Fin 3 → ℕ) (c : Fin 3 → ℕ) (a : Fin 3) : ℤ × ℤ :=
  let lo : ℤ := Block.blockNstart (N a) (dims a) (c a)
  (lo, lo + Block.blockDecompose (N a) (dims a) (c a) - 1)

/-- `block_decompose_rank` on a corner. -/
def rankOf (N dims : Fin 3 → ℕ) (a : Fin 3) (x : ℤ) : Option ℤ :=
  if x < 0 then none else (Block.blockRank (N a) (dims a) x.toNat).map fun (r : ℕ) => (r : ℤ)

/-- The processes of the other layout that the block `V` spans, with their number, as laid out by
`c_ndgrid`: parallelization.c:2024-2037 and 2107-2119; 2309-2317 and 2398-2407. -/
def targets (N dims : Fin 3 → ℕ) (V : Fin 3 → ℤ × ℤ) (junk : ℕ → ℤ) : Option (ℕ × (ℕ → ℤ)) := do
  let x0 ← rankOf N dims 0 (V 0).1
  let x1 ← rankOf N dims 0 (V 0).2
  let y0 ← rankOf N dims 1 (V 1).1
  let y1 ← rankOf N dims 1 (V 1).2
  let z0 ← rankOf N dims 2 (V 2).1
  let z1 ← rankOf N dims 2 (V 2).2
  let X ← Grid.ndgrid 3 (arr ![x0, y0, z0]) (arr ![x1, y1, z1]) junk
  pure (((x1 - x0 + 1) * (y1 - y0 + 1) * (z1 - z0 + 1)).toNat, X)

/-- One half of `Set_D2D_Target`, parallelization.c:2019-2102 (with the layouts exchanged 2105-2174):
every process of layout `dims` finds its partners in layout `dims'`, the root gathers their
coordinates, turns them into ranks, translates these and scatters them.  The result gives
`target_ranks` for each rank. -/
def setTarget (N dims dims' : Fin 3 → ℕ) (t : ℕ → ℕ) (junk : ℕ → ℤ) : Option (ℕ → List ℕ) := do
  let np := procs dims
  let T ← (List.range np).mapM fun n => targets N dims' (vert N dims (cartCoords dims n)) junk
  let cnt : ℕ → ℕ := fun n => (T.map Prod.fst).getD n 0
  let vec : List ℤ := T.flatMap fun w => (List.range (w.1 * 3)).map w.2
  let displs : ℕ → ℕ := fun n => ((T.take n).map fun w => 3 * w.1).sum
  let ranks ← (List.range np).mapM fun n => (List.range (cnt n)).mapM fun j => do
    let x ← vec[displs n + j]?
    let y ← vec[displs n + cnt n + j]?
    let z ← vec[displs n + 2 * cnt n + j]?
    cartRank dims' ![x, y, z]
  let union := ranks.flatten.map t
  let displs' : ℕ → ℕ := fun n => ((T.take n).map fun w => w.1).sum
  pure fun n => (union.drop (displs' n)).take (cnt n)

/-- Intersection of the block `V` with the block of process `c` of the other layout,
parallelization.c:2336-2343, 2426-2433, 2461-2468. -/
def overlap (N dims : Fin 3 → ℕ) (V : Fin 3 → ℤ × ℤ) (c : Fin 3 → ℕ) (a : Fin 3) : ℤ × ℤ :=
  (max (vert N dims c a).1 (V a).1, min (vert N dims c a).2 (V a).2)

/-- Points of a box along an axis (`DMnxi`, `sDMnxi`, `rDMnxi`). -/
def len (V : Fin 3 → ℤ × ℤ) (a : Fin 3) : ℤ := (V a).2 - (V a).1 + 1

/-- `DMnd`. -/
def vol (V : Fin 3 → ℤ × ℤ) : ℤ := 1 * len V 0 * len V 1 * len V 2

/-- The loop over a box. -/
def cells (V : Fin 3 → ℤ × ℤ) : List (ℕ × ℕ × ℕ) :=
  box (len V 0).toNat (len V 1).toNat (len V 2).toNat

/-- Coordinates of partner `n`, parallelization.c:2334, 2424, 2459. -/
def partner (X : ℕ → ℤ) (tot n : ℕ) : Fin 3 → ℕ :=
  fun a => (X (a.val * tot + n)).toNat

/-- `indxsb`, `indxrb`, parallelization.c:2357, 2476. -/
def bufIdx (W : Fin 3 → ℤ × ℤ) (t : ℕ × ℕ × ℕ) : ℤ :=
  t.2.2 * len W 1 * len W 0 + t.2.1 * len W 0 + t.1

/-- `indxsd`, `indxrd`, parallelization.c:2352-2358, 2471-2477. -/
def dataIdx (W V : Fin 3 → ℤ × ℤ) (t : ℕ × ℕ × ℕ) : ℤ :=
  let kloc := t.2.2 + (W 2).1 - (V 2).1
  let jloc := t.2.1 + (W 1).1 - (V 1).1
  let iloc := t.1 + (W 0).1 - (V 0).1
  kloc * len V 1 * len V 0 + jloc * len V 0 + iloc

/-- The message for partner `n`, parallelization.c:2332-2369: destination and contents. -/
def sendMsg {α : Type} (S : Setup) (V : Fin 3 → ℤ × ℤ) (tr : List ℕ) (X : ℕ → ℤ) (sdata bjunk : ℤ → α)
    (n : ℕ) : Option (ℕ × List α) := do
  let W := overlap S.N S.rdims V (partner X tr.length n)
  let buf := fill (cells W) (bufIdx W) (fun t => sdata (dataIdx W V t)) bjunk
  let dest ← tr[n]?
  pure (dest, (List.range (vol W).toNat).map fun (q : ℕ) => buf q)

/-- Everything that rank `s` of `send_comm` sends, parallelization.c:2297-2371. -/
def sent {α : Type} (S : Setup) (tr : List ℕ) (s : ℕ) (sdata bjunk : ℤ → α) (junk : ℕ → ℤ) :
    Option (List (ℕ × List α)) := do
  let V := vert S.N S.sdims (cartCoords S.sdims s)
  let w ← targets S.N S.rdims V junk
  (List.range tr.length).mapM fun n => sendMsg S V tr w.2 sdata bjunk n

/-- Messages on their way from one process of `union_comm` to another, oldest first. -/
def queue {α : Type} (S : Setup) (out : List (List (ℕ × List α))) (src dst : ℕ) : List (List α) :=
  (List.range out.length).flatMap fun s =>
    if S.tS s = src then ((out.getD s []).filter fun m => m.1 = dst).map Prod.snd else []

/-- The assignments that rank `r` of `recv_comm` makes, parallelization.c:2382-2442, 2454-2487: for each partner
in turn the elements of its message with their places. -/
def received {α : Type} (S : Setup) (out : List (List (ℕ × List α))) (tr : List ℕ) (r : ℕ)
    (junk : ℕ → ℤ) : Option (List (ℤ × α)) := do
  let V := vert S.N S.rdims (cartCoords S.rdims r)
  let w ← targets S.N S.sdims V junk
  let parts ← (List.range tr.length).mapM fun n => do
    let W := overlap S.N S.sdims V (partner w.2 tr.length n)
    let src ← tr[n]?
    let m := ((tr.take n).filter fun x => x = src).length
    let msg ← (queue S out src (S.tR r))[m]?
    if msg.length = (vol W).toNat then
      (cells W).mapM fun t => do
        let v ← msg[(bufIdx W t).toNat]?
        pure (dataIdx W V t, v)
    else none
  pure parts.flatten

/-- `Set_D2D_Target` followed by `D2D`: the contents of `rdata` on rank `r` of `recv_comm`. -/
def d2d {α : Type} (S : Setup) (sdata : ℕ → ℤ → α) (rdata : ℕ → ℤ → α) (bjunk : ℤ → α) (junk : ℕ → ℤ)
    (r : ℕ) : Option (ℤ → α) := do
  let trS ← setTarget S.N S.sdims S.rdims S.tR junk
  let trR ← setTarget S.N S.rdims S.sdims S.tS junk
  let out ← (List.range (procs S.sdims)).mapM fun s => sent S (trS s) s (sdata s) bjunk junk
  let L ← received S out (trR r) r junk
  pure (fill L Prod.fst Prod.snd (rdata r))

end Sparc.D2D

/-!
# Chunked global reduction (model)

`MPI_Allreduce_overload`, `/repo/src/parallelization.c:3002-3046`.
The buffers are functions `rank → index → value`; the `MPI_IN_PLACE` form is modelled, in
which send and receive buffer coincide (with separate buffers the input is never
overwritten, which is the easier case).
-/

namespace Sparc.Allreduce

/-- 64-bit `size_t` -/
def sizeT : Nat := 2 ^ 64

/-- `reps`, parallelization.c:3017-3019: `size_t` arithmetic modulo 2^64, then conversion
to `int` (two's complement). -/
def reps (count unit : Nat) : Int :=
  let size : Nat := count * unit % sizeT
  let m : Nat := (size + sizeT - 1) % sizeT
  let v : Nat := max (m / 100000000 + 1) 1
  let w : Nat := v % 2 ^ 32
  if w < 2 ^ 31 then (w : Int) else (w : Int) - 2 ^ 32

/-- `counts[i]`, parallelization.c:3029. -/
def chunkCount (count batch i : Nat) : Nat := batch + (if i < count % batch then 1 else 0)

/-- `displs[i]`, parallelization.c:3027-3031. -/
def chunkDispl (count batch : Nat) : Nat → Nat
  | 0 => 0
  | i + 1 => chunkDispl count batch i + chunkCount count batch i

/-- The sequence of `(displacement, count)` pairs passed to `MPI_Allreduce`.  `none` if
`reps < 1` (negative allocation size) or if `batch = 0` (remainder by zero). -/
def segments (count unit : Nat) : Option (List (Nat × Nat)) :=
  let r := reps count unit
  if r = 1 then some [(0, count)]
  else if r < 1 then none
  else
    let batch := count / r.toNat
    if batch = 0 then none
    else some ((List.range r.toNat).map (fun i => (chunkDispl count batch i, chunkCount count batch i)))

/-- One in-place `MPI_Allreduce` on elements `[d, d+c)`: every rank receives the
reduction `red` of the values held by all ranks. -/
def allreduceSeg {α : Type} {P : Nat} (red : (Fin P → α) → α) (seg : Nat × Nat)
    (buf : Fin P → Nat → α) : Fin P → Nat → α :=
  fun r j => if seg.1 ≤ j ∧ j < seg.1 + seg.2 then red (fun s => buf s j) else buf r j

/-- `MPI_Allreduce_overload`, all chunks in order. -/
def overload {α : Type} {P : Nat} (red : (Fin P → α) → α) (count unit : Nat)
    (buf : Fin P → Nat → α) : Option (Fin P → Nat → α) :=
  (segments count unit).map (fun segs => segs.foldl (fun b s => allreduceSeg red s b) buf)

end Sparc.Allreduce

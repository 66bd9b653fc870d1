/-!
# Spin, k-point and band groups (model)

Transcription of the index arithmetic of `Setup_Comms` in
`/repo/src/parallelization.c`.  Only the arithmetic is modelled; communicator
creation is not.  Group indices `-1` (idle process) are `none`.
-/

namespace Sparc.Groups

/-- Group index of a process: parallelization.c:106-110 (`spincomm_index`) and
170-174 (`kptcomm_index`).  `size` processes are split into `np` groups of
`size / np` consecutive ranks; the remaining ranks are idle (`none` = `-1`). -/
def groupIndex (size np rank : Nat) : Option Nat :=
  if rank < size - size % np then some (rank / (size / np)) else none

/-- Clamping of the number of groups: parallelization.c:95-103 and 159-167.
`user = 0` means "choose automatically". -/
def clampGroups (user items procs : Nat) : Nat :=
  if user = 0 then min procs items
  else if user > items ∨ user > procs then min procs items
  else user

/-- Number of spins of an active spin group, parallelization.c:113-115. -/
def spinCount (Nspin npspin : Nat) : Nat := Nspin / npspin

/-- First spin of spin group `idx`, parallelization.c:122-128. -/
def spinStart (Nspin npspin idx : Nat) : Nat := idx * spinCount Nspin npspin

/-- Number of k-points of k-point group `idx`, parallelization.c:177-178. -/
def kptCount (Nk np idx : Nat) : Nat := Nk / np + (if idx < Nk % np then 1 else 0)

/-- First k-point of k-point group `idx`, parallelization.c:183-189. -/
def kptStart (Nk np idx : Nat) : Nat :=
  if idx < Nk % np then idx * kptCount Nk np idx
  else idx * kptCount Nk np idx + Nk % np

/-- Band block size `NB`, parallelization.c:415. -/
def bandNB (Ns npband : Nat) : Nat := (Ns - 1) / npband + 1

/-- Number of bands of band group `idx`, parallelization.c:416. -/
def bandCount (Ns npband idx : Nat) : Nat :=
  let NB := bandNB Ns npband
  if idx < Ns / NB then NB else if idx = Ns / NB then Ns % NB else 0

/-- First band of band group `idx`, parallelization.c:422-426. -/
def bandStart (Ns npband idx : Nat) : Nat :=
  let NB := bandNB Ns npband
  if idx ≤ Ns / NB then idx * NB else Ns

end Sparc.Groups

import Mathlib.Analysis.SpecialFunctions.Trigonometric.Basic
import Mathlib.Analysis.Real.Sqrt
import Mathlib.Algebra.BigOperators.Fin
import Verif.Tac
import Verif.Cube.Lemmas

/-!
# k-points of a band structure and the file of eigenvalues

`calculate_kpts_bandstruct` and `Cross_Product` (initialization.c:64-163), the arrays it fills
(initialization.c:2629-2636, isddft.h:36 and 1179-1180), the cell given by `CELL` or `LATVEC_SCALE`
(initialization.c:772-794, readfiles.c:197-217 and 1036-1049), the phase a k-point stands for
(lapVecRoutinesKpt.c:370-372) and `printEigen` (printing.c:204-495).

Numbers are real.  `double` arrays are functions of the index; a write outside the array is an error (`none`).
The three components of the arrays `k1`, `k2`, `k3` are kept together.
-/

namespace Sparc.Band
open Sparc.Cube (loop)

abbrev V3 := Fin 3 → ℝ

/-- `Cross_Product`, initialization.c:64-72. -/
def cross (a b : V3) : V3 :=
  ![a 1 * b 2 - a 2 * b 1, a 2 * b 0 - a 0 * b 2, a 0 * b 1 - a 1 * b 0]

/-- The cell as read: rows of `LATVEC`, and the lengths of `CELL` or the factors of `LATVEC_SCALE`. -/
inductive Cell
  | cell (lat : Fin 3 → V3) (len : V3)
  | scaled (lat : Fin 3 → V3) (scale : V3)

/-- `LatVec`, initialization.c:1513-1514. -/
def Cell.lat : Cell → Fin 3 → V3
  | .cell l _ => l
  | .scaled l _ => l

/-- `latvec_scale_x`, ..: the default -1 stays with `CELL`, initialization.c:792-794, readfiles.c:206-208. -/
def Cell.scale : Cell → V3
  | .cell _ _ => fun _ => -1
  | .scaled _ s => s

/-- `range_x`, ..: as read with `CELL`, readfiles.c:199-201; factor times length with `LATVEC_SCALE`,
readfiles.c:1036-1049. -/
noncomputable def Cell.range : Cell → V3
  | .cell _ r => r
  | .scaled l s => fun d => s d * √(l d 0 * l d 0 + l d 1 * l d 1 + l d 2 * l d 2)

/-- `a1`, `a2`, `a3`, initialization.c:88-96. -/
def vecs (C : Cell) (d : Fin 3) : V3 := fun c => C.lat d c * C.scale d

/-- `volume`, initialization.c:98-102. -/
def volume (C : Cell) : ℝ :=
  let x := cross (vecs C 1) (vecs C 2)
  x 0 * vecs C 0 0 + x 1 * vecs C 0 1 + x 2 * vecs C 0 2

/-- `b1`, `b2`, `b3`, initialization.c:104-119. -/
noncomputable def recip (C : Cell) : Fin 3 → V3 :=
  ![fun c => 2 * Real.pi * cross (vecs C 1) (vecs C 2) c / volume C,
    fun c => 2 * Real.pi * cross (vecs C 2) (vecs C 0) c / volume C,
    fun c => 2 * Real.pi * cross (vecs C 0) (vecs C 1) c / volume C]

/-- `k1`, `k2`, `k3` of a reduced point, e.g. initialization.c:122-124. -/
noncomputable def kvec (C : Cell) (r : V3) : V3 :=
  fun c => r 0 * recip C 0 c + r 1 * recip C 1 c + r 2 * recip C 2 c

/-- The arrays: `k1`.., `k1_inpt_kpt`.., `kptWts`; `none` is an undefined value. -/
structure Arr where
  k : ℕ → Option V3
  inpt : ℕ → Option V3
  wt : ℕ → Option ℝ

/-- The assignments for one point: `k1`.. and `kptWts` have `nk` entries, `k1_inpt_kpt`.. have `L_kpoint = 512`. -/
noncomputable def put (C : Cell) (nk : ℕ) (i : ℕ) (r : V3) (A : Arr) : Option Arr :=
  if i < nk ∧ i < 512 then
    some ⟨Function.update A.k i (some (kvec C r)), Function.update A.inpt i (some r), Function.update A.wt i (some 1)⟩
  else none

/-- A point inside a line, initialization.c:147-154. -/
noncomputable def between (a b : V3) (kppl t : ℕ) : V3 :=
  fun c => a c + (b c - a c) * (1 / ((kppl : ℝ) - 1)) * t

/-- One line, initialization.c:131-163. -/
noncomputable def line (C : Cell) (nk kppl : ℕ) (kred : ℕ → V3) (i : ℕ) (A : Arr) : Option Arr :=
  let st := i * kppl
  let en := (i + 1) * kppl - 1
  ((put C nk st (kred (i * 2)) A).bind (put C nk en (kred (i * 2 + 1)))).bind fun A =>
    loop (fun j => put C nk j (between (kred (i * 2)) (kred (i * 2 + 1)) kppl (j - st))) (st + 1) (en - (st + 1)) A

/-- `calculate_kpts_bandstruct` with the allocations of initialization.c:2629-2636. -/
noncomputable def bandPoints (C : Cell) (nline kppl : ℕ) (kred : ℕ → V3) (A : Arr) : Option Arr :=
  let nk := kppl * nline
  (loop (fun i => put C nk i (kred i)) 0 (nline * 2) A).bind
    (loop (fun i => line C nk kppl kred i) 0 nline)

/-! ## The file of eigenvalues -/

/-- Offsets: `displs[0] = 0`, `displs[i+1] = displs[i] + cnt[i]`. -/
def displs (cnt : ℕ → ℕ) : ℕ → ℕ
  | 0 => 0
  | i + 1 => displs cnt i + cnt i

/-- `MPI_Gatherv`: block `i` of the buffer is the data of process `i`. -/
def gatherv {α : Type} (cnt : ℕ → ℕ) (buf : ℕ → ℕ → α) (junk : ℕ → α) : ℕ → ℕ → α
  | 0, p => junk p
  | n + 1, p => if displs cnt n ≤ p ∧ p < displs cnt n + cnt n then buf n (p - displs cnt n)
      else gatherv cnt buf junk n p

/-- What `printEigen` works on: groups of processes for spin (`npspin`) and k-points (`npkpt`), `Nspin`,
`Nspin_spincomm`, `Nkpts_kptcomm` of every group, `Nstates`; on the root of spin group `s`, k-point group `g`: `lambda_sorted`, `occ_sorted`;
on the roots of the k-point groups: the k-points `k1_loc`..; `Nspinor`, `Nkpts`, `kptWts`, `range_x`.., `BC`, `BandStructFlag`,
`k1_inpt_kpt`.. -/
structure Eig where
  npspin : ℕ
  npkpt : ℕ
  Nspin : ℕ
  nsl : ℕ
  Nk : ℕ → ℕ
  Ns : ℕ
  lam : ℕ → ℕ → ℕ → ℝ
  occ : ℕ → ℕ → ℕ → ℝ
  kloc : ℕ → ℕ → V3
  Nspinor : ℕ
  Nkpts : ℕ
  wts : ℕ → ℝ
  range : V3
  BC : ℕ
  band : Bool
  inpt : ℕ → V3

/-- `recvbuf_eig`, printing.c:245-275. -/
def overSpin (E : Eig) (x : ℕ → ℕ → ℕ → ℝ) (junk : ℕ → ℝ) (g : ℕ) : ℕ → ℝ :=
  if 1 < E.npspin then gatherv (fun _ => E.nsl * E.Nk g * E.Ns) (fun s => x s g) junk E.npspin else x 0 g

/-- `displs_all`, printing.c:292-296 and 368. -/
def displsAll (E : Eig) : ℕ → ℕ := displs fun g => E.Nk g * E.Nspin * E.Ns

/-- `eig_all`, `occ_all`, printing.c:282-359 and 386-387. -/
def all (E : Eig) (x : ℕ → ℕ → ℕ → ℝ) (junk : ℕ → ℝ) : ℕ → ℝ :=
  if 1 < E.npkpt then gatherv (fun g => E.Nk g * E.Nspin * E.Ns) (overSpin E x junk) junk E.npkpt
  else overSpin E x junk 0

/-- `kpt_displs`, printing.c:315-319 and 367. -/
def kptDispls (E : Eig) : ℕ → ℕ := displs fun g => E.Nk g * 3

/-- `kpt_sendbuf` or, with one group, `kred_i`: reduced coordinates of the k-points of a group, three numbers
each, printing.c:302-314, 333-345 and 370-382. -/
noncomputable def sendbuf (E : Eig) (g t : ℕ) : ℝ :=
  if E.band then E.inpt (t / 3) ⟨t % 3, Nat.mod_lt _ (by decide)⟩
  else E.kloc g (t / 3) ⟨t % 3, Nat.mod_lt _ (by decide)⟩ * E.range ⟨t % 3, Nat.mod_lt _ (by decide)⟩ / (2 * Real.pi)

/-- `kred_i`, printing.c:321-323, 347-349 and 369-385. -/
noncomputable def kredAll (E : Eig) (junk : ℕ → ℝ) : ℕ → ℝ :=
  if 1 < E.npkpt then gatherv (fun g => E.Nk g * 3) (sendbuf E) junk E.npkpt
  else if E.BC ≠ 1 then sendbuf E 0 else fun _ => 0

/-- What is printed for a k-point: its number, reduced coordinates, weight (not for a band structure), and per
state the eigenvalue and occupation of each spin. -/
structure Entry where
  num : ℕ
  kred : V3
  wt : Option ℝ
  row : ℕ → List (ℝ × ℝ)

/-- One k-point of the file, printing.c:403-432 and 437-470. -/
noncomputable def entry (E : Eig) (junk : ℕ → ℝ) (K k : ℕ) : Entry :=
  let num := kptDispls E K / 3 + k + 1
  let occfac : ℝ := 2 / E.Nspin / E.Nspinor
  let eig := all E E.lam junk
  let occ := all E E.occ junk
  ⟨num,
    if E.band then E.inpt (num - 1) else fun c => kredAll E junk (kptDispls E K + 3 * k + c),
    if E.band then none else some (E.wts (num - 1) / E.Nkpts),
    fun n =>
      (eig (displsAll E K + k * E.Ns + n), occfac * occ (displsAll E K + k * E.Ns + n)) ::
      (if E.Nspin = 2 then
        [(eig (displsAll E K + (E.Nk K + k) * E.Ns + n), occfac * occ (displsAll E K + (E.Nk K + k) * E.Ns + n))]
      else [])⟩

/-- The file, printing.c:400-472. -/
noncomputable def file (E : Eig) (junk : ℕ → ℝ) : List Entry :=
  (List.range E.npkpt).flatMap fun K => (List.range (E.Nk K)).map fun k => entry E junk K k

end Sparc.Band

import Verif.Tac
import Verif.Groups.Model
import Mathlib.Data.Real.Basic

/-! # The adaptively compressed exchange operator

`src/xc/exx/exactExchange.c`: the exact exchange operator applied directly
(`evaluate_exact_exchange_potential`), the construction of its compression
(`solving_for_Xi`, `solve_half_local_poissons_equation_apply2Xi`,
`solve_allpair_poissons_equation_apply2Xi`, `transfer_orbitals_blacscomm`,
`calculate_ACE_operator`), its application (`evaluate_exact_exchange_potential_ACE`) and the energy.

Simplifications: arithmetic in `ℝ`; one spin channel (the loops over `spinor` shift the pointers);
the grid is not divided (`dmcomm` of one process), so an orbital is a function of the grid point and
`poissonSolve` is a function `pois` of one right-hand side, applied to every column (its columns do
not interact: `pois_fft` 906-950, `pois_kron` 865-900); leading dimensions are left out, a block of
orbitals being a function of the column; `dpotrf` is an argument. The processes are those of
`blacscomm`, numbered `0 … P-1`. -/

namespace Sparc.Ace

/-- A function on the grid. -/
abbrev Col := ℕ → ℝ

/-- The threshold `1e-6` on occupations. -/
noncomputable def tol : ℝ := 1 / 10 ^ 6

/-- What the functions read. `psi r j` is the orbital in column `j` of process `r`; `memBatch` is
`ExxMemBatch`, `npNd` the size of `dmcomm`; `junk` is what freshly allocated storage contains. -/
structure Inp where
  Ns : ℕ
  P : ℕ
  Nocc : ℕ
  Nd : ℕ
  occ : ℕ → ℝ
  psi : ℕ → ℕ → Col
  pois : Col → Col
  dV : ℝ
  memBatch : ℕ
  npNd : ℕ
  junk : ℕ → ℕ → Col

/-- `parallelization.c` 416-417, the same as `Nband_source` at 1505 and the counts at 1454-1455:
bands held by process `r`. -/
def Inp.nb (I : Inp) (r : ℕ) : ℕ := Groups.bandCount I.Ns I.P r

/-- `parallelization.c` 421-427: `band_start_indx` of process `r`. -/
def Inp.start (I : Inp) (r : ℕ) : ℕ := Groups.bandStart I.Ns I.P r

/-- `exactExchange.c` 1506: `band_start_indx_source`. -/
def Inp.startSrc (I : Inp) (q : ℕ) : ℕ := q * Groups.bandNB I.Ns I.P

/-- `exactExchange.c` 1042-1053: the number of columns of `Xi`, with `extra` the number
`EeeAceValState` of further states (one spin channel). -/
noncomputable def nstatesOcc (Ns : ℕ) (occ : ℕ → ℝ) (extra : ℕ) : ℕ :=
  let temp := (List.range Ns).foldl (fun n i => if tol < occ i then n + 1 else n) 0
  min (temp + extra) Ns

/-- `exactExchange.c` 1086-1090: `Nband_bandcomm_M`. -/
def Inp.nbM (I : Inp) (r : ℕ) : ℕ :=
  if I.Nocc < I.start r then 0 else min (I.nb r) (I.Nocc - I.start r)

/-- `exactExchange.c` 684-799: `poissonSolve` on the first `ncol` columns; the others are left as
allocated. -/
def Inp.poissonSolve (I : Inp) (rhs : ℕ → Col) (ncol : ℕ) : ℕ → Col := fun c =>
  if c < ncol then I.pois (rhs c) else I.junk 0 c

/-- `exactExchange.c` 1370-1424, 1534-1594 (and 410-441): the right-hand sides are treated in
batches; `rhs` forms one of them, `app` applies a solution. A write outside an array is `none`. -/
def Inp.batches {S : Type} (I : Inp) (pairs : List (ℕ × ℕ)) (rhs : ℕ × ℕ → Col)
    (app : S → ℕ × ℕ → Col → Option S) (x : S) : Option S :=
  let num := pairs.length
  if num = 0 then some x else
  let bs := if I.memBatch = 0 then num else I.memBatch * I.npNd
  let NL := (num - 1) / bs + 1
  (List.range NL).foldlM (fun x loop =>
    let base := bs * loop
    let cnt := min (bs * (loop + 1)) num - base
    let sol := I.poissonSolve (fun c => rhs (pairs.getD (base + c) (0, 0))) cnt
    (List.range cnt).foldlM (fun x c => app x (pairs.getD (base + c) (0, 0)) (sol c)) x) x

/-- `Xi[k + a*ldxi] -= o * u[k] * sol[k] / dV` for all `k`; the array has `Nstates_occ` columns. -/
noncomputable def Inp.sub (I : Inp) (Xi : ℕ → Col) (a : ℕ) (o : ℝ) (u sol : Col) : Option (ℕ → Col) :=
  if a < I.Nocc then
    some (Function.update Xi a (fun k => Xi a k - o * u k * sol k / I.dV))
  else none

/-- `exactExchange.c` 1350-1358: the pairs of local orbitals. -/
noncomputable def Inp.localPairs (I : Inp) (r : ℕ) : List (ℕ × ℕ) :=
  (List.range (I.nb r)).flatMap fun j =>
    if I.occ (j + I.start r) < tol then [] else
      (List.range' j (I.nbM r - j)).map fun i => (i, j)

/-- `exactExchange.c` 1328-1435: `solve_half_local_poissons_equation_apply2Xi` on process `r`, with
`Xi` the whole array (the code passes the pointer to column `band_start_indx`, line 1151). -/
noncomputable def Inp.halfLocal (I : Inp) (r : ℕ) (Xi : ℕ → Col) : Option (ℕ → Col) :=
  if I.nbM r = 0 then some Xi else
  I.batches (I.localPairs r) (fun p => fun k => I.psi r p.2 k * I.psi r p.1 k)
    (fun Xi p sol =>
      let i := p.1
      let j := p.2
      let occi := I.occ (i + I.start r)
      let occj := I.occ (j + I.start r)
      (I.sub Xi (I.start r + i) occj (I.psi r j) sol).bind fun Xi =>
        if i ≠ j ∧ tol < occi then I.sub Xi (I.start r + j) occi (I.psi r i) sol else some Xi) Xi

/-- `exactExchange.c` 1154, 1485: number of rotations. -/
def Inp.reps (I : Inp) : ℕ := if I.P = 1 then 0 else (I.P - 2) / 2 + 1

/-- `exactExchange.c` 1503: the process whose orbitals are used in rotation `shift`. -/
def Inp.source (I : Inp) (r shift : ℕ) : ℕ := (r + I.P - shift) % I.P

/-- `exactExchange.c` 1512-1523: the pairs with the orbitals of process `q`. -/
noncomputable def Inp.remotePairs (I : Inp) (r q : ℕ) : List (ℕ × ℕ) :=
  (List.range (I.nb q)).flatMap fun j =>
    let occj := I.occ (j + I.startSrc q)
    (List.range (I.nbM r)).flatMap fun i =>
      let occi := I.occ (i + I.start r)
      if occj < tol ∧ (occi < tol ∨ I.Nocc ≤ j + I.startSrc q) then [] else [(i, j)]

/-- `exactExchange.c` 1473-1605: `solve_allpair_poissons_equation_apply2Xi` on process `r` with the
orbitals `sto`. -/
noncomputable def Inp.allPair (I : Inp) (r shift : ℕ) (sto : ℕ → Col) (Xi : ℕ → Col) :
    Option (ℕ → Col) :=
  if I.P % 2 = 0 ∧ I.P / 2 ≤ r ∧ shift = (I.P - 2) / 2 + 1 then some Xi else
  if I.nbM r = 0 then some Xi else
  let q := I.source r shift
  I.batches (I.remotePairs r q) (fun p => fun k => sto p.2 k * I.psi r p.1 k)
    (fun Xi p sol =>
      let i := p.1
      let j := p.2
      let occi := I.occ (i + I.start r)
      let occj := I.occ (j + I.startSrc q)
      (if tol < occj then I.sub Xi (I.start r + i) occj (sto j) sol else some Xi).bind fun Xi =>
        if tol < occi then I.sub Xi (I.startSrc q + j) occi (I.psi r i) sol else some Xi) Xi

/-- `exactExchange.c` 1440-1467: `transfer_orbitals_blacscomm` on all processes: process `r` sends
`Nband_send` columns to `r + 1` and receives at most `Nband_recv` from `r - 1`. A longer message is an
error. -/
def Inp.transfer (I : Inp) (shift : ℕ) (send recv : ℕ → ℕ → Col) : Option (ℕ → ℕ → Col) :=
  let nsend := fun r => I.nb ((r + I.P - shift) % I.P)
  let nrecv := fun r => I.nb ((r + I.P - shift - 1) % I.P)
  let left := fun r => (r + I.P - 1) % I.P
  if ∀ r < I.P, nsend (left r) ≤ nrecv r then
    some fun r j => if j < nsend (left r) then send (left r) j else recv r j
  else none

/-- The storages and the arrays `Xi` of all processes. -/
structure St where
  st1 : ℕ → ℕ → Col
  st2 : ℕ → ℕ → Col
  xi : ℕ → ℕ → Col

/-- All processes run `f`. -/
def Inp.each (I : Inp) (f : ℕ → Option (ℕ → Col)) : Option (ℕ → ℕ → Col) :=
  (List.range I.P).foldlM (fun (X : ℕ → ℕ → Col) r => (f r).map fun x => Function.update X r x)
    (fun _ _ _ => 0)

/-- `exactExchange.c` 1172-1205: one pass of the loop over `rep`. -/
noncomputable def Inp.rotation (I : Inp) (s : St) (rep : ℕ) : Option St :=
  if rep = 0 then
    (if 0 < I.reps then I.transfer rep I.psi s.st1 else some s.st1).bind fun st1 =>
      (I.each fun r => I.halfLocal r (s.xi r)).bind fun xi => some ⟨st1, s.st2, xi⟩
  else
    let buf := if rep % 2 = 1 then s.st1 else s.st2
    let other := if rep % 2 = 1 then s.st2 else s.st1
    (if rep ≠ I.reps then I.transfer rep buf other else some other).bind fun other =>
      (I.each fun r => I.allPair r rep (buf r) (s.xi r)).bind fun xi =>
        some (if rep % 2 = 1 then ⟨buf, other, xi⟩ else ⟨other, buf, xi⟩)

/-- `exactExchange.c` 1137-1227: `solving_for_Xi`; the result is the same on all processes after the
sum at 1221. -/
noncomputable def Inp.solvingForXi (I : Inp) : Option (ℕ → Col) := do
  let s ← (List.range (I.reps + 1)).foldlM I.rotation ⟨I.junk, I.junk, fun _ _ _ => 0⟩
  pure fun a k => ((List.range I.P).map fun r => s.xi r a k).sum

/-- `exactExchange.c` 1017-1018: `recvcounts` and `displs` of `gather_blacscomm`, in columns. -/
def Inp.gatherCount (I : Inp) (Ncol i : ℕ) : ℕ :=
  let NB := Groups.bandNB I.Ns I.P
  if i < Ncol / NB then NB else if i = Ncol / NB then Ncol % NB else 0

def Inp.gatherDispl (I : Inp) (Ncol : ℕ) : ℕ → ℕ
  | 0 => 0
  | i + 1 => I.gatherDispl Ncol i + I.gatherCount Ncol i

/-- `exactExchange.c` 998-1028: `gather_blacscomm`: the block of process `i` is taken from its own
buffer, in place. -/
def Inp.gather (I : Inp) (Ncol : ℕ) (buf : ℕ → ℕ → Col) : ℕ → Col :=
  if 1 < I.P then
    (List.range I.P).foldl (fun v i => fun c =>
      if I.gatherDispl Ncol i ≤ c ∧ c < I.gatherDispl Ncol i + I.gatherCount Ncol i then buf i c
      else v c) (buf 0)
  else buf 0

/-- `sum_k u[k] v[k]` over the grid, as `dgemm` forms it. -/
def Inp.dot (I : Inp) (u v : Col) : ℝ := ((List.range I.Nd).map fun k => u k * v k).sum

/-- `exactExchange.c` 1259-1268: the matrix `M`, column `b` holding `Xi' psi_b`. -/
def Inp.matM (I : Inp) (Xi : ℕ → Col) : ℕ → Col :=
  I.gather I.Nocc fun r c a =>
    if I.start r ≤ c ∧ c < I.start r + I.nbM r then I.dot (Xi a) (I.psi r (c - I.start r))
    else I.junk r c a

/-- `exactExchange.c` 1311-1312: `dtrsm` from the right with an upper triangular matrix, in place,
column after column. `U b a` is the entry in row `a` of column `b`. -/
noncomputable def trsm (n : ℕ) (U : ℕ → Col) (B : ℕ → Col) : ℕ → Col :=
  (List.range n).foldl (fun B j =>
    Function.update B j fun k =>
      (B j k - ((List.range j).map fun i => B i k * U j i).sum) / U j j) B

/-- `exactExchange.c` 1229-1322: `calculate_ACE_operator`; `potrf` returns what `dpotrf` leaves in the
matrix (its `info` is not looked at). -/
noncomputable def Inp.calculateACE (I : Inp) (potrf : (ℕ → Col) → ℕ → Col) (Xi : ℕ → Col) : ℕ → Col :=
  let M := I.matM Xi
  let A := fun b a => -1 * M b a
  trsm I.Nocc (potrf A) Xi

/-- `exactExchange.c` 1101-1134: `ACE_operator`. -/
noncomputable def Inp.aceOperator (I : Inp) (potrf : (ℕ → Col) → ℕ → Col) : Option (ℕ → Col) :=
  I.solvingForXi.map (I.calculateACE potrf)

/-- `exactExchange.c` 463-500: `evaluate_exact_exchange_potential_ACE` on one column. -/
def Inp.applyACE (I : Inp) (frac : ℝ) (Xi : ℕ → Col) (X Hx : Col) : Col :=
  let c := fun a => I.dot (Xi a) X
  fun k => Hx k + -frac * ((List.range I.Nocc).map fun a => Xi a k * c a).sum

/-- `exactExchange.c` 374-448: `evaluate_exact_exchange_potential` on `ncol` columns with all the
orbitals in `outer`. -/
noncomputable def Inp.applyExx (I : Inp) (frac : ℝ) (outer : ℕ → Col) (ncol : ℕ) (X : ℕ → Col)
    (Hx : ℕ → Col) : Option (ℕ → Col) :=
  let pairs := (List.range ncol).flatMap fun i => (List.range I.Ns).flatMap fun j =>
    if tol < I.occ j then [(i, j)] else []
  I.batches pairs (fun p => fun k => outer p.2 k * X p.1 k)
    (fun Hx p sol =>
      let occAlpha := I.occ p.2 * frac
      some (Function.update Hx p.1 fun k => Hx p.1 k - occAlpha * outer p.2 k * sol k / I.dV)) Hx

/-- `exactExchange.c` 971-974: `psi_outer` after the gather. -/
def Inp.psiOuter (I : Inp) : ℕ → Col :=
  I.gather I.Ns fun r c =>
    if I.start r ≤ c ∧ c < I.start r + I.nb r then I.psi r (c - I.start r) else I.junk r c

/-- `exactExchange.c` 558-618: the contribution of process `r` to the energy without ACE. The filter
uses `occ_outer[i]` with the local index, as the code does (563). -/
noncomputable def Inp.energyRank (I : Inp) (r : ℕ) : Option ℝ :=
  let outer := I.psiOuter
  let pairs := (List.range (I.nb r)).flatMap fun i => (List.range I.Ns).flatMap fun j =>
    if tol < I.occ i + I.occ j then [(i, j)] else []
  let rhs := fun p : ℕ × ℕ => fun k => outer p.2 k * I.psi r p.1 k
  (I.batches pairs rhs
    (fun (E : ℝ) p sol =>
      let occi := I.occ (p.1 + I.start r)
      let occj := I.occ p.2
      some (E + occi * occj * I.dot (rhs p) sol)) 0).map (· / I.dV)

/-- `exactExchange.c` 621-657: the contribution of process `r` to the energy with ACE. -/
def Inp.energyRankACE (I : Inp) (Xi : ℕ → Col) (r : ℕ) : ℝ :=
  (List.range (I.nbM r)).foldl (fun E i =>
    let temp := ((List.range I.Nocc).map fun j => I.dot (I.psi r i) (Xi j) * I.dot (I.psi r i) (Xi j)).sum
    E + temp * I.occ (i + I.start r)) 0

/-- `exactExchange.c` 663-672: the sum over the processes, without ACE. -/
noncomputable def Inp.energy (I : Inp) (Nspin : ℕ) (frac : ℝ) : Option ℝ := do
  let es ← (List.range I.P).mapM I.energyRank
  pure (es.sum / Nspin * -frac)

/-- `exactExchange.c` 663-672: the sum over the processes, with ACE. -/
noncomputable def Inp.energyACE (I : Inp) (Xi : ℕ → Col) (Nspin : ℕ) (frac : ℝ) : ℝ :=
  ((List.range I.P).map (I.energyRankACE Xi)).sum / Nspin * -frac

end Sparc.Ace

import Verif.Occ.Erf
import Verif.Brent.Model
import Verif.Groups.Model

/-!
# Occupations, Fermi level and electronic entropy (model)

`/repo/src/occupation.c` and `/repo/src/energy.c:241-324`.  `double` is replaced by `ℝ`;
arrays are functions of their flat index; the loops are kept as loops.
-/

namespace Sparc.Occ

open Real

/-- `smearing_function`, occupation.c:31-36 (`type` nonzero is Gaussian). -/
noncomputable def smearing (beta lambda lambdaF : ℝ) (type : ℕ) : ℝ :=
  if type ≠ 0 then 1 / 2 * (1 - erf (beta * (lambda - lambdaF)))
  else 1 / (1 + exp (beta * (lambda - lambdaF)))

/-- The fields of `pSPARC` read by the constraint. -/
structure Sys where
  beta : ℝ
  type : ℕ
  nspin : ℕ
  /-- `Nkpts_sym` -/
  nkSym : ℕ
  /-- `Nkpts` -/
  nk : ℕ
  /-- `Nstates` -/
  ns : ℕ
  occfac : ℝ
  kptWts : ℕ → ℝ
  negCharge : ℝ

/-- Innermost loop of `local_occ_constraint`, occupation.c:457-460: accumulator and `count`. -/
noncomputable def bandLoop (S : Sys) (lam : ℕ → ℝ) (lf w : ℝ) (st : ℝ × ℕ) : ℝ × ℕ :=
  (List.range S.ns).foldl
    (fun (p : ℝ × ℕ) _ => (p.1 + w * smearing S.beta (lam p.2) lf S.type, p.2 + 1)) st

/-- Loop over k-points, occupation.c:454-461. -/
noncomputable def kptLoop (S : Sys) (lam : ℕ → ℝ) (lf : ℝ) (st : ℝ × ℕ) : ℝ × ℕ :=
  (List.range S.nkSym).foldl (fun (p : ℝ × ℕ) k => bandLoop S lam lf (S.occfac * S.kptWts k) p) st

/-- `local_occ_constraint`, occupation.c:445-466. -/
noncomputable def constraint (S : Sys) (lam : ℕ → ℝ) (lf : ℝ) : ℝ :=
  let g := ((List.range S.nspin).foldl (fun (p : ℝ × ℕ) _ => kptLoop S lam lf p) ((0 : ℝ), 0)).1
  g * (1 / S.nk) + S.negCharge

/-- `kptBridgeCounts[i]`, occupation.c:121. -/
def bridgeCount (Nk np Ns i : ℕ) : ℕ := (Nk / np + (if i < Nk % np then 1 else 0)) * Ns

/-- `kptBridgeDispls[i]`, occupation.c:119-124. -/
def bridgeDispl (Nk np Ns : ℕ) : ℕ → ℕ
  | 0 => 0
  | i + 1 => bridgeDispl Nk np Ns i + bridgeCount Nk np Ns i

/-- `MPI_Allgatherv` into an array: rank `i`'s first `count i` entries at `displ i`; entries
outside every segment keep their old value. -/
def allgatherv (np : ℕ) (count displ : ℕ → ℕ) (send : ℕ → ℕ → ℝ) (old : ℕ → ℝ) : ℕ → ℝ :=
  (List.range np).foldl (fun (acc : ℕ → ℝ) i => fun x =>
    if displ i ≤ x ∧ x < displ i + count i then send i (x - displ i) else acc x) old

/-- `MPI_Allgather` with a common count. -/
def allgather (np count : ℕ) (send : ℕ → ℕ → ℝ) (old : ℕ → ℝ) : ℕ → ℝ :=
  allgatherv np (fun _ => count) (fun i => i * count) send old

/-- `collect_all_lambda`, occupation.c:108-173, on the k-point branch (lines 133-153).
`lambda s k` is the local eigenvalue array of the process in spin group `s` and k-point group
`k`; `nspinLoc` is `Nspin_spincomm`.  `theSpinLambdaArray` and the result start as `old`. -/
def collect (Nk np Ns npspin nspinLoc : ℕ) (lambda : ℕ → ℕ → ℕ → ℝ) (mySpin : ℕ) (old : ℕ → ℝ) : ℕ → ℝ :=
  let spinArr : ℕ → ℕ → ℝ := fun s =>
    allgatherv np (bridgeCount Nk np Ns) (bridgeDispl Nk np Ns) (fun k => lambda s k) old
  if nspinLoc = 1 then allgather npspin (Ns * Nk) spinArr old
  else if nspinLoc = 2 then
    (List.range nspinLoc).foldl (fun (acc : ℕ → ℝ) sp =>
      allgatherv np (bridgeCount Nk np Ns) (fun i => sp * (Ns * Nk) + bridgeDispl Nk np Ns i)
        (fun k j => lambda mySpin k (sp * (Ns * Groups.kptCount Nk np k) + j)) acc) old
  else old

/-- The Fermi level, `local_Calculate_FermiLevel` (occupation.c:291-408). -/
noncomputable def fermiLevel (S : Sys) (lam : ℕ → ℝ) (tol : ℝ) (maxIter : ℕ) (x1 x2 : ℝ) : Brent.Out :=
  Brent.fermiSearch (constraint S lam) tol maxIter x1 x2

/-- `TEMP_TOL`, energy.c:35. -/
noncomputable def tempTol : ℝ := 1 / 10 ^ 14

/-- `Calculate_entropy_term`, energy.c:293-324, for the states `0..ns-1`. -/
noncomputable def entropyTerm (ns : ℕ) (beta : ℝ) (type : ℕ) (lambda occ : ℕ → ℝ) (lf : ℝ) : ℝ :=
  if type = 0 then (List.range ns).foldl (fun (acc : ℝ) n =>
      if occ n > tempTol ∧ 1 - occ n > tempTol then
        acc + -(occ n * log (occ n) + (1 - occ n) * log (1 - occ n)) else acc) 0
  else if type = 1 then (List.range ns).foldl (fun (acc : ℝ) n =>
      acc + 1 / 2 / √π * exp (-(beta * (lambda n - lf)) * (beta * (lambda n - lf)))) 0
  else 0

/-- `Calculate_electronicEntropy`, energy.c:241-269, before the sums over process groups
(`Nspin` spins and `nkLoc` k-points of this process with weights `wts`). -/
noncomputable def entropyLocal (nspin nkLoc ns nk : ℕ) (beta occfac : ℝ) (type : ℕ) (wts : ℕ → ℝ)
    (lambda occ : ℕ → ℝ) (lf : ℝ) : ℝ :=
  let e := (List.range nspin).foldl (fun (acc : ℝ) s =>
    (List.range nkLoc).foldl (fun (acc : ℝ) k =>
      acc + entropyTerm ns beta type (fun n => lambda (n + k * ns + s * nkLoc * ns))
        (fun n => occ (n + k * ns + s * nkLoc * ns)) lf * wts k) acc) 0
  e * (-occfac / (nk * beta))

end Sparc.Occ

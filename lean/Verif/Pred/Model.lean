import Verif.Kern.Model

/-!
# Energy, forces and stress of the machine-learned force field

Model of the distribution of the atoms (`/repo/src/mlff/sparc_mlff_interface.c` 158-194), of the scales of
`mlff_train_Bayesian` (`regression.c` 179-183), of `mlff_predict` (`regression.c` 817-937), of
`sparc_mlff_interface_predict` (`sparc_mlff_interface.c` 1580-1610), and of what `MLFF_train_predict` and
`MLFF_only_predict` do with a prediction (`sparc_mlff_interface.c` 1089-1107, 1153-1168).

Simplifications: real arithmetic; all three directions periodic (`BC` 2, `cell_typ < 20`), where
`reshape_stress` (1771-1788) leaves the order of the six entries; estimates of errors are left out.
-/

namespace Sparc.Pred
open Finset Sparc.Kern

/-- Trained quantities: `weights`, `mu_E`, `std_E`, `std_F`, `std_stress`, `relative_scale_F`, `relative_scale_stress`,
and `internal_energy_model_weights` if `mlff_internal_energy_flag` is set. -/
structure Par where
  w : ℕ → ℝ
  muE : ℝ
  sE : ℝ
  sF : ℝ
  sS : ℕ → ℝ
  relF : ℝ
  relS : ℕ → ℝ
  internal : Option (ℝ × ℝ)

variable {m : ℕ}

/-- `natom_procs` (sparc_mlff_interface.c 159-168). -/
def procs (N P p : ℕ) : ℕ := if p < N % P then N / P + 1 else N / P

/-- `strt` (sparc_mlff_interface.c 182-189). -/
def strt (N P p : ℕ) : ℕ := ∑ i ∈ range p, procs N P i

/-- `atom_idx_domain` (sparc_mlff_interface.c 191-192). -/
def domain (N P p : ℕ) : List ℕ := (List.range (procs N P p)).map fun i => strt N P p + i

/-- The scales of the rows (regression.c 179-183; covariance_matrix.c 875-880). -/
noncomputable def scaled (T : Par) (S : Sys m) : Sys m :=
  { S with Fs := T.sE / T.sF * T.relF, Ss := fun s => T.sE / T.sS s * T.relS s }

/-- `b_predict` (regression.c 858-861). -/
noncomputable def bPredict (T : Par) (S : Sys m) (p r : ℕ) : ℝ :=
  ∑ j ∈ range S.ncols, (scaled T S).predict p r j * T.w j

/-- `E[0]` on the first process (regression.c 917). -/
noncomputable def energy (T : Par) (S : Sys m) : ℝ := bPredict T S 0 0 * T.sE + T.muE

/-- `stress` on the first process (regression.c 918-920). -/
noncomputable def stress (T : Par) (S : Sys m) (s : ℕ) : ℝ := bPredict T S 0 (1 + s) * T.sS s * (1 / T.relS s)

/-- `F` of a process (regression.c 921-925, 931-935). -/
noncomputable def localF (T : Par) (S : Sys m) (p n : ℕ) : ℝ :=
  if p = 0 then bPredict T S p (n + 1 + S.slen) * T.sF * (1 / T.relF) else bPredict T S p n * T.sF * (1 / T.relF)

/-- `displs` (sparc_mlff_interface.c 1586-1603). -/
def displs (S : Sys m) : ℕ → ℕ
  | 0 => 0
  | p + 1 => displs S p + (S.dom p).length * 3

/-- `F_predict` (sparc_mlff_interface.c 1610): place `n` receives from the process whose block covers it. -/
noncomputable def gathered (T : Par) (S : Sys m) (n : ℕ) : ℝ :=
  ∑ p ∈ range S.nproc, if displs S p ≤ n ∧ n < displs S p + (S.dom p).length * 3 then localF T S p (n - displs S p) else 0

/-- What the program goes on with: `Etot`, `forces`, the six entries of `stress`, `pres`, `Entropy`
(`none`: the value of a variable never written). -/
structure Out where
  etot : ℝ
  forces : ℕ → ℝ
  stress : ℕ → ℝ
  pres : ℝ
  entropy : Option ℝ

/-- `MLFF_train_predict` when it keeps the prediction (on-the-fly mode, sparc_mlff_interface.c 1089-1107); `old` is the state before. -/
noncomputable def onTheFly (T : Par) (S : Sys m) (old : Out) : Out :=
  let st := if S.press = false then fun i => if i < S.slen then stress T S i else old.stress i else old.stress
  let etot := energy T S * S.natom
  { etot := etot
    forces := fun n => -1 * gathered T S n
    stress := st
    pres := if S.press = false then -1 / 3 * (st 0 + st 3 + st 5) else stress T S 0
    entropy := T.internal.map fun c => etot - (etot * c.2 + c.1) }

/-- `MLFF_only_predict` (sparc_mlff_interface.c 1153-1168): the two cases of line 1160 are the other way round. -/
noncomputable def onlyPredict (T : Par) (S : Sys m) (old : Out) : Out :=
  let st := if S.press then fun i => if i < S.slen then stress T S i else old.stress i else old.stress
  { etot := energy T S * S.natom
    forces := fun n => -1 * gathered T S n
    stress := st
    pres := if S.press then -1 / 3 * (st 0 + st 3 + st 5) else stress T S 0
    entropy := old.entropy }

end Sparc.Pred

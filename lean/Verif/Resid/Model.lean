import Verif.Pred.Model

/-!
# The linear system of the training of the machine-learned force field

Model of the scaling in `mlff_train_Bayesian` (`/repo/src/mlff/regression.c` 179-217) and of the rows that `add_newstr_rows`
stores (`/repo/src/mlff/covariance_matrix.c` 702-807): those of `calculate_Kpredict` without scales.

Simplifications: real arithmetic; in `kTrain` all structures have the same number of atoms on a process, as
regression.c 194 supposes; structures read from a file need not (sparc_mlff_interface.c 682-752).
-/

namespace Sparc.Resid
open Finset Sparc.Kern Sparc.Pred

variable {m : ℕ}

/-- Rows without scales (covariance_matrix.c 706-774). -/
noncomputable def plain (S : Sys m) : Sys m := { S with Fs := 1, Ss := fun _ => 1 }

/-- Number of rows of a structure on a process (covariance_matrix.c 816-820). -/
def rows (S : Sys m) (p : ℕ) : ℕ := if p = 0 then 3 * (S.dom p).length + 1 + S.slen else 3 * (S.dom p).length

/-- `K_train[i][j]` (covariance_matrix.c 778-806) from the structures `str`, rows of one after those of the other. -/
noncomputable def kTrain (str : ℕ → Sys m) (p i j : ℕ) : ℝ :=
  (plain (str (i / rows (str 0) p))).predict p (i % rows (str 0) p) j

/-- `scale` (regression.c 192-204, 214). -/
noncomputable def scale (T : Par) (S : Sys m) (p i : ℕ) : ℝ :=
  if p = 0 then
    let quot := i % (1 + S.slen + 3 * (S.dom p).length)
    if quot = 0 then 1
    else if 0 < quot ∧ quot < 1 + S.slen then T.sE / T.sS (quot - 1) * T.relS (quot - 1)
    else T.sE / T.sF * T.relF
  else T.sE / T.sF * T.relF

/-- `a_scaled` (regression.c 207, 214). -/
noncomputable def aScaled (T : Par) (str : ℕ → Sys m) (p i j : ℕ) : ℝ := scale T (str 0) p i * kTrain str p i j

/-- `b_scaled` of the data `b_no_norm` (regression.c 197, 200, 203, 212). -/
noncomputable def bScaled (T : Par) (S : Sys m) (b : ℕ → ℝ) (p i : ℕ) : ℝ :=
  if p = 0 then
    let quot := i % (1 + S.slen + 3 * (S.dom p).length)
    if quot = 0 then 1 / T.sE * (b i - T.muE)
    else if 0 < quot ∧ quot < 1 + S.slen then 1 / T.sS (quot - 1) * b i * T.relS (quot - 1)
    else 1 / T.sF * b i * T.relF
  else 1 / T.sF * b i * T.relF

/-- Residual of a row of the system with the weights. -/
noncomputable def residual (T : Par) (str : ℕ → Sys m) (b : ℕ → ℝ) (p i : ℕ) : ℝ :=
  ∑ j ∈ range (str 0).ncols, aScaled T str p i j * T.w j - bScaled T (str 0) b p i

end Sparc.Resid

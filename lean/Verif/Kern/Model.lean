import Verif.Tac
import Mathlib.Analysis.SpecialFunctions.Pow.Real
import Mathlib.Data.Fin.VecNotation

/-!
# Kernel of the machine-learned force field and the rows of a prediction

Model of `calculate_polynomial_kernel_ij`, `calculate_zit` and `calculate_Kpredict`
(`/repo/src/mlff/covariance_matrix.c` 46-105, 120-164, 856-1059).

Simplifications: real arithmetic.  An array that is added to is the function from places to the sum of
what is added there.  The descriptors and their derivatives are given.
-/

namespace Sparc.Kern
open Finset

/-- What the functions read: numbers of atoms, columns, stress entries; the atoms of every process
(`atom_idx_domain`); elements of atoms and columns; descriptors of atoms (`X3`) and columns
(`X3_traindataset`); `xi_3`; `unique_neighborList`; derivatives of the descriptor of an atom, slot 0 for
the atom itself and `1 + n` for its `n`-th neighbour (`dX3_dX/dY/dZ`), and those for strain (`dX3_dF`); scales and volume;
`mlff_pressure_train_flag`. -/
structure Sys (m : ℕ) where
  natom : ℕ
  ncols : ℕ
  slen : ℕ
  nproc : ℕ
  dom : ℕ → List ℕ
  el : ℕ → ℕ
  typ : ℕ → ℕ
  X : ℕ → Fin m → ℝ
  T : ℕ → Fin m → ℝ
  xi : ℝ
  nl : ℕ → List ℕ
  D : ℕ → ℕ → ℕ → Fin m → ℝ
  DF : ℕ → ℕ → Fin m → ℝ
  Fs : ℝ
  Ss : ℕ → ℝ
  vol : ℝ
  press : Bool

variable {m : ℕ}

/-- `dotProduct`. -/
def dot (u v : Fin m → ℝ) : ℝ := ∑ k, u k * v k

/-- `kernel_ij` (covariance_matrix.c 54-93; zero before, 909-915). -/
noncomputable def Sys.kernel (S : Sys m) (i j : ℕ) : ℝ :=
  if S.el i = S.typ j then
    (dot (fun k => S.X i k / √(dot (S.X i) (S.X i))) fun k => S.T j k / √(dot (S.T j) (S.T j))) ^ S.xi
  else 0

/-- `zit` (covariance_matrix.c 125-158; zero before, 917-926). -/
noncomputable def Sys.z (S : Sys m) (i j : ℕ) (k : Fin m) : ℝ :=
  if S.el i = S.typ j then
    S.T j k / dot (S.X i) (S.T j) - S.X i k / (√(dot (S.X i) (S.X i)) * √(dot (S.X i) (S.X i)))
  else 0

/-- What an atom adds at place `n` in the loop for the energy (covariance_matrix.c 931-938). -/
noncomputable def Sys.addE (S : Sys m) (i n : ℕ) : ℝ :=
  ∑ j ∈ range S.ncols, if S.typ j = S.el i then (if j = n then 1 / (S.natom : ℝ) * S.kernel i j else 0) else 0

/-- What an atom adds at place `n` in the loop for the forces (covariance_matrix.c 940-961). -/
noncomputable def Sys.addF (S : Sys m) (i n : ℕ) : ℝ :=
  ∑ j ∈ range S.ncols, if S.typ j = S.el i then
    ∑ c ∈ range 3,
      ((if (3 * i + 1 + c) * S.ncols + j = n then S.Fs * S.xi * S.kernel i j * dot (S.z i j) (S.D i 0 c) else 0) +
        ∑ q ∈ range (S.nl i).length,
          if (3 * (S.nl i)[q]! + 1 + c) * S.ncols + j = n then S.Fs * S.xi * S.kernel i j * dot (S.z i j) (S.D i (1 + q) c) else 0)
  else 0

/-- What an atom adds at place `n` in the loop for the stress or the pressure (covariance_matrix.c 964-991). -/
noncomputable def Sys.addS (S : Sys m) (i n : ℕ) : ℝ :=
  ∑ j ∈ range S.ncols, if S.typ j = S.el i then
    if S.press then
      ∑ q ∈ range 3, if (3 * S.natom + 1 + 0) * S.ncols + j = n then
        -(1 / 3 * (1 / S.vol) * S.Ss 0 * S.xi * S.kernel i j * dot (S.z i j) (S.DF i (![0, 3, 5] (Fin.ofNat 3 q)))) else 0
    else
      ∑ q ∈ range S.slen, if (3 * S.natom + 1 + q) * S.ncols + j = n then
        1 / S.vol * S.Ss q * S.xi * S.kernel i j * dot (S.z i j) (S.DF i q) else 0
  else 0

/-- `K_train_assembled` (covariance_matrix.c 997-1001). -/
noncomputable def Sys.assembled (S : Sys m) (n : ℕ) : ℝ :=
  ∑ p ∈ range S.nproc, ((S.dom p).map fun i => S.addE i n + S.addF i n + S.addS i n).sum

/-- Row of `K_train_assembled` that ends up in row `r` of `K_predict` on process `p`
(covariance_matrix.c 1003-1034), loops over rows inverted. -/
def Sys.rowOf (S : Sys m) (p r : ℕ) : ℕ :=
  if p = 0 then
    if r = 0 then 0
    else if r ≤ S.slen then 3 * S.natom + 1 + (r - 1)
    else 3 * (S.dom p)[(r - 1 - S.slen) / 3]! + 1 + (r - 1 - S.slen) % 3
  else 3 * (S.dom p)[r / 3]! + 1 + r % 3

/-- `K_predict[r][j]` on process `p` (covariance_matrix.c 1003-1034). -/
noncomputable def Sys.predict (S : Sys m) (p r j : ℕ) : ℝ := S.assembled (S.rowOf p r * S.ncols + j)

end Sparc.Kern

import Mathlib.Data.Real.Basic
import Mathlib.Algebra.Order.Field.Basic
import Mathlib.Logic.Function.Basic

/-!
# Finite-difference weights (model)

`fract` (`/repo/src/tools.c:726-735`) and the weight loops of `SPARC_copy_input`
(`/repo/src/initialization.c:2112-2143`).  `double` is replaced by the real numbers;
arrays are functions of the index.
-/

namespace Sparc.FD

/-- Product loop `for (i = first; i < first + k; i++) acc *= i`. -/
noncomputable def prodLoop (first : ℝ) (k : ℕ) : ℝ :=
  (List.range k).foldl (fun acc (j : ℕ) => acc * (first + j)) 1

/-- `fract(n,k)`, tools.c:726-735: `Nr` runs over `n-k+1 .. n`, `Dr` over `n+1 .. n+k`. -/
noncomputable def fract (n k : ℕ) : ℝ :=
  prodLoop ((n : ℝ) - k + 1) k / prodLoop ((n : ℝ) + 1) k

/-- the integer factor `2*(p%2)-1` -/
noncomputable def sgn (p : ℕ) : ℝ := 2 * ((p % 2 : ℕ) : ℝ) - 1

/-- `FDweights_D1`, initialization.c:2113-2116. -/
noncomputable def fdD1 (n : ℕ) : ℕ → ℝ :=
  (List.range' 1 n).foldl (fun a (p : ℕ) => Function.update a p (sgn p * fract n p / p))
    (Function.update (fun _ => 0) 0 0)

/-- `FDweights_D2`, initialization.c:2118-2122. -/
noncomputable def fdD2 (n : ℕ) : ℕ → ℝ :=
  (List.range' 1 n).foldl
    (fun a (p : ℕ) => Function.update (Function.update a 0 (a 0 - 2 / ((p : ℝ) * p))) p
      (sgn p * 2 * fract n p / ((p : ℝ) * p)))
    (Function.update (fun _ => 0) 0 0)

/-- `D1_stencil_coeffs_x/y/z`, initialization.c:2125-2133. -/
noncomputable def coefD1 (n : ℕ) (h : ℝ) (p : ℕ) : ℝ := fdD1 n p * (1 / h)

/-- `D2_stencil_coeffs_x/y/z` for an orthogonal cell, initialization.c:2136-2147. -/
noncomputable def coefD2 (n : ℕ) (h : ℝ) (p : ℕ) : ℝ := fdD2 n p * (1 / (h * h))

/-- How the first-derivative coefficients are applied (`Calc_DX` in
`/repo/src/gradVecRoutines.c`, the loop over `p` adding `(X[i+p]-X[i-p])*coef[p]`). -/
noncomputable def applyD1 (n : ℕ) (c : ℕ → ℝ) (u : ℤ → ℝ) (i : ℤ) : ℝ :=
  (List.range' 1 n).foldl (fun acc (p : ℕ) => acc + (u (i + p) - u (i - p)) * c p) 0

/-- How the second-derivative coefficients are applied (one direction of `stencil_3axis`,
`/repo/src/lapVecRoutines.c:140-175`). -/
noncomputable def applyD2 (n : ℕ) (c : ℕ → ℝ) (u : ℤ → ℝ) (i : ℤ) : ℝ :=
  (List.range' 1 n).foldl (fun acc (p : ℕ) => acc + (u (i - p) + u (i + p)) * c p) (u i * c 0)

end Sparc.FD

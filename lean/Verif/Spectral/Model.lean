import Verif.Tac
import Mathlib.Analysis.SpecialFunctions.Trigonometric.Basic
import Mathlib.Analysis.SpecialFunctions.Log.Basic

/-! # The spectral grid of the isolated-atom solver

`src/atom/spectralFunctionsAtom.c`: the Chebyshev grid with its differentiation matrix, the
Clenshaw-Curtis weights, and the gradient and Laplacian on the exponentially mapped radial grid;
`src/atom/electronicGroundStateAtom.c` 339-388, 414-448: two users of them.

Simplifications, here and below: arithmetic is in `ℝ` and `M_PI` is `π`; an array is a function
of its flat index (entries the code does not write are kept at an arbitrary value); a loop whose
iterations write different entries and read none of them is written as a function of the index. -/

namespace Sparc.Spectral

open Real

/-- `spectralFunctionsAtom.c` 82-85: the grid `r[i] = R cos(M_PI*i/N) + R`. -/
noncomputable def grid (N : ℕ) (R : ℝ) (i : ℕ) : ℝ :=
  let r := cos (π * i / N)
  R * r + R

/-- `spectralFunctionsAtom.c` 88-92: the coefficients `c`. -/
noncomputable def coef (N : ℕ) (i : ℕ) : ℝ :=
  (if i = 0 ∨ i = N then 2 else 1) * (-1) ^ i

/-- `spectralFunctionsAtom.c` 95-104: the first fill of `D`; the entry at `j*(N+1)+i` is row `i`
and column `j`, the diagonal is zero. -/
noncomputable def fill (N : ℕ) (R : ℝ) : ℕ → ℝ := fun m =>
  let i := m % (N + 1)
  let j := m / (N + 1)
  if i = j then 0 else
    let diff := grid N R i - grid N R j
    (coef N i / coef N j) / diff

/-- `spectralFunctionsAtom.c` 108-113: the sum of the off-diagonal entries of row `i`. -/
noncomputable def offSum (N : ℕ) (D : ℕ → ℝ) (i : ℕ) : ℝ :=
  (List.range (N + 1)).foldl (fun sum j => if i ≠ j then sum + D (j * (N + 1) + i) else sum) 0

/-- `spectralFunctionsAtom.c` 79-119: `chebD`, returning `D`; the loop over `i` at 107-115 puts the
diagonal entries in place one after the other. -/
noncomputable def chebD (N : ℕ) (R : ℝ) : ℕ → ℝ :=
  (List.range (N + 1)).foldl
    (fun D i => Function.update D (i * (N + 1) + i) (-offSum N D i)) (fill N R)

/-- `spectralFunctionsAtom.c` 131: `theta[i]`. -/
noncomputable def theta (N : ℕ) (i : ℕ) : ℝ := π * i / N

/-- `spectralFunctionsAtom.c` 140-163: the array `v`, indexed by the grid point `i` (the code's
entry is `i - 1`). -/
noncomputable def ccV (N : ℕ) : ℕ → ℝ :=
  if N % 2 = 0 then
    let v := (List.range (N / 2 - 1)).foldl (fun v (k' : ℕ) =>
      let k : ℝ := (k' : ℝ) + 1
      fun i => v i - 2 * cos (2 * k * theta N i) / (4 * k * k - 1)) (fun _ : ℕ => (1 : ℝ))
    fun i => v i - cos (N * theta N i) / (N * N - 1)
  else
    (List.range ((N - 1) / 2)).foldl (fun v (k' : ℕ) =>
      let k : ℝ := (k' : ℝ) + 1
      fun i => v i - 2 * cos (2 * k * theta N i) / (4 * k * k - 1)) (fun _ : ℕ => (1 : ℝ))

/-- `spectralFunctionsAtom.c` 126-171: `clencurt`. The end weights are set at 145-146, 156-157 and
the interior ones at 165-167. -/
noncomputable def clencurt (N : ℕ) : ℕ → ℝ := fun i =>
  if 1 ≤ i ∧ i ≤ N - 1 then 2 * ccV N i / N
  else if i = 0 ∨ i = N then
    if N % 2 = 0 then 1 / ((N : ℝ) * N - 1) else 1 / ((N : ℝ) * N)
  else 0

/-- What `set_grid_grad_lap` reads: `Nd`, `Rmax`, `alpha`, `beta`, `xmax`. -/
structure Params where
  Nd : ℕ
  Rmax : ℝ
  alpha : ℝ
  beta : ℝ
  xmax : ℝ

/-- `initializationAtom.c` 193: `xmax` from the others. -/
noncomputable def Params.mk' (Nd : ℕ) (Rmax alpha beta : ℝ) : Params :=
  ⟨Nd, Rmax, alpha, beta, alpha * (1 - exp (2 * beta * Rmax)) / 2⟩

/-- `initializationAtom.c` 184-190: the default parameters. -/
noncomputable def Params.default : Params := Params.mk' 400 20 1 (-0.45)

/-- What `set_grid_grad_lap` writes. -/
structure Out where
  x : ℕ → ℝ
  D : ℕ → ℝ
  w : ℕ → ℝ
  r : ℕ → ℝ
  intScale : ℕ → ℝ
  grad : ℕ → ℝ
  laplacian : ℕ → ℝ

/-- `spectralFunctionsAtom.c` 13-71: `set_grid_grad_lap`. -/
noncomputable def setGridGradLap (P : Params) : Out :=
  let N := P.Nd
  let x := grid N P.xmax
  let D := chebD N P.xmax
  let w := fun i => clencurt N i * P.xmax
  let r0 := fun i : ℕ => (1 / P.beta) * log (1 - x i / P.alpha)
  let r := Function.update r0 0 (2 * P.Rmax)
  let s := fun i : ℕ => -P.beta * (P.alpha - x i)
  let grad := fun m : ℕ => s (m % (N + 1)) * D m
  let lap := fun m : ℕ =>
    let i := m % (N + 1)
    let j := m / (N + 1)
    let D2 := (List.range (N + 1)).foldl (fun a k => a + D (k * (N + 1) + i) * D (j * (N + 1) + k)) 0
    (s i * s i) * D2 + P.beta * s i * D m
  ⟨x, D, w, r, s, grad, lap⟩

/-- `electronicGroundStateAtom.c` 344-355: the matrix of the Poisson equation, an `Nd` by `Nd`
column-major copy of the Laplacian (the last point, at the origin, is left out) whose first row is
replaced by that of the identity. -/
noncomputable def poissonMat (P : Params) : ℕ → ℝ := fun m =>
  let col := m / P.Nd
  let row := m % P.Nd
  if m = 0 then 1
  else if row = 0 then 0
  else (setGridGradLap P).laplacian (col * (P.Nd + 1) + row)

/-- `electronicGroundStateAtom.c` 357-368: the right-hand side of the Poisson equation, from the
density at the interior points (`rho[j]` belongs to the point `j + 1`). -/
noncomputable def poissonRhs (P : Params) (rho : ℕ → ℝ) (Znucl : ℝ) : ℕ → ℝ := fun j =>
  if j = 0 then Znucl
  else -4 * π * (setGridGradLap P).r j * rho (j - 1)

/-- `electronicGroundStateAtom.c` 423-448: the radial derivative of the density at the interior
points: `(D*(r rho) - rho)/r` with the interior block of the gradient matrix. One spin column. -/
noncomputable def drho (P : Params) (rho : ℕ → ℝ) : ℕ → ℝ := fun i =>
  let o := setGridGradLap P
  let rRho := fun i => o.r (i + 1) * rho i
  let n := P.Nd - 1
  let prod := (List.range n).foldl (fun a j => a + o.grad ((i + 1) + (j + 1) * (P.Nd + 1)) * rRho j) 0
  (prod - rho i) / o.r (i + 1)

/-- The integral of a function known at the interior points, as `initializationAtom.c` 132,
`electronicGroundStateAtom.c` 1281 and `finalizeAtom.c` 294-317 compute it:
`sum_jj (w[jj+1]/int_scale[jj+1]) * f[jj]`. -/
noncomputable def radialSum (P : Params) (f : ℕ → ℝ) : ℝ :=
  let o := setGridGradLap P
  (List.range (P.Nd - 1)).foldl (fun a jj => a + (o.w (jj + 1) / o.intScale (jj + 1)) * f jj) 0

end Sparc.Spectral

import Mathlib.Analysis.RCLike.Basic
import Mathlib.Analysis.SpecialFunctions.Trigonometric.Basic

/-!
# Kronecker-product Laplacian (model)

`/repo/src/kroneckerLaplacian.c:39-372`.  Arrays are functions from addresses (`ℤ` where the code may leave the
array, else `ℕ`) to numbers; `𝕜` is `ℝ` for the real and `ℂ` for the complex routines.  Arithmetic is exact.
`dgemm`/`zgemm` are modelled by their documented effect on memory and `dsyev`/`zheev` are parameters.
The `USE_MKL` variants (from line 374 on) are left out.
-/

namespace Sparc.Kron

open ComplexConjugate

variable {𝕜 : Type} [RCLike 𝕜]

/-! ## One-dimensional matrices -/

/-- `x[a] = v`. -/
def put (m : ℤ → 𝕜) (a : ℤ) (v : 𝕜) : ℤ → 𝕜 := fun b => if b = a then v else m b

/-- The loop `for (j = lo; j <= hi; j++)`. -/
def cols (lo hi : ℤ) : List ℤ := (List.range (hi + 1 - lo).toNat).map fun (t : ℕ) => lo + (t : ℤ)

/-- `Lap_1D_Dirichlet`, kroneckerLaplacian.c:133-145, into the zeroed array of line 121. -/
def lapDirichlet (F : ℕ) (w : ℕ → ℝ) (N : ℕ) : ℤ → 𝕜 :=
  (List.range N).foldl (fun (m : ℤ → 𝕜) (i : ℕ) =>
    (cols (max 0 ((i : ℤ) - F)) (min ((N : ℤ) - 1) (i + F))).foldl (fun (m : ℤ → 𝕜) (j : ℤ) =>
      put m (j * N + i) ((w (j - i).natAbs : ℝ) : 𝕜)) m) fun _ => 0

/-- Address written for the column `j` of row `i`, kroneckerLaplacian.c:173-174 (C remainder). -/
def wrapAddr (N : ℕ) (i : ℕ) (j : ℤ) : ℤ := (j + N).tmod N * N + i

/-- `Lap_1D_Periodic`, kroneckerLaplacian.c:166-179, into the zeroed array of line 154. -/
def lapPeriodic (F : ℕ) (w : ℕ → ℝ) (N : ℕ) : ℤ → 𝕜 :=
  (List.range N).foldl (fun (m : ℤ → 𝕜) (i : ℕ) =>
    (cols ((i : ℤ) - F) (i + F)).foldl (fun (m : ℤ → 𝕜) (j : ℤ) =>
      put m (wrapAddr N i j) (m (wrapAddr N i j) + ((w (j - i).natAbs : ℝ) : 𝕜))) m) fun _ => 0

/-- `Lap_1D_Periodic_complex`, kroneckerLaplacian.c:199-218, into the zeroed array of line 188. -/
def lapBloch (F : ℕ) (w : ℕ → ℝ) (N : ℕ) (phase : 𝕜) : ℤ → 𝕜 :=
  (List.range N).foldl (fun (m : ℤ → 𝕜) (i : ℕ) =>
    (cols ((i : ℤ) - F) (i + F)).foldl (fun (m : ℤ → 𝕜) (j : ℤ) =>
      let v : 𝕜 :=
        if j < 0 then ((w (j - i).natAbs : ℝ) : 𝕜) * conj phase
        else if N ≤ j then ((w (j - i).natAbs : ℝ) : 𝕜) * phase
        else ((w (j - i).natAbs : ℝ) : 𝕜)
      put m (wrapAddr N i j) (m (wrapAddr N i j) + v)) m) fun _ => 0

/-! ## Eigenvalues -/

/-- One nest of loops `lambda[count++] += f(...)`: entry number `n` of the list of increments is added to
`lambda[n]`. -/
def addList (l : List ℝ) (m : ℕ → ℝ) : ℕ → ℝ := fun n => m n + l.getD n 0

/-- `eigval_Lap_3D`, kroneckerLaplacian.c:224-251, into the zeroed array of line 66.  (The first nest of
the code assigns instead of adding, which is the same on zeros.) -/
def eig3 (nx : ℕ) (lx : ℕ → ℝ) (ny : ℕ) (ly : ℕ → ℝ) (nz : ℕ) (lz : ℕ → ℝ) : ℕ → ℝ :=
  let a : List ℝ := (List.range (ny * nz)).flatMap fun _ => (List.range nx).map lx
  let b : List ℝ := (List.range nz).flatMap fun _ => (List.range ny).flatMap fun j =>
    (List.range nx).map fun _ => ly j
  let c : List ℝ := (List.range nz).flatMap fun k => (List.range (ny * nx)).map fun _ => lz k
  addList c (addList b (addList a fun _ => 0))

open Classical in
/-- Reciprocal eigenvalues, kroneckerLaplacian.c:104-109. -/
noncomputable def invEig (eig : ℕ → ℝ) : ℕ → ℝ := fun n => if |eig n| > 1 / 10 ^ 8 then 1 / eig n else 0

/-! ## The transform -/

/-- `CBLAS_TRANSPOSE`. -/
inductive Tr | no | trans | conjTrans

/-- Entry `(i, l)` of `op(A)` with leading dimension `ld`. -/
def op (t : Tr) (A : ℕ → 𝕜) (ld i l : ℕ) : 𝕜 :=
  match t with
  | .no => A (i + l * ld)
  | .trans => A (l + i * ld)
  | .conjTrans => conj (A (l + i * ld))

/-- `cblas_dgemm`/`cblas_zgemm` with `alpha = 1`, `beta = 0`, column-major:
`C(0..m-1, 0..n-1) = op(A) op(B)` with inner length `k`; `C` starts at address `off`. -/
def gemm (ta tb : Tr) (m n k : ℕ) (A : ℕ → 𝕜) (lda : ℕ) (B : ℕ → 𝕜) (ldb : ℕ) (C : ℕ → 𝕜) (off ldc : ℕ) :
    ℕ → 𝕜 := fun x =>
  if off ≤ x ∧ (x - off) % ldc < m ∧ (x - off) / ldc < n then
    ((List.range k).map fun l => op ta A lda ((x - off) % ldc) l * op tb B ldb l ((x - off) / ldc)).sum
  else C x

/-- `Lap_Kron`, kroneckerLaplacian.c:280-321.  `work` is `vecTVy = PTVyt`, `P` is `P = VxPTVyt`, `out`
also serves as `VxtvecTVy`; `work`, `P` and `out` come with arbitrary contents. -/
def lapKron (nx ny nz : ℕ) (Vx Vy Vz vec : ℕ → 𝕜) (diag : ℕ → ℝ) (work P out : ℕ → 𝕜) : ℕ → 𝕜 :=
  let s := (List.range nz).foldl (fun (s : (ℕ → 𝕜) × (ℕ → 𝕜)) k =>
    let w := gemm .no .no nx ny ny (fun x => vec (x + k * (nx * ny))) nx Vy ny s.1 0 nx
    (w, gemm .trans .no nx ny nx Vx nx w nx s.2 (k * (nx * ny)) nx)) (work, out)
  let P := gemm .no .no (nx * ny) nz nz s.2 (nx * ny) Vz nz P 0 (nx * ny)
  let P : ℕ → 𝕜 := fun x => if x < nx * ny * nz then P x * ((diag x : ℝ) : 𝕜) else P x
  let r := (List.range nz).foldl (fun (r : (ℕ → 𝕜) × (ℕ → 𝕜)) k =>
    let w := gemm .no .trans nx ny ny (fun x => r.2 (x + k * (nx * ny))) nx Vy ny r.1 0 nx
    (w, gemm .no .no nx ny nx Vx nx w nx r.2 (k * (nx * ny)) nx)) (s.1, P)
  gemm .no .trans (nx * ny) nz nz r.2 (nx * ny) Vz nz s.2 0 (nx * ny)

/-- `Lap_Kron_complex`, kroneckerLaplacian.c:330-372. -/
def lapKronC (nx ny nz : ℕ) (Vx Vy Vz VyH VzH vec : ℕ → 𝕜) (diag : ℕ → ℝ) (work P out : ℕ → 𝕜) : ℕ → 𝕜 :=
  let s := (List.range nz).foldl (fun (s : (ℕ → 𝕜) × (ℕ → 𝕜)) k =>
    let w := gemm .no .no nx ny ny (fun x => vec (x + k * (nx * ny))) nx VyH ny s.1 0 nx
    (w, gemm .conjTrans .no nx ny nx Vx nx w nx s.2 (k * (nx * ny)) nx)) (work, out)
  let P := gemm .no .no (nx * ny) nz nz s.2 (nx * ny) VzH nz P 0 (nx * ny)
  let P : ℕ → 𝕜 := fun x => if x < nx * ny * nz then P x * ((diag x : ℝ) : 𝕜) else P x
  let r := (List.range nz).foldl (fun (r : (ℕ → 𝕜) × (ℕ → 𝕜)) k =>
    let w := gemm .no .trans nx ny ny (fun x => r.2 (x + k * (nx * ny))) nx Vy ny r.1 0 nx
    (w, gemm .no .no nx ny nx Vx nx w nx r.2 (k * (nx * ny)) nx)) (s.1, P)
  gemm .no .trans (nx * ny) nz nz r.2 (nx * ny) Vz nz s.2 0 (nx * ny)

/-! ## Set-up -/

/-- Result of `dsyev`/`zheev`: eigenvectors (column-major) and eigenvalues. -/
structure Decomp (𝕜 : Type) where
  V : ℕ → 𝕜
  lam : ℕ → ℝ

/-- `KRON_LAP`. -/
structure Lap (𝕜 : Type) where
  nx : ℕ
  ny : ℕ
  nz : ℕ
  Vx : ℕ → 𝕜
  Vy : ℕ → 𝕜
  Vz : ℕ → 𝕜
  VyH : ℕ → 𝕜
  VzH : ℕ → 𝕜
  eig : ℕ → ℝ
  inv : ℕ → ℝ

/-- `init_kron_Lap` for the Gamma point, kroneckerLaplacian.c:39-112; `syev` stands for the LAPACK call of
`Lap_1D_D_EigenDecomp` (118-127) and `Lap_1D_P_EigenDecomp` (151-160).  `VyH`, `VzH` are not used. -/
noncomputable def initReal (syev : ℕ → (ℤ → ℝ) → Decomp ℝ) (F nx ny nz bx by' bz : ℕ) (wx wy wz : ℕ → ℝ) : Lap ℝ :=
  let dx := syev nx (if bx = 1 then lapDirichlet F wx nx else lapPeriodic F wx nx)
  let dy := syev ny (if by' = 1 then lapDirichlet F wy ny else lapPeriodic F wy ny)
  let dz := syev nz (if bz = 1 then lapDirichlet F wz nz else lapPeriodic F wz nz)
  let eig := eig3 nx dx.lam ny dy.lam nz dz.lam
  ⟨nx, ny, nz, dx.V, dy.V, dz.V, dy.V, dz.V, eig, invEig eig⟩

/-- `init_kron_Lap` for other k-points; `kx`, `ky`, `kz` are the products of k-point component and cell length,
kroneckerLaplacian.c:76, 86, 97. -/
noncomputable def initComplex (heev : ℕ → (ℤ → ℂ) → Decomp ℂ) (F nx ny nz : ℕ) (wx wy wz : ℕ → ℝ)
    (kx ky kz : ℝ) : Lap ℂ :=
  let ph (θ : ℝ) : ℂ := (Real.cos θ : ℝ) + Complex.I * (Real.sin θ : ℝ)
  let dx := heev nx (lapBloch F wx nx (ph kx))
  let dy := heev ny (lapBloch F wy ny (ph ky))
  let dz := heev nz (lapBloch F wz nz (ph kz))
  let eig := eig3 nx dx.lam ny dy.lam nz dz.lam
  ⟨nx, ny, nz, dx.V, dy.V, dz.V, fun i => conj (dy.V i), fun i => conj (dz.V i), eig, invEig eig⟩

end Sparc.Kron

import Verif.Kron.Transform
import Mathlib.Analysis.Matrix.Spectrum
import Mathlib.Data.Fin.VecNotation

/-!
# Kronecker-product Laplacian (property C41)
-/

namespace Sparc.Kron

open ComplexConjugate Matrix Kronecker

variable {𝕜 : Type} [RCLike 𝕜]

/-! ## Specification -/

/-- What `dsyev`/`zheev` with upper triangle guarantee in exact arithmetic: orthonormal eigenvectors of the
matrix whose upper triangle is stored. -/
structure Exact (N : ℕ) (A : ℤ → 𝕜) (d : Decomp 𝕜) : Prop where
  ortho : ∀ a b, a < N → b < N →
    ∑ i ∈ Finset.range N, conj (d.V (i + a * N)) * d.V (i + b * N) = if a = b then 1 else 0
  eigen : ∀ i a, i < N → a < N →
    ∑ j ∈ Finset.range N, (if i ≤ j then A ((j : ℤ) * N + i) else conj (A ((i : ℤ) * N + j))) * d.V (j + a * N) =
      d.V (i + a * N) * ((d.lam a : ℝ) : 𝕜)

/-- An exact eigensolver: exact for every matrix with real diagonal. -/
def ExactSolver (ev : ℕ → (ℤ → 𝕜) → Decomp 𝕜) : Prop :=
  ∀ N A, (∀ i : ℕ, i < N → conj (A ((i : ℤ) * N + i)) = A ((i : ℤ) * N + i)) → Exact N A (ev N A)

/-- Values beyond the ends: zero. -/
def zeroExt (N : ℕ) (u : ℕ → 𝕜) (j : ℤ) : 𝕜 := if 0 ≤ j ∧ j < N then u j.toNat else 0

/-- Values beyond the ends: Bloch condition with the given phase per period. -/
noncomputable def blochExt (N : ℕ) (phase : 𝕜) (u : ℕ → 𝕜) (j : ℤ) : 𝕜 := phase ^ (j / N) * u (j % N).toNat

/-- Values beyond the ends for the boundary flag `b` (1 Dirichlet, else periodic). -/
noncomputable def flagExt (b N : ℕ) (u : ℕ → 𝕜) (j : ℤ) : 𝕜 := if b = 1 then zeroExt N u j else u (j % N).toNat

/-- Finite-difference second derivative at `i`. -/
noncomputable def stencil (F : ℕ) (w : ℕ → ℝ) (e : ℤ → 𝕜) (i : ℕ) : 𝕜 :=
  ∑ d ∈ Finset.Icc (-(F : ℤ)) F, ((w d.natAbs : ℝ) : 𝕜) * e (i + d)

/-- Finite-difference Laplacian at `(i, j, k)` with the given extensions along the three axes. -/
noncomputable def fdLap (F nx ny : ℕ) (wx wy wz : ℕ → ℝ) (ex ey ez : (ℕ → 𝕜) → ℤ → 𝕜) (u : ℕ → 𝕜) (i j k : ℕ) : 𝕜 :=
  stencil F wx (ex fun i' => u (i' + j * nx + k * (nx * ny))) i +
  stencil F wy (ey fun j' => u (i + j' * nx + k * (nx * ny))) j +
  stencil F wz (ez fun k' => u (i + j * nx + k' * (nx * ny))) k

/-- The mode `(a, b, c)`. -/
def mode (K : Lap 𝕜) (a b c : ℕ) (x : ℕ) : 𝕜 :=
  K.Vx (x % K.nx + a * K.nx) * K.Vy (x / K.nx % K.ny + b * K.ny) * K.Vz (x / (K.nx * K.ny) + c * K.nz)

/-- Inner product of two three-dimensional arrays. -/
def dot (nx ny nz : ℕ) (u v : ℕ → 𝕜) : 𝕜 := ∑ x ∈ Finset.range (nx * ny * nz), conj (u x) * v x

open Classical in
/-- **C41.** The set-up `K` and the transform `T` (arguments: vector, diagonal) implement the operator `S`
and its pseudo-inverse. -/
structure Implements (K : Lap 𝕜) (T : (ℕ → 𝕜) → (ℕ → ℝ) → ℕ → 𝕜) (S : (ℕ → 𝕜) → ℕ → ℕ → ℕ → 𝕜) : Prop where
  /-- with the eigenvalues the transform applies the operator -/
  apply : ∀ u i j k, i < K.nx → j < K.ny → k < K.nz → T u K.eig (i + j * K.nx + k * (K.nx * K.ny)) = S u i j k
  /-- the modes are orthonormal -/
  ortho : ∀ a b c a' b' c', a < K.nx → b < K.ny → c < K.nz → a' < K.nx → b' < K.ny → c' < K.nz →
    dot K.nx K.ny K.nz (mode K a b c) (mode K a' b' c') = if a = a' ∧ b = b' ∧ c = c' then 1 else 0
  /-- and eigenvectors of the operator with the stored eigenvalues -/
  eigen : ∀ a b c i j k, a < K.nx → b < K.ny → c < K.nz → i < K.nx → j < K.ny → k < K.nz →
    S (mode K a b c) i j k =
      ((K.eig (a + b * K.nx + c * (K.nx * K.ny)) : ℝ) : 𝕜) * mode K a b c (i + j * K.nx + k * (K.nx * K.ny))
  /-- with the reciprocal eigenvalues the transform solves `S r = f` up to the part of `f` in the modes of
  eigenvalue at most `1e-8` -/
  solves : ∀ f i j k, i < K.nx → j < K.ny → k < K.nz →
    S (T f K.inv) i j k = f (i + j * K.nx + k * (K.nx * K.ny)) -
      ∑ c ∈ Finset.range K.nz, ∑ b ∈ Finset.range K.ny, ∑ a ∈ Finset.range K.nx,
        if |K.eig (a + b * K.nx + c * (K.nx * K.ny))| ≤ 1 / 10 ^ 8 then
          mode K a b c (i + j * K.nx + k * (K.nx * K.ny)) * dot K.nx K.ny K.nz (mode K a b c) f
        else 0
  /-- and the solution has no part in these modes -/
  orth : ∀ f a b c, a < K.nx → b < K.ny → c < K.nz →
    |K.eig (a + b * K.nx + c * (K.nx * K.ny))| ≤ 1 / 10 ^ 8 →
    dot K.nx K.ny K.nz (mode K a b c) (T f K.inv) = 0
  /-- it is the only one -/
  unique : ∀ f r, (∀ i j k, i < K.nx → j < K.ny → k < K.nz → S r i j k = S (T f K.inv) i j k) →
    (∀ a b c, a < K.nx → b < K.ny → c < K.nz → |K.eig (a + b * K.nx + c * (K.nx * K.ny))| ≤ 1 / 10 ^ 8 →
      dot K.nx K.ny K.nz (mode K a b c) r = 0) →
    ∀ x, x < K.nx * K.ny * K.nz → r x = T f K.inv x

/-! ## Proof -/

/-- Row `i` of the stored matrix applied to `u`. -/
def row (N : ℕ) (A : ℤ → 𝕜) (u : ℕ → 𝕜) (i : ℕ) : 𝕜 := ∑ j ∈ Finset.range N, A ((j : ℤ) * N + i) * u j

/-- The stored matrix. -/
def zmat (N : ℕ) (A : ℤ → 𝕜) : Matrix (Fin N) (Fin N) 𝕜 := fun i j => A ((j : ℤ) * N + i)

theorem exact_ortho {N : ℕ} {A : ℤ → 𝕜} {d : Decomp 𝕜} (h : Exact N A d) : (mat N d.V)ᴴ * mat N d.V = 1 := by
  ext a b
  rw [Matrix.mul_apply, Matrix.one_apply]
  have := h.ortho a b a.2 b.2
  rw [Finset.sum_range] at this
  simp only [conjTranspose_apply, mat, RCLike.star_def]
  rw [this]
  simp only [Fin.ext_iff]

theorem exact_eigen {N : ℕ} {A : ℤ → 𝕜} {d : Decomp 𝕜} (h : Exact N A d)
    (hs : ∀ i j : ℕ, i < N → j < N → A ((j : ℤ) * N + i) = conj (A ((i : ℤ) * N + j))) :
    zmat N A * mat N d.V = mat N d.V * diagonal fun a : Fin N => ((d.lam a : ℝ) : 𝕜) := by
  ext i a
  rw [Matrix.mul_apply, Matrix.mul_diagonal]
  have := h.eigen i a i.2 a.2
  rw [Finset.sum_range] at this
  simp only [mat, zmat]
  rw [← this]
  refine Finset.sum_congr rfl fun j _ => ?_
  split_ifs
  · rfl
  · rw [hs i j i.2 j.2]

theorem sum_flat (nx ny nz : ℕ) (f : ℕ → 𝕜) :
    ∑ x ∈ Finset.range (nx * ny * nz), f x = ∑ p : Fin nz × Fin ny × Fin nx, vec3 nx ny nz f p := by
  symm
  refine Finset.sum_bij (fun p _ => (p.2.2 : ℕ) + p.2.1 * nx + p.1 * (nx * ny)) ?_ ?_ ?_ ?_
  · intro p _
    exact Finset.mem_range.2 (Loop.flat3_lt p.2.2.2 p.2.1.2 p.1.2)
  · intro p _ q _ h
    obtain ⟨h1, h2, h3⟩ := Loop.flat3_inj p.2.2.2 q.2.2.2 p.2.1.2 q.2.1.2 h
    exact Prod.ext (Fin.ext h3) (Prod.ext (Fin.ext h2) (Fin.ext h1))
  · intro x hx
    rw [Finset.mem_range] at hx
    have hx0 : 0 < nx := Nat.pos_of_ne_zero (by rintro rfl; simp at hx)
    have hy0 : 0 < ny := Nat.pos_of_ne_zero (by rintro rfl; simp at hx)
    refine ⟨(⟨x / (nx * ny), Nat.div_lt_of_lt_mul hx⟩, ⟨x / nx % ny, Nat.mod_lt _ hy0⟩,
      ⟨x % nx, Nat.mod_lt _ hx0⟩), Finset.mem_univ _, ?_⟩
    dsimp only
    rw [← Nat.div_div_eq_div_mul]
    calc x % nx + x / nx % ny * nx + x / nx / ny * (nx * ny)
        = x % nx + nx * (x / nx % ny + ny * (x / nx / ny)) := by ring
      _ = x := by rw [Nat.mod_add_div, Nat.mod_add_div]
  · intro p _; rfl

theorem dot_eq (nx ny nz : ℕ) (u v : ℕ → 𝕜) :
    dot nx ny nz u v = ∑ p, conj (vec3 nx ny nz u p) * vec3 nx ny nz v p := by
  unfold dot
  rw [sum_flat]
  rfl

theorem lap3_mulVec {X Y Z : Type} [Fintype X] [Fintype Y] [Fintype Z] [DecidableEq X] [DecidableEq Y]
    [DecidableEq Z] (Lx : Matrix X X 𝕜) (Ly : Matrix Y Y 𝕜) (Lz : Matrix Z Z 𝕜) (v : Z × Y × X → 𝕜)
    (k : Z) (j : Y) (i : X) :
    (lap3 Lx Ly Lz *ᵥ v) (k, j, i) = ∑ i', Lx i i' * v (k, j, i') + ∑ j', Ly j j' * v (k, j', i) +
      ∑ k', Lz k k' * v (k', j, i) := by
  unfold lap3
  rw [Matrix.add_mulVec, Matrix.add_mulVec, Pi.add_apply, Pi.add_apply]
  congr 1
  · congr 1
    · simp only [mulVec, dotProduct, Fintype.sum_prod_type, kroneckerMap_apply, Matrix.one_apply]
      simp
    · simp only [mulVec, dotProduct, Fintype.sum_prod_type, kroneckerMap_apply, Matrix.one_apply]
      simp
  · simp only [mulVec, dotProduct, Fintype.sum_prod_type, kroneckerMap_apply, Matrix.one_apply]
    simp

theorem lap3_apply (nx ny nz : ℕ) (Ax Ay Az : ℤ → 𝕜) (u : ℕ → 𝕜) (k : Fin nz) (j : Fin ny) (i : Fin nx) :
    (lap3 (zmat nx Ax) (zmat ny Ay) (zmat nz Az) *ᵥ vec3 nx ny nz u) (k, j, i) =
      row nx Ax (fun i' => u (i' + j * nx + k * (nx * ny))) i +
      row ny Ay (fun j' => u (i + j' * nx + k * (nx * ny))) j +
      row nz Az (fun k' => u (i + j * nx + k' * (nx * ny))) k := by
  rw [lap3_mulVec]
  unfold row zmat vec3
  simp only [Finset.sum_range]

/-- Hermitian stored matrix. -/
def Herm (N : ℕ) (A : ℤ → 𝕜) : Prop :=
  ∀ i j : ℕ, i < N → j < N → A ((j : ℤ) * N + i) = conj (A ((i : ℤ) * N + j))

open Classical in
theorem implements_core (nx ny nz : ℕ) (Ax Ay Az : ℤ → 𝕜) (dx dy dz : Decomp 𝕜)
    (hx : Exact nx Ax dx) (hy : Exact ny Ay dy) (hz : Exact nz Az dz)
    (sx : Herm nx Ax) (sy : Herm ny Ay) (sz : Herm nz Az) (K : Lap 𝕜)
    (knx : K.nx = nx) (kny : K.ny = ny) (knz : K.nz = nz) (kx : K.Vx = dx.V) (ky : K.Vy = dy.V) (kz : K.Vz = dz.V)
    (keig : K.eig = eig3 nx dx.lam ny dy.lam nz dz.lam) (kinv : K.inv = invEig K.eig)
    (T : (ℕ → 𝕜) → (ℕ → ℝ) → ℕ → 𝕜)
    (hT : ∀ u d, ∃ work P out, T u d = lapKronC nx ny nz dx.V dy.V dz.V (fun x => conj (dy.V x))
      (fun x => conj (dz.V x)) u d work P out)
    (S : (ℕ → 𝕜) → ℕ → ℕ → ℕ → 𝕜)
    (hS : ∀ u i j k, i < nx → j < ny → k < nz → S u i j k =
      row nx Ax (fun i' => u (i' + j * nx + k * (nx * ny))) i +
      row ny Ay (fun j' => u (i + j' * nx + k * (nx * ny))) j +
      row nz Az (fun k' => u (i + j * nx + k' * (nx * ny))) k) :
    Implements K T S := by
  obtain ⟨mx, my, mz, _, _, _, VyH, VzH, eig, inv⟩ := K
  dsimp only at knx kny knz kx ky kz keig kinv
  obtain rfl := knx.symm
  obtain rfl := kny.symm
  obtain rfl := knz.symm
  subst kx ky kz kinv
  set U := ten (mat nx dx.V) (mat ny dy.V) (mat nz dz.V) with hU
  set L := lap3 (zmat nx Ax) (zmat ny Ay) (zmat nz Az) with hL
  set D : Fin nz × Fin ny × Fin nx → 𝕜 := vec3 nx ny nz fun n => ((eig n : ℝ) : 𝕜) with hD
  have hU1 : Uᴴ * U = 1 := ten_unitary _ _ _ (exact_ortho hx) (exact_ortho hy) (exact_ortho hz)
  have hU2 : U * Uᴴ = 1 := mul_eq_one_comm.1 hU1
  have hLU : L * U = U * diagonal D := by
    rw [hL, hU, ten_diag _ _ _ _ _ _ _ _ _ (exact_eigen hx sx) (exact_eigen hy sy) (exact_eigen hz sz)]
    congr 2
    ext ⟨k, j, i⟩
    rw [hD, keig]
    unfold vec3
    dsimp only
    rw [eig3_spec nx dx.lam ny dy.lam nz dz.lam i j k i.2 j.2 k.2]
    push_cast; rfl
  have hUL : Uᴴ * L = diagonal D * Uᴴ := by
    calc Uᴴ * L = Uᴴ * (L * (U * Uᴴ)) := by rw [hU2, Matrix.mul_one]
      _ = Uᴴ * (L * U) * Uᴴ := by simp only [Matrix.mul_assoc]
      _ = (Uᴴ * U) * diagonal D * Uᴴ := by rw [hLU]; simp only [Matrix.mul_assoc]
      _ = diagonal D * Uᴴ := by rw [hU1, Matrix.one_mul]
  have hTv : ∀ u d, vec3 nx ny nz (T u d) =
      U *ᵥ (diagonal (vec3 nx ny nz fun n => ((d n : ℝ) : 𝕜)) *ᵥ (Uᴴ *ᵥ vec3 nx ny nz u)) := by
    intro u d
    obtain ⟨w, P, o, h⟩ := hT u d
    ext p
    rw [h]
    exact lapKronC_mat nx ny nz dx.V dy.V dz.V u d w P o p
  have hSv : ∀ u (k : Fin nz) (j : Fin ny) (i : Fin nx), S u i j k = (L *ᵥ vec3 nx ny nz u) (k, j, i) := by
    intro u k j i
    rw [hS u i j k i.2 j.2 k.2, hL, lap3_apply]
  have hmode : ∀ (a : Fin nx) (b : Fin ny) (c : Fin nz),
      vec3 nx ny nz (mode ⟨nx, ny, nz, dx.V, dy.V, dz.V, VyH, VzH, eig, invEig eig⟩ a b c) = fun p => U p (c, b, a) := by
    intro a b c
    ext ⟨k, j, i⟩
    unfold vec3 mode
    dsimp only
    have hnx : 0 < nx := Fin.pos i
    have hny : 0 < ny := Fin.pos j
    have h1 : ((i : ℕ) + j * nx + k * (nx * ny)) % nx = i := by
      have : (i : ℕ) + j * nx + k * (nx * ny) = i + (j + k * ny) * nx := by ring
      rw [this, Nat.add_mul_mod_self_right, Nat.mod_eq_of_lt i.2]
    have h2 : ((i : ℕ) + j * nx + k * (nx * ny)) / nx = j + k * ny := by
      have : (i : ℕ) + j * nx + k * (nx * ny) = i + (j + k * ny) * nx := by ring
      rw [this, Nat.add_mul_div_right _ _ hnx, Nat.div_eq_of_lt i.2, zero_add]
    rw [h1, ← Nat.div_div_eq_div_mul, h2, Nat.add_mul_mod_self_right, Nat.mod_eq_of_lt j.2,
      Nat.add_mul_div_right _ _ hny, Nat.div_eq_of_lt j.2, zero_add, hU]
    unfold ten
    simp only [kroneckerMap_apply, mat]
    ring
  have hdot : ∀ (a : Fin nx) (b : Fin ny) (c : Fin nz) v,
      dot nx ny nz (mode ⟨nx, ny, nz, dx.V, dy.V, dz.V, VyH, VzH, eig, invEig eig⟩ a b c) v =
        (Uᴴ *ᵥ vec3 nx ny nz v) (c, b, a) := by
    intro a b c v
    rw [dot_eq, hmode]
    rfl
  have hD' : ∀ (a : Fin nx) (b : Fin ny) (c : Fin nz),
      D (c, b, a) = ((eig (a + b * nx + c * (nx * ny)) : ℝ) : 𝕜) := fun _ _ _ => rfl
  have hdm : ∀ (d w : Fin nz × Fin ny × Fin nx → 𝕜) x, (diagonal d *ᵥ w) x = d x * w x :=
    fun d w x => mulVec_diagonal d w x
  have hUr : ∀ f, Uᴴ *ᵥ vec3 nx ny nz (T f (invEig eig)) =
      diagonal (vec3 nx ny nz fun n => ((invEig eig n : ℝ) : 𝕜)) *ᵥ (Uᴴ *ᵥ vec3 nx ny nz f) := by
    intro f
    rw [hTv, mulVec_mulVec, hU1, one_mulVec]
  refine ⟨?_, ?_, ?_, ?_, ?_, ?_⟩
  · intro u i j k hi hj hk
    dsimp only at hi hj hk ⊢
    have h1 := congrFun (hTv u eig) (⟨k, hk⟩, ⟨j, hj⟩, ⟨i, hi⟩)
    rw [mulVec_mulVec, mulVec_mulVec, ← hD, ← hLU, Matrix.mul_assoc, hU2, Matrix.mul_one] at h1
    have h2 := hSv u ⟨k, hk⟩ ⟨j, hj⟩ ⟨i, hi⟩
    exact h1.trans h2.symm
  · intro a b c a' b' c' ha hb hc ha' hb' hc'
    dsimp only at ha hb hc ha' hb' hc' ⊢
    have h1 := hdot ⟨a, ha⟩ ⟨b, hb⟩ ⟨c, hc⟩
      (mode ⟨nx, ny, nz, dx.V, dy.V, dz.V, VyH, VzH, eig, invEig eig⟩ a' b' c')
    have h2 := hmode ⟨a', ha'⟩ ⟨b', hb'⟩ ⟨c', hc'⟩
    dsimp only at h1 h2
    rw [h1, h2]
    have h3 := congrFun (congrFun hU1 (⟨c, hc⟩, ⟨b, hb⟩, ⟨a, ha⟩)) (⟨c', hc'⟩, ⟨b', hb'⟩, ⟨a', ha'⟩)
    refine Eq.trans h3 ?_
    rw [Matrix.one_apply]
    simp only [Prod.mk.injEq, Fin.mk.injEq]
    congr 1
    simp only [eq_iff_iff]; tauto
  · intro a b c i j k ha hb hc hi hj hk
    dsimp only at ha hb hc hi hj hk ⊢
    have h1 := hSv (mode ⟨nx, ny, nz, dx.V, dy.V, dz.V, VyH, VzH, eig, invEig eig⟩ a b c) ⟨k, hk⟩ ⟨j, hj⟩ ⟨i, hi⟩
    have h2 := hmode ⟨a, ha⟩ ⟨b, hb⟩ ⟨c, hc⟩
    dsimp only at h1 h2
    have h4 := congrFun h2 (⟨k, hk⟩, ⟨j, hj⟩, ⟨i, hi⟩)
    rw [h1, h2]
    have h3 := congrFun (congrFun hLU (⟨k, hk⟩, ⟨j, hj⟩, ⟨i, hi⟩)) (⟨c, hc⟩, ⟨b, hb⟩, ⟨a, ha⟩)
    refine Eq.trans h3 ?_
    rw [Matrix.mul_diagonal, hD', mul_comm, ← h4]
    rfl
  · intro f i j k hi hj hk
    dsimp only at hi hj hk ⊢
    have h1 := hSv (T f (invEig eig)) ⟨k, hk⟩ ⟨j, hj⟩ ⟨i, hi⟩
    dsimp only at h1
    set G : Fin nz × Fin ny × Fin nx → 𝕜 := vec3 nx ny nz fun n => ((invEig eig n : ℝ) : 𝕜) with hG
    set q : Fin nz × Fin ny × Fin nx → 𝕜 := fun p => if |eig (p.2.2 + p.2.1 * nx + p.1 * (nx * ny))| ≤ 1 / 10 ^ 8
      then 1 else 0 with hq
    have hDG : ∀ p, D p * G p = 1 - q p := by
      intro p
      rw [hD, hG, hq]
      unfold vec3 invEig
      dsimp only
      by_cases h : |eig (p.2.2 + p.2.1 * nx + p.1 * (nx * ny))| ≤ 1 / 10 ^ 8
      · rw [if_pos h, if_neg (not_lt.2 h)]; simp
      · rw [if_neg h, if_pos (not_le.1 h), ← RCLike.ofReal_mul, mul_one_div_cancel]
        · simp
        · intro h0; rw [h0] at h; norm_num at h
    have h2 : L *ᵥ vec3 nx ny nz (T f (invEig eig)) =
        vec3 nx ny nz f - U *ᵥ (diagonal q *ᵥ (Uᴴ *ᵥ vec3 nx ny nz f)) := by
      have e1 : diagonal D *ᵥ (diagonal G *ᵥ (Uᴴ *ᵥ vec3 nx ny nz f)) =
          Uᴴ *ᵥ vec3 nx ny nz f - diagonal q *ᵥ (Uᴴ *ᵥ vec3 nx ny nz f) := by
        ext p
        rw [Pi.sub_apply, hdm, hdm, hdm, ← mul_assoc, hDG]; ring
      calc L *ᵥ vec3 nx ny nz (T f (invEig eig))
          = (L * U) *ᵥ (diagonal G *ᵥ (Uᴴ *ᵥ vec3 nx ny nz f)) := by rw [hTv, ← mulVec_mulVec]
        _ = U *ᵥ (diagonal D *ᵥ (diagonal G *ᵥ (Uᴴ *ᵥ vec3 nx ny nz f))) := by rw [hLU, ← mulVec_mulVec]
        _ = _ := by rw [e1, mulVec_sub, mulVec_mulVec, hU2, one_mulVec]
    rw [h1, h2, Pi.sub_apply]
    congr 1
    simp only [Finset.sum_range]
    show ∑ p, _ = _
    rw [Fintype.sum_prod_type]
    refine Finset.sum_congr rfl fun c _ => ?_
    rw [Fintype.sum_prod_type]
    refine Finset.sum_congr rfl fun b _ => Finset.sum_congr rfl fun a _ => ?_
    rw [hdm, hq, hdot]
    have h4 := congrFun (hmode a b c) (⟨k, hk⟩, ⟨j, hj⟩, ⟨i, hi⟩)
    dsimp only at h4 ⊢
    rw [← h4]
    split_ifs
    · rw [one_mul]; rfl
    · rw [zero_mul, mul_zero]
  · intro f a b c ha hb hc hsmall
    dsimp only at ha hb hc hsmall ⊢
    have h1 := hdot ⟨a, ha⟩ ⟨b, hb⟩ ⟨c, hc⟩ (T f (invEig eig))
    dsimp only at h1
    rw [h1, hUr, hdm]
    unfold vec3 invEig
    dsimp only
    rw [if_neg (not_lt.2 hsmall)]; simp
  · intro f r hr h0 x hx'
    dsimp only at hr h0 hx' ⊢
    have hLr : L *ᵥ vec3 nx ny nz r = L *ᵥ vec3 nx ny nz (T f (invEig eig)) := by
      ext ⟨k, j, i⟩
      rw [← hSv, ← hSv]
      exact hr i j k i.2 j.2 k.2
    have hDr : diagonal D *ᵥ (Uᴴ *ᵥ vec3 nx ny nz r) = diagonal D *ᵥ (Uᴴ *ᵥ vec3 nx ny nz (T f (invEig eig))) := by
      rw [mulVec_mulVec, ← hUL, ← mulVec_mulVec, hLr, mulVec_mulVec, hUL, ← mulVec_mulVec]
    have hUv : Uᴴ *ᵥ vec3 nx ny nz r = Uᴴ *ᵥ vec3 nx ny nz (T f (invEig eig)) := by
      ext ⟨c, b, a⟩
      by_cases h : |eig (a + b * nx + c * (nx * ny))| ≤ 1 / 10 ^ 8
      · have h1 := h0 a b c a.2 b.2 c.2 h
        rw [hdot] at h1
        rw [h1, hUr, hdm]
        unfold vec3 invEig
        dsimp only
        rw [if_neg (not_lt.2 h)]; simp
      · have h1 := congrFun hDr (c, b, a)
        rw [hdm, hdm, hD'] at h1
        refine mul_left_cancel₀ ?_ h1
        rw [RCLike.ofReal_ne_zero]
        intro h2; rw [h2] at h; norm_num at h
    have hv : vec3 nx ny nz r = vec3 nx ny nz (T f (invEig eig)) := by
      have := congrArg (U *ᵥ ·) hUv
      rwa [mulVec_mulVec, mulVec_mulVec, hU2, one_mulVec, one_mulVec] at this
    have hx0 : 0 < nx := Nat.pos_of_ne_zero (by rintro rfl; simp at hx')
    have hy0 : 0 < ny := Nat.pos_of_ne_zero (by rintro rfl; simp at hx')
    have h5 := congrFun hv (⟨x / (nx * ny), Nat.div_lt_of_lt_mul hx'⟩, ⟨x / nx % ny, Nat.mod_lt _ hy0⟩,
      ⟨x % nx, Nat.mod_lt _ hx0⟩)
    unfold vec3 at h5
    dsimp only at h5
    have e : x % nx + x / nx % ny * nx + x / (nx * ny) * (nx * ny) = x := by
      rw [← Nat.div_div_eq_div_mul]
      calc x % nx + x / nx % ny * nx + x / nx / ny * (nx * ny)
          = x % nx + nx * (x / nx % ny + ny * (x / nx / ny)) := by ring
        _ = x := by rw [Nat.mod_add_div, Nat.mod_add_div]
    rwa [e] at h5

/-! ## Theorems -/

/-- **C41 (Gamma point).** For every grid, order, weights and boundary flags: after `init_kron_Lap`,
`Lap_Kron` with `eig` applies the finite-difference Laplacian with these boundary conditions, and with
`inv_eig` it returns its pseudo-inverse, for any contents of the scratch memory. -/
theorem kron_real (syev : ℕ → (ℤ → ℝ) → Decomp ℝ) (hev : ExactSolver syev) (F nx ny nz bx by' bz : ℕ)
    (wx wy wz : ℕ → ℝ) (hx : bx ≠ 1 → F ≤ nx) (hy : by' ≠ 1 → F ≤ ny) (hz : bz ≠ 1 → F ≤ nz)
    (work P out : (ℕ → ℝ) → (ℕ → ℝ) → ℕ → ℝ) :
    let K := initReal syev F nx ny nz bx by' bz wx wy wz
    (K.nx = nx ∧ K.ny = ny ∧ K.nz = nz) ∧
    Implements K (fun u d => lapKron nx ny nz K.Vx K.Vy K.Vz u d (work u d) (P u d) (out u d))
      (fdLap F nx ny wx wy wz (flagExt bx nx) (flagExt by' ny) (flagExt bz nz)) := by
  intro K
  refine ⟨⟨rfl, rfl, rfl⟩, ?_⟩
  have herm : ∀ b N (w : ℕ → ℝ), (b ≠ 1 → F ≤ N) →
      Herm N (if b = 1 then lapDirichlet (𝕜 := ℝ) F w N else lapPeriodic F w N) := by
    intro b N w hb i j hi hj
    by_cases h : b = 1
    · simp only [if_pos h]; exact dirichlet_symm F w N i j hi hj
    · simp only [if_neg h, periodic_eq_bloch]; exact bloch_symm F w N 1 i j (hb h) hi hj
  have hrow : ∀ b N (w : ℕ → ℝ), (b ≠ 1 → F ≤ N) → ∀ (u : ℕ → ℝ) i, i < N →
      row N (if b = 1 then lapDirichlet (𝕜 := ℝ) F w N else lapPeriodic F w N) u i =
        stencil F w (flagExt b N u) i := by
    intro b N w hb u i hi
    unfold row stencil flagExt zeroExt
    by_cases h : b = 1
    · simp only [if_pos h]; exact dirichlet_apply F w N u i hi
    · simp only [if_neg h, periodic_eq_bloch]
      rw [bloch_apply F w N 1 (by simp) u i (hb h) hi]
      simp only [_root_.one_zpow, one_mul]
  refine implements_core nx ny nz _ _ _ _ _ _ (hev nx _ fun i hi => (herm bx nx wx hx i i hi hi).symm)
    (hev ny _ fun i hi => (herm by' ny wy hy i i hi hi).symm)
    (hev nz _ fun i hi => (herm bz nz wz hz i i hi hi).symm)
    (herm bx nx wx hx) (herm by' ny wy hy) (herm bz nz wz hz) K rfl rfl rfl rfl rfl rfl rfl rfl _ ?_ _ ?_
  · intro u d
    refine ⟨work u d, P u d, out u d, ?_⟩
    rw [lapKron_eq]
    simp only [conj_trivial]
    rfl
  · intro u i j k hi hj hk
    rw [hrow bx nx wx hx _ i hi, hrow by' ny wy hy _ j hj, hrow bz nz wz hz _ k hk]
    rfl

/-- **C41 (other k-points).** The same for the complex routines with Bloch boundary conditions: the phases
are `exp(i k L)` along the three axes. -/
theorem kron_complex (heev : ℕ → (ℤ → ℂ) → Decomp ℂ) (hev : ExactSolver heev) (F nx ny nz : ℕ)
    (wx wy wz : ℕ → ℝ) (kx ky kz : ℝ) (hx : F ≤ nx) (hy : F ≤ ny) (hz : F ≤ nz)
    (work P out : (ℕ → ℂ) → (ℕ → ℝ) → ℕ → ℂ) :
    let K := initComplex heev F nx ny nz wx wy wz kx ky kz
    (K.nx = nx ∧ K.ny = ny ∧ K.nz = nz) ∧
    Implements K (fun u d => lapKronC nx ny nz K.Vx K.Vy K.Vz K.VyH K.VzH u d (work u d) (P u d) (out u d))
      (fdLap F nx ny wx wy wz (blochExt nx (Complex.exp (kx * Complex.I))) (blochExt ny (Complex.exp (ky * Complex.I)))
        (blochExt nz (Complex.exp (kz * Complex.I)))) := by
  intro K
  refine ⟨⟨rfl, rfl, rfl⟩, ?_⟩
  have hph : ∀ θ : ℝ, ((Real.cos θ : ℝ) : ℂ) + Complex.I * ((Real.sin θ : ℝ) : ℂ) = Complex.exp (θ * Complex.I) := by
    intro θ; rw [Complex.exp_mul_I]; push_cast; ring
  have hone : ∀ θ : ℝ, conj (Complex.exp (θ * Complex.I)) * Complex.exp (θ * Complex.I) = 1 := by
    intro θ
    rw [← Complex.exp_conj, ← Complex.exp_add]
    simp
  have herm : ∀ N (w : ℕ → ℝ) (p : ℂ), F ≤ N → Herm N (lapBloch F w N p) :=
    fun N w p hF i j hi hj => bloch_symm F w N p i j hF hi hj
  have hrow : ∀ N (w : ℕ → ℝ) (θ : ℝ), F ≤ N → ∀ (u : ℕ → ℂ) i, i < N →
      row N (lapBloch F w N (((Real.cos θ : ℝ) : ℂ) + Complex.I * ((Real.sin θ : ℝ) : ℂ))) u i =
        stencil F w (blochExt N (Complex.exp (θ * Complex.I)) u) i := by
    intro N w θ hF u i hi
    rw [hph]
    exact bloch_apply F w N _ (hone θ) u i hF hi
  refine implements_core nx ny nz _ _ _ _ _ _ (hev nx _ fun i hi => (herm nx wx _ hx i i hi hi).symm)
    (hev ny _ fun i hi => (herm ny wy _ hy i i hi hi).symm)
    (hev nz _ fun i hi => (herm nz wz _ hz i i hi hi).symm)
    (herm nx wx _ hx) (herm ny wy _ hy) (herm nz wz _ hz) K rfl rfl rfl rfl rfl rfl rfl rfl _ ?_ _ ?_
  · intro u d
    exact ⟨work u d, P u d, out u d, rfl⟩
  · intro u i j k hi hj hk
    rw [hrow nx wx kx hx _ i hi, hrow ny wy ky hy _ j hj, hrow nz wz kz hz _ k hk]
    rfl

theorem flatV (N : ℕ) (B : Fin N → Fin N → 𝕜) (i a : Fin N) :
    (if h : ((i : ℕ) + a * N) % N < N ∧ ((i : ℕ) + a * N) / N < N then
      B ⟨((i : ℕ) + a * N) / N, h.2⟩ ⟨((i : ℕ) + a * N) % N, h.1⟩ else 0) = B a i := by
  have h1 : ((i : ℕ) + a * N) % N = i := by rw [Nat.add_mul_mod_self_right, Nat.mod_eq_of_lt i.2]
  have h2 : ((i : ℕ) + a * N) / N = a := by
    rw [Nat.add_mul_div_right _ _ (Fin.pos i), Nat.div_eq_of_lt i.2, zero_add]
  have h3 : ((i : ℕ) + a * N) % N < N ∧ ((i : ℕ) + a * N) / N < N := by rw [h1, h2]; exact ⟨i.2, a.2⟩
  rw [dif_pos h3]
  simp only [h1, h2]

/-- Exact eigensolvers exist, so the theorems are not empty. -/
theorem exists_solver : ∃ ev : ℕ → (ℤ → 𝕜) → Decomp 𝕜, ExactSolver ev := by
  classical
  have : ∀ (N : ℕ) (A : ℤ → 𝕜), ∃ d : Decomp 𝕜,
      (∀ i : ℕ, i < N → conj (A ((i : ℤ) * N + i)) = A ((i : ℤ) * N + i)) → Exact N A d := by
    intro N A
    by_cases hd : ∀ i : ℕ, i < N → conj (A ((i : ℤ) * N + i)) = A ((i : ℤ) * N + i)
    swap
    · exact ⟨⟨fun _ => 0, fun _ => 0⟩, fun h => absurd h hd⟩
    set M : Matrix (Fin N) (Fin N) 𝕜 := fun i j =>
      if i ≤ j then A ((j : ℤ) * N + i) else conj (A ((i : ℤ) * N + j)) with hM
    have hH : M.IsHermitian := by
      ext i j
      rw [conjTranspose_apply, hM]
      dsimp only
      rcases lt_trichotomy i j with h | h | h
      · rw [if_neg (not_le.2 h), if_pos h.le]; simp
      · subst h; rw [if_pos le_rfl]; exact hd i i.2
      · rw [if_pos h.le, if_neg (not_le.2 h)]; rfl
    set B : Fin N → Fin N → 𝕜 := fun a i => hH.eigenvectorBasis a i with hB
    refine ⟨⟨fun x => if h : x % N < N ∧ x / N < N then B ⟨x / N, h.2⟩ ⟨x % N, h.1⟩ else 0,
      fun a => if h : a < N then hH.eigenvalues ⟨a, h⟩ else 0⟩, fun _ => ?_⟩
    constructor
    · intro a b ha hb
      rw [Finset.sum_range]
      have := orthonormal_iff_ite.1 hH.eigenvectorBasis.orthonormal ⟨a, ha⟩ ⟨b, hb⟩
      simp only [Fin.mk.injEq] at this
      rw [← this, PiLp.inner_apply]
      refine Finset.sum_congr rfl fun i _ => ?_
      have e1 := flatV N B i ⟨a, ha⟩
      have e2 := flatV N B i ⟨b, hb⟩
      dsimp only at e1 e2 ⊢
      rw [e1, e2, RCLike.inner_apply, mul_comm]
    · intro i a hi ha
      rw [Finset.sum_range]
      have := congrFun (hH.mulVec_eigenvectorBasis ⟨a, ha⟩) ⟨i, hi⟩
      have e1 := flatV N B ⟨i, hi⟩ ⟨a, ha⟩
      dsimp only at e1 ⊢
      rw [e1, dif_pos ha]
      refine Eq.trans (Finset.sum_congr rfl fun j _ => ?_) (this.trans ?_)
      · have e2 := flatV N B j ⟨a, ha⟩
        dsimp only at e2
        rw [e2]
        congr 1
      · rw [Pi.smul_apply, RCLike.real_smul_eq_coe_mul, mul_comm]
  choose ev hev using this
  exact ⟨ev, hev⟩

/-- All addresses of the periodic matrices are inside the array as long as the stencil is not wider than the
period on one side. -/
theorem periodic_in_bounds (F N i : ℕ) (j : ℤ) (hF : F ≤ N) (hi : i < N) (h1 : (i : ℤ) - F ≤ j) :
    0 ≤ wrapAddr N i j ∧ wrapAddr N i j < N * N := by
  unfold wrapAddr
  have hN : (0 : ℤ) < N := by omega
  rw [Int.tmod_eq_emod_of_nonneg (by omega)]
  have h2 := Int.emod_nonneg (j + N) hN.ne'
  have h3 := Int.emod_lt_of_pos (j + N) hN
  generalize (j + (N : ℤ)) % N = r at *
  have h4 : r * N ≤ (N - 1) * N := mul_le_mul_of_nonneg_right (by omega) hN.le
  constructor
  · positivity
  · nlinarith [(Nat.cast_lt (α := ℤ)).2 hi]

/-- With a wider stencil the code writes before the beginning of the array: 4 points, order 12. -/
theorem periodic_out_of_bounds : (-6 : ℤ) ∈ cols ((0 : ℕ) - (6 : ℕ)) ((0 : ℕ) + (6 : ℕ)) ∧ wrapAddr 4 0 (-6) < 0 := by
  decide

/-! ## Concrete instances -/

/-- Order 12 on an 8 x 10 x 5 grid, periodic along x and y, Dirichlet along z. -/
example : ∃ syev, ExactSolver syev ∧ ∀ wx wy wz,
    Implements (initReal syev 6 8 10 5 0 0 1 wx wy wz) (fun u d => lapKron 8 10 5
      (initReal syev 6 8 10 5 0 0 1 wx wy wz).Vx (initReal syev 6 8 10 5 0 0 1 wx wy wz).Vy
      (initReal syev 6 8 10 5 0 0 1 wx wy wz).Vz u d u u u)
      (fdLap 6 8 10 wx wy wz (flagExt 0 8) (flagExt 0 10) (flagExt 1 5)) := by
  obtain ⟨ev, hev⟩ := exists_solver (𝕜 := ℝ)
  exact ⟨ev, hev, fun wx wy wz => (kron_real ev hev 6 8 10 5 0 0 1 wx wy wz (by decide) (by decide)
    (by decide) (fun u _ => u) (fun u _ => u) (fun u _ => u)).2⟩

/-- Second differences on three periodic points: the row of the first point. -/
example (u : ℕ → ℝ) : stencil 1 (fun n => if n = 0 then -2 else 1) (flagExt 0 3 u) 0 = u 2 - 2 * u 0 + u 1 := by
  unfold stencil flagExt
  have : Finset.Icc (-((1 : ℕ) : ℤ)) ((1 : ℕ) : ℤ) = {-1, 0, 1} := by decide
  rw [this]
  have h2 : Int.toNat 2 = 2 := rfl
  norm_num
  rw [h2]
  ring

end Sparc.Kron

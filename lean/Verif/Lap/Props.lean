import Verif.Lap.Lemmas
import Verif.Coord.Props

/-!
# The finite-difference Laplacian on one process: properties

C05 (all branches for oblique cells implement the same operator); the orthogonal kernel, used
by C03.
-/

open Finset

namespace Sparc.Lap

open Loop

/-! ### Specification -/

/-- A function of the grid indices. -/
abbrev Fun3 := ℤ → ℤ → ℤ → ℝ

/-- First derivative along one lattice direction. -/
noncomputable def D (n : ℕ) (h : Fin 3 → ℝ) (d : Fin 3) (u : Fun3) : Fun3 := fun i j k =>
  match d with
  | 0 => FD.applyD1 n (FD.coefD1 n (h 0)) (fun s => u s j k) i
  | 1 => FD.applyD1 n (FD.coefD1 n (h 1)) (fun s => u i s k) j
  | 2 => FD.applyD1 n (FD.coefD1 n (h 2)) (fun s => u i j s) k

/-- Second derivative along one lattice direction. -/
noncomputable def DD (n : ℕ) (h : Fin 3 → ℝ) (d : Fin 3) (u : Fun3) : Fun3 := fun i j k =>
  match d with
  | 0 => FD.applyD2 n (FD.coefD2 n (h 0)) (fun s => u s j k) i
  | 1 => FD.applyD2 n (FD.coefD2 n (h 1)) (fun s => u i s k) j
  | 2 => FD.applyD2 n (FD.coefD2 n (h 2)) (fun s => u i j s) k

/-- `Σ_de T_de D_d D_e u`, with the second-derivative stencil on the diagonal. -/
noncomputable def lap (n : ℕ) (h : Fin 3 → ℝ) (T : ℕ → ℝ) (u : Fun3) : Fun3 := fun i j k =>
  ∑ d : Fin 3, ∑ e : Fin 3, T (3 * d + e) *
    (if d = e then DD n h d u i j k else D n h d (D n h e u) i j k)

/-- `x_ex` holds the values of `u` on the block and on its halo of width `FDn`, edges and corners
included. -/
def Halo (A : Args) (u : Fun3) : Prop :=
  ∀ i j k : ℤ, -A.FDn ≤ i → i < A.DMnx + A.FDn → -A.FDn ≤ j → j < A.DMny + A.FDn →
    -A.FDn ≤ k → k < A.DMnz + A.FDn →
    A.xex ((k + A.FDn) * ((A.DMnx + 2 * A.FDn) * (A.DMny + 2 * A.FDn)) +
      (j + A.FDn) * (A.DMnx + 2 * A.FDn) + (i + A.FDn)) = u i j k

/-- The same, only at points that lie outside the block in at most one direction. -/
def HaloFaces (A : Args) (u : Fun3) : Prop :=
  ∀ i j k : ℤ, -A.FDn ≤ i → i < A.DMnx + A.FDn → -A.FDn ≤ j → j < A.DMny + A.FDn →
    -A.FDn ≤ k → k < A.DMnz + A.FDn →
    (0 ≤ i ∧ i < A.DMnx ∧ 0 ≤ j ∧ j < A.DMny ∨ 0 ≤ i ∧ i < A.DMnx ∧ 0 ≤ k ∧ k < A.DMnz ∨
      0 ≤ j ∧ j < A.DMny ∧ 0 ≤ k ∧ k < A.DMnz) →
    A.xex ((k + A.FDn) * ((A.DMnx + 2 * A.FDn) * (A.DMny + 2 * A.FDn)) +
      (j + A.FDn) * (A.DMnx + 2 * A.FDn) + (i + A.FDn)) = u i j k

/-- Place of point `(i,j,k)` in an array of the block. -/
def at3 (A : Args) (i j k : ℕ) : ℤ := (k : ℤ) * (A.DMnx * A.DMny) + j * A.DMnx + i

/-- The mixed coefficients used by a cell type. -/
def keep (typ : ℕ) (T : ℕ → ℝ) (m : ℕ) : ℝ :=
  if m = 1 ∨ m = 3 then (if typ ∈ [11, 14, 16, 17] then T m else 0)
  else if m = 2 ∨ m = 6 then (if typ ∈ [12, 14, 15, 17] then T m else 0)
  else if m = 5 ∨ m = 7 then (if typ ∈ [13, 15, 16, 17] then T m else 0)
  else T m

/-! ### Proofs -/

theorem S1_coefD1 (n : ℕ) (h : ℝ) (f : ℤ → ℝ) (i : ℤ) :
    S1 n (fun p => FD.fdD1 n p * (1 / h)) f i = FD.applyD1 n (FD.coefD1 n h) f i := by
  rw [applyD1_eq]; rfl

theorem lap_eq (n : ℕ) (h : Fin 3 → ℝ) (T : ℕ → ℝ) (h1 : T 3 = T 1) (h2 : T 6 = T 2) (h5 : T 7 = T 5)
    (u : Fun3) (i j k : ℤ) : lap n h T u i j k =
    T 0 * DD n h 0 u i j k + T 4 * DD n h 1 u i j k + T 8 * DD n h 2 u i j k +
    2 * T 1 * D n h 0 (D n h 1 u) i j k + 2 * T 2 * D n h 0 (D n h 2 u) i j k +
    2 * T 5 * D n h 1 (D n h 2 u) i j k := by
  have c01 : D n h 1 (D n h 0 u) i j k = D n h 0 (D n h 1 u) i j k := by
    simp only [D, applyD1_eq]; exact S1_comm _ _ _ (fun t s => u s t k) _ _
  have c02 : D n h 2 (D n h 0 u) i j k = D n h 0 (D n h 2 u) i j k := by
    simp only [D, applyD1_eq]; exact S1_comm _ _ _ (fun t s => u s j t) _ _
  have c12 : D n h 2 (D n h 1 u) i j k = D n h 1 (D n h 2 u) i j k := by
    simp only [D, applyD1_eq]; exact S1_comm _ _ _ (fun t s => u i s t) _ _
  simp only [lap, Fin.sum_univ_three]
  norm_num [h1, h2, h5, c01, c02, c12, show ¬ (2 : Fin 3) = 0 by decide, show ¬ (2 : Fin 3) = 1 by decide,
    show ¬ (0 : Fin 3) = 2 by decide, show ¬ (1 : Fin 3) = 2 by decide]
  ring

theorem S2_congr {n : ℕ} {w w' : ℕ → ℝ} (h : ∀ p, 1 ≤ p → p ≤ n → w p = w' p) (f : ℤ → ℝ) (i : ℤ) :
    S2 n w f i = S2 n w' f i := by
  unfold S2
  refine sum_congr rfl fun r hr => ?_
  have := mem_range.1 hr
  rw [h (r + 1) (by omega) (by omega)]

theorem S1_congr {n : ℕ} {w w' : ℕ → ℝ} (h : ∀ p, 1 ≤ p → p ≤ n → w p = w' p) (f : ℤ → ℝ) (i : ℤ) :
    S1 n w f i = S1 n w' f i := by
  unfold S1
  refine sum_congr rfl fun r hr => ?_
  have := mem_range.1 hr
  rw [h (r + 1) (by omega) (by omega)]

theorem S1_congr_fun {n : ℕ} {w : ℕ → ℝ} {f g : ℤ → ℝ} (h : ∀ s, f s = g s) (i : ℤ) :
    S1 n w f i = S1 n w g i := by
  rw [show f = g from funext h]

/-- Scaled second-derivative stencil. -/
theorem S2_D2 (n : ℕ) (T a h : ℝ) (f : ℤ → ℝ) (i : ℤ) :
    S2 n (fun p => T * FD.fdD2 n p * (1 / (h * h)) * a) f i =
      a * (T * (FD.applyD2 n (FD.coefD2 n h) f i - f i * FD.coefD2 n h 0)) := by
  rw [applyD2_eq, add_sub_cancel_left, ← S2_smul, ← S2_smul]
  exact S2_congr (fun p _ _ => by simp only [FD.coefD2]; ring) f i

/-- Scaled first-derivative stencil. -/
theorem S1_D1 (n : ℕ) (T a h : ℝ) (f : ℤ → ℝ) (i : ℤ) :
    S1 n (fun p => T * FD.fdD1 n p * (1 / h) * a) f i =
      a * (T * FD.applyD1 n (FD.coefD1 n h) f i) := by
  rw [applyD1_eq, ← S1_smul, ← S1_smul]
  exact S1_congr (fun p _ _ => by simp only [FD.coefD1]; ring) f i

theorem S1_D1' (n : ℕ) (a h : ℝ) (f : ℤ → ℝ) (i : ℤ) :
    S1 n (fun p => FD.fdD1 n p * (1 / h) * a) f i = a * FD.applyD1 n (FD.coefD1 n h) f i := by
  rw [applyD1_eq, ← S1_smul]
  exact S1_congr (fun p _ _ => by simp only [FD.coefD1]; ring) f i

theorem S1_D1'' (n : ℕ) (T h : ℝ) (f : ℤ → ℝ) (i : ℤ) :
    S1 n (fun p => T * FD.fdD1 n p * (1 / h)) f i = T * FD.applyD1 n (FD.coefD1 n h) f i := by
  rw [applyD1_eq, ← S1_smul]
  exact S1_congr (fun p _ _ => by simp only [FD.coefD1]; ring) f i

theorem applyD1_add (n : ℕ) (w : ℕ → ℝ) (f g : ℤ → ℝ) (i : ℤ) :
    FD.applyD1 n w (fun j => f j + g j) i = FD.applyD1 n w f i + FD.applyD1 n w g i := by
  simp only [applyD1_eq, S1_add]

theorem applyD1_mul (n : ℕ) (w : ℕ → ℝ) (c : ℝ) (f : ℤ → ℝ) (i : ℤ) :
    FD.applyD1 n w (fun j => c * f j) i = c * FD.applyD1 n w f i := by
  simp only [applyD1_eq, S1_mul]

/-- The compacted coefficients of a list of four arrays are read at `4r+1+q`. -/
theorem lapWt4 {C : Coefs} {typ n : ℕ} {a : ℝ} {m : ℕ → ℝ} {c0 c1 c2 c3 : ℕ → ℝ}
    (h : packList C typ = [c0, c1, c2, c3]) {p : ℕ} (hp : 1 ≤ p) (hp' : p ≤ n) :
    lapWt C typ n a m (4 * p + 1) = c0 p * a ∧ lapWt C typ n a m (4 * p + 1 + 1) = c1 p * a ∧
    lapWt C typ n a m (4 * p + 1 + 2) = c2 p * a ∧ lapWt C typ n a m (4 * p + 1 + 3) = c3 p * a := by
  unfold lapWt
  rw [h]
  have e : ∀ q, 4 * p + 1 + q = 5 + (p - 1) * [c0, c1, c2, c3].length + q := by
    intro q; simp only [List.length_cons, List.length_nil]; omega
  refine ⟨?_, ?_, ?_, ?_⟩
  · rw [show 4 * p + 1 = 4 * p + 1 + 0 by ring, e 0]; exact pack_at _ _ _ _ _ _ hp hp' (by simp)
  · rw [e 1]; exact pack_at _ _ _ _ _ _ hp hp' (by simp)
  · rw [e 2]; exact pack_at _ _ _ _ _ _ hp hp' (by simp)
  · rw [e 3]; exact pack_at _ _ _ _ _ _ hp hp' (by simp)

theorem lapWt5 {C : Coefs} {typ n : ℕ} {a : ℝ} {m : ℕ → ℝ} {c0 c1 c2 c3 c4 : ℕ → ℝ}
    (h : packList C typ = [c0, c1, c2, c3, c4]) {p : ℕ} (hp : 1 ≤ p) (hp' : p ≤ n) :
    lapWt C typ n a m (5 * p) = c0 p * a ∧ lapWt C typ n a m (5 * p + 1) = c1 p * a ∧
    lapWt C typ n a m (5 * p + 2) = c2 p * a ∧ lapWt C typ n a m (5 * p + 3) = c3 p * a ∧
    lapWt C typ n a m (5 * p + 4) = c4 p * a := by
  unfold lapWt
  rw [h]
  have e : ∀ q, 5 * p + q = 5 + (p - 1) * [c0, c1, c2, c3, c4].length + q := by
    intro q; simp only [List.length_cons, List.length_nil]; omega
  refine ⟨?_, ?_, ?_, ?_, ?_⟩
  · rw [show 5 * p = 5 * p + 0 by ring, e 0]; exact pack_at _ _ _ _ _ _ hp hp' (by simp)
  · rw [e 1]; exact pack_at _ _ _ _ _ _ hp hp' (by simp)
  · rw [e 2]; exact pack_at _ _ _ _ _ _ hp hp' (by simp)
  · rw [e 3]; exact pack_at _ _ _ _ _ _ hp hp' (by simp)
  · rw [e 4]; exact pack_at _ _ _ _ _ _ hp hp' (by simp)

/-- The orthogonal kernel. -/
theorem orth_point (n : ℕ) (dx dy dz : ℝ) (A : Args) (hn : A.FDn = n) (u : Fun3)
    (hu : HaloFaces A u) {i j k : ℕ} (hi : i < A.DMnx) (hj : j < A.DMny) (hk : k < A.DMnz) :
    orth (coefs0 n dx dy dz) A (at3 A i j k) =
      A.a * (DD n ![dx, dy, dz] 0 u i j k + DD n ![dx, dy, dz] 1 u i j k + DD n ![dx, dy, dz] 2 u i j k) +
      effB A.b A.v * (effV A.b A.v A.x (at3 A i j k) * u i j k) + A.c * u i j k := by
  subst hn
  set n := A.FDn with hn
  unfold orth at3
  have hw : ∀ p, p ≤ n → lapWeights (coefs0 n dx dy dz) n A.a A.wt (3 * p) = (coefs0 n dx dy dz).D2x p * A.a ∧
      lapWeights (coefs0 n dx dy dz) n A.a A.wt (3 * p + 1) = (coefs0 n dx dy dz).D2y p * A.a ∧
      lapWeights (coefs0 n dx dy dz) n A.a A.wt (3 * p + 2) = (coefs0 n dx dy dz).D2z p * A.a := by
    intro p hp
    unfold lapWeights
    have e : ∀ q, 3 * p + q = 0 + (p - 0) * [(coefs0 n dx dy dz).D2x, (coefs0 n dx dy dz).D2y,
        (coefs0 n dx dy dz).D2z].length + q := by
      intro q; simp only [List.length_cons, List.length_nil]; omega
    refine ⟨?_, ?_, ?_⟩
    · rw [show 3 * p = 3 * p + 0 by ring, e 0]; exact pack_at _ _ _ _ _ _ (by omega) hp (by simp)
    · rw [e 1]; exact pack_at _ _ _ _ _ _ (by omega) hp (by simp)
    · rw [e 2]; exact pack_at _ _ _ _ _ _ (by omega) hp (by simp)
  obtain ⟨w0, w1, w2⟩ := hw 0 (by omega)
  simp only [mul_zero, zero_add] at w0 w1 w2
  rw [← hn]
  rw [stencil3_at A.xex (effV A.b A.v A.x) A.y n (A.DMnx + 2 * n) ((A.DMnx + 2 * n) * (A.DMny + 2 * n))
    (lapWeights (coefs0 n dx dy dz) n A.a A.wt) _ _ hi hj hk (fun s => u s j k) (fun s => u i s k)
    (fun s => u i j s) i j k _ rfl (u i j k)]
  · rw [S2_congr (w := fun p => lapWeights (coefs0 n dx dy dz) n A.a A.wt (3 * p))
        (w' := fun p => 1 * FD.fdD2 n p * (1 / (dx * dx)) * A.a)
        (fun p _ hp => by rw [(hw p hp).1]; simp only [coefs0]; ring),
      S2_congr (w := fun p => lapWeights (coefs0 n dx dy dz) n A.a A.wt (3 * p + 1))
        (w' := fun p => 1 * FD.fdD2 n p * (1 / (dy * dy)) * A.a)
        (fun p _ hp => by rw [(hw p hp).2.1]; simp only [coefs0]; ring),
      S2_congr (w := fun p => lapWeights (coefs0 n dx dy dz) n A.a A.wt (3 * p + 2))
        (w' := fun p => 1 * FD.fdD2 n p * (1 / (dz * dz)) * A.a)
        (fun p _ hp => by rw [(hw p hp).2.2]; simp only [coefs0]; ring),
      S2_D2, S2_D2, S2_D2, w0, w1, w2]
    simp only [DD, FD.coefD2, coefs0]
    simp only [Matrix.cons_val_zero, Matrix.cons_val_one, Matrix.cons_val]
    ring
  · rw [← hu i j k (by omega) (by omega) (by omega) (by omega) (by omega) (by omega) (by omega)]
    congr 1; rw [← hn]; ring
  · intro s h1 h2
    rw [← hu (i + s) j k (by omega) (by omega) (by omega) (by omega) (by omega) (by omega) (by omega)]
    congr 1; rw [← hn]; ring
  · intro s h1 h2
    rw [← hu i (j + s) k (by omega) (by omega) (by omega) (by omega) (by omega) (by omega) (by omega)]
    congr 1; rw [← hn]; ring
  · intro s h1 h2
    rw [← hu i j (k + s) (by omega) (by omega) (by omega) (by omega) (by omega) (by omega) (by omega)]
    congr 1; rw [← hn]; ring

/-! ### Intermediate arrays of the oblique branches -/

section
variable {A : Args} {u : Fun3} (hu : Halo A u)
include hu

/-- Reading `x_ex` at a shifted index. -/
theorem halo_read {i j k : ℤ} (h1 : -A.FDn ≤ i) (h2 : i < A.DMnx + A.FDn) (h3 : -A.FDn ≤ j)
    (h4 : j < A.DMny + A.FDn) (h5 : -A.FDn ≤ k) (h6 : k < A.DMnz + A.FDn) {q : ℤ}
    (hq : q = (k + A.FDn) * ((A.DMnx + 2 * A.FDn) * (A.DMny + 2 * A.FDn)) +
      (j + A.FDn) * (A.DMnx + 2 * A.FDn) + (i + A.FDn)) : A.xex q = u i j k := by
  rw [hq]; exact hu i j k h1 h2 h3 h4 h5 h6

/-- Derivative along `y` on the block extended in `x`. -/
theorem dx_y (w : ℕ → ℝ) {i : ℤ} {j k : ℕ} (h1 : -A.FDn ≤ i) (h2 : i < A.DMnx + A.FDn)
    (hj : j < A.DMny) (hk : k < A.DMnz) :
    calcDX A.xex A.Dx1 A.FDn (A.DMnx + 2 * A.FDn) (A.DMnx + 2 * A.FDn) (A.DMnx + 2 * A.FDn)
      ((A.DMnx + 2 * A.FDn) * (A.DMny + 2 * A.FDn)) ((A.DMnx + 2 * A.FDn) * A.DMny)
      0 (A.DMnx + 2 * A.FDn) 0 A.DMny 0 A.DMnz 0 A.FDn A.FDn w 0
      ((k : ℤ) * ((A.DMnx + 2 * A.FDn) * A.DMny) + j * (A.DMnx + 2 * A.FDn) + (i + A.FDn)) =
    S1 A.FDn w (fun t => u i t k) j := by
  obtain ⟨I, hI⟩ : ∃ I : ℕ, (I : ℤ) = i + A.FDn := ⟨(i + A.FDn).toNat, by omega⟩
  have hE : ((A.DMnx + 2 * A.FDn : ℕ) : ℤ) = A.DMnx + 2 * A.FDn := by push_cast; rfl
  have := calcDX_at A.xex A.Dx1 A.FDn (A.DMnx + 2 * A.FDn) (A.DMnx + 2 * A.FDn)
    ((A.DMnx + 2 * A.FDn) * (A.DMny + 2 * A.FDn)) 0 A.FDn A.FDn w
    (wx := A.DMnx + 2 * A.FDn) (wy := A.DMny) (wz := A.DMnz) (i := I) (j := j) (k := k)
    (by omega) hj hk (fun t => u i t k) j (fun s hs hs' =>
      halo_read hu h1 h2 (by omega) (by omega) (by omega) (by omega) (by rw [hI]; ring))
  rw [hE, hI] at this
  exact this

/-- Derivative along `z` on the block extended in `x`. -/
theorem dx_z (w : ℕ → ℝ) {i : ℤ} {j k : ℕ} (h1 : -A.FDn ≤ i) (h2 : i < A.DMnx + A.FDn)
    (hj : j < A.DMny) (hk : k < A.DMnz) :
    calcDX A.xex A.Dx1 A.FDn ((A.DMnx + 2 * A.FDn) * (A.DMny + 2 * A.FDn)) (A.DMnx + 2 * A.FDn)
      (A.DMnx + 2 * A.FDn)
      ((A.DMnx + 2 * A.FDn) * (A.DMny + 2 * A.FDn)) ((A.DMnx + 2 * A.FDn) * A.DMny)
      0 (A.DMnx + 2 * A.FDn) 0 A.DMny 0 A.DMnz 0 A.FDn A.FDn w 0
      ((k : ℤ) * ((A.DMnx + 2 * A.FDn) * A.DMny) + j * (A.DMnx + 2 * A.FDn) + (i + A.FDn)) =
    S1 A.FDn w (fun t => u i j t) k := by
  obtain ⟨I, hI⟩ : ∃ I : ℕ, (I : ℤ) = i + A.FDn := ⟨(i + A.FDn).toNat, by omega⟩
  have hE : ((A.DMnx + 2 * A.FDn : ℕ) : ℤ) = A.DMnx + 2 * A.FDn := by push_cast; rfl
  have := calcDX_at A.xex A.Dx1 A.FDn ((A.DMnx + 2 * A.FDn) * (A.DMny + 2 * A.FDn))
    (A.DMnx + 2 * A.FDn)
    ((A.DMnx + 2 * A.FDn) * (A.DMny + 2 * A.FDn)) 0 A.FDn A.FDn w
    (wx := A.DMnx + 2 * A.FDn) (wy := A.DMny) (wz := A.DMnz) (i := I) (j := j) (k := k)
    (by omega) hj hk (fun t => u i j t) k (fun s hs hs' =>
      halo_read hu h1 h2 (by omega) (by omega) (by omega) (by omega) (by rw [hI]; ring))
  rw [hE, hI] at this
  exact this

/-- Derivative along `z` on the block extended in `y`. -/
theorem dy_z (DX : Mem) (w : ℕ → ℝ) {i k : ℕ} {j : ℤ} (h1 : -A.FDn ≤ j) (h2 : j < A.DMny + A.FDn)
    (hi : i < A.DMnx) (hk : k < A.DMnz) :
    calcDX A.xex DX A.FDn ((A.DMnx + 2 * A.FDn) * (A.DMny + 2 * A.FDn)) (A.DMnx + 2 * A.FDn)
      A.DMnx ((A.DMnx + 2 * A.FDn) * (A.DMny + 2 * A.FDn)) (A.DMnx * (A.DMny + 2 * A.FDn))
      0 A.DMnx 0 (A.DMny + 2 * A.FDn) 0 A.DMnz A.FDn 0 A.FDn w 0
      ((k : ℤ) * (A.DMnx * (A.DMny + 2 * A.FDn)) + (j + A.FDn) * A.DMnx + i) =
    S1 A.FDn w (fun t => u i j t) k := by
  obtain ⟨J, hJ⟩ : ∃ J : ℕ, (J : ℤ) = j + A.FDn := ⟨(j + A.FDn).toNat, by omega⟩
  have hE : ((A.DMny + 2 * A.FDn : ℕ) : ℤ) = A.DMny + 2 * A.FDn := by push_cast; rfl
  have := calcDX_at A.xex DX A.FDn ((A.DMnx + 2 * A.FDn) * (A.DMny + 2 * A.FDn))
    (A.DMnx + 2 * A.FDn)
    ((A.DMnx + 2 * A.FDn) * (A.DMny + 2 * A.FDn)) A.FDn 0 A.FDn w
    (wx := A.DMnx) (wy := A.DMny + 2 * A.FDn) (wz := A.DMnz) (i := i) (j := J) (k := k)
    hi (by omega) hk (fun t => u i j t) k (fun s hs hs' =>
      halo_read hu (by omega) (by omega) h1 h2 (by omega) (by omega) (by rw [hJ]; ring))
  rw [hE, hJ] at this
  exact this

/-- Sum of the derivatives along `y` and `z` on the block extended in `x`. -/
theorem dx_yz (w w' : ℕ → ℝ) {i : ℤ} {j k : ℕ} (h1 : -A.FDn ≤ i) (h2 : i < A.DMnx + A.FDn)
    (hj : j < A.DMny) (hk : k < A.DMnz) :
    calcDX12 A.xex A.Dx1 A.FDn (A.DMnx + 2 * A.FDn) ((A.DMnx + 2 * A.FDn) * (A.DMny + 2 * A.FDn))
      (A.DMnx + 2 * A.FDn) (A.DMnx + 2 * A.FDn)
      ((A.DMnx + 2 * A.FDn) * (A.DMny + 2 * A.FDn)) ((A.DMnx + 2 * A.FDn) * A.DMny)
      0 (A.DMnx + 2 * A.FDn) 0 A.DMny 0 A.DMnz 0 A.FDn A.FDn w w'
      ((k : ℤ) * ((A.DMnx + 2 * A.FDn) * A.DMny) + j * (A.DMnx + 2 * A.FDn) + (i + A.FDn)) =
    S1 A.FDn w (fun t => u i t k) j + S1 A.FDn w' (fun t => u i j t) k := by
  obtain ⟨I, hI⟩ : ∃ I : ℕ, (I : ℤ) = i + A.FDn := ⟨(i + A.FDn).toNat, by omega⟩
  have hE : ((A.DMnx + 2 * A.FDn : ℕ) : ℤ) = A.DMnx + 2 * A.FDn := by push_cast; rfl
  have := calcDX12_at A.xex A.Dx1 A.FDn (A.DMnx + 2 * A.FDn)
    ((A.DMnx + 2 * A.FDn) * (A.DMny + 2 * A.FDn)) (A.DMnx + 2 * A.FDn)
    ((A.DMnx + 2 * A.FDn) * (A.DMny + 2 * A.FDn)) 0 A.FDn A.FDn w w'
    (wx := A.DMnx + 2 * A.FDn) (wy := A.DMny) (wz := A.DMnz) (i := I) (j := j) (k := k)
    (by omega) hj hk (fun t => u i t k) (fun t => u i j t) j k (fun s hs hs' =>
      halo_read hu h1 h2 (by omega) (by omega) (by omega) (by omega) (by rw [hI]; ring))
    (fun s hs hs' =>
      halo_read hu h1 h2 (by omega) (by omega) (by omega) (by omega) (by rw [hI]; ring))
  rw [hE, hI] at this
  exact this

/-- Sum of the derivatives along `x` and `y` on the block extended in `z`. -/
theorem dz_xy (w w' : ℕ → ℝ) {i j : ℕ} {k : ℤ} (h1 : -A.FDn ≤ k) (h2 : k < A.DMnz + A.FDn)
    (hi : i < A.DMnx) (hj : j < A.DMny) :
    calcDX12 A.xex A.Dx1 A.FDn 1 (A.DMnx + 2 * A.FDn)
      (A.DMnx + 2 * A.FDn) A.DMnx
      ((A.DMnx + 2 * A.FDn) * (A.DMny + 2 * A.FDn)) (A.DMnx * A.DMny)
      0 A.DMnx 0 A.DMny 0 (A.DMnz + 2 * A.FDn) A.FDn A.FDn 0 w w'
      ((k + A.FDn) * (A.DMnx * A.DMny) + j * A.DMnx + i) =
    S1 A.FDn w (fun t => u t j k) i + S1 A.FDn w' (fun t => u i t k) j := by
  obtain ⟨K, hK⟩ : ∃ K : ℕ, (K : ℤ) = k + A.FDn := ⟨(k + A.FDn).toNat, by omega⟩
  have hE : ((A.DMnz + 2 * A.FDn : ℕ) : ℤ) = A.DMnz + 2 * A.FDn := by push_cast; rfl
  have := calcDX12_at A.xex A.Dx1 A.FDn 1 (A.DMnx + 2 * A.FDn) (A.DMnx + 2 * A.FDn)
    ((A.DMnx + 2 * A.FDn) * (A.DMny + 2 * A.FDn)) A.FDn A.FDn 0 w w'
    (wx := A.DMnx) (wy := A.DMny) (wz := A.DMnz + 2 * A.FDn) (i := i) (j := j) (k := K)
    hi hj (by omega) (fun t => u t j k) (fun t => u i t k) i j (fun s hs hs' =>
      halo_read hu (by omega) (by omega) (by omega) (by omega) h1 h2 (by rw [hK]; ring))
    (fun s hs hs' =>
      halo_read hu (by omega) (by omega) (by omega) (by omega) h1 h2 (by rw [hK]; ring))
  rw [hE, hK] at this
  exact this

/-- Sum of the derivatives along `x` and `z` on the block extended in `y`. -/
theorem dy_xz (w w' : ℕ → ℝ) {i k : ℕ} {j : ℤ} (h1 : -A.FDn ≤ j) (h2 : j < A.DMny + A.FDn)
    (hi : i < A.DMnx) (hk : k < A.DMnz) :
    calcDX12 A.xex A.Dx1 A.FDn 1 ((A.DMnx + 2 * A.FDn) * (A.DMny + 2 * A.FDn))
      (A.DMnx + 2 * A.FDn) A.DMnx
      ((A.DMnx + 2 * A.FDn) * (A.DMny + 2 * A.FDn)) (A.DMnx * (A.DMny + 2 * A.FDn))
      0 A.DMnx 0 (A.DMny + 2 * A.FDn) 0 A.DMnz A.FDn 0 A.FDn w w'
      ((k : ℤ) * (A.DMnx * (A.DMny + 2 * A.FDn)) + (j + A.FDn) * A.DMnx + i) =
    S1 A.FDn w (fun t => u t j k) i + S1 A.FDn w' (fun t => u i j t) k := by
  obtain ⟨J, hJ⟩ : ∃ J : ℕ, (J : ℤ) = j + A.FDn := ⟨(j + A.FDn).toNat, by omega⟩
  have hE : ((A.DMny + 2 * A.FDn : ℕ) : ℤ) = A.DMny + 2 * A.FDn := by push_cast; rfl
  have := calcDX12_at A.xex A.Dx1 A.FDn 1 ((A.DMnx + 2 * A.FDn) * (A.DMny + 2 * A.FDn))
    (A.DMnx + 2 * A.FDn)
    ((A.DMnx + 2 * A.FDn) * (A.DMny + 2 * A.FDn)) A.FDn 0 A.FDn w w'
    (wx := A.DMnx) (wy := A.DMny + 2 * A.FDn) (wz := A.DMnz) (i := i) (j := J) (k := k)
    hi (by omega) hk (fun t => u t j k) (fun t => u i j t) i k (fun s hs hs' =>
      halo_read hu (by omega) (by omega) h1 h2 (by omega) (by omega) (by rw [hJ]; ring))
    (fun s hs hs' =>
      halo_read hu (by omega) (by omega) h1 h2 (by omega) (by omega) (by rw [hJ]; ring))
  rw [hE, hJ] at this
  exact this

end

/-- The coefficients of the three second derivatives, in the form in which the four-component
kernel reads them. -/
theorem four_point {A : Args} {u : Fun3} (hu : Halo A u) (T : ℕ → ℝ) (dx dy dz : ℝ) {typ : ℕ}
    {c3 : ℕ → ℝ}
    (hp : packList (coefs T A.FDn dx dy dz) typ = [(coefs T A.FDn dx dy dz).D2x,
      (coefs T A.FDn dx dy dz).D2y, (coefs T A.FDn dx dy dz).D2z, c3])
    {i j k : ℕ} (hi : i < A.DMnx) (hj : j < A.DMny) (hk : k < A.DMnz) (DX : Mem)
    (sD syD szD xD yD zD : ℤ) (g : ℤ → ℝ) (p : ℤ)
    (hD : ∀ s : ℤ, -A.FDn ≤ s → s ≤ A.FDn →
      DX ((zD + k) * szD + (yD + j) * syD + i + xD + s * sD) = g (p + s)) :
    stencil4 A.xex DX A.FDn sD A.DMnx (A.DMnx + 2 * A.FDn) syD (A.DMnx * A.DMny)
      ((A.DMnx + 2 * A.FDn) * (A.DMny + 2 * A.FDn)) szD 0 A.DMnx 0 A.DMny 0 A.DMnz
      A.FDn A.FDn A.FDn xD yD zD (lapWt (coefs T A.FDn dx dy dz) typ A.FDn A.a A.wt)
      (((coefs T A.FDn dx dy dz).D2x 0 + (coefs T A.FDn dx dy dz).D2y 0 +
        (coefs T A.FDn dx dy dz).D2z 0) * A.a + A.c) (effB A.b A.v) (effV A.b A.v A.x) A.y
      (at3 A i j k) =
    A.a * (T 0 * DD A.FDn ![dx, dy, dz] 0 u i j k + T 4 * DD A.FDn ![dx, dy, dz] 1 u i j k +
      T 8 * DD A.FDn ![dx, dy, dz] 2 u i j k) + S1 A.FDn (fun q => c3 q * A.a) g p +
    effB A.b A.v * (effV A.b A.v A.x (at3 A i j k) * u i j k) + A.c * u i j k := by
  unfold at3
  rw [stencil4_at A.xex DX (effV A.b A.v A.x) A.y A.FDn sD (A.DMnx + 2 * A.FDn) syD
    ((A.DMnx + 2 * A.FDn) * (A.DMny + 2 * A.FDn)) szD xD yD zD _ _ _ hi hj hk (fun s => u s j k)
    (fun s => u i s k) (fun s => u i j s) g i j k p _ rfl (u i j k)
    (halo_read hu (by omega) (by omega) (by omega) (by omega) (by omega) (by omega) (by ring)) _ rfl
    (fun s h1 h2 => halo_read hu (by omega) (by omega) (by omega) (by omega) (by omega) (by omega)
      (by ring))
    (fun s h1 h2 => halo_read hu (by omega) (by omega) (by omega) (by omega) (by omega) (by omega)
      (by ring))
    (fun s h1 h2 => halo_read hu (by omega) (by omega) (by omega) (by omega) (by omega) (by omega)
      (by ring)) hD]
  rw [S2_congr (w := fun p => lapWt (coefs T A.FDn dx dy dz) typ A.FDn A.a A.wt (4 * p + 1))
        (w' := fun p => T 0 * FD.fdD2 A.FDn p * (1 / (dx * dx)) * A.a)
        (fun p h1 h2 => (lapWt4 hp h1 h2).1),
      S2_congr (w := fun p => lapWt (coefs T A.FDn dx dy dz) typ A.FDn A.a A.wt (4 * p + 1 + 1))
        (w' := fun p => T 4 * FD.fdD2 A.FDn p * (1 / (dy * dy)) * A.a)
        (fun p h1 h2 => (lapWt4 hp h1 h2).2.1),
      S2_congr (w := fun p => lapWt (coefs T A.FDn dx dy dz) typ A.FDn A.a A.wt (4 * p + 1 + 2))
        (w' := fun p => T 8 * FD.fdD2 A.FDn p * (1 / (dz * dz)) * A.a)
        (fun p h1 h2 => (lapWt4 hp h1 h2).2.2.1),
      S1_congr (w := fun p => lapWt (coefs T A.FDn dx dy dz) typ A.FDn A.a A.wt (4 * p + 1 + 3))
        (w' := fun q => c3 q * A.a) (fun p h1 h2 => (lapWt4 hp h1 h2).2.2.2),
      S2_D2, S2_D2, S2_D2]
  simp only [DD, FD.coefD2, coefs]
  simp only [Matrix.cons_val_zero, Matrix.cons_val_one, Matrix.cons_val]
  ring

theorem nonorth_point (T : ℕ → ℝ) (h1 : T 3 = T 1) (h2 : T 6 = T 2) (h5 : T 7 = T 5) (dx dy dz : ℝ)
    (typ : ℕ) (ht : 11 ≤ typ) (ht' : typ ≤ 17) (A : Args) (u : Fun3) (hu : Halo A u) {i j k : ℕ}
    (hi : i < A.DMnx) (hj : j < A.DMny) (hk : k < A.DMnz) :
    nonorth (coefs T A.FDn dx dy dz) typ A (at3 A i j k) =
      A.a * lap A.FDn ![dx, dy, dz] (keep typ T) u i j k +
      effB A.b A.v * (effV A.b A.v A.x (at3 A i j k) * u i j k) + A.c * u i j k := by
  rw [lap_eq _ _ _ (by simp [keep, h1]) (by simp [keep, h2]) (by simp [keep, h5])]
  unfold nonorth
  have e2 : (![dx, dy, dz] : Fin 3 → ℝ) 2 = dz := rfl
  interval_cases typ
  · rw [if_pos rfl]
    refine (four_point hu T dx dy dz (typ := 11) (c3 := (coefs T A.FDn dx dy dz).D2xy)
      (by simp [packList]) hi hj hk _ _ _ _ _ _ _
      (fun s => S1 A.FDn (coefs T A.FDn dx dy dz).D1y (fun t => u s t k) j) i
      (fun s hs hs' => by
        rw [← dx_y hu _ (i := i + s) (by omega) (by omega) hj hk]
        congr 1
        ring)).trans ?_
    simp only [coefs, keep, D]
    simp only [S1_D1, S1_coefD1]
    norm_num [e2]
    ring
  · rw [if_neg (by norm_num), if_pos rfl]
    refine (four_point hu T dx dy dz (typ := 12) (c3 := (coefs T A.FDn dx dy dz).D2xz)
      (by simp [packList]) hi hj hk _ _ _ _ _ _ _
      (fun s => S1 A.FDn (coefs T A.FDn dx dy dz).D1z (fun t => u s j t) k) i
      (fun s hs hs' => by
        rw [← dx_z hu _ (i := i + s) (by omega) (by omega) hj hk]
        congr 1
        ring)).trans ?_
    simp only [coefs, keep, D]
    simp only [S1_D1, S1_D1', S1_D1'', S1_coefD1]
    norm_num [e2]
    ring
  · rw [if_neg (by norm_num), if_neg (by norm_num), if_pos rfl]
    refine (four_point hu T dx dy dz (typ := 13) (c3 := (coefs T A.FDn dx dy dz).D2yz)
      (by simp [packList]) hi hj hk _ _ _ _ _ _ _
      (fun s => S1 A.FDn (coefs T A.FDn dx dy dz).D1z (fun t => u i s t) k) j
      (fun s hs hs' => by
        rw [← dy_z hu _ _ (j := j + s) (by omega) (by omega) hi hk]
        congr 1
        ring)).trans ?_
    simp only [coefs, keep, D]
    simp only [S1_D1, S1_D1', S1_D1'', S1_coefD1]
    norm_num [e2]
    ring
  · rw [if_neg (by norm_num), if_neg (by norm_num), if_neg (by norm_num), if_pos rfl]
    refine (four_point hu T dx dy dz (typ := 14) (c3 := (coefs T A.FDn dx dy dz).D1x)
      (by simp [packList]) hi hj hk _ _ _ _ _ _ _
      (fun s => S1 A.FDn (coefs T A.FDn dx dy dz).D1xy (fun t => u s t k) j +
        S1 A.FDn (coefs T A.FDn dx dy dz).D1xz (fun t => u s j t) k) i
      (fun s hs hs' => by
        rw [← dx_yz hu _ _ (i := i + s) (by omega) (by omega) hj hk]
        congr 1
        ring)).trans ?_
    simp only [coefs, keep, D]
    simp only [S1_D1, S1_D1', S1_D1'', S1_coefD1]
    rw [applyD1_add, applyD1_mul, applyD1_mul]
    norm_num [e2]
    ring
  · rw [if_neg (by norm_num), if_neg (by norm_num), if_neg (by norm_num), if_neg (by norm_num), if_pos rfl]
    refine (four_point hu T dx dy dz (typ := 15) (c3 := (coefs T A.FDn dx dy dz).D1z)
      (by simp [packList]) hi hj hk _ _ _ _ _ _ _
      (fun s => S1 A.FDn (coefs T A.FDn dx dy dz).D1zx (fun t => u t j s) i +
        S1 A.FDn (coefs T A.FDn dx dy dz).D1zy (fun t => u i t s) j) k
      (fun s hs hs' => by
        rw [← dz_xy hu _ _ (k := k + s) (by omega) (by omega) hi hj]
        congr 1
        ring)).trans ?_
    simp only [coefs, keep, D]
    simp only [S1_D1, S1_D1', S1_D1'', S1_coefD1]
    rw [applyD1_add, applyD1_mul, applyD1_mul]
    have c1 := S1_comm A.FDn (FD.coefD1 A.FDn dz) (FD.coefD1 A.FDn dx) (fun t s => u s j t) k i
    have c2 := S1_comm A.FDn (FD.coefD1 A.FDn dz) (FD.coefD1 A.FDn dy) (fun t s => u i s t) k j
    simp only [← applyD1_eq] at c1 c2
    rw [c1, c2]
    norm_num [e2]
    ring
  · rw [if_neg (by norm_num), if_neg (by norm_num), if_neg (by norm_num), if_neg (by norm_num), if_neg (by norm_num), if_pos rfl]
    refine (four_point hu T dx dy dz (typ := 16) (c3 := (coefs T A.FDn dx dy dz).D1y)
      (by simp [packList]) hi hj hk _ _ _ _ _ _ _
      (fun s => S1 A.FDn (coefs T A.FDn dx dy dz).D1yx (fun t => u t s k) i +
        S1 A.FDn (coefs T A.FDn dx dy dz).D1yz (fun t => u i s t) k) j
      (fun s hs hs' => by
        rw [← dy_xz hu _ _ (j := j + s) (by omega) (by omega) hi hk]
        congr 1
        ring)).trans ?_
    simp only [coefs, keep, D]
    simp only [S1_D1, S1_D1', S1_D1'', S1_coefD1]
    rw [applyD1_add, applyD1_mul, applyD1_mul]
    have c1 := S1_comm A.FDn (FD.coefD1 A.FDn dy) (FD.coefD1 A.FDn dx) (fun t s => u s t k) j i
    simp only [← applyD1_eq] at c1
    rw [c1]
    norm_num [e2]
    ring
  · rw [if_neg (by norm_num), if_neg (by norm_num), if_neg (by norm_num), if_neg (by norm_num), if_neg (by norm_num), if_neg (by norm_num), if_pos rfl]
    have hp : packList (coefs T A.FDn dx dy dz) 17 = [(coefs T A.FDn dx dy dz).D2x, (coefs T A.FDn dx dy dz).D2y,
        (coefs T A.FDn dx dy dz).D2z, (coefs T A.FDn dx dy dz).D1x, (coefs T A.FDn dx dy dz).D2yz] := by
      simp [packList]
    rw [at3, stencil5_at A.xex _ _ (effV A.b A.v A.x) A.y A.FDn 1 A.DMnx (A.DMnx + 2 * A.FDn)
      (A.DMnx + 2 * A.FDn) A.DMnx ((A.DMnx + 2 * A.FDn) * (A.DMny + 2 * A.FDn))
      ((A.DMnx + 2 * A.FDn) * A.DMny) (A.DMnx * (A.DMny + 2 * A.FDn)) A.FDn 0 0 0 A.FDn 0
      _ _ _ hi hj hk (fun s => u s j k)
      (fun s => u i s k) (fun s => u i j s)
      (fun s => S1 A.FDn (coefs T A.FDn dx dy dz).D1xy (fun t => u s t k) j +
        S1 A.FDn (coefs T A.FDn dx dy dz).D1xz (fun t => u s j t) k)
      (fun s => S1 A.FDn (coefs T A.FDn dx dy dz).D1z (fun t => u i s t) k) i j k i j _ rfl (u i j k)
      (halo_read hu (by omega) (by omega) (by omega) (by omega) (by omega) (by omega) (by ring))
      _ rfl _ rfl
      (fun s h1 h2 => halo_read hu (by omega) (by omega) (by omega) (by omega) (by omega) (by omega)
        (by ring))
      (fun s h1 h2 => halo_read hu (by omega) (by omega) (by omega) (by omega) (by omega) (by omega)
        (by ring))
      (fun s h1 h2 => halo_read hu (by omega) (by omega) (by omega) (by omega) (by omega) (by omega)
        (by ring))
      (fun s hs hs' => by
        rw [← dx_yz hu _ _ (i := i + s) (by omega) (by omega) hj hk]
        congr 1
        ring)
      (fun s hs hs' => by
        rw [← dy_z hu A.Dx2 _ (j := j + s) (by omega) (by omega) hi hk]
        congr 1
        ring)]
    rw [S2_congr (w := fun p => lapWt (coefs T A.FDn dx dy dz) 17 A.FDn A.a A.wt (5 * p))
        (w' := fun p => T 0 * FD.fdD2 A.FDn p * (1 / (dx * dx)) * A.a)
        (fun p h1 h2 => (lapWt5 hp h1 h2).1),
      S2_congr (w := fun p => lapWt (coefs T A.FDn dx dy dz) 17 A.FDn A.a A.wt (5 * p + 1))
        (w' := fun p => T 4 * FD.fdD2 A.FDn p * (1 / (dy * dy)) * A.a)
        (fun p h1 h2 => (lapWt5 hp h1 h2).2.1),
      S2_congr (w := fun p => lapWt (coefs T A.FDn dx dy dz) 17 A.FDn A.a A.wt (5 * p + 2))
        (w' := fun p => T 8 * FD.fdD2 A.FDn p * (1 / (dz * dz)) * A.a)
        (fun p h1 h2 => (lapWt5 hp h1 h2).2.2.1),
      S1_congr (w := fun p => lapWt (coefs T A.FDn dx dy dz) 17 A.FDn A.a A.wt (5 * p + 3))
        (w' := fun p => (coefs T A.FDn dx dy dz).D1x p * A.a) (fun p h1 h2 => (lapWt5 hp h1 h2).2.2.2.1),
      S1_congr (w := fun p => lapWt (coefs T A.FDn dx dy dz) 17 A.FDn A.a A.wt (5 * p + 4))
        (w' := fun p => (coefs T A.FDn dx dy dz).D2yz p * A.a) (fun p h1 h2 => (lapWt5 hp h1 h2).2.2.2.2),
      S2_D2, S2_D2, S2_D2]
    simp only [coefs, keep, D, DD, FD.coefD2]
    simp only [S1_D1, S1_D1', S1_D1'', S1_coefD1]
    rw [applyD1_add, applyD1_mul, applyD1_mul]
    norm_num [e2]
    ring

/-- The off-diagonal coefficients that the program treats as zero. -/
noncomputable def kept (G : Coord.Geom) (m : ℕ) : ℝ :=
  if m ∈ [1, 2, 3, 5, 6, 7] ∧ |G.lapc m| < Coord.tempTol ∧ G.cellTyp ≠ 17 then 0 else G.lapc m

theorem lapc_symm {L : ℕ → ℝ} {G : Coord.Geom} (h : Coord.transformMat L = some G) :
    G.lapc 3 = G.lapc 1 ∧ G.lapc 6 = G.lapc 2 ∧ G.lapc 7 = G.lapc 5 := by
  obtain ⟨-, -, -, -, -, hl, -⟩ := Coord.transformMat_some h
  have r3 : List.range 3 = [0, 1, 2] := rfl
  rw [hl]
  simp only [Coord.lapcT, r3, List.foldl_cons, List.foldl_nil]
  norm_num
  refine ⟨by ring, by ring, by ring⟩

/-- Types 11 to 16 are only given when the remaining coefficients are below the tolerance. -/
theorem typ_small {L : ℕ → ℝ} {G : Coord.Geom} (h : Coord.transformMat L = some G)
    (h10 : 10 < G.cellTyp) :
    G.cellTyp ≤ 17 ∧
    (G.cellTyp ∉ [11, 14, 16, 17] → |G.lapc 1| < Coord.tempTol) ∧
    (G.cellTyp ∉ [12, 14, 15, 17] → |G.lapc 2| < Coord.tempTol) ∧
    (G.cellTyp ∉ [13, 15, 16, 17] → |G.lapc 5| < Coord.tempTol) := by
  obtain ⟨-, -, -, -, -, -, hc⟩ := Coord.transformMat_some h
  have h0 : Coord.cellTyp0 L = 0 ∨ Coord.cellTyp0 L = 1 ∨ Coord.cellTyp0 L = 17 := by
    unfold Coord.cellTyp0
    dsimp only
    split_ifs <;> simp
  rw [hc] at h10 ⊢
  unfold Coord.cellTyp1 at h10 ⊢
  generalize |G.lapc 1| = x at *
  generalize |G.lapc 2| = y at *
  generalize |G.lapc 5| = z at *
  generalize Coord.cellTyp0 L = t at *
  generalize Coord.tempTol = e at *
  rcases lt_trichotomy x e with hx | hx | hx <;> rcases lt_trichotomy y e with hy | hy | hy <;>
    rcases lt_trichotomy z e with hz | hz | hz <;>
    simp [hx, hy, hz, hx.not_gt, hy.not_gt, hz.not_gt] at h10 ⊢ <;> omega

/-- **C05.** For every accepted lattice with an oblique cell type, every radius, every block and
every function `u` whose values on the block and its halo are in `x_ex`, the routine stores
`a Σ T_de D_d D_e u + b v u + c u` at every point of the block, whatever the branch, where `T` is
the metric of the lattice with the couplings below the tolerance of the program dropped. -/
theorem nonorth_correct (L : ℕ → ℝ) (G : Coord.Geom) (h : Coord.transformMat L = some G)
    (h10 : 10 < G.cellTyp) (dx dy dz : ℝ) (A : Args) (u : Fun3) (hu : Halo A u) {i j k : ℕ}
    (hi : i < A.DMnx) (hj : j < A.DMny) (hk : k < A.DMnz) :
    nonorth (coefs G.lapc A.FDn dx dy dz) G.cellTyp A (at3 A i j k) =
      A.a * lap A.FDn ![dx, dy, dz] (kept G) u i j k +
      effB A.b A.v * (effV A.b A.v A.x (at3 A i j k) * u i j k) + A.c * u i j k := by
  obtain ⟨s1, s2, s5⟩ := lapc_symm h
  obtain ⟨h17, t1, t2, t5⟩ := typ_small h h10
  rw [nonorth_point G.lapc s1 s2 s5 dx dy dz G.cellTyp h10 h17 A u hu hi hj hk]
  obtain ⟨-, -, -, k1, k2, k5⟩ := Coord.cellType_couplings L G h
  have e : ∀ m, m < 9 → keep G.cellTyp G.lapc m = kept G m := by
    intro m hm
    unfold kept
    generalize G.cellTyp = t at *
    interval_cases m <;> simp only [keep, s1, s2, s5] <;> interval_cases t <;>
      simp_all <;> intro h' <;> first | exact absurd h' (not_lt.2 (le_of_lt ‹_›)) | skip
  have : lap A.FDn ![dx, dy, dz] (keep G.cellTyp G.lapc) u i j k =
      lap A.FDn ![dx, dy, dz] (kept G) u i j k := by
    unfold lap
    refine sum_congr rfl fun d _ => sum_congr rfl fun f _ => ?_
    rw [e _ (by omega)]
  rw [this]

/-- **C05.** When no non-zero coupling is below the tolerance, nothing is dropped. -/
theorem nonorth_exact (L : ℕ → ℝ) (G : Coord.Geom) (h : Coord.transformMat L = some G)
    (h10 : 10 < G.cellTyp) (hd : ∀ m ∈ [1, 2, 5], |G.lapc m| < Coord.tempTol → G.lapc m = 0)
    (dx dy dz : ℝ) (A : Args) (u : Fun3) (hu : Halo A u) {i j k : ℕ}
    (hi : i < A.DMnx) (hj : j < A.DMny) (hk : k < A.DMnz) :
    nonorth (coefs G.lapc A.FDn dx dy dz) G.cellTyp A (at3 A i j k) =
      A.a * lap A.FDn ![dx, dy, dz] G.lapc u i j k +
      effB A.b A.v * (effV A.b A.v A.x (at3 A i j k) * u i j k) + A.c * u i j k := by
  rw [nonorth_correct L G h h10 dx dy dz A u hu hi hj hk]
  obtain ⟨s1, s2, s5⟩ := lapc_symm h
  have e : kept G = G.lapc := by
    funext m
    unfold kept
    by_cases hm : m ∈ [1, 2, 3, 5, 6, 7] ∧ |G.lapc m| < Coord.tempTol ∧ G.cellTyp ≠ 17
    · rw [if_pos hm]
      obtain ⟨hm, hs, -⟩ := hm
      simp only [List.mem_cons, List.not_mem_nil, or_false] at hm
      have d1 := hd 1 (by simp)
      have d2 := hd 2 (by simp)
      have d5 := hd 5 (by simp)
      rcases hm with rfl | rfl | rfl | rfl | rfl | rfl
      · exact (d1 hs).symm
      · exact (d2 hs).symm
      · rw [s1] at hs ⊢; exact (d1 hs).symm
      · exact (d5 hs).symm
      · rw [s2] at hs ⊢; exact (d2 hs).symm
      · rw [s5] at hs ⊢; exact (d5 hs).symm
    · rw [if_neg hm]
  rw [e]

/-- The potential term is `b v u` when a potential is given and `b` is not tiny, and absent when
there is none. -/
theorem potential_term (b : ℝ) (v : Option Mem) (x : Mem) (q : ℤ) (w : ℝ) :
    (∀ m, v = some m → 1 / 10 ^ 14 ≤ |b| → effB b v * (effV b v x q * w) = b * m q * w) ∧
    (v = none → effB b v * (effV b v x q * w) = 0) ∧
    (b = 0 → effB b v * (effV b v x q * w) = 0) := by
  refine ⟨?_, ?_, ?_⟩
  · rintro m rfl hb
    have h : ¬ |b| < 1 / 10 ^ 14 := not_lt.2 hb
    unfold effB effV
    rw [if_neg (by push Not; exact ⟨hb, by simp⟩), if_neg h]
    simp [mul_assoc]
  · rintro rfl
    simp [effB]
  · rintro rfl
    simp [effB]

/-- **C05.** The routine writes only the entries of the block in `y`. -/
theorem nonorth_outside (C : Coefs) (typ : ℕ) (A : Args) {q : ℤ}
    (hq : q < 0 ∨ (A.DMnx * A.DMny * A.DMnz : ℕ) ≤ q) : nonorth C typ A q = A.y q := by
  have h4 : ∀ (X DX : Mem) r sD syX syD szX szD xX yX zX xD yD zD w c b v,
      stencil4 X DX r sD A.DMnx syX syD (A.DMnx * A.DMny) szX szD 0 A.DMnx 0 A.DMny 0 A.DMnz
        xX yX zX xD yD zD w c b v A.y q = A.y q := by
    intros
    unfold stencil4
    simp only [sub_zero, Int.toNat_natCast, zero_add, add_zero]
    exact fill_box_other _ _ _ (fun t => by ring) hq
  have h5 : ∀ (X D1 D2 : Mem) r s1 s2 syX syD1 syD2 szX szD1 szD2 xX yX zX a1 a2 a3 a4 a5 a6 w c b v,
      stencil5 X D1 D2 r s1 s2 A.DMnx syX syD1 syD2 (A.DMnx * A.DMny) szX szD1 szD2 0 A.DMnx 0
        A.DMny 0 A.DMnz xX yX zX a1 a2 a3 a4 a5 a6 w c b v A.y q = A.y q := by
    intros
    unfold stencil5
    simp only [sub_zero, Int.toNat_natCast, zero_add, add_zero]
    exact fill_box_other _ _ _ (fun t => by ring) hq
  unfold nonorth
  split_ifs <;> first | exact h4 .. | exact h5 .. | rfl

/-- **Finding.** With the unusable cell type 1 (see `Coord.cellType_gap`) the output is never
written. -/
theorem nonorth_gap (C : Coefs) (A : Args) : nonorth C 1 A = A.y := by
  simp [nonorth]

/-! ### The hypotheses can be met -/

/-- Every function can be placed in `x_ex`. -/
theorem halo_exists (A : Args) (u : Fun3) : ∃ m : Mem, Halo { A with xex := m } u := by
  refine ⟨fun q => u (q % (A.DMnx + 2 * A.FDn) - A.FDn)
    (q / (A.DMnx + 2 * A.FDn) % (A.DMny + 2 * A.FDn) - A.FDn)
    (q / (A.DMnx + 2 * A.FDn) / (A.DMny + 2 * A.FDn) - A.FDn), ?_⟩
  intro i j k h1 h2 h3 h4 h5 h6
  dsimp only at h1 h2 h3 h4 h5 h6 ⊢
  set E : ℤ := A.DMnx + 2 * A.FDn
  set F : ℤ := A.DMny + 2 * A.FDn
  have hE : 0 < E := by omega
  have hF : 0 < F := by omega
  have e : (k + A.FDn) * (E * F) + (j + A.FDn) * E + (i + A.FDn) =
      (i + A.FDn) + ((j + A.FDn) + (k + A.FDn) * F) * E := by ring
  have e1 : ((i + A.FDn) + ((j + A.FDn) + (k + A.FDn) * F) * E) % E = i + A.FDn := by
    rw [Int.add_mul_emod_self_right]; exact Int.emod_eq_of_lt (by omega) (by omega)
  have e2 : ((i + A.FDn) + ((j + A.FDn) + (k + A.FDn) * F) * E) / E =
      (j + A.FDn) + (k + A.FDn) * F := by
    rw [Int.add_mul_ediv_right _ _ hE.ne', Int.ediv_eq_zero_of_lt (by omega) (by omega), zero_add]
  have e3 : ((j + A.FDn) + (k + A.FDn) * F) % F = j + A.FDn := by
    rw [Int.add_mul_emod_self_right]; exact Int.emod_eq_of_lt (by omega) (by omega)
  have e4 : ((j + A.FDn) + (k + A.FDn) * F) / F = k + A.FDn := by
    rw [Int.add_mul_ediv_right _ _ hF.ne', Int.ediv_eq_zero_of_lt (by omega) (by omega), zero_add]
  rw [e, e1, e2, e3, e4]
  congr 1 <;> ring

/-- A call on a block of 4 × 3 × 3 points with stencil radius 2 and a potential. -/
noncomputable def exArgs : Args where
  DMnx := 4
  DMny := 3
  DMnz := 3
  FDn := 2
  a := -1 / 2
  b := 1
  c := 0
  v := some fun q => q
  x := fun _ => 0
  xex := fun _ => 0
  Dx1 := fun _ => 5
  Dx2 := fun _ => 5
  y := fun _ => 7
  wt := fun _ => 9

/-- The hypotheses of `nonorth_exact` are met by a monoclinic cell and a non-constant function,
and the mixed derivative contributes. -/
example : ∃ (G : Coord.Geom) (m : Mem), Coord.transformMat Coord.exL = some G ∧ 10 < G.cellTyp ∧
    (∀ m ∈ [1, 2, 5], |G.lapc m| < Coord.tempTol → G.lapc m = 0) ∧ G.lapc 1 ≠ 0 ∧
    Halo { exArgs with xex := m } (fun i j k => i * j + k) := by
  have hs : (Coord.transformMat Coord.exL).isSome := by
    rw [Coord.accepted_iff, Matrix.det_fin_three]; norm_num [Coord.latMat, Coord.exL]
  obtain ⟨G, hG⟩ := Option.isSome_iff_exists.mp hs
  obtain ⟨m, hm⟩ := halo_exists exArgs (fun i j k => i * j + k)
  obtain ⟨hU, hd, hpos, hg, -, hl, hc⟩ := Coord.transformMat_some hG
  have s25 : Real.sqrt 25 = 5 := by
    rw [show (25 : ℝ) = 5 ^ 2 by norm_num]; exact Real.sqrt_sq (by norm_num)
  have s2 : Real.sqrt 4 = 2 := by
    rw [show (4 : ℝ) = 2 ^ 2 by norm_num]; exact Real.sqrt_sq (by norm_num)
  have u : ∀ n < 9, Coord.latU Coord.exL n =
      if n = 0 then 3 / 5 else if n = 1 then 4 / 5 else if n = 4 then 1 else if n = 8 then 1 else 0 := by
    intro n h
    interval_cases n <;> norm_num [Coord.latU, Coord.exL] <;> norm_num [s25, s2]
  have hd' : G.det = 3 / 5 := by rw [hd, Coord.jacbdet_eq]; norm_num [u]
  have r3 : List.range 3 = [0, 1, 2] := rfl
  have l1 : G.lapc 1 = -20 / 9 := by
    rw [hl, hg, hd']; norm_num [Coord.lapcT, Coord.gradT, r3, u]
  have l2 : G.lapc 2 = 0 := by
    rw [hl, hg, hd']; norm_num [Coord.lapcT, Coord.gradT, r3, u]
  have l5 : G.lapc 5 = 0 := by
    rw [hl, hg, hd']; norm_num [Coord.lapcT, Coord.gradT, r3, u]
  refine ⟨G, m, hG, ?_, ?_, by rw [l1]; norm_num, hm⟩
  · rw [hc]
    unfold Coord.cellTyp1
    rw [if_pos]
    · norm_num
    · rw [l1, l2, l5]; norm_num [Coord.tempTol]
  · intro m hm
    simp only [List.mem_cons, List.not_mem_nil, or_false] at hm
    rcases hm with rfl | rfl | rfl
    · rw [l1]; norm_num [Coord.tempTol]
    · intro _; exact l2
    · intro _; exact l5

end Sparc.Lap

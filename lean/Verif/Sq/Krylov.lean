import Verif.Sq.Tqli
import Mathlib.Data.Matrix.Mul
import Mathlib.Data.Matrix.Diagonal
import Mathlib.LinearAlgebra.Matrix.NonsingularInverse
import Mathlib.LinearAlgebra.Matrix.Symmetric
import Mathlib.Algebra.Polynomial.AlgebraMap
import Mathlib.Algebra.Polynomial.Eval.Degree

/-! # Spectral quadrature: Lanczos sequences and Gauss quadrature -/

namespace Sparc.Sq

open Finset Matrix

/-- A Lanczos sequence of the symmetric matrix `M`. -/
structure Lz {N : ℕ} (M : Matrix (Fin N) (Fin N) ℝ) (V : ℕ → Fin N → ℝ) (A B : ℕ → ℝ) : Prop where
  sym : Mᵀ = M
  rec0 : M *ᵥ V 0 = A 0 • V 0 + B 0 • V 1
  rec1 : ∀ t, M *ᵥ V (t + 1) = B t • V t + A (t + 1) • V (t + 1) + B (t + 1) • V (t + 2)
  a : ∀ t, A t = V t ⬝ᵥ (M *ᵥ V t)
  u0 : V 0 ⬝ᵥ V 0 = 1
  u : ∀ t, B t ≠ 0 → V (t + 1) ⬝ᵥ V (t + 1) = 1

section
variable {N : ℕ} {M : Matrix (Fin N) (Fin N) ℝ} {V : ℕ → Fin N → ℝ} {A B : ℕ → ℝ}

theorem Lz.move (L : Lz M V A B) (x y : Fin N → ℝ) : x ⬝ᵥ (M *ᵥ y) = (M *ᵥ x) ⬝ᵥ y := by
  rw [dotProduct_mulVec, ← mulVec_transpose, L.sym]

/-- The vector the next one is made of is orthogonal to all earlier ones. -/
theorem Lz.ortho_next (L : Lz M V A B) (n : ℕ)
    (O : ∀ i ≤ n, ∀ j ≤ n, V i ⬝ᵥ V j = if i = j then 1 else 0) :
    ∀ i ≤ n, V i ⬝ᵥ (B n • V (n + 1)) = 0 := by
  intro i hi
  rcases n with _ | n
  · have : i = 0 := by omega
    subst this
    have e : B 0 • V 1 = M *ᵥ V 0 - A 0 • V 0 := by rw [L.rec0]; simp
    rw [e, dotProduct_sub, dotProduct_smul, L.u0, L.a 0]
    simp
  · have e : B (n + 1) • V (n + 2) = M *ᵥ V (n + 1) - A (n + 1) • V (n + 1) - B n • V n := by
      rw [L.rec1]; abel
    rw [e, dotProduct_sub, dotProduct_sub, dotProduct_smul, dotProduct_smul]
    by_cases h1 : i = n + 1
    · subst h1
      rw [O _ hi _ hi, O _ hi _ (by omega), ← L.a, if_pos rfl, if_neg (by omega)]
      simp
    · rw [O i hi _ (le_refl _), if_neg h1, O i hi n (by omega), L.move]
      rcases i with _ | i
      · rw [L.rec0, add_dotProduct, smul_dotProduct, smul_dotProduct, O 0 hi _ (le_refl _), if_neg h1]
        by_cases h2 : n = 0
        · subst h2
          rw [O 1 (by omega) _ (le_refl _)]
          simp
        · rw [O 1 (by omega) _ (le_refl _), if_neg (by omega), if_neg (by omega)]
          simp
      · rw [L.rec1, add_dotProduct, add_dotProduct, smul_dotProduct, smul_dotProduct, smul_dotProduct,
          O i (by omega) _ (le_refl _), O (i + 1) hi _ (le_refl _), if_neg (by omega), if_neg h1]
        by_cases h2 : i + 1 = n
        · subst h2
          rw [O (i + 2) (by omega) _ (le_refl _)]
          simp
        · rw [O (i + 2) (by omega) _ (le_refl _), if_neg (by omega), if_neg h2]
          simp

/-- Orthonormality of a Lanczos sequence without breakdown. -/
theorem Lz.orthonormal (L : Lz M V A B) (n : ℕ) (hB : ∀ t < n, B t ≠ 0) :
    ∀ i ≤ n, ∀ j ≤ n, V i ⬝ᵥ V j = if i = j then 1 else 0 := by
  induction n with
  | zero =>
    intro i hi j hj
    have h1 : i = 0 := by omega
    have h2 : j = 0 := by omega
    subst h1 h2
    rw [L.u0]; simp
  | succ n ih =>
    have O := ih fun t ht => hB t (by omega)
    have K := L.ortho_next n O
    have K' : ∀ i ≤ n, V i ⬝ᵥ V (n + 1) = 0 := by
      intro i hi
      have := K i hi
      rw [dotProduct_smul, smul_eq_mul] at this
      exact (mul_eq_zero.1 this).resolve_left (hB n (by omega))
    intro i hi j hj
    by_cases h1 : i = n + 1
    · subst h1
      by_cases h2 : j = n + 1
      · subst h2; rw [L.u n (hB n (by omega)), if_pos rfl]
      · rw [if_neg (by omega), dotProduct_comm]; exact K' j (by omega)
    · by_cases h2 : j = n + 1
      · subst h2; rw [if_neg h1]; exact K' i (by omega)
      · exact O i (by omega) j (by omega)

/-- The tridiagonal matrix of the recurrence. -/
def triM (n : ℕ) (A B : ℕ → ℝ) : Matrix (Fin n) (Fin n) ℝ := fun i j => triT A B i j

/-- Combination of the first `n` vectors. -/
def comb (n : ℕ) (V : ℕ → Fin N → ℝ) (c : Fin n → ℝ) : Fin N → ℝ := fun x => ∑ j : Fin n, c j * V j x

theorem comb_add (n : ℕ) (c c' : Fin n → ℝ) : comb n V (c + c') = comb n V c + comb n V c' := by
  funext x; unfold comb; simp [add_mul, sum_add_distrib]

theorem comb_smul (n : ℕ) (r : ℝ) (c : Fin n → ℝ) : comb n V (r • c) = r • comb n V c := by
  funext x; unfold comb; simp [mul_sum, mul_assoc]

theorem comb_dot (n : ℕ) (c : Fin n → ℝ) (y : Fin N → ℝ) :
    comb n V c ⬝ᵥ y = ∑ j : Fin n, c j * (V j ⬝ᵥ y) := by
  unfold comb dotProduct
  simp only [sum_mul, mul_sum]
  rw [sum_comm]
  exact sum_congr rfl fun _ _ => sum_congr rfl fun _ _ => by ring

theorem comb_eq_sum (n : ℕ) (c : Fin n → ℝ) : comb n V c = ∑ j : Fin n, c j • V j := by
  funext x
  unfold comb
  rw [Finset.sum_apply]
  rfl

theorem mulVec_comb (n : ℕ) (c : Fin n → ℝ) : M *ᵥ comb n V c = ∑ j : Fin n, c j • (M *ᵥ V j) := by
  funext x
  rw [Finset.sum_apply]
  simp only [comb, mulVec, dotProduct, Pi.smul_apply, smul_eq_mul, mul_sum]
  rw [sum_comm]
  exact sum_congr rfl fun _ _ => sum_congr rfl fun _ _ => by ring

/-- Applying the matrix to a combination: the tridiagonal matrix acts on the coefficients, up to the
next vector. -/
theorem Lz.act (L : Lz M V A B) (n : ℕ) (c : Fin (n + 1) → ℝ) :
    M *ᵥ comb (n + 1) V c = comb (n + 1) V (triM (n + 1) A B *ᵥ c)
      + (c (Fin.last n) * B n) • V (n + 1) := by
  rw [mulVec_comb]
  -- action of the recurrence, with the two neighbours
  have e : ∀ j : Fin (n + 1), M *ᵥ V j = (∑ i : Fin (n + 1), triT A B i j • V i)
      + (if (j : ℕ) = n then B n else 0) • V (n + 1) := by
    intro j
    have hj := j.2
    rw [Fin.sum_univ_eq_sum_range (fun i => triT A B i j • V i)]
    have three : ∀ i ∈ range (n + 1), triT A B i j • V i
        = (if i = (j : ℕ) then A i • V i else 0) + (if i + 1 = (j : ℕ) then B i • V i else 0)
          + (if i = (j : ℕ) + 1 then B j • V i else 0) := by
      intro i _
      unfold triT
      by_cases h1 : i = (j : ℕ)
      · rw [if_pos h1, if_pos h1, if_neg (by omega), if_neg (by omega)]; simp
      · rw [if_neg h1, if_neg h1]
        by_cases h2 : (j : ℕ) = i + 1
        · rw [if_pos h2, if_pos h2.symm, if_neg (by omega)]; simp
        · rw [if_neg h2, if_neg (show ¬ i + 1 = (j : ℕ) from fun h => h2 h.symm)]
          by_cases h3 : i = (j : ℕ) + 1
          · rw [if_pos h3, if_pos h3]; simp
          · rw [if_neg h3, if_neg h3]; simp
    rw [sum_congr rfl three, sum_add_distrib, sum_add_distrib]
    have s1 : (∑ i ∈ range (n + 1), if i = (j : ℕ) then A i • V i else 0) = A j • V j := by
      rw [sum_ite_eq' (range (n + 1)) (j : ℕ) fun i => A i • V i, if_pos (mem_range.2 hj)]
    have s3 : (∑ i ∈ range (n + 1), if i = (j : ℕ) + 1 then B j • V i else 0)
        + (if (j : ℕ) = n then B n else 0) • V (n + 1) = B j • V (j + 1) := by
      rw [sum_ite_eq' (range (n + 1)) ((j : ℕ) + 1) fun i => B j • V i]
      by_cases h : (j : ℕ) = n
      · rw [if_neg (by rw [mem_range]; omega), if_pos h, h, zero_add]
      · rw [if_pos (by rw [mem_range]; omega), if_neg h]; simp
    have s2 : ∀ k : ℕ, (j : ℕ) = k + 1 →
        (∑ i ∈ range (n + 1), if i + 1 = (j : ℕ) then B i • V i else 0) = B k • V k := by
      intro k hk
      rw [sum_congr rfl (g := fun i => if i = k then B i • V i else 0) fun i _ => by
        by_cases h : i + 1 = (j : ℕ)
        · rw [if_pos h, if_pos (by omega)]
        · rw [if_neg h, if_neg (by omega)]]
      rw [sum_ite_eq' (range (n + 1)) k fun i => B i • V i, if_pos (mem_range.2 (by omega))]
    rw [s1, add_assoc, s3]
    rcases hjk : (j : ℕ) with _ | k
    · rw [L.rec0, sum_eq_zero fun i _ => by rw [if_neg (by omega)]]
      simp
    · rw [L.rec1, ← hjk, s2 k hjk, hjk]
      abel
  have e2 : ∀ j : Fin (n + 1), c j • (M *ᵥ V j) = (∑ i : Fin (n + 1), (triT A B i j * c j) • V i)
      + (if (j : ℕ) = n then c j * B n else 0) • V (n + 1) := by
    intro j
    rw [e, smul_add, smul_sum, smul_smul]
    congr 1
    · exact sum_congr rfl fun i _ => by rw [smul_smul, mul_comm]
    · by_cases h : (j : ℕ) = n
      · rw [if_pos h, if_pos h]
      · rw [if_neg h, if_neg h, mul_zero]
  rw [sum_congr rfl fun j _ => e2 j, sum_add_distrib]
  congr 1
  · rw [sum_comm, comb_eq_sum]
    refine sum_congr rfl fun i _ => ?_
    rw [← sum_smul]
    rfl
  · rw [← sum_smul]
    congr 1
    rw [sum_eq_single (Fin.last n)]
    · simp
    · intro j _ hj
      rw [if_neg]
      intro h
      apply hj
      ext
      simpa using h
    · intro h; exact absurd (mem_univ _) h

/-- First unit vector. -/
def e0 (n : ℕ) : Fin (n + 1) → ℝ := Pi.single 0 1

/-- Powers of the tridiagonal matrix reach one entry further each time. -/
theorem tri_support (n k : ℕ) (A B : ℕ → ℝ) (j : Fin (n + 1)) (hj : k < j) :
    (triM (n + 1) A B ^ k *ᵥ e0 n) j = 0 := by
  induction k generalizing j with
  | zero =>
    rw [pow_zero, one_mulVec]
    unfold e0
    rw [Pi.single_eq_of_ne]
    intro h
    rw [h] at hj
    simp at hj
  | succ k ih =>
    rw [pow_succ', ← mulVec_mulVec]
    have ex : ∀ (P : Matrix (Fin (n + 1)) (Fin (n + 1)) ℝ) (y : Fin (n + 1) → ℝ) (j : Fin (n + 1)),
      (P *ᵥ y) j = ∑ i, P j i * y i := fun _ _ _ => rfl
    rw [ex]
    refine sum_eq_zero fun i _ => ?_
    by_cases hi : k < i
    · rw [ih i hi, mul_zero]
    · have : triM (n + 1) A B j i = 0 := by
        unfold triM triT
        rw [if_neg (by omega), if_neg (by omega), if_neg (by omega)]
      rw [this, zero_mul]

theorem comb_e0 (n : ℕ) : comb (n + 1) V (e0 n) = V 0 := by
  funext x
  unfold comb e0
  rw [sum_eq_single 0]
  · simp
  · intro j _ hj; rw [Pi.single_eq_of_ne hj, zero_mul]
  · intro h; exact absurd (mem_univ _) h

theorem Lz.power (L : Lz M V A B) (n k : ℕ) (hk : k ≤ n) :
    M ^ k *ᵥ V 0 = comb (n + 1) V (triM (n + 1) A B ^ k *ᵥ e0 n) := by
  induction k with
  | zero => rw [pow_zero, pow_zero, one_mulVec, one_mulVec, comb_e0]
  | succ k ih =>
    rw [pow_succ', ← mulVec_mulVec, ih (by omega), L.act, tri_support n k A B (Fin.last n)
      (by simpa using hk), pow_succ', ← mulVec_mulVec]
    simp

theorem Lz.power_last (L : Lz M V A B) (n : ℕ) :
    M ^ (n + 1) *ᵥ V 0 = comb (n + 1) V (triM (n + 1) A B ^ (n + 1) *ᵥ e0 n)
      + ((triM (n + 1) A B ^ n *ᵥ e0 n) (Fin.last n)) • (B n • V (n + 1)) := by
  rw [pow_succ', ← mulVec_mulVec, L.power n n (le_refl _), L.act, pow_succ', ← mulVec_mulVec, smul_smul]

theorem comb_comb (n : ℕ) (O : ∀ i ≤ n, ∀ j ≤ n, V i ⬝ᵥ V j = if i = j then 1 else 0)
    (c c' : Fin (n + 1) → ℝ) : comb (n + 1) V c ⬝ᵥ comb (n + 1) V c' = c ⬝ᵥ c' := by
  rw [comb_dot]
  unfold dotProduct
  refine sum_congr rfl fun j _ => ?_
  congr 1
  have : V j ⬝ᵥ comb (n + 1) V c' = ∑ i : Fin (n + 1), c' i * (V i ⬝ᵥ V j) := by
    rw [dotProduct_comm, comb_dot]
  unfold dotProduct at this
  rw [this, sum_eq_single j]
  · have := O j (by omega) j (by omega)
    unfold dotProduct at this
    rw [this, if_pos rfl, mul_one]
  · intro i _ hi
    have := O i (by omega) j (by omega)
    unfold dotProduct at this
    rw [this, if_neg (by intro h; exact hi (Fin.ext h)), mul_zero]
  · intro h; exact absurd (mem_univ _) h

theorem triM_symm (n : ℕ) (A B : ℕ → ℝ) : (triM n A B)ᵀ = triM n A B := by
  ext i j; exact triT_symm A B j i

theorem sym_pow {n : ℕ} {T : Matrix (Fin n) (Fin n) ℝ} (h : Tᵀ = T) (k : ℕ) : (T ^ k)ᵀ = T ^ k := by
  rw [transpose_pow, h]

theorem dot_pow {n : ℕ} {T : Matrix (Fin n) (Fin n) ℝ} (h : Tᵀ = T) (a b : ℕ) (x : Fin n → ℝ) :
    (T ^ a *ᵥ x) ⬝ᵥ (T ^ b *ᵥ x) = x ⬝ᵥ (T ^ (a + b) *ᵥ x) := by
  rw [pow_add, ← mulVec_mulVec, dotProduct_mulVec x, ← mulVec_transpose, sym_pow h]

/-- Moments up to order `2n+1` are reproduced by the tridiagonal matrix of size `n+1`. -/
theorem Lz.moment (L : Lz M V A B) (n : ℕ) (hB : ∀ t < n, B t ≠ 0) (k : ℕ) (hk : k ≤ 2 * n + 1) :
    V 0 ⬝ᵥ (M ^ k *ᵥ V 0) = e0 n ⬝ᵥ (triM (n + 1) A B ^ k *ᵥ e0 n) := by
  have O := L.orthonormal n hB
  have W := L.ortho_next n O
  by_cases h : k ≤ n
  · rw [L.power n k h]
    conv_lhs => rw [← comb_e0 (V := V) n]
    rw [comb_comb n O]
  · obtain ⟨b, rfl⟩ : ∃ b, k = n + b := ⟨k - n, by omega⟩
    rw [← dot_pow L.sym, ← dot_pow (triM_symm (n + 1) A B), L.power n n (le_refl _)]
    by_cases hb : b ≤ n
    · rw [L.power n b hb, comb_comb n O]
    · have : b = n + 1 := by omega
      subst this
      rw [L.power_last n, dotProduct_add, comb_comb n O, dotProduct_smul, comb_dot,
        sum_eq_zero fun j _ => by rw [W j (by omega), mul_zero]]
      simp

end

/-! ### Diagonalisation as a matrix identity -/

/-- The matrix of eigenvectors. -/
def zM (n : ℕ) (z : ℕ → ℕ → ℝ) : Matrix (Fin n) (Fin n) ℝ := fun i j => z i j

theorem zM_form (n : ℕ) (T z : ℕ → ℕ → ℝ) (a b : Fin n) :
    ((zM n z)ᵀ * zM n T * zM n z) a b = colForm n T z a b := by
  unfold colForm form
  rw [mul_apply]
  simp only [mul_apply, transpose_apply, zM, sum_mul]
  rw [sum_comm, Fin.sum_univ_eq_sum_range (fun i => ∑ j : Fin n, z i a * T i j * z j b)]
  refine sum_congr rfl fun i _ => ?_
  rw [Fin.sum_univ_eq_sum_range (fun j => z i a * T i j * z j b)]

theorem tridiag_matrix {n : ℕ} {dg sb : ℕ → ℝ} {q : QSt} (h : tridiag n dg sb = some q) :
    (zM n q.z)ᵀ * zM n q.z = 1 ∧ zM n q.z * (zM n q.z)ᵀ = 1 ∧
      triM n dg sb = zM n q.z * diagonal (fun i : Fin n => q.d i) * (zM n q.z)ᵀ := by
  obtain ⟨O, D⟩ := tridiag_form h
  have h1 : (zM n q.z)ᵀ * zM n q.z = 1 := by
    ext a b
    have := zM_form n (fun i j => if i = j then 1 else 0) q.z a b
    rw [O a a.2 b b.2] at this
    rw [show zM n (fun i j => if i = j then 1 else 0) = 1 by
      ext i j; simp [zM, one_apply, Fin.ext_iff], Matrix.mul_one] at this
    rw [this, one_apply]
    simp [Fin.ext_iff]
  have h2 : zM n q.z * (zM n q.z)ᵀ = 1 := mul_eq_one_comm.1 h1
  refine ⟨h1, h2, ?_⟩
  have h3 : (zM n q.z)ᵀ * triM n dg sb * zM n q.z = diagonal fun i : Fin n => q.d i := by
    ext a b
    have := zM_form n (triT dg sb) q.z a b
    rw [D a a.2 b b.2] at this
    rw [show triM n dg sb = zM n (triT dg sb) from rfl, this,
      diagonal_apply]
    simp [Fin.ext_iff]
  calc triM n dg sb = (zM n q.z * (zM n q.z)ᵀ) * triM n dg sb * (zM n q.z * (zM n q.z)ᵀ) := by
        rw [h2]; simp
    _ = zM n q.z * ((zM n q.z)ᵀ * triM n dg sb * zM n q.z) * (zM n q.z)ᵀ := by
        simp only [Matrix.mul_assoc]
    _ = _ := by rw [h3]

theorem conj_pow {n : ℕ} {T Z : Matrix (Fin n) (Fin n) ℝ} {d : Fin n → ℝ} (h1 : Zᵀ * Z = 1)
    (h2 : Z * Zᵀ = 1) (h : T = Z * diagonal d * Zᵀ) (k : ℕ) :
    T ^ k = Z * diagonal (fun i => d i ^ k) * Zᵀ := by
  induction k with
  | zero => simp [h2]
  | succ k ih =>
    rw [pow_succ, ih, h]
    calc Z * diagonal (fun i => d i ^ k) * Zᵀ * (Z * diagonal d * Zᵀ)
        = Z * diagonal (fun i => d i ^ k) * (Zᵀ * Z) * diagonal d * Zᵀ := by
          simp only [Matrix.mul_assoc]
      _ = Z * (diagonal (fun i => d i ^ k) * diagonal d) * Zᵀ := by
          rw [h1]; simp only [Matrix.mul_assoc, Matrix.one_mul]
      _ = _ := by rw [diagonal_mul_diagonal]; rfl

theorem conj_apply {n : ℕ} (Z : Matrix (Fin n) (Fin n) ℝ) (d : Fin n → ℝ) (a b : Fin n) :
    (Z * diagonal d * Zᵀ) a b = ∑ j, Z a j * d j * Z b j := by
  rw [mul_apply]
  exact sum_congr rfl fun j _ => by rw [mul_diagonal, transpose_apply]

/-- Polynomials of a diagonalised matrix. -/
theorem conj_aeval {n : ℕ} {T Z : Matrix (Fin n) (Fin n) ℝ} {d : Fin n → ℝ} (h1 : Zᵀ * Z = 1)
    (h2 : Z * Zᵀ = 1) (h : T = Z * diagonal d * Zᵀ) (p : Polynomial ℝ) (a b : Fin n) :
    (Polynomial.aeval T p) a b = ∑ j, Z a j * p.eval (d j) * Z b j := by
  rw [Polynomial.aeval_eq_sum_range, Matrix.sum_apply]
  simp only [Matrix.smul_apply, smul_eq_mul, conj_pow h1 h2 h, conj_apply, Polynomial.eval_eq_sum_range,
    mul_sum, sum_mul]
  rw [sum_comm]
  exact sum_congr rfl fun _ _ => sum_congr rfl fun _ _ => by ring

end Sparc.Sq

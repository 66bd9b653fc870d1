import Verif.Sq.Lanczos

/-! # Spectral quadrature: nodes and weights -/

namespace Sparc.Sq

open Finset Matrix Lap

section
variable {N : ℕ} {M : Matrix (Fin N) (Fin N) ℝ} {V : ℕ → Fin N → ℝ} {A B : ℕ → ℝ}

/-- The vectors of the recurrence are polynomials of the matrix applied to the first one. -/
theorem Lz.poly (L : Lz M V A B) (m : ℕ) (hB : ∀ t < m, B t ≠ 0) (t : ℕ) (ht : t ≤ m) :
    ∃ p : Polynomial ℝ, p.natDegree ≤ t ∧ V t = (Polynomial.aeval M p) *ᵥ V 0 := by
  induction t using Nat.strong_induction_on with
  | _ t ih =>
    match t, ht with
    | 0, _ => exact ⟨1, by simp, by simp⟩
    | 1, ht =>
      refine ⟨Polynomial.C (1 / B 0) * (Polynomial.X - Polynomial.C (A 0)), ?_, ?_⟩
      · refine (Polynomial.natDegree_C_mul_le _ _).trans ?_
        exact (Polynomial.natDegree_X_sub_C_le _)
      · have h0 := hB 0 (by omega)
        have r := L.rec0
        have : V 1 = (1 / B 0) • (M *ᵥ V 0 - A 0 • V 0) := by
          rw [r, add_sub_cancel_left, smul_smul, one_div_mul_cancel h0, one_smul]
        rw [this]
        simp only [map_mul, map_sub, Polynomial.aeval_X, Polynomial.aeval_C, Algebra.algebraMap_eq_smul_one,
          smul_mul_assoc, one_mul, smul_mulVec, sub_mulVec, one_mulVec]
    | t + 2, ht =>
      obtain ⟨p, hp, ep⟩ := ih t (by omega) (by omega)
      obtain ⟨q, hq, eq⟩ := ih (t + 1) (by omega) (by omega)
      have h0 := hB (t + 1) (by omega)
      have r := L.rec1 t
      refine ⟨Polynomial.C (1 / B (t + 1)) * (Polynomial.X * q - Polynomial.C (A (t + 1)) * q
        - Polynomial.C (B t) * p), ?_, ?_⟩
      · refine (Polynomial.natDegree_C_mul_le _ _).trans ?_
        refine (Polynomial.natDegree_sub_le _ _).trans (max_le ?_ ?_)
        · refine (Polynomial.natDegree_sub_le _ _).trans (max_le ?_ ?_)
          · refine (Polynomial.natDegree_mul_le).trans ?_
            have := Polynomial.natDegree_X_le (R := ℝ)
            omega
          · exact (Polynomial.natDegree_C_mul_le _ _).trans (by omega)
        · exact (Polynomial.natDegree_C_mul_le _ _).trans (by omega)
      · have : V (t + 2) = (1 / B (t + 1)) • (M *ᵥ V (t + 1) - A (t + 1) • V (t + 1) - B t • V t) := by
          rw [r]
          have : B t • V t + A (t + 1) • V (t + 1) + B (t + 1) • V (t + 2) - A (t + 1) • V (t + 1)
              - B t • V t = B (t + 1) • V (t + 2) := by abel
          rw [this, smul_smul, one_div_mul_cancel h0, one_smul]
        rw [this]
        simp only [map_mul, map_sub, Polynomial.aeval_X, Polynomial.aeval_C, Algebra.algebraMap_eq_smul_one,
          smul_mul_assoc, one_mul, smul_mulVec, sub_mulVec, ← mulVec_mulVec]
        rw [← ep, ← eq]

/-- If no polynomial of degree at most `n` annihilates the start vector, the recurrence does not
break down before step `n`. -/
theorem Lz.no_breakdown (L : Lz M V A B) (n : ℕ)
    (h : ∀ p : Polynomial ℝ, p.natDegree ≤ n → (Polynomial.aeval M p) *ᵥ V 0 = 0 → p = 0) :
    ∀ t < n, B t ≠ 0 := by
  intro t
  induction t using Nat.strong_induction_on with
  | _ t ih =>
    intro ht h0
    have hB : ∀ s < t, B s ≠ 0 := fun s hs => ih s hs (by omega)
    obtain ⟨q, hq, eq⟩ := L.poly t hB t le_rfl
    -- a combination of degree `t + 1` vanishes
    have hpoly : ∃ p : Polynomial ℝ, p.natDegree ≤ t ∧
        (Polynomial.aeval M p) *ᵥ V 0 = M ^ (t + 1) *ᵥ V 0 := by
      rw [L.power_last t, h0, zero_smul, smul_zero, add_zero]
      generalize triM (t + 1) A B ^ (t + 1) *ᵥ e0 t = c
      have hex : ∀ j : Fin (t + 1), ∃ p : Polynomial ℝ, p.natDegree ≤ t ∧
          V j = (Polynomial.aeval M p) *ᵥ V 0 := by
        intro j
        obtain ⟨p, hp, e⟩ := L.poly t hB j (by omega)
        exact ⟨p, hp.trans (by omega), e⟩
      choose p hp e using hex
      refine ⟨∑ j, Polynomial.C (c j) * p j, ?_, ?_⟩
      · refine Polynomial.natDegree_sum_le_of_forall_le _ _ fun j _ => ?_
        exact (Polynomial.natDegree_C_mul_le _ _).trans (hp j)
      · rw [comb_eq_sum, map_sum]
        rw [Matrix.sum_mulVec]
        refine sum_congr rfl fun j _ => ?_
        rw [map_mul, Polynomial.aeval_C, Algebra.algebraMap_eq_smul_one, smul_mul_assoc, one_mul,
          smul_mulVec, ← e]
    obtain ⟨p, hp, ep⟩ := hpoly
    have hz := h (Polynomial.X ^ (t + 1) - p) (by
      refine (Polynomial.natDegree_sub_le _ _).trans (max_le ?_ (by omega))
      rw [Polynomial.natDegree_X_pow]; omega) (by
      rw [map_sub, map_pow, Polynomial.aeval_X, sub_mulVec, ep, sub_self])
    have : p = Polynomial.X ^ (t + 1) := (sub_eq_zero.1 hz).symm
    rw [this, Polynomial.natDegree_X_pow] at hp
    omega

/-- Quadratic forms of the tridiagonal matrix are quadratic forms of the operator. -/
theorem Lz.form (L : Lz M V A B) (n : ℕ) (hB : ∀ t < n, B t ≠ 0) (c : Fin (n + 1) → ℝ) :
    comb (n + 1) V c ⬝ᵥ (M *ᵥ comb (n + 1) V c) = c ⬝ᵥ (triM (n + 1) A B *ᵥ c) := by
  have O := L.orthonormal n hB
  have W := L.ortho_next n O
  rw [L.act, dotProduct_add, comb_comb n O, comb_dot]
  have : ∑ j : Fin (n + 1), c j * (V j ⬝ᵥ ((c (Fin.last n) * B n) • V (n + 1))) = 0 := by
    refine sum_eq_zero fun j _ => ?_
    rw [mul_smul, dotProduct_smul, W j (by omega), smul_zero, mul_zero]
  rw [this, add_zero]

/-- Bessel. -/
theorem bessel (n : ℕ) (O : ∀ i ≤ n, ∀ j ≤ n, V i ⬝ᵥ V j = if i = j then 1 else 0) (x : Fin N) :
    ∑ r : Fin (n + 1), V r x ^ 2 ≤ 1 := by
  have h0 : 0 ≤ (Pi.single x 1 - comb (n + 1) V (fun r => V r x)) ⬝ᵥ
      (Pi.single x 1 - comb (n + 1) V (fun r => V r x)) := by
    unfold dotProduct
    exact sum_nonneg fun i _ => mul_self_nonneg _
  rw [sub_dotProduct, dotProduct_sub, dotProduct_sub, comb_comb n O, single_one_dotProduct,
    single_one_dotProduct, dotProduct_single_one, Pi.single_eq_same] at h0
  have e : comb (n + 1) V (fun r => V r x) x = ∑ r : Fin (n + 1), V r x ^ 2 := by
    unfold comb; exact sum_congr rfl fun r _ => by ring
  have e' : (fun r : Fin (n + 1) => V r x) ⬝ᵥ (fun r : Fin (n + 1) => V r x)
      = ∑ r : Fin (n + 1), V r x ^ 2 := by
    unfold dotProduct; exact sum_congr rfl fun r _ => by ring
  rw [e, e'] at h0
  linarith

end

theorem list_sum_range' (n : ℕ) (f : ℕ → ℝ) : ((List.range n).map f).sum = ∑ i ∈ range n, f i := by
  induction n with
  | zero => rfl
  | succ n ih => rw [List.range_succ, List.map_append, List.sum_append, ih, sum_range_succ]; simp

/-- What a successful call leaves behind, in terms of the recurrence. -/
structure Out {N : ℕ} (M : Matrix (Fin N) (Fin N) ℝ) (n : ℕ) (V : ℕ → Fin N → ℝ) (A B : ℕ → ℝ)
    (Z : Matrix (Fin (n + 1)) (Fin (n + 1)) ℝ) (o : Node) : Prop where
  lz : Lz M V A B
  z1 : Zᵀ * Z = 1
  z2 : Z * Zᵀ = 1
  tri : triM (n + 1) A B = Z * diagonal (fun i : Fin (n + 1) => o.gnd i) * Zᵀ
  wt : ∀ j : Fin (n + 1), o.gwt j = Z 0 j * Z 0 j
  w : ∀ i j : Fin (n + 1), o.w (j * (n + 1) + i) = Z i j
  lv : ∀ j : Fin (n + 1), ∀ i : Fin N, o.lv (j * N + i) = V j i

theorem triM_congr {n : ℕ} {A B A' B' : ℕ → ℝ} (hA : ∀ j < n, A j = A' j) (hB : ∀ j < n, B j = B' j) :
    triM n A B = triM n A' B' := by
  ext i j
  unfold triM triT
  rw [hA i i.2, hB i i.2, hB j j.2]

theorem out_of_run {H : Mem → Mem} {N : ℕ} {M : Matrix (Fin N) (Fin N) ℝ} (hH : Acts N H M)
    (hM : Mᵀ = M) (n : ℕ) (t0 : Mem) (lv aa bb : ℕ → ℝ) (ht : norm2 N t0 ≠ 0) {o : Node}
    (h : lanczosGauss H N (n + 1) t0 lv aa bb = some o) :
    ∃ Z, Out M n (V H N (n + 1) t0 lv aa bb) (cA H N (n + 1) t0 lv aa bb) (cB H N (n + 1) t0 lv aa bb)
      Z o := by
  unfold lanczosGauss at h
  simp only [Option.map_eq_some_iff] at h
  obtain ⟨q, hq, rfl⟩ := h
  obtain ⟨h1, h2, h3⟩ := tridiag_matrix hq
  refine ⟨zM (n + 1) q.z, run_lz hH hM _ t0 lv aa bb ht, h1, h2, ?_, fun j => rfl, ?_, ?_⟩
  · rw [← triM_congr (fun j hj => (lanczos_coef H N (n + 1) t0 lv aa bb hj).1)
      (fun j hj => (lanczos_coef H N (n + 1) t0 lv aa bb hj).2)]
    exact h3
  · intro i j
    show q.z ((j * (n + 1) + i) % (n + 1)) ((j * (n + 1) + i) / (n + 1)) = q.z i j
    rw [Nat.mul_add_mod', Nat.mod_eq_of_lt i.2, Nat.mul_comm, Nat.mul_add_div (by omega),
      Nat.div_eq_of_lt i.2]
    rfl
  · intro j i
    exact lanczos_store H N (n + 1) t0 lv aa bb (by omega) j.2 i

namespace Out
variable {N : ℕ} {M : Matrix (Fin N) (Fin N) ℝ} {n : ℕ} {V : ℕ → Fin N → ℝ} {A B : ℕ → ℝ}
  {Z : Matrix (Fin (n + 1)) (Fin (n + 1)) ℝ} {o : Node}

theorem wt_nonneg (S : Out M n V A B Z o) (j : Fin (n + 1)) : 0 ≤ o.gwt j := by
  rw [S.wt]; exact mul_self_nonneg _

theorem wt_sum (S : Out M n V A B Z o) : ∑ j : Fin (n + 1), o.gwt j = 1 := by
  have := congrFun (congrFun S.z2 0) 0
  rw [mul_apply, Matrix.one_apply_eq] at this
  rw [← this]
  exact sum_congr rfl fun j _ => by rw [S.wt, transpose_apply]

/-- Functions of the tridiagonal matrix. -/
theorem exact (S : Out M n V A B Z o) (hB : ∀ t < n, B t ≠ 0) (p : Polynomial ℝ)
    (hp : p.natDegree ≤ 2 * n + 1) :
    ∑ j : Fin (n + 1), o.gwt j * p.eval (o.gnd j) = V 0 ⬝ᵥ ((Polynomial.aeval M p) *ᵥ V 0) := by
  have h1 : ∑ j : Fin (n + 1), o.gwt j * p.eval (o.gnd j)
      = (Polynomial.aeval (triM (n + 1) A B) p) 0 0 := by
    rw [conj_aeval S.z1 S.z2 S.tri]
    exact sum_congr rfl fun j _ => by rw [S.wt]; ring
  have h2 : (Polynomial.aeval (triM (n + 1) A B) p) 0 0
      = e0 n ⬝ᵥ ((Polynomial.aeval (triM (n + 1) A B) p) *ᵥ e0 n) := by
    unfold e0
    rw [single_one_dotProduct, mulVec_single_one]
    rfl
  rw [h1, h2, Polynomial.aeval_eq_sum_range, Polynomial.aeval_eq_sum_range, Matrix.sum_mulVec,
    Matrix.sum_mulVec, dotProduct_sum, dotProduct_sum]
  refine sum_congr rfl fun k hk => ?_
  rw [smul_mulVec, smul_mulVec, dotProduct_smul, dotProduct_smul,
    S.lz.moment n hB k (by have := mem_range.1 hk; omega)]

/-- The nodes are Rayleigh quotients of the operator. -/
theorem node (S : Out M n V A B Z o) (hB : ∀ t < n, B t ≠ 0) (j : Fin (n + 1)) :
    ∃ x : Fin N → ℝ, x ⬝ᵥ x = 1 ∧ o.gnd j = x ⬝ᵥ (M *ᵥ x) := by
  refine ⟨comb (n + 1) V (fun r => Z r j), ?_, ?_⟩
  · rw [comb_comb n (S.lz.orthonormal n hB)]
    have := congrFun (congrFun S.z1 j) j
    rw [mul_apply, Matrix.one_apply_eq] at this
    exact this
  · rw [S.lz.form n hB]
    have h : Zᵀ * triM (n + 1) A B * Z = diagonal (fun i : Fin (n + 1) => o.gnd i) := by
      rw [S.tri]
      calc Zᵀ * (Z * diagonal (fun i : Fin (n + 1) => o.gnd i) * Zᵀ) * Z
          = (Zᵀ * Z) * diagonal (fun i : Fin (n + 1) => o.gnd i) * (Zᵀ * Z) := by
            simp only [Matrix.mul_assoc]
        _ = _ := by rw [S.z1, Matrix.one_mul, Matrix.mul_one]
    have := congrFun (congrFun h j) j
    rw [diagonal_apply_eq] at this
    rw [← this, Matrix.mul_assoc, mul_apply]
    unfold dotProduct
    refine sum_congr rfl fun r _ => ?_
    rw [transpose_apply, mul_apply]
    rfl

/-- Column of the density matrix: exact for polynomials of degree at most `n`. -/
theorem col_exact (S : Out M n V A B Z o) (p : Polynomial ℝ) (hp : p.natDegree ≤ n) (x : Fin N) :
    ∑ r : Fin (n + 1), V r x * ∑ j : Fin (n + 1), Z r j * (Z 0 j * p.eval (o.gnd j))
      = ((Polynomial.aeval M p) *ᵥ V 0) x := by
  have h : (Polynomial.aeval M p) *ᵥ V 0 = comb (n + 1) V ((Polynomial.aeval (triM (n + 1) A B) p) *ᵥ e0 n) := by
    rw [Polynomial.aeval_eq_sum_range, Polynomial.aeval_eq_sum_range, Matrix.sum_mulVec,
      Matrix.sum_mulVec]
    have lin : ∀ (s : Finset ℕ) (g : ℕ → Fin (n + 1) → ℝ), comb (n + 1) V (∑ k ∈ s, g k)
        = ∑ k ∈ s, comb (n + 1) V (g k) := by
      intro s g
      induction s using Finset.induction_on with
      | empty => funext y; simp [comb]
      | insert a s ha ih => rw [sum_insert ha, sum_insert ha, comb_add, ih]
    rw [lin]
    refine sum_congr rfl fun k hk => ?_
    rw [smul_mulVec, smul_mulVec, comb_smul, S.lz.power n k (by have := mem_range.1 hk; omega)]
  rw [h]
  unfold comb
  refine sum_congr rfl fun r _ => ?_
  rw [mul_comm]
  congr 1
  unfold e0
  rw [mulVec_single_one]
  show _ = (Polynomial.aeval (triM (n + 1) A B) p) r 0
  rw [conj_aeval S.z1 S.z2 S.tri]
  exact sum_congr rfl fun j _ => by ring

/-- Bound on the column for a bounded function in place of the smearing. -/
theorem col_bound (S : Out M n V A B Z o) (hB : ∀ t < n, B t ≠ 0) (g : ℝ → ℝ) (ε : ℝ)
    (hg : ∀ j : Fin (n + 1), |g (o.gnd j)| ≤ ε) (x : Fin N) :
    |∑ r : Fin (n + 1), V r x * ∑ j : Fin (n + 1), Z r j * (Z 0 j * g (o.gnd j))| ≤ ε := by
  have hε : 0 ≤ ε := (abs_nonneg _).trans (hg 0)
  set Y : Fin (n + 1) → ℝ := fun j => ∑ r : Fin (n + 1), V r x * Z r j with hY
  have e : ∑ r : Fin (n + 1), V r x * ∑ j : Fin (n + 1), Z r j * (Z 0 j * g (o.gnd j))
      = ∑ j : Fin (n + 1), Y j * (Z 0 j * g (o.gnd j)) := by
    rw [hY]
    simp only [mul_sum, sum_mul]
    rw [sum_comm]
    exact sum_congr rfl fun _ _ => sum_congr rfl fun _ _ => by ring
  have hYs : ∑ j : Fin (n + 1), Y j ^ 2 = ∑ r : Fin (n + 1), V r x ^ 2 := by
    have : ∑ j : Fin (n + 1), Y j ^ 2 = ∑ r : Fin (n + 1), ∑ s : Fin (n + 1), V r x * V s x *
        (Z * Zᵀ) r s := by
      simp only [hY, pow_two, sum_mul, mul_sum, mul_apply, transpose_apply]
      rw [sum_comm]
      refine sum_congr rfl fun r _ => ?_
      rw [sum_comm]
      exact sum_congr rfl fun s _ => sum_congr rfl fun j _ => by ring
    rw [this, S.z2]
    refine sum_congr rfl fun r _ => ?_
    rw [sum_eq_single r]
    · rw [Matrix.one_apply_eq]; ring
    · intro s _ hs; rw [Matrix.one_apply_ne (Ne.symm hs), mul_zero]
    · intro h; exact absurd (mem_univ _) h
  have hb := bessel n (S.lz.orthonormal n hB) x
  have hz : ∑ j : Fin (n + 1), Z 0 j ^ 2 = 1 := by
    rw [← S.wt_sum]; exact sum_congr rfl fun j _ => by rw [S.wt]; ring
  rw [e]
  calc |∑ j : Fin (n + 1), Y j * (Z 0 j * g (o.gnd j))|
      ≤ ∑ j : Fin (n + 1), |Y j * (Z 0 j * g (o.gnd j))| := abs_sum_le_sum_abs _ _
    _ ≤ ∑ j : Fin (n + 1), ε * ((Y j ^ 2 + Z 0 j ^ 2) / 2) := by
        refine sum_le_sum fun j _ => ?_
        rw [abs_mul, abs_mul]
        have h1 : |Y j| * |Z 0 j| ≤ (Y j ^ 2 + Z 0 j ^ 2) / 2 := by
          have := sq_nonneg (|Y j| - |Z 0 j|)
          have a1 := sq_abs (Y j)
          have a2 := sq_abs (Z 0 j)
          nlinarith
        calc |Y j| * (|Z 0 j| * |g (o.gnd j)|) = (|Y j| * |Z 0 j|) * |g (o.gnd j)| := by ring
          _ ≤ ((Y j ^ 2 + Z 0 j ^ 2) / 2) * ε := mul_le_mul h1 (hg j) (abs_nonneg _) (by positivity)
          _ = _ := by ring
    _ = ε * ((∑ j : Fin (n + 1), Y j ^ 2 + ∑ j : Fin (n + 1), Z 0 j ^ 2) / 2) := by
        rw [← mul_sum, ← sum_div, sum_add_distrib]
    _ ≤ ε * 1 := by
        refine mul_le_mul_of_nonneg_left ?_ hε
        rw [hYs, hz]
        linarith
    _ = ε := mul_one _

end Out

/-- Bound for the exact function of the operator, given by an orthogonal diagonalisation. -/
theorem fun_bound {N : ℕ} {U : Matrix (Fin N) (Fin N) ℝ} (h2 : U * Uᵀ = 1) {lam : Fin N → ℝ}
    (g : ℝ → ℝ) {ε : ℝ} (hg : ∀ k, |g (lam k)| ≤ ε) (x c : Fin N) :
    |∑ k, U x k * g (lam k) * U c k| ≤ ε := by
  have hs : ∀ y : Fin N, ∑ k, U y k ^ 2 = 1 := by
    intro y
    have := congrFun (congrFun h2 y) y
    rw [mul_apply, Matrix.one_apply_eq] at this
    rw [← this]
    exact sum_congr rfl fun k _ => by rw [transpose_apply]; ring
  calc |∑ k, U x k * g (lam k) * U c k| ≤ ∑ k, |U x k * g (lam k) * U c k| := abs_sum_le_sum_abs _ _
    _ ≤ ∑ k, ε * ((U x k ^ 2 + U c k ^ 2) / 2) := by
        refine sum_le_sum fun k _ => ?_
        rw [abs_mul, abs_mul]
        have h1 : |U x k| * |U c k| ≤ (U x k ^ 2 + U c k ^ 2) / 2 := by
          have := sq_nonneg (|U x k| - |U c k|)
          have a1 := sq_abs (U x k)
          have a2 := sq_abs (U c k)
          nlinarith
        calc |U x k| * |g (lam k)| * |U c k| = (|U x k| * |U c k|) * |g (lam k)| := by ring
          _ ≤ ((U x k ^ 2 + U c k ^ 2) / 2) * ε := mul_le_mul h1 (hg k) (abs_nonneg _) (by positivity)
          _ = _ := by ring
    _ = ε * ((∑ k, U x k ^ 2 + ∑ k, U c k ^ 2) / 2) := by rw [← mul_sum, ← sum_div, sum_add_distrib]
    _ = ε := by rw [hs, hs]; ring

theorem norm2_unit {N : ℕ} (c : Fin N) : norm2 N (Function.update (fun _ => 0) (((c : ℕ)) : ℤ) 1) = 1 := by
  rw [norm2_eq]
  have : vec N (Function.update (fun _ => 0) (((c : ℕ)) : ℤ) 1) = Pi.single c 1 := by
    funext p
    unfold vec
    by_cases h : p = c
    · subst h; simp
    · rw [Pi.single_eq_of_ne h, Function.update_of_ne]
      intro e; exact h (Fin.ext (by exact_mod_cast e))
  rw [this, single_one_dotProduct, Pi.single_eq_same, Real.sqrt_one]

/-- The first vector is the unit vector the recurrence was started with. -/
theorem V_zero_unit (H : Mem → Mem) {N : ℕ} (npl : ℕ) (c : Fin N) (lv aa bb : ℕ → ℝ) :
    V H N npl (Function.update (fun _ => 0) (((c : ℕ)) : ℤ) 1) lv aa bb 0 = Pi.single c 1 := by
  unfold V run
  show vec N (fun i => _ / norm2 N _) = _
  rw [norm2_unit]
  funext p
  unfold vec
  simp only [div_one]
  by_cases h : p = c
  · subst h; simp
  · rw [Pi.single_eq_of_ne h, Function.update_of_ne]
    intro e; exact h (Fin.ext (by exact_mod_cast e))

theorem extremes_spec (n : ℕ) (d : ℕ → ℝ) :
    (∀ i < n + 1, (extremes (n + 1) d).1 ≤ d i ∧ d i ≤ (extremes (n + 1) d).2) ∧
    (∃ i < n + 1, (extremes (n + 1) d).1 = d i) ∧ (∃ i < n + 1, (extremes (n + 1) d).2 = d i) := by
  unfold extremes
  rw [Nat.add_sub_cancel]
  induction n with
  | zero => exact ⟨fun i hi => by have : i = 0 := by omega
                                  subst this; exact ⟨le_rfl, le_rfl⟩, ⟨0, by omega, rfl⟩, ⟨0, by omega, rfl⟩⟩
  | succ n ih =>
    rw [List.range'_concat, List.foldl_append]
    simp only [List.foldl_cons, List.foldl_nil, one_mul]
    set p := (List.range' 1 n).foldl (fun (p : ℝ × ℝ) i =>
      if d i > p.2 then (p.1, d i) else if d i < p.1 then (d i, p.2) else p) (d 0, d 0) with hp
    obtain ⟨hb, ⟨i1, h1, e1⟩, ⟨i2, h2, e2⟩⟩ := ih
    have hle : p.1 ≤ p.2 := (hb 0 (by omega)).1.trans (hb 0 (by omega)).2
    have hn : 1 + n = n + 1 := by omega
    rw [hn]
    have all : ∀ q : ℝ × ℝ, q.1 ≤ p.1 → p.2 ≤ q.2 → q.1 ≤ d (n + 1) → d (n + 1) ≤ q.2 →
        ∀ i < n + 1 + 1, q.1 ≤ d i ∧ d i ≤ q.2 := by
      intro q a1 a2 a3 a4 i hi
      rcases Nat.lt_or_ge i (n + 1) with h | h
      · exact ⟨a1.trans (hb i h).1, (hb i h).2.trans a2⟩
      · have : i = n + 1 := by omega
        subst this; exact ⟨a3, a4⟩
    split_ifs with c1 c2
    · exact ⟨all _ le_rfl c1.le (hle.trans c1.le) le_rfl, ⟨i1, by omega, e1⟩, ⟨n + 1, by omega, rfl⟩⟩
    · exact ⟨all _ c2.le le_rfl le_rfl (c2.le.trans hle), ⟨n + 1, by omega, rfl⟩, ⟨i2, by omega, e2⟩⟩
    · push Not at c1 c2
      exact ⟨all _ le_rfl le_rfl c2 c1, ⟨i1, by omega, e1⟩, ⟨i2, by omega, e2⟩⟩

end Sparc.Sq

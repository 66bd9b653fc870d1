import Verif.Solver.Model
import Verif.Tac

/-! Invariants of the linear solvers. -/

namespace Sparc.Solver

/-! ### Circular history -/

section History

variable {V : Type}

/-- Pushing `v` at iteration `k` and keeping the rest. -/
theorem push_mod {m k : ℕ} (H : ℕ → V) (v : V) (hk : 0 < k) :
    push m k H v ((k - 1) % m) = v := by
  unfold push; rw [if_pos hk, Function.update_self]

theorem push_other {m k j : ℕ} (H : ℕ → V) (v : V) (h : j ≠ (k - 1) % m) :
    push m k H v j = H j := by
  unfold push
  split
  · exact Function.update_of_ne h _ _
  · rfl

/-- A sequence of histories built by pushing `dx 1, dx 2, …` holds the most recent `m`
entries and zeros in columns not yet used. -/
theorem history_recent [Zero V] (m : ℕ) (hm : 0 < m) (H : ℕ → ℕ → V) (dx : ℕ → V)
    (h0 : ∀ j, H 0 j = 0) (hs : ∀ k, H (k + 1) = push m k (H k) (dx k)) (k : ℕ) :
    (∀ t, 0 < t → t < k → k ≤ t + m → H k ((t - 1) % m) = dx t) ∧
    (∀ j, (j < m → k ≤ j + 1) → H k j = 0) := by
  induction k with
  | zero => exact ⟨fun t h1 h2 => by omega, fun j _ => h0 j⟩
  | succ k ih =>
    constructor
    · intro t h1 h2 h3
      rw [hs]
      rcases Nat.lt_or_ge t k with h | h
      · have hne : (t - 1) % m ≠ (k - 1) % m := by
          intro he
          have h5 : (k - 1 - (t - 1)) % m = 0 := Nat.sub_mod_eq_zero_of_mod_eq he.symm
          have h6 : k - 1 - (t - 1) < m := by omega
          rw [Nat.mod_eq_of_lt h6] at h5
          omega
        rw [push_other _ _ hne]
        exact ih.1 t h1 h (by omega)
      · have : t = k := by omega
        subst this
        exact push_mod _ _ h1
    · intro j hj
      rw [hs]
      by_cases hk : 0 < k
      · have hne : j ≠ (k - 1) % m := by
          intro he
          have hlt : j < m := by rw [he]; exact Nat.mod_lt _ hm
          have := hj hlt
          rw [Nat.mod_eq_of_lt (by omega)] at he
          omega
        rw [push_other _ _ hne]
        exact ih.2 j fun h => by have := hj h; omega
      · have : k = 0 := by omega
        subst this
        unfold push; simp [h0]

end History

variable {V : Type} [NormedAddCommGroup V] [InnerProductSpace ℝ V]

/-! ### AAR -/

/-- State at the `k`-th loop test. -/
def aarAt (P : AARPar V) (b x0 : V) (tol : ℝ) (k : ℕ) : AARState V :=
  (aarStep P b)^[k] (aarInit P b x0 tol)

theorem aarAt_succ (P : AARPar V) (b x0 : V) (tol : ℝ) (k : ℕ) :
    aarAt P b x0 tol (k + 1) = aarStep P b (aarAt P b x0 tol k) :=
  Function.iterate_succ_apply' _ _ _

theorem aarStep_common (P : AARPar V) (b : V) (s : AARState V) :
    (aarStep P b s).iter = s.iter + 1 ∧ (aarStep P b s).xOld = s.x ∧
    (aarStep P b s).fOld = P.prec s.r ∧
    (aarStep P b s).X = push P.m s.iter s.X (s.x - s.xOld) ∧
    (aarStep P b s).F = push P.m s.iter s.F (P.prec s.r - s.fOld) ∧
    (aarStep P b s).r = b - P.A (aarStep P b s).x := by
  unfold aarStep
  dsimp only
  split <;> exact ⟨rfl, rfl, rfl, rfl, rfl, rfl⟩

theorem aarAt_iter (P : AARPar V) (b x0 : V) (tol : ℝ) (k : ℕ) : (aarAt P b x0 tol k).iter = k := by
  induction k with
  | zero => rfl
  | succ k ih => rw [aarAt_succ, (aarStep_common P b _).1, ih]

theorem aarAt_res (P : AARPar V) (b x0 : V) (tol : ℝ) (k : ℕ) :
    (aarAt P b x0 tol k).r = b - P.A (aarAt P b x0 tol k).x := by
  cases k with
  | zero => rfl
  | succ k => rw [aarAt_succ]; exact (aarStep_common P b _).2.2.2.2.2

/-- A pass either keeps the stored norm or sets it to the norm of the new residual. -/
theorem aarAt_norm (P : AARPar V) (b x0 : V) (tol : ℝ) (k : ℕ) :
    (aarAt P b x0 tol (k + 1)).rnorm = (aarAt P b x0 tol k).rnorm ∨
    (aarAt P b x0 tol (k + 1)).rnorm = ‖b - P.A (aarAt P b x0 tol (k + 1)).x‖ := by
  rw [aarAt_succ]
  unfold aarStep
  dsimp only
  split
  · exact Or.inr rfl
  · exact Or.inl rfl

/-- The loop stops at the first test that fails. -/
theorem aarLoop_spec (P : AARPar V) (b x0 : V) (tol : ℝ) (n k : ℕ) :
    ∃ j ≤ n, aarLoop P b (tol * ‖b‖) n (aarAt P b x0 tol k) = aarAt P b x0 tol (k + j) ∧
      (∀ i, k ≤ i → i < k + j → (aarAt P b x0 tol i).rnorm > tol * ‖b‖) ∧
      (j < n → (aarAt P b x0 tol (k + j)).rnorm ≤ tol * ‖b‖) := by
  induction n generalizing k with
  | zero => exact ⟨0, le_refl _, rfl, fun i h1 h2 => by omega, fun h => by omega⟩
  | succ n ih =>
    by_cases hc : (aarAt P b x0 tol k).rnorm > tol * ‖b‖
    · obtain ⟨j, h1, h2, h3, h4⟩ := ih (k + 1)
      refine ⟨j + 1, by omega, ?_, ?_, ?_⟩
      · rw [aarLoop, if_pos hc, ← aarAt_succ, h2]; congr 1; omega
      · intro i h5 h6
        rcases Nat.lt_or_ge k i with h | h
        · exact h3 i h (by omega)
        · have : i = k := by omega
          rw [this]; exact hc
      · intro h
        have := h4 (by omega)
        rwa [show k + (j + 1) = k + 1 + j by omega]
    · refine ⟨0, by omega, ?_, fun i h1 h2 => by omega, fun _ => not_lt.mp hc⟩
      rw [aarLoop, if_neg hc]; rfl

/-! ### CG -/

/-- The pass without the division checks. -/
noncomputable def cgNext (L : V →ₗ[ℝ] V) (b : V) (sqrtN : ℕ) (s : CGState V) : CGState V :=
  let alpha := -s.delta * s.delta / inner ℝ s.d (L s.d)
  let x := s.x + alpha • s.d
  let r := if s.iter % sqrtN = 0 then b + L x else s.r + alpha • L s.d
  { x := x, r := r, d := r + (‖r‖ * ‖r‖ / (s.delta * s.delta)) • s.d, delta := ‖r‖, err := ‖r‖, iter := s.iter + 1 }

theorem cgStep_eq (L : V →ₗ[ℝ] V) (b : V) (sqrtN : ℕ) (s : CGState V)
    (h1 : inner ℝ s.d (L s.d) ≠ 0) (h2 : s.delta ≠ 0) :
    cgStep L b sqrtN s = some (cgNext L b sqrtN s) := by
  unfold cgStep cgNext
  dsimp only
  rw [if_neg h1, if_neg (mul_self_ne_zero.mpr h2)]

theorem cgStep_some (L : V →ₗ[ℝ] V) (b : V) (sqrtN : ℕ) (s s' : CGState V)
    (h : cgStep L b sqrtN s = some s') : s' = cgNext L b sqrtN s := by
  by_cases h1 : inner ℝ s.d (L s.d) = 0
  · unfold cgStep at h; dsimp only at h; rw [if_pos h1] at h; cases h
  · by_cases h2 : s.delta = 0
    · unfold cgStep at h; dsimp only at h
      rw [if_neg h1, if_pos (by rw [h2, mul_zero])] at h; cases h
    · rw [cgStep_eq L b sqrtN s h1 h2] at h
      exact (Option.some.inj h).symm

noncomputable def cgAt (L : V →ₗ[ℝ] V) (b x0 : V) (sqrtN : ℕ) (tol : ℝ) (k : ℕ) : CGState V :=
  (cgNext L b sqrtN)^[k] (cgInit L b x0 tol)

theorem cgAt_succ (L : V →ₗ[ℝ] V) (b x0 : V) (sqrtN : ℕ) (tol : ℝ) (k : ℕ) :
    cgAt L b x0 sqrtN tol (k + 1) = cgNext L b sqrtN (cgAt L b x0 sqrtN tol k) :=
  Function.iterate_succ_apply' _ _ _

theorem cgAt_basic (L : V →ₗ[ℝ] V) (b x0 : V) (sqrtN : ℕ) (tol : ℝ) (k : ℕ) :
    let s := cgAt L b x0 sqrtN tol k
    s.r = b + L s.x ∧ s.delta = ‖s.r‖ ∧ s.iter = k ∧ (0 < k → s.err = ‖s.r‖) := by
  induction k with
  | zero => exact ⟨rfl, rfl, rfl, fun h => by omega⟩
  | succ k ih =>
    intro s
    have hs : s = cgNext L b sqrtN (cgAt L b x0 sqrtN tol k) := cgAt_succ ..
    rw [hs]
    refine ⟨?_, rfl, by unfold cgNext; dsimp only; rw [ih.2.2.1], fun _ => rfl⟩
    unfold cgNext
    dsimp only
    split
    · rfl
    · rw [ih.1, map_add, map_smul]; abel

section

variable (L : V →ₗ[ℝ] V) (b x0 : V) (sqrtN : ℕ) (tol : ℝ)

/-- Recurrences of the residual and direction. -/
theorem cgAt_rec (k : ℕ) :
    let s := cgAt L b x0 sqrtN tol k
    let s' := cgAt L b x0 sqrtN tol (k + 1)
    s'.r = s.r + (-‖s.r‖ * ‖s.r‖ / inner ℝ s.d (L s.d)) • L s.d ∧
    s'.d = s'.r + (‖s'.r‖ * ‖s'.r‖ / (‖s.r‖ * ‖s.r‖)) • s.d := by
  intro s s'
  have hb := cgAt_basic L b x0 sqrtN tol k
  change s.r = b + L s.x ∧ s.delta = ‖s.r‖ ∧ _ at hb
  have hb' := cgAt_basic L b x0 sqrtN tol (k + 1)
  change s'.r = b + L s'.x ∧ s'.delta = ‖s'.r‖ ∧ _ at hb'
  have hs : s' = cgNext L b sqrtN s := cgAt_succ ..
  have hx : s'.x = s.x + (-‖s.r‖ * ‖s.r‖ / inner ℝ s.d (L s.d)) • s.d := by
    rw [hs]; unfold cgNext; dsimp only; rw [hb.2.1]
  refine ⟨?_, ?_⟩
  · rw [hb'.1, hx, hb.1, map_add, map_smul]; abel
  · have : s'.d = s'.r + (‖s'.r‖ * ‖s'.r‖ / (s.delta * s.delta)) • s.d := by
      rw [hs]; rfl
    rw [this, hb.2.1]

variable (W : Submodule ℝ V)

theorem cgAt_mem (hW : ∀ v ∈ W, L v ∈ W) (h0 : b + L x0 ∈ W) (k : ℕ) :
    (cgAt L b x0 sqrtN tol k).r ∈ W ∧ (cgAt L b x0 sqrtN tol k).d ∈ W := by
  induction k with
  | zero => exact ⟨h0, h0⟩
  | succ k ih =>
    obtain ⟨h1, h2⟩ := cgAt_rec L b x0 sqrtN tol k
    have hr : (cgAt L b x0 sqrtN tol (k + 1)).r ∈ W := by
      rw [h1]; exact W.add_mem ih.1 (W.smul_mem _ (hW _ ih.2))
    exact ⟨hr, by rw [h2]; exact W.add_mem hr (W.smul_mem _ ih.2)⟩

/-- Orthogonality relations of conjugate gradients. -/
theorem cg_orth (hsym : ∀ u v : V, inner ℝ (L u) v = inner ℝ u (L v))
    (hW : ∀ v ∈ W, L v ∈ W) (h0 : b + L x0 ∈ W)
    (hneg : ∀ v ∈ W, v ≠ 0 → inner ℝ v (L v) < 0) (k : ℕ)
    (hne : ∀ j < k, (cgAt L b x0 sqrtN tol j).r ≠ 0) :
    let S := cgAt L b x0 sqrtN tol
    (∀ i < k, inner ℝ (S i).r (S k).r = 0) ∧ (∀ i < k, inner ℝ (S i).d (L (S k).d) = 0) ∧
    (∀ i < k, inner ℝ (S i).d (S k).r = 0) ∧ inner ℝ (S k).d (S k).r = inner ℝ (S k).r (S k).r := by
  intro S
  induction k using Nat.strong_induction_on with
  | _ k ih =>
  cases k with
  | zero => exact ⟨fun i h => by omega, fun i h => by omega, fun i h => by omega, rfl⟩
  | succ k =>
    have hall : ∀ i ≤ k, inner ℝ (S i).d (S i).r = inner ℝ (S i).r (S i).r := fun i hi =>
      (ih i (by omega) fun j hj => hne j (by omega)).2.2.2
    obtain ⟨i1, i2, i3, i4⟩ := ih k (by omega) fun j hj => hne j (by omega)
    have hcurv : ∀ i ≤ k, inner ℝ (S i).d (L (S i).d) < 0 := by
      intro i hi
      refine hneg _ (cgAt_mem L b x0 sqrtN tol W hW h0 i).2 fun hd => ?_
      have h := hall i hi
      change (S i).d = 0 at hd
      rw [hd, inner_zero_left] at h
      exact hne i (by omega) (inner_self_eq_zero.mp h.symm)
    have hrpos : ∀ i ≤ k, 0 < ‖(S i).r‖ := fun i hi => norm_pos_iff.mpr (hne i (by omega))
    have hrec : ∀ i, (S (i + 1)).r = (S i).r + (-‖(S i).r‖ * ‖(S i).r‖ / inner ℝ (S i).d (L (S i).d)) • L (S i).d ∧
        (S (i + 1)).d = (S (i + 1)).r + (‖(S (i + 1)).r‖ * ‖(S (i + 1)).r‖ / (‖(S i).r‖ * ‖(S i).r‖)) • (S i).d :=
      fun i => cgAt_rec L b x0 sqrtN tol i
    -- directions orthogonal to the new residual
    have d3 : ∀ i < k + 1, inner ℝ (S i).d (S (k + 1)).r = 0 := by
      intro i hi
      rw [(hrec k).1, inner_add_right, inner_smul_right]
      rcases Nat.lt_or_ge i k with h | h
      · have h3 : inner ℝ (S i).d (S k).r = 0 := i3 i h
        have h4 : inner ℝ (S i).d (L (S k).d) = 0 := i2 i h
        rw [h3, h4]; ring
      · have : i = k := by omega
        subst this
        have h4 : inner ℝ (S i).d (S i).r = inner ℝ (S i).r (S i).r := i4
        rw [h4, real_inner_self_eq_norm_mul_norm]
        have := (hcurv i (le_refl _)).ne
        field_simp
        ring
    -- residuals orthogonal
    have d1 : ∀ i < k + 1, inner ℝ (S i).r (S (k + 1)).r = 0 := by
      intro i hi
      cases i with
      | zero => exact d3 0 hi
      | succ i =>
        have : (S (i + 1)).r = (S (i + 1)).d - (‖(S (i + 1)).r‖ * ‖(S (i + 1)).r‖ / (‖(S i).r‖ * ‖(S i).r‖)) • (S i).d := by
          conv_rhs => rw [(hrec i).2]
          abel
        rw [this, inner_sub_left, inner_smul_left, d3 (i + 1) hi, d3 i (by omega)]
        simp
    refine ⟨d1, ?_, d3, ?_⟩
    · intro i hi
      have hLd : inner ℝ (S i).d (L (S (k + 1)).r)
          = (inner ℝ (S (i + 1)).r (S (k + 1)).r - inner ℝ (S i).r (S (k + 1)).r) *
            (inner ℝ (S i).d (L (S i).d) / (-‖(S i).r‖ * ‖(S i).r‖)) := by
        rw [(hrec i).1, inner_add_left, inner_smul_left, ← hsym]
        have h1 := (hcurv i (by omega)).ne
        have h2 := (hrpos i (by omega)).ne'
        simp only [conj_trivial]
        field_simp
        ring
      rw [(hrec k).2, map_add, map_smul, inner_add_right, inner_smul_right, hLd, d1 i hi]
      rcases Nat.lt_or_ge i k with h | h
      · have h4 : inner ℝ (S i).d (L (S k).d) = 0 := i2 i h
        rw [d1 (i + 1) (by omega), h4]; ring
      · have : i = k := by omega
        subst this
        rw [real_inner_self_eq_norm_mul_norm]
        have h2 := (hrpos i (by omega)).ne'
        field_simp
        ring
    · rw [(hrec k).2, inner_add_left, inner_smul_left, d3 k (by omega)]
      simp

end

end Sparc.Solver

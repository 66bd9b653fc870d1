import Verif.Sq.Krylov
import Mathlib.LinearAlgebra.Matrix.DotProduct

/-! # Spectral quadrature: the Lanczos loop -/

namespace Sparc.Sq

open Finset Matrix Lap

/-- The first `N` entries of an array. -/
def vec (N : ℕ) (x : Mem) : Fin N → ℝ := fun i => x ((i : ℕ) : ℤ)

theorem dot_eq (N : ℕ) (u v : Mem) : dot N u v = vec N u ⬝ᵥ vec N v := by
  unfold dot vec dotProduct
  rw [Fin.sum_univ_eq_sum_range (fun i : ℕ => u i * v i)]
  induction N with
  | zero => rfl
  | succ N ih => rw [List.range_succ, List.foldl_append, ih, sum_range_succ]; rfl

theorem norm2_eq (N : ℕ) (u : Mem) : norm2 N u = √(vec N u ⬝ᵥ vec N u) := by
  rw [← dot_eq]; rfl

/-- The operator acts on the first `N` entries as the matrix `M`. -/
def Acts (N : ℕ) (H : Mem → Mem) (M : Matrix (Fin N) (Fin N) ℝ) : Prop :=
  ∀ x, vec N (H x) = M *ᵥ vec N x

/-- State after `t` passes of the loop. -/
noncomputable def run (H : Mem → Mem) (N npl : ℕ) (t0 : Mem) (lv aa bb : ℕ → ℝ) (t : ℕ) : LSt :=
  (List.range t).foldl (lanczosStep H N npl) (lanczosInit H N t0 lv aa bb)

section
variable (H : Mem → Mem) (N npl : ℕ) (t0 : Mem) (lv aa bb : ℕ → ℝ)

theorem run_zero : run H N npl t0 lv aa bb 0 = lanczosInit H N t0 lv aa bb := rfl

theorem run_succ (t : ℕ) :
    run H N npl t0 lv aa bb (t + 1) = lanczosStep H N npl (run H N npl t0 lv aa bb t) t := by
  unfold run; rw [List.range_succ, List.foldl_append]; rfl

theorem lanczos_run : lanczos H N npl t0 lv aa bb = run H N npl t0 lv aa bb (npl - 1) := rfl

theorem step_vkm1 (st : LSt) (t : ℕ) : (lanczosStep H N npl st t).vkm1 = st.vk := by
  unfold lanczosStep; simp only; split_ifs <;> rfl

theorem step_aa (st : LSt) (t : ℕ) : (lanczosStep H N npl st t).aa
    = Function.update st.aa (t + 1) (dot N st.vk (H st.vk)) := by
  unfold lanczosStep; simp only; split_ifs <;> rfl

/-- The residual of one pass. -/
noncomputable def resid (st : LSt) (t : ℕ) : Mem := fun i =>
  H st.vk i - dot N st.vk (H st.vk) * st.vk i - st.bb t * st.vkm1 i

theorem step_bb (st : LSt) (t : ℕ) : (lanczosStep H N npl st t).bb
    = Function.update st.bb (t + 1) (norm2 N (resid H N st t)) := by
  unfold lanczosStep resid; simp only; split_ifs <;> rfl

theorem step_vk (st : LSt) (t : ℕ) : (lanczosStep H N npl st t).vk
    = fun i => resid H N st t i / norm2 N (resid H N st t) := by
  unfold lanczosStep resid; simp only; split_ifs <;> rfl

/-- The vectors of the run. -/
noncomputable def V (t : ℕ) : Fin N → ℝ := vec N (run H N npl t0 lv aa bb t).vkm1
/-- The diagonal coefficients of the run. -/
noncomputable def cA (t : ℕ) : ℝ := (run H N npl t0 lv aa bb t).aa t
/-- The off-diagonal coefficients of the run. -/
noncomputable def cB (t : ℕ) : ℝ := (run H N npl t0 lv aa bb t).bb t

theorem aa_keep (s d : ℕ) :
    (run H N npl t0 lv aa bb (s + d)).aa s = cA H N npl t0 lv aa bb s := by
  induction d with
  | zero => rfl
  | succ d ih =>
    rw [← add_assoc, run_succ, step_aa, Function.update_of_ne (by omega), ih]

theorem bb_keep (s d : ℕ) :
    (run H N npl t0 lv aa bb (s + d)).bb s = cB H N npl t0 lv aa bb s := by
  induction d with
  | zero => rfl
  | succ d ih =>
    rw [← add_assoc, run_succ, step_bb, Function.update_of_ne (by omega), ih]

theorem vk_next (t : ℕ) : vec N (run H N npl t0 lv aa bb t).vk = V H N npl t0 lv aa bb (t + 1) := by
  unfold V; rw [run_succ, step_vkm1]

end

theorem normalise {N : ℕ} (w : Mem) :
    norm2 N w • vec N (fun i => w i / norm2 N w) = vec N w ∧
    (norm2 N w ≠ 0 → vec N (fun i => w i / norm2 N w) ⬝ᵥ vec N (fun i => w i / norm2 N w) = 1) := by
  have hn : 0 ≤ vec N w ⬝ᵥ vec N w := by
    unfold dotProduct; exact sum_nonneg fun i _ => mul_self_nonneg _
  constructor
  · by_cases h : norm2 N w = 0
    · have h0 : vec N w ⬝ᵥ vec N w = 0 := by
        rw [norm2_eq] at h
        exact (Real.sqrt_eq_zero hn).1 h
      have : vec N w = 0 := dotProduct_self_eq_zero.1 h0
      rw [h, this, zero_smul]
    · funext i
      simp only [Pi.smul_apply, smul_eq_mul, vec]
      field_simp
  · intro h
    have e : vec N (fun i => w i / norm2 N w) = (1 / norm2 N w) • vec N w := by
      funext i; simp only [Pi.smul_apply, smul_eq_mul, vec]; ring
    have h2 : norm2 N w * norm2 N w = vec N w ⬝ᵥ vec N w := by
      rw [norm2_eq, Real.mul_self_sqrt hn]
    rw [e, smul_dotProduct, dotProduct_smul, smul_eq_mul, smul_eq_mul, ← h2]
    field_simp

/-- The loop produces a Lanczos sequence. -/
theorem run_lz {H : Mem → Mem} {N : ℕ} {M : Matrix (Fin N) (Fin N) ℝ} (hH : Acts N H M)
    (hM : Mᵀ = M) (npl : ℕ) (t0 : Mem) (lv aa bb : ℕ → ℝ) (ht : norm2 N t0 ≠ 0) :
    Lz M (V H N npl t0 lv aa bb) (cA H N npl t0 lv aa bb) (cB H N npl t0 lv aa bb) := by
  have lin : ∀ (x y z : Mem) (a b : ℝ), vec N (fun i => x i - a * y i - b * z i)
      = vec N x - a • vec N y - b • vec N z := by
    intro x y z a b; funext i; simp [vec]
  have lin1 : ∀ (x y : Mem) (a : ℝ), vec N (fun i => x i - a * y i) = vec N x - a • vec N y := by
    intro x y a; funext i; simp [vec]
  set w0 : Mem := fun i => t0 i / norm2 N t0 with hw0
  set u0 : Mem := fun i => H w0 i - dot N w0 (H w0) * w0 i with hu0
  have V0 : V H N npl t0 lv aa bb 0 = vec N w0 := rfl
  have A0 : cA H N npl t0 lv aa bb 0 = dot N w0 (H w0) := by
    unfold cA; rw [run_zero]; unfold lanczosInit; simp only [Function.update_self]; rfl
  have B0 : cB H N npl t0 lv aa bb 0 = norm2 N u0 := by
    unfold cB; rw [run_zero]; unfold lanczosInit; simp only [Function.update_self]; rfl
  have V1 : V H N npl t0 lv aa bb 1 = vec N (fun i => u0 i / norm2 N u0) := by
    rw [← vk_next]; rfl
  have At : ∀ t, cA H N npl t0 lv aa bb (t + 1) = V H N npl t0 lv aa bb (t + 1) ⬝ᵥ
      (M *ᵥ V H N npl t0 lv aa bb (t + 1)) := by
    intro t
    unfold cA
    rw [run_succ, step_aa, Function.update_self, dot_eq, hH, vk_next]
  have res : ∀ t, vec N (resid H N (run H N npl t0 lv aa bb t) t)
      = M *ᵥ V H N npl t0 lv aa bb (t + 1) - cA H N npl t0 lv aa bb (t + 1) •
        V H N npl t0 lv aa bb (t + 1) - cB H N npl t0 lv aa bb t • V H N npl t0 lv aa bb t := by
    intro t
    unfold resid
    rw [lin, hH, vk_next, dot_eq, hH, vk_next, ← At]
    rfl
  have Bt : ∀ t, cB H N npl t0 lv aa bb (t + 1) = norm2 N (resid H N (run H N npl t0 lv aa bb t) t) := by
    intro t; unfold cB; rw [run_succ, step_bb, Function.update_self]
  have Vt : ∀ t, V H N npl t0 lv aa bb (t + 2) = vec N (fun i =>
      resid H N (run H N npl t0 lv aa bb t) t i / norm2 N (resid H N (run H N npl t0 lv aa bb t) t)) := by
    intro t
    rw [← vk_next, run_succ, step_vk]
  refine ⟨hM, ?_, ?_, ?_, ?_, ?_⟩
  · rw [B0, V1, (normalise u0).1, hu0, lin1, hH, ← V0, A0]
    simp
  · intro t
    rw [Bt, Vt, (normalise _).1, res]
    abel
  · intro t
    cases t with
    | zero => rw [A0, dot_eq, hH, V0]
    | succ t => exact At t
  · rw [V0]; exact (normalise t0).2 ht
  · intro t h
    cases t with
    | zero => rw [V1]; rw [B0] at h; exact (normalise u0).2 h
    | succ t => rw [Vt]; rw [Bt] at h; exact (normalise _).2 h

/-! ### The stored vectors -/

theorem store_in (N : ℕ) (v : Mem) (lv : ℕ → ℝ) (le : ℕ) (i : Fin N) :
    store N v lv le (le + i) = vec N v i := by
  unfold store vec
  rw [if_pos ⟨by omega, by omega⟩, Nat.add_sub_cancel_left]

theorem store_out (N : ℕ) (v : Mem) (lv : ℕ → ℝ) (le q : ℕ) (h : q < le ∨ le + N ≤ q) :
    store N v lv le q = lv q := by
  unfold store; rw [if_neg (by omega)]

theorem run_store (H : Mem → Mem) (N npl : ℕ) (t0 : Mem) (lv aa bb : ℕ → ℝ) (t : ℕ) :
    (t < npl - 1 ∨ t = 0 → (run H N npl t0 lv aa bb t).le = (t + 2) * N ∧
      ∀ j ≤ t + 1, ∀ i : Fin N, (run H N npl t0 lv aa bb t).lv (j * N + i) = V H N npl t0 lv aa bb j i) ∧
    (t = npl - 1 → 2 ≤ npl → (run H N npl t0 lv aa bb t).le = npl * N ∧
      ∀ j < npl, ∀ i : Fin N, (run H N npl t0 lv aa bb t).lv (j * N + i) = V H N npl t0 lv aa bb j i) := by
  induction t with
  | zero =>
    refine ⟨fun _ => ⟨?_, ?_⟩, fun h h2 => by omega⟩
    · rw [run_zero]; unfold lanczosInit; simp only; ring
    · intro j hj i
      have e : j = 0 ∨ j = 1 := by omega
      rcases e with rfl | rfl
      · rw [run_zero, zero_mul, zero_add]
        unfold lanczosInit
        simp only
        rw [store_out _ _ _ _ _ (by left; exact i.2)]
        have := store_in N (fun i => t0 i / norm2 N t0) lv 0 i
        rw [zero_add] at this
        rw [this]
        rfl
      · rw [← vk_next, run_zero, one_mul]
        unfold lanczosInit
        simp only
        rw [store_in]
  | succ t ih =>
    constructor
    · intro h
      obtain ⟨h1, h2⟩ := ih.1 (by omega)
      have hc : ((t : ℕ) : ℤ) ≠ (npl : ℤ) - 2 := by omega
      have hs : run H N npl t0 lv aa bb (t + 1) = lanczosStep H N npl (run H N npl t0 lv aa bb t) t :=
        run_succ _ _ _ _ _ _ _ _
      have hlv : (run H N npl t0 lv aa bb (t + 1)).lv = store N (run H N npl t0 lv aa bb (t + 1)).vk
          (run H N npl t0 lv aa bb t).lv ((t + 2) * N) := by
        rw [hs, ← h1]; unfold lanczosStep; simp only; rw [if_pos hc]
      refine ⟨?_, ?_⟩
      · rw [hs]; unfold lanczosStep; simp only; rw [if_pos hc, h1]; ring
      · intro j hj i
        rw [hlv]
        by_cases hjt : j = t + 2
        · subst hjt
          rw [store_in, vk_next]
        · rw [store_out, h2 j (by omega) i]
          left
          calc j * N + i < j * N + N := by omega
            _ = (j + 1) * N := by ring
            _ ≤ (t + 2) * N := Nat.mul_le_mul_right _ (by omega)
    · intro h hn
      obtain ⟨h1, h2⟩ := ih.1 (by omega)
      have hc : ¬ ((t : ℕ) : ℤ) ≠ (npl : ℤ) - 2 := by omega
      rw [run_succ]
      unfold lanczosStep
      simp only
      rw [if_neg hc]
      simp only
      rw [h1]
      refine ⟨by rw [show t + 2 = npl by omega], fun j hj i => h2 j (by omega) i⟩

theorem lanczos_store (H : Mem → Mem) (N npl : ℕ) (t0 : Mem) (lv aa bb : ℕ → ℝ) (hn : 1 ≤ npl)
    {j : ℕ} (hj : j < npl) (i : Fin N) :
    (lanczos H N npl t0 lv aa bb).lv (j * N + i) = V H N npl t0 lv aa bb j i := by
  rw [lanczos_run]
  by_cases h2 : 2 ≤ npl
  · exact ((run_store H N npl t0 lv aa bb (npl - 1)).2 rfl h2).2 j hj i
  · have : npl = 1 := by omega
    subst this
    exact ((run_store H N 1 t0 lv aa bb 0).1 (Or.inr rfl)).2 j (by omega) i

theorem lanczos_coef (H : Mem → Mem) (N npl : ℕ) (t0 : Mem) (lv aa bb : ℕ → ℝ) {j : ℕ} (hj : j < npl) :
    (lanczos H N npl t0 lv aa bb).aa j = cA H N npl t0 lv aa bb j ∧
    (lanczos H N npl t0 lv aa bb).bb j = cB H N npl t0 lv aa bb j := by
  rw [lanczos_run]
  obtain ⟨d, hd⟩ : ∃ d, npl - 1 = j + d := ⟨npl - 1 - j, by omega⟩
  rw [hd]
  exact ⟨aa_keep _ _ _ _ _ _ _ _ _, bb_keep _ _ _ _ _ _ _ _ _⟩

end Sparc.Sq

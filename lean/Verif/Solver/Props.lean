import Verif.Solver.Lemmas
import Mathlib.Analysis.InnerProductSpace.PiL2

/-!
# C20: the linear solvers report the true residual
-/

namespace Sparc.Solver

variable {V : Type} [NormedAddCommGroup V] [InnerProductSpace ℝ V]

/-- **C20 (AAR).** Whatever the operator, the preconditioner and the least-squares routine: if
the solver stops before the iteration limit, the vector it returns satisfies
`‖b - A x‖ ≤ tol ‖b‖`; the limit is never exceeded. -/
theorem aar_converged (P : AARPar V) (b x0 : V) (tol : ℝ) (maxIter : ℕ) :
    (aar P b x0 tol maxIter).iter ≤ maxIter ∧
    ((aar P b x0 tol maxIter).iter < maxIter →
      ‖b - P.A (aar P b x0 tol maxIter).x‖ ≤ tol * ‖b‖) := by
  obtain ⟨j, h1, h2, h3, h4⟩ := aarLoop_spec P b x0 tol maxIter 0
  have he : aar P b x0 tol maxIter = aarAt P b x0 tol j := by
    unfold aar; rw [show aarInit P b x0 tol = aarAt P b x0 tol 0 from rfl, h2, zero_add]
  rw [he, aarAt_iter]
  refine ⟨h1, fun hlt => ?_⟩
  have h5 := h4 hlt
  rw [zero_add] at h5
  cases j with
  | zero =>
    have : (aarAt P b x0 tol 0).rnorm = tol * ‖b‖ + 1 := rfl
    linarith
  | succ j =>
    rcases aarAt_norm P b x0 tol j with h | h
    · have := h3 j (by omega) (by omega); linarith
    · rwa [h] at h5

/-- **C20 (AAR, history).** When the `k`-th pass extrapolates, the history columns hold exactly
the differences of the last `min(k, m)` iterates and of their preconditioned residuals, and
zeros elsewhere. -/
theorem aar_history (P : AARPar V) (hm : 0 < P.m) (b x0 : V) (tol : ℝ) (k : ℕ) :
    let x := fun t => (aarAt P b x0 tol t).x
    let f := fun t => P.prec (b - P.A (x t))
    let s := aarAt P b x0 tol (k + 1)
    (∀ t, 0 < t → t ≤ k → k < t + P.m →
      s.X ((t - 1) % P.m) = x t - x (t - 1) ∧ s.F ((t - 1) % P.m) = f t - f (t - 1)) ∧
    (∀ j, (j < P.m → k ≤ j) → s.X j = 0 ∧ s.F j = 0) := by
  intro x f s
  have hxo : ∀ k, (aarAt P b x0 tol k).xOld = x (k - 1) := by
    intro k
    cases k with
    | zero => rfl
    | succ k => rw [aarAt_succ, (aarStep_common P b _).2.1]; rfl
  have hfo : ∀ k, 0 < k → (aarAt P b x0 tol k).fOld = f (k - 1) := by
    intro k hk
    cases k with
    | zero => omega
    | succ k => rw [aarAt_succ, (aarStep_common P b _).2.2.1, aarAt_res]; rfl
  have hX := history_recent P.m hm (fun k => (aarAt P b x0 tol k).X)
    (fun k => x k - x (k - 1)) (fun _ => rfl) (fun k => by
      rw [aarAt_succ, (aarStep_common P b _).2.2.2.1, aarAt_iter, hxo]) (k + 1)
  have hF := history_recent P.m hm (fun k => (aarAt P b x0 tol k).F)
    (fun k => f k - f (k - 1)) (fun _ => rfl) (fun k => by
      rw [aarAt_succ, (aarStep_common P b _).2.2.2.2.1, aarAt_iter]
      cases k with
      | zero => unfold push; simp
      | succ k => rw [hfo (k + 1) (by omega), aarAt_res]) (k + 1)
  refine ⟨fun t h1 h2 h3 => ⟨hX.1 t h1 (by omega) (by omega), hF.1 t h1 (by omega) (by omega)⟩,
    fun j hj => ⟨hX.2 j fun h => ?_, hF.2 j fun h => ?_⟩⟩
  · have := hj h; omega
  · have := hj h; omega

/-- **C20 (AAR, extrapolated residual).** For a linear operator and preconditioner the
extrapolated residual `f - F Γ` is the preconditioned residual of the extrapolated iterate
`x - X Γ`, for any weights. -/
theorem aar_extrapolation_consistent (A prec : V →ₗ[ℝ] V) (P : AARPar V) (hA : P.A = A)
    (hp : P.prec = prec) (b x0 : V) (tol : ℝ) (k : ℕ) (g : ℕ → ℝ) :
    let s := aarAt P b x0 tol (k + 1)
    wavg P.m (prec (b - A (aarAt P b x0 tol k).x)) s.F g =
      prec (b - A (wavg P.m (aarAt P b x0 tol k).x s.X g)) := by
  intro s
  have key : ∀ k j, (aarAt P b x0 tol k).F j = -prec (A ((aarAt P b x0 tol k).X j)) := by
    intro k
    induction k with
    | zero => intro j; change (0:V) = -prec (A 0); simp
    | succ k ih =>
      intro j
      rw [aarAt_succ]
      obtain ⟨-, -, -, h4, h5, -⟩ := aarStep_common P b (aarAt P b x0 tol k)
      rw [h4, h5, aarAt_iter]
      by_cases hj : j = (k - 1) % P.m ∧ 0 < k
      · obtain ⟨rfl, hk⟩ := hj
        rw [push_mod _ _ hk, push_mod _ _ hk]
        obtain ⟨k, rfl⟩ : ∃ i, k = i + 1 := ⟨k - 1, by omega⟩
        obtain ⟨-, h2, h3, -, -, -⟩ := aarStep_common P b (aarAt P b x0 tol k)
        rw [aarAt_res, aarAt_succ, h2, h3, aarAt_res, hp, hA]
        simp only [map_sub]
        abel
      · have : ∀ (H : ℕ → V) (v : V), push P.m k H v j = H j := by
          intro H v
          unfold push
          split
          · rename_i hk
            exact Function.update_of_ne (fun h => hj ⟨h, hk⟩) _ _
          · rfl
        rw [this, this, ih]
  unfold wavg
  simp only [map_sub, map_sum, map_smul]
  have : ∀ j, s.F j = -prec (A (s.X j)) := key (k + 1)
  simp only [this, smul_neg, Finset.sum_neg_distrib]
  abel

/-- **C20 (extrapolation weights).** Weights that solve the normal equations give the smallest
extrapolated residual of all weights. -/
theorem anderson_optimal (m : ℕ) (f : V) (F : ℕ → V) (g g' : ℕ → ℝ)
    (h : ∀ i < m, inner ℝ (F i) (∑ j ∈ Finset.range m, g j • F j) = inner ℝ (F i) f) :
    ‖wavg m f F g‖ ≤ ‖wavg m f F g'‖ := by
  have e : wavg m f F g' = wavg m f F g + ∑ j ∈ Finset.range m, (g j - g' j) • F j := by
    unfold wavg; simp only [sub_smul, Finset.sum_sub_distrib]; abel
  have ho : inner ℝ (wavg m f F g) (∑ j ∈ Finset.range m, (g j - g' j) • F j) = 0 := by
    rw [inner_sum]
    refine Finset.sum_eq_zero fun j hj => ?_
    rw [inner_smul_right, real_inner_comm]
    unfold wavg
    rw [inner_sub_right, h j (Finset.mem_range.mp hj)]
    ring
  have := norm_add_sq_eq_norm_sq_add_norm_sq_real ho
  rw [← e] at this
  nlinarith [norm_nonneg (wavg m f F g), norm_nonneg (wavg m f F g'),
    mul_self_nonneg ‖∑ j ∈ Finset.range m, (g j - g' j) • F j‖]

/-- The states a successful CG run goes through. -/
theorem cgLoop_some (L : V →ₗ[ℝ] V) (b x0 : V) (sqrtN : ℕ) (tol T : ℝ) (n k : ℕ) (s : CGState V)
    (h : cgLoop L b sqrtN T n (cgAt L b x0 sqrtN tol k) = some s) :
    ∃ j ≤ n, s = cgAt L b x0 sqrtN tol (k + j) ∧ (j < n → s.err ≤ T) := by
  induction n generalizing k with
  | zero => exact ⟨0, le_refl _, (Option.some.inj h).symm, fun h => by omega⟩
  | succ n ih =>
    rw [cgLoop] at h
    by_cases hc : (cgAt L b x0 sqrtN tol k).err > T
    · rw [if_pos hc] at h
      cases hs : cgStep L b sqrtN (cgAt L b x0 sqrtN tol k) with
      | none => rw [hs] at h; cases h
      | some s' =>
        rw [hs] at h
        have := cgStep_some L b sqrtN _ _ hs
        subst this
        rw [← cgAt_succ] at h
        obtain ⟨j, h1, h2, h3⟩ := ih (k + 1) h
        exact ⟨j + 1, by omega, by rw [h2]; congr 1; omega, fun hj => h3 (by omega)⟩
    · rw [if_neg hc] at h
      have := Option.some.inj h
      exact ⟨0, by omega, this.symm, fun _ => by rw [← this]; exact not_lt.mp hc⟩

/-- **C20 (CG).** The running residual of conjugate gradients is the true residual `b + L x`
of the vector returned, and a run that stops before the limit meets the tolerance. -/
theorem cg_converged (L : V →ₗ[ℝ] V) (b x0 : V) (sqrtN : ℕ) (tol : ℝ) (maxIter : ℕ) (s : CGState V)
    (h : cg L b x0 sqrtN tol maxIter = some s) :
    s.r = b + L s.x ∧ s.iter ≤ maxIter ∧
    (s.iter < maxIter → ‖b + L s.x‖ ≤ tol * ‖b‖) ∧
    (0 < maxIter → s.err = ‖b + L s.x‖) := by
  obtain ⟨j, h1, h2, h3⟩ := cgLoop_some L b x0 sqrtN tol _ maxIter 0 s h
  rw [zero_add] at h2
  obtain ⟨b1, b2, b3, b4⟩ := cgAt_basic L b x0 sqrtN tol j
  rw [← h2] at b1 b2 b3 b4
  have hj0 : 0 < maxIter → 0 < j := by
    intro hm
    by_contra hj
    have hj : j = 0 := by omega
    subst hj
    have h4 := h3 hm
    rw [h2] at h4
    change tol * ‖b‖ + 1 ≤ tol * ‖b‖ at h4
    linarith
  refine ⟨b1, by omega, fun hlt => ?_, fun hm => ?_⟩
  · rw [b3] at hlt
    have := h3 hlt
    rw [b4 (hj0 (by omega)), b1] at this
    exact this
  · rw [b4 (hj0 hm), b1]

/-- **C20 (CG, finite termination).** If `-L` is symmetric and positive on an invariant
subspace of dimension `n` that contains the initial residual (for the periodic Laplacian: the
vectors of zero mean), the start is not already exact, and at least `n` iterations are
allowed, then no division by zero occurs, the run stops after at most `n` iterations, and the
returned vector meets the tolerance. -/
theorem cg_terminates (L : V →ₗ[ℝ] V) (b x0 : V) (sqrtN : ℕ) (tol : ℝ) (ht : 0 ≤ tol)
    (W : Submodule ℝ V) [FiniteDimensional ℝ W]
    (hsym : ∀ u v : V, inner ℝ (L u) v = inner ℝ u (L v))
    (hW : ∀ v ∈ W, L v ∈ W) (h0 : b + L x0 ∈ W)
    (hneg : ∀ v ∈ W, v ≠ 0 → inner ℝ v (L v) < 0) (hstart : b + L x0 ≠ 0)
    (maxIter : ℕ) (hmax : Module.finrank ℝ W ≤ maxIter) :
    ∃ s, cg L b x0 sqrtN tol maxIter = some s ∧ s.iter ≤ Module.finrank ℝ W ∧
      ‖b + L s.x‖ ≤ tol * ‖b‖ := by
  set S := cgAt L b x0 sqrtN tol with hS
  have hT : 0 ≤ tol * ‖b‖ := mul_nonneg ht (norm_nonneg _)
  -- some residual within the dimension vanishes
  have hex : ∃ k, k ≤ Module.finrank ℝ W ∧ (S k).r = 0 := by
    by_contra hno
    push Not at hno
    have hmem := fun k => (cgAt_mem L b x0 sqrtN tol W hW h0 k).1
    have hli : LinearIndependent ℝ
        (fun i : Fin (Module.finrank ℝ W + 1) => (⟨(S i).r, hmem i⟩ : W)) := by
      refine linearIndependent_of_ne_zero_of_inner_eq_zero (𝕜 := ℝ) ?_ ?_
      · intro i hi
        exact hno i (by omega) (congrArg Subtype.val hi)
      · intro i j hij
        change inner ℝ (S i).r (S j).r = 0
        rcases Nat.lt_or_ge i j with h | h
        · exact (cg_orth L b x0 sqrtN tol W hsym hW h0 hneg j
            (fun t ht => hno t (by omega))).1 i h
        · have h' : (j : ℕ) < i := by
            rcases Nat.lt_or_ge j i with h2 | h2
            · exact h2
            · exact absurd (Fin.ext (by omega)) hij
          rw [real_inner_comm]
          exact (cg_orth L b x0 sqrtN tol W hsym hW h0 hneg i
            (fun t ht => hno t (by omega))).1 j h'
    have := hli.fintype_card_le_finrank
    simp at this
  -- the loop runs from `k` to its end without failure
  have hrun : ∀ n k, (∀ j < k, (S j).r ≠ 0) → (0 < k ∨ (S k).r ≠ 0) →
      (∃ z, z ≤ k + n ∧ k ≤ z ∧ (S z).r = 0) →
      ∃ s, cgLoop L b sqrtN (tol * ‖b‖) n (S k) = some s := by
    intro n
    induction n with
    | zero => intro k _ _ _; exact ⟨_, rfl⟩
    | succ n ih =>
      intro k hk hk0 ⟨z, hz1, hz2, hz3⟩
      rw [cgLoop]
      by_cases hc : (S k).err > tol * ‖b‖
      · rw [if_pos hc]
        have hr : (S k).r ≠ 0 := by
          intro hr
          rcases hk0 with h | h
          · have := (cgAt_basic L b x0 sqrtN tol k).2.2.2 h
            change (S k).err = ‖(S k).r‖ at this
            rw [this, hr, norm_zero] at hc
            linarith
          · exact h hr
        have ho := (cg_orth L b x0 sqrtN tol W hsym hW h0 hneg k hk).2.2.2
        change inner ℝ (S k).d (S k).r = inner ℝ (S k).r (S k).r at ho
        have hd : (S k).d ≠ 0 := by
          intro hd
          rw [hd, inner_zero_left] at ho
          exact hr (inner_self_eq_zero.mp ho.symm)
        have hcurv := hneg _ (cgAt_mem L b x0 sqrtN tol W hW h0 k).2 hd
        have hdel : (S k).delta ≠ 0 := by
          rw [(cgAt_basic L b x0 sqrtN tol k).2.1]
          exact norm_ne_zero_iff.mpr hr
        rw [cgStep_eq L b sqrtN _ hcurv.ne hdel, ← cgAt_succ]
        refine ih (k + 1) ?_ (Or.inl (by omega)) ⟨z, by omega, ?_, hz3⟩
        · intro j hj
          rcases Nat.lt_or_ge j k with h | h
          · exact hk j h
          · have : j = k := by omega
            rw [this]; exact hr
        · rcases Nat.lt_or_ge k z with h | h
          · exact h
          · have : z = k := by omega
            rw [this] at hz3; exact absurd hz3 hr
      · rw [if_neg hc]; exact ⟨_, rfl⟩
  obtain ⟨z, hz1, hz2⟩ := hex
  obtain ⟨s, hs⟩ := hrun maxIter 0 (fun j h => by omega) (Or.inr hstart) ⟨z, by omega, by omega, hz2⟩
  refine ⟨s, hs, ?_⟩
  -- the run stops no later than the first vanishing residual
  have hstop : ∀ n k, k ≤ z → 0 < z → ∀ s, cgLoop L b sqrtN (tol * ‖b‖) n (S k) = some s →
      z ≤ k + n → s.iter ≤ z ∧ ‖s.r‖ ≤ tol * ‖b‖ := by
    intro n
    induction n with
    | zero =>
      intro k hk hz s hs hkn
      have hkz : k = z := by omega
      subst hkz
      have := Option.some.inj hs
      subst this
      exact ⟨(cgAt_basic L b x0 sqrtN tol k).2.2.1.le, by rw [hz2, norm_zero]; exact hT⟩
    | succ n ih =>
      intro k hk hz s hs hkn
      rw [cgLoop] at hs
      by_cases hc : (S k).err > tol * ‖b‖
      · rw [if_pos hc] at hs
        cases hst : cgStep L b sqrtN (S k) with
        | none => rw [hst] at hs; cases hs
        | some s' =>
          rw [hst] at hs
          have := cgStep_some L b sqrtN _ _ hst
          subst this
          have hne : k ≠ z := by
            intro hkz
            have h1 := (cgAt_basic L b x0 sqrtN tol k).2.2.2 (by omega)
            change (S k).err = ‖(S k).r‖ at h1
            rw [h1, hkz, hz2, norm_zero] at hc
            linarith
          refine ih (k + 1) (by omega) hz s ?_ (by omega)
          rw [hS, cgAt_succ]; exact hs
      · rw [if_neg hc] at hs
        have := Option.some.inj hs
        subst this
        refine ⟨by rw [(cgAt_basic L b x0 sqrtN tol k).2.2.1]; exact hk, ?_⟩
        rcases Nat.eq_zero_or_pos k with h | h
        · subst h
          exfalso
          have : (S 0).err = tol * ‖b‖ + 1 := rfl
          linarith
        · have h1 := (cgAt_basic L b x0 sqrtN tol k).2.2.2 h
          change (S k).err = ‖(S k).r‖ at h1
          rw [← h1]; exact not_lt.mp hc
  have hz0 : 0 < z := by
    rcases Nat.eq_zero_or_pos z with h | h
    · subst h; exact absurd hz2 hstart
    · exact h
  have h1 := hstop maxIter 0 (by omega) hz0 s hs (by omega)
  refine ⟨by omega, ?_⟩
  have h2 := (cg_converged L b x0 sqrtN tol maxIter s hs).1
  rw [← h2]; exact h1.2

/-- **C20 (CG, negation).** Started from an exact solution the solver divides zero by zero:
the loop is entered unconditionally and no vector is returned. -/
theorem cg_exact_start_fails (L : V →ₗ[ℝ] V) (b x0 : V) (sqrtN : ℕ) (tol : ℝ) (maxIter : ℕ)
    (hm : 0 < maxIter) (h : b + L x0 = 0) : cg L b x0 sqrtN tol maxIter = none := by
  obtain ⟨n, rfl⟩ : ∃ n, maxIter = n + 1 := ⟨maxIter - 1, by omega⟩
  unfold cg
  rw [cgLoop, if_pos (by change tol * ‖b‖ + 1 > _; linarith)]
  have : cgStep L b sqrtN (cgInit L b x0 tol) = none := by
    unfold cgStep
    dsimp only
    rw [if_pos]
    change inner ℝ (b + L x0) (L (b + L x0)) = 0
    rw [h]; simp
  rw [this]

/-- `-L = id` on the plane meets the hypotheses of `cg_terminates`, with start 0 and a
nonzero right-hand side. -/
example (b : EuclideanSpace ℝ (Fin 2)) (hb : b ≠ 0) :
    ∃ s, cg (-LinearMap.id) b 0 1 0 2 = some s ∧ s.iter ≤ 2 ∧ b - s.x = 0 := by
  have hd : Module.finrank ℝ (⊤ : Submodule ℝ (EuclideanSpace ℝ (Fin 2))) = 2 := by simp
  obtain ⟨s, h1, h2, h3⟩ := cg_terminates (-LinearMap.id) b 0 1 0 (le_refl _) ⊤
    (by intro u v; simp) (fun _ _ => Submodule.mem_top) Submodule.mem_top
    (by intro v _ hv; have := norm_pos_iff.mpr hv; simp; positivity)
    (by simpa using hb) 2 (by rw [hd])
  refine ⟨s, h1, by rw [hd] at h2; exact h2, ?_⟩
  rw [zero_mul] at h3
  simpa [sub_eq_add_neg] using norm_le_zero_iff.mp h3

/-- A run of AAR that stops early: Richardson with the exact inverse, extrapolating at the
second pass. -/
example : ∃ (P : AARPar ℝ) (b x0 : ℝ), (aar P b x0 (1 / 10) 50).iter < 50 := by
  refine ⟨⟨fun x => x, fun r => r, fun _ _ _ => 0, 1, 1, 1, 1⟩, 1, 0, ?_⟩
  have : aar ⟨fun x : ℝ => x, fun r => r, fun _ _ _ => 0, 1, 1, 1, 1⟩ 1 0 (1 / 10) 50
      = aarAt ⟨fun x : ℝ => x, fun r => r, fun _ _ _ => 0, 1, 1, 1, 1⟩ 1 0 (1 / 10) 2 := by
    unfold aar
    rw [aarLoop, if_pos (by norm_num [aarInit]), aarLoop, if_pos (by norm_num [aarInit, aarStep]),
      aarLoop, if_neg (by norm_num [aarInit, aarStep, anderson, wavg, push])]
    rfl
  rw [this, aarAt_iter]; norm_num

end Sparc.Solver

import Verif.Mixing.Lemmas
import Mathlib.Algebra.Order.BigOperators.Group.Finset

/-!
# C21: mixing conserves charge and magnetisation, and keeps a consistent history
-/

set_option linter.unusedSectionVars false

namespace Sparc.Mixing

variable {G : Type} [Fintype G]

/-- **C21 (charge).** Whatever the preconditioner, the extrapolation weights and the stored
history: a density produced by a mixing call is non-negative everywhere and integrates to the
number of electrons. -/
theorem mix_charge (P : Par G) (hd : P.density = true) (hw : ∀ i, 0 ≤ P.w i)
    (hn : 0 ≤ P.nelec) (iter : ℕ) (g : Vec G) (s t : State G) (h : step P iter g s = some t) :
    ∑ i, P.w i * t.xk 0 i = P.nelec ∧ ∀ i, 0 ≤ t.xk 0 i := by
  obtain ⟨hx, hi⟩ := (step_some P iter g s t h).2.2.2.2.2 hd
  set c := clamp (next P iter (upd P iter g s)) with hc
  have hc0 : ∀ i, 0 ≤ c 0 i := by
    intro i
    rw [hc]
    unfold clamp
    split
    · exact le_refl _
    · rename_i h; push Not at h; exact h rfl
  have hI : 0 ≤ integral P c := Finset.sum_nonneg fun i _ => mul_nonneg (hw i) (hc0 i)
  rw [hx]
  constructor
  · have : ∑ i, P.w i * rescale P c 0 i = integral P c * (P.nelec / integral P c) := by
      unfold rescale
      conv_rhs => arg 1; rw [integral]
      rw [Finset.sum_mul]
      exact Finset.sum_congr rfl fun i _ => by rw [if_pos rfl, mul_assoc]
    rw [this, mul_div_cancel₀ _ hi]
  · intro i
    unfold rescale
    simp only [if_true]
    exact mul_nonneg (hc0 i) (div_nonneg hn hI)

/-- **C21 (failure).** The only way a call fails is a density that is nowhere positive where
the integration weight is. -/
theorem mix_fails_iff (P : Par G) (hw : ∀ i, 0 < P.w i) (iter : ℕ) (g : Vec G) (s : State G) :
    step P iter g s = none ↔
      P.density = true ∧ ∀ i, next P iter (upd P iter g s) 0 i ≤ 0 := by
  unfold step
  dsimp only
  by_cases hd : P.density = true
  · rw [if_pos hd]
    have key : integral P (clamp (next P iter (upd P iter g s))) = 0 ↔
        ∀ i, next P iter (upd P iter g s) 0 i ≤ 0 := by
      unfold integral
      have hnn : ∀ i, 0 ≤ clamp (next P iter (upd P iter g s)) 0 i := by
        intro i; unfold clamp; split
        · exact le_refl _
        · rename_i h; push Not at h; exact h rfl
      rw [Finset.sum_eq_zero_iff_of_nonneg fun i _ => mul_nonneg (hw i).le (hnn i)]
      simp only [Finset.mem_univ, true_imp_iff, mul_eq_zero, (hw _).ne', false_or]
      refine forall_congr' fun i => ?_
      unfold clamp
      by_cases hl : next P iter (upd P iter g s) 0 i < 0
      · simp [hl, hl.le]
      · simp only [hl, and_false, if_false]
        exact ⟨fun h => h.le, fun h => le_antisymm h (not_lt.1 hl)⟩
    by_cases hi : integral P (clamp (next P iter (upd P iter g s))) = 0
    · rw [if_pos hi]; exact ⟨fun _ => ⟨hd, key.1 hi⟩, fun _ => rfl⟩
    · rw [if_neg hi]
      exact ⟨fun h => by simp at h, fun h => absurd (key.2 h.2) hi⟩
  · rw [if_neg hd]
    exact ⟨fun h => by simp at h, fun h => absurd h.1 hd⟩

/-- **C21 (integrals).** Let every output `g k` of an SCF cycle and the starting variable have
the same sum `M` over the grid in component `n`.  If spin is on, or the preconditioner maps
zero-sum residuals to zero-sum ones, then every iterate has that sum, for every history length,
frequency, restart setting, mixing parameters and extrapolation weights.  (For the density the
statement is about the magnetisation components `n ≥ 1`; component 0 is `mix_charge`.) -/
theorem mix_integral [Nonempty G] (P : Par G) (n : ℕ) (hn : P.density = true → 0 < n)
    (hp : P.spin = true ∨
      ((∀ a f, ∑ i, f i = 0 → ∑ i, P.prec0 a f i = 0) ∧
       ∀ a f, ∑ i, f i = 0 → ∑ i, P.precM a f i = 0))
    (g : ℕ → Vec G) (x0 f0 : Vec G) (M : ℝ) (h0 : ∑ i, x0 n i = M)
    (hg : ∀ k, ∑ i, g k n i = M) (K : ℕ) (s : ℕ → State G)
    (hrun : ∀ k ≤ K, run P g x0 f0 k = some (s k)) :
    ∀ k ≤ K, ∑ i, (s k).xk n i = M := by
  have T := trace_of_run P g x0 f0 K s hrun
  intro k
  induction k using Nat.strong_induction_on with
  | _ k ih =>
    intro hk
    cases k with
    | zero =>
      have : init x0 f0 = s 0 := by simpa [run] using hrun 0 (Nat.zero_le _)
      rw [← this]; exact h0
    | succ k =>
      have hrep := T.rep (show k < K by omega)
      obtain ⟨hx, hf⟩ := sum_rep hrep (n := n) (M := M)
        (fun t ht => ih t (by omega) (by omega)) (fun t _ => hg t)
      have hst := step_some P k _ _ _ (T.step k (by omega))
      have hnext : ∑ i, next P k (upd P k (g k) (s k)) n i = M := by
        unfold next
        simp only [Pi.add_apply]
        rw [Finset.sum_add_distrib, hx, one_mul]
        have : ∑ i, shifted P (fw P k (upd P k (g k) (s k)))
            (pf P k (fw P k (upd P k (g k) (s k)))) n i = 0 := by
          rcases hp with hs | ⟨hp0, hpM⟩
          · rw [sum_shifted hs, hf]
          · by_cases hs : P.spin = true
            · rw [sum_shifted hs, hf]
            · unfold shifted pf
              simp only [hs]
              by_cases hn0 : n = 0
              · subst hn0; simpa using hp0 _ _ hf
              · simpa [hn0] using hpM _ _ hf
        rw [this, add_zero]
      by_cases hd : P.density = true
      · rw [(hst.2.2.2.2.2 hd).1]
        have hn0 : n ≠ 0 := (hn hd).ne'
        unfold rescale clamp
        simp only [hn0, if_false, false_and]
        exact hnext
      · rw [hst.2.2.2.2.1 (by simpa using hd)]
        exact hnext

/-- **C21 (weights).** The variable and the residual that iteration `k` combines are averages
of the stored iterates `x_0 … x_k` and of their residuals `g_t - x_t`, with the *same* weights,
and these add up to one. -/
theorem mix_weights (P : Par G) (g : ℕ → Vec G) (x0 f0 : Vec G) (K : ℕ) (s : ℕ → State G)
    (hrun : ∀ k ≤ K, run P g x0 f0 k = some (s k)) (k : ℕ) (hk : k < K) :
    ∃ d : ℕ → ℝ, ∑ t ∈ Finset.range (k + 1), d t = 1 ∧
      xw P k (upd P k (g k) (s k)) = ∑ t ∈ Finset.range (k + 1), d t • (s t).xk ∧
      fw P k (upd P k (g k) (s k)) = ∑ t ∈ Finset.range (k + 1), d t • (g t - (s t).xk) :=
  (trace_of_run P g x0 f0 K s hrun).rep hk

/-- **C21 (history).** Without restarts, after iteration `k` the two histories hold the
differences of the last `min(k, m)` iterates and residuals in circular order, and zeros in
columns not yet used. -/
theorem mix_history (P : Par G) (hr : P.restart = false) (hm : 0 < P.m) (g : ℕ → Vec G)
    (x0 f0 : Vec G) (K : ℕ) (s : ℕ → State G)
    (hrun : ∀ k ≤ K, run P g x0 f0 k = some (s k)) (k : ℕ) (hk : k < K) :
    (∀ t, 0 < t → t ≤ k → k < t + P.m →
      (s (k + 1)).R ((t - 1) % P.m) = (s t).xk - (s (t - 1)).xk ∧
      (s (k + 1)).F ((t - 1) % P.m) = (g t - (s t).xk) - (g (t - 1) - (s (t - 1)).xk)) ∧
    (∀ j, (j < P.m → k ≤ j) → (s (k + 1)).R j = 0 ∧ (s (k + 1)).F j = 0) := by
  have T := trace_of_run P g x0 f0 K s hrun
  have hR := store_recent (K := K) hr hm (fun k => (s k).R)
    (fun k => (s k).xk - (s (k - 1)).xk) T.R0 (fun k hk => T.R hk) (k + 1) hk
  have hF := store_recent (K := K) hr hm (fun k => (s k).F)
    (fun k => (g k - (s k).xk) - (g (k - 1) - (s (k - 1)).xk)) T.F0 (fun k hk => T.F hk) (k + 1) hk
  exact ⟨fun t h1 h2 h3 => ⟨hR.1 t h1 (by omega) (by omega), hF.1 t h1 (by omega) (by omega)⟩,
    fun j hj => ⟨hR.2 j fun h => by have := hj h; omega, hF.2 j fun h => by have := hj h; omega⟩⟩

/-- **C21 (history, restarts).** With restarts, after iteration `k + 1` exactly the columns
`0 … k % m` are used; column `j` holds the differences of iteration `k + 1 - k % m + j`. -/
theorem mix_history_restart (P : Par G) (hr : P.restart = true) (hm : 0 < P.m) (g : ℕ → Vec G)
    (x0 f0 : Vec G) (K : ℕ) (s : ℕ → State G)
    (hrun : ∀ k ≤ K, run P g x0 f0 k = some (s k)) (k : ℕ) (hk : k + 2 ≤ K) :
    (∀ j, j ≤ k % P.m → ∃ t, t = k + 1 - k % P.m + j ∧ 0 < t ∧ t ≤ k + 1 ∧
      (s (k + 2)).R j = (s t).xk - (s (t - 1)).xk ∧
      (s (k + 2)).F j = (g t - (s t).xk) - (g (t - 1) - (s (t - 1)).xk)) ∧
    (∀ j, k % P.m < j → (s (k + 2)).R j = 0 ∧ (s (k + 2)).F j = 0) := by
  have T := trace_of_run P g x0 f0 K s hrun
  have hR := store_restart (K := K) hr hm (fun k => (s k).R)
    (fun k => (s k).xk - (s (k - 1)).xk) T.R0 (fun k hk => T.R hk) k hk
  have hF := store_restart (K := K) hr hm (fun k => (s k).F)
    (fun k => (g k - (s k).xk) - (g (k - 1) - (s (k - 1)).xk)) T.F0 (fun k hk => T.F hk) k hk
  have := Nat.mod_le k P.m
  exact ⟨fun j hj => ⟨_, rfl, by omega, by omega, hR.1 j hj, hF.1 j hj⟩,
    fun j hj => ⟨hR.2 j hj, hF.2 j hj⟩⟩

/-- **C21 (fixed point).** A self-consistent variable (`g = x`, for the density non-negative
and with the right charge) is left unchanged by mixing, provided the least-squares weights of a
zero residual and the preconditioned zero residual are zero. -/
theorem mix_fixed_point (P : Par G) (iter : ℕ) (s : State G)
    (hc : ∀ F, P.coef 0 F = 0) (h0 : ∀ a, P.prec0 a 0 = 0) (hM : ∀ a, P.precM a 0 = 0)
    (hx : P.density = true → (∀ i, 0 ≤ s.xk 0 i) ∧ ∑ i, P.w i * s.xk 0 i = P.nelec ∧ P.nelec ≠ 0) :
    ∃ t, step P iter s.xk s = some t ∧ t.xk = s.xk := by
  have hf : (upd P iter s.xk s).fk = 0 := sub_self _
  have hxw : xw P iter (upd P iter s.xk s) = s.xk := by
    unfold xw wavg
    rw [hf, hc]
    split
    · simp; rfl
    · rfl
  have hfw : fw P iter (upd P iter s.xk s) = 0 := by
    unfold fw wavg
    rw [hf, hc]
    split <;> simp
  have hpf : pf P iter (0 : Vec G) = 0 := by
    funext n
    unfold pf
    dsimp only
    split
    · exact h0 _
    · exact hM _
  have hnext : next P iter (upd P iter s.xk s) = s.xk := by
    unfold next
    rw [hxw, hfw, hpf]
    have : shifted P (0 : Vec G) 0 = 0 := by funext n i; unfold shifted; split <;> simp
    rw [this, add_zero]
  unfold step
  dsimp only
  rw [hnext]
  by_cases hd : P.density = true
  · obtain ⟨h1, h2, h3⟩ := hx hd
    have hcl : clamp s.xk = s.xk := by
      funext n i; unfold clamp
      split
      · rename_i h; rw [h.1] at h; exact absurd h.2 (not_lt.2 (h1 i))
      · rfl
    have hint : integral P s.xk = P.nelec := h2
    rw [if_pos hd, hcl, hint, if_neg h3]
    refine ⟨_, rfl, ?_⟩
    funext n i
    dsimp only
    unfold rescale
    rw [hint, div_self h3]
    simp
  · rw [if_neg hd]
    exact ⟨_, rfl, rfl⟩

/-- The two spin densities handed on after mixing add up to the density and differ by the
magnetisation. -/
theorem diagonal_spec (rho m : ℝ) :
    (diagonal rho m).1 + (diagonal rho m).2 = rho ∧ (diagonal rho m).1 - (diagonal rho m).2 = m := by
  unfold diagonal; constructor <;> ring

/-- A two-point, two-component set-up used as a witness: linear mixing with parameter `1/2`,
no preconditioner. -/
noncomputable def demo : Par Bool where
  m := 2
  p := 1
  beta := 1 / 2
  omega := 1 / 2
  betaMag := 1 / 2
  omegaMag := 1 / 2
  restart := false
  spin := true
  density := true
  nelec := 2
  w := fun _ => 1
  coef := fun _ _ _ => 0
  prec0 := fun a f => a • f
  precM := fun a f => a • f

/-- Input variable of the witness: `rho = (2, 0)`, `m = (0, 0)`. -/
def demoIn : Vec Bool := fun n i => if n = 0 ∧ i = true then 2 else 0

/-- Output variable of the witness: `rho = (1, 1)`, `m = (1, 1)`. -/
def demoOut : Vec Bool := fun _ _ => 1

/-- **Finding.** The clamp only looks at the total density.  Input and output of the first
mixing step below are physical (`0 ≤ |m| ≤ rho`, two electrons), yet the mixed minority spin
density written to `electronDens` is negative: the uniform shift that keeps the integral of the
magnetisation adds magnetisation where there is no density. -/
theorem mix_minority_density_negative :
    (∀ i, 0 ≤ demoIn 0 i ∧ |demoIn 1 i| ≤ demoIn 0 i ∧ |demoOut 1 i| ≤ demoOut 0 i) ∧
    ∑ i, demo.w i * demoIn 0 i = demo.nelec ∧ ∑ i, demo.w i * demoOut 0 i = demo.nelec ∧
    ∃ t, step demo 0 demoOut (init demoIn 0) = some t ∧
      (diagonal (t.xk 0 false) (t.xk 1 false)).2 < 0 := by
  refine ⟨?_, by simp [demo, demoIn], by simp [demo, demoOut], ?_⟩
  · intro i; cases i <;> simp [demoIn, demoOut]
  have hn : ∀ n i, next demo 0 (upd demo 0 demoOut (init demoIn 0)) n i =
      if n = 0 then (if i then 3 / 2 else 1 / 2) else 1 := by
    intro n i
    unfold next shifted pf xw fw pulay upd init demo demoIn demoOut
    by_cases h : n = 0 <;> cases i <;> simp [h] <;> norm_num
  set x := next demo 0 (upd demo 0 demoOut (init demoIn 0)) with hx
  have hc : clamp x = x := by
    funext n i
    unfold clamp
    rw [if_neg]
    rw [hn]
    rintro ⟨h, h'⟩
    rw [if_pos h] at h'
    cases i <;> norm_num at h'
  have hi : integral demo x = 2 := by
    unfold integral
    simp only [hn, demo]
    simp
    norm_num
  unfold step
  dsimp only
  rw [if_pos (show demo.density = true from rfl), ← hx, hc, hi, if_neg (by norm_num)]
  refine ⟨_, rfl, ?_⟩
  simp only [rescale, hi, diagonal, hn]
  norm_num [demo]

/-! ### Non-vacuity -/

/-- A density-mixing call that succeeds. -/
example : ∃ t, step demo 0 demoOut (init demoIn 0) = some t :=
  let ⟨_, _, _, t, h, _⟩ := mix_minority_density_negative; ⟨t, h⟩

/-- Potential mixing never fails: runs of every length exist, so the hypotheses of the run
theorems can be met. -/
example (g : ℕ → Vec Bool) (x0 f0 : Vec Bool) (k : ℕ) :
    ∃ s, run { demo with density := false } g x0 f0 k = some s := by
  induction k with
  | zero => exact ⟨_, rfl⟩
  | succ k ih =>
    obtain ⟨s, h⟩ := ih
    rw [run, h]
    simp only [Option.bind_some, step]
    rw [if_neg (by simp)]
    exact ⟨_, rfl⟩

/-- The fixed-point theorem applies to `demo` with the exact density. -/
example : ∃ t, step demo 3 demoOut (init demoOut 0) = some t ∧ t.xk = demoOut :=
  mix_fixed_point demo 3 (init demoOut 0) (fun _ => rfl) (fun _ => by simp [demo])
    (fun _ => by simp [demo])
    (fun _ => ⟨fun _ => by simp [init, demoOut], by simp [init, demo, demoOut], by simp [demo]⟩)

end Sparc.Mixing

import Verif.Tac
import Verif.Mixing.Model
import Mathlib.Algebra.BigOperators.Ring.Finset
import Mathlib.Algebra.Module.BigOperators
import Mathlib.Algebra.BigOperators.Pi

/-! # Pulay mixing: lemmas -/

set_option linter.unusedSectionVars false

namespace Sparc.Mixing

variable {G : Type} [Fintype G]

/-- What a successful call leaves behind. -/
theorem step_some (P : Par G) (k : ℕ) (g : Vec G) (s t : State G) (h : step P k g s = some t) :
    t.xkm1 = s.xk ∧ t.fk = g - s.xk ∧
    t.R = store P k s.R (s.xk - s.xkm1) ∧
    t.F = store P k s.F ((g - s.xk) - if k > 0 then s.fk else s.fkm1) ∧
    (P.density = false → t.xk = next P k (upd P k g s)) ∧
    (P.density = true → t.xk = rescale P (clamp (next P k (upd P k g s))) ∧
      integral P (clamp (next P k (upd P k g s))) ≠ 0) := by
  unfold step at h
  dsimp only at h
  by_cases hd : P.density = true
  · rw [if_pos hd] at h
    split at h
    · exact absurd h (by simp)
    · rename_i hi
      cases h
      exact ⟨rfl, rfl, rfl, rfl, fun h => by simp [hd] at h, fun _ => ⟨rfl, hi⟩⟩
  · rw [if_neg hd] at h
    cases h
    exact ⟨rfl, rfl, rfl, rfl, fun _ => rfl, fun h => absurd h hd⟩

theorem run_pred (P : Par G) (g : ℕ → Vec G) (x0 f0 : Vec G) (k : ℕ) (t : State G)
    (h : run P g x0 f0 (k + 1) = some t) :
    ∃ s, run P g x0 f0 k = some s ∧ step P k (g k) s = some t := by
  rw [run] at h
  exact Option.bind_eq_some_iff.1 h

/-- An SCF cycle of `K` iterations: `s k` are the arrays before iteration `k`. -/
structure Trace (P : Par G) (g : ℕ → Vec G) (K : ℕ) (s : ℕ → State G) : Prop where
  x0 : (s 0).xkm1 = (s 0).xk
  R0 : (s 0).R = 0
  F0 : (s 0).F = 0
  step : ∀ k < K, step P k (g k) (s k) = some (s (k + 1))

theorem trace_of_run (P : Par G) (g : ℕ → Vec G) (x0 f0 : Vec G) (K : ℕ) (s : ℕ → State G)
    (h : ∀ k ≤ K, run P g x0 f0 k = some (s k)) : Trace P g K s := by
  have h0 : init x0 f0 = s 0 := by simpa [run] using h 0 (Nat.zero_le _)
  refine ⟨by rw [← h0]; rfl, by rw [← h0]; rfl, by rw [← h0]; rfl, ?_⟩
  intro k hk
  obtain ⟨t, h1, h2⟩ := run_pred P g x0 f0 k _ (h (k + 1) hk)
  rw [h k hk.le] at h1
  cases h1
  exact h2

variable {P : Par G} {g : ℕ → Vec G} {K : ℕ} {s : ℕ → State G}

theorem Trace.xkm1 (T : Trace P g K s) {k : ℕ} (hk : k ≤ K) : (s k).xkm1 = (s (k - 1)).xk := by
  cases k with
  | zero => exact T.x0
  | succ k => exact (step_some P k _ _ _ (T.step k hk)).1

theorem Trace.fk (T : Trace P g K s) {k : ℕ} (hk : k < K) : (s (k + 1)).fk = g k - (s k).xk :=
  (step_some P k _ _ _ (T.step k hk)).2.1

theorem store_zero (H : ℕ → Vec G) (v : Vec G) : store P 0 H v = H := by simp [store]

theorem Trace.R (T : Trace P g K s) {k : ℕ} (hk : k < K) :
    (s (k + 1)).R = store P k (s k).R ((s k).xk - (s (k - 1)).xk) := by
  rw [(step_some P k _ _ _ (T.step k hk)).2.2.1, T.xkm1 hk.le]

theorem Trace.F (T : Trace P g K s) {k : ℕ} (hk : k < K) :
    (s (k + 1)).F = store P k (s k).F ((g k - (s k).xk) - (g (k - 1) - (s (k - 1)).xk)) := by
  rw [(step_some P k _ _ _ (T.step k hk)).2.2.2.1]
  cases k with
  | zero => rw [store_zero, store_zero]
  | succ k => rw [if_pos (Nat.succ_pos k), T.fk (by omega)]; rfl

/-- A sequence of histories built by `store` without restart. -/
theorem store_recent (hr : P.restart = false) (hm : 0 < P.m) (H : ℕ → ℕ → Vec G)
    (dx : ℕ → Vec G) (h0 : H 0 = 0) (hs : ∀ k < K, H (k + 1) = store P k (H k) (dx k)) (k : ℕ)
    (hk : k ≤ K) :
    (∀ t, 0 < t → t < k → k ≤ t + P.m → H k ((t - 1) % P.m) = dx t) ∧
    (∀ j, (j < P.m → k ≤ j + 1) → H k j = 0) := by
  have hst : ∀ k H v, store P k H v = if k > 0 then Function.update H ((k - 1) % P.m) v else H := by
    intro k H v
    unfold store
    simp [hr]
  induction k with
  | zero => exact ⟨fun t h1 h2 => by omega, fun j _ => by rw [h0]; rfl⟩
  | succ k ih =>
    have ih := ih (by omega)
    rw [hs k (by omega), hst]
    constructor
    · intro t h1 h2 h3
      have hk0 : k > 0 := by omega
      rw [if_pos hk0]
      rcases Nat.lt_or_ge t k with h | h
      · have hne : (t - 1) % P.m ≠ (k - 1) % P.m := by
          intro he
          have h5 : (k - 1 - (t - 1)) % P.m = 0 := Nat.sub_mod_eq_zero_of_mod_eq he.symm
          have h6 : k - 1 - (t - 1) < P.m := by omega
          rw [Nat.mod_eq_of_lt h6] at h5
          omega
        rw [Function.update_of_ne hne]
        exact ih.1 t h1 h (by omega)
      · have : t = k := by omega
        subst this
        exact Function.update_self ..
    · intro j hj
      by_cases hk : k > 0
      · have hne : j ≠ (k - 1) % P.m := by
          intro he
          have hlt : j < P.m := by rw [he]; exact Nat.mod_lt _ hm
          have := hj hlt
          rw [Nat.mod_eq_of_lt (by omega)] at he
          omega
        rw [if_pos hk, Function.update_of_ne hne]
        exact ih.2 j fun h => by have := hj h; omega
      · have : k = 0 := by omega
        subst this
        rw [if_neg hk, h0]; rfl

theorem mod_succ_cases {m : ℕ} (hm : 0 < m) (a : ℕ) :
    (a + 1) % m = 0 ∨ (a + 1) % m = a % m + 1 := by
  have h1 := Nat.div_add_mod a m
  have h2 := Nat.mod_lt a hm
  have h3 : a + 1 = (a % m + 1) + m * (a / m) := by omega
  rw [h3, Nat.add_mul_mod_self_left]
  rcases Nat.lt_or_ge (a % m + 1) m with h | h
  · right; rw [Nat.mod_eq_of_lt h]
  · left; rw [show a % m + 1 = m by omega, Nat.mod_self]

/-- A sequence of histories built by `store` with restart: the entries since the last
restart, zeros in the other columns. -/
theorem store_restart (hr : P.restart = true) (hm : 0 < P.m) (H : ℕ → ℕ → Vec G)
    (dx : ℕ → Vec G) (h0 : H 0 = 0) (hs : ∀ k < K, H (k + 1) = store P k (H k) (dx k)) (k : ℕ)
    (hk : k + 2 ≤ K) :
    (∀ j, j ≤ k % P.m → H (k + 2) j = dx (k + 1 - k % P.m + j)) ∧
    (∀ j, k % P.m < j → H (k + 2) j = 0) := by
  have hst : ∀ k H v, store P (k + 1) H v =
      if k % P.m = 0 then fun j => if j = 0 then v else if j < P.m then 0 else H j
      else Function.update H (k % P.m) v := by
    intro k H v
    unfold store
    rw [if_pos (Nat.succ_pos k)]
    simp [hr]
  have hbig : ∀ k ≤ K, ∀ j, P.m ≤ j → H k j = 0 := by
    intro k
    induction k with
    | zero => intro _ j _; rw [h0]; rfl
    | succ k ih =>
      intro hk j hj
      rw [hs k (by omega)]
      cases k with
      | zero => rw [store_zero]; exact ih (by omega) j hj
      | succ k =>
        rw [hst]
        split
        · dsimp only
          rw [if_neg (by omega), if_neg (by omega)]
          exact ih (by omega) j hj
        · rw [Function.update_of_ne]
          · exact ih (by omega) j hj
          · have := Nat.mod_lt k hm; omega
  induction k with
  | zero =>
    rw [hs 1 (by omega), hst, Nat.zero_mod, if_pos rfl]
    constructor
    · intro j hj
      have : j = 0 := by omega
      subst this; simp
    · intro j hj
      rw [if_neg (by omega)]
      split
      · rfl
      · exact hbig 1 (by omega) j (by omega)
  | succ k ih =>
    have ih := ih (by omega)
    rw [hs (k + 2) (by omega), hst]
    rcases mod_succ_cases hm k with h | h
    · rw [h, if_pos rfl]
      constructor
      · intro j hj
        have : j = 0 := by omega
        subst this; simp
      · intro j hj
        rw [if_neg (by omega)]
        split
        · rfl
        · exact hbig (k + 2) (by omega) j (by omega)
    · rw [h, if_neg (by omega)]
      have hle := Nat.mod_le k P.m
      constructor
      · intro j hj
        by_cases hj' : j = k % P.m + 1
        · subst hj'
          rw [Function.update_self]
          congr 1; omega
        · rw [Function.update_of_ne hj', ih.1 j (by omega)]
          congr 1; omega
      · intro j hj
        rw [Function.update_of_ne (by omega)]
        exact ih.2 j (by omega)

/-- Every column of the two histories is zero in both, or holds the two differences of the
same iteration. -/
theorem Trace.cols (T : Trace P g K s) {k : ℕ} (hk : k ≤ K) (j : ℕ) :
    ((s k).R j = 0 ∧ (s k).F j = 0) ∨
    ∃ t, 0 < t ∧ t < k ∧ (s k).R j = (s t).xk - (s (t - 1)).xk ∧
      (s k).F j = (g t - (s t).xk) - (g (t - 1) - (s (t - 1)).xk) := by
  induction k with
  | zero => left; rw [T.R0, T.F0]; exact ⟨rfl, rfl⟩
  | succ k ih =>
    have ih := ih (by omega)
    have ih' : ((s k).R j = 0 ∧ (s k).F j = 0) ∨
        ∃ t, 0 < t ∧ t < k + 1 ∧ (s k).R j = (s t).xk - (s (t - 1)).xk ∧
        (s k).F j = (g t - (s t).xk) - (g (t - 1) - (s (t - 1)).xk) := by
      rcases ih with h | ⟨t, h1, h2, h3⟩
      · exact Or.inl h
      · exact Or.inr ⟨t, h1, by omega, h3⟩
    rw [T.R hk, T.F hk]
    unfold store
    by_cases hk0 : k > 0
    · rw [if_pos hk0, if_pos hk0]
      by_cases hc : P.restart = true ∧ (k - 1) % P.m = 0
      · rw [if_pos hc, if_pos hc]
        by_cases hj : j = 0
        · right
          refine ⟨k, hk0, by omega, ?_, ?_⟩ <;> simp [hj]
        · simp only [if_neg hj]
          by_cases hj' : j < P.m
          · simp [hj']
          · simpa only [if_neg hj'] using ih'
      · rw [if_neg hc, if_neg hc]
        by_cases hj : j = (k - 1) % P.m
        · right
          refine ⟨k, hk0, by omega, ?_, ?_⟩ <;> rw [hj, Function.update_self]
        · rw [Function.update_of_ne hj, Function.update_of_ne hj]
          exact ih'
    · rw [if_neg hk0, if_neg hk0]
      exact ih'

/-- Weights adding up to zero, supported on `t ≤ k`, that express a pair of vectors through
the iterates and their residuals. -/
def Rep (g : ℕ → Vec G) (s : ℕ → State G) (k : ℕ) (c : ℝ) (u v : Vec G) : Prop :=
  ∃ d : ℕ → ℝ, ∑ t ∈ Finset.range (k + 1), d t = c ∧
    u = ∑ t ∈ Finset.range (k + 1), d t • (s t).xk ∧
    v = ∑ t ∈ Finset.range (k + 1), d t • (g t - (s t).xk)

theorem Rep.zero (k : ℕ) : Rep g s k 0 0 0 := ⟨fun _ => 0, by simp, by simp, by simp⟩

theorem Rep.add {k : ℕ} {a b : ℝ} {u v u' v' : Vec G} (h : Rep g s k a u v) (h' : Rep g s k b u' v') :
    Rep g s k (a + b) (u + u') (v + v') := by
  obtain ⟨d, h1, h2, h3⟩ := h
  obtain ⟨e, i1, i2, i3⟩ := h'
  refine ⟨fun t => d t + e t, ?_, ?_, ?_⟩
  · rw [Finset.sum_add_distrib, h1, i1]
  · rw [h2, i2, ← Finset.sum_add_distrib]; simp only [add_smul]
  · rw [h3, i3, ← Finset.sum_add_distrib]; simp only [add_smul]

theorem Rep.smul {k : ℕ} {a : ℝ} {u v : Vec G} (r : ℝ) (h : Rep g s k a u v) :
    Rep g s k (r * a) (r • u) (r • v) := by
  obtain ⟨d, h1, h2, h3⟩ := h
  refine ⟨fun t => r * d t, ?_, ?_, ?_⟩
  · rw [← Finset.mul_sum, h1]
  · rw [h2, Finset.smul_sum]; simp only [mul_smul]
  · rw [h3, Finset.smul_sum]; simp only [mul_smul]

theorem Rep.single {k t : ℕ} (ht : t ≤ k) : Rep g s k 1 (s t).xk (g t - (s t).xk) := by
  refine ⟨fun i => if i = t then 1 else 0, ?_, ?_, ?_⟩
  · rw [Finset.sum_ite_eq' , if_pos (by simp; omega)]
  · simp only [ite_smul, one_smul, zero_smul]
    rw [Finset.sum_ite_eq', if_pos (by simp; omega)]
  · simp only [ite_smul, one_smul, zero_smul]
    rw [Finset.sum_ite_eq', if_pos (by simp; omega)]

theorem Rep.sum {k : ℕ} (u v : ℕ → Vec G) (γ : ℕ → ℝ) (m : ℕ)
    (h : ∀ j, Rep g s k 0 (u j) (v j)) :
    Rep g s k 0 (∑ j ∈ Finset.range m, γ j • u j) (∑ j ∈ Finset.range m, γ j • v j) := by
  induction m with
  | zero => simpa using Rep.zero k
  | succ m ih =>
    rw [Finset.sum_range_succ, Finset.sum_range_succ]
    simpa using ih.add ((h m).smul (γ m))

/-- The averages used by iteration `k` are the same affine combination of the iterates and of
the residuals. -/
theorem Trace.rep (T : Trace P g K s) {k : ℕ} (hk : k < K) :
    Rep g s k 1 (xw P k (upd P k (g k) (s k))) (fw P k (upd P k (g k) (s k))) := by
  have hst := step_some P k _ _ _ (T.step k hk)
  have hR : (upd P k (g k) (s k)).R = (s (k + 1)).R := hst.2.2.1.symm
  have hF : (upd P k (g k) (s k)).F = (s (k + 1)).F := hst.2.2.2.1.symm
  have hx : (upd P k (g k) (s k)).xk = (s k).xk := rfl
  have hf : (upd P k (g k) (s k)).fk = g k - (s k).xk := rfl
  unfold xw fw
  rw [hR, hF, hx, hf]
  by_cases hp : pulay P k = true
  · rw [if_pos hp, if_pos hp]
    unfold wavg
    have hcol : ∀ j, Rep g s k 0 ((s (k + 1)).R j) ((s (k + 1)).F j) := by
      intro j
      rcases T.cols (show k + 1 ≤ K from hk) j with ⟨h1, h2⟩ | ⟨t, h1, h2, h3, h4⟩
      · rw [h1, h2]; exact Rep.zero k
      · have := (Rep.single (g := g) (s := s) (show t ≤ k by omega)).add
          ((Rep.single (g := g) (s := s) (show t - 1 ≤ k by omega)).smul (-1))
        rw [h3, h4, sub_eq_add_neg, sub_eq_add_neg (g t - (s t).xk)]
        simpa only [neg_smul, one_smul, mul_one, add_neg_cancel] using this
    have := (Rep.single (g := g) (s := s) (le_refl k)).add
      ((Rep.sum _ _ (P.coef (g k - (s k).xk) (s (k + 1)).F) P.m hcol).smul (-1))
    simpa [sub_eq_add_neg] using this
  · rw [if_neg hp, if_neg hp]
    exact Rep.single (le_refl k)

theorem sum_shifted (hs : P.spin = true) [Nonempty G] (f q : Vec G) (n : ℕ) :
    ∑ i, shifted P f q n i = ∑ i, f n i := by
  unfold shifted
  simp only [hs, if_true]
  rw [Finset.sum_add_distrib, Finset.sum_const, Finset.card_univ, nsmul_eq_mul,
    mul_div_cancel₀ _ (by exact_mod_cast Fintype.card_ne_zero)]
  ring

theorem sum_rep {k n : ℕ} {c M : ℝ} {u v : Vec G} (h : Rep g s k c u v)
    (hx : ∀ t ≤ k, ∑ i, (s t).xk n i = M) (hg : ∀ t ≤ k, ∑ i, g t n i = M) :
    ∑ i, u n i = c * M ∧ ∑ i, v n i = 0 := by
  obtain ⟨d, h1, h2, h3⟩ := h
  constructor
  · rw [h2]
    simp only [Finset.sum_apply, Pi.smul_apply, smul_eq_mul]
    rw [Finset.sum_comm, ← h1, Finset.sum_mul]
    refine Finset.sum_congr rfl fun t ht => ?_
    rw [← Finset.mul_sum, hx t (by simp at ht; omega)]
  · rw [h3]
    simp only [Finset.sum_apply, Pi.smul_apply, smul_eq_mul, Pi.sub_apply]
    rw [Finset.sum_comm]
    refine Finset.sum_eq_zero fun t ht => ?_
    rw [← Finset.mul_sum, Finset.sum_sub_distrib, hx t (by simp at ht; omega),
      hg t (by simp at ht; omega)]
    ring

end Sparc.Mixing

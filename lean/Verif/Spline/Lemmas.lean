import Verif.Tac
import Verif.Spline.Model
import Mathlib.Algebra.Polynomial.Derivative
import Mathlib.Algebra.Polynomial.Eval.Degree
import Mathlib.Tactic.ComputeDegree

/-! # Cubic splines (supporting lemmas) -/

namespace Sparc.Spline

/-! ## Elimination -/

/-- Pivots and reduced right-hand sides of the elimination. -/
noncomputable def piv (A B C : ℕ → ℝ) : ℕ → ℝ
  | 0 => B 0
  | i + 1 => B (i + 1) - A (i + 1) * (C i / piv A B C i)

noncomputable def red (A B C D : ℕ → ℝ) : ℕ → ℝ
  | 0 => D 0 / piv A B C 0
  | i + 1 => (D (i + 1) - red A B C D i * A (i + 1)) / piv A B C (i + 1)

theorem forward_some (A B C D : ℕ → ℝ) : ∀ (i : ℕ) (s : ℝ × (ℕ → ℝ) × (ℕ → ℝ)), forward A B C D i = some s →
    s.1 = piv A B C i ∧ (∀ k, k ≤ i → s.2.1 k = red A B C D k) ∧ (∀ k, i < k → s.2.1 k = D k) ∧
    (∀ k, k < i → s.2.2 (k + 1) = C k / piv A B C k) ∧ (∀ k, k ≤ i → piv A B C k ≠ 0)
  | 0, s, hs => by
    unfold forward at hs
    split_ifs at hs with hb
    simp only [Option.some.injEq] at hs
    subst hs
    have h0 : B 0 ≠ 0 := by
      intro h; apply hb; rw [h]; norm_num
    refine ⟨rfl, ?_, ?_, ?_, ?_⟩
    · intro k hk; obtain rfl : k = 0 := by omega
      simp [upd, red, piv]
    · intro k hk
      simp [upd, show k ≠ 0 by omega]
    · intro k hk; omega
    · intro k hk; obtain rfl : k = 0 := by omega
      exact h0
  | i + 1, s, hs => by
    unfold forward at hs
    obtain ⟨t, ht, hs⟩ := Option.bind_eq_some_iff.1 hs
    obtain ⟨h1, h2, h3, h4, h5⟩ := forward_some A B C D i t ht
    dsimp only at hs
    split_ifs at hs with hb
    simp only [Option.some.injEq] at hs
    have hp : B (i + 1) - A (i + 1) * upd t.2.2 (i + 1) (C i / t.1) (i + 1) = piv A B C (i + 1) := by
      simp [upd, piv, h1]
    have h0 : piv A B C (i + 1) ≠ 0 := by
      rw [← hp]
      intro h; apply hb; rw [h]; norm_num
    subst hs
    refine ⟨hp, ?_, ?_, ?_, ?_⟩
    · intro k hk
      dsimp only
      rw [hp]
      by_cases hki : k = i + 1
      · subst hki
        simp [upd, red, h2 i le_rfl, h3 (i + 1) (by omega)]
      · simp [upd, hki, h2 k (by omega)]
    · intro k hk
      simp [upd, show k ≠ i + 1 by omega, h3 k (by omega)]
    · intro k hk
      dsimp only
      by_cases hki : k = i
      · subst hki; simp [upd, h1]
      · simp [upd, hki, h4 k (by omega)]
    · intro k hk
      by_cases hki : k = i + 1
      · subst hki; exact h0
      · exact h5 k (by omega)

theorem forward_of (A B C D : ℕ → ℝ) : ∀ i : ℕ, (∀ k, k ≤ i → ¬|piv A B C k| < 1 / 10 ^ 50) →
    ∃ s, forward A B C D i = some s
  | 0, hp => by
    have h0 : ¬|B 0| < 1 / 10 ^ 50 := hp 0 le_rfl
    unfold forward
    rw [if_neg h0]
    exact ⟨_, rfl⟩
  | i + 1, hp => by
    obtain ⟨s, hs⟩ := forward_of A B C D i fun k hk => hp k (by omega)
    have h1 := (forward_some A B C D i s hs).1
    have hb : ¬|B (i + 1) - A (i + 1) * upd s.2.2 (i + 1) (C i / s.1) (i + 1)| < 1 / 10 ^ 50 := by
      have := hp (i + 1) le_rfl
      rw [piv] at this
      simp only [upd, if_true, h1]
      exact this
    unfold forward
    rw [hs, Option.bind_some]
    dsimp only
    rw [if_neg hb]
    exact ⟨_, rfl⟩

theorem forward_none (A B C D : ℕ → ℝ) : ∀ i k : ℕ, k ≤ i → |piv A B C k| < 1 / 10 ^ 50 →
    forward A B C D i = none
  | 0, k, hk, hp => by
    obtain rfl : k = 0 := by omega
    have h0 : |B 0| < 1 / 10 ^ 50 := hp
    unfold forward; rw [if_pos h0]
  | i + 1, k, hk, hp => by
    unfold forward
    cases hs : forward A B C D i with
    | none => rfl
    | some s =>
      rw [Option.bind_some]
      by_cases hki : k = i + 1
      · subst hki
        have h1 := (forward_some A B C D i s hs).1
        dsimp only
        rw [if_pos]
        simpa [upd, piv, h1] using hp
      · rw [forward_none A B C D i k (by omega) hp] at hs
        exact absurd hs (by simp)

theorem backward_spec (F : ℕ → ℝ) : ∀ (n : ℕ) (D : ℕ → ℝ),
    (∀ k, n ≤ k → backward F n D k = D k) ∧
    (∀ k, k < n → backward F n D k = D k - backward F n D (k + 1) * F (k + 1))
  | 0, D => ⟨fun _ _ => rfl, fun k hk => absurd hk (by omega)⟩
  | n + 1, D => by
    obtain ⟨h1, h2⟩ := backward_spec F n (upd D n (D n - D (n + 1) * F (n + 1)))
    constructor
    · intro k hk
      unfold backward
      rw [h1 k (by omega)]
      simp [upd, show k ≠ n by omega]
    · intro k hk
      unfold backward
      by_cases hkn : k = n
      · subst hkn
        rw [h1 k le_rfl, h1 (k + 1) (by omega)]
        simp [upd]
      · rw [h2 k (by omega)]
        simp [upd, hkn]

/-- Relations met by the result of the solver. -/
theorem tridiag_rel (A B C D : ℕ → ℝ) (len : ℕ) (hl : 1 ≤ len) (x : ℕ → ℝ) (hx : tridiag A B C D len = some x) :
    (∀ k, k < len → piv A B C k ≠ 0) ∧ x (len - 1) = red A B C D (len - 1) ∧
    (∀ k, k + 1 < len → x k = red A B C D k - x (k + 1) * (C k / piv A B C k)) := by
  unfold tridiag at hx
  obtain ⟨s, hs, rfl⟩ := Option.map_eq_some_iff.1 hx
  obtain ⟨-, h2, -, h4, h5⟩ := forward_some A B C D _ s hs
  obtain ⟨g1, g2⟩ := backward_spec s.2.2 (len - 1) s.2.1
  refine ⟨fun k hk => h5 k (by omega), ?_, ?_⟩
  · rw [g1 _ le_rfl, h2 _ le_rfl]
  · intro k hk
    rw [g2 k (by omega), h2 k (by omega), h4 k (by omega)]

/-- Row `i` of the system. -/
def Row (A B C D : ℕ → ℝ) (len : ℕ) (x : ℕ → ℝ) (i : ℕ) : Prop :=
  (if i = 0 then 0 else A i * x (i - 1)) + B i * x i + (if i + 1 < len then C i * x (i + 1) else 0) = D i

theorem row_of_rel {A B C D : ℕ → ℝ} {len : ℕ} {x : ℕ → ℝ} (hp : ∀ k, k < len → piv A B C k ≠ 0)
    (hlast : x (len - 1) = red A B C D (len - 1))
    (hx : ∀ k, k + 1 < len → x k = red A B C D k - x (k + 1) * (C k / piv A B C k)) (i : ℕ) (hi : i < len) :
    Row A B C D len x i := by
  unfold Row
  -- `piv i * x i + [C i x (i+1)] = piv i * red i`
  have h1 : piv A B C i * x i + (if i + 1 < len then C i * x (i + 1) else 0) = piv A B C i * red A B C D i := by
    have := hp i hi
    by_cases h : i + 1 < len
    · rw [if_pos h, hx i h]; field_simp; ring
    · rw [if_neg h]
      obtain rfl : i = len - 1 := by omega
      rw [hlast]; ring
  cases i with
  | zero =>
    have := hp 0 hi
    rw [if_pos rfl]
    have e : piv A B C 0 * red A B C D 0 = D 0 := by unfold red; field_simp
    have : B 0 = piv A B C 0 := rfl
    rw [this]; linarith
  | succ k =>
    have hpk := hp k (by omega)
    have hpk1 := hp (k + 1) hi
    rw [if_neg (by omega)]
    have e : piv A B C (k + 1) * red A B C D (k + 1) = D (k + 1) - red A B C D k * A (k + 1) := by
      rw [red]; field_simp
    have e2 : B (k + 1) = piv A B C (k + 1) + A (k + 1) * (C k / piv A B C k) := by
      rw [piv]; ring
    have e3 := hx k (by omega)
    simp only [Nat.add_sub_cancel]
    rw [e2, e3]
    linear_combination h1 + e

theorem rel_of_row {A B C D : ℕ → ℝ} {len : ℕ} {y : ℕ → ℝ} (hp : ∀ k, k < len → piv A B C k ≠ 0)
    (hy : ∀ i, i < len → Row A B C D len y i) : ∀ i, i < len →
    piv A B C i * y i + (if i + 1 < len then C i * y (i + 1) else 0) = piv A B C i * red A B C D i
  | 0, hi => by
    have h := hy 0 hi
    have := hp 0 hi
    unfold Row at h
    rw [if_pos rfl] at h
    have e : piv A B C 0 * red A B C D 0 = D 0 := by unfold red; field_simp
    have : B 0 = piv A B C 0 := rfl
    rw [this] at h
    linarith
  | k + 1, hi => by
    have h := hy (k + 1) hi
    have ih := rel_of_row hp hy k (by omega)
    rw [if_pos hi] at ih
    have hpk := hp k (by omega)
    have hpk1 := hp (k + 1) hi
    unfold Row at h
    rw [if_neg (by omega)] at h
    have e : piv A B C (k + 1) * red A B C D (k + 1) = D (k + 1) - red A B C D k * A (k + 1) := by
      rw [red]; field_simp
    have e2 : B (k + 1) = piv A B C (k + 1) + A (k + 1) * (C k / piv A B C k) := by
      rw [piv]; ring
    simp only [Nat.add_sub_cancel] at h
    have e3 : y k + C k / piv A B C k * y (k + 1) = red A B C D k := by
      field_simp
      linarith
    rw [e2] at h
    rw [e]
    linear_combination h - A (k + 1) * e3

theorem unique_of_rows {A B C D : ℕ → ℝ} {len : ℕ} {x y : ℕ → ℝ} (hp : ∀ k, k < len → piv A B C k ≠ 0)
    (hx : ∀ i, i < len → Row A B C D len x i) (hy : ∀ i, i < len → Row A B C D len y i) :
    ∀ d i, i + d + 1 = len → x i = y i
  | 0, i, hi => by
    have h1 := rel_of_row hp hx i (by omega)
    have h2 := rel_of_row hp hy i (by omega)
    rw [if_neg (by omega)] at h1 h2
    exact mul_left_cancel₀ (hp i (by omega)) (by linarith)
  | d + 1, i, hi => by
    have h1 := rel_of_row hp hx i (by omega)
    have h2 := rel_of_row hp hy i (by omega)
    rw [if_pos (by omega)] at h1 h2
    rw [unique_of_rows hp hx hy d (i + 1) (by omega)] at h1
    exact mul_left_cancel₀ (hp i (by omega)) (by linarith)

/-! ## The table's system -/

variable {X Y : ℕ → ℝ} {len : ℕ}

theorem h_pos (hX : ∀ i, i + 1 < len → X i < X (i + 1)) (i : ℕ) (hi : i + 1 < len) : 0 < h X i := by
  have := hX i hi
  unfold h; linarith

/-- Pivots of the inner rows. -/
theorem piv_inner (hX : ∀ i, i + 1 < len → X i < X (i + 1)) : ∀ i, i + 2 < len →
    piv (lowA X len) (diagB X len) (upC X) (i + 1) ≤ 2 * (h X i + h X (i + 1)) ∧
    h X i + h X (i + 1) ≤ piv (lowA X len) (diagB X len) (upC X) (i + 1) ∧
    (1 ≤ i → 2 * h X i + h X (i + 1) ≤ piv (lowA X len) (diagB X len) (upC X) (i + 1))
  | 0, hi => by
    have h0 := h_pos hX 0 (by omega)
    have h1 := h_pos hX 1 (by omega)
    have e : piv (lowA X len) (diagB X len) (upC X) 1 = h X 0 + h X 1 := by
      simp only [piv, lowA, diagB, upC, if_pos, if_neg (show ¬(0 + 1 = len - 1) by omega),
        if_neg (show ¬(0 + 1 = 0) by omega)]
      simp only [Nat.zero_add, Nat.sub_self]
      field_simp
      ring
    refine ⟨?_, ?_, fun h => by omega⟩
    · rw [Nat.zero_add, e]; linarith
    · rw [Nat.zero_add, e]
  | i + 1, hi => by
    obtain ⟨-, hlo, -⟩ := piv_inner hX i (by omega)
    have h0 := h_pos hX i (by omega)
    have h1 := h_pos hX (i + 1) (by omega)
    have h2 := h_pos hX (i + 2) (by omega)
    have e : piv (lowA X len) (diagB X len) (upC X) (i + 1 + 1) = 2 * (h X (i + 1) + h X (i + 2)) -
        h X (i + 2) * (h X i / piv (lowA X len) (diagB X len) (upC X) (i + 1)) := by
      rw [piv]
      simp only [lowA, diagB, upC, if_neg (show ¬(i + 1 + 1 = len - 1) by omega),
        if_neg (show ¬(i + 1 + 1 = 0) by omega), if_neg (show ¬(i + 1 = 0) by omega), Nat.add_sub_cancel]
    generalize piv (lowA X len) (diagB X len) (upC X) (i + 1) = q at *
    have hq : 0 < q := by linarith
    have hF : h X i / q ≤ 1 := by rw [div_le_one hq]; linarith
    have hF0 : 0 ≤ h X i / q := by positivity
    have g1 : h X (i + 2) * (h X i / q) ≤ h X (i + 2) := by nlinarith
    have g2 : 0 ≤ h X (i + 2) * (h X i / q) := by positivity
    rw [e]
    refine ⟨by linarith, by linarith, fun _ => by linarith⟩

/-- The last pivot. -/
theorem piv_last (h3 : 3 ≤ len) : piv (lowA X len) (diagB X len) (upC X) (len - 1) =
    h X (len - 3) * (h X (len - 3) + h X (len - 2)) - (h X (len - 3) + h X (len - 2)) * (h X (len - 3) + h X (len - 2)) *
      (h X (len - 3) / piv (lowA X len) (diagB X len) (upC X) (len - 2)) := by
  obtain ⟨m, rfl⟩ : ∃ m, len = m + 3 := ⟨len - 3, by omega⟩
  have e1 : m + 3 - 1 = m + 1 + 1 := by omega
  have e2 : m + 3 - 2 = m + 1 := by omega
  have e3 : m + 3 - 3 = m := by omega
  rw [e1, piv, e2]
  simp only [lowA, diagB, upC, e1, e2, e3, if_true, if_neg (show ¬(m + 1 + 1 = 0) by omega),
    if_neg (show ¬(m + 1 = 0) by omega), Nat.add_sub_cancel]

theorem piv_last_pos (h4 : 4 ≤ len) (hX : ∀ i, i + 1 < len → X i < X (i + 1)) :
    h X (len - 3) * h X (len - 3) / 2 ≤ piv (lowA X len) (diagB X len) (upC X) (len - 1) := by
  obtain ⟨hhi, hlo, hst⟩ := piv_inner hX (len - 3) (by omega)
  have e2 : len - 3 + 1 = len - 2 := by omega
  rw [e2] at hhi hlo hst
  have hst := hst (by omega)
  have h0 := h_pos hX (len - 3) (by omega)
  have h1 := h_pos hX (len - 2) (by omega)
  rw [piv_last (by omega)]
  generalize piv (lowA X len) (diagB X len) (upC X) (len - 2) = q at *
  generalize h X (len - 3) = a at *
  generalize h X (len - 2) = b at *
  have hq : 0 < q := by linarith
  have : a * (a + b) - (a + b) * (a + b) * (a / q) = a * (a + b) * (q - (a + b)) / q := by
    field_simp
  rw [this, le_div_iff₀ hq]
  have s1 : a * (a + b) * a ≤ a * (a + b) * (q - (a + b)) := by
    apply mul_le_mul_of_nonneg_left (by linarith) (by positivity)
  have s2 : a * a / 2 * q ≤ a * a / 2 * (2 * (a + b)) := by
    apply mul_le_mul_of_nonneg_left hhi (by positivity)
  linarith

/-! ## Evaluation -/

open Polynomial

/-- The cubic of interval `j`. -/
noncomputable def herm (X Y D : ℕ → ℝ) (j : ℕ) : ℝ[X] :=
  C (Y j) + C (D j) * (Polynomial.X - C (X j)) + C (coef X Y D j).a2 * (Polynomial.X - C (X j)) ^ 2 +
    C (coef X Y D j).a3 * (Polynomial.X - C (X j)) ^ 3

theorem herm_eval (X Y D : ℕ → ℝ) (j : ℕ) (p : ℝ) : (herm X Y D j).eval p = (coef X Y D j).eval p := by
  simp only [herm, Coef.eval, coef, eval_add, eval_mul, eval_C, eval_sub, eval_X, eval_pow]
  ring

theorem herm_deriv (X Y D : ℕ → ℝ) (j : ℕ) (p : ℝ) : (derivative (herm X Y D j)).eval p =
    D j + 2 * (coef X Y D j).a2 * (p - X j) + 3 * (coef X Y D j).a3 * (p - X j) ^ 2 := by
  simp [herm, derivative_pow]
  ring

theorem herm_deriv2 (X Y D : ℕ → ℝ) (j : ℕ) (p : ℝ) : (derivative (derivative (herm X Y D j))).eval p =
    2 * (coef X Y D j).a2 + 6 * (coef X Y D j).a3 * (p - X j) := by
  simp [herm, derivative_pow]
  ring

theorem herm_deriv3 (X Y D : ℕ → ℝ) (j : ℕ) (p : ℝ) :
    (derivative (derivative (derivative (herm X Y D j)))).eval p = 6 * (coef X Y D j).a3 := by
  simp [herm, derivative_pow]
  ring

theorem herm_degree (X Y D : ℕ → ℝ) (j : ℕ) : (herm X Y D j).natDegree ≤ 3 := by
  unfold herm
  compute_degree

theorem advance_spec (n : ℕ) (X : ℕ → ℝ) (p : ℝ) (j : ℕ) (hj : j ≤ n) :
    j ≤ advance n X p j ∧ advance n X p j ≤ n ∧ (∀ i, j ≤ i → i < advance n X p j → X i < p) ∧
    (advance n X p j < n → p ≤ X (advance n X p j)) := by
  unfold advance
  by_cases hc : j < n ∧ p > X j
  · rw [dif_pos hc]
    obtain ⟨h1, h2, h3, h4⟩ := advance_spec n X p (j + 1) (by omega)
    refine ⟨by omega, h2, ?_, h4⟩
    intro i hi hi2
    by_cases h : i = j
    · rw [h]; exact hc.2
    · exact h3 i (by omega) hi2
  · rw [dif_neg hc]
    refine ⟨le_rfl, hj, fun i h1 h2 => absurd h1 (by omega), fun h => ?_⟩
    by_contra hp
    exact hc ⟨h, by push Not at hp; exact hp⟩
termination_by n - j
decreasing_by omega

theorem mono_of (hX : ∀ i, i + 1 < len → X i < X (i + 1)) (i : ℕ) : ∀ d, i + d < len → X i ≤ X (i + d)
  | 0, _ => le_rfl
  | d + 1, hd => by
    have := mono_of hX i d (by omega)
    have := hX (i + d) (by omega)
    rw [← add_assoc]
    linarith

theorem mono_le (hX : ∀ i, i + 1 < len → X i < X (i + 1)) {i j : ℕ} (hij : i ≤ j) (hj : j < len) : X i ≤ X j := by
  obtain ⟨d, rfl⟩ := Nat.exists_eq_add_of_le hij
  exact mono_of hX i d hj

theorem lt_of_X (hX : ∀ i, i + 1 < len → X i < X (i + 1)) {i j : ℕ} (hi : i < len) (h : X i < X j) : i < j := by
  by_contra hn
  have := mono_le hX (show j ≤ i by omega) hi
  linarith

/-- The interval search. -/
theorem locate_ok {n : ℕ} {X : ℕ → ℝ} (hX : ∀ i, i + 1 < n → X i < X (i + 1)) {p : ℝ} {j : ℕ} (hj : j < n)
    (hlt : j = 0 ∨ X j < p) (h0 : X 0 ≤ p) (h1 : p < X (n - 1)) :
    ∃ j', locate n X p j = .ok j' ∧ j' + 1 < n ∧ X j' ≤ p ∧ p ≤ X (j' + 1) := by
  obtain ⟨g1, g2, g3, g4⟩ := advance_spec n X p j (by omega)
  unfold locate
  generalize advance n X p j = a at *
  dsimp only
  have ha : a < n := by
    by_contra hn
    have := g3 (n - 1) (by omega) (by omega)
    linarith
  have hp := g4 ha
  rw [if_neg (by omega)]
  by_cases hc : p < X a
  · rw [if_pos hc]
    have ha0 : a ≠ 0 := by
      rintro rfl; linarith
    rw [if_neg ha0]
    refine ⟨a - 1, rfl, by omega, ?_, ?_⟩
    · by_cases hja : j ≤ a - 1
      · exact (g3 (a - 1) hja (by omega)).le
      · have hja' : j = a := by omega
        subst hja'
        rcases hlt with h | h
        · omega
        · linarith
    · rw [show a - 1 + 1 = a by omega]; exact hp
  · rw [if_neg hc]
    have hpe : p = X a := le_antisymm hp (not_lt.1 hc)
    have : a < n - 1 := lt_of_X hX ha (by rw [← hpe]; exact h1)
    rw [if_neg (by omega)]
    refine ⟨a, rfl, by omega, hpe.ge, ?_⟩
    rw [hpe]
    exact (hX a (by omega)).le

/-- At the last knot the search ends on the last entry and the next one is read. -/
theorem locate_last {n : ℕ} {X : ℕ → ℝ} (hn : 1 ≤ n) (hX : ∀ i, i + 1 < n → X i < X (i + 1)) {j : ℕ} (hj : j < n) :
    locate n X (X (n - 1)) j = .bad := by
  obtain ⟨g1, g2, g3, g4⟩ := advance_spec n X (X (n - 1)) j (by omega)
  unfold locate
  generalize advance n X (X (n - 1)) j = a at *
  dsimp only
  by_cases hc : n ≤ a
  · rw [if_pos hc]
  · rw [if_neg hc]
    have hp := g4 (by omega)
    have : a = n - 1 := by
      by_contra hne
      have h1 := hX a (by omega)
      have h2 := mono_le hX (show a + 1 ≤ n - 1 by omega) (by omega)
      linarith
    subst this
    rw [if_neg (lt_irrefl _), if_pos (by omega)]

end Sparc.Spline

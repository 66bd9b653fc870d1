import Verif.Tac
import Verif.Spline.Lemmas
import Mathlib.Algebra.Polynomial.Roots
import Mathlib.Algebra.CharZero.Infinite
import Mathlib.Data.List.TakeWhile

/-! # Cubic splines: evaluation and smoothness (supporting lemmas) -/

namespace Sparc.Spline

open Polynomial

/-- Value of the cubic of an interval containing `p`. -/
def Val (n : ℕ) (X Y D : ℕ → ℝ) (p v : ℝ) : Prop :=
  ∃ j, j + 1 < n ∧ X j ≤ p ∧ p ≤ X (j + 1) ∧ v = (coef X Y D j).eval p

theorem loop_ok {n : ℕ} (hn : 2 ≤ n) {X Y D : ℕ → ℝ} (hX : ∀ i, i + 1 < n → X i < X (i + 1)) :
    ∀ (pts : List ℝ) (j : ℕ) (p3 : ℝ) (c : Coef), pts.Pairwise (· ≤ ·) →
    (∀ p ∈ pts, X 0 ≤ p ∧ p ≤ X (n - 1)) →
    ((j = 0 ∧ ∀ p ∈ pts, p3 < p) ∨ (j + 1 < n ∧ p3 = X (j + 1) ∧ c = coef X Y D j ∧ ∀ p ∈ pts, X j ≤ p)) →
    (∀ p ∈ pts, p = X (n - 1) → (j + 2 = n ∧ p3 = X (n - 1)) ∨ ∃ q ∈ pts, X (n - 2) < q ∧ q < X (n - 1)) →
    ∃ vs, interpLoop n X Y D j p3 c pts = .ok vs ∧ List.Forall₂ (Val n X Y D) pts vs
  | [], j, p3, c, _, _, _, _ => ⟨[], by unfold interpLoop; rfl, .nil⟩
  | p :: rest, j, p3, c, hs, hr, hst, hlast => by
    obtain ⟨hs1, hs2⟩ := List.pairwise_cons.1 hs
    have hp := hr p (by simp)
    unfold interpLoop
    by_cases hc : p > p3
    · rw [if_pos hc]
      have hj : j < n := by rcases hst with h | h <;> omega
      have hlt : j = 0 ∨ X j < p := by
        rcases hst with h | ⟨h1, h2, -⟩
        · exact .inl h.1
        · right
          have := hX j h1
          rw [h2] at hc
          linarith
      have hpl : p < X (n - 1) := by
        refine lt_of_le_of_ne hp.2 fun he => ?_
        rcases hlast p (by simp) he with ⟨-, h2⟩ | ⟨q, hq, -, h2⟩
        · rw [h2, he] at hc; exact lt_irrefl _ hc
        · rcases List.mem_cons.1 hq with rfl | hq
          · linarith
          · have := hs1 q hq; linarith
      obtain ⟨j', h1, h2, h3, h4⟩ := locate_ok hX hj hlt hp.1 hpl
      obtain ⟨vs, hvs, hF⟩ := loop_ok hn hX rest j' (X (j' + 1)) (coef X Y D j') hs2
        (fun q hq => hr q (by simp [hq]))
        (.inr ⟨h2, rfl, rfl, fun q hq => h3.trans (hs1 q hq)⟩)
        (by
          intro p' hp' he
          rcases hlast p' (by simp [hp']) he with ⟨-, h⟩ | ⟨q, hq, hq1, hq2⟩
          · rw [h] at hc; linarith
          · rcases List.mem_cons.1 hq with rfl | hq
            · left
              have := lt_of_X hX (show n - 2 < n by omega) (lt_of_lt_of_le hq1 h4)
              have e : j' + 1 = n - 1 := by omega
              exact ⟨by omega, by rw [e]⟩
            · exact .inr ⟨q, hq, hq1, hq2⟩)
      refine ⟨(coef X Y D j').eval p :: vs, ?_, .cons ⟨j', h2, h3, h4, rfl⟩ hF⟩
      rw [h1]
      simp only [Res.bind, hvs]
    · rw [if_neg hc]
      rcases hst with h | ⟨h1, h2, h3, h4⟩
      · exact absurd (h.2 p (by simp)) hc
      · subst h2 h3
        have hc' : p ≤ X (j + 1) := not_lt.1 hc
        obtain ⟨vs, hvs, hF⟩ := loop_ok hn hX rest j (X (j + 1)) (coef X Y D j) hs2
          (fun q hq => hr q (by simp [hq]))
          (.inr ⟨h1, rfl, rfl, fun q hq => h4 q (by simp [hq])⟩)
          (by
            intro p' hp' he
            rcases hlast p' (by simp [hp']) he with h | ⟨q, hq, hq1, hq2⟩
            · exact .inl h
            · rcases List.mem_cons.1 hq with rfl | hq
              · left
                have := lt_of_X hX (show n - 2 < n by omega) (lt_of_lt_of_le hq1 hc')
                have e : j + 1 = n - 1 := by omega
                exact ⟨by omega, by rw [e]⟩
              · exact .inr ⟨q, hq, hq1, hq2⟩)
        refine ⟨(coef X Y D j).eval p :: vs, ?_, .cons ⟨j, h1, h4 p (by simp), hc', rfl⟩ hF⟩
        rw [hvs]
        rfl

theorem interp_ok {n : ℕ} (hn : 2 ≤ n) {X Y D : ℕ → ℝ} (hX : ∀ i, i + 1 < n → X i < X (i + 1)) (pts : List ℝ)
    (hs : pts.Pairwise (· ≤ ·)) (hr : ∀ p ∈ pts, X 0 ≤ p ∧ p ≤ X (n - 1))
    (hlast : X (n - 1) ∈ pts → ∃ q ∈ pts, X (n - 2) < q ∧ q < X (n - 1)) :
    ∃ vs, splineInterp n X Y D pts = .ok vs ∧ List.Forall₂ (Val n X Y D) pts vs := by
  cases pts with
  | nil => exact ⟨[], rfl, .nil⟩
  | cons p rest =>
    unfold splineInterp
    dsimp only
    rw [if_neg]
    · refine loop_ok hn hX (p :: rest) 0 (p - 1) _ hs hr (.inl ⟨rfl, ?_⟩) ?_
      · intro q hq
        rcases List.mem_cons.1 hq with rfl | hq
        · linarith
        · have := (List.pairwise_cons.1 hs).1 q hq
          linarith
      · intro q hq he
        exact .inr (hlast (he ▸ hq))
    · rintro (h | h)
      · have := (hr p (by simp)).1; linarith
      · have := (hr _ (List.getLast_mem (l := p :: rest) (by simp))).2
        linarith

/-! ## Smoothness -/

theorem c2_iff {a b r0 r1 d0 d1 d2 : ℝ} (ha : 0 < a) (hb : 0 < b) :
    2 * (1 / a * (3 * r0 - 2 * d0 - d1)) + 6 * (1 / a * (1 / a) * (-2 * r0 + d0 + d1)) * a =
      2 * (1 / b * (3 * r1 - 2 * d1 - d2)) ↔ b * d0 + 2 * (a + b) * d1 + a * d2 = 3 * (r0 * b + r1 * a) := by
  field_simp
  constructor
  · intro h; linarith
  · intro h; linarith

theorem k_left {a b r0 r1 d0 d1 d2 : ℝ} (ha : 0 < a) (hb : 0 < b)
    (hrow : b * d0 + 2 * (a + b) * d1 + a * d2 = 3 * (r0 * b + r1 * a)) :
    1 / a * (1 / a) * (-2 * r0 + d0 + d1) = 1 / b * (1 / b) * (-2 * r1 + d1 + d2) ↔
      b * (a + b) * d0 + (a + b) * (a + b) * d1 = r0 * (3 * a * b + 2 * b * b) + r1 * a * a := by
  field_simp
  constructor
  · intro h; linear_combination h + a * hrow
  · intro h; linear_combination h - a * hrow

theorem k_right {a b r0 r1 d0 d1 d2 : ℝ} (ha : 0 < a) (hb : 0 < b)
    (hrow : b * d0 + 2 * (a + b) * d1 + a * d2 = 3 * (r0 * b + r1 * a)) :
    1 / a * (1 / a) * (-2 * r0 + d0 + d1) = 1 / b * (1 / b) * (-2 * r1 + d1 + d2) ↔
      (a + b) * (a + b) * d1 + a * (a + b) * d2 = r0 * b * b + r1 * (3 * a * b + 2 * a * a) := by
  field_simp
  constructor
  · intro h; linear_combination -h + b * hrow
  · intro h; linear_combination -h + b * hrow

/-- Rows of the table's system in terms of spacings and slopes. -/
theorem rows_iff {n : ℕ} (hn : 3 ≤ n) (X Y D : ℕ → ℝ) :
    (∀ i, i < n → Row (lowA X n) (diagB X n) (upC X) (rhs X Y n) n D i) ↔
    (∀ i, i + 2 < n → h X (i + 1) * D i + 2 * (h X i + h X (i + 1)) * D (i + 1) + h X i * D (i + 2) =
      3 * (r X Y i * h X (i + 1) + r X Y (i + 1) * h X i)) ∧
    h X 1 * (h X 0 + h X 1) * D 0 + (h X 0 + h X 1) * (h X 0 + h X 1) * D 1 =
      r X Y 0 * (3 * h X 0 * h X 1 + 2 * h X 1 * h X 1) + r X Y 1 * h X 0 * h X 0 ∧
    (h X (n - 3) + h X (n - 2)) * (h X (n - 3) + h X (n - 2)) * D (n - 2) +
      h X (n - 3) * (h X (n - 3) + h X (n - 2)) * D (n - 1) = r X Y (n - 3) * h X (n - 2) * h X (n - 2) +
      r X Y (n - 2) * (3 * h X (n - 3) * h X (n - 2) + 2 * h X (n - 3) * h X (n - 3)) := by
  have inner : ∀ i, i + 2 < n → (Row (lowA X n) (diagB X n) (upC X) (rhs X Y n) n D (i + 1) ↔
      h X (i + 1) * D i + 2 * (h X i + h X (i + 1)) * D (i + 1) + h X i * D (i + 2) =
      3 * (r X Y i * h X (i + 1) + r X Y (i + 1) * h X i)) := by
    intro i hi
    simp only [Row, lowA, diagB, upC, rhs, if_neg (show ¬(i + 1 = n - 1) by omega),
      if_neg (show ¬(i + 1 = 0) by omega), if_pos (show i + 1 + 1 < n by omega), Nat.add_sub_cancel]
  have first : (Row (lowA X n) (diagB X n) (upC X) (rhs X Y n) n D 0 ↔
      h X 1 * (h X 0 + h X 1) * D 0 + (h X 0 + h X 1) * (h X 0 + h X 1) * D 1 =
      r X Y 0 * (3 * h X 0 * h X 1 + 2 * h X 1 * h X 1) + r X Y 1 * h X 0 * h X 0) := by
    simp only [Row, diagB, upC, rhs, if_true, if_pos (show 0 + 1 < n by omega), zero_add]
  have last : (Row (lowA X n) (diagB X n) (upC X) (rhs X Y n) n D (n - 1) ↔
      (h X (n - 3) + h X (n - 2)) * (h X (n - 3) + h X (n - 2)) * D (n - 2) +
      h X (n - 3) * (h X (n - 3) + h X (n - 2)) * D (n - 1) = r X Y (n - 3) * h X (n - 2) * h X (n - 2) +
      r X Y (n - 2) * (3 * h X (n - 3) * h X (n - 2) + 2 * h X (n - 3) * h X (n - 3))) := by
    simp only [Row, lowA, diagB, rhs, if_true, if_neg (show ¬(n - 1 = 0) by omega),
      if_neg (show ¬(n - 1 + 1 < n) by omega), add_zero, show n - 1 - 1 = n - 2 by omega]
  constructor
  · intro h
    exact ⟨fun i hi => (inner i hi).1 (h _ (by omega)), first.1 (h 0 (by omega)), last.1 (h _ (by omega))⟩
  · rintro ⟨h1, h2, h3⟩ i hi
    by_cases h0 : i = 0
    · rw [h0]; exact first.2 h2
    · by_cases hl : i = n - 1
      · rw [hl]; exact last.2 h3
      · obtain ⟨k, rfl⟩ : ∃ k, i = k + 1 := ⟨i - 1, by omega⟩
        exact (inner k (by omega)).2 (h1 k (by omega))

theorem coef_a2 (X Y D : ℕ → ℝ) (j : ℕ) :
    (coef X Y D j).a2 = 1 / h X j * (3 * r X Y j - 2 * D j - D (j + 1)) := by
  simp only [coef, r, h]
  ring

theorem coef_a3 (X Y D : ℕ → ℝ) (j : ℕ) :
    (coef X Y D j).a3 = 1 / h X j * (1 / h X j) * (-2 * r X Y j + D j + D (j + 1)) := by
  simp only [coef, r, h]
  ring

/-- Second derivatives agree at an inner knot exactly if the inner row holds. -/
theorem herm_c2 {n : ℕ} {X Y D : ℕ → ℝ} (hX : ∀ i, i + 1 < n → X i < X (i + 1)) (i : ℕ) (hi : i + 2 < n) :
    (derivative (derivative (herm X Y D i))).eval (X (i + 1)) =
      (derivative (derivative (herm X Y D (i + 1)))).eval (X (i + 1)) ↔
    h X (i + 1) * D i + 2 * (h X i + h X (i + 1)) * D (i + 1) + h X i * D (i + 2) =
      3 * (r X Y i * h X (i + 1) + r X Y (i + 1) * h X i) := by
  rw [herm_deriv2, herm_deriv2, coef_a2, coef_a2, coef_a3, sub_self, mul_zero, add_zero]
  exact c2_iff (h_pos hX i (by omega)) (h_pos hX (i + 1) (by omega))

/-- The polynomial of an interval is fixed by its end values and derivatives. -/
theorem herm_unique (X Y D : ℕ → ℝ) (j : ℕ) (hx : X j < X (j + 1)) (q : ℝ[X]) (hd : q.natDegree ≤ 3)
    (h0 : q.eval (X j) = Y j) (h1 : q.eval (X (j + 1)) = Y (j + 1)) (h2 : (derivative q).eval (X j) = D j)
    (h3 : (derivative q).eval (X (j + 1)) = D (j + 1)) : q = herm X Y D j := by
  have hq : q = C (q.coeff 0) + C (q.coeff 1) * Polynomial.X + C (q.coeff 2) * Polynomial.X ^ 2 +
      C (q.coeff 3) * Polynomial.X ^ 3 := by
    have := q.as_sum_range_C_mul_X_pow' (show q.natDegree < 4 by omega)
    rw [this]
    simp [Finset.sum_range_succ]
  generalize q.coeff 0 = c0 at *
  generalize q.coeff 1 = c1 at *
  generalize q.coeff 2 = c2 at *
  generalize q.coeff 3 = c3 at *
  subst hq
  simp [derivative_pow] at h0 h1 h2 h3
  have hne : X (j + 1) - X j ≠ 0 := by linarith
  apply Polynomial.funext
  intro p
  rw [herm_eval]
  simp only [Coef.eval, coef, eval_add, eval_mul, eval_C, eval_X, eval_pow]
  rw [← h0, ← h1, ← h2, ← h3]
  field_simp
  ring

/-! ## Sorted evaluation -/

theorem fold_upd_other : ∀ (l : List (ℕ × ℝ)) (y : ℕ → ℝ) (k : ℕ), k ∉ l.map Prod.fst →
    l.foldl (fun y t => upd y t.1 t.2) y k = y k
  | [], _, _, _ => rfl
  | t :: l, y, k, hk => by
    simp only [List.map_cons, List.mem_cons, not_or] at hk
    rw [List.foldl_cons, fold_upd_other l _ k hk.2]
    simp [upd, hk.1]

theorem fold_upd_at : ∀ (l : List (ℕ × ℝ)) (y : ℕ → ℝ) (t : ℕ × ℝ), (l.map Prod.fst).Nodup → t ∈ l →
    l.foldl (fun y t => upd y t.1 t.2) y t.1 = t.2
  | u :: l, y, t, hn, ht => by
    simp only [List.map_cons, List.nodup_cons] at hn
    rw [List.foldl_cons]
    rcases List.mem_cons.1 ht with rfl | ht
    · rw [fold_upd_other l _ _ hn.1]
      simp [upd]
    · exact fold_upd_at l _ t hn.2 ht

/-- Entries kept by the trimming of `SortSplineInterp`. -/
theorem trim_spec (l : List ℝ) (hs : l.Pairwise (· ≤ ·)) (b : ℝ) (P : ℝ → Bool) (hP : ∀ p, P p = true ↔ b < p) :
    ∃ tail, l = (l.reverse.dropWhile P).reverse ++ tail ∧ (∀ p ∈ tail, b < p) ∧
      (∀ p ∈ (l.reverse.dropWhile P).reverse, p ≤ b) := by
  refine ⟨(l.reverse.takeWhile P).reverse, ?_, ?_, ?_⟩
  · rw [← List.reverse_append, List.takeWhile_append_dropWhile, List.reverse_reverse]
  · intro p hp
    exact (hP p).1 (List.mem_takeWhile_imp (List.mem_reverse.1 hp))
  · intro p hp
    have hr : (l.reverse.dropWhile P).Pairwise (· ≥ ·) :=
      ((List.pairwise_reverse.2 hs).imp (fun h => h)).sublist (List.dropWhile_sublist P)
    rw [List.mem_reverse] at hp
    cases hd : l.reverse.dropWhile P with
    | nil => rw [hd] at hp; simp at hp
    | cons a m =>
      have ha : ¬P a = true := by
        have := List.head_dropWhile_not P (l := l.reverse) (by rw [hd]; simp)
        simp only [hd, List.head_cons] at this
        simp [this]
      rw [hP, not_lt] at ha
      rw [hd] at hp hr
      rcases List.mem_cons.1 hp with rfl | hp
      · exact ha
      · exact ((List.pairwise_cons.1 hr).1 p hp).trans ha

end Sparc.Spline

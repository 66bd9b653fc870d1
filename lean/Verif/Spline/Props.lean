import Verif.Tac
import Verif.Spline.Eval

/-!
# Cubic splines (properties, C36)

The tridiagonal solver, the derivatives of a table and the evaluation of the spline.
-/

namespace Sparc.Spline

open Polynomial

/-! ## The tridiagonal solver -/

/-- `x` solves the tridiagonal system of size `n` with diagonals `A`, `B`, `C`. -/
def Solves (n : ℕ) (A B C D x : ℕ → ℝ) : Prop :=
  ∀ i < n, (∑ k ∈ Finset.range n,
    (if k + 1 = i then A i else if k = i then B i else if k = i + 1 then C i else 0) * x k) = D i

theorem solves_iff (n : ℕ) (A B C D x : ℕ → ℝ) : Solves n A B C D x ↔ ∀ i < n, Row A B C D n x i := by
  unfold Solves
  refine forall_congr' fun i => forall_congr' fun hi => ?_
  have e : (∑ k ∈ Finset.range n,
      (if k + 1 = i then A i else if k = i then B i else if k = i + 1 then C i else 0) * x k) =
      (if i = 0 then 0 else A i * x (i - 1)) + B i * x i + (if i + 1 < n then C i * x (i + 1) else 0) := by
    have : ∀ k, (if k + 1 = i then A i else if k = i then B i else if k = i + 1 then C i else 0) * x k =
        (if k + 1 = i then A i * x k else 0) + (if k = i then B i * x k else 0) +
          (if k = i + 1 then C i * x k else 0) := by
      intro k
      by_cases h1 : k + 1 = i
      · simp [h1, show ¬k = i by omega, show ¬k = i + 1 by omega]
      · by_cases h2 : k = i
        · simp [h2]
        · rw [if_neg h1, if_neg h2, if_neg h1, if_neg h2]
          by_cases h3 : k = i + 1
          · rw [if_pos h3, if_pos h3]; ring
          · rw [if_neg h3, if_neg h3]; ring
    rw [Finset.sum_congr rfl fun k _ => this k, Finset.sum_add_distrib, Finset.sum_add_distrib]
    congr 1
    · congr 1
      · by_cases h0 : i = 0
        · rw [if_pos h0]
          exact Finset.sum_eq_zero fun k _ => if_neg (by omega)
        · rw [if_neg h0, Finset.sum_eq_single (i - 1)]
          · rw [if_pos (by omega)]
          · intro k _ hk; exact if_neg (by omega)
          · intro hk; exact absurd (Finset.mem_range.2 (by omega)) hk
      · rw [Finset.sum_ite_eq' (Finset.range n) i, if_pos (Finset.mem_range.2 hi)]
    · rw [Finset.sum_ite_eq' (Finset.range n) (i + 1)]
      simp
  rw [e]
  rfl

/-- What `tridiag_gen` returns solves the system, and is its only solution. -/
theorem tridiag_solves (A B C D : ℕ → ℝ) (n : ℕ) (hn : 1 ≤ n) (x : ℕ → ℝ) (hx : tridiag A B C D n = some x) :
    Solves n A B C D x ∧ ∀ y, Solves n A B C D y → ∀ i < n, y i = x i := by
  obtain ⟨h1, h2, h3⟩ := tridiag_rel A B C D n hn x hx
  have hr : ∀ i < n, Row A B C D n x i := fun i hi => row_of_rel h1 h2 h3 i hi
  refine ⟨(solves_iff ..).2 hr, fun y hy i hi => ?_⟩
  exact unique_of_rows h1 ((solves_iff ..).1 hy) hr (n - 1 - i) i (by omega)

/-- A system with a dominant diagonal is solved. -/
theorem tridiag_dominant (A B C D : ℕ → ℝ) (n : ℕ)
    (hB : ∀ i < n, 1 + |A i| + |C i| ≤ |B i|) (hn : 1 ≤ n) : ∃ x, tridiag A B C D n = some x := by
  have key : ∀ i, i < n → 1 + |C i| ≤ |piv A B C i| := by
    intro i
    induction i with
    | zero =>
      intro hi
      have := hB 0 hi
      have := abs_nonneg (A 0)
      rw [piv]; linarith
    | succ k ih =>
      intro hi
      have h1 := ih (by omega)
      have h2 := hB (k + 1) hi
      have h3 : 0 < |piv A B C k| := by have := abs_nonneg (C k); linarith
      have h4 : |C k / piv A B C k| ≤ 1 := by
        rw [abs_div, div_le_one h3]; linarith
      have h5 : |A (k + 1) * (C k / piv A B C k)| ≤ |A (k + 1)| := by
        rw [abs_mul]
        exact mul_le_of_le_one_right (abs_nonneg _) h4
      have h6 := abs_sub_abs_le_abs_sub (B (k + 1)) (A (k + 1) * (C k / piv A B C k))
      rw [piv]
      linarith
  obtain ⟨s, hs⟩ := forward_of A B C D (n - 1) (by
    intro k hk
    have := key k (by omega)
    have := abs_nonneg (C k)
    have : (1 : ℝ) / 10 ^ 50 ≤ 1 := by norm_num
    linarith)
  exact ⟨_, by unfold tridiag; rw [hs]; rfl⟩

example : ∃ x, tridiag (fun _ => -1) (fun _ => 4) (fun _ => -1) (fun i => i) 5 = some x ∧
    Solves 5 (fun _ => -1) (fun _ => 4) (fun _ => -1) (fun i => i) x := by
  obtain ⟨x, hx⟩ := tridiag_dominant (fun _ => -1) (fun _ => 4) (fun _ => -1) (fun i => i) 5
    (fun i _ => by norm_num) (by norm_num)
  exact ⟨x, hx, (tridiag_solves _ _ _ _ 5 (by norm_num) x hx).1⟩

/-! ## The spline of a table -/

/-- `q` is a cubic spline of the table `(X i, Y i)`, `i < n`: a polynomial of degree at most three on every
interval that takes the table's values at both ends, twice continuously differentiable at the inner knots,
with a continuous third derivative at the second and at the last but one knot. -/
structure IsSpline (n : ℕ) (X Y : ℕ → ℝ) (q : ℕ → ℝ[X]) : Prop where
  degree : ∀ j, j + 1 < n → (q j).natDegree ≤ 3
  left : ∀ j, j + 1 < n → (q j).eval (X j) = Y j
  right : ∀ j, j + 1 < n → (q j).eval (X (j + 1)) = Y (j + 1)
  c1 : ∀ j, j + 2 < n → (derivative (q j)).eval (X (j + 1)) = (derivative (q (j + 1))).eval (X (j + 1))
  c2 : ∀ j, j + 2 < n → (derivative (derivative (q j))).eval (X (j + 1)) =
    (derivative (derivative (q (j + 1)))).eval (X (j + 1))
  first : (derivative (derivative (derivative (q 0)))).eval (X 1) =
    (derivative (derivative (derivative (q 1)))).eval (X 1)
  last : (derivative (derivative (derivative (q (n - 3))))).eval (X (n - 2)) =
    (derivative (derivative (derivative (q (n - 2))))).eval (X (n - 2))

/-- `v` is the value at `p` of the piecewise polynomial `q`. -/
def At (n : ℕ) (X : ℕ → ℝ) (q : ℕ → ℝ[X]) (p v : ℝ) : Prop :=
  ∃ j, j + 1 < n ∧ X j ≤ p ∧ p ≤ X (j + 1) ∧ v = (q j).eval p

theorem herm_left (X Y D : ℕ → ℝ) (j : ℕ) : (herm X Y D j).eval (X j) = Y j := by
  simp [herm]

theorem herm_right (X Y D : ℕ → ℝ) (j : ℕ) (hx : X j < X (j + 1)) :
    (herm X Y D j).eval (X (j + 1)) = Y (j + 1) := by
  have : X (j + 1) - X j ≠ 0 := by linarith
  rw [herm_eval]
  simp only [Coef.eval, coef]
  field_simp
  ring

theorem herm_dleft (X Y D : ℕ → ℝ) (j : ℕ) : (derivative (herm X Y D j)).eval (X j) = D j := by
  rw [herm_deriv]; ring

theorem herm_dright (X Y D : ℕ → ℝ) (j : ℕ) (hx : X j < X (j + 1)) :
    (derivative (herm X Y D j)).eval (X (j + 1)) = D (j + 1) := by
  have : X (j + 1) - X j ≠ 0 := by linarith
  rw [herm_deriv]
  simp only [coef]
  field_simp
  ring

/-- The cubics with derivatives `D` form a spline exactly if `D` solves the table's system. -/
theorem herm_spline {n : ℕ} (hn : 3 ≤ n) {X Y D : ℕ → ℝ} (hX : ∀ i, i + 1 < n → X i < X (i + 1)) :
    IsSpline n X Y (herm X Y D) ↔ ∀ i, i < n → Row (lowA X n) (diagB X n) (upC X) (rhs X Y n) n D i := by
  rw [rows_iff hn]
  have e1 : n - 3 + 1 = n - 2 := by omega
  have e2 : n - 3 + 2 = n - 1 := by omega
  have e3 : n - 2 + 1 = n - 1 := by omega
  constructor
  · intro H
    have rows : ∀ i, i + 2 < n → h X (i + 1) * D i + 2 * (h X i + h X (i + 1)) * D (i + 1) + h X i * D (i + 2) =
      3 * (r X Y i * h X (i + 1) + r X Y (i + 1) * h X i) := fun i hi => (herm_c2 hX i hi).1 (H.c2 i hi)
    refine ⟨rows, ?_, ?_⟩
    · have h1 := H.first
      rw [herm_deriv3, herm_deriv3, coef_a3, coef_a3] at h1
      exact (k_left (h_pos hX 0 (by omega)) (h_pos hX 1 (by omega)) (rows 0 (by omega))).1 (by linarith)
    · have h1 := H.last
      rw [herm_deriv3, herm_deriv3, coef_a3, coef_a3] at h1
      have h2 := rows (n - 3) (by omega)
      simp only [e1, e2, e3] at h1 h2
      exact (k_right (h_pos hX _ (by omega)) (h_pos hX _ (by omega)) h2).1 (by linarith)
  · rintro ⟨rows, hf, hl⟩
    refine ⟨fun j _ => herm_degree .., fun j _ => herm_left .., fun j hj => herm_right _ _ _ j (hX j hj), ?_, ?_, ?_, ?_⟩
    · intro j hj
      rw [herm_dright _ _ _ j (hX j (by omega)), herm_dleft]
    · exact fun j hj => (herm_c2 hX j hj).2 (rows j hj)
    · rw [herm_deriv3, herm_deriv3, coef_a3, coef_a3]
      rw [(k_left (h_pos hX 0 (by omega)) (h_pos hX 1 (by omega)) (rows 0 (by omega))).2 hf]
    · rw [herm_deriv3, herm_deriv3, coef_a3, coef_a3]
      have h2 := rows (n - 3) (by omega)
      simp only [e1, e2, e3] at h2 ⊢
      rw [(k_right (h_pos hX _ (by omega)) (h_pos hX _ (by omega)) h2).2 hl]

/-- Derivatives returned by `getYD_gen` are the slopes at the knots of a spline of the table, and every
spline of the table agrees with it on every interval. -/
theorem table_spline {n : ℕ} {X Y D : ℕ → ℝ} (hX : ∀ i, i + 1 < n → X i < X (i + 1))
    (hD : getYD X Y n = .ok D) :
    ∃ q, IsSpline n X Y q ∧
      (∀ j, j + 1 < n → (derivative (q j)).eval (X j) = D j ∧ (derivative (q j)).eval (X (j + 1)) = D (j + 1)) ∧
      ∀ q', IsSpline n X Y q' → ∀ j, j + 1 < n → q' j = q j := by
  unfold getYD at hD
  split_ifs at hD with h3
  have hn : 3 ≤ n := by omega
  cases ht : tridiag (lowA X n) (diagB X n) (upC X) (rhs X Y n) n with
  | none => rw [ht] at hD; exact absurd hD (by simp)
  | some d =>
    rw [ht] at hD
    simp only [Res.ok.injEq] at hD
    subst hD
    obtain ⟨s1, s2⟩ := tridiag_solves _ _ _ _ n (by omega) d ht
    refine ⟨herm X Y d, (herm_spline hn hX).2 ((solves_iff ..).1 s1), fun j hj => ⟨herm_dleft .., herm_dright _ _ _ j (hX j hj)⟩, ?_⟩
    intro q' hq' j hj
    -- slopes of the other spline
    set d' : ℕ → ℝ := fun k => if k + 1 < n then (derivative (q' k)).eval (X k)
      else (derivative (q' (k - 1))).eval (X k) with hd'
    have hl : ∀ k, k + 1 < n → (derivative (q' k)).eval (X k) = d' k := fun k hk => by
      simp only [hd', if_pos hk]
    have hr : ∀ k, k + 1 < n → (derivative (q' k)).eval (X (k + 1)) = d' (k + 1) := by
      intro k hk
      by_cases hk2 : k + 2 < n
      · rw [hq'.c1 k hk2, hl (k + 1) hk2]
      · simp only [hd', if_neg hk2, Nat.add_sub_cancel]
    have hh : ∀ k, k + 1 < n → q' k = herm X Y d' k := fun k hk =>
      herm_unique X Y d' k (hX k hk) (q' k) (hq'.degree k hk) (hq'.left k hk) (hq'.right k hk) (hl k hk) (hr k hk)
    have H : IsSpline n X Y (herm X Y d') := by
      refine ⟨fun j _ => herm_degree .., fun j _ => herm_left .., fun j hj => herm_right _ _ _ j (hX j hj), ?_, ?_, ?_, ?_⟩
      · intro j hj; rw [← hh j (by omega), ← hh (j + 1) (by omega)]; exact hq'.c1 j hj
      · intro j hj; rw [← hh j (by omega), ← hh (j + 1) (by omega)]; exact hq'.c2 j hj
      · rw [← hh 0 (by omega), ← hh 1 (by omega)]; exact hq'.first
      · rw [← hh (n - 3) (by omega), ← hh (n - 2) (by omega)]; exact hq'.last
    have hu := s2 d' ((solves_iff ..).2 ((herm_spline hn hX).1 H))
    rw [hh j hj]
    simp only [herm, coef]
    rw [hu j (by omega), hu (j + 1) hj]

/-- With at least four knots whose spacings are not absurdly small the derivatives are found. -/
theorem getYD_ok {n : ℕ} (hn : 4 ≤ n) {X Y : ℕ → ℝ} (hX : ∀ i, i + 1 < n → X i + 1 / 10 ^ 24 ≤ X (i + 1)) :
    ∃ D, getYD X Y n = .ok D := by
  have hX' : ∀ i, i + 1 < n → X i < X (i + 1) := fun i hi => by
    have := hX i hi
    have : (0 : ℝ) < 1 / 10 ^ 24 := by positivity
    linarith
  have hh : ∀ i, i + 1 < n → 1 / 10 ^ 24 ≤ h X i := fun i hi => by
    have := hX i hi
    unfold h; linarith
  have key : ∀ k, k ≤ n - 1 → ¬|piv (lowA X n) (diagB X n) (upC X) k| < 1 / 10 ^ 50 := by
    intro k hk
    rw [not_lt]
    refine le_trans ?_ (le_abs_self _)
    by_cases h0 : k = 0
    · subst h0
      simp only [piv, diagB, if_true]
      have g0 := hh 0 (by omega)
      have g1 := hh 1 (by omega)
      have : (1 / 10 ^ 24 : ℝ) * (1 / 10 ^ 24) ≤ h X 1 * (h X 0 + h X 1) :=
        mul_le_mul g1 (by linarith [h_pos hX' 1 (by omega)]) (by positivity) (h_pos hX' 1 (by omega)).le
      refine le_trans ?_ this
      norm_num
    · by_cases hl : k = n - 1
      · subst hl
        refine le_trans ?_ (piv_last_pos hn hX')
        have g := hh (n - 3) (by omega)
        have : (1 / 10 ^ 24 : ℝ) * (1 / 10 ^ 24) ≤ h X (n - 3) * h X (n - 3) :=
          mul_le_mul g g (by positivity) (h_pos hX' _ (by omega)).le
        have e : (1 : ℝ) / 10 ^ 50 ≤ (1 / 10 ^ 24 : ℝ) * (1 / 10 ^ 24) / 2 := by norm_num
        linarith
      · obtain ⟨i, rfl⟩ : ∃ i, k = i + 1 := ⟨k - 1, by omega⟩
        refine le_trans ?_ (piv_inner hX' i (by omega)).2.1
        have g := hh i (by omega)
        have g1 := h_pos hX' (i + 1) (by omega)
        have e : (1 : ℝ) / 10 ^ 50 ≤ 1 / 10 ^ 24 := by norm_num
        linarith
  obtain ⟨s, hs⟩ := forward_of _ _ _ (rhs X Y n) (n - 1) key
  unfold getYD
  rw [if_neg (by omega)]
  unfold tridiag
  rw [hs]
  exact ⟨_, rfl⟩

/-- A table with three knots has no unique spline: the elimination meets a zero pivot and the program ends. -/
theorem getYD_three {X Y : ℕ → ℝ} (hX : ∀ i, i + 1 < 3 → X i < X (i + 1)) : getYD X Y 3 = .exit := by
  have h0 := h_pos hX 0 (by omega)
  have h1 := h_pos hX 1 (by omega)
  have e : piv (lowA X 3) (diagB X 3) (upC X) 1 = h X 0 + h X 1 := by
    simp only [piv, lowA, diagB, upC]
    simp only [if_pos, if_neg (show ¬(0 + 1 = 3 - 1) by omega), if_neg (show ¬(0 + 1 = 0) by omega)]
    simp only [zero_add, Nat.sub_self]
    field_simp
    ring
  have hl := piv_last (X := X) (len := 3) le_rfl
  simp only [show 3 - 1 = 2 by rfl, show 3 - 2 = 1 by rfl, show 3 - 3 = 0 by rfl, e] at hl
  have hz : piv (lowA X 3) (diagB X 3) (upC X) 2 = 0 := by
    rw [hl]; field_simp; ring
  unfold getYD tridiag
  rw [if_neg (by omega), forward_none _ _ _ _ (3 - 1) 2 (by omega) (by rw [hz]; norm_num)]
  rfl

/-! ## Evaluation -/

theorem val_at {n : ℕ} {X Y D : ℕ → ℝ} (hX : ∀ i, i + 1 < n → X i < X (i + 1)) {q : ℕ → ℝ[X]}
    (hq : IsSpline n X Y q)
    (hD : ∀ j, j + 1 < n → (derivative (q j)).eval (X j) = D j ∧ (derivative (q j)).eval (X (j + 1)) = D (j + 1))
    {p v : ℝ} (h : Val n X Y D p v) : At n X q p v := by
  obtain ⟨j, h1, h2, h3, rfl⟩ := h
  refine ⟨j, h1, h2, h3, ?_⟩
  rw [← herm_eval, ← herm_unique X Y D j (hX j h1) (q j) (hq.degree j h1) (hq.left j h1) (hq.right j h1) (hD j h1).1
    (hD j h1).2]

/-- **C36.**  For a table with increasing abscissae and the derivatives `getYD_gen` computed for it,
`SplineInterp` evaluates the table's spline at every point of a sorted list within the table, provided
that the last knot itself is asked for only after a point strictly inside the last interval. -/
theorem interp_partial {n : ℕ} {X Y D : ℕ → ℝ} (hX : ∀ i, i + 1 < n → X i < X (i + 1))
    (hD : getYD X Y n = .ok D) (q : ℕ → ℝ[X]) (hq : IsSpline n X Y q) (pts : List ℝ)
    (hs : pts.Pairwise (· ≤ ·)) (hr : ∀ p ∈ pts, X 0 ≤ p ∧ p ≤ X (n - 1))
    (hlast : X (n - 1) ∈ pts → ∃ q ∈ pts, X (n - 2) < q ∧ q < X (n - 1)) :
    ∃ vs, splineInterp n X Y D pts = .ok vs ∧ List.Forall₂ (At n X q) pts vs := by
  have hn : 3 ≤ n := by
    unfold getYD at hD
    split_ifs at hD with h3
    omega
  obtain ⟨q0, hq0, hd, hu⟩ := table_spline hX hD
  obtain ⟨vs, h1, h2⟩ := interp_ok (by omega) (Y := Y) (D := D) hX pts hs hr hlast
  refine ⟨vs, h1, h2.imp fun p v h => ?_⟩
  refine val_at hX hq (fun j hj => ?_) h
  rw [hu q hq j hj]
  exact hd j hj

/-- What the previous theorem leaves out: asked for the last knot alone, `SplineInterp` reads one entry
beyond the end of all three tables. -/
theorem interp_last_knot {n : ℕ} (hn : 2 ≤ n) {X Y D : ℕ → ℝ} (hX : ∀ i, i + 1 < n → X i < X (i + 1)) :
    splineInterp n X Y D [X (n - 1)] = .bad := by
  unfold splineInterp
  dsimp only
  rw [if_neg]
  · unfold interpLoop
    rw [if_pos (by linarith), locate_last (by omega) hX (by omega)]
    rfl
  · have := mono_le hX (show 0 ≤ n - 1 by omega) (by omega)
    simp only [List.getLast_singleton, gt_iff_lt, lt_self_iff_false, or_false, not_lt]
    exact this

/-- At a knot the value is the table's. -/
theorem at_knot {n : ℕ} {X Y : ℕ → ℝ} (hX : ∀ i, i + 1 < n → X i < X (i + 1)) {q : ℕ → ℝ[X]}
    (hq : IsSpline n X Y q) {k : ℕ} (hk : k < n) {v : ℝ} (hv : At n X q (X k) v) : v = Y k := by
  obtain ⟨j, h1, h2, h3, rfl⟩ := hv
  have hjk : j ≤ k := by
    by_contra hn
    have := hX k (by omega)
    have := mono_le hX (show k + 1 ≤ j by omega) (by omega)
    linarith
  have hkj : k ≤ j + 1 := by
    by_contra hn
    have := hX (j + 1) (by omega)
    have := mono_le hX (show j + 1 + 1 ≤ k by omega) (by omega)
    linarith
  rcases Nat.lt_or_ge j k with h | h
  · obtain rfl : k = j + 1 := by omega
    exact hq.right j h1
  · obtain rfl : k = j := by omega
    exact hq.left k h1

/-- Two values at the same point agree. -/
theorem at_unique {n : ℕ} {X Y : ℕ → ℝ} (hX : ∀ i, i + 1 < n → X i < X (i + 1)) {q : ℕ → ℝ[X]}
    (hq : IsSpline n X Y q) {p v w : ℝ} (hv : At n X q p v) (hw : At n X q p w) : v = w := by
  have key : ∀ {j k : ℕ}, k + 1 < n → j < k → p ≤ X (j + 1) → X k ≤ p → p = X k ∧ j + 1 = k := by
    intro j k hk hjk h1 h2
    have h3 := mono_le hX (show j + 1 ≤ k by omega) (by omega)
    refine ⟨by linarith, ?_⟩
    by_contra hne
    have := hX (j + 1) (by omega)
    have := mono_le hX (show j + 1 + 1 ≤ k by omega) (by omega)
    linarith
  obtain ⟨j, j1, j2, j3, rfl⟩ := id hv
  obtain ⟨k, k1, k2, k3, rfl⟩ := id hw
  rcases lt_trichotomy j k with h | rfl | h
  · obtain ⟨e, -⟩ := key k1 h j3 k2
    subst e
    rw [at_knot hX hq (show k < n by omega) hv, at_knot hX hq (show k < n by omega) hw]
  · rfl
  · obtain ⟨e, -⟩ := key j1 h k3 j2
    subst e
    rw [at_knot hX hq (show j < n by omega) hv, at_knot hX hq (show j < n by omega) hw]

/-- Tables of polynomials of degree at most three (straight lines among them) are reproduced. -/
theorem cubic_reproduced {n : ℕ} {X D : ℕ → ℝ} (hX : ∀ i, i + 1 < n → X i < X (i + 1)) (P : ℝ[X])
    (hP : P.natDegree ≤ 3) (hD : getYD X (fun i => P.eval (X i)) n = .ok D) (pts : List ℝ)
    (hs : pts.Pairwise (· ≤ ·)) (hr : ∀ p ∈ pts, X 0 ≤ p ∧ p < X (n - 1)) :
    splineInterp n X (fun i => P.eval (X i)) D pts = .ok (pts.map fun p => P.eval p) := by
  have hq : IsSpline n X (fun i => P.eval (X i)) (fun _ => P) :=
    ⟨fun _ _ => hP, fun _ _ => rfl, fun _ _ => rfl, fun _ _ => rfl, fun _ _ => rfl, rfl, rfl⟩
  obtain ⟨vs, h1, h2⟩ := interp_partial hX hD _ hq pts hs (fun p hp => ⟨(hr p hp).1, (hr p hp).2.le⟩)
    (fun h => absurd (hr _ h).2 (lt_irrefl _))
  rw [h1]
  congr 1
  clear h1 hs hr
  induction h2 with
  | nil => rfl
  | cons h _ ih =>
    obtain ⟨j, -, -, -, rfl⟩ := h
    rw [List.map_cons, ih]

example : ∃ D, getYD (fun i => (i : ℝ)) (fun i => (i : ℝ) ^ 3) 5 = .ok D ∧
    splineInterp 5 (fun i => (i : ℝ)) (fun i => (i : ℝ) ^ 3) D [0, 1 / 2, 5 / 2, 3] = .ok [0, 1 / 8, 125 / 8, 27] := by
  obtain ⟨D, hD⟩ := getYD_ok (n := 5) (by norm_num) (X := fun i => (i : ℝ)) (Y := fun i => (i : ℝ) ^ 3)
    (fun i _ => by push_cast; norm_num)
  refine ⟨D, hD, ?_⟩
  have e : (fun i : ℕ => (i : ℝ) ^ 3) = fun i : ℕ => (Polynomial.X ^ 3 : ℝ[X]).eval ((fun i : ℕ => (i : ℝ)) i) := by
    funext i; simp
  rw [e] at hD ⊢
  rw [cubic_reproduced (fun i _ => by push_cast; linarith) (Polynomial.X ^ 3) (by simp) hD _
    (by simp; norm_num) (by intro p hp; simp at hp; rcases hp with rfl | rfl | rfl | rfl <;> norm_num)]
  norm_num

/-! ## Unsorted points and uniform tables -/

theorem fst_zip_sublist : ∀ (l : List ℕ) (m : List ℝ), ((l.zip m).map Prod.fst).Sublist l
  | [], _ => by simp
  | _ :: _, [] => by simp
  | a :: l, b :: m => by
    simp only [List.zip_cons_cons, List.map_cons]
    exact (fst_zip_sublist l m).cons₂ a

/-- `SortSplineInterp` on points in any order, whatever order `qsort` finds: points within the table get the
spline's value, points beyond it are left with an entry of the sorted list of points. -/
theorem sort_interp_partial {n : ℕ} {X Y D : ℕ → ℝ} (hX : ∀ i, i + 1 < n → X i < X (i + 1))
    (hD : getYD X Y n = .ok D) (q : ℕ → ℝ[X]) (hq : IsSpline n X Y q) (len : ℕ) (pts : ℕ → ℝ) (ind : List ℕ)
    (hperm : ind.Perm (List.range len)) (hsort : (ind.map pts).Pairwise (· ≤ ·)) (hr : ∀ k < len, X 0 ≤ pts k)
    (hlast : (∃ k < len, pts k = X (n - 1)) → ∃ k < len, X (n - 2) < pts k ∧ pts k < X (n - 1)) :
    ∃ y, sortSplineInterp n X Y D ind pts = .ok y ∧
      (∀ k < len, pts k ≤ X (n - 1) → At n X q (pts k) (y k)) ∧
      (∀ k < len, X (n - 1) < pts k → y k = (ind.map pts).getD k 0) := by
  classical
  have hmem : ∀ k, k ∈ ind ↔ k < len := fun k => by rw [hperm.mem_iff, List.mem_range]
  have hnd : ind.Nodup := hperm.nodup_iff.2 List.nodup_range
  unfold sortSplineInterp
  dsimp only
  obtain ⟨tail, h1, h2, h3⟩ := trim_spec (ind.map pts) hsort (X (n - 1)) (fun p => decide (p > X (n - 1)))
    (fun p => by simp)
  generalize hin : ((ind.map pts).reverse.dropWhile fun p => decide (p > X (n - 1))).reverse = inside at *
  have hsub : inside.Sublist (ind.map pts) := by rw [h1]; exact List.sublist_append_left ..
  obtain ⟨vs, hvs, hF⟩ := interp_partial hX hD q hq inside (hsort.sublist hsub)
    (by
      intro p hp
      refine ⟨?_, h3 p hp⟩
      obtain ⟨k, hk, rfl⟩ := List.mem_map.1 (hsub.subset hp)
      exact hr k ((hmem k).1 hk))
    (by
      intro hl
      obtain ⟨k, hk, he⟩ := List.mem_map.1 (hsub.subset hl)
      obtain ⟨k', hk', g1, g2⟩ := hlast ⟨k, (hmem k).1 hk, he⟩
      refine ⟨pts k', ?_, g1, g2⟩
      have : pts k' ∈ ind.map pts := List.mem_map.2 ⟨k', (hmem k').2 hk', rfl⟩
      rw [h1, List.mem_append] at this
      rcases this with h | h
      · exact h
      · have := h2 _ h; linarith)
  rw [hvs]
  refine ⟨_, rfl, ?_, ?_⟩
  · intro k hk hle
    obtain ⟨i, hi, hik⟩ := List.getElem_of_mem ((hmem k).2 hk)
    have hlen : inside.length + tail.length = ind.length := by
      have := congrArg List.length h1
      simpa using this.symm
    have hsi : (ind.map pts)[i]? = some (pts k) := by
      simp [hi, hik]
    have hii : i < inside.length := by
      by_contra hn
      rw [h1, List.getElem?_append_right (by omega)] at hsi
      have := h2 _ (List.mem_of_getElem? hsi)
      linarith
    rw [h1, List.getElem?_append_left hii] at hsi
    have hvl : i < vs.length := by rw [← hF.length_eq]; exact hii
    have hat : At n X q (inside[i]) (vs[i]) := List.Forall₂.get hF hii hvl
    have e1 : inside[i] = pts k := by
      rw [List.getElem?_eq_getElem hii] at hsi
      exact Option.some.inj hsi
    rw [e1] at hat
    have hz : (k, vs[i]) ∈ ind.zip vs := by
      refine List.mem_iff_getElem?.2 ⟨i, ?_⟩
      rw [List.getElem?_zip_eq_some]
      simp [hi, hik, hvl]
    have hzn : ((ind.zip vs).map Prod.fst).Nodup := by
      exact hnd.sublist (fst_zip_sublist ind vs)
    have := fold_upd_at (ind.zip vs) (fun k => (ind.map pts).getD k 0) (k, vs[i]) hzn hz
    dsimp only at this
    rw [this]
    exact hat
  · intro k hk hgt
    rw [fold_upd_other]
    intro hmemk
    obtain ⟨⟨k', v⟩, hz, rfl⟩ := List.mem_map.1 hmemk
    obtain ⟨i, hi⟩ := List.mem_iff_getElem?.1 hz
    rw [List.getElem?_zip_eq_some] at hi
    obtain ⟨hi1, hi2⟩ := hi
    have hvl : i < vs.length := by
      by_contra hn
      rw [List.getElem?_eq_none (by omega)] at hi2
      exact absurd hi2 (by simp)
    have hii : i < inside.length := by rw [hF.length_eq]; exact hvl
    have hsi : (ind.map pts)[i]? = some (pts k') := by
      rw [List.getElem?_map, hi1]; rfl
    rw [h1, List.getElem?_append_left hii] at hsi
    have := h3 _ (List.mem_of_getElem? hsi)
    dsimp only at hgt
    linarith

/-- What is left beyond the table: with knots `0, …, 4` and the points `7, 1`, the entry of the point `7`
becomes `1`, which is not a value of the table but the smaller abscissa. -/
theorem sort_beyond_table : ∃ D y, getYD (fun i => (i : ℝ)) (fun i => 10 * (i : ℝ)) 5 = .ok D ∧
    sortSplineInterp 5 (fun i => (i : ℝ)) (fun i => 10 * (i : ℝ)) D [1, 0] (fun k => if k = 0 then 7 else 1) =
      .ok y ∧ y 1 = 10 ∧ y 0 = 1 := by
  obtain ⟨D, hD⟩ := getYD_ok (n := 5) (by norm_num) (X := fun i => (i : ℝ)) (Y := fun i => 10 * (i : ℝ))
    (fun i _ => by push_cast; norm_num)
  have hX : ∀ i, i + 1 < 5 → (fun i : ℕ => (i : ℝ)) i < (fun i : ℕ => (i : ℝ)) (i + 1) := fun i _ => by
    push_cast; linarith
  have hq : IsSpline 5 (fun i => (i : ℝ)) (fun i => 10 * (i : ℝ)) (fun _ => C 10 * Polynomial.X) := by
    refine ⟨fun _ _ => ?_, fun _ _ => by simp, fun _ _ => by simp, fun _ _ => rfl, fun _ _ => rfl, rfl, rfl⟩
    compute_degree!
  obtain ⟨y, h1, h2, h3⟩ := sort_interp_partial hX hD _ hq 2 (fun k => if k = 0 then 7 else 1) [1, 0]
    (by decide) (by norm_num)
    (fun k hk => by split_ifs <;> norm_num)
    (by
      rintro ⟨k, hk, he⟩
      split_ifs at he <;> norm_num at he)
  refine ⟨D, y, hD, h1, ?_, ?_⟩
  · obtain ⟨j, -, -, -, e⟩ := h2 1 (by norm_num) (by norm_num)
    rw [e]; simp
  · rw [h3 0 (by norm_num) (by norm_num)]
    simp

/-- `SplineInterpUniform` on a uniform table: below the last knot it gives the spline's value, above it
nothing is written. -/
theorem uniform_partial {n : ℕ} {X Y D : ℕ → ℝ} (d : ℝ) (hd : 0 < d) (hX : ∀ i < n, X i = X 0 + i * d)
    (hD : getYD X Y n = .ok D) (q : ℕ → ℝ[X]) (hq : IsSpline n X Y q) (p : ℝ) (hp : X 0 ≤ p) :
    (p < X (n - 1) → ∃ v, uniform1 n X Y D p = .ok (some v) ∧ At n X q p v) ∧
    (X (n - 1) < p → uniform1 n X Y D p = .ok none) := by
  have hn : 3 ≤ n := by
    unfold getYD at hD
    split_ifs at hD with h3
    omega
  have hX' : ∀ i, i + 1 < n → X i < X (i + 1) := fun i hi => by
    rw [hX i (by omega), hX (i + 1) hi]; push_cast; linarith
  have e1 : X 1 - X 0 = d := by rw [hX 1 (by omega)]; simp
  constructor
  · intro hlt
    rw [hX (n - 1) (by omega)] at hlt
    have hx0 : 0 ≤ (p - X 0) / d := div_nonneg (by linarith) hd.le
    have hx1 : (p - X 0) / d < ((n - 1 : ℕ) : ℝ) := by rw [div_lt_iff₀ hd]; linarith
    have hf0 : 0 ≤ ⌊(p - X 0) / d⌋ := Int.floor_nonneg.2 hx0
    have hf1 : ⌊(p - X 0) / d⌋ < ((n - 1 : ℕ) : ℤ) := Int.floor_lt.2 (by exact_mod_cast hx1)
    have hl := Int.floor_le ((p - X 0) / d)
    have hu := Int.lt_floor_add_one ((p - X 0) / d)
    obtain ⟨j, hj⟩ := Int.eq_ofNat_of_zero_le hf0
    have hj' : ⌊(p - X 0) / d⌋ = (j : ℤ) := hj
    rw [hj'] at hf1 hl hu
    unfold uniform1
    rw [e1, hj']
    rw [if_neg (by rw [hX (n - 1) (by omega)]; push Not; exact hlt.le)]
    dsimp only
    rw [if_neg (by push Not; constructor <;> omega)]
    refine ⟨_, rfl, ?_⟩
    obtain ⟨q0, hq0, hd0, hu0⟩ := table_spline hX' hD
    refine val_at hX' hq (fun j hj => by rw [hu0 q hq j hj]; exact hd0 j hj) ⟨j, by omega, ?_, ?_, rfl⟩
    · rw [hX j (by omega)]
      rw [le_div_iff₀ hd] at hl
      push_cast at hl
      linarith
    · rw [hX (j + 1) (by omega)]
      rw [div_lt_iff₀ hd] at hu
      push_cast at hu ⊢
      linarith
  · intro hgt
    unfold uniform1
    rw [if_pos hgt]

/-- At the last knot the uniform evaluation reads beyond the tables; below the first knot it reads before
them. -/
theorem uniform_outside {n : ℕ} (hn : 2 ≤ n) {X Y D : ℕ → ℝ} (d : ℝ) (hd : 0 < d) (hX : ∀ i < n, X i = X 0 + i * d) :
    uniform1 n X Y D (X (n - 1)) = .bad ∧ ∀ p, p < X 0 → uniform1 n X Y D p = .bad := by
  have e1 : X 1 - X 0 = d := by rw [hX 1 (by omega)]; simp
  constructor
  · unfold uniform1
    rw [if_neg (lt_irrefl _), e1]
    have : (X (n - 1) - X 0) / d = ((n - 1 : ℕ) : ℝ) := by
      rw [hX (n - 1) (by omega)]; field_simp; ring
    rw [this, Int.floor_natCast]
    dsimp only
    rw [if_pos (by right; omega)]
  · intro p hp
    have : X 0 ≤ X (n - 1) := by
      rw [hX (n - 1) (by omega)]
      have : 0 ≤ ((n - 1 : ℕ) : ℝ) * d := by positivity
      linarith
    unfold uniform1
    rw [if_neg (by linarith), e1]
    dsimp only
    rw [if_pos]
    left
    rw [Int.floor_lt]
    push_cast
    exact div_neg_of_neg_of_pos (by linarith) hd

example : splineInterp 5 (fun i => (i : ℝ)) (fun i => (i : ℝ) ^ 3) (fun i => 3 * (i : ℝ) ^ 2) [4] = .bad := by
  have := interp_last_knot (n := 5) (by norm_num) (X := fun i => (i : ℝ)) (Y := fun i => (i : ℝ) ^ 3)
    (D := fun i => 3 * (i : ℝ) ^ 2) (fun i _ => by push_cast; linarith)
  norm_num at this
  exact this

end Sparc.Spline

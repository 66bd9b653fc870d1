import Verif.Spectral.Model
import Mathlib.RingTheory.Polynomial.Chebyshev
import Mathlib.Analysis.SpecialFunctions.Trigonometric.Chebyshev.Basic
import Mathlib.Analysis.SpecialFunctions.Trigonometric.Chebyshev.Extremal
import Mathlib.LinearAlgebra.Lagrange
import Mathlib.Analysis.SpecialFunctions.Integrals.Basic
import Mathlib.Analysis.Polynomial.Basic
import Mathlib.Analysis.Calculus.Deriv.Polynomial
import Mathlib.Topology.Algebra.Polynomial
import Mathlib.MeasureTheory.Integral.IntervalIntegral.FundThmCalculus
import Mathlib.MeasureTheory.Integral.IntervalIntegral.IntegrationByParts

/-! Facts about polynomials on Chebyshev points, independent of the model. -/

namespace Sparc.Spectral

open Polynomial Finset
open Polynomial.Chebyshev (T U)

/-- The points `cos(π j / N)`. -/
noncomputable def tn (N j : ℕ) : ℝ := Real.cos (Real.pi * j / N)

theorem tn_eq (N j : ℕ) : tn N j = Polynomial.Chebyshev.node N j := by
  unfold tn Polynomial.Chebyshev.node; rw [mul_comm]

theorem tn_inj {N i j : ℕ} (hi : i ≤ N) (hj : j ≤ N) (h : tn N i = tn N j) : i = j := by
  rw [tn_eq, tn_eq] at h
  rcases lt_trichotomy i j with hl | hl | hl
  · exact absurd h (ne_of_gt (Polynomial.Chebyshev.node_lt hj hl))
  · exact hl
  · exact absurd h (ne_of_lt (Polynomial.Chebyshev.node_lt hi hl))

/-- Differentiation on nodes: if `q` of degree at most `N+1` vanishes at `N+1` different points
with derivatives `a j ≠ 0`, then the derivative of a polynomial of degree at most `N` at a node is
a combination of its values at the nodes. -/
theorem deriv_on_nodes {N : ℕ} {t a : ℕ → ℝ} {q p : ℝ[X]}
    (inj : ∀ i ≤ N, ∀ j ≤ N, t i = t j → i = j)
    (hq : q.natDegree ≤ N + 1) (root : ∀ j ≤ N, q.eval (t j) = 0)
    (ha : ∀ j ≤ N, (derivative q).eval (t j) = a j) (ha0 : ∀ j ≤ N, a j ≠ 0)
    (hp : p.natDegree ≤ N) {i : ℕ} (hi : i ≤ N) :
    (derivative p).eval (t i) = ∑ j ∈ range (N + 1),
      if i = j then 0 else (a i / a j) / (t i - t j) * (p.eval (t j) - p.eval (t i)) := by
  have hsplit : ∀ j ≤ N, (X - C (t j)) * (q /ₘ (X - C (t j))) = q := fun j hj =>
    mul_divByMonic_eq_iff_isRoot.mpr (root j hj)
  have hself : ∀ j ≤ N, (q /ₘ (X - C (t j))).eval (t j) = a j := by
    intro j hj
    have h := congrArg (fun f => (derivative f).eval (t j)) (hsplit j hj)
    simp only [derivative_mul, derivative_sub, derivative_X, derivative_C, eval_add, eval_mul,
      eval_sub, eval_X, eval_C, sub_self, sub_zero, eval_one, one_mul, zero_mul, add_zero] at h
    rw [h, ha j hj]
  have hother : ∀ j ≤ N, ∀ k ≤ N, k ≠ j → (q /ₘ (X - C (t j))).eval (t k) = 0 := by
    intro j hj k hk hkj
    have h := congrArg (fun f => f.eval (t k)) (hsplit j hj)
    simp only [eval_mul, eval_sub, eval_X, eval_C] at h
    rw [root k hk] at h
    rcases mul_eq_zero.mp h with h | h
    · exact absurd (inj k hk j hj (by linarith)) hkj
    · exact h
  have hder : ∀ j ≤ N, i ≠ j →
      (derivative (q /ₘ (X - C (t j)))).eval (t i) = a i / (t i - t j) := by
    intro j hj hij
    have h := congrArg (fun f => (derivative f).eval (t i)) (hsplit j hj)
    simp only [derivative_mul, derivative_sub, derivative_X, derivative_C, eval_add, eval_mul,
      eval_sub, eval_X, eval_C, sub_zero, eval_one, one_mul] at h
    rw [hother j hj i hi hij, zero_add, ha i hi] at h
    have hne : t i - t j ≠ 0 := fun e => hij (inj i hi j hj (by linarith))
    rw [eq_div_iff hne, mul_comm]; exact h
  have hdeg : ∀ j, (q /ₘ (X - C (t j))).natDegree ≤ N := by
    intro j
    rw [natDegree_divByMonic q (monic_X_sub_C _), natDegree_X_sub_C]; omega
  -- the interpolant
  let h : ℝ[X] := C (p.eval (t i)) + ∑ j ∈ range (N + 1),
    if i = j then 0 else C ((p.eval (t j) - p.eval (t i)) / a j) * (q /ₘ (X - C (t j)))
  have hph : p = h := by
    have hsmall : ∀ f : ℝ[X], f.natDegree ≤ N → f.degree < ((range (N + 1)).card : ℕ) := by
      intro f hf
      rw [card_range]
      exact lt_of_le_of_lt (degree_le_natDegree) (by exact_mod_cast Nat.lt_succ_of_le hf)
    refine eq_of_degrees_lt_of_eval_index_eq (v := t) (range (N + 1)) ?_ (hsmall p hp)
      (hsmall h ?_) ?_
    · intro x hx y hy hxy
      rw [coe_range, Set.mem_Iio] at hx hy
      exact inj x (by omega) y (by omega) hxy
    · refine natDegree_add_le_of_degree_le (by simp) (natDegree_sum_le_of_forall_le _ _ ?_)
      intro j _
      split_ifs
      · simp
      · exact (natDegree_C_mul_le _ _).trans (hdeg j)
    · intro k hk
      have hk' : k ≤ N := by rw [mem_range] at hk; omega
      simp only [h, eval_add, eval_C, eval_finset_sum]
      rw [Finset.sum_eq_single k]
      · split_ifs with hik
        · subst hik; simp
        · rw [eval_mul, eval_C, hself k hk', div_mul_cancel₀ _ (ha0 k hk')]; ring
      · intro j hj hjk
        have hj' : j ≤ N := by rw [mem_range] at hj; omega
        split_ifs
        · simp
        · rw [eval_mul, hother j hj' k hk' (Ne.symm hjk), mul_zero]
      · intro hk2; exact absurd hk hk2
  conv_lhs => rw [hph]
  simp only [h, derivative_add, derivative_C, zero_add, derivative_sum, eval_finset_sum]
  refine sum_congr rfl fun j hj => ?_
  have hj' : j ≤ N := by rw [mem_range] at hj; omega
  split_ifs with hij
  · simp
  · rw [derivative_mul, derivative_C, zero_mul, zero_add, eval_mul, eval_C, hder j hj' hij]
    ring

/-- The polynomial with the Chebyshev points as roots. -/
noncomputable def nodal (N : ℕ) : ℝ[X] := (X ^ 2 - 1) * U ℝ ((N : ℤ) - 1)

theorem nodal_natDegree {N : ℕ} (hN : 1 ≤ N) : (nodal N).natDegree ≤ N + 1 := by
  obtain ⟨n, rfl⟩ : ∃ n, N = n + 1 := ⟨N - 1, by omega⟩
  unfold nodal
  refine natDegree_mul_le.trans ?_
  have h1 : (X ^ 2 - 1 : ℝ[X]).natDegree ≤ 2 :=
    (natDegree_sub_le _ _).trans (by simp)
  have h2 : (U ℝ (((n + 1 : ℕ) : ℤ) - 1)).natDegree = n := by
    rw [show ((n + 1 : ℕ) : ℤ) - 1 = (n : ℤ) by push_cast; ring]
    exact Polynomial.Chebyshev.natDegree_U_natCast ℝ n
  omega

theorem sin_node {N j : ℕ} (hN : 1 ≤ N) : Real.sin (N * (Real.pi * j / N)) = 0 := by
  have h : (N : ℝ) * (Real.pi * j / N) = j * Real.pi := by
    have : (N : ℝ) ≠ 0 := by positivity
    field_simp
  rw [h]; exact Real.sin_nat_mul_pi j

theorem cos_node {N j : ℕ} (hN : 1 ≤ N) : Real.cos (N * (Real.pi * j / N)) = (-1) ^ j := by
  have h : (N : ℝ) * (Real.pi * j / N) = j * Real.pi := by
    have : (N : ℝ) ≠ 0 := by positivity
    field_simp
  rw [h]; exact Real.cos_nat_mul_pi j

theorem nodal_root {N j : ℕ} (hN : 1 ≤ N) : (nodal N).eval (tn N j) = 0 := by
  unfold nodal tn
  set θ := Real.pi * j / N with hθ
  have h := Polynomial.Chebyshev.U_real_cos θ ((N : ℤ) - 1)
  rw [show (((N : ℤ) - 1 : ℤ) : ℝ) + 1 = N by push_cast; ring, hθ, sin_node hN, ← hθ] at h
  have hs : Real.cos θ ^ 2 - 1 = -(Real.sin θ * Real.sin θ) := by
    have := Real.sin_sq_add_cos_sq θ; linarith
  simp only [eval_mul, eval_sub, eval_pow, eval_X, eval_one]
  rw [hs]
  linear_combination (-Real.sin θ) * h

theorem nodal_deriv {N j : ℕ} (hN : 1 ≤ N) (hj : j ≤ N) :
    (derivative (nodal N)).eval (tn N j) = N * coef N j := by
  have hU := Polynomial.Chebyshev.add_one_mul_T_eq_poly_in_U (R := ℝ) ((N : ℤ) - 1)
  have hd : derivative (nodal N) = X * U ℝ ((N : ℤ) - 1) + (N : ℝ[X]) * T ℝ (N : ℤ) := by
    rw [sub_add_cancel] at hU
    push_cast at hU
    unfold nodal
    simp only [derivative_mul, derivative_sub, derivative_X_pow, derivative_one]
    push_cast
    simp only [map_ofNat]
    linear_combination -hU
  rw [hd]
  have hT : (T ℝ (N : ℤ)).eval (tn N j) = (-1) ^ j := by
    unfold tn
    rw [Polynomial.Chebyshev.T_real_cos]
    push_cast
    exact cos_node hN
  simp only [eval_add, eval_mul, eval_X, eval_natCast, hT]
  have hNR : (N : ℝ) ≠ 0 := by positivity
  unfold coef
  by_cases hj0 : j = 0
  · subst hj0
    have ht : tn N 0 = 1 := by simp [tn]
    rw [if_pos (Or.inl rfl), ht, Polynomial.Chebyshev.U_eval_one]
    push_cast; ring
  · by_cases hjN : j = N
    · subst hjN
      have ht : tn j j = -1 := by
        unfold tn; rw [mul_div_assoc, div_self hNR, mul_one, Real.cos_pi]
      rw [if_pos (Or.inr rfl), ht, Polynomial.Chebyshev.U_eval_neg_one]
      have hs : (((((j : ℤ) - 1).negOnePow : ℤˣ) : ℤ) : ℝ) = -(-1) ^ j := by
        rw [Int.negOnePow_sub, Int.negOnePow_one]
        push_cast [Int.negOnePow_def]
        simp
      rw [hs]; push_cast; ring
    · rw [if_neg (by tauto)]
      have hsin : Real.sin (Real.pi * j / N) ≠ 0 := by
        refine ne_of_gt (Real.sin_pos_of_pos_of_lt_pi ?_ ?_)
        · have : 0 < (j : ℝ) := by exact_mod_cast Nat.pos_of_ne_zero hj0
          have := Real.pi_pos
          positivity
        · rw [div_lt_iff₀ (by positivity)]
          have : (j : ℝ) < N := by exact_mod_cast lt_of_le_of_ne hj hjN
          exact mul_lt_mul_of_pos_left this Real.pi_pos
      have h := Polynomial.Chebyshev.U_real_cos (Real.pi * j / N) ((N : ℤ) - 1)
      rw [show (((N : ℤ) - 1 : ℤ) : ℝ) + 1 = N by push_cast; ring, sin_node hN] at h
      have hU0 : (U ℝ ((N : ℤ) - 1)).eval (tn N j) = 0 :=
        (mul_eq_zero.mp h).resolve_right hsin
      rw [hU0]; ring

theorem coef_ne (N j : ℕ) : coef N j ≠ 0 := by
  unfold coef
  refine mul_ne_zero ?_ (pow_ne_zero _ (by norm_num))
  split_ifs <;> norm_num

/-- The derivative at a Chebyshev point. -/
theorem deriv_tn {N : ℕ} (hN : 1 ≤ N) {p : ℝ[X]} (hp : p.natDegree ≤ N) {i : ℕ} (hi : i ≤ N) :
    (derivative p).eval (tn N i) = ∑ j ∈ range (N + 1),
      if i = j then 0 else
        (coef N i / coef N j) / (tn N i - tn N j) * (p.eval (tn N j) - p.eval (tn N i)) := by
  have hNR : (N : ℝ) ≠ 0 := by positivity
  rw [deriv_on_nodes (a := fun j => N * coef N j) (q := nodal N)
    (fun i hi j hj => tn_inj hi hj) (nodal_natDegree hN) (fun j _ => nodal_root hN)
    (fun j hj => nodal_deriv hN hj) (fun j _ => mul_ne_zero hNR (coef_ne N j)) hp hi]
  refine sum_congr rfl fun j _ => ?_
  split_ifs
  · rfl
  · rw [mul_div_mul_left _ _ hNR]

/-! ## Quadrature -/

/-- The trapezoidal sum of `cos(kθ_j)` over the Chebyshev angles, twice. -/
noncomputable def trap (N : ℕ) (f : ℕ → ℝ) : ℝ := ∑ j ∈ range N, (f j + f (j + 1))

theorem trap_cos_zero {N : ℕ} (hN : 1 ≤ N) {k : ℤ} (hk : ¬ (2 * (N : ℤ)) ∣ k) :
    trap N (fun j => Real.cos (k * (Real.pi * j / N))) = 0 := by
  have hNR : (N : ℝ) ≠ 0 := by positivity
  set b : ℝ := k * Real.pi / (2 * N) with hb
  have hs : Real.sin b ≠ 0 := by
    intro h
    obtain ⟨m, hm⟩ := Real.sin_eq_zero_iff.mp h
    apply hk
    refine ⟨m, ?_⟩
    have hpi := Real.pi_ne_zero
    rw [hb, eq_div_iff (by positivity)] at hm
    have : (m : ℝ) * (2 * N) = k := by
      have : ((m : ℝ) * (2 * N)) * Real.pi = k * Real.pi := by linarith
      exact mul_right_cancel₀ hpi this
    have h2 : (m * (2 * (N : ℤ))) = k := by exact_mod_cast this
    rw [← h2]; ring
  have htel : ∀ n : ℕ, Real.sin b * ∑ j ∈ range n,
      (Real.cos (k * (Real.pi * (j : ℕ) / N)) + Real.cos (k * (Real.pi * ((j + 1 : ℕ) : ℝ) / N)))
      = Real.cos b * Real.sin (2 * n * b) := by
    intro n
    induction n with
    | zero => simp
    | succ n ih =>
      rw [sum_range_succ, mul_add, ih]
      have e1 : (k : ℝ) * (Real.pi * (n : ℕ) / N) = 2 * n * b := by rw [hb]; field_simp
      have e2 : (k : ℝ) * (Real.pi * ((n + 1 : ℕ) : ℝ) / N) = 2 * n * b + 2 * b := by
        rw [hb]; push_cast; field_simp
      have e3 : 2 * ((n + 1 : ℕ) : ℝ) * b = 2 * n * b + 2 * b := by push_cast; ring
      rw [e1, e2, e3, Real.cos_add, Real.sin_add, Real.cos_two_mul, Real.sin_two_mul]
      have := Real.sin_sq_add_cos_sq b
      linear_combination (-2 * Real.cos b * Real.sin (2 * n * b)) * this
  have h := htel N
  have h0 : Real.sin (2 * N * b) = 0 := by
    rw [show 2 * (N : ℝ) * b = k * Real.pi by rw [hb]; field_simp]
    exact Real.sin_int_mul_pi k
  rw [h0, mul_zero] at h
  exact (mul_eq_zero.mp h).resolve_left hs

theorem trap_cos_dvd {N : ℕ} (hN : 1 ≤ N) {k : ℤ} (hk : (2 * (N : ℤ)) ∣ k) :
    trap N (fun j => Real.cos (k * (Real.pi * j / N))) = 2 * N := by
  have hNR : (N : ℝ) ≠ 0 := by positivity
  obtain ⟨m, rfl⟩ := hk
  have h : ∀ j : ℕ, Real.cos (((2 * (N : ℤ) * m : ℤ) : ℝ) * (Real.pi * j / N)) = 1 := by
    intro j
    have : (((2 * (N : ℤ) * m : ℤ) : ℝ)) * (Real.pi * j / N)
        = ((m * j : ℤ) : ℝ) * (2 * Real.pi) := by
      push_cast; field_simp
    rw [this, Real.cos_int_mul_two_pi]
  unfold trap
  simp only [h]
  simp; ring

theorem trap_cos {N : ℕ} (hN : 1 ≤ N) (k : ℤ) :
    trap N (fun j => Real.cos (k * (Real.pi * j / N))) = if (2 * (N : ℤ)) ∣ k then 2 * (N : ℝ) else 0 := by
  split_ifs with h
  · exact trap_cos_dvd hN h
  · exact trap_cos_zero hN h

theorem trap_add (N : ℕ) (f g : ℕ → ℝ) : trap N (fun j => f j + g j) = trap N f + trap N g := by
  unfold trap; rw [← sum_add_distrib]; exact sum_congr rfl fun j _ => by ring

theorem trap_smul (N : ℕ) (c : ℝ) (f : ℕ → ℝ) : trap N (fun j => c * f j) = c * trap N f := by
  unfold trap; rw [mul_sum]; exact sum_congr rfl fun j _ => by ring

theorem trap_sum (N : ℕ) {ι : Type} (s : Finset ι) (f : ι → ℕ → ℝ) :
    trap N (fun j => ∑ k ∈ s, f k j) = ∑ k ∈ s, trap N (f k) := by
  unfold trap; rw [sum_comm]; exact sum_congr rfl fun j _ => by rw [sum_add_distrib]

/-- The trapezoidal sum with the usual end weights. -/
theorem trap_weights {N : ℕ} (hN : 1 ≤ N) (f : ℕ → ℝ) :
    trap N f = ∑ j ∈ range (N + 1), (if j = 0 ∨ j = N then (1 : ℝ) else 2) * f j := by
  unfold trap
  obtain ⟨n, rfl⟩ : ∃ n, N = n + 1 := ⟨N - 1, by omega⟩
  rw [sum_add_distrib, sum_range_succ' (fun j => f j), sum_range_succ (fun j => f (j + 1)),
    sum_range_succ, sum_range_succ', if_pos (Or.inl rfl), if_pos (Or.inr rfl)]
  have : ∀ j ∈ range n, (if j + 1 = 0 ∨ j + 1 = n + 1 then (1 : ℝ) else 2) * f (j + 1)
      = f (j + 1) + f (j + 1) := by
    intro j hj
    rw [mem_range] at hj
    rw [if_neg (by omega)]; ring
  rw [sum_congr rfl this, sum_add_distrib]; ring

theorem trap_cos_mul {N : ℕ} (hN : 1 ≤ N) (k m : ℤ) :
    trap N (fun j => Real.cos (k * (Real.pi * j / N)) * Real.cos (m * (Real.pi * j / N)))
      = (1 / 2) * ((if (2 * (N : ℤ)) ∣ k + m then 2 * (N : ℝ) else 0)
        + (if (2 * (N : ℤ)) ∣ k - m then 2 * (N : ℝ) else 0)) := by
  rw [← trap_cos hN, ← trap_cos hN, ← trap_add, ← trap_smul]
  refine congrArg (trap N) (funext fun j => ?_)
  push_cast
  rw [add_mul, sub_mul, Real.cos_add, Real.cos_sub]; ring

theorem negOnePow_cast (n : ℕ) : (((((n : ℤ)).negOnePow : ℤˣ) : ℤ) : ℝ) = (-1) ^ n := by
  rw [Int.negOnePow_def, zpow_natCast]
  push_cast
  rfl

/-- `∫ T_m` over `[-1,1]`. -/
theorem integral_T (m : ℕ) : ∫ x in (-1 : ℝ)..1, (T ℝ (m : ℤ)).eval x
    = if m % 2 = 0 then 2 / (1 - (m : ℝ) ^ 2) else 0 := by
  rcases m with _ | _ | m
  · simp; norm_num
  · simp
  · let F : ℝ[X] := C (1 / 2) * (C (1 / ((m : ℝ) + 3)) * T ℝ ((m : ℤ) + 3)
      - C (1 / ((m : ℝ) + 1)) * T ℝ ((m : ℤ) + 1))
    have h3 : (m : ℝ) + 3 ≠ 0 := by positivity
    have h1 : (m : ℝ) + 1 ≠ 0 := by positivity
    have hF : derivative F = T ℝ ((m : ℤ) + 2) := by
      have h2 := Polynomial.Chebyshev.two_mul_T_eq_U_sub_U ℝ (m : ℤ)
      have c3 : C (1 / ((m : ℝ) + 3)) * ((m : ℝ[X]) + 3) = 1 := by
        rw [show ((m : ℝ[X]) + 3) = C ((m : ℝ) + 3) by simp [C_ofNat], ← C_mul, one_div,
          inv_mul_cancel₀ h3, C_1]
      have c1 : C (1 / ((m : ℝ) + 1)) * ((m : ℝ[X]) + 1) = 1 := by
        rw [show ((m : ℝ[X]) + 1) = C ((m : ℝ) + 1) by simp, ← C_mul, one_div,
          inv_mul_cancel₀ h1, C_1]
      have c2 : C (1 / 2 : ℝ) * 2 = 1 := by
        rw [show (2 : ℝ[X]) = C 2 from (C_ofNat 2).symm, ← C_mul]; norm_num
      simp only [F, derivative_mul, derivative_sub, derivative_C, zero_mul, zero_add,
        Polynomial.Chebyshev.T_derivative_eq_U]
      rw [show (m : ℤ) + 3 - 1 = m + 2 by ring, show (m : ℤ) + 1 - 1 = m by ring]
      push_cast
      linear_combination (-C (1 / 2 : ℝ)) * h2 + (C (1 / 2 : ℝ) * U ℝ ((m : ℤ) + 2)) * c3
        - (C (1 / 2 : ℝ) * U ℝ (m : ℤ)) * c1 + T ℝ ((m : ℤ) + 2) * c2
    have hint : ∫ x in (-1 : ℝ)..1, (derivative F).eval x = F.eval 1 - F.eval (-1) :=
      intervalIntegral.integral_eq_sub_of_hasDerivAt (fun x _ => F.hasDerivAt x)
        ((derivative F).continuous.intervalIntegrable _ _)
    rw [show ((m + 1 + 1 : ℕ) : ℤ) = (m : ℤ) + 2 by push_cast; ring, ← hF, hint]
    have e1 : F.eval 1 = 1 / 2 * (1 / ((m : ℝ) + 3) - 1 / ((m : ℝ) + 1)) := by
      simp only [F, eval_mul, eval_sub, eval_C, Polynomial.Chebyshev.T_eval_one, mul_one]
    have s3 : (((((m : ℤ) + 3).negOnePow : ℤˣ) : ℤ) : ℝ) = -(-1) ^ m := by
      rw [show (m : ℤ) + 3 = ((m + 3 : ℕ) : ℤ) by push_cast; ring, negOnePow_cast]
      ring
    have s1 : (((((m : ℤ) + 1).negOnePow : ℤˣ) : ℤ) : ℝ) = -(-1) ^ m := by
      rw [show (m : ℤ) + 1 = ((m + 1 : ℕ) : ℤ) by push_cast; ring, negOnePow_cast]
      ring
    have e2 : F.eval (-1) = -(-1) ^ m * (1 / 2 * (1 / ((m : ℝ) + 3) - 1 / ((m : ℝ) + 1))) := by
      simp only [F, eval_mul, eval_sub, eval_C, Polynomial.Chebyshev.T_eval_neg_one]
      rw [s3, s1]; ring
    rw [e1, e2]
    have hne : (1 : ℝ) - ((m + 1 + 1 : ℕ) : ℝ) ^ 2 ≠ 0 := by
      have : (1 : ℝ) - ((m + 1 + 1 : ℕ) : ℝ) ^ 2 = -(((m : ℝ) + 3) * ((m : ℝ) + 1)) := by
        push_cast; ring
      rw [this]; exact neg_ne_zero.mpr (mul_ne_zero h3 h1)
    rcases Nat.even_or_odd m with he | ho
    · have h0 : (m + 1 + 1) % 2 = 0 := by rcases he with ⟨a, rfl⟩; omega
      rw [if_pos h0, he.neg_one_pow, eq_div_iff hne]
      push_cast; field_simp; ring
    · have h0 : ¬ (m + 1 + 1) % 2 = 0 := by rcases ho with ⟨a, rfl⟩; omega
      rw [if_neg h0, ho.neg_one_pow]; ring

/-- A linear functional that vanishes on `T_0 … T_N` vanishes on every polynomial of degree at
most `N`. -/
theorem cheb_span {N : ℕ} (L : ℝ[X] →ₗ[ℝ] ℝ) (h : ∀ m ≤ N, L (T ℝ (m : ℤ)) = 0) :
    ∀ n ≤ N, ∀ p : ℝ[X], p.natDegree ≤ n → L p = 0 := by
  intro n
  induction n with
  | zero =>
    intro _ p hp
    have h0 := h 0 (Nat.zero_le _)
    rw [Nat.cast_zero, Polynomial.Chebyshev.T_zero] at h0
    rw [eq_C_of_natDegree_le_zero hp, ← mul_one (C (p.coeff 0)), ← smul_eq_C_mul, map_smul, h0,
      smul_zero]
  | succ n ih =>
    intro hn p hp
    set lc := (T ℝ ((n + 1 : ℕ) : ℤ)).leadingCoeff with hlc
    have hlc0 : lc ≠ 0 := by
      rw [hlc, Polynomial.Chebyshev.leadingCoeff_T]; positivity
    have hTd : (T ℝ ((n + 1 : ℕ) : ℤ)).natDegree = n + 1 := by
      rw [Polynomial.Chebyshev.natDegree_T]; rfl
    have hlow : (p - (p.coeff (n + 1) / lc) • T ℝ ((n + 1 : ℕ) : ℤ)).natDegree ≤ n := by
      rw [natDegree_le_iff_coeff_eq_zero]
      intro k hk
      rw [coeff_sub, coeff_smul, smul_eq_mul]
      rcases Nat.lt_or_ge (n + 1) k with hk2 | hk2
      · have a1 : p.coeff k = 0 := coeff_eq_zero_of_natDegree_lt (by omega)
        have a2 : (T ℝ ((n + 1 : ℕ) : ℤ)).coeff k = 0 :=
          coeff_eq_zero_of_natDegree_lt (by rw [hTd]; omega)
        rw [a1, a2]; ring
      · have : k = n + 1 := by omega
        subst this
        have : (T ℝ ((n + 1 : ℕ) : ℤ)).coeff (n + 1) = lc := by
          rw [hlc, leadingCoeff, hTd]
        rw [this, div_mul_cancel₀ _ hlc0, sub_self]
    have h1 := ih (by omega) _ hlow
    rw [map_sub, map_smul, h (n + 1) hn, smul_zero, sub_zero] at h1
    exact h1

end Sparc.Spectral

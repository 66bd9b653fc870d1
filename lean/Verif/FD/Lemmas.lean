import Mathlib.Tactic.Ring
import Mathlib.Tactic.Linarith
import Mathlib.Tactic.LinearCombination
import Mathlib.Tactic.FieldSimp
import Mathlib.Tactic.Positivity
import Mathlib.Algebra.Group.ForwardDiff
import Mathlib.Algebra.Polynomial.Inductions
import Mathlib.Algebra.Polynomial.Derivative
import Mathlib.Data.Nat.Choose.Central
import Verif.FD.Model

/-! # Lemmas for finite-difference weights -/

open Finset Polynomial

namespace Sparc.FD

theorem prodLoop_succ (f : ℝ) (k : ℕ) : prodLoop f (k + 1) = prodLoop f k * (f + k) := by
  unfold prodLoop; rw [List.range_succ, List.foldl_append]; rfl

theorem prodLoop_fact (m k : ℕ) : (m.factorial : ℝ) * prodLoop ((m : ℝ) + 1) k = ((m + k).factorial : ℝ) := by
  induction k with
  | zero => simp [prodLoop]
  | succ k ih =>
    rw [prodLoop_succ, ← mul_assoc, ih, ← Nat.add_assoc, Nat.factorial_succ]
    push_cast; ring

/-- `fract n p` is the ratio of binomial coefficients `C(2n,n-p)/C(2n,n)`. -/
theorem fract_fact (n p : ℕ) (hp : p ≤ n) :
    fract n p * (((n - p).factorial : ℝ) * ((n + p).factorial : ℝ)) = (n.factorial : ℝ) * (n.factorial : ℝ) := by
  unfold fract
  have h1 := prodLoop_fact (n - p) p
  have h2 := prodLoop_fact n p
  rw [Nat.sub_add_cancel hp] at h1
  have h3 : ((n - p : ℕ) : ℝ) = (n : ℝ) - p := by push_cast [hp]; ring
  rw [h3] at h1
  have hpos : ((n + p).factorial : ℝ) ≠ 0 := by positivity
  have hd : prodLoop ((n : ℝ) + 1) p ≠ 0 := by
    intro h0; rw [h0, mul_zero] at h2; exact hpos h2.symm
  rw [← h2, div_mul_eq_mul_div, div_eq_iff hd, ← h1]; ring

theorem fract_choose (n p : ℕ) (hp : p ≤ n) :
    fract n p * ((2 * n).choose n : ℝ) = ((2 * n).choose (n + p) : ℝ) := by
  have h := fract_fact n p hp
  have e1 : ((2 * n).choose n : ℝ) * (n.factorial * n.factorial) = (2 * n).factorial := by
    have := Nat.choose_mul_factorial_mul_factorial (show n ≤ 2 * n by omega)
    rw [show 2 * n - n = n by omega, mul_assoc] at this
    exact_mod_cast this
  have e2 : ((2 * n).choose (n + p) : ℝ) * ((n - p).factorial * (n + p).factorial) = (2 * n).factorial := by
    have := Nat.choose_mul_factorial_mul_factorial (show n + p ≤ 2 * n by omega)
    rw [show 2 * n - (n + p) = n - p by omega] at this
    have h2 : (2 * n).choose (n + p) * ((n - p).factorial * (n + p).factorial) = (2 * n).factorial := by
      rw [← this]; ring
    exact_mod_cast h2
  have hpos : ((n - p).factorial * (n + p).factorial : ℝ) ≠ 0 := by positivity
  apply mul_right_cancel₀ hpos
  rw [e2, ← e1, ← h]; ring

theorem sgn_eq (p : ℕ) : sgn p = (-1) ^ (p + 1) := by
  unfold sgn
  rcases Nat.even_or_odd p with h | h
  · rw [Nat.even_iff.mp h, Odd.neg_one_pow (Even.add_one h)]; norm_num
  · rw [Nat.odd_iff.mp h, Even.neg_one_pow (Odd.add_one h)]; norm_num

/-- Splitting a symmetric sum over `0..2n` around its centre. -/
theorem sum_symm (n : ℕ) (g : ℕ → ℝ) :
    ∑ k ∈ range (2 * n + 1), g k = g n + ∑ i ∈ range n, (g (n + (i + 1)) + g (n - (i + 1))) := by
  have h1 : ∑ k ∈ range (2 * n + 1), g k = ∑ k ∈ range n, g k + ∑ k ∈ range (n + 1), g (n + k) := by
    rw [show 2 * n + 1 = n + (n + 1) by ring, sum_range_add]
  have h2 : ∑ k ∈ range n, g k = ∑ i ∈ range n, g (n - (i + 1)) := by
    rw [← sum_range_reflect]
    apply sum_congr rfl
    intro i hi
    rw [Finset.mem_range] at hi
    congr 1; omega
  rw [h1, h2, sum_range_succ', sum_add_distrib]
  simp only [Nat.add_zero]
  ring

/-- The alternating symmetric moment of a polynomial of degree below `2n`. -/
theorem moment (n : ℕ) (R : ℝ[X]) (hR : R.natDegree < 2 * n) :
    R.eval 0 = ∑ i ∈ range n, sgn (i + 1) * fract n (i + 1) *
      (R.eval ((i + 1 : ℕ) : ℝ) + R.eval (-((i + 1 : ℕ) : ℝ))) := by
  have h := Polynomial.fwdDiff_iter_eq_zero_of_degree_lt hR
  have h0 := congrFun h (-(n : ℝ))
  rw [fwdDiff_iter_eq_sum_shift] at h0
  rw [sum_symm] at h0
  have hc : ((2 * n).choose n : ℝ) ≠ 0 := by
    have : 0 < (2 * n).choose n := Nat.choose_pos (by omega)
    positivity
  apply mul_left_cancel₀ hc
  rw [mul_sum]
  have key : ∀ i ∈ range n,
      (((-1 : ℤ) ^ (2 * n - (n + (i + 1))) * ((2 * n).choose (n + (i + 1)) : ℤ)) • R.eval (-(n : ℝ) + (n + (i + 1)) • (1 : ℝ)) +
        ((-1 : ℤ) ^ (2 * n - (n - (i + 1))) * ((2 * n).choose (n - (i + 1)) : ℤ)) • R.eval (-(n : ℝ) + (n - (i + 1)) • (1 : ℝ)))
      = (-1) ^ n * (-(((2 * n).choose n : ℝ) * (sgn (i + 1) * fract n (i + 1) *
      (R.eval ((i + 1 : ℕ) : ℝ) + R.eval (-((i + 1 : ℕ) : ℝ)))))) := by
    intro i hi
    rw [Finset.mem_range] at hi
    have hp : i + 1 ≤ n := hi
    have e1 : (2 * n).choose (n - (i + 1)) = (2 * n).choose (n + (i + 1)) := by
      rw [← Nat.choose_symm (show n + (i + 1) ≤ 2 * n by omega)]
      congr 1; omega
    have e2 : -(n : ℝ) + (n + (i + 1)) • (1 : ℝ) = ((i + 1 : ℕ) : ℝ) := by
      simp only [nsmul_eq_mul, mul_one]; push_cast; ring
    have e3 : -(n : ℝ) + (n - (i + 1)) • (1 : ℝ) = -((i + 1 : ℕ) : ℝ) := by
      simp only [nsmul_eq_mul, mul_one]; push_cast [hp]; ring
    have s1 : (-1 : ℝ) ^ (2 * n - (n + (i + 1))) = (-1) ^ n * (-1) ^ (i + 1) := by
      have : (-1 : ℝ) ^ (2 * n - (n + (i + 1))) * (-1) ^ (i + 1) = (-1) ^ n := by
        rw [← pow_add]; congr 1; omega
      rw [← this, mul_assoc, ← pow_add, ← two_mul, pow_mul]; simp
    have s2 : (-1 : ℝ) ^ (2 * n - (n - (i + 1))) = (-1) ^ n * (-1) ^ (i + 1) := by
      rw [← pow_add]; congr 1; omega
    rw [e1, e2, e3, zsmul_eq_mul, zsmul_eq_mul]
    push_cast
    rw [s1, s2, ← fract_choose n (i + 1) hp, sgn_eq, pow_succ (-1 : ℝ) (i + 1)]
    ring
  rw [sum_congr rfl key] at h0
  have e0 : -(n : ℝ) + n • (1 : ℝ) = 0 := by simp
  rw [e0, zsmul_eq_mul, show 2 * n - n = n by omega] at h0
  push_cast at h0
  rw [← mul_sum, mul_assoc, ← mul_add, sum_neg_distrib] at h0
  have hs : ((-1 : ℝ)) ^ n ≠ 0 := by
    rcases neg_one_pow_eq_or ℝ n with h | h <;> rw [h] <;> norm_num
  have h1 := (mul_eq_zero.mp (show (-1 : ℝ) ^ n * _ = 0 from h0)).resolve_left hs
  push_cast at h1 ⊢
  linarith

/-- the sum of the weights' core: `Σ sgn p · fract n p = 1/2` -/
theorem sum_fract (n : ℕ) (hn : 0 < n) : ∑ i ∈ range n, sgn (i + 1) * fract n (i + 1) = 1 / 2 := by
  have h := moment n (C 1) (by rw [natDegree_C]; omega)
  simp only [eval_C] at h
  have : ∑ i ∈ range n, sgn (i + 1) * fract n (i + 1) * ((1 : ℝ) + 1) =
      (∑ i ∈ range n, sgn (i + 1) * fract n (i + 1)) * 2 := by
    rw [sum_mul]; apply sum_congr rfl; intros; ring
  rw [this] at h
  linarith

/-- relation between consecutive orders -/
theorem fract_succ (n p : ℕ) (hp : p ≤ n) :
    fract n p = fract (n + 1) p * (1 - (p : ℝ) * p / (((n : ℝ) + 1) * ((n : ℝ) + 1))) := by
  have h1 := fract_fact n p hp
  have h2 := fract_fact (n + 1) p (by omega)
  rw [show n + 1 - p = (n - p) + 1 by omega, show n + 1 + p = (n + p) + 1 by omega] at h2
  simp only [Nat.factorial_succ] at h2
  push_cast [hp] at h2
  have a : ((n - p).factorial : ℝ) ≠ 0 := by positivity
  have b : ((n + p).factorial : ℝ) ≠ 0 := by positivity
  have c : ((n : ℝ) + 1) ≠ 0 := by positivity
  have hpos : ((n - p).factorial * (n + p).factorial : ℝ) ≠ 0 := mul_ne_zero a b
  apply mul_right_cancel₀ hpos
  rw [h1]
  field_simp
  linear_combination (-1 : ℝ) * h2

/-- `Σ 1/p² = 2 Σ sgn p · fract n p / p²`: the centre weight is consistent. -/
theorem centre (n : ℕ) :
    ∑ i ∈ range n, 1 / (((i : ℝ) + 1) * ((i : ℝ) + 1)) =
      2 * ∑ i ∈ range n, sgn (i + 1) * fract n (i + 1) / (((i : ℝ) + 1) * ((i : ℝ) + 1)) := by
  induction n with
  | zero => simp
  | succ n ih =>
    have c : ((n : ℝ) + 1) ≠ 0 := by positivity
    have e : ∑ i ∈ range n, sgn (i + 1) * fract n (i + 1) / (((i : ℝ) + 1) * ((i : ℝ) + 1)) =
        ∑ i ∈ range (n + 1), (sgn (i + 1) * fract (n + 1) (i + 1) / (((i : ℝ) + 1) * ((i : ℝ) + 1)) -
          sgn (i + 1) * fract (n + 1) (i + 1) * (1 / (((n : ℝ) + 1) * ((n : ℝ) + 1)))) := by
      rw [sum_range_succ]
      have htop : sgn (n + 1) * fract (n + 1) (n + 1) / (((n : ℝ) + 1) * ((n : ℝ) + 1)) -
          sgn (n + 1) * fract (n + 1) (n + 1) * (1 / (((n : ℝ) + 1) * ((n : ℝ) + 1))) = 0 := by ring
      rw [htop, add_zero]
      apply sum_congr rfl
      intro i hi
      rw [Finset.mem_range] at hi
      rw [fract_succ n (i + 1) hi]
      have c2 : ((i : ℝ) + 1) ≠ 0 := by positivity
      push_cast
      field_simp
    rw [sum_range_succ, ih, e, sum_sub_distrib, ← sum_mul, sum_fract (n + 1) (by omega)]
    field_simp
    ring

/-! ### closed forms of the weight arrays -/

theorem fdD1_other (n p : ℕ) (h1 : 1 ≤ p) (h2 : p ≤ n) : fdD1 n p = sgn p * fract n p / p := by
  unfold fdD1
  have : ∀ (m : ℕ) (a : ℕ → ℝ), ∀ q, ((List.range' 1 m).foldl
      (fun a (p : ℕ) => Function.update a p (sgn p * fract n p / p)) a) q =
        if 1 ≤ q ∧ q ≤ m then sgn q * fract n q / q else a q := by
    intro m
    induction m with
    | zero => intro a q; rw [if_neg (by omega)]; rfl
    | succ m ih =>
      intro a q
      rw [List.range'_concat, List.foldl_append]
      simp only [List.foldl_cons, List.foldl_nil, Nat.one_mul]
      by_cases hq : q = 1 + m
      · subst hq; rw [Function.update_self, if_pos (by omega)]
      · rw [Function.update_of_ne hq, ih]
        by_cases h : 1 ≤ q ∧ q ≤ m
        · rw [if_pos h, if_pos (by omega)]
        · rw [if_neg h, if_neg (by omega)]
  rw [this, if_pos ⟨h1, h2⟩]

theorem fdD2_closed (n m : ℕ) (a : ℕ → ℝ) (q : ℕ) :
    ((List.range' 1 m).foldl
      (fun a (p : ℕ) => Function.update (Function.update a 0 (a 0 - 2 / ((p : ℝ) * p))) p
        (sgn p * 2 * fract n p / ((p : ℝ) * p))) a) q =
      if q = 0 then a 0 - ∑ i ∈ range m, 2 / (((i : ℝ) + 1) * ((i : ℝ) + 1))
      else if q ≤ m then sgn q * 2 * fract n q / ((q : ℝ) * q) else a q := by
  induction m generalizing q with
  | zero =>
    simp only [List.range'_zero, List.foldl_nil, range_zero, sum_empty, sub_zero]
    split
    · next h => rw [h]
    · rw [if_neg (by omega)]
  | succ m ih =>
    rw [List.range'_concat, List.foldl_append]
    simp only [List.foldl_cons, List.foldl_nil, Nat.one_mul]
    by_cases hq : q = 1 + m
    · subst hq; rw [Function.update_self, if_neg (by omega), if_pos (by omega)]
    · rw [Function.update_of_ne hq]
      by_cases h0 : q = 0
      · subst h0
        rw [Function.update_self, ih, if_pos rfl, if_pos rfl, sum_range_succ]
        push_cast
        ring_nf
      · rw [Function.update_of_ne h0, ih, if_neg h0, if_neg h0]
        by_cases h : q ≤ m
        · rw [if_pos h, if_pos (by omega)]
        · rw [if_neg h, if_neg (by omega)]

theorem fdD2_zero (n : ℕ) : fdD2 n 0 = - ∑ i ∈ range n, 2 / (((i : ℝ) + 1) * ((i : ℝ) + 1)) := by
  unfold fdD2; rw [fdD2_closed, if_pos rfl, Function.update_self, zero_sub]

theorem fdD2_other (n p : ℕ) (h1 : 1 ≤ p) (h2 : p ≤ n) :
    fdD2 n p = sgn p * 2 * fract n p / ((p : ℝ) * p) := by
  unfold fdD2; rw [fdD2_closed, if_neg (by omega), if_pos h2]

theorem foldl_add_sum (f : ℕ → ℝ) (n : ℕ) (a : ℝ) :
    (List.range' 1 n).foldl (fun acc p => acc + f p) a = a + ∑ i ∈ range n, f (i + 1) := by
  induction n with
  | zero => simp
  | succ n ih =>
    rw [List.range'_concat, List.foldl_append, ih, sum_range_succ]
    simp only [List.foldl_cons, List.foldl_nil, Nat.one_mul]
    rw [Nat.add_comm 1 n]; ring

end Sparc.FD

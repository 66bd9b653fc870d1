import Mathlib.Tactic.ComputeDegree
import Verif.FD.Lemmas

/-! # C04: finite-difference weights differentiate polynomials exactly -/

open Finset Polynomial

namespace Sparc.FD

/-- **C04**, first derivative: order-`2n` weights differentiate every polynomial of degree
at most `2n` exactly, on every uniform mesh. -/
theorem fd_first_exact (n : ℕ) (hn : 0 < n) (q : ℝ[X]) (hq : q.natDegree ≤ 2 * n) (x h : ℝ)
    (hh : h ≠ 0) (i : ℤ) :
    applyD1 n (coefD1 n h) (fun j => q.eval (x + j * h)) i = q.derivative.eval (x + i * h) := by
  set y := x + i * h with hy
  set Q : ℝ[X] := q.comp (C y + C h * X) with hQ
  have hdeg : Q.natDegree ≤ 2 * n := by
    refine le_trans natDegree_comp_le ?_
    have : (C y + C h * X : ℝ[X]).natDegree ≤ 1 := by compute_degree
    nlinarith [Nat.mul_le_mul_left q.natDegree this]
  have hev : ∀ t : ℝ, Q.eval t = q.eval (y + h * t) := by intro t; simp [hQ]
  have hR : (divX Q).natDegree < 2 * n := by rw [natDegree_divX_eq_natDegree_tsub_one]; omega
  have hm := moment n (divX Q) hR
  have hx : ∀ t : ℝ, (divX Q).eval t * t = Q.eval t - Q.coeff 0 := by
    intro t
    have := congrArg (fun P => P.eval t) (divX_mul_X_add Q)
    simp only [eval_add, eval_mul, eval_X, eval_C] at this
    linarith
  have hd : (divX Q).eval 0 = h * q.derivative.eval y := by
    rw [← coeff_zero_eq_eval_zero, coeff_divX]
    have : Q.derivative.eval 0 = Q.coeff 1 := by
      rw [← coeff_zero_eq_eval_zero, coeff_derivative]; simp
    rw [zero_add, ← this, hQ, derivative_comp]
    simp
  unfold applyD1
  rw [foldl_add_sum (fun (p : ℕ) => ((q.eval (x + ((i + (p : ℤ) : ℤ) : ℝ) * h)) - q.eval (x + ((i - (p : ℤ) : ℤ) : ℝ) * h)) * coefD1 n h p), zero_add]
  apply mul_left_cancel₀ hh
  rw [← hd, hm, mul_sum]
  apply sum_congr rfl
  intro k hk
  rw [Finset.mem_range] at hk
  have c : ((k + 1 : ℕ) : ℝ) ≠ 0 := by positivity
  unfold coefD1
  rw [fdD1_other n (k + 1) (by omega) hk]
  have e1 : q.eval (x + ((i + ((k + 1 : ℕ) : ℤ) : ℤ) : ℝ) * h) = Q.eval ((k + 1 : ℕ) : ℝ) := by
    rw [hev, hy]; congr 1; push_cast; ring
  have e2 : q.eval (x + ((i - ((k + 1 : ℕ) : ℤ) : ℤ) : ℝ) * h) = Q.eval (-((k + 1 : ℕ) : ℝ)) := by
    rw [hev, hy]; congr 1; push_cast; ring
  rw [e1, e2]
  have h1 := hx ((k + 1 : ℕ) : ℝ)
  have h2 := hx (-((k + 1 : ℕ) : ℝ))
  generalize ((k + 1 : ℕ) : ℝ) = p at *
  have h3 : Q.eval p - Q.eval (-p) = ((divX Q).eval p + (divX Q).eval (-p)) * p := by linarith
  rw [h3]
  field_simp

/-- **C04**, second derivative: order-`2n` weights differentiate every polynomial of degree
at most `2n+1` twice exactly, on every uniform mesh. -/
theorem fd_second_exact (n : ℕ) (hn : 0 < n) (q : ℝ[X]) (hq : q.natDegree ≤ 2 * n + 1) (x h : ℝ)
    (hh : h ≠ 0) (i : ℤ) :
    applyD2 n (coefD2 n h) (fun j => q.eval (x + j * h)) i =
      (derivative (derivative q)).eval (x + i * h) := by
  set y := x + i * h with hy
  set Q : ℝ[X] := q.comp (C y + C h * X) with hQ
  have hdeg : Q.natDegree ≤ 2 * n + 1 := by
    refine le_trans natDegree_comp_le ?_
    have : (C y + C h * X : ℝ[X]).natDegree ≤ 1 := by compute_degree
    nlinarith [Nat.mul_le_mul_left q.natDegree this]
  have hev : ∀ t : ℝ, Q.eval t = q.eval (y + h * t) := by intro t; simp [hQ]
  have hR : (divX (divX Q)).natDegree < 2 * n := by
    rw [natDegree_divX_eq_natDegree_tsub_one, natDegree_divX_eq_natDegree_tsub_one]; omega
  have hm := moment n (divX (divX Q)) hR
  have hx : ∀ t : ℝ, (divX (divX Q)).eval t * (t * t) = Q.eval t - Q.coeff 0 - Q.coeff 1 * t := by
    intro t
    have a := congrArg (fun P => P.eval t) (divX_mul_X_add Q)
    have b := congrArg (fun P => P.eval t) (divX_mul_X_add (divX Q))
    simp only [eval_add, eval_mul, eval_X, eval_C, coeff_divX, zero_add] at a b
    rw [← a, ← b]; ring
  have hd : 2 * (divX (divX Q)).eval 0 = h * h * (derivative (derivative q)).eval y := by
    rw [← coeff_zero_eq_eval_zero, coeff_divX, coeff_divX]
    have : (derivative (derivative Q)).eval 0 = 2 * Q.coeff 2 := by
      rw [← coeff_zero_eq_eval_zero, coeff_derivative, coeff_derivative]
      push_cast; ring
    rw [show 0 + 1 + 1 = 2 from rfl, ← this, hQ, derivative_comp, derivative_mul, derivative_comp]
    simp
    ring
  have hq0 : Q.coeff 0 = q.eval y := by
    rw [coeff_zero_eq_eval_zero, hev]; simp
  unfold applyD2
  rw [foldl_add_sum (fun (p : ℕ) => ((q.eval (x + ((i - (p : ℤ) : ℤ) : ℝ) * h)) + q.eval (x + ((i + (p : ℤ) : ℤ) : ℝ) * h)) * coefD2 n h p)]
  have hhh : h * h ≠ 0 := mul_ne_zero hh hh
  apply mul_left_cancel₀ hhh
  rw [← hd, hm, mul_add, mul_sum, mul_sum]
  have hc : h * h * (q.eval (x + (i : ℝ) * h) * coefD2 n h 0) =
      - ∑ k ∈ range n, 4 * (sgn (k + 1) * fract n (k + 1) / (((k : ℝ) + 1) * ((k : ℝ) + 1))) * Q.coeff 0 := by
    unfold coefD2
    have e : ∑ k ∈ range n, (2 : ℝ) / (((k : ℝ) + 1) * ((k : ℝ) + 1)) =
        2 * ∑ k ∈ range n, 1 / (((k : ℝ) + 1) * ((k : ℝ) + 1)) := by
      rw [mul_sum]; apply sum_congr rfl; intros; ring
    rw [fdD2_zero, ← hy, ← hq0, e, centre, ← sum_mul, ← mul_sum]
    field_simp
    ring
  rw [hc, ← sum_neg_distrib, ← sum_add_distrib]
  apply sum_congr rfl
  intro k hk
  rw [Finset.mem_range] at hk
  have c : ((k + 1 : ℕ) : ℝ) ≠ 0 := by positivity
  unfold coefD2
  rw [fdD2_other n (k + 1) (by omega) hk]
  have e1 : q.eval (x + ((i + ((k + 1 : ℕ) : ℤ) : ℤ) : ℝ) * h) = Q.eval ((k + 1 : ℕ) : ℝ) := by
    rw [hev, hy]; congr 1; push_cast; ring
  have e2 : q.eval (x + ((i - ((k + 1 : ℕ) : ℤ) : ℤ) : ℝ) * h) = Q.eval (-((k + 1 : ℕ) : ℝ)) := by
    rw [hev, hy]; congr 1; push_cast; ring
  rw [e1, e2]
  have h1 := hx ((k + 1 : ℕ) : ℝ)
  have h2 := hx (-((k + 1 : ℕ) : ℝ))
  have hk1 : ((k : ℝ) + 1) = ((k + 1 : ℕ) : ℝ) := by push_cast; ring
  rw [hk1]
  generalize ((k + 1 : ℕ) : ℝ) = p at *
  have h3 : Q.eval (-p) + Q.eval p = ((divX (divX Q)).eval p + (divX (divX Q)).eval (-p)) * (p * p) + 2 * Q.coeff 0 := by
    linarith
  rw [h3]
  field_simp
  ring

/-- Non-trivial instance: a 12th-order stencil on a degree-13 monomial. -/
example : applyD2 6 (coefD2 6 (1 / 2)) (fun j => (X ^ 13 : ℝ[X]).eval ((0 : ℝ) + j * (1 / 2))) 3 =
    (derivative (derivative (X ^ 13 : ℝ[X]))).eval ((0 : ℝ) + (3 : ℤ) * (1 / 2)) :=
  fd_second_exact 6 (by norm_num) (X ^ 13) (by simp) 0 (1 / 2) (by norm_num) 3

example : applyD1 6 (coefD1 6 (1 / 2)) (fun j => (X ^ 12 : ℝ[X]).eval ((0 : ℝ) + j * (1 / 2))) 3 =
    (derivative (X ^ 12 : ℝ[X])).eval ((0 : ℝ) + (3 : ℤ) * (1 / 2)) :=
  fd_first_exact 6 (by norm_num) (X ^ 12) (by simp) 0 (1 / 2) (by norm_num) 3

end Sparc.FD

import Verif.Tac
import Verif.Sph.Model
import Mathlib.Algebra.Polynomial.Derivative

/-! # Spherical harmonics (Legendre polynomials) -/

namespace Sparc.Sph

open Polynomial

/-- Legendre polynomial by Rodrigues' formula. -/
noncomputable def legendre (l : ℕ) : ℝ[X] := C (1 / (2 ^ l * (l.factorial : ℝ))) * derivative^[l] ((X ^ 2 - 1) ^ l)

/-- Derivative of order `a` of the Legendre polynomial, at `t`. -/
noncomputable def dleg (l a : ℕ) (t : ℝ) : ℝ := (derivative^[a] (legendre l)).eval t

/-- Polynomial with the given coefficients. -/
noncomputable def ofList : List ℝ → ℝ[X]
  | [] => 0
  | a :: l => C a + X * ofList l

/-- Value of the polynomial with the given coefficients. -/
def horner (t : ℝ) : List ℝ → ℝ
  | [] => 0
  | a :: l => a + t * horner t l

theorem eval_ofList (t : ℝ) : ∀ l, (ofList l).eval t = horner t l
  | [] => by simp [ofList, horner]
  | a :: l => by simp [ofList, horner, eval_ofList t l]

def dlist : ℝ → List ℝ → List ℝ
  | _, [] => []
  | k, a :: l => (k * a) :: dlist (k + 1) l

theorem ofList_dlist : ∀ (l : List ℝ) (k : ℝ), ofList (dlist k l) = C k * ofList l + X * derivative (ofList l)
  | [], k => by simp [ofList, dlist]
  | a :: l, k => by
    simp only [ofList, dlist, ofList_dlist l, map_add, map_mul, map_one, derivative_C, derivative_mul, derivative_X]
    ring

/-- Coefficients of the derivative. -/
def dl : List ℝ → List ℝ
  | [] => []
  | _ :: l => dlist 1 l

theorem derivative_ofList (l : List ℝ) : derivative (ofList l) = ofList (dl l) := by
  cases l with
  | nil => simp [ofList, dl]
  | cons a l =>
    simp only [ofList, dl, ofList_dlist, map_add, derivative_C, derivative_mul, derivative_X, map_one]
    ring

theorem iterate_ofList (n : ℕ) (l : List ℝ) : derivative^[n] (ofList l) = ofList (dl^[n] l) := by
  induction n generalizing l with
  | zero => rfl
  | succ n ih => rw [Function.iterate_succ_apply, Function.iterate_succ_apply, derivative_ofList, ih]

/-- Product with `X ^ 2 - 1`. -/
theorem mul_step (a b : ℝ) (l : List ℝ) : (X ^ 2 - 1) * ofList (a :: b :: l) =
    C (-a) + X * (C (-b) + X * (ofList (a :: b :: l) - ofList l)) := by
  simp only [ofList, map_neg]
  ring

theorem dleg_list (l a : ℕ) (L : List ℝ) (h : (X ^ 2 - 1 : ℝ[X]) ^ l = ofList L) (t : ℝ) :
    dleg l a t = 1 / (2 ^ l * (l.factorial : ℝ)) * horner t (dl^[a + l] L) := by
  unfold dleg legendre
  rw [h, iterate_derivative_C_mul, eval_mul, eval_C, ← Function.iterate_add_apply, iterate_ofList, eval_ofList]

theorem pow0 : ((X : ℝ[X]) ^ 2 - 1) ^ 0 = ofList [1] := by
  simp [ofList]

theorem dleg00 (t : ℝ) : dleg 0 0 t = 1 * t ^ 0 := by
  rw [dleg_list 0 0 _ pow0]
  norm_num [Function.iterate_succ_apply, dl, dlist, horner, Nat.factorial]
  try ring

theorem pow1 : ((X : ℝ[X]) ^ 2 - 1) ^ 1 = ofList [-1, 0, 1] := by
  rw [pow_succ, pow0]
  simp only [ofList, map_neg, map_zero, map_one, map_ofNat]
  ring

theorem dleg10 (t : ℝ) : dleg 1 0 t = 1 * t ^ 1 := by
  rw [dleg_list 1 0 _ pow1]
  norm_num [Function.iterate_succ_apply, dl, dlist, horner, Nat.factorial]
  try ring

theorem dleg11 (t : ℝ) : dleg 1 1 t = 1 * t ^ 0 := by
  rw [dleg_list 1 1 _ pow1]
  norm_num [Function.iterate_succ_apply, dl, dlist, horner, Nat.factorial]
  try ring

theorem pow2 : ((X : ℝ[X]) ^ 2 - 1) ^ 2 = ofList [1, 0, -2, 0, 1] := by
  rw [pow_succ, pow1]
  simp only [ofList, map_neg, map_zero, map_one, map_ofNat]
  ring

theorem dleg20 (t : ℝ) : dleg 2 0 t = 3 / 2 * t ^ 2 + -1 / 2 * t ^ 0 := by
  rw [dleg_list 2 0 _ pow2]
  norm_num [Function.iterate_succ_apply, dl, dlist, horner, Nat.factorial]
  try ring

theorem dleg21 (t : ℝ) : dleg 2 1 t = 3 * t ^ 1 := by
  rw [dleg_list 2 1 _ pow2]
  norm_num [Function.iterate_succ_apply, dl, dlist, horner, Nat.factorial]
  try ring

theorem dleg22 (t : ℝ) : dleg 2 2 t = 3 * t ^ 0 := by
  rw [dleg_list 2 2 _ pow2]
  norm_num [Function.iterate_succ_apply, dl, dlist, horner, Nat.factorial]
  try ring

theorem pow3 : ((X : ℝ[X]) ^ 2 - 1) ^ 3 = ofList [-1, 0, 3, 0, -3, 0, 1] := by
  rw [pow_succ, pow2]
  simp only [ofList, map_neg, map_zero, map_one, map_ofNat]
  ring

theorem dleg30 (t : ℝ) : dleg 3 0 t = 5 / 2 * t ^ 3 + -3 / 2 * t ^ 1 := by
  rw [dleg_list 3 0 _ pow3]
  norm_num [Function.iterate_succ_apply, dl, dlist, horner, Nat.factorial]
  try ring

theorem dleg31 (t : ℝ) : dleg 3 1 t = 15 / 2 * t ^ 2 + -3 / 2 * t ^ 0 := by
  rw [dleg_list 3 1 _ pow3]
  norm_num [Function.iterate_succ_apply, dl, dlist, horner, Nat.factorial]
  try ring

theorem dleg32 (t : ℝ) : dleg 3 2 t = 15 * t ^ 1 := by
  rw [dleg_list 3 2 _ pow3]
  norm_num [Function.iterate_succ_apply, dl, dlist, horner, Nat.factorial]
  try ring

theorem dleg33 (t : ℝ) : dleg 3 3 t = 15 * t ^ 0 := by
  rw [dleg_list 3 3 _ pow3]
  norm_num [Function.iterate_succ_apply, dl, dlist, horner, Nat.factorial]
  try ring

theorem pow4 : ((X : ℝ[X]) ^ 2 - 1) ^ 4 = ofList [1, 0, -4, 0, 6, 0, -4, 0, 1] := by
  rw [pow_succ, pow3]
  simp only [ofList, map_neg, map_zero, map_one, map_ofNat]
  ring

theorem dleg40 (t : ℝ) : dleg 4 0 t = 35 / 8 * t ^ 4 + -15 / 4 * t ^ 2 + 3 / 8 * t ^ 0 := by
  rw [dleg_list 4 0 _ pow4]
  norm_num [Function.iterate_succ_apply, dl, dlist, horner, Nat.factorial]
  try ring

theorem dleg41 (t : ℝ) : dleg 4 1 t = 35 / 2 * t ^ 3 + -15 / 2 * t ^ 1 := by
  rw [dleg_list 4 1 _ pow4]
  norm_num [Function.iterate_succ_apply, dl, dlist, horner, Nat.factorial]
  try ring

theorem dleg42 (t : ℝ) : dleg 4 2 t = 105 / 2 * t ^ 2 + -15 / 2 * t ^ 0 := by
  rw [dleg_list 4 2 _ pow4]
  norm_num [Function.iterate_succ_apply, dl, dlist, horner, Nat.factorial]
  try ring

theorem dleg43 (t : ℝ) : dleg 4 3 t = 105 * t ^ 1 := by
  rw [dleg_list 4 3 _ pow4]
  norm_num [Function.iterate_succ_apply, dl, dlist, horner, Nat.factorial]
  try ring

theorem dleg44 (t : ℝ) : dleg 4 4 t = 105 * t ^ 0 := by
  rw [dleg_list 4 4 _ pow4]
  norm_num [Function.iterate_succ_apply, dl, dlist, horner, Nat.factorial]
  try ring

theorem pow5 : ((X : ℝ[X]) ^ 2 - 1) ^ 5 = ofList [-1, 0, 5, 0, -10, 0, 10, 0, -5, 0, 1] := by
  rw [pow_succ, pow4]
  simp only [ofList, map_neg, map_zero, map_one, map_ofNat]
  ring

theorem dleg50 (t : ℝ) : dleg 5 0 t = 63 / 8 * t ^ 5 + -35 / 4 * t ^ 3 + 15 / 8 * t ^ 1 := by
  rw [dleg_list 5 0 _ pow5]
  norm_num [Function.iterate_succ_apply, dl, dlist, horner, Nat.factorial]
  try ring

theorem dleg51 (t : ℝ) : dleg 5 1 t = 315 / 8 * t ^ 4 + -105 / 4 * t ^ 2 + 15 / 8 * t ^ 0 := by
  rw [dleg_list 5 1 _ pow5]
  norm_num [Function.iterate_succ_apply, dl, dlist, horner, Nat.factorial]
  try ring

theorem dleg52 (t : ℝ) : dleg 5 2 t = 315 / 2 * t ^ 3 + -105 / 2 * t ^ 1 := by
  rw [dleg_list 5 2 _ pow5]
  norm_num [Function.iterate_succ_apply, dl, dlist, horner, Nat.factorial]
  try ring

theorem dleg53 (t : ℝ) : dleg 5 3 t = 945 / 2 * t ^ 2 + -105 / 2 * t ^ 0 := by
  rw [dleg_list 5 3 _ pow5]
  norm_num [Function.iterate_succ_apply, dl, dlist, horner, Nat.factorial]
  try ring

theorem dleg54 (t : ℝ) : dleg 5 4 t = 945 * t ^ 1 := by
  rw [dleg_list 5 4 _ pow5]
  norm_num [Function.iterate_succ_apply, dl, dlist, horner, Nat.factorial]
  try ring

theorem dleg55 (t : ℝ) : dleg 5 5 t = 945 * t ^ 0 := by
  rw [dleg_list 5 5 _ pow5]
  norm_num [Function.iterate_succ_apply, dl, dlist, horner, Nat.factorial]
  try ring

theorem pow6 : ((X : ℝ[X]) ^ 2 - 1) ^ 6 = ofList [1, 0, -6, 0, 15, 0, -20, 0, 15, 0, -6, 0, 1] := by
  rw [pow_succ, pow5]
  simp only [ofList, map_neg, map_zero, map_one, map_ofNat]
  ring

theorem dleg60 (t : ℝ) : dleg 6 0 t = 231 / 16 * t ^ 6 + -315 / 16 * t ^ 4 + 105 / 16 * t ^ 2 + -5 / 16 * t ^ 0 := by
  rw [dleg_list 6 0 _ pow6]
  norm_num [Function.iterate_succ_apply, dl, dlist, horner, Nat.factorial]
  try ring

theorem dleg61 (t : ℝ) : dleg 6 1 t = 693 / 8 * t ^ 5 + -315 / 4 * t ^ 3 + 105 / 8 * t ^ 1 := by
  rw [dleg_list 6 1 _ pow6]
  norm_num [Function.iterate_succ_apply, dl, dlist, horner, Nat.factorial]
  try ring

theorem dleg62 (t : ℝ) : dleg 6 2 t = 3465 / 8 * t ^ 4 + -945 / 4 * t ^ 2 + 105 / 8 * t ^ 0 := by
  rw [dleg_list 6 2 _ pow6]
  norm_num [Function.iterate_succ_apply, dl, dlist, horner, Nat.factorial]
  try ring

theorem dleg63 (t : ℝ) : dleg 6 3 t = 3465 / 2 * t ^ 3 + -945 / 2 * t ^ 1 := by
  rw [dleg_list 6 3 _ pow6]
  norm_num [Function.iterate_succ_apply, dl, dlist, horner, Nat.factorial]
  try ring

theorem dleg64 (t : ℝ) : dleg 6 4 t = 10395 / 2 * t ^ 2 + -945 / 2 * t ^ 0 := by
  rw [dleg_list 6 4 _ pow6]
  norm_num [Function.iterate_succ_apply, dl, dlist, horner, Nat.factorial]
  try ring

theorem dleg65 (t : ℝ) : dleg 6 5 t = 10395 * t ^ 1 := by
  rw [dleg_list 6 5 _ pow6]
  norm_num [Function.iterate_succ_apply, dl, dlist, horner, Nat.factorial]
  try ring

theorem dleg66 (t : ℝ) : dleg 6 6 t = 10395 * t ^ 0 := by
  rw [dleg_list 6 6 _ pow6]
  norm_num [Function.iterate_succ_apply, dl, dlist, horner, Nat.factorial]
  try ring

end Sparc.Sph

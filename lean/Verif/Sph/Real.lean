import Verif.Sph.Legendre
import Mathlib.Analysis.Real.Pi.Bounds
import Mathlib.Analysis.Complex.Norm

/-! # Spherical harmonics (definition; constants and formulas case by case) -/

namespace Sparc.Sph

/-- Square of the norming factor of degree `l` and order `a`. -/
noncomputable def normSq (l a : ℕ) : ℝ :=
  (2 * l + 1) / (4 * Real.pi) * ((l - a).factorial / (l + a).factorial)

/-- The factor common to the real and complex harmonics of orders `a` and `-a`, for a direction `(u, v, w)`. -/
noncomputable def base (l a : ℕ) (u v w : ℝ) : ℂ :=
  (Real.sqrt (normSq l a) : ℂ) * ((u : ℂ) + (v : ℂ) * Complex.I) ^ a * (dleg l a w : ℂ)

/-- Complex spherical harmonic (Condon-Shortley phase) in the direction `(u, v, w)`. -/
noncomputable def specC (l : ℕ) (m : ℤ) (u v w : ℝ) : ℂ :=
  if 0 ≤ m then (-1) ^ m.natAbs * base l m.natAbs u v w else (starRingEnd ℂ) (base l m.natAbs u v w)

/-- Real spherical harmonic in the direction `(u, v, w)`. -/
noncomputable def specR (l : ℕ) (m : ℤ) (u v w : ℝ) : ℝ :=
  if m = 0 then (base l 0 u v w).re
  else if 0 < m then Real.sqrt 2 * (base l m.natAbs u v w).re
  else Real.sqrt 2 * (base l m.natAbs u v w).im

/-! ## Constants -/

theorem close_sqrt {c q : ℝ} (hc : 0 ≤ c) (hq : 0 ≤ q)
    (h1 : c ^ 2 * 3.14159265358979323847 ≤ q * (1 + 1 / 10 ^ 14) ^ 2)
    (h2 : q * (1 - 1 / 10 ^ 14) ^ 2 ≤ c ^ 2 * 3.14159265358979323846) :
    |c - Real.sqrt (q / Real.pi)| ≤ 1 / 10 ^ 14 * Real.sqrt (q / Real.pi) := by
  have p1 := Real.pi_gt_d20
  have p2 := Real.pi_lt_d20
  have hp : 0 < Real.pi := Real.pi_pos
  have a1 : c ≤ (1 + 1 / 10 ^ 14) * Real.sqrt (q / Real.pi) := by
    rw [← Real.sqrt_sq (show (0 : ℝ) ≤ 1 + 1 / 10 ^ 14 by norm_num), ← Real.sqrt_mul (sq_nonneg _)]
    apply Real.le_sqrt_of_sq_le
    rw [mul_div_assoc', le_div_iff₀ hp]
    nlinarith [sq_nonneg c]
  have a2 : (1 - 1 / 10 ^ 14) * Real.sqrt (q / Real.pi) ≤ c := by
    rw [← Real.sqrt_sq (show (0 : ℝ) ≤ 1 - 1 / 10 ^ 14 by norm_num), ← Real.sqrt_mul (sq_nonneg _),
      Real.sqrt_le_left hc, mul_div_assoc', div_le_iff₀ hp]
    nlinarith [sq_nonneg c]
  rw [abs_le]
  constructor <;> linarith

theorem finishR {c K S v spec : ℝ} (h : |c - K| ≤ 1 / 10 ^ 14 * K) (hv : v = c * S) (hs : spec = K * S) :
    |v - spec| ≤ 1 / 10 ^ 14 * |spec| := by
  have hK : 0 ≤ K := by
    have := (abs_nonneg (c - K)).trans h
    linarith
  rw [hv, hs, ← sub_mul, abs_mul, abs_mul, abs_of_nonneg hK, ← mul_assoc]
  exact mul_le_mul_of_nonneg_right h (abs_nonneg _)

theorem finishC {c K : ℝ} {S v spec : ℂ} (h : |c - K| ≤ 1 / 10 ^ 14 * K) (hv : v = c * S) (hs : spec = K * S) :
    ‖v - spec‖ ≤ 1 / 10 ^ 14 * ‖spec‖ := by
  have hK : 0 ≤ K := by
    have := (abs_nonneg (c - K)).trans h
    linarith
  rw [hv, hs, ← sub_mul, ← Complex.ofReal_sub, norm_mul, norm_mul, Complex.norm_real, Complex.norm_real,
    Real.norm_eq_abs, Real.norm_eq_abs, abs_of_nonneg hK, ← mul_assoc]
  exact mul_le_mul_of_nonneg_right h (norm_nonneg _)

theorem conj_base (l a : ℕ) (u v w : ℝ) : (starRingEnd ℂ) (base l a u v w) =
    (Real.sqrt (normSq l a) : ℂ) * ((u : ℂ) - (v : ℂ) * Complex.I) ^ a * (dleg l a w : ℂ) := by
  unfold base
  simp only [map_mul, map_pow, map_add, Complex.conj_ofReal, Complex.conj_I, mul_neg, sub_eq_add_neg]

theorem base_re (l a : ℕ) (u v w : ℝ) : (base l a u v w).re =
    Real.sqrt (normSq l a) * ((((u : ℂ) + (v : ℂ) * Complex.I) ^ a).re * dleg l a w) := by
  unfold base
  rw [Complex.re_mul_ofReal, mul_comm (Real.sqrt (normSq l a) : ℂ), Complex.re_mul_ofReal]
  ring

theorem base_im (l a : ℕ) (u v w : ℝ) : (base l a u v w).im =
    Real.sqrt (normSq l a) * ((((u : ℂ) + (v : ℂ) * Complex.I) ^ a).im * dleg l a w) := by
  unfold base
  rw [Complex.im_mul_ofReal, mul_comm (Real.sqrt (normSq l a) : ℂ), Complex.im_mul_ofReal]
  ring

theorem cpow0 (u v : ℝ) : ((u : ℂ) + (v : ℂ) * Complex.I) ^ 0 = ((1 * u ^ 0 * v ^ 0 : ℝ) : ℂ) + ((0 : ℝ) : ℂ) * Complex.I := by
  simp

theorem cre0 (u v : ℝ) : ((((u : ℂ) + (v : ℂ) * Complex.I) ^ 0).re) = 1 * u ^ 0 * v ^ 0 := by
  rw [cpow0]; simp only [Complex.add_re, Complex.ofReal_re, Complex.re_ofReal_mul, Complex.I_re, mul_zero, add_zero]

theorem cim0 (u v : ℝ) : ((((u : ℂ) + (v : ℂ) * Complex.I) ^ 0).im) = 0 := by
  rw [cpow0]; simp only [Complex.add_im, Complex.ofReal_im, Complex.im_ofReal_mul, Complex.I_im, mul_one, zero_add]

theorem cpow1 (u v : ℝ) : ((u : ℂ) + (v : ℂ) * Complex.I) ^ 1 = ((1 * u ^ 1 * v ^ 0 : ℝ) : ℂ) + ((1 * u ^ 0 * v ^ 1 : ℝ) : ℂ) * Complex.I := by
  rw [pow_succ, cpow0]
  push_cast
  linear_combination (norm := ring_nf) (((0 : ℂ)) * v) * Complex.I_sq

theorem cre1 (u v : ℝ) : ((((u : ℂ) + (v : ℂ) * Complex.I) ^ 1).re) = 1 * u ^ 1 * v ^ 0 := by
  rw [cpow1]; simp only [Complex.add_re, Complex.ofReal_re, Complex.re_ofReal_mul, Complex.I_re, mul_zero, add_zero]

theorem cim1 (u v : ℝ) : ((((u : ℂ) + (v : ℂ) * Complex.I) ^ 1).im) = 1 * u ^ 0 * v ^ 1 := by
  rw [cpow1]; simp only [Complex.add_im, Complex.ofReal_im, Complex.im_ofReal_mul, Complex.I_im, mul_one, zero_add]

theorem cpow2 (u v : ℝ) : ((u : ℂ) + (v : ℂ) * Complex.I) ^ 2 = ((1 * u ^ 2 * v ^ 0 - 1 * u ^ 0 * v ^ 2 : ℝ) : ℂ) + ((2 * u ^ 1 * v ^ 1 : ℝ) : ℂ) * Complex.I := by
  rw [pow_succ, cpow1]
  push_cast
  linear_combination (norm := ring_nf) (((1 * u ^ 0 * v ^ 1 : ℂ)) * v) * Complex.I_sq

theorem cre2 (u v : ℝ) : ((((u : ℂ) + (v : ℂ) * Complex.I) ^ 2).re) = 1 * u ^ 2 * v ^ 0 - 1 * u ^ 0 * v ^ 2 := by
  rw [cpow2]; simp only [Complex.add_re, Complex.ofReal_re, Complex.re_ofReal_mul, Complex.I_re, mul_zero, add_zero]

theorem cim2 (u v : ℝ) : ((((u : ℂ) + (v : ℂ) * Complex.I) ^ 2).im) = 2 * u ^ 1 * v ^ 1 := by
  rw [cpow2]; simp only [Complex.add_im, Complex.ofReal_im, Complex.im_ofReal_mul, Complex.I_im, mul_one, zero_add]

theorem cpow3 (u v : ℝ) : ((u : ℂ) + (v : ℂ) * Complex.I) ^ 3 = ((1 * u ^ 3 * v ^ 0 - 3 * u ^ 1 * v ^ 2 : ℝ) : ℂ) + ((3 * u ^ 2 * v ^ 1 - 1 * u ^ 0 * v ^ 3 : ℝ) : ℂ) * Complex.I := by
  rw [pow_succ, cpow2]
  push_cast
  linear_combination (norm := ring_nf) (((2 * u ^ 1 * v ^ 1 : ℂ)) * v) * Complex.I_sq

theorem cre3 (u v : ℝ) : ((((u : ℂ) + (v : ℂ) * Complex.I) ^ 3).re) = 1 * u ^ 3 * v ^ 0 - 3 * u ^ 1 * v ^ 2 := by
  rw [cpow3]; simp only [Complex.add_re, Complex.ofReal_re, Complex.re_ofReal_mul, Complex.I_re, mul_zero, add_zero]

theorem cim3 (u v : ℝ) : ((((u : ℂ) + (v : ℂ) * Complex.I) ^ 3).im) = 3 * u ^ 2 * v ^ 1 - 1 * u ^ 0 * v ^ 3 := by
  rw [cpow3]; simp only [Complex.add_im, Complex.ofReal_im, Complex.im_ofReal_mul, Complex.I_im, mul_one, zero_add]

theorem cpow4 (u v : ℝ) : ((u : ℂ) + (v : ℂ) * Complex.I) ^ 4 = ((1 * u ^ 4 * v ^ 0 - 6 * u ^ 2 * v ^ 2 + 1 * u ^ 0 * v ^ 4 : ℝ) : ℂ) + ((4 * u ^ 3 * v ^ 1 - 4 * u ^ 1 * v ^ 3 : ℝ) : ℂ) * Complex.I := by
  rw [pow_succ, cpow3]
  push_cast
  linear_combination (norm := ring_nf) (((3 * u ^ 2 * v ^ 1 - 1 * u ^ 0 * v ^ 3 : ℂ)) * v) * Complex.I_sq

theorem cre4 (u v : ℝ) : ((((u : ℂ) + (v : ℂ) * Complex.I) ^ 4).re) = 1 * u ^ 4 * v ^ 0 - 6 * u ^ 2 * v ^ 2 + 1 * u ^ 0 * v ^ 4 := by
  rw [cpow4]; simp only [Complex.add_re, Complex.ofReal_re, Complex.re_ofReal_mul, Complex.I_re, mul_zero, add_zero]

theorem cim4 (u v : ℝ) : ((((u : ℂ) + (v : ℂ) * Complex.I) ^ 4).im) = 4 * u ^ 3 * v ^ 1 - 4 * u ^ 1 * v ^ 3 := by
  rw [cpow4]; simp only [Complex.add_im, Complex.ofReal_im, Complex.im_ofReal_mul, Complex.I_im, mul_one, zero_add]

theorem cpow5 (u v : ℝ) : ((u : ℂ) + (v : ℂ) * Complex.I) ^ 5 = ((1 * u ^ 5 * v ^ 0 - 10 * u ^ 3 * v ^ 2 + 5 * u ^ 1 * v ^ 4 : ℝ) : ℂ) + ((5 * u ^ 4 * v ^ 1 - 10 * u ^ 2 * v ^ 3 + 1 * u ^ 0 * v ^ 5 : ℝ) : ℂ) * Complex.I := by
  rw [pow_succ, cpow4]
  push_cast
  linear_combination (norm := ring_nf) (((4 * u ^ 3 * v ^ 1 - 4 * u ^ 1 * v ^ 3 : ℂ)) * v) * Complex.I_sq

theorem cre5 (u v : ℝ) : ((((u : ℂ) + (v : ℂ) * Complex.I) ^ 5).re) = 1 * u ^ 5 * v ^ 0 - 10 * u ^ 3 * v ^ 2 + 5 * u ^ 1 * v ^ 4 := by
  rw [cpow5]; simp only [Complex.add_re, Complex.ofReal_re, Complex.re_ofReal_mul, Complex.I_re, mul_zero, add_zero]

theorem cim5 (u v : ℝ) : ((((u : ℂ) + (v : ℂ) * Complex.I) ^ 5).im) = 5 * u ^ 4 * v ^ 1 - 10 * u ^ 2 * v ^ 3 + 1 * u ^ 0 * v ^ 5 := by
  rw [cpow5]; simp only [Complex.add_im, Complex.ofReal_im, Complex.im_ofReal_mul, Complex.I_im, mul_one, zero_add]

theorem cpow6 (u v : ℝ) : ((u : ℂ) + (v : ℂ) * Complex.I) ^ 6 = ((1 * u ^ 6 * v ^ 0 - 15 * u ^ 4 * v ^ 2 + 15 * u ^ 2 * v ^ 4 - 1 * u ^ 0 * v ^ 6 : ℝ) : ℂ) + ((6 * u ^ 5 * v ^ 1 - 20 * u ^ 3 * v ^ 3 + 6 * u ^ 1 * v ^ 5 : ℝ) : ℂ) * Complex.I := by
  rw [pow_succ, cpow5]
  push_cast
  linear_combination (norm := ring_nf) (((5 * u ^ 4 * v ^ 1 - 10 * u ^ 2 * v ^ 3 + 1 * u ^ 0 * v ^ 5 : ℂ)) * v) * Complex.I_sq

theorem cre6 (u v : ℝ) : ((((u : ℂ) + (v : ℂ) * Complex.I) ^ 6).re) = 1 * u ^ 6 * v ^ 0 - 15 * u ^ 4 * v ^ 2 + 15 * u ^ 2 * v ^ 4 - 1 * u ^ 0 * v ^ 6 := by
  rw [cpow6]; simp only [Complex.add_re, Complex.ofReal_re, Complex.re_ofReal_mul, Complex.I_re, mul_zero, add_zero]

theorem cim6 (u v : ℝ) : ((((u : ℂ) + (v : ℂ) * Complex.I) ^ 6).im) = 6 * u ^ 5 * v ^ 1 - 20 * u ^ 3 * v ^ 3 + 6 * u ^ 1 * v ^ 5 := by
  rw [cpow6]; simp only [Complex.add_im, Complex.ofReal_im, Complex.im_ofReal_mul, Complex.I_im, mul_one, zero_add]

theorem norm00 : Real.sqrt (normSq 0 0) = Real.sqrt ((1 / 4) / Real.pi) := by
  congr 1
  unfold normSq
  norm_num [Nat.factorial]
  field_simp
  try norm_num

theorem norm10 : Real.sqrt (normSq 1 0) = Real.sqrt ((3 / 4) / Real.pi) := by
  congr 1
  unfold normSq
  norm_num [Nat.factorial]
  field_simp
  try norm_num

theorem norm11 : Real.sqrt (normSq 1 1) = Real.sqrt ((3 / 8) / Real.pi) := by
  congr 1
  unfold normSq
  norm_num [Nat.factorial]
  field_simp
  try norm_num

theorem normR11 : Real.sqrt 2 * Real.sqrt (normSq 1 1) = Real.sqrt ((3 / 4) / Real.pi) := by
  rw [norm11, ← Real.sqrt_mul (by norm_num)]
  congr 1
  ring

theorem norm20 : Real.sqrt (normSq 2 0) = Real.sqrt ((5 / 4) / Real.pi) := by
  congr 1
  unfold normSq
  norm_num [Nat.factorial]
  field_simp
  try norm_num

theorem norm21 : Real.sqrt (normSq 2 1) = Real.sqrt ((5 / 24) / Real.pi) := by
  congr 1
  unfold normSq
  norm_num [Nat.factorial]
  field_simp
  try norm_num

theorem normR21 : Real.sqrt 2 * Real.sqrt (normSq 2 1) = Real.sqrt ((5 / 12) / Real.pi) := by
  rw [norm21, ← Real.sqrt_mul (by norm_num)]
  congr 1
  ring

theorem norm22 : Real.sqrt (normSq 2 2) = Real.sqrt ((5 / 96) / Real.pi) := by
  congr 1
  unfold normSq
  norm_num [Nat.factorial]
  field_simp
  try norm_num

theorem normR22 : Real.sqrt 2 * Real.sqrt (normSq 2 2) = Real.sqrt ((5 / 48) / Real.pi) := by
  rw [norm22, ← Real.sqrt_mul (by norm_num)]
  congr 1
  ring

theorem norm30 : Real.sqrt (normSq 3 0) = Real.sqrt ((7 / 4) / Real.pi) := by
  congr 1
  unfold normSq
  norm_num [Nat.factorial]
  field_simp
  try norm_num

theorem norm31 : Real.sqrt (normSq 3 1) = Real.sqrt ((7 / 48) / Real.pi) := by
  congr 1
  unfold normSq
  norm_num [Nat.factorial]
  field_simp
  try norm_num

theorem normR31 : Real.sqrt 2 * Real.sqrt (normSq 3 1) = Real.sqrt ((7 / 24) / Real.pi) := by
  rw [norm31, ← Real.sqrt_mul (by norm_num)]
  congr 1
  ring

theorem norm32 : Real.sqrt (normSq 3 2) = Real.sqrt ((7 / 480) / Real.pi) := by
  congr 1
  unfold normSq
  norm_num [Nat.factorial]
  field_simp
  try norm_num

theorem normR32 : Real.sqrt 2 * Real.sqrt (normSq 3 2) = Real.sqrt ((7 / 240) / Real.pi) := by
  rw [norm32, ← Real.sqrt_mul (by norm_num)]
  congr 1
  ring

theorem norm33 : Real.sqrt (normSq 3 3) = Real.sqrt ((7 / 2880) / Real.pi) := by
  congr 1
  unfold normSq
  norm_num [Nat.factorial]
  field_simp
  try norm_num

theorem normR33 : Real.sqrt 2 * Real.sqrt (normSq 3 3) = Real.sqrt ((7 / 1440) / Real.pi) := by
  rw [norm33, ← Real.sqrt_mul (by norm_num)]
  congr 1
  ring

theorem norm40 : Real.sqrt (normSq 4 0) = Real.sqrt ((9 / 4) / Real.pi) := by
  congr 1
  unfold normSq
  norm_num [Nat.factorial]
  field_simp
  try norm_num

theorem norm41 : Real.sqrt (normSq 4 1) = Real.sqrt ((9 / 80) / Real.pi) := by
  congr 1
  unfold normSq
  norm_num [Nat.factorial]
  field_simp
  try norm_num

theorem normR41 : Real.sqrt 2 * Real.sqrt (normSq 4 1) = Real.sqrt ((9 / 40) / Real.pi) := by
  rw [norm41, ← Real.sqrt_mul (by norm_num)]
  congr 1
  ring

theorem norm42 : Real.sqrt (normSq 4 2) = Real.sqrt ((1 / 160) / Real.pi) := by
  congr 1
  unfold normSq
  norm_num [Nat.factorial]
  field_simp
  try norm_num

theorem normR42 : Real.sqrt 2 * Real.sqrt (normSq 4 2) = Real.sqrt ((1 / 80) / Real.pi) := by
  rw [norm42, ← Real.sqrt_mul (by norm_num)]
  congr 1
  ring

theorem norm43 : Real.sqrt (normSq 4 3) = Real.sqrt ((1 / 2240) / Real.pi) := by
  congr 1
  unfold normSq
  norm_num [Nat.factorial]
  field_simp
  try norm_num

theorem normR43 : Real.sqrt 2 * Real.sqrt (normSq 4 3) = Real.sqrt ((1 / 1120) / Real.pi) := by
  rw [norm43, ← Real.sqrt_mul (by norm_num)]
  congr 1
  ring

theorem norm44 : Real.sqrt (normSq 4 4) = Real.sqrt ((1 / 17920) / Real.pi) := by
  congr 1
  unfold normSq
  norm_num [Nat.factorial]
  field_simp
  try norm_num

theorem normR44 : Real.sqrt 2 * Real.sqrt (normSq 4 4) = Real.sqrt ((1 / 8960) / Real.pi) := by
  rw [norm44, ← Real.sqrt_mul (by norm_num)]
  congr 1
  ring

theorem norm50 : Real.sqrt (normSq 5 0) = Real.sqrt ((11 / 4) / Real.pi) := by
  congr 1
  unfold normSq
  norm_num [Nat.factorial]
  field_simp
  try norm_num

theorem norm51 : Real.sqrt (normSq 5 1) = Real.sqrt ((11 / 120) / Real.pi) := by
  congr 1
  unfold normSq
  norm_num [Nat.factorial]
  field_simp
  try norm_num

theorem normR51 : Real.sqrt 2 * Real.sqrt (normSq 5 1) = Real.sqrt ((11 / 60) / Real.pi) := by
  rw [norm51, ← Real.sqrt_mul (by norm_num)]
  congr 1
  ring

theorem norm52 : Real.sqrt (normSq 5 2) = Real.sqrt ((11 / 3360) / Real.pi) := by
  congr 1
  unfold normSq
  norm_num [Nat.factorial]
  field_simp
  try norm_num

theorem normR52 : Real.sqrt 2 * Real.sqrt (normSq 5 2) = Real.sqrt ((11 / 1680) / Real.pi) := by
  rw [norm52, ← Real.sqrt_mul (by norm_num)]
  congr 1
  ring

theorem norm53 : Real.sqrt (normSq 5 3) = Real.sqrt ((11 / 80640) / Real.pi) := by
  congr 1
  unfold normSq
  norm_num [Nat.factorial]
  field_simp
  try norm_num

theorem normR53 : Real.sqrt 2 * Real.sqrt (normSq 5 3) = Real.sqrt ((11 / 40320) / Real.pi) := by
  rw [norm53, ← Real.sqrt_mul (by norm_num)]
  congr 1
  ring

theorem norm54 : Real.sqrt (normSq 5 4) = Real.sqrt ((11 / 1451520) / Real.pi) := by
  congr 1
  unfold normSq
  norm_num [Nat.factorial]
  field_simp
  try norm_num

theorem normR54 : Real.sqrt 2 * Real.sqrt (normSq 5 4) = Real.sqrt ((11 / 725760) / Real.pi) := by
  rw [norm54, ← Real.sqrt_mul (by norm_num)]
  congr 1
  ring

theorem norm55 : Real.sqrt (normSq 5 5) = Real.sqrt ((11 / 14515200) / Real.pi) := by
  congr 1
  unfold normSq
  norm_num [Nat.factorial]
  field_simp
  try norm_num

theorem normR55 : Real.sqrt 2 * Real.sqrt (normSq 5 5) = Real.sqrt ((11 / 7257600) / Real.pi) := by
  rw [norm55, ← Real.sqrt_mul (by norm_num)]
  congr 1
  ring

theorem norm60 : Real.sqrt (normSq 6 0) = Real.sqrt ((13 / 4) / Real.pi) := by
  congr 1
  unfold normSq
  norm_num [Nat.factorial]
  field_simp
  try norm_num

theorem norm61 : Real.sqrt (normSq 6 1) = Real.sqrt ((13 / 168) / Real.pi) := by
  congr 1
  unfold normSq
  norm_num [Nat.factorial]
  field_simp
  try norm_num

theorem normR61 : Real.sqrt 2 * Real.sqrt (normSq 6 1) = Real.sqrt ((13 / 84) / Real.pi) := by
  rw [norm61, ← Real.sqrt_mul (by norm_num)]
  congr 1
  ring

theorem norm62 : Real.sqrt (normSq 6 2) = Real.sqrt ((13 / 6720) / Real.pi) := by
  congr 1
  unfold normSq
  norm_num [Nat.factorial]
  field_simp
  try norm_num

theorem normR62 : Real.sqrt 2 * Real.sqrt (normSq 6 2) = Real.sqrt ((13 / 3360) / Real.pi) := by
  rw [norm62, ← Real.sqrt_mul (by norm_num)]
  congr 1
  ring

theorem norm63 : Real.sqrt (normSq 6 3) = Real.sqrt ((13 / 241920) / Real.pi) := by
  congr 1
  unfold normSq
  norm_num [Nat.factorial]
  field_simp
  try norm_num

theorem normR63 : Real.sqrt 2 * Real.sqrt (normSq 6 3) = Real.sqrt ((13 / 120960) / Real.pi) := by
  rw [norm63, ← Real.sqrt_mul (by norm_num)]
  congr 1
  ring

theorem norm64 : Real.sqrt (normSq 6 4) = Real.sqrt ((13 / 7257600) / Real.pi) := by
  congr 1
  unfold normSq
  norm_num [Nat.factorial]
  field_simp
  try norm_num

theorem normR64 : Real.sqrt 2 * Real.sqrt (normSq 6 4) = Real.sqrt ((13 / 3628800) / Real.pi) := by
  rw [norm64, ← Real.sqrt_mul (by norm_num)]
  congr 1
  ring

theorem norm65 : Real.sqrt (normSq 6 5) = Real.sqrt ((13 / 159667200) / Real.pi) := by
  congr 1
  unfold normSq
  norm_num [Nat.factorial]
  field_simp
  try norm_num

theorem normR65 : Real.sqrt 2 * Real.sqrt (normSq 6 5) = Real.sqrt ((13 / 79833600) / Real.pi) := by
  rw [norm65, ← Real.sqrt_mul (by norm_num)]
  congr 1
  ring

theorem norm66 : Real.sqrt (normSq 6 6) = Real.sqrt ((13 / 1916006400) / Real.pi) := by
  congr 1
  unfold normSq
  norm_num [Nat.factorial]
  field_simp
  try norm_num

theorem normR66 : Real.sqrt 2 * Real.sqrt (normSq 6 6) = Real.sqrt ((13 / 958003200) / Real.pi) := by
  rw [norm66, ← Real.sqrt_mul (by norm_num)]
  congr 1
  ring

theorem real0z0 {r X Y Z : ℝ} (_hr : 0 < r) (_h : X ^ 2 + Y ^ 2 + Z ^ 2 = 1) :
    r00 =
      r00 / (1) * ((((X : ℂ) + (Y : ℂ) * Complex.I) ^ 0).re * dleg 0 0 Z) := by
  rw [cre0, dleg00]
  norm_num

theorem constR0z0 : |r00 / (1) - Real.sqrt ((1 / 4) / Real.pi)| ≤
    1 / 10 ^ 14 * Real.sqrt ((1 / 4) / Real.pi) := by
  unfold r00
  apply close_sqrt <;> norm_num

theorem real1m1 {r X Y Z : ℝ} (hr : 0 < r) (_h : X ^ 2 + Y ^ 2 + Z ^ 2 = 1) :
    r1m1 * ((r * Y) / r) =
      r1m1 / (1) * ((((X : ℂ) + (Y : ℂ) * Complex.I) ^ 1).im * dleg 1 1 Z) := by
  rw [cim1, dleg11]
  field_simp
  try ring

theorem constR1m1 : |r1m1 / (1) - Real.sqrt ((3 / 4) / Real.pi)| ≤
    1 / 10 ^ 14 * Real.sqrt ((3 / 4) / Real.pi) := by
  unfold r1m1
  apply close_sqrt <;> norm_num

theorem real1z0 {r X Y Z : ℝ} (hr : 0 < r) (_h : X ^ 2 + Y ^ 2 + Z ^ 2 = 1) :
    r10 * ((r * Z) / r) =
      r10 / (1) * ((((X : ℂ) + (Y : ℂ) * Complex.I) ^ 0).re * dleg 1 0 Z) := by
  rw [cre0, dleg10]
  field_simp
  try ring

theorem constR1z0 : |r10 / (1) - Real.sqrt ((3 / 4) / Real.pi)| ≤
    1 / 10 ^ 14 * Real.sqrt ((3 / 4) / Real.pi) := by
  unfold r10
  apply close_sqrt <;> norm_num

theorem real1p1 {r X Y Z : ℝ} (hr : 0 < r) (_h : X ^ 2 + Y ^ 2 + Z ^ 2 = 1) :
    r1p1 * ((r * X) / r) =
      r1p1 / (1) * ((((X : ℂ) + (Y : ℂ) * Complex.I) ^ 1).re * dleg 1 1 Z) := by
  rw [cre1, dleg11]
  field_simp
  try ring

theorem constR1p1 : |r1p1 / (1) - Real.sqrt ((3 / 4) / Real.pi)| ≤
    1 / 10 ^ 14 * Real.sqrt ((3 / 4) / Real.pi) := by
  unfold r1p1
  apply close_sqrt <;> norm_num

theorem real2m2 {r X Y Z : ℝ} (hr : 0 < r) (_h : X ^ 2 + Y ^ 2 + Z ^ 2 = 1) :
    r2m2 * ((r * X) * (r * Y)) / (r * r) =
      r2m2 / (6) * ((((X : ℂ) + (Y : ℂ) * Complex.I) ^ 2).im * dleg 2 2 Z) := by
  rw [cim2, dleg22]
  field_simp
  try ring

theorem constR2m2 : |r2m2 / (6) - Real.sqrt ((5 / 48) / Real.pi)| ≤
    1 / 10 ^ 14 * Real.sqrt ((5 / 48) / Real.pi) := by
  unfold r2m2
  apply close_sqrt <;> norm_num

theorem real2m1 {r X Y Z : ℝ} (hr : 0 < r) (_h : X ^ 2 + Y ^ 2 + Z ^ 2 = 1) :
    r2m1 * ((r * Y) * (r * Z)) / (r * r) =
      r2m1 / (3) * ((((X : ℂ) + (Y : ℂ) * Complex.I) ^ 1).im * dleg 2 1 Z) := by
  rw [cim1, dleg21]
  field_simp
  try ring

theorem constR2m1 : |r2m1 / (3) - Real.sqrt ((5 / 12) / Real.pi)| ≤
    1 / 10 ^ 14 * Real.sqrt ((5 / 12) / Real.pi) := by
  unfold r2m1
  apply close_sqrt <;> norm_num

theorem real2z0 {r X Y Z : ℝ} (hr : 0 < r) (h : X ^ 2 + Y ^ 2 + Z ^ 2 = 1) :
    r20 * (-(r * X) * (r * X) - (r * Y) * (r * Y) + 2 * (r * Z) * (r * Z)) / (r * r) =
      r20 / (1 / 2) * ((((X : ℂ) + (Y : ℂ) * Complex.I) ^ 0).re * dleg 2 0 Z) := by
  rw [cre0, dleg20]
  field_simp
  linear_combination (-r20) * h

theorem constR2z0 : |r20 / (1 / 2) - Real.sqrt ((5 / 4) / Real.pi)| ≤
    1 / 10 ^ 14 * Real.sqrt ((5 / 4) / Real.pi) := by
  unfold r20
  apply close_sqrt <;> norm_num

theorem real2p1 {r X Y Z : ℝ} (hr : 0 < r) (_h : X ^ 2 + Y ^ 2 + Z ^ 2 = 1) :
    r2p1 * ((r * Z) * (r * X)) / (r * r) =
      r2p1 / (3) * ((((X : ℂ) + (Y : ℂ) * Complex.I) ^ 1).re * dleg 2 1 Z) := by
  rw [cre1, dleg21]
  field_simp
  try ring

theorem constR2p1 : |r2p1 / (3) - Real.sqrt ((5 / 12) / Real.pi)| ≤
    1 / 10 ^ 14 * Real.sqrt ((5 / 12) / Real.pi) := by
  unfold r2p1
  apply close_sqrt <;> norm_num

theorem real2p2 {r X Y Z : ℝ} (hr : 0 < r) (_h : X ^ 2 + Y ^ 2 + Z ^ 2 = 1) :
    r2p2 * ((r * X) * (r * X) - (r * Y) * (r * Y)) / (r * r) =
      r2p2 / (3) * ((((X : ℂ) + (Y : ℂ) * Complex.I) ^ 2).re * dleg 2 2 Z) := by
  rw [cre2, dleg22]
  field_simp
  try ring

theorem constR2p2 : |r2p2 / (3) - Real.sqrt ((5 / 48) / Real.pi)| ≤
    1 / 10 ^ 14 * Real.sqrt ((5 / 48) / Real.pi) := by
  unfold r2p2
  apply close_sqrt <;> norm_num

theorem real3m3 {r X Y Z : ℝ} (hr : 0 < r) (_h : X ^ 2 + Y ^ 2 + Z ^ 2 = 1) :
    r3m3 * (3 * (r * X) * (r * X) - (r * Y) * (r * Y)) * (r * Y) / (r * r * r) =
      r3m3 / (15) * ((((X : ℂ) + (Y : ℂ) * Complex.I) ^ 3).im * dleg 3 3 Z) := by
  rw [cim3, dleg33]
  field_simp
  try ring

theorem constR3m3 : |r3m3 / (15) - Real.sqrt ((7 / 1440) / Real.pi)| ≤
    1 / 10 ^ 14 * Real.sqrt ((7 / 1440) / Real.pi) := by
  unfold r3m3
  apply close_sqrt <;> norm_num

theorem real3m2 {r X Y Z : ℝ} (hr : 0 < r) (_h : X ^ 2 + Y ^ 2 + Z ^ 2 = 1) :
    r3m2 * ((r * X) * (r * Y) * (r * Z)) / (r * r * r) =
      r3m2 / (30) * ((((X : ℂ) + (Y : ℂ) * Complex.I) ^ 2).im * dleg 3 2 Z) := by
  rw [cim2, dleg32]
  field_simp
  try ring

theorem constR3m2 : |r3m2 / (30) - Real.sqrt ((7 / 240) / Real.pi)| ≤
    1 / 10 ^ 14 * Real.sqrt ((7 / 240) / Real.pi) := by
  unfold r3m2
  apply close_sqrt <;> norm_num

theorem real3m1 {r X Y Z : ℝ} (hr : 0 < r) (h : X ^ 2 + Y ^ 2 + Z ^ 2 = 1) :
    r3m1 * (r * Y) * (4 * (r * Z) * (r * Z) - (r * X) * (r * X) - (r * Y) * (r * Y)) / (r * r * r) =
      r3m1 / (3 / 2) * ((((X : ℂ) + (Y : ℂ) * Complex.I) ^ 1).im * dleg 3 1 Z) := by
  rw [cim1, dleg31]
  field_simp
  linear_combination (-3 * r3m1 * Y) * h

theorem constR3m1 : |r3m1 / (3 / 2) - Real.sqrt ((7 / 24) / Real.pi)| ≤
    1 / 10 ^ 14 * Real.sqrt ((7 / 24) / Real.pi) := by
  unfold r3m1
  apply close_sqrt <;> norm_num

theorem real3z0 {r X Y Z : ℝ} (hr : 0 < r) (h : X ^ 2 + Y ^ 2 + Z ^ 2 = 1) :
    r30 * (r * Z) * (2 * (r * Z) * (r * Z) - 3 * (r * X) * (r * X) - 3 * (r * Y) * (r * Y)) / (r * r * r) =
      r30 / (1 / 2) * ((((X : ℂ) + (Y : ℂ) * Complex.I) ^ 0).re * dleg 3 0 Z) := by
  rw [cre0, dleg30]
  field_simp
  linear_combination (-3 * r30 * Z) * h

theorem constR3z0 : |r30 / (1 / 2) - Real.sqrt ((7 / 4) / Real.pi)| ≤
    1 / 10 ^ 14 * Real.sqrt ((7 / 4) / Real.pi) := by
  unfold r30
  apply close_sqrt <;> norm_num

theorem real3p1 {r X Y Z : ℝ} (hr : 0 < r) (h : X ^ 2 + Y ^ 2 + Z ^ 2 = 1) :
    r3p1 * (r * X) * (4 * (r * Z) * (r * Z) - (r * X) * (r * X) - (r * Y) * (r * Y)) / (r * r * r) =
      r3p1 / (3 / 2) * ((((X : ℂ) + (Y : ℂ) * Complex.I) ^ 1).re * dleg 3 1 Z) := by
  rw [cre1, dleg31]
  field_simp
  linear_combination (-3 * r3p1 * X) * h

theorem constR3p1 : |r3p1 / (3 / 2) - Real.sqrt ((7 / 24) / Real.pi)| ≤
    1 / 10 ^ 14 * Real.sqrt ((7 / 24) / Real.pi) := by
  unfold r3p1
  apply close_sqrt <;> norm_num

theorem real3p2 {r X Y Z : ℝ} (hr : 0 < r) (_h : X ^ 2 + Y ^ 2 + Z ^ 2 = 1) :
    r3p2 * (r * Z) * ((r * X) * (r * X) - (r * Y) * (r * Y)) / (r * r * r) =
      r3p2 / (15) * ((((X : ℂ) + (Y : ℂ) * Complex.I) ^ 2).re * dleg 3 2 Z) := by
  rw [cre2, dleg32]
  field_simp
  try ring

theorem constR3p2 : |r3p2 / (15) - Real.sqrt ((7 / 240) / Real.pi)| ≤
    1 / 10 ^ 14 * Real.sqrt ((7 / 240) / Real.pi) := by
  unfold r3p2
  apply close_sqrt <;> norm_num

theorem real3p3 {r X Y Z : ℝ} (hr : 0 < r) (_h : X ^ 2 + Y ^ 2 + Z ^ 2 = 1) :
    r3p3 * (r * X) * ((r * X) * (r * X) - 3 * (r * Y) * (r * Y)) / (r * r * r) =
      r3p3 / (15) * ((((X : ℂ) + (Y : ℂ) * Complex.I) ^ 3).re * dleg 3 3 Z) := by
  rw [cre3, dleg33]
  field_simp
  try ring

theorem constR3p3 : |r3p3 / (15) - Real.sqrt ((7 / 1440) / Real.pi)| ≤
    1 / 10 ^ 14 * Real.sqrt ((7 / 1440) / Real.pi) := by
  unfold r3p3
  apply close_sqrt <;> norm_num

theorem real4m4 {r X Y Z : ℝ} (hr : 0 < r) (_h : X ^ 2 + Y ^ 2 + Z ^ 2 = 1) :
    r4m4 * ((r * X) * (r * Y) * ((r * X) * (r * X) - (r * Y) * (r * Y))) / (r * r * r * r) =
      r4m4 / (420) * ((((X : ℂ) + (Y : ℂ) * Complex.I) ^ 4).im * dleg 4 4 Z) := by
  rw [cim4, dleg44]
  field_simp
  try ring

theorem constR4m4 : |r4m4 / (420) - Real.sqrt ((1 / 8960) / Real.pi)| ≤
    1 / 10 ^ 14 * Real.sqrt ((1 / 8960) / Real.pi) := by
  unfold r4m4
  apply close_sqrt <;> norm_num

theorem real4m3 {r X Y Z : ℝ} (hr : 0 < r) (_h : X ^ 2 + Y ^ 2 + Z ^ 2 = 1) :
    r4m3 * (3 * (r * X) * (r * X) - (r * Y) * (r * Y)) * (r * Y) * (r * Z) / (r * r * r * r) =
      r4m3 / (105) * ((((X : ℂ) + (Y : ℂ) * Complex.I) ^ 3).im * dleg 4 3 Z) := by
  rw [cim3, dleg43]
  field_simp
  try ring

theorem constR4m3 : |r4m3 / (105) - Real.sqrt ((1 / 1120) / Real.pi)| ≤
    1 / 10 ^ 14 * Real.sqrt ((1 / 1120) / Real.pi) := by
  unfold r4m3
  apply close_sqrt <;> norm_num

theorem real4m2 {r X Y Z : ℝ} (hr : 0 < r) (_h : X ^ 2 + Y ^ 2 + Z ^ 2 = 1) :
    r4m2 * (r * X) * (r * Y) * (7 * (r * Z) * (r * Z) - r * r) / (r * r * r * r) =
      r4m2 / (15) * ((((X : ℂ) + (Y : ℂ) * Complex.I) ^ 2).im * dleg 4 2 Z) := by
  rw [cim2, dleg42]
  field_simp
  try ring

theorem constR4m2 : |r4m2 / (15) - Real.sqrt ((1 / 80) / Real.pi)| ≤
    1 / 10 ^ 14 * Real.sqrt ((1 / 80) / Real.pi) := by
  unfold r4m2
  apply close_sqrt <;> norm_num

theorem real4m1 {r X Y Z : ℝ} (hr : 0 < r) (_h : X ^ 2 + Y ^ 2 + Z ^ 2 = 1) :
    r4m1 * (r * Y) * (r * Z) * (7 * (r * Z) * (r * Z) - 3 * r * r) / (r * r * r * r) =
      r4m1 / (5 / 2) * ((((X : ℂ) + (Y : ℂ) * Complex.I) ^ 1).im * dleg 4 1 Z) := by
  rw [cim1, dleg41]
  field_simp
  try ring

theorem constR4m1 : |r4m1 / (5 / 2) - Real.sqrt ((9 / 40) / Real.pi)| ≤
    1 / 10 ^ 14 * Real.sqrt ((9 / 40) / Real.pi) := by
  unfold r4m1
  apply close_sqrt <;> norm_num

theorem real4z0 {r X Y Z : ℝ} (hr : 0 < r) (_h : X ^ 2 + Y ^ 2 + Z ^ 2 = 1) :
    r40 * (35 * (r * Z) * (r * Z) * (r * Z) * (r * Z) - 30 * (r * Z) * (r * Z) * r * r + 3 * r * r * r * r) / (r * r * r * r) =
      r40 / (1 / 8) * ((((X : ℂ) + (Y : ℂ) * Complex.I) ^ 0).re * dleg 4 0 Z) := by
  rw [cre0, dleg40]
  field_simp
  try ring

theorem constR4z0 : |r40 / (1 / 8) - Real.sqrt ((9 / 4) / Real.pi)| ≤
    1 / 10 ^ 14 * Real.sqrt ((9 / 4) / Real.pi) := by
  unfold r40
  apply close_sqrt <;> norm_num

theorem real4p1 {r X Y Z : ℝ} (hr : 0 < r) (_h : X ^ 2 + Y ^ 2 + Z ^ 2 = 1) :
    r4p1 * (r * X) * (r * Z) * (7 * (r * Z) * (r * Z) - 3 * r * r) / (r * r * r * r) =
      r4p1 / (5 / 2) * ((((X : ℂ) + (Y : ℂ) * Complex.I) ^ 1).re * dleg 4 1 Z) := by
  rw [cre1, dleg41]
  field_simp
  try ring

theorem constR4p1 : |r4p1 / (5 / 2) - Real.sqrt ((9 / 40) / Real.pi)| ≤
    1 / 10 ^ 14 * Real.sqrt ((9 / 40) / Real.pi) := by
  unfold r4p1
  apply close_sqrt <;> norm_num

theorem real4p2 {r X Y Z : ℝ} (hr : 0 < r) (_h : X ^ 2 + Y ^ 2 + Z ^ 2 = 1) :
    r4p2 * ((r * X) * (r * X) - (r * Y) * (r * Y)) * (7 * (r * Z) * (r * Z) - r * r) / (r * r * r * r) =
      r4p2 / (15 / 2) * ((((X : ℂ) + (Y : ℂ) * Complex.I) ^ 2).re * dleg 4 2 Z) := by
  rw [cre2, dleg42]
  field_simp
  try ring

theorem constR4p2 : |r4p2 / (15 / 2) - Real.sqrt ((1 / 80) / Real.pi)| ≤
    1 / 10 ^ 14 * Real.sqrt ((1 / 80) / Real.pi) := by
  unfold r4p2
  apply close_sqrt <;> norm_num

theorem real4p3 {r X Y Z : ℝ} (hr : 0 < r) (_h : X ^ 2 + Y ^ 2 + Z ^ 2 = 1) :
    r4p3 * ((r * X) * (r * X) - 3 * (r * Y) * (r * Y)) * (r * X) * (r * Z) / (r * r * r * r) =
      r4p3 / (105) * ((((X : ℂ) + (Y : ℂ) * Complex.I) ^ 3).re * dleg 4 3 Z) := by
  rw [cre3, dleg43]
  field_simp
  try ring

theorem constR4p3 : |r4p3 / (105) - Real.sqrt ((1 / 1120) / Real.pi)| ≤
    1 / 10 ^ 14 * Real.sqrt ((1 / 1120) / Real.pi) := by
  unfold r4p3
  apply close_sqrt <;> norm_num

theorem real4p4 {r X Y Z : ℝ} (hr : 0 < r) (_h : X ^ 2 + Y ^ 2 + Z ^ 2 = 1) :
    r4p4 * ((r * X) * (r * X) * ((r * X) * (r * X) - 3 * (r * Y) * (r * Y)) - (r * Y) * (r * Y) * (3 * (r * X) * (r * X) - (r * Y) * (r * Y))) / (r * r * r * r) =
      r4p4 / (105) * ((((X : ℂ) + (Y : ℂ) * Complex.I) ^ 4).re * dleg 4 4 Z) := by
  rw [cre4, dleg44]
  field_simp
  try ring

theorem constR4p4 : |r4p4 / (105) - Real.sqrt ((1 / 8960) / Real.pi)| ≤
    1 / 10 ^ 14 * Real.sqrt ((1 / 8960) / Real.pi) := by
  unfold r4p4
  apply close_sqrt <;> norm_num

theorem real5m5 {r X Y Z : ℝ} (hr : 0 < r) (_h : X ^ 2 + Y ^ 2 + Z ^ 2 = 1) :
    r5m5 * (8 * (r * X) * (r * X) * (r * X) * (r * X) * (r * Y) - 4 * (r * X) * (r * X) * (r * Y) * (r * Y) * (r * Y) + 4 * (r * Y) ^ 5 - 3 * (r * Y) * (Real.sqrt ((r * X) * (r * X) + (r * Y) * (r * Y))) * (Real.sqrt ((r * X) * (r * X) + (r * Y) * (r * Y))) * (Real.sqrt ((r * X) * (r * X) + (r * Y) * (r * Y))) * (Real.sqrt ((r * X) * (r * X) + (r * Y) * (r * Y)))) / (r * r * r * r * r) =
      r5m5 / (945) * ((((X : ℂ) + (Y : ℂ) * Complex.I) ^ 5).im * dleg 5 5 Z) := by
  rw [cim5, dleg55]
  have hp : r5m5 * (8 * (r * X) * (r * X) * (r * X) * (r * X) * (r * Y) - 4 * (r * X) * (r * X) * (r * Y) * (r * Y) * (r * Y) + 4 * (r * Y) ^ 5 - 3 * (r * Y) * (Real.sqrt ((r * X) * (r * X) + (r * Y) * (r * Y))) * (Real.sqrt ((r * X) * (r * X) + (r * Y) * (r * Y))) * (Real.sqrt ((r * X) * (r * X) + (r * Y) * (r * Y))) * (Real.sqrt ((r * X) * (r * X) + (r * Y) * (r * Y)))) / (r * r * r * r * r) =
      r5m5 * (8 * (r * X) * (r * X) * (r * X) * (r * X) * (r * Y) - 4 * (r * X) * (r * X) * (r * Y) * (r * Y) * (r * Y) + 4 * (r * Y) ^ 5 - 3 * (r * Y) * ((Real.sqrt ((r * X) * (r * X) + (r * Y) * (r * Y)) * Real.sqrt ((r * X) * (r * X) + (r * Y) * (r * Y))) * (Real.sqrt ((r * X) * (r * X) + (r * Y) * (r * Y)) * Real.sqrt ((r * X) * (r * X) + (r * Y) * (r * Y))))) / (r * r * r * r * r) := by ring
  rw [hp, Real.mul_self_sqrt (add_nonneg (mul_self_nonneg _) (mul_self_nonneg _))]
  field_simp
  try ring

theorem constR5m5 : |r5m5 / (945) - Real.sqrt ((11 / 7257600) / Real.pi)| ≤
    1 / 10 ^ 14 * Real.sqrt ((11 / 7257600) / Real.pi) := by
  unfold r5m5
  apply close_sqrt <;> norm_num

theorem real5m4 {r X Y Z : ℝ} (hr : 0 < r) (_h : X ^ 2 + Y ^ 2 + Z ^ 2 = 1) :
    r5m4 * (4 * (r * X) * (r * X) * (r * X) * (r * Y) - 4 * (r * X) * (r * Y) * (r * Y) * (r * Y)) * (r * Z) / (r * r * r * r * r) =
      r5m4 / (945) * ((((X : ℂ) + (Y : ℂ) * Complex.I) ^ 4).im * dleg 5 4 Z) := by
  rw [cim4, dleg54]
  field_simp
  try ring

theorem constR5m4 : |r5m4 / (945) - Real.sqrt ((11 / 725760) / Real.pi)| ≤
    1 / 10 ^ 14 * Real.sqrt ((11 / 725760) / Real.pi) := by
  unfold r5m4
  apply close_sqrt <;> norm_num

theorem real5m3 {r X Y Z : ℝ} (hr : 0 < r) (_h : X ^ 2 + Y ^ 2 + Z ^ 2 = 1) :
    r5m3 * (3 * (r * Y) * (Real.sqrt ((r * X) * (r * X) + (r * Y) * (r * Y))) * (Real.sqrt ((r * X) * (r * X) + (r * Y) * (r * Y))) - 4 * (r * Y) * (r * Y) * (r * Y)) * (9 * (r * Z) * (r * Z) - r * r) / (r * r * r * r * r) =
      r5m3 / (105 / 2) * ((((X : ℂ) + (Y : ℂ) * Complex.I) ^ 3).im * dleg 5 3 Z) := by
  rw [cim3, dleg53]
  have hp : r5m3 * (3 * (r * Y) * (Real.sqrt ((r * X) * (r * X) + (r * Y) * (r * Y))) * (Real.sqrt ((r * X) * (r * X) + (r * Y) * (r * Y))) - 4 * (r * Y) * (r * Y) * (r * Y)) * (9 * (r * Z) * (r * Z) - r * r) / (r * r * r * r * r) =
      r5m3 * (3 * (r * Y) * (Real.sqrt ((r * X) * (r * X) + (r * Y) * (r * Y)) * Real.sqrt ((r * X) * (r * X) + (r * Y) * (r * Y))) - 4 * (r * Y) * (r * Y) * (r * Y)) * (9 * (r * Z) * (r * Z) - r * r) / (r * r * r * r * r) := by ring
  rw [hp, Real.mul_self_sqrt (add_nonneg (mul_self_nonneg _) (mul_self_nonneg _))]
  field_simp
  try ring

theorem constR5m3 : |r5m3 / (105 / 2) - Real.sqrt ((11 / 40320) / Real.pi)| ≤
    1 / 10 ^ 14 * Real.sqrt ((11 / 40320) / Real.pi) := by
  unfold r5m3
  apply close_sqrt <;> norm_num

theorem real5m2 {r X Y Z : ℝ} (hr : 0 < r) (_h : X ^ 2 + Y ^ 2 + Z ^ 2 = 1) :
    r5m2 * (r * X) * (r * Y) * (3 * (r * Z) * (r * Z) * (r * Z) - (r * Z) * r * r) / (r * r * r * r * r) =
      r5m2 / (105) * ((((X : ℂ) + (Y : ℂ) * Complex.I) ^ 2).im * dleg 5 2 Z) := by
  rw [cim2, dleg52]
  field_simp
  try ring

theorem constR5m2 : |r5m2 / (105) - Real.sqrt ((11 / 1680) / Real.pi)| ≤
    1 / 10 ^ 14 * Real.sqrt ((11 / 1680) / Real.pi) := by
  unfold r5m2
  apply close_sqrt <;> norm_num

theorem real5m1 {r X Y Z : ℝ} (hr : 0 < r) (_h : X ^ 2 + Y ^ 2 + Z ^ 2 = 1) :
    r5m1 * (r * Y) * (21 * (r * Z) * (r * Z) * (r * Z) * (r * Z) - 14 * r * r * (r * Z) * (r * Z) + r * r * r * r) / (r * r * r * r * r) =
      r5m1 / (15 / 8) * ((((X : ℂ) + (Y : ℂ) * Complex.I) ^ 1).im * dleg 5 1 Z) := by
  rw [cim1, dleg51]
  field_simp
  try ring

theorem constR5m1 : |r5m1 / (15 / 8) - Real.sqrt ((11 / 60) / Real.pi)| ≤
    1 / 10 ^ 14 * Real.sqrt ((11 / 60) / Real.pi) := by
  unfold r5m1
  apply close_sqrt <;> norm_num

theorem real5z0 {r X Y Z : ℝ} (hr : 0 < r) (_h : X ^ 2 + Y ^ 2 + Z ^ 2 = 1) :
    r50 * (63 * (r * Z) * (r * Z) * (r * Z) * (r * Z) * (r * Z) - 70 * (r * Z) * (r * Z) * (r * Z) * r * r + 15 * (r * Z) * r * r * r * r) / (r * r * r * r * r) =
      r50 / (1 / 8) * ((((X : ℂ) + (Y : ℂ) * Complex.I) ^ 0).re * dleg 5 0 Z) := by
  rw [cre0, dleg50]
  field_simp
  try ring

theorem constR5z0 : |r50 / (1 / 8) - Real.sqrt ((11 / 4) / Real.pi)| ≤
    1 / 10 ^ 14 * Real.sqrt ((11 / 4) / Real.pi) := by
  unfold r50
  apply close_sqrt <;> norm_num

theorem real5p1 {r X Y Z : ℝ} (hr : 0 < r) (_h : X ^ 2 + Y ^ 2 + Z ^ 2 = 1) :
    r5p1 * (r * X) * (21 * (r * Z) * (r * Z) * (r * Z) * (r * Z) - 14 * r * r * (r * Z) * (r * Z) + r * r * r * r) / (r * r * r * r * r) =
      r5p1 / (15 / 8) * ((((X : ℂ) + (Y : ℂ) * Complex.I) ^ 1).re * dleg 5 1 Z) := by
  rw [cre1, dleg51]
  field_simp
  try ring

theorem constR5p1 : |r5p1 / (15 / 8) - Real.sqrt ((11 / 60) / Real.pi)| ≤
    1 / 10 ^ 14 * Real.sqrt ((11 / 60) / Real.pi) := by
  unfold r5p1
  apply close_sqrt <;> norm_num

theorem real5p2 {r X Y Z : ℝ} (hr : 0 < r) (_h : X ^ 2 + Y ^ 2 + Z ^ 2 = 1) :
    r5p2 * ((r * X) * (r * X) - (r * Y) * (r * Y)) * (3 * (r * Z) * (r * Z) * (r * Z) - r * r * (r * Z)) / (r * r * r * r * r) =
      r5p2 / (105 / 2) * ((((X : ℂ) + (Y : ℂ) * Complex.I) ^ 2).re * dleg 5 2 Z) := by
  rw [cre2, dleg52]
  field_simp
  try ring

theorem constR5p2 : |r5p2 / (105 / 2) - Real.sqrt ((11 / 1680) / Real.pi)| ≤
    1 / 10 ^ 14 * Real.sqrt ((11 / 1680) / Real.pi) := by
  unfold r5p2
  apply close_sqrt <;> norm_num

theorem real5p3 {r X Y Z : ℝ} (hr : 0 < r) (_h : X ^ 2 + Y ^ 2 + Z ^ 2 = 1) :
    r5p3 * (4 * (r * X) * (r * X) * (r * X) - 3 * (Real.sqrt ((r * X) * (r * X) + (r * Y) * (r * Y))) * (Real.sqrt ((r * X) * (r * X) + (r * Y) * (r * Y))) * (r * X)) * (9 * (r * Z) * (r * Z) - r * r) / (r * r * r * r * r) =
      r5p3 / (105 / 2) * ((((X : ℂ) + (Y : ℂ) * Complex.I) ^ 3).re * dleg 5 3 Z) := by
  rw [cre3, dleg53]
  have hp : r5p3 * (4 * (r * X) * (r * X) * (r * X) - 3 * (Real.sqrt ((r * X) * (r * X) + (r * Y) * (r * Y))) * (Real.sqrt ((r * X) * (r * X) + (r * Y) * (r * Y))) * (r * X)) * (9 * (r * Z) * (r * Z) - r * r) / (r * r * r * r * r) =
      r5p3 * (4 * (r * X) * (r * X) * (r * X) - 3 * (Real.sqrt ((r * X) * (r * X) + (r * Y) * (r * Y)) * Real.sqrt ((r * X) * (r * X) + (r * Y) * (r * Y))) * (r * X)) * (9 * (r * Z) * (r * Z) - r * r) / (r * r * r * r * r) := by ring
  rw [hp, Real.mul_self_sqrt (add_nonneg (mul_self_nonneg _) (mul_self_nonneg _))]
  field_simp
  try ring

theorem constR5p3 : |r5p3 / (105 / 2) - Real.sqrt ((11 / 40320) / Real.pi)| ≤
    1 / 10 ^ 14 * Real.sqrt ((11 / 40320) / Real.pi) := by
  unfold r5p3
  apply close_sqrt <;> norm_num

theorem real5p4 {r X Y Z : ℝ} (hr : 0 < r) (_h : X ^ 2 + Y ^ 2 + Z ^ 2 = 1) :
    r5p4 * (4 * ((r * X) * (r * X) * (r * X) * (r * X) + (r * Y) * (r * Y) * (r * Y) * (r * Y)) - 3 * (Real.sqrt ((r * X) * (r * X) + (r * Y) * (r * Y))) * (Real.sqrt ((r * X) * (r * X) + (r * Y) * (r * Y))) * (Real.sqrt ((r * X) * (r * X) + (r * Y) * (r * Y))) * (Real.sqrt ((r * X) * (r * X) + (r * Y) * (r * Y)))) * (r * Z) / (r * r * r * r * r) =
      r5p4 / (945) * ((((X : ℂ) + (Y : ℂ) * Complex.I) ^ 4).re * dleg 5 4 Z) := by
  rw [cre4, dleg54]
  have hp : r5p4 * (4 * ((r * X) * (r * X) * (r * X) * (r * X) + (r * Y) * (r * Y) * (r * Y) * (r * Y)) - 3 * (Real.sqrt ((r * X) * (r * X) + (r * Y) * (r * Y))) * (Real.sqrt ((r * X) * (r * X) + (r * Y) * (r * Y))) * (Real.sqrt ((r * X) * (r * X) + (r * Y) * (r * Y))) * (Real.sqrt ((r * X) * (r * X) + (r * Y) * (r * Y)))) * (r * Z) / (r * r * r * r * r) =
      r5p4 * (4 * ((r * X) * (r * X) * (r * X) * (r * X) + (r * Y) * (r * Y) * (r * Y) * (r * Y)) - 3 * ((Real.sqrt ((r * X) * (r * X) + (r * Y) * (r * Y)) * Real.sqrt ((r * X) * (r * X) + (r * Y) * (r * Y))) * (Real.sqrt ((r * X) * (r * X) + (r * Y) * (r * Y)) * Real.sqrt ((r * X) * (r * X) + (r * Y) * (r * Y))))) * (r * Z) / (r * r * r * r * r) := by ring
  rw [hp, Real.mul_self_sqrt (add_nonneg (mul_self_nonneg _) (mul_self_nonneg _))]
  field_simp
  try ring

theorem constR5p4 : |r5p4 / (945) - Real.sqrt ((11 / 725760) / Real.pi)| ≤
    1 / 10 ^ 14 * Real.sqrt ((11 / 725760) / Real.pi) := by
  unfold r5p4
  apply close_sqrt <;> norm_num

theorem real5p5 {r X Y Z : ℝ} (hr : 0 < r) (_h : X ^ 2 + Y ^ 2 + Z ^ 2 = 1) :
    r5p5 * (4 * (r * X) * (r * X) * (r * X) * (r * X) * (r * X) + 8 * (r * X) * (r * Y) * (r * Y) * (r * Y) * (r * Y) - 4 * (r * X) * (r * X) * (r * X) * (r * Y) * (r * Y) - 3 * (r * X) * (Real.sqrt ((r * X) * (r * X) + (r * Y) * (r * Y))) * (Real.sqrt ((r * X) * (r * X) + (r * Y) * (r * Y))) * (Real.sqrt ((r * X) * (r * X) + (r * Y) * (r * Y))) * (Real.sqrt ((r * X) * (r * X) + (r * Y) * (r * Y)))) / (r * r * r * r * r) =
      r5p5 / (945) * ((((X : ℂ) + (Y : ℂ) * Complex.I) ^ 5).re * dleg 5 5 Z) := by
  rw [cre5, dleg55]
  have hp : r5p5 * (4 * (r * X) * (r * X) * (r * X) * (r * X) * (r * X) + 8 * (r * X) * (r * Y) * (r * Y) * (r * Y) * (r * Y) - 4 * (r * X) * (r * X) * (r * X) * (r * Y) * (r * Y) - 3 * (r * X) * (Real.sqrt ((r * X) * (r * X) + (r * Y) * (r * Y))) * (Real.sqrt ((r * X) * (r * X) + (r * Y) * (r * Y))) * (Real.sqrt ((r * X) * (r * X) + (r * Y) * (r * Y))) * (Real.sqrt ((r * X) * (r * X) + (r * Y) * (r * Y)))) / (r * r * r * r * r) =
      r5p5 * (4 * (r * X) * (r * X) * (r * X) * (r * X) * (r * X) + 8 * (r * X) * (r * Y) * (r * Y) * (r * Y) * (r * Y) - 4 * (r * X) * (r * X) * (r * X) * (r * Y) * (r * Y) - 3 * (r * X) * ((Real.sqrt ((r * X) * (r * X) + (r * Y) * (r * Y)) * Real.sqrt ((r * X) * (r * X) + (r * Y) * (r * Y))) * (Real.sqrt ((r * X) * (r * X) + (r * Y) * (r * Y)) * Real.sqrt ((r * X) * (r * X) + (r * Y) * (r * Y))))) / (r * r * r * r * r) := by ring
  rw [hp, Real.mul_self_sqrt (add_nonneg (mul_self_nonneg _) (mul_self_nonneg _))]
  field_simp
  try ring

theorem constR5p5 : |r5p5 / (945) - Real.sqrt ((11 / 7257600) / Real.pi)| ≤
    1 / 10 ^ 14 * Real.sqrt ((11 / 7257600) / Real.pi) := by
  unfold r5p5
  apply close_sqrt <;> norm_num

theorem real6m6 {r X Y Z : ℝ} (hr : 0 < r) (_h : X ^ 2 + Y ^ 2 + Z ^ 2 = 1) :
    r6m6 * (12 * (r * X) ^ 5 * (r * Y) + 12 * (r * X) * (r * Y) ^ 5 - 8 * (r * X) * (r * X) * (r * X) * (r * Y) * (r * Y) * (r * Y) - 6 * (r * X) * (r * Y) * (Real.sqrt ((r * X) * (r * X) + (r * Y) * (r * Y))) ^ 4) / (r * r * r * r * r * r) =
      r6m6 / (10395) * ((((X : ℂ) + (Y : ℂ) * Complex.I) ^ 6).im * dleg 6 6 Z) := by
  rw [cim6, dleg66]
  have hp : r6m6 * (12 * (r * X) ^ 5 * (r * Y) + 12 * (r * X) * (r * Y) ^ 5 - 8 * (r * X) * (r * X) * (r * X) * (r * Y) * (r * Y) * (r * Y) - 6 * (r * X) * (r * Y) * (Real.sqrt ((r * X) * (r * X) + (r * Y) * (r * Y))) ^ 4) / (r * r * r * r * r * r) =
      r6m6 * (12 * (r * X) ^ 5 * (r * Y) + 12 * (r * X) * (r * Y) ^ 5 - 8 * (r * X) * (r * X) * (r * X) * (r * Y) * (r * Y) * (r * Y) - 6 * (r * X) * (r * Y) * ((Real.sqrt ((r * X) * (r * X) + (r * Y) * (r * Y)) * Real.sqrt ((r * X) * (r * X) + (r * Y) * (r * Y))) * (Real.sqrt ((r * X) * (r * X) + (r * Y) * (r * Y)) * Real.sqrt ((r * X) * (r * X) + (r * Y) * (r * Y))))) / (r * r * r * r * r * r) := by ring
  rw [hp, Real.mul_self_sqrt (add_nonneg (mul_self_nonneg _) (mul_self_nonneg _))]
  field_simp
  try ring

theorem constR6m6 : |r6m6 / (10395) - Real.sqrt ((13 / 958003200) / Real.pi)| ≤
    1 / 10 ^ 14 * Real.sqrt ((13 / 958003200) / Real.pi) := by
  unfold r6m6
  apply close_sqrt <;> norm_num

theorem real6m5 {r X Y Z : ℝ} (hr : 0 < r) (_h : X ^ 2 + Y ^ 2 + Z ^ 2 = 1) :
    r6m5 * (8 * (r * X) ^ 4 * (r * Y) - 4 * (r * X) * (r * X) * (r * Y) * (r * Y) * (r * Y) + 4 * (r * Y) ^ 5 - 3 * (r * Y) * (Real.sqrt ((r * X) * (r * X) + (r * Y) * (r * Y))) ^ 4) * (r * Z) / (r * r * r * r * r * r) =
      r6m5 / (10395) * ((((X : ℂ) + (Y : ℂ) * Complex.I) ^ 5).im * dleg 6 5 Z) := by
  rw [cim5, dleg65]
  have hp : r6m5 * (8 * (r * X) ^ 4 * (r * Y) - 4 * (r * X) * (r * X) * (r * Y) * (r * Y) * (r * Y) + 4 * (r * Y) ^ 5 - 3 * (r * Y) * (Real.sqrt ((r * X) * (r * X) + (r * Y) * (r * Y))) ^ 4) * (r * Z) / (r * r * r * r * r * r) =
      r6m5 * (8 * (r * X) ^ 4 * (r * Y) - 4 * (r * X) * (r * X) * (r * Y) * (r * Y) * (r * Y) + 4 * (r * Y) ^ 5 - 3 * (r * Y) * ((Real.sqrt ((r * X) * (r * X) + (r * Y) * (r * Y)) * Real.sqrt ((r * X) * (r * X) + (r * Y) * (r * Y))) * (Real.sqrt ((r * X) * (r * X) + (r * Y) * (r * Y)) * Real.sqrt ((r * X) * (r * X) + (r * Y) * (r * Y))))) * (r * Z) / (r * r * r * r * r * r) := by ring
  rw [hp, Real.mul_self_sqrt (add_nonneg (mul_self_nonneg _) (mul_self_nonneg _))]
  field_simp
  try ring

theorem constR6m5 : |r6m5 / (10395) - Real.sqrt ((13 / 79833600) / Real.pi)| ≤
    1 / 10 ^ 14 * Real.sqrt ((13 / 79833600) / Real.pi) := by
  unfold r6m5
  apply close_sqrt <;> norm_num

theorem real6m4 {r X Y Z : ℝ} (hr : 0 < r) (_h : X ^ 2 + Y ^ 2 + Z ^ 2 = 1) :
    r6m4 * (4 * (r * X) * (r * X) * (r * X) * (r * Y) - 4 * (r * X) * (r * Y) * (r * Y) * (r * Y)) * (11 * (r * Z) * (r * Z) - r * r) / (r * r * r * r * r * r) =
      r6m4 / (945 / 2) * ((((X : ℂ) + (Y : ℂ) * Complex.I) ^ 4).im * dleg 6 4 Z) := by
  rw [cim4, dleg64]
  field_simp
  try ring

theorem constR6m4 : |r6m4 / (945 / 2) - Real.sqrt ((13 / 3628800) / Real.pi)| ≤
    1 / 10 ^ 14 * Real.sqrt ((13 / 3628800) / Real.pi) := by
  unfold r6m4
  apply close_sqrt <;> norm_num

theorem real6m3 {r X Y Z : ℝ} (hr : 0 < r) (_h : X ^ 2 + Y ^ 2 + Z ^ 2 = 1) :
    r6m3 * (-4 * (r * Y) * (r * Y) * (r * Y) + 3 * (r * Y) * (Real.sqrt ((r * X) * (r * X) + (r * Y) * (r * Y))) * (Real.sqrt ((r * X) * (r * X) + (r * Y) * (r * Y)))) * (11 * (r * Z) * (r * Z) * (r * Z) - 3 * (r * Z) * r * r) / (r * r * r * r * r * r) =
      r6m3 / (315 / 2) * ((((X : ℂ) + (Y : ℂ) * Complex.I) ^ 3).im * dleg 6 3 Z) := by
  rw [cim3, dleg63]
  have hp : r6m3 * (-4 * (r * Y) * (r * Y) * (r * Y) + 3 * (r * Y) * (Real.sqrt ((r * X) * (r * X) + (r * Y) * (r * Y))) * (Real.sqrt ((r * X) * (r * X) + (r * Y) * (r * Y)))) * (11 * (r * Z) * (r * Z) * (r * Z) - 3 * (r * Z) * r * r) / (r * r * r * r * r * r) =
      r6m3 * (-4 * (r * Y) * (r * Y) * (r * Y) + 3 * (r * Y) * (Real.sqrt ((r * X) * (r * X) + (r * Y) * (r * Y)) * Real.sqrt ((r * X) * (r * X) + (r * Y) * (r * Y)))) * (11 * (r * Z) * (r * Z) * (r * Z) - 3 * (r * Z) * r * r) / (r * r * r * r * r * r) := by ring
  rw [hp, Real.mul_self_sqrt (add_nonneg (mul_self_nonneg _) (mul_self_nonneg _))]
  field_simp
  try ring

theorem constR6m3 : |r6m3 / (315 / 2) - Real.sqrt ((13 / 120960) / Real.pi)| ≤
    1 / 10 ^ 14 * Real.sqrt ((13 / 120960) / Real.pi) := by
  unfold r6m3
  apply close_sqrt <;> norm_num

theorem real6m2 {r X Y Z : ℝ} (hr : 0 < r) (_h : X ^ 2 + Y ^ 2 + Z ^ 2 = 1) :
    r6m2 * (2 * (r * X) * (r * Y)) * (33 * (r * Z) ^ 4 - 18 * (r * Z) * (r * Z) * r * r + r ^ 4) / (r * r * r * r * r * r) =
      r6m2 / (105 / 8) * ((((X : ℂ) + (Y : ℂ) * Complex.I) ^ 2).im * dleg 6 2 Z) := by
  rw [cim2, dleg62]
  field_simp
  try ring

theorem constR6m2 : |r6m2 / (105 / 8) - Real.sqrt ((13 / 3360) / Real.pi)| ≤
    1 / 10 ^ 14 * Real.sqrt ((13 / 3360) / Real.pi) := by
  unfold r6m2
  apply close_sqrt <;> norm_num

theorem real6m1 {r X Y Z : ℝ} (hr : 0 < r) (_h : X ^ 2 + Y ^ 2 + Z ^ 2 = 1) :
    r6m1 * (r * Y) * (33 * (r * Z) ^ 5 - 30 * (r * Z) * (r * Z) * (r * Z) * r * r + 5 * (r * Z) * r ^ 4) / (r * r * r * r * r * r) =
      r6m1 / (21 / 8) * ((((X : ℂ) + (Y : ℂ) * Complex.I) ^ 1).im * dleg 6 1 Z) := by
  rw [cim1, dleg61]
  field_simp
  try ring

theorem constR6m1 : |r6m1 / (21 / 8) - Real.sqrt ((13 / 84) / Real.pi)| ≤
    1 / 10 ^ 14 * Real.sqrt ((13 / 84) / Real.pi) := by
  unfold r6m1
  apply close_sqrt <;> norm_num

theorem real6z0 {r X Y Z : ℝ} (hr : 0 < r) (_h : X ^ 2 + Y ^ 2 + Z ^ 2 = 1) :
    r60 * (231 * (r * Z) ^ 6 - 315 * (r * Z) ^ 4 * r * r + 105 * (r * Z) * (r * Z) * r ^ 4 - 5 * r ^ 6) / (r * r * r * r * r * r) =
      r60 / (1 / 16) * ((((X : ℂ) + (Y : ℂ) * Complex.I) ^ 0).re * dleg 6 0 Z) := by
  rw [cre0, dleg60]
  field_simp
  try ring

theorem constR6z0 : |r60 / (1 / 16) - Real.sqrt ((13 / 4) / Real.pi)| ≤
    1 / 10 ^ 14 * Real.sqrt ((13 / 4) / Real.pi) := by
  unfold r60
  apply close_sqrt <;> norm_num

theorem real6p1 {r X Y Z : ℝ} (hr : 0 < r) (_h : X ^ 2 + Y ^ 2 + Z ^ 2 = 1) :
    r6p1 * (r * X) * (33 * (r * Z) ^ 5 - 30 * (r * Z) * (r * Z) * (r * Z) * r * r + 5 * (r * Z) * r ^ 4) / (r * r * r * r * r * r) =
      r6p1 / (21 / 8) * ((((X : ℂ) + (Y : ℂ) * Complex.I) ^ 1).re * dleg 6 1 Z) := by
  rw [cre1, dleg61]
  field_simp
  try ring

theorem constR6p1 : |r6p1 / (21 / 8) - Real.sqrt ((13 / 84) / Real.pi)| ≤
    1 / 10 ^ 14 * Real.sqrt ((13 / 84) / Real.pi) := by
  unfold r6p1
  apply close_sqrt <;> norm_num

theorem real6p2 {r X Y Z : ℝ} (hr : 0 < r) (_h : X ^ 2 + Y ^ 2 + Z ^ 2 = 1) :
    r6p2 * ((r * X) * (r * X) - (r * Y) * (r * Y)) * (33 * (r * Z) ^ 4 - 18 * (r * Z) * (r * Z) * r * r + r ^ 4) / (r * r * r * r * r * r) =
      r6p2 / (105 / 8) * ((((X : ℂ) + (Y : ℂ) * Complex.I) ^ 2).re * dleg 6 2 Z) := by
  rw [cre2, dleg62]
  field_simp
  try ring

theorem constR6p2 : |r6p2 / (105 / 8) - Real.sqrt ((13 / 3360) / Real.pi)| ≤
    1 / 10 ^ 14 * Real.sqrt ((13 / 3360) / Real.pi) := by
  unfold r6p2
  apply close_sqrt <;> norm_num

theorem real6p3 {r X Y Z : ℝ} (hr : 0 < r) (_h : X ^ 2 + Y ^ 2 + Z ^ 2 = 1) :
    r6p3 * (4 * (r * X) * (r * X) * (r * X) - 3 * (r * X) * (Real.sqrt ((r * X) * (r * X) + (r * Y) * (r * Y))) * (Real.sqrt ((r * X) * (r * X) + (r * Y) * (r * Y)))) * (11 * (r * Z) * (r * Z) * (r * Z) - 3 * (r * Z) * r * r) / (r * r * r * r * r * r) =
      r6p3 / (315 / 2) * ((((X : ℂ) + (Y : ℂ) * Complex.I) ^ 3).re * dleg 6 3 Z) := by
  rw [cre3, dleg63]
  have hp : r6p3 * (4 * (r * X) * (r * X) * (r * X) - 3 * (r * X) * (Real.sqrt ((r * X) * (r * X) + (r * Y) * (r * Y))) * (Real.sqrt ((r * X) * (r * X) + (r * Y) * (r * Y)))) * (11 * (r * Z) * (r * Z) * (r * Z) - 3 * (r * Z) * r * r) / (r * r * r * r * r * r) =
      r6p3 * (4 * (r * X) * (r * X) * (r * X) - 3 * (r * X) * (Real.sqrt ((r * X) * (r * X) + (r * Y) * (r * Y)) * Real.sqrt ((r * X) * (r * X) + (r * Y) * (r * Y)))) * (11 * (r * Z) * (r * Z) * (r * Z) - 3 * (r * Z) * r * r) / (r * r * r * r * r * r) := by ring
  rw [hp, Real.mul_self_sqrt (add_nonneg (mul_self_nonneg _) (mul_self_nonneg _))]
  field_simp
  try ring

theorem constR6p3 : |r6p3 / (315 / 2) - Real.sqrt ((13 / 120960) / Real.pi)| ≤
    1 / 10 ^ 14 * Real.sqrt ((13 / 120960) / Real.pi) := by
  unfold r6p3
  apply close_sqrt <;> norm_num

theorem real6p4 {r X Y Z : ℝ} (hr : 0 < r) (_h : X ^ 2 + Y ^ 2 + Z ^ 2 = 1) :
    r6p4 * (4 * (r * X) ^ 4 + 4 * (r * Y) ^ 4 - 3 * (Real.sqrt ((r * X) * (r * X) + (r * Y) * (r * Y))) ^ 4) * (11 * (r * Z) * (r * Z) - r * r) / (r * r * r * r * r * r) =
      r6p4 / (945 / 2) * ((((X : ℂ) + (Y : ℂ) * Complex.I) ^ 4).re * dleg 6 4 Z) := by
  rw [cre4, dleg64]
  have hp : r6p4 * (4 * (r * X) ^ 4 + 4 * (r * Y) ^ 4 - 3 * (Real.sqrt ((r * X) * (r * X) + (r * Y) * (r * Y))) ^ 4) * (11 * (r * Z) * (r * Z) - r * r) / (r * r * r * r * r * r) =
      r6p4 * (4 * (r * X) ^ 4 + 4 * (r * Y) ^ 4 - 3 * ((Real.sqrt ((r * X) * (r * X) + (r * Y) * (r * Y)) * Real.sqrt ((r * X) * (r * X) + (r * Y) * (r * Y))) * (Real.sqrt ((r * X) * (r * X) + (r * Y) * (r * Y)) * Real.sqrt ((r * X) * (r * X) + (r * Y) * (r * Y))))) * (11 * (r * Z) * (r * Z) - r * r) / (r * r * r * r * r * r) := by ring
  rw [hp, Real.mul_self_sqrt (add_nonneg (mul_self_nonneg _) (mul_self_nonneg _))]
  field_simp
  try ring

theorem constR6p4 : |r6p4 / (945 / 2) - Real.sqrt ((13 / 3628800) / Real.pi)| ≤
    1 / 10 ^ 14 * Real.sqrt ((13 / 3628800) / Real.pi) := by
  unfold r6p4
  apply close_sqrt <;> norm_num

theorem real6p5 {r X Y Z : ℝ} (hr : 0 < r) (_h : X ^ 2 + Y ^ 2 + Z ^ 2 = 1) :
    r6p5 * (4 * (r * X) ^ 5 + 8 * (r * X) * (r * Y) ^ 4 - 4 * (r * X) * (r * X) * (r * X) * (r * Y) * (r * Y) - 3 * (r * X) * (Real.sqrt ((r * X) * (r * X) + (r * Y) * (r * Y))) ^ 4) * (r * Z) / (r * r * r * r * r * r) =
      r6p5 / (10395) * ((((X : ℂ) + (Y : ℂ) * Complex.I) ^ 5).re * dleg 6 5 Z) := by
  rw [cre5, dleg65]
  have hp : r6p5 * (4 * (r * X) ^ 5 + 8 * (r * X) * (r * Y) ^ 4 - 4 * (r * X) * (r * X) * (r * X) * (r * Y) * (r * Y) - 3 * (r * X) * (Real.sqrt ((r * X) * (r * X) + (r * Y) * (r * Y))) ^ 4) * (r * Z) / (r * r * r * r * r * r) =
      r6p5 * (4 * (r * X) ^ 5 + 8 * (r * X) * (r * Y) ^ 4 - 4 * (r * X) * (r * X) * (r * X) * (r * Y) * (r * Y) - 3 * (r * X) * ((Real.sqrt ((r * X) * (r * X) + (r * Y) * (r * Y)) * Real.sqrt ((r * X) * (r * X) + (r * Y) * (r * Y))) * (Real.sqrt ((r * X) * (r * X) + (r * Y) * (r * Y)) * Real.sqrt ((r * X) * (r * X) + (r * Y) * (r * Y))))) * (r * Z) / (r * r * r * r * r * r) := by ring
  rw [hp, Real.mul_self_sqrt (add_nonneg (mul_self_nonneg _) (mul_self_nonneg _))]
  field_simp
  try ring

theorem constR6p5 : |r6p5 / (10395) - Real.sqrt ((13 / 79833600) / Real.pi)| ≤
    1 / 10 ^ 14 * Real.sqrt ((13 / 79833600) / Real.pi) := by
  unfold r6p5
  apply close_sqrt <;> norm_num

theorem real6p6 {r X Y Z : ℝ} (hr : 0 < r) (_h : X ^ 2 + Y ^ 2 + Z ^ 2 = 1) :
    r6p6 * (4 * (r * X) ^ 6 - 4 * (r * Y) ^ 6 + 12 * (r * X) * (r * X) * (r * Y) ^ 4 - 12 * (r * X) ^ 4 * (r * Y) * (r * Y) + 3 * (r * Y) * (r * Y) * (Real.sqrt ((r * X) * (r * X) + (r * Y) * (r * Y))) ^ 4 - 3 * (r * X) * (r * X) * (Real.sqrt ((r * X) * (r * X) + (r * Y) * (r * Y))) ^ 4) / (r * r * r * r * r * r) =
      r6p6 / (10395) * ((((X : ℂ) + (Y : ℂ) * Complex.I) ^ 6).re * dleg 6 6 Z) := by
  rw [cre6, dleg66]
  have hp : r6p6 * (4 * (r * X) ^ 6 - 4 * (r * Y) ^ 6 + 12 * (r * X) * (r * X) * (r * Y) ^ 4 - 12 * (r * X) ^ 4 * (r * Y) * (r * Y) + 3 * (r * Y) * (r * Y) * (Real.sqrt ((r * X) * (r * X) + (r * Y) * (r * Y))) ^ 4 - 3 * (r * X) * (r * X) * (Real.sqrt ((r * X) * (r * X) + (r * Y) * (r * Y))) ^ 4) / (r * r * r * r * r * r) =
      r6p6 * (4 * (r * X) ^ 6 - 4 * (r * Y) ^ 6 + 12 * (r * X) * (r * X) * (r * Y) ^ 4 - 12 * (r * X) ^ 4 * (r * Y) * (r * Y) + 3 * (r * Y) * (r * Y) * ((Real.sqrt ((r * X) * (r * X) + (r * Y) * (r * Y)) * Real.sqrt ((r * X) * (r * X) + (r * Y) * (r * Y))) * (Real.sqrt ((r * X) * (r * X) + (r * Y) * (r * Y)) * Real.sqrt ((r * X) * (r * X) + (r * Y) * (r * Y)))) - 3 * (r * X) * (r * X) * ((Real.sqrt ((r * X) * (r * X) + (r * Y) * (r * Y)) * Real.sqrt ((r * X) * (r * X) + (r * Y) * (r * Y))) * (Real.sqrt ((r * X) * (r * X) + (r * Y) * (r * Y)) * Real.sqrt ((r * X) * (r * X) + (r * Y) * (r * Y))))) / (r * r * r * r * r * r) := by ring
  rw [hp, Real.mul_self_sqrt (add_nonneg (mul_self_nonneg _) (mul_self_nonneg _))]
  field_simp
  try ring

theorem constR6p6 : |r6p6 / (10395) - Real.sqrt ((13 / 958003200) / Real.pi)| ≤
    1 / 10 ^ 14 * Real.sqrt ((13 / 958003200) / Real.pi) := by
  unfold r6p6
  apply close_sqrt <;> norm_num

end Sparc.Sph

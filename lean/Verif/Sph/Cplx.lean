import Verif.Sph.Real

/-! # Spherical harmonics (complex formulas case by case) -/

namespace Sparc.Sph

theorem cplx0z0 {r X Y Z : ℝ} (_hr : 0 < r) (_h : X ^ 2 + Y ^ 2 + Z ^ 2 = 1) :
    ((z00 : ℂ) : ℂ) =
      (((z00 / (1) : ℝ) : ℂ)) * ((-1) ^ 0 * (((X : ℂ) + (Y : ℂ) * Complex.I) ^ 0 * (dleg 0 0 Z : ℂ))) := by
  rw [dleg00]
  push_cast
  norm_num

theorem constZ0z0 : |z00 / (1) - Real.sqrt ((1 / 4) / Real.pi)| ≤
    1 / 10 ^ 14 * Real.sqrt ((1 / 4) / Real.pi) := by
  unfold z00
  apply close_sqrt <;> norm_num

theorem cplx1m1 {r X Y Z : ℝ} (hr : 0 < r) (_h : X ^ 2 + Y ^ 2 + Z ^ 2 = 1) :
    ((z11 : ℂ) * ((((r : ℂ) * (X : ℂ)) - Complex.I * ((r : ℂ) * (Y : ℂ))) / (r : ℂ)) : ℂ) =
      (((z11 / (1) : ℝ) : ℂ)) * ((((X : ℂ) - (Y : ℂ) * Complex.I) ^ 1 * (dleg 1 1 Z : ℂ))) := by
  rw [dleg11]
  have hr' : (r : ℂ) ≠ 0 := by exact_mod_cast hr.ne'
  push_cast
  field_simp
  try ring

theorem constZ1m1 : |z11 / (1) - Real.sqrt ((3 / 8) / Real.pi)| ≤
    1 / 10 ^ 14 * Real.sqrt ((3 / 8) / Real.pi) := by
  unfold z11
  apply close_sqrt <;> norm_num

theorem cplx1z0 {r X Y Z : ℝ} (hr : 0 < r) (_h : X ^ 2 + Y ^ 2 + Z ^ 2 = 1) :
    ((z10 : ℂ) * (((r : ℂ) * (Z : ℂ)) / (r : ℂ)) : ℂ) =
      (((z10 / (1) : ℝ) : ℂ)) * ((-1) ^ 0 * (((X : ℂ) + (Y : ℂ) * Complex.I) ^ 0 * (dleg 1 0 Z : ℂ))) := by
  rw [dleg10]
  have hr' : (r : ℂ) ≠ 0 := by exact_mod_cast hr.ne'
  push_cast
  field_simp
  try ring

theorem constZ1z0 : |z10 / (1) - Real.sqrt ((3 / 4) / Real.pi)| ≤
    1 / 10 ^ 14 * Real.sqrt ((3 / 4) / Real.pi) := by
  unfold z10
  apply close_sqrt <;> norm_num

theorem cplx1p1 {r X Y Z : ℝ} (hr : 0 < r) (_h : X ^ 2 + Y ^ 2 + Z ^ 2 = 1) :
    (-(z11 : ℂ) * ((((r : ℂ) * (X : ℂ)) + Complex.I * ((r : ℂ) * (Y : ℂ))) / (r : ℂ)) : ℂ) =
      (((z11 / (1) : ℝ) : ℂ)) * ((-1) ^ 1 * (((X : ℂ) + (Y : ℂ) * Complex.I) ^ 1 * (dleg 1 1 Z : ℂ))) := by
  rw [dleg11]
  have hr' : (r : ℂ) ≠ 0 := by exact_mod_cast hr.ne'
  push_cast
  field_simp
  try ring

theorem constZ1p1 : |z11 / (1) - Real.sqrt ((3 / 8) / Real.pi)| ≤
    1 / 10 ^ 14 * Real.sqrt ((3 / 8) / Real.pi) := by
  unfold z11
  apply close_sqrt <;> norm_num

theorem cplx2m2 {r X Y Z : ℝ} (hr : 0 < r) (_h : X ^ 2 + Y ^ 2 + Z ^ 2 = 1) :
    ((z22 : ℂ) * ((((r : ℂ) * (X : ℂ)) - Complex.I * ((r : ℂ) * (Y : ℂ))) * (((r : ℂ) * (X : ℂ)) - Complex.I * ((r : ℂ) * (Y : ℂ)))) / ((r : ℂ) * (r : ℂ)) : ℂ) =
      (((z22 / (3) : ℝ) : ℂ)) * ((((X : ℂ) - (Y : ℂ) * Complex.I) ^ 2 * (dleg 2 2 Z : ℂ))) := by
  rw [dleg22]
  have hr' : (r : ℂ) ≠ 0 := by exact_mod_cast hr.ne'
  push_cast
  field_simp
  try ring

theorem constZ2m2 : |z22 / (3) - Real.sqrt ((5 / 96) / Real.pi)| ≤
    1 / 10 ^ 14 * Real.sqrt ((5 / 96) / Real.pi) := by
  unfold z22
  apply close_sqrt <;> norm_num

theorem cplx2m1 {r X Y Z : ℝ} (hr : 0 < r) (_h : X ^ 2 + Y ^ 2 + Z ^ 2 = 1) :
    ((z21 : ℂ) * ((((r : ℂ) * (X : ℂ)) - Complex.I * ((r : ℂ) * (Y : ℂ))) * ((r : ℂ) * (Z : ℂ))) / ((r : ℂ) * (r : ℂ)) : ℂ) =
      (((z21 / (3) : ℝ) : ℂ)) * ((((X : ℂ) - (Y : ℂ) * Complex.I) ^ 1 * (dleg 2 1 Z : ℂ))) := by
  rw [dleg21]
  have hr' : (r : ℂ) ≠ 0 := by exact_mod_cast hr.ne'
  push_cast
  field_simp
  try ring

theorem constZ2m1 : |z21 / (3) - Real.sqrt ((5 / 24) / Real.pi)| ≤
    1 / 10 ^ 14 * Real.sqrt ((5 / 24) / Real.pi) := by
  unfold z21
  apply close_sqrt <;> norm_num

theorem cplx2z0 {r X Y Z : ℝ} (hr : 0 < r) (h : X ^ 2 + Y ^ 2 + Z ^ 2 = 1) :
    ((z20 : ℂ) * (2 * ((r : ℂ) * (Z : ℂ)) * ((r : ℂ) * (Z : ℂ)) - ((r : ℂ) * (X : ℂ)) * ((r : ℂ) * (X : ℂ)) - ((r : ℂ) * (Y : ℂ)) * ((r : ℂ) * (Y : ℂ))) / ((r : ℂ) * (r : ℂ)) : ℂ) =
      (((z20 / (1 / 2) : ℝ) : ℂ)) * ((-1) ^ 0 * (((X : ℂ) + (Y : ℂ) * Complex.I) ^ 0 * (dleg 2 0 Z : ℂ))) := by
  rw [dleg20]
  have hr' : (r : ℂ) ≠ 0 := by exact_mod_cast hr.ne'
  push_cast
  have h' : (X : ℂ) ^ 2 + (Y : ℂ) ^ 2 + (Z : ℂ) ^ 2 = 1 := by exact_mod_cast h
  field_simp
  linear_combination ((-z20)) * h'

theorem constZ2z0 : |z20 / (1 / 2) - Real.sqrt ((5 / 4) / Real.pi)| ≤
    1 / 10 ^ 14 * Real.sqrt ((5 / 4) / Real.pi) := by
  unfold z20
  apply close_sqrt <;> norm_num

theorem cplx2p1 {r X Y Z : ℝ} (hr : 0 < r) (_h : X ^ 2 + Y ^ 2 + Z ^ 2 = 1) :
    (-(z21 : ℂ) * ((((r : ℂ) * (X : ℂ)) + Complex.I * ((r : ℂ) * (Y : ℂ))) * ((r : ℂ) * (Z : ℂ))) / ((r : ℂ) * (r : ℂ)) : ℂ) =
      (((z21 / (3) : ℝ) : ℂ)) * ((-1) ^ 1 * (((X : ℂ) + (Y : ℂ) * Complex.I) ^ 1 * (dleg 2 1 Z : ℂ))) := by
  rw [dleg21]
  have hr' : (r : ℂ) ≠ 0 := by exact_mod_cast hr.ne'
  push_cast
  field_simp
  try ring

theorem constZ2p1 : |z21 / (3) - Real.sqrt ((5 / 24) / Real.pi)| ≤
    1 / 10 ^ 14 * Real.sqrt ((5 / 24) / Real.pi) := by
  unfold z21
  apply close_sqrt <;> norm_num

theorem cplx2p2 {r X Y Z : ℝ} (hr : 0 < r) (_h : X ^ 2 + Y ^ 2 + Z ^ 2 = 1) :
    ((z22 : ℂ) * ((((r : ℂ) * (X : ℂ)) + Complex.I * ((r : ℂ) * (Y : ℂ))) * (((r : ℂ) * (X : ℂ)) + Complex.I * ((r : ℂ) * (Y : ℂ)))) / ((r : ℂ) * (r : ℂ)) : ℂ) =
      (((z22 / (3) : ℝ) : ℂ)) * ((-1) ^ 2 * (((X : ℂ) + (Y : ℂ) * Complex.I) ^ 2 * (dleg 2 2 Z : ℂ))) := by
  rw [dleg22]
  have hr' : (r : ℂ) ≠ 0 := by exact_mod_cast hr.ne'
  push_cast
  field_simp
  try ring

theorem constZ2p2 : |z22 / (3) - Real.sqrt ((5 / 96) / Real.pi)| ≤
    1 / 10 ^ 14 * Real.sqrt ((5 / 96) / Real.pi) := by
  unfold z22
  apply close_sqrt <;> norm_num

theorem cplx3m3 {r X Y Z : ℝ} (hr : 0 < r) (_h : X ^ 2 + Y ^ 2 + Z ^ 2 = 1) :
    ((z33 : ℂ) * ((((r : ℂ) * (X : ℂ)) - Complex.I * ((r : ℂ) * (Y : ℂ))) * (((r : ℂ) * (X : ℂ)) - Complex.I * ((r : ℂ) * (Y : ℂ))) * (((r : ℂ) * (X : ℂ)) - Complex.I * ((r : ℂ) * (Y : ℂ)))) / ((r : ℂ) * (r : ℂ) * (r : ℂ)) : ℂ) =
      (((z33 / (15) : ℝ) : ℂ)) * ((((X : ℂ) - (Y : ℂ) * Complex.I) ^ 3 * (dleg 3 3 Z : ℂ))) := by
  rw [dleg33]
  have hr' : (r : ℂ) ≠ 0 := by exact_mod_cast hr.ne'
  push_cast
  field_simp
  try ring

theorem constZ3m3 : |z33 / (15) - Real.sqrt ((7 / 2880) / Real.pi)| ≤
    1 / 10 ^ 14 * Real.sqrt ((7 / 2880) / Real.pi) := by
  unfold z33
  apply close_sqrt <;> norm_num

theorem cplx3m2 {r X Y Z : ℝ} (hr : 0 < r) (_h : X ^ 2 + Y ^ 2 + Z ^ 2 = 1) :
    ((z32 : ℂ) * ((((r : ℂ) * (X : ℂ)) - Complex.I * ((r : ℂ) * (Y : ℂ))) * ((((r : ℂ) * (X : ℂ)) - Complex.I * ((r : ℂ) * (Y : ℂ)))) * ((r : ℂ) * (Z : ℂ))) / ((r : ℂ) * (r : ℂ) * (r : ℂ)) : ℂ) =
      (((z32 / (15) : ℝ) : ℂ)) * ((((X : ℂ) - (Y : ℂ) * Complex.I) ^ 2 * (dleg 3 2 Z : ℂ))) := by
  rw [dleg32]
  have hr' : (r : ℂ) ≠ 0 := by exact_mod_cast hr.ne'
  push_cast
  field_simp
  try ring

theorem constZ3m2 : |z32 / (15) - Real.sqrt ((7 / 480) / Real.pi)| ≤
    1 / 10 ^ 14 * Real.sqrt ((7 / 480) / Real.pi) := by
  unfold z32
  apply close_sqrt <;> norm_num

theorem cplx3m1 {r X Y Z : ℝ} (hr : 0 < r) (h : X ^ 2 + Y ^ 2 + Z ^ 2 = 1) :
    ((z31 : ℂ) * (((r : ℂ) * (X : ℂ)) - Complex.I * ((r : ℂ) * (Y : ℂ))) * (4 * ((r : ℂ) * (Z : ℂ)) * ((r : ℂ) * (Z : ℂ)) - ((r : ℂ) * (X : ℂ)) * ((r : ℂ) * (X : ℂ)) - ((r : ℂ) * (Y : ℂ)) * ((r : ℂ) * (Y : ℂ))) / ((r : ℂ) * (r : ℂ) * (r : ℂ)) : ℂ) =
      (((z31 / (3 / 2) : ℝ) : ℂ)) * ((((X : ℂ) - (Y : ℂ) * Complex.I) ^ 1 * (dleg 3 1 Z : ℂ))) := by
  rw [dleg31]
  have hr' : (r : ℂ) ≠ 0 := by exact_mod_cast hr.ne'
  push_cast
  have h' : (X : ℂ) ^ 2 + (Y : ℂ) ^ 2 + (Z : ℂ) ^ 2 = 1 := by exact_mod_cast h
  field_simp
  linear_combination ((-3 * z31 * (X - Y * Complex.I))) * h'

theorem constZ3m1 : |z31 / (3 / 2) - Real.sqrt ((7 / 48) / Real.pi)| ≤
    1 / 10 ^ 14 * Real.sqrt ((7 / 48) / Real.pi) := by
  unfold z31
  apply close_sqrt <;> norm_num

theorem cplx3z0 {r X Y Z : ℝ} (hr : 0 < r) (h : X ^ 2 + Y ^ 2 + Z ^ 2 = 1) :
    ((z30 : ℂ) * ((r : ℂ) * (Z : ℂ)) * (2 * ((r : ℂ) * (Z : ℂ)) * ((r : ℂ) * (Z : ℂ)) - 3 * ((r : ℂ) * (X : ℂ)) * ((r : ℂ) * (X : ℂ)) - 3 * ((r : ℂ) * (Y : ℂ)) * ((r : ℂ) * (Y : ℂ))) / ((r : ℂ) * (r : ℂ) * (r : ℂ)) : ℂ) =
      (((z30 / (1 / 2) : ℝ) : ℂ)) * ((-1) ^ 0 * (((X : ℂ) + (Y : ℂ) * Complex.I) ^ 0 * (dleg 3 0 Z : ℂ))) := by
  rw [dleg30]
  have hr' : (r : ℂ) ≠ 0 := by exact_mod_cast hr.ne'
  push_cast
  have h' : (X : ℂ) ^ 2 + (Y : ℂ) ^ 2 + (Z : ℂ) ^ 2 = 1 := by exact_mod_cast h
  field_simp
  linear_combination ((-3 * z30 * Z)) * h'

theorem constZ3z0 : |z30 / (1 / 2) - Real.sqrt ((7 / 4) / Real.pi)| ≤
    1 / 10 ^ 14 * Real.sqrt ((7 / 4) / Real.pi) := by
  unfold z30
  apply close_sqrt <;> norm_num

theorem cplx3p1 {r X Y Z : ℝ} (hr : 0 < r) (h : X ^ 2 + Y ^ 2 + Z ^ 2 = 1) :
    (-(z31 : ℂ) * (((r : ℂ) * (X : ℂ)) + Complex.I * ((r : ℂ) * (Y : ℂ))) * (4 * ((r : ℂ) * (Z : ℂ)) * ((r : ℂ) * (Z : ℂ)) - ((r : ℂ) * (X : ℂ)) * ((r : ℂ) * (X : ℂ)) - ((r : ℂ) * (Y : ℂ)) * ((r : ℂ) * (Y : ℂ))) / ((r : ℂ) * (r : ℂ) * (r : ℂ)) : ℂ) =
      (((z31 / (3 / 2) : ℝ) : ℂ)) * ((-1) ^ 1 * (((X : ℂ) + (Y : ℂ) * Complex.I) ^ 1 * (dleg 3 1 Z : ℂ))) := by
  rw [dleg31]
  have hr' : (r : ℂ) ≠ 0 := by exact_mod_cast hr.ne'
  push_cast
  have h' : (X : ℂ) ^ 2 + (Y : ℂ) ^ 2 + (Z : ℂ) ^ 2 = 1 := by exact_mod_cast h
  field_simp
  linear_combination (-(-3 * z31 * (X + Y * Complex.I))) * h'

theorem constZ3p1 : |z31 / (3 / 2) - Real.sqrt ((7 / 48) / Real.pi)| ≤
    1 / 10 ^ 14 * Real.sqrt ((7 / 48) / Real.pi) := by
  unfold z31
  apply close_sqrt <;> norm_num

theorem cplx3p2 {r X Y Z : ℝ} (hr : 0 < r) (_h : X ^ 2 + Y ^ 2 + Z ^ 2 = 1) :
    ((z32 : ℂ) * (((((r : ℂ) * (X : ℂ)) + Complex.I * ((r : ℂ) * (Y : ℂ))) * (((r : ℂ) * (X : ℂ)) + Complex.I * ((r : ℂ) * (Y : ℂ)))) * ((r : ℂ) * (Z : ℂ))) / ((r : ℂ) * (r : ℂ) * (r : ℂ)) : ℂ) =
      (((z32 / (15) : ℝ) : ℂ)) * ((-1) ^ 2 * (((X : ℂ) + (Y : ℂ) * Complex.I) ^ 2 * (dleg 3 2 Z : ℂ))) := by
  rw [dleg32]
  have hr' : (r : ℂ) ≠ 0 := by exact_mod_cast hr.ne'
  push_cast
  field_simp
  try ring

theorem constZ3p2 : |z32 / (15) - Real.sqrt ((7 / 480) / Real.pi)| ≤
    1 / 10 ^ 14 * Real.sqrt ((7 / 480) / Real.pi) := by
  unfold z32
  apply close_sqrt <;> norm_num

theorem cplx3p3 {r X Y Z : ℝ} (hr : 0 < r) (_h : X ^ 2 + Y ^ 2 + Z ^ 2 = 1) :
    (-(z33 : ℂ) * ((((r : ℂ) * (X : ℂ)) + Complex.I * ((r : ℂ) * (Y : ℂ))) * (((r : ℂ) * (X : ℂ)) + Complex.I * ((r : ℂ) * (Y : ℂ))) * (((r : ℂ) * (X : ℂ)) + Complex.I * ((r : ℂ) * (Y : ℂ)))) / ((r : ℂ) * (r : ℂ) * (r : ℂ)) : ℂ) =
      (((z33 / (15) : ℝ) : ℂ)) * ((-1) ^ 3 * (((X : ℂ) + (Y : ℂ) * Complex.I) ^ 3 * (dleg 3 3 Z : ℂ))) := by
  rw [dleg33]
  have hr' : (r : ℂ) ≠ 0 := by exact_mod_cast hr.ne'
  push_cast
  field_simp
  try ring

theorem constZ3p3 : |z33 / (15) - Real.sqrt ((7 / 2880) / Real.pi)| ≤
    1 / 10 ^ 14 * Real.sqrt ((7 / 2880) / Real.pi) := by
  unfold z33
  apply close_sqrt <;> norm_num

theorem cplx4m4 {r X Y Z : ℝ} (hr : 0 < r) (_h : X ^ 2 + Y ^ 2 + Z ^ 2 = 1) :
    ((z44 : ℂ) * ((((r : ℂ) * (X : ℂ)) - Complex.I * ((r : ℂ) * (Y : ℂ))) * (((r : ℂ) * (X : ℂ)) - Complex.I * ((r : ℂ) * (Y : ℂ))) * (((r : ℂ) * (X : ℂ)) - Complex.I * ((r : ℂ) * (Y : ℂ))) * (((r : ℂ) * (X : ℂ)) - Complex.I * ((r : ℂ) * (Y : ℂ)))) / (r : ℂ) ^ 4 : ℂ) =
      (((z44 / (105) : ℝ) : ℂ)) * ((((X : ℂ) - (Y : ℂ) * Complex.I) ^ 4 * (dleg 4 4 Z : ℂ))) := by
  rw [dleg44]
  have hr' : (r : ℂ) ≠ 0 := by exact_mod_cast hr.ne'
  push_cast
  field_simp
  try ring

theorem constZ4m4 : |z44 / (105) - Real.sqrt ((1 / 17920) / Real.pi)| ≤
    1 / 10 ^ 14 * Real.sqrt ((1 / 17920) / Real.pi) := by
  unfold z44
  apply close_sqrt <;> norm_num

theorem cplx4m3 {r X Y Z : ℝ} (hr : 0 < r) (_h : X ^ 2 + Y ^ 2 + Z ^ 2 = 1) :
    ((z43 : ℂ) * (((((r : ℂ) * (X : ℂ)) - Complex.I * ((r : ℂ) * (Y : ℂ))) * (((r : ℂ) * (X : ℂ)) - Complex.I * ((r : ℂ) * (Y : ℂ))) * (((r : ℂ) * (X : ℂ)) - Complex.I * ((r : ℂ) * (Y : ℂ)))) * ((r : ℂ) * (Z : ℂ))) / (r : ℂ) ^ 4 : ℂ) =
      (((z43 / (105) : ℝ) : ℂ)) * ((((X : ℂ) - (Y : ℂ) * Complex.I) ^ 3 * (dleg 4 3 Z : ℂ))) := by
  rw [dleg43]
  have hr' : (r : ℂ) ≠ 0 := by exact_mod_cast hr.ne'
  push_cast
  field_simp
  try ring

theorem constZ4m3 : |z43 / (105) - Real.sqrt ((1 / 2240) / Real.pi)| ≤
    1 / 10 ^ 14 * Real.sqrt ((1 / 2240) / Real.pi) := by
  unfold z43
  apply close_sqrt <;> norm_num

theorem cplx4m2 {r X Y Z : ℝ} (hr : 0 < r) (_h : X ^ 2 + Y ^ 2 + Z ^ 2 = 1) :
    ((z42 : ℂ) * (((((r : ℂ) * (X : ℂ)) - Complex.I * ((r : ℂ) * (Y : ℂ))) * (((r : ℂ) * (X : ℂ)) - Complex.I * ((r : ℂ) * (Y : ℂ)))) * (7 * ((r : ℂ) * (Z : ℂ)) * ((r : ℂ) * (Z : ℂ)) - (r : ℂ) * (r : ℂ))) / (r : ℂ) ^ 4 : ℂ) =
      (((z42 / (15 / 2) : ℝ) : ℂ)) * ((((X : ℂ) - (Y : ℂ) * Complex.I) ^ 2 * (dleg 4 2 Z : ℂ))) := by
  rw [dleg42]
  have hr' : (r : ℂ) ≠ 0 := by exact_mod_cast hr.ne'
  push_cast
  field_simp
  try ring

theorem constZ4m2 : |z42 / (15 / 2) - Real.sqrt ((1 / 160) / Real.pi)| ≤
    1 / 10 ^ 14 * Real.sqrt ((1 / 160) / Real.pi) := by
  unfold z42
  apply close_sqrt <;> norm_num

theorem cplx4m1 {r X Y Z : ℝ} (hr : 0 < r) (_h : X ^ 2 + Y ^ 2 + Z ^ 2 = 1) :
    ((z41 : ℂ) * ((((r : ℂ) * (X : ℂ)) - Complex.I * ((r : ℂ) * (Y : ℂ))) * ((r : ℂ) * (Z : ℂ)) * (7 * ((r : ℂ) * (Z : ℂ)) * ((r : ℂ) * (Z : ℂ)) - 3 * (r : ℂ) * (r : ℂ))) / (r : ℂ) ^ 4 : ℂ) =
      (((z41 / (5 / 2) : ℝ) : ℂ)) * ((((X : ℂ) - (Y : ℂ) * Complex.I) ^ 1 * (dleg 4 1 Z : ℂ))) := by
  rw [dleg41]
  have hr' : (r : ℂ) ≠ 0 := by exact_mod_cast hr.ne'
  push_cast
  field_simp
  try ring

theorem constZ4m1 : |z41 / (5 / 2) - Real.sqrt ((9 / 80) / Real.pi)| ≤
    1 / 10 ^ 14 * Real.sqrt ((9 / 80) / Real.pi) := by
  unfold z41
  apply close_sqrt <;> norm_num

theorem cplx4z0 {r X Y Z : ℝ} (hr : 0 < r) (_h : X ^ 2 + Y ^ 2 + Z ^ 2 = 1) :
    ((z40 : ℂ) * (35 * ((r : ℂ) * (Z : ℂ)) * ((r : ℂ) * (Z : ℂ)) * ((r : ℂ) * (Z : ℂ)) * ((r : ℂ) * (Z : ℂ)) - 30 * (((r : ℂ) * (Z : ℂ)) * ((r : ℂ) * (Z : ℂ))) * ((r : ℂ) * (r : ℂ)) + 3 * (r : ℂ) * (r : ℂ) * (r : ℂ) * (r : ℂ)) / (r : ℂ) ^ 4 : ℂ) =
      (((z40 / (1 / 8) : ℝ) : ℂ)) * ((-1) ^ 0 * (((X : ℂ) + (Y : ℂ) * Complex.I) ^ 0 * (dleg 4 0 Z : ℂ))) := by
  rw [dleg40]
  have hr' : (r : ℂ) ≠ 0 := by exact_mod_cast hr.ne'
  push_cast
  field_simp
  try ring

theorem constZ4z0 : |z40 / (1 / 8) - Real.sqrt ((9 / 4) / Real.pi)| ≤
    1 / 10 ^ 14 * Real.sqrt ((9 / 4) / Real.pi) := by
  unfold z40
  apply close_sqrt <;> norm_num

theorem cplx4p1 {r X Y Z : ℝ} (hr : 0 < r) (_h : X ^ 2 + Y ^ 2 + Z ^ 2 = 1) :
    (-(z41 : ℂ) * ((((r : ℂ) * (X : ℂ)) + Complex.I * ((r : ℂ) * (Y : ℂ))) * ((r : ℂ) * (Z : ℂ)) * (7 * ((r : ℂ) * (Z : ℂ)) * ((r : ℂ) * (Z : ℂ)) - 3 * (r : ℂ) * (r : ℂ))) / (r : ℂ) ^ 4 : ℂ) =
      (((z41 / (5 / 2) : ℝ) : ℂ)) * ((-1) ^ 1 * (((X : ℂ) + (Y : ℂ) * Complex.I) ^ 1 * (dleg 4 1 Z : ℂ))) := by
  rw [dleg41]
  have hr' : (r : ℂ) ≠ 0 := by exact_mod_cast hr.ne'
  push_cast
  field_simp
  try ring

theorem constZ4p1 : |z41 / (5 / 2) - Real.sqrt ((9 / 80) / Real.pi)| ≤
    1 / 10 ^ 14 * Real.sqrt ((9 / 80) / Real.pi) := by
  unfold z41
  apply close_sqrt <;> norm_num

theorem cplx4p2 {r X Y Z : ℝ} (hr : 0 < r) (_h : X ^ 2 + Y ^ 2 + Z ^ 2 = 1) :
    ((z42 : ℂ) * (((((r : ℂ) * (X : ℂ)) + Complex.I * ((r : ℂ) * (Y : ℂ))) * (((r : ℂ) * (X : ℂ)) + Complex.I * ((r : ℂ) * (Y : ℂ)))) * (7 * ((r : ℂ) * (Z : ℂ)) * ((r : ℂ) * (Z : ℂ)) - (r : ℂ) * (r : ℂ))) / (r : ℂ) ^ 4 : ℂ) =
      (((z42 / (15 / 2) : ℝ) : ℂ)) * ((-1) ^ 2 * (((X : ℂ) + (Y : ℂ) * Complex.I) ^ 2 * (dleg 4 2 Z : ℂ))) := by
  rw [dleg42]
  have hr' : (r : ℂ) ≠ 0 := by exact_mod_cast hr.ne'
  push_cast
  field_simp
  try ring

theorem constZ4p2 : |z42 / (15 / 2) - Real.sqrt ((1 / 160) / Real.pi)| ≤
    1 / 10 ^ 14 * Real.sqrt ((1 / 160) / Real.pi) := by
  unfold z42
  apply close_sqrt <;> norm_num

theorem cplx4p3 {r X Y Z : ℝ} (hr : 0 < r) (_h : X ^ 2 + Y ^ 2 + Z ^ 2 = 1) :
    (-(z43 : ℂ) * (((((r : ℂ) * (X : ℂ)) + Complex.I * ((r : ℂ) * (Y : ℂ))) * (((r : ℂ) * (X : ℂ)) + Complex.I * ((r : ℂ) * (Y : ℂ))) * (((r : ℂ) * (X : ℂ)) + Complex.I * ((r : ℂ) * (Y : ℂ)))) * ((r : ℂ) * (Z : ℂ))) / (r : ℂ) ^ 4 : ℂ) =
      (((z43 / (105) : ℝ) : ℂ)) * ((-1) ^ 3 * (((X : ℂ) + (Y : ℂ) * Complex.I) ^ 3 * (dleg 4 3 Z : ℂ))) := by
  rw [dleg43]
  have hr' : (r : ℂ) ≠ 0 := by exact_mod_cast hr.ne'
  push_cast
  field_simp
  try ring

theorem constZ4p3 : |z43 / (105) - Real.sqrt ((1 / 2240) / Real.pi)| ≤
    1 / 10 ^ 14 * Real.sqrt ((1 / 2240) / Real.pi) := by
  unfold z43
  apply close_sqrt <;> norm_num

theorem cplx4p4 {r X Y Z : ℝ} (hr : 0 < r) (_h : X ^ 2 + Y ^ 2 + Z ^ 2 = 1) :
    ((z44 : ℂ) * ((((r : ℂ) * (X : ℂ)) + Complex.I * ((r : ℂ) * (Y : ℂ))) * (((r : ℂ) * (X : ℂ)) + Complex.I * ((r : ℂ) * (Y : ℂ))) * (((r : ℂ) * (X : ℂ)) + Complex.I * ((r : ℂ) * (Y : ℂ))) * (((r : ℂ) * (X : ℂ)) + Complex.I * ((r : ℂ) * (Y : ℂ)))) / (r : ℂ) ^ 4 : ℂ) =
      (((z44 / (105) : ℝ) : ℂ)) * ((-1) ^ 4 * (((X : ℂ) + (Y : ℂ) * Complex.I) ^ 4 * (dleg 4 4 Z : ℂ))) := by
  rw [dleg44]
  have hr' : (r : ℂ) ≠ 0 := by exact_mod_cast hr.ne'
  push_cast
  field_simp
  try ring

theorem constZ4p4 : |z44 / (105) - Real.sqrt ((1 / 17920) / Real.pi)| ≤
    1 / 10 ^ 14 * Real.sqrt ((1 / 17920) / Real.pi) := by
  unfold z44
  apply close_sqrt <;> norm_num

theorem cplx5m5 {r X Y Z : ℝ} (hr : 0 < r) (_h : X ^ 2 + Y ^ 2 + Z ^ 2 = 1) :
    ((z55 : ℂ) * ((((r : ℂ) * (X : ℂ)) - Complex.I * ((r : ℂ) * (Y : ℂ))) ^ 5) / (r : ℂ) ^ 5 : ℂ) =
      (((z55 / (945) : ℝ) : ℂ)) * ((((X : ℂ) - (Y : ℂ) * Complex.I) ^ 5 * (dleg 5 5 Z : ℂ))) := by
  rw [dleg55]
  have hr' : (r : ℂ) ≠ 0 := by exact_mod_cast hr.ne'
  push_cast
  field_simp
  try ring

theorem constZ5m5 : |z55 / (945) - Real.sqrt ((11 / 14515200) / Real.pi)| ≤
    1 / 10 ^ 14 * Real.sqrt ((11 / 14515200) / Real.pi) := by
  unfold z55
  apply close_sqrt <;> norm_num

theorem cplx5m4 {r X Y Z : ℝ} (hr : 0 < r) (_h : X ^ 2 + Y ^ 2 + Z ^ 2 = 1) :
    ((z54 : ℂ) * ((((r : ℂ) * (X : ℂ)) - Complex.I * ((r : ℂ) * (Y : ℂ))) ^ 4 * ((r : ℂ) * (Z : ℂ))) / (r : ℂ) ^ 5 : ℂ) =
      (((z54 / (945) : ℝ) : ℂ)) * ((((X : ℂ) - (Y : ℂ) * Complex.I) ^ 4 * (dleg 5 4 Z : ℂ))) := by
  rw [dleg54]
  have hr' : (r : ℂ) ≠ 0 := by exact_mod_cast hr.ne'
  push_cast
  field_simp
  try ring

theorem constZ5m4 : |z54 / (945) - Real.sqrt ((11 / 1451520) / Real.pi)| ≤
    1 / 10 ^ 14 * Real.sqrt ((11 / 1451520) / Real.pi) := by
  unfold z54
  apply close_sqrt <;> norm_num

theorem cplx5m3 {r X Y Z : ℝ} (hr : 0 < r) (_h : X ^ 2 + Y ^ 2 + Z ^ 2 = 1) :
    ((z53 : ℂ) * (((((r : ℂ) * (X : ℂ)) - Complex.I * ((r : ℂ) * (Y : ℂ))) * (((r : ℂ) * (X : ℂ)) - Complex.I * ((r : ℂ) * (Y : ℂ))) * (((r : ℂ) * (X : ℂ)) - Complex.I * ((r : ℂ) * (Y : ℂ)))) * (9 * ((r : ℂ) * (Z : ℂ)) * ((r : ℂ) * (Z : ℂ)) - (r : ℂ) * (r : ℂ))) / (r : ℂ) ^ 5 : ℂ) =
      (((z53 / (105 / 2) : ℝ) : ℂ)) * ((((X : ℂ) - (Y : ℂ) * Complex.I) ^ 3 * (dleg 5 3 Z : ℂ))) := by
  rw [dleg53]
  have hr' : (r : ℂ) ≠ 0 := by exact_mod_cast hr.ne'
  push_cast
  field_simp
  try ring

theorem constZ5m3 : |z53 / (105 / 2) - Real.sqrt ((11 / 80640) / Real.pi)| ≤
    1 / 10 ^ 14 * Real.sqrt ((11 / 80640) / Real.pi) := by
  unfold z53
  apply close_sqrt <;> norm_num

theorem cplx5m2 {r X Y Z : ℝ} (hr : 0 < r) (_h : X ^ 2 + Y ^ 2 + Z ^ 2 = 1) :
    ((z52 : ℂ) * (((((r : ℂ) * (X : ℂ)) - Complex.I * ((r : ℂ) * (Y : ℂ))) * (((r : ℂ) * (X : ℂ)) - Complex.I * ((r : ℂ) * (Y : ℂ)))) * (3 * ((r : ℂ) * (Z : ℂ)) * ((r : ℂ) * (Z : ℂ)) * ((r : ℂ) * (Z : ℂ)) - ((r : ℂ) * (Z : ℂ)) * (r : ℂ) * (r : ℂ))) / (r : ℂ) ^ 5 : ℂ) =
      (((z52 / (105 / 2) : ℝ) : ℂ)) * ((((X : ℂ) - (Y : ℂ) * Complex.I) ^ 2 * (dleg 5 2 Z : ℂ))) := by
  rw [dleg52]
  have hr' : (r : ℂ) ≠ 0 := by exact_mod_cast hr.ne'
  push_cast
  field_simp
  try ring

theorem constZ5m2 : |z52 / (105 / 2) - Real.sqrt ((11 / 3360) / Real.pi)| ≤
    1 / 10 ^ 14 * Real.sqrt ((11 / 3360) / Real.pi) := by
  unfold z52
  apply close_sqrt <;> norm_num

theorem cplx5m1 {r X Y Z : ℝ} (hr : 0 < r) (_h : X ^ 2 + Y ^ 2 + Z ^ 2 = 1) :
    ((z51 : ℂ) * ((((r : ℂ) * (X : ℂ)) - Complex.I * ((r : ℂ) * (Y : ℂ))) * (21 * ((r : ℂ) * (Z : ℂ)) ^ 4 - 14 * ((r : ℂ) * (Z : ℂ)) * ((r : ℂ) * (Z : ℂ)) * (r : ℂ) * (r : ℂ) + (r : ℂ) ^ 4)) / (r : ℂ) ^ 5 : ℂ) =
      (((z51 / (15 / 8) : ℝ) : ℂ)) * ((((X : ℂ) - (Y : ℂ) * Complex.I) ^ 1 * (dleg 5 1 Z : ℂ))) := by
  rw [dleg51]
  have hr' : (r : ℂ) ≠ 0 := by exact_mod_cast hr.ne'
  push_cast
  field_simp
  try ring

theorem constZ5m1 : |z51 / (15 / 8) - Real.sqrt ((11 / 120) / Real.pi)| ≤
    1 / 10 ^ 14 * Real.sqrt ((11 / 120) / Real.pi) := by
  unfold z51
  apply close_sqrt <;> norm_num

theorem cplx5z0 {r X Y Z : ℝ} (hr : 0 < r) (_h : X ^ 2 + Y ^ 2 + Z ^ 2 = 1) :
    ((z50 : ℂ) * (63 * ((r : ℂ) * (Z : ℂ)) ^ 5 - 70 * (((r : ℂ) * (Z : ℂ)) * ((r : ℂ) * (Z : ℂ)) * ((r : ℂ) * (Z : ℂ))) * ((r : ℂ) * (r : ℂ)) + 15 * ((r : ℂ) * (Z : ℂ)) * (r : ℂ) ^ 4) / (r : ℂ) ^ 5 : ℂ) =
      (((z50 / (1 / 8) : ℝ) : ℂ)) * ((-1) ^ 0 * (((X : ℂ) + (Y : ℂ) * Complex.I) ^ 0 * (dleg 5 0 Z : ℂ))) := by
  rw [dleg50]
  have hr' : (r : ℂ) ≠ 0 := by exact_mod_cast hr.ne'
  push_cast
  field_simp
  try ring

theorem constZ5z0 : |z50 / (1 / 8) - Real.sqrt ((11 / 4) / Real.pi)| ≤
    1 / 10 ^ 14 * Real.sqrt ((11 / 4) / Real.pi) := by
  unfold z50
  apply close_sqrt <;> norm_num

theorem cplx5p1 {r X Y Z : ℝ} (hr : 0 < r) (_h : X ^ 2 + Y ^ 2 + Z ^ 2 = 1) :
    (-(z51 : ℂ) * ((((r : ℂ) * (X : ℂ)) + Complex.I * ((r : ℂ) * (Y : ℂ))) * (21 * ((r : ℂ) * (Z : ℂ)) ^ 4 - 14 * ((r : ℂ) * (Z : ℂ)) * ((r : ℂ) * (Z : ℂ)) * (r : ℂ) * (r : ℂ) + (r : ℂ) ^ 4)) / (r : ℂ) ^ 5 : ℂ) =
      (((z51 / (15 / 8) : ℝ) : ℂ)) * ((-1) ^ 1 * (((X : ℂ) + (Y : ℂ) * Complex.I) ^ 1 * (dleg 5 1 Z : ℂ))) := by
  rw [dleg51]
  have hr' : (r : ℂ) ≠ 0 := by exact_mod_cast hr.ne'
  push_cast
  field_simp
  try ring

theorem constZ5p1 : |z51 / (15 / 8) - Real.sqrt ((11 / 120) / Real.pi)| ≤
    1 / 10 ^ 14 * Real.sqrt ((11 / 120) / Real.pi) := by
  unfold z51
  apply close_sqrt <;> norm_num

theorem cplx5p2 {r X Y Z : ℝ} (hr : 0 < r) (_h : X ^ 2 + Y ^ 2 + Z ^ 2 = 1) :
    ((z52 : ℂ) * (((((r : ℂ) * (X : ℂ)) + Complex.I * ((r : ℂ) * (Y : ℂ))) * (((r : ℂ) * (X : ℂ)) + Complex.I * ((r : ℂ) * (Y : ℂ)))) * (3 * ((r : ℂ) * (Z : ℂ)) * ((r : ℂ) * (Z : ℂ)) * ((r : ℂ) * (Z : ℂ)) - ((r : ℂ) * (Z : ℂ)) * (r : ℂ) * (r : ℂ))) / (r : ℂ) ^ 5 : ℂ) =
      (((z52 / (105 / 2) : ℝ) : ℂ)) * ((-1) ^ 2 * (((X : ℂ) + (Y : ℂ) * Complex.I) ^ 2 * (dleg 5 2 Z : ℂ))) := by
  rw [dleg52]
  have hr' : (r : ℂ) ≠ 0 := by exact_mod_cast hr.ne'
  push_cast
  field_simp
  try ring

theorem constZ5p2 : |z52 / (105 / 2) - Real.sqrt ((11 / 3360) / Real.pi)| ≤
    1 / 10 ^ 14 * Real.sqrt ((11 / 3360) / Real.pi) := by
  unfold z52
  apply close_sqrt <;> norm_num

theorem cplx5p3 {r X Y Z : ℝ} (hr : 0 < r) (_h : X ^ 2 + Y ^ 2 + Z ^ 2 = 1) :
    (-(z53 : ℂ) * (((((r : ℂ) * (X : ℂ)) + Complex.I * ((r : ℂ) * (Y : ℂ))) * (((r : ℂ) * (X : ℂ)) + Complex.I * ((r : ℂ) * (Y : ℂ))) * (((r : ℂ) * (X : ℂ)) + Complex.I * ((r : ℂ) * (Y : ℂ)))) * (9 * ((r : ℂ) * (Z : ℂ)) * ((r : ℂ) * (Z : ℂ)) - (r : ℂ) * (r : ℂ))) / (r : ℂ) ^ 5 : ℂ) =
      (((z53 / (105 / 2) : ℝ) : ℂ)) * ((-1) ^ 3 * (((X : ℂ) + (Y : ℂ) * Complex.I) ^ 3 * (dleg 5 3 Z : ℂ))) := by
  rw [dleg53]
  have hr' : (r : ℂ) ≠ 0 := by exact_mod_cast hr.ne'
  push_cast
  field_simp
  try ring

theorem constZ5p3 : |z53 / (105 / 2) - Real.sqrt ((11 / 80640) / Real.pi)| ≤
    1 / 10 ^ 14 * Real.sqrt ((11 / 80640) / Real.pi) := by
  unfold z53
  apply close_sqrt <;> norm_num

theorem cplx5p4 {r X Y Z : ℝ} (hr : 0 < r) (_h : X ^ 2 + Y ^ 2 + Z ^ 2 = 1) :
    ((z54 : ℂ) * ((((r : ℂ) * (X : ℂ)) + Complex.I * ((r : ℂ) * (Y : ℂ))) ^ 4 * ((r : ℂ) * (Z : ℂ))) / (r : ℂ) ^ 5 : ℂ) =
      (((z54 / (945) : ℝ) : ℂ)) * ((-1) ^ 4 * (((X : ℂ) + (Y : ℂ) * Complex.I) ^ 4 * (dleg 5 4 Z : ℂ))) := by
  rw [dleg54]
  have hr' : (r : ℂ) ≠ 0 := by exact_mod_cast hr.ne'
  push_cast
  field_simp
  try ring

theorem constZ5p4 : |z54 / (945) - Real.sqrt ((11 / 1451520) / Real.pi)| ≤
    1 / 10 ^ 14 * Real.sqrt ((11 / 1451520) / Real.pi) := by
  unfold z54
  apply close_sqrt <;> norm_num

theorem cplx5p5 {r X Y Z : ℝ} (hr : 0 < r) (_h : X ^ 2 + Y ^ 2 + Z ^ 2 = 1) :
    (-(z55 : ℂ) * (((r : ℂ) * (X : ℂ)) + Complex.I * ((r : ℂ) * (Y : ℂ))) ^ 5 / (r : ℂ) ^ 5 : ℂ) =
      (((z55 / (945) : ℝ) : ℂ)) * ((-1) ^ 5 * (((X : ℂ) + (Y : ℂ) * Complex.I) ^ 5 * (dleg 5 5 Z : ℂ))) := by
  rw [dleg55]
  have hr' : (r : ℂ) ≠ 0 := by exact_mod_cast hr.ne'
  push_cast
  field_simp
  try ring

theorem constZ5p5 : |z55 / (945) - Real.sqrt ((11 / 14515200) / Real.pi)| ≤
    1 / 10 ^ 14 * Real.sqrt ((11 / 14515200) / Real.pi) := by
  unfold z55
  apply close_sqrt <;> norm_num

theorem cplx6m6 {r X Y Z : ℝ} (hr : 0 < r) (_h : X ^ 2 + Y ^ 2 + Z ^ 2 = 1) :
    ((z66 : ℂ) * (((r : ℂ) * (X : ℂ)) - Complex.I * ((r : ℂ) * (Y : ℂ))) ^ 6 / (r : ℂ) ^ 6 : ℂ) =
      (((z66 / (10395) : ℝ) : ℂ)) * ((((X : ℂ) - (Y : ℂ) * Complex.I) ^ 6 * (dleg 6 6 Z : ℂ))) := by
  rw [dleg66]
  have hr' : (r : ℂ) ≠ 0 := by exact_mod_cast hr.ne'
  push_cast
  field_simp
  try ring

theorem constZ6m6 : |z66 / (10395) - Real.sqrt ((13 / 1916006400) / Real.pi)| ≤
    1 / 10 ^ 14 * Real.sqrt ((13 / 1916006400) / Real.pi) := by
  unfold z66
  apply close_sqrt <;> norm_num

theorem cplx6m5 {r X Y Z : ℝ} (hr : 0 < r) (_h : X ^ 2 + Y ^ 2 + Z ^ 2 = 1) :
    ((z65 : ℂ) * ((((r : ℂ) * (X : ℂ)) - Complex.I * ((r : ℂ) * (Y : ℂ))) ^ 5 * ((r : ℂ) * (Z : ℂ))) / (r : ℂ) ^ 6 : ℂ) =
      (((z65 / (10395) : ℝ) : ℂ)) * ((((X : ℂ) - (Y : ℂ) * Complex.I) ^ 5 * (dleg 6 5 Z : ℂ))) := by
  rw [dleg65]
  have hr' : (r : ℂ) ≠ 0 := by exact_mod_cast hr.ne'
  push_cast
  field_simp
  try ring

theorem constZ6m5 : |z65 / (10395) - Real.sqrt ((13 / 159667200) / Real.pi)| ≤
    1 / 10 ^ 14 * Real.sqrt ((13 / 159667200) / Real.pi) := by
  unfold z65
  apply close_sqrt <;> norm_num

theorem cplx6m4 {r X Y Z : ℝ} (hr : 0 < r) (_h : X ^ 2 + Y ^ 2 + Z ^ 2 = 1) :
    ((z64 : ℂ) * ((((r : ℂ) * (X : ℂ)) - Complex.I * ((r : ℂ) * (Y : ℂ))) ^ 4 * (11 * ((r : ℂ) * (Z : ℂ)) * ((r : ℂ) * (Z : ℂ)) - (r : ℂ) * (r : ℂ))) / (r : ℂ) ^ 6 : ℂ) =
      (((z64 / (945 / 2) : ℝ) : ℂ)) * ((((X : ℂ) - (Y : ℂ) * Complex.I) ^ 4 * (dleg 6 4 Z : ℂ))) := by
  rw [dleg64]
  have hr' : (r : ℂ) ≠ 0 := by exact_mod_cast hr.ne'
  push_cast
  field_simp
  try ring

theorem constZ6m4 : |z64 / (945 / 2) - Real.sqrt ((13 / 7257600) / Real.pi)| ≤
    1 / 10 ^ 14 * Real.sqrt ((13 / 7257600) / Real.pi) := by
  unfold z64
  apply close_sqrt <;> norm_num

theorem cplx6m3 {r X Y Z : ℝ} (hr : 0 < r) (_h : X ^ 2 + Y ^ 2 + Z ^ 2 = 1) :
    ((z63 : ℂ) * (((((r : ℂ) * (X : ℂ)) - Complex.I * ((r : ℂ) * (Y : ℂ))) * (((r : ℂ) * (X : ℂ)) - Complex.I * ((r : ℂ) * (Y : ℂ))) * (((r : ℂ) * (X : ℂ)) - Complex.I * ((r : ℂ) * (Y : ℂ)))) * (11 * ((r : ℂ) * (Z : ℂ)) * ((r : ℂ) * (Z : ℂ)) * ((r : ℂ) * (Z : ℂ)) - 3 * ((r : ℂ) * (Z : ℂ)) * (r : ℂ) * (r : ℂ))) / (r : ℂ) ^ 6 : ℂ) =
      (((z63 / (315 / 2) : ℝ) : ℂ)) * ((((X : ℂ) - (Y : ℂ) * Complex.I) ^ 3 * (dleg 6 3 Z : ℂ))) := by
  rw [dleg63]
  have hr' : (r : ℂ) ≠ 0 := by exact_mod_cast hr.ne'
  push_cast
  field_simp
  try ring

theorem constZ6m3 : |z63 / (315 / 2) - Real.sqrt ((13 / 241920) / Real.pi)| ≤
    1 / 10 ^ 14 * Real.sqrt ((13 / 241920) / Real.pi) := by
  unfold z63
  apply close_sqrt <;> norm_num

theorem cplx6m2 {r X Y Z : ℝ} (hr : 0 < r) (_h : X ^ 2 + Y ^ 2 + Z ^ 2 = 1) :
    ((z62 : ℂ) * (((((r : ℂ) * (X : ℂ)) - Complex.I * ((r : ℂ) * (Y : ℂ))) * (((r : ℂ) * (X : ℂ)) - Complex.I * ((r : ℂ) * (Y : ℂ)))) * (33 * ((r : ℂ) * (Z : ℂ)) ^ 4 - 18 * (((r : ℂ) * (Z : ℂ)) * ((r : ℂ) * (Z : ℂ))) * ((r : ℂ) * (r : ℂ)) + (r : ℂ) ^ 4)) / (r : ℂ) ^ 6 : ℂ) =
      (((z62 / (105 / 8) : ℝ) : ℂ)) * ((((X : ℂ) - (Y : ℂ) * Complex.I) ^ 2 * (dleg 6 2 Z : ℂ))) := by
  rw [dleg62]
  have hr' : (r : ℂ) ≠ 0 := by exact_mod_cast hr.ne'
  push_cast
  field_simp
  try ring

theorem constZ6m2 : |z62 / (105 / 8) - Real.sqrt ((13 / 6720) / Real.pi)| ≤
    1 / 10 ^ 14 * Real.sqrt ((13 / 6720) / Real.pi) := by
  unfold z62
  apply close_sqrt <;> norm_num

theorem cplx6m1 {r X Y Z : ℝ} (hr : 0 < r) (_h : X ^ 2 + Y ^ 2 + Z ^ 2 = 1) :
    ((z61 : ℂ) * ((((r : ℂ) * (X : ℂ)) - Complex.I * ((r : ℂ) * (Y : ℂ))) * (33 * ((r : ℂ) * (Z : ℂ)) ^ 5 - 30 * (((r : ℂ) * (Z : ℂ)) * ((r : ℂ) * (Z : ℂ)) * ((r : ℂ) * (Z : ℂ))) * ((r : ℂ) * (r : ℂ)) + 5 * ((r : ℂ) * (Z : ℂ)) * (r : ℂ) ^ 4)) / (r : ℂ) ^ 6 : ℂ) =
      (((z61 / (21 / 8) : ℝ) : ℂ)) * ((((X : ℂ) - (Y : ℂ) * Complex.I) ^ 1 * (dleg 6 1 Z : ℂ))) := by
  rw [dleg61]
  have hr' : (r : ℂ) ≠ 0 := by exact_mod_cast hr.ne'
  push_cast
  field_simp
  try ring

theorem constZ6m1 : |z61 / (21 / 8) - Real.sqrt ((13 / 168) / Real.pi)| ≤
    1 / 10 ^ 14 * Real.sqrt ((13 / 168) / Real.pi) := by
  unfold z61
  apply close_sqrt <;> norm_num

theorem cplx6z0 {r X Y Z : ℝ} (hr : 0 < r) (_h : X ^ 2 + Y ^ 2 + Z ^ 2 = 1) :
    ((z60 : ℂ) * (231 * ((r : ℂ) * (Z : ℂ)) ^ 6 - 315 * ((r : ℂ) * (Z : ℂ)) ^ 4 * ((r : ℂ) * (r : ℂ)) + 105 * (((r : ℂ) * (Z : ℂ)) * ((r : ℂ) * (Z : ℂ))) * (r : ℂ) ^ 4 - 5 * (r : ℂ) ^ 6) / (r : ℂ) ^ 6 : ℂ) =
      (((z60 / (1 / 16) : ℝ) : ℂ)) * ((-1) ^ 0 * (((X : ℂ) + (Y : ℂ) * Complex.I) ^ 0 * (dleg 6 0 Z : ℂ))) := by
  rw [dleg60]
  have hr' : (r : ℂ) ≠ 0 := by exact_mod_cast hr.ne'
  push_cast
  field_simp
  try ring

theorem constZ6z0 : |z60 / (1 / 16) - Real.sqrt ((13 / 4) / Real.pi)| ≤
    1 / 10 ^ 14 * Real.sqrt ((13 / 4) / Real.pi) := by
  unfold z60
  apply close_sqrt <;> norm_num

theorem cplx6p1 {r X Y Z : ℝ} (hr : 0 < r) (_h : X ^ 2 + Y ^ 2 + Z ^ 2 = 1) :
    (-(z61 : ℂ) * ((((r : ℂ) * (X : ℂ)) + Complex.I * ((r : ℂ) * (Y : ℂ))) * (33 * ((r : ℂ) * (Z : ℂ)) ^ 5 - 30 * (((r : ℂ) * (Z : ℂ)) * ((r : ℂ) * (Z : ℂ)) * ((r : ℂ) * (Z : ℂ))) * ((r : ℂ) * (r : ℂ)) + 5 * ((r : ℂ) * (Z : ℂ)) * (r : ℂ) ^ 4)) / (r : ℂ) ^ 6 : ℂ) =
      (((z61 / (21 / 8) : ℝ) : ℂ)) * ((-1) ^ 1 * (((X : ℂ) + (Y : ℂ) * Complex.I) ^ 1 * (dleg 6 1 Z : ℂ))) := by
  rw [dleg61]
  have hr' : (r : ℂ) ≠ 0 := by exact_mod_cast hr.ne'
  push_cast
  field_simp
  try ring

theorem constZ6p1 : |z61 / (21 / 8) - Real.sqrt ((13 / 168) / Real.pi)| ≤
    1 / 10 ^ 14 * Real.sqrt ((13 / 168) / Real.pi) := by
  unfold z61
  apply close_sqrt <;> norm_num

theorem cplx6p2 {r X Y Z : ℝ} (hr : 0 < r) (_h : X ^ 2 + Y ^ 2 + Z ^ 2 = 1) :
    ((z62 : ℂ) * (((((r : ℂ) * (X : ℂ)) + Complex.I * ((r : ℂ) * (Y : ℂ))) * (((r : ℂ) * (X : ℂ)) + Complex.I * ((r : ℂ) * (Y : ℂ)))) * (33 * ((r : ℂ) * (Z : ℂ)) ^ 4 - 18 * (((r : ℂ) * (Z : ℂ)) * ((r : ℂ) * (Z : ℂ))) * ((r : ℂ) * (r : ℂ)) + (r : ℂ) ^ 4)) / (r : ℂ) ^ 6 : ℂ) =
      (((z62 / (105 / 8) : ℝ) : ℂ)) * ((-1) ^ 2 * (((X : ℂ) + (Y : ℂ) * Complex.I) ^ 2 * (dleg 6 2 Z : ℂ))) := by
  rw [dleg62]
  have hr' : (r : ℂ) ≠ 0 := by exact_mod_cast hr.ne'
  push_cast
  field_simp
  try ring

theorem constZ6p2 : |z62 / (105 / 8) - Real.sqrt ((13 / 6720) / Real.pi)| ≤
    1 / 10 ^ 14 * Real.sqrt ((13 / 6720) / Real.pi) := by
  unfold z62
  apply close_sqrt <;> norm_num

theorem cplx6p3 {r X Y Z : ℝ} (hr : 0 < r) (_h : X ^ 2 + Y ^ 2 + Z ^ 2 = 1) :
    (-(z63 : ℂ) * (((((r : ℂ) * (X : ℂ)) + Complex.I * ((r : ℂ) * (Y : ℂ))) * (((r : ℂ) * (X : ℂ)) + Complex.I * ((r : ℂ) * (Y : ℂ))) * (((r : ℂ) * (X : ℂ)) + Complex.I * ((r : ℂ) * (Y : ℂ)))) * (11 * ((r : ℂ) * (Z : ℂ)) * ((r : ℂ) * (Z : ℂ)) * ((r : ℂ) * (Z : ℂ)) - 3 * ((r : ℂ) * (Z : ℂ)) * ((r : ℂ) * (r : ℂ)))) / (r : ℂ) ^ 6 : ℂ) =
      (((z63 / (315 / 2) : ℝ) : ℂ)) * ((-1) ^ 3 * (((X : ℂ) + (Y : ℂ) * Complex.I) ^ 3 * (dleg 6 3 Z : ℂ))) := by
  rw [dleg63]
  have hr' : (r : ℂ) ≠ 0 := by exact_mod_cast hr.ne'
  push_cast
  field_simp
  try ring

theorem constZ6p3 : |z63 / (315 / 2) - Real.sqrt ((13 / 241920) / Real.pi)| ≤
    1 / 10 ^ 14 * Real.sqrt ((13 / 241920) / Real.pi) := by
  unfold z63
  apply close_sqrt <;> norm_num

theorem cplx6p4 {r X Y Z : ℝ} (hr : 0 < r) (_h : X ^ 2 + Y ^ 2 + Z ^ 2 = 1) :
    ((z64 : ℂ) * ((((r : ℂ) * (X : ℂ)) + Complex.I * ((r : ℂ) * (Y : ℂ))) ^ 4 * (11 * ((r : ℂ) * (Z : ℂ)) * ((r : ℂ) * (Z : ℂ)) - (r : ℂ) * (r : ℂ))) / (r : ℂ) ^ 6 : ℂ) =
      (((z64 / (945 / 2) : ℝ) : ℂ)) * ((-1) ^ 4 * (((X : ℂ) + (Y : ℂ) * Complex.I) ^ 4 * (dleg 6 4 Z : ℂ))) := by
  rw [dleg64]
  have hr' : (r : ℂ) ≠ 0 := by exact_mod_cast hr.ne'
  push_cast
  field_simp
  try ring

theorem constZ6p4 : |z64 / (945 / 2) - Real.sqrt ((13 / 7257600) / Real.pi)| ≤
    1 / 10 ^ 14 * Real.sqrt ((13 / 7257600) / Real.pi) := by
  unfold z64
  apply close_sqrt <;> norm_num

theorem cplx6p5 {r X Y Z : ℝ} (hr : 0 < r) (_h : X ^ 2 + Y ^ 2 + Z ^ 2 = 1) :
    (-(z65 : ℂ) * ((((r : ℂ) * (X : ℂ)) + Complex.I * ((r : ℂ) * (Y : ℂ))) ^ 5 * ((r : ℂ) * (Z : ℂ))) / (r : ℂ) ^ 6 : ℂ) =
      (((z65 / (10395) : ℝ) : ℂ)) * ((-1) ^ 5 * (((X : ℂ) + (Y : ℂ) * Complex.I) ^ 5 * (dleg 6 5 Z : ℂ))) := by
  rw [dleg65]
  have hr' : (r : ℂ) ≠ 0 := by exact_mod_cast hr.ne'
  push_cast
  field_simp
  try ring

theorem constZ6p5 : |z65 / (10395) - Real.sqrt ((13 / 159667200) / Real.pi)| ≤
    1 / 10 ^ 14 * Real.sqrt ((13 / 159667200) / Real.pi) := by
  unfold z65
  apply close_sqrt <;> norm_num

theorem cplx6p6 {r X Y Z : ℝ} (hr : 0 < r) (_h : X ^ 2 + Y ^ 2 + Z ^ 2 = 1) :
    ((z66 : ℂ) * (((r : ℂ) * (X : ℂ)) + Complex.I * ((r : ℂ) * (Y : ℂ))) ^ 6 / (r : ℂ) ^ 6 : ℂ) =
      (((z66 / (10395) : ℝ) : ℂ)) * ((-1) ^ 6 * (((X : ℂ) + (Y : ℂ) * Complex.I) ^ 6 * (dleg 6 6 Z : ℂ))) := by
  rw [dleg66]
  have hr' : (r : ℂ) ≠ 0 := by exact_mod_cast hr.ne'
  push_cast
  field_simp
  try ring

theorem constZ6p6 : |z66 / (10395) - Real.sqrt ((13 / 1916006400) / Real.pi)| ≤
    1 / 10 ^ 14 * Real.sqrt ((13 / 1916006400) / Real.pi) := by
  unfold z66
  apply close_sqrt <;> norm_num

end Sparc.Sph

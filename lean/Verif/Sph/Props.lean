import Verif.Sph.Cplx

/-! # C53: spherical harmonics

`specR` and `specC` are the textbook harmonics: norming factor, Legendre polynomial by Rodrigues' formula, and the
powers of `x ± i y`.  The code's decimal constants have 15 or 16 digits, so the values agree to a relative error of
1e-14. -/

namespace Sparc.Sph

theorem caseR0z0 {r X Y Z : ℝ} (hr : 0 < r) (h : X ^ 2 + Y ^ 2 + Z ^ 2 = 1) :
    ∃ v, realMain 0 (0) (r * X) (r * Y) (r * Z) r = some v ∧
      |v - specR 0 (0) X Y Z| ≤ 1 / 10 ^ 14 * |specR 0 (0) X Y Z| := by
  refine ⟨_, rfl, finishR constR0z0 (real0z0 hr h) ?_⟩
  show (base 0 0 X Y Z).re = _
  rw [← norm00, base_re]

theorem caseR1m1 {r X Y Z : ℝ} (hr : 0 < r) (h : X ^ 2 + Y ^ 2 + Z ^ 2 = 1) :
    ∃ v, realMain 1 (-1) (r * X) (r * Y) (r * Z) r = some v ∧
      |v - specR 1 (-1) X Y Z| ≤ 1 / 10 ^ 14 * |specR 1 (-1) X Y Z| := by
  refine ⟨_, rfl, finishR constR1m1 (real1m1 hr h) ?_⟩
  show Real.sqrt 2 * (base 1 1 X Y Z).im = _
  rw [← normR11, base_im]
  ring

theorem caseR1z0 {r X Y Z : ℝ} (hr : 0 < r) (h : X ^ 2 + Y ^ 2 + Z ^ 2 = 1) :
    ∃ v, realMain 1 (0) (r * X) (r * Y) (r * Z) r = some v ∧
      |v - specR 1 (0) X Y Z| ≤ 1 / 10 ^ 14 * |specR 1 (0) X Y Z| := by
  refine ⟨_, rfl, finishR constR1z0 (real1z0 hr h) ?_⟩
  show (base 1 0 X Y Z).re = _
  rw [← norm10, base_re]

theorem caseR1p1 {r X Y Z : ℝ} (hr : 0 < r) (h : X ^ 2 + Y ^ 2 + Z ^ 2 = 1) :
    ∃ v, realMain 1 (1) (r * X) (r * Y) (r * Z) r = some v ∧
      |v - specR 1 (1) X Y Z| ≤ 1 / 10 ^ 14 * |specR 1 (1) X Y Z| := by
  refine ⟨_, rfl, finishR constR1p1 (real1p1 hr h) ?_⟩
  show Real.sqrt 2 * (base 1 1 X Y Z).re = _
  rw [← normR11, base_re]
  ring

theorem caseR2m2 {r X Y Z : ℝ} (hr : 0 < r) (h : X ^ 2 + Y ^ 2 + Z ^ 2 = 1) :
    ∃ v, realMain 2 (-2) (r * X) (r * Y) (r * Z) r = some v ∧
      |v - specR 2 (-2) X Y Z| ≤ 1 / 10 ^ 14 * |specR 2 (-2) X Y Z| := by
  refine ⟨_, rfl, finishR constR2m2 (real2m2 hr h) ?_⟩
  show Real.sqrt 2 * (base 2 2 X Y Z).im = _
  rw [← normR22, base_im]
  ring

theorem caseR2m1 {r X Y Z : ℝ} (hr : 0 < r) (h : X ^ 2 + Y ^ 2 + Z ^ 2 = 1) :
    ∃ v, realMain 2 (-1) (r * X) (r * Y) (r * Z) r = some v ∧
      |v - specR 2 (-1) X Y Z| ≤ 1 / 10 ^ 14 * |specR 2 (-1) X Y Z| := by
  refine ⟨_, rfl, finishR constR2m1 (real2m1 hr h) ?_⟩
  show Real.sqrt 2 * (base 2 1 X Y Z).im = _
  rw [← normR21, base_im]
  ring

theorem caseR2z0 {r X Y Z : ℝ} (hr : 0 < r) (h : X ^ 2 + Y ^ 2 + Z ^ 2 = 1) :
    ∃ v, realMain 2 (0) (r * X) (r * Y) (r * Z) r = some v ∧
      |v - specR 2 (0) X Y Z| ≤ 1 / 10 ^ 14 * |specR 2 (0) X Y Z| := by
  refine ⟨_, rfl, finishR constR2z0 (real2z0 hr h) ?_⟩
  show (base 2 0 X Y Z).re = _
  rw [← norm20, base_re]

theorem caseR2p1 {r X Y Z : ℝ} (hr : 0 < r) (h : X ^ 2 + Y ^ 2 + Z ^ 2 = 1) :
    ∃ v, realMain 2 (1) (r * X) (r * Y) (r * Z) r = some v ∧
      |v - specR 2 (1) X Y Z| ≤ 1 / 10 ^ 14 * |specR 2 (1) X Y Z| := by
  refine ⟨_, rfl, finishR constR2p1 (real2p1 hr h) ?_⟩
  show Real.sqrt 2 * (base 2 1 X Y Z).re = _
  rw [← normR21, base_re]
  ring

theorem caseR2p2 {r X Y Z : ℝ} (hr : 0 < r) (h : X ^ 2 + Y ^ 2 + Z ^ 2 = 1) :
    ∃ v, realMain 2 (2) (r * X) (r * Y) (r * Z) r = some v ∧
      |v - specR 2 (2) X Y Z| ≤ 1 / 10 ^ 14 * |specR 2 (2) X Y Z| := by
  refine ⟨_, rfl, finishR constR2p2 (real2p2 hr h) ?_⟩
  show Real.sqrt 2 * (base 2 2 X Y Z).re = _
  rw [← normR22, base_re]
  ring

theorem caseR3m3 {r X Y Z : ℝ} (hr : 0 < r) (h : X ^ 2 + Y ^ 2 + Z ^ 2 = 1) :
    ∃ v, realMain 3 (-3) (r * X) (r * Y) (r * Z) r = some v ∧
      |v - specR 3 (-3) X Y Z| ≤ 1 / 10 ^ 14 * |specR 3 (-3) X Y Z| := by
  refine ⟨_, rfl, finishR constR3m3 (real3m3 hr h) ?_⟩
  show Real.sqrt 2 * (base 3 3 X Y Z).im = _
  rw [← normR33, base_im]
  ring

theorem caseR3m2 {r X Y Z : ℝ} (hr : 0 < r) (h : X ^ 2 + Y ^ 2 + Z ^ 2 = 1) :
    ∃ v, realMain 3 (-2) (r * X) (r * Y) (r * Z) r = some v ∧
      |v - specR 3 (-2) X Y Z| ≤ 1 / 10 ^ 14 * |specR 3 (-2) X Y Z| := by
  refine ⟨_, rfl, finishR constR3m2 (real3m2 hr h) ?_⟩
  show Real.sqrt 2 * (base 3 2 X Y Z).im = _
  rw [← normR32, base_im]
  ring

theorem caseR3m1 {r X Y Z : ℝ} (hr : 0 < r) (h : X ^ 2 + Y ^ 2 + Z ^ 2 = 1) :
    ∃ v, realMain 3 (-1) (r * X) (r * Y) (r * Z) r = some v ∧
      |v - specR 3 (-1) X Y Z| ≤ 1 / 10 ^ 14 * |specR 3 (-1) X Y Z| := by
  refine ⟨_, rfl, finishR constR3m1 (real3m1 hr h) ?_⟩
  show Real.sqrt 2 * (base 3 1 X Y Z).im = _
  rw [← normR31, base_im]
  ring

theorem caseR3z0 {r X Y Z : ℝ} (hr : 0 < r) (h : X ^ 2 + Y ^ 2 + Z ^ 2 = 1) :
    ∃ v, realMain 3 (0) (r * X) (r * Y) (r * Z) r = some v ∧
      |v - specR 3 (0) X Y Z| ≤ 1 / 10 ^ 14 * |specR 3 (0) X Y Z| := by
  refine ⟨_, rfl, finishR constR3z0 (real3z0 hr h) ?_⟩
  show (base 3 0 X Y Z).re = _
  rw [← norm30, base_re]

theorem caseR3p1 {r X Y Z : ℝ} (hr : 0 < r) (h : X ^ 2 + Y ^ 2 + Z ^ 2 = 1) :
    ∃ v, realMain 3 (1) (r * X) (r * Y) (r * Z) r = some v ∧
      |v - specR 3 (1) X Y Z| ≤ 1 / 10 ^ 14 * |specR 3 (1) X Y Z| := by
  refine ⟨_, rfl, finishR constR3p1 (real3p1 hr h) ?_⟩
  show Real.sqrt 2 * (base 3 1 X Y Z).re = _
  rw [← normR31, base_re]
  ring

theorem caseR3p2 {r X Y Z : ℝ} (hr : 0 < r) (h : X ^ 2 + Y ^ 2 + Z ^ 2 = 1) :
    ∃ v, realMain 3 (2) (r * X) (r * Y) (r * Z) r = some v ∧
      |v - specR 3 (2) X Y Z| ≤ 1 / 10 ^ 14 * |specR 3 (2) X Y Z| := by
  refine ⟨_, rfl, finishR constR3p2 (real3p2 hr h) ?_⟩
  show Real.sqrt 2 * (base 3 2 X Y Z).re = _
  rw [← normR32, base_re]
  ring

theorem caseR3p3 {r X Y Z : ℝ} (hr : 0 < r) (h : X ^ 2 + Y ^ 2 + Z ^ 2 = 1) :
    ∃ v, realMain 3 (3) (r * X) (r * Y) (r * Z) r = some v ∧
      |v - specR 3 (3) X Y Z| ≤ 1 / 10 ^ 14 * |specR 3 (3) X Y Z| := by
  refine ⟨_, rfl, finishR constR3p3 (real3p3 hr h) ?_⟩
  show Real.sqrt 2 * (base 3 3 X Y Z).re = _
  rw [← normR33, base_re]
  ring

theorem caseR4m4 {r X Y Z : ℝ} (hr : 0 < r) (h : X ^ 2 + Y ^ 2 + Z ^ 2 = 1) :
    ∃ v, realMain 4 (-4) (r * X) (r * Y) (r * Z) r = some v ∧
      |v - specR 4 (-4) X Y Z| ≤ 1 / 10 ^ 14 * |specR 4 (-4) X Y Z| := by
  refine ⟨_, rfl, finishR constR4m4 (real4m4 hr h) ?_⟩
  show Real.sqrt 2 * (base 4 4 X Y Z).im = _
  rw [← normR44, base_im]
  ring

theorem caseR4m3 {r X Y Z : ℝ} (hr : 0 < r) (h : X ^ 2 + Y ^ 2 + Z ^ 2 = 1) :
    ∃ v, realMain 4 (-3) (r * X) (r * Y) (r * Z) r = some v ∧
      |v - specR 4 (-3) X Y Z| ≤ 1 / 10 ^ 14 * |specR 4 (-3) X Y Z| := by
  refine ⟨_, rfl, finishR constR4m3 (real4m3 hr h) ?_⟩
  show Real.sqrt 2 * (base 4 3 X Y Z).im = _
  rw [← normR43, base_im]
  ring

theorem caseR4m2 {r X Y Z : ℝ} (hr : 0 < r) (h : X ^ 2 + Y ^ 2 + Z ^ 2 = 1) :
    ∃ v, realMain 4 (-2) (r * X) (r * Y) (r * Z) r = some v ∧
      |v - specR 4 (-2) X Y Z| ≤ 1 / 10 ^ 14 * |specR 4 (-2) X Y Z| := by
  refine ⟨_, rfl, finishR constR4m2 (real4m2 hr h) ?_⟩
  show Real.sqrt 2 * (base 4 2 X Y Z).im = _
  rw [← normR42, base_im]
  ring

theorem caseR4m1 {r X Y Z : ℝ} (hr : 0 < r) (h : X ^ 2 + Y ^ 2 + Z ^ 2 = 1) :
    ∃ v, realMain 4 (-1) (r * X) (r * Y) (r * Z) r = some v ∧
      |v - specR 4 (-1) X Y Z| ≤ 1 / 10 ^ 14 * |specR 4 (-1) X Y Z| := by
  refine ⟨_, rfl, finishR constR4m1 (real4m1 hr h) ?_⟩
  show Real.sqrt 2 * (base 4 1 X Y Z).im = _
  rw [← normR41, base_im]
  ring

theorem caseR4z0 {r X Y Z : ℝ} (hr : 0 < r) (h : X ^ 2 + Y ^ 2 + Z ^ 2 = 1) :
    ∃ v, realMain 4 (0) (r * X) (r * Y) (r * Z) r = some v ∧
      |v - specR 4 (0) X Y Z| ≤ 1 / 10 ^ 14 * |specR 4 (0) X Y Z| := by
  refine ⟨_, rfl, finishR constR4z0 (real4z0 hr h) ?_⟩
  show (base 4 0 X Y Z).re = _
  rw [← norm40, base_re]

theorem caseR4p1 {r X Y Z : ℝ} (hr : 0 < r) (h : X ^ 2 + Y ^ 2 + Z ^ 2 = 1) :
    ∃ v, realMain 4 (1) (r * X) (r * Y) (r * Z) r = some v ∧
      |v - specR 4 (1) X Y Z| ≤ 1 / 10 ^ 14 * |specR 4 (1) X Y Z| := by
  refine ⟨_, rfl, finishR constR4p1 (real4p1 hr h) ?_⟩
  show Real.sqrt 2 * (base 4 1 X Y Z).re = _
  rw [← normR41, base_re]
  ring

theorem caseR4p2 {r X Y Z : ℝ} (hr : 0 < r) (h : X ^ 2 + Y ^ 2 + Z ^ 2 = 1) :
    ∃ v, realMain 4 (2) (r * X) (r * Y) (r * Z) r = some v ∧
      |v - specR 4 (2) X Y Z| ≤ 1 / 10 ^ 14 * |specR 4 (2) X Y Z| := by
  refine ⟨_, rfl, finishR constR4p2 (real4p2 hr h) ?_⟩
  show Real.sqrt 2 * (base 4 2 X Y Z).re = _
  rw [← normR42, base_re]
  ring

theorem caseR4p3 {r X Y Z : ℝ} (hr : 0 < r) (h : X ^ 2 + Y ^ 2 + Z ^ 2 = 1) :
    ∃ v, realMain 4 (3) (r * X) (r * Y) (r * Z) r = some v ∧
      |v - specR 4 (3) X Y Z| ≤ 1 / 10 ^ 14 * |specR 4 (3) X Y Z| := by
  refine ⟨_, rfl, finishR constR4p3 (real4p3 hr h) ?_⟩
  show Real.sqrt 2 * (base 4 3 X Y Z).re = _
  rw [← normR43, base_re]
  ring

theorem caseR4p4 {r X Y Z : ℝ} (hr : 0 < r) (h : X ^ 2 + Y ^ 2 + Z ^ 2 = 1) :
    ∃ v, realMain 4 (4) (r * X) (r * Y) (r * Z) r = some v ∧
      |v - specR 4 (4) X Y Z| ≤ 1 / 10 ^ 14 * |specR 4 (4) X Y Z| := by
  refine ⟨_, rfl, finishR constR4p4 (real4p4 hr h) ?_⟩
  show Real.sqrt 2 * (base 4 4 X Y Z).re = _
  rw [← normR44, base_re]
  ring

theorem caseR5m5 {r X Y Z : ℝ} (hr : 0 < r) (h : X ^ 2 + Y ^ 2 + Z ^ 2 = 1) :
    ∃ v, realMain 5 (-5) (r * X) (r * Y) (r * Z) r = some v ∧
      |v - specR 5 (-5) X Y Z| ≤ 1 / 10 ^ 14 * |specR 5 (-5) X Y Z| := by
  refine ⟨_, rfl, finishR constR5m5 (real5m5 hr h) ?_⟩
  show Real.sqrt 2 * (base 5 5 X Y Z).im = _
  rw [← normR55, base_im]
  ring

theorem caseR5m4 {r X Y Z : ℝ} (hr : 0 < r) (h : X ^ 2 + Y ^ 2 + Z ^ 2 = 1) :
    ∃ v, realMain 5 (-4) (r * X) (r * Y) (r * Z) r = some v ∧
      |v - specR 5 (-4) X Y Z| ≤ 1 / 10 ^ 14 * |specR 5 (-4) X Y Z| := by
  refine ⟨_, rfl, finishR constR5m4 (real5m4 hr h) ?_⟩
  show Real.sqrt 2 * (base 5 4 X Y Z).im = _
  rw [← normR54, base_im]
  ring

theorem caseR5m3 {r X Y Z : ℝ} (hr : 0 < r) (h : X ^ 2 + Y ^ 2 + Z ^ 2 = 1) :
    ∃ v, realMain 5 (-3) (r * X) (r * Y) (r * Z) r = some v ∧
      |v - specR 5 (-3) X Y Z| ≤ 1 / 10 ^ 14 * |specR 5 (-3) X Y Z| := by
  refine ⟨_, rfl, finishR constR5m3 (real5m3 hr h) ?_⟩
  show Real.sqrt 2 * (base 5 3 X Y Z).im = _
  rw [← normR53, base_im]
  ring

theorem caseR5m2 {r X Y Z : ℝ} (hr : 0 < r) (h : X ^ 2 + Y ^ 2 + Z ^ 2 = 1) :
    ∃ v, realMain 5 (-2) (r * X) (r * Y) (r * Z) r = some v ∧
      |v - specR 5 (-2) X Y Z| ≤ 1 / 10 ^ 14 * |specR 5 (-2) X Y Z| := by
  refine ⟨_, rfl, finishR constR5m2 (real5m2 hr h) ?_⟩
  show Real.sqrt 2 * (base 5 2 X Y Z).im = _
  rw [← normR52, base_im]
  ring

theorem caseR5m1 {r X Y Z : ℝ} (hr : 0 < r) (h : X ^ 2 + Y ^ 2 + Z ^ 2 = 1) :
    ∃ v, realMain 5 (-1) (r * X) (r * Y) (r * Z) r = some v ∧
      |v - specR 5 (-1) X Y Z| ≤ 1 / 10 ^ 14 * |specR 5 (-1) X Y Z| := by
  refine ⟨_, rfl, finishR constR5m1 (real5m1 hr h) ?_⟩
  show Real.sqrt 2 * (base 5 1 X Y Z).im = _
  rw [← normR51, base_im]
  ring

theorem caseR5z0 {r X Y Z : ℝ} (hr : 0 < r) (h : X ^ 2 + Y ^ 2 + Z ^ 2 = 1) :
    ∃ v, realMain 5 (0) (r * X) (r * Y) (r * Z) r = some v ∧
      |v - specR 5 (0) X Y Z| ≤ 1 / 10 ^ 14 * |specR 5 (0) X Y Z| := by
  refine ⟨_, rfl, finishR constR5z0 (real5z0 hr h) ?_⟩
  show (base 5 0 X Y Z).re = _
  rw [← norm50, base_re]

theorem caseR5p1 {r X Y Z : ℝ} (hr : 0 < r) (h : X ^ 2 + Y ^ 2 + Z ^ 2 = 1) :
    ∃ v, realMain 5 (1) (r * X) (r * Y) (r * Z) r = some v ∧
      |v - specR 5 (1) X Y Z| ≤ 1 / 10 ^ 14 * |specR 5 (1) X Y Z| := by
  refine ⟨_, rfl, finishR constR5p1 (real5p1 hr h) ?_⟩
  show Real.sqrt 2 * (base 5 1 X Y Z).re = _
  rw [← normR51, base_re]
  ring

theorem caseR5p2 {r X Y Z : ℝ} (hr : 0 < r) (h : X ^ 2 + Y ^ 2 + Z ^ 2 = 1) :
    ∃ v, realMain 5 (2) (r * X) (r * Y) (r * Z) r = some v ∧
      |v - specR 5 (2) X Y Z| ≤ 1 / 10 ^ 14 * |specR 5 (2) X Y Z| := by
  refine ⟨_, rfl, finishR constR5p2 (real5p2 hr h) ?_⟩
  show Real.sqrt 2 * (base 5 2 X Y Z).re = _
  rw [← normR52, base_re]
  ring

theorem caseR5p3 {r X Y Z : ℝ} (hr : 0 < r) (h : X ^ 2 + Y ^ 2 + Z ^ 2 = 1) :
    ∃ v, realMain 5 (3) (r * X) (r * Y) (r * Z) r = some v ∧
      |v - specR 5 (3) X Y Z| ≤ 1 / 10 ^ 14 * |specR 5 (3) X Y Z| := by
  refine ⟨_, rfl, finishR constR5p3 (real5p3 hr h) ?_⟩
  show Real.sqrt 2 * (base 5 3 X Y Z).re = _
  rw [← normR53, base_re]
  ring

theorem caseR5p4 {r X Y Z : ℝ} (hr : 0 < r) (h : X ^ 2 + Y ^ 2 + Z ^ 2 = 1) :
    ∃ v, realMain 5 (4) (r * X) (r * Y) (r * Z) r = some v ∧
      |v - specR 5 (4) X Y Z| ≤ 1 / 10 ^ 14 * |specR 5 (4) X Y Z| := by
  refine ⟨_, rfl, finishR constR5p4 (real5p4 hr h) ?_⟩
  show Real.sqrt 2 * (base 5 4 X Y Z).re = _
  rw [← normR54, base_re]
  ring

theorem caseR5p5 {r X Y Z : ℝ} (hr : 0 < r) (h : X ^ 2 + Y ^ 2 + Z ^ 2 = 1) :
    ∃ v, realMain 5 (5) (r * X) (r * Y) (r * Z) r = some v ∧
      |v - specR 5 (5) X Y Z| ≤ 1 / 10 ^ 14 * |specR 5 (5) X Y Z| := by
  refine ⟨_, rfl, finishR constR5p5 (real5p5 hr h) ?_⟩
  show Real.sqrt 2 * (base 5 5 X Y Z).re = _
  rw [← normR55, base_re]
  ring

theorem caseR6m6 {r X Y Z : ℝ} (hr : 0 < r) (h : X ^ 2 + Y ^ 2 + Z ^ 2 = 1) :
    ∃ v, realMain 6 (-6) (r * X) (r * Y) (r * Z) r = some v ∧
      |v - specR 6 (-6) X Y Z| ≤ 1 / 10 ^ 14 * |specR 6 (-6) X Y Z| := by
  refine ⟨_, rfl, finishR constR6m6 (real6m6 hr h) ?_⟩
  show Real.sqrt 2 * (base 6 6 X Y Z).im = _
  rw [← normR66, base_im]
  ring

theorem caseR6m5 {r X Y Z : ℝ} (hr : 0 < r) (h : X ^ 2 + Y ^ 2 + Z ^ 2 = 1) :
    ∃ v, realMain 6 (-5) (r * X) (r * Y) (r * Z) r = some v ∧
      |v - specR 6 (-5) X Y Z| ≤ 1 / 10 ^ 14 * |specR 6 (-5) X Y Z| := by
  refine ⟨_, rfl, finishR constR6m5 (real6m5 hr h) ?_⟩
  show Real.sqrt 2 * (base 6 5 X Y Z).im = _
  rw [← normR65, base_im]
  ring

theorem caseR6m4 {r X Y Z : ℝ} (hr : 0 < r) (h : X ^ 2 + Y ^ 2 + Z ^ 2 = 1) :
    ∃ v, realMain 6 (-4) (r * X) (r * Y) (r * Z) r = some v ∧
      |v - specR 6 (-4) X Y Z| ≤ 1 / 10 ^ 14 * |specR 6 (-4) X Y Z| := by
  refine ⟨_, rfl, finishR constR6m4 (real6m4 hr h) ?_⟩
  show Real.sqrt 2 * (base 6 4 X Y Z).im = _
  rw [← normR64, base_im]
  ring

theorem caseR6m3 {r X Y Z : ℝ} (hr : 0 < r) (h : X ^ 2 + Y ^ 2 + Z ^ 2 = 1) :
    ∃ v, realMain 6 (-3) (r * X) (r * Y) (r * Z) r = some v ∧
      |v - specR 6 (-3) X Y Z| ≤ 1 / 10 ^ 14 * |specR 6 (-3) X Y Z| := by
  refine ⟨_, rfl, finishR constR6m3 (real6m3 hr h) ?_⟩
  show Real.sqrt 2 * (base 6 3 X Y Z).im = _
  rw [← normR63, base_im]
  ring

theorem caseR6m2 {r X Y Z : ℝ} (hr : 0 < r) (h : X ^ 2 + Y ^ 2 + Z ^ 2 = 1) :
    ∃ v, realMain 6 (-2) (r * X) (r * Y) (r * Z) r = some v ∧
      |v - specR 6 (-2) X Y Z| ≤ 1 / 10 ^ 14 * |specR 6 (-2) X Y Z| := by
  refine ⟨_, rfl, finishR constR6m2 (real6m2 hr h) ?_⟩
  show Real.sqrt 2 * (base 6 2 X Y Z).im = _
  rw [← normR62, base_im]
  ring

theorem caseR6m1 {r X Y Z : ℝ} (hr : 0 < r) (h : X ^ 2 + Y ^ 2 + Z ^ 2 = 1) :
    ∃ v, realMain 6 (-1) (r * X) (r * Y) (r * Z) r = some v ∧
      |v - specR 6 (-1) X Y Z| ≤ 1 / 10 ^ 14 * |specR 6 (-1) X Y Z| := by
  refine ⟨_, rfl, finishR constR6m1 (real6m1 hr h) ?_⟩
  show Real.sqrt 2 * (base 6 1 X Y Z).im = _
  rw [← normR61, base_im]
  ring

theorem caseR6z0 {r X Y Z : ℝ} (hr : 0 < r) (h : X ^ 2 + Y ^ 2 + Z ^ 2 = 1) :
    ∃ v, realMain 6 (0) (r * X) (r * Y) (r * Z) r = some v ∧
      |v - specR 6 (0) X Y Z| ≤ 1 / 10 ^ 14 * |specR 6 (0) X Y Z| := by
  refine ⟨_, rfl, finishR constR6z0 (real6z0 hr h) ?_⟩
  show (base 6 0 X Y Z).re = _
  rw [← norm60, base_re]

theorem caseR6p1 {r X Y Z : ℝ} (hr : 0 < r) (h : X ^ 2 + Y ^ 2 + Z ^ 2 = 1) :
    ∃ v, realMain 6 (1) (r * X) (r * Y) (r * Z) r = some v ∧
      |v - specR 6 (1) X Y Z| ≤ 1 / 10 ^ 14 * |specR 6 (1) X Y Z| := by
  refine ⟨_, rfl, finishR constR6p1 (real6p1 hr h) ?_⟩
  show Real.sqrt 2 * (base 6 1 X Y Z).re = _
  rw [← normR61, base_re]
  ring

theorem caseR6p2 {r X Y Z : ℝ} (hr : 0 < r) (h : X ^ 2 + Y ^ 2 + Z ^ 2 = 1) :
    ∃ v, realMain 6 (2) (r * X) (r * Y) (r * Z) r = some v ∧
      |v - specR 6 (2) X Y Z| ≤ 1 / 10 ^ 14 * |specR 6 (2) X Y Z| := by
  refine ⟨_, rfl, finishR constR6p2 (real6p2 hr h) ?_⟩
  show Real.sqrt 2 * (base 6 2 X Y Z).re = _
  rw [← normR62, base_re]
  ring

theorem caseR6p3 {r X Y Z : ℝ} (hr : 0 < r) (h : X ^ 2 + Y ^ 2 + Z ^ 2 = 1) :
    ∃ v, realMain 6 (3) (r * X) (r * Y) (r * Z) r = some v ∧
      |v - specR 6 (3) X Y Z| ≤ 1 / 10 ^ 14 * |specR 6 (3) X Y Z| := by
  refine ⟨_, rfl, finishR constR6p3 (real6p3 hr h) ?_⟩
  show Real.sqrt 2 * (base 6 3 X Y Z).re = _
  rw [← normR63, base_re]
  ring

theorem caseR6p4 {r X Y Z : ℝ} (hr : 0 < r) (h : X ^ 2 + Y ^ 2 + Z ^ 2 = 1) :
    ∃ v, realMain 6 (4) (r * X) (r * Y) (r * Z) r = some v ∧
      |v - specR 6 (4) X Y Z| ≤ 1 / 10 ^ 14 * |specR 6 (4) X Y Z| := by
  refine ⟨_, rfl, finishR constR6p4 (real6p4 hr h) ?_⟩
  show Real.sqrt 2 * (base 6 4 X Y Z).re = _
  rw [← normR64, base_re]
  ring

theorem caseR6p5 {r X Y Z : ℝ} (hr : 0 < r) (h : X ^ 2 + Y ^ 2 + Z ^ 2 = 1) :
    ∃ v, realMain 6 (5) (r * X) (r * Y) (r * Z) r = some v ∧
      |v - specR 6 (5) X Y Z| ≤ 1 / 10 ^ 14 * |specR 6 (5) X Y Z| := by
  refine ⟨_, rfl, finishR constR6p5 (real6p5 hr h) ?_⟩
  show Real.sqrt 2 * (base 6 5 X Y Z).re = _
  rw [← normR65, base_re]
  ring

theorem caseR6p6 {r X Y Z : ℝ} (hr : 0 < r) (h : X ^ 2 + Y ^ 2 + Z ^ 2 = 1) :
    ∃ v, realMain 6 (6) (r * X) (r * Y) (r * Z) r = some v ∧
      |v - specR 6 (6) X Y Z| ≤ 1 / 10 ^ 14 * |specR 6 (6) X Y Z| := by
  refine ⟨_, rfl, finishR constR6p6 (real6p6 hr h) ?_⟩
  show Real.sqrt 2 * (base 6 6 X Y Z).re = _
  rw [← normR66, base_re]
  ring

theorem caseC0z0 {r X Y Z : ℝ} (hr : 0 < r) (h : X ^ 2 + Y ^ 2 + Z ^ 2 = 1) :
    ∃ v, complexMain 0 (0) ((r : ℂ) * (X : ℂ)) ((r : ℂ) * (Y : ℂ)) ((r : ℂ) * (Z : ℂ)) (r : ℂ) = some v ∧
      ‖v - specC 0 (0) X Y Z‖ ≤ 1 / 10 ^ 14 * ‖specC 0 (0) X Y Z‖ := by
  refine ⟨_, rfl, finishC constZ0z0 (cplx0z0 hr h) ?_⟩
  show (-1) ^ 0 * base 0 0 X Y Z = _
  unfold base
  rw [← norm00]
  ring

theorem caseC1m1 {r X Y Z : ℝ} (hr : 0 < r) (h : X ^ 2 + Y ^ 2 + Z ^ 2 = 1) :
    ∃ v, complexMain 1 (-1) ((r : ℂ) * (X : ℂ)) ((r : ℂ) * (Y : ℂ)) ((r : ℂ) * (Z : ℂ)) (r : ℂ) = some v ∧
      ‖v - specC 1 (-1) X Y Z‖ ≤ 1 / 10 ^ 14 * ‖specC 1 (-1) X Y Z‖ := by
  refine ⟨_, rfl, finishC constZ1m1 (cplx1m1 hr h) ?_⟩
  show (starRingEnd ℂ) (base 1 1 X Y Z) = _
  rw [conj_base, ← norm11]
  ring

theorem caseC1z0 {r X Y Z : ℝ} (hr : 0 < r) (h : X ^ 2 + Y ^ 2 + Z ^ 2 = 1) :
    ∃ v, complexMain 1 (0) ((r : ℂ) * (X : ℂ)) ((r : ℂ) * (Y : ℂ)) ((r : ℂ) * (Z : ℂ)) (r : ℂ) = some v ∧
      ‖v - specC 1 (0) X Y Z‖ ≤ 1 / 10 ^ 14 * ‖specC 1 (0) X Y Z‖ := by
  refine ⟨_, rfl, finishC constZ1z0 (cplx1z0 hr h) ?_⟩
  show (-1) ^ 0 * base 1 0 X Y Z = _
  unfold base
  rw [← norm10]
  ring

theorem caseC1p1 {r X Y Z : ℝ} (hr : 0 < r) (h : X ^ 2 + Y ^ 2 + Z ^ 2 = 1) :
    ∃ v, complexMain 1 (1) ((r : ℂ) * (X : ℂ)) ((r : ℂ) * (Y : ℂ)) ((r : ℂ) * (Z : ℂ)) (r : ℂ) = some v ∧
      ‖v - specC 1 (1) X Y Z‖ ≤ 1 / 10 ^ 14 * ‖specC 1 (1) X Y Z‖ := by
  refine ⟨_, rfl, finishC constZ1p1 (cplx1p1 hr h) ?_⟩
  show (-1) ^ 1 * base 1 1 X Y Z = _
  unfold base
  rw [← norm11]
  ring

theorem caseC2m2 {r X Y Z : ℝ} (hr : 0 < r) (h : X ^ 2 + Y ^ 2 + Z ^ 2 = 1) :
    ∃ v, complexMain 2 (-2) ((r : ℂ) * (X : ℂ)) ((r : ℂ) * (Y : ℂ)) ((r : ℂ) * (Z : ℂ)) (r : ℂ) = some v ∧
      ‖v - specC 2 (-2) X Y Z‖ ≤ 1 / 10 ^ 14 * ‖specC 2 (-2) X Y Z‖ := by
  refine ⟨_, rfl, finishC constZ2m2 (cplx2m2 hr h) ?_⟩
  show (starRingEnd ℂ) (base 2 2 X Y Z) = _
  rw [conj_base, ← norm22]
  ring

theorem caseC2m1 {r X Y Z : ℝ} (hr : 0 < r) (h : X ^ 2 + Y ^ 2 + Z ^ 2 = 1) :
    ∃ v, complexMain 2 (-1) ((r : ℂ) * (X : ℂ)) ((r : ℂ) * (Y : ℂ)) ((r : ℂ) * (Z : ℂ)) (r : ℂ) = some v ∧
      ‖v - specC 2 (-1) X Y Z‖ ≤ 1 / 10 ^ 14 * ‖specC 2 (-1) X Y Z‖ := by
  refine ⟨_, rfl, finishC constZ2m1 (cplx2m1 hr h) ?_⟩
  show (starRingEnd ℂ) (base 2 1 X Y Z) = _
  rw [conj_base, ← norm21]
  ring

theorem caseC2z0 {r X Y Z : ℝ} (hr : 0 < r) (h : X ^ 2 + Y ^ 2 + Z ^ 2 = 1) :
    ∃ v, complexMain 2 (0) ((r : ℂ) * (X : ℂ)) ((r : ℂ) * (Y : ℂ)) ((r : ℂ) * (Z : ℂ)) (r : ℂ) = some v ∧
      ‖v - specC 2 (0) X Y Z‖ ≤ 1 / 10 ^ 14 * ‖specC 2 (0) X Y Z‖ := by
  refine ⟨_, rfl, finishC constZ2z0 (cplx2z0 hr h) ?_⟩
  show (-1) ^ 0 * base 2 0 X Y Z = _
  unfold base
  rw [← norm20]
  ring

theorem caseC2p1 {r X Y Z : ℝ} (hr : 0 < r) (h : X ^ 2 + Y ^ 2 + Z ^ 2 = 1) :
    ∃ v, complexMain 2 (1) ((r : ℂ) * (X : ℂ)) ((r : ℂ) * (Y : ℂ)) ((r : ℂ) * (Z : ℂ)) (r : ℂ) = some v ∧
      ‖v - specC 2 (1) X Y Z‖ ≤ 1 / 10 ^ 14 * ‖specC 2 (1) X Y Z‖ := by
  refine ⟨_, rfl, finishC constZ2p1 (cplx2p1 hr h) ?_⟩
  show (-1) ^ 1 * base 2 1 X Y Z = _
  unfold base
  rw [← norm21]
  ring

theorem caseC2p2 {r X Y Z : ℝ} (hr : 0 < r) (h : X ^ 2 + Y ^ 2 + Z ^ 2 = 1) :
    ∃ v, complexMain 2 (2) ((r : ℂ) * (X : ℂ)) ((r : ℂ) * (Y : ℂ)) ((r : ℂ) * (Z : ℂ)) (r : ℂ) = some v ∧
      ‖v - specC 2 (2) X Y Z‖ ≤ 1 / 10 ^ 14 * ‖specC 2 (2) X Y Z‖ := by
  refine ⟨_, rfl, finishC constZ2p2 (cplx2p2 hr h) ?_⟩
  show (-1) ^ 2 * base 2 2 X Y Z = _
  unfold base
  rw [← norm22]
  ring

theorem caseC3m3 {r X Y Z : ℝ} (hr : 0 < r) (h : X ^ 2 + Y ^ 2 + Z ^ 2 = 1) :
    ∃ v, complexMain 3 (-3) ((r : ℂ) * (X : ℂ)) ((r : ℂ) * (Y : ℂ)) ((r : ℂ) * (Z : ℂ)) (r : ℂ) = some v ∧
      ‖v - specC 3 (-3) X Y Z‖ ≤ 1 / 10 ^ 14 * ‖specC 3 (-3) X Y Z‖ := by
  refine ⟨_, rfl, finishC constZ3m3 (cplx3m3 hr h) ?_⟩
  show (starRingEnd ℂ) (base 3 3 X Y Z) = _
  rw [conj_base, ← norm33]
  ring

theorem caseC3m2 {r X Y Z : ℝ} (hr : 0 < r) (h : X ^ 2 + Y ^ 2 + Z ^ 2 = 1) :
    ∃ v, complexMain 3 (-2) ((r : ℂ) * (X : ℂ)) ((r : ℂ) * (Y : ℂ)) ((r : ℂ) * (Z : ℂ)) (r : ℂ) = some v ∧
      ‖v - specC 3 (-2) X Y Z‖ ≤ 1 / 10 ^ 14 * ‖specC 3 (-2) X Y Z‖ := by
  refine ⟨_, rfl, finishC constZ3m2 (cplx3m2 hr h) ?_⟩
  show (starRingEnd ℂ) (base 3 2 X Y Z) = _
  rw [conj_base, ← norm32]
  ring

theorem caseC3m1 {r X Y Z : ℝ} (hr : 0 < r) (h : X ^ 2 + Y ^ 2 + Z ^ 2 = 1) :
    ∃ v, complexMain 3 (-1) ((r : ℂ) * (X : ℂ)) ((r : ℂ) * (Y : ℂ)) ((r : ℂ) * (Z : ℂ)) (r : ℂ) = some v ∧
      ‖v - specC 3 (-1) X Y Z‖ ≤ 1 / 10 ^ 14 * ‖specC 3 (-1) X Y Z‖ := by
  refine ⟨_, rfl, finishC constZ3m1 (cplx3m1 hr h) ?_⟩
  show (starRingEnd ℂ) (base 3 1 X Y Z) = _
  rw [conj_base, ← norm31]
  ring

theorem caseC3z0 {r X Y Z : ℝ} (hr : 0 < r) (h : X ^ 2 + Y ^ 2 + Z ^ 2 = 1) :
    ∃ v, complexMain 3 (0) ((r : ℂ) * (X : ℂ)) ((r : ℂ) * (Y : ℂ)) ((r : ℂ) * (Z : ℂ)) (r : ℂ) = some v ∧
      ‖v - specC 3 (0) X Y Z‖ ≤ 1 / 10 ^ 14 * ‖specC 3 (0) X Y Z‖ := by
  refine ⟨_, rfl, finishC constZ3z0 (cplx3z0 hr h) ?_⟩
  show (-1) ^ 0 * base 3 0 X Y Z = _
  unfold base
  rw [← norm30]
  ring

theorem caseC3p1 {r X Y Z : ℝ} (hr : 0 < r) (h : X ^ 2 + Y ^ 2 + Z ^ 2 = 1) :
    ∃ v, complexMain 3 (1) ((r : ℂ) * (X : ℂ)) ((r : ℂ) * (Y : ℂ)) ((r : ℂ) * (Z : ℂ)) (r : ℂ) = some v ∧
      ‖v - specC 3 (1) X Y Z‖ ≤ 1 / 10 ^ 14 * ‖specC 3 (1) X Y Z‖ := by
  refine ⟨_, rfl, finishC constZ3p1 (cplx3p1 hr h) ?_⟩
  show (-1) ^ 1 * base 3 1 X Y Z = _
  unfold base
  rw [← norm31]
  ring

theorem caseC3p2 {r X Y Z : ℝ} (hr : 0 < r) (h : X ^ 2 + Y ^ 2 + Z ^ 2 = 1) :
    ∃ v, complexMain 3 (2) ((r : ℂ) * (X : ℂ)) ((r : ℂ) * (Y : ℂ)) ((r : ℂ) * (Z : ℂ)) (r : ℂ) = some v ∧
      ‖v - specC 3 (2) X Y Z‖ ≤ 1 / 10 ^ 14 * ‖specC 3 (2) X Y Z‖ := by
  refine ⟨_, rfl, finishC constZ3p2 (cplx3p2 hr h) ?_⟩
  show (-1) ^ 2 * base 3 2 X Y Z = _
  unfold base
  rw [← norm32]
  ring

theorem caseC3p3 {r X Y Z : ℝ} (hr : 0 < r) (h : X ^ 2 + Y ^ 2 + Z ^ 2 = 1) :
    ∃ v, complexMain 3 (3) ((r : ℂ) * (X : ℂ)) ((r : ℂ) * (Y : ℂ)) ((r : ℂ) * (Z : ℂ)) (r : ℂ) = some v ∧
      ‖v - specC 3 (3) X Y Z‖ ≤ 1 / 10 ^ 14 * ‖specC 3 (3) X Y Z‖ := by
  refine ⟨_, rfl, finishC constZ3p3 (cplx3p3 hr h) ?_⟩
  show (-1) ^ 3 * base 3 3 X Y Z = _
  unfold base
  rw [← norm33]
  ring

theorem caseC4m4 {r X Y Z : ℝ} (hr : 0 < r) (h : X ^ 2 + Y ^ 2 + Z ^ 2 = 1) :
    ∃ v, complexMain 4 (-4) ((r : ℂ) * (X : ℂ)) ((r : ℂ) * (Y : ℂ)) ((r : ℂ) * (Z : ℂ)) (r : ℂ) = some v ∧
      ‖v - specC 4 (-4) X Y Z‖ ≤ 1 / 10 ^ 14 * ‖specC 4 (-4) X Y Z‖ := by
  refine ⟨_, rfl, finishC constZ4m4 (cplx4m4 hr h) ?_⟩
  show (starRingEnd ℂ) (base 4 4 X Y Z) = _
  rw [conj_base, ← norm44]
  ring

theorem caseC4m3 {r X Y Z : ℝ} (hr : 0 < r) (h : X ^ 2 + Y ^ 2 + Z ^ 2 = 1) :
    ∃ v, complexMain 4 (-3) ((r : ℂ) * (X : ℂ)) ((r : ℂ) * (Y : ℂ)) ((r : ℂ) * (Z : ℂ)) (r : ℂ) = some v ∧
      ‖v - specC 4 (-3) X Y Z‖ ≤ 1 / 10 ^ 14 * ‖specC 4 (-3) X Y Z‖ := by
  refine ⟨_, rfl, finishC constZ4m3 (cplx4m3 hr h) ?_⟩
  show (starRingEnd ℂ) (base 4 3 X Y Z) = _
  rw [conj_base, ← norm43]
  ring

theorem caseC4m2 {r X Y Z : ℝ} (hr : 0 < r) (h : X ^ 2 + Y ^ 2 + Z ^ 2 = 1) :
    ∃ v, complexMain 4 (-2) ((r : ℂ) * (X : ℂ)) ((r : ℂ) * (Y : ℂ)) ((r : ℂ) * (Z : ℂ)) (r : ℂ) = some v ∧
      ‖v - specC 4 (-2) X Y Z‖ ≤ 1 / 10 ^ 14 * ‖specC 4 (-2) X Y Z‖ := by
  refine ⟨_, rfl, finishC constZ4m2 (cplx4m2 hr h) ?_⟩
  show (starRingEnd ℂ) (base 4 2 X Y Z) = _
  rw [conj_base, ← norm42]
  ring

theorem caseC4m1 {r X Y Z : ℝ} (hr : 0 < r) (h : X ^ 2 + Y ^ 2 + Z ^ 2 = 1) :
    ∃ v, complexMain 4 (-1) ((r : ℂ) * (X : ℂ)) ((r : ℂ) * (Y : ℂ)) ((r : ℂ) * (Z : ℂ)) (r : ℂ) = some v ∧
      ‖v - specC 4 (-1) X Y Z‖ ≤ 1 / 10 ^ 14 * ‖specC 4 (-1) X Y Z‖ := by
  refine ⟨_, rfl, finishC constZ4m1 (cplx4m1 hr h) ?_⟩
  show (starRingEnd ℂ) (base 4 1 X Y Z) = _
  rw [conj_base, ← norm41]
  ring

theorem caseC4z0 {r X Y Z : ℝ} (hr : 0 < r) (h : X ^ 2 + Y ^ 2 + Z ^ 2 = 1) :
    ∃ v, complexMain 4 (0) ((r : ℂ) * (X : ℂ)) ((r : ℂ) * (Y : ℂ)) ((r : ℂ) * (Z : ℂ)) (r : ℂ) = some v ∧
      ‖v - specC 4 (0) X Y Z‖ ≤ 1 / 10 ^ 14 * ‖specC 4 (0) X Y Z‖ := by
  refine ⟨_, rfl, finishC constZ4z0 (cplx4z0 hr h) ?_⟩
  show (-1) ^ 0 * base 4 0 X Y Z = _
  unfold base
  rw [← norm40]
  ring

theorem caseC4p1 {r X Y Z : ℝ} (hr : 0 < r) (h : X ^ 2 + Y ^ 2 + Z ^ 2 = 1) :
    ∃ v, complexMain 4 (1) ((r : ℂ) * (X : ℂ)) ((r : ℂ) * (Y : ℂ)) ((r : ℂ) * (Z : ℂ)) (r : ℂ) = some v ∧
      ‖v - specC 4 (1) X Y Z‖ ≤ 1 / 10 ^ 14 * ‖specC 4 (1) X Y Z‖ := by
  refine ⟨_, rfl, finishC constZ4p1 (cplx4p1 hr h) ?_⟩
  show (-1) ^ 1 * base 4 1 X Y Z = _
  unfold base
  rw [← norm41]
  ring

theorem caseC4p2 {r X Y Z : ℝ} (hr : 0 < r) (h : X ^ 2 + Y ^ 2 + Z ^ 2 = 1) :
    ∃ v, complexMain 4 (2) ((r : ℂ) * (X : ℂ)) ((r : ℂ) * (Y : ℂ)) ((r : ℂ) * (Z : ℂ)) (r : ℂ) = some v ∧
      ‖v - specC 4 (2) X Y Z‖ ≤ 1 / 10 ^ 14 * ‖specC 4 (2) X Y Z‖ := by
  refine ⟨_, rfl, finishC constZ4p2 (cplx4p2 hr h) ?_⟩
  show (-1) ^ 2 * base 4 2 X Y Z = _
  unfold base
  rw [← norm42]
  ring

theorem caseC4p3 {r X Y Z : ℝ} (hr : 0 < r) (h : X ^ 2 + Y ^ 2 + Z ^ 2 = 1) :
    ∃ v, complexMain 4 (3) ((r : ℂ) * (X : ℂ)) ((r : ℂ) * (Y : ℂ)) ((r : ℂ) * (Z : ℂ)) (r : ℂ) = some v ∧
      ‖v - specC 4 (3) X Y Z‖ ≤ 1 / 10 ^ 14 * ‖specC 4 (3) X Y Z‖ := by
  refine ⟨_, rfl, finishC constZ4p3 (cplx4p3 hr h) ?_⟩
  show (-1) ^ 3 * base 4 3 X Y Z = _
  unfold base
  rw [← norm43]
  ring

theorem caseC4p4 {r X Y Z : ℝ} (hr : 0 < r) (h : X ^ 2 + Y ^ 2 + Z ^ 2 = 1) :
    ∃ v, complexMain 4 (4) ((r : ℂ) * (X : ℂ)) ((r : ℂ) * (Y : ℂ)) ((r : ℂ) * (Z : ℂ)) (r : ℂ) = some v ∧
      ‖v - specC 4 (4) X Y Z‖ ≤ 1 / 10 ^ 14 * ‖specC 4 (4) X Y Z‖ := by
  refine ⟨_, rfl, finishC constZ4p4 (cplx4p4 hr h) ?_⟩
  show (-1) ^ 4 * base 4 4 X Y Z = _
  unfold base
  rw [← norm44]
  ring

theorem caseC5m5 {r X Y Z : ℝ} (hr : 0 < r) (h : X ^ 2 + Y ^ 2 + Z ^ 2 = 1) :
    ∃ v, complexMain 5 (-5) ((r : ℂ) * (X : ℂ)) ((r : ℂ) * (Y : ℂ)) ((r : ℂ) * (Z : ℂ)) (r : ℂ) = some v ∧
      ‖v - specC 5 (-5) X Y Z‖ ≤ 1 / 10 ^ 14 * ‖specC 5 (-5) X Y Z‖ := by
  refine ⟨_, rfl, finishC constZ5m5 (cplx5m5 hr h) ?_⟩
  show (starRingEnd ℂ) (base 5 5 X Y Z) = _
  rw [conj_base, ← norm55]
  ring

theorem caseC5m4 {r X Y Z : ℝ} (hr : 0 < r) (h : X ^ 2 + Y ^ 2 + Z ^ 2 = 1) :
    ∃ v, complexMain 5 (-4) ((r : ℂ) * (X : ℂ)) ((r : ℂ) * (Y : ℂ)) ((r : ℂ) * (Z : ℂ)) (r : ℂ) = some v ∧
      ‖v - specC 5 (-4) X Y Z‖ ≤ 1 / 10 ^ 14 * ‖specC 5 (-4) X Y Z‖ := by
  refine ⟨_, rfl, finishC constZ5m4 (cplx5m4 hr h) ?_⟩
  show (starRingEnd ℂ) (base 5 4 X Y Z) = _
  rw [conj_base, ← norm54]
  ring

theorem caseC5m3 {r X Y Z : ℝ} (hr : 0 < r) (h : X ^ 2 + Y ^ 2 + Z ^ 2 = 1) :
    ∃ v, complexMain 5 (-3) ((r : ℂ) * (X : ℂ)) ((r : ℂ) * (Y : ℂ)) ((r : ℂ) * (Z : ℂ)) (r : ℂ) = some v ∧
      ‖v - specC 5 (-3) X Y Z‖ ≤ 1 / 10 ^ 14 * ‖specC 5 (-3) X Y Z‖ := by
  refine ⟨_, rfl, finishC constZ5m3 (cplx5m3 hr h) ?_⟩
  show (starRingEnd ℂ) (base 5 3 X Y Z) = _
  rw [conj_base, ← norm53]
  ring

theorem caseC5m2 {r X Y Z : ℝ} (hr : 0 < r) (h : X ^ 2 + Y ^ 2 + Z ^ 2 = 1) :
    ∃ v, complexMain 5 (-2) ((r : ℂ) * (X : ℂ)) ((r : ℂ) * (Y : ℂ)) ((r : ℂ) * (Z : ℂ)) (r : ℂ) = some v ∧
      ‖v - specC 5 (-2) X Y Z‖ ≤ 1 / 10 ^ 14 * ‖specC 5 (-2) X Y Z‖ := by
  refine ⟨_, rfl, finishC constZ5m2 (cplx5m2 hr h) ?_⟩
  show (starRingEnd ℂ) (base 5 2 X Y Z) = _
  rw [conj_base, ← norm52]
  ring

theorem caseC5m1 {r X Y Z : ℝ} (hr : 0 < r) (h : X ^ 2 + Y ^ 2 + Z ^ 2 = 1) :
    ∃ v, complexMain 5 (-1) ((r : ℂ) * (X : ℂ)) ((r : ℂ) * (Y : ℂ)) ((r : ℂ) * (Z : ℂ)) (r : ℂ) = some v ∧
      ‖v - specC 5 (-1) X Y Z‖ ≤ 1 / 10 ^ 14 * ‖specC 5 (-1) X Y Z‖ := by
  refine ⟨_, rfl, finishC constZ5m1 (cplx5m1 hr h) ?_⟩
  show (starRingEnd ℂ) (base 5 1 X Y Z) = _
  rw [conj_base, ← norm51]
  ring

theorem caseC5z0 {r X Y Z : ℝ} (hr : 0 < r) (h : X ^ 2 + Y ^ 2 + Z ^ 2 = 1) :
    ∃ v, complexMain 5 (0) ((r : ℂ) * (X : ℂ)) ((r : ℂ) * (Y : ℂ)) ((r : ℂ) * (Z : ℂ)) (r : ℂ) = some v ∧
      ‖v - specC 5 (0) X Y Z‖ ≤ 1 / 10 ^ 14 * ‖specC 5 (0) X Y Z‖ := by
  refine ⟨_, rfl, finishC constZ5z0 (cplx5z0 hr h) ?_⟩
  show (-1) ^ 0 * base 5 0 X Y Z = _
  unfold base
  rw [← norm50]
  ring

theorem caseC5p1 {r X Y Z : ℝ} (hr : 0 < r) (h : X ^ 2 + Y ^ 2 + Z ^ 2 = 1) :
    ∃ v, complexMain 5 (1) ((r : ℂ) * (X : ℂ)) ((r : ℂ) * (Y : ℂ)) ((r : ℂ) * (Z : ℂ)) (r : ℂ) = some v ∧
      ‖v - specC 5 (1) X Y Z‖ ≤ 1 / 10 ^ 14 * ‖specC 5 (1) X Y Z‖ := by
  refine ⟨_, rfl, finishC constZ5p1 (cplx5p1 hr h) ?_⟩
  show (-1) ^ 1 * base 5 1 X Y Z = _
  unfold base
  rw [← norm51]
  ring

theorem caseC5p2 {r X Y Z : ℝ} (hr : 0 < r) (h : X ^ 2 + Y ^ 2 + Z ^ 2 = 1) :
    ∃ v, complexMain 5 (2) ((r : ℂ) * (X : ℂ)) ((r : ℂ) * (Y : ℂ)) ((r : ℂ) * (Z : ℂ)) (r : ℂ) = some v ∧
      ‖v - specC 5 (2) X Y Z‖ ≤ 1 / 10 ^ 14 * ‖specC 5 (2) X Y Z‖ := by
  refine ⟨_, rfl, finishC constZ5p2 (cplx5p2 hr h) ?_⟩
  show (-1) ^ 2 * base 5 2 X Y Z = _
  unfold base
  rw [← norm52]
  ring

theorem caseC5p3 {r X Y Z : ℝ} (hr : 0 < r) (h : X ^ 2 + Y ^ 2 + Z ^ 2 = 1) :
    ∃ v, complexMain 5 (3) ((r : ℂ) * (X : ℂ)) ((r : ℂ) * (Y : ℂ)) ((r : ℂ) * (Z : ℂ)) (r : ℂ) = some v ∧
      ‖v - specC 5 (3) X Y Z‖ ≤ 1 / 10 ^ 14 * ‖specC 5 (3) X Y Z‖ := by
  refine ⟨_, rfl, finishC constZ5p3 (cplx5p3 hr h) ?_⟩
  show (-1) ^ 3 * base 5 3 X Y Z = _
  unfold base
  rw [← norm53]
  ring

theorem caseC5p4 {r X Y Z : ℝ} (hr : 0 < r) (h : X ^ 2 + Y ^ 2 + Z ^ 2 = 1) :
    ∃ v, complexMain 5 (4) ((r : ℂ) * (X : ℂ)) ((r : ℂ) * (Y : ℂ)) ((r : ℂ) * (Z : ℂ)) (r : ℂ) = some v ∧
      ‖v - specC 5 (4) X Y Z‖ ≤ 1 / 10 ^ 14 * ‖specC 5 (4) X Y Z‖ := by
  refine ⟨_, rfl, finishC constZ5p4 (cplx5p4 hr h) ?_⟩
  show (-1) ^ 4 * base 5 4 X Y Z = _
  unfold base
  rw [← norm54]
  ring

theorem caseC5p5 {r X Y Z : ℝ} (hr : 0 < r) (h : X ^ 2 + Y ^ 2 + Z ^ 2 = 1) :
    ∃ v, complexMain 5 (5) ((r : ℂ) * (X : ℂ)) ((r : ℂ) * (Y : ℂ)) ((r : ℂ) * (Z : ℂ)) (r : ℂ) = some v ∧
      ‖v - specC 5 (5) X Y Z‖ ≤ 1 / 10 ^ 14 * ‖specC 5 (5) X Y Z‖ := by
  refine ⟨_, rfl, finishC constZ5p5 (cplx5p5 hr h) ?_⟩
  show (-1) ^ 5 * base 5 5 X Y Z = _
  unfold base
  rw [← norm55]
  ring

theorem caseC6m6 {r X Y Z : ℝ} (hr : 0 < r) (h : X ^ 2 + Y ^ 2 + Z ^ 2 = 1) :
    ∃ v, complexMain 6 (-6) ((r : ℂ) * (X : ℂ)) ((r : ℂ) * (Y : ℂ)) ((r : ℂ) * (Z : ℂ)) (r : ℂ) = some v ∧
      ‖v - specC 6 (-6) X Y Z‖ ≤ 1 / 10 ^ 14 * ‖specC 6 (-6) X Y Z‖ := by
  refine ⟨_, rfl, finishC constZ6m6 (cplx6m6 hr h) ?_⟩
  show (starRingEnd ℂ) (base 6 6 X Y Z) = _
  rw [conj_base, ← norm66]
  ring

theorem caseC6m5 {r X Y Z : ℝ} (hr : 0 < r) (h : X ^ 2 + Y ^ 2 + Z ^ 2 = 1) :
    ∃ v, complexMain 6 (-5) ((r : ℂ) * (X : ℂ)) ((r : ℂ) * (Y : ℂ)) ((r : ℂ) * (Z : ℂ)) (r : ℂ) = some v ∧
      ‖v - specC 6 (-5) X Y Z‖ ≤ 1 / 10 ^ 14 * ‖specC 6 (-5) X Y Z‖ := by
  refine ⟨_, rfl, finishC constZ6m5 (cplx6m5 hr h) ?_⟩
  show (starRingEnd ℂ) (base 6 5 X Y Z) = _
  rw [conj_base, ← norm65]
  ring

theorem caseC6m4 {r X Y Z : ℝ} (hr : 0 < r) (h : X ^ 2 + Y ^ 2 + Z ^ 2 = 1) :
    ∃ v, complexMain 6 (-4) ((r : ℂ) * (X : ℂ)) ((r : ℂ) * (Y : ℂ)) ((r : ℂ) * (Z : ℂ)) (r : ℂ) = some v ∧
      ‖v - specC 6 (-4) X Y Z‖ ≤ 1 / 10 ^ 14 * ‖specC 6 (-4) X Y Z‖ := by
  refine ⟨_, rfl, finishC constZ6m4 (cplx6m4 hr h) ?_⟩
  show (starRingEnd ℂ) (base 6 4 X Y Z) = _
  rw [conj_base, ← norm64]
  ring

theorem caseC6m3 {r X Y Z : ℝ} (hr : 0 < r) (h : X ^ 2 + Y ^ 2 + Z ^ 2 = 1) :
    ∃ v, complexMain 6 (-3) ((r : ℂ) * (X : ℂ)) ((r : ℂ) * (Y : ℂ)) ((r : ℂ) * (Z : ℂ)) (r : ℂ) = some v ∧
      ‖v - specC 6 (-3) X Y Z‖ ≤ 1 / 10 ^ 14 * ‖specC 6 (-3) X Y Z‖ := by
  refine ⟨_, rfl, finishC constZ6m3 (cplx6m3 hr h) ?_⟩
  show (starRingEnd ℂ) (base 6 3 X Y Z) = _
  rw [conj_base, ← norm63]
  ring

theorem caseC6m2 {r X Y Z : ℝ} (hr : 0 < r) (h : X ^ 2 + Y ^ 2 + Z ^ 2 = 1) :
    ∃ v, complexMain 6 (-2) ((r : ℂ) * (X : ℂ)) ((r : ℂ) * (Y : ℂ)) ((r : ℂ) * (Z : ℂ)) (r : ℂ) = some v ∧
      ‖v - specC 6 (-2) X Y Z‖ ≤ 1 / 10 ^ 14 * ‖specC 6 (-2) X Y Z‖ := by
  refine ⟨_, rfl, finishC constZ6m2 (cplx6m2 hr h) ?_⟩
  show (starRingEnd ℂ) (base 6 2 X Y Z) = _
  rw [conj_base, ← norm62]
  ring

theorem caseC6m1 {r X Y Z : ℝ} (hr : 0 < r) (h : X ^ 2 + Y ^ 2 + Z ^ 2 = 1) :
    ∃ v, complexMain 6 (-1) ((r : ℂ) * (X : ℂ)) ((r : ℂ) * (Y : ℂ)) ((r : ℂ) * (Z : ℂ)) (r : ℂ) = some v ∧
      ‖v - specC 6 (-1) X Y Z‖ ≤ 1 / 10 ^ 14 * ‖specC 6 (-1) X Y Z‖ := by
  refine ⟨_, rfl, finishC constZ6m1 (cplx6m1 hr h) ?_⟩
  show (starRingEnd ℂ) (base 6 1 X Y Z) = _
  rw [conj_base, ← norm61]
  ring

theorem caseC6z0 {r X Y Z : ℝ} (hr : 0 < r) (h : X ^ 2 + Y ^ 2 + Z ^ 2 = 1) :
    ∃ v, complexMain 6 (0) ((r : ℂ) * (X : ℂ)) ((r : ℂ) * (Y : ℂ)) ((r : ℂ) * (Z : ℂ)) (r : ℂ) = some v ∧
      ‖v - specC 6 (0) X Y Z‖ ≤ 1 / 10 ^ 14 * ‖specC 6 (0) X Y Z‖ := by
  refine ⟨_, rfl, finishC constZ6z0 (cplx6z0 hr h) ?_⟩
  show (-1) ^ 0 * base 6 0 X Y Z = _
  unfold base
  rw [← norm60]
  ring

theorem caseC6p1 {r X Y Z : ℝ} (hr : 0 < r) (h : X ^ 2 + Y ^ 2 + Z ^ 2 = 1) :
    ∃ v, complexMain 6 (1) ((r : ℂ) * (X : ℂ)) ((r : ℂ) * (Y : ℂ)) ((r : ℂ) * (Z : ℂ)) (r : ℂ) = some v ∧
      ‖v - specC 6 (1) X Y Z‖ ≤ 1 / 10 ^ 14 * ‖specC 6 (1) X Y Z‖ := by
  refine ⟨_, rfl, finishC constZ6p1 (cplx6p1 hr h) ?_⟩
  show (-1) ^ 1 * base 6 1 X Y Z = _
  unfold base
  rw [← norm61]
  ring

theorem caseC6p2 {r X Y Z : ℝ} (hr : 0 < r) (h : X ^ 2 + Y ^ 2 + Z ^ 2 = 1) :
    ∃ v, complexMain 6 (2) ((r : ℂ) * (X : ℂ)) ((r : ℂ) * (Y : ℂ)) ((r : ℂ) * (Z : ℂ)) (r : ℂ) = some v ∧
      ‖v - specC 6 (2) X Y Z‖ ≤ 1 / 10 ^ 14 * ‖specC 6 (2) X Y Z‖ := by
  refine ⟨_, rfl, finishC constZ6p2 (cplx6p2 hr h) ?_⟩
  show (-1) ^ 2 * base 6 2 X Y Z = _
  unfold base
  rw [← norm62]
  ring

theorem caseC6p3 {r X Y Z : ℝ} (hr : 0 < r) (h : X ^ 2 + Y ^ 2 + Z ^ 2 = 1) :
    ∃ v, complexMain 6 (3) ((r : ℂ) * (X : ℂ)) ((r : ℂ) * (Y : ℂ)) ((r : ℂ) * (Z : ℂ)) (r : ℂ) = some v ∧
      ‖v - specC 6 (3) X Y Z‖ ≤ 1 / 10 ^ 14 * ‖specC 6 (3) X Y Z‖ := by
  refine ⟨_, rfl, finishC constZ6p3 (cplx6p3 hr h) ?_⟩
  show (-1) ^ 3 * base 6 3 X Y Z = _
  unfold base
  rw [← norm63]
  ring

theorem caseC6p4 {r X Y Z : ℝ} (hr : 0 < r) (h : X ^ 2 + Y ^ 2 + Z ^ 2 = 1) :
    ∃ v, complexMain 6 (4) ((r : ℂ) * (X : ℂ)) ((r : ℂ) * (Y : ℂ)) ((r : ℂ) * (Z : ℂ)) (r : ℂ) = some v ∧
      ‖v - specC 6 (4) X Y Z‖ ≤ 1 / 10 ^ 14 * ‖specC 6 (4) X Y Z‖ := by
  refine ⟨_, rfl, finishC constZ6p4 (cplx6p4 hr h) ?_⟩
  show (-1) ^ 4 * base 6 4 X Y Z = _
  unfold base
  rw [← norm64]
  ring

theorem caseC6p5 {r X Y Z : ℝ} (hr : 0 < r) (h : X ^ 2 + Y ^ 2 + Z ^ 2 = 1) :
    ∃ v, complexMain 6 (5) ((r : ℂ) * (X : ℂ)) ((r : ℂ) * (Y : ℂ)) ((r : ℂ) * (Z : ℂ)) (r : ℂ) = some v ∧
      ‖v - specC 6 (5) X Y Z‖ ≤ 1 / 10 ^ 14 * ‖specC 6 (5) X Y Z‖ := by
  refine ⟨_, rfl, finishC constZ6p5 (cplx6p5 hr h) ?_⟩
  show (-1) ^ 5 * base 6 5 X Y Z = _
  unfold base
  rw [← norm65]
  ring

theorem caseC6p6 {r X Y Z : ℝ} (hr : 0 < r) (h : X ^ 2 + Y ^ 2 + Z ^ 2 = 1) :
    ∃ v, complexMain 6 (6) ((r : ℂ) * (X : ℂ)) ((r : ℂ) * (Y : ℂ)) ((r : ℂ) * (Z : ℂ)) (r : ℂ) = some v ∧
      ‖v - specC 6 (6) X Y Z‖ ≤ 1 / 10 ^ 14 * ‖specC 6 (6) X Y Z‖ := by
  refine ⟨_, rfl, finishC constZ6p6 (cplx6p6 hr h) ?_⟩
  show (-1) ^ 6 * base 6 6 X Y Z = _
  unfold base
  rw [← norm66]
  ring

theorem unit {x y z r : ℝ} (hr : r = Real.sqrt (x ^ 2 + y ^ 2 + z ^ 2)) (h : 0 < r) :
    (x / r) ^ 2 + (y / r) ^ 2 + (z / r) ^ 2 = 1 := by
  have h2 : r ^ 2 = x ^ 2 + y ^ 2 + z ^ 2 := by rw [hr]; exact Real.sq_sqrt (by positivity)
  field_simp
  linarith

theorem realMain_spec {l : ℕ} {m : ℤ} (hl : l ≤ 6) (hm1 : -(l : ℤ) ≤ m) (hm2 : m ≤ l) {r X Y Z : ℝ} (hr : 0 < r)
    (h : X ^ 2 + Y ^ 2 + Z ^ 2 = 1) : ∃ v, realMain l m (r * X) (r * Y) (r * Z) r = some v ∧
      |v - specR l m X Y Z| ≤ 1 / 10 ^ 14 * |specR l m X Y Z| := by
  rcases (by omega : l = 0 ∨ l = 1 ∨ l = 2 ∨ l = 3 ∨ l = 4 ∨ l = 5 ∨ l = 6) with rfl | rfl | rfl | rfl | rfl | rfl | rfl
  · obtain rfl : m = 0 := by omega
    exact caseR0z0 hr h
  · rcases (by omega : m = -1 ∨ m = 0 ∨ m = 1) with rfl | rfl | rfl
    · exact caseR1m1 hr h
    · exact caseR1z0 hr h
    · exact caseR1p1 hr h
  · rcases (by omega : m = -2 ∨ m = -1 ∨ m = 0 ∨ m = 1 ∨ m = 2) with rfl | rfl | rfl | rfl | rfl
    · exact caseR2m2 hr h
    · exact caseR2m1 hr h
    · exact caseR2z0 hr h
    · exact caseR2p1 hr h
    · exact caseR2p2 hr h
  · rcases (by omega : m = -3 ∨ m = -2 ∨ m = -1 ∨ m = 0 ∨ m = 1 ∨ m = 2 ∨ m = 3) with rfl | rfl | rfl | rfl | rfl | rfl | rfl
    · exact caseR3m3 hr h
    · exact caseR3m2 hr h
    · exact caseR3m1 hr h
    · exact caseR3z0 hr h
    · exact caseR3p1 hr h
    · exact caseR3p2 hr h
    · exact caseR3p3 hr h
  · rcases (by omega : m = -4 ∨ m = -3 ∨ m = -2 ∨ m = -1 ∨ m = 0 ∨ m = 1 ∨ m = 2 ∨ m = 3 ∨ m = 4) with rfl | rfl | rfl | rfl | rfl | rfl | rfl | rfl | rfl
    · exact caseR4m4 hr h
    · exact caseR4m3 hr h
    · exact caseR4m2 hr h
    · exact caseR4m1 hr h
    · exact caseR4z0 hr h
    · exact caseR4p1 hr h
    · exact caseR4p2 hr h
    · exact caseR4p3 hr h
    · exact caseR4p4 hr h
  · rcases (by omega : m = -5 ∨ m = -4 ∨ m = -3 ∨ m = -2 ∨ m = -1 ∨ m = 0 ∨ m = 1 ∨ m = 2 ∨ m = 3 ∨ m = 4 ∨ m = 5) with rfl | rfl | rfl | rfl | rfl | rfl | rfl | rfl | rfl | rfl | rfl
    · exact caseR5m5 hr h
    · exact caseR5m4 hr h
    · exact caseR5m3 hr h
    · exact caseR5m2 hr h
    · exact caseR5m1 hr h
    · exact caseR5z0 hr h
    · exact caseR5p1 hr h
    · exact caseR5p2 hr h
    · exact caseR5p3 hr h
    · exact caseR5p4 hr h
    · exact caseR5p5 hr h
  · rcases (by omega : m = -6 ∨ m = -5 ∨ m = -4 ∨ m = -3 ∨ m = -2 ∨ m = -1 ∨ m = 0 ∨ m = 1 ∨ m = 2 ∨ m = 3 ∨ m = 4 ∨ m = 5 ∨ m = 6) with rfl | rfl | rfl | rfl | rfl | rfl | rfl | rfl | rfl | rfl | rfl | rfl | rfl
    · exact caseR6m6 hr h
    · exact caseR6m5 hr h
    · exact caseR6m4 hr h
    · exact caseR6m3 hr h
    · exact caseR6m2 hr h
    · exact caseR6m1 hr h
    · exact caseR6z0 hr h
    · exact caseR6p1 hr h
    · exact caseR6p2 hr h
    · exact caseR6p3 hr h
    · exact caseR6p4 hr h
    · exact caseR6p5 hr h
    · exact caseR6p6 hr h

theorem complexMain_spec {l : ℕ} {m : ℤ} (hl : l ≤ 6) (hm1 : -(l : ℤ) ≤ m) (hm2 : m ≤ l) {r X Y Z : ℝ} (hr : 0 < r)
    (h : X ^ 2 + Y ^ 2 + Z ^ 2 = 1) :
    ∃ v, complexMain l m ((r : ℂ) * (X : ℂ)) ((r : ℂ) * (Y : ℂ)) ((r : ℂ) * (Z : ℂ)) (r : ℂ) = some v ∧
      ‖v - specC l m X Y Z‖ ≤ 1 / 10 ^ 14 * ‖specC l m X Y Z‖ := by
  rcases (by omega : l = 0 ∨ l = 1 ∨ l = 2 ∨ l = 3 ∨ l = 4 ∨ l = 5 ∨ l = 6) with rfl | rfl | rfl | rfl | rfl | rfl | rfl
  · obtain rfl : m = 0 := by omega
    exact caseC0z0 hr h
  · rcases (by omega : m = -1 ∨ m = 0 ∨ m = 1) with rfl | rfl | rfl
    · exact caseC1m1 hr h
    · exact caseC1z0 hr h
    · exact caseC1p1 hr h
  · rcases (by omega : m = -2 ∨ m = -1 ∨ m = 0 ∨ m = 1 ∨ m = 2) with rfl | rfl | rfl | rfl | rfl
    · exact caseC2m2 hr h
    · exact caseC2m1 hr h
    · exact caseC2z0 hr h
    · exact caseC2p1 hr h
    · exact caseC2p2 hr h
  · rcases (by omega : m = -3 ∨ m = -2 ∨ m = -1 ∨ m = 0 ∨ m = 1 ∨ m = 2 ∨ m = 3) with rfl | rfl | rfl | rfl | rfl | rfl | rfl
    · exact caseC3m3 hr h
    · exact caseC3m2 hr h
    · exact caseC3m1 hr h
    · exact caseC3z0 hr h
    · exact caseC3p1 hr h
    · exact caseC3p2 hr h
    · exact caseC3p3 hr h
  · rcases (by omega : m = -4 ∨ m = -3 ∨ m = -2 ∨ m = -1 ∨ m = 0 ∨ m = 1 ∨ m = 2 ∨ m = 3 ∨ m = 4) with rfl | rfl | rfl | rfl | rfl | rfl | rfl | rfl | rfl
    · exact caseC4m4 hr h
    · exact caseC4m3 hr h
    · exact caseC4m2 hr h
    · exact caseC4m1 hr h
    · exact caseC4z0 hr h
    · exact caseC4p1 hr h
    · exact caseC4p2 hr h
    · exact caseC4p3 hr h
    · exact caseC4p4 hr h
  · rcases (by omega : m = -5 ∨ m = -4 ∨ m = -3 ∨ m = -2 ∨ m = -1 ∨ m = 0 ∨ m = 1 ∨ m = 2 ∨ m = 3 ∨ m = 4 ∨ m = 5) with rfl | rfl | rfl | rfl | rfl | rfl | rfl | rfl | rfl | rfl | rfl
    · exact caseC5m5 hr h
    · exact caseC5m4 hr h
    · exact caseC5m3 hr h
    · exact caseC5m2 hr h
    · exact caseC5m1 hr h
    · exact caseC5z0 hr h
    · exact caseC5p1 hr h
    · exact caseC5p2 hr h
    · exact caseC5p3 hr h
    · exact caseC5p4 hr h
    · exact caseC5p5 hr h
  · rcases (by omega : m = -6 ∨ m = -5 ∨ m = -4 ∨ m = -3 ∨ m = -2 ∨ m = -1 ∨ m = 0 ∨ m = 1 ∨ m = 2 ∨ m = 3 ∨ m = 4 ∨ m = 5 ∨ m = 6) with rfl | rfl | rfl | rfl | rfl | rfl | rfl | rfl | rfl | rfl | rfl | rfl | rfl
    · exact caseC6m6 hr h
    · exact caseC6m5 hr h
    · exact caseC6m4 hr h
    · exact caseC6m3 hr h
    · exact caseC6m2 hr h
    · exact caseC6m1 hr h
    · exact caseC6z0 hr h
    · exact caseC6p1 hr h
    · exact caseC6p2 hr h
    · exact caseC6p3 hr h
    · exact caseC6p4 hr h
    · exact caseC6p5 hr h
    · exact caseC6p6 hr h

/-- For every degree up to six and every order, the real harmonic is the textbook one up to the digits of the
constants, at every point not closer than 1e-10 to the origin. -/
theorem real_harmonic {l : ℕ} {m : ℤ} (hl : l ≤ 6) (hm1 : -(l : ℤ) ≤ m) (hm2 : m ≤ l) {x y z r : ℝ}
    (hr : r = Real.sqrt (x ^ 2 + y ^ 2 + z ^ 2)) (h : 1 / 10 ^ 10 ≤ r) :
    ∃ v, realY l m x y z r = some v ∧
      |v - specR l m (x / r) (y / r) (z / r)| ≤ 1 / 10 ^ 14 * |specR l m (x / r) (y / r) (z / r)| := by
  have h0 : 0 < r := lt_of_lt_of_le (by norm_num) h
  have := realMain_spec hl hm1 hm2 h0 (unit hr h0)
  rw [mul_div_cancel₀ _ h0.ne', mul_div_cancel₀ _ h0.ne', mul_div_cancel₀ _ h0.ne'] at this
  unfold realY
  rw [if_neg (fun hc => absurd hc.2 (not_lt.2 h))]
  exact this

/-- The same for the complex harmonics used with spin-orbit coupling. -/
theorem complex_harmonic {l : ℕ} {m : ℤ} (hl : l ≤ 6) (hm1 : -(l : ℤ) ≤ m) (hm2 : m ≤ l) {x y z r : ℝ}
    (hr : r = Real.sqrt (x ^ 2 + y ^ 2 + z ^ 2)) (h : 1 / 10 ^ 10 ≤ r) :
    ∃ v, complexY l m x y z r = some v ∧
      ‖v - specC l m (x / r) (y / r) (z / r)‖ ≤ 1 / 10 ^ 14 * ‖specC l m (x / r) (y / r) (z / r)‖ := by
  have h0 : 0 < r := lt_of_lt_of_le (by norm_num) h
  have := complexMain_spec hl hm1 hm2 h0 (unit hr h0)
  rw [← Complex.ofReal_mul, ← Complex.ofReal_mul, ← Complex.ofReal_mul, mul_div_cancel₀ _ h0.ne',
    mul_div_cancel₀ _ h0.ne', mul_div_cancel₀ _ h0.ne'] at this
  unfold complexY
  rw [if_neg (fun hc => absurd hc.2 (not_lt.2 h))]
  exact this

/-- Near the origin harmonics of positive degree are zero, and the constant one keeps its value. -/
theorem harmonic_origin (l : ℕ) (m : ℤ) (x y z r : ℝ) (h : r < 1 / 10 ^ 10) :
    (0 < l → realY l m x y z r = some 0 ∧ complexY l m x y z r = some 0) ∧
    (l = 0 → realY l m x y z r = some r00 ∧ complexY l m x y z r = some (z00 : ℂ)) := by
  constructor
  · intro hl
    unfold realY complexY
    rw [if_pos ⟨hl, h⟩, if_pos ⟨hl, h⟩]
    exact ⟨rfl, rfl⟩
  · rintro rfl
    exact ⟨by unfold realY; rw [if_neg (by simp)]; rfl, by unfold complexY; rw [if_neg (by simp)]; rfl⟩

/-- Degrees above six and orders beyond the degree are refused away from the origin. -/
theorem harmonic_refused (l : ℕ) (m : ℤ) (x y z r : ℝ) (hr : 1 / 10 ^ 10 ≤ r)
    (h : 6 < l ∨ (0 < l ∧ (m < -(l : ℤ) ∨ (l : ℤ) < m))) :
    realY l m x y z r = none ∧ complexY l m x y z r = none := by
  unfold realY complexY
  rw [if_neg (fun hc => absurd hc.2 (not_lt.2 hr)), if_neg (fun hc => absurd hc.2 (not_lt.2 hr))]
  by_cases h6 : 6 < l
  · unfold realMain complexMain
    simp [show l ≠ 0 by omega, show l ≠ 1 by omega, show l ≠ 2 by omega, show l ≠ 3 by omega, show l ≠ 4 by omega,
      show l ≠ 5 by omega, show l ≠ 6 by omega]
  · have hm : ∀ k : ℤ, -(l : ℤ) ≤ k → k ≤ l → m ≠ k := by omega
    unfold realMain complexMain
    rcases (by omega : l = 1 ∨ l = 2 ∨ l = 3 ∨ l = 4 ∨ l = 5 ∨ l = 6) with rfl | rfl | rfl | rfl | rfl | rfl <;>
      simp [hm]

/-! ## The definition -/

/-- Opposite orders of the complex harmonics. -/
theorem specC_neg (l : ℕ) (m : ℤ) (hm : 0 < m) (u v w : ℝ) :
    specC l (-m) u v w = (-1) ^ m.natAbs * (starRingEnd ℂ) (specC l m u v w) := by
  unfold specC
  rw [if_neg (by omega), if_pos (by omega), Int.natAbs_neg, map_mul, map_pow, map_neg, map_one, ← mul_assoc, ← mul_pow]
  norm_num

/-- A turn about the z axis multiplies the complex harmonic of order `m` by the phase `exp (i m t)`. -/
theorem specC_turn (l : ℕ) (m : ℤ) (u v w t : ℝ) :
    specC l m (Real.cos t * u - Real.sin t * v) (Real.sin t * u + Real.cos t * v) w =
      Complex.exp (m * t * Complex.I) * specC l m u v w := by
  have hb : ∀ a : ℕ, base l a (Real.cos t * u - Real.sin t * v) (Real.sin t * u + Real.cos t * v) w =
      Complex.exp (a * t * Complex.I) * base l a u v w := by
    intro a
    unfold base
    have e : (((Real.cos t * u - Real.sin t * v : ℝ) : ℂ) + ((Real.sin t * u + Real.cos t * v : ℝ) : ℂ) * Complex.I) =
        Complex.exp (t * Complex.I) * ((u : ℂ) + (v : ℂ) * Complex.I) := by
      rw [Complex.exp_mul_I]
      push_cast
      linear_combination (-(Complex.sin t * v)) * Complex.I_sq
    rw [e, mul_pow, ← Complex.exp_nat_mul, mul_assoc (a : ℂ)]
    ring
  unfold specC
  by_cases hm : 0 ≤ m
  · rw [if_pos hm, if_pos hm, hb]
    have : ((m.natAbs : ℕ) : ℂ) = (m : ℂ) := by
      rw [← Int.cast_natCast, Int.natAbs_of_nonneg hm]
    rw [this]
    ring
  · rw [if_neg hm, if_neg hm, hb, map_mul, ← Complex.exp_conj]
    have : ((m.natAbs : ℕ) : ℂ) = -(m : ℂ) := by
      rw [← Int.cast_natCast, ← Int.cast_neg]
      congr 1
      omega
    rw [this]
    congr 2
    simp [Complex.conj_ofReal]

/-! ## Example -/

example : ∃ v, realY 6 (-5) 3 4 12 13 = some v ∧
    |v - specR 6 (-5) (3 / 13) (4 / 13) (12 / 13)| ≤ 1 / 10 ^ 14 * |specR 6 (-5) (3 / 13) (4 / 13) (12 / 13)| :=
  real_harmonic (by norm_num) (by norm_num) (by norm_num)
    (by rw [show (3 : ℝ) ^ 2 + 4 ^ 2 + 12 ^ 2 = 13 ^ 2 by norm_num]; exact (Real.sqrt_sq (by norm_num)).symm)
    (by norm_num)

end Sparc.Sph

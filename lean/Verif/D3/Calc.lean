import Verif.D3.Model
import Mathlib.Analysis.SpecialFunctions.ExpDeriv
import Mathlib.Analysis.SpecialFunctions.Pow.Deriv
import Mathlib.Analysis.SpecialFunctions.Sqrt
import Mathlib.Analysis.Calculus.Deriv.Inv
import Mathlib.Analysis.Calculus.Deriv.Pow

/-! Derivatives of the terms of the DFT-D3 energy along a path. -/

namespace Sparc.D3

open Classical Filter Topology

theorem hd_listSum {α : Type*} (l : List α) (f : α → ℝ → ℝ) (f' : α → ℝ) (x : ℝ)
    (h : ∀ a ∈ l, HasDerivAt (f a) (f' a) x) :
    HasDerivAt (fun t => (l.map fun a => f a t).sum) (l.map f').sum x := by
  induction l with
  | nil => simpa using hasDerivAt_const x (0 : ℝ)
  | cons a l ih =>
    simp only [List.map_cons, List.sum_cons]
    exact (h a (by simp)).add (ih fun b hb => h b (by simp [hb]))

theorem hd_ite_pos {c : ℝ → Prop} [∀ t, Decidable (c t)] {f g : ℝ → ℝ} {f' x : ℝ} (hc : ∀ᶠ t in 𝓝 x, c t) (hf : HasDerivAt f f' x) :
    HasDerivAt (fun t => if c t then f t else g t) f' x :=
  hf.congr_of_eventuallyEq (hc.mono fun t ht => by simp [ht])

theorem hd_ite_neg {c : ℝ → Prop} [∀ t, Decidable (c t)] {f g : ℝ → ℝ} {g' x : ℝ} (hc : ∀ᶠ t in 𝓝 x, ¬ c t) (hg : HasDerivAt g g' x) :
    HasDerivAt (fun t => if c t then f t else g t) g' x :=
  hg.congr_of_eventuallyEq (hc.mono fun t ht => by simp [ht])

/-- `1/r⁶` with its damping. -/
theorem hd_e6 {r : ℝ → ℝ} {w x : ℝ} (a b : ℝ) (hr : HasDerivAt r w x) (h0 : 0 < r x) :
    HasDerivAt (fun t => 1 / ((r t) ^ 2) ^ 3 * (1 / (1 + 6 * (a * (b / r t)) ^ 14)))
      ((-(6 * (1 / (1 + 6 * (a * (b / r x)) ^ 14)) / ((r x ^ 2) ^ 3 * r x))
        + 6 * (1 / (1 + 6 * (a * (b / r x)) ^ 14)) / ((r x ^ 2) ^ 3 * r x) * 14 * (a * (b / r x)) ^ 14
          * (1 / (1 + 6 * (a * (b / r x)) ^ 14))) * w) x := by
  have hne := h0.ne'
  have h1 : HasDerivAt (fun t => b / r t) (-b * w / r x ^ 2) x := by
    have := (hasDerivAt_const x b).div hr hne
    exact this.congr_deriv (by simp)
  have h2 := ((h1.const_mul a).pow 14).const_mul 6 |>.const_add 1
  have hden : (1 + 6 * (a * (b / r x)) ^ 14) ≠ 0 := by positivity
  have h3 := (hasDerivAt_const x (1 : ℝ)).div h2 hden
  have h4 := (hasDerivAt_const x (1 : ℝ)).div ((hr.pow 2).pow 3) (by simp only [Pi.pow_apply]; positivity)
  have h5 := h4.mul h3
  refine h5.congr_deriv ?_
  simp only [Pi.pow_apply, Pi.div_apply]
  set D := 1 + 6 * (a * (b / r x)) ^ 14 with hD
  have e : a * (-b * w / r x ^ 2) * (a * (b / r x)) ^ 13 = -(a * (b / r x)) ^ 14 * w / r x := by
    field_simp
  have e' : (14 : ℝ) * (a * (b / r x)) ^ 13 * (a * (-b * w / r x ^ 2)) = -14 * ((a * (b / r x)) ^ 14 * w / r x) := by
    linear_combination 14 * e
  generalize (a * (b / r x)) ^ 14 = q at *
  norm_num
  norm_num at e'
  rw [e']
  field_simp
  ring

/-- `1/r⁸` with its damping. -/
theorem hd_e8 {r : ℝ → ℝ} {w x : ℝ} (b : ℝ) (hr : HasDerivAt r w x) (h0 : 0 < r x) :
    HasDerivAt (fun t => 1 / (((r t) ^ 2) ^ 3 * r t ^ 2) * (1 / (1 + 6 * (1 * (b / r t)) ^ 16)))
      ((-(8 * (1 / (1 + 6 * (1 * (b / r x)) ^ 16)) / ((r x ^ 2) ^ 3 * r x ^ 2 * r x))
        + 6 * (1 / (1 + 6 * (1 * (b / r x)) ^ 16)) / ((r x ^ 2) ^ 3 * r x ^ 2 * r x) * 16 * (1 * (b / r x)) ^ 16
          * (1 / (1 + 6 * (1 * (b / r x)) ^ 16))) * w) x := by
  have hne := h0.ne'
  have h1 : HasDerivAt (fun t => b / r t) (-b * w / r x ^ 2) x := by
    have := (hasDerivAt_const x b).div hr hne
    exact this.congr_deriv (by simp)
  have h2 := ((h1.const_mul 1).pow 16).const_mul 6 |>.const_add 1
  have hden : (1 + 6 * (1 * (b / r x)) ^ 16) ≠ 0 := by positivity
  have h3 := (hasDerivAt_const x (1 : ℝ)).div h2 hden
  have h4 := (hasDerivAt_const x (1 : ℝ)).div (((hr.pow 2).pow 3).mul (hr.pow 2))
    (by simp only [Pi.pow_apply, Pi.mul_apply]; positivity)
  have h5 := h4.mul h3
  refine h5.congr_deriv ?_
  simp only [Pi.pow_apply, Pi.div_apply, Pi.mul_apply]
  set D := 1 + 6 * (1 * (b / r x)) ^ 16 with hD
  have e : (1 : ℝ) * (-b * w / r x ^ 2) * (1 * (b / r x)) ^ 15 = -(1 * (b / r x)) ^ 16 * w / r x := by
    field_simp
  have e' : (16 : ℝ) * (1 * (b / r x)) ^ 15 * (1 * (-b * w / r x ^ 2)) = -16 * ((1 * (b / r x)) ^ 16 * w / r x) := by
    linear_combination 16 * e
  generalize (1 * (b / r x)) ^ 16 = q at *
  norm_num
  norm_num at e'
  rw [e']
  field_simp
  ring

/-- A term of the coordination number. -/
theorem hd_cn {r : ℝ → ℝ} {w x : ℝ} (c : ℝ) (hr : HasDerivAt r w x) (h0 : 0 < r x) :
    HasDerivAt (fun t => 1 / (1 + Real.exp (-K1 * (c / r t - 1))))
      (-K1 * c * Real.exp (-K1 * (c / r x - 1)) / (r x * (Real.exp (-K1 * (c / r x - 1)) + 1)) ^ 2 * w) x := by
  have hne := h0.ne'
  have h1 : HasDerivAt (fun t => c / r t) (-c * w / r x ^ 2) x := by
    have := (hasDerivAt_const x c).div hr hne
    exact this.congr_deriv (by simp)
  have h2 := (((h1.sub_const 1).const_mul (-K1)).exp).const_add 1
  have hp := Real.exp_pos (-K1 * (c / r x - 1))
  have h3 := (hasDerivAt_const x (1 : ℝ)).div h2 (by positivity)
  refine h3.congr_deriv ?_
  generalize Real.exp (-K1 * (c / r x - 1)) = q at *
  have : 1 + q ≠ 0 := by positivity
  have : q + 1 ≠ 0 := by positivity
  field_simp
  ring

/-- The damping of the three-body term, along a path of the product of the three reduced distances. -/
theorem hd_damp3 {p : ℝ → ℝ} {p' x : ℝ} (hp : HasDerivAt p p' x) (h0 : 0 < p x) :
    HasDerivAt (fun t => 1 / (1 + 6 * (4 / 3 / (p t) ^ ((1 : ℝ) / 3)) ^ 16))
      (2 * 16 * (4 / 3 / (p x) ^ ((1 : ℝ) / 3)) ^ 16 * (1 / (1 + 6 * (4 / 3 / (p x) ^ ((1 : ℝ) / 3)) ^ 16)) ^ 2
        * (p' / p x)) x := by
  have hg := hp.rpow_const (p := (1 : ℝ) / 3) (Or.inl h0.ne')
  have gpos : 0 < (p x) ^ ((1 : ℝ) / 3) := Real.rpow_pos_of_pos h0 _
  have e1 : (p x) ^ ((1 : ℝ) / 3 - 1) = (p x) ^ ((1 : ℝ) / 3) / p x := by
    rw [Real.rpow_sub h0, Real.rpow_one]
  rw [e1] at hg
  have h1 := (hasDerivAt_const x ((4 : ℝ) / 3)).div hg gpos.ne'
  have h2 := ((h1.pow 16).const_mul 6).const_add 1
  have h3 := (hasDerivAt_const x (1 : ℝ)).div h2 (by simp only [Pi.pow_apply, Pi.div_apply]; positivity)
  refine h3.congr_deriv ?_
  simp only [Pi.pow_apply, Pi.div_apply]
  generalize hg' : (p x) ^ ((1 : ℝ) / 3) = g at *
  have hD : (1 + 6 * (4 / 3 / g) ^ 16) ≠ 0 := by positivity
  have e' : (16 : ℝ) * (4 / 3 / g) ^ 15 * ((0 * g - 4 / 3 * (p' * (1 / 3) * (g / p x))) / g ^ 2)
      = -(16 / 3) * ((4 / 3 / g) ^ 16 * (p' / p x)) := by
    field_simp
    ring
  generalize hq : (4 / 3 / g) ^ 16 = q at *
  norm_num
  norm_num at e'
  rw [e']
  field_simp
  ring

/-- The angular factor. -/
theorem hd_ang {A B C : ℝ → ℝ} {a b c x : ℝ} (hA : HasDerivAt A (2 * Real.sqrt (A x) * a) x)
    (hB : HasDerivAt B (2 * Real.sqrt (B x) * b) x) (hC : HasDerivAt C (2 * Real.sqrt (C x) * c) x)
    (hA0 : 0 < A x) (hB0 : 0 < B x) (hC0 : 0 < C x) :
    HasDerivAt (fun t => (0.375 * (A t + B t - C t) * (A t + C t - B t) * (C t + B t - A t) / (A t * B t * C t) + 1)
        / (A t * B t * C t) ^ (1.5 : ℝ))
      (dAng (A x) (B x) (C x) (A x * B x * C x) * a + dAng (B x) (C x) (A x) (A x * B x * C x) * b
        + dAng (C x) (B x) (A x) (A x * B x * C x) * c) x := by
  have hD := (hA.mul hB).mul hC
  have hDpos : 0 < A x * B x * C x := by positivity
  have h1 := hD.rpow_const (p := (1.5 : ℝ)) (Or.inl (by simpa using hDpos.ne'))
  have hN := ((((hA.add hB).sub hC).const_mul 0.375).mul ((hA.add hC).sub hB)).mul ((hC.add hB).sub hA)
  have h2 := (hN.div hD (by simpa using hDpos.ne')).add_const 1
  have h3 := h2.div h1 (by simpa using (Real.rpow_pos_of_pos hDpos _).ne')
  refine h3.congr_deriv ?_
  simp only [Pi.add_apply, Pi.sub_apply, Pi.mul_apply, Pi.div_apply, dAng]
  have e1 : (A x * B x * C x) ^ ((1.5 : ℝ) - 1) = Real.sqrt (A x * B x * C x) := by
    rw [Real.sqrt_eq_rpow]; norm_num
  have e2 : (A x * B x * C x) ^ (1.5 : ℝ) = A x * B x * C x * Real.sqrt (A x * B x * C x) := by
    rw [Real.sqrt_eq_rpow, ← Real.rpow_one_add' hDpos.le (by norm_num)]; norm_num
  have e3 : (A x * B x * C x) ^ (2.5 : ℝ) = (A x * B x * C x) ^ 2 * Real.sqrt (A x * B x * C x) := by
    rw [Real.sqrt_eq_rpow, ← Real.rpow_natCast, ← Real.rpow_add hDpos]; norm_num
  rw [e1, e2, e3]
  have sA := Real.sq_sqrt hA0.le
  have sB := Real.sq_sqrt hB0.le
  have sC := Real.sq_sqrt hC0.le
  have pA := Real.sqrt_pos.2 hA0
  have pB := Real.sqrt_pos.2 hB0
  have pC := Real.sqrt_pos.2 hC0
  have eS : Real.sqrt (A x * B x * C x) = Real.sqrt (A x) * Real.sqrt (B x) * Real.sqrt (C x) := by
    rw [Real.sqrt_mul (by positivity), Real.sqrt_mul hA0.le]
  rw [eS]
  generalize Real.sqrt (A x) = u at *
  generalize Real.sqrt (B x) = v at *
  generalize Real.sqrt (C x) = z at *
  rw [← sA, ← sB, ← sC]
  field_simp
  ring

end Sparc.D3

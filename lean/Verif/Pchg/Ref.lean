import Verif.Pchg.Model
import Verif.Tac
import Mathlib.Analysis.Calculus.Deriv.Pow
import Mathlib.Analysis.Calculus.Deriv.Inv
import Mathlib.Analysis.Calculus.Deriv.Mul
import Mathlib.MeasureTheory.Integral.IntervalIntegral.FundThmCalculus

/-!
# The reference pseudopotential

`Calculate_Pseudopot_Ref` is the potential of the radial charge
`g(r) = 21 (rc - r)³ (6r² + 3r rc + rc²) / (5 π rc⁸)`, zero beyond `rc`, of total charge one.
-/

namespace Sparc.Pchg

/-- The radial charge density of the reference pseudocharge (Pask, Sukumar and Mousavi), of unit
total charge. -/
noncomputable def gref (rc r : ℝ) : ℝ :=
  if r ≤ rc then 21 * (rc - r) ^ 3 * (6 * r ^ 2 + 3 * r * rc + rc ^ 2) / (5 * Real.pi * rc ^ 8) else 0

/-- Gluing two functions that agree to first order. -/
theorem glue {a : ℝ} {p q p' q' : ℝ → ℝ} {r : ℝ} (hp : r ≤ a → HasDerivAt p (p' r) r)
    (hq : a ≤ r → HasDerivAt q (q' r) r) (h0 : p a = q a) (h1 : p' a = q' a) :
    HasDerivAt (fun r => if r ≤ a then p r else q r) (if r ≤ a then p' r else q' r) r := by
  rcases lt_trichotomy r a with h | h | h
  · rw [if_pos h.le]
    refine (hp h.le).congr_of_eventuallyEq ?_
    filter_upwards [Iio_mem_nhds h] with s hs
    rw [if_pos (le_of_lt hs)]
  · subst h
    rw [if_pos le_rfl]
    have e1 : HasDerivWithinAt (fun s => if s ≤ r then p s else q s) (p' r) (Set.Iic r) r := by
      refine (hp le_rfl).hasDerivWithinAt.congr ?_ ?_
      · intro s hs; exact if_pos hs
      · exact if_pos le_rfl
    have e2 : HasDerivWithinAt (fun s => if s ≤ r then p s else q s) (p' r) (Set.Ici r) r := by
      rw [h1]
      refine (hq le_rfl).hasDerivWithinAt.congr ?_ ?_
      · intro s hs
        rcases eq_or_lt_of_le (show r ≤ s from hs) with e | e
        · rw [← e, if_pos le_rfl, h0]
        · exact if_neg (not_le.2 e)
      · rw [if_pos le_rfl, h0]
    have := e1.union e2
    rwa [Set.Iic_union_Ici, hasDerivWithinAt_univ] at this
  · have hn : ¬ r ≤ a := not_le.2 h
    rw [if_neg hn]
    refine (hq h.le).congr_of_eventuallyEq ?_
    filter_upwards [Ioi_mem_nhds h] with s hs
    rw [if_neg (not_le.2 hs)]

/-- The polynomial `c0 + c2 r² + c5 r⁵ + c6 r⁶ + c7 r⁷` and its derivatives. -/
theorem poly_deriv (c0 c2 c5 c6 c7 r : ℝ) :
    HasDerivAt (fun r : ℝ => c0 + c2 * r ^ 2 + c5 * r ^ 5 + c6 * r ^ 6 + c7 * r ^ 7)
      (2 * c2 * r + 5 * c5 * r ^ 4 + 6 * c6 * r ^ 5 + 7 * c7 * r ^ 6) r := by
  have := ((((hasDerivAt_const r c0).add ((hasDerivAt_pow 2 r).const_mul c2)).add
    ((hasDerivAt_pow 5 r).const_mul c5)).add ((hasDerivAt_pow 6 r).const_mul c6)).add
    ((hasDerivAt_pow 7 r).const_mul c7)
  refine this.congr_deriv ?_
  push_cast
  ring

theorem poly_deriv1 (c2 c5 c6 c7 r : ℝ) :
    HasDerivAt (fun r : ℝ => c2 * r + c5 * r ^ 4 + c6 * r ^ 5 + c7 * r ^ 6)
      (c2 + 4 * c5 * r ^ 3 + 5 * c6 * r ^ 4 + 6 * c7 * r ^ 5) r := by
  have := ((((hasDerivAt_id r).const_mul c2).add
    ((hasDerivAt_pow 4 r).const_mul c5)).add ((hasDerivAt_pow 5 r).const_mul c6)).add
    ((hasDerivAt_pow 6 r).const_mul c7)
  refine this.congr_deriv ?_
  push_cast
  ring

theorem poly_deriv2 (c2 c5 c6 c7 r : ℝ) :
    HasDerivAt (fun r : ℝ => c2 + c5 * r ^ 3 + c6 * r ^ 4 + c7 * r ^ 5)
      (3 * c5 * r ^ 2 + 4 * c6 * r ^ 3 + 5 * c7 * r ^ 4) r := by
  have := (((hasDerivAt_const r c2).add
    ((hasDerivAt_pow 3 r).const_mul c5)).add ((hasDerivAt_pow 4 r).const_mul c6)).add
    ((hasDerivAt_pow 5 r).const_mul c7)
  refine this.congr_deriv ?_
  push_cast
  ring

theorem poly_deriv3 (c5 c6 c7 r : ℝ) :
    HasDerivAt (fun r : ℝ => c5 * r ^ 2 + c6 * r ^ 3 + c7 * r ^ 4)
      (2 * c5 * r + 3 * c6 * r ^ 2 + 4 * c7 * r ^ 3) r := by
  have := ((((hasDerivAt_pow 2 r).const_mul c5)).add ((hasDerivAt_pow 3 r).const_mul c6)).add
    ((hasDerivAt_pow 4 r).const_mul c7)
  refine this.congr_deriv ?_
  push_cast
  ring

theorem inv_deriv (z : ℝ) (k : ℕ) {r : ℝ} (hr : 0 < r) :
    HasDerivAt (fun r : ℝ => z / r ^ (k + 1)) (-((k + 1 : ℕ) : ℝ) * z / r ^ (k + 2)) r := by
  have h := ((hasDerivAt_pow (k + 1) r).inv (by positivity)).const_mul z
  refine (h.congr_deriv ?_)
  rw [Nat.add_sub_cancel]
  field_simp
  ring

/-- The reference potential inside the cutoff, in expanded form. -/
theorem vref_eq (rc Z : ℝ) (hrc : 0 < rc) (r : ℝ) : vref rc Z r =
    if r ≤ rc then 12 * Z / (5 * rc) + (-14 * Z / (5 * rc ^ 3)) * r ^ 2
      + (28 * Z / (5 * rc ^ 6)) * r ^ 5 + (-6 * Z / rc ^ 7) * r ^ 6 + (9 * Z / (5 * rc ^ 8)) * r ^ 7
    else Z / r ^ (0 + 1) := by
  unfold vref
  split_ifs
  · have e1 : (5.6 : ℝ) = 28 / 5 := by norm_num
    have e2 : (1.8 : ℝ) = 9 / 5 := by norm_num
    have e3 : (6.0 : ℝ) = 6 := by norm_num
    have e4 : (2.8 : ℝ) = 14 / 5 := by norm_num
    have e5 : (2.4 : ℝ) = 12 / 5 := by norm_num
    simp only [e1, e2, e3, e4, e5]
    field_simp
    ring
  · simp

/-- **C77 (smoothness).**  On `r > 0` the reference potential has four derivatives, the last of
them continuous: the polynomial inside the cutoff joins the Coulomb potential of the charge `Z`
outside. -/
theorem vref_smooth (rc Z : ℝ) (hrc : 0 < rc) : ∃ v1 v2 v3 v4 : ℝ → ℝ,
    (∀ r, 0 < r → HasDerivAt (vref rc Z) (v1 r) r) ∧ (∀ r, 0 < r → HasDerivAt v1 (v2 r) r) ∧
    (∀ r, 0 < r → HasDerivAt v2 (v3 r) r) ∧ (∀ r, 0 < r → HasDerivAt v3 (v4 r) r) ∧
    ContinuousOn v4 (Set.Ioi 0) := by
  set c2 := -14 * Z / (5 * rc ^ 3) with h2
  set c5 := 28 * Z / (5 * rc ^ 6) with h5
  set c6 := -6 * Z / rc ^ 7 with h6
  set c7 := 9 * Z / (5 * rc ^ 8) with h7
  have e : vref rc Z = fun r => if r ≤ rc then 12 * Z / (5 * rc) + c2 * r ^ 2 + c5 * r ^ 5
      + c6 * r ^ 6 + c7 * r ^ 7 else Z / r ^ (0 + 1) := funext (vref_eq rc Z hrc)
  refine ⟨fun r => if r ≤ rc then 2 * c2 * r + 5 * c5 * r ^ 4 + 6 * c6 * r ^ 5 + 7 * c7 * r ^ 6
      else -((0 + 1 : ℕ) : ℝ) * Z / r ^ (1 + 1),
    fun r => if r ≤ rc then 2 * c2 + 4 * (5 * c5) * r ^ 3 + 5 * (6 * c6) * r ^ 4
      + 6 * (7 * c7) * r ^ 5 else -((1 + 1 : ℕ) : ℝ) * (-((0 + 1 : ℕ) : ℝ) * Z) / r ^ (2 + 1),
    fun r => if r ≤ rc then 3 * (4 * (5 * c5)) * r ^ 2 + 4 * (5 * (6 * c6)) * r ^ 3
      + 5 * (6 * (7 * c7)) * r ^ 4 else
      -((2 + 1 : ℕ) : ℝ) * (-((1 + 1 : ℕ) : ℝ) * (-((0 + 1 : ℕ) : ℝ) * Z)) / r ^ (3 + 1),
    fun r => if r ≤ rc then 2 * (3 * (4 * (5 * c5))) * r + 3 * (4 * (5 * (6 * c6))) * r ^ 2
      + 4 * (5 * (6 * (7 * c7))) * r ^ 3 else
      -((3 + 1 : ℕ) : ℝ) * (-((2 + 1 : ℕ) : ℝ) * (-((1 + 1 : ℕ) : ℝ) * (-((0 + 1 : ℕ) : ℝ) * Z)))
        / r ^ (4 + 1), ?_, ?_, ?_, ?_, ?_⟩
  · intro r hr
    rw [e]
    beta_reduce
    refine glue (a := rc) (r := r)
      (p' := fun r => 2 * c2 * r + 5 * c5 * r ^ 4 + 6 * c6 * r ^ 5 + 7 * c7 * r ^ 6)
      (q' := fun r => -((0 + 1 : ℕ) : ℝ) * Z / r ^ (1 + 1)) ?_ ?_ ?_ ?_
    · exact fun _ => poly_deriv _ c2 c5 c6 c7 r
    · exact fun _ => inv_deriv Z 0 hr
    · rw [h2, h5, h6, h7]; field_simp; ring
    · rw [h2, h5, h6, h7]; push_cast; field_simp; ring
  · intro r hr
    beta_reduce
    refine glue (a := rc) (r := r)
      (p' := fun r => 2 * c2 + 4 * (5 * c5) * r ^ 3 + 5 * (6 * c6) * r ^ 4 + 6 * (7 * c7) * r ^ 5)
      (q' := fun r => -((1 + 1 : ℕ) : ℝ) * (-((0 + 1 : ℕ) : ℝ) * Z) / r ^ (2 + 1)) ?_ ?_ ?_ ?_
    · exact fun _ => poly_deriv1 _ _ _ _ r
    · exact fun _ => inv_deriv _ 1 hr
    · rw [h2, h5, h6, h7]; push_cast; field_simp; ring
    · rw [h2, h5, h6, h7]; push_cast; field_simp; ring
  · intro r hr
    beta_reduce
    refine glue (a := rc) (r := r)
      (p' := fun r => 3 * (4 * (5 * c5)) * r ^ 2 + 4 * (5 * (6 * c6)) * r ^ 3 + 5 * (6 * (7 * c7)) * r ^ 4)
      (q' := fun r => -((2 + 1 : ℕ) : ℝ) * (-((1 + 1 : ℕ) : ℝ) * (-((0 + 1 : ℕ) : ℝ) * Z)) / r ^ (3 + 1)) ?_ ?_ ?_ ?_
    · exact fun _ => poly_deriv2 _ _ _ _ r
    · exact fun _ => inv_deriv _ 2 hr
    · rw [h2, h5, h6, h7]; push_cast; field_simp; ring
    · rw [h5, h6, h7]; push_cast; field_simp; ring
  · intro r hr
    beta_reduce
    refine glue (a := rc) (r := r)
      (p' := fun r => 2 * (3 * (4 * (5 * c5))) * r + 3 * (4 * (5 * (6 * c6))) * r ^ 2 + 4 * (5 * (6 * (7 * c7))) * r ^ 3)
      (q' := fun r => -((3 + 1 : ℕ) : ℝ) * (-((2 + 1 : ℕ) : ℝ) * (-((1 + 1 : ℕ) : ℝ) * (-((0 + 1 : ℕ) : ℝ) * Z))) / r ^ (4 + 1)) ?_ ?_ ?_ ?_
    · exact fun _ => poly_deriv3 _ _ _ r
    · exact fun _ => inv_deriv _ 3 hr
    · rw [h5, h6, h7]; push_cast; field_simp; ring
    · rw [h5, h6, h7]; push_cast; field_simp; ring
  · intro r hr
    have hr : 0 < r := hr
    refine ContinuousAt.continuousWithinAt ?_
    rcases lt_trichotomy r rc with h | h | h
    · refine ContinuousAt.congr (f := fun r => 2 * (3 * (4 * (5 * c5))) * r + 3 * (4 * (5 * (6 * c6))) * r ^ 2
        + 4 * (5 * (6 * (7 * c7))) * r ^ 3) (Continuous.continuousAt (by fun_prop)) ?_
      filter_upwards [Iio_mem_nhds h] with s hs
      rw [if_pos (le_of_lt hs)]
    · subst h
      rw [continuousAt_iff_continuous_left_right]
      constructor
      · refine ContinuousWithinAt.congr (f := fun r => 2 * (3 * (4 * (5 * c5))) * r
          + 3 * (4 * (5 * (6 * c6))) * r ^ 2
          + 4 * (5 * (6 * (7 * c7))) * r ^ 3) (Continuous.continuousWithinAt (by fun_prop)) ?_ ?_
        · intro s hs; exact if_pos hs
        · exact if_pos le_rfl
      · refine ContinuousWithinAt.congr (f := fun s => -((3 + 1 : ℕ) : ℝ) * (-((2 + 1 : ℕ) : ℝ) *
          (-((1 + 1 : ℕ) : ℝ) * (-((0 + 1 : ℕ) : ℝ) * Z))) / s ^ (4 + 1))
          (ContinuousAt.continuousWithinAt
            (ContinuousAt.div continuousAt_const (by fun_prop) (by positivity))) ?_ ?_
        · intro s hs
          rcases eq_or_lt_of_le (show r ≤ s from hs) with e | e
          · rw [← e, if_pos le_rfl, h5, h6, h7]; push_cast; field_simp; ring
          · exact if_neg (not_le.2 e)
        · rw [if_pos le_rfl, h5, h6, h7]; push_cast; field_simp; ring
    · refine ContinuousAt.congr (f := fun s => -((3 + 1 : ℕ) : ℝ) * (-((2 + 1 : ℕ) : ℝ) *
          (-((1 + 1 : ℕ) : ℝ) * (-((0 + 1 : ℕ) : ℝ) * Z))) / s ^ (4 + 1))
          (ContinuousAt.div continuousAt_const (by fun_prop) (by positivity)) ?_
      filter_upwards [Ioi_mem_nhds h] with s hs
      rw [if_neg (not_le.2 hs)]

/-- **C77 (Coulomb tail).** -/
theorem vref_tail (rc Z r : ℝ) (h : rc < r) : vref rc Z r = Z / r := by
  unfold vref
  exact if_neg (not_le.2 h)

/-- The derivative of `r ↦ r * vref`. -/
theorem rv_deriv (rc Z : ℝ) (hrc : 0 < rc) (r : ℝ) :
    HasDerivAt (fun r => r * vref rc Z r) (if r ≤ rc then
      12 * Z / (5 * rc) + 3 * (-14 * Z / (5 * rc ^ 3)) * r ^ 2
      + 6 * (28 * Z / (5 * rc ^ 6)) * r ^ 5 + 7 * (-6 * Z / rc ^ 7) * r ^ 6
      + 8 * (9 * Z / (5 * rc ^ 8)) * r ^ 7 else 0) r := by
  have e : (fun r => r * vref rc Z r) = fun r => if r ≤ rc then
      12 * Z / (5 * rc) * r + (-14 * Z / (5 * rc ^ 3)) * r ^ 3
      + (28 * Z / (5 * rc ^ 6)) * r ^ 6 + (-6 * Z / rc ^ 7) * r ^ 7 + (9 * Z / (5 * rc ^ 8)) * r ^ 8
      else Z := by
    funext r
    rw [vref_eq rc Z hrc]
    split_ifs with h
    · ring
    · have : r ≠ 0 := by intro h0; exact h (by rw [h0]; exact hrc.le)
      simp only [zero_add, pow_one]
      field_simp
  rw [e]
  refine glue (p' := fun r => 12 * Z / (5 * rc) + 3 * (-14 * Z / (5 * rc ^ 3)) * r ^ 2
      + 6 * (28 * Z / (5 * rc ^ 6)) * r ^ 5 + 7 * (-6 * Z / rc ^ 7) * r ^ 6
      + 8 * (9 * Z / (5 * rc ^ 8)) * r ^ 7) (q' := fun _ => 0) (fun _ => ?_)
    (fun _ => hasDerivAt_const _ _) ?_ ?_
  · have := (((((hasDerivAt_id r).const_mul (12 * Z / (5 * rc))).add
      ((hasDerivAt_pow 3 r).const_mul (-14 * Z / (5 * rc ^ 3)))).add
      ((hasDerivAt_pow 6 r).const_mul (28 * Z / (5 * rc ^ 6)))).add
      ((hasDerivAt_pow 7 r).const_mul (-6 * Z / rc ^ 7))).add
      ((hasDerivAt_pow 8 r).const_mul (9 * Z / (5 * rc ^ 8)))
    refine this.congr_deriv ?_
    push_cast
    ring
  · field_simp; ring
  · field_simp; ring

/-- **C77 (Poisson's equation).**  The spherical potential `V = vref` satisfies
`-(r V)'' = 4 π r Z g(r)` for every `r`. -/
theorem vref_poisson (rc Z : ℝ) (hrc : 0 < rc) : ∃ w : ℝ → ℝ,
    (∀ r, HasDerivAt (fun r => r * vref rc Z r) (w r) r) ∧
    ∀ r, HasDerivAt w (-(4 * Real.pi * r * (Z * gref rc r))) r := by
  refine ⟨_, fun r => rv_deriv rc Z hrc r, fun r => ?_⟩
  have key := glue (a := rc) (r := r)
    (p := fun r => 12 * Z / (5 * rc) + 3 * (-14 * Z / (5 * rc ^ 3)) * r ^ 2
      + 6 * (28 * Z / (5 * rc ^ 6)) * r ^ 5 + 7 * (-6 * Z / rc ^ 7) * r ^ 6
      + 8 * (9 * Z / (5 * rc ^ 8)) * r ^ 7) (q := fun _ => 0) (q' := fun _ => 0)
    (p' := fun r => 2 * (3 * (-14 * Z / (5 * rc ^ 3))) * r + 5 * (6 * (28 * Z / (5 * rc ^ 6))) * r ^ 4
      + 6 * (7 * (-6 * Z / rc ^ 7)) * r ^ 5 + 7 * (8 * (9 * Z / (5 * rc ^ 8))) * r ^ 6)
    (fun _ => poly_deriv (12 * Z / (5 * rc)) (3 * (-14 * Z / (5 * rc ^ 3)))
      (6 * (28 * Z / (5 * rc ^ 6))) (7 * (-6 * Z / rc ^ 7)) (8 * (9 * Z / (5 * rc ^ 8))) r)
    (fun _ => hasDerivAt_const _ _) (by field_simp; ring) (by field_simp; ring)
  refine key.congr_deriv ?_
  unfold gref
  have := Real.pi_pos
  split_ifs
  · field_simp; ring
  · ring

/-- **C77 (charge).**  The reference charge is not negative, vanishes beyond the cutoff and is
one in total. -/
theorem gref_charge (rc : ℝ) (hrc : 0 < rc) : (∀ r, 0 ≤ r → 0 ≤ gref rc r) ∧
    (∀ r, rc ≤ r → gref rc r = 0) ∧
    ∫ r in (0 : ℝ)..rc, 4 * Real.pi * r ^ 2 * gref rc r = 1 := by
  have hpi := Real.pi_pos
  refine ⟨?_, ?_, ?_⟩
  · intro r hr
    unfold gref
    split_ifs with h
    · have : 0 ≤ rc - r := by linarith
      positivity
    · exact le_rfl
  · intro r hr
    unfold gref
    split_ifs with h
    · have : rc - r = 0 := by linarith
      rw [this]; ring
    · rfl
  · set c : ℝ := 84 / (5 * rc ^ 8) with hc
    have h1 : ∀ r ∈ Set.uIcc 0 rc, HasDerivAt
        (fun r : ℝ => c * (rc ^ 5 * r ^ 3 / 3 - 10 * rc ^ 2 * r ^ 6 / 6 + 15 * rc * r ^ 7 / 7
          - 6 * r ^ 8 / 8)) (4 * Real.pi * r ^ 2 * gref rc r) r := by
      intro r hr
      rw [Set.uIcc_of_le hrc.le] at hr
      have h3 := (((((hasDerivAt_pow 3 r).const_mul (rc ^ 5)).div_const 3).sub
        (((hasDerivAt_pow 6 r).const_mul (10 * rc ^ 2)).div_const 6)).add
        (((hasDerivAt_pow 7 r).const_mul (15 * rc)).div_const 7)).sub
        (((hasDerivAt_pow 8 r).const_mul 6).div_const 8)
      refine (h3.const_mul c).congr_deriv ?_
      unfold gref
      rw [if_pos hr.2, hc]
      push_cast
      field_simp
      ring
    rw [intervalIntegral.integral_eq_sub_of_hasDerivAt h1]
    · rw [hc]; field_simp; ring
    · refine ContinuousOn.intervalIntegrable ?_
      have : ContinuousOn (fun r : ℝ => 4 * Real.pi * r ^ 2 * (21 * (rc - r) ^ 3 *
          (6 * r ^ 2 + 3 * r * rc + rc ^ 2) / (5 * Real.pi * rc ^ 8))) (Set.uIcc 0 rc) := by
        apply Continuous.continuousOn
        fun_prop
      refine this.congr ?_
      intro r hr
      rw [Set.uIcc_of_le hrc.le] at hr
      unfold gref
      simp only [if_pos hr.2]

/-- **C77 (bounds).**  For a charge `Z ≥ 0` the reference potential lies between 0 and the
Coulomb potential `Z / r`, and does not exceed its value `12 Z / (5 rc)` at the centre. -/
theorem vref_bounds (rc Z : ℝ) (hrc : 0 < rc) (hZ : 0 ≤ Z) (r : ℝ) (hr : 0 < r) :
    0 ≤ vref rc Z r ∧ vref rc Z r ≤ Z / r ∧ vref rc Z r ≤ 12 * Z / (5 * rc) ∧
    vref rc Z 0 = 12 * Z / (5 * rc) := by
  have h00 : vref rc Z 0 = 12 * Z / (5 * rc) := by
    rw [vref_eq rc Z hrc, if_pos hrc.le]; ring
  by_cases h : r ≤ rc
  · obtain ⟨x, hx⟩ : ∃ x, x = r / rc := ⟨_, rfl⟩
    have hr' : r = x * rc := by rw [hx]; field_simp
    have x0 : 0 < x := by rw [hx]; positivity
    have x1 : x ≤ 1 := by rw [hx, div_le_one hrc]; exact h
    have hv : vref rc Z r = Z / (5 * rc) * (12 - 14 * x ^ 2 + 28 * x ^ 5 - 30 * x ^ 6 + 9 * x ^ 7) := by
      rw [vref_eq rc Z hrc, if_pos h, hr']; field_simp; ring
    have hZr : 0 ≤ Z / (5 * rc) := by positivity
    obtain ⟨y, hy⟩ : ∃ y, y = 1 - x := ⟨_, rfl⟩
    have y0 : 0 ≤ y := by linarith
    have hx' : x = 1 - y := by linarith
    have p : 0 ≤ 14 - 28 * x ^ 3 + 30 * x ^ 4 - 9 * x ^ 5 := by
      nlinarith [pow_pos x0 2, pow_pos x0 3, pow_pos x0 4, mul_nonneg (pow_pos x0 4).le y0,
        mul_nonneg (pow_pos x0 3).le y0, mul_nonneg (pow_pos x0 2).le y0, mul_nonneg x0.le y0,
        sq_nonneg (x ^ 2 - x), sq_nonneg (x ^ 2 - 1 / 2), sq_nonneg (x - 1 / 2)]
    have a1 : 12 - 14 * x ^ 2 + 28 * x ^ 5 - 30 * x ^ 6 + 9 * x ^ 7 ≤ 12 := by
      nlinarith [mul_nonneg (pow_pos x0 2).le p]
    have a2 : 5 - x * (12 - 14 * x ^ 2 + 28 * x ^ 5 - 30 * x ^ 6 + 9 * x ^ 7) =
        y ^ 5 * (5 + 13 * x + 15 * x ^ 2 + 9 * x ^ 3) := by rw [hy]; ring
    have a3 : 0 ≤ 12 - 14 * x ^ 2 + 28 * x ^ 5 - 30 * x ^ 6 + 9 * x ^ 7 := by
      have c1 : 0 ≤ x ^ 5 * (28 - 30 * x + 9 * x ^ 2 - 7) := by
        apply mul_nonneg (by positivity)
        nlinarith
      have c2 : 0 ≤ 12 - 14 * x ^ 2 + 7 * x ^ 5 := by
        nlinarith [pow_pos x0 3, mul_nonneg (pow_pos x0 2).le y0, mul_nonneg (pow_pos x0 3).le y0,
          mul_nonneg (pow_pos x0 4).le y0, mul_nonneg x0.le y0, sq_nonneg (x - 1)]
      nlinarith
    refine ⟨?_, ?_, ?_, h00⟩
    · rw [hv]; positivity
    · rw [hv, le_div_iff₀ hr, hr']
      have := mul_nonneg hZ (mul_nonneg (pow_nonneg y0 5) (by positivity : 0 ≤ 5 + 13 * x + 15 * x ^ 2 + 9 * x ^ 3))
      rw [← a2] at this
      have e : Z / (5 * rc) * (12 - 14 * x ^ 2 + 28 * x ^ 5 - 30 * x ^ 6 + 9 * x ^ 7) * (x * rc) =
        Z / 5 * (x * (12 - 14 * x ^ 2 + 28 * x ^ 5 - 30 * x ^ 6 + 9 * x ^ 7)) := by field_simp
      rw [e]
      linarith
    · rw [hv]
      have := mul_le_mul_of_nonneg_left a1 hZr
      calc _ ≤ _ := this
        _ = _ := by field_simp
  · rw [not_le] at h
    rw [vref_tail rc Z r h]
    refine ⟨by positivity, le_rfl, ?_, h00⟩
    rw [div_le_div_iff₀ hr (by positivity)]
    nlinarith [mul_nonneg hZ hrc.le]

end Sparc.Pchg

import Verif.MD.Lemmas
import Mathlib.Analysis.SpecialFunctions.Trigonometric.DerivHyp

/-!
# Molecular dynamics: properties

C24 (NVE), C25 (NVK_G), C47 (NVT_NH), C48 and C49 (initial velocities).
-/

namespace Sparc.MD

variable {A : Type} [Fintype A]

/-! ### C24 -/

/-- Reversal of all velocities. -/
def flip (s : St A) : St A := { s with vel := fun i d => -s.vel i d }

/-- The stored accelerations belong to the current positions. -/
def Consistent (mass : A → ℝ) (F : V A → V A) (s : St A) : Prop :=
  ∀ i d, s.acc i d = F s.pos i d / mass i

omit [Fintype A] in
theorem nve_consistent (dt : ℝ) (mass : A → ℝ) (F : V A → V A) (s : St A) :
    Consistent mass F (nve dt mass F s) := fun _ _ => rfl

omit [Fintype A] in
theorem iterate_consistent (dt : ℝ) (mass : A → ℝ) (F : V A → V A) {s : St A}
    (h : Consistent mass F s) : ∀ n, Consistent mass F ((nve dt mass F)^[n] s)
  | 0 => h
  | n + 1 => by rw [Function.iterate_succ_apply']; exact nve_consistent dt mass F _

omit [Fintype A] in
theorem nve_flip (dt : ℝ) (mass : A → ℝ) (F : V A → V A) {s : St A} (h : Consistent mass F s) :
    nve dt mass F (flip (nve dt mass F s)) = flip s := by
  have hpos : (part1 dt (flip (nve dt mass F s))).pos = s.pos := by
    funext i d
    simp only [part1, flip, nve, part2]
    ring
  have hacc : (fun i d => F s.pos i d / mass i) = s.acc := by
    funext i d; exact (h i d).symm
  rw [nve]
  simp only [part2]
  rw [hpos, hacc]
  cases s with
  | mk pos vel acc =>
    simp only [flip, St.mk.injEq, and_true, true_and]
    funext i d
    have e := h i d
    simp only at e
    simp only [part1, nve, part2]
    rw [e]
    ring

omit [Fintype A] in
/-- **C24.** `n` NVE steps, all velocities flipped, and `n` more steps lead back to the start
with flipped velocities. -/
theorem nve_reversible (dt : ℝ) (mass : A → ℝ) (F : V A → V A) {s : St A}
    (h : Consistent mass F s) (n : ℕ) :
    (nve dt mass F)^[n] (flip ((nve dt mass F)^[n] s)) = flip s := by
  induction n with
  | zero => rfl
  | succ n ih =>
    rw [Function.iterate_succ_apply, Function.iterate_succ_apply' (f := nve dt mass F) (n := n) (x := s),
      nve_flip dt mass F (iterate_consistent dt mass F h n), ih]

/-- **C24.** When the forces always add up to zero, the total momentum does not change. -/
theorem nve_momentum (dt : ℝ) {mass : A → ℝ} (hm : ∀ i, mass i ≠ 0) {F : V A → V A}
    (hF : ∀ r d, ∑ i, F r i d = 0) {s : St A} (h : Consistent mass F s) (n : ℕ) (d : Fin 3) :
    ∑ i, mass i * ((nve dt mass F)^[n] s).vel i d = ∑ i, mass i * s.vel i d := by
  induction n with
  | zero => rfl
  | succ n ih =>
    rw [Function.iterate_succ_apply', ← ih]
    set t := (nve dt mass F)^[n] s with ht
    have hc : Consistent mass F t := iterate_consistent dt mass F h n
    have e : ∀ i, mass i * (nve dt mass F t).vel i d =
        mass i * t.vel i d + 0.5 * dt * F t.pos i d +
          0.5 * dt * F (part1 dt t).pos i d := by
      intro i
      have := hm i
      simp only [nve, part2, part1]
      rw [hc i d]
      field_simp
    rw [Finset.sum_congr rfl fun i _ => e i, Finset.sum_add_distrib, Finset.sum_add_distrib,
      ← Finset.mul_sum, ← Finset.mul_sum, hF, hF]
    ring

omit [Fintype A] in
/-- **C24.** A coordinate that starts at rest and never feels a force (a fixed atom,
forces.c:125-129) never moves. -/
theorem nve_fixed (dt : ℝ) (mass : A → ℝ) {F : V A → V A} {s : St A} (h : Consistent mass F s)
    {i : A} {d : Fin 3} (hF : ∀ r, F r i d = 0) (hv : s.vel i d = 0) (n : ℕ) :
    ((nve dt mass F)^[n] s).pos i d = s.pos i d ∧ ((nve dt mass F)^[n] s).vel i d = 0 := by
  induction n with
  | zero => exact ⟨rfl, hv⟩
  | succ n ih =>
    rw [Function.iterate_succ_apply']
    have hc := iterate_consistent dt mass F h n i d
    rw [hF, zero_div] at hc
    constructor
    · simp only [nve, part2, part1]
      rw [hc, ih.1, ih.2]
      ring
    · simp only [nve, part2, part1]
      rw [hc, ih.2, hF]
      ring

/-- Two atoms of masses 1 and 3 joined by a spring. -/
noncomputable def spring : V (Fin 2) → V (Fin 2) := fun r i d =>
  if i = 0 then r 1 d - r 0 d else r 0 d - r 1 d

noncomputable def springStart : St (Fin 2) :=
  { pos := fun i d => if i = 0 ∧ d = 0 then 2 else 0
    vel := fun i d => if i = 1 ∧ d = 1 then 1 else 0
    acc := fun i d => spring (fun i d => if i = 0 ∧ d = 0 then 2 else 0) i d / ![1, 3] i }

/-- The hypotheses of the C24 theorems hold for a moving system with non-zero forces. -/
example : Consistent ![1, 3] spring springStart ∧ (∀ r d, ∑ i, spring r i d = 0) ∧
    (∀ i, (![1, 3] : Fin 2 → ℝ) i ≠ 0) ∧ spring springStart.pos 0 0 = -2 ∧
    (nve 1 ![1, 3] spring springStart).pos 0 0 ≠ springStart.pos 0 0 := by
  refine ⟨fun i d => rfl, fun r d => ?_, fun i => ?_, ?_, ?_⟩
  · rw [Fin.sum_univ_two]; simp [spring]
  · fin_cases i <;> norm_num
  · norm_num [spring, springStart]
  · norm_num [nve, part1, part2, spring, springStart]

/-! ### C25 -/

/-- **C25.** The velocity update of `NVK_G` leaves the kinetic energy exactly unchanged. -/
theorem gauss_ke {dt : ℝ} {mass : A → ℝ} {f acc vel w : V A}
    (hf : ∀ i d, f i d = mass i * acc i d) (h : gauss dt mass f acc vel = some w) :
    ke mass w = ke mass vel := by
  unfold gauss at h
  extract_lets v2 a b sqb as0 as s1 s2 s scdot at h
  by_cases hb : v2 = 0 ∨ b ≤ 0 ∨ scdot = 0
  · rw [if_pos hb] at h; exact absurd h (by simp)
  rw [if_neg hb] at h
  push Not at hb
  obtain ⟨hv, hb, hs⟩ := hb
  have hw := Option.some.inj h
  rw [← hw, ke_combine hf]
  have hσ : sqb ≠ 0 := (Real.sqrt_pos.2 hb).ne'
  have hsq : sqb ^ 2 = b := Real.sq_sqrt hb.le
  have key := gauss_identity (a := a) hσ hsq (Real.cosh_sq_sub_sinh_sq as)
  have h1 : dot f vel = a * v2 := by simp only [a]; field_simp
  have h2 : 2 * ke mass acc = b * v2 := by rw [← dot_acc hf]; simp only [b]; field_simp
  rw [h1]
  rw [div_eq_iff (pow_ne_zero 2 hs)]
  have h3 : 2 * ke mass vel = v2 := (v2_gauss mass vel).symm
  have key' : 1 + 2 * a * s + b * s ^ 2 = scdot ^ 2 := key
  linear_combination (ke mass vel) * key' + (a * s) * (-h3) + (s ^ 2 / 2) * h2 -
    (s ^ 2 * b / 2) * h3

/-- **C25.** For non-zero velocities and forces no denominator vanishes, whatever the time
step. -/
theorem gauss_defined (dt : ℝ) {mass : A → ℝ} (hm : ∀ i, 0 < mass i) {f acc vel : V A}
    (hf : ∀ i d, f i d = mass i * acc i d) (hv : vel ≠ 0) (hf0 : f ≠ 0) :
    (gauss dt mass f acc vel).isSome := by
  unfold gauss
  extract_lets v2 a b sqb as0 as s1 s2 s scdot
  have h3 : 2 * ke mass vel = v2 := (v2_gauss mass vel).symm
  have hacc : acc ≠ 0 := by
    rintro rfl
    apply hf0
    funext i d
    rw [hf]; simp
  have hv2 : 0 < v2 := h3 ▸ mul_pos two_pos (ke_pos hm hv)
  have hb : 0 < b := by
    simp only [b]
    rw [dot_acc hf]
    exact div_pos (mul_pos two_pos (ke_pos hm hacc)) hv2
  have hsq : sqb ^ 2 = b := Real.sq_sqrt hb.le
  have hab : a ^ 2 ≤ sqb ^ 2 := by
    rw [hsq]
    simp only [a, b]
    rw [div_pow, dot_acc hf, div_le_div_iff₀ (by positivity) hv2]
    have := cauchy hm (v := vel) hf
    rw [h3] at this
    nlinarith
  have hs : 0 < scdot := scdot_pos (Real.sqrt_pos.2 hb) hab
  rw [if_neg (by push Not; exact ⟨hv2.ne', hb, hs.ne'⟩)]
  rfl

/-- **C25.** The velocity update is not an approximation: with constant forces it is the exact
solution, at time `dt/2`, of the equation of motion under Gauss's constraint, in which the friction
is the power of the forces divided by twice the kinetic energy.  Holds as long as the hyperbolic
angle is not clamped at 300. -/
theorem gauss_flow {dt : ℝ} {mass : A → ℝ} (hm : ∀ i, 0 < mass i) {f acc vel : V A}
    (hf : ∀ i d, f i d = mass i * acc i d) (hv : vel ≠ 0) (hf0 : f ≠ 0)
    (hclamp : √(dot f acc / (2 * ke mass vel)) * dt / 2 ≤ 300) :
    ∃ w : ℝ → V A, w 0 = vel ∧ gauss dt mass f acc vel = some (w (dt / 2)) ∧
      ∀ τ i d, HasDerivAt (fun t => w t i d)
        (acc i d - dot f (w τ) / (2 * ke mass (w τ)) * w τ i d) τ := by
  have hdef := gauss_defined dt hm hf hv hf0
  unfold gauss at hdef ⊢
  extract_lets v2 a b sqb as0 as s1 s2 s scdot at hdef ⊢
  have h3 : 2 * ke mass vel = v2 := (v2_gauss mass vel).symm
  have hb : ¬(v2 = 0 ∨ b ≤ 0 ∨ scdot = 0) := fun hb => by rw [if_pos hb] at hdef; simp at hdef
  rw [if_neg hb]
  push Not at hb
  obtain ⟨hv2, hb, hs⟩ := hb
  have hσ : 0 < sqb := Real.sqrt_pos.2 hb
  have hsq : sqb ^ 2 = b := Real.sq_sqrt hb.le
  have h1 : dot f vel = a * v2 := by simp only [a]; field_simp
  have h2 : 2 * ke mass acc = b * v2 := by rw [← dot_acc hf]; simp only [b]; field_simp
  have hv2' : 0 < v2 := h3 ▸ mul_pos two_pos (ke_pos hm hv)
  have hab : a ^ 2 ≤ sqb ^ 2 := by
    have := cauchy hm (v := vel) hf
    rw [h3, h1, h2] at this
    rw [hsq]
    have h4 : a ^ 2 * v2 ^ 2 ≤ b * v2 ^ 2 := by nlinarith
    exact le_of_mul_le_mul_right h4 (by positivity)
  have hnc : as = sqb * (dt / 2) := by
    have : as0 ≤ 300 := by rw [h3] at hclamp; exact hclamp
    simp only [as]
    rw [if_neg (not_lt.2 this)]
    simp only [as0]; ring
  set S : ℝ → ℝ := fun t => a * (Real.cosh (sqb * t) - 1) / b + Real.sinh (sqb * t) / sqb with hS
  set D : ℝ → ℝ := fun t => a * Real.sinh (sqb * t) / sqb + Real.cosh (sqb * t) with hD
  have hDpos : ∀ t, 0 < D t := fun t => scdot_pos hσ hab
  have hbs : b = sqb * sqb := by rw [← hsq]; ring
  have hlin : ∀ t, HasDerivAt (fun t : ℝ => sqb * t) sqb t := fun t => by
    simpa using (hasDerivAt_id t).const_mul sqb
  have hSd : ∀ t, HasDerivAt S (D t) t := fun t => by
    have e := ((((hlin t).cosh.sub_const 1).const_mul a).div_const b).add
      ((hlin t).sinh.div_const sqb)
    refine e.congr_deriv ?_
    simp only [hD]
    rw [hbs]
    field_simp
  have hDd : ∀ t, HasDerivAt D (a + b * S t) t := fun t => by
    have e := (((hlin t).sinh.const_mul a).div_const sqb).add (hlin t).cosh
    refine e.congr_deriv ?_
    simp only [hS]
    rw [hbs]
    field_simp
    ring
  refine ⟨fun t i d => (vel i d + acc i d * S t) / D t, ?_, ?_, ?_⟩
  · funext i d
    simp [hS, hD]
  · simp only [Option.some.injEq]
    funext i d
    have e1 : s = S (dt / 2) := by simp only [s, s1, s2, hS, hnc]
    have e2 : scdot = D (dt / 2) := by simp only [scdot, s1, s2, hD, hnc]
    rw [e1, e2]
  · intro τ i d
    have hDn := (hDpos τ).ne'
    have hdotw : dot f (fun i d => (vel i d + acc i d * S τ) / D τ) = v2 * (a + b * S τ) / D τ := by
      have e : dot f (fun i d => (vel i d + acc i d * S τ) / D τ) =
          (dot f vel + S τ * dot f acc) / D τ := by
        simp only [dot]
        rw [Finset.mul_sum, ← Finset.sum_add_distrib, Finset.sum_div]
        exact Finset.sum_congr rfl fun i _ => by ring
      rw [e, h1, dot_acc hf, h2]
      ring
    have hkew : 2 * ke mass (fun i d => (vel i d + acc i d * S τ) / D τ) = v2 := by
      rw [ke_combine hf, h1]
      have key := gauss_identity (a := a) hσ.ne' hsq (Real.cosh_sq_sub_sinh_sq (sqb * τ))
      have key' : 1 + 2 * a * S τ + b * S τ ^ 2 = D τ ^ 2 := key
      rw [← mul_div_assoc, div_eq_iff (pow_ne_zero 2 hDn)]
      linear_combination v2 * key' + h3 + S τ ^ 2 * h2
    rw [hdotw, hkew]
    have e := (((hSd τ).const_mul (acc i d)).const_add (vel i d)).div (hDd τ) hDn
    refine e.congr_deriv ?_
    field_simp

/-- **C25.** A whole step keeps the kinetic energy, and it is defined as long as the forces do
not all vanish. -/
theorem nvk_ke {dt : ℝ} {mass : A → ℝ} (hm : ∀ i, 0 < mass i) {F : V A → V A} {s s' : St A}
    {f f' : V A} (hf : ∀ i d, f i d = mass i * s.acc i d) (h : nvk dt mass F s f = some (s', f')) :
    ke mass s'.vel = ke mass s.vel ∧ (∀ i d, f' i d = mass i * s'.acc i d) ∧ f' = F s'.pos := by
  rw [nvk] at h
  cases h1 : gauss dt mass f s.acc s.vel with
  | none => simp [h1] at h
  | some v1 =>
    simp only [h1] at h
    set pos : V A := fun i d => s.pos i d + v1 i d * dt with hpos
    cases h2 : gauss dt mass (F pos) (fun i d => F pos i d / mass i) v1 with
    | none => simp [h2] at h
    | some v2 =>
      simp only [h2, Option.some.injEq, Prod.mk.injEq] at h
      obtain ⟨rfl, rfl⟩ := h
      have hf2 : ∀ i d, F pos i d = mass i * (F pos i d / mass i) := fun i d => by
        have := (hm i).ne'
        field_simp
      exact ⟨(gauss_ke hf2 h2).trans (gauss_ke hf h1), hf2, rfl⟩

theorem nvk_defined (dt : ℝ) {mass : A → ℝ} (hm : ∀ i, 0 < mass i) {F : V A → V A}
    (hF : ∀ r, F r ≠ 0) {s : St A} {f : V A} (hf : ∀ i d, f i d = mass i * s.acc i d) (hf0 : f ≠ 0)
    (hv : s.vel ≠ 0) : (nvk dt mass F s f).isSome := by
  have h1 := gauss_defined dt hm hf hv hf0
  obtain ⟨v1, hv1⟩ := Option.isSome_iff_exists.1 h1
  have hk := gauss_ke hf hv1
  have hne : v1 ≠ 0 := by
    rintro rfl
    have := ke_pos hm hv
    rw [← hk] at this
    simp [ke] at this
  have h2 := gauss_defined dt hm (f := F fun i d => s.pos i d + v1 i d * dt)
    (acc := fun i d => F (fun i d => s.pos i d + v1 i d * dt) i d / mass i) (vel := v1)
    (fun i d => (mul_div_cancel₀ _ (hm i).ne').symm) hne (hF _)
  obtain ⟨v2, hv2⟩ := Option.isSome_iff_exists.1 h2
  rw [nvk]
  simp only [hv1, hv2]
  rfl

/-- **C25, finding.** With all forces zero (free atoms, or every atom fixed) the update divides
zero by zero. -/
theorem gauss_no_force (dt : ℝ) (mass : A → ℝ) (vel : V A) : gauss dt mass 0 0 vel = none := by
  unfold gauss
  extract_lets v2 a b sqb as0 as s1 s2 s scdot
  apply if_pos
  right; left
  simp [b, dot]

/-- Non-zero velocities and forces for C25. -/
example : (∀ i, (0 : ℝ) < (![1, 3] : Fin 2 → ℝ) i) ∧
    (∀ i d, spring springStart.pos i d = (![1, 3] : Fin 2 → ℝ) i * springStart.acc i d) ∧
    springStart.vel ≠ 0 ∧ spring springStart.pos ≠ 0 := by
  refine ⟨fun i => ?_, fun i d => ?_, fun h => ?_, fun h => ?_⟩
  · fin_cases i <;> norm_num
  · fin_cases i <;> simp [springStart, mul_div_cancel₀]
  · have := congrFun (congrFun h 1) 1
    norm_num [springStart] at this
  · have := congrFun (congrFun h 0) 0
    norm_num [springStart, spring] at this

/-! ### C47 -/

/-- Residual of the implicit velocity equation `v = v₀ + dt/2 (a - ξ v)`. -/
noncomputable def resV (N : Nose A) (v : V A) (xi : ℝ) : V A := fun i d =>
  v i d - (N.vel i d + N.dt / 2 * (N.acc i d - xi * v i d))

/-- Residual of the implicit thermostat equation `ξ = ξ₀ + dt/2 (Σ m v² - g)/q`. -/
noncomputable def resXi (N : Nose A) (v : V A) (xi : ℝ) : ℝ :=
  xi - (N.xi0 + N.dt / 2 * ((2 * ke N.mass v - N.g) / N.q))

/-- The two denominators of a pass. -/
def Regular (N : Nose A) (v : V A) (xi : ℝ) : Prop :=
  1 + N.dt / 2 * xi ≠ 0 ∧ 1 + N.dt / 2 * xi + N.dt ^ 2 / 2 * (2 * ke N.mass v) / N.q ≠ 0 ∧ N.q ≠ 0

omit [Fintype A] in
theorem hnose_eq (N : Nose A) (v : V A) (xi : ℝ) : hnose N v xi = resV N v xi := by
  funext i d
  simp only [hnose, resV]
  ring

/-- `delxi` solves its own defining relation. -/
theorem delxi_eq {N : Nose A} {v : V A} {xi : ℝ} (h : Regular N v xi) :
    -(1 + N.dt / 2 * xi + N.dt ^ 2 / 2 * (2 * ke N.mass v) / N.q) *
        delxi N v xi (2 * ke N.mass v) =
      (N.dt / N.q) * (∑ i, ∑ d, N.mass i * v i d * resV N v xi i d) +
        (1 + N.dt / 2 * xi) * resXi N v xi := by
  obtain ⟨h1, h2, h3⟩ := h
  have hs : ∑ i, ∑ d, hnose N v xi i d * (v i d * N.dt * N.mass i / N.q) =
      (N.dt / N.q) * (∑ i, ∑ d, N.mass i * v i d * resV N v xi i d) := by
    rw [Finset.mul_sum]
    refine Finset.sum_congr rfl fun i _ => ?_
    rw [Finset.mul_sum]
    refine Finset.sum_congr rfl fun d _ => ?_
    rw [hnose_eq]
    ring
  rw [delxi, hs]
  have hd : (-0.5 * N.dt ^ 2 * (2 * ke N.mass v) / N.q + -1 * (0.5 * xi * N.dt + 1)) =
      -(1 + N.dt / 2 * xi + N.dt ^ 2 / 2 * (2 * ke N.mass v) / N.q) := by ring
  rw [hd, mul_div_cancel₀ _ (neg_ne_zero.2 h2)]
  rw [resXi]
  ring

theorem ke_sum (mass : A → ℝ) (v : V A) : 2 * ke mass v = ∑ i, ∑ d, mass i * v i d ^ 2 := by
  rw [ke, Finset.mul_sum]
  refine Finset.sum_congr rfl fun i _ => ?_
  rw [Fin.sum_univ_three]
  ring

/-- **C47.** One pass of the iteration is a full Newton step for the coupled implicit equations:
what is left of each residual is purely quadratic in the change. -/
theorem nose_newton {N : Nose A} {v : V A} {xi : ℝ} (h : Regular N v xi) :
    let t := nosePass N (v, xi, v2 N.mass v)
    (∀ i d, resV N t.1 t.2.1 i d = N.dt / 2 * ((t.2.1 - xi) * (t.1 i d - v i d))) ∧
      resXi N t.1 t.2.1 =
        -(N.dt / 2 / N.q) * (2 * ke N.mass fun i d => t.1 i d - v i d) ∧
      t.2.2 = v2 N.mass t.1 := by
  intro t
  have hD := delxi_eq h
  obtain ⟨h1, h2, h3⟩ := h
  have ht1 : t.2.1 = xi + delxi N v xi (2 * ke N.mass v) := by
    simp only [t, nosePass, v2_eq]
  have ht0 : ∀ i d, (1 + N.dt / 2 * xi) * (t.1 i d - v i d) =
      -(resV N v xi i d + N.dt / 2 * v i d * delxi N v xi (2 * ke N.mass v)) := by
    intro i d
    have hd : -1 * (0.5 * xi * N.dt + 1) = -(1 + N.dt / 2 * xi) := by ring
    simp only [t, nosePass, v2_eq, hnose_eq, hd]
    rw [add_sub_cancel_left, div_neg, mul_neg, mul_div_cancel₀ _ h1]
    ring
  generalize delxi N v xi (2 * ke N.mass v) = dx at *
  refine ⟨fun i d => ?_, ?_, rfl⟩
  · have e := ht0 i d
    simp only [resV] at e ⊢
    rw [ht1]
    linear_combination e
  · -- the cross term
    have hx : (1 + N.dt / 2 * xi) * (∑ i, ∑ d, N.mass i * v i d * (t.1 i d - v i d)) =
        -(∑ i, ∑ d, N.mass i * v i d * resV N v xi i d) - N.dt / 2 * dx * (2 * ke N.mass v) := by
      rw [ke_sum, Finset.mul_sum, Finset.mul_sum, ← Finset.sum_neg_distrib,
        ← Finset.sum_sub_distrib]
      refine Finset.sum_congr rfl fun i _ => ?_
      rw [Finset.mul_sum, Finset.mul_sum, ← Finset.sum_neg_distrib, ← Finset.sum_sub_distrib]
      refine Finset.sum_congr rfl fun d _ => ?_
      linear_combination (N.mass i * v i d) * ht0 i d
    have hk : 2 * ke N.mass t.1 = 2 * ke N.mass v +
        2 * (∑ i, ∑ d, N.mass i * v i d * (t.1 i d - v i d)) +
        2 * ke N.mass (fun i d => t.1 i d - v i d) := by
      rw [ke_sum, ke_sum, ke_sum, Finset.mul_sum, ← Finset.sum_add_distrib,
        ← Finset.sum_add_distrib]
      refine Finset.sum_congr rfl fun i _ => ?_
      rw [Finset.mul_sum, ← Finset.sum_add_distrib, ← Finset.sum_add_distrib]
      refine Finset.sum_congr rfl fun d _ => ?_
      ring
    simp only [resXi] at hD ⊢
    rw [hk, ht1]
    generalize (∑ i, ∑ d, N.mass i * v i d * (t.1 i d - v i d)) = X at *
    generalize (∑ i, ∑ d, N.mass i * v i d * resV N v xi i d) = Y at *
    generalize ke N.mass (fun i d => t.1 i d - v i d) = Z at *
    generalize ke N.mass v = K at *
    have goal : (1 + N.dt / 2 * xi) * (xi + dx - (N.xi0 + N.dt / 2 * ((2 * K + 2 * X + 2 * Z - N.g) / N.q))) =
        (1 + N.dt / 2 * xi) * (-(N.dt / 2 / N.q) * (2 * Z)) := by
      linear_combination -(N.dt / N.q) * hx - hD
    exact mul_left_cancel₀ h1 goal

/-- **C47.** A pass changes nothing exactly when both implicit equations hold. -/
theorem nose_fixed_iff {N : Nose A} {v : V A} {xi : ℝ} (h : Regular N v xi) :
    nosePass N (v, xi, v2 N.mass v) = (v, xi, v2 N.mass v) ↔
      (∀ i d, v i d = N.vel i d + N.dt / 2 * (N.acc i d - xi * v i d)) ∧
        xi = N.xi0 + N.dt / 2 * ((v2 N.mass v - N.g) / N.q) := by
  constructor
  · intro hfix
    obtain ⟨n1, n2, -⟩ := nose_newton h
    rw [hfix] at n1 n2
    simp only [sub_self, mul_zero, resV, resXi] at n1 n2
    constructor
    · intro i d
      linarith [n1 i d]
    · rw [v2_eq]
      have : ke N.mass (fun _ _ => (0 : ℝ)) = 0 := by simp [ke]
      rw [this] at n2
      linarith
  · rintro ⟨e1, e2⟩
    have r1 : ∀ i d, resV N v xi i d = 0 := fun i d => by rw [resV]; linarith [e1 i d]
    have r2 : resXi N v xi = 0 := by rw [resXi, ← v2_eq]; linarith
    have hD := delxi_eq h
    simp only [r1, r2, mul_zero, Finset.sum_const_zero, add_zero] at hD
    have hd0 : delxi N v xi (v2 N.mass v) = 0 := by
      rw [v2_eq]
      exact (mul_eq_zero.1 hD).resolve_left (neg_ne_zero.2 h.2.1)
    have hw : (fun i d => v i d + (hnose N v xi i d + 0.5 * N.dt * v i d * 0) /
        (-1 * (0.5 * xi * N.dt + 1))) = v := by
      funext i d
      rw [hnose_eq, r1]
      simp
    simp only [nosePass, hd0, add_zero, hw]

/-- **C47.** The denominators never vanish while the friction is not too negative. -/
theorem nose_regular {N : Nose A} (hm : ∀ i, 0 < N.mass i) (hq : 0 < N.q) {v : V A} {xi : ℝ}
    (hx : 0 < 1 + N.dt / 2 * xi) : Regular N v xi := by
  have := ke_nonneg hm v
  refine ⟨hx.ne', ?_, hq.ne'⟩
  have : 0 ≤ N.dt ^ 2 / 2 * (2 * ke N.mass v) / N.q := by positivity
  linarith

/-- One `NVT_NH` step whose iteration has reached a fixed point. -/
def NvtStep (dt : ℝ) (mass : A → ℝ) (q g : ℝ) (F : V A → V A) (s : St A) (xi : ℝ) (s' : St A)
    (xi' : ℝ) : Prop :=
  let half := nvtHalf dt mass q g s.pos s.vel s.acc xi
  s'.pos = half.1 ∧ Consistent mass F s' ∧
    nosePass ⟨dt, mass, half.2.1, s'.acc, half.2.2, q, g⟩ (s'.vel, xi', v2 mass s'.vel) =
      (s'.vel, xi', v2 mass s'.vel)

/-- **C47.** A converged `NVT_NH` step is time reversible: from the flipped end state (velocities
and thermostat variable negated) the flipped start state is a converged end state. -/
theorem nvt_reversible {dt q g : ℝ} {mass : A → ℝ} {F : V A → V A}
    (hm : ∀ i, 0 < mass i) (hq : 0 < q) {s s' : St A} {xi xi' : ℝ}
    (hs : Consistent mass F s) (hx : |dt / 2 * xi| < 1) (hx' : |dt / 2 * xi'| < 1)
    (h : NvtStep dt mass q g F s xi s' xi') :
    NvtStep dt mass q g F (flip s') (-xi') (flip s) (-xi) := by
  obtain ⟨hp, hc, hfix⟩ := h
  have reg : ∀ (N : Nose A), N.dt = dt → N.mass = mass → N.q = q → ∀ (v : V A) (x : ℝ),
      |dt / 2 * x| < 1 → Regular N v x := by
    intro N e1 e2 e3 v x hx
    apply nose_regular (by rw [e2]; exact hm) (by rw [e3]; exact hq)
    rw [e1]
    have := (abs_lt.1 hx).1
    linarith
  have hv2 : v2 mass (flip s').vel = v2 mass s'.vel := by
    simp only [v2, flip, neg_sq]
  have hv2s : v2 mass (flip s).vel = v2 mass s.vel := by
    simp only [v2, flip, neg_sq]
  obtain ⟨e1, e2⟩ := (nose_fixed_iff (reg _ rfl rfl rfl _ _ hx')).1 hfix
  simp only [nvtHalf] at e1 e2 hp
  have hvh : ∀ i d, -s'.vel i d + 0.5 * dt * (s'.acc i d - -xi' * -s'.vel i d) =
      -(s.vel i d + 0.5 * dt * (s.acc i d - xi * s.vel i d)) := by
    intro i d
    linear_combination -(e1 i d)
  refine ⟨?_, hs, ?_⟩
  · funext i d
    simp only [nvtHalf, flip]
    rw [hvh, hp]
    ring
  · refine (nose_fixed_iff (reg _ rfl rfl rfl _ _ (by rw [mul_neg, abs_neg]; exact hx))).2 ⟨?_, ?_⟩
    · intro i d
      simp only [nvtHalf, flip]
      rw [hvh]
      ring
    · simp only [nvtHalf]
      rw [hv2, hv2s]
      linear_combination e2

/-- **C47.** The iteration stops exactly when none of the `3 n` velocity components and not the
thermostat variable changed by more than the tolerance. -/
theorem scan_spec (n : ℕ) (big : ℕ → Bool) (bigXi : Bool) :
    scan n big bigXi (3 * n + 1) 0 0 true = true ↔
      (∀ k < 3 * n, big k = false) ∧ bigXi = false := by
  rcases Nat.eq_zero_or_pos n with rfl | hn
  · simp [scan]
  have key : ∀ fuel kk jj, kk ≤ n → jj < 3 → 3 * n + 1 ≤ fuel + (kk + jj * n) →
      (scan n big bigXi fuel kk jj true = true ↔
        (∀ k, kk + jj * n ≤ k → k < 3 * n → big k = false) ∧ bigXi = false) := by
    intro fuel
    induction fuel with
    | zero =>
      intro kk jj hk hj hf
      exfalso
      have : jj * n ≤ 2 * n := Nat.mul_le_mul_right _ (by omega)
      omega
    | succ fuel ih =>
      intro kk jj hk hj hf
      have hstep : ∀ kk' jj', kk' < n → jj' < 3 → kk' + jj' * n = kk + jj * n →
          ((if (if big (kk' + jj' * n) then false else true) = true then
              scan n big bigXi fuel (kk' + 1) jj' (if big (kk' + jj' * n) then false else true)
            else (if big (kk' + jj' * n) then false else true)) = true ↔
            (∀ k, kk + jj * n ≤ k → k < 3 * n → big k = false) ∧ bigXi = false) := by
        intro kk' jj' h1 h2 h3
        have hlt : kk' + jj' * n < 3 * n := by
          have : jj' * n ≤ 2 * n := Nat.mul_le_mul_right _ (by omega)
          omega
        cases hb : big (kk' + jj' * n) with
        | true =>
          simp only [if_true, Bool.false_eq_true, if_false, false_iff, not_and]
          intro hall
          have := hall (kk' + jj' * n) (by omega) hlt
          rw [hb] at this
          exact absurd this (by simp)
        | false =>
          simp only [Bool.false_eq_true, if_false, if_true]
          rw [ih (kk' + 1) jj' (by omega) h2 (by omega)]
          constructor
          · rintro ⟨a, b⟩
            refine ⟨fun k hk1 hk2 => ?_, b⟩
            rcases Nat.lt_or_ge (kk' + jj' * n) k with hlt | hge
            · exact a k (by omega) hk2
            · have : k = kk' + jj' * n := by omega
              rw [this, hb]
          · rintro ⟨a, b⟩
            exact ⟨fun k hk1 hk2 => a k (by omega) hk2, b⟩
      rw [scan]
      rcases Nat.lt_or_ge kk n with hlt | hge
      · have e1 : ¬ kk ≥ n := by omega
        simp only [e1, if_false, hlt, hj, true_and, and_self, if_true]
        exact hstep kk jj hlt hj rfl
      · have e1 : kk ≥ n := hge
        have hkk : kk = n := by omega
        simp only [e1, if_true, hn, true_and]
        rcases Nat.lt_or_ge (jj + 1) 3 with h3 | h3
        · simp only [h3, if_true, true_and]
          exact hstep 0 (jj + 1) hn h3 (by rw [hkk]; ring)
        · have hjj : jj = 2 := by omega
          have e2 : ¬ (jj + 1 < 3) := by omega
          simp only [e2, if_false, false_and]
          have : ∀ k, kk + jj * n ≤ k → k < 3 * n → big k = false := by
            intro k h1 h2
            exfalso
            subst hjj
            omega
          cases bigXi
          · simpa using this
          · simp
  have := key (3 * n + 1) 0 0 (by omega) (by omega) (by omega)
  simpa using this

/-- A thermostatted two-atom system: the first pass is regular and really moves. -/
noncomputable def noseDemo : Nose (Fin 2) :=
  { dt := 1, mass := ![1, 3], vel := fun i d => if i = 0 ∧ d = 0 then 1 else 0,
    acc := fun _ _ => 1, xi0 := 1, q := 2, g := 1 }

example : Regular noseDemo noseDemo.vel noseDemo.xi0 ∧
    ¬ (∀ i d, noseDemo.vel i d = noseDemo.vel i d + noseDemo.dt / 2 *
      (noseDemo.acc i d - noseDemo.xi0 * noseDemo.vel i d)) := by
  refine ⟨nose_regular (fun i => ?_) (by norm_num [noseDemo]) (by norm_num [noseDemo]), fun h => ?_⟩
  · fin_cases i <;> norm_num [noseDemo]
  · have := h 1 1
    norm_num [noseDemo] at this

/-- A converged step: a free atom at the thermostat temperature. -/
example : NvtStep 1 (fun _ : Fin 1 => (1 : ℝ)) 1 1 (fun _ _ _ => 0)
    ⟨fun _ _ => 0, fun _ d => if d = 0 then 1 else 0, fun _ _ => 0⟩ 0
    ⟨fun _ d => if d = 0 then 1 else 0, fun _ d => if d = 0 then 1 else 0, fun _ _ => 0⟩ 0 := by
  refine ⟨?_, fun _ _ => by simp, ?_⟩
  · funext i d; simp [nvtHalf]
  · refine (nose_fixed_iff (nose_regular (fun _ => one_pos) one_pos (by norm_num))).2 ⟨?_, ?_⟩
    · intro i d; simp [nvtHalf]
    · norm_num [nvtHalf, v2, show ¬ (2 : Fin 3) = 0 by decide]

/-! ### C48 -/

/-- **C48.** Without constraints, drawn velocities carry no total momentum. -/
theorem init_momentum {mass : A → ℝ} (hm : ∑ i, mass i ≠ 0) {mv : A → Fin 3 → ℕ}
    (hmv : ∀ i d, mv i d = 1) {kB T : ℝ} {dstr : ℕ} (hd : dstr ≠ 3) {v w : V A}
    (h : initVel mass mv kB T dstr v = some w) (d : Fin 3) : ∑ i, mass i * w i d = 0 := by
  rw [initVel, if_neg hd, rescaleT] at h
  split at h
  · exact absurd h (by simp)
  · rw [← Option.some.inj h]
    have e : ∀ c : ℝ, ∑ i, mass i * (fixAtoms mv (removeDrift mass v) i d * c) = 0 := by
      intro c
      have e1 : ∀ i, mass i * (fixAtoms mv (removeDrift mass v) i d * c) =
          (mass i * v i d) * c - mass i * ((∑ j, mass j * v j d) / (∑ j, mass j) * c) := by
        intro i
        simp only [fixAtoms, removeDrift, hmv, Nat.cast_one]
        ring
      rw [Finset.sum_congr rfl fun i _ => e1 i, Finset.sum_sub_distrib, ← Finset.sum_mul,
        ← Finset.sum_mul]
      field_simp
      ring
    exact e _

/-- `dof` is the number of free components minus one for each direction in which every atom is
free. -/
theorem dof_spec {mv : A → Fin 3 → ℕ} (h : ∀ i d, mv i d ≤ 1) :
    dof mv = ((Finset.univ.filter fun p : A × Fin 3 => mv p.1 p.2 = 1).card : ℤ) -
      ((Finset.univ.filter fun d : Fin 3 => ∀ i, mv i d = 1).card : ℤ) := by
  have e1 : ((Finset.univ.filter fun p : A × Fin 3 => mv p.1 p.2 = 1).card : ℤ) =
      ∑ d, ∑ i, (mv i d : ℤ) := by
    rw [Finset.card_filter, Nat.cast_sum, Fintype.sum_prod_type_right]
    refine Finset.sum_congr rfl fun d _ => Finset.sum_congr rfl fun i _ => ?_
    have := h i d
    by_cases hh : mv i d = 1
    · simp [hh]
    · have : mv i d = 0 := by omega
      simp [this]
  have e2 : ((Finset.univ.filter fun d : Fin 3 => ∀ i, mv i d = 1).card : ℤ) =
      ∑ d, if (∑ i, mv i d) = Fintype.card A then 1 else 0 := by
    rw [Finset.card_filter, Nat.cast_sum]
    refine Finset.sum_congr rfl fun d _ => ?_
    have : (∀ i, mv i d = 1) ↔ (∑ i, mv i d) = Fintype.card A := by
      constructor
      · intro hh
        simp [hh]
      · intro hh i
        have hc : ∑ i : A, mv i d = ∑ _i : A, 1 := by simp [hh]
        exact (Finset.sum_eq_sum_iff_of_le fun i _ => h i d).1 hc i (Finset.mem_univ i)
    by_cases hh : ∀ i, mv i d = 1
    · rw [if_pos hh, if_pos (this.1 hh)]; rfl
    · rw [if_neg hh, if_neg fun h' => hh (this.2 h')]; rfl
  rw [dof, Finset.sum_sub_distrib, e1, e2]

theorem dof_nonneg [Nonempty A] (mv : A → Fin 3 → ℕ) : 0 ≤ dof mv := by
  refine Finset.sum_nonneg fun d _ => ?_
  have hc : 0 < Fintype.card A := Fintype.card_pos
  split
  · rename_i h
    have : (∑ i, (mv i d : ℤ)) = Fintype.card A := by exact_mod_cast h
    omega
  · have : (0 : ℤ) ≤ ∑ i, (mv i d : ℤ) := Finset.sum_nonneg fun i _ => by positivity
    omega

/-- **C48.** Whatever the drawn velocities and the constraints, the initial kinetic energy is
`dof kB T / 2`, and fixed components are at rest. -/
theorem init_temperature [Nonempty A] {mass : A → ℝ} (hm : ∀ i, 0 < mass i) {mv : A → Fin 3 → ℕ}
    {kB T : ℝ} (hk : 0 ≤ kB) (hT : 0 ≤ T) {dstr : ℕ} {v w : V A}
    (h : initVel mass mv kB T dstr v = some w) :
    ke mass w = (dof mv : ℝ) * kB * T / 2 ∧ ∀ i d, mv i d = 0 → w i d = 0 := by
  rw [initVel] at h
  generalize hu : (if dstr = 3 then v else removeDrift mass v) = u at h
  rw [rescaleT] at h
  split at h
  · exact absurd h (by simp)
  · rename_i hk0
    rw [← Option.some.inj h]
    constructor
    · rw [ke_scale, Real.sq_sqrt]
      · field_simp
      · have hd : (0 : ℝ) ≤ dof mv := by exact_mod_cast dof_nonneg mv
        have := ke_nonneg hm (fixAtoms mv u)
        positivity
    · intro i d hi
      simp [fixAtoms, hi]

/-- The initial velocities are defined unless every component is at rest after the drift has
been removed and the constraints applied. -/
theorem init_defined {mass : A → ℝ} (hm : ∀ i, 0 < mass i) (mv : A → Fin 3 → ℕ)
    (kB T : ℝ) {dstr : ℕ} (hd : dstr ≠ 3) (v : V A) :
    (initVel mass mv kB T dstr v).isSome ↔ fixAtoms mv (removeDrift mass v) ≠ 0 := by
  rw [initVel, if_neg hd, rescaleT]
  constructor
  · intro h h0
    rw [h0] at h
    simp [ke] at h
  · intro h
    rw [if_neg (ke_pos hm h).ne']
    rfl

/-- Two atoms moving apart. -/
noncomputable def drawn : V (Fin 2) := fun i d => if i = 0 ∧ d = 0 then 2 else 0

theorem drawn_drift : removeDrift (fun _ => 1) drawn =
    fun i d => if d = 0 then (if i = 0 then 1 else -1) else 0 := by
  funext i d
  fin_cases i <;> fin_cases d <;> norm_num [removeDrift, drawn, Fin.sum_univ_two]

/-- The hypotheses of the C48 theorems can be met. -/
example : (initVel (fun _ : Fin 2 => 1) (fun _ _ => 1) 1 1 2 drawn).isSome := by
  rw [init_defined (fun _ => one_pos) _ _ _ (by norm_num), drawn_drift]
  intro h
  have := congrFun (congrFun h 0) 0
  norm_num [fixAtoms] at this

/-- **C48, finding.** The drift is removed before the constrained components are zeroed, so with
a fixed atom the system starts with a net momentum. -/
theorem init_momentum_fixed_atom : ∃ w : V (Fin 2),
    initVel (fun _ => 1) (fun i _ => if i = 0 then 1 else 0) 1 1 2 drawn = some w ∧
      ∑ i, (1 : ℝ) * w i 0 ≠ 0 := by
  set mv : Fin 2 → Fin 3 → ℕ := fun i _ => if i = 0 then 1 else 0 with hmv
  have hfix : fixAtoms mv (removeDrift (fun _ => 1) drawn) =
      fun i d => if i = 0 ∧ d = 0 then 1 else 0 := by
    rw [drawn_drift]
    funext i d
    fin_cases i <;> fin_cases d <;> norm_num [fixAtoms, mv]
  have hke : ke (fun _ : Fin 2 => 1) (fixAtoms mv (removeDrift (fun _ => 1) drawn)) = 1 / 2 := by
    rw [hfix]; norm_num [ke, Fin.sum_univ_two, show ¬ (2 : Fin 3) = 0 by decide]
  have hdof : dof mv = 3 := by simp [dof, mv, Fin.sum_univ_two]
  refine ⟨fun i d => fixAtoms mv (removeDrift (fun _ => 1) drawn) i d *
    √((dof mv : ℝ) * 1 * 1 / (2 * ke (fun _ => 1) (fixAtoms mv (removeDrift (fun _ => 1) drawn)))),
    ?_, ?_⟩
  · rw [initVel, if_neg (by norm_num), rescaleT, if_neg (by rw [hke]; norm_num)]
  · rw [hke, hfix, hdof]
    norm_num [Fin.sum_univ_two]

/-- **C48, finding.** Velocities supplied by the user keep their net momentum (the sums that
are subtracted are only accumulated for drawn velocities), although `dof` is reduced by three as
if it had been removed. -/
theorem init_momentum_user : ∃ w : V (Fin 2),
    initVel (fun _ => 1) (fun _ _ => 1) 1 1 3 drawn = some w ∧ ∑ i, (1 : ℝ) * w i 0 ≠ 0 := by
  have hfix : fixAtoms (fun _ _ => 1) drawn = drawn := by
    funext i d; simp [fixAtoms]
  have hke : ke (fun _ : Fin 2 => 1) drawn = 2 := by
    norm_num [ke, drawn, Fin.sum_univ_two, show ¬ (2 : Fin 3) = 0 by decide]
  have hdof : dof (fun (_ : Fin 2) _ => 1) = 3 := by simp [dof, Fin.sum_univ_three]
  refine ⟨fun i d => drawn i d * √((dof (fun (_ : Fin 2) _ => 1) : ℝ) * 1 * 1 /
    (2 * ke (fun _ => 1) drawn)), ?_, ?_⟩
  · rw [initVel, if_pos rfl, rescaleT, hfix, if_neg (by rw [hke]; norm_num)]
  · rw [hke, hdof]
    norm_num [Fin.sum_univ_two, drawn]

/-- What the loop leaves behind when it starts with `s > 1`. -/
theorem redraw_spec : ∀ (l : List (ℝ × ℝ)) (x y s : ℝ), s > 1 → ∀ u, redraw x y s l = some u →
    u.s = u.x * u.x + u.y * u.y ∧ u.s ≤ 1
  | [], x, y, s, hs, u, h => by rw [redraw, if_pos hs] at h; exact absurd h (by simp)
  | p :: l, x, y, s, hs, u, h => by
    rw [redraw, if_pos hs] at h
    by_cases hp : p.1 * p.1 + p.2 * p.2 > 1
    · exact redraw_spec l _ _ _ hp u h
    · cases l with
      | nil =>
        rw [redraw, if_neg hp] at h
        rw [← Option.some.inj h]
        exact ⟨rfl, not_lt.1 hp⟩
      | cons q l =>
        rw [redraw, if_neg hp] at h
        rw [← Option.some.inj h]
        exact ⟨rfl, not_lt.1 hp⟩

/-- **C49 (partial).** With the uniform distribution, an atom drawn with fresh random numbers has speed
exactly `vel_cm`.  Missing: the same for every atom, which is false (`uniform_second_atom_wrong`). -/
theorem uniform_speed_partial {vcm : ℝ} {t t' : Draw} {v : Fin 3 → ℝ} (ht : t.s > 1)
    (h : drawAtom vcm t = some (v, t')) : v 0 ^ 2 + v 1 ^ 2 + v 2 ^ 2 = vcm ^ 2 := by
  rw [drawAtom] at h
  cases hr : redraw t.x t.y t.s t.rest with
  | none => simp [hr] at h
  | some u =>
    simp only [hr, Option.some.injEq, Prod.mk.injEq] at h
    obtain ⟨h1, h2⟩ := redraw_spec _ _ _ _ ht u hr
    rw [← h.1]
    have hq : √(1 - u.s) ^ 2 = 1 - u.s := Real.sq_sqrt (by linarith)
    simp only [Matrix.cons_val]
    linear_combination (4 * vcm ^ 2 * (u.x ^ 2 + u.y ^ 2)) * hq - (4 * vcm ^ 2 * (1 - u.s)) * h1

/-- **C49, refuted.** `s` is reused as a scale factor and not reset, so an atom may be given the
random direction of its predecessor with a wrong speed: after a draw `(1, 0)` the next atom uses
no random number and moves `√5` times too fast. -/
theorem uniform_second_atom_wrong (vcm : ℝ) (rest : List (ℝ × ℝ)) :
    ∃ v1 v2 t1 t2, drawAtom vcm ⟨0, 0, 2, (1, 0) :: rest⟩ = some (v1, t1) ∧
      drawAtom vcm t1 = some (v2, t2) ∧ t2.rest = rest ∧
      v1 0 ^ 2 + v1 1 ^ 2 + v1 2 ^ 2 = vcm ^ 2 ∧ v2 0 ^ 2 + v2 1 ^ 2 + v2 2 ^ 2 = 5 * vcm ^ 2 := by
  have stop : ∀ (x y s : ℝ) l, s ≤ 1 → redraw x y s l = some ⟨x, y, s, l⟩ := by
    intro x y s l hs
    cases l <;> rw [redraw, if_neg (not_lt.2 hs)]
  have e1 : redraw 0 0 2 ((1, 0) :: rest) = some ⟨1, 0, 1, rest⟩ := by
    rw [redraw, if_pos (by norm_num)]
    have : ((1 : ℝ) * 1 + 0 * 0) = 1 := by norm_num
    dsimp only
    rw [this, stop _ _ _ _ le_rfl]
  have e2 : redraw 1 0 0 rest = some ⟨1, 0, 0, rest⟩ := stop _ _ _ _ (by norm_num)
  have d1 : drawAtom vcm ⟨0, 0, 2, (1, 0) :: rest⟩ =
      some (![0, 0, -vcm], ⟨1, 0, 0, rest⟩) := by
    rw [drawAtom]
    simp only [e1, sub_self, Real.sqrt_zero, mul_zero, zero_mul]
    norm_num
  have d2 : drawAtom vcm ⟨1, 0, 0, rest⟩ = some (![2 * vcm, 0, vcm], ⟨1, 0, 2, rest⟩) := by
    rw [drawAtom]
    simp only [e2, sub_zero, Real.sqrt_one, mul_zero, zero_mul, mul_one]
  exact ⟨_, _, _, _, d1, d2, rfl, by simp, by simp; ring⟩

end Sparc.MD

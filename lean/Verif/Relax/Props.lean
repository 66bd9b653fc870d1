import Verif.Relax.Lemmas
import Mathlib.LinearAlgebra.Matrix.Symmetric

/-!
# Structural relaxation

C27 (`FIRE`), C28 (`LBFGS`), C29 (`NLCG`).
-/

namespace Sparc.Relax

open Finset Matrix

variable {n : ℕ}

/-! ## C27: FIRE -/

/-- The states at the head of the loop, for all positions and forces that the environment may
supply. -/
inductive FireReach (P : FirePar) : Fire n → Prop
  | init (pos forces junk : V n) (iter : ℤ) : FireReach P (fireInit P pos forces junk iter)
  | step {s s' : Fire n} (e : V n × V n) : FireReach P s → fireStep P s e = some s' → FireReach P s'

/-- **C27.** No coordinate moves by more than the limit in one pass. -/
theorem fire_move (P : FirePar) (hm : 0 ≤ P.maxmov) (s : Fire n) (i : Fin n) :
    |(fireMove P s).pos i - s.pos i| ≤ P.maxmov := by
  have : (fireMove P s).pos i - s.pos i =
      clamp P.maxmov ((s.vel i + 0.5 * s.dtNow * s.acc i) * s.dtNow) := by
    simp [fireMove]
  rw [this, clamp]
  split_ifs with h1 h2
  · rw [abs_of_nonneg hm]
  · rw [abs_neg, abs_of_nonneg hm]
  · exact abs_le.2 ⟨not_lt.1 h2, not_lt.1 h1⟩

/-- **C27.** A displacement within the limit is the one of the velocity Verlet scheme. -/
theorem fire_verlet (P : FirePar) (s : Fire n) (i : Fin n)
    (h : |(s.vel i + s.dtNow / 2 * s.acc i) * s.dtNow| ≤ P.maxmov) :
    (fireMove P s).pos i = s.pos i + s.vel i * s.dtNow + s.acc i * s.dtNow ^ 2 / 2 := by
  have e : (0.5 : ℝ) * s.dtNow = s.dtNow / 2 := by ring
  obtain ⟨h1, h2⟩ := abs_le.1 h
  simp only [fireMove, clamp, e]
  rw [if_neg (not_lt.2 h2), if_neg (not_lt.2 h1)]
  ring

/-- **C27.** The time step stays positive and at most ten times its value at the start of the call;
the mixing parameter stays in `(0, 0.1]`. -/
theorem fire_bounds (P : FirePar) (hdt : 0 < P.dt * P.fs2atu) {s : Fire n} (h : FireReach P s) :
    (0 < s.dtNow ∧ s.dtNow ≤ 10 * (P.dt * P.fs2atu)) ∧ 0 < s.alpha ∧ s.alpha ≤ 1 / 10 := by
  induction h with
  | init pos forces junk iter =>
    simp only [fireInit, FirePar.dtAtu]
    refine ⟨⟨hdt, by linarith⟩, by norm_num, by norm_num⟩
  | @step s s' e _ hs ih =>
    obtain ⟨⟨h1, h2⟩, h3, h4⟩ := ih
    have h1' : 0 < (fireMove P s).dtNow := h1
    have h2' : (fireMove P s).dtNow ≤ 10 * P.dtAtu := h2
    have h3' : 0 < (fireMove P s).alpha := h3
    have h4' : (fireMove P s).alpha ≤ 1 / 10 := h4
    have h5 : 0 < P.dtAtu := hdt
    change (0 < s'.dtNow ∧ s'.dtNow ≤ 10 * P.dtAtu) ∧ 0 < s'.alpha ∧ s'.alpha ≤ 1 / 10
    unfold fireStep fireUpdate at hs
    dsimp only at hs
    split at hs
    · cases hs
    · cases hs
      dsimp only
      set vel : V n := fun i => (fireMove P s).vel i + 0.5 * (e.2 i / P.mass) * (fireMove P s).dtNow
      by_cases c1 : dot e.2 vel < 0
      · simp only [if_pos c1]
        refine ⟨⟨by linarith, by linarith⟩, by norm_num, by norm_num⟩
      · simp only [if_neg c1]
        refine ⟨?_, ?_⟩
        · split_ifs <;> constructor <;> linarith
        · split_ifs <;> constructor <;> linarith

/-- **C27.** A pass is defined as long as the new forces are not all zero, in particular whenever
the loop goes on. -/
theorem fire_defined (P : FirePar) (s : Fire n) (e : V n × V n) :
    fireStep P s e = none ↔ e.2 = 0 := by
  unfold fireStep fireUpdate
  dsimp only
  rw [← norm_eq_zero]
  split_ifs with h <;> simp [h]

/-- **C27.** After every pass the velocity does not point uphill. -/
theorem fire_downhill (P : FirePar) (hdt : 0 < P.dt * P.fs2atu) {s s' : Fire n} (h : FireReach P s)
    {e : V n × V n} (hs : fireStep P s e = some s') : 0 ≤ dot s'.forces s'.vel := by
  have hb := (fire_bounds P hdt (FireReach.step e h hs)).2
  obtain ⟨b1, b2⟩ := hb
  unfold fireStep fireUpdate at hs
  dsimp only at hs
  split at hs
  · cases hs
  next hf =>
    cases hs
    dsimp only at b1 b2 ⊢
    set vel : V n := fun i => (fireMove P s).vel i + 0.5 * (e.2 i / P.mass) * (fireMove P s).dtNow
    set a : ℝ := if dot e.2 vel < 0 then 0.1
      else if dot e.2 vel ≥ 0 ∧ (fireMove P s).iter - (fireMove P s).resetIter > 5 then
        (fireMove P s).alpha * 0.99 else (fireMove P s).alpha
    set w : V n := if dot e.2 vel < 0 then 0 else vel
    have hw : 0 ≤ dot e.2 w := by
      by_cases h' : dot e.2 vel < 0
      · simp only [w, if_pos h', dot_zero, le_refl]
      · simp only [w, if_neg h']
        exact not_lt.1 h'
    have e1 : (fun i => (1 - a) * w i + (a * norm w) * (e.2 i / norm e.2)) =
        (1 - a) • w + (a * norm w) • along e.2 := by
      funext i
      simp [along]
    rw [e1, dot_add, dot_smul, dot_smul, along_dot]
    have := norm_nonneg w
    have := norm_nonneg e.2
    have h1 : 0 ≤ (1 - a) * dot e.2 w := mul_nonneg (by linarith) hw
    have h2 : 0 ≤ a * norm w * norm e.2 := by positivity
    linarith

/-- **C27.** The mixing never speeds the atoms up, and a pass that goes uphill stops them. -/
theorem fire_speed (P : FirePar) (hdt : 0 < P.dt * P.fs2atu) {s s' : Fire n} (h : FireReach P s)
    {e : V n × V n} (hs : fireStep P s e = some s') :
    let v : V n := (fireMove P s).vel + (s.dtNow / 2) • (fun i => e.2 i / P.mass)
    norm s'.vel ≤ norm v ∧ (dot e.2 v < 0 → s'.vel = 0 ∧ s'.dtNow = s.dtNow / 2) := by
  intro v
  have hb := (fire_bounds P hdt (FireReach.step e h hs)).2
  obtain ⟨b1, b2⟩ := hb
  have hv : v = fun i => (fireMove P s).vel i + 0.5 * (e.2 i / P.mass) * (fireMove P s).dtNow := by
    funext i
    simp only [v, Pi.add_apply, Pi.smul_apply, smul_eq_mul, fireMove]
    ring
  unfold fireStep fireUpdate at hs
  dsimp only at hs
  split at hs
  · cases hs
  next hf =>
    cases hs
    dsimp only at b1 b2 ⊢
    rw [← hv] at b1 b2 ⊢
    set a : ℝ := if dot e.2 v < 0 then 0.1
      else if dot e.2 v ≥ 0 ∧ (fireMove P s).iter - (fireMove P s).resetIter > 5 then
        (fireMove P s).alpha * 0.99 else (fireMove P s).alpha with ha
    set w : V n := if dot e.2 v < 0 then 0 else v with hw
    have e1 : (fun i => (1 - a) * w i + (a * norm w) * (e.2 i / norm e.2)) =
        (1 - a) • w + (a * norm w) • along e.2 := by
      funext i
      simp [along]
    have hne : e.2 ≠ 0 := fun h => hf (norm_eq_zero.2 h)
    have hnw := norm_nonneg w
    have h1 : norm ((1 - a) • w + (a * norm w) • along e.2) ≤ norm w := by
      refine (norm_add_le _ _).trans ?_
      rw [norm_smul, norm_smul, along_norm hne, abs_of_nonneg (by linarith),
        abs_of_nonneg (by positivity)]
      linarith
    rw [e1]
    constructor
    · refine h1.trans ?_
      by_cases h' : dot e.2 v < 0
      · rw [hw, if_pos h']
        have : norm (0 : V n) = 0 := norm_eq_zero.2 rfl
        rw [this]
        exact norm_nonneg _
      · rw [hw, if_neg h']
    · intro h'
      have w0 : w = 0 := by rw [hw, if_pos h']
      refine ⟨?_, ?_⟩
      · rw [w0, norm_eq_zero.2 rfl]
        simp
      · rw [if_pos h']
        simp only [fireMove]
        ring

/-- **C27.** At most `imax - iter` force calculations are made; the loop never fails; and it ends
with all forces within the tolerance unless the passes or the time are used up. -/
theorem fire_loop (P : FirePar) (imax : ℤ) {tol : ℝ} (htol : 0 ≤ tol) (es : List (V n × V n))
    (hes : ∀ e ∈ es, sup e.2 > 0) (s : Fire n) :
    ∃ r c, fireLoop P imax tol es s = some (r, c) ∧ (c : ℤ) ≤ max 0 (imax - s.iter) ∧
      r.iter = s.iter + c ∧ (c < es.length → (∀ i, |r.forces i| ≤ tol) ∨ imax ≤ r.iter) := by
  induction es generalizing s with
  | nil => exact ⟨s, 0, rfl, by simp, by simp, fun h => by simp at h⟩
  | cons e es ih =>
    unfold fireLoop
    split_ifs with h
    · have hne : fireStep P s e ≠ none := by
        rw [Ne, fire_defined]
        exact ne_zero_of_sup le_rfl (hes e (by simp))
      obtain ⟨s', hs'⟩ := Option.ne_none_iff_exists'.1 hne
      obtain ⟨r, c, h1, h2, h3, h4⟩ := ih (fun e he => hes e (by simp [he])) s'
      have hit : s'.iter = s.iter + 1 := by
        unfold fireStep fireUpdate at hs'
        dsimp only at hs'
        split at hs'
        · cases hs'
        · cases hs'
          rfl
      refine ⟨r, c + 1, ?_, ?_, ?_, ?_⟩
      · rw [hs', Option.bind_eq_bind, Option.bind_some, h1]
        rfl
      · push_cast
        omega
      · push_cast
        omega
      · intro hc
        exact h4 (by simpa using hc)
    · refine ⟨s, 0, rfl, by simp, by simp, fun _ => ?_⟩
      rw [not_and_or, not_lt, not_lt] at h
      rcases h with h | h
      · exact Or.inr h
      · exact Or.inl ((sup_le htol).1 h)

/-- **C27 does not hold across calls.**  The conversion of the time step is written back, so when the
routine is called again (once per volume in a full relaxation, relax.c:1005-1010) the step is
converted again. -/
theorem fire_second_call (P : FirePar) (pos forces junk : V n) (iter : ℤ) :
    (fireInit P.after pos forces junk iter).dtNow = P.dt * P.fs2atu ^ 2 := by
  simp only [fireInit, FirePar.after, FirePar.dtAtu]
  ring

/-- With the default step of 1 fs the second call starts with a step above the limit of the first. -/
theorem fire_second_call_exceeds (pos forces junk : V n) (mass maxmov : ℝ) :
    let P : FirePar := ⟨1, 41.34137333656, mass, maxmov⟩
    10 * (P.dt * P.fs2atu) < (fireInit P.after pos forces junk 0).dtNow := by
  intro P
  rw [fire_second_call]
  norm_num [P]

/-- One atom in one dimension, pulled by a spring: two passes. -/
example : ∃ s : Fire 1, FireReach ⟨1, 41, 1, 1⟩ s ∧ s.iter = 1 ∧ s.forces = fun _ => -1 := by
  have h := fire_defined (n := 1) ⟨1, 41, 1, 1⟩ (fireInit ⟨1, 41, 1, 1⟩ 0 (fun _ => 1) 0 0)
    (fun _ => 1, fun _ => -1)
  have hne : ((fun _ => -1 : V 1)) ≠ 0 := fun h => by
    have := congrFun h 0
    norm_num at this
  obtain ⟨s, hs⟩ := Option.ne_none_iff_exists'.1 (mt h.1 hne)
  refine ⟨s, FireReach.step _ (FireReach.init 0 (fun _ => 1) 0 0) hs, ?_, ?_⟩ <;>
  · unfold fireStep fireUpdate at hs
    dsimp only at hs
    split at hs
    · cases hs
    · cases hs
      rfl

/-! ## C29: NLCG -/

/-- A force field that is affine in the positions. -/
def affine (A : Matrix (Fin n) (Fin n) ℝ) (b : V n) (x : V n) : V n := b - A *ᵥ x

/-- The energy whose negative gradient is `affine A b`. -/
noncomputable def energy (A : Matrix (Fin n) (Fin n) ℝ) (b : V n) (x : V n) : ℝ :=
  dot x (A *ᵥ x) / 2 - dot b x

theorem affine_move (A : Matrix (Fin n) (Fin n) ℝ) (b x d : V n) (t : ℝ) :
    affine A b (fun i => x i + t * d i) = affine A b x - t • (A *ᵥ d) := by
  have : (fun i => x i + t * d i) = x + t • d := by funext i; simp
  rw [this]
  unfold affine
  rw [mulVec_add, mulVec_smul]
  abel

theorem dot_symm {A : Matrix (Fin n) (Fin n) ℝ} (hA : A.IsSymm) (x y : V n) :
    dot x (A *ᵥ y) = dot y (A *ᵥ x) := by
  change x ⬝ᵥ (A *ᵥ y) = y ⬝ᵥ (A *ᵥ x)
  rw [dotProduct_mulVec, ← mulVec_transpose, hA.eq, dotProduct_comm]

theorem energy_move {A : Matrix (Fin n) (Fin n) ℝ} (hA : A.IsSymm) (b x d : V n) (t : ℝ) :
    energy A b (fun i => x i + t * d i) =
      energy A b x - t * dot (affine A b x) d + t ^ 2 / 2 * dot d (A *ᵥ d) := by
  have : (fun i => x i + t * d i) = x + t • d := by funext i; simp
  rw [this]
  unfold energy affine
  rw [mulVec_add, mulVec_smul, add_dot, dot_add, dot_add, dot_smul, smul_dot, smul_dot, dot_smul,
    dot_add, dot_smul, sub_dot, dot_symm hA x d, dot_comm (A *ᵥ x) d]
  ring

theorem secant_affine {A : Matrix (Fin n) (Fin n) ℝ} {b x d : V n} {sigma sectol : ℝ}
    (hs : sigma ≠ 0) (hst : 0 ≤ sectol) (hc : 0 < dot d (A *ᵥ d)) :
    secant (affine A b) d sectol 6 x (-sigma)
        (-dot (affine A b (fun i => x i + sigma * d i)) d) =
      some (fun i => x i + dot (affine A b x) d / dot d (A *ᵥ d) * d i) := by
  set c := dot d (A *ᵥ d) with hcd
  set p := dot (affine A b x) d with hp
  have e1 : dot (affine A b (fun i => x i + sigma * d i)) d = p - sigma * c := by
    rw [affine_move, sub_dot, smul_dot, dot_comm (A *ᵥ d), ← hp, ← hcd]
  have e2 : -(p - sigma * c) - -p = sigma * c := by ring
  have ea : -sigma * (-p / (sigma * c)) = p / c := by field_simp
  have hsc : sigma * c ≠ 0 := mul_ne_zero hs hc.ne'
  rw [e1, secant]
  dsimp only
  rw [← hp, e2, if_neg hsc, ea]
  by_cases hgt : |p / c| * sup d > sectol
  · rw [if_pos hgt, secant]
    have hp0 : p ≠ 0 := by
      rintro h0
      rw [h0] at hgt
      simp at hgt
      linarith
    have e3 : dot (affine A b (fun i => x i + p / c * d i)) d = 0 := by
      rw [affine_move, sub_dot, smul_dot, dot_comm (A *ᵥ d), ← hp, ← hcd]
      field_simp
      ring
    dsimp only
    rw [e3]
    rw [if_neg (by simpa using hp0), neg_zero, zero_div, mul_zero, if_neg (by simpa using hst)]
    simp
  · rw [if_neg hgt]

/-- **C29.** On an affine force field the line search ends at the exact minimiser along the search
direction, whatever the trial step. -/
theorem nlcg_line_exact {A : Matrix (Fin n) (Fin n) ℝ} (hA : A.IsSymm) {b : V n}
    {sigma sectol : ℝ} (hs : sigma ≠ 0) (hst : 0 ≤ sectol) {c c' : Cg n} {iter : ℕ}
    (hc : 0 < dot c.d (A *ᵥ c.d)) (h : cgStep (affine A b) sigma sectol iter c = some c') :
    (∃ t : ℝ, c'.pos = fun i => c.pos i + t * c.d i) ∧
    (∀ t : ℝ, energy A b c'.pos ≤ energy A b (fun i => c.pos i + t * c.d i)) ∧
    dot (affine A b c'.pos) c.d = 0 := by
  unfold cgStep at h
  dsimp only at h
  rw [secant_affine hs hst hc] at h
  simp only [Option.bind_eq_bind, Option.bind_some] at h
  split at h
  · cases h
  · cases h
    dsimp only
    set k := dot c.d (A *ᵥ c.d) with hk
    set p := dot (affine A b c.pos) c.d with hp
    refine ⟨⟨_, rfl⟩, fun t => ?_, ?_⟩
    · rw [energy_move hA, energy_move hA, ← hk, ← hp]
      have : -t * p + t ^ 2 / 2 * k - (-(p / k) * p + (p / k) ^ 2 / 2 * k) = k / 2 * (t - p / k) ^ 2 := by
        field_simp
        ring
      have h2 : 0 ≤ k / 2 * (t - p / k) ^ 2 := by positivity
      linarith
    · rw [affine_move, sub_dot, smul_dot, dot_comm (A *ᵥ c.d), ← hp, ← hk]
      field_simp
      ring

/-- **C29.** The next search direction is a descent direction: its product with the forces is the
squared length of the forces. -/
theorem nlcg_descent {A : Matrix (Fin n) (Fin n) ℝ} (hA : A.IsSymm) {b : V n}
    {sigma sectol : ℝ} (hs : sigma ≠ 0) (hst : 0 ≤ sectol) {c c' : Cg n} {iter : ℕ}
    (hc : 0 < dot c.d (A *ᵥ c.d)) (h : cgStep (affine A b) sigma sectol iter c = some c') :
    c'.forces = affine A b c'.pos ∧ dot c'.forces c'.d = dot c'.forces c'.forces := by
  have h0 := (nlcg_line_exact hA hs hst hc h).2.2
  unfold cgStep at h
  dsimp only at h
  rw [secant_affine hs hst hc] at h
  simp only [Option.bind_eq_bind, Option.bind_some] at h
  split at h
  · cases h
  · cases h
    dsimp only at h0 ⊢
    refine ⟨rfl, ?_⟩
    split_ifs
    · rfl
    · set r := affine A b (fun i => c.pos i + dot (affine A b c.pos) c.d / dot c.d (A *ᵥ c.d) * c.d i)
      set be := (dot r r - dot r c.s) / c.deltaNew
      have : (fun i => r i + be * c.d i) = r + be • c.d := by funext i; simp
      rw [this, dot_add, dot_smul, h0, mul_zero, add_zero]

/-- The values kept between passes: forces, residual and its square belong to the position, and
the search direction was made by the previous pass. -/
def CgOk (force : V n → V n) (c : Cg n) : Prop :=
  c.forces = force c.pos ∧ c.s = force c.pos ∧ c.deltaNew = dot (force c.pos) (force c.pos) ∧
  dot (force c.pos) c.d = dot (force c.pos) (force c.pos)

theorem cgInit_ok (force : V n → V n) (pos : V n) : CgOk force (cgInit force pos) :=
  ⟨rfl, rfl, rfl, rfl⟩

/-- **C29.** On an affine force field the values kept between passes are right, a pass is defined as
long as the forces are not all zero, and successive directions are conjugate unless the direction
was reset. -/
theorem nlcg_conjugate {A : Matrix (Fin n) (Fin n) ℝ} (hA : A.IsSymm)
    (hpd : ∀ v, v ≠ 0 → 0 < dot v (A *ᵥ v)) {b : V n} {sigma sectol : ℝ} (hs : sigma ≠ 0)
    (hst : 0 ≤ sectol) {c : Cg n} (hc : CgOk (affine A b) c) (hf : c.forces ≠ 0) (iter : ℕ) :
    ∃ c', cgStep (affine A b) sigma sectol iter c = some c' ∧ CgOk (affine A b) c' ∧
      (c'.d = c'.forces ∨ dot c'.d (A *ᵥ c.d) = 0) := by
  obtain ⟨c1, c2, c3, c4⟩ := hc
  set r0 := affine A b c.pos with hr0
  have hr : r0 ≠ 0 := by rw [← c1]; exact hf
  have hrr := dot_self_pos hr
  have hd : c.d ≠ 0 := by
    intro h
    rw [h, dot_zero] at c4
    linarith
  have hk := hpd _ hd
  have hstep : ∃ c', cgStep (affine A b) sigma sectol iter c = some c' := by
    unfold cgStep
    dsimp only
    rw [secant_affine hs hst hk]
    simp only [Option.bind_eq_bind, Option.bind_some]
    rw [if_neg (by rw [c3]; exact hrr.ne')]
    exact ⟨_, rfl⟩
  obtain ⟨c', h⟩ := hstep
  obtain ⟨d1, d2⟩ := nlcg_descent hA hs hst hk h
  have l3 := (nlcg_line_exact hA hs hst hk h).2.2
  have h' := h
  unfold cgStep at h'
  dsimp only at h'
  rw [secant_affine hs hst hk] at h'
  simp only [Option.bind_eq_bind, Option.bind_some] at h'
  rw [if_neg (by rw [c3]; exact hrr.ne')] at h'
  cases h'
  refine ⟨_, h, ⟨d1, rfl, rfl, d2⟩, ?_⟩
  · dsimp only at l3 ⊢
    split_ifs
    · exact Or.inl rfl
    right
    set k := dot c.d (A *ᵥ c.d) with hkd
    rw [← hr0, c4] at *
    set q := dot r0 r0 with hq
    have er : affine A b (fun i => c.pos i + q / k * c.d i) = r0 - (q / k) • (A *ᵥ c.d) := by
      rw [affine_move]
    set r := affine A b (fun i => c.pos i + q / k * c.d i) with hrd
    rw [c2, c3]
    have : (fun i => r i + (dot r r - dot r r0) / q * c.d i) = r + ((dot r r - dot r r0) / q) • c.d := by
      funext i
      simp
    rw [this, add_dot, smul_dot, ← hkd]
    have e5 : A *ᵥ c.d = (k / q) • (r0 - r) := by
      rw [er]
      have hqk : k / q * (q / k) = 1 := by
        have := hk.ne'
        have := hrr.ne'
        field_simp
      rw [sub_sub_cancel, smul_smul, hqk, one_smul]
    rw [e5, dot_smul, dot_sub]
    have := hrr.ne'
    field_simp
    ring

/-- A spring in two dimensions with different stiffnesses. -/
example : ∃ (A : Matrix (Fin 2) (Fin 2) ℝ) (b : V 2), A.IsSymm ∧
    (∀ v, v ≠ 0 → 0 < dot v (A *ᵥ v)) ∧ CgOk (affine A b) (cgInit (affine A b) 0) ∧
    (cgInit (affine A b) 0).forces ≠ 0 := by
  refine ⟨!![2, 1; 1, 3], ![1, 1], ?_, ?_, cgInit_ok _ _, ?_⟩
  · ext i j
    fin_cases i <;> fin_cases j <;> rfl
  · intro v hv
    have h : dot v (!![2, 1; 1, 3] *ᵥ v) = (v 0 + v 1) ^ 2 + v 0 ^ 2 + 2 * v 1 ^ 2 := by
      simp [dot, Matrix.mulVec, dotProduct, Fin.sum_univ_two]
      ring
    rw [h]
    by_contra hcon
    apply hv
    have h0 : v 0 = 0 := by nlinarith [sq_nonneg (v 0 + v 1), sq_nonneg (v 0), sq_nonneg (v 1)]
    have h1 : v 1 = 0 := by nlinarith [sq_nonneg (v 0 + v 1), sq_nonneg (v 0), sq_nonneg (v 1)]
    funext i
    fin_cases i
    · exact h0
    · exact h1
  · intro h
    have := congrFun h 0
    simp [cgInit, affine] at this

/-- **C29 needs positive curvature.**  At a maximum of the energy the secant step goes uphill: with
forces `x` the atom at 1 is moved to the energy maximum at 0. -/
theorem nlcg_concave : secant (affine (n := 1) !![-1] 0) (fun _ => 1) 0 6 (fun _ => 1) (-1)
    (-dot (affine (n := 1) !![-1] 0 (fun _ => 2)) (fun _ => 1)) = some (fun _ => 0) := by
  have f1 : ∀ t : ℝ, affine (n := 1) !![-1] 0 (fun _ => t) = fun _ => t := by
    intro t
    funext i
    fin_cases i
    simp [affine, Matrix.mulVec, dotProduct]
  have d1 : ∀ t : ℝ, dot (fun _ : Fin 1 => t) (fun _ => 1) = t := by intro t; simp [dot]
  have s1 : sup (fun _ : Fin 1 => (1 : ℝ)) = 1 := by simp [sup, List.finRange]
  rw [secant]
  simp only [f1, d1, s1]
  norm_num
  rw [secant]
  simp only [f1, d1, s1]
  norm_num

/-- **C29.** The new direction for any force field: forces plus the previous direction times the
Polak-Ribiere quotient, or times zero if that is negative and in every thirtieth pass. -/
theorem nlcg_restart {force : V n → V n} {sigma sectol : ℝ} {iter : ℕ} {c c' : Cg n}
    (hc : c.forces = force c.pos ∧ c.s = c.forces ∧ c.deltaNew = dot c.forces c.forces)
    (h : cgStep force sigma sectol iter c = some c') :
    c'.forces = force c'.pos ∧ c'.s = c'.forces ∧ c'.deltaNew = dot c'.forces c'.forces ∧
    c'.d = c'.forces + (if 30 ∣ iter then 0 else
      max 0 (dot c'.forces (c'.forces - c.forces) / dot c.forces c.forces)) • c.d := by
  obtain ⟨-, h2, h3⟩ := hc
  unfold cgStep at h
  dsimp only at h
  cases hsec : secant force c.d sectol 6 c.pos (-sigma)
      (-dot (force fun i => c.pos i + sigma * c.d i) c.d) with
  | none =>
    rw [hsec] at h
    cases h
  | some pos =>
    rw [hsec] at h
    simp only [bind, Option.bind, pure] at h
    split at h
    · cases h
    · cases h
      refine ⟨rfl, rfl, rfl, ?_⟩
      dsimp only
      have e : (dot (force pos) (force pos) - dot (force pos) c.s) / c.deltaNew =
          dot (force pos) (force pos - c.forces) / dot c.forces c.forces := by
        rw [h2, h3, dot_sub]
      rw [e]
      set β := dot (force pos) (force pos - c.forces) / dot c.forces c.forces
      by_cases h30 : 30 ∣ iter
      · rw [if_pos h30, if_pos (Or.inl (Nat.mod_eq_zero_of_dvd h30)), zero_smul, add_zero]
      · rw [if_neg h30]
        have h30' : ¬ iter % 30 = 0 := fun h => h30 (Nat.dvd_of_mod_eq_zero h)
        by_cases hb : β ≤ 0
        · rw [if_pos (Or.inr hb), max_eq_left hb, zero_smul, add_zero]
        · rw [if_neg (by tauto), max_eq_right (not_le.1 hb).le]
          rfl

/-! ## C28: L-BFGS -/

/-- The BFGS update of an approximate inverse Hessian with the pair `(s, y)`. -/
noncomputable def bfgsUpd (B : Matrix (Fin n) (Fin n) ℝ) (p : V n × V n) : Matrix (Fin n) (Fin n) ℝ :=
  let r := 1 / dot p.1 p.2
  (1 - r • vecMulVec p.1 p.2) * B * (1 - r • vecMulVec p.2 p.1) + r • vecMulVec p.1 p.1

/-- The inverse Hessian built from a list of pairs, oldest first. -/
noncomputable def bfgs (g : ℝ) (l : List (V n × V n)) : Matrix (Fin n) (Fin n) ℝ :=
  l.foldl bfgsUpd (g • 1)

theorem bfgsUpd_mulVec (B : Matrix (Fin n) (Fin n) ℝ) (s y v : V n) :
    bfgsUpd B (s, y) *ᵥ v =
      (B *ᵥ (v - (dot s v * (1 / dot s y)) • y)) + (dot s v * (1 / dot s y) -
        dot y (B *ᵥ (v - (dot s v * (1 / dot s y)) • y)) * (1 / dot s y)) • s := by
  have vm : ∀ (a b x : V n), vecMulVec a b *ᵥ x = dot b x • a := by
    intro a b x
    funext i
    simp only [mulVec, dotProduct, vecMulVec_apply, Pi.smul_apply, smul_eq_mul, dot, sum_mul]
    exact sum_congr rfl fun j _ => by ring
  unfold bfgsUpd
  dsimp only
  rw [add_mulVec, ← mulVec_mulVec, ← mulVec_mulVec, sub_mulVec, sub_mulVec, one_mulVec, one_mulVec,
    smul_mulVec, smul_mulVec, smul_mulVec, vm, vm, vm, smul_smul, smul_smul, smul_smul,
    mul_comm (1 / dot s y) (dot s v), mul_comm (1 / dot s y) (dot y _), sub_smul]
  abel

/-- **C28.** The two loops apply the BFGS inverse Hessian of the stored pairs to the forces, that is
they give minus the product with the gradient. -/
theorem lbfgs_two_loop (bound : ℕ) (hX hG : ℕ → V n) (iys : ℕ → ℝ) (g : ℝ) (f : V n) (al : ℕ → ℝ)
    (h : ∀ k < bound, iys k = 1 / dot (hX k) (hG k)) :
    twoLoop bound hX hG iys g f al =
      bfgs g ((List.range bound).map fun k => (hX k, hG k)) *ᵥ f := by
  have key : ∀ b, b ≤ bound → ∀ v, rec2 hX hG iys g b v =
      bfgs g ((List.range b).map fun k => (hX k, hG k)) *ᵥ v := by
    intro b
    induction b with
    | zero =>
      intro _ v
      simp [rec2, bfgs, smul_mulVec]
    | succ b ih =>
      intro hb v
      rw [List.range_succ, List.map_append]
      unfold bfgs
      rw [List.foldl_append]
      change _ = bfgsUpd (bfgs g ((List.range b).map fun k => (hX k, hG k))) (hX b, hG b) *ᵥ v
      rw [bfgsUpd_mulVec, ← h b (by omega), ← ih (by omega)]
      rfl
  rw [twoLoop_rec, key bound le_rfl, mulVec_neg, neg_neg]

/-- **C28.** Secant equation of the most recent pair. -/
theorem lbfgs_secant (g : ℝ) (l : List (V n × V n)) (s y : V n) (h : dot s y ≠ 0) :
    bfgs g (l ++ [(s, y)]) *ᵥ y = s := by
  unfold bfgs
  rw [List.foldl_append]
  change bfgsUpd (bfgs g l) (s, y) *ᵥ y = s
  rw [bfgsUpd_mulVec]
  have e : dot s y * (1 / dot s y) = 1 := by field_simp
  rw [e, one_smul, sub_self, mulVec_zero, dot_zero, zero_mul, sub_zero, one_smul, zero_add]

/-- The inverse Hessian is positive definite when the curvature of every pair is positive. -/
theorem bfgs_pos {g : ℝ} (hg : 0 < g) (l : List (V n × V n)) (h : ∀ p ∈ l, 0 < dot p.1 p.2) :
    ∀ v, v ≠ 0 → 0 < dot v (bfgs g l *ᵥ v) := by
  induction l using List.reverseRecOn with
  | nil =>
    intro v hv
    simp only [bfgs, List.foldl_nil, smul_mulVec, one_mulVec, dot_smul]
    exact mul_pos hg (dot_self_pos hv)
  | append_singleton l p ih =>
    intro v hv
    have ih := ih fun q hq => h q (by simp [hq])
    have hp : 0 < dot p.1 p.2 := h p (by simp)
    have e : bfgs g (l ++ [p]) = bfgsUpd (bfgs g l) (p.1, p.2) := by
      unfold bfgs
      rw [List.foldl_append]
      rfl
    rw [e, bfgsUpd_mulVec]
    set B := bfgs g l
    set a := dot p.1 v * (1 / dot p.1 p.2) with ha
    set w := v - a • p.2 with hw
    have hv' : v = w + a • p.2 := by rw [hw]; abel
    have e2 : dot v (B *ᵥ w + (a - dot p.2 (B *ᵥ w) * (1 / dot p.1 p.2)) • p.1) =
        dot w (B *ᵥ w) + dot p.1 v * a := by
      rw [dot_add, dot_smul, dot_comm v p.1]
      conv_lhs => rw [hv', add_dot, smul_dot, ← hv']
      rw [ha]
      field_simp
      ring
    rw [e2]
    have hpa : dot p.1 v * a = dot p.1 v ^ 2 / dot p.1 p.2 := by rw [ha]; ring
    by_cases h0 : dot p.1 v = 0
    · have : w = v := by rw [hw, ha, h0]; simp
      rw [this, h0, zero_mul, add_zero]
      exact ih v hv
    · have h1 : 0 < dot p.1 v * a := by
        rw [hpa]
        positivity
      have h2 : 0 ≤ dot w (B *ᵥ w) := by
        by_cases hw0 : w = 0
        · rw [hw0, mulVec_zero, dot_zero]
        · exact (ih w hw0).le
      linarith

/-- The curvature seen by the last move: displacement times change of the gradient. -/
def curvature (s : Lb n) : ℝ := dot s.disp (s.fold - s.forces)

/-- The states at the head of the loop with automatic scaling, together with the list of
displacement and gradient changes since the last reset. -/
inductive LbReach (P : LbPar) : Lb n → List (V n × V n) → Prop
  | init (pos forces : V n) (j : Fin 4 → V n) : LbReach P (lbInit pos forces j) []
  | step {s s' : Lb n} {l : List (V n × V n)} (al : ℕ → ℝ) (e : V n × V n) :
      LbReach P s l → lbAuto P al s = some s' →
      LbReach P (lbEval s' e)
        (if s.isFD then l else if s.isReset ∨ curvature s < 0 then []
          else l ++ [(s.disp, s.fold - s.forces)])

/-- The history arrays hold the last `m` pairs, oldest first. -/
def HistOk (m : ℕ) (s : Lb n) (l : List (V n × V n)) : Prop :=
  s.step = l.length ∧ IsHist m (fun k => ((s.hX k, s.hG k), s.iys k)) (l.map fun p => (p, 1 / dot p.1 p.2))

theorem push_pair {α β : Type} (m st : ℕ) (h : ℕ → α) (g : ℕ → β) (a : α) (b : β) :
    (fun k => (lbPush m st h a k, lbPush m st g b k)) = lbPush m st (fun k => (h k, g k)) (a, b) := by
  funext k
  unfold lbPush
  split_ifs with h1
  · by_cases hk : k = st
    · subst hk
      simp
    · simp [hk]
  · dsimp only
    split_ifs <;> rfl

theorem record_ok {m : ℕ} {s s' : Lb n} {l : List (V n × V n)} (h : HistOk m s l)
    (hr : lbRecord m s = some s') :
    HistOk m s' (l ++ [(s.disp, s.fold - s.forces)]) ∧ dot s.disp (s.fold - s.forces) ≠ 0 ∧ m ≠ 0 ∧
      s' = { s with hX := s'.hX, hG := s'.hG, iys := s'.iys, step := s'.step } := by
  unfold lbRecord at hr
  dsimp only at hr
  split at hr
  · cases hr
  next hm =>
    split at hr
    · cases hr
    next hc =>
      cases hr
      refine ⟨⟨?_, ?_⟩, hc, hm, rfl⟩
      · simp [h.1]
      · rw [List.map_append, h.1]
        have := push_isHist h.2 ((s.disp, s.fold - s.forces), 1 / dot s.disp (s.fold - s.forces))
        rw [List.length_map] at this
        have e : (fun k => ((lbPush m l.length s.hX s.disp k,
            lbPush m l.length s.hG (fun i => s.fold i - s.forces i) k),
            lbPush m l.length s.iys (1 / dot s.disp fun i => s.fold i - s.forces i) k)) =
            lbPush m l.length (fun k => ((s.hX k, s.hG k), s.iys k))
              ((s.disp, s.fold - s.forces), 1 / dot s.disp (s.fold - s.forces)) := by
          rw [← push_pair, ← push_pair m l.length s.hX s.hG]
          rfl
        exact e ▸ this

/-- The two loops on arrays that hold the recent pairs. -/
theorem twoLoop_hist {m : ℕ} {s : Lb n} {l : List (V n × V n)} (h : HistOk m s l) (g : ℝ) (f : V n)
    (al : ℕ → ℝ) :
    twoLoop (lbBound m s) s.hX s.hG s.iys g f al = bfgs g (lastN m l) *ᵥ f := by
  have hb : lbBound m s = min l.length m := by
    unfold lbBound
    rw [h.1]
    split_ifs <;> omega
  have hk : ∀ k < lbBound m s, ∃ p, (lastN m l)[k]? = some p ∧ p = (s.hX k, s.hG k) ∧
      s.iys k = 1 / dot (s.hX k) (s.hG k) := by
    intro k hk
    have := h.2 k (by rw [List.length_map, ← hb]; exact hk)
    unfold lastN at this
    rw [List.length_map, ← List.map_drop, List.getElem?_map] at this
    obtain ⟨p, hp1, hp2⟩ := Option.map_eq_some_iff.1 this
    refine ⟨p, hp1, ?_, ?_⟩
    · exact congrArg Prod.fst hp2
    · have e1 := congrArg Prod.fst hp2
      have e2 := congrArg Prod.snd hp2
      dsimp only at e1 e2
      rw [← e2, e1]
  rw [lbfgs_two_loop _ _ _ _ _ _ _ fun k h => (hk k h).choose_spec.2.2]
  congr 2
  refine List.ext_getElem? fun k => ?_
  rw [List.getElem?_map]
  by_cases hlt : k < lbBound m s
  · obtain ⟨p, h1, h2, -⟩ := hk k hlt
    rw [h1, h2, List.getElem?_range hlt]
    rfl
  · rw [List.getElem?_eq_none (by simpa using not_lt.1 hlt),
      List.getElem?_eq_none (by rw [length_lastN, ← hb]; exact not_lt.1 hlt)]
    rfl

/-- What `lbAuto` does after the first pass, in terms of the pairs. -/
theorem lbAuto_spec {P : LbPar} {al : ℕ → ℝ} {s s' : Lb n} {l : List (V n × V n)}
    (h : HistOk P.m s l) (hfd : s.isFD = false) (hs : lbAuto P al s = some s') :
    let l' := if s.isReset ∨ curvature s < 0 then [] else l ++ [(s.disp, s.fold - s.forces)]
    let d := bfgs (norm s.disp ^ 2 / (2 * curvature s)) (lastN P.m l') *ᵥ s.forces
    curvature s ≠ 0 ∧ norm s.disp ≠ 0 ∧ HistOk P.m s' l' ∧ s'.isFD = false ∧
      s'.xold = s.pos ∧ s'.fold = s.forces ∧ s'.forces = s.forces ∧
      ((curvature s < 0 ∧ s.forces ≠ 0 ∧ s'.pos = s.pos + P.maxmov • along s.forces) ∨
       (0 < curvature s ∧ norm d ≤ P.maxmov ∧ s'.isReset = false ∧ s'.pos = s.pos + d) ∨
       (0 < curvature s ∧ P.maxmov < norm d ∧ s.forces ≠ 0 ∧ s'.isReset = true ∧
          s'.pos = s.pos + P.maxmov • along s.forces)) := by
  intro l' d
  unfold lbAuto at hs
  rw [hfd] at hs
  simp only [Bool.false_eq_true, if_false] at hs
  split at hs
  · cases hs
  next hdn =>
  have hcv : (dot s.fold s.disp / norm s.disp - dot s.forces s.disp / norm s.disp) / norm s.disp =
      curvature s / norm s.disp ^ 2 := by
    unfold curvature
    rw [dot_sub, dot_comm s.disp, dot_comm s.disp]
    field_simp
  rw [hcv] at hs
  split at hs
  · cases hs
  next hc0 =>
  have hdn2 : 0 < norm s.disp ^ 2 := by positivity
  have hcne : curvature s ≠ 0 := fun h => hc0 (by rw [h, zero_div])
  have hic : 1 / (curvature s / norm s.disp ^ 2 * 2) = norm s.disp ^ 2 / (2 * curvature s) := by
    field_simp
  rw [hic] at hs
  have hneg : norm s.disp ^ 2 / (2 * curvature s) < 0 ↔ curvature s < 0 := by
    constructor
    · intro h
      by_contra h'
      have : 0 < curvature s := lt_of_le_of_ne (not_lt.1 h') hcne.symm
      have : 0 < norm s.disp ^ 2 / (2 * curvature s) := by positivity
      linarith
    · intro h
      exact div_neg_of_pos_of_neg hdn2 (by linarith)
  set g := norm s.disp ^ 2 / (2 * curvature s) with hg
  have hmm : ∀ f : V n, (fun i => P.maxmov * f i / norm f) = P.maxmov • along f := by
    intro f
    funext i
    simp only [along, Pi.smul_apply, smul_eq_mul]
    ring
  have hmm' : ∀ f : V n, (fun i => s.pos i + P.maxmov * along f i) = s.pos + P.maxmov • along f :=
    fun f => rfl
  obtain ⟨s1, hs1, H1, f1, f2, f3, f4, f5⟩ : ∃ s1, (if (s.isReset || decide (g < 0)) = true then
      some { s with step := 0, isFD := false, isReset := false } else lbRecord P.m s) = some s1 ∧
      HistOk P.m s1 l' ∧ s1.forces = s.forces ∧ s1.pos = s.pos ∧ s1.isReset = false ∧
      s1.isFD = false ∧ True := by
    by_cases hr : (s.isReset || decide (g < 0)) = true
    · rw [if_pos hr]
      have hl' : l' = [] := by
        simp only [l']
        rw [if_pos]
        rw [Bool.or_eq_true, decide_eq_true_iff, hneg] at hr
        exact hr
      refine ⟨_, rfl, ⟨?_, ?_⟩, rfl, rfl, rfl, rfl, trivial⟩
      · rw [hl']; rfl
      · rw [hl']
        exact isHist_nil _ _
    · rw [if_neg hr]
      rw [if_neg hr] at hs
      have hl' : l' = l ++ [(s.disp, s.fold - s.forces)] := by
        simp only [l']
        rw [if_neg]
        rw [Bool.or_eq_true, decide_eq_true_iff, hneg] at hr
        exact hr
      rw [hl']
      cases hrec : lbRecord P.m s with
      | none => rw [hrec] at hs; cases hs
      | some s1 =>
        obtain ⟨a1, a2, a3, a4⟩ := record_ok h hrec
        refine ⟨s1, rfl, a1, ?_, ?_, ?_, ?_, trivial⟩
        · rw [a4]
        · rw [a4]
        · rw [a4]
          simp only [Bool.or_eq_true, not_or, Bool.not_eq_true] at hr
          exact hr.1
        · rw [a4]
          exact hfd
  rw [hs1] at hs
  dsimp only at hs
  have Hs : HistOk P.m (lbSave s1) l' := H1
  have hd : twoLoop (lbBound P.m (lbSave s1)) (lbSave s1).hX (lbSave s1).hG (lbSave s1).iys g
      (lbSave s1).forces al = d := by
    rw [twoLoop_hist Hs]
    change bfgs g _ *ᵥ s1.forces = d
    rw [f1]
  rw [hd] at hs
  split at hs
  · cases hs
  next hnf =>
  refine ⟨hcne, hdn, ?_⟩
  by_cases hflag : curvature s < 0
  · have hg0 := hneg.2 hflag
    rw [if_pos (by simpa using hg0)] at hs
    cases hs
    refine ⟨Hs, f4, f2, f1, f1, Or.inl ⟨hflag, ?_, rfl⟩⟩
    intro h0
    apply hnf
    simp [hg0, norm_eq_zero.2 h0]
  · have hg0 : ¬ g < 0 := fun h => hflag (hneg.1 h)
    have hpos : 0 < curvature s := lt_of_le_of_ne (not_lt.1 hflag) hcne.symm
    rw [if_neg (by simpa using hg0)] at hs
    cases hs
    refine ⟨Hs, f4, f2, f1, f1, Or.inr ?_⟩
    by_cases hclip : norm d > P.maxmov
    · refine Or.inr ⟨hpos, hclip, ?_, ?_, ?_⟩
      · intro h0
        apply hnf
        simp [hclip, norm_eq_zero.2 h0]
      · simp [hclip]
      · simp only [hclip, decide_true, if_true]
        rw [← hmm]
        rfl
    · refine Or.inl ⟨hpos, not_lt.1 hclip, ?_, ?_⟩
      · simp only [hclip, decide_false, Bool.false_or]
        exact f3
      · simp only [hclip, decide_false, Bool.false_eq_true, if_false]
        rfl

/-- **C28.** On every execution the history holds the most recent displacement and gradient changes
since the last reset, all of positive curvature. -/
theorem lbfgs_history {P : LbPar} {s : Lb n} {l : List (V n × V n)} (h : LbReach P s l) :
    HistOk P.m s l ∧ ∀ p ∈ l, 0 < dot p.1 p.2 := by
  induction h with
  | init pos forces j => exact ⟨⟨rfl, isHist_nil _ _⟩, by simp⟩
  | @step s s' l al e _ hs ih =>
    obtain ⟨ih1, ih2⟩ := ih
    cases hfd : s.isFD with
    | true =>
      simp only [if_true]
      refine ⟨?_, ih2⟩
      unfold lbAuto at hs
      rw [hfd, if_pos rfl] at hs
      split at hs
      · cases hs
      · cases hs
        exact ih1
    | false =>
      simp only [Bool.false_eq_true, if_false]
      obtain ⟨hc, -, h2, -⟩ := lbAuto_spec ih1 hfd hs
      refine ⟨h2, ?_⟩
      intro p hp
      split_ifs at hp with hr
      · simp at hp
      · rcases List.mem_append.1 hp with hp | hp
        · exact ih2 p hp
        · rw [List.mem_singleton] at hp
          subst hp
          push Not at hr
          exact lt_of_le_of_ne hr.2 hc.symm

/-- **C28.** Every move with automatic scaling: the first follows the forces for the given distance;
later ones follow the BFGS direction of the most recent pairs when it is not longer than the limit;
otherwise, or when the last curvature was negative, the move goes along the forces for the
maximum distance. -/
theorem lbfgs_move {P : LbPar} {s s' : Lb n} {l : List (V n × V n)} (h : LbReach P s l)
    {al : ℕ → ℝ} (hs : lbAuto P al s = some s') :
    (s.isFD = true ∧ s'.pos = s.pos + P.finit • along s.forces) ∨
    (s.isFD = false ∧
      let l' := if s.isReset ∨ curvature s < 0 then [] else l ++ [(s.disp, s.fold - s.forces)]
      let d := bfgs (norm s.disp ^ 2 / (2 * curvature s)) (lastN P.m l') *ᵥ s.forces
      if 0 < curvature s ∧ norm d ≤ P.maxmov then s'.pos = s.pos + d
      else s'.pos = s.pos + P.maxmov • along s.forces) := by
  cases hfd : s.isFD with
  | true =>
    refine Or.inl ⟨rfl, ?_⟩
    unfold lbAuto at hs
    rw [hfd, if_pos rfl] at hs
    split at hs
    · cases hs
    · cases hs
      funext i
      simp only [Pi.add_apply, Pi.smul_apply, smul_eq_mul]
      ring
  | false =>
    refine Or.inr ⟨rfl, ?_⟩
    obtain ⟨-, -, -, -, -, -, -, h8⟩ := lbAuto_spec (lbfgs_history h).1 hfd hs
    dsimp only at h8 ⊢
    rcases h8 with ⟨h1, -, h2⟩ | ⟨h1, h2, -, h3⟩ | ⟨h1, h2, -, -, h3⟩
    · rw [if_neg (by push Not; intro h; linarith)]
      exact h2
    · rw [if_pos ⟨h1, h2⟩]
      exact h3
    · rw [if_neg (by push Not; intro _; exact h2)]
      exact h3

/-- **C28.** No move is longer than the larger of the two configured distances, and none but the
first is longer than the maximum move. -/
theorem lbfgs_maxmov {P : LbPar} (h1 : 0 ≤ P.finit) (h2 : 0 ≤ P.maxmov) {s s' : Lb n}
    {l : List (V n × V n)} (h : LbReach P s l) {al : ℕ → ℝ} (hs : lbAuto P al s = some s') :
    norm (s'.pos - s.pos) ≤ if s.isFD then P.finit else P.maxmov := by
  have hal : ∀ t : ℝ, 0 ≤ t → norm (t • along s.forces) ≤ t := by
    intro t ht
    rw [norm_smul, abs_of_nonneg ht]
    by_cases h0 : s.forces = 0
    · have : along s.forces = 0 := by
        funext i
        simp [along, h0]
      rw [this, norm_eq_zero.2 rfl]
      simpa using ht
    · rw [along_norm h0, mul_one]
  rcases lbfgs_move h hs with ⟨e, hp⟩ | ⟨e, hp⟩
  · rw [e, if_pos rfl, hp, add_sub_cancel_left]
    exact hal _ h1
  · rw [e, if_neg (by simp)]
    extract_lets l' d at hp
    split_ifs at hp with hc
    · rw [hp, add_sub_cancel_left]
      exact hc.2
    · rw [hp, add_sub_cancel_left]
      exact hal _ h2

/-- **C28.** Every move with automatic scaling goes downhill. -/
theorem lbfgs_descent {P : LbPar} (h1 : 0 < P.finit) (h2 : 0 < P.maxmov) {s s' : Lb n}
    {l : List (V n × V n)} (h : LbReach P s l) {al : ℕ → ℝ} (hf : s.forces ≠ 0)
    (hs : lbAuto P al s = some s') : 0 < dot s.forces (s'.pos - s.pos) := by
  have hal : ∀ t : ℝ, 0 < t → 0 < dot s.forces (t • along s.forces) := by
    intro t ht
    rw [dot_smul, along_dot]
    exact mul_pos ht (norm_pos hf)
  rcases lbfgs_move h hs with ⟨e, hp⟩ | ⟨e, hp⟩
  · rw [hp, add_sub_cancel_left]
    exact hal _ h1
  · extract_lets l' d at hp
    split_ifs at hp with hc
    · rw [hp, add_sub_cancel_left]
      obtain ⟨-, hdn, -⟩ := lbAuto_spec (lbfgs_history h).1 e hs
      have hg : 0 < norm s.disp ^ 2 / (2 * curvature s) := by
        have := hc.1
        positivity
      refine bfgs_pos hg _ ?_ _ hf
      intro p hp'
      have hp'' : p ∈ l' := List.mem_of_mem_drop hp'
      simp only [l'] at hp''
      split_ifs at hp'' with hr
      · simp at hp''
      · rcases List.mem_append.1 hp'' with h' | h'
        · exact (lbfgs_history h).2 p h'
        · rw [List.mem_singleton] at h'
          subst h'
          exact hc.1
    · rw [hp, add_sub_cancel_left]
      exact hal _ h2

/-- When the history is dropped without automatic scaling. -/
def Dropped (P : LbPar) (s : Lb n) : Prop :=
  s.fold = 0 ∨ (P.lineopt = true ∧ (s.isReset = true ∨ dot s.fold s.fold / 2 < |dot s.forces s.fold|))

theorem reset_iff (P : LbPar) (s : Lb n) : lbReset P s = true ↔ Dropped P s := by
  have h0 : dot s.fold s.fold = 0 ↔ s.fold = 0 := by
    constructor
    · intro h
      by_contra h'
      exact (dot_self_pos h').ne' h
    · intro h
      rw [h, dot_zero]
  have h1 : (0.5 : ℝ) * dot s.fold s.fold = dot s.fold s.fold / 2 := by ring
  unfold lbReset Dropped
  dsimp only
  simp only [h0, h1]
  cases P.lineopt <;> cases s.isReset <;> simp
  tauto

open Classical in
/-- **C28.** A pass without automatic scaling that chooses a direction: the history is extended with
the last pair or dropped, and the move is along the BFGS direction of the recent pairs, for the
trial distance with the line optimiser and cut off at the maximum move without it. -/
theorem lbfgs_fixed_move {P : LbPar} {al : ℕ → ℝ} {s s' : Lb n} {l : List (V n × V n)}
    (h : HistOk P.m s l) (hfd : s.isFD = true) (hs : lbFixed P al s = some s') :
    let l' := if Dropped P s then [] else l ++ [(s.disp, s.fold - s.forces)]
    let d := bfgs P.icurv (lastN P.m l') *ᵥ s.forces
    HistOk P.m s' l' ∧ s'.xold = s.pos ∧ s'.fold = s.forces ∧ s'.isFD = !P.lineopt ∧
      (if P.lineopt then s'.pos = s.pos + (P.finit / norm d) • d ∧ s'.d = (1 / norm d) • d
       else if norm d ≤ P.maxmov then s'.pos = s.pos + d
       else s'.pos = s.pos + (P.maxmov / norm d) • d) := by
  intro l' d
  unfold lbFixed at hs
  rw [hfd, if_pos rfl] at hs
  dsimp only at hs
  split at hs
  · cases hs
  next s1 hs1 =>
  obtain ⟨H1, f1, f2⟩ : HistOk P.m s1 l' ∧ s1.forces = s.forces ∧ s1.pos = s.pos := by
    by_cases hr : lbReset P s = true
    · rw [if_pos hr] at hs1
      cases hs1
      have hl : l' = [] := if_pos ((reset_iff P s).1 hr)
      rw [hl]
      exact ⟨⟨rfl, isHist_nil _ _⟩, rfl, rfl⟩
    · rw [if_neg hr] at hs1
      have hD : ¬ Dropped P s := fun h => hr ((reset_iff P s).2 h)
      simp only [l']
      rw [if_neg hD]
      obtain ⟨a1, -, -, a4⟩ := record_ok (s := { s with isFD := true, isReset := false }) (l := l) h hs1
      refine ⟨a1, ?_, ?_⟩ <;> rw [a4]
  have Hs : HistOk P.m (lbSave s1) l' := H1
  have hd : twoLoop (lbBound P.m (lbSave s1)) (lbSave s1).hX (lbSave s1).hG (lbSave s1).iys P.icurv
      (lbSave s1).forces al = d := by
    rw [twoLoop_hist Hs]
    change bfgs _ _ *ᵥ s1.forces = d
    rw [f1]
  rw [hd] at hs
  cases hlo : P.lineopt with
  | true =>
    rw [hlo, if_pos rfl] at hs
    split at hs
    · cases hs
    · cases hs
      refine ⟨Hs, f2, f1, rfl, ?_⟩
      rw [if_pos rfl]
      constructor
      · funext i
        simp only [Pi.add_apply, Pi.smul_apply, smul_eq_mul]
        ring
      · funext i
        simp only [Pi.smul_apply, smul_eq_mul]
        ring
  | false =>
    rw [hlo, if_neg (by simp)] at hs
    cases hs
    refine ⟨Hs, f2, f1, rfl, ?_⟩
    rw [if_neg (by simp)]
    by_cases hc : norm d ≤ P.maxmov
    · rw [if_pos hc]
      simp only [not_lt.2 hc, gt_iff_lt, if_false]
      rfl
    · rw [if_neg hc]
      simp only [not_le.1 hc, gt_iff_lt, if_true]
      funext i
      simp only [Pi.add_apply, Pi.smul_apply, smul_eq_mul]
      ring

open Classical in
/-- The states at the head of the loop without automatic scaling. -/
inductive LbReachF (P : LbPar) : Lb n → List (V n × V n) → Prop
  | init (pos forces : V n) (j : Fin 4 → V n) : LbReachF P (lbInit pos forces j) []
  | step {s s' : Lb n} {l : List (V n × V n)} (al : ℕ → ℝ) (e : V n × V n) :
      LbReachF P s l → lbFixed P al s = some s' →
      LbReachF P (lbEval s' e)
        (if s.isFD then (if Dropped P s then [] else l ++ [(s.disp, s.fold - s.forces)]) else l)

/-- **C28.** The history without automatic scaling. -/
theorem lbfgs_fixed_history {P : LbPar} {s : Lb n} {l : List (V n × V n)} (h : LbReachF P s l) :
    HistOk P.m s l := by
  induction h with
  | init pos forces j => exact ⟨rfl, isHist_nil _ _⟩
  | @step s s' l al e _ hs ih =>
    cases hfd : s.isFD with
    | true =>
      rw [if_pos rfl]
      exact (lbfgs_fixed_move ih hfd hs).1
    | false =>
      rw [if_neg (by simp)]
      unfold lbFixed at hs
      rw [hfd, if_neg (by simp)] at hs
      split at hs
      · cases hs
      · cases hs
        exact ih

/-- **C28.** Without automatic scaling and without the line optimiser no move is longer than the
maximum move. -/
theorem lbfgs_fixed_maxmov {P : LbPar} (h2 : 0 ≤ P.maxmov) (hl : P.lineopt = false) {s s' : Lb n}
    (hfd : s.isFD = true) {al : ℕ → ℝ} (hs : lbFixed P al s = some s') :
    norm (s'.pos - s.pos) ≤ P.maxmov ∧ s'.isFD = true := by
  unfold lbFixed at hs
  rw [hfd, hl, if_pos rfl] at hs
  dsimp only at hs
  split at hs
  · cases hs
  next s1 _ =>
    simp only [Bool.false_eq_true, if_false] at hs
    cases hs
    refine ⟨?_, rfl⟩
    dsimp only
    set d := twoLoop (lbBound P.m (lbSave s1)) (lbSave s1).hX (lbSave s1).hG (lbSave s1).iys P.icurv
      (lbSave s1).forces al
    set d' : V n := if norm d > P.maxmov then fun i => P.maxmov * d i / norm d else d with hd'
    have e : (fun i => s.pos i + d' i) - s.pos = d' := by
      funext i
      simp
    rw [e, hd']
    split_ifs with hc
    · have : (fun i => P.maxmov * d i / norm d) = (P.maxmov / norm d) • d := by
        funext i
        simp only [Pi.smul_apply, smul_eq_mul]
        ring
      have hn : 0 < norm d := lt_of_le_of_lt h2 hc
      rw [this, norm_smul, abs_of_nonneg (by positivity)]
      field_simp
      exact le_rfl
    · exact not_lt.1 hc

/-- **C28.** The step of the line optimiser along a downhill direction is at most the larger of the
two configured distances. -/
theorem lbfgs_line_bound {P : LbPar} (h1 : 0 < P.finit) (h2 : P.finit ≤ P.maxmov) {s : Lb n}
    (hd : 0 ≤ dot s.fold s.d) {t : ℝ} (h : lbLine P s = some t) : |t| ≤ P.maxmov := by
  unfold lbLine at h
  dsimp only at h
  set p := dot s.fold s.d
  set q := dot s.forces s.d
  have habs : |P.maxmov| = P.maxmov := abs_of_nonneg (by linarith)
  have habs' : |P.finit| = P.finit := abs_of_pos h1
  have hsg : ∀ x, |sign P.maxmov x - sign P.finit x| ≤ P.maxmov := by
    intro x
    unfold sign
    rw [habs, habs']
    split_ifs
    · rw [abs_of_nonneg (by linarith)]; linarith
    · rw [abs_of_nonpos (by linarith)]; linarith
  split at h
  · cases h
  split at h
  · cases h
    rw [habs]
  next hneg =>
  split at h
  · split at h
    · cases h
    · cases h
      exact hsg _
  next hne =>
  split at h
  · cases h
    exact hsg _
  next hle =>
  cases h
  set c := (p - q) / P.finit with hc
  have hcp : 0 < c := lt_of_le_of_ne (not_lt.1 hneg) (Ne.symm hne)
  have hq : q = p - P.finit * c := by rw [hc]; field_simp; ring
  have e : 0.5 * (p + q) / c = p / c - 0.5 * P.finit := by
    rw [hq]
    field_simp
    ring
  have hpc : 0 ≤ p / c := by positivity
  rw [e] at hle ⊢
  have := (abs_le.1 (not_lt.1 hle)).2
  refine abs_le.2 ⟨by linarith, by linarith⟩

/-- **C28.** On an affine force field the line optimiser ends at the exact minimiser along the
direction, unless the step is cut off. -/
theorem lbfgs_line_exact {A : Matrix (Fin n) (Fin n) ℝ} {b : V n} {P : LbPar} (h1 : P.finit ≠ 0)
    {s : Lb n} (hpos : s.pos = fun i => s.xold i + P.finit * s.d i)
    (hfold : s.fold = affine A b s.xold) (hf : s.forces = affine A b s.pos)
    (hc : 0 < dot s.d (A *ᵥ s.d)) {t : ℝ} (h : lbLine P s = some t)
    (hnc : |t| < P.maxmov - |P.finit|) :
    dot (affine A b (fun i => s.pos i + t * s.d i)) s.d = 0 := by
  have e1 : s.forces = s.fold - P.finit • (A *ᵥ s.d) := by
    rw [hf, hpos, affine_move, hfold]
  set c := dot s.d (A *ᵥ s.d) with hcd
  have e2 : dot s.forces s.d = dot s.fold s.d - P.finit * c := by
    rw [e1, sub_dot, smul_dot, dot_comm (A *ᵥ s.d)]
  have e3 : (dot s.fold s.d - (dot s.fold s.d - P.finit * c)) / P.finit = c := by
    field_simp
    ring
  unfold lbLine at h
  dsimp only at h
  rw [e2, e3, if_neg h1, if_neg (not_lt.2 hc.le), if_neg hc.ne'] at h
  split at h
  · cases h
    exfalso
    have hM : 0 ≤ P.maxmov := by
      have := abs_nonneg (P.finit)
      have := (abs_nonneg _).trans hnc.le
      linarith
    unfold sign at hnc
    have k1 := abs_of_nonneg hM
    rw [k1] at hnc
    split_ifs at hnc
    · have := le_abs_self (P.maxmov - |P.finit|)
      linarith
    · have := neg_abs_le (-P.maxmov - -|P.finit|)
      linarith
  · cases h
    rw [affine_move, sub_dot, smul_dot, dot_comm (A *ᵥ s.d), ← hf, e2, ← hcd]
    field_simp
    ring

/-- With room for one pair and nonzero forces, displacement and curvature the move is defined. -/
theorem lbAuto_defined {P : LbPar} (hm : P.m ≠ 0) (al : ℕ → ℝ) {s : Lb n} (hf : s.forces ≠ 0)
    (h : s.isFD = false → s.disp ≠ 0 ∧ curvature s ≠ 0) : (lbAuto P al s).isSome := by
  have hf' := (norm_pos hf).ne'
  unfold lbAuto
  cases hfd : s.isFD with
  | true =>
    rw [if_pos rfl, if_neg hf']
    rfl
  | false =>
    obtain ⟨h1, h2⟩ := h hfd
    have h1' := norm_pos h1
    rw [if_neg (by simp)]
    dsimp only
    rw [if_neg h1'.ne']
    have hcv : (dot s.fold s.disp / norm s.disp - dot s.forces s.disp / norm s.disp) / norm s.disp =
        curvature s / norm s.disp ^ 2 := by
      unfold curvature
      rw [dot_sub, dot_comm s.disp, dot_comm s.disp]
      field_simp
    rw [hcv, if_neg (div_ne_zero h2 (by positivity))]
    have hrec : (lbRecord P.m s).isSome := by
      unfold lbRecord
      dsimp only
      rw [if_neg hm]
      by_cases h0 : (dot s.disp fun i => s.fold i - s.forces i) = 0
      · exact absurd h0 h2
      · rw [if_neg h0]
        rfl
    obtain ⟨r, hr⟩ := Option.isSome_iff_exists.1 hrec
    rw [hr]
    by_cases hc : (s.isReset || decide (1 / (curvature s / norm s.disp ^ 2 * 2) < 0)) = true
    · rw [if_pos hc]
      simp only [hf', decide_false, Bool.and_false, Bool.false_eq_true, if_false]
      split_ifs <;> rfl
    · rw [if_neg hc]
      simp only [hf', decide_false, Bool.and_false, Bool.false_eq_true, if_false]
      split_ifs <;> rfl

/-- An execution for forces `2 - x` on one coordinate: start at 0, then 1, 3/2 and 2, where the last
move uses the pair stored on the way. -/
example : ∃ s : Lb 1, LbReach ⟨3, 1, 5, false, 1⟩ s [(fun _ => 1 / 2, fun _ => 1 / 2)] ∧
    s.pos 0 = 2 := by
  set P : LbPar := ⟨3, 1, 5, false, 1⟩ with hP
  have hn : ∀ a : ℝ, 0 ≤ a → norm (fun _ : Fin 1 => a) = a := by
    intro a ha
    simp [norm, Real.sqrt_sq ha]
  have ne : ∀ a : ℝ, a ≠ 0 → (fun _ : Fin 1 => a) ≠ 0 := fun a ha h => ha (congrFun h 0)
  have r0 : LbReach P (lbInit (0 : V 1) (fun _ => 2) fun _ => 0) [] := .init _ _ _
  obtain ⟨s1, h1⟩ := Option.isSome_iff_exists.1 (lbAuto_defined (P := P) (by simp [P]) (fun _ => 0)
    (s := lbInit (0 : V 1) (fun _ => 2) fun _ => 0) (ne 2 (by norm_num)) (by simp [lbInit]))
  have r1 := LbReach.step (fun _ => 0) (s1.pos, fun _ => 1) r0 h1
  have q1 : lbEval s1 (s1.pos, fun _ => 1) = { lbInit (fun _ => 1) (fun _ => 1) fun _ => 0 with
      fold := fun _ => 2, d := s1.d, disp := fun _ => 1, xold := fun _ => 0, isFD := false } := by
    unfold lbAuto at h1
    simp only [lbInit, if_true, hn 2 (by norm_num)] at h1
    rw [if_neg (by norm_num)] at h1
    cases h1
    simp only [lbEval, lbSave, lbInit, along, hn 2 (by norm_num), P, Pi.zero_apply]
    norm_num
    rfl
  rw [q1] at r1
  simp only [lbInit, if_true] at r1
  obtain ⟨t1, r1', e1⟩ : ∃ t : Lb 1, LbReach P t [] ∧ t.pos = (fun _ => 1) ∧ t.forces = (fun _ => 1) ∧
      t.fold = (fun _ => 2) ∧ t.disp = (fun _ => 1) ∧ t.isFD = false ∧ t.isReset = true :=
    ⟨_, r1, rfl, rfl, rfl, rfl, rfl, rfl⟩
  obtain ⟨a1, a2, a3, a4, a5, a6⟩ := e1
  have c1 : curvature t1 = 1 := by
    simp only [curvature, a2, a3, a4, dot, univ_unique, sum_singleton, Pi.sub_apply]
    norm_num
  obtain ⟨s2, h2⟩ := Option.isSome_iff_exists.1 (lbAuto_defined (P := P) (by simp [P]) (fun _ => 0)
    (s := t1) (by rw [a2]; exact ne 1 (by norm_num))
    fun _ => ⟨by rw [a4]; exact ne 1 (by norm_num), by rw [c1]; norm_num⟩)
  obtain ⟨-, -, -, b1, b2, b3, b4, b5⟩ := lbAuto_spec (lbfgs_history r1').1 a5 h2
  have d1 : bfgs (norm t1.disp ^ 2 / (2 * curvature t1)) (lastN P.m []) *ᵥ t1.forces =
      fun _ => (1 / 2 : ℝ) := by
    rw [c1, a4, hn 1 (by norm_num), a2]
    simp only [lastN, List.drop_nil, bfgs, List.foldl_nil, smul_mulVec, one_mulVec]
    funext i
    norm_num
  rw [if_pos (Or.inl a6), d1, hn _ (by norm_num), c1] at b5
  obtain ⟨b6, b7⟩ : s2.isReset = false ∧ s2.pos = fun _ => (3 / 2 : ℝ) := by
    rcases b5 with ⟨h, -⟩ | ⟨-, -, h, h'⟩ | ⟨-, h, -⟩
    · norm_num at h
    · refine ⟨h, ?_⟩
      rw [h', a1]
      funext i
      norm_num
    · norm_num [P] at h
  have r2 := LbReach.step (fun _ => 0) (s2.pos, fun _ => (1 / 2 : ℝ)) r1' h2
  rw [a5, a6] at r2
  simp only [Bool.false_eq_true, if_false, true_or, if_true] at r2
  set t2 := lbEval s2 (s2.pos, fun _ => (1 / 2 : ℝ)) with ht2
  have k1 : t2.disp = fun _ => (1 / 2 : ℝ) := by
    funext i
    change s2.pos i - s2.xold i = _
    rw [b7, b2, a1]
    norm_num
  have k2 : t2.fold - t2.forces = fun _ => (1 / 2 : ℝ) := by
    funext i
    change s2.fold i - 1 / 2 = _
    rw [b3, a2]
    norm_num
  have k3 : t2.forces = fun _ => (1 / 2 : ℝ) := rfl
  have c2 : curvature t2 = 1 / 4 := by
    unfold curvature
    rw [k2, k1]
    norm_num [dot]
  have k5 : t2.isFD = false := b1
  have k6 : t2.isReset = false := b6
  obtain ⟨s3, h3⟩ := Option.isSome_iff_exists.1 (lbAuto_defined (P := P) (by simp [P]) (fun _ => 0)
    (s := t2) (by rw [k3]; exact ne _ (by norm_num))
    fun _ => ⟨by rw [k1]; exact ne _ (by norm_num), by rw [c2]; norm_num⟩)
  have r3 := LbReach.step (fun _ => 0) (s3.pos, fun _ => 0) r2 h3
  have hno : ¬ (t2.isReset = true ∨ curvature t2 < 0) := by
    rw [k6, c2]
    norm_num
  rw [k5, if_neg (by simp), if_neg hno, k1, k2, List.nil_append] at r3
  obtain ⟨-, -, -, -, -, -, -, m5⟩ := lbAuto_spec (lbfgs_history r2).1 k5 h3
  have d2 : bfgs (norm t2.disp ^ 2 / (2 * curvature t2))
      (lastN P.m ([] ++ [(t2.disp, t2.fold - t2.forces)])) *ᵥ t2.forces = fun _ => (1 / 2 : ℝ) := by
    rw [k1, k2, k3]
    exact lbfgs_secant _ [] _ _ (by norm_num [dot])
  rw [if_neg hno, d2, hn _ (by norm_num), c2] at m5
  refine ⟨_, r3, ?_⟩
  change s3.pos 0 = 2
  have k4 : t2.pos = s2.pos := rfl
  rcases m5 with ⟨h, -⟩ | ⟨-, -, -, h⟩ | ⟨-, h, -⟩
  · norm_num at h
  · rw [h, k4, b7]
    norm_num
  · norm_num [P] at h

/-- **C28 fails on the first pass without automatic scaling and line optimiser.**  The move depends
on memory that was never written: with forces 1 and `L_icurv` 1 the atom moves by 1/2 or by 1
depending on the old contents. -/
theorem lbfgs_uninitialised :
    let P : LbPar := ⟨1, 1, 5, false, 1⟩
    let j1 : Fin 4 → V 1 := fun _ _ => 3
    let j2 : Fin 4 → V 1 := fun _ _ => 0
    ∃ s1 s2 : Lb 1, lbFixed P (fun _ => 0) (lbInit 0 (fun _ => 1) j1) = some s1 ∧
      lbFixed P (fun _ => 0) (lbInit 0 (fun _ => 1) j2) = some s2 ∧ s1.pos 0 = 3 / 2 ∧ s2.pos 0 = 1 := by
  intro P j1 j2
  have hr1 : lbReset P (lbInit 0 (fun _ => 1) j1) = false := by
    simp [lbReset, lbInit, dot, P, j1]
  have hr2 : lbReset P (lbInit 0 (fun _ => 1) j2) = true := by
    simp [lbReset, lbInit, dot, P, j2]
  obtain ⟨s1, h1, p1⟩ : ∃ s1, lbFixed P (fun _ => 0) (lbInit 0 (fun _ => 1) j1) = some s1 ∧
      s1.pos 0 = 3 / 2 := by
    obtain ⟨r, hr⟩ : ∃ r, lbRecord P.m { lbInit (0 : V 1) (fun _ => 1) j1 with isReset := false } =
        some r := by
      simp [lbRecord, lbInit, dot, P, j1]
      norm_num
    obtain ⟨a1, -, -, a4⟩ := record_ok (l := []) ⟨rfl, isHist_nil _ _⟩ hr
    have ht : twoLoop (lbBound P.m (lbSave r)) (lbSave r).hX (lbSave r).hG (lbSave r).iys P.icurv
        (lbSave r).forces (fun _ => 0) = fun _ => 3 / 2 := by
      rw [twoLoop_hist (s := lbSave r) a1]
      have e : (lbSave r).forces = (1 / 2 : ℝ) • ((j1 0 : V 1) - fun _ => 1) := by
        change r.forces = _
        rw [a4]
        funext i
        norm_num [lbInit, j1]
      rw [e, mulVec_smul]
      change _ • bfgs _ ([] ++ [(j1 3, j1 0 - fun _ => 1)]) *ᵥ _ = _
      rw [lbfgs_secant]
      · funext i
        norm_num [j1]
      · norm_num [dot, j1]
    unfold lbFixed
    rw [hr1]
    have hfd : (lbInit (0 : V 1) (fun _ => 1) j1).isFD = true := rfl
    rw [if_pos hfd]
    dsimp only
    dsimp only at hr
    rw [if_neg Bool.false_ne_true, hr]
    dsimp only
    rw [ht, if_neg (by simp [P])]
    refine ⟨_, rfl, ?_⟩
    have : ¬ norm (fun _ : Fin 1 => (3 / 2 : ℝ)) > P.maxmov := by
      rw [not_lt]
      simp only [norm, P, dot, univ_unique, sum_const, card_singleton, one_smul]
      refine Real.sqrt_le_iff.2 ⟨by norm_num, by norm_num⟩
    simp only [this, if_false]
    simp [lbInit]
  obtain ⟨s2, h2, p2⟩ : ∃ s2, lbFixed P (fun _ => 0) (lbInit 0 (fun _ => 1) j2) = some s2 ∧
      s2.pos 0 = 1 := by
    unfold lbFixed
    rw [hr2]
    simp [lbInit, P, lbSave, lbBound, twoLoop, norm, dot]
  exact ⟨s1, s2, h1, h2, p1, p2⟩

end Sparc.Relax

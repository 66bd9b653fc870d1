import Verif.MD.Lemmas

/-!
# Constant-pressure molecular dynamics: properties (C26)

The model is in `Verif/MD/Model.lean`.
-/

namespace Sparc.NPT

open Sparc.MD

/-! ### Nosé–Hoover chain -/

/-- **C26.** One step multiplies the product of the cell lengths (hence the volume) by
`exp (3 dt v)`, whichever non-empty set of lattice vectors is scaled. -/
theorem nh_volume (dt vlogv : ℝ) {sc : Fin 3 → Bool} (h : ∃ d, sc d = true) (r : Fin 3 → ℝ) :
    nhCell dt vlogv sc r 0 * nhCell dt vlogv sc r 1 * nhCell dt vlogv sc r 2 =
      r 0 * r 1 * r 2 * Real.exp (3 * dt * vlogv) := by
  have e3 : Real.exp (3 * dt * vlogv) = Real.exp (dt * vlogv) ^ 3 := by
    rw [← Real.exp_nat_mul]; congr 1; push_cast; ring
  have e2 : Real.exp (3 * dt * vlogv) = Real.exp (dt * vlogv * (3 / 2)) ^ 2 := by
    rw [← Real.exp_nat_mul]; congr 1; push_cast; ring
  have e1 : Real.exp (3 * dt * vlogv) = Real.exp (dt * vlogv * (3 / 1)) := by
    congr 1; ring
  cases h0 : sc 0 <;> cases h1 : sc 1 <;> cases h2 : sc 2 <;>
    simp only [nhCell, h0, h1, h2, Bool.and_true, Bool.and_false, Bool.and_self,
      Bool.false_eq_true, if_true, if_false, zero_add, add_zero]
  · obtain ⟨d, hd⟩ := h
    exfalso
    fin_cases d
    · exact absurd (h0.symm.trans hd) (by simp)
    · exact absurd (h1.symm.trans hd) (by simp)
    · exact absurd (h2.symm.trans hd) (by simp)
  · rw [e1]; ring
  · rw [e1]; ring
  · norm_num only [one_add_one_eq_two]; rw [e2]; ring
  · rw [e1]; ring
  · norm_num only [one_add_one_eq_two]; rw [e2]; ring
  · norm_num only [one_add_one_eq_two]; rw [e2]; ring
  · rw [e3]; ring

/-- **C26.** Vectors that are not to be scaled keep their length. -/
theorem nh_fixed_vector (dt vlogv : ℝ) {sc : Fin 3 → Bool} {d : Fin 3} (h : sc d = false)
    (r : Fin 3 → ℝ) : nhCell dt vlogv sc r d = r d := by
  have : ¬ (sc 0 && sc 1 && sc 2) = true := by
    intro hh
    simp only [Bool.and_eq_true] at hh
    fin_cases d
    · exact absurd (hh.1.1.symm.trans h) (by simp)
    · exact absurd (hh.1.2.symm.trans h) (by simp)
    · exact absurd (hh.2.symm.trans h) (by simp)
  rw [nhCell, if_neg this]
  simp [h]

example : (∃ d, (![true, false, true] : Fin 3 → Bool) d = true) ∧
    (![true, false, true] : Fin 3 → Bool) 1 = false := ⟨⟨0, rfl⟩, rfl⟩

/-- **C26.** `IsoPress` stores the kinetic energy of the velocities it leaves behind, and it
scales them by a positive factor. -/
theorem isoPress_ke {A : Type} [Fintype A] {mass : A → ℝ} {v : V A} {P : IsoPar} {s s' : Iso}
    {k α : ℝ} (h : isoPress P (ke mass v) s = some (s', k, α)) :
    k = ke mass (fun i d => v i d * α) ∧ 0 < α := by
  unfold isoPress at h
  extract_lets a1 a2 a3 a4 a5 a6 a7 a8 a9 a10 a11 a12 a13 a14 a15 a16 a17 a18 at h
  split at h
  · exact absurd h (by simp)
  · have h' := Option.some.inj h
    simp only [Prod.mk.injEq] at h'
    obtain ⟨-, h2, h3⟩ := h'
    rw [ke_scale, ← h2, ← h3]
    refine ⟨?_, Real.exp_pos _⟩
    simp only [a10]
    ring

/-- **C26, finding.** Defined exactly for chains of at least two thermostats; a chain of one,
which the input checks accept (md.c:247), reads the arrays at index -1 (md.c:976). -/
theorem isoPress_defined (P : IsoPar) (k : ℝ) (s : Iso) :
    (isoPress P k s).isSome ↔ 2 ≤ P.nnos := by
  unfold isoPress
  extract_lets
  split
  · simp; omega
  · simp; omega

example : (isoPress ⟨1, 2, fun _ => 1, 1, 3, 1, 0⟩ 1 ⟨0, 0, 0, 0⟩).isSome :=
  (isoPress_defined _ _ _).2 le_rfl

/-! ### Nosé–Poincaré -/

/-- **C26.** The thermostat velocity after the second half step solves the implicit equation
`Sv' = Sv - dt/(2q) (∂H/∂S terms + q Sv'²/2)`. -/
theorem np_thermostat {P : NpPar} (hq : P.q ≠ 0) {s : Np} {x : NpIn} {Sv Kbaro Ubaro Sv' : ℝ}
    (h : npSv P (npFactor P s x Sv Kbaro Ubaro) = some Sv') :
    Sv' = Sv - P.dt / 2 / P.q * (P.gkt * (Real.log s.S + 1) - x.ke2 + x.Etot + Kbaro + Ubaro -
      x.H0 + P.q * Sv' ^ 2 / 2) := by
  rw [npSv] at h
  split at h
  · exact absurd h (by simp)
  · rename_i hD
    have h' := (Option.some.inj h).symm
    have hr : √(1 - npFactor P s x Sv Kbaro Ubaro * P.dt / P.q) ^ 2 =
        1 - npFactor P s x Sv Kbaro Ubaro * P.dt / P.q := Real.sq_sqrt (not_lt.1 hD)
    have hpos : (0 : ℝ) < 1 + √(1 - npFactor P s x Sv Kbaro Ubaro * P.dt / P.q) := by positivity
    have hf : npFactor P s x Sv Kbaro Ubaro = P.dt / 2 * (P.gkt * (Real.log s.S + 1) - x.ke2 +
      x.Etot + Kbaro + Ubaro - x.H0) - P.q * Sv := rfl
    generalize npFactor P s x Sv Kbaro Ubaro = f at *
    generalize √(1 - f * P.dt / P.q) = R at *
    generalize P.gkt * (Real.log s.S + 1) - x.ke2 + x.Etot + Kbaro + Ubaro - x.H0 = X at *
    have hX : P.dt / 2 * X = f + P.q * Sv := by linarith
    have e1 : Sv' * (P.q * (1 + R)) = -2 * f := by rw [h']; field_simp
    have e2 : P.q * R ^ 2 = P.q - f * P.dt := by rw [hr]; field_simp
    -- the quadratic equation for `Sv'`
    have hquad : P.q * Sv' + P.q * P.dt / 4 * Sv' ^ 2 + f = 0 := by
      have h2 : (P.q * (1 + R) ^ 2) * (P.q * Sv' + P.q * P.dt / 4 * Sv' ^ 2 + f) = 0 := by
        have e3 : (P.q * (1 + R)) ^ 2 * Sv' ^ 2 = 4 * f ^ 2 := by
          have : (Sv' * (P.q * (1 + R))) ^ 2 = (-2 * f) ^ 2 := by rw [e1]
          linear_combination this
        linear_combination (P.q * (1 + R)) * e1 + (P.dt / 4) * e3 + f * e2
      exact (mul_eq_zero.1 h2).resolve_left (mul_ne_zero hq (pow_ne_zero 2 hpos.ne'))
    apply mul_left_cancel₀ hq
    have hqq : P.q * (P.dt / 2 / P.q) = P.dt / 2 := by field_simp
    linear_combination hquad + hX + (X + P.q * Sv' ^ 2 / 2) * hqq

/-- Directions tied together by `NPTconstraintFlag`. -/
def Tied (flag : ℕ) (i j : Fin 3) : Prop :=
  (flag = 1 ∧ i = 0 ∧ j = 1) ∨ (flag = 2 ∧ i = 0 ∧ j = 2) ∨ (flag = 3 ∧ i = 1 ∧ j = 2) ∨ flag = 4

theorem inner_tied {flag : ℕ} {i j : Fin 3} (h : Tied flag i j) (d : Fin 3 → ℝ) :
    inner flag d i = inner flag d j := by
  rcases h with ⟨rfl, rfl, rfl⟩ | ⟨rfl, rfl, rfl⟩ | ⟨rfl, rfl, rfl⟩ | rfl
  · rfl
  · rfl
  · rfl
  · fin_cases i <;> fin_cases j <;> rfl

/-- The loops keep a relation that each pass keeps. -/
theorem npLoop_keeps (Q : (Fin 3 → ℝ) → Prop) {sc : Fin 3 → Bool} {pass : (Fin 3 → ℝ) → Fin 3 → ℝ}
    (h : ∀ t, Q t → Q (pass t)) : ∀ n t, Q t → Q (npLoop sc pass n t)
  | 0, t, ht => h t ht
  | n + 1, t, ht => by
    rw [npLoop]
    split
    · exact h t ht
    · exact npLoop_keeps Q h n _ (h t ht)

/-- Several steps with whatever forces, stresses and energies. -/
noncomputable def npRun (P : NpPar) : List NpIn → Np → Option Np
  | [], s => some s
  | x :: l, s => match npStep P x s with
    | none => none
    | some s' => npRun P l s'

/-- One step, in terms of what it leaves behind. -/
theorem npStep_some {P : NpPar} {x : NpIn} {s s' : Np} (h : npStep P x s = some s') :
    s'.range = (fun i => √(s'.G i)) ∧
    (∃ Pm1, Pm1 = npFirst P s (inner P.flag x.stress) (npPm P s) (npKbaro P s (npPm P s)) ∧
      s'.Pm = npLoop P.sc (npPass P s (inner P.flag x.stress) Pm1) P.maxIter Pm1) ∧
    s'.G = npLoop P.sc (npGPass P s s'.Pm s'.S) P.maxIter s.G ∧
    s'.vol = P.jac * s'.range 0 * s'.range 1 * s'.range 2 ∧
    s'.S = npS P.dt s.S s'.Sv P.maxIter s.S ∧
    (∀ i, s'.velo i = if P.sc i then
      s'.G i ^ 2 * s'.Pm i * s'.S / (2 * P.W * s'.vol ^ 2) / s'.range i else 0) := by
  unfold npStep at h
  extract_lets Pm0 Kb Ub Kt Sa Sv1 inn Pm1 Pm2 Kb2 at h
  split at h
  · exact absurd h (by simp)
  · rename_i Sv2 hSv
    have h' := Option.some.inj h
    subst h'
    exact ⟨rfl, ⟨Pm1, rfl, rfl⟩, rfl, rfl, rfl, fun _ => rfl⟩

/-- **C26.** Constrained cell lengths that are equal (together with their velocities) stay equal
for ever. -/
theorem np_constraint {P : NpPar} {i j : Fin 3} (ht : Tied P.flag i j) (hi : P.sc i = true)
    (hj : P.sc j = true) : ∀ (l : List NpIn) (s s' : Np), npRun P l s = some s' →
    s.range i = s.range j ∧ s.velo i = s.velo j ∧ s.G i = s.G j →
    s'.range i = s'.range j ∧ s'.velo i = s'.velo j ∧ s'.G i = s'.G j
  | [], s, s', h, heq => by rw [npRun] at h; rw [← Option.some.inj h]; exact heq
  | x :: l, s, s', h, ⟨hr, hv, hG⟩ => by
    rw [npRun] at h
    cases h1 : npStep P x s with
    | none => simp [h1] at h
    | some t =>
      simp only [h1] at h
      refine np_constraint ht hi hj l t s' h ?_
      obtain ⟨k1, ⟨Pm1, k2, k3⟩, k4, k5, k6, k7⟩ := npStep_some h1
      have hinn := inner_tied ht x.stress
      have e1 : Pm1 i = Pm1 j := by
        rw [k2]
        simp only [npFirst, npPm, hi, hj, if_true, hinn, hr, hv, hG]
      have e2 : t.Pm i = t.Pm j := by
        rw [k3]
        refine npLoop_keeps (fun u => u i = u j) (fun u hu => ?_) _ _ e1
        simp only [npPass, hi, hj, if_true, hinn, hG, hu, e1]
      have e3 : t.G i = t.G j := by
        rw [k4]
        refine npLoop_keeps (fun u => u i = u j) (fun u hu => ?_) _ _ hG
        simp only [npGPass, hi, hj, if_true, hG, hu, e2]
      have e4 : t.range i = t.range j := by rw [k1]; simp only [e3]
      refine ⟨e4, ?_, e3⟩
      rw [k7, k7, hi, hj, e2, e3, e4]

/-- **C26.** A lattice vector that is not to be scaled keeps its length for ever. -/
theorem np_fixed_vector {P : NpPar} {i : Fin 3} (hi : P.sc i = false) :
    ∀ (l : List NpIn) (s s' : Np), npRun P l s = some s' →
    0 ≤ s.range i → s.G i = s.range i ^ 2 → s'.range i = s.range i ∧ s'.G i = s.G i
  | [], s, s', h, _, _ => by rw [npRun] at h; rw [← Option.some.inj h]; exact ⟨rfl, rfl⟩
  | x :: l, s, s', h, h0, hG => by
    rw [npRun] at h
    cases h1 : npStep P x s with
    | none => simp [h1] at h
    | some t =>
      simp only [h1] at h
      obtain ⟨k1, -, k4, -, -, -⟩ := npStep_some h1
      have e1 : t.G i = s.G i := by
        rw [k4]
        refine npLoop_keeps (fun u => u i = s.G i) (fun u hu => ?_) _ _ rfl
        simp only [npGPass, hi, Bool.false_eq_true, if_false, hu]
      have e2 : t.range i = s.range i := by
        rw [k1]
        simp only [e1, hG, Real.sqrt_sq h0]
      obtain ⟨r1, r2⟩ := np_fixed_vector hi l t s' h (by rw [e2]; exact h0) (by rw [e1, e2, hG])
      exact ⟨r1.trans e2, r2.trans e1⟩

/-- **C26.** The barostat momentum, which each step rebuilds from the cell velocity, is the one
the previous step ended with. -/
theorem np_momentum_carried {P : NpPar} {x : NpIn} {s s' : Np} (h : npStep P x s = some s')
    {i : Fin 3} (hi : P.sc i = true) (hW : P.W ≠ 0) (hS : s'.S ≠ 0) (hV : s'.vol ≠ 0)
    (hG : 0 < s'.G i) : npPm P s' i = s'.Pm i := by
  obtain ⟨k1, -, -, -, -, k7⟩ := npStep_some h
  have hr : s'.range i ≠ 0 := by rw [k1]; exact (Real.sqrt_pos.2 hG).ne'
  have hG' := hG.ne'
  rw [npPm, if_pos hi, k7, if_pos hi]
  field_simp

/-- **C26.** The iteration for the thermostat variable aims at the solution of
`S' = S + dt/2 (S + S') Sv`: what it returns is either within the tolerance of it or the result
of all the allowed passes, each of which shrinks the error by `|dt Sv / 2|`. -/
theorem np_S {dt S Sv : ℝ} (hc : |dt / 2 * Sv| < 1) : ∀ (n : ℕ) (tmp : ℝ),
    let S' := S * (1 + dt / 2 * Sv) / (1 - dt / 2 * Sv)
    S' = S + dt / 2 * (S + S') * Sv ∧
    (|npS dt S Sv n tmp - S'| ≤ |dt / 2 * Sv| / (1 - |dt / 2 * Sv|) * 1e-7 ∨
      |npS dt S Sv n tmp - S'| = |dt / 2 * Sv| ^ (n + 1) * |tmp - S'|) := by
  intro n tmp S'
  have hc1 : 1 - dt / 2 * Sv ≠ 0 := by
    have := (abs_lt.1 hc).2
    intro h
    linarith
  have hfix : S' = S + dt / 2 * (S + S') * Sv := by
    have e : S' * (1 - dt / 2 * Sv) = S * (1 + dt / 2 * Sv) := div_mul_cancel₀ _ hc1
    linear_combination e
  refine ⟨hfix, ?_⟩
  have hpass : ∀ t, |S + dt / 2 * (S + t) * Sv - S'| = |dt / 2 * Sv| * |t - S'| := by
    intro t
    rw [← abs_mul]
    congr 1
    linear_combination -hfix
  induction n generalizing tmp with
  | zero => right; rw [npS, hpass]; ring
  | succ n ih =>
    rw [npS]
    split
    · rename_i hlt
      left
      rw [hpass]
      have h1 : |tmp - S'| ≤ |S + dt / 2 * (S + tmp) * Sv - tmp| + |dt / 2 * Sv| * |tmp - S'| := by
        rw [← hpass tmp]
        have := abs_add_le (tmp - (S + dt / 2 * (S + tmp) * Sv)) (S + dt / 2 * (S + tmp) * Sv - S')
        rw [abs_sub_comm tmp, show tmp - (S + dt / 2 * (S + tmp) * Sv) +
          (S + dt / 2 * (S + tmp) * Sv - S') = tmp - S' by ring] at this
        exact this
      have h2 : (1 - |dt / 2 * Sv|) * |tmp - S'| ≤ 1e-7 := by linarith
      have h3 : 0 < 1 - |dt / 2 * Sv| := by linarith
      have h4 := abs_nonneg (dt / 2 * Sv)
      generalize |dt / 2 * Sv| = c at *
      rw [div_mul_eq_mul_div, le_div_iff₀ h3]
      nlinarith
    · rcases ih (S + dt / 2 * (S + tmp) * Sv) with h | h
      · exact Or.inl h
      · right
        rw [h, hpass]
        ring

/-- A cubic cell at rest with all lengths tied. -/
noncomputable def npDemo : NpPar :=
  { dt := 1, W := 1, q := 1, prtarget := 0, jac := 1, flag := 4, sc := fun _ => true,
    maxIter := 30, gkt := 1 }

noncomputable def npStart : Np :=
  { range := fun _ => 2, velo := fun _ => 1, G := fun _ => 4, Pm := fun _ => 0, S := 1, Sv := 0,
    vol := 8 }

/-- Some step is possible: with energies that balance, the thermostat equation has a root. -/
example : Tied npDemo.flag 0 2 ∧ npStart.range 0 = npStart.range 2 ∧
    (∃ H0, (npStep npDemo ⟨![1, 2, 3], 0, 0, 0, H0⟩ npStart).isSome) := by
  refine ⟨Or.inr (Or.inr (Or.inr rfl)), rfl, ?_⟩
  -- `factor` is affine and decreasing in `H0`
  set Pm0 := npPm npDemo npStart
  set Kb := npKbaro npDemo npStart Pm0
  set inn := inner npDemo.flag ![1, 2, 3]
  set Pm1 := npFirst npDemo npStart inn Pm0 Kb
  set Pm2 := npLoop npDemo.sc (npPass npDemo npStart inn Pm1) npDemo.maxIter Pm1
  set Kb2 := npKbaroTmp npDemo npStart Pm2 with hKb2
  refine ⟨1 + (|Kb| + |Kb2|), ?_⟩
  have hsome : ∀ f, f ≤ 1 → (npSv npDemo f).isSome := by
    intro f hf
    rw [npSv, if_neg]
    · rfl
    · simp only [npDemo]; linarith
  rw [npStep]
  simp only
  have h := hsome (npFactor npDemo npStart ⟨![1, 2, 3], 0, 0, 0, 1 + (|Kb| + |Kb2|)⟩
    (npStart.Sv + ((0 : ℝ) - 0 - npDemo.gkt * (Real.log npStart.S + 1) - Kb -
      npDemo.prtarget * npStart.vol - 0.5 * npDemo.q * npStart.Sv ^ 2 + (1 + (|Kb| + |Kb2|))) /
        npDemo.q * npDemo.dt / 2) Kb2 (npDemo.prtarget * npStart.vol)) (by
      simp only [npFactor, npDemo, npStart, Real.log_one]
      have := le_abs_self Kb
      have := le_abs_self Kb2
      have := abs_nonneg Kb
      have := abs_nonneg Kb2
      norm_num
      linarith)
  obtain ⟨y, hy⟩ := Option.isSome_iff_exists.1 h
  rw [hy]
  rfl

end Sparc.NPT

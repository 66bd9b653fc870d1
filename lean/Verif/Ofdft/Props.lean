import Verif.Ofdft.Search
import Verif.Ofdft.Energy

/-!
# Properties of orbital-free density functional theory (C109-C111)
-/

namespace Sparc.Ofdft
open Finset

/-! ## C109: the line search -/

/-- All step lengths tried lie strictly between 0 and 1, and so does the one returned, which is one of them. -/
theorem trials_inside (f : ℝ → ℝ) {tol : ℝ} (ht : 0 ≤ tol) :
    (∀ p ∈ (brent f tol).pts, 0 < p ∧ p < 1) ∧ (brent f tol).s.x ∈ (brent f tol).pts :=
  ⟨(brent_good f ht).hin, (brent_good f ht).hmem⟩

/-- The step length returned has the lowest energy of all that were tried, the middle of the
interval among them. -/
theorem best_trial (f : ℝ → ℝ) {tol : ℝ} (ht : 0 ≤ tol) :
    (∀ p ∈ (brent f tol).pts, f (brent f tol).s.x ≤ f p) ∧ f (brent f tol).s.x ≤ f (1 / 2) := by
  have h := (brent_good f ht).hmin
  refine ⟨h, h _ ?_⟩
  have : ∀ k o, (1 / 2 : ℝ) ∈ o.pts → (1 / 2 : ℝ) ∈ (brentLoop f tol k o).pts :=
    loop_induct (P := fun o => (1 / 2 : ℝ) ∈ o.pts) fun o ho _ => List.mem_cons_of_mem _ ho
  exact this 99 (start f) (by simp [start]; norm_num)

/-- The number of iterations handed back is the number of energies calculated, at least 1 and at
most 100. -/
theorem evaluations (f : ℝ → ℝ) {tol : ℝ} (ht : 0 ≤ tol) :
    (brent f tol).iter = (brent f tol).pts.length ∧ 1 ≤ (brent f tol).iter ∧ (brent f tol).iter ≤ 100 := by
  have h := brent_good f ht
  refine ⟨h.hlen, ?_, ?_⟩
  · rw [h.hlen]; exact List.length_pos_of_mem h.hmem
  · have := (loop_iter f tol 99 (start f)).1
    exact this

/-- If the energy falls strictly up to some point of the interval and rises strictly after it and
the search ends before the 100th energy, the step length returned is within twice the tolerance of
that point. -/
theorem unimodal_minimum (f : ℝ → ℝ) {tol m : ℝ} (ht : 0 ≤ tol) (hm0 : 0 ≤ m) (hm1 : m ≤ 1)
    (hanti : StrictAntiOn f (Set.Icc 0 m)) (hmono : StrictMonoOn f (Set.Icc m 1))
    (hc : (brent f tol).iter < 100) :
    |(brent f tol).s.x - m| ≤ 2 * (tol * (brent f tol).s.x + 1 / 10 ^ 10) := by
  have hinv : Good f (brent f tol) ∧ (brent f tol).s.a ≤ m ∧ m ≤ (brent f tol).s.b := by
    refine loop_induct (P := fun o => Good f o ∧ o.s.a ≤ m ∧ m ≤ o.s.b) ?_ 99 (start f)
      ⟨start_good f, by simpa [start] using hm0, by simpa [start] using hm1⟩
    rintro o ⟨hg, hlo, hhi⟩ hd
    refine ⟨nxt_good ht hg hd, ?_⟩
    obtain ⟨h1, h2, h3⟩ := trial_spec ht hd hg.hax hg.hxb
    have htp := tol1_pos ht o.s
    have hne : trial tol o.s ≠ o.s.x := by
      intro he; rw [he, sub_self, abs_zero] at h3; linarith
    have hx := update_x o.s (stepLen tol o.s).1 (stepLen tol o.s).2 (trial tol o.s) (f (trial tol o.s))
    have hx0 : 0 ≤ o.s.x := by linarith [hg.ha, hg.hax]
    have hx1 : o.s.x ≤ 1 := by linarith [hg.hb, hg.hxb]
    have ht0 : 0 ≤ trial tol o.s := by linarith [hg.ha]
    have ht1 : trial tol o.s ≤ 1 := by linarith [hg.hb]
    show (update _ _ _ _ _).a ≤ m ∧ m ≤ (update _ _ _ _ _).b
    by_cases hf : f (trial tol o.s) ≤ o.s.fx
    · obtain ⟨-, -, e3, e4⟩ := hx.1 hf
      rw [hg.hfx] at hf
      rw [e3, e4]
      by_cases hc : trial tol o.s ≥ o.s.x
      · rw [if_pos hc, if_pos hc]
        refine ⟨?_, hhi⟩
        by_contra hm; rw [not_le] at hm
        have := hmono ⟨hm.le, hx1⟩ ⟨by linarith, ht1⟩ (lt_of_le_of_ne hc (Ne.symm hne))
        linarith
      · rw [if_neg hc, if_neg hc]; rw [ge_iff_le, not_le] at hc
        refine ⟨hlo, ?_⟩
        by_contra hm; rw [not_le] at hm
        have := hanti ⟨ht0, by linarith⟩ ⟨hx0, hm.le⟩ hc
        linarith
    · obtain ⟨-, -, e3, e4⟩ := hx.2 hf
      rw [hg.hfx, not_le] at hf
      rw [e3, e4]
      by_cases hc : trial tol o.s < o.s.x
      · rw [if_pos hc, if_pos hc]
        refine ⟨?_, hhi⟩
        by_contra hm; rw [not_le] at hm
        have := hmono ⟨hm.le, ht1⟩ ⟨by linarith, hx1⟩ hc
        linarith
      · rw [if_neg hc, if_neg hc]; rw [not_lt] at hc
        refine ⟨hlo, ?_⟩
        by_contra hm; rw [not_le] at hm
        have := hanti ⟨hx0, by linarith⟩ ⟨ht0, hm.le⟩ (lt_of_le_of_ne hc (Ne.symm hne))
        linarith
  obtain ⟨hg, hlo, hhi⟩ := hinv
  have hd : (brent f tol).s.done tol := (loop_iter f tol 99 (start f)).2 hc
  unfold BSt.done BSt.xm BSt.tol1 at hd
  rw [abs_of_pos (by linarith [hg.ha, hg.hax] : 0 < (brent f tol).s.x)] at hd
  have h1 := (abs_le.1 hd).1
  have h2 := (abs_le.1 hd).2
  norm_num at h1 h2 ⊢
  rw [abs_le]
  constructor <;> linarith

/-- The hypotheses are met: the parabola with its minimum in the middle, tolerance 1/4, ends after
three energies. -/
example : StrictAntiOn (fun s : ℝ => (s - 1 / 2) ^ 2) (Set.Icc 0 (1 / 2)) ∧
    StrictMonoOn (fun s : ℝ => (s - 1 / 2) ^ 2) (Set.Icc (1 / 2) 1) ∧
    (brent (fun s : ℝ => (s - 1 / 2) ^ 2) (1 / 4)).iter = 3 := by
  refine ⟨?_, ?_, ?_⟩
  · rintro x ⟨hx0, hx1⟩ y ⟨hy0, hy1⟩ hxy; dsimp only; nlinarith
  · rintro x ⟨hx0, hx1⟩ y ⟨hy0, hy1⟩ hxy; dsimp only; nlinarith
  · set f : ℝ → ℝ := fun s : ℝ => (s - 1 / 2) ^ 2 with hf
    have hb : brent f (1 / 4) = brentLoop f (1 / 4) (97 + 1 + 1) (start f) := rfl
    have h0 : ¬ (start f).s.done (1 / 4) := by
      simp only [BSt.done, BSt.xm, BSt.tol1, start]; norm_num [abs_of_pos]
    have t0 : trial (1 / 4) (start f).s = 0.3090170 ∧ (stepLen (1 / 4) (start f).s) = (-0.1909830, -0.5) := by
      have : stepLen (1 / 4) (start f).s = (-0.1909830, -0.5) := by
        simp only [stepLen, golden, BSt.xm, BSt.tol1, start]; norm_num
      refine ⟨?_, this⟩
      unfold trial; rw [this]; simp only [BSt.tol1, start]; norm_num [abs_of_pos, abs_of_neg]
    have n1 : nxt f (1 / 4) (start f) = ⟨⟨0.3090170, 1, -0.1909830, -0.5, 0.5, 0.3090170, 0.5, f 0.5, f 0.3090170, f 0.5⟩,
        [0.3090170, 0.5], 2⟩ := by
      simp only [nxt, t0.1, t0.2]
      simp only [update, start, hf]; norm_num
    set o1 : BOut := ⟨⟨0.3090170, 1, -0.1909830, -0.5, 0.5, 0.3090170, 0.5, f 0.5, f 0.3090170, f 0.5⟩,
        [0.3090170, 0.5], 2⟩ with ho1
    have h1 : ¬ o1.s.done (1 / 4) := by
      simp only [BSt.done, BSt.xm, BSt.tol1, ho1]; norm_num [abs_of_pos, abs_of_neg]
    have t1 : trial (1 / 4) o1.s = 0.6909830 ∧ (stepLen (1 / 4) o1.s) = (0.1909830, 0.5) := by
      have : stepLen (1 / 4) o1.s = (0.1909830, 0.5) := by
        simp only [stepLen, golden, BSt.xm, BSt.tol1, ho1]; norm_num [abs_of_pos, abs_of_neg]
      refine ⟨?_, this⟩
      unfold trial; rw [this]; simp only [BSt.tol1, ho1]; norm_num [abs_of_pos, abs_of_neg]
    have n2 : (nxt f (1 / 4) o1).s.x = 0.5 ∧ (nxt f (1 / 4) o1).s.a = 0.3090170 ∧ (nxt f (1 / 4) o1).s.b = 0.6909830 := by
      simp only [nxt, t1.1, t1.2]
      have := (update_x o1.s 0.1909830 0.5 0.6909830 (f 0.6909830)).2 (by simp only [ho1, hf]; norm_num)
      rw [this.1, this.2.2.1, this.2.2.2, if_neg (by simp only [ho1]; norm_num), if_neg (by simp only [ho1]; norm_num)]
      exact ⟨rfl, rfl, rfl⟩
    have h2 : (nxt f (1 / 4) o1).s.done (1 / 4) := by
      simp only [BSt.done, BSt.xm, BSt.tol1, n2.1, n2.2.1, n2.2.2]; norm_num [abs_of_pos]
    have b0 : brentLoop f (1 / 4) (97 + 1 + 1) (start f) = brentLoop f (1 / 4) (97 + 1) (nxt f (1 / 4) (start f)) := by
      rw [brentLoop, if_neg h0]; rfl
    have b1 : brentLoop f (1 / 4) (97 + 1) o1 = brentLoop f (1 / 4) (96 + 1) (nxt f (1 / 4) o1) := by
      rw [brentLoop, if_neg h1]; rfl
    have b2 : brentLoop f (1 / 4) (96 + 1) (nxt f (1 / 4) o1) = nxt f (1 / 4) o1 := by
      rw [brentLoop, if_pos h2]
    rw [hb, b0, n1, b1, b2]; rfl

/-- Before it gives up or ends the search tries at least one point besides the middle, if the
tolerance is that of the program. -/
theorem two_trials (f : ℝ → ℝ) : 2 ≤ (brent f (1 / 10 ^ 2)).iter ∧
    (brent f (1 / 10 ^ 2)).pts.headD 0 ∈ (brent f (1 / 10 ^ 2)).pts := by
  have hnd : ¬ (start f).s.done (1 / 10 ^ 2) := by
    simp only [BSt.done, BSt.xm, BSt.tol1, start]
    norm_num [abs_of_pos]
  have hge : ∀ k o, (2 ≤ o.iter → 2 ≤ (brentLoop f (1 / 10 ^ 2) k o).iter) :=
    loop_induct (P := fun o => 2 ≤ o.iter) fun o ho _ => by show 2 ≤ o.iter + 1; omega
  refine ⟨?_, ?_⟩
  · show 2 ≤ (brentLoop f (1 / 10 ^ 2) 99 (start f)).iter
    rw [brentLoop, if_neg hnd]
    exact hge _ _ (by simp [start])
  · have hg := brent_good f (tol := 1 / 10 ^ 2) (by norm_num)
    cases hp : (brent f (1 / 10 ^ 2)).pts with
    | nil =>
      have hm := hg.hmem
      rw [hp] at hm; simp at hm
    | cons a l => simp

/-- The energy may rise: the step length zero is never tried.  With an energy that is 0 at zero and
1 elsewhere the search returns a step length with energy 1. -/
theorem energy_may_rise : ∃ f : ℝ → ℝ, f 0 < f (brent f (1 / 10 ^ 2)).s.x := by
  refine ⟨fun s => if s = 0 then 0 else 1, ?_⟩
  have h := trials_inside (fun s : ℝ => if s = 0 then (0 : ℝ) else 1) (tol := 1 / 10 ^ 2) (by norm_num)
  have hx := (h.1 _ h.2).1
  dsimp only
  rw [if_pos rfl, if_neg hx.ne']
  norm_num

/-- The point tried last need not be the one returned: with an energy that is 0 in the middle and 1
elsewhere the middle is returned and another point was tried last. -/
theorem last_trial_differs : ∃ f : ℝ → ℝ,
    (brent f (1 / 10 ^ 2)).pts.headD 0 ≠ (brent f (1 / 10 ^ 2)).s.x := by
  refine ⟨fun s => if s = 0.5 then 0 else 1, ?_⟩
  set f : ℝ → ℝ := fun s => if s = 0.5 then 0 else 1 with hf
  have hnd : ¬ (start f).s.done (1 / 10 ^ 2) := by
    simp only [BSt.done, BSt.xm, BSt.tol1, start]
    norm_num [abs_of_pos]
  have ht : (0 : ℝ) ≤ 1 / 10 ^ 2 := by norm_num
  have key : ∀ o : BOut, Good f o → o.s.x = 0.5 → ¬ o.s.done (1 / 10 ^ 2) →
      Good f (nxt f (1 / 10 ^ 2) o) ∧ (nxt f (1 / 10 ^ 2) o).s.x = 0.5 ∧ (nxt f (1 / 10 ^ 2) o).pts.headD 0 ≠ 0.5 := by
    intro o hg hx hd
    obtain ⟨h1, h2, h3⟩ := trial_spec ht hd hg.hax hg.hxb
    have htp := tol1_pos ht o.s
    have hne : trial (1 / 10 ^ 2) o.s ≠ 0.5 := by
      intro he; rw [he, hx, sub_self, abs_zero] at h3; linarith
    refine ⟨nxt_good ht hg hd, ?_, hne⟩
    have hfu : f (trial (1 / 10 ^ 2) o.s) = 1 := by rw [hf]; exact if_neg hne
    have hfx : o.s.fx = 0 := by rw [hg.hfx, hx, hf]; exact if_pos rfl
    have := (update_x o.s (stepLen (1 / 10 ^ 2) o.s).1 (stepLen (1 / 10 ^ 2) o.s).2 (trial (1 / 10 ^ 2) o.s)
      (f (trial (1 / 10 ^ 2) o.s))).2 (by rw [hfu, hfx]; norm_num)
    show (update _ _ _ _ _).x = 0.5
    rw [this.1, hx]
  have hb : brent f (1 / 10 ^ 2) = brentLoop f (1 / 10 ^ 2) 98 (nxt f (1 / 10 ^ 2) (start f)) := by
    show brentLoop f (1 / 10 ^ 2) 99 (start f) = _
    rw [brentLoop, if_neg hnd]; rfl
  have hfin := loop_induct (f := f) (tol := 1 / 10 ^ 2)
    (P := fun o => Good f o ∧ o.s.x = 0.5 ∧ o.pts.headD 0 ≠ 0.5)
    (fun o ho hd => key o ho.1 ho.2.1 hd) 98 _ (key (start f) (start_good f) rfl hnd)
  rw [hb, hfin.2.1]
  exact hfin.2.2

/-! ## C110: energy, operator and residual -/

/-- The energy of the density `u * u` as the textbook writes it (volume element times sums over the
grid): Thomas-Fermi term, `λ` times the gradient term, electrostatic and exchange-correlation energy. -/
noncomputable def functional (S : Sys n) (u : Fin n → ℝ) : ℝ :=
  S.Cf * (∑ i, (u i ^ 2) ^ ((5 : ℝ) / 3)) * S.dV - S.lam / 2 * (∑ i, u i * S.lap u i) * S.dV +
    1 / 2 * (∑ i, S.phi (fun i => u i ^ 2) i * (u i ^ 2 + S.b i)) * S.dV + S.exc (fun i => u i ^ 2) + S.Esc

/-- `sq` is the square. -/
theorem sq_eq (u : Fin n → ℝ) : sq u = fun i => u i ^ 2 := by funext i; simp [sq, pow_two]

/-- The energy minimised along the line is the functional, per atom, of the normalised vector. -/
theorem line_energy (S : Sys n) (u d : Fin n → ℝ) (s : ℝ) :
    S.lineE u d s = functional S (extend u d s (√(S.N / S.dV))) / S.natom := by
  unfold Sys.lineE functional Sys.energy Sys.cst
  dsimp only
  rw [sq_eq]
  congr 1
  rw [mul_sum, sum_congr rfl fun i _ => mul_add (S.phi (fun i => extend u d s √(S.N / S.dV) i ^ 2) i) _ _,
    sum_add_distrib, ← mul_sum]
  simp only [mul_comm (S.b _), mul_comm (extend u d s √(S.N / S.dV) _ ^ 2) (S.phi _ _)]
  norm_num; ring

/-- The prefactor is that of Thomas and Fermi: the kinetic energy of a gas of density `ρ` is `ρ` times
three fifths of the energy `k²/2` at the Fermi wave number `k = (3π²ρ)^(1/3)`. -/
theorem thomas_fermi_energy {rho : ℝ} (h : 0 ≤ rho) :
    thomasFermi * rho ^ ((5 : ℝ) / 3) = rho * (3 / 5 * (((3 * Real.pi ^ 2 * rho) ^ ((1 : ℝ) / 3)) ^ 2 / 2)) := by
  rcases h.lt_or_eq with h | rfl
  · have hp : (0 : ℝ) < 3 * Real.pi ^ 2 := by positivity
    rw [← Real.rpow_natCast, ← Real.rpow_mul (by positivity), Real.mul_rpow hp.le h.le]
    unfold thomasFermi
    have e1 : (5 : ℝ) / 3 = 1 + 2 / 3 := by norm_num
    have e2 : (1 : ℝ) / 3 * (2 : ℕ) = 2 / 3 := by norm_num
    rw [e1, Real.rpow_add h, Real.rpow_one, e2]
    have e3 : 3 * Real.pi * Real.pi = 3 * Real.pi ^ 2 := by ring
    rw [e3]; norm_num; ring
  · simp [Real.zero_rpow]

/-- Two grid points, the difference of neighbours as Laplacian, potential equal to density plus
charge, energy `Σ ρ²/2` as exchange and correlation. -/
noncomputable def exS : Sys 2 where
  dV := 1
  N := 5
  Cf := thomasFermi
  lam := 0.2
  Esc := 0
  natom := 1
  tol := 1 / 1000
  lap := fun v i => v (1 - i) - v i
  exc := fun r => ∑ i, r i ^ 2 / 2
  vxc := fun r i => r i
  phi := fun r i => r i - 5 / 2
  b := fun _ => -5 / 2

/-- The Laplacian of the example. -/
def exL : (Fin 2 → ℝ) →ₗ[ℝ] (Fin 2 → ℝ) where
  toFun v i := v (1 - i) - v i
  map_add' v w := by funext i; simp; ring
  map_smul' c v := by funext i; simp; ring

/-- The example satisfies what is asked of the given functions, at every density. -/
theorem exFits (rho : Fin 2 → ℝ) : Fits exS LinearMap.id exL rho where
  lap := rfl
  lapSymm v w := by simp [exL, Fin.sum_univ_two]; ring
  phi := by funext r i; simp [exS]; ring
  phiSymm v w := by simp [Fin.sum_univ_two]; ring
  xc := by
    have : HasFDerivAt (fun r : Fin 2 → ℝ => ∑ i, r i ^ 2 / 2)
        (∑ i, (1 * rho i) • ContinuousLinearMap.proj (R := ℝ) (φ := fun _ : Fin 2 => ℝ) i) rho := by
      refine HasFDerivAt.fun_sum fun i _ => ?_
      have h1 := (ContinuousLinearMap.proj (R := ℝ) (φ := fun _ : Fin 2 => ℝ) i).hasFDerivAt (x := rho)
      have h2 : HasDerivAt (fun y : ℝ => y ^ 2 / 2) (1 * rho i) (rho i) :=
        der_congr ((hasDerivAt_pow 2 (rho i)).div_const 2) (fun _ => rfl) (by simp)
      exact h2.comp_hasFDerivAt rho h1
    exact this

/-- The operator applied to `u` is half the derivative of the functional: along any curve through
`u` with velocity `v` the energy changes by `2 dV Σ (H u) v`. -/
theorem operator_is_gradient {S : Sys n} {K L : (Fin n → ℝ) →ₗ[ℝ] (Fin n → ℝ)} {u v : Fin n → ℝ}
    (hS : Fits S K L (fun i => u i ^ 2)) :
    HasDerivAt (fun t => functional S (fun i => u i + t * v i)) (2 * S.dV * ∑ i, S.ham u i * v i) 0 := by
  have hγ : HasDerivAt (fun (t : ℝ) (i : Fin n) => u i + t * v i) v 0 := by
    rw [hasDerivAt_pi]; intro i
    simpa using ((hasDerivAt_id (0 : ℝ)).mul_const (v i)).const_add (u i)
  have h0 : (fun i => u i + (0 : ℝ) * v i) = u := by funext i; simp
  have := energy_curve (t := 0) (by simpa only [h0, sq_eq] using hS) hγ
  simp only [h0] at this
  refine der_congr this (fun t => ?_) rfl
  unfold functional Sys.energy
  dsimp only
  rw [sq_eq, mul_sum, sum_congr rfl fun i _ => mul_add (S.phi (fun i => (u i + t * v i) ^ 2) i) _ _,
    sum_add_distrib, ← mul_sum]
  simp only [mul_comm (S.b _), mul_comm ((u _ + t * v _) ^ 2) (S.phi _ _)]
  norm_num; ring

example : Fits exS LinearMap.id exL (fun i => (![1, 2] : Fin 2 → ℝ) i ^ 2) := exFits _

/-- The residual is orthogonal to the vector and vanishes exactly if the vector is an eigenvector of
the operator, the condition for a stationary energy at fixed number of electrons. -/
theorem residual_stationary (S : Sys n) (hN : S.N ≠ 0) {u : Fin n → ℝ}
    (hu : (∑ i, u i ^ 2) * S.dV = S.N) :
    (∑ i, S.res u i * u i = 0) ∧ ((∀ i, S.res u i = 0) ↔ ∃ mu : ℝ, ∀ i, S.ham u i = mu * u i) := by
  have hu' : (∑ i, u i * u i) * S.dV = S.N := by simpa only [pow_two] using hu
  refine ⟨res_orth S hN hu', ?_⟩
  constructor
  · intro h
    refine ⟨(∑ i, S.ham u i * u i) * (S.dV / S.N), fun i => ?_⟩
    have := h i
    simp only [Sys.res] at this
    linarith
  · rintro ⟨mu, h⟩ i
    simp only [Sys.res]
    have : (∑ i, S.ham u i * u i) * (S.dV / S.N) = mu := by
      rw [sum_congr rfl fun i _ => by rw [h i, mul_assoc], ← mul_sum, mul_assoc, mul_div_assoc', hu',
        div_self hN, mul_one]
    rw [this, h i]; ring

/-- The first direction is one of descent: the energy along the normalised path has at zero the
derivative `- dV Σ r²` per atom. -/
theorem descent {S : Sys n} {K L : (Fin n → ℝ) →ₗ[ℝ] (Fin n → ℝ)} {u : Fin n → ℝ} (hN : 0 < S.N)
    (hdV : 0 < S.dV) (hS : Fits S K L (fun i => u i ^ 2)) (hpos : ∀ i, 0 < u i)
    (hu : (∑ i, u i ^ 2) * S.dV = S.N) :
    HasDerivAt (S.lineE u (S.res u)) (-(S.dV * ∑ i, S.res u i ^ 2) / S.natom) 0 := by
  have hu' : (∑ i, u i * u i) * S.dV = S.N := by simpa only [pow_two] using hu
  have hU : ∑ i, u i * u i = S.N / S.dV := by rw [← hu']; field_simp
  have hUp : 0 < ∑ i, u i * u i := by rw [hU]; positivity
  have ho := res_orth S hN.ne' hu'
  have hγ := extend_deriv hpos ho hUp
  rw [hU] at hγ
  have h0 : extend u (S.res u) 0 (√(S.N / S.dV)) = u := by
    funext i
    simp only [extend, zero_mul, add_zero]
    rw [hU, div_self (Real.sqrt_pos.2 (by positivity)).ne', mul_one, abs_of_pos (hpos i)]
  have he := (energy_curve (t := 0) (S := S) (K := K) (L := L) (by rw [h0, sq_eq]; exact hS) hγ).div_const S.natom
  rw [h0] at he
  refine der_congr he (fun _ => rfl) ?_
  congr 1
  have h1 : ∑ i, S.res u i ^ 2 = -2 * ∑ i, S.ham u i * S.res u i := by
    have : ∀ i, S.res u i ^ 2 = -2 * (S.ham u i * S.res u i) +
        2 * ((∑ i, S.ham u i * u i) * (S.dV / S.N)) * (S.res u i * u i) := by
      intro i
      conv_lhs => rw [pow_two]; arg 1; simp only [Sys.res]
      ring
    rw [sum_congr rfl fun i _ => this i, sum_add_distrib, ← mul_sum, ← mul_sum, ho]; ring
  rw [h1]; ring

/-- The vector (1, 2) has the five electrons of the example and is positive. -/
example : 0 < exS.N ∧ 0 < exS.dV ∧ (∀ i, 0 < (![1, 2] : Fin 2 → ℝ) i) ∧
    (∑ i, (![1, 2] : Fin 2 → ℝ) i ^ 2) * exS.dV = exS.N := by
  refine ⟨by norm_num [exS], by norm_num [exS], ?_, ?_⟩
  · intro i; fin_cases i <;> simp
  · simp [exS, Fin.sum_univ_two]; norm_num

/-! ## C111: the iteration -/

theorem extend_nonneg (u d : Fin n → ℝ) (s c : ℝ) (i : Fin n) : 0 ≤ extend u d s c i := abs_nonneg _

theorem extend_norm {u d : Fin n → ℝ} {s : ℝ} (c : ℝ) (h : ¬ ∀ i, u i + s * d i = 0) :
    ∑ i, extend u d s c i ^ 2 = c ^ 2 := by
  have hp : 0 < ∑ i, (u i + s * d i) * (u i + s * d i) := by
    push Not at h
    obtain ⟨j, hj⟩ := h
    exact sum_pos' (fun i _ => mul_self_nonneg _) ⟨j, mem_univ _, mul_self_pos.2 hj⟩
  have : ∀ i, extend u d s c i ^ 2 = (u i + s * d i) * (u i + s * d i) * (c ^ 2 / (∑ i, (u i + s * d i) * (u i + s * d i))) := by
    intro i
    simp only [extend, sq_abs, mul_pow, div_pow]
    rw [Real.sq_sqrt hp.le]; ring
  rw [sum_congr rfl fun i _ => this i, ← sum_mul, mul_div_cancel₀ _ hp.ne']

/-- A vector and a density that belong to the required number of electrons. -/
def Charged (S : Sys n) (u dens : Fin n → ℝ) : Prop :=
  (∀ i, 0 ≤ u i) ∧ (∑ i, u i ^ 2) * S.dV = S.N ∧ (∀ i, 0 ≤ dens i) ∧ (∑ i, dens i) * S.dV = S.N

/-- Left by a move: the vector of the best, the density of the last step length tried. -/
def Moved (S : Sys n) (u dens : Fin n → ℝ) : Prop :=
  ∃ (u' d : Fin n → ℝ) (s t : ℝ), (0 < s ∧ s < 1) ∧ (0 < t ∧ t < 1) ∧ u = extend u' d s (√(S.N / S.dV)) ∧
    dens = (fun i => extend u' d t (√(S.N / S.dV)) i ^ 2) ∧
    functional S (extend u' d s (√(S.N / S.dV))) / S.natom ≤ functional S (extend u' d t (√(S.N / S.dV))) / S.natom

theorem move_spec {S : Sys n} (hN : 0 < S.N) (hdV : 0 < S.dV) {u d : Fin n → ℝ}
    {p : (Fin n → ℝ) × (Fin n → ℝ)} (h : S.move u d = some p) : Charged S p.1 p.2 ∧ Moved S p.1 p.2 := by
  unfold Sys.move at h
  split at h
  · simp at h
  · rename_i hz
    push Not at hz
    have ht : (0 : ℝ) ≤ 1 / 10 ^ 2 := by norm_num
    have hin := trials_inside (S.lineE u d) ht
    have hb := best_trial (S.lineE u d) ht
    have h2 := (two_trials (S.lineE u d)).2
    have hx := hin.1 _ hin.2
    have hl := hin.1 _ h2
    have hc : S.cst ^ 2 * S.dV = S.N := by
      unfold Sys.cst; rw [Real.sq_sqrt (by positivity)]; field_simp
    have hzx := hz _ hx.1.le hx.2.le
    have hzl := hz _ hl.1.le hl.2.le
    rw [Option.some.injEq] at h
    subst h
    refine ⟨⟨fun i => extend_nonneg _ _ _ _ i, ?_, fun i => mul_self_nonneg _, ?_⟩, ?_⟩
    · dsimp only
      rw [extend_norm _ (by push Not; exact hzx), hc]
    · dsimp only
      rw [sq_eq]
      dsimp only
      rw [extend_norm _ (by push Not; exact hzl), hc]
    · refine ⟨u, d, _, _, hx, hl, rfl, sq_eq _, ?_⟩
      rw [← line_energy, ← line_energy]
      exact hb.1 _ h2

theorem newDir_count (r rold d : Fin n → ℝ) {k : ℕ} (hk : k ≤ 30) : (newDir r rold d k).2 ≤ 30 := by
  unfold newDir
  dsimp only
  split
  · norm_num
  · rename_i h; push Not at h; have := h.1; show k + 1 ≤ 30; omega

theorem loop_spec {S : Sys n} (hN : 0 < S.N) (hdV : 0 < S.dV) : ∀ k (t : St n), Charged S t.u t.dens →
    Moved S t.u t.dens → ∀ t' c, S.loop k t = some (t', c) →
    Charged S t'.u t'.dens ∧ (c = false → Moved S t'.u t'.dens) ∧
    (c = true → t'.dens = sq t'.u ∧ ∑ i, S.res t'.u i * S.res t'.u i < S.tol * S.tol * n)
  | 0, t, h1, h2, t', c, h => by
    simp only [Sys.loop, Option.some.injEq, Prod.mk.injEq] at h
    obtain ⟨rfl, rfl⟩ := h
    exact ⟨h1, fun _ => h2, fun h => by simp at h⟩
  | k + 1, t, h1, h2, t', c, h => by
    unfold Sys.loop at h
    dsimp only at h
    split at h
    · rename_i hlt
      simp only [Option.some.injEq, Prod.mk.injEq] at h
      obtain ⟨rfl, rfl⟩ := h
      refine ⟨⟨h1.1, h1.2.1, fun i => mul_self_nonneg _, ?_⟩, fun h => by simp at h, fun _ => ⟨rfl, hlt⟩⟩
      dsimp only
      rw [sq_eq]; exact h1.2.1
    · split at h
      · simp at h
      · split at h
        · simp at h
        · rename_i p hp
          obtain ⟨c1, c2⟩ := move_spec hN hdV hp
          exact loop_spec hN hdV k _ c1 c2 t' c h

theorem run_spec {S : Sys n} (hN : 0 < S.N) (hdV : 0 < S.dV) {maxit : ℕ} {rho : Fin n → ℝ} {o : Out n}
    (h : S.run maxit rho = some o) :
    Charged S o.u o.dens ∧ (o.conv = false → Moved S o.u o.dens) ∧
    (o.conv = true → o.dens = sq o.u ∧ ∑ i, S.res o.u i * S.res o.u i < S.tol * S.tol * n) ∧
    o.etot = S.energy o.dens o.u := by
  unfold Sys.run at h
  dsimp only at h
  split at h
  · simp at h
  · rename_i p hp
    split at h
    · simp at h
    · rename_i t c hl
      rw [Option.some.injEq] at h
      subst h
      obtain ⟨c1, c2⟩ := move_spec hN hdV hp
      obtain ⟨a, b, c⟩ := loop_spec hN hdV maxit _ c1 c2 _ _ hl
      exact ⟨a, b, c, rfl⟩

/-- At the end the vector is non-negative and its square integrates to the number of electrons; so
does the density left for the forces, which is non-negative too. -/
theorem electrons_kept {S : Sys n} (hN : 0 < S.N) (hdV : 0 < S.dV) {maxit : ℕ} {rho : Fin n → ℝ} {o : Out n}
    (h : S.run maxit rho = some o) :
    (∀ i, 0 ≤ o.u i) ∧ (∑ i, o.u i ^ 2) * S.dV = S.N ∧ (∀ i, 0 ≤ o.dens i) ∧ (∑ i, o.dens i) * S.dV = S.N :=
  (run_spec hN hdV h).1

/-- After convergence the density is the square of the vector, the energy reported is that of this
density, and the vector satisfies the stationarity condition up to `TOL_OFDFT` (root mean square
over the grid). -/
theorem converged {S : Sys n} (hN : 0 < S.N) (hdV : 0 < S.dV) (htol : 0 < S.tol) {maxit : ℕ} {rho : Fin n → ℝ} {o : Out n}
    (h : S.run maxit rho = some o) (hc : o.conv = true) :
    o.dens = (fun i => o.u i ^ 2) ∧ o.etot = functional S o.u ∧
    ∃ mu : ℝ, √((∑ i, (2 * (S.ham o.u i - mu * o.u i)) ^ 2) / n) < S.tol := by
  obtain ⟨-, -, h3, h4⟩ := run_spec hN hdV h
  obtain ⟨hd, hr⟩ := h3 hc
  refine ⟨by rw [hd, sq_eq], ?_, (∑ i, S.ham o.u i * o.u i) * (S.dV / S.N), ?_⟩
  · rw [h4, hd]
    unfold functional Sys.energy
    dsimp only
    rw [sq_eq, sum_congr rfl fun i _ => mul_add (S.phi (fun i => o.u i ^ 2) i) _ _, sum_add_distrib]
    simp only [mul_comm (S.b _), mul_comm (o.u _ ^ 2) (S.phi _ _)]
    norm_num; ring
  · have he : ∑ i, (2 * (S.ham o.u i - (∑ i, S.ham o.u i * o.u i) * (S.dV / S.N) * o.u i)) ^ 2 =
        ∑ i, S.res o.u i * S.res o.u i := sum_congr rfl fun i _ => by simp only [Sys.res]; ring
    rw [he]
    rcases Nat.eq_zero_or_pos n with rfl | hn
    · simpa using htol
    · have hn' : (0 : ℝ) < n := by exact_mod_cast hn
      rw [Real.sqrt_lt' htol, div_lt_iff₀ hn', pow_two]; exact hr

/-- Without convergence the density left is that of the step length tried last in the last line
search, not that of the vector, and the energy reported is the functional of that density but for
the gradient term, which is that of the vector. -/
theorem unconverged {S : Sys n} (hN : 0 < S.N) (hdV : 0 < S.dV) {maxit : ℕ} {rho : Fin n → ℝ} {o : Out n}
    (h : S.run maxit rho = some o) (hc : o.conv = false) :
    ∃ (u' d : Fin n → ℝ) (s t : ℝ), (0 < s ∧ s < 1) ∧ (0 < t ∧ t < 1) ∧
      let w := extend u' d t (√(S.N / S.dV))
      o.u = extend u' d s (√(S.N / S.dV)) ∧ o.dens = (fun i => w i ^ 2) ∧
      functional S o.u / S.natom ≤ functional S w / S.natom ∧
      o.etot = functional S w + S.lam / 2 * ((∑ i, w i * S.lap w i) - ∑ i, o.u i * S.lap o.u i) * S.dV := by
  obtain ⟨-, h2, -, h4⟩ := run_spec hN hdV h
  obtain ⟨u', d, s, t, hs, ht, e1, e2, e3⟩ := h2 hc
  refine ⟨u', d, s, t, hs, ht, e1, e2, by rw [e1]; exact e3, ?_⟩
  rw [h4, e2]
  generalize extend u' d t (√(S.N / S.dV)) = w
  unfold functional Sys.energy
  dsimp only
  rw [sum_congr rfl fun i _ => mul_add (S.phi (fun i => w i ^ 2) i) _ _, sum_add_distrib]
  simp only [mul_comm (S.b _), mul_comm (w _ ^ 2) (S.phi _ _)]
  norm_num; ring

/-- The first line search always meets a vector that can be normalised, if the density given
integrates to the number of electrons. -/
theorem first_move (S : Sys n) (hN : 0 < S.N) (hdV : 0 < S.dV) {rho : Fin n → ℝ} (h0 : ∀ i, 0 ≤ rho i)
    (hrho : (∑ i, rho i) * S.dV = S.N) :
    ∃ p, S.move (fun i => √(rho i)) (S.res fun i => √(rho i)) = some p := by
  have hu : (∑ i, √(rho i) * √(rho i)) * S.dV = S.N := by
    rw [sum_congr rfl fun i _ => Real.mul_self_sqrt (h0 i), hrho]
  have ho := res_orth S hN.ne' hu
  unfold Sys.move
  rw [if_neg]
  · exact ⟨_, rfl⟩
  · rintro ⟨s, -, -, hz⟩
    have hs := norm_sum _ _ ho s
    rw [sum_congr rfl fun i _ => by rw [hz i, zero_mul]] at hs
    simp only [sum_const_zero] at hs
    have hUp : 0 < ∑ i, √(rho i) * √(rho i) := by
      by_contra hn; rw [not_lt] at hn; nlinarith
    have : 0 ≤ s ^ 2 * ∑ i, S.res (fun i => √(rho i)) i * S.res (fun i => √(rho i)) i :=
      mul_nonneg (sq_nonneg _) (sum_nonneg fun i _ => mul_self_nonneg _)
    linarith

/-- A run that stops without convergence: the example from the density (1, 4), no pass allowed. -/
example : ∃ o, exS.run 0 ![1, 4] = some o ∧ o.conv = false := by
  obtain ⟨p, hp⟩ := first_move exS (rho := ![1, 4]) (by norm_num [exS]) (by norm_num [exS])
    (by intro i; fin_cases i <;> simp) (by simp [exS, Fin.sum_univ_two]; norm_num)
  have h : (fun i => √|(![1, 4] : Fin 2 → ℝ) i|) = fun i => √((![1, 4] : Fin 2 → ℝ) i) := by
    funext i; fin_cases i <;> simp
  refine ⟨⟨p.1, p.2, false, exS.energy p.2 p.1⟩, ?_, rfl⟩
  unfold Sys.run
  dsimp only
  rw [h, hp]
  rfl

/-- The example with two electrons. -/
noncomputable def exU : Sys 2 := { exS with N := 2 }

/-- A run that converges: two electrons from the uniform density, whose residual vanishes. -/
example : ∃ o, exU.run 1500 (fun _ => 1) = some o ∧ o.conv = true := by
  have hN : 0 < exU.N := by norm_num [exU]
  have hdV : 0 < exU.dV := by norm_num [exU, exS]
  have hr : exU.res (fun _ => 1) = fun _ => 0 := by
    have := (residual_stationary exU hN.ne' (u := fun _ => 1) (by simp [exU, exS])).2
    funext i
    refine this.2 ⟨1 - 5 / 2 + 1 + 5 / 3 * exU.Cf, fun i => ?_⟩ i
    simp [Sys.ham, sq, exU, exS]
  obtain ⟨p, hp⟩ := first_move exU (rho := fun _ => 1) hN hdV (fun _ => by norm_num) (by simp [exU, exS])
  simp only [Real.sqrt_one] at hp
  have hpu : p.1 = fun _ => 1 := by
    rw [hr] at hp
    unfold Sys.move at hp
    split at hp
    · simp at hp
    · rw [Option.some.injEq] at hp
      rw [← hp]
      funext i
      have hc : √(2 : ℝ) ≠ 0 := by positivity
      simp [extend, Sys.cst, exU, exS, hc]
  refine ⟨⟨p.1, sq p.1, true, exU.energy (sq p.1) p.1⟩, ?_, rfl⟩
  unfold Sys.run
  simp only [abs_one, Real.sqrt_one]
  rw [hp]
  dsimp only
  rw [Sys.loop]
  dsimp only
  rw [hpu, hr, if_pos]
  simp [exU, exS]

/-- The direction is that of Polak and Ribière, replaced by the residual if their factor is not
positive and after 30 passes; the count of passes never exceeds 30, and in the first pass (no
direction yet) the direction is the residual. -/
theorem direction (r rold d : Fin n → ℝ) (k : ℕ) (hr : 0 < ∑ i, rold i ^ 2) :
    (k < 30 → 0 < ∑ i, r i * (r i - rold i) →
      newDir r rold d k = (fun i => (∑ i, r i * (r i - rold i)) / (∑ i, rold i ^ 2) * d i + r i, k + 1)) ∧
    (k = 30 ∨ ∑ i, r i * (r i - rold i) ≤ 0 → newDir r rold d k = (r, 1)) ∧
    (k ≤ 30 → (newDir r rold d k).2 ≤ 30) ∧ (newDir r rold (fun _ => 0) k).1 = r := by
  have h1 : (∑ i, r i * r i) - ∑ i, rold i * r i = ∑ i, r i * (r i - rold i) := by
    rw [← sum_sub_distrib]; exact sum_congr rfl fun i _ => by ring
  have h2 : ∑ i, rold i * rold i = ∑ i, rold i ^ 2 := sum_congr rfl fun i _ => by ring
  refine ⟨fun hk hp => ?_, fun hk => ?_, newDir_count r rold d, ?_⟩
  · unfold newDir; dsimp only; rw [h1, h2, if_neg]
    push Not
    exact ⟨by omega, div_pos hp hr⟩
  · unfold newDir; dsimp only; rw [h1, h2, if_pos]
    rcases hk with h | h
    · exact Or.inl h
    · exact Or.inr (div_nonpos_of_nonpos_of_nonneg h hr.le)
  · unfold newDir; dsimp only
    split
    · rfl
    · funext i; simp

example : 0 < ∑ i, (![1, 2] : Fin 2 → ℝ) i ^ 2 ∧ 0 < ∑ i, (![2, 1] : Fin 2 → ℝ) i * ((![2, 1] : Fin 2 → ℝ) i - (![1, 2] : Fin 2 → ℝ) i) := by
  simp [Fin.sum_univ_two]; norm_num

end Sparc.Ofdft

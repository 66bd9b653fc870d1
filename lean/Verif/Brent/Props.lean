import Verif.Brent.Lemmas
import Mathlib.Topology.Order.IntermediateValue
import Mathlib.Topology.Algebra.Order.Archimedean
import Mathlib.Topology.Instances.Real.Lemmas
import Mathlib.Analysis.SpecificLimits.Basic

/-!
# C19: the bracketing of the root searches is never lost

All statements are about `search`, of which the Fermi-level search and the volume search are
instances, for an arbitrary function.
-/

namespace Sparc.Brent

open Set

/-- Half-width bound of the largest bracket the search may use. -/
noncomputable def reach (nExt : ℕ) (x1 x2 : ℝ) : ℝ := 2 ^ nExt * |x2 - x1| / 2

/-- The `k`-th symmetric enlargement of the starting bracket has no sign change. -/
def sameSign (f : ℝ → ℝ) (x1 x2 : ℝ) (k : ℕ) : Prop :=
  f ((x1 + x2) / 2 - 2 ^ k * (x2 - x1) / 2) * f ((x1 + x2) / 2 + 2 ^ k * (x2 - x1) / 2) > 0

theorem ends_mem {x y : ℝ} : ∀ z ∈ [x, y], z ∈ uIcc x y := by
  intro z hz
  simp only [List.mem_cons, List.not_mem_nil, or_false] at hz
  rcases hz with rfl | rfl
  · exact left_mem_uIcc
  · exact right_mem_uIcc

/-- Summary of a search. -/
theorem search_cases (f : ℝ → ℝ) (P : Par) (nExt maxIter : ℕ) (x1 x2 : ℝ) :
    ∃ lo hi : ℝ, lo + hi = x1 + x2 ∧ (∃ k ≤ nExt, hi - lo = 2 ^ k * (x2 - x1) ∧
      (∀ j < k, sameSign f x1 x2 j) ∧
      ((∃ ev, search f P nExt maxIter x1 x2 = .noBracket ev ∧ (∀ x ∈ ev, x ∈ uIcc lo hi) ∧
          k = nExt ∧ sameSign f x1 x2 k) ∨
        (¬ sameSign f x1 x2 k ∧ ∃ s, Inv f lo hi s ∧
          search f P nExt maxIter x1 x2 = run f P maxIter s))) := by
  obtain ⟨h1, ⟨k, hk, h2, h3, h4⟩, h5⟩ := expand_spec f nExt x1 x2 [x1, x2] ends_mem
  refine ⟨_, _, h1, k, hk, h2, h4, ?_⟩
  set r := expand f nExt x1 x2 [x1, x2] with hr
  have ea : r.1 = (x1 + x2) / 2 - 2 ^ k * (x2 - x1) / 2 := by linarith
  have eb : r.2.1 = (x1 + x2) / 2 + 2 ^ k * (x2 - x1) / 2 := by linarith
  have hss : sameSign f x1 x2 k ↔ f r.1 * f r.2.1 > 0 := by unfold sameSign; rw [ea, eb]
  by_cases hp : f r.1 * f r.2.1 > 0
  · left
    refine ⟨r.2.2, ?_, h5, h3 hp, hss.mpr hp⟩
    unfold search; dsimp only; rw [← hr, if_pos hp]
  · right
    refine ⟨fun h => hp (hss.mp h), { a := r.1, b := r.2.1, c := r.2.1, fa := f r.1, fb := f r.2.1, fc := f r.2.1, d := 0, e := 0, evals := r.2.2 }, ?_, ?_⟩
    · exact ⟨rfl, rfl, rfl, not_lt.mp hp, right_mem_uIcc, left_mem_uIcc, right_mem_uIcc,
        by simp, by simp, h5⟩
    · unfold search; dsimp only; rw [← hr, if_neg hp]

theorem mem_reach {lo hi x1 x2 x : ℝ} {k n : ℕ} (h1 : lo + hi = x1 + x2) (hk : k ≤ n)
    (h2 : hi - lo = 2 ^ k * (x2 - x1)) (hx : x ∈ uIcc lo hi) :
    |x - (x1 + x2) / 2| ≤ reach n x1 x2 := by
  have hw : |hi - lo| ≤ 2 ^ n * |x2 - x1| := by
    rw [h2, abs_mul, abs_of_pos (by positivity : (0:ℝ) < 2 ^ k)]
    exact mul_le_mul_of_nonneg_right (pow_le_pow_right₀ (by norm_num) hk) (abs_nonneg _)
  unfold reach
  have h3 := le_abs_self (hi - lo)
  have h4 := neg_abs_le (hi - lo)
  rw [mem_uIcc] at hx
  rw [abs_le]
  rcases hx with ⟨p, q⟩ | ⟨p, q⟩ <;> constructor <;> linarith

/-- **C19 (certificate).** A returned point meets the function tolerance or has a sign change
within the position tolerance, with the other end of the sign change inside the region the
search may use. -/
theorem root_certified (f : ℝ → ℝ) (P : Par) (nExt maxIter : ℕ) (x1 x2 r : ℝ) (ev : List ℝ)
    (htf : 0 < P.tolf) (ht : 0 ≤ P.tol)
    (h : search f P nExt maxIter x1 x2 = .found r ev) :
    |f r| < P.tolf ∨ ∃ c, |c - (x1 + x2) / 2| ≤ reach nExt x1 x2 ∧ f r * f c ≤ 0 ∧
      |c - r| ≤ P.tol + 4 * (1 / 10 ^ 16) * |r| := by
  obtain ⟨lo, hi, h1, k, hk, h2, _, h4⟩ := search_cases f P nExt maxIter x1 x2
  rcases h4 with ⟨ev', h5, _⟩ | ⟨_, s, hs, h5⟩
  · rw [h5] at h; cases h
  · rw [h5] at h
    have := run_good htf ht maxIter s hs
    rw [h] at this
    rcases this.2.2 with h6 | ⟨c, hc, h6, h7⟩
    · exact Or.inl h6
    · exact Or.inr ⟨c, mem_reach h1 hk h2 hc, h6, h7⟩

/-- **C19 (evaluations).** Whatever the outcome, the function is only evaluated, and a value
only returned, inside the bracket expanded at most `nExt` times about its centre. -/
theorem search_evaluates_inside (f : ℝ → ℝ) (P : Par) (nExt maxIter : ℕ) (x1 x2 : ℝ)
    (htf : 0 < P.tolf) (ht : 0 ≤ P.tol) :
    match search f P nExt maxIter x1 x2 with
    | .found r ev | .exceeded r ev =>
        |r - (x1 + x2) / 2| ≤ reach nExt x1 x2 ∧ ∀ x ∈ ev, |x - (x1 + x2) / 2| ≤ reach nExt x1 x2
    | .noBracket ev => ∀ x ∈ ev, |x - (x1 + x2) / 2| ≤ reach nExt x1 x2
    | .divZero => False := by
  obtain ⟨lo, hi, h1, k, hk, h2, _, h4⟩ := search_cases f P nExt maxIter x1 x2
  rcases h4 with ⟨ev', h5, h6, _⟩ | ⟨_, s, hs, h5⟩
  · rw [h5]; exact fun x hx => mem_reach h1 hk h2 (h6 x hx)
  · rw [h5]
    have := run_good htf ht maxIter s hs
    revert this
    generalize run f P maxIter s = o
    cases o with
    | found r ev =>
      exact fun g => ⟨mem_reach h1 hk h2 g.1, fun x hx => mem_reach h1 hk h2 (g.2.1 x hx)⟩
    | exceeded r ev =>
      exact fun g => ⟨mem_reach h1 hk h2 g.1, fun x hx => mem_reach h1 hk h2 (g.2 x hx)⟩
    | noBracket ev => exact fun g => g.elim
    | divZero => exact fun g => g.elim

/-- **C19 (failure is honest).** The search gives up for want of a bracket exactly when none of
the enlargements it is allowed to try shows a sign change. -/
theorem search_noBracket_iff (f : ℝ → ℝ) (P : Par) (nExt maxIter : ℕ) (x1 x2 : ℝ)
    (htf : 0 < P.tolf) (ht : 0 ≤ P.tol) :
    (∃ ev, search f P nExt maxIter x1 x2 = .noBracket ev) ↔ ∀ k ≤ nExt, sameSign f x1 x2 k := by
  obtain ⟨lo, hi, h1, k, hk, h2, h3, h4⟩ := search_cases f P nExt maxIter x1 x2
  rcases h4 with ⟨ev', h5, h6, h7, h8⟩ | ⟨h6, s, hs, h5⟩
  · refine ⟨fun _ j hj => ?_, fun _ => ⟨_, h5⟩⟩
    rcases lt_or_eq_of_le hj with h | h
    · exact h3 j (by omega)
    · rw [h, ← h7]; exact h8
  · refine ⟨?_, fun h => absurd (h k hk) h6⟩
    rintro ⟨ev, h⟩
    have := run_good htf ht maxIter s hs
    rw [← h5, h] at this
    exact this.elim

/-- **C19 (termination).** With a positive position tolerance and a sign change in one of the
permitted enlargements the search stops by its convergence test within an explicit number of
iterations, `(N+1)(K+1)` where `(3/4)^N` brings the widest bracket below the tolerance and
`(3/4)^K` brings five times that bracket below it. -/
theorem search_terminates (f : ℝ → ℝ) (P : Par) (nExt maxIter N K : ℕ) (x1 x2 : ℝ)
    (htf : 0 < P.tolf) (ht : 0 ≤ P.tol)
    (hsg : ∃ k ≤ nExt, ¬ sameSign f x1 x2 k)
    (hN : 2 ^ nExt * |x2 - x1| * (3 / 4) ^ N ≤ P.tol)
    (hK : 5 * (2 ^ nExt * |x2 - x1|) * (3 / 4) ^ K < P.tol)
    (hmax : (N + 1) * (K + 1) ≤ maxIter) :
    ∃ r ev, search f P nExt maxIter x1 x2 = .found r ev := by
  obtain ⟨lo, hi, h1, k, hk, h2, h3, h4⟩ := search_cases f P nExt maxIter x1 x2
  have hw : |hi - lo| ≤ 2 ^ nExt * |x2 - x1| := by
    rw [h2, abs_mul, abs_of_pos (by positivity : (0:ℝ) < 2 ^ k)]
    exact mul_le_mul_of_nonneg_right (pow_le_pow_right₀ (by norm_num) hk) (abs_nonneg _)
  have hpK : (0:ℝ) < (3 / 4) ^ K := by positivity
  have hpN : (0:ℝ) < (3 / 4) ^ N := by positivity
  have hK' : 5 / 2 * |hi - lo| * (3 / 4) ^ K < P.tol / 2 := by
    have := mul_le_mul_of_nonneg_right hw hpK.le
    nlinarith
  rcases h4 with ⟨ev', h5, h6, h7, h8⟩ | ⟨h6, s, hs, h5⟩
  · exfalso
    obtain ⟨j, hj, hn⟩ := hsg
    rcases lt_or_eq_of_le hj with h | h
    · exact hn (h3 j (by omega))
    · exact hn (by rw [h, ← h7]; exact h8)
  · rw [h5]
    have hp := (adjust_spec hs).1
    refine run_found htf ht K hK' N K maxIter s hs ?_ ?_ ?_
    · refine le_trans (mul_le_mul_of_nonneg_right ?_ hpN.le) hN
      exact le_trans (abs_le_of_mem hp.hbl hp.hcl) hw
    · refine lt_of_le_of_lt ?_ hK'
      exact mul_le_mul_of_nonneg_right (pot_le hp) hpK.le
    · have : (N + 1) * (K + 1) = N * (K + 1) + K + 1 := by ring
      omega

/-- Some iteration limit always suffices. -/
theorem search_converges (f : ℝ → ℝ) (P : Par) (nExt : ℕ) (x1 x2 : ℝ)
    (htf : 0 < P.tolf) (ht : 0 < P.tol) (hsg : ∃ k ≤ nExt, ¬ sameSign f x1 x2 k) :
    ∃ M, ∀ maxIter ≥ M, ∃ r ev, search f P nExt maxIter x1 x2 = .found r ev := by
  have key : ∀ B : ℝ, ∃ N : ℕ, B * (3 / 4) ^ N < P.tol := by
    intro B
    obtain ⟨N, hN⟩ := exists_pow_lt_of_lt_one (div_pos ht (by positivity : 0 < |B| + 1))
      (by norm_num : (3 / 4 : ℝ) < 1)
    refine ⟨N, ?_⟩
    rw [lt_div_iff₀ (by positivity)] at hN
    have h1 := le_abs_self B
    have : (0:ℝ) < (3 / 4) ^ N := by positivity
    nlinarith
  obtain ⟨N, hN⟩ := key (2 ^ nExt * |x2 - x1|)
  obtain ⟨K, hK⟩ := key (5 * (2 ^ nExt * |x2 - x1|))
  exact ⟨(N + 1) * (K + 1), fun m hm =>
    search_terminates f P nExt m N K x1 x2 htf ht.le hsg hN.le hK hm⟩

/-- **C19 (continuous functions).** For a continuous function the returned point meets the
function tolerance or lies within the position tolerance of an exact root. -/
theorem root_near (f : ℝ → ℝ) (hf : Continuous f) (P : Par) (nExt maxIter : ℕ) (x1 x2 r : ℝ)
    (ev : List ℝ) (htf : 0 < P.tolf) (ht : 0 ≤ P.tol)
    (h : search f P nExt maxIter x1 x2 = .found r ev) :
    |f r| < P.tolf ∨ ∃ z, f z = 0 ∧ |z - r| ≤ P.tol + 4 * (1 / 10 ^ 16) * |r| := by
  rcases root_certified f P nExt maxIter x1 x2 r ev htf ht h with h1 | ⟨c, _, h2, h3⟩
  · exact Or.inl h1
  · right
    have h0 : (0:ℝ) ∈ uIcc (f r) (f c) := by
      rw [mem_uIcc]
      rcases le_total (f r) 0 with hr | hr
      · by_cases hc : 0 ≤ f c
        · exact Or.inl ⟨hr, hc⟩
        · push Not at hc
          have : f r = 0 := by
            by_contra hne
            have := mul_pos_of_neg_of_neg (lt_of_le_of_ne hr hne) hc
            linarith
          exact Or.inr ⟨hc.le, this.ge⟩
      · by_cases hc : f c ≤ 0
        · exact Or.inr ⟨hc, hr⟩
        · push Not at hc
          have : f r = 0 := by
            by_contra hne
            have := mul_pos (lt_of_le_of_ne hr (Ne.symm hne)) hc
            linarith
          exact Or.inl ⟨this.le, hc.le⟩
    obtain ⟨z, hz, hz0⟩ := intermediate_value_uIcc (hf.continuousOn (s := uIcc r c)) h0
    refine ⟨z, hz0, le_trans ?_ h3⟩
    exact abs_le_of_mem left_mem_uIcc hz

/-- **C19 (volume search, negation of a guarantee).** When the iterations run out the volume
search still returns its last trial, although it meets neither tolerance: one iteration on
`x^3` in `[-1, 3]` returns `-6/7`, where the only root is `0` and the value is above `1/2`. -/
theorem volume_search_unconverged_return :
    ∃ b ev, volumeSearch (fun x => x ^ 3) (1 / 10 ^ 4) (1 / 10 ^ 4) 1 (-1) 3 = .exceeded b ev ∧
      1 / 2 < |b ^ 3| ∧ ∀ z : ℝ, z ^ 3 = 0 → 1 / 2 ≤ |b - z| := by
  refine ⟨-6 / 7, [-1, 3, -6 / 7], ?_, ?_, ?_⟩
  · have e : expand (fun x : ℝ => x ^ 3) 3 (-1) 3 [-1, 3] = (-1, 3, [-1, 3]) := by
      rw [expand, if_neg (by norm_num)]
    unfold volumeSearch search
    dsimp only
    rw [e]
    dsimp only
    rw [if_neg (by norm_num), run]
    have a1 : adjust2 (adjust1 { a := -1, b := 3, c := 3, fa := (-1) ^ 3, fb := 3 ^ 3, fc := 3 ^ 3, d := 0, e := 0, evals := [-1, 3] })
        = { a := 3, b := -1, c := 3, fa := 27, fb := -1, fc := 27, d := 4, e := 4, evals := [-1, 3] } := by
      norm_num [adjust1, adjust2]
    have st : newStep ⟨1 / 10 ^ 4, 1 / 10 ^ 4, true⟩ { a := 3, b := -1, c := 3, fa := 27, fb := -1, fc := 27, d := 4, e := 4, evals := [-1, 3] }
        = some (1 / 7, 4) := by
      norm_num [newStep, interp, xm, tol1, eps]
    unfold body
    dsimp only
    rw [a1, if_neg (by norm_num [xm, tol1, eps]), st]
    norm_num [tol1, eps, run]
  · norm_num
  · intro z hz
    have : z = 0 := by simpa using hz
    subst this; norm_num

/-- The hypotheses are met by `x ↦ x - 1` on `[0, 4]`, expanded or not. -/
example : ∃ M, ∀ m ≥ M, ∃ r ev,
    fermiSearch (fun x => x - 1) (1 / 10 ^ 10) m 4 0 = .found r ev :=
  search_converges _ _ _ _ _ eps_pos (by norm_num)
    ⟨0, by norm_num, by unfold sameSign; norm_num⟩

/-- A bracket without a sign change that is found after one enlargement: `x` on `[1, 3]`
becomes `[0, 4]`. -/
example : sameSign (fun x : ℝ => x - 1 / 2) 1 3 0 ∧ ¬ sameSign (fun x : ℝ => x - 1 / 2) 1 3 1 := by
  unfold sameSign; norm_num

/-- A run that really returns, at the first test, the end point where the function vanishes. -/
example : ∃ ev, volumeSearch (fun x => x - 3) 0 (1 / 10) 1 1 3 = .found 3 ev := by
  refine ⟨[1, 3], ?_⟩
  have e : expand (fun x : ℝ => x - 3) 3 1 3 [1, 3] = (1, 3, [1, 3]) := by
    rw [expand, if_neg (by norm_num)]
  unfold volumeSearch search
  dsimp only
  rw [e]
  dsimp only
  rw [if_neg (by norm_num)]
  rw [run]
  have : body (fun x : ℝ => x - 3) ⟨0, 1 / 10, true⟩
      { a := 1, b := 3, c := 3, fa := 1 - 3, fb := 3 - 3, fc := 3 - 3, d := 0, e := 0, evals := [1, 3] }
      = .found 3 [1, 3] := by
    have a1 : adjust2 (adjust1 { a := 1, b := 3, c := 3, fa := 1 - 3, fb := 3 - 3, fc := 3 - 3, d := 0, e := 0, evals := [1, 3] })
        = { a := 1, b := 3, c := 3, fa := 1 - 3, fb := 3 - 3, fc := 3 - 3, d := 0, e := 0, evals := [1, 3] } := by
      norm_num [adjust1, adjust2]
    unfold body
    dsimp only
    rw [a1]
    rw [if_pos (by right; norm_num)]
  rw [this]

end Sparc.Brent

import Verif.Brent.Model
import Verif.Tac
import Mathlib.Order.Interval.Set.UnorderedInterval
import Mathlib.Algebra.Order.Group.Unbundled.Abs
import Mathlib.Algebra.Order.Group.Pointwise.Interval

/-! Invariants of the root search. -/

namespace Sparc.Brent

open Set

/-- Invariant at the top of the loop. -/
structure Inv (f : ℝ → ℝ) (lo hi : ℝ) (s : St) : Prop where
  ha : s.fa = f s.a
  hb : s.fb = f s.b
  hc : s.fc = f s.c
  hsg : s.fa * s.fc ≤ 0
  hbt : s.b ∈ uIcc s.a s.c
  hal : s.a ∈ uIcc lo hi
  hcl : s.c ∈ uIcc lo hi
  hd : |s.d| ≤ |hi - lo|
  he : |s.e| ≤ |hi - lo|
  hev : ∀ x ∈ s.evals, x ∈ uIcc lo hi

/-- Invariant after the two adjustments. -/
structure Post (f : ℝ → ℝ) (lo hi : ℝ) (s : St) : Prop where
  ha : s.fa = f s.a
  hb : s.fb = f s.b
  hc : s.fc = f s.c
  hsg : s.fb * s.fc ≤ 0
  hle : |s.fb| ≤ |s.fc|
  hbl : s.b ∈ uIcc lo hi
  hcl : s.c ∈ uIcc lo hi
  hd : |s.d| ≤ |hi - lo|
  he : |s.e| ≤ |hi - lo|
  hev : ∀ x ∈ s.evals, x ∈ uIcc lo hi

theorem mem_trans {x a b lo hi : ℝ} (h : x ∈ uIcc a b) (ha : a ∈ uIcc lo hi)
    (hb : b ∈ uIcc lo hi) : x ∈ uIcc lo hi :=
  uIcc_subset_uIcc ha hb h

theorem abs_le_of_mem {x y lo hi : ℝ} (hx : x ∈ uIcc lo hi) (hy : y ∈ uIcc lo hi) :
    |y - x| ≤ |hi - lo| :=
  abs_sub_le_of_uIcc_subset_uIcc (uIcc_subset_uIcc hx hy)

theorem Inv.hbl {f lo hi s} (h : Inv f lo hi s) : s.b ∈ uIcc lo hi :=
  mem_trans h.hbt h.hal h.hcl

/-- Width after adjusting is the distance between `b` and the retained other end. -/
theorem adjust_spec {f lo hi s} (h : Inv f lo hi s) :
    Post f lo hi (adjust2 (adjust1 s)) ∧
    (adjust2 (adjust1 s)).evals = s.evals ∧
    ((((adjust2 (adjust1 s)).e = s.e ∧ (adjust2 (adjust1 s)).d = s.d) ∧
        |(adjust2 (adjust1 s)).c - (adjust2 (adjust1 s)).b| = |s.c - s.b|) ∨
      |(adjust2 (adjust1 s)).c - (adjust2 (adjust1 s)).b| = |s.b - s.a|) := by
  have key : ∀ t : St, t.fa = f t.a → t.fb = f t.b → t.fc = f t.c → t.fb * t.fc ≤ 0 →
      t.b ∈ uIcc lo hi → t.c ∈ uIcc lo hi → |t.d| ≤ |hi - lo| → |t.e| ≤ |hi - lo| →
      (∀ x ∈ t.evals, x ∈ uIcc lo hi) →
      Post f lo hi (adjust2 t) ∧ (adjust2 t).evals = t.evals ∧ (adjust2 t).e = t.e ∧
        (adjust2 t).d = t.d ∧ |(adjust2 t).c - (adjust2 t).b| = |t.c - t.b| := by
    intro t h1 h2 h3 h4 h5 h6 h7 h8 h9
    unfold adjust2
    split
    · rename_i hlt
      refine ⟨⟨h2, h3, h2, by simpa [mul_comm] using h4, le_of_lt hlt, h6, h5, h7, h8, h9⟩,
        rfl, rfl, rfl, abs_sub_comm _ _⟩
    · rename_i hlt
      exact ⟨⟨h1, h2, h3, h4, not_lt.mp hlt, h5, h6, h7, h8, h9⟩, rfl, rfl, rfl, rfl⟩
  by_cases hs : (s.fb > 0 ∧ s.fc > 0) ∨ (s.fb < 0 ∧ s.fc < 0)
  · have e1 : adjust1 s = { s with c := s.a, fc := s.fa, e := s.b - s.a, d := s.b - s.a } := by
      unfold adjust1; rw [if_pos hs]
    have hba : |s.b - s.a| ≤ |hi - lo| := abs_le_of_mem h.hal h.hbl
    have hsg : s.fb * s.fa ≤ 0 := by
      have := h.hsg
      rcases hs with ⟨p1, p2⟩ | ⟨p1, p2⟩
      · have : s.fa ≤ 0 := by
          by_contra hc; push Not at hc
          have := mul_pos hc p2; linarith
        nlinarith
      · have : 0 ≤ s.fa := by
          by_contra hc; push Not at hc
          have := mul_pos_of_neg_of_neg hc p2; linarith
        nlinarith
    obtain ⟨k1, k2, k3, k4, k5⟩ := key (adjust1 s) (by rw [e1]; exact h.ha)
      (by rw [e1]; exact h.hb) (by rw [e1]; exact h.ha) (by rw [e1]; exact hsg)
      (by rw [e1]; exact h.hbl) (by rw [e1]; exact h.hal) (by rw [e1]; exact hba)
      (by rw [e1]; exact hba) (by rw [e1]; exact h.hev)
    refine ⟨k1, by rw [k2, e1], Or.inr ?_⟩
    rw [k5, e1]; exact abs_sub_comm _ _
  · have e1 : adjust1 s = s := by unfold adjust1; rw [if_neg hs]
    have hsg : s.fb * s.fc ≤ 0 := by
      by_contra hc; push Not at hc
      rcases pos_and_pos_or_neg_and_neg_of_mul_pos hc with p | p
      · exact hs (Or.inl p)
      · exact hs (Or.inr p)
    obtain ⟨k1, k2, k3, k4, k5⟩ := key (adjust1 s) (by rw [e1]; exact h.ha)
      (by rw [e1]; exact h.hb) (by rw [e1]; exact h.hc) (by rw [e1]; exact hsg)
      (by rw [e1]; exact h.hbl) (by rw [e1]; exact h.hcl) (by rw [e1]; exact h.hd)
      (by rw [e1]; exact h.he) (by rw [e1]; exact h.hev)
    exact ⟨k1, by rw [k2, e1], Or.inl ⟨⟨by rw [k3, e1], by rw [k4, e1]⟩, by rw [k5, e1]⟩⟩

theorem eps_pos : 0 < eps := by unfold eps; positivity

theorem tol1_ge {P : Par} (s : St) : P.tol / 2 ≤ tol1 P s := by
  unfold tol1
  have := mul_nonneg (mul_nonneg (by norm_num : (0:ℝ) ≤ 2) eps_pos.le) (abs_nonneg s.b)
  linarith

/-- The step is either a bisection or an accepted interpolation, and never divides by zero. -/
theorem newStep_spec {f lo hi} {P : Par} {t : St} (h : Post f lo hi t) (htf : 0 < P.tolf)
    (ht : 0 ≤ P.tol) (hfb : P.tolf ≤ |t.fb|) :
    ∃ d e, newStep P t = some (d, e) ∧
      ((d = xm t ∧ e = xm t) ∨
        (tol1 P t ≤ |t.e| ∧ 0 ≤ d * xm t ∧ |d| < 3 / 2 * |xm t| ∧ 2 * |d| < |t.e| ∧ e = t.d)) := by
  have hfb0 : 0 < |t.fb| := lt_of_lt_of_le htf hfb
  have hfc0 : t.fc ≠ 0 := by
    have := lt_of_lt_of_le hfb0 h.hle
    exact abs_pos.mp this
  unfold newStep
  split
  · rename_i hc
    have hfa0 : t.fa ≠ 0 := abs_pos.mp (lt_trans hfb0 hc.2)
    have hi : ∃ p0 q0, interp t = some (p0, q0) := by
      unfold interp
      rw [if_neg hfa0]
      dsimp only
      split
      · exact ⟨_, _, rfl⟩
      · exact ⟨_, _, rfl⟩
    obtain ⟨p0, q0, hi⟩ := hi
    rw [hi]
    dsimp only
    generalize (if p0 > 0 then -q0 else q0) = q
    by_cases hlt : 2 * |p0| < (if 3 * xm t * q - |tol1 P t * q| < |t.e * q| then
        3 * xm t * q - |tol1 P t * q| else |t.e * q|)
    · rw [if_pos hlt]
      have ht1 : 0 ≤ tol1 P t := le_trans (by linarith) (tol1_ge t)
      have h1 : 2 * |p0| < 3 * xm t * q - |tol1 P t * q| := by
        refine lt_of_lt_of_le hlt ?_
        split
        · exact le_refl _
        · rename_i hh; exact not_lt.mp hh
      have h2 : 2 * |p0| < |t.e * q| := by
        refine lt_of_lt_of_le hlt ?_
        split
        · rename_i hh; exact hh.le
        · exact le_refl _
      have hxq : 0 < xm t * q := by
        have := abs_nonneg p0; have := abs_nonneg (tol1 P t * q); nlinarith
      have hq : q ≠ 0 := by
        rintro rfl; simp at hxq
      have hqp : 0 < |q| := abs_pos.mpr hq
      rw [if_neg hq]
      refine ⟨_, _, rfl, Or.inr ⟨hc.1, ?_, ?_, ?_, rfl⟩⟩
      · have : |p0| / q * xm t = |p0| * (xm t * q) / (q * q) := by field_simp
        rw [this]
        exact div_nonneg (mul_nonneg (abs_nonneg _) hxq.le) (mul_self_nonneg q)
      · rw [abs_div, abs_abs, div_lt_iff₀ hqp]
        have : |xm t| * |q| = xm t * q := by rw [← abs_mul, abs_of_pos hxq]
        have := abs_nonneg (tol1 P t * q)
        nlinarith
      · rw [abs_div, abs_abs]
        rw [abs_mul] at h2
        have : 2 * (|p0| / |q|) = 2 * |p0| / |q| := by ring
        rw [this, div_lt_iff₀ hqp]
        exact h2
    · rw [if_neg hlt]
      exact ⟨_, _, rfl, Or.inl ⟨rfl, rfl⟩⟩
  · exact ⟨_, _, rfl, Or.inl ⟨rfl, rfl⟩⟩

/-- Step really taken: towards `c`, shorter than three quarters of the bracket. -/
theorem move_mem {b c st : ℝ} (h1 : 0 ≤ st * ((1/2) * (c - b))) (h2 : |st| ≤ 3 / 4 * |c - b|) :
    b + st ∈ uIcc b c ∧ |c - (b + st)| = |c - b| - |st| := by
  rcases lt_trichotomy b c with h | h | h
  · have hs : 0 ≤ st := by
      by_contra hc; push Not at hc
      have : st * (1 / 2 * (c - b)) < 0 := mul_neg_of_neg_of_pos hc (by linarith)
      linarith
    rw [abs_of_nonneg hs] at *
    rw [abs_of_pos (by linarith : 0 < c - b)] at *
    rw [abs_of_nonneg (by linarith)]
    refine ⟨?_, by ring⟩
    rw [uIcc_of_le h.le]
    constructor <;> linarith
  · subst h
    have : st = 0 := by
      have : |st| ≤ 0 := by simpa using h2
      exact abs_eq_zero.mp (le_antisymm this (abs_nonneg _))
    subst this; simp
  · have hs : st ≤ 0 := by
      by_contra hc; push Not at hc
      have : st * (1 / 2 * (c - b)) < 0 := mul_neg_of_pos_of_neg hc (by linarith)
      linarith
    rw [abs_of_nonpos hs] at *
    rw [abs_of_neg (by linarith : c - b < 0)] at *
    rw [abs_of_nonpos (by linarith)]
    refine ⟨?_, by ring⟩
    rw [uIcc_of_ge h.le]
    constructor <;> linarith

/-- Size of the interpolation history. -/
noncomputable def pot (t : St) : ℝ := |t.e| + 3 / 2 * |t.d|

/-- Width of the bracket. -/
noncomputable def wid (t : St) : ℝ := |t.c - t.b|

/-- One pass of the loop either stops with a certified root or keeps the invariant and makes
progress. -/
theorem body_spec {f lo hi} {P : Par} {s : St} (h : Inv f lo hi s) (htf : 0 < P.tolf)
    (ht : 0 ≤ P.tol) :
    let t := adjust2 (adjust1 s)
    (∃ ev, body f P s = .found t.b ev ∧ ev = t.evals ∧
      (|t.fb| < P.tolf ∨ |xm t| ≤ tol1 P t)) ∨
    (∃ s', body f P s = .next s' ∧ Inv f lo hi s' ∧ tol1 P t < |xm t| ∧
      (wid (adjust2 (adjust1 s')) ≤ 3 / 4 * wid t ∨
        (wid (adjust2 (adjust1 s')) ≤ wid t ∧ P.tol / 2 ≤ pot t ∧
          pot (adjust2 (adjust1 s')) ≤ 3 / 4 * pot t))) := by
  intro t
  obtain ⟨hp, hev, _⟩ := adjust_spec h
  change Post f lo hi t at hp
  unfold body
  change (∃ ev, (if |xm t| ≤ tol1 P t ∨ |t.fb| < P.tolf then _ else _) = _ ∧ _) ∨ _
  by_cases hstop : |xm t| ≤ tol1 P t ∨ |t.fb| < P.tolf
  · left
    rw [if_pos hstop]
    exact ⟨_, rfl, rfl, hstop.symm⟩
  · right
    change ∃ s', (if |xm t| ≤ tol1 P t ∨ |t.fb| < P.tolf then _ else _) = _ ∧ _
    rw [if_neg hstop]
    push Not at hstop
    obtain ⟨hx, hfb⟩ := hstop
    obtain ⟨d, e, hns, hde⟩ := newStep_spec hp htf ht hfb
    rw [hns]
    dsimp only
    have ht1 : 0 ≤ tol1 P t := le_trans (by linarith) (tol1_ge t)
    have hxw : |xm t| = 1 / 2 * wid t := by
      unfold xm wid; rw [abs_mul, abs_of_pos (by norm_num : (0:ℝ) < 1/2)]
    have hw0 : 0 ≤ wid t := abs_nonneg _
    set st : ℝ := if |d| > tol1 P t then d else sign P (tol1 P t) (xm t) with hst
    have hb' : (if |d| > tol1 P t then t.b + d else t.b + sign P (tol1 P t) (xm t)) = t.b + st := by
      rw [hst]; split <;> rfl
    rw [hb']
    have hdx : 0 ≤ d * xm t ∧ |d| ≤ 3 / 4 * wid t := by
      rcases hde with ⟨h1, _⟩ | ⟨_, h1, h2, _, _⟩
      · subst h1; refine ⟨mul_self_nonneg _, ?_⟩; rw [hxw]; linarith
      · refine ⟨h1, ?_⟩; rw [hxw] at h2; linarith
    have hst1 : 0 ≤ st * xm t ∧ |st| ≤ 3 / 4 * wid t := by
      rw [hst]
      split
      · exact hdx
      · have hx0 : xm t ≠ 0 := abs_pos.mp (lt_of_le_of_lt ht1 hx)
        unfold sign
        rw [abs_of_nonneg ht1]
        have hmag : tol1 P t ≤ 3 / 4 * wid t := by rw [hxw] at hx; linarith
        split
        · rename_i hs
          have : 0 ≤ xm t := by
            rcases hs with hs | ⟨_, hs⟩
            · exact hs.le
            · exact hs.ge
          exact ⟨mul_nonneg ht1 this, by rw [abs_of_nonneg ht1]; exact hmag⟩
        · rename_i hs
          push Not at hs
          have := hs.1
          exact ⟨mul_nonneg_of_nonpos_of_nonpos (by linarith) this, by
            rw [abs_neg, abs_of_nonneg ht1]; exact hmag⟩
    obtain ⟨hmem, hwid⟩ := move_mem (b := t.b) (c := t.c) (st := st) hst1.1 hst1.2
    have hbc : wid t ≤ |hi - lo| := abs_le_of_mem hp.hbl hp.hcl
    have hInv : Inv f lo hi { t with a := t.b, fa := t.fb, d := d, e := e, b := t.b + st, fb := f (t.b + st), evals := t.evals ++ [t.b + st] } := by
      refine ⟨hp.hb, rfl, hp.hc, hp.hsg, hmem, hp.hbl, hp.hcl, ?_, ?_, ?_⟩
      · dsimp only; linarith [hdx.2]
      · dsimp only
        rcases hde with ⟨_, h1⟩ | ⟨_, _, _, _, h1⟩
        · rw [h1, hxw]; linarith
        · rw [h1]; exact hp.hd
      · intro x hx
        rcases List.mem_append.mp hx with hx | hx
        · exact hp.hev x hx
        · rw [List.mem_singleton.mp hx]; exact mem_trans hmem hp.hbl hp.hcl
    refine ⟨_, rfl, hInv, hx, ?_⟩
    obtain ⟨_, _, hcase⟩ := adjust_spec hInv
    rcases hcase with ⟨⟨he', hd'⟩, hw'⟩ | hw'
    · dsimp only at he' hd' hw'
      have hw'' : wid (adjust2 (adjust1 { t with a := t.b, fa := t.fb, d := d, e := e, b := t.b + st, fb := f (t.b + st), evals := t.evals ++ [t.b + st] })) = wid t - |st| := by
        unfold wid; rw [hw', hwid]
      rcases hde with ⟨h1, _⟩ | ⟨h0, h1, h2, h3, h4⟩
      · left
        rw [hw'']
        have : st = d := by rw [hst, if_pos]; rw [h1]; exact hx
        rw [this, h1, hxw]; linarith
      · right
        refine ⟨by rw [hw'']; linarith [abs_nonneg st], ?_, ?_⟩
        · have := tol1_ge (P := P) t
          unfold pot; linarith [abs_nonneg t.d]
        · unfold pot; rw [he', hd', h4]; linarith [abs_nonneg t.d]
    · left
      have : wid (adjust2 (adjust1 { t with a := t.b, fa := t.fb, d := d, e := e, b := t.b + st, fb := f (t.b + st), evals := t.evals ++ [t.b + st] })) = |st| := by
        unfold wid; rw [hw']; dsimp only; rw [add_sub_cancel_left]
      rw [this]; exact hst1.2

theorem pot_le {f lo hi} {t : St} (h : Post f lo hi t) : pot t ≤ 5 / 2 * |hi - lo| := by
  unfold pot; linarith [h.hd, h.he]

/-- What a finished run guarantees. -/
def Good (f : ℝ → ℝ) (P : Par) (lo hi : ℝ) : Out → Prop
  | .found r ev => r ∈ uIcc lo hi ∧ (∀ x ∈ ev, x ∈ uIcc lo hi) ∧
      (|f r| < P.tolf ∨ ∃ c ∈ uIcc lo hi, f r * f c ≤ 0 ∧ |c - r| ≤ P.tol + 4 * eps * |r|)
  | .exceeded r ev => r ∈ uIcc lo hi ∧ ∀ x ∈ ev, x ∈ uIcc lo hi
  | .noBracket _ => False
  | .divZero => False

theorem run_good {f lo hi} {P : Par} (htf : 0 < P.tolf) (ht : 0 ≤ P.tol) (n : ℕ) (s : St)
    (h : Inv f lo hi s) : Good f P lo hi (run f P n s) := by
  induction n generalizing s with
  | zero => exact ⟨h.hbl, h.hev⟩
  | succ n ih =>
    have hp := (adjust_spec h).1
    rcases body_spec h htf ht with ⟨ev, hb, hev, hres⟩ | ⟨s', hb, hi', _⟩
    · unfold run; rw [hb]
      subst hev
      refine ⟨hp.hbl, hp.hev, ?_⟩
      rcases hres with h1 | h1
      · left; rw [← hp.hb]; exact h1
      · right
        refine ⟨_, hp.hcl, by rw [← hp.hb, ← hp.hc]; exact hp.hsg, ?_⟩
        unfold xm tol1 at h1
        rw [abs_mul, abs_of_pos (by norm_num : (0:ℝ) < 1/2)] at h1
        linarith
    · unfold run; rw [hb]; exact ih s' hi'

theorem run_found {f lo hi} {P : Par} (htf : 0 < P.tolf) (ht : 0 ≤ P.tol) (K : ℕ)
    (hK : 5 / 2 * |hi - lo| * (3 / 4) ^ K < P.tol / 2) (n : ℕ) :
    ∀ (m fuel : ℕ) (s : St), Inv f lo hi s →
      wid (adjust2 (adjust1 s)) * (3 / 4) ^ n ≤ P.tol →
      pot (adjust2 (adjust1 s)) * (3 / 4) ^ m < P.tol / 2 →
      n * (K + 1) + m + 1 ≤ fuel → ∃ r ev, run f P fuel s = .found r ev := by
  induction n with
  | zero =>
    intro m fuel s h hw _ hf
    obtain ⟨fuel, rfl⟩ : ∃ k, fuel = k + 1 := ⟨fuel - 1, by omega⟩
    rcases body_spec h htf ht with ⟨ev, hb, _⟩ | ⟨s', hb, _, hx, _⟩
    · unfold run; rw [hb]; exact ⟨_, _, rfl⟩
    · exfalso
      have h1 := tol1_ge (P := P) (adjust2 (adjust1 s))
      have : |xm (adjust2 (adjust1 s))| = 1 / 2 * wid (adjust2 (adjust1 s)) := by
        unfold xm wid; rw [abs_mul, abs_of_pos (by norm_num : (0:ℝ) < 1/2)]
      simp only [pow_zero, mul_one] at hw
      linarith
  | succ n ihn =>
    intro m
    induction m with
    | zero =>
      intro fuel s h hw hpt hf
      obtain ⟨fuel, rfl⟩ : ∃ k, fuel = k + 1 := ⟨fuel - 1, by omega⟩
      rcases body_spec h htf ht with ⟨ev, hb, _⟩ | ⟨s', hb, hi', _, hprog⟩
      · unfold run; rw [hb]; exact ⟨_, _, rfl⟩
      · unfold run; rw [hb]
        dsimp only
        rcases hprog with h1 | ⟨_, h1, _⟩
        · refine ihn K fuel s' hi' ?_ ?_ ?_
          · refine le_trans ?_ hw
            rw [pow_succ]
            have : (0:ℝ) < (3/4)^n := by positivity
            nlinarith
          · refine lt_of_le_of_lt ?_ hK
            exact mul_le_mul_of_nonneg_right (pot_le (adjust_spec hi').1) (by positivity)
          · have : (n + 1) * (K + 1) = n * (K + 1) + (K + 1) := by ring
            omega
        · exfalso; simp only [pow_zero, mul_one] at hpt; linarith
    | succ m ihm =>
      intro fuel s h hw hpt hf
      obtain ⟨fuel, rfl⟩ : ∃ k, fuel = k + 1 := ⟨fuel - 1, by omega⟩
      rcases body_spec h htf ht with ⟨ev, hb, _⟩ | ⟨s', hb, hi', _, hprog⟩
      · unfold run; rw [hb]; exact ⟨_, _, rfl⟩
      · unfold run; rw [hb]
        dsimp only
        rcases hprog with h1 | ⟨h0, _, h1⟩
        · refine ihn K fuel s' hi' ?_ ?_ ?_
          · refine le_trans ?_ hw
            rw [pow_succ]
            have : (0:ℝ) < (3/4)^n := by positivity
            nlinarith
          · refine lt_of_le_of_lt ?_ hK
            exact mul_le_mul_of_nonneg_right (pot_le (adjust_spec hi').1) (by positivity)
          · have : (n + 1) * (K + 1) = n * (K + 1) + (K + 1) := by ring
            omega
        · refine ihm fuel s' hi' ?_ ?_ (by omega)
          · exact le_trans (mul_le_mul_of_nonneg_right h0 (by positivity)) hw
          · refine lt_of_le_of_lt ?_ hpt
            rw [pow_succ]
            have : (0:ℝ) < (3/4)^m := by positivity
            nlinarith

/-- The expanded bracket: same centre, at most `2^n` times as wide, contains all evaluated
points, and, when there was no sign change, was widened `n` times. -/
theorem expand_spec (f : ℝ → ℝ) (n : ℕ) (a b : ℝ) (ev : List ℝ)
    (hev : ∀ x ∈ ev, x ∈ uIcc a b) :
    let r := expand f n a b ev
    r.1 + r.2.1 = a + b ∧
    (∃ k ≤ n, r.2.1 - r.1 = 2 ^ k * (b - a) ∧ (f r.1 * f r.2.1 > 0 → k = n) ∧
      ∀ j < k, f ((a + b) / 2 - 2 ^ j * (b - a) / 2) * f ((a + b) / 2 + 2 ^ j * (b - a) / 2) > 0) ∧
    (∀ x ∈ r.2.2, x ∈ uIcc r.1 r.2.1) := by
  induction n generalizing a b ev with
  | zero => exact ⟨rfl, ⟨0, le_refl _, by simp [expand], fun _ => rfl, by simp⟩, hev⟩
  | succ n ih =>
    intro r
    by_cases hp : f a * f b > 0
    · have hr : r = expand f n (a - (b - a) / 2) (b + (b - a) / 2)
          (ev ++ [a - (b - a) / 2, b + (b - a) / 2]) := by
        change expand f (n + 1) a b ev = _
        rw [expand, if_pos hp]
      have hsub : ∀ x ∈ uIcc a b, x ∈ uIcc (a - (b - a) / 2) (b + (b - a) / 2) := by
        intro x hx
        rw [mem_uIcc] at hx ⊢
        rcases hx with ⟨h1, h2⟩ | ⟨h1, h2⟩
        · left; constructor <;> linarith
        · right; constructor <;> linarith
      obtain ⟨h1, ⟨k, hk, h2, h3, h5⟩, h4⟩ := ih (a - (b - a) / 2) (b + (b - a) / 2)
        (ev ++ [a - (b - a) / 2, b + (b - a) / 2]) (by
          intro x hx
          rcases List.mem_append.mp hx with hx | hx
          · exact hsub x (hev x hx)
          · simp only [List.mem_cons, List.not_mem_nil, or_false] at hx
            rcases hx with rfl | rfl
            · exact left_mem_uIcc
            · exact right_mem_uIcc)
      rw [← hr] at h1 h2 h3 h4
      refine ⟨by rw [h1]; ring, ⟨k + 1, by omega, by rw [h2]; ring, fun hh => by rw [h3 hh], ?_⟩, h4⟩
      intro j hj
      cases j with
      | zero =>
        have e1 : (a + b) / 2 - 2 ^ 0 * (b - a) / 2 = a := by ring
        have e2 : (a + b) / 2 + 2 ^ 0 * (b - a) / 2 = b := by ring
        rw [e1, e2]; exact hp
      | succ j =>
        have := h5 j (by omega)
        have e1 : (a - (b - a) / 2 + (b + (b - a) / 2)) / 2 - 2 ^ j * (b + (b - a) / 2 - (a - (b - a) / 2)) / 2
            = (a + b) / 2 - 2 ^ (j + 1) * (b - a) / 2 := by ring
        have e2 : (a - (b - a) / 2 + (b + (b - a) / 2)) / 2 + 2 ^ j * (b + (b - a) / 2 - (a - (b - a) / 2)) / 2
            = (a + b) / 2 + 2 ^ (j + 1) * (b - a) / 2 := by ring
        rw [e1, e2] at this
        exact this
    · have hr : r = (a, b, ev) := by
        change expand f (n + 1) a b ev = _
        unfold expand; rw [if_neg hp]
      rw [hr]
      exact ⟨rfl, ⟨0, by omega, by simp, fun h => absurd h hp, by simp⟩, hev⟩

end Sparc.Brent

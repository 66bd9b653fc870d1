import Verif.Ofdft.Model

/-!
# The line search of orbital-free density functional theory
-/

namespace Sparc.Ofdft

theorem tol1_pos {tol : ℝ} (ht : 0 ≤ tol) (s : BSt) : 0 < s.tol1 tol := by
  unfold BSt.tol1; positivity

/-- The interval, the points and the stored energies belong together. -/
structure Good (f : ℝ → ℝ) (o : BOut) : Prop where
  ha : 0 ≤ o.s.a
  hb : o.s.b ≤ 1
  hax : o.s.a < o.s.x
  hxb : o.s.x < o.s.b
  hfx : o.s.fx = f o.s.x
  hmem : o.s.x ∈ o.pts
  hin : ∀ p ∈ o.pts, 0 < p ∧ p < 1
  hmin : ∀ p ∈ o.pts, f o.s.x ≤ f p
  hlen : o.iter = o.pts.length

theorem not_done {tol : ℝ} {s : BSt} (h : ¬ s.done tol) (hx : s.xm ≤ s.x) : 2 * s.tol1 tol < s.x - s.a := by
  unfold BSt.done at h; unfold BSt.xm at *
  rw [abs_of_nonneg (by linarith)] at h; norm_num at *; linarith

theorem not_done' {tol : ℝ} {s : BSt} (h : ¬ s.done tol) (hx : s.x ≤ s.xm) : 2 * s.tol1 tol < s.b - s.x := by
  unfold BSt.done at h; unfold BSt.xm at *
  rw [abs_of_nonpos (by linarith)] at h; norm_num at *; linarith

theorem of_len {tol : ℝ} (ht : 0 ≤ tol) {s : BSt} {d : ℝ}
    (h1 : s.a < s.x + d) (h2 : s.x + d < s.b)
    (h3 : d ≥ 0 → |d| < s.tol1 tol → s.x + s.tol1 tol < s.b)
    (h4 : d < 0 → |d| < s.tol1 tol → s.a < s.x - s.tol1 tol) :
    let u := if |d| ≥ s.tol1 tol then s.x + d else s.x + (if d ≥ 0 then |s.tol1 tol| else -|s.tol1 tol|)
    s.a < s.x → s.x < s.b → s.a < u ∧ u < s.b ∧ s.tol1 tol ≤ |u - s.x| := by
  intro u hax hxb
  have htp := tol1_pos ht s
  simp only [u]
  by_cases hd : |d| ≥ s.tol1 tol
  · rw [if_pos hd]; refine ⟨h1, h2, ?_⟩
    rw [add_sub_cancel_left]; exact hd
  · rw [if_neg hd]; rw [not_le] at hd
    by_cases h0 : d ≥ 0
    · rw [if_pos h0, abs_of_pos htp]; refine ⟨by linarith, h3 h0 hd, ?_⟩
      rw [add_sub_cancel_left, abs_of_pos htp]
    · rw [if_neg h0, abs_of_pos htp]; rw [not_le] at h0
      refine ⟨by linarith [h4 h0 hd], by linarith, ?_⟩
      rw [add_sub_cancel_left, abs_neg, abs_of_pos htp]

theorem golden_case {tol : ℝ} (ht : 0 ≤ tol) {s : BSt} (hd : ¬ s.done tol) (hax : s.a < s.x) (hxb : s.x < s.b) :
    let d := (golden s).1
    s.a < s.x + d ∧ s.x + d < s.b ∧ (d ≥ 0 → |d| < s.tol1 tol → s.x + s.tol1 tol < s.b) ∧
    (d < 0 → |d| < s.tol1 tol → s.a < s.x - s.tol1 tol) := by
  have htp := tol1_pos ht s
  simp only [golden]
  by_cases hx : s.xm ≤ s.x
  · have := not_done hd hx
    simp only [if_pos hx]
    norm_num
    refine ⟨by linarith, by linarith, fun h => by linarith, fun _ _ => by linarith⟩
  · have := not_done' hd (le_of_not_ge hx)
    simp only [if_neg hx]
    norm_num
    refine ⟨by linarith, by linarith, fun _ _ => by linarith, fun h => by linarith⟩

theorem trial_spec {tol : ℝ} (ht : 0 ≤ tol) {s : BSt} (hd : ¬ s.done tol) (hax : s.a < s.x) (hxb : s.x < s.b) :
    s.a < trial tol s ∧ trial tol s < s.b ∧ s.tol1 tol ≤ |trial tol s - s.x| := by
  have htp := tol1_pos ht s
  suffices h : s.a < s.x + (stepLen tol s).1 ∧ s.x + (stepLen tol s).1 < s.b ∧
      ((stepLen tol s).1 ≥ 0 → |(stepLen tol s).1| < s.tol1 tol → s.x + s.tol1 tol < s.b) ∧
      ((stepLen tol s).1 < 0 → |(stepLen tol s).1| < s.tol1 tol → s.a < s.x - s.tol1 tol) from
    of_len ht h.1 h.2.1 h.2.2.1 h.2.2.2 hax hxb
  have hg := golden_case ht hd hax hxb
  unfold stepLen
  dsimp only
  split
  · generalize (s.x - s.w) * (s.fx - s.fv) = r
    generalize (s.x - s.v) * (s.fx - s.fw) = q0
    generalize (s.x - s.v) * q0 - (s.x - s.w) * r = p0
    generalize (if 2 * (q0 - r) > 0 then -p0 else p0) = p
    have hq : 0 ≤ |2 * (q0 - r)| := abs_nonneg _
    generalize |2 * (q0 - r)| = q at hq ⊢
    split
    · exact hg
    · rename_i hp
      push Not at hp
      obtain ⟨hp1, hp2, hp3⟩ := hp
      have hq0 : 0 < q := by
        rcases hq.lt_or_eq with h | h
        · exact h
        · rw [← h] at hp2 hp3; simp at hp2 hp3; linarith
      have hl : s.a < s.x + p / q := by
        have : s.a - s.x < p / q := by rw [lt_div_iff₀ hq0]; linarith
        linarith
      have hu : s.x + p / q < s.b := by
        have : p / q < s.b - s.x := by rw [div_lt_iff₀ hq0]; linarith
        linarith
      split
      · rename_i hc
        dsimp only
        rw [abs_of_pos htp]
        by_cases hx : s.xm - s.x ≥ 0
        · have := not_done' hd (by linarith : s.x ≤ s.xm)
          rw [if_pos hx, abs_of_pos htp]
          exact ⟨by linarith, by linarith, fun _ _ => by linarith, fun h => by linarith⟩
        · have := not_done hd (by linarith : s.xm ≤ s.x)
          rw [if_neg hx, abs_neg, abs_of_pos htp]
          exact ⟨by linarith, by linarith, fun h => by linarith, fun _ _ => by linarith⟩
      · rename_i hc
        push Not at hc
        exact ⟨hl, hu, fun h _ => by dsimp only at h ⊢; linarith [hc.2], fun h _ => by dsimp only at h ⊢; linarith [hc.1]⟩
  · exact hg

theorem update_x (s : BSt) (d e u fu : ℝ) :
    (fu ≤ s.fx → (update s d e u fu).x = u ∧ (update s d e u fu).fx = fu ∧
      (update s d e u fu).a = (if u ≥ s.x then s.x else s.a) ∧
      (update s d e u fu).b = (if u ≥ s.x then s.b else s.x)) ∧
    (¬ fu ≤ s.fx → (update s d e u fu).x = s.x ∧ (update s d e u fu).fx = s.fx ∧
      (update s d e u fu).a = (if u < s.x then u else s.a) ∧
      (update s d e u fu).b = (if u < s.x then s.b else u)) := by
  constructor
  · intro h; unfold update; rw [if_pos h]; exact ⟨rfl, rfl, rfl, rfl⟩
  · intro h; unfold update; rw [if_neg h]; dsimp only
    split
    · exact ⟨rfl, rfl, rfl, rfl⟩
    · split
      · exact ⟨rfl, rfl, rfl, rfl⟩
      · exact ⟨rfl, rfl, rfl, rfl⟩

/-- The next state of a pass that does not end the search. -/
noncomputable def nxt (f : ℝ → ℝ) (tol : ℝ) (o : BOut) : BOut :=
  ⟨update o.s (stepLen tol o.s).1 (stepLen tol o.s).2 (trial tol o.s) (f (trial tol o.s)),
    trial tol o.s :: o.pts, o.iter + 1⟩

theorem nxt_good {f : ℝ → ℝ} {tol : ℝ} (ht : 0 ≤ tol) {o : BOut} (h : Good f o) (hd : ¬ o.s.done tol) :
    Good f (nxt f tol o) := by
  obtain ⟨h1, h2, h3⟩ := trial_spec ht hd h.hax h.hxb
  have htp := tol1_pos ht o.s
  have hne : trial tol o.s ≠ o.s.x := by
    intro he; rw [he, sub_self, abs_zero] at h3; linarith
  have hx := update_x o.s (stepLen tol o.s).1 (stepLen tol o.s).2 (trial tol o.s) (f (trial tol o.s))
  have hp : ∀ p ∈ trial tol o.s :: o.pts, 0 < p ∧ p < 1 := by
    intro p hp
    rcases List.mem_cons.1 hp with rfl | hp
    · exact ⟨by linarith [h.ha], by linarith [h.hb]⟩
    · exact h.hin p hp
  by_cases hf : f (trial tol o.s) ≤ o.s.fx
  · obtain ⟨e1, e2, e3, e4⟩ := hx.1 hf
    refine ⟨?_, ?_, ?_, ?_, ?_, ?_, hp, ?_, ?_⟩
    · show 0 ≤ (update _ _ _ _ _).a
      rw [e3]; split <;> linarith [h.ha, h.hax]
    · show (update _ _ _ _ _).b ≤ 1
      rw [e4]; split <;> linarith [h.hb, h.hxb]
    · show (update _ _ _ _ _).a < (update _ _ _ _ _).x
      rw [e3, e1]; split
      · rename_i hc; exact lt_of_le_of_ne hc (Ne.symm hne)
      · exact h1
    · show (update _ _ _ _ _).x < (update _ _ _ _ _).b
      rw [e4, e1]; split
      · exact h2
      · rename_i hc; exact not_le.1 hc
    · show (update _ _ _ _ _).fx = f (update _ _ _ _ _).x
      rw [e1, e2]
    · show (update _ _ _ _ _).x ∈ _
      rw [e1]; exact List.mem_cons_self
    · intro p hp'
      show f (update _ _ _ _ _).x ≤ f p
      rw [e1]
      rcases List.mem_cons.1 hp' with rfl | hp'
      · exact le_refl _
      · exact le_trans (h.hfx ▸ hf) (h.hmin p hp')
    · show o.iter + 1 = _
      rw [h.hlen]; rfl
  · obtain ⟨e1, e2, e3, e4⟩ := hx.2 hf
    refine ⟨?_, ?_, ?_, ?_, ?_, ?_, hp, ?_, ?_⟩
    · show 0 ≤ (update _ _ _ _ _).a
      rw [e3]; split <;> linarith [h.ha]
    · show (update _ _ _ _ _).b ≤ 1
      rw [e4]; split <;> linarith [h.hb]
    · show (update _ _ _ _ _).a < (update _ _ _ _ _).x
      rw [e3, e1]; split
      · rename_i hc; exact hc
      · exact h.hax
    · show (update _ _ _ _ _).x < (update _ _ _ _ _).b
      rw [e4, e1]; split
      · exact h.hxb
      · rename_i hc; exact lt_of_le_of_ne (not_lt.1 hc) (Ne.symm hne)
    · show (update _ _ _ _ _).fx = f (update _ _ _ _ _).x
      rw [e1, e2]; exact h.hfx
    · show (update _ _ _ _ _).x ∈ _
      rw [e1]; exact List.mem_cons_of_mem _ h.hmem
    · intro p hp'
      show f (update _ _ _ _ _).x ≤ f p
      rw [e1]
      rcases List.mem_cons.1 hp' with rfl | hp'
      · rw [← h.hfx]; exact le_of_lt (not_le.1 hf)
      · exact h.hmin p hp'
    · show o.iter + 1 = _
      rw [h.hlen]; rfl

theorem loop_induct {f : ℝ → ℝ} {tol : ℝ} {P : BOut → Prop}
    (hs : ∀ o, P o → ¬ o.s.done tol → P (nxt f tol o)) :
    ∀ k o, P o → P (brentLoop f tol k o)
  | 0, _, h => h
  | k + 1, o, h => by
    unfold brentLoop
    split
    · exact h
    · rename_i hd
      exact loop_induct hs k _ (hs o h hd)

/-- The state the search begins with. -/
noncomputable def start (f : ℝ → ℝ) : BOut :=
  ⟨⟨0, 1, 0, 0, 0.5, 0.5, 0.5, f 0.5, f 0.5, f 0.5⟩, [0.5], 1⟩

theorem start_good (f : ℝ → ℝ) : Good f (start f) := by
  refine ⟨?_, ?_, ?_, ?_, rfl, ?_, ?_, ?_, rfl⟩ <;> simp [start] <;> norm_num

theorem brent_good (f : ℝ → ℝ) {tol : ℝ} (ht : 0 ≤ tol) : Good f (brent f tol) :=
  loop_induct (fun _ h hd => nxt_good ht h hd) 99 _ (start_good f)

theorem loop_iter (f : ℝ → ℝ) (tol : ℝ) : ∀ k o, (brentLoop f tol k o).iter ≤ o.iter + k ∧
    ((brentLoop f tol k o).iter < o.iter + k → (brentLoop f tol k o).s.done tol)
  | 0, o => ⟨le_refl _, fun h => absurd h (lt_irrefl _)⟩
  | k + 1, o => by
    unfold brentLoop
    split
    · rename_i hd; exact ⟨by omega, fun _ => hd⟩
    · rename_i hd
      obtain ⟨h1, h2⟩ := loop_iter f tol k
        ⟨update o.s (stepLen tol o.s).1 (stepLen tol o.s).2 (trial tol o.s) (f (trial tol o.s)),
          trial tol o.s :: o.pts, o.iter + 1⟩
      dsimp only at h1 h2 ⊢
      exact ⟨by omega, fun h => h2 (by omega)⟩

end Sparc.Ofdft

import Verif.Pchg.Image
import Mathlib.Algebra.BigOperators.Fin

/-!
# Pseudocharge densities: sums over images and processes
-/

namespace Sparc.Pchg

open Loop Lap Finset

/-! ### Lists of images -/

theorem images_spec {E : Env} {G : Infl.Geo} {dist : ℝ × ℝ × ℝ → ℝ × ℝ × ℝ → ℝ}
    {op : Fun3 → Fun3} (hC : Cell E (spacing G) dist op) (S : Spec) (recs : List Infl.Rec)
    (hg : ∀ R ∈ recs, Good G R) (s : St) : ∃ s', images E G S (some s) recs = some s' ∧
      ∀ (get : St → ℝ) (c : Infl.Rec → ℝ),
        (∀ R ∈ recs, ∀ s s', image E G S s R = some s' → get s' = get s + c R) →
        get s' = get s + (recs.map c).sum := by
  induction recs generalizing s with
  | nil => exact ⟨s, rfl, fun get c _ => by simp⟩
  | cons R recs ih =>
    obtain ⟨s1, h1, -⟩ := image_spec hC S s (hg R List.mem_cons_self)
    obtain ⟨s2, h2, h3⟩ := ih (fun R' h' => hg R' (List.mem_cons_of_mem _ h')) s1
    refine ⟨s2, ?_, ?_⟩
    · unfold images at h2 ⊢
      rw [List.foldl_cons, Option.bind_some, h1, h2]
    · intro get c h
      rw [h3 get c fun R' h' => h R' (List.mem_cons_of_mem _ h'),
        h R List.mem_cons_self s s1 h1, List.map_cons, List.sum_cons]
      ring

theorem types_spec {E : Env} {G : Infl.Geo} {dist : ℝ × ℝ × ℝ → ℝ × ℝ × ℝ → ℝ}
    {op : Fun3 → Fun3} (hC : Cell E (spacing G) dist op) (l : List (Spec × List Infl.Rec))
    (hg : ∀ p ∈ l, ∀ R ∈ p.2, Good G R) (s : St) :
    ∃ s', l.foldl (fun s p => images E G p.1 s p.2) (some s) = some s' ∧
      ∀ (get : St → ℝ) (c : Spec → Infl.Rec → ℝ),
        (∀ p ∈ l, ∀ R ∈ p.2, ∀ s s', image E G p.1 s R = some s' → get s' = get s + c p.1 R) →
        get s' = get s + (l.map fun p => (p.2.map (c p.1)).sum).sum := by
  induction l generalizing s with
  | nil => exact ⟨s, rfl, fun get c _ => by simp⟩
  | cons p l ih =>
    obtain ⟨s1, h1, h1'⟩ := images_spec hC p.1 p.2 (hg p List.mem_cons_self) s
    obtain ⟨s2, h2, h3⟩ := ih (fun p' h' => hg p' (List.mem_cons_of_mem _ h')) s1
    refine ⟨s2, ?_, ?_⟩
    · rw [List.foldl_cons, h1, h2]
    · intro get c h
      rw [h3 get c fun p' h' => h p' (List.mem_cons_of_mem _ h'),
        h1' get (c p.1) (h p List.mem_cons_self), List.map_cons, List.sum_cons]
      ring

/-! ### Specification of the sums -/

/-- The index of the first atom of type `t`. -/
def first (Ts : List (Spec × Infl.Typ)) (t : ℕ) : ℕ := ((Ts.take t).map fun p => p.2.n).sum

open Classical in
/-- The sum of `f` over all types, all atoms `J` of a type and all images of the atom whose box
of half-widths `CUTOFF_x/y/z` contains the node `n`. -/
noncomputable def overImages (G : Infl.Geo) (Ts : List (Spec × Infl.Typ)) (pos : ℕ → ℝ)
    (n : ℤ × ℤ × ℤ) (f : Spec → ℕ → ℝ × ℝ × ℝ → ℝ) : ℝ :=
  ∑ t : Fin Ts.length, ∑ J ∈ Ico (first Ts t) (first Ts t + Ts[t].2.n),
    ∑ᶠ v, if Infl.Allowed G v ∧ Infl.InBox G Ts[t].2 n (Infl.image G pos J v)
      then f Ts[t].1 J (Infl.image G pos J v) else 0

/-- What is assumed about a process: its share of the grid is not empty, lies in the cell in the
periodic directions, and the spacings and lengths are positive. -/
structure Proc (G : Infl.Geo) : Prop where
  X : Infl.Held G.X
  Y : Infl.Held G.Y
  Z : Infl.Held G.Z
  x : G.X.lo ≤ G.X.hi
  y : G.Y.lo ≤ G.Y.hi
  z : G.Z.lo ≤ G.Z.hi

/-- The influencing atoms of a process, one list for each type. -/
noncomputable def lists (G : Infl.Geo) (Ts : List (Spec × Infl.Typ)) (pos spin : ℕ → ℝ) :
    List (List Infl.Rec) :=
  (Infl.influence G (Ts.map Prod.snd) pos spin).out.map Prod.snd

/-- The boxes of an atom type. -/
def Wide (Ts : List (Spec × Infl.Typ)) : Prop :=
  ∀ p ∈ Ts, 0 ≤ p.2.rbx ∧ 0 ≤ p.2.rby ∧ 0 ≤ p.2.rbz

open Classical in
theorem lists_at {G : Infl.Geo} (hG : Proc G) (Ts : List (Spec × Infl.Typ)) (hT : Wide Ts)
    (pos spin : ℕ → ℝ) (t : Fin Ts.length) :
    ∃ recs, (lists G Ts pos spin)[(t : ℕ)]? = some recs ∧
      (∀ R ∈ recs, Good G R ∧
        R.spin = (spin (3 * R.idx), spin (3 * R.idx + 1), spin (3 * R.idx + 2))) ∧
      ∀ (f : ℕ → ℝ × ℝ × ℝ → ℝ), ∀ n ∈ Infl.domain G,
        (recs.map fun R => if Infl.InRec R n then f R.idx (R.x, R.y, R.z) else 0).sum =
          ∑ J ∈ Ico (first Ts t) (first Ts t + Ts[t].2.n),
            ∑ᶠ v, if Infl.Allowed G v ∧ Infl.InBox G Ts[t].2 n (Infl.image G pos J v)
              then f J (Infl.image G pos J v) else 0 := by
  have ht : (Ts.map Prod.snd)[(t : ℕ)]? = some Ts[t].2 := by
    rw [List.getElem?_map, List.getElem?_eq_getElem t.2]
    rfl
  have hw := hT Ts[t] (List.getElem_mem _)
  obtain ⟨r1, h1, h1'⟩ := Infl.influencing_sum hG.X hG.Y hG.Z (Ts.map Prod.snd) pos spin t _ ht
  obtain ⟨r2, h2, h2'⟩ := Infl.influencing_record hG.X hG.Y hG.Z hG.x hG.y hG.z (Ts.map Prod.snd)
    pos spin t _ ht hw.1 hw.2.1 hw.2.2
  have e : r1 = r2 := (Prod.mk.inj (Option.some.inj (h1.symm.trans h2))).2
  subst e
  refine ⟨r1, ?_, ?_, ?_⟩
  · unfold lists
    rw [List.getElem?_map, h1]
    rfl
  · intro R hR
    obtain ⟨-, -, hs, hx, hy, hz⟩ := h2' R hR
    exact ⟨⟨hx, hy, hz⟩, hs⟩
  · intro f n hn
    rw [h1' ℝ f n hn]
    unfold first
    rw [← List.map_take, List.map_map]
    rfl

open Classical in
/-- The types with their lists, in order. -/
theorem zip_eq {G : Infl.Geo} (hG : Proc G) (Ts : List (Spec × Infl.Typ)) (hT : Wide Ts)
    (pos spin : ℕ → ℝ) : ∃ l : List (Spec × List Infl.Rec),
      (Ts.map Prod.fst).zip (lists G Ts pos spin) = l ∧
      (∀ p ∈ l, ∀ R ∈ p.2, Good G R ∧
        R.spin = (spin (3 * R.idx), spin (3 * R.idx + 1), spin (3 * R.idx + 2))) ∧
      ∀ (f : Spec → ℕ → ℝ × ℝ × ℝ → ℝ), ∀ n ∈ Infl.domain G,
        (l.map fun p => (p.2.map fun R =>
          if Infl.InRec R n then f p.1 R.idx (R.x, R.y, R.z) else 0).sum).sum =
          overImages G Ts pos n f := by
  choose r h1 h2 h3 using lists_at hG Ts hT pos spin
  have e : (Ts.map Prod.fst).zip (lists G Ts pos spin) =
      List.ofFn fun t : Fin Ts.length => (Ts[t].1, r t) := by
    refine List.ext_getElem? fun i => ?_
    rw [List.getElem?_ofFn]
    by_cases hi : i < Ts.length
    · rw [dif_pos hi, List.getElem?_zip_eq_some]
      refine ⟨?_, h1 ⟨i, hi⟩⟩
      rw [List.getElem?_map, List.getElem?_eq_getElem hi]
      rfl
    · rw [dif_neg hi, List.getElem?_eq_none]
      rw [List.length_zip, List.length_map]
      omega
  refine ⟨_, rfl, ?_, ?_⟩
  · rw [e]
    intro p hp R hR
    rw [List.mem_ofFn] at hp
    obtain ⟨t, rfl⟩ := hp
    exact h2 t R hR
  · intro f n hn
    rw [e, List.map_ofFn, List.sum_ofFn]
    unfold overImages
    refine Finset.sum_congr rfl fun t _ => ?_
    exact h3 t (f Ts[t].1) n hn

theorem list_sum_comm {α β : Type} (l : List α) (D : Finset β) (g : α → β → ℝ) :
    (l.map fun a => ∑ n ∈ D, g a n).sum = ∑ n ∈ D, (l.map fun a => g a n).sum := by
  induction l with
  | nil => simp
  | cons a l ih => simp only [List.map_cons, List.sum_cons, ih, Finset.sum_add_distrib]

/-- The state of a process after the loops over types and images. -/
theorem accumulate_spec {E : Env} {G : Infl.Geo} {dist : ℝ × ℝ × ℝ → ℝ × ℝ × ℝ → ℝ}
    {op : Fun3 → Fun3} (hC : Cell E (spacing G) dist op) (hG : Proc G)
    (Ts : List (Spec × Infl.Typ)) (hT : Wide Ts) (pos spin : ℕ → ℝ) :
    ∃ s, accumulate E G (Ts.map Prod.fst) (lists G Ts pos spin) = some s ∧
      (∀ n ∈ Infl.domain G,
        s.b (place G n) = overImages G Ts pos n (fun S _ c =>
          -inv4pi * op (field G dist (vj S) c) n.1 n.2.1 n.2.2) ∧
        s.bref (place G n) = overImages G Ts pos n (fun S _ c =>
          -inv4pi * op (field G dist (vref E.rcut (-S.Z)) c) n.1 n.2.1 n.2.2) ∧
        s.Vc (place G n) = overImages G Ts pos n (fun S _ c =>
          vref E.rcut (-S.Z) (dist (pt G n) c) - vj S (dist (pt G n) c)) ∧
        s.at_ (place G n) = overImages G Ts pos n (fun S _ c => rhoj S (dist (pt G n) c)) ∧
        s.core (place G n) = overImages G Ts pos n (fun S _ c => rhocj S (dist (pt G n) c)) ∧
        s.magx (place G n) = overImages G Ts pos n (fun S J c =>
          if E.spin = 2 then spin (3 * J) / S.Z * rhoj S (dist (pt G n) c) else 0) ∧
        s.magy (place G n) = overImages G Ts pos n (fun S J c =>
          if E.spin = 2 then spin (3 * J + 1) / S.Z * rhoj S (dist (pt G n) c) else 0) ∧
        s.magz (place G n) = overImages G Ts pos n (fun S J c =>
          if E.spin = 1 ∨ E.spin = 2 then
            spin (3 * J + 2) / S.Z * rhoj S (dist (pt G n) c) else 0)) ∧
      s.Esc = -∑ n ∈ Infl.domain G, overImages G Ts pos n (fun S _ c =>
        -inv4pi * op (field G dist (vref E.rcut (-S.Z)) c) n.1 n.2.1 n.2.2
          * vref E.rcut (-S.Z) (dist (pt G n) c)) := by
  classical
  obtain ⟨l, hl, hR, hs⟩ := zip_eq hG Ts hT pos spin
  obtain ⟨s, h1, h2⟩ := types_spec hC l (fun p hp R h => (hR p hp R h).1) zero
  refine ⟨s, by unfold accumulate; rw [hl, h1], ?_, ?_⟩
  · intro n hn
    have key : ∀ (get : St → ℝ) (f : Spec → ℕ → ℝ × ℝ × ℝ → ℝ), get zero = 0 →
        (∀ p ∈ l, ∀ R ∈ p.2, ∀ s s', image E G p.1 s R = some s' → get s' = get s +
          if Infl.InRec R n then f p.1 R.idx (R.x, R.y, R.z) else 0) →
        get s = overImages G Ts pos n f := by
      intro get f h0 h
      rw [h2 get (fun S R => if Infl.InRec R n then f S R.idx (R.x, R.y, R.z) else 0) h, h0,
        zero_add, hs f n hn]
    refine ⟨?_, ?_, ?_, ?_, ?_, ?_, ?_, ?_⟩
    · refine key (fun s => s.b (place G n)) _ rfl fun p hp R h s s' e => ?_
      obtain ⟨s'', e', h', -⟩ := image_spec hC p.1 s (hR p hp R h).1
      rw [e] at e'
      cases e'
      have := (h' n hn).1
      exact this
    · refine key (fun s => s.bref (place G n)) _ rfl fun p hp R h s s' e => ?_
      obtain ⟨s'', e', h', -⟩ := image_spec hC p.1 s (hR p hp R h).1
      rw [e] at e'
      cases e'
      have := (h' n hn).2.1
      exact this
    · refine key (fun s => s.Vc (place G n)) _ rfl fun p hp R h s s' e => ?_
      obtain ⟨s'', e', h', -⟩ := image_spec hC p.1 s (hR p hp R h).1
      rw [e] at e'
      cases e'
      have := (h' n hn).2.2.1
      exact this
    · refine key (fun s => s.at_ (place G n)) _ rfl fun p hp R h s s' e => ?_
      obtain ⟨s'', e', h', -⟩ := image_spec hC p.1 s (hR p hp R h).1
      rw [e] at e'
      cases e'
      have := (h' n hn).2.2.2.1
      exact this
    · refine key (fun s => s.core (place G n)) _ rfl fun p hp R h s s' e => ?_
      obtain ⟨s'', e', h', -⟩ := image_spec hC p.1 s (hR p hp R h).1
      rw [e] at e'
      cases e'
      have := (h' n hn).2.2.2.2.1
      exact this
    · refine key (fun s => s.magx (place G n)) _ rfl fun p hp R h s s' e => ?_
      obtain ⟨s'', e', h', -⟩ := image_spec hC p.1 s (hR p hp R h).1
      rw [e] at e'
      cases e'
      have := (h' n hn).2.2.2.2.2.1
      rwa [(hR p hp R h).2] at this
    · refine key (fun s => s.magy (place G n)) _ rfl fun p hp R h s s' e => ?_
      obtain ⟨s'', e', h', -⟩ := image_spec hC p.1 s (hR p hp R h).1
      rw [e] at e'
      cases e'
      have := (h' n hn).2.2.2.2.2.2.1
      rwa [(hR p hp R h).2] at this
    · refine key (fun s => s.magz (place G n)) _ rfl fun p hp R h s s' e => ?_
      obtain ⟨s'', e', h', -⟩ := image_spec hC p.1 s (hR p hp R h).1
      rw [e] at e'
      cases e'
      have := (h' n hn).2.2.2.2.2.2.2
      rwa [(hR p hp R h).2] at this
  · have := h2 St.Esc (fun S R => -∑ n ∈ Infl.domain G, if Infl.InRec R n then
        -inv4pi * op (field G dist (vref E.rcut (-S.Z)) (R.x, R.y, R.z)) n.1 n.2.1 n.2.2
          * vref E.rcut (-S.Z) (dist (pt G n) (R.x, R.y, R.z)) else 0) (by
      intro p hp R h s s' e
      obtain ⟨s'', e', -, h'⟩ := image_spec hC p.1 s (hR p hp R h).1
      rw [e] at e'
      cases e'
      rw [h', sub_eq_add_neg])
    rw [this]
    simp only [← Finset.sum_neg_distrib]
    simp only [list_sum_comm]
    rw [show zero.Esc = 0 from rfl, zero_add]
    refine Finset.sum_congr rfl fun n hn => ?_
    rw [← hs _ n hn]
    have neg : ∀ (α : Type) (l : List α) (g : α → ℝ), (l.map fun a => -g a).sum = -(l.map g).sum := by
      intro α l g
      induction l with
      | nil => simp
      | cons a l ih => simp only [List.map_cons, List.sum_cons, ih]; ring
    simp only [neg]

end Sparc.Pchg

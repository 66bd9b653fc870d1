import Verif.Exx.Model

/-! # The table of Bloch shifts: lemmas -/

namespace Sparc.Exx

open Classical

theorem tol_pos : 0 < tol := by unfold tol; positivity

theorem near_refl (a : Vec) : near a a := by
  unfold near; simp only [sub_self, abs_zero]; exact ⟨tol_pos, tol_pos, tol_pos⟩

theorem near_symm {a b : Vec} (h : near a b) : near b a := by
  unfold near at *
  rw [abs_sub_comm b.1, abs_sub_comm b.2.1, abs_sub_comm b.2.2]; exact h

/-- Entry of the map for a difference `d` and a final list of shifts. -/
noncomputable def lookup (s : List Vec) (d : Vec) : ℕ :=
  if near d (0, 0, 0) then 0 else (s.findIdx? fun x => decide (near x d)).getD 0

/-- State after the differences `ds`. -/
structure Good (t : Tab) (ds : List Vec) : Prop where
  zero : t.shifts[0]? = some (0, 0, 0)
  map : t.map = ds.map (lookup t.shifts)
  found : ∀ d ∈ ds, ¬ near d (0, 0, 0) → ∃ s ∈ t.shifts, near s d
  apart : t.shifts.Pairwise fun a b => ¬ near a b
  src : ∀ s ∈ t.shifts.drop 1, s ∈ ds
  len : t.shifts.length ≤ ds.length + 1
  full : t.shifts.length = ds.length + 1 → t.shifts = (0, 0, 0) :: ds
  fits : t.shifts.length ≤ t.cap

theorem Good.ne {t : Tab} {ds : List Vec} (h : Good t ds) : ∃ r, t.shifts = (0, 0, 0) :: r := by
  have := h.zero
  cases e : t.shifts with
  | nil => rw [e] at this; simp at this
  | cons a r => rw [e] at this; simp at this; exact ⟨r, by rw [this]⟩

theorem flag_pos {t : Tab} {ds : List Vec} (h : Good t ds) {d : Vec} (hd : ¬ near d (0, 0, 0)) (i : ℕ)
    (hi : t.shifts.findIdx? (fun x => decide (near x d)) = some i) : 0 < i := by
  obtain ⟨r, hr⟩ := h.ne
  rw [hr, List.findIdx?_cons] at hi
  have : ¬ near (0, 0, 0) d := fun h => hd (near_symm h)
  simp only [this, decide_false, Bool.false_eq_true, if_false] at hi
  rw [Option.map_eq_some_iff] at hi
  obtain ⟨a, -, rfl⟩ := hi
  omega

theorem lookup_append {s : List Vec} {d e : Vec} (h : near d (0, 0, 0) ∨ ∃ x ∈ s, near x d) :
    lookup (s ++ [e]) d = lookup s d := by
  unfold lookup
  split
  · rfl
  · rename_i hn
    rcases h with h | ⟨x, hx, hxd⟩
    · exact absurd h hn
    · rw [List.findIdx?_append]
      cases hf : s.findIdx? (fun x => decide (near x d)) with
      | none =>
        rw [List.findIdx?_eq_none_iff] at hf
        have := hf x hx
        simp [hxd] at this
      | some i => rfl

theorem step_good {t t' : Tab} {ds : List Vec} (h : Good t ds) {d : Vec} (hs : t.step d = some t') :
    Good t' (ds ++ [d]) ∧ t'.cap = t.cap := by
  unfold Tab.step at hs
  by_cases h0 : near d (0, 0, 0)
  · rw [if_pos h0] at hs
    obtain rfl := Option.some.inj hs
    refine ⟨⟨h.zero, ?_, ?_, h.apart, ?_, ?_, ?_, h.fits⟩, rfl⟩
    · show t.map ++ [0] = _
      rw [List.map_append, ← h.map]
      simp [lookup, h0]
    · intro e he hne
      rcases List.mem_append.mp he with he | he
      · exact h.found e he hne
      · rw [List.mem_singleton] at he; subst he; exact absurd h0 hne
    · intro s hs; exact List.mem_append_left _ (h.src s hs)
    · have := h.len; simp; omega
    · intro hl; have hl' : t.shifts.length = (ds ++ [d]).length + 1 := hl
      have := h.len; simp at hl'; omega
  · rw [if_neg h0] at hs
    dsimp only at hs
    cases hf : t.shifts.findIdx? (fun x => decide (near x d)) with
    | none =>
      rw [hf, Option.getD_none, if_pos rfl] at hs
      by_cases hc : t.shifts.length < t.cap
      · rw [if_pos hc] at hs
        obtain rfl := Option.some.inj hs
        have hno := List.findIdx?_eq_none_iff.mp hf
        have hno' : ∀ x ∈ t.shifts, ¬ near x d := fun x hx hn => by simpa [hn] using hno x hx
        obtain ⟨r, hr⟩ := h.ne
        refine ⟨⟨?_, ?_, ?_, ?_, ?_, ?_, ?_, ?_⟩, rfl⟩
        · show (t.shifts ++ [d])[0]? = _
          rw [hr]; rfl
        · show t.map ++ [t.shifts.length] = _
          rw [List.map_append, h.map]
          congr 1
          · apply List.map_congr_left
            intro e he
            refine (lookup_append ?_).symm
            by_cases hz : near e (0, 0, 0)
            · exact Or.inl hz
            · exact Or.inr (h.found e he hz)
          · rw [List.map_singleton]
            congr 1
            unfold lookup
            rw [if_neg h0, List.findIdx?_append, hf]
            simp [List.findIdx?_cons, near_refl]
        · intro e he hne
          rcases List.mem_append.mp he with he | he
          · obtain ⟨s, hs, hsd⟩ := h.found e he hne
            exact ⟨s, List.mem_append_left _ hs, hsd⟩
          · rw [List.mem_singleton] at he; subst he
            exact ⟨e, List.mem_append_right _ (by simp), near_refl e⟩
        · show (t.shifts ++ [d]).Pairwise _
          rw [List.pairwise_append]
          exact ⟨h.apart, List.pairwise_singleton _ _, fun a ha b hb => by
            rw [List.mem_singleton] at hb; subst hb; exact hno' a ha⟩
        · intro s hs
          have hs' : s ∈ (t.shifts ++ [d]).drop 1 := hs
          rw [hr] at hs'
          rw [List.cons_append, List.drop_succ_cons, List.drop_zero, List.mem_append] at hs'
          rcases hs' with hs' | hs'
          · exact List.mem_append_left _ (h.src s (by rw [hr]; exact hs'))
          · exact List.mem_append_right _ hs'
        · have := h.len; simp; omega
        · intro hl
          have hl' : (t.shifts ++ [d]).length = (ds ++ [d]).length + 1 := hl
          rw [List.length_append, List.length_append, List.length_singleton] at hl'
          show t.shifts ++ [d] = _
          rw [h.full (by omega)]; rfl
        · show (t.shifts ++ [d]).length ≤ t.cap
          rw [List.length_append, List.length_singleton]; omega
      · rw [if_neg hc] at hs; exact absurd hs (by simp)
    | some i =>
      have hi := flag_pos h h0 i hf
      rw [hf, Option.getD_some, if_neg (by omega)] at hs
      obtain rfl := Option.some.inj hs
      refine ⟨⟨h.zero, ?_, ?_, h.apart, ?_, ?_, ?_, h.fits⟩, rfl⟩
      · show t.map ++ [i] = _
        rw [List.map_append, ← h.map]
        simp [lookup, h0, hf]
      · intro e he hne
        rcases List.mem_append.mp he with he | he
        · exact h.found e he hne
        · rw [List.mem_singleton] at he; subst he
          obtain ⟨hlt, hp, -⟩ := List.findIdx?_eq_some_iff_getElem.mp hf
          exact ⟨t.shifts[i], List.getElem_mem hlt, by simpa using hp⟩
      · intro s hs; exact List.mem_append_left _ (h.src s hs)
      · have := h.len; simp; omega
      · intro hl; have hl' : t.shifts.length = (ds ++ [d]).length + 1 := hl
        have := h.len; simp at hl'; omega

theorem fold_good {ds ds0 : List Vec} {t t' : Tab} (h : Good t ds0) (hs : ds.foldlM Tab.step t = some t') :
    Good t' (ds0 ++ ds) ∧ t'.cap = t.cap := by
  induction ds generalizing t ds0 with
  | nil =>
    obtain rfl := Option.some.inj hs
    rw [List.append_nil]; exact ⟨h, rfl⟩
  | cons d ds ih =>
    rw [List.foldlM_cons] at hs
    cases e : t.step d with
    | none => rw [e] at hs; exact absurd hs (by simp)
    | some t1 =>
      rw [e] at hs
      obtain ⟨h1, c1⟩ := step_good h e
      obtain ⟨h2, c2⟩ := ih h1 hs
      rw [List.append_assoc] at h2
      exact ⟨h2, c2.trans c1⟩

theorem init_good {c : ℕ} (hc : 0 < c) : Good ⟨c, [(0, 0, 0)], []⟩ [] :=
  ⟨rfl, rfl, by simp, by simp, by simp, by simp, by simp, hc⟩

theorem diffs_length (ks qs : List Vec) : (diffs ks qs).length = ks.length * qs.length := by
  unfold diffs
  rw [List.length_flatMap]
  simp [Nat.mul_comm]

theorem find_good {ks qs : List Vec} {t : Tab} (h : findShift ks qs = some t) :
    Good t (diffs ks qs) ∧ t.cap = ks.length * qs.length := by
  unfold findShift at h
  split at h
  · rename_i hc
    have := fold_good (init_good hc) h
    simpa using this
  · exact absurd h (by simp)

theorem diffs_get {ks qs : List Vec} {i j : ℕ} {k q : Vec} (hk : ks[i]? = some k) (hq : qs[j]? = some q) :
    (diffs ks qs)[i + j * ks.length]? = some (diff k q) := by
  have hi : i < ks.length := (List.getElem?_eq_some_iff.mp hk).1
  unfold diffs
  induction qs generalizing j with
  | nil => simp at hq
  | cons q0 qs ih =>
    rw [List.flatMap_cons]
    cases j with
    | zero =>
      simp only [List.getElem?_cons_zero, Option.some.injEq] at hq
      subst hq
      rw [Nat.zero_mul, Nat.add_zero, List.getElem?_append_left (by simpa using hi), List.getElem?_map, hk]
      rfl
    | succ j =>
      rw [List.getElem?_cons_succ] at hq
      rw [List.getElem?_append_right (by rw [List.length_map, Nat.succ_mul]; omega)]
      rw [List.length_map, show i + (j + 1) * ks.length - ks.length = i + j * ks.length by rw [Nat.succ_mul]; omega]
      exact ih hq

/-- A failing search fails at its last step, with a table full of distinct shifts. -/
theorem fold_none {ds ds0 : List Vec} {t : Tab} (h : Good t ds0) (hs : ds.foldlM Tab.step t = none)
    (hc : t.cap = (ds0 ++ ds).length) :
    (∀ d ∈ ds0 ++ ds, ¬ near d (0, 0, 0)) ∧ (ds0 ++ ds).Pairwise (fun a b => ¬ near a b) := by
  induction ds generalizing t ds0 with
  | nil => exact absurd hs (by simp)
  | cons d ds ih =>
    rw [List.foldlM_cons] at hs
    cases e : t.step d with
    | some t1 =>
      rw [e] at hs
      obtain ⟨h1, c1⟩ := step_good h e
      have := ih h1 hs (by rw [c1, hc]; simp)
      simpa using this
    | none =>
      unfold Tab.step at e
      by_cases h0 : near d (0, 0, 0)
      · rw [if_pos h0] at e; exact absurd e (by simp)
      rw [if_neg h0] at e
      dsimp only at e
      cases hf : t.shifts.findIdx? (fun x => decide (near x d)) with
      | some i =>
        have hi := flag_pos h h0 i hf
        rw [hf, Option.getD_some, if_neg (by omega)] at e
        exact absurd e (by simp)
      | none =>
        rw [hf, Option.getD_none, if_pos rfl] at e
        by_cases hl : t.shifts.length < t.cap
        · rw [if_pos hl] at e; exact absurd e (by simp)
        have hno := List.findIdx?_eq_none_iff.mp hf
        have hno' : ∀ x ∈ t.shifts, ¬ near x d := fun x hx hn => by simpa [hn] using hno x hx
        have hlen := h.len
        rw [List.length_append, List.length_cons] at hc
        have hds : ds = [] := List.eq_nil_of_length_eq_zero (by omega)
        have hfull := h.full (by omega)
        subst hds
        have ha := h.apart
        rw [hfull, List.pairwise_cons] at ha
        rw [hfull] at hno'
        constructor
        · intro x hx
          rcases List.mem_append.mp hx with hx | hx
          · exact fun hn => ha.1 x hx (near_symm hn)
          · rw [List.mem_singleton] at hx; subst hx; exact h0
        · rw [List.pairwise_append]
          exact ⟨ha.2, List.pairwise_singleton _ _, fun a ha b hb => by
            rw [List.mem_singleton] at hb; subst hb; exact hno' a (List.mem_cons_of_mem _ ha)⟩

theorem good_full {t : Tab} {ds : List Vec} (h : Good t ds) (h0 : ∀ d ∈ ds, ¬ near d (0, 0, 0))
    (hp : ds.Pairwise fun a b => ¬ near a b) : ds.length + 1 ≤ t.shifts.length := by
  obtain ⟨r, hr⟩ := h.ne
  have hnd : ds.Nodup := hp.imp fun {a b} hab he => hab (by rw [he]; exact near_refl b)
  have hsub : ds ⊆ r := by
    intro d hd
    obtain ⟨s, hs, hsd⟩ := h.found d hd (h0 d hd)
    rw [hr, List.mem_cons] at hs
    rcases hs with rfl | hs
    · exact absurd (near_symm hsd) (h0 d hd)
    · have hsd' : s ∈ ds := h.src s (by rw [hr]; exact hs)
      have : s = d := by
        by_contra hne
        obtain ⟨a, ha, rfl⟩ := List.getElem_of_mem hsd'
        obtain ⟨b, hb, rfl⟩ := List.getElem_of_mem hd
        have hg := List.pairwise_iff_getElem.mp hp
        rcases lt_trichotomy a b with hab | hab | hab
        · exact hg a b ha hb hab hsd
        · subst hab; exact hne rfl
        · exact hg b a hb ha hab (near_symm hsd)
      rw [← this]; exact hs
  have := (List.subperm_of_subset hnd hsub).length_le
  rw [hr, List.length_cons]
  omega

end Sparc.Exx

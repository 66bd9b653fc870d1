import Verif.Grad.Model
import Verif.Bloch.Props

/-!
# Distributed first derivative: lemmas
-/

namespace Sparc.Grad

open Loop Lap Halo Bloch

/-! ### Slots of the direction -/

theorem mem_slots : ∀ {dir : Fin 3} {s : ℕ}, s ∈ slots dir ↔ s < 6 ∧ Fin.ofNat 3 (s / 2) = dir := by
  intro dir s
  constructor
  · revert dir
    have : ∀ dir : Fin 3, ∀ s ∈ slots dir, s < 6 ∧ Fin.ofNat 3 (s / 2) = dir := by decide +kernel
    exact fun {dir} h => this dir s h
  · rintro ⟨hs, h⟩
    have : ∀ s < 6, s ∈ slots (Fin.ofNat 3 (s / 2)) := by decide +kernel
    rw [← h]
    exact this s hs

theorem offs6_dir : ∀ s < 6, offs6.getD s 0 (Fin.ofNat 3 (s / 2)) ≠ 0 := by decide +kernel

theorem partner_axis {s s' : ℕ} (hs : s < 6) (hs' : s' < 6) {b : Fin 3 → Bool}
    (h : ∀ d, offs6.getD s' 0 d = Halo.flip (b d) (offs6.getD s 0 d)) :
    Fin.ofNat 3 (s' / 2) = Fin.ofNat 3 (s / 2) := by
  by_contra hne
  have h1 := offs6_axis s hs _ hne
  have h2 := h (Fin.ofNat 3 (s' / 2))
  rw [h1] at h2
  refine offs6_dir s' hs' (h2.trans ?_)
  unfold Halo.flip
  split <;> simp

/-! ### Ranges -/

/-- Receive range of a slot of the direction. -/
theorem grecv_lo (L : Layout) (D : Fin 3 → ℤ) : ∀ s < 6, ∀ d,
    (grecv L (Fin.ofNat 3 (s / 2)) D s).lo d =
      rlo (D d) L.FDn (offs6.getD s 0 d) - L.FDn + exDir L (Fin.ofNat 3 (s / 2)) d ∧
    (grecv L (Fin.ofNat 3 (s / 2)) D s).hi d = (grecv L (Fin.ofNat 3 (s / 2)) D s).lo d +
      wid (D d) L.FDn (offs6.getD s 0 d) := by
  intro s hs
  have h : s = 0 ∨ s = 1 ∨ s = 2 ∨ s = 3 ∨ s = 4 ∨ s = 5 := by omega
  rcases h with rfl | rfl | rfl | rfl | rfl | rfl <;>
    simp only [show Fin.ofNat 3 (0 / 2) = 0 from rfl, show Fin.ofNat 3 (1 / 2) = 0 from rfl,
      show Fin.ofNat 3 (2 / 2) = 1 from rfl, show Fin.ofNat 3 (3 / 2) = 1 from rfl,
      show Fin.ofNat 3 (4 / 2) = 2 from rfl, show Fin.ofNat 3 (5 / 2) = 2 from rfl] <;>
    refine fin3 ?_ ?_ ?_ <;>
    simp [grecv, mkRegion, exDir, isDir, rlo, wid, offs6] <;> omega

theorem grecv_cells {L : Layout} {dir : Fin 3} {p : Proc} {s : ℕ} (hs : s ∈ slots dir) :
    (grecv L dir (L.isize p) s).cells = (recv6 (L.isize p) L.FDn s).cells := by
  obtain ⟨h6, rfl⟩ := mem_slots.1 hs
  have : ∀ d, (grecv L (Fin.ofNat 3 (s / 2)) (L.isize p) s).width d =
      (recv6 (L.isize p) L.FDn s).width d := by
    intro d
    have h := recv_width (good6 L) p (s := s) h6 d
    have h' : (recv6 (L.isize p) L.FDn s).width d =
      (wid (L.isize p d) L.FDn (offs6.getD s 0 d)).toNat := by
      have h'' : ((recv6 (L.isize p) L.FDn s).width d : ℤ) =
        wid (L.isize p d) L.FDn (offs6.getD s 0 d) := h
      omega
    rw [h']
    unfold Region.width
    rw [(grecv_lo L (L.isize p) s h6 d).2, add_sub_cancel_left]
  unfold Region.cells
  rw [this 0, this 1, this 2]

/-- Counts: those of the full exchange for the slots of the direction, zero for the others. -/
theorem gcount_eq (L : Layout) (dir : Fin 3) (D : Fin 3 → ℤ) {s : ℕ} (hs : s < 6) :
    gcount L dir D s = if s ∈ slots dir then count6 D L.FDn L.ncol s else 0 := by
  revert dir
  have h : s = 0 ∨ s = 1 ∨ s = 2 ∨ s = 3 ∨ s = 4 ∨ s = 5 := by omega
  rcases h with rfl | rfl | rfl | rfl | rfl | rfl <;> refine fin3 ?_ ?_ ?_ <;>
    simp [gcount, isDir, slots, count6]

/-- The message of a slot. -/
theorem gMessage_eq {V : Type} [Zero V] (L : Layout) (dir : Fin 3) {D : Fin 3 → ℤ}
    (hD : ∀ d, 0 ≤ D d) (ldi : ℤ) (x : ℤ → V) {s : ℕ} (hs : s < 6) :
    gMessage L dir D ldi x s =
      if s ∈ slots dir then packSlot D ldi L.ncol (send6 D L.FDn (nbrcount6 L s)) x else [] := by
  by_cases hm : s ∈ slots dir
  swap
  · unfold gMessage
    rw [gcount_eq L dir D hs, if_neg hm, if_neg hm]
    rfl
  have hc : ∀ t < 6, t ∈ slots dir → gcount L dir D t =
      (packSlot D ldi L.ncol (send6 D L.FDn (nbrcount6 L t)) x).length := by
    intro t ht htm
    rw [gcount_eq L dir D ht, if_pos htm]
    exact (good6 L).count_nat hD (s := t) ht ldi x
  have hz : ∀ t < 6, t ∉ slots dir → gcount L dir D t = 0 := by
    intro t ht htm
    rw [gcount_eq L dir D ht, if_neg htm]
  rw [if_pos hm]
  unfold gMessage gOut
  rcases List.mem_pair.1 (show s ∈ [2 * dir.val, 2 * dir.val + 1] from hm) with rfl | rfl
  · have h0 : gdispl L dir D (2 * dir.val) = 0 := by
      unfold gdispl
      rw [(List.map_eq_replicate_iff (b := (0 : ℤ))).2]
      · simp
      · intro t ht
        have ht := List.mem_range.1 ht
        exact hz t (by omega) (fun h => by
          rcases List.mem_pair.1 (show t ∈ [2 * dir.val, 2 * dir.val + 1] from h) with h | h <;> omega)
    rw [h0, hc (2 * dir.val) hs hm]
    simp [slots]
  · have h0 : gdispl L dir D (2 * dir.val + 1) = gcount L dir D (2 * dir.val) := by
      unfold gdispl
      rw [List.range_succ, List.map_append, List.sum_append,
        (List.map_eq_replicate_iff (b := (0 : ℤ))).2]
      · simp
      · intro t ht
        have ht := List.mem_range.1 ht
        exact hz t (by omega) (fun h => by
          rcases List.mem_pair.1 (show t ∈ [2 * dir.val, 2 * dir.val + 1] from h) with h | h <;> omega)
    rw [h0, hc (2 * dir.val) (by omega) (by simp [slots]), hc (2 * dir.val + 1) hs hm]
    simp [slots]

/-! ### What is received -/

theorem gRecvSlot_eq {V : Type} [Zero V] {L : Layout} (dir : Fin 3) (ldi : Proc → ℤ)
    (xs : Proc → ℤ → V) {p : Proc} (hp : L.Valid p) {s : ℕ} (hs : s < 6) :
    gRecvSlot L dir ldi xs p s = some (if s ∈ slots dir then (List.range L.ncol).flatMap fun n =>
      (grecv L dir (L.isize p) s).cells.map fun t => recvVal L (exch6 L) ldi xs p s n t else []) := by
  have hD : ∀ r d, 0 ≤ L.isize r d := fun r d => by unfold Layout.isize; omega
  by_cases hm : s ∈ slots dir
  · rw [if_pos hm, grecv_cells hm]
    refine Eq.trans ?_ (recvSlot_eq (good6 L) ldi xs hp (s := s) hs)
    unfold gRecvSlot recvSlot
    cases h : slotNbr L (exch6 L) p s with
    | none =>
      dsimp only
      rw [gcount_eq L dir _ hs, if_pos hm]
      rfl
    | some q =>
      dsimp only
      obtain ⟨s', h1, h2, h3⟩ := partner_eq (good6 L) hp (s := s) hs h
      have h2' : s' < 6 := h2
      have hm' : s' ∈ slots dir := by
        rw [mem_slots] at hm ⊢
        exact ⟨h2', (partner_axis hs h2' h3).trans hm.2⟩
      rw [h1]
      simp only [Option.bind_eq_bind, Option.bind_some]
      rw [gMessage_eq L dir (hD q) _ _ h2', if_pos hm', message_eq (good6 L) (hD q) h2,
        gcount_eq L dir _ hs, if_pos hm]
      rfl
  · rw [if_neg hm]
    unfold gRecvSlot
    cases h : slotNbr L (exch6 L) p s with
    | none =>
      dsimp only
      rw [gcount_eq L dir _ hs, if_neg hm]
      rfl
    | some q =>
      dsimp only
      obtain ⟨s', h1, h2, h3⟩ := partner_eq (good6 L) hp (s := s) hs h
      have h2' : s' < 6 := h2
      have hm' : s' ∉ slots dir := by
        rw [mem_slots] at hm ⊢
        exact fun hh => hm ⟨hs, (partner_axis hs h2' h3).symm.trans hh.2⟩
      rw [h1]
      simp only [Option.bind_eq_bind, Option.bind_some]
      rw [gMessage_eq L dir (hD q) _ _ h2', if_neg hm', gcount_eq L dir _ hs, if_neg hm]
      rfl

theorem range6_slots {V : Type} (dir : Fin 3) (h : ℕ → List V) :
    ((List.range 6).flatMap fun s => if s ∈ slots dir then h s else []) = (slots dir).flatMap h := by
  revert dir
  refine fin3 ?_ ?_ ?_ <;> simp [slots, List.range_succ]

theorem gIn_eq {V : Type} [Zero V] {L : Layout} (dir : Fin 3) (ldi : Proc → ℤ)
    (xs : Proc → ℤ → V) {p : Proc} (hp : L.Valid p) :
    gIn L dir ldi xs p = some ((slots dir).flatMap fun s => (List.range L.ncol).flatMap fun n =>
      (grecv L dir (L.isize p) s).cells.map fun t => recvVal L (exch6 L) ldi xs p s n t) := by
  unfold gIn
  rw [mapM_some _ _ _ fun s hs => gRecvSlot_eq dir ldi xs hp (List.mem_range.1 hs)]
  simp only [Option.bind_eq_bind, Option.bind_some, Option.pure_def, Option.some.injEq]
  rw [← range6_slots]
  rfl

/-- The passes over slots, columns and points. -/
def gPasses (L : Layout) (dir : Fin 3) (p : Proc) : List (ℕ × ℕ × (ℕ × ℕ × ℕ)) :=
  (slots dir).flatMap fun s => (List.range L.ncol).flatMap fun n =>
    (grecv L dir (L.isize p) s).cells.map fun t => (s, n, t)

theorem gMany_eq {V : Type} [Zero V] {L : Layout} (dir : Fin 3) (f : ℕ → V → V) (ldi : Proc → ℤ)
    (xs : Proc → ℤ → V) {p : Proc} (hp : L.Valid p) (m : ℤ → V) :
    gMany L dir f ldi xs p m = some (fill (gPasses L dir p)
      (fun w => gIdx L dir (L.isize p) w.2.1 ((grecv L dir (L.isize p) w.1).lo 0 + w.2.2.1)
        ((grecv L dir (L.isize p) w.1).lo 1 + w.2.2.2.1)
        ((grecv L dir (L.isize p) w.1).lo 2 + w.2.2.2.2))
      (fun w => f w.1 (recvVal L (exch6 L) ldi xs p w.1 w.2.1 w.2.2))
      (gCopyIn L dir (ldi p) p (xs p) m)) := by
  have hz : (gPlaces L dir p f).zip ((slots dir).flatMap fun s =>
      (List.range L.ncol).flatMap fun n => (grecv L dir (L.isize p) s).cells.map fun t =>
        recvVal L (exch6 L) ldi xs p s n t) =
      (gPasses L dir p).map fun w => ((gIdx L dir (L.isize p) w.2.1
        ((grecv L dir (L.isize p) w.1).lo 0 + w.2.2.1)
        ((grecv L dir (L.isize p) w.1).lo 1 + w.2.2.2.1)
        ((grecv L dir (L.isize p) w.1).lo 2 + w.2.2.2.2), f w.1),
        recvVal L (exch6 L) ldi xs p w.1 w.2.1 w.2.2) := by
    unfold gPlaces gPasses
    rw [zip_flatMap _ _ _ (fun s _ => by simp [List.length_flatMap])]
    simp only [List.map_flatMap, List.map_map]
    congr 1
    funext s
    rw [zip_flatMap _ _ _ (fun n _ => by simp)]
    congr 1
    funext n
    rw [List.zip_map']
    rfl
  unfold gMany
  rw [gIn_eq dir ldi xs hp]
  simp only [Option.bind_eq_bind, Option.bind_some]
  rw [if_neg (by unfold gPlaces; simp [List.length_flatMap]), hz, fill_map]

/-! ### Places of the extended block -/

/-- The point lies in the block extended along `dir`. -/
def GIn (L : Layout) (dir : Fin 3) (D : Fin 3 → ℤ) (P : Pt) : Prop :=
  (-exDir L dir 0 ≤ P.i ∧ P.i < D 0 + exDir L dir 0) ∧
  (-exDir L dir 1 ≤ P.j ∧ P.j < D 1 + exDir L dir 1) ∧
  (-exDir L dir 2 ≤ P.k ∧ P.k < D 2 + exDir L dir 2)

/-- Its place in `x_ex`. -/
def gPlace (L : Layout) (dir : Fin 3) (D : Fin 3 → ℤ) (P : Pt) : ℤ :=
  gIdx L dir D P.n (exDir L dir 0 + P.i) (exDir L dir 1 + P.j) (exDir L dir 2 + P.k)

theorem sizeEx_eq (L : Layout) (dir : Fin 3) (D : Fin 3 → ℤ) (d : Fin 3) :
    sizeEx L dir D d = D d + 2 * exDir L dir d := by
  unfold sizeEx exDir
  ring

theorem gPlace_inj {L : Layout} {dir : Fin 3} {D : Fin 3 → ℤ} {P Q : Pt} (hP : GIn L dir D P)
    (hQ : GIn L dir D Q) (h : gPlace L dir D P = gPlace L dir D Q) : P = Q := by
  obtain ⟨n, i, j, k⟩ := P
  obtain ⟨n', i', j', k'⟩ := Q
  obtain ⟨⟨a1, a2⟩, ⟨a3, a4⟩, a5, a6⟩ := hP
  obtain ⟨⟨b1, b2⟩, ⟨b3, b4⟩, b5, b6⟩ := hQ
  unfold gPlace gIdx at h
  simp only [sizeEx_eq] at h
  dsimp only at *
  generalize exDir L dir 0 = e0 at *
  generalize exDir L dir 1 = e1 at *
  generalize exDir L dir 2 = e2 at *
  have h1 : (((n : ℤ) * (D 2 + 2 * e2) + (e2 + k)) * (D 1 + 2 * e1) + (e1 + j)) * (D 0 + 2 * e0) + (e0 + i)
      = (((n' : ℤ) * (D 2 + 2 * e2) + (e2 + k')) * (D 1 + 2 * e1) + (e1 + j')) * (D 0 + 2 * e0) + (e0 + i') := by
    linear_combination h
  obtain ⟨e1, h2⟩ := int_flat_inj (by omega) (by omega) (by omega) (by omega) h1
  obtain ⟨e2, h3⟩ := int_flat_inj (by omega) (by omega) (by omega) (by omega) h2
  obtain ⟨e3, h4⟩ := int_flat_inj (by omega) (by omega) (by omega) (by omega) h3
  have := Int.ofNat_inj.1 h4
  subst this
  have e1' : i = i' := by omega
  have e2' : j = j' := by omega
  have e3' : k = k' := by omega
  rw [e1', e2', e3']

/-- The memory holds `G` at the points of `C`. -/
def GHolds {V : Type} (L : Layout) (dir : Fin 3) (D : Fin 3 → ℤ) (G : Pt → V) (C : Pt → Prop)
    (m : ℤ → V) : Prop :=
  ∀ P : Pt, GIn L dir D P → C P → m (gPlace L dir D P) = G P

theorem GHolds.fill {V : Type} {L : Layout} {dir : Fin 3} {D : Fin 3 → ℤ} {G : Pt → V}
    {C : Pt → Prop} {m : ℤ → V} (h : GHolds L dir D G C m) {τ : Type} (l : List τ) (idx : τ → ℤ)
    (val : τ → V) (pt : τ → Pt)
    (hw : ∀ t ∈ l, GIn L dir D (pt t) ∧ idx t = gPlace L dir D (pt t) ∧ val t = G (pt t)) :
    GHolds L dir D G (fun P => C P ∨ ∃ t ∈ l, pt t = P) (Loop.fill l idx val m) := by
  intro P hP hC
  by_cases hc : ∃ t ∈ l, idx t = gPlace L dir D P
  · obtain ⟨t, ht, e⟩ := hc
    have key : ∀ s ∈ l, idx s = idx t → val s = val t := by
      intro s hs es
      have e1 : pt s = pt t := gPlace_inj (hw s hs).1 (hw t ht).1 (by
        rw [← (hw s hs).2.1, es, (hw t ht).2.1])
      rw [(hw s hs).2.2, (hw t ht).2.2, e1]
    rw [← e, fill_at ht key, (hw t ht).2.2]
    congr 1
    exact gPlace_inj (hw t ht).1 hP (by rw [← (hw t ht).2.1, e])
  · push Not at hc
    rw [fill_other hc]
    rcases hC with hC | ⟨t, ht, e⟩
    · exact h P hP hC
    · exact absurd ((hw t ht).2.1.trans (by rw [e])) (hc t ht)

theorem GHolds.mono {V : Type} {L : Layout} {dir : Fin 3} {D : Fin 3 → ℤ} {G : Pt → V}
    {C C' : Pt → Prop} {m : ℤ → V} (h : GHolds L dir D G C m)
    (hC : ∀ P, GIn L dir D P → C' P → C P) : GHolds L dir D G C' m :=
  fun P hP hc => h P hP (hC P hP hc)

/-! ### Points of a slot -/

theorem exDir_cases (L : Layout) (dir d : Fin 3) :
    (d = dir ∧ exDir L dir d = L.FDn) ∨ (d ≠ dir ∧ exDir L dir d = 0) := by
  unfold exDir isDir
  by_cases h : dir = d
  · left; exact ⟨h.symm, by rw [if_pos h, one_mul]⟩
  · right; exact ⟨fun h' => h h'.symm, by rw [if_neg h, zero_mul]⟩

theorem gSlot_in {L : Layout} {dir : Fin 3} (p : Proc) {s n : ℕ} (hs : s ∈ slots dir)
    {t : ℕ × ℕ × ℕ} (ht : t ∈ (grecv L dir (L.isize p) s).cells) :
    GIn L dir (L.isize p) (slotPt L (exch6 L) p s n t) := by
  rw [grecv_cells hs] at ht
  obtain ⟨h6, hdir⟩ := mem_slots.1 hs
  obtain ⟨h0, h1, h2⟩ := mem_cells.1 ht
  have hw : ∀ d, ((recv6 (L.isize p) L.FDn s).width d : ℤ) =
      wid (L.isize p d) L.FDn (offs6.getD s 0 d) := recv_width (good6 L) p (s := s) h6
  have key : ∀ d, ∀ x : ℕ, x < (recv6 (L.isize p) L.FDn s).width d →
      -exDir L dir d ≤ rlo (L.isize p d) L.FDn (offs6.getD s 0 d) - L.FDn + x ∧
      rlo (L.isize p d) L.FDn (offs6.getD s 0 d) - L.FDn + x < L.isize p d + exDir L dir d := by
    intro d x hx
    have hx' : (x : ℤ) < wid (L.isize p d) L.FDn (offs6.getD s 0 d) := by
      rw [← hw d]; exact_mod_cast hx
    have hD : 0 ≤ L.isize p d := by unfold Layout.isize; omega
    have hst := step6 s h6 d
    rcases exDir_cases L dir d with ⟨hd, e⟩ | ⟨hd, e⟩
    · rw [e]
      generalize offs6.getD s 0 d = o at *
      rcases hst with rfl | rfl | rfl <;> simp [rlo, wid] at hx' ⊢ <;> omega
    · have : offs6.getD s 0 d = 0 := offs6_axis s h6 d (by rw [hdir]; exact hd)
      rw [e]
      rw [this] at hx' ⊢
      simp [rlo, wid] at hx' ⊢
      omega
  exact ⟨key 0 _ h0, key 1 _ h1, key 2 _ h2⟩

theorem gSlot_place {L : Layout} {dir : Fin 3} (p : Proc) {s n : ℕ} (hs : s ∈ slots dir)
    (t : ℕ × ℕ × ℕ) :
    gIdx L dir (L.isize p) n ((grecv L dir (L.isize p) s).lo 0 + t.1)
      ((grecv L dir (L.isize p) s).lo 1 + t.2.1) ((grecv L dir (L.isize p) s).lo 2 + t.2.2) =
    gPlace L dir (L.isize p) (slotPt L (exch6 L) p s n t) := by
  obtain ⟨h6, rfl⟩ := mem_slots.1 hs
  unfold gPlace slotPt
  have h := fun d => (grecv_lo L (L.isize p) s h6 d).1
  rw [h 0, h 1, h 2]
  dsimp only [exch6]
  congr 1 <;> ring

/-- A slot of the direction reaches the point. -/
def GReg (L : Layout) (dir : Fin 3) (p : Proc) (P : Pt) : Prop :=
  ∃ s ∈ slots dir, Reg L (exch6 L) p s P

/-- The block and the two slots cover the extended block. -/
theorem gCover (L : Layout) (dir : Fin 3) (p : Proc) {P : Pt} (hP : GIn L dir (L.isize p) P)
    (hn : P.n < L.ncol) : Inner L p P ∨ GReg L dir p P := by
  obtain ⟨h0, h1, h2⟩ := hP
  have hF : (0 : ℤ) ≤ L.FDn := Int.natCast_nonneg _
  have e0 := exDir_cases L dir 0
  have e1 := exDir_cases L dir 1
  have e2 := exDir_cases L dir 2
  have hPin : P.In (L.isize p) L.FDn := by
    refine ⟨?_, ?_, ?_⟩
    · rcases e0 with ⟨-, e⟩ | ⟨-, e⟩ <;> rw [e] at h0 <;> omega
    · rcases e1 with ⟨-, e⟩ | ⟨-, e⟩ <;> rw [e] at h1 <;> omega
    · rcases e2 with ⟨-, e⟩ | ⟨-, e⟩ <;> rw [e] at h2 <;> omega
  have hflat : ∀ d, d ≠ dir → 0 ≤ ![P.i, P.j, P.k] d ∧ ![P.i, P.j, P.k] d < L.isize p d := by
    refine fin3 ?_ ?_ ?_ <;> intro hd
    · rcases e0 with ⟨h, -⟩ | ⟨-, e⟩
      · exact absurd h hd
      · rw [e] at h0; simpa using h0
    · rcases e1 with ⟨h, -⟩ | ⟨-, e⟩
      · exact absurd h hd
      · rw [e] at h1; simpa using h1
    · rcases e2 with ⟨h, -⟩ | ⟨-, e⟩
      · exact absurd h hd
      · rw [e] at h2; simpa using h2
  have hc := cover6 L p hPin hn (by
    revert hflat
    revert dir
    refine fin3 ?_ ?_ ?_ <;> intro _ _ _ _ _ _ hflat
    · exact Or.inr (Or.inr ⟨hflat 1 (by decide), hflat 2 (by decide)⟩)
    · exact Or.inr (Or.inl ⟨hflat 0 (by decide), hflat 2 (by decide)⟩)
    · exact Or.inl ⟨hflat 0 (by decide), hflat 1 (by decide)⟩)
  rcases hc with hc | ⟨s, hs, hr⟩
  · exact Or.inl hc
  by_cases hi : Inner L p P
  · exact Or.inl hi
  right
  refine ⟨s, mem_slots.2 ⟨hs, ?_⟩, hr⟩
  by_contra hne
  apply hi
  -- the slot is outside the block along its axis, which is not `dir`
  exfalso
  have hf := hflat _ hne
  obtain ⟨-, t, ht, e⟩ := hr
  have hw := recv_width (good6 L) p (s := s) hs (Fin.ofNat 3 (s / 2))
  have hst := step6 s hs (Fin.ofNat 3 (s / 2))
  have hno := offs6_dir s hs
  obtain ⟨t0, t1, t2⟩ := mem_cells.1 ht
  have hx : ![P.i, P.j, P.k] (Fin.ofNat 3 (s / 2)) =
      rlo (L.isize p (Fin.ofNat 3 (s / 2))) L.FDn (offs6.getD s 0 (Fin.ofNat 3 (s / 2))) - L.FDn +
        ![(t.1 : ℤ), t.2.1, t.2.2] (Fin.ofNat 3 (s / 2)) := by
    rw [← e]
    generalize Fin.ofNat 3 (s / 2) = d
    revert d
    exact fin3 rfl rfl rfl
  have hb : ![(t.1 : ℤ), t.2.1, t.2.2] (Fin.ofNat 3 (s / 2)) <
      wid (L.isize p (Fin.ofNat 3 (s / 2))) L.FDn (offs6.getD s 0 (Fin.ofNat 3 (s / 2))) := by
    rw [show wid (L.isize p (Fin.ofNat 3 (s / 2))) L.FDn (offs6.getD s 0 (Fin.ofNat 3 (s / 2))) =
      _ from hw.symm]
    generalize Fin.ofNat 3 (s / 2) = d
    revert d
    exact fin3 (Int.ofNat_lt.2 t0) (Int.ofNat_lt.2 t1) (Int.ofNat_lt.2 t2)
  have hb0 : 0 ≤ ![(t.1 : ℤ), t.2.1, t.2.2] (Fin.ofNat 3 (s / 2)) := by
    generalize Fin.ofNat 3 (s / 2) = d
    revert d
    exact fin3 (Int.natCast_nonneg _) (Int.natCast_nonneg _) (Int.natCast_nonneg _)
  rw [hx] at hf
  generalize offs6.getD s 0 (Fin.ofNat 3 (s / 2)) = o at *
  generalize ![(t.1 : ℤ), t.2.1, t.2.2] (Fin.ofNat 3 (s / 2)) = y at *
  rcases hst with rfl | rfl | rfl
  · simp [rlo, wid] at hf hb; omega
  · exact hno rfl
  · simp [rlo, wid] at hf hb; omega

/-! ### The extended array -/

section general

variable {V : Type} [Zero V] {L : Layout} {dir : Fin 3} {ldi : Proc → ℤ}
  {g : ℕ → ℕ → ℕ → ℕ → V} {xs : Proc → ℤ → V} {p : Proc} {G : Pt → V} {f : ℕ → V → V}

theorem gCopyIn_holds (hx : Distributed L ldi L.ncol g xs) (hp : L.Valid p)
    (hin : ∀ P, Inner L p P → G P = target L g p P) {C : Pt → Prop} {m : ℤ → V}
    (h : GHolds L dir (L.isize p) G C m) :
    GHolds L dir (L.isize p) G (fun P => C P ∨ Inner L p P) (gCopyIn L dir (ldi p) p (xs p) m) := by
  unfold gCopyIn
  refine (h.fill _ _ _ (fun w => ⟨w.1, w.2.1, w.2.2.1, w.2.2.2⟩) ?_).mono ?_
  · rintro ⟨n, i, j, k⟩ hw
    simp only [List.mem_flatMap, List.mem_range, List.mem_map, mem_box, Prod.mk.injEq] at hw
    obtain ⟨n', hn, t, ⟨h0, h1, h2⟩, rfl, rfl⟩ := hw
    dsimp only at h0 h1 h2 ⊢
    have hF : (0 : ℤ) ≤ L.FDn := Int.natCast_nonneg _
    refine ⟨?_, rfl, ?_⟩
    · have e0 := exDir_cases L dir 0
      have e1 := exDir_cases L dir 1
      have e2 := exDir_cases L dir 2
      unfold GIn Layout.isize
      dsimp only
      omega
    · rw [hin _ (by unfold Inner Layout.isize; dsimp only; omega), target_inner g hp h0 h1 h2]
      rw [xIdx_eq_addr]
      exact hx p hp n' hn i h0 j h1 k h2
  · rintro ⟨n, i, j, k⟩ - (hc | ⟨hn, ⟨a1, a2⟩, ⟨a3, a4⟩, a5, a6⟩)
    · exact Or.inl hc
    · right
      unfold Layout.isize at a2 a4 a6
      dsimp only at *
      refine ⟨(n, i.toNat, j.toNat, k.toNat), ?_, ?_⟩
      · simp only [List.mem_flatMap, List.mem_range, List.mem_map, mem_box]
        exact ⟨n, hn, (i.toNat, j.toNat, k.toNat), by dsimp only; omega, rfl⟩
      · dsimp only
        rw [Int.toNat_of_nonneg a1, Int.toNat_of_nonneg a3, Int.toNat_of_nonneg a5]

/-- What the value of a slot must be turned into. -/
def GScaled (L : Layout) (dir : Fin 3) (g : ℕ → ℕ → ℕ → ℕ → V) (p : Proc) (G : Pt → V)
    (f : ℕ → V → V) : Prop :=
  ∀ s ∈ slots dir, ∀ n t, t ∈ (grecv L dir (L.isize p) s).cells →
    f s (target L g p (slotPt L (exch6 L) p s n t)) = G (slotPt L (exch6 L) p s n t)

theorem gMany_holds (hF : L.Fits) (hx : Distributed L ldi L.ncol g xs) (hp : L.Valid p)
    (hin : ∀ P, Inner L p P → G P = target L g p P) (hf : GScaled L dir g p G f) (m : ℤ → V) :
    ∃ m', gMany L dir f ldi xs p m = some m' ∧
      GHolds L dir (L.isize p) G (fun P => Inner L p P ∨ GReg L dir p P) m' := by
  refine ⟨_, gMany_eq dir f ldi xs hp m, ?_⟩
  have h0 := gCopyIn_holds (dir := dir) hx hp hin (C := fun _ => False) (m := m) (fun P _ h => h.elim)
  refine (h0.fill _ _ _ (fun w => slotPt L (exch6 L) p w.1 w.2.1 w.2.2) ?_).mono ?_
  · rintro ⟨s, n, t⟩ hw
    unfold gPasses at hw
    simp only [List.mem_flatMap, List.mem_range, List.mem_map, Prod.mk.injEq] at hw
    obtain ⟨s', hs, n', hn, t', ht, rfl, rfl, rfl⟩ := hw
    refine ⟨gSlot_in p hs ht, gSlot_place p hs t', ?_⟩
    dsimp only
    rw [← hf s' hs n' t' ht,
      recvVal_eq (good6 L) hF hx hp (mem_slots.1 hs).1 hn (by rw [grecv_cells hs] at ht; exact ht)]
  · rintro P - (hc | ⟨s, hs, hn, t, ht, e⟩)
    · exact Or.inl (Or.inr hc)
    · refine Or.inr ⟨(s, P.n, t), ?_, e⟩
      unfold gPasses
      simp only [List.mem_flatMap, List.mem_range, List.mem_map]
      exact ⟨s, hs, P.n, hn, t, by rw [grecv_cells hs]; exact ht, rfl⟩

theorem gCopySlot_holds (hF : L.Fits) (hx : Distributed L ldi L.ncol g xs) (hp : L.Valid p)
    (hf : GScaled L dir g p G f) {s : ℕ} (hs : s ∈ slots dir)
    (hnb : slotNbr L (exch6 L) p s = some p) {src : Region}
    (hlo : ∀ d, src.lo d = slo (L.isize p d) L.FDn (offs6.getD s 0 d))
    (hhi : ∀ d, src.hi d = shi (L.isize p d) L.FDn (offs6.getD s 0 d))
    {C : Pt → Prop} {m : ℤ → V} (h : GHolds L dir (L.isize p) G C m) :
    GHolds L dir (L.isize p) G (fun P => C P ∨ Reg L (exch6 L) p s P)
      (gCopySlot L dir (ldi p) p src (grecv L dir (L.isize p) s) (f s) (xs p) m) := by
  have h6 := (mem_slots.1 hs).1
  have hw : src.cells = (grecv L dir (L.isize p) s).cells := by
    have : ∀ d, src.width d = (recv6 (L.isize p) L.FDn s).width d := by
      intro d
      zify
      rw [show ((recv6 (L.isize p) L.FDn s).width d : ℤ) = _ from recv_width (good6 L) p (s := s) h6 d]
      unfold Region.width
      rw [hlo d, hhi d, shi_eq _ _ (step6 s h6 d), add_sub_cancel_left,
        Int.toNat_of_nonneg (wid_nonneg (by unfold Layout.isize; omega) (by omega) _)]
      rfl
    rw [grecv_cells hs]
    unfold Region.cells
    rw [this 0, this 1, this 2]
  unfold gCopySlot
  rw [hw]
  refine (h.fill _ _ _ (fun w => slotPt L (exch6 L) p s w.1 w.2) ?_).mono ?_
  · rintro ⟨n, t⟩ hm
    simp only [List.mem_flatMap, List.mem_range, List.mem_map, Prod.mk.injEq] at hm
    obtain ⟨n', hn, t', ht, rfl, rfl⟩ := hm
    refine ⟨gSlot_in p hs ht, gSlot_place p hs t', ?_⟩
    dsimp only
    rw [← hf s hs n' t' ht, ← recvVal_eq (good6 L) hF hx hp (s := s) h6 hn
      (by rw [grecv_cells hs] at ht; exact ht)]
    unfold recvVal
    rw [hnb]
    dsimp only
    rw [hlo 0, hlo 1, hlo 2]
    rfl
  · rintro P - (hc | ⟨hn, t, ht, e⟩)
    · exact Or.inl hc
    · refine Or.inr ⟨(P.n, t), ?_, e⟩
      simp only [List.mem_flatMap, List.mem_range, List.mem_map]
      exact ⟨P.n, hn, t, by rw [grecv_cells hs]; exact ht, rfl⟩

theorem gZeroSlot_holds (hF : L.Fits) (hx : Distributed L ldi L.ncol g xs) (hp : L.Valid p)
    (hf : GScaled L dir g p G f) (hf0 : ∀ s, f s 0 = 0) {s : ℕ} (hs : s ∈ slots dir)
    (hnb : slotNbr L (exch6 L) p s = none) {C : Pt → Prop} {m : ℤ → V}
    (h : GHolds L dir (L.isize p) G C m) :
    GHolds L dir (L.isize p) G (fun P => C P ∨ Reg L (exch6 L) p s P)
      (gZeroSlot L dir p (grecv L dir (L.isize p) s) m) := by
  unfold gZeroSlot
  refine (h.fill _ _ _ (fun w => slotPt L (exch6 L) p s w.1 w.2) ?_).mono ?_
  · rintro ⟨n, t⟩ hm
    simp only [List.mem_flatMap, List.mem_range, List.mem_map, Prod.mk.injEq] at hm
    obtain ⟨n', hn, t', ht, rfl, rfl⟩ := hm
    refine ⟨gSlot_in p hs ht, gSlot_place p hs t', ?_⟩
    have ht' : t' ∈ ((exch6 L).recv (L.isize p) s).cells := by rw [grecv_cells hs] at ht; exact ht
    rw [← hf s hs n' t' ht, target_none (good6 L) hF hx hp (mem_slots.1 hs).1 hnb
      (P := slotPt L (exch6 L) p s n' t') ⟨hn, t', ht', rfl⟩, hf0]
  · rintro P - (hc | ⟨hn, t, ht, e⟩)
    · exact Or.inl hc
    · refine Or.inr ⟨(P.n, t), ?_, e⟩
      simp only [List.mem_flatMap, List.mem_range, List.mem_map]
      exact ⟨P.n, hn, t, by rw [grecv_cells hs]; exact ht, rfl⟩

/-- `x_ex` holds the extended function on the block extended along `dir`. -/
theorem gXex_holds (hF : L.Fits) (hx : Distributed L ldi L.ncol g xs) (hp : L.Valid p)
    (hin : ∀ P, Inner L p P → G P = target L g p P) (hf : GScaled L dir g p G f)
    (hf0 : ∀ s, f s 0 = 0) (m : ℤ → V) :
    ∃ m', gXex L dir f ldi xs p m = some m' ∧
      GHolds L dir (L.isize p) G (fun P => P.n < L.ncol) m' := by
  suffices h : ∃ m', gXex L dir f ldi xs p m = some m' ∧
      GHolds L dir (L.isize p) G (fun P => Inner L p P ∨ GReg L dir p P) m' by
    obtain ⟨m', e, h⟩ := h
    exact ⟨m', e, h.mono fun P hP hn => gCover L dir p hP hn⟩
  unfold gXex
  split_ifs with h
  · exact gMany_holds hF hx hp hin hf m
  · have h1 := dims_one hp h
    refine ⟨_, rfl, ?_⟩
    have h0 := gCopyIn_holds (dir := dir) hx hp hin (C := fun _ => False) (m := m)
      (fun P _ h => h.elim)
    have step : ∀ s ∈ slots dir, ∀ (C : Pt → Prop) (m' : ℤ → V), GHolds L dir (L.isize p) G C m' →
        GHolds L dir (L.isize p) G (fun P => C P ∨ Reg L (exch6 L) p s P)
        (if L.per (Fin.ofNat 3 (s / 2)) then
          gCopySlot L dir (ldi p) p (send6 (L.isize p) L.FDn ((s : ℤ) + (1 - 2 * (s % 2 : ℕ))).toNat)
            (grecv L dir (L.isize p) s) (f s) (xs p) m'
        else gZeroSlot L dir p (grecv L dir (L.isize p) s) m') := by
      intro s hs C m' hC
      have h6 := (mem_slots.1 hs).1
      have hnb := nbr_one h1 hp (step6 s h6)
      have hax : (∀ d, offs6.getD s 0 d = 0 ∨ L.per d = true) ↔
          L.per (Fin.ofNat 3 (s / 2)) = true := by
        constructor
        · intro hh
          rcases hh (Fin.ofNat 3 (s / 2)) with h2 | h2
          · exact absurd h2 (offs6_dir s h6)
          · exact h2
        · intro hh d
          by_cases hd : d = Fin.ofNat 3 (s / 2)
          · right; rw [hd]; exact hh
          · exact Or.inl (offs6_axis s h6 d hd)
      simp only [hax] at hnb
      split_ifs with hper
      · rw [if_pos hper] at hnb
        have o1 := (offs6_opp s h6 0).1
        have o2 := fun d => (offs6_opp s h6 d).2
        refine gCopySlot_holds hF hx hp hf hs hnb (fun d => ?_) (fun d => ?_) hC
        · have := (send6_eq (L.isize p) L.FDn _ o1 d).1
          rw [o2 d, neg_neg] at this
          exact this
        · have := (send6_eq (L.isize p) L.FDn _ o1 d).2
          rw [o2 d, neg_neg] at this
          exact this
      · rw [if_neg hper] at hnb
        exact gZeroSlot_holds hF hx hp hf hf0 hs hnb hC
    have a := step (2 * dir.val) (by simp [slots]) _ _ h0
    have b := step (2 * dir.val + 1) (by simp [slots]) _ _ a
    refine GHolds.mono b ?_
    rintro P - (hc | ⟨s, hs, hc⟩)
    · exact Or.inl (Or.inl (Or.inr hc))
    · rcases List.mem_pair.1 (show s ∈ [2 * dir.val, 2 * dir.val + 1] from hs) with rfl | rfl
      · exact Or.inl (Or.inr hc)
      · exact Or.inr hc

end general

/-! ### The phases -/

theorem gOutside_iff {L : Layout} {dir : Fin 3} {p : Proc} {i j k : ℤ} :
    gOutside L dir p i j k = false ↔
    sideInd (i + -exDir L dir 0 + L.start p 0) (L.N 0) = 0 ∧
    sideInd (j + -exDir L dir 1 + L.start p 1) (L.N 1) = 0 ∧
    sideInd (k + -exDir L dir 2 + L.start p 2) (L.N 2) = 0 := by
  simp only [sideInd_zero, gOutside, Bool.or_eq_false_iff, decide_eq_false_iff_not, not_lt, not_le,
    ge_iff_le]
  tauto

/-- The factor of a slot is the phase of the cell of each of its points. -/
theorem gScale_eq {L : Layout} (hF : L.Fits) (dir : Fin 3) (q : KPoint) {p : Proc} (hp : L.Valid p)
    {s : ℕ} (hs : s ∈ slots dir) {t : ℕ × ℕ × ℕ} (ht : t ∈ (grecv L dir (L.isize p) s).cells)
    (v : ℂ) :
    gScale L dir q.len (q.k dir) p s v = cellPhase q (gcell L (exch6 L) p s t) * v := by
  have ht' : t ∈ ((exch6 L).recv (L.isize p) s).cells := by rw [grecv_cells hs] at ht; exact ht
  obtain ⟨h6, hdir⟩ := mem_slots.1 hs
  have hg := gcell_spec (good6 L) hF hp (s := s) h6 ht'
  have hlo : ∀ d, (grecv L dir (L.isize p) s).lo d + -exDir L dir d + L.start p d =
      ((exch6 L).recv (L.isize p) s).lo d + -(L.FDn : ℤ) + L.start p d := by
    intro d
    rw [(good6 L).recv_lo _ s h6 d]
    have := (grecv_lo L (L.isize p) s h6 d).1
    rw [hdir] at this
    rw [this]
    change rlo (L.isize p d) L.FDn (offs6.getD s 0 d) - _ + _ + _ + _ =
      rlo (L.isize p d) L.FDn (offs6.getD s 0 d) + _ + _
    ring
  have hz : ∀ d, d ≠ dir → gcell L (exch6 L) p s t d = 0 := by
    intro d hd
    rcases (hg d).2.2.1 with h | h
    · exact h
    · rw [h]; exact offs6_axis s h6 d (by rw [hdir]; exact hd)
  unfold gScale
  dsimp only
  cases ho : gOutside L dir p ((grecv L dir (L.isize p) s).lo 0)
      ((grecv L dir (L.isize p) s).lo 1) ((grecv L dir (L.isize p) s).lo 2) with
  | false =>
    obtain ⟨h0, h1, h2⟩ := gOutside_iff.1 ho
    rw [hlo 0, ← (hg 0).2.1] at h0
    rw [hlo 1, ← (hg 1).2.1] at h1
    rw [hlo 2, ← (hg 2).2.1] at h2
    rw [cellPhase_zero q (fin3 h0 h1 h2)]
    simp
  | true =>
    have hne : ¬ ∀ d, gcell L (exch6 L) p s t d = 0 := by
      intro h
      have := gOutside_iff.2 ⟨by rw [hlo 0, ← (hg 0).2.1]; exact h 0,
        by rw [hlo 1, ← (hg 1).2.1]; exact h 1, by rw [hlo 2, ← (hg 2).2.1]; exact h 2⟩
      exact Bool.noConfusion (ho.symm.trans this)
    have hd : gcell L (exch6 L) p s t dir = offs6.getD s 0 dir := by
      rcases (hg dir).2.2.1 with h | h
      · exfalso
        apply hne
        intro d'
        by_cases hd' : d' = dir
        · rw [hd']; exact h
        · exact hz d' hd'
      · exact h
    have hoff : offs6.getD s 0 = gcell L (exch6 L) p s t := by
      funext d
      by_cases h : d = dir
      · rw [h]; exact hd.symm
      · rw [hz d h]; exact offs6_axis s h6 d (by rw [hdir]; exact h)
    rw [if_pos rfl, phases6_get _ s h6, mul_comm, hoff]
    congr 1
    unfold cellPhase
    congr 3
    clear hoff hd hne ho hlo hdir ht hs hg
    revert hz
    generalize gcell L (exch6 L) p s t = a
    revert dir
    refine fin3 ?_ ?_ ?_ <;> intro hz
    · rw [hz 1 (by decide), hz 2 (by decide)]; simp
    · rw [hz 0 (by decide), hz 2 (by decide)]; simp
    · rw [hz 0 (by decide), hz 1 (by decide)]; simp

/-! ### The kernel -/

theorem calcDX_at_c (X DX : Mem) (n : ℕ) (sX syX szX xX yX zX : ℤ) (w : ℕ → ℝ) (c : ℝ)
    {wx wy wz i j k : ℕ} (hi : i < wx) (hj : j < wy) (hk : k < wz) (f : ℤ → ℝ) (p : ℤ)
    (hX : ∀ s : ℤ, -n ≤ s → s ≤ n → X ((zX + k) * szX + (yX + j) * syX + i + xX + s * sX) = f (p + s)) :
    calcDX X DX n sX syX wx szX (wx * wy) 0 wx 0 wy 0 wz xX yX zX w c
      ((k : ℤ) * (wx * wy) + j * wx + i) = c * f p + S1 n w f p := by
  unfold calcDX
  simp only [sub_zero, Int.toNat_natCast, zero_add, add_zero]
  rw [fill_box _ _ hi hj hk _ fun t => by ring]
  simp only
  rw [FD.foldl_add_sum (fun r : ℕ => (X ((zX + k) * szX + (yX + j) * syX + i + xX + r * sX) -
    X ((zX + k) * szX + (yX + j) * syX + i + xX - r * sX)) * w r)]
  have h0 := hX 0 (by omega) (by omega)
  rw [zero_mul, add_zero, add_zero] at h0
  rw [h0, mul_comm]
  congr 1
  unfold S1
  refine Finset.sum_congr rfl fun r hr => ?_
  have hr := Finset.mem_range.1 hr
  have h1 := hX ((r + 1 : ℕ) : ℤ) (by omega) (by omega)
  have h2 := hX (-((r + 1 : ℕ) : ℤ)) (by omega) (by omega)
  rw [h1]
  rw [neg_mul, ← sub_eq_add_neg, ← sub_eq_add_neg] at h2
  rw [h2]

theorem S1_congr {n : ℕ} {w w' : ℕ → ℝ} (h : ∀ r, 1 ≤ r → w r = w' r) (f : ℤ → ℝ) (p : ℤ) :
    S1 n w f p = S1 n w' f p := by
  unfold S1
  exact Finset.sum_congr rfl fun r _ => by rw [h (r + 1) (by omega)]

/-- The call of the kernel on an array that holds `G`. -/
theorem gKernel (L : Layout) (dir : Fin 3) (p : Proc) (h : Fin 3 → ℝ) {w : ℕ → ℝ}
    (hw : ∀ r, 1 ≤ r → w r = FD.coefD1 L.FDn (h dir) r) (c : ℝ) {m : Mem} {G : Pt → ℝ}
    (hm : GHolds L dir (L.isize p) G (fun P => P.n < L.ncol) m) (Dx : Mem) {n i j k : ℕ}
    (hn : n < L.ncol) (hi : i < L.size p 0) (hj : j < L.size p 1) (hk : k < L.size p 2) :
    calcDX (gColumn L dir p n m) Dx L.FDn (pshift L dir (L.isize p)) (sizeEx L dir (L.isize p) 0)
      (L.isize p 0) (sizeEx L dir (L.isize p) 0 * sizeEx L dir (L.isize p) 1)
      (L.isize p 0 * L.isize p 1) 0 (L.isize p 0) 0 (L.isize p 1) 0 (L.isize p 2)
      (exDir L dir 0) (exDir L dir 1) (exDir L dir 2) w c (addr (L.isize p) 0 0 i j k) =
    c * G ⟨n, i, j, k⟩ + D L.FDn h dir (fun i j k => G ⟨n, i, j, k⟩) i j k := by
  have ea : addr (L.isize p) 0 0 i j k =
      (k : ℤ) * ((L.size p 0 : ℤ) * L.size p 1) + j * L.size p 0 + i := by
    unfold addr Layout.isize
    push_cast
    ring
  rw [ea]
  have hF : (0 : ℤ) ≤ L.FDn := Int.natCast_nonneg _
  have place : ∀ x y z : ℤ, GIn L dir (L.isize p) ⟨n, x, y, z⟩ →
      gColumn L dir p n m ((exDir L dir 2 + z) *
        (sizeEx L dir (L.isize p) 0 * sizeEx L dir (L.isize p) 1) +
        (exDir L dir 1 + y) * sizeEx L dir (L.isize p) 0 + (exDir L dir 0 + x)) = G ⟨n, x, y, z⟩ := by
    intro x y z hP
    rw [← hm _ hP hn]
    unfold gColumn gPlace gIdx
    ring_nf
  have e0 : (exDir L 0 0 = L.FDn ∧ exDir L 0 1 = 0 ∧ exDir L 0 2 = 0) := by simp [exDir, isDir]
  have e1 : (exDir L 1 0 = 0 ∧ exDir L 1 1 = L.FDn ∧ exDir L 1 2 = 0) := by simp [exDir, isDir]
  have e2 : (exDir L 2 0 = 0 ∧ exDir L 2 1 = 0 ∧ exDir L 2 2 = L.FDn) := by simp [exDir, isDir]
  have hin : ∀ x y z : ℤ, GIn L dir (L.isize p) ⟨n, x, y, z⟩ ↔
      (-exDir L dir 0 ≤ x ∧ x < L.size p 0 + exDir L dir 0) ∧
      (-exDir L dir 1 ≤ y ∧ y < L.size p 1 + exDir L dir 1) ∧
      (-exDir L dir 2 ≤ z ∧ z < L.size p 2 + exDir L dir 2) := fun x y z => Iff.rfl
  revert dir
  refine fin3 ?_ ?_ ?_ <;> intro hw hm place hin
  · refine (calcDX_at_c _ Dx L.FDn _ _ _ _ _ _ w c hi hj hk (fun s => G ⟨n, s, j, k⟩) i ?_).trans ?_
    · intro s h1 h2
      rw [← place _ _ _ ((hin _ _ _).2 (by omega))]
      congr 1
      simp only [pshift]
      ring
    · rw [S1_congr hw, ← applyD1_eq]
      rfl
  · refine (calcDX_at_c _ Dx L.FDn _ _ _ _ _ _ w c hi hj hk (fun s => G ⟨n, i, s, k⟩) j ?_).trans ?_
    · intro s h1 h2
      rw [← place _ _ _ ((hin _ _ _).2 (by omega))]
      congr 1
      simp only [pshift]
      ring
    · rw [S1_congr hw, ← applyD1_eq]
      rfl
  · refine (calcDX_at_c _ Dx L.FDn _ _ _ _ _ _ w c hi hj hk (fun s => G ⟨n, i, j, s⟩) k ?_).trans ?_
    · intro s h1 h2
      rw [← place _ _ _ ((hin _ _ _).2 (by omega))]
      congr 1
      simp only [pshift]
      ring
    · rw [S1_congr hw, ← applyD1_eq]
      rfl

end Sparc.Grad

import Verif.Tac
import Verif.Wrap.Model
import Verif.Coord.Props

/-! # C17: atoms are mapped into the periodic cell -/

namespace Sparc.Wrap

/-! ## One coordinate -/

theorem fmod_spec {x y : ℝ} (hy : 0 < y) :
    (0 ≤ x → 0 ≤ fmod x y ∧ fmod x y < y) ∧ (x < 0 → -y < fmod x y ∧ fmod x y ≤ 0) ∧
    ∃ k : ℤ, fmod x y = x + k * y := by
  have hq : x / y * y = x := by field_simp
  refine ⟨?_, ?_, ?_⟩
  · intro hx
    have h0 : ¬ x / y < 0 := not_lt.mpr (by positivity)
    unfold fmod
    rw [if_neg h0]
    have h1 := Int.floor_le (x / y)
    have h2 := Int.lt_floor_add_one (x / y)
    constructor
    · nlinarith
    · nlinarith
  · intro hx
    have h0 : x / y < 0 := div_neg_of_neg_of_pos hx hy
    unfold fmod
    rw [if_pos h0]
    have h1 := Int.le_ceil (x / y)
    have h2 := Int.ceil_lt_add_one (x / y)
    constructor
    · nlinarith
    · nlinarith
  · unfold fmod
    split
    · exact ⟨-⌈x / y⌉, by push_cast; ring⟩
    · exact ⟨-⌊x / y⌋, by push_cast; ring⟩

/-- The wrapped coordinate lies in `[0, len)` and is congruent to the given one. -/
theorem wrap_spec {len : ℝ} (hl : 0 < len) (x : ℝ) :
    0 ≤ wrap len x ∧ wrap len x < len ∧ ∃ k : ℤ, wrap len x = x + k * len := by
  unfold wrap
  obtain ⟨f1, f2, k, hk⟩ := fmod_spec (x := x) hl
  split
  · rename_i h
    dsimp only
    split
    · rename_i hneg
      have hx : x < 0 := by
        by_contra hx
        linarith [(f1 (not_lt.mp hx)).1]
      refine ⟨by linarith [(f2 hx).1], by linarith, k + 1, by rw [hk]; push_cast; ring⟩
    · rename_i hnn
      refine ⟨by linarith, ?_, k, by rw [hk]; ring⟩
      rcases lt_or_ge x 0 with hx | hx
      · linarith [(f2 hx).2]
      · linarith [(f1 hx).2]
  · rename_i h
    push Not at h
    exact ⟨h.1, h.2, 0, by simp⟩

theorem wrap_id {len x : ℝ} (h0 : 0 ≤ x) (h1 : x < len) : wrap len x = x := by
  unfold wrap
  rw [if_neg]
  push Not
  exact ⟨h0, h1⟩

theorem wrapSock_spec {len : ℝ} (hl : 0 < len) (x : ℝ) :
    0 ≤ wrapSock len x ∧ wrapSock len x ≤ len ∧ (wrapSock len x = len → x = len) ∧
    ∃ k : ℤ, wrapSock len x = x + k * len := by
  by_cases hx : x = len
  · subst hx
    have : wrapSock x x = x := by
      unfold wrapSock; rw [if_neg]; push Not; exact ⟨hl.le, le_refl _⟩
    rw [this]
    exact ⟨hl.le, le_refl _, fun _ => rfl, 0, by simp⟩
  · have e : wrapSock len x = wrap len x := by
      unfold wrapSock wrap
      by_cases h : x < 0 ∨ x > len
      · rw [if_pos h, if_pos (h.imp_right le_of_lt)]
      · have h' : ¬ (x < 0 ∨ x ≥ len) := by
          push Not at h ⊢
          exact ⟨h.1, lt_of_le_of_ne h.2 hx⟩
        rw [if_neg h, if_neg h']
    obtain ⟨a, b, c⟩ := wrap_spec hl x
    rw [e]
    exact ⟨a, b.le, fun h => absurd h (ne_of_lt b), c⟩

/-! ## Whole arrays -/

/-- Specification of a mapping of the atom list: same atoms in the same order; in a periodic
direction the coordinate is in the cell and moved by whole cell lengths, in any other
direction it is unchanged and satisfied the domain test `ok`. -/
def Mapped (inCell : Fin 3 → ℝ → Prop) (ok : Fin 3 → ℝ → Prop) (c : Cell)
    (old new : List (Fin 3 → ℝ)) : Prop :=
  List.Forall₂ (fun a b => ∀ d : Fin 3,
    (c.bc d = 0 → inCell d (b d) ∧ ∃ k : ℤ, b d = a d + k * c.range d) ∧
    (c.bc d ≠ 0 → b d = a d ∧ ok d (a d))) old new

theorem mapDir_some {w : ℝ → ℝ} {bad : ℝ → Bool} {bc : ℕ} {d : Fin 3} {as bs : List (Fin 3 → ℝ)}
    (h : mapDir w bad bc d as = some bs) :
    List.Forall₂ (fun a b => (∀ e, e ≠ d → b e = a e) ∧ (bc = 0 → b d = w (a d)) ∧
      (bc ≠ 0 → b d = a d ∧ bad (a d) = false)) as bs := by
  unfold mapDir at h
  split at h
  · rename_i hb
    cases h
    rw [List.forall₂_map_right_iff]
    apply List.forall₂_same.mpr
    intro a _
    refine ⟨fun e he => Function.update_of_ne he _ _, fun _ => Function.update_self _ _ _, fun h => absurd hb h⟩
  · rename_i hb
    split at h
    · cases h
    · rename_i hany
      cases h
      apply List.forall₂_same.mpr
      intro a ha
      refine ⟨fun _ _ => rfl, fun h => absurd h hb, fun _ => ⟨rfl, ?_⟩⟩
      have h2 := List.any_eq_false.mp (Bool.eq_false_iff.mpr hany) a ha
      exact Bool.eq_false_iff.mpr h2

theorem mapDir_isSome {w : ℝ → ℝ} {bad : ℝ → Bool} {bc : ℕ} {d : Fin 3} {as : List (Fin 3 → ℝ)} :
    (mapDir w bad bc d as).isSome ↔ (bc ≠ 0 → ∀ a ∈ as, bad (a d) = false) := by
  unfold mapDir
  split
  · rename_i h; simp [h]
  · rename_i h
    split
    · rename_i hany
      obtain ⟨a, ha, hb⟩ := List.any_eq_true.mp hany
      simp only [Option.isSome_none, Bool.false_eq_true, ne_eq, false_iff]
      intro hall
      have := hall h a ha
      rw [hb] at this
      cases this
    · rename_i hany
      simp only [Option.isSome_some, ne_eq, true_iff]
      intro _ a ha
      exact Bool.eq_false_iff.mpr (List.any_eq_false.mp (Bool.eq_false_iff.mpr hany) a ha)

theorem forall₂_mem_right {α β : Type*} {R : α → β → Prop} {as : List α} {bs : List β}
    (h : List.Forall₂ R as bs) : ∀ b ∈ bs, ∃ a ∈ as, R a b := by
  induction h with
  | nil => intro b hb; cases hb
  | cons hab _ ih =>
    intro b hb
    rcases List.mem_cons.mp hb with rfl | hb
    · exact ⟨_, List.mem_cons_self, hab⟩
    · obtain ⟨a, ha, h⟩ := ih b hb; exact ⟨a, List.mem_cons_of_mem _ ha, h⟩

theorem forall₂_mem_left {α β : Type*} {R : α → β → Prop} {as : List α} {bs : List β}
    (h : List.Forall₂ R as bs) : ∀ a ∈ as, ∃ b ∈ bs, R a b := by
  induction h with
  | nil => intro b hb; cases hb
  | cons hab _ ih =>
    intro b hb
    rcases List.mem_cons.mp hb with rfl | hb
    · exact ⟨_, List.mem_cons_self, hab⟩
    · obtain ⟨a, ha, h⟩ := ih b hb; exact ⟨a, List.mem_cons_of_mem _ ha, h⟩

theorem forall₂_comp {α β γ : Type*} {R : α → β → Prop} {S : β → γ → Prop} {as : List α} {bs : List β}
    {cs : List γ} (h1 : List.Forall₂ R as bs) (h2 : List.Forall₂ S bs cs) :
    List.Forall₂ (fun a c => ∃ b, R a b ∧ S b c) as cs := by
  induction h1 generalizing cs with
  | nil => cases h2; exact List.Forall₂.nil
  | cons hab _ ih =>
    cases h2 with
    | cons hbc h2' => exact List.Forall₂.cons ⟨_, hab, hbc⟩ (ih h2')

/-- The three directions in sequence, for any per-direction maps and tests. -/
theorem three_dirs (w : Fin 3 → ℝ → ℝ) (bad : Fin 3 → ℝ → Bool) (c : Cell) (as : List (Fin 3 → ℝ))
    (inCell ok : Fin 3 → ℝ → Prop)
    (hw : ∀ d x, inCell d (w d x) ∧ ∃ k : ℤ, w d x = x + k * c.range d)
    (hok : ∀ d x, bad d x = false ↔ ok d x) :
    (∀ bs, (do
      let a ← mapDir (w 0) (bad 0) (c.bc 0) 0 as
      let a ← mapDir (w 1) (bad 1) (c.bc 1) 1 a
      mapDir (w 2) (bad 2) (c.bc 2) 2 a) = some bs → Mapped inCell ok c as bs) ∧
    (((do
      let a ← mapDir (w 0) (bad 0) (c.bc 0) 0 as
      let a ← mapDir (w 1) (bad 1) (c.bc 1) 1 a
      mapDir (w 2) (bad 2) (c.bc 2) 2 a).isSome) ↔ ∀ a ∈ as, ∀ d, c.bc d ≠ 0 → ok d (a d)) := by
  constructor
  · intro bs h
    simp only [Option.bind_eq_bind, Option.bind_eq_some_iff] at h
    obtain ⟨b0, h0, b1, h1, h2⟩ := h
    have := forall₂_comp (mapDir_some h0) (forall₂_comp (mapDir_some h1) (mapDir_some h2))
    refine List.Forall₂.imp ?_ this
    rintro a b ⟨x, ⟨x0, x1, x2⟩, y, ⟨y0, y1, y2⟩, ⟨z0, z1, z2⟩⟩
    have e01 : b 0 = x 0 := by rw [z0 0 (by decide), y0 0 (by decide)]
    have e1 : b 1 = y 1 := z0 1 (by decide)
    have f1 : x 1 = a 1 := x0 1 (by decide)
    have f2 : y 2 = a 2 := by rw [y0 2 (by decide), x0 2 (by decide)]
    intro d
    fin_cases d
    · simp only [Fin.zero_eta] at *
      rw [e01]
      constructor
      · intro hb; rw [x1 hb]; exact hw 0 (a 0)
      · intro hb; exact ⟨(x2 hb).1, (hok 0 _).mp (x2 hb).2⟩
    · simp only [Fin.mk_one] at *
      rw [e1, ← f1]
      constructor
      · intro hb; rw [y1 hb]; exact hw 1 (x 1)
      · intro hb; exact ⟨(y2 hb).1, (hok 1 _).mp (y2 hb).2⟩
    · simp only [Fin.reduceFinMk] at *
      rw [← f2]
      constructor
      · intro hb; rw [z1 hb]; exact hw 2 (y 2)
      · intro hb; exact ⟨(z2 hb).1, (hok 2 _).mp (z2 hb).2⟩
  · constructor
    · intro h
      obtain ⟨bs, hbs⟩ := Option.isSome_iff_exists.mp h
      simp only [Option.bind_eq_bind, Option.bind_eq_some_iff] at hbs
      obtain ⟨b0, h0, b1, h1, h2⟩ := hbs
      have := forall₂_comp (mapDir_some h0) (forall₂_comp (mapDir_some h1) (mapDir_some h2))
      intro a ha d hd
      obtain ⟨b, -, x, ⟨x0, x1, x2⟩, y, ⟨y0, y1, y2⟩, ⟨z0, z1, z2⟩⟩ := forall₂_mem_left this a ha
      have f1 : x 1 = a 1 := x0 1 (by decide)
      have f2 : y 2 = a 2 := by rw [y0 2 (by decide), x0 2 (by decide)]
      fin_cases d
      · exact (hok 0 _).mp (x2 hd).2
      · have := (hok 1 _).mp (y2 hd).2; rw [f1] at this; exact this
      · have := (hok 2 _).mp (z2 hd).2; rw [f2] at this; exact this
    · intro h
      have s0 : (mapDir (w 0) (bad 0) (c.bc 0) 0 as).isSome :=
        mapDir_isSome.mpr (fun hb a ha => (hok 0 _).mpr (h a ha 0 hb))
      obtain ⟨b0, h0⟩ := Option.isSome_iff_exists.mp s0
      have s1 : (mapDir (w 1) (bad 1) (c.bc 1) 1 b0).isSome := by
        refine mapDir_isSome.mpr (fun hb b hbm => ?_)
        obtain ⟨a, ha, hR⟩ := forall₂_mem_right (mapDir_some h0) b hbm
        rw [hR.1 1 (by decide)]
        exact (hok 1 _).mpr (h a ha 1 hb)
      obtain ⟨b1, h1⟩ := Option.isSome_iff_exists.mp s1
      have s2 : (mapDir (w 2) (bad 2) (c.bc 2) 2 b1).isSome := by
        refine mapDir_isSome.mpr (fun hb b hbm => ?_)
        obtain ⟨a, ha, x, hR, hS⟩ := forall₂_mem_right (forall₂_comp (mapDir_some h0) (mapDir_some h1)) b hbm
        rw [hS.1 2 (by decide), hR.1 2 (by decide)]
        exact (hok 2 _).mpr (h a ha 2 hb)
      simp only [Option.bind_eq_bind, h0, Option.bind_some, h1]
      exact s2

/-- Half-open cell `[0, L)`. -/
def inHalfOpen (c : Cell) (d : Fin 3) (x : ℝ) : Prop := 0 ≤ x ∧ x < c.range d

/-- Closed domain `[lo, lo + L]`. -/
def inClosed (c : Cell) (d : Fin 3) (x : ℝ) : Prop := c.lo d ≤ x ∧ x ≤ c.range d + c.lo d

/-- **C17, input.** The run is accepted exactly when every atom is inside the domain in the
non-periodic directions; afterwards every periodic coordinate is in `[0, L)` and has moved
by a whole number of cell lengths, and nothing else has changed. -/
theorem wrap_input (c : Cell) (hr : ∀ d, 0 < c.range d) (atoms : List (Fin 3 → ℝ)) :
    ((mapInput c atoms).isSome ↔ ∀ a ∈ atoms, ∀ d, c.bc d ≠ 0 → inClosed c d (a d)) ∧
    (∀ out, mapInput c atoms = some out → Mapped (inHalfOpen c) (inClosed c) c atoms out) := by
  classical
  have key := three_dirs (fun d => wrap (c.range d))
    (fun d x => if d = 0 then decide (x < c.xin ∨ x > c.range 0 + c.xin) else decide (x < 0 ∨ x > c.range d))
    c atoms (inHalfOpen c) (inClosed c)
    (fun d x => ⟨⟨(wrap_spec (hr d) x).1, (wrap_spec (hr d) x).2.1⟩, (wrap_spec (hr d) x).2.2⟩)
    (by
      intro d x
      unfold inClosed Cell.lo
      by_cases h : d = 0
      · subst h; simp
      · simp [h])
  exact ⟨key.2, key.1⟩

/-- **C17, dynamics and relaxation.** The same for the mapping applied after every move,
where the stored coordinates are first converted to lattice coordinates; in non-periodic
directions atoms must lie in `[0, L)`. -/
theorem wrap_dynamics (G : Coord.Geom) (c : Cell) (hr : ∀ d, 0 < c.range d) (atoms : List (Fin 3 → ℝ)) :
    let lat := if G.cellTyp ≠ 0 then atoms.map (toLattice G) else atoms
    ((wraparound G c atoms).isSome ↔ ∀ a ∈ lat, ∀ d, c.bc d ≠ 0 → inHalfOpen c d (a d)) ∧
    (∀ out, wraparound G c atoms = some out → Mapped (inHalfOpen c) (inHalfOpen c) c lat out) := by
  classical
  intro lat
  have key := three_dirs (fun d => wrap (c.range d)) (fun d x => decide (x ≥ c.range d ∨ x < 0))
    c lat (inHalfOpen c) (inHalfOpen c)
    (fun d x => ⟨⟨(wrap_spec (hr d) x).1, (wrap_spec (hr d) x).2.1⟩, (wrap_spec (hr d) x).2.2⟩)
    (by
      intro d x
      unfold inHalfOpen
      simp
      exact and_comm)
  exact ⟨key.2, key.1⟩

/-- In a converted cell the mapped atom is the same physical atom up to lattice
translations: its Cartesian position is the old one plus integer multiples of the lattice
vectors of length `range d`. -/
theorem wrap_dynamics_cartesian (L : ℕ → ℝ) (G : Coord.Geom) (h : Coord.transformMat L = some G)
    (a b : Fin 3 → ℝ) (k : Fin 3 → ℤ) (c : Cell)
    (hb : ∀ d, b d = toLattice G a d + k d * c.range d) :
    Coord.position L (b 0, b 1, b 2) =
      (a 0, a 1, a 2) + Coord.position L (k 0 * c.range 0, k 1 * c.range 1, k 2 * c.range 2) := by
  obtain ⟨-, -, e3⟩ := Coord.coord_round_trip L G h (a 0, a 1, a 2)
  have ep := Coord.toCart_position h
  rw [← ep, ← ep, hb 0, hb 1, hb 2]
  rw [← e3]
  conv_rhs => rw [e3]
  unfold toLattice
  simp only [Matrix.cons_val_zero, Matrix.cons_val_one, Matrix.cons_val]
  generalize hq : Coord.ofCart G (a 0, a 1, a 2) = q at *
  rw [← e3]
  unfold Coord.toCart
  simp only [Prod.mk_add_mk, Prod.mk.injEq]
  refine ⟨by ring, by ring, by ring⟩

/-- **C17, idempotence.** Mapping an already mapped list changes nothing. -/
theorem wrap_input_idempotent (c : Cell) (hr : ∀ d, 0 < c.range d) (atoms out : List (Fin 3 → ℝ))
    (h : mapInput c atoms = some out) : mapInput c out = some out := by
  obtain ⟨k1, k2⟩ := wrap_input c hr atoms
  have hm := k2 out h
  have hs : (mapInput c out).isSome := by
    rw [(wrap_input c hr out).1]
    intro b hb d hd
    obtain ⟨a, ha, hR⟩ := forall₂_mem_right hm b hb
    rw [((hR d).2 hd).1]
    exact ((hR d).2 hd).2
  obtain ⟨out2, h2⟩ := Option.isSome_iff_exists.mp hs
  have hm2 := (wrap_input c hr out).2 out2 h2
  rw [h2]
  congr 1
  have hcell : ∀ b ∈ out, ∀ d, c.bc d = 0 → inHalfOpen c d (b d) := by
    intro b hb d hd
    obtain ⟨a, ha, hR⟩ := forall₂_mem_right hm b hb
    exact ((hR d).1 hd).1
  clear h h2 hm hs k1 k2
  unfold Mapped at hm2
  induction hm2 with
  | nil => rfl
  | @cons a b l1 l2 hab _ ih =>
    congr 1
    · funext d
      by_cases hd : c.bc d = 0
      · obtain ⟨⟨p0, p1⟩, k, hk⟩ := (hab d).1 hd
        obtain ⟨q0, q1⟩ := hcell a List.mem_cons_self d hd
        have hL := hr d
        have k0 : k = 0 := by
          have a1 : (-1 : ℝ) < k := by nlinarith
          have a2 : (k : ℝ) < 1 := by nlinarith
          have b1 : -1 < k := by exact_mod_cast a1
          have b2 : k < 1 := by exact_mod_cast a2
          omega
        rw [hk, k0]; simp
      · exact ((hab d).2 hd).1
    · exact ih (fun b hb => hcell b (List.mem_cons_of_mem _ hb))

/-- **C17, socket driver (partial).** The socket driver only guarantees the closed cell
`[0, L]`; what is missing is `< L`, see `wrap_socket_boundary`. -/
theorem wrap_socket_partial (c : Cell) (hr : ∀ d, 0 < c.range d) (atoms : List (Fin 3 → ℝ)) :
    ((mapSocket c atoms).isSome ↔ ∀ a ∈ atoms, ∀ d, c.bc d ≠ 0 → inClosed c d (a d)) ∧
    (∀ out, mapSocket c atoms = some out →
      Mapped (fun d x => 0 ≤ x ∧ x ≤ c.range d) (inClosed c) c atoms out) := by
  classical
  have key := three_dirs (fun d => wrapSock (c.range d))
    (fun d x => if d = 0 then decide (x < c.xin ∨ x > c.range 0 + c.xin) else decide (x < 0 ∨ x > c.range d))
    c atoms (fun d x => 0 ≤ x ∧ x ≤ c.range d) (inClosed c)
    (fun d x => ⟨⟨(wrapSock_spec (hr d) x).1, (wrapSock_spec (hr d) x).2.1⟩, (wrapSock_spec (hr d) x).2.2.2⟩)
    (by
      intro d x
      unfold inClosed Cell.lo
      by_cases h : d = 0
      · subst h; simp
      · simp [h])
  exact ⟨key.2, key.1⟩

/-- **Finding.** An atom received by the socket driver exactly at `x = L` stays at `L`,
outside the half-open cell that the input file reader and the dynamics guarantee. -/
theorem wrap_socket_boundary :
    ∃ (c : Cell) (atoms out : List (Fin 3 → ℝ)), (∀ d, 0 < c.range d) ∧ (∀ d, c.bc d = 0) ∧
      mapSocket c atoms = some out ∧ ¬ (∀ b ∈ out, ∀ d, inHalfOpen c d (b d)) ∧
      mapInput c atoms ≠ some out := by
  refine ⟨⟨fun _ => 0, fun _ => 10, 0⟩, [fun _ => 10], [fun _ => 10], fun _ => by norm_num, fun _ => rfl, ?_, ?_, ?_⟩
  · have e : wrapSock 10 10 = 10 := by unfold wrapSock; rw [if_neg]; norm_num
    simp [mapSocket, mapDir, e]
  · intro h
    have := (h (fun _ => 10) (by simp) 0).2
    norm_num at this
  · intro h
    have := (wrap_input ⟨fun _ => 0, fun _ => 10, 0⟩ (fun _ => by norm_num) [fun _ => 10]).2 _ h
    unfold Mapped at this
    cases this with
    | cons hab _ =>
      have := ((hab 0).1 rfl).1.2
      norm_num at this

/-- **C17, rotating cells.** Wrapping in a helical cell rotates the in-plane velocity and so
keeps the speed. -/
theorem wrap_velocity_speed (angle : ℝ) (v : ℝ × ℝ) :
    (wrapVelocity angle v).1 ^ 2 + (wrapVelocity angle v).2 ^ 2 = v.1 ^ 2 + v.2 ^ 2 := by
  unfold wrapVelocity
  have := Real.sin_sq_add_cos_sq angle
  dsimp only
  linear_combination (v.1 ^ 2 + v.2 ^ 2) * this

/-! ## Rounding -/

/-- The sum in `wrap` evaluated with a rounding function `rnd` (`fmod` itself is exact in
IEEE arithmetic). -/
noncomputable def wrapRnd (rnd : ℝ → ℝ) (len x : ℝ) : ℝ :=
  if x < 0 ∨ x ≥ len then
    let x := fmod x len
    rnd (x + (if x < 0 then 1 else 0) * len)
  else x

/-- With any monotone rounding that fixes `0` and `len`, the result stays in `[0, len]`. -/
theorem wrap_rounded (rnd : ℝ → ℝ) (hm : Monotone rnd) (len : ℝ) (hl : 0 < len) (h0 : rnd 0 = 0)
    (h1 : rnd len = len) (x : ℝ) : 0 ≤ wrapRnd rnd len x ∧ wrapRnd rnd len x ≤ len := by
  have hw := wrap_spec hl x
  unfold wrap at hw
  unfold wrapRnd
  split
  · rename_i h
    rw [if_pos h] at hw
    dsimp only at hw ⊢
    constructor
    · have := hm hw.1; rwa [h0] at this
    · have := hm hw.2.1.le; rwa [h1] at this
  · rename_i h
    push Not at h
    exact ⟨h.1, h.2.le⟩

/-- **Finding.** The open end is lost under rounding: a coordinate slightly below zero is
mapped to exactly `len` (here rounding to integers, `x = -1/4`, `len = 10`; in binary64 the
same happens for every negative `x` smaller than half an ulp of `len`). -/
theorem wrap_rounded_reaches_len :
    ∃ rnd : ℝ → ℝ, Monotone rnd ∧ rnd 0 = 0 ∧ rnd 10 = 10 ∧ wrapRnd rnd 10 (-1 / 4) = 10 := by
  refine ⟨fun r => (⌊r + 1 / 2⌋ : ℤ), ?_, by norm_num, by norm_num, ?_⟩
  · intro a b hab
    have : ⌊a + 1 / 2⌋ ≤ ⌊b + 1 / 2⌋ := Int.floor_mono (by linarith)
    show ((⌊a + 1 / 2⌋ : ℤ) : ℝ) ≤ ((⌊b + 1 / 2⌋ : ℤ) : ℝ)
    exact_mod_cast this
  · have hf : fmod (-1 / 4) 10 = -1 / 4 := by
      unfold fmod
      have : ⌈(-1 / 4 / 10 : ℝ)⌉ = 0 := by rw [Int.ceil_eq_iff]; norm_num
      rw [if_pos (by norm_num), this]; norm_num
    unfold wrapRnd
    rw [if_pos (by norm_num)]
    dsimp only
    rw [hf]
    have : ⌊(-1 / 4 + (if (-1 / 4 : ℝ) < 0 then 1 else 0) * 10 + 1 / 2 : ℝ)⌋ = 10 := by
      rw [if_pos (by norm_num), Int.floor_eq_iff]; norm_num
    rw [this]; norm_num

/-- Two atoms, mixed boundary conditions: the mapping succeeds and moves the first atom from
`x = -13` to `x = 7`. -/
example : ∃ out, mapInput ⟨![0, 0, 1], fun _ => 10, 0⟩ [![-13, 25, 3], ![1, 2, 10]] = some out ∧
    Mapped (inHalfOpen ⟨![0, 0, 1], fun _ => 10, 0⟩) (inClosed ⟨![0, 0, 1], fun _ => 10, 0⟩)
      ⟨![0, 0, 1], fun _ => 10, 0⟩ [![-13, 25, 3], ![1, 2, 10]] out := by
  have h := wrap_input ⟨![0, 0, 1], fun _ => 10, 0⟩ (fun _ => by norm_num) [![-13, 25, 3], ![1, 2, 10]]
  have hs := h.1.mpr (by
    intro a ha d hd
    fin_cases d
    · simp at hd
    · simp at hd
    · simp only [List.mem_cons, List.not_mem_nil, or_false] at ha
      rcases ha with rfl | rfl <;> norm_num [inClosed, Cell.lo])
  obtain ⟨out, ho⟩ := Option.isSome_iff_exists.mp hs
  exact ⟨out, ho, h.2 out ho⟩

end Sparc.Wrap

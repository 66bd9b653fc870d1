import Verif.Bloch.Model
import Verif.Halo.Props

/-!
# The distributed Laplacian at a k-point: lemmas
-/

namespace Sparc.Bloch

open Loop Lap Halo

/-! ### Specification of the extended function -/

/-- The grid function continued beyond the cell by Bloch's theorem: a translation by the cell along
axis `d` multiplies it by `exp(i k_d len_d)`; zero outside a non-periodic boundary. -/
noncomputable def bloch (L : Layout) (q : KPoint) (u : ℕ → ℕ → ℕ → ℂ) (I J K : ℤ) : ℂ :=
  Complex.exp (Complex.I * ((q.k 0 * q.len 0 * (I / L.N 0 : ℤ) + q.k 1 * q.len 1 * (J / L.N 1 : ℤ) +
    q.k 2 * q.len 2 * (K / L.N 2 : ℤ) : ℝ) : ℂ)) * ext L u I J K

/-- Value at a point relative to the block of `p`. -/
noncomputable def targetK (L : Layout) (q : KPoint) (g : ℕ → ℕ → ℕ → ℕ → ℂ) (p : Proc) (P : Pt) : ℂ :=
  bloch L q (g P.n) (L.start p 0 + P.i) (L.start p 1 + P.j) (L.start p 2 + P.k)

/-- The phase of a translation by `a` cells. -/
noncomputable def cellPhase (q : KPoint) (a : Fin 3 → ℤ) : ℂ :=
  Complex.exp (Complex.I * ((q.k 0 * q.len 0 * a 0 + q.k 1 * q.len 1 * a 1 +
    q.k 2 * q.len 2 * a 2 : ℝ) : ℂ))

theorem phaseFactor_eq (q : KPoint) (a : Fin 3 → ℤ) :
    phaseFactor q.k ![a 0 * q.len 0, a 1 * q.len 1, a 2 * q.len 2] = cellPhase q a := by
  unfold phaseFactor cellPhase
  dsimp only [Matrix.cons_val_zero, Matrix.cons_val_one, Matrix.cons_val]
  rw [mul_comm Complex.I, Complex.exp_mul_I, Complex.ofReal_cos, Complex.ofReal_sin]
  congr 3 <;> (push_cast; ring)

theorem phaseL_eq (q : KPoint) (d : Fin 3) :
    phaseL q d = Complex.exp (Complex.I * ((-(q.k d * q.len d) : ℝ) : ℂ)) := by
  unfold phaseL
  rw [mul_comm Complex.I, Complex.exp_mul_I]
  simp only [Complex.ofReal_neg, Complex.cos_neg, Complex.sin_neg, Complex.ofReal_cos,
    Complex.ofReal_sin]
  ring

theorem conj_phaseL (q : KPoint) (d : Fin 3) :
    (starRingEnd ℂ) (phaseL q d) = Complex.exp (Complex.I * ((q.k d * q.len d : ℝ) : ℂ)) := by
  rw [phaseL_eq, ← Complex.exp_conj]
  congr 1
  simp

theorem phases26_eq (q : KPoint) : phases26 q =
    offs26.map fun e => phaseFactor q.k ![e 0 * q.len 0, e 1 * q.len 1, e 2 * q.len 2] := by
  unfold phases26 offs26
  simp only [List.map_flatMap]
  refine congrArg (fun h => ([-1, 0, 1] : List ℤ).flatMap h) (funext fun k => ?_)
  refine congrArg (fun h => ([-1, 0, 1] : List ℤ).flatMap h) (funext fun j => ?_)
  refine congrArg (fun h => ([-1, 0, 1] : List ℤ).flatMap h) (funext fun i => ?_)
  split_ifs <;> simp

theorem phases6_get (q : KPoint) : ∀ s < 6, (phases6 q).getD s 0 = cellPhase q (offs6.getD s 0) := by
  have h : phases6 q = offs6.map (cellPhase q) := by
    unfold phases6
    simp only [conj_phaseL, offs6, List.map_cons, List.map_nil, cellPhase]
    simp only [phaseL_eq]
    simp
  intro s hs
  rw [h]
  exact getD_map offs6 (cellPhase q) 0 0 hs

theorem phases26_get (q : KPoint) {s : ℕ} (hs : s < 26) :
    (phases26 q).getD s 0 = cellPhase q (offs26.getD s 0) := by
  rw [phases26_eq, getD_map offs26 _ 0 0 hs, phaseFactor_eq]

/-! ### Position of a halo point relative to the cell -/

theorem sideInd_zero {I : ℤ} {N : ℕ} : sideInd I N = 0 ↔ 0 ≤ I ∧ I < N := by
  unfold sideInd
  split_ifs <;> constructor <;> intro h <;> omega

/-- Along one axis, the points of a slot lie in one cell; it is the cell of the slot's step or the
central cell. -/
theorem axis_wind {N dim F c : ℕ} {e : ℤ} (hc : c < dim)
    (hF : ∀ r < dim, F ≤ Block.blockDecompose N dim r) (he : IsStep e) {t : ℤ} (ht : 0 ≤ t)
    (htw : t < wid (Block.blockDecompose N dim c) F e) {I I0 : ℤ}
    (hI : I = Block.blockNstart N dim c + (rlo (Block.blockDecompose N dim c) F e - F + t))
    (hI0 : I0 = Block.blockNstart N dim c + (rlo (Block.blockDecompose N dim c) F e - F)) :
    I / N = sideInd I N ∧ sideInd I N = sideInd I0 N ∧ (sideInd I N = 0 ∨ sideInd I N = e) ∧
      (dim = 1 → sideInd I N = e) := by
  have hp : 0 < dim := by omega
  have hF0 := hF c hc
  have hs : ∀ r, Block.blockNstart N dim (r + 1) =
    Block.blockNstart N dim r + Block.blockDecompose N dim r := Block.nstart_succ N dim
  have hlast := Block.nstart_last N dim hp
  have hz := Block.nstart_zero N dim
  have hend : Block.blockNstart N dim c + Block.blockDecompose N dim c ≤ N := by
    have := Block.nstart_mono N dim (show c + 1 ≤ dim from hc)
    rw [hs, hlast] at this
    exact this
  have q0 : ∀ x : ℤ, 0 ≤ x → x < N → x / N = 0 ∧ sideInd x N = 0 := fun x h1 h2 =>
    ⟨Int.ediv_eq_zero_of_lt h1 h2, sideInd_zero.2 ⟨h1, h2⟩⟩
  have qm : ∀ x : ℤ, x < 0 → -N ≤ x → 0 < N → x / N = -1 ∧ sideInd x N = -1 := by
    intro x h1 h2 h3
    constructor
    · rw [show x = (x + N) + N * (-1) by ring, Int.add_mul_ediv_left _ _ (by omega),
        Int.ediv_eq_zero_of_lt (by omega) (by omega)]
      rfl
    · unfold sideInd
      rw [if_neg (by omega), if_pos (by omega)]
      rfl
  have qp : ∀ x : ℤ, (N : ℤ) ≤ x → x < 2 * N → 0 < N → x / N = 1 ∧ sideInd x N = 1 := by
    intro x h1 h2 h3
    constructor
    · rw [show x = (x - N) + N * 1 by ring, Int.add_mul_ediv_left _ _ (by omega),
        Int.ediv_eq_zero_of_lt (by omega) (by omega)]
      rfl
    · unfold sideInd
      rw [if_pos (by omega), if_neg (by omega)]
      rfl
  rcases he with rfl | rfl | rfl
  · have e1 : ∀ D : ℤ, rlo D F (-1) = 0 := fun _ => rfl
    have e2 : ∀ D : ℤ, wid D F (-1) = F := fun _ => rfl
    simp only [e1, e2] at *
    rcases Nat.eq_zero_or_pos c with rfl | hpos
    · rw [hz] at hI hI0 hend
      obtain ⟨a1, a2⟩ := qm I (by omega) (by omega) (by omega)
      obtain ⟨b1, b2⟩ := qm I0 (by omega) (by omega) (by omega)
      exact ⟨by rw [a1, a2], by rw [a2, b2], Or.inr a2, fun _ => a2⟩
    · have hl := hF (c - 1) (by omega)
      have h1 := hs (c - 1)
      rw [show c - 1 + 1 = c by omega] at h1
      obtain ⟨a1, a2⟩ := q0 I (by omega) (by omega)
      obtain ⟨b1, b2⟩ := q0 I0 (by omega) (by omega)
      exact ⟨by rw [a1, a2], by rw [a2, b2], Or.inl a2, fun h => by omega⟩
  · have e1 : ∀ D : ℤ, rlo D F 0 = F := fun _ => rfl
    have e2 : ∀ D : ℤ, wid D F 0 = D := fun _ => rfl
    simp only [e1, e2] at *
    obtain ⟨a1, a2⟩ := q0 I (by omega) (by omega)
    obtain ⟨b1, b2⟩ := q0 I0 (by omega) (by omega)
    exact ⟨by rw [a1, a2], by rw [a2, b2], Or.inl a2, fun _ => a2⟩
  · have e1 : ∀ D : ℤ, rlo D F 1 = D + F := fun _ => rfl
    have e2 : ∀ D : ℤ, wid D F 1 = F := fun _ => rfl
    simp only [e1, e2] at *
    by_cases hcl : c + 1 = dim
    · have hN : Block.blockNstart N dim c + Block.blockDecompose N dim c = N := by
        rw [← hs, hcl, hlast]
      obtain ⟨a1, a2⟩ := qp I (by omega) (by omega) (by omega)
      obtain ⟨b1, b2⟩ := qp I0 (by omega) (by omega) (by omega)
      exact ⟨by rw [a1, a2], by rw [a2, b2], Or.inr a2, fun _ => a2⟩
    · have hl := hF (c + 1) (by omega)
      have h1 := hs c
      have hend' : Block.blockNstart N dim (c + 1) + Block.blockDecompose N dim (c + 1) ≤ N := by
        have := Block.nstart_mono N dim (show c + 1 + 1 ≤ dim by omega)
        rw [hs (c + 1), hlast] at this
        exact this
      obtain ⟨a1, a2⟩ := q0 I (by omega) (by omega)
      obtain ⟨b1, b2⟩ := q0 I0 (by omega) (by omega)
      exact ⟨by rw [a1, a2], by rw [a2, b2], Or.inl a2, fun h => by omega⟩

theorem fits_axis {L : Layout} (hF : L.Fits) {p : Proc} (hp : L.Valid p) (d : Fin 3) :
    ∀ r < L.dims d, L.FDn ≤ Block.blockDecompose (L.N d) (L.dims d) r := by
  intro r hr
  have := hF (Function.update p d r) (by
    intro d'
    by_cases h : d' = d
    · subst h; rwa [Function.update_self]
    · rw [Function.update_of_ne h]; exact hp d') d
  unfold Layout.size at this
  rwa [Function.update_self] at this

/-- Coordinates of a pass in the whole grid. -/
def gpos (L : Layout) (E : Exch) (p : Proc) (s : ℕ) (t : ℕ × ℕ × ℕ) (d : Fin 3) : ℤ :=
  (E.recv (L.isize p) s).lo d + ![(t.1 : ℤ), t.2.1, t.2.2] d + -(L.FDn : ℤ) + L.start p d

/-- The cell of a pass. -/
def gcell (L : Layout) (E : Exch) (p : Proc) (s : ℕ) (t : ℕ × ℕ × ℕ) (d : Fin 3) : ℤ :=
  sideInd (gpos L E p s t d) (L.N d)

theorem gcell_spec {L : Layout} {E : Exch} (hE : E.Good L) (hF : L.Fits) {p : Proc}
    (hp : L.Valid p) {s : ℕ} (hs : s < E.offs.length) {t : ℕ × ℕ × ℕ}
    (ht : t ∈ (E.recv (L.isize p) s).cells) (d : Fin 3) :
    gpos L E p s t d / L.N d = gcell L E p s t d ∧
    gcell L E p s t d =
      sideInd ((E.recv (L.isize p) s).lo d + -(L.FDn : ℤ) + L.start p d) (L.N d) ∧
    (gcell L E p s t d = 0 ∨ gcell L E p s t d = E.offs.getD s 0 d) ∧
    (L.dims d = 1 → gcell L E p s t d = E.offs.getD s 0 d) := by
  obtain ⟨h0, h1, h2⟩ := mem_cells.1 ht
  have hw := recv_width hE p hs d
  have h3 : ![(t.1 : ℤ), t.2.1, t.2.2] d < wid (L.isize p d) L.FDn (E.offs.getD s 0 d) := by
    rw [← hw]
    revert d
    exact fin3 (fun _ => Int.ofNat_lt.2 h0) (fun _ => Int.ofNat_lt.2 h1)
      (fun _ => Int.ofNat_lt.2 h2)
  have h4 : 0 ≤ ![(t.1 : ℤ), t.2.1, t.2.2] d :=
    fin3 (P := fun d => 0 ≤ ![(t.1 : ℤ), t.2.1, t.2.2] d) (Int.natCast_nonneg _)
      (Int.natCast_nonneg _) (Int.natCast_nonneg _) d
  refine axis_wind (hp d) (fits_axis hF hp d) (hE.step s hs d) h4 h3 ?_ ?_
  · unfold gpos
    rw [hE.recv_lo _ s hs d]
    unfold Layout.start Layout.isize Layout.size
    ring
  · rw [hE.recv_lo _ s hs d]
    unfold Layout.start Layout.isize Layout.size
    ring

theorem isOutside_iff {L : Layout} {p : Proc} {i j k : ℤ} : isOutside L p i j k = false ↔
    sideInd (i + -(L.FDn : ℤ) + L.start p 0) (L.N 0) = 0 ∧
    sideInd (j + -(L.FDn : ℤ) + L.start p 1) (L.N 1) = 0 ∧
    sideInd (k + -(L.FDn : ℤ) + L.start p 2) (L.N 2) = 0 := by
  simp only [sideInd_zero, isOutside, Bool.or_eq_false_iff, decide_eq_false_iff_not, not_lt, not_le,
    ge_iff_le]
  tauto

/-- The specification at a pass: the phase of its cell. -/
theorem targetK_slot {L : Layout} {E : Exch} (hE : E.Good L) (hF : L.Fits) (q : KPoint)
    (g : ℕ → ℕ → ℕ → ℕ → ℂ) {p : Proc} (hp : L.Valid p) {s n : ℕ} (hs : s < E.offs.length)
    {t : ℕ × ℕ × ℕ} (ht : t ∈ (E.recv (L.isize p) s).cells) :
    targetK L q g p (slotPt L E p s n t) =
      cellPhase q (gcell L E p s t) * target L g p (slotPt L E p s n t) := by
  have hg := gcell_spec hE hF hp hs ht
  have hpos : ∀ d, gpos L E p s t d = L.start p d +
      ![(slotPt L E p s n t).i, (slotPt L E p s n t).j, (slotPt L E p s n t).k] d := by
    intro d
    unfold gpos
    rw [hE.recv_lo _ s hs d]
    revert d
    refine fin3 ?_ ?_ ?_ <;>
    · simp only [slotPt, Matrix.cons_val_zero, Matrix.cons_val_one, Matrix.cons_val]
      ring
  unfold targetK bloch cellPhase target
  rw [← (hg 0).1, ← (hg 1).1, ← (hg 2).1, hpos 0, hpos 1, hpos 2]
  simp only [Matrix.cons_val_zero, Matrix.cons_val_one, Matrix.cons_val]

theorem cellPhase_zero (q : KPoint) {a : Fin 3 → ℤ} (h : ∀ d, a d = 0) : cellPhase q a = 1 := by
  unfold cellPhase
  rw [h 0, h 1, h 2]
  simp

/-! ### Filling the halo -/

theorem xIn_eq {V : Type} [Zero V] {L : Layout} {E : Exch} (hE : E.Good L) (ldi : Proc → ℤ)
    (xs : Proc → ℤ → V) {p : Proc} (hp : L.Valid p) :
    xIn L E ldi xs p = some ((List.range E.offs.length).flatMap fun s =>
      (List.range L.ncol).flatMap fun n => (E.recv (L.isize p) s).cells.map fun t =>
        recvVal L E ldi xs p s n t) := by
  unfold xIn
  rw [mapM_some _ _ _ fun s hs => recvSlot_eq hE ldi xs hp (List.mem_range.1 hs)]
  simp [List.flatMap]

theorem haloManyK_eq {L : Layout} {E : Exch} (hE : E.Good L) (f : ℕ → ℤ → ℤ → ℤ → ℂ → ℂ)
    (ldi : Proc → ℤ) (xs : Proc → MemK) {p : Proc} (hp : L.Valid p) (m : MemK) :
    haloManyK L E f ldi xs p m = some (fill (passes L E p)
      (fun w => exIdx (L.isize p) L.FDn w.2.1 ((E.recv (L.isize p) w.1).lo 0 + w.2.2.1)
        ((E.recv (L.isize p) w.1).lo 1 + w.2.2.2.1) ((E.recv (L.isize p) w.1).lo 2 + w.2.2.2.2))
      (fun w => f w.1 ((E.recv (L.isize p) w.1).lo 0 + w.2.2.1)
        ((E.recv (L.isize p) w.1).lo 1 + w.2.2.2.1) ((E.recv (L.isize p) w.1).lo 2 + w.2.2.2.2)
        (recvVal L E ldi xs p w.1 w.2.1 w.2.2))
      (copyIn L (ldi p) p (xs p) m)) := by
  have hz : (unpackPlaces L E p f).zip ((List.range E.offs.length).flatMap fun s =>
      (List.range L.ncol).flatMap fun n => (E.recv (L.isize p) s).cells.map fun t =>
        recvVal L E ldi xs p s n t) =
      (passes L E p).map fun w => ((exIdx (L.isize p) L.FDn w.2.1
        ((E.recv (L.isize p) w.1).lo 0 + w.2.2.1) ((E.recv (L.isize p) w.1).lo 1 + w.2.2.2.1)
        ((E.recv (L.isize p) w.1).lo 2 + w.2.2.2.2),
        f w.1 ((E.recv (L.isize p) w.1).lo 0 + w.2.2.1)
        ((E.recv (L.isize p) w.1).lo 1 + w.2.2.2.1) ((E.recv (L.isize p) w.1).lo 2 + w.2.2.2.2)),
        recvVal L E ldi xs p w.1 w.2.1 w.2.2) := by
    unfold unpackPlaces passes
    rw [zip_flatMap _ _ _ (fun s _ => by simp [List.length_flatMap])]
    simp only [List.map_flatMap, List.map_map]
    congr 1
    funext s
    rw [zip_flatMap _ _ _ (fun n _ => by simp)]
    congr 1
    funext n
    rw [List.zip_map']
    rfl
  unfold haloManyK
  rw [xIn_eq hE ldi xs hp]
  simp only [Option.bind_eq_bind, Option.bind_some]
  rw [if_neg (by unfold unpackPlaces; simp [List.length_flatMap]), hz, fill_map]

theorem targetK_inner {L : Layout} (q : KPoint) (g : ℕ → ℕ → ℕ → ℕ → ℂ) {p : Proc}
    (hp : L.Valid p) {P : Pt} (h : Inner L p P) : targetK L q g p P = target L g p P := by
  obtain ⟨-, h0, h1, h2⟩ := h
  have key : ∀ d, ∀ x : ℤ, 0 ≤ x → x < L.isize p d → ((L.start p d : ℤ) + x) / L.N d = 0 := by
    intro d x hx hx'
    have h0 : 0 < L.dims d := lt_of_le_of_lt (Nat.zero_le _) (hp d)
    have hle : L.start p d + L.size p d ≤ L.N d := by
      have := Block.nstart_mono (L.N d) (L.dims d) (show p d + 1 ≤ L.dims d from hp d)
      rw [Block.nstart_succ, Block.nstart_last _ _ h0] at this
      exact this
    unfold Layout.isize at hx'
    exact Int.ediv_eq_zero_of_lt (by omega) (by omega)
  unfold targetK bloch target
  rw [key 0 _ h0.1 h0.2, key 1 _ h1.1 h1.2, key 2 _ h2.1 h2.2]
  simp

theorem Holds.congr {V : Type} {D : Fin 3 → ℤ} {F : ℤ} {G G' : Pt → V} {C : Pt → Prop}
    {m : ℤ → V} (h : Holds D F G C m) (e : ∀ P, P.In D F → C P → G P = G' P) : Holds D F G' C m :=
  fun P hP hC => (h P hP hC).trans (e P hP hC)

theorem copyInK_holds {L : Layout} {ldi : Proc → ℤ} {q : KPoint} {g : ℕ → ℕ → ℕ → ℕ → ℂ}
    {xs : Proc → MemK} (hx : Distributed L ldi L.ncol g xs) {p : Proc} (hp : L.Valid p)
    {C : Pt → Prop} {m : MemK} (h : Holds (L.isize p) L.FDn (targetK L q g p) C m) :
    Holds (L.isize p) L.FDn (targetK L q g p) (fun P => C P ∨ Inner L p P)
      (copyIn L (ldi p) p (xs p) m) := by
  unfold copyIn
  refine (h.fill _ _ _ (fun w => ⟨w.1, w.2.1, w.2.2.1, w.2.2.2⟩) ?_).mono ?_
  · rintro ⟨n, i, j, k⟩ hw
    simp only [List.mem_flatMap, List.mem_range, List.mem_map, mem_box, Prod.mk.injEq] at hw
    obtain ⟨n', hn, t, ⟨h0, h1, h2⟩, rfl, rfl⟩ := hw
    dsimp only at h0 h1 h2 ⊢
    refine ⟨?_, rfl, ?_⟩
    · unfold Pt.In Layout.isize
      dsimp only
      omega
    · rw [targetK_inner q g hp (by unfold Inner Layout.isize; dsimp only; omega),
        target_inner g hp h0 h1 h2]
      rw [xIdx_eq_addr]
      exact hx p hp n' hn i h0 j h1 k h2
  · rintro ⟨n, i, j, k⟩ - (hc | ⟨hn, ⟨a1, a2⟩, ⟨a3, a4⟩, a5, a6⟩)
    · exact Or.inl hc
    · right
      unfold Layout.isize at a2 a4 a6
      dsimp only at *
      refine ⟨(n, i.toNat, j.toNat, k.toNat), ?_, ?_⟩
      · simp only [List.mem_flatMap, List.mem_range, List.mem_map, mem_box]
        exact ⟨n, hn, (i.toNat, j.toNat, k.toNat), by dsimp only; omega, rfl⟩
      · dsimp only
        rw [Int.toNat_of_nonneg a1, Int.toNat_of_nonneg a3, Int.toNat_of_nonneg a5]

/-- Several processes. -/
theorem haloManyK_holds {L : Layout} {E : Exch} (hE : E.Good L) (hF : L.Fits) {ldi : Proc → ℤ}
    {q : KPoint} {g : ℕ → ℕ → ℕ → ℕ → ℂ} {xs : Proc → MemK} (hx : Distributed L ldi L.ncol g xs)
    {p : Proc} (hp : L.Valid p) {f : ℕ → ℤ → ℤ → ℤ → ℂ → ℂ}
    (hf : ∀ s < E.offs.length, ∀ t ∈ (E.recv (L.isize p) s).cells, ∀ v,
      f s ((E.recv (L.isize p) s).lo 0 + t.1) ((E.recv (L.isize p) s).lo 1 + t.2.1)
        ((E.recv (L.isize p) s).lo 2 + t.2.2) v = cellPhase q (gcell L E p s t) * v) (m : MemK) :
    ∃ m', haloManyK L E f ldi xs p m = some m' ∧ Holds (L.isize p) L.FDn (targetK L q g p)
      (fun P => Inner L p P ∨ ∃ s < E.offs.length, Reg L E p s P) m' := by
  refine ⟨_, haloManyK_eq hE f ldi xs hp m, ?_⟩
  have h0 := copyInK_holds (q := q) hx hp (C := fun _ => False) (m := m) (fun P _ h => h.elim)
  refine (h0.fill _ _ _ (fun w => slotPt L E p w.1 w.2.1 w.2.2) ?_).mono ?_
  · rintro ⟨s, n, t⟩ hw
    unfold passes at hw
    simp only [List.mem_flatMap, List.mem_range, List.mem_map, Prod.mk.injEq] at hw
    obtain ⟨s', hs, n', hn, t', ht, rfl, rfl, rfl⟩ := hw
    refine ⟨slotPt_in hE p hs ht, slotPt_place hE p hs t', ?_⟩
    dsimp only
    rw [hf s' hs t' ht, recvVal_eq hE hF hx hp hs hn ht, targetK_slot hE hF q g hp hs ht]
  · rintro P - (hc | ⟨s, hs, hn, t, ht, e⟩)
    · exact Or.inl (Or.inr hc)
    · refine Or.inr ⟨(s, P.n, t), ?_, e⟩
      unfold passes
      simp only [List.mem_flatMap, List.mem_range, List.mem_map]
      exact ⟨s, hs, P.n, hn, t, ht, rfl⟩

/-- Copying the values of a slot with one process. -/
theorem copySlotK_holds {L : Layout} {E : Exch} (hE : E.Good L) (hF : L.Fits) {ldi : Proc → ℤ}
    {q : KPoint} {g : ℕ → ℕ → ℕ → ℕ → ℂ} {xs : Proc → MemK} (hx : Distributed L ldi L.ncol g xs)
    {p : Proc} (hp : L.Valid p) {s : ℕ} (hs : s < E.offs.length) (hnb : slotNbr L E p s = some p)
    {src : Region} (hlo : ∀ d, src.lo d = slo (L.isize p d) L.FDn (E.offs.getD s 0 d))
    (hhi : ∀ d, src.hi d = shi (L.isize p d) L.FDn (E.offs.getD s 0 d))
    {f : ℤ → ℤ → ℤ → ℂ → ℂ}
    (hf : ∀ t ∈ (E.recv (L.isize p) s).cells, ∀ v,
      f ((E.recv (L.isize p) s).lo 0 + t.1) ((E.recv (L.isize p) s).lo 1 + t.2.1)
        ((E.recv (L.isize p) s).lo 2 + t.2.2) v = cellPhase q (gcell L E p s t) * v)
    {C : Pt → Prop} {m : MemK} (h : Holds (L.isize p) L.FDn (targetK L q g p) C m) :
    Holds (L.isize p) L.FDn (targetK L q g p) (fun P => C P ∨ Reg L E p s P)
      (copySlotK L (ldi p) p src (E.recv (L.isize p) s) f (xs p) m) := by
  have hw : src.cells = (E.recv (L.isize p) s).cells := by
    have : ∀ d, src.width d = (E.recv (L.isize p) s).width d := by
      intro d
      zify
      rw [recv_width hE p hs d]
      unfold Region.width
      rw [hlo d, hhi d, shi_eq _ _ (hE.step s hs d), add_sub_cancel_left,
        Int.toNat_of_nonneg (wid_nonneg (by unfold Layout.isize; omega) (by omega) _)]
    unfold Region.cells
    rw [this 0, this 1, this 2]
  unfold copySlotK
  rw [hw]
  refine (h.fill _ _ _ (fun w => slotPt L E p s w.1 w.2) ?_).mono ?_
  · rintro ⟨n, t⟩ hm
    simp only [List.mem_flatMap, List.mem_range, List.mem_map, Prod.mk.injEq] at hm
    obtain ⟨n', hn, t', ht, rfl, rfl⟩ := hm
    refine ⟨slotPt_in hE p hs ht, slotPt_place hE p hs t', ?_⟩
    dsimp only
    rw [hf t' ht, targetK_slot hE hF q g hp hs ht, ← recvVal_eq hE hF hx hp hs hn ht]
    unfold recvVal
    rw [hnb]
    dsimp only
    rw [hlo 0, hlo 1, hlo 2]
  · rintro P - (hc | ⟨hn, t, ht, e⟩)
    · exact Or.inl hc
    · refine Or.inr ⟨(P.n, t), ?_, e⟩
      simp only [List.mem_flatMap, List.mem_range, List.mem_map]
      exact ⟨P.n, hn, t, ht, rfl⟩

theorem targetK_none {L : Layout} {E : Exch} (hE : E.Good L) (hF : L.Fits) {ldi : Proc → ℤ}
    {q : KPoint} {g : ℕ → ℕ → ℕ → ℕ → ℂ} {xs : Proc → MemK} (hx : Distributed L ldi L.ncol g xs)
    {p : Proc} (hp : L.Valid p) {s : ℕ} (hs : s < E.offs.length) (hnb : slotNbr L E p s = none)
    {P : Pt} (hP : Reg L E p s P) : targetK L q g p P = 0 := by
  obtain ⟨hn, t, ht, e⟩ := hP
  rw [← e, targetK_slot hE hF q g hp hs ht, e,
    target_none hE hF hx hp hs hnb ⟨hn, t, ht, e⟩, mul_zero]

theorem zeroSlotK_holds {L : Layout} {E : Exch} (hE : E.Good L) (hF : L.Fits) {ldi : Proc → ℤ}
    {q : KPoint} {g : ℕ → ℕ → ℕ → ℕ → ℂ} {xs : Proc → MemK} (hx : Distributed L ldi L.ncol g xs)
    {p : Proc} (hp : L.Valid p) {s : ℕ} (hs : s < E.offs.length) (hnb : slotNbr L E p s = none)
    {C : Pt → Prop} {m : MemK} (h : Holds (L.isize p) L.FDn (targetK L q g p) C m) :
    Holds (L.isize p) L.FDn (targetK L q g p) (fun P => C P ∨ Reg L E p s P)
      (zeroSlot L p (E.recv (L.isize p) s) m) := by
  unfold zeroSlot
  refine (h.fill _ _ _ (fun w => slotPt L E p s w.1 w.2) ?_).mono ?_
  · rintro ⟨n, t⟩ hm
    simp only [List.mem_flatMap, List.mem_range, List.mem_map, Prod.mk.injEq] at hm
    obtain ⟨n', hn, t', ht, rfl, rfl⟩ := hm
    refine ⟨slotPt_in hE p hs ht, slotPt_place hE p hs t', ?_⟩
    exact (targetK_none hE hF hx hp hs hnb ⟨hn, t', ht, rfl⟩).symm
  · rintro P - (hc | ⟨hn, t, ht, e⟩)
    · exact Or.inl hc
    · refine Or.inr ⟨(P.n, t), ?_, e⟩
      simp only [List.mem_flatMap, List.mem_range, List.mem_map]
      exact ⟨P.n, hn, t, ht, rfl⟩

/-! ### The phases of the two routines -/

/-- If all cells are central or the step, the phase is that of the step unless all are central. -/
theorem scale6_eq {L : Layout} (hF : L.Fits) (q : KPoint) {p : Proc} (hp : L.Valid p) {s : ℕ}
    (hs : s < 6) {t : ℕ × ℕ × ℕ} (ht : t ∈ (recv6 (L.isize p) L.FDn s).cells) (v : ℂ) :
    scale6 L q p s ((recv6 (L.isize p) L.FDn s).lo 0 + t.1)
      ((recv6 (L.isize p) L.FDn s).lo 1 + t.2.1) ((recv6 (L.isize p) L.FDn s).lo 2 + t.2.2) v =
      cellPhase q (gcell L (exch6 L) p s t) * v := by
  have hg := gcell_spec (good6 L) hF hp hs ht
  unfold scale6
  cases ho : isOutside L p ((recv6 (L.isize p) L.FDn s).lo 0 + t.1)
      ((recv6 (L.isize p) L.FDn s).lo 1 + t.2.1) ((recv6 (L.isize p) L.FDn s).lo 2 + t.2.2) with
  | false =>
    obtain ⟨h0, h1, h2⟩ := isOutside_iff.1 ho
    rw [cellPhase_zero q (fin3 h0 h1 h2), one_mul]
    rfl
  | true =>
    rw [if_pos rfl, phases6_get q s hs, mul_comm]
    congr 2
    have hne : ¬ ∀ d, gcell L (exch6 L) p s t d = 0 := by
      intro h
      have := isOutside_iff.2 ⟨h 0, h 1, h 2⟩
      exact Bool.noConfusion (ho.symm.trans this)
    funext d
    have hz : ∀ d, d ≠ Fin.ofNat 3 (s / 2) → gcell L (exch6 L) p s t d = 0 := by
      intro d hd
      rcases (hg d).2.2.1 with h | h
      · exact h
      · rw [h]; exact offs6_axis s hs d hd
    by_cases hd : d = Fin.ofNat 3 (s / 2)
    · rcases (hg d).2.2.1 with h | h
      · exfalso
        apply hne
        intro d'
        by_cases hd' : d' = d
        · rw [hd']; exact h
        · exact hz d' (fun h' => hd' (h'.trans hd.symm))
      · exact h.symm
    · rw [hz d hd]; exact offs6_axis s hs d hd

theorem region_get : ∀ a ∈ ([-1, 0, 1] : List ℤ), ∀ b ∈ ([-1, 0, 1] : List ℤ),
    ∀ c ∈ ([-1, 0, 1] : List ℤ),
    let r := (c + 1) * 9 + (b + 1) * 3 + (a + 1)
    let r' := if r = 13 then -1 else if r < 13 then r else r - 1
    (a = 0 ∧ b = 0 ∧ c = 0 ∧ r' = -1) ∨ (0 ≤ r' ∧ r'.toNat < 26 ∧ offs26.getD r'.toNat 0 0 = a ∧
      offs26.getD r'.toNat 0 1 = b ∧ offs26.getD r'.toNat 0 2 = c) := by
  decide +kernel

theorem sideInd_mem (I : ℤ) (N : ℕ) : sideInd I N ∈ ([-1, 0, 1] : List ℤ) := by
  unfold sideInd
  split_ifs <;> simp

theorem scale26_eq {L : Layout} (hF : L.Fits) (q : KPoint) {p : Proc} (hp : L.Valid p) {s : ℕ}
    (hs : s < 26) {t : ℕ × ℕ × ℕ} (ht : t ∈ (recv26 (L.isize p) L.FDn s).cells) (i j k : ℤ) (v : ℂ) :
    scale26 L q p s i j k v = cellPhase q (gcell L (exch26 L) p s t) * v := by
  have hg := gcell_spec (good26 L) hF hp hs ht
  have e := fun d => (hg d).2.1
  unfold scale26
  dsimp only
  rw [mul_comm]
  congr 1
  have hr := region_get _ (sideInd_mem (((exch26 L).recv (L.isize p) s).lo 0 + -(L.FDn : ℤ) +
    L.start p 0) (L.N 0)) _ (sideInd_mem (((exch26 L).recv (L.isize p) s).lo 1 + -(L.FDn : ℤ) +
    L.start p 1) (L.N 1)) _ (sideInd_mem (((exch26 L).recv (L.isize p) s).lo 2 + -(L.FDn : ℤ) +
    L.start p 2) (L.N 2))
  rw [← e 0, ← e 1, ← e 2] at hr
  have hreg : outsideRegion L p ((recv26 (L.isize p) L.FDn s).lo 0)
      ((recv26 (L.isize p) L.FDn s).lo 1) ((recv26 (L.isize p) L.FDn s).lo 2) =
      (let r := (gcell L (exch26 L) p s t 2 + 1) * 9 + (gcell L (exch26 L) p s t 1 + 1) * 3 +
        (gcell L (exch26 L) p s t 0 + 1)
      if r = 13 then -1 else if r < 13 then r else r - 1) := by
    rw [e 0, e 1, e 2]
    rfl
  rw [hreg]
  dsimp only at hr ⊢
  generalize (if (gcell L (exch26 L) p s t 2 + 1) * 9 + (gcell L (exch26 L) p s t 1 + 1) * 3 +
        (gcell L (exch26 L) p s t 0 + 1) = 13 then (-1 : ℤ) else _) = r at hr ⊢
  rcases hr with ⟨h0, h1, h2, h3⟩ | ⟨h0, h1, h2, h3, h4⟩
  · rw [if_neg (by omega), cellPhase_zero q (fin3 h0 h1 h2)]
  · rw [if_pos h0, phases26_get q h1]
    congr 1
    funext d
    exact fin3 (P := fun d => offs26.getD r.toNat 0 d = gcell L (exch26 L) p s t d) h2 h3 h4 d

theorem scaleOne26_eq {L : Layout} (hF : L.Fits) (h1 : ∀ d, L.dims d = 1) (q : KPoint) {p : Proc}
    (hp : L.Valid p) {s : ℕ} (hs : s < 26) {t : ℕ × ℕ × ℕ}
    (ht : t ∈ (recv26 (L.isize p) L.FDn s).cells) (v : ℂ) :
    scaleOne26 L q p s ((recv26 (L.isize p) L.FDn s).lo 0 + t.1)
      ((recv26 (L.isize p) L.FDn s).lo 1 + t.2.1) ((recv26 (L.isize p) L.FDn s).lo 2 + t.2.2) v =
      cellPhase q (gcell L (exch26 L) p s t) * v := by
  have hg := gcell_spec (good26 L) hF hp hs ht
  unfold scaleOne26
  cases ho : isOutside L p ((recv26 (L.isize p) L.FDn s).lo 0 + t.1)
      ((recv26 (L.isize p) L.FDn s).lo 1 + t.2.1) ((recv26 (L.isize p) L.FDn s).lo 2 + t.2.2) with
  | false =>
    obtain ⟨h0, h1, h2⟩ := isOutside_iff.1 ho
    rw [cellPhase_zero q (fin3 h0 h1 h2), one_mul]
    rfl
  | true =>
    rw [if_pos rfl, phases26_get q hs, mul_comm]
    congr 2
    funext d
    exact ((hg d).2.2.2 (h1 d)).symm

theorem dims_one {L : Layout} {p : Proc} (hp : L.Valid p)
    (h : ¬ L.dims 0 * L.dims 1 * L.dims 2 > 1) : ∀ d, L.dims d = 1 := by
  have hpos : ∀ d, 0 < L.dims d := fun d => lt_of_le_of_lt (Nat.zero_le _) (hp d)
  have a := hpos 0
  have b := hpos 1
  have c := hpos 2
  have h' : L.dims 0 * L.dims 1 * L.dims 2 = 1 :=
    le_antisymm (not_lt.1 h) (Nat.mul_pos (Nat.mul_pos a b) c)
  have h2 := Nat.eq_one_of_mul_eq_one_left h'
  have h3 := Nat.eq_one_of_mul_eq_one_right h'
  exact fin3 (Nat.eq_one_of_mul_eq_one_right h3) (Nat.eq_one_of_mul_eq_one_left h3) h2

/-- `x_ex` of the orthogonal routine holds the Bloch-extended function at every point outside the
block in at most one direction. -/
theorem xex6K_halo {L : Layout} (hF : L.Fits) (q : KPoint) {ldi : Proc → ℤ}
    {g : ℕ → ℕ → ℕ → ℕ → ℂ} {xs : Proc → MemK} (hx : Distributed L ldi L.ncol g xs) {p : Proc}
    (hp : L.Valid p) (m : MemK) :
    ∃ m', xex6K L q ldi xs p m = some m' ∧ Holds (L.isize p) L.FDn (targetK L q g p)
      (fun P => Inner L p P ∨ ∃ s < 6, Reg L (exch6 L) p s P) m' := by
  unfold xex6K
  split_ifs with h
  · exact haloManyK_holds (good6 L) hF hx hp (fun s hs t ht v => scale6_eq hF q hp hs ht v) m
  · have h1 := dims_one hp h
    refine ⟨_, rfl, ?_⟩
    have h0 := copyInK_holds (q := q) hx hp (C := fun _ => False) (m := m) (fun P _ h => h.elim)
    refine (fold_holds (E := exch6 L) _ (fun _ => False) 6 ?_ (fun _ h => h.elim) h0 6 le_rfl).mono ?_
    · intro s hs C m' _ hC
      have hnb := nbr_one h1 hp (step6 s hs)
      have hax : (∀ d, offs6.getD s 0 d = 0 ∨ L.per d = true) ↔
          L.per (Fin.ofNat 3 (s / 2)) = true := by
        constructor
        · intro hh
          rcases hh (Fin.ofNat 3 (s / 2)) with h2 | h2
          · have key : ∀ s < 6, offs6.getD s 0 (Fin.ofNat 3 (s / 2)) ≠ 0 := by decide +kernel
            exact absurd h2 (key s hs)
          · exact h2
        · intro hh d
          by_cases hd : d = Fin.ofNat 3 (s / 2)
          · right; rw [hd]; exact hh
          · exact Or.inl (offs6_axis s hs d hd)
      simp only [hax] at hnb
      split_ifs with hper
      · rw [if_pos hper] at hnb
        have o1 := (offs6_opp s hs 0).1
        have o2 := fun d => (offs6_opp s hs d).2
        refine copySlotK_holds (good6 L) hF hx hp hs hnb (fun d => ?_) (fun d => ?_)
          (fun t ht v => scale6_eq hF q hp hs ht v) hC
        · have := (send6_eq (L.isize p) L.FDn _ o1 d).1
          rw [o2 d, neg_neg] at this
          exact this
        · have := (send6_eq (L.isize p) L.FDn _ o1 d).2
          rw [o2 d, neg_neg] at this
          exact this
      · rw [if_neg hper] at hnb
        exact zeroSlotK_holds (good6 L) hF hx hp hs hnb hC
    · rintro P - (hc | hc)
      · exact Or.inl (Or.inr hc)
      · exact Or.inr hc

/-- The same for the oblique routine, at every point of the block and its halo. -/
theorem xex26K_halo {L : Layout} (hF : L.Fits) (q : KPoint) {ldi : Proc → ℤ}
    {g : ℕ → ℕ → ℕ → ℕ → ℂ} {xs : Proc → MemK} (hx : Distributed L ldi L.ncol g xs) {p : Proc}
    (hp : L.Valid p) :
    ∃ m', xex26K L q ldi xs p = some m' ∧ Holds (L.isize p) L.FDn (targetK L q g p)
      (fun P => Inner L p P ∨ ∃ s < 26, Reg L (exch26 L) p s P) m' := by
  unfold xex26K
  split_ifs with h
  · exact haloManyK_holds (good26 L) hF hx hp (fun s hs t ht v => scale26_eq hF q hp hs ht _ _ _ v) _
  · have h1 := dims_one hp h
    refine ⟨_, rfl, ?_⟩
    have h00 : Holds (L.isize p) L.FDn (targetK L q g p) (fun P => targetK L q g p P = 0)
        (fun _ => 0) := fun P _ h => h.symm
    have h0 := copyInK_holds hx hp h00
    refine (fold_holds (E := exch26 L) _ (fun P => targetK L q g p P = 0) 26 ?_
      (fun _ h => Or.inl h) h0 26 le_rfl).mono ?_
    · intro s hs C m' hZ hC
      have hnb := nbr_one h1 hp (step26 s hs)
      simp only [← isnonzero26_eq L.per s hs] at hnb
      split_ifs with hnz
      · rw [if_pos hnz] at hnb
        exact copySlotK_holds (good26 L) hF hx hp hs hnb
          (fun d => (one26_eq (L.isize p) L.FDn hs d).1)
          (fun d => (one26_eq (L.isize p) L.FDn hs d).2)
          (fun t ht v => scaleOne26_eq hF h1 q hp hs ht v) hC
      · rw [if_neg hnz] at hnb
        intro P hP hc
        rcases hc with hc | hc
        · exact hC P hP hc
        · exact hC P hP (hZ P (targetK_none (good26 L) hF hx hp hs hnb hc))
    · rintro P - (hc | hc)
      · exact Or.inl (Or.inr hc)
      · exact Or.inr hc

/-! ### The kernels act on each component like the real kernels -/

variable (φ : ℂ →ₗ[ℝ] ℝ)

theorem map_mul_real (z : ℂ) (c : ℝ) : φ (z * (c : ℂ)) = φ z * c := by
  rw [mul_comm z, ← Complex.real_smul, map_smul, smul_eq_mul, mul_comm]

theorem map_real_mul (z : ℂ) (c : ℝ) : φ ((c : ℂ) * z) = c * φ z := by
  rw [← Complex.real_smul, map_smul, smul_eq_mul]

theorem map_foldl (l : List ℕ) (a : ℂ) (h : ℕ → ℂ) :
    φ (l.foldl (fun acc r => acc + h r) a) = l.foldl (fun acc r => acc + φ (h r)) (φ a) := by
  induction l generalizing a with
  | nil => rfl
  | cons x l ih => rw [List.foldl_cons, List.foldl_cons, ih, map_add]

theorem map_fill {τ : Type} (l : List τ) (idx : τ → ℤ) (val : τ → ℂ) (m : MemK) :
    (fun a => φ (fill l idx val m a)) = fill l idx (fun t => φ (val t)) (fun a => φ (m a)) := by
  unfold fill
  induction l generalizing m with
  | nil => rfl
  | cons x l ih =>
    rw [List.foldl_cons, List.foldl_cons, ih]
    congr 1
    funext a
    by_cases h : a = idx x
    · rw [h, Function.update_self, Function.update_self]
    · rw [Function.update_of_ne h, Function.update_of_ne h]

theorem map_calcDX (X DX : MemK) (radius : ℕ) (sX syX syD szX szD : ℤ) (xs xe ys ye zs ze : ℤ)
    (xX yX zX : ℤ) (coef : ℕ → ℝ) (c : ℝ) :
    (fun a => φ (calcDXK X DX radius sX syX syD szX szD xs xe ys ye zs ze xX yX zX coef c a)) =
    calcDX (fun a => φ (X a)) (fun a => φ (DX a)) radius sX syX syD szX szD xs xe ys ye zs ze
      xX yX zX coef c := by
  unfold calcDXK calcDX
  rw [map_fill]
  simp only [map_foldl, map_mul_real, map_sub]

theorem map_calcDX12 (X DX : MemK) (radius : ℕ) (s1 s2 syX syD szX szD : ℤ)
    (xs xe ys ye zs ze : ℤ) (xX yX zX : ℤ) (c1 c2 : ℕ → ℝ) :
    (fun a => φ (calcDX12K X DX radius s1 s2 syX syD szX szD xs xe ys ye zs ze xX yX zX c1 c2 a)) =
    calcDX12 (fun a => φ (X a)) (fun a => φ (DX a)) radius s1 s2 syX syD szX szD xs xe ys ye zs ze
      xX yX zX c1 c2 := by
  unfold calcDX12K calcDX12
  rw [map_fill]
  simp only [map_foldl, map_mul_real, map_sub, map_add, map_zero]

theorem map_stencil3 (x0 : MemK) (radius : ℕ) (sy syE sz szE : ℤ) (xs xe ys ye zs ze : ℤ)
    (xE yE zE : ℤ) (coef : ℕ → ℝ) (coef0 b : ℝ) (v0 : Mem) (y : MemK) :
    (fun a => φ (stencil3K x0 radius sy syE sz szE xs xe ys ye zs ze xE yE zE coef coef0 b v0 y a)) =
    stencil3 (fun a => φ (x0 a)) radius sy syE sz szE xs xe ys ye zs ze xE yE zE coef coef0 b v0
      (fun a => φ (y a)) := by
  unfold stencil3K stencil3
  rw [map_fill]
  simp only [map_foldl, map_mul_real, map_real_mul, map_add]

theorem map_stencil4 (X DX : MemK) (radius : ℕ) (sD sy1 syX syD sz1 szX szD : ℤ)
    (xs xe ys ye zs ze : ℤ) (xX yX zX xD yD zD : ℤ) (coef : ℕ → ℝ) (coef0 b : ℝ)
    (v0 : Mem) (X1 : MemK) :
    (fun a => φ (stencil4K X DX radius sD sy1 syX syD sz1 szX szD xs xe ys ye zs ze xX yX zX xD yD zD
      coef coef0 b v0 X1 a)) =
    stencil4 (fun a => φ (X a)) (fun a => φ (DX a)) radius sD sy1 syX syD sz1 szX szD
      xs xe ys ye zs ze xX yX zX xD yD zD coef coef0 b v0 (fun a => φ (X1 a)) := by
  unfold stencil4K stencil4
  rw [map_fill]
  simp only [map_foldl, map_mul_real, map_real_mul, map_add, map_sub]

theorem map_stencil5 (X DX1 DX2 : MemK) (radius : ℕ)
    (sD1 sD2 sy1 syX syD1 syD2 sz1 szX szD1 szD2 : ℤ)
    (xs xe ys ye zs ze : ℤ) (xX yX zX xD1 yD1 zD1 xD2 yD2 zD2 : ℤ) (coef : ℕ → ℝ)
    (coef0 b : ℝ) (v0 : Mem) (X1 : MemK) :
    (fun a => φ (stencil5K X DX1 DX2 radius sD1 sD2 sy1 syX syD1 syD2 sz1 szX szD1 szD2
      xs xe ys ye zs ze xX yX zX xD1 yD1 zD1 xD2 yD2 zD2 coef coef0 b v0 X1 a)) =
    stencil5 (fun a => φ (X a)) (fun a => φ (DX1 a)) (fun a => φ (DX2 a)) radius
      sD1 sD2 sy1 syX syD1 syD2 sz1 szX szD1 szD2 xs xe ys ye zs ze xX yX zX xD1 yD1 zD1
      xD2 yD2 zD2 coef coef0 b v0 (fun a => φ (X1 a)) := by
  unfold stencil5K stencil5
  rw [map_fill]
  simp only [map_foldl, map_mul_real, map_real_mul, map_add, map_sub]

/-- The arguments of the real kernels for one component. -/
noncomputable def compArgs (L : Layout) (Q : CallK) (p : Proc) (xex : MemK) : Lap.Args where
  DMnx := L.size p 0
  DMny := L.size p 1
  DMnz := L.size p 2
  FDn := L.FDn
  a := Q.a
  b := Q.b
  c := Q.c
  v := Q.v.map (· p)
  x := Q.xd p
  xex q := φ (xex q)
  Dx1 q := φ (Q.Dx1 q)
  Dx2 q := φ (Q.Dx2 q)
  y q := φ (Q.y q)
  wt := Q.wt

theorem map_orth (L : Layout) (C : Coefs) (Q : CallK) (p : Proc) (xex : MemK) (a : ℤ) :
    φ (orthK L C Q p xex a) = orth C (compArgs φ L Q p xex) a :=
  congrFun (map_stencil3 φ _ _ _ _ _ _ _ _ _ _ _ _ _ _ _ _ _ _ _ _) a

theorem map_nonorth (L : Layout) (C : Coefs) (typ : ℕ) (Q : CallK) (p : Proc) (xex : MemK) (a : ℤ) :
    φ (nonorthK L C typ Q p xex a) = nonorth C typ (compArgs φ L Q p xex) a := by
  unfold nonorthK nonorth
  dsimp only [compArgs]
  split_ifs
  · refine (congrFun (map_stencil4 φ _ _ _ _ _ _ _ _ _ _ _ _ _ _ _ _ _ _ _ _ _ _ _ _ _ _ _) a).trans ?_
    rw [map_calcDX]
  · refine (congrFun (map_stencil4 φ _ _ _ _ _ _ _ _ _ _ _ _ _ _ _ _ _ _ _ _ _ _ _ _ _ _ _) a).trans ?_
    rw [map_calcDX]
  · refine (congrFun (map_stencil4 φ _ _ _ _ _ _ _ _ _ _ _ _ _ _ _ _ _ _ _ _ _ _ _ _ _ _ _) a).trans ?_
    rw [map_calcDX]
  · refine (congrFun (map_stencil4 φ _ _ _ _ _ _ _ _ _ _ _ _ _ _ _ _ _ _ _ _ _ _ _ _ _ _ _) a).trans ?_
    rw [map_calcDX12]
  · refine (congrFun (map_stencil4 φ _ _ _ _ _ _ _ _ _ _ _ _ _ _ _ _ _ _ _ _ _ _ _ _ _ _ _) a).trans ?_
    rw [map_calcDX12]
  · refine (congrFun (map_stencil4 φ _ _ _ _ _ _ _ _ _ _ _ _ _ _ _ _ _ _ _ _ _ _ _ _ _ _ _) a).trans ?_
    rw [map_calcDX12]
  · refine (congrFun (map_stencil5 φ _ _ _ _ _ _ _ _ _ _ _ _ _ _ _ _ _ _ _ _ _ _ _ _ _ _ _ _ _ _ _ _ _ _) a).trans ?_
    rw [map_calcDX, map_calcDX12]
  · rfl

end Sparc.Bloch

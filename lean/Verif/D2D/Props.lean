import Verif.D2D.Lemmas

/-!
# Redistribution between process layouts (C02)
-/

namespace Sparc.D2D

open Loop Block

/-- Row-major rank of the process with coordinates `c` in a grid `dims` (MPI's Cartesian topology). -/
def rowMajor (dims c : Fin 3 → ℕ) : ℕ := (c 0 * dims 1 + c 1) * dims 2 + c 2

/-- The process at `c` owns the grid point `p`. -/
def Owns (N dims c : Fin 3 → ℕ) (p : Fin 3 → ℕ) : Prop :=
  ∀ a, blockNstart (N a) (dims a) (c a) ≤ p a ∧
    p a < blockNstart (N a) (dims a) (c a) + blockDecompose (N a) (dims a) (c a)

/-- Where the process at `c` keeps the point `p`: x fastest within its own block. -/
def addr (N dims c : Fin 3 → ℕ) (p : Fin 3 → ℕ) : ℤ :=
  let nx := blockDecompose (N 0) (dims 0) (c 0)
  let ny := blockDecompose (N 1) (dims 1) (c 1)
  let i := p 0 - blockNstart (N 0) (dims 0) (c 0)
  let j := p 1 - blockNstart (N 1) (dims 1) (c 1)
  let k := p 2 - blockNstart (N 2) (dims 2) (c 2)
  ((i + nx * (j + ny * k) : ℕ) : ℤ)

/-- The array `m` of the process at `c` holds the grid function `f`. -/
def Holds {α : Type} (N dims c : Fin 3 → ℕ) (f : (Fin 3 → ℕ) → α) (m : ℤ → α) : Prop :=
  ∀ p, Owns N dims c p → m (addr N dims c p) = f p

/-! ### Linking the two ways of writing a block -/

theorem owns_iff (N dims c p : Fin 3 → ℕ) :
    Owns N dims c p ↔ InBox (vert N dims c) (p 0) (p 1) (p 2) := by
  unfold Owns InBox vert
  constructor
  · intro h
    have h0 := h 0
    have h1 := h 1
    have h2 := h 2
    exact ⟨by dsimp only; omega, by dsimp only; omega, by dsimp only; omega⟩
  · rintro ⟨h0, h1, h2⟩ a
    dsimp only at h0 h1 h2
    match a with
    | 0 => omega
    | 1 => omega
    | 2 => omega

theorem addr_eq {N dims c p : Fin 3 → ℕ} (h : Owns N dims c p) :
    addr N dims c p = place (vert N dims c) (p 0) (p 1) (p 2) := by
  have h0 := (h 0).1
  have h1 := (h 1).1
  have h2 := (h 2).1
  unfold addr place len vert
  dsimp only
  push_cast [Nat.cast_sub h0, Nat.cast_sub h1, Nat.cast_sub h2]
  ring

theorem rowMajor_spec {dims c : Fin 3 → ℕ} (h : ∀ a, c a < dims a) :
    rowMajor dims c < procs dims ∧ cartCoords dims (rowMajor dims c) = c := by
  obtain ⟨r, h1, h2, h3⟩ := cart_spec h
  have : r = rowMajor dims c := by
    unfold cartRank at h2
    split_ifs at h2 with hc
    · simp at h2
      exact h2.symm
  rw [← this]
  exact ⟨h1, h3⟩

/-- Different owners keep different points. -/
theorem addr_inj {N dims c p q : Fin 3 → ℕ} (hp : Owns N dims c p) (hq : Owns N dims c q)
    (e : addr N dims c p = addr N dims c q) : p = q := by
  rw [addr_eq hp, addr_eq hq] at e
  obtain ⟨h0, h1, h2⟩ := place_inj ((owns_iff ..).1 hp) ((owns_iff ..).1 hq) e
  exact fin3_ext (by exact_mod_cast h0) (by exact_mod_cast h1) (by exact_mod_cast h2)

/-- Boxes meet exactly when some point belongs to both. -/
theorem meet_iff {N dims dims' c c' : Fin 3 → ℕ} :
    Meet N dims dims' c c' ↔ ∃ p, Owns N dims c p ∧ Owns N dims' c' p := by
  constructor
  · intro h
    refine ⟨fun a => (max (vert N dims c a).1 (vert N dims' c' a).1).toNat, ?_, ?_⟩ <;>
    · intro a
      have := h a
      unfold vert at this ⊢
      dsimp only at this ⊢
      omega
  · rintro ⟨p, h1, h2⟩ a
    have h1 := h1 a
    have h2 := h2 a
    unfold vert
    dsimp only
    omega

theorem exists_owner {N dims p : Fin 3 → ℕ} (hf : Fits N dims) (hp : ∀ a, p a < N a) :
    ∃ c, (∀ a, c a < dims a) ∧ Owns N dims c p := by
  have : ∀ a, ∃ r, r < dims a ∧ blockNstart (N a) (dims a) r ≤ p a ∧
      p a < blockNstart (N a) (dims a) r + blockDecompose (N a) (dims a) r := by
    intro a
    obtain ⟨r, h1, -, h3⟩ := rankOf_spec hf a (hp a)
    exact ⟨r, h1, ((block_decompose_rank_iff _ _ _ _ (hf a).1 (hp a)).1 h3).2⟩
  choose c hc using this
  exact ⟨c, fun a => (hc a).1, fun a => (hc a).2⟩

theorem owns_lt {N dims c p : Fin 3 → ℕ} (hc : ∀ a, c a < dims a) (h : Owns N dims c p) (a : Fin 3) :
    p a < N a := by
  have := block_end_le (n := N a) (hc a)
  have := (h a).2
  omega

/-! ### The receiving side -/

/-- What rank `r` stores: for each partner the points of the common box. -/
theorem received_spec {α : Type} {S : Setup} (hS : Fits S.N S.sdims) (hR : Fits S.N S.rdims) (hI : S.Inj)
    {trR : ℕ → List ℕ} {junk : ℕ → ℤ} (htr : setTarget S.N S.rdims S.sdims S.tS junk = some trR)
    (sdata : ℕ → ℤ → α) (bjunk : ℤ → α) (out : List (List (ℕ × List α)))
    (hout : ∀ s < procs S.sdims, ∀ r < procs S.rdims,
        Meet S.N S.sdims S.rdims (cartCoords S.sdims s) (cartCoords S.rdims r) →
        queue S out (S.tS s) (S.tR r) =
          [content (S.boxS s) (overlap S.N S.rdims (S.boxS s) (cartCoords S.rdims r)) (sdata s) bjunk])
    (r : ℕ) (hr : r < procs S.rdims) :
    ∃ L, received S out (trR r) r junk = some L ∧
      ∀ e, e ∈ L ↔ ∃ s < procs S.sdims,
        Meet S.N S.sdims S.rdims (cartCoords S.sdims s) (cartCoords S.rdims r) ∧
        ∃ t ∈ cells (overlap S.N S.sdims (S.boxR r) (cartCoords S.sdims s)),
          e = (dataIdx (overlap S.N S.sdims (S.boxR r) (cartCoords S.sdims s)) (S.boxR r) t,
            sdata s (dataIdx (overlap S.N S.sdims (S.boxR r) (cartCoords S.sdims s)) (S.boxS s) t)) := by
  obtain ⟨tr', e, hsp⟩ := setTarget_spec hR hS S.tS junk
  rw [htr] at e
  cases e
  obtain ⟨w, hw, P, hlen, hj⟩ := hsp r hr
  have hrk : ∀ j, ∃ s, j < w.1 → s < procs S.sdims ∧ cartCoords S.sdims s = partner w.2 w.1 j ∧
      (trR r)[j]? = some (S.tS s) := by
    intro j
    by_cases h : j < w.1
    · obtain ⟨s, h1, h2, h3⟩ := hj j h
      exact ⟨s, fun _ => ⟨h1, h2, h3⟩⟩
    · exact ⟨0, fun h' => absurd h' h⟩
  choose rk hrk using hrk
  have hM : ∀ n < w.1, Meet S.N S.sdims S.rdims (cartCoords S.sdims (rk n)) (cartCoords S.rdims r) := by
    intro n hn
    refine Meet.symm ((P.iff _ fun a => coords_lt (hrk n hn).1 a).1 ⟨n, hn, (hrk n hn).2.1.symm⟩)
  set g : ℕ → List (ℤ × α) := fun n =>
    (cells (overlap S.N S.sdims (S.boxR r) (cartCoords S.sdims (rk n)))).map fun t =>
      (dataIdx (overlap S.N S.sdims (S.boxR r) (cartCoords S.sdims (rk n))) (S.boxR r) t,
        sdata (rk n) (dataIdx (overlap S.N S.sdims (S.boxR r) (cartCoords S.sdims (rk n))) (S.boxS (rk n)) t))
    with hg
  refine ⟨((List.range w.1).map g).flatten, ?_, ?_⟩
  · unfold received
    dsimp only
    rw [hw]
    simp only [bind, Option.bind]
    rw [hlen, Halo.mapM_some (List.range w.1) _ g]
    · rfl
    intro n hn
    have hn := List.mem_range.1 hn
    obtain ⟨h1, h2, h3⟩ := hrk n hn
    have hfil : ((trR r).take n).filter (fun x => x = S.tS (rk n)) = [] := by
      rw [List.filter_eq_nil_iff]
      intro x hx hd
      obtain ⟨j, hjlt, hjx⟩ := List.mem_take_iff_getElem.1 hx
      have hj1 : j < n := by omega
      have hj2 : j < w.1 := by omega
      have hxr : x = S.tS (rk j) := by
        have := (hrk j hj2).2.2
        rw [List.getElem?_eq_getElem (by omega)] at this
        rw [← hjx]
        exact Option.some.inj this
      have : rk j = rk n := hI.1 _ (hrk j hj2).1 _ h1 (by rw [← hxr]; simpa using hd)
      have := P.inj j hj2 n hn (by rw [← (hrk j hj2).2.1, ← h2, this])
      omega
    rw [h3]
    simp only
    rw [hfil, hout _ h1 _ hr (hM n hn)]
    simp only [List.length_nil, List.getElem?_cons_zero]
    have hov := overlap_comm S.N S.sdims S.rdims (cartCoords S.sdims (rk n)) (cartCoords S.rdims r)
    have hne := overlap_nonempty (hM n hn)
    rw [← h2]
    unfold Setup.boxS
    rw [hov, content_length, if_pos rfl]
    rw [hov] at hne
    refine Halo.mapM_some _ _ _ ?_
    intro t ht
    rw [content_get hne _ _ ht]
    rfl
  · intro e
    rw [List.mem_flatten]
    constructor
    · rintro ⟨l, hl, he⟩
      obtain ⟨n, hn, rfl⟩ := List.mem_map.1 hl
      have hn := List.mem_range.1 hn
      obtain ⟨t, ht, rfl⟩ := List.mem_map.1 he
      exact ⟨rk n, (hrk n hn).1, hM n hn, t, ht, rfl⟩
    · rintro ⟨s, hs, hm, t, ht, rfl⟩
      obtain ⟨n, hn, en⟩ := (P.iff _ fun a => coords_lt hs a).2 hm.symm
      have : rk n = s := coords_inj ((hrk n hn).2.1.trans en)
      subst this
      exact ⟨g n, List.mem_map.2 ⟨n, List.mem_range.2 hn, rfl⟩, List.mem_map.2 ⟨t, ht, rfl⟩⟩

/-! ### The theorems -/

/-- C02, messages: whatever rank `s` sends to rank `r`, there is one message if some grid point belongs
to both blocks and none otherwise; it has as many elements as there are common points, and element `q`
is the value at the `q`-th common point counted with x fastest.  (Here `lo` and `n` give the common
box.) -/
theorem d2d_messages {α : Type} (S : Setup) (hS : Fits S.N S.sdims) (hR : Fits S.N S.rdims) (hI : S.Inj)
    (f : (Fin 3 → ℕ) → α) (sdata : ℕ → ℤ → α)
    (hd : ∀ c, (∀ a, c a < S.sdims a) → Holds S.N S.sdims c f (sdata (rowMajor S.sdims c)))
    (bjunk : ℤ → α) (junk : ℕ → ℤ) :
    ∃ trS, setTarget S.N S.sdims S.rdims S.tR junk = some trS ∧
      ∀ c, (∀ a, c a < S.sdims a) →
        ∃ l, sent S (trS (rowMajor S.sdims c)) (rowMajor S.sdims c) (sdata (rowMajor S.sdims c)) bjunk junk
            = some l ∧
          ∀ c', (∀ a, c' a < S.rdims a) →
            ((¬ ∃ p, Owns S.N S.sdims c p ∧ Owns S.N S.rdims c' p) ∧
              (l.filter fun m => m.1 = S.tR (rowMajor S.rdims c')) = []) ∨
            ∃ lo n : Fin 3 → ℕ, ∃ msg,
              (∀ p, (Owns S.N S.sdims c p ∧ Owns S.N S.rdims c' p) ↔ ∀ a, lo a ≤ p a ∧ p a < lo a + n a) ∧
              (l.filter fun m => m.1 = S.tR (rowMajor S.rdims c')) = [(S.tR (rowMajor S.rdims c'), msg)] ∧
              msg.length = n 0 * n 1 * n 2 ∧
              ∀ d : Fin 3 → ℕ, (∀ a, d a < n a) →
                msg[d 0 + n 0 * (d 1 + n 1 * d 2)]? = some (f fun a => lo a + d a) := by
  obtain ⟨trS, htr, -⟩ := setTarget_spec hS hR S.tR junk
  refine ⟨trS, htr, ?_⟩
  intro c hc
  obtain ⟨hsr, hsc⟩ := rowMajor_spec hc
  obtain ⟨l, hl, hq⟩ := sent_spec hS hR hI htr _ hsr (sdata (rowMajor S.sdims c)) bjunk
  refine ⟨l, hl, ?_⟩
  intro c' hc'
  obtain ⟨hrr, hrc⟩ := rowMajor_spec hc'
  have hq := hq _ hrr
  rw [hsc, hrc] at hq
  by_cases hM : Meet S.N S.sdims S.rdims c c'
  · right
    rw [if_pos hM] at hq
    set W := overlap S.N S.rdims (S.boxS (rowMajor S.sdims c)) c' with hW
    have hWe : W = overlap S.N S.rdims (vert S.N S.sdims c) c' := by rw [hW, Setup.boxS, hsc]
    have hne : ∀ a, (W a).1 ≤ (W a).2 := by rw [hWe]; exact overlap_nonempty hM
    have hlo : ∀ a, 0 ≤ (W a).1 := by
      intro a
      rw [hWe]
      unfold overlap vert
      dsimp only
      omega
    refine ⟨fun a => (W a).1.toNat, fun a => (len W a).toNat,
      content (S.boxS (rowMajor S.sdims c)) W (sdata (rowMajor S.sdims c)) bjunk, ?_, ?_,
      (content_length _ _ _ _).trans (vol_eq hne), ?_⟩
    · intro p
      constructor
      · rintro ⟨h1, h2⟩ a
        have h1 := h1 a
        have h2 := h2 a
        rw [hWe]
        unfold len overlap vert
        dsimp only
        omega
      · intro h
        rw [hWe] at h hne
        constructor <;>
        · intro a
          have h := h a
          have hne := hne a
          unfold len overlap vert at h
          unfold overlap vert at hne
          dsimp only at h hne
          omega
    · obtain ⟨⟨x, m⟩, hx⟩ : ∃ x, (l.filter fun m => m.1 = S.tR (rowMajor S.rdims c')) = [x] := by
        rw [← List.length_eq_one_iff]
        have := congrArg List.length hq
        simpa using this
      have hm : (x, m) ∈ l.filter fun m => m.1 = S.tR (rowMajor S.rdims c') := by rw [hx]; simp
      have hx1 : x = S.tR (rowMajor S.rdims c') := by
        have := (List.mem_filter.1 hm).2
        simpa using this
      rw [hx] at hq ⊢
      simp only [List.map_cons, List.map_nil, List.cons.injEq, and_true] at hq
      rw [hq, hx1]
    · intro d hd'
      have ht : ((d 0, d 1, d 2) : ℕ × ℕ × ℕ) ∈ cells W := by
        rw [cells, mem_box]
        exact ⟨hd' 0, hd' 1, hd' 2⟩
      have h := content_get (V := S.boxS (rowMajor S.sdims c)) hne (sdata (rowMajor S.sdims c)) bjunk ht
      rw [bufIdx_eq hne, Int.toNat_natCast] at h
      have e : d 0 + (len W 0).toNat * (d 1 + (len W 1).toNat * d 2) =
          d 0 + d 1 * (len W 0).toNat + d 2 * ((len W 0).toNat * (len W 1).toNat) := by ring
      rw [e, h]
      congr 1
      have ho : Owns S.N S.sdims c (fun a => (W a).1.toNat + d a) := by
        intro a
        have h1 := hd' a
        have h2 := hne a
        have h3 := hlo a
        rw [hWe] at h1 h2 h3 ⊢
        unfold len overlap vert at h1
        unfold overlap vert at h2 h3 ⊢
        dsimp only at h1 h2 h3 ⊢
        omega
      have := hd c hc _ ho
      rw [← this, addr_eq ho, dataIdx_eq, Setup.boxS, hsc]
      congr 2 <;>
      · push_cast
        rw [Int.toNat_of_nonneg (hlo _)]
  · left
    rw [if_neg hM] at hq
    refine ⟨fun h => hM (meet_iff.2 h), ?_⟩
    simpa using hq

/-- C02: transferring a grid function from one process layout to another.  If every process of the
first layout holds the values of `f` on its block then afterwards every process of the second holds the
values of `f` on its own block, for every grid, every two layouts with no empty block, whatever the two
translations to ranks of the joint communicator, the previous contents of the target, of the buffers
and of the index scratch; no other element of the target changes; no read is out of range and no
message is missing or of the wrong length. -/
theorem d2d_correct {α : Type} (S : Setup) (hS : Fits S.N S.sdims) (hR : Fits S.N S.rdims) (hI : S.Inj)
    (f : (Fin 3 → ℕ) → α) (sdata rdata : ℕ → ℤ → α)
    (hd : ∀ c, (∀ a, c a < S.sdims a) → Holds S.N S.sdims c f (sdata (rowMajor S.sdims c)))
    (bjunk : ℤ → α) (junk : ℕ → ℤ) (c : Fin 3 → ℕ) (hc : ∀ a, c a < S.rdims a) :
    ∃ out, d2d S sdata rdata bjunk junk (rowMajor S.rdims c) = some out ∧
      Holds S.N S.rdims c f out ∧
      ∀ x, (∀ p, Owns S.N S.rdims c p → addr S.N S.rdims c p ≠ x) →
        out x = rdata (rowMajor S.rdims c) x := by
  obtain ⟨trS, htrS, -⟩ := setTarget_spec hS hR S.tR junk
  obtain ⟨trR, htrR, -⟩ := setTarget_spec hR hS S.tS junk
  obtain ⟨out, hout, hq⟩ := queue_spec hS hR hI htrS sdata bjunk
  obtain ⟨hrr, hrc⟩ := rowMajor_spec hc
  obtain ⟨L, hL, hmem⟩ := received_spec hS hR hI htrR sdata bjunk out hq _ hrr
  refine ⟨_, by
    unfold d2d
    rw [htrS, htrR]
    simp only [bind, Option.bind]
    rw [hout]
    simp only
    rw [hL]
    rfl, ?_, ?_⟩
  -- every element stored is the value of `f` at a point of the block
  · have hval : ∀ e ∈ L, ∃ p, Owns S.N S.rdims c p ∧ e = (addr S.N S.rdims c p, f p) := by
      intro e he
      obtain ⟨s, hs, hm, t, ht, rfl⟩ := (hmem e).1 he
      have hcs : ∀ a, cartCoords S.sdims s a < S.sdims a := fun a => coords_lt hs a
      have hsr : rowMajor S.sdims (cartCoords S.sdims s) = s :=
        coords_inj (rowMajor_spec hcs).2
      have hne := overlap_nonempty hm.symm
      have hb : S.boxR (rowMajor S.rdims c) = vert S.N S.rdims c := by rw [Setup.boxR, hrc]
      rw [hrc] at hne
      rw [hb] at ht ⊢
      set W := overlap S.N S.sdims (vert S.N S.rdims c) (cartCoords S.sdims s) with hW
      rw [cells, mem_box] at ht
      have hin : ∀ a, ∀ d : ℕ, d < (len W a).toNat → 0 ≤ (W a).1 ∧
          ((vert S.N S.rdims c a).1 ≤ (W a).1 + d ∧ (W a).1 + d ≤ (vert S.N S.rdims c a).2) ∧
          (vert S.N S.sdims (cartCoords S.sdims s) a).1 ≤ (W a).1 + d ∧
          (W a).1 + d ≤ (vert S.N S.sdims (cartCoords S.sdims s) a).2 := by
        intro a d h
        have h0 : 0 ≤ (vert S.N S.rdims c a).1 := by unfold vert; dsimp only; omega
        rw [hW] at h ⊢
        unfold len overlap at h
        unfold overlap
        dsimp only at h ⊢
        omega
      have i0 := hin 0 _ ht.1
      have i1 := hin 1 _ ht.2.1
      have i2 := hin 2 _ ht.2.2
      have c0 : (((W 0).1.toNat + t.1 : ℕ) : ℤ) = (W 0).1 + t.1 := by
        push_cast; rw [Int.toNat_of_nonneg i0.1]
      have c1 : (((W 1).1.toNat + t.2.1 : ℕ) : ℤ) = (W 1).1 + t.2.1 := by
        push_cast; rw [Int.toNat_of_nonneg i1.1]
      have c2 : (((W 2).1.toNat + t.2.2 : ℕ) : ℤ) = (W 2).1 + t.2.2 := by
        push_cast; rw [Int.toNat_of_nonneg i2.1]
      set p : Fin 3 → ℕ := ![(W 0).1.toNat + t.1, (W 1).1.toNat + t.2.1, (W 2).1.toNat + t.2.2] with hp
      have p0 : ((p 0 : ℕ) : ℤ) = (W 0).1 + t.1 := c0
      have p1 : ((p 1 : ℕ) : ℤ) = (W 1).1 + t.2.1 := c1
      have p2 : ((p 2 : ℕ) : ℤ) = (W 2).1 + t.2.2 := c2
      have hor : Owns S.N S.rdims c p := by
        rw [owns_iff]
        unfold InBox
        rw [p0, p1, p2]
        exact ⟨i0.2.1, i1.2.1, i2.2.1⟩
      have hos : Owns S.N S.sdims (cartCoords S.sdims s) p := by
        rw [owns_iff]
        unfold InBox
        rw [p0, p1, p2]
        exact ⟨i0.2.2, i1.2.2, i2.2.2⟩
      refine ⟨p, hor, ?_⟩
      have := hd _ hcs p hos
      rw [hsr] at this
      rw [← this, addr_eq hor, addr_eq hos, dataIdx_eq, dataIdx_eq, p0, p1, p2]
      rfl
    intro p hp
    -- the point was sent by its owner
    obtain ⟨cs, hcs, hos⟩ := exists_owner hS (owns_lt hc hp)
    obtain ⟨hsr, hsc⟩ := rowMajor_spec hcs
    have hm : Meet S.N S.sdims S.rdims (cartCoords S.sdims (rowMajor S.sdims cs))
        (cartCoords S.rdims (rowMajor S.rdims c)) := by
      rw [hsc, hrc]
      exact meet_iff.2 ⟨p, hos, hp⟩
    have hb : S.boxR (rowMajor S.rdims c) = vert S.N S.rdims c := by rw [Setup.boxR, hrc]
    set W := overlap S.N S.sdims (vert S.N S.rdims c) cs with hW
    have hin : ∀ a, (W a).1 ≤ p a ∧ (p a : ℤ) ≤ (W a).2 := by
      intro a
      have h1 := hp a
      have h2 := hos a
      rw [hW]
      unfold overlap vert
      dsimp only
      omega
    have ht : (((p 0 - (W 0).1).toNat, (p 1 - (W 1).1).toNat, (p 2 - (W 2).1).toNat) : ℕ × ℕ × ℕ) ∈
        cells W := by
      have h0 := hin 0
      have h1 := hin 1
      have h2 := hin 2
      rw [cells, mem_box]
      unfold len
      refine ⟨?_, ?_, ?_⟩ <;> dsimp only <;> omega
    have he := (hmem _).2 ⟨_, hsr, hm, _, by rw [hb, hsc]; exact ht, rfl⟩
    obtain ⟨q, hq1, hq2⟩ := hval _ he
    have hqa : addr S.N S.rdims c q = addr S.N S.rdims c p := by
      refine (congrArg Prod.fst hq2).symm.trans ?_
      dsimp only
      rw [hb, hsc, ← hW, dataIdx_eq, addr_eq hp]
      have h0 := hin 0
      have h1 := hin 1
      have h2 := hin 2
      congr 1 <;> dsimp only <;> omega
    have hqp := addr_inj hq1 hp hqa
    subst hqp
    rw [hq2] at he
    refine fill_at (idx := Prod.fst) (val := Prod.snd) (t := (addr S.N S.rdims c q, f q)) he ?_
    intro e' he' ee
    obtain ⟨q', h1, rfl⟩ := hval _ he'
    rw [addr_inj h1 hp ee]
  · intro x hx
    refine fill_other ?_
    intro e he
    obtain ⟨s, hs, hm, t, ht, rfl⟩ := (hmem e).1 he
    have hb : S.boxR (rowMajor S.rdims c) = vert S.N S.rdims c := by rw [Setup.boxR, hrc]
    rw [hb] at ht ⊢
    set W := overlap S.N S.sdims (vert S.N S.rdims c) (cartCoords S.sdims s) with hW
    rw [cells, mem_box] at ht
    have hin : ∀ a, ∀ d : ℕ, d < (len W a).toNat → 0 ≤ (W a).1 ∧
        (vert S.N S.rdims c a).1 ≤ (W a).1 + d ∧ (W a).1 + d ≤ (vert S.N S.rdims c a).2 := by
      intro a d h
      have h0 : 0 ≤ (vert S.N S.rdims c a).1 := by unfold vert; dsimp only; omega
      rw [hW] at h ⊢
      unfold len overlap at h
      unfold overlap
      dsimp only at h ⊢
      omega
    have i0 := hin 0 _ ht.1
    have i1 := hin 1 _ ht.2.1
    have i2 := hin 2 _ ht.2.2
    set p : Fin 3 → ℕ := ![(W 0).1.toNat + t.1, (W 1).1.toNat + t.2.1, (W 2).1.toNat + t.2.2] with hp
    have p0 : ((p 0 : ℕ) : ℤ) = (W 0).1 + t.1 := by
      show (((W 0).1.toNat + t.1 : ℕ) : ℤ) = _
      push_cast; rw [Int.toNat_of_nonneg i0.1]
    have p1 : ((p 1 : ℕ) : ℤ) = (W 1).1 + t.2.1 := by
      show (((W 1).1.toNat + t.2.1 : ℕ) : ℤ) = _
      push_cast; rw [Int.toNat_of_nonneg i1.1]
    have p2 : ((p 2 : ℕ) : ℤ) = (W 2).1 + t.2.2 := by
      show (((W 2).1.toNat + t.2.2 : ℕ) : ℤ) = _
      push_cast; rw [Int.toNat_of_nonneg i2.1]
    have hor : Owns S.N S.rdims c p := by
      rw [owns_iff]
      unfold InBox
      rw [p0, p1, p2]
      exact ⟨i0.2, i1.2, i2.2⟩
    have := hx p hor
    rw [addr_eq hor, p0, p1, p2] at this
    rw [dataIdx_eq]
    exact this

/-! ### Examples -/

/-- A 3 × 2 × 2 grid goes from two processes along x to two along y; the ranks of the second layout are
translated to other ranks of the joint communicator. -/
def demo : Setup where
  N := ![3, 2, 2]
  sdims := ![2, 1, 1]
  rdims := ![1, 2, 1]
  tS := fun s => s
  tR := fun r => r + 1

theorem demo_fits : Fits demo.N demo.sdims ∧ Fits demo.N demo.rdims ∧ demo.Inj := by
  refine ⟨?_, ?_, ?_, ?_⟩
  · intro a
    fin_cases a <;> simp [demo]
  · intro a
    fin_cases a <;> simp [demo]
  · intro s _ s' _ h
    exact h
  · intro r _ r' _ h
    exact Nat.succ.inj h

/-- Values coded as 100 z + 10 y + x. -/
def demoData (s : ℕ) (a : ℤ) : ℕ :=
  let nx := if s = 0 then 2 else 1
  let x0 := if s = 0 then 0 else 2
  let q := a.toNat
  100 * (q / (2 * nx)) + 10 * (q / nx % 2) + (x0 + q % nx)

example : ((d2d demo demoData (fun _ _ => 999) (fun _ => 777) (fun _ => -5) 1).map fun m =>
    (List.range 7).map fun (q : ℕ) => m q) = some [10, 11, 12, 110, 111, 112, 999] := by
  decide +kernel

/-- Without the condition on the number of processes the redistribution breaks down: a block with no
points makes the search for its owner fail. -/
example : setTarget ![2, 1, 1] ![3, 1, 1] ![1, 1, 1] id (fun _ => 0) = none := by
  decide +kernel

end Sparc.D2D

import Verif.Tac
import Verif.Block.Props
import Verif.Grid.Props
import Verif.Halo.Lemmas
import Verif.D2D.Model

/-!
# Redistribution between process layouts (lemmas)
-/

namespace Sparc.D2D

open Loop Block

/-! ### Cartesian ranks -/

theorem coords_lt {dims : Fin 3 → ℕ} {r : ℕ} (h : r < procs dims) (a : Fin 3) :
    cartCoords dims r a < dims a := by
  unfold procs at h
  have h0 : 0 < dims 0 * dims 1 * dims 2 := by omega
  have h2 : 0 < dims 2 := Nat.pos_of_mul_pos_left h0
  have h1 : 0 < dims 1 := Nat.pos_of_mul_pos_left (Nat.pos_of_mul_pos_right h0)
  match a with
  | 0 =>
    change r / (dims 1 * dims 2) < dims 0
    refine Nat.div_lt_of_lt_mul ?_
    linarith
  | 1 => exact Nat.mod_lt _ h1
  | 2 => exact Nat.mod_lt _ h2

theorem fin3_ext {c c' : Fin 3 → ℕ} (h0 : c 0 = c' 0) (h1 : c 1 = c' 1) (h2 : c 2 = c' 2) : c = c' := by
  funext a
  match a with
  | 0 => exact h0
  | 1 => exact h1
  | 2 => exact h2

theorem cart_spec {dims c : Fin 3 → ℕ} (h : ∀ a, c a < dims a) :
    ∃ r, r < procs dims ∧ cartRank dims ![(c 0 : ℤ), c 1, c 2] = some r ∧ cartCoords dims r = c := by
  have h0 := h 0
  have h1 := h 1
  have h2 := h 2
  refine ⟨(c 0 * dims 1 + c 1) * dims 2 + c 2, ?_, ?_, ?_⟩
  · unfold procs
    have : c 0 * dims 1 + c 1 < dims 0 * dims 1 := by nlinarith
    nlinarith
  · unfold cartRank
    rw [if_pos]
    · rfl
    · refine ⟨⟨?_, ?_⟩, ⟨?_, ?_⟩, ?_, ?_⟩ <;> simp <;> omega
  · have e1 : ((c 0 * dims 1 + c 1) * dims 2 + c 2) / dims 2 = c 0 * dims 1 + c 1 := by
      rw [Nat.add_comm, Nat.add_mul_div_right _ _ (by omega), Nat.div_eq_of_lt h2, Nat.zero_add]
    have e2 : (c 0 * dims 1 + c 1) / dims 1 = c 0 := by
      rw [Nat.add_comm, Nat.add_mul_div_right _ _ (by omega), Nat.div_eq_of_lt h1, Nat.zero_add]
    refine fin3_ext ?_ ?_ ?_
    · change ((c 0 * dims 1 + c 1) * dims 2 + c 2) / (dims 1 * dims 2) = c 0
      rw [Nat.mul_comm (dims 1), ← Nat.div_div_eq_div_mul, e1, e2]
    · change ((c 0 * dims 1 + c 1) * dims 2 + c 2) / dims 2 % dims 1 = c 1
      rw [e1, Nat.add_comm, Nat.add_mul_mod_self_right, Nat.mod_eq_of_lt h1]
    · change ((c 0 * dims 1 + c 1) * dims 2 + c 2) % dims 2 = c 2
      rw [Nat.add_comm, Nat.add_mul_mod_self_right, Nat.mod_eq_of_lt h2]

theorem coords_inj {dims : Fin 3 → ℕ} {r r' : ℕ}
    (h : cartCoords dims r = cartCoords dims r') : r = r' := by
  have e0 : r / (dims 1 * dims 2) = r' / (dims 1 * dims 2) := congrFun h 0
  have e1 : r / dims 2 % dims 1 = r' / dims 2 % dims 1 := congrFun h 1
  have e2 : r % dims 2 = r' % dims 2 := congrFun h 2
  rw [Nat.mul_comm, ← Nat.div_div_eq_div_mul, ← Nat.div_div_eq_div_mul] at e0
  have e3 : r / dims 2 = r' / dims 2 := by
    rw [← Nat.mod_add_div (r / dims 2) (dims 1), ← Nat.mod_add_div (r' / dims 2) (dims 1), e0, e1]
  rw [← Nat.mod_add_div r (dims 2), ← Nat.mod_add_div r' (dims 2), e2, e3]

/-! ### One axis -/

theorem size_pos {n p c : ℕ} (hp : 0 < p) (h : p ≤ n) : 0 < blockDecompose n p c := by
  unfold blockDecompose
  have := Nat.div_pos h hp
  omega

theorem block_end_le {n p c : ℕ} (hc : c < p) : blockNstart n p c + blockDecompose n p c ≤ n := by
  rw [← nstart_succ]
  calc blockNstart n p (c + 1) ≤ blockNstart n p p := nstart_mono n p hc
    _ = n := nstart_last n p (by omega)

/-- The block `c` meets `[lo, hi]` iff `c` lies between the owners of the ends. -/
theorem meets_iff {n p c : ℕ} (hp : p ≤ n) (hc : c < p) {lo hi a b : ℕ} (hlh : lo ≤ hi) (hhi : hi < n)
    (ha : blockRank n p lo = some a) (hb : blockRank n p hi = some b) :
    (a ≤ c ∧ c ≤ b) ↔
      blockNstart n p c ≤ hi ∧ lo < blockNstart n p c + blockDecompose n p c := by
  have hp0 : 0 < p := by omega
  obtain ⟨-, a1, a2⟩ := (block_decompose_rank_iff n p lo a hp0 (by omega)).1 ha
  obtain ⟨-, b1, b2⟩ := (block_decompose_rank_iff n p hi b hp0 hhi).1 hb
  rw [← nstart_succ] at a2 b2 ⊢
  constructor
  · rintro ⟨h1, h2⟩
    have m1 := nstart_mono n p h2
    have m2 := nstart_mono n p (show a + 1 ≤ c + 1 by omega)
    omega
  · rintro ⟨h1, h2⟩
    constructor
    · by_contra h
      have := nstart_mono n p (show c + 1 ≤ a by omega)
      omega
    · by_contra h
      have := nstart_mono n p (show b + 1 ≤ c by omega)
      omega

/-! ### Partners -/

/-- Both layouts give every process at least one point along every axis. -/
def Fits (N dims : Fin 3 → ℕ) : Prop := ∀ a, 0 < dims a ∧ dims a ≤ N a

/-- The blocks of `c` and `c'` have a point in common. -/
def Meet (N dims dims' c c' : Fin 3 → ℕ) : Prop :=
  ∀ a, max (vert N dims c a).1 (vert N dims' c' a).1 ≤ min (vert N dims c a).2 (vert N dims' c' a).2

theorem Meet.symm {N dims dims' c c' : Fin 3 → ℕ} (h : Meet N dims dims' c c') :
    Meet N dims' dims c' c := by
  intro a
  rw [max_comm, min_comm]
  exact h a

theorem arr_lt (f : Fin 3 → ℤ) (a : Fin 3) : arr f a.val = f a := by
  match a with
  | 0 => rfl
  | 1 => rfl
  | 2 => rfl

/-- What is known of the partners of a block. -/
structure Partners (N dims dims' c : Fin 3 → ℕ) (cnt : ℕ) (X : ℕ → ℤ) : Prop where
  cast : ∀ n < cnt, ∀ a : Fin 3, X (a.val * cnt + n) = (partner X cnt n a : ℤ)
  lt : ∀ n < cnt, ∀ a, partner X cnt n a < dims' a
  inj : ∀ n < cnt, ∀ n' < cnt, partner X cnt n = partner X cnt n' → n = n'
  iff : ∀ c', (∀ a, c' a < dims' a) → ((∃ n < cnt, partner X cnt n = c') ↔ Meet N dims dims' c c')

theorem rankOf_spec {N dims : Fin 3 → ℕ} (hf : Fits N dims) (a : Fin 3) {x : ℕ} (hx : x < N a) :
    ∃ r : ℕ, r < dims a ∧ rankOf N dims a x = some (r : ℤ) ∧ blockRank (N a) (dims a) x = some r := by
  obtain ⟨r, h1, h2, -⟩ := blockRank_spec (N a) (dims a) x (hf a).1 hx
  refine ⟨r, h2, ?_, h1⟩
  unfold rankOf
  rw [if_neg (by omega), Int.toNat_natCast, h1]
  rfl

theorem targets_spec {N dims dims' c : Fin 3 → ℕ} (hf : Fits N dims) (hf' : Fits N dims')
    (hc : ∀ a, c a < dims a) (junk : ℕ → ℤ) :
    ∃ w, targets N dims' (vert N dims c) junk = some w ∧ Partners N dims dims' c w.1 w.2 := by
  -- corners as natural numbers
  set lo : Fin 3 → ℕ := fun a => blockNstart (N a) (dims a) (c a) with hlo
  set hi : Fin 3 → ℕ := fun a => lo a + blockDecompose (N a) (dims a) (c a) - 1 with hhi
  have hs : ∀ a, 0 < blockDecompose (N a) (dims a) (c a) := fun a => size_pos (hf a).1 (hf a).2
  have he : ∀ a, lo a + blockDecompose (N a) (dims a) (c a) ≤ N a := fun a => block_end_le (hc a)
  have hlt : ∀ a, hi a < N a := fun a => by
    have := hs a
    have := he a
    simp only [hhi]
    omega
  have hle : ∀ a, lo a ≤ hi a := fun a => by
    have := hs a
    simp only [hhi]
    omega
  have v1 : ∀ a, (vert N dims c a).1 = (lo a : ℤ) := fun a => rfl
  have v2 : ∀ a, (vert N dims c a).2 = (hi a : ℤ) := fun a => by
    have := hs a
    change (lo a : ℤ) + _ - 1 = _
    simp only [hhi]
    omega
  have rl := fun a => rankOf_spec hf' a (lt_of_le_of_lt (hle a) (hlt a))
  have rh := fun a => rankOf_spec hf' a (hlt a)
  choose A A1 A2 A3 using rl
  choose B B1 B2 B3 using rh
  have hAB : ∀ a, A a ≤ B a := by
    intro a
    obtain ⟨-, a1, a2⟩ := (block_decompose_rank_iff _ _ _ _ (hf' a).1
      (lt_of_le_of_lt (hle a) (hlt a))).1 (A3 a)
    obtain ⟨-, b1, b2⟩ := (block_decompose_rank_iff _ _ _ _ (hf' a).1 (hlt a)).1 (B3 a)
    rw [← nstart_succ] at a2 b2
    by_contra h
    have := nstart_mono (N a) (dims' a) (show B a + 1 ≤ A a by omega)
    have := hle a
    omega
  set xs : ℕ → ℤ := arr ![(A 0 : ℤ), A 1, A 2] with hxs
  set xe : ℕ → ℤ := arr ![(B 0 : ℤ), B 1, B 2] with hxe
  have exs : ∀ a : Fin 3, xs a.val = A a := by
    intro a
    rw [hxs, arr_lt]
    match a with
    | 0 => rfl
    | 1 => rfl
    | 2 => rfl
  have exe : ∀ a : Fin 3, xe a.val = B a := by
    intro a
    rw [hxe, arr_lt]
    match a with
    | 0 => rfl
    | 1 => rfl
    | 2 => rfl
  have hne : Grid.Nonempty 3 xs xe := by
    intro a ha
    have := hAB ⟨a, ha⟩
    have e1 := exs ⟨a, ha⟩
    have e2 := exe ⟨a, ha⟩
    dsimp only at e1 e2
    rw [e1, e2]
    exact_mod_cast this
  obtain ⟨X, g1, g2, g3⟩ := Grid.ndgrid_each_once hne junk
  set cnt := Grid.points (Grid.extent xs xe) 3 with hcnt
  have ecnt : (((B 0 : ℤ) - A 0 + 1) * (B 1 - A 1 + 1) * (B 2 - A 2 + 1)).toNat = cnt := by
    have x0 : Grid.extent xs xe 0 = B 0 - A 0 + 1 := by
      have := hAB 0
      unfold Grid.extent
      rw [show xs 0 = A 0 from exs 0, show xe 0 = B 0 from exe 0]
      omega
    have x1 : Grid.extent xs xe 1 = B 1 - A 1 + 1 := by
      have := hAB 1
      unfold Grid.extent
      rw [show xs 1 = A 1 from exs 1, show xe 1 = B 1 from exe 1]
      omega
    have x2 : Grid.extent xs xe 2 = B 2 - A 2 + 1 := by
      have := hAB 2
      unfold Grid.extent
      rw [show xs 2 = A 2 from exs 2, show xe 2 = B 2 from exe 2]
      omega
    have : cnt = (B 0 - A 0 + 1) * (B 1 - A 1 + 1) * (B 2 - A 2 + 1) := by
      rw [hcnt]
      simp only [Grid.points, x0, x1, x2, Nat.one_mul]
    rw [this]
    have h0 := hAB 0
    have h1 := hAB 1
    have h2 := hAB 2
    have y0 : ((B 0 : ℤ) - A 0 + 1) = ((B 0 - A 0 + 1 : ℕ) : ℤ) := by omega
    have y1 : ((B 1 : ℤ) - A 1 + 1) = ((B 1 - A 1 + 1 : ℕ) : ℤ) := by omega
    have y2 : ((B 2 : ℤ) - A 2 + 1) = ((B 2 - A 2 + 1 : ℕ) : ℤ) := by omega
    rw [y0, y1, y2, ← Nat.cast_mul, ← Nat.cast_mul, Int.toNat_natCast]
  refine ⟨(cnt, X), ?_, ?_⟩
  · unfold targets
    rw [v1, v2, v1, v2, v1, v2, A2, B2, A2, B2, A2, B2]
    simp only [bind, Option.bind, pure]
    rw [g1]
    dsimp only
    rw [ecnt]
  · have hcast : ∀ n < cnt, ∀ a : Fin 3, X (a.val * cnt + n) = (partner X cnt n a : ℤ) ∧
        (A a : ℤ) ≤ X (a.val * cnt + n) ∧ X (a.val * cnt + n) ≤ B a := by
      intro n hn a
      have := g3 n hn a.val a.isLt
      rw [exs, exe, Nat.mul_comm] at this
      refine ⟨?_, this⟩
      unfold partner
      rw [Int.toNat_of_nonneg]
      exact le_trans (Int.natCast_nonneg _) this.1
    refine ⟨fun n hn a => (hcast n hn a).1, ?_, ?_, ?_⟩
    · intro n hn a
      obtain ⟨h1, -, h3⟩ := hcast n hn a
      have := B1 a
      dsimp only
      omega
    · intro n hn n' hn' e
      obtain ⟨t, -, hu⟩ := g2 (fun a => X (cnt * a + n)) (fun a ha => g3 n hn a ha)
      rw [hu n ⟨hn, fun a ha => rfl⟩]
      refine (hu n' ⟨hn', ?_⟩).symm
      intro a ha
      have q1 := (hcast n hn ⟨a, ha⟩).1
      have q2 := (hcast n' hn' ⟨a, ha⟩).1
      dsimp only at q1 q2
      rw [Nat.mul_comm cnt a, q1, q2]
      rw [show partner X cnt n = partner X cnt n' from e]
    · intro c' hc'
      have hmeet : ∀ a, (A a ≤ c' a ∧ c' a ≤ B a) ↔
          max (vert N dims c a).1 (vert N dims' c' a).1 ≤ min (vert N dims c a).2 (vert N dims' c' a).2 := by
        intro a
        rw [meets_iff (hf' a).2 (hc' a) (hle a) (hlt a) (A3 a) (B3 a), v1, v2]
        have := hle a
        have := size_pos (c := c' a) (hf' a).1 (hf' a).2
        have u1 : (vert N dims' c' a).1 = blockNstart (N a) (dims' a) (c' a) := rfl
        have u2 : (vert N dims' c' a).2 = blockNstart (N a) (dims' a) (c' a) +
          blockDecompose (N a) (dims' a) (c' a) - 1 := rfl
        rw [u1, u2, max_le_iff, le_min_iff, le_min_iff]
        omega
      constructor
      · rintro ⟨n, hn, e⟩ a
        obtain ⟨h1, h2, h3⟩ := hcast n hn a
        rw [← hmeet a]
        dsimp only at e
        rw [← e]
        omega
      · intro hM
        obtain ⟨t, ⟨ht, hv⟩, -⟩ := g2 (fun a => if h : a < 3 then (c' ⟨a, h⟩ : ℤ) else 0) (by
          intro a ha
          have := (hmeet ⟨a, ha⟩).2 (hM ⟨a, ha⟩)
          have e1 := exs ⟨a, ha⟩
          have e2 := exe ⟨a, ha⟩
          dsimp only at e1 e2
          rw [e1, e2, dif_pos ha]
          omega)
        refine ⟨t, ht, ?_⟩
        funext a
        have h1 := hv a.val a.isLt
        have h2 := (hcast t ht a).1
        rw [dif_pos a.isLt, Nat.mul_comm] at h1
        have : (partner X cnt t a : ℤ) = c' a := by rw [← h2, h1]
        exact_mod_cast this

/-! ### Gather and scatter -/

theorem flatMap_get {α : Type} (f : ℕ → List α) {S s q : ℕ} (hs : s < S) (hq : q < (f s).length) :
    ((List.range S).flatMap f)[((List.range s).map fun t => (f t).length).sum + q]? = (f s)[q]? := by
  conv_rhs => rw [← Halo.flatMap_drop_take f S s hs]
  rw [List.getElem?_take_of_lt hq, List.getElem?_drop]

theorem setTarget_spec {N dims dims' : Fin 3 → ℕ} (hf : Fits N dims) (hf' : Fits N dims') (t : ℕ → ℕ)
    (junk : ℕ → ℤ) :
    ∃ tr, setTarget N dims dims' t junk = some tr ∧
      ∀ n < procs dims, ∃ w, targets N dims' (vert N dims (cartCoords dims n)) junk = some w ∧
        Partners N dims dims' (cartCoords dims n) w.1 w.2 ∧ (tr n).length = w.1 ∧
        ∀ j < w.1, ∃ r < procs dims', cartCoords dims' r = partner w.2 w.1 j ∧
          (tr n)[j]? = some (t r) := by
  have hT : ∀ n, ∃ w, n < procs dims →
      targets N dims' (vert N dims (cartCoords dims n)) junk = some w ∧
        Partners N dims dims' (cartCoords dims n) w.1 w.2 := by
    intro n
    by_cases hn : n < procs dims
    · obtain ⟨w, h1, h2⟩ := targets_spec hf hf' (fun a => coords_lt hn a) junk
      exact ⟨w, fun _ => ⟨h1, h2⟩⟩
    · exact ⟨(0, fun _ => 0), fun h => absurd h hn⟩
  choose w hw using hT
  have hrk : ∀ n j, ∃ r, n < procs dims → j < (w n).1 → r < procs dims' ∧
      cartRank dims' ![(w n).2 j, (w n).2 ((w n).1 + j), (w n).2 (2 * (w n).1 + j)] = some r ∧
      cartCoords dims' r = partner (w n).2 (w n).1 j := by
    intro n j
    by_cases hn : n < procs dims
    · by_cases hj : j < (w n).1
      · obtain ⟨-, P⟩ := hw n hn
        obtain ⟨r, h1, h2, h3⟩ := cart_spec (P.lt j hj)
        refine ⟨r, fun _ _ => ⟨h1, ?_, h3⟩⟩
        have e0 := P.cast j hj 0
        have e1 := P.cast j hj 1
        have e2 := P.cast j hj 2
        simp only [Fin.val_zero, Nat.zero_mul, Nat.zero_add, Fin.val_one, Nat.one_mul, Fin.val_two] at e0 e1 e2
        rw [e0, e1, e2]
        exact h2
      · exact ⟨0, fun _ h => absurd h hj⟩
    · exact ⟨0, fun h => absurd h hn⟩
  choose rk hrk using hrk
  have hmT : (List.range (procs dims)).mapM
      (fun n => targets N dims' (vert N dims (cartCoords dims n)) junk) =
      some ((List.range (procs dims)).map w) :=
    Halo.mapM_some _ _ _ fun n hn => (hw n (List.mem_range.1 hn)).1
  have hcnt : ∀ n < procs dims, (((List.range (procs dims)).map w).map Prod.fst).getD n 0 = (w n).1 := by
    intro n hn
    rw [List.map_map, List.getD_eq_getElem?_getD, List.getElem?_map, List.getElem?_range hn]
    rfl
  have htake : ∀ n ≤ procs dims, ((List.range (procs dims)).map w).take n = (List.range n).map w := by
    intro n hn
    rw [← List.map_take, List.take_range, Nat.min_eq_left hn]
  have hvec : (((List.range (procs dims)).map w).flatMap fun w => (List.range (w.1 * 3)).map w.2) =
      (List.range (procs dims)).flatMap fun n => (List.range ((w n).1 * 3)).map (w n).2 := by
    rw [List.flatMap_map]
  have hread : ∀ n < procs dims, ∀ q < (w n).1 * 3,
      ((List.range (procs dims)).flatMap fun n => (List.range ((w n).1 * 3)).map (w n).2)[
        ((((List.range (procs dims)).map w).take n).map fun w => 3 * w.1).sum + q]? =
      some ((w n).2 q) := by
    intro n hn q hq
    rw [htake n hn.le, List.map_map]
    have := flatMap_get (fun n => (List.range ((w n).1 * 3)).map (w n).2) hn (q := q) (by simpa using hq)
    simp only [List.length_map, List.length_range] at this
    have e : ((fun w : ℕ × (ℕ → ℤ) => 3 * w.1) ∘ w) = fun t => (w t).1 * 3 := by
      funext t
      simp only [Function.comp_apply]
      ring
    rw [e, this, List.getElem?_map, List.getElem?_range hq]
    rfl
  unfold setTarget
  dsimp only
  rw [hmT]
  simp only [bind, Option.bind, pure]
  rw [hvec]
  rw [Halo.mapM_some (List.range (procs dims)) _
    (fun n => (List.range ((w n).1)).map (rk n)) (by
      intro n hn
      have hn := List.mem_range.1 hn
      rw [hcnt n hn]
      refine Halo.mapM_some _ _ _ ?_
      intro j hj
      have hj := List.mem_range.1 hj
      rw [hread n hn j (by omega), Nat.add_assoc, hread n hn _ (by omega), Nat.add_assoc,
        hread n hn _ (by omega)]
      exact (hrk n j hn hj).2.1)]
  refine ⟨_, rfl, ?_⟩
  intro n hn
  obtain ⟨h1, h2⟩ := hw n hn
  have hsl : (((((List.range (procs dims)).map fun n => (List.range ((w n).1)).map (rk n)).flatten.map t).drop
      ((((List.range (procs dims)).map w).take n).map fun w => w.1).sum).take
      ((((List.range (procs dims)).map w).map Prod.fst).getD n 0)) =
      (List.range (w n).1).map fun j => t (rk n j) := by
    rw [hcnt n hn, htake n hn.le]
    have := Halo.flatMap_drop_take (fun n => (List.range (w n).1).map fun j => t (rk n j)) _ _ hn
    simp only [List.length_map, List.length_range] at this
    rw [← List.flatMap_def, List.map_flatMap, List.map_map]
    simp only [List.map_map]
    exact this
  refine ⟨w n, h1, h2, ?_, ?_⟩
  · rw [hsl]
    simp
  · intro j hj
    obtain ⟨a1, -, a3⟩ := hrk n j hn hj
    refine ⟨rk n j, a1, a3, ?_⟩
    rw [hsl, List.getElem?_map, List.getElem?_range hj]
    rfl

/-! ### Messages -/

/-- Position of a point in an array that holds the box `V`. -/
def place (V : Fin 3 → ℤ × ℤ) (x y z : ℤ) : ℤ :=
  (z - (V 2).1) * len V 1 * len V 0 + (y - (V 1).1) * len V 0 + (x - (V 0).1)

/-- The point lies in the box. -/
def InBox (V : Fin 3 → ℤ × ℤ) (x y z : ℤ) : Prop :=
  ((V 0).1 ≤ x ∧ x ≤ (V 0).2) ∧ ((V 1).1 ≤ y ∧ y ≤ (V 1).2) ∧ ((V 2).1 ≤ z ∧ z ≤ (V 2).2)

theorem place_inj {V : Fin 3 → ℤ × ℤ} {x y z x' y' z' : ℤ} (h : InBox V x y z) (h' : InBox V x' y' z')
    (e : place V x y z = place V x' y' z') : x = x' ∧ y = y' ∧ z = z' := by
  obtain ⟨⟨a1, a2⟩, ⟨a3, a4⟩, a5, a6⟩ := h
  obtain ⟨⟨b1, b2⟩, ⟨b3, b4⟩, b5, b6⟩ := h'
  unfold place at e
  have e1 : ((z - (V 2).1) * len V 1 + (y - (V 1).1)) * len V 0 + (x - (V 0).1) =
      ((z' - (V 2).1) * len V 1 + (y' - (V 1).1)) * len V 0 + (x' - (V 0).1) := by linarith
  obtain ⟨h1, h2⟩ := Halo.int_flat_inj (by omega) (by unfold len; omega) (by omega)
    (by unfold len; omega) e1
  obtain ⟨h3, h4⟩ := Halo.int_flat_inj (by omega) (by unfold len; omega) (by omega)
    (by unfold len; omega) h2
  exact ⟨by omega, by omega, by omega⟩

/-- Contents of the message for the box `W`. -/
def content {α : Type} (V W : Fin 3 → ℤ × ℤ) (sdata bjunk : ℤ → α) : List α :=
  (List.range (vol W).toNat).map fun (q : ℕ) =>
    fill (cells W) (bufIdx W) (fun t => sdata (dataIdx W V t)) bjunk q

theorem dataIdx_eq (W V : Fin 3 → ℤ × ℤ) (t : ℕ × ℕ × ℕ) :
    dataIdx W V t = place V ((W 0).1 + t.1) ((W 1).1 + t.2.1) ((W 2).1 + t.2.2) := by
  unfold dataIdx place
  ring

theorem bufIdx_eq {W : Fin 3 → ℤ × ℤ} (h : ∀ a, (W a).1 ≤ (W a).2) (t : ℕ × ℕ × ℕ) :
    bufIdx W t = ((t.1 + t.2.1 * (len W 0).toNat + t.2.2 * ((len W 0).toNat * (len W 1).toNat) : ℕ) : ℤ) := by
  have h0 : ((len W 0).toNat : ℤ) = len W 0 := Int.toNat_of_nonneg (by have := h 0; unfold len; omega)
  have h1 : ((len W 1).toNat : ℤ) = len W 1 := Int.toNat_of_nonneg (by have := h 1; unfold len; omega)
  unfold bufIdx
  push_cast
  rw [h0, h1]
  ring

theorem vol_eq {W : Fin 3 → ℤ × ℤ} (h : ∀ a, (W a).1 ≤ (W a).2) :
    (vol W).toNat = (len W 0).toNat * (len W 1).toNat * (len W 2).toNat := by
  have h0 : len W 0 = ((len W 0).toNat : ℤ) := (Int.toNat_of_nonneg (by have := h 0; unfold len; omega)).symm
  have h1 : len W 1 = ((len W 1).toNat : ℤ) := (Int.toNat_of_nonneg (by have := h 1; unfold len; omega)).symm
  have h2 : len W 2 = ((len W 2).toNat : ℤ) := (Int.toNat_of_nonneg (by have := h 2; unfold len; omega)).symm
  unfold vol
  rw [h0, h1, h2, one_mul, ← Nat.cast_mul, ← Nat.cast_mul, Int.toNat_natCast]
  simp only [Int.toNat_natCast]

theorem content_length {α : Type} (V W : Fin 3 → ℤ × ℤ) (sdata bjunk : ℤ → α) :
    (content V W sdata bjunk).length = (vol W).toNat := by
  simp [content]

theorem content_get {α : Type} {V W : Fin 3 → ℤ × ℤ} (h : ∀ a, (W a).1 ≤ (W a).2) (sdata bjunk : ℤ → α)
    {t : ℕ × ℕ × ℕ} (ht : t ∈ cells W) :
    (content V W sdata bjunk)[(bufIdx W t).toNat]? = some (sdata (dataIdx W V t)) := by
  have ht' := ht
  rw [cells, mem_box] at ht'
  obtain ⟨h1, h2, h3⟩ := ht'
  unfold content
  rw [List.getElem?_map, List.getElem?_range, Option.map_some]
  · congr 1
    have e : ((bufIdx W t).toNat : ℤ) = bufIdx W t := by
      rw [bufIdx_eq h, Int.toNat_natCast]
    rw [e]
    refine fill_at (idx := bufIdx W) (val := fun t => sdata (dataIdx W V t)) ht ?_
    intro u hu hidx
    rw [cells, mem_box] at hu
    rw [bufIdx_eq h, bufIdx_eq h] at hidx
    obtain ⟨q1, q2, q3⟩ := flat3_inj hu.1 h1 hu.2.1 h2 (by exact_mod_cast hidx)
    have : u = t := by
      obtain ⟨u1, u2, u3⟩ := u
      obtain ⟨t1, t2, t3⟩ := t
      simp only at q1 q2 q3
      rw [q1, q2, q3]
    rw [this]
  · rw [bufIdx_eq h, Int.toNat_natCast, vol_eq h]
    exact flat3_lt h1 h2 h3

theorem overlap_comm (N dims dims' c c' : Fin 3 → ℕ) :
    overlap N dims' (vert N dims c) c' = overlap N dims (vert N dims' c') c := by
  funext a
  unfold overlap
  rw [max_comm, min_comm]

theorem overlap_nonempty {N dims dims' c c' : Fin 3 → ℕ} (h : Meet N dims dims' c c') (a : Fin 3) :
    (overlap N dims' (vert N dims c) c' a).1 ≤ (overlap N dims' (vert N dims c) c' a).2 := by
  have := h a
  unfold overlap
  dsimp only
  rw [max_comm, min_comm]
  exact this

theorem filter_unique {k n0 : ℕ} (p : ℕ → Bool) (h0 : n0 < k) (hp : p n0 = true)
    (hu : ∀ n < k, p n = true → n = n0) : (List.range k).filter p = [n0] := by
  refine List.perm_singleton.1 ((List.perm_ext_iff_of_nodup (List.nodup_range.filter _)
    (List.nodup_singleton n0)).2 ?_)
  intro a
  rw [List.mem_filter, List.mem_range, List.mem_singleton]
  constructor
  · rintro ⟨h1, h2⟩
    exact hu a h1 h2
  · rintro rfl
    exact ⟨h0, hp⟩

theorem flatMap_if {α : Type} (l : List ℕ) (p : ℕ → Prop) [DecidablePred p] (g : ℕ → List α) :
    (l.flatMap fun s => if p s then g s else []) = (l.filter p).flatMap g := by
  induction l with
  | nil => rfl
  | cons a l ih =>
    rw [List.flatMap_cons, ih]
    by_cases h : p a
    · rw [if_pos h, List.filter_cons_of_pos (by simpa using h), List.flatMap_cons]
    · rw [if_neg h, List.filter_cons_of_neg (by simpa using h), List.nil_append]

/-- Ranks of the two communicators translate to different ranks of the union. -/
def Setup.Inj (S : Setup) : Prop :=
  (∀ s < procs S.sdims, ∀ s' < procs S.sdims, S.tS s = S.tS s' → s = s') ∧
  ∀ r < procs S.rdims, ∀ r' < procs S.rdims, S.tR r = S.tR r' → r = r'

/-- Corners of the block of a rank. -/
def Setup.boxS (S : Setup) (s : ℕ) : Fin 3 → ℤ × ℤ := vert S.N S.sdims (cartCoords S.sdims s)

def Setup.boxR (S : Setup) (r : ℕ) : Fin 3 → ℤ × ℤ := vert S.N S.rdims (cartCoords S.rdims r)

open Classical in
/-- What rank `s` sends, message by message. -/
theorem sent_spec {α : Type} {S : Setup} (hS : Fits S.N S.sdims) (hR : Fits S.N S.rdims) (hI : S.Inj)
    {trS : ℕ → List ℕ} {junk : ℕ → ℤ} (htr : setTarget S.N S.sdims S.rdims S.tR junk = some trS) (s : ℕ)
    (hs : s < procs S.sdims) (sdata bjunk : ℤ → α) :
    ∃ l, sent S (trS s) s sdata bjunk junk = some l ∧
      ∀ r < procs S.rdims, (l.filter fun m => m.1 = S.tR r).map Prod.snd =
        if Meet S.N S.sdims S.rdims (cartCoords S.sdims s) (cartCoords S.rdims r) then
          [content (S.boxS s) (overlap S.N S.rdims (S.boxS s) (cartCoords S.rdims r)) sdata bjunk]
        else [] := by
  obtain ⟨tr', e, hsp⟩ := setTarget_spec hS hR S.tR junk
  rw [htr] at e
  cases e
  obtain ⟨w, hw, P, hlen, hj⟩ := hsp s hs
  have hrk : ∀ j, ∃ r, j < w.1 → r < procs S.rdims ∧ cartCoords S.rdims r = partner w.2 w.1 j ∧
      (trS s)[j]? = some (S.tR r) := by
    intro j
    by_cases h : j < w.1
    · obtain ⟨r, h1, h2, h3⟩ := hj j h
      exact ⟨r, fun _ => ⟨h1, h2, h3⟩⟩
    · exact ⟨0, fun h' => absurd h' h⟩
  choose rk hrk using hrk
  set g : ℕ → ℕ × List α := fun n => (S.tR (rk n),
    content (S.boxS s) (overlap S.N S.rdims (S.boxS s) (cartCoords S.rdims (rk n))) sdata bjunk) with hg
  refine ⟨(List.range w.1).map g, ?_, ?_⟩
  · unfold sent
    dsimp only
    rw [hw]
    simp only [bind, Option.bind]
    rw [hlen]
    refine Halo.mapM_some _ _ _ ?_
    intro n hn
    obtain ⟨-, h2, h3⟩ := hrk n (List.mem_range.1 hn)
    unfold sendMsg
    rw [h3, hlen]
    simp only [bind, Option.bind, pure]
    rw [hg]
    dsimp only
    rw [h2]
    rfl
  · intro r hr
    rw [List.filter_map, List.map_map]
    have hp : ∀ n < w.1, ((fun m : ℕ × List α => decide (m.1 = S.tR r)) ∘ g) n = true → rk n = r := by
      intro n hn h
      simp only [Function.comp_apply, hg, decide_eq_true_eq] at h
      exact hI.2 _ (hrk n hn).1 _ hr h
    by_cases hM : Meet S.N S.sdims S.rdims (cartCoords S.sdims s) (cartCoords S.rdims r)
    · rw [if_pos hM]
      obtain ⟨n0, hn0, e0⟩ := (P.iff _ fun a => coords_lt hr a).2 hM
      have hr0 : rk n0 = r := coords_inj ((hrk n0 hn0).2.1.trans e0)
      rw [filter_unique _ hn0]
      · rw [List.map_singleton]
        simp only [Function.comp_apply, hg, hr0]
      · simp only [Function.comp_apply, hg, hr0, decide_true]
      · intro n hn h
        refine P.inj n hn n0 hn0 ?_
        rw [← (hrk n hn).2.1, ← (hrk n0 hn0).2.1, hp n hn h, hr0]
    · rw [if_neg hM]
      rw [List.filter_eq_nil_iff.2, List.map_nil]
      intro n hn h
      have hn := List.mem_range.1 hn
      refine hM ((P.iff _ fun a => coords_lt hr a).1 ⟨n, hn, ?_⟩)
      rw [← (hrk n hn).2.1, hp n hn h]

/-- The messages between two processes. -/
theorem queue_spec {α : Type} {S : Setup} (hS : Fits S.N S.sdims) (hR : Fits S.N S.rdims) (hI : S.Inj)
    {trS : ℕ → List ℕ} {junk : ℕ → ℤ} (htr : setTarget S.N S.sdims S.rdims S.tR junk = some trS)
    (sdata : ℕ → ℤ → α) (bjunk : ℤ → α) :
    ∃ out, ((List.range (procs S.sdims)).mapM fun s => sent S (trS s) s (sdata s) bjunk junk) = some out ∧
      ∀ s < procs S.sdims, ∀ r < procs S.rdims,
        Meet S.N S.sdims S.rdims (cartCoords S.sdims s) (cartCoords S.rdims r) →
        queue S out (S.tS s) (S.tR r) =
          [content (S.boxS s) (overlap S.N S.rdims (S.boxS s) (cartCoords S.rdims r)) (sdata s) bjunk] := by
  have h : ∀ s, ∃ l, s < procs S.sdims → sent S (trS s) s (sdata s) bjunk junk = some l ∧
      ∀ r < procs S.rdims, Meet S.N S.sdims S.rdims (cartCoords S.sdims s) (cartCoords S.rdims r) →
        (l.filter fun m => m.1 = S.tR r).map Prod.snd =
        [content (S.boxS s) (overlap S.N S.rdims (S.boxS s) (cartCoords S.rdims r)) (sdata s) bjunk] := by
    intro s
    by_cases hs : s < procs S.sdims
    · obtain ⟨l, h1, h2⟩ := sent_spec hS hR hI htr s hs (sdata s) bjunk
      refine ⟨l, fun _ => ⟨h1, ?_⟩⟩
      intro r hr hM
      rw [h2 r hr, if_pos hM]
    · exact ⟨[], fun h => absurd h hs⟩
  choose l hl using h
  refine ⟨(List.range (procs S.sdims)).map l, Halo.mapM_some _ _ _ fun s hs =>
    (hl s (List.mem_range.1 hs)).1, ?_⟩
  intro s hs r hr hM
  unfold queue
  rw [flatMap_if, List.length_map, List.length_range,
    filter_unique (n0 := s) _ hs (by simp) (by
      intro n hn h
      exact hI.1 n hn s hs (by simpa using h)),
    List.flatMap_singleton, List.getD_eq_getElem?_getD, List.getElem?_map, List.getElem?_range hs]
  exact (hl s hs).2 r hr hM

end Sparc.D2D

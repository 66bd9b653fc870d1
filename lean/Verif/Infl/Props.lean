import Verif.Infl.Lemmas
import Verif.Coord.Model
import Mathlib.Algebra.BigOperators.Group.Finset.Sigma
import Mathlib.Data.Int.Interval

/-!
# Influencing atoms: what the lists contain

The theorems speak about the nodes of a process, `xin + i * delta_x`, and the images of the
atoms, `atom_pos + L * p` with `p` any integer in a periodic direction and 0 otherwise.
-/

namespace Sparc.Infl

open Finset

/-- A process's share of one direction: positive spacing and length and, in a periodic
direction, nodes inside the cell `[0, L]`. -/
structure Held (a : Axis) : Prop where
  h_pos : 0 < a.h
  L_pos : 0 < a.L
  cell : a.bc = 0 → a.org = 0 ∧ 0 ≤ a.lo ∧ (a.hi + 1) * a.h ≤ a.L

/-- `v` shifts only along periodic directions. -/
def Allowed (G : Geo) (v : ℤ × ℤ × ℤ) : Prop :=
  (G.X.bc ≠ 0 → v.1 = 0) ∧ (G.Y.bc ≠ 0 → v.2.1 = 0) ∧ (G.Z.bc ≠ 0 → v.2.2 = 0)

/-- Image of atom `J` shifted by `v` cells. -/
noncomputable def image (G : Geo) (pos : ℕ → ℝ) (J : ℕ) (v : ℤ × ℤ × ℤ) : ℝ × ℝ × ℝ :=
  (pos (3 * J) + G.X.L * v.1, pos (3 * J + 1) + G.Y.L * v.2.1, pos (3 * J + 2) + G.Z.L * v.2.2)

/-- The nodes held by the process. -/
noncomputable def domain (G : Geo) : Finset (ℤ × ℤ × ℤ) :=
  Icc G.X.lo G.X.hi ×ˢ Icc G.Y.lo G.Y.hi ×ˢ Icc G.Z.lo G.Z.hi

/-- The node lies in the box of half-widths `CUTOFF_x/y/z` around `c`. -/
def InBox (G : Geo) (T : Typ) (v : ℤ × ℤ × ℤ) (c : ℝ × ℝ × ℝ) : Prop :=
  |G.X.org + v.1 * G.X.h - c.1| ≤ T.rbx ∧ |G.Y.org + v.2.1 * G.Y.h - c.2.1| ≤ T.rby ∧
    |G.Z.org + v.2.2 * G.Z.h - c.2.2| ≤ T.rbz

/-- The node lies in the index ranges stored in a record. -/
def InRec (R : Rec) (v : ℤ × ℤ × ℤ) : Prop :=
  (R.xs ≤ v.1 ∧ v.1 ≤ R.xe) ∧ (R.ys ≤ v.2.1 ∧ v.2.1 ≤ R.ye) ∧ (R.zs ≤ v.2.2 ∧ v.2.2 ≤ R.ze)

theorem keysA_mem {G : Geo} (hX : Held G.X) (hY : Held G.Y) (hZ : Held G.Z) (T : Typ)
    (pos : ℕ → ℝ) (J : ℕ) (v : ℤ × ℤ × ℤ) :
    v ∈ keysA G T pos J ↔ Allowed G v ∧
      ¬ skip (dms G.X) (dme G.X) T.rbx (image G pos J v).1 ∧
      ¬ skip (dms G.Y) (dme G.Y) T.rby (image G pos J v).2.1 ∧
      ¬ skip (dms G.Z) (dme G.Z) T.rbz (image G pos J v).2.2 := by
  unfold keysA
  rw [mem_keys, img_iff _ hX.L_pos _ _ _ hX.cell hX.h_pos,
    img_iff _ hY.L_pos _ _ _ hY.cell hY.h_pos, img_iff _ hZ.L_pos _ _ _ hZ.cell hZ.h_pos]
  unfold Allowed image
  tauto

theorem keysA_nodup (G : Geo) (T : Typ) (pos : ℕ → ℝ) (J : ℕ) : (keysA G T pos J).Nodup :=
  nodup_keys (nodup_irange _ _) (nodup_irange _ _) (nodup_irange _ _)

theorem mkRec_inRec {G : Geo} (hX : Held G.X) (hY : Held G.Y) (hZ : Held G.Z) (T : Typ)
    (pos spin : ℕ → ℝ) (J : ℕ) (v n : ℤ × ℤ × ℤ) (hn : n ∈ domain G) :
    (v ∈ keysA G T pos J ∧ InRec (mkRec G T pos spin J v.1 v.2.1 v.2.2) n) ↔
      (Allowed G v ∧ InBox G T n (image G pos J v)) := by
  simp only [domain, mem_product, mem_Icc] at hn
  have bx := box_iff G.X hX.h_pos T.rbx (image G pos J v).1 n.1 hn.1
  have bY := box_iff G.Y hY.h_pos T.rby (image G pos J v).2.1 n.2.1 hn.2.1
  have bz := box_iff G.Z hZ.h_pos T.rbz (image G pos J v).2.2 n.2.2 hn.2.2
  rw [keysA_mem hX hY hZ]
  unfold InBox
  rw [← bx, ← bY, ← bz]
  unfold InRec mkRec image
  dsimp only
  tauto

theorem influence_out (G : Geo) (types : List Typ) (pos spin : ℕ → ℝ) (t : ℕ) (T : Typ)
    (ht : types[t]? = some T) :
    (influence G types pos spin).out[t]?
      = some ((recsOf G pos spin ((types.take t).map Typ.n).sum T).length,
          recsOf G pos spin ((types.take t).map Typ.n).sum T) := by
  unfold influence
  rw [influence_run _ _ _ _ _ rfl, List.nil_append, outs_get G pos spin 0 types t T ht]
  simp

open Classical in
/-- **Every contribution exactly once.**  For every type, the arrays allocated have exactly
the length written, and for every node of the process and any quantity `f` that depends on
the atom and the position of its image, adding `f` over the records whose ranges contain the
node gives the sum over all images (infinitely many in a periodic direction) of all atoms of
the type whose box contains the node. -/
theorem influencing_sum {G : Geo} (hX : Held G.X) (hY : Held G.Y) (hZ : Held G.Z)
    (types : List Typ) (pos spin : ℕ → ℝ) (t : ℕ) (T : Typ) (ht : types[t]? = some T) :
    ∃ recs, (influence G types pos spin).out[t]? = some (recs.length, recs) ∧
      ∀ (M : Type) [AddCommMonoid M] (f : ℕ → ℝ × ℝ × ℝ → M), ∀ n ∈ domain G,
        (recs.map fun R => if InRec R n then f R.idx (R.x, R.y, R.z) else 0).sum
          = ∑ J ∈ Ico ((types.take t).map Typ.n).sum (((types.take t).map Typ.n).sum + T.n),
              ∑ᶠ v, if Allowed G v ∧ InBox G T n (image G pos J v)
                then f J (image G pos J v) else 0 := by
  refine ⟨_, influence_out G types pos spin t T ht, ?_⟩
  intro M _ f n hn
  unfold recsOf
  rw [List.map_flatMap, list_sum_flatMap, sum_range'_eq]
  refine Finset.sum_congr rfl fun J _ => ?_
  rw [List.map_map, list_sum_finsum _ (keysA_nodup G T pos J)]
  refine finsum_congr fun v => ?_
  have h := mkRec_inRec hX hY hZ T pos spin J v n hn
  by_cases h1 : v ∈ keysA G T pos J
  · by_cases h2 : InRec (mkRec G T pos spin J v.1 v.2.1 v.2.2) n
    · rw [if_pos h1, if_pos (h.1 ⟨h1, h2⟩), Function.comp_apply, if_pos h2]
      rfl
    · rw [if_pos h1, if_neg (fun hc => h2 (h.2 hc).2), Function.comp_apply, if_neg h2]
  · rw [if_neg h1, if_neg (fun hc => h1 (h.2 hc).1)]

/-- **The result does not depend on how the grid is divided**: two processes of different runs
that both hold a node add up the same contributions to it. -/
theorem influencing_decomposition {G G' : Geo} (hX : Held G.X) (hY : Held G.Y) (hZ : Held G.Z)
    (lx ly lz lx' ly' lz' : ℤ)
    (hG : G' = ⟨{ G.X with lo := lx, hi := lx' }, { G.Y with lo := ly, hi := ly' },
      { G.Z with lo := lz, hi := lz' }⟩)
    (hX' : Held G'.X) (hY' : Held G'.Y) (hZ' : Held G'.Z)
    (types : List Typ) (pos spin : ℕ → ℝ) (t : ℕ) (T : Typ) (ht : types[t]? = some T) :
    ∃ recs recs', (influence G types pos spin).out[t]? = some (recs.length, recs) ∧
      (influence G' types pos spin).out[t]? = some (recs'.length, recs') ∧
      ∀ (f : ℕ → ℝ × ℝ × ℝ → ℝ), ∀ n ∈ domain G, n ∈ domain G' →
        open Classical in
        (recs.map fun R => if InRec R n then f R.idx (R.x, R.y, R.z) else 0).sum
          = (recs'.map fun R => if InRec R n then f R.idx (R.x, R.y, R.z) else 0).sum := by
  obtain ⟨recs, h1, h2⟩ := influencing_sum hX hY hZ types pos spin t T ht
  obtain ⟨recs', h1', h2'⟩ := influencing_sum hX' hY' hZ' types pos spin t T ht
  refine ⟨recs, recs', h1, h1', fun f n hn hn' => ?_⟩
  rw [h2 ℝ f n hn, h2' ℝ f n hn']
  subst hG
  rfl

/-- **What a record is.**  Every record belongs to an atom of the right type, carries that
atom's spin and the position of an image, its ranges lie in the process's nodes and their
lengths are not negative. -/
theorem influencing_record {G : Geo} (hX : Held G.X) (hY : Held G.Y) (hZ : Held G.Z)
    (dX : G.X.lo ≤ G.X.hi) (dY : G.Y.lo ≤ G.Y.hi) (dZ : G.Z.lo ≤ G.Z.hi)
    (types : List Typ) (pos spin : ℕ → ℝ) (t : ℕ) (T : Typ) (ht : types[t]? = some T)
    (bx : 0 ≤ T.rbx) (bY : 0 ≤ T.rby) (bz : 0 ≤ T.rbz) :
    ∃ recs, (influence G types pos spin).out[t]? = some (recs.length, recs) ∧ ∀ R ∈ recs,
      (((types.take t).map Typ.n).sum ≤ R.idx ∧ R.idx < ((types.take t).map Typ.n).sum + T.n) ∧
      (∃ v, Allowed G v ∧ (R.x, R.y, R.z) = image G pos R.idx v) ∧
      R.spin = (spin (3 * R.idx), spin (3 * R.idx + 1), spin (3 * R.idx + 2)) ∧
      (G.X.lo ≤ R.xs ∧ R.xe ≤ G.X.hi ∧ 0 ≤ R.xe - R.xs + 1) ∧
      (G.Y.lo ≤ R.ys ∧ R.ye ≤ G.Y.hi ∧ 0 ≤ R.ye - R.ys + 1) ∧
      (G.Z.lo ≤ R.zs ∧ R.ze ≤ G.Z.hi ∧ 0 ≤ R.ze - R.zs + 1) := by
  refine ⟨_, influence_out G types pos spin t T ht, ?_⟩
  intro R hR
  unfold recsOf at hR
  simp only [List.mem_flatMap, List.mem_map, List.mem_range'_1] at hR
  obtain ⟨J, hJ, v, hv, rfl⟩ := hR
  rw [keysA_mem hX hY hZ] at hv
  have key : ∀ (a : Axis) (rb x : ℝ), 0 < a.h → a.lo ≤ a.hi → 0 ≤ rb →
      ¬ skip (dms a) (dme a) rb x →
      a.lo ≤ max a.lo (rbl a x rb) ∧ min a.hi (rbr a x rb) ≤ a.hi ∧
        0 ≤ min a.hi (rbr a x rb) - max a.lo (rbl a x rb) + 1 := by
    intro a rb x hh hd hb hs
    refine ⟨le_max_left _ _, min_le_left _ _, ?_⟩
    unfold skip dms dme at hs
    push Not at hs
    have h1 : rbl a x rb ≤ a.hi + 1 := by
      unfold rbl
      rw [Int.ceil_le, div_le_iff₀ hh]
      push_cast
      linarith
    have h2 : a.lo ≤ rbr a x rb := by
      unfold rbr
      rw [Int.le_floor, le_div_iff₀ hh]
      linarith
    have h3 : rbl a x rb ≤ rbr a x rb + 1 := by
      unfold rbl rbr
      rw [Int.ceil_le]
      push_cast
      have := Int.lt_floor_add_one ((x - a.org + rb) / a.h)
      have h4 : (x - a.org - rb) / a.h ≤ (x - a.org + rb) / a.h := by
        gcongr
        linarith
      linarith
    have : max a.lo (rbl a x rb) ≤ min a.hi (rbr a x rb) + 1 := by
      rw [max_le_iff]
      constructor
      · rcases min_choice a.hi (rbr a x rb) with h | h <;> rw [h] <;> omega
      · rcases min_choice a.hi (rbr a x rb) with h | h <;> rw [h] <;> omega
    omega
  refine ⟨hJ, ⟨v, hv.1, rfl⟩, rfl, ?_, ?_, ?_⟩
  · exact key _ _ _ hX.h_pos dX bx hv.2.1
  · exact key _ _ _ hY.h_pos dY bY hv.2.2.1
  · exact key _ _ _ hZ.h_pos dZ bz hv.2.2.2

/-- A periodic cell of ten nodes, five of them held, and a radius of 2. -/
example : Held ⟨0, 5, 0, 1 / 2, 10, 5, 9, false, 0⟩ :=
  ⟨by norm_num, by norm_num, fun _ => by norm_num⟩

/-- The image at distance one across the boundary is wanted. -/
example : InBox ⟨⟨0, 5, 0, 1 / 2, 10, 5, 9, false, 0⟩, ⟨0, 5, 0, 1 / 2, 10, 0, 9, false, 0⟩,
      ⟨0, 5, 0, 1 / 2, 10, 0, 9, false, 0⟩⟩ ⟨2, 2, 2, 1⟩ (9, 0, 0)
    (image ⟨⟨0, 5, 0, 1 / 2, 10, 5, 9, false, 0⟩, ⟨0, 5, 0, 1 / 2, 10, 0, 9, false, 0⟩,
      ⟨0, 5, 0, 1 / 2, 10, 0, 9, false, 0⟩⟩ (fun i => if i = 0 then 1 / 2 else 0) 0 (1, 0, 0)) := by
  refine ⟨?_, ?_, ?_⟩ <;> simp [image, abs_le] <;> norm_num

/-! ## The warning about the boundary -/

theorem outNow_eq (a : Axis) (x rb : ℝ) (old : Bool) :
    outNow a x rb old = true ↔ old = true ∨ (a.bc = 1 ∧ (rbl a x rb < 0 ∨ rbr a x rb ≥ a.N)) := by
  classical
  unfold outNow
  split
  · rename_i h
    simp only [true_iff]
    exact Or.inr h
  · rename_i h
    tauto

/-- The box of half-width `rb` around `x` contains a node outside `0 … N-1`. -/
def Leaves (a : Axis) (x rb : ℝ) : Prop :=
  a.bc = 1 ∧ ∃ i : ℤ, (i < 0 ∨ a.N ≤ i) ∧ |a.org + i * a.h - x| ≤ rb

theorem out_iff (a : Axis) (hh : 0 < a.h) (x rb : ℝ) (hrb : a.h ≤ rb)
    (hx : a.org ≤ x ∧ x ≤ a.org + a.N * a.h) :
    (a.bc = 1 ∧ (rbl a x rb < 0 ∨ rbr a x rb ≥ a.N)) ↔ Leaves a x rb := by
  unfold Leaves
  refine and_congr_right fun _ => ?_
  have h1 : ∀ i : ℤ, rbl a x rb ≤ i ↔ x - a.org - rb ≤ i * a.h := fun i => by
    unfold rbl; rw [Int.ceil_le, div_le_iff₀ hh]
  have h2 : ∀ i : ℤ, i ≤ rbr a x rb ↔ i * a.h ≤ x - a.org + rb := fun i => by
    unfold rbr; rw [Int.le_floor, le_div_iff₀ hh]
  constructor
  · rintro (h | h)
    · refine ⟨-1, Or.inl (by norm_num), ?_⟩
      have := (h1 (-1)).1 (by omega)
      rw [abs_le]
      push_cast at this ⊢
      constructor <;> linarith [hx.1]
    · refine ⟨a.N, Or.inr le_rfl, ?_⟩
      have := (h2 a.N).1 h
      rw [abs_le]
      constructor <;> linarith [hx.2]
  · rintro ⟨i, hi, hd⟩
    rw [abs_le] at hd
    rcases hi with hi | hi
    · left
      have : rbl a x rb ≤ i := (h1 i).2 (by linarith)
      omega
    · right
      have : i ≤ rbr a x rb := (h2 i).2 (by linarith)
      omega

theorem foldl_flags {α : Type} (l : List α) (u : Bool × Bool × Bool → α → Bool × Bool × Bool)
    (P Q S : α → Prop)
    (h : ∀ f a, ((u f a).1 = true ↔ f.1 = true ∨ P a) ∧ ((u f a).2.1 = true ↔ f.2.1 = true ∨ Q a) ∧
      ((u f a).2.2 = true ↔ f.2.2 = true ∨ S a)) (f : Bool × Bool × Bool) :
    ((l.foldl u f).1 = true ↔ f.1 = true ∨ ∃ a ∈ l, P a) ∧
    ((l.foldl u f).2.1 = true ↔ f.2.1 = true ∨ ∃ a ∈ l, Q a) ∧
    ((l.foldl u f).2.2 = true ↔ f.2.2 = true ∨ ∃ a ∈ l, S a) := by
  induction l generalizing f with
  | nil => simp
  | cons a l ih =>
    obtain ⟨h1, h2, h3⟩ := h f a
    obtain ⟨i1, i2, i3⟩ := ih (u f a)
    rw [List.foldl_cons]
    simp only [List.mem_cons, exists_eq_or_imp]
    refine ⟨i1.trans ?_, i2.trans ?_, i3.trans ?_⟩
    · rw [h1, or_assoc]
    · rw [h2, or_assoc]
    · rw [h3, or_assoc]

theorem fillAtom_flags (G : Geo) (T : Typ) (pos spin : ℕ → ℝ) (J : ℕ)
    (s : List Rec × Bool × Bool × Bool) :
    ((fillAtom G T pos spin J s).2.1 = true ↔ s.2.1 = true ∨ ∃ v ∈ keysA G T pos J,
      G.X.bc = 1 ∧ (rbl G.X (image G pos J v).1 T.rbx < 0 ∨
        rbr G.X (image G pos J v).1 T.rbx ≥ G.X.N)) ∧
    ((fillAtom G T pos spin J s).2.2.1 = true ↔ s.2.2.1 = true ∨ ∃ v ∈ keysA G T pos J,
      G.Y.bc = 1 ∧ (rbl G.Y (image G pos J v).2.1 T.rby < 0 ∨
        rbr G.Y (image G pos J v).2.1 T.rby ≥ G.Y.N)) ∧
    ((fillAtom G T pos spin J s).2.2.2 = true ↔ s.2.2.2 = true ∨ ∃ v ∈ keysA G T pos J,
      G.Z.bc = 1 ∧ (rbl G.Z (image G pos J v).2.2 T.rbz < 0 ∨
        rbr G.Z (image G pos J v).2.2 T.rbz ≥ G.Z.N)) := by
  have e : (fillAtom G T pos spin J s).2 = (keysA G T pos J).foldl
      (fun f v => (outNow G.X (pos (3 * J) + G.X.L * v.1) T.rbx f.1,
      outNow G.Y (pos (3 * J + 1) + G.Y.L * v.2.1) T.rby f.2.1,
      outNow G.Z (pos (3 * J + 2) + G.Z.L * v.2.2) T.rbz f.2.2)) s.2 := by
    unfold fillAtom
    dsimp only
    rw [sweep_eq]
    have := foldl_push (τ := Bool × Bool × Bool) (keysA G T pos J)
      (fun v => mkRec G T pos spin J v.1 v.2.1 v.2.2)
      (fun f v => (outNow G.X (pos (3 * J) + G.X.L * v.1) T.rbx f.1,
        outNow G.Y (pos (3 * J + 1) + G.Y.L * v.2.1) T.rby f.2.1,
        outNow G.Z (pos (3 * J + 2) + G.Z.L * v.2.2) T.rbz f.2.2)) s
    unfold keysA at this ⊢
    rw [this]
  rw [e]
  refine foldl_flags _ _ _ _ _ (fun f v => ⟨?_, ?_, ?_⟩) _
  · exact outNow_eq _ _ _ _
  · exact outNow_eq _ _ _ _
  · exact outNow_eq _ _ _ _

theorem foldl_snd {α : Type} (l : List α) (step : List Rec × Bool × Bool × Bool → α →
    List Rec × Bool × Bool × Bool) (P Q S : α → Prop)
    (h : ∀ f a, ((step f a).2.1 = true ↔ f.2.1 = true ∨ P a) ∧
      ((step f a).2.2.1 = true ↔ f.2.2.1 = true ∨ Q a) ∧
      ((step f a).2.2.2 = true ↔ f.2.2.2 = true ∨ S a)) (f : List Rec × Bool × Bool × Bool) :
    ((l.foldl step f).2.1 = true ↔ f.2.1 = true ∨ ∃ a ∈ l, P a) ∧
    ((l.foldl step f).2.2.1 = true ↔ f.2.2.1 = true ∨ ∃ a ∈ l, Q a) ∧
    ((l.foldl step f).2.2.2 = true ↔ f.2.2.2 = true ∨ ∃ a ∈ l, S a) := by
  induction l generalizing f with
  | nil => simp
  | cons a l ih =>
    obtain ⟨h1, h2, h3⟩ := h f a
    obtain ⟨i1, i2, i3⟩ := ih (step f a)
    rw [List.foldl_cons]
    simp only [List.mem_cons, exists_eq_or_imp]
    refine ⟨i1.trans ?_, i2.trans ?_, i3.trans ?_⟩
    · rw [h1, or_assoc]
    · rw [h2, or_assoc]
    · rw [h3, or_assoc]

theorem typeStep_flags (G : Geo) (pos spin : ℕ → ℝ) (s : St) (T : Typ) (h : s.atm = s.atm2) :
    let k := fun (P : ℕ → ℤ × ℤ × ℤ → Prop) =>
      ∃ J ∈ List.range' s.atm T.n, ∃ v ∈ keysA G T pos J, P J v
    ((typeStep G pos spin s T).flags.1 = true ↔ s.flags.1 = true ∨ k fun J v =>
      G.X.bc = 1 ∧ (rbl G.X (image G pos J v).1 T.rbx < 0 ∨
        rbr G.X (image G pos J v).1 T.rbx ≥ G.X.N)) ∧
    ((typeStep G pos spin s T).flags.2.1 = true ↔ s.flags.2.1 = true ∨ k fun J v =>
      G.Y.bc = 1 ∧ (rbl G.Y (image G pos J v).2.1 T.rby < 0 ∨
        rbr G.Y (image G pos J v).2.1 T.rby ≥ G.Y.N)) ∧
    ((typeStep G pos spin s T).flags.2.2 = true ↔ s.flags.2.2 = true ∨ k fun J v =>
      G.Z.bc = 1 ∧ (rbl G.Z (image G pos J v).2.2 T.rbz < 0 ∨
        rbr G.Z (image G pos J v).2.2 T.rbz ≥ G.Z.N)) := by
  intro k
  unfold typeStep
  dsimp only
  rw [foldl_run T.n (fun J c => countAtom G T pos J c), countLoop,
    foldl_run T.n (fun J c => fillAtom G T pos spin J c)]
  split
  · rename_i h0
    simp only [Nat.zero_add, List.length_flatMap] at h0
    have hk : ∀ P, ¬ k P := by
      rintro P ⟨J, hJ, v, hv, -⟩
      have : keysA G T pos J = [] := by
        have := List.sum_eq_zero_iff.1 h0 _ (List.mem_map_of_mem hJ)
        exact List.length_eq_zero_iff.1 this
      rw [this] at hv
      simp at hv
    simp [hk]
  · simp only [k]
    rw [h]
    exact foldl_snd _ _ _ _ _ (fun f J => fillAtom_flags G T pos spin J f) _

/-- The flags after a list of types whose first atom has number `s.atm`. -/
theorem flags_run (G : Geo) (pos spin : ℕ → ℝ) (ts : List Typ) (s : St) (h : s.atm = s.atm2) :
    let k := fun (P : Typ → ℕ → ℤ × ℤ × ℤ → Prop) =>
      ∃ t T, ts[t]? = some T ∧ ∃ J ∈ List.range' (s.atm + ((ts.take t).map Typ.n).sum) T.n,
        ∃ v ∈ keysA G T pos J, P T J v
    ((ts.foldl (typeStep G pos spin) s).flags.1 = true ↔ s.flags.1 = true ∨ k fun T J v =>
      G.X.bc = 1 ∧ (rbl G.X (image G pos J v).1 T.rbx < 0 ∨
        rbr G.X (image G pos J v).1 T.rbx ≥ G.X.N)) ∧
    ((ts.foldl (typeStep G pos spin) s).flags.2.1 = true ↔ s.flags.2.1 = true ∨ k fun T J v =>
      G.Y.bc = 1 ∧ (rbl G.Y (image G pos J v).2.1 T.rby < 0 ∨
        rbr G.Y (image G pos J v).2.1 T.rby ≥ G.Y.N)) ∧
    ((ts.foldl (typeStep G pos spin) s).flags.2.2 = true ↔ s.flags.2.2 = true ∨ k fun T J v =>
      G.Z.bc = 1 ∧ (rbl G.Z (image G pos J v).2.2 T.rbz < 0 ∨
        rbr G.Z (image G pos J v).2.2 T.rbz ≥ G.Z.N)) := by
  induction ts generalizing s with
  | nil => simp
  | cons T ts ih =>
    obtain ⟨a1, a2, -⟩ := typeStep_eq G pos spin s T h
    obtain ⟨f1, f2, f3⟩ := typeStep_flags G pos spin s T h
    obtain ⟨i1, i2, i3⟩ := ih (typeStep G pos spin s T) (by rw [a1, a2])
    rw [List.foldl_cons]
    have hsplit : ∀ P : Typ → ℕ → ℤ × ℤ × ℤ → Prop,
        (∃ t T', (T :: ts)[t]? = some T' ∧
          ∃ J ∈ List.range' (s.atm + (((T :: ts).take t).map Typ.n).sum) T'.n,
            ∃ v ∈ keysA G T' pos J, P T' J v) ↔
        ((∃ J ∈ List.range' s.atm T.n, ∃ v ∈ keysA G T pos J, P T J v) ∨
          ∃ t T', ts[t]? = some T' ∧
            ∃ J ∈ List.range' (s.atm + T.n + ((ts.take t).map Typ.n).sum) T'.n,
              ∃ v ∈ keysA G T' pos J, P T' J v) := by
      intro P
      constructor
      · rintro ⟨t, T', ht, hr⟩
        cases t with
        | zero =>
          simp only [List.getElem?_cons_zero, Option.some.injEq] at ht
          subst ht
          left
          simpa using hr
        | succ t =>
          right
          refine ⟨t, T', by simpa using ht, ?_⟩
          simpa [Nat.add_assoc] using hr
      · rintro (hr | ⟨t, T', ht, hr⟩)
        · exact ⟨0, T, rfl, by simpa using hr⟩
        · exact ⟨t + 1, T', by simpa using ht, by simpa [Nat.add_assoc] using hr⟩
    simp only [hsplit]
    rw [a1] at i1 i2 i3
    refine ⟨i1.trans ?_, i2.trans ?_, i3.trans ?_⟩
    · rw [f1, or_assoc]
    · rw [f2, or_assoc]
    · rw [f3, or_assoc]

/-- Some atom's box leaves the grid in a non-periodic direction. -/
def TooClose (G : Geo) (types : List Typ) (pos : ℕ → ℝ) : Prop :=
  ∃ t T, types[t]? = some T ∧ ∃ J, ((types.take t).map Typ.n).sum ≤ J ∧
    J < ((types.take t).map Typ.n).sum + T.n ∧
    (Leaves G.X (pos (3 * J)) T.rbx ∨ Leaves G.Y (pos (3 * J + 1)) T.rby ∨
      Leaves G.Z (pos (3 * J + 2)) T.rbz)

/-- The atoms lie in the cell and the boxes are at least one grid spacing wide. -/
structure InCell (G : Geo) (types : List Typ) (pos : ℕ → ℝ) : Prop where
  wide : ∀ T ∈ types, G.X.h ≤ T.rbx ∧ G.Y.h ≤ T.rby ∧ G.Z.h ≤ T.rbz
  posX : ∀ J, G.X.org ≤ pos (3 * J) ∧ pos (3 * J) ≤ G.X.org + G.X.N * G.X.h
  posY : ∀ J, G.Y.org ≤ pos (3 * J + 1) ∧ pos (3 * J + 1) ≤ G.Y.org + G.Y.N * G.Y.h
  posZ : ∀ J, G.Z.org ≤ pos (3 * J + 2) ∧ pos (3 * J + 2) ≤ G.Z.org + G.Z.N * G.Z.h

theorem flags_sound {G : Geo} (hX : Held G.X) (hY : Held G.Y) (hZ : Held G.Z)
    {types : List Typ} {pos spin : ℕ → ℝ} (hc : InCell G types pos)
    (h : (influence G types pos spin).flags.1 = true ∨
      (influence G types pos spin).flags.2.1 = true ∨
      (influence G types pos spin).flags.2.2 = true) : TooClose G types pos := by
  obtain ⟨f1, f2, f3⟩ := flags_run G pos spin types ⟨0, 0, [], (false, false, false)⟩ rfl
  unfold influence at h
  rw [f1, f2, f3] at h
  simp only [Bool.false_eq_true, false_or, Nat.zero_add, List.mem_range'_1] at h
  rcases h with ⟨t, T, ht, J, hJ, v, hv, ho⟩ | ⟨t, T, ht, J, hJ, v, hv, ho⟩ |
    ⟨t, T, ht, J, hJ, v, hv, ho⟩
  all_goals
    rw [keysA_mem hX hY hZ] at hv
    have hw := hc.wide T (List.mem_of_getElem? ht)
    refine ⟨t, T, ht, J, hJ.1, hJ.2, ?_⟩
  · left
    have h0 : v.1 = 0 := hv.1.1 (by rw [ho.1]; decide)
    simp only [image, h0, Int.cast_zero, mul_zero, add_zero] at ho
    exact (out_iff _ hX.h_pos _ _ hw.1 (hc.posX J)).1 ho
  · right; left
    have h0 : v.2.1 = 0 := hv.1.2.1 (by rw [ho.1]; decide)
    simp only [image, h0, Int.cast_zero, mul_zero, add_zero] at ho
    exact (out_iff _ hY.h_pos _ _ hw.2.1 (hc.posY J)).1 ho
  · right; right
    have h0 : v.2.2 = 0 := hv.1.2.2 (by rw [ho.1]; decide)
    simp only [image, h0, Int.cast_zero, mul_zero, add_zero] at ho
    exact (out_iff _ hZ.h_pos _ _ hw.2.2 (hc.posZ J)).1 ho

/-- **No false alarm.**  On any number of processes, the warning is printed only if some atom's
box leaves the grid in a non-periodic direction. -/
theorem warn_sound {G : Geo} {Gs : List Geo} (hG : G ∈ Gs) (hX : Held G.X) (hY : Held G.Y)
    (hZ : Held G.Z) {types : List Typ} {pos spin : ℕ → ℝ} (hc : InCell G types pos)
    (h : warns Gs types pos spin = true) : TooClose G types pos := by
  refine flags_sound (spin := spin) hX hY hZ hc ?_
  unfold warns at h
  simp only [List.all_map, Bool.or_eq_true, List.all_eq_true, Function.comp_apply] at h
  rcases h with (h | h) | h
  · exact Or.inl (h G hG)
  · exact Or.inr (Or.inl (h G hG))
  · exact Or.inr (Or.inr (h G hG))

/-- **On one process the warning is exact.**  Partial: the statement without the restriction
to one process, "the warning is printed exactly when some atom's box leaves the grid in a
non-periodic direction", is false, see `warn_missed`. -/
theorem warn_partial {G : Geo} (hX : Held G.X) (hY : Held G.Y) (hZ : Held G.Z)
    (lX : G.X.lo = 0 ∧ G.X.hi = G.X.N - 1) (lY : G.Y.lo = 0 ∧ G.Y.hi = G.Y.N - 1)
    (lZ : G.Z.lo = 0 ∧ G.Z.hi = G.Z.N - 1)
    {types : List Typ} {pos : ℕ → ℝ} (hc : InCell G types pos) (spin : ℕ → ℝ) :
    warns [G] types pos spin = true ↔ TooClose G types pos := by
  refine ⟨warn_sound (List.mem_singleton_self G) hX hY hZ hc, ?_⟩
  rintro ⟨t, T, ht, J, hJ1, hJ2, hl⟩
  obtain ⟨f1, f2, f3⟩ := flags_run G pos spin types ⟨0, 0, [], (false, false, false)⟩ rfl
  have hw := hc.wide T (List.mem_of_getElem? ht)
  have sk : ∀ (a : Axis) (rb x : ℝ), 0 < a.h → (a.lo = 0 ∧ a.hi = a.N - 1) → a.h ≤ rb →
      (a.org ≤ x ∧ x ≤ a.org + a.N * a.h) → ¬ skip (dms a) (dme a) rb x := by
    intro a rb x hh hl hb hx
    unfold skip dms dme
    rw [hl.1, hl.2]
    push_cast
    push Not
    constructor <;> linarith [hx.1, hx.2]
  have hv : ((0, 0, 0) : ℤ × ℤ × ℤ) ∈ keysA G T pos J := by
    rw [keysA_mem hX hY hZ]
    refine ⟨⟨fun _ => rfl, fun _ => rfl, fun _ => rfl⟩, ?_, ?_, ?_⟩
    · simpa [image] using sk G.X T.rbx _ hX.h_pos lX hw.1 (hc.posX J)
    · simpa [image] using sk G.Y T.rby _ hY.h_pos lY hw.2.1 (hc.posY J)
    · simpa [image] using sk G.Z T.rbz _ hZ.h_pos lZ hw.2.2 (hc.posZ J)
  have im : image G pos J (0, 0, 0) = (pos (3 * J), pos (3 * J + 1), pos (3 * J + 2)) := by
    simp [image]
  unfold warns influence
  simp only [List.map_cons, List.map_nil, List.all_cons, List.all_nil, Bool.and_true,
    Bool.or_eq_true]
  rw [f1, f2, f3]
  simp only [Bool.false_eq_true, false_or, Nat.zero_add, List.mem_range'_1]
  rcases hl with hl | hl | hl
  · refine Or.inl (Or.inl ⟨t, T, ht, J, ⟨hJ1, hJ2⟩, _, hv, ?_⟩)
    rw [im]
    exact (out_iff _ hX.h_pos _ _ hw.1 (hc.posX J)).2 hl
  · refine Or.inl (Or.inr ⟨t, T, ht, J, ⟨hJ1, hJ2⟩, _, hv, ?_⟩)
    rw [im]
    exact (out_iff _ hY.h_pos _ _ hw.2.1 (hc.posY J)).2 hl
  · refine Or.inr ⟨t, T, ht, J, ⟨hJ1, hJ2⟩, _, hv, ?_⟩
    rw [im]
    exact (out_iff _ hZ.h_pos _ _ hw.2.2 (hc.posZ J)).2 hl

/-- Direction x with Dirichlet conditions, eleven nodes, of which `lo … hi` are held. -/
noncomputable def wX (lo hi : ℤ) : Axis := ⟨1, 10, 0, 1, 11, lo, hi, false, 0⟩

/-- A periodic direction of ten nodes. -/
noncomputable def wP : Axis := ⟨0, 10, 0, 1, 10, 0, 9, false, 0⟩

/-- One atom at `(1, 5, 5)`. -/
noncomputable def wPos (i : ℕ) : ℝ := if i = 0 then 1 else 5

/-- **Finding: the warning is lost on two processes.**  The atom is one spacing away from the
boundary and its box of half-width 2 leaves the grid.  On one process the warning is printed;
when the nodes are divided at 5 it is not, because the flags are combined with a logical
*and* (electrostatics.c:760) and the second process does not see the atom at all. -/
theorem warn_missed (spin : ℕ → ℝ) :
    TooClose ⟨wX 0 10, wP, wP⟩ [⟨2, 2, 2, 1⟩] wPos ∧
    warns [⟨wX 0 10, wP, wP⟩] [⟨2, 2, 2, 1⟩] wPos spin = true ∧
    warns [⟨wX 0 5, wP, wP⟩, ⟨wX 6 10, wP, wP⟩] [⟨2, 2, 2, 1⟩] wPos spin = false := by
  have hp : Held wP := ⟨by norm_num [wP], by norm_num [wP], fun _ => by norm_num [wP]⟩
  have hx : ∀ lo hi, Held (wX lo hi) := fun lo hi =>
    ⟨by norm_num [wX], by norm_num [wX], fun h => by norm_num [wX] at h⟩
  have pp : ∀ i, 0 ≤ wPos i ∧ wPos i ≤ 10 := fun i => by
    unfold wPos; split <;> norm_num
  have hc : ∀ lo hi, InCell ⟨wX lo hi, wP, wP⟩ [⟨2, 2, 2, 1⟩] wPos := fun lo hi =>
    { wide := by intro T hT; simp only [List.mem_singleton] at hT; subst hT; norm_num [wX, wP]
      posX := fun J => ⟨(pp _).1, (pp _).2.trans (by norm_num [wX])⟩
      posY := fun J => ⟨(pp _).1, (pp _).2.trans (by norm_num [wP])⟩
      posZ := fun J => ⟨(pp _).1, (pp _).2.trans (by norm_num [wP])⟩ }
  have tc : TooClose ⟨wX 0 10, wP, wP⟩ [⟨2, 2, 2, 1⟩] wPos := by
    refine ⟨0, _, rfl, 0, by simp, by simp, Or.inl ⟨rfl, -1, Or.inl (by norm_num), ?_⟩⟩
    norm_num [wX, wPos]
  refine ⟨tc, (warn_partial (hx _ _) hp hp ⟨rfl, rfl⟩ ⟨rfl, rfl⟩ ⟨rfl, rfl⟩ (hc _ _) spin).2 tc, ?_⟩
  rw [Bool.eq_false_iff]
  intro h
  unfold warns at h
  simp only [List.map_cons, List.map_nil, List.all_cons, List.all_nil, Bool.and_true,
    Bool.or_eq_true, Bool.and_eq_true] at h
  have h2 : (influence ⟨wX 6 10, wP, wP⟩ [⟨2, 2, 2, 1⟩] wPos spin).flags.1 = true ∨
      (influence ⟨wX 6 10, wP, wP⟩ [⟨2, 2, 2, 1⟩] wPos spin).flags.2.1 = true ∨
      (influence ⟨wX 6 10, wP, wP⟩ [⟨2, 2, 2, 1⟩] wPos spin).flags.2.2 = true := by tauto
  obtain ⟨f1, f2, f3⟩ := flags_run ⟨wX 6 10, wP, wP⟩ wPos spin [⟨2, 2, 2, 1⟩]
    ⟨0, 0, [], (false, false, false)⟩ rfl
  unfold influence at h2
  rw [f1, f2, f3] at h2
  have none : ∀ v J, J < 1 → v ∉ keysA ⟨wX 6 10, wP, wP⟩ ⟨2, 2, 2, 1⟩ wPos J := by
    intro v J hJ hv
    rw [keysA_mem (hx _ _) hp hp] at hv
    obtain rfl : J = 0 := by omega
    have h0 : v.1 = 0 := hv.1.1 (by simp [wX])
    have := hv.2.1
    unfold skip dms at this
    simp only [image, h0] at this
    norm_num [wX, wPos] at this
  have : ∀ t (T : Typ), [(⟨2, 2, 2, 1⟩ : Typ)][t]? = some T → t = 0 ∧ T = ⟨2, 2, 2, 1⟩ := by
    intro t T ht
    cases t with
    | zero => simp only [List.getElem?_cons_zero, Option.some.injEq] at ht; exact ⟨rfl, ht.symm⟩
    | succ t => simp at ht
  rcases h2 with h2 | h2 | h2 <;>
  · rcases h2 with h2 | ⟨t, T, ht, J, hJ, v, hv, -⟩
    · exact Bool.false_ne_true h2
    · obtain ⟨rfl, rfl⟩ := this t T ht
      simp only [List.take_zero, List.map_nil, List.sum_nil, List.mem_range'_1] at hJ
      exact none v J (by omega) hv

/-! ## The nonlocal projectors -/

/-- A process's share of one direction for the nonlocal routine: with the spectral quadrature
method the nodes may lie up to `rcut` outside the cell. -/
structure HeldN (a : Axis) : Prop where
  h_pos : 0 < a.h
  L_pos : 0 < a.L
  cell : a.bc = 0 → a.org = 0 ∧ -(if a.sq then a.rcut else 0) ≤ a.lo * a.h ∧
    a.hi * a.h ≤ a.L + (if a.sq then a.rcut else 0)

/-- Coordinates of a node. -/
noncomputable def nodePt (G : Geo) (v : ℤ × ℤ × ℤ) : ℝ × ℝ × ℝ :=
  (G.X.org + v.1 * G.X.h, v.2.1 * G.Y.h, v.2.2 * G.Z.h)

/-- Position of a node in the process's array, x fastest. -/
def nodeIdx (G : Geo) (v : ℤ × ℤ × ℤ) : ℤ :=
  (v.1 - G.X.lo) + (G.X.hi - G.X.lo + 1) * ((v.2.1 - G.Y.lo)
    + (G.Y.hi - G.Y.lo + 1) * (v.2.2 - G.Z.lo))

theorem keysN_mem {G : Geo} (hX : HeldN G.X) (hY : HeldN G.Y) (hZ : HeldN G.Z) (T : NTyp)
    (pos : ℕ → ℝ) (J : ℕ) (v : ℤ × ℤ × ℤ) :
    v ∈ keysN G T pos J ↔ Allowed G v ∧
      ¬ skip (dms G.X) (dmeN G.X) (rcbox T).1 (image G pos J v).1 ∧
      ¬ skip (dms G.Y) (dmeN G.Y) (rcbox T).2.1 (image G pos J v).2.1 ∧
      ¬ skip (dms G.Z) (dmeN G.Z) (rcbox T).2.2 (image G pos J v).2.2 := by
  unfold keysN
  rw [mem_keys, imgN_iff _ hX.L_pos _ _ _ hX.cell, imgN_iff _ hY.L_pos _ _ _ hY.cell,
    imgN_iff _ hZ.L_pos _ _ _ hZ.cell]
  unfold Allowed image
  tauto

theorem keysN_nodup (G : Geo) (T : NTyp) (pos : ℕ → ℝ) (J : ℕ) : (keysN G T pos J).Nodup :=
  nodup_keys (nodup_irange _ _) (nodup_irange _ _) (nodup_irange _ _)

theorem influenceN_out (G : Geo) (dist : ℝ × ℝ × ℝ → ℝ × ℝ × ℝ → ℝ) (types : List NTyp)
    (pos : ℕ → ℝ) (t : ℕ) (T : NTyp) (ht : types[t]? = some T) :
    (influenceN G dist types pos).out[t]?
      = some ⟨(rawN G dist pos ((types.take t).map NTyp.n).sum T).length,
          (rawN G dist pos ((types.take t).map NTyp.n).sum T).length,
          (keptN G dist pos ((types.take t).map NTyp.n).sum T).length,
          keptN G dist pos ((types.take t).map NTyp.n).sum T⟩ := by
  unfold influenceN
  rw [influenceN_run _ _ _ _ _ rfl, List.nil_append, outsN_get G dist pos 0 types t T ht]
  simp

theorem loc_eq (G : Geo) (v : ℤ × ℤ × ℤ) : loc G v = nodeIdx G v := by
  unfold loc nodeIdx; ring

theorem filter_sum {M : Type} [AddCommMonoid M] (l : List NRec) (f : NRec → M)
    (h : ∀ R, R.gpos = [] → f R = 0) :
    ((l.filter fun R => R.gpos.length > 0).map f).sum = (l.map f).sum := by
  induction l with
  | nil => simp
  | cons R l ih =>
    by_cases hR : R.gpos = []
    · simp [hR, h R hR, ih]
    · have : R.gpos.length > 0 := List.length_pos_iff.2 hR
      simp [this, ih]

theorem rcMax_nonneg (T : NTyp) : 0 ≤ rcMax T := by
  unfold rcMax
  generalize (0 : ℝ) = z at *
  have : ∀ (l : List ℝ) (a : ℝ), a ≤ l.foldl max a := by
    intro l
    induction l with
    | nil => intro a; exact le_rfl
    | cons b l ih => intro a; exact (le_max_left a b).trans (ih _)
  exact this _ _

/-- **The radius searched is the largest one**: `rc` is an upper bound of the radii of all
angular momenta of the type, and it is one of them (or 0). -/
theorem rcMax_spec (T : NTyp) :
    (∀ r ∈ T.rcs, r ≤ rcMax T) ∧ (rcMax T = 0 ∨ rcMax T ∈ T.rcs) := by
  unfold rcMax
  have : ∀ (l : List ℝ) (a : ℝ), a ≤ l.foldl max a ∧ (∀ r ∈ l, r ≤ l.foldl max a) ∧
      (l.foldl max a = a ∨ l.foldl max a ∈ l) := by
    intro l
    induction l with
    | nil => intro a; simp
    | cons b l ih =>
      intro a
      obtain ⟨h1, h2, h3⟩ := ih (max a b)
      rw [List.foldl_cons]
      refine ⟨(le_max_left a b).trans h1, ?_, ?_⟩
      · intro r hr
        rcases List.mem_cons.1 hr with rfl | hr
        · exact (le_max_right _ _).trans h1
        · exact h2 r hr
      · rcases h3 with h3 | h3
        · rw [h3]
          rcases max_choice a b with h | h
          · exact Or.inl h
          · right; rw [h]; exact List.mem_cons_self
        · exact Or.inr (List.mem_cons_of_mem _ h3)
  exact ⟨(this T.rcs 0).2.1, (this T.rcs 0).2.2⟩

/-- The node is stored in the record of the image. -/
def CovN (G : Geo) (dist : ℝ × ℝ × ℝ → ℝ × ℝ × ℝ → ℝ) (T : NTyp) (c : ℝ × ℝ × ℝ)
    (n : ℤ × ℤ × ℤ) : Prop :=
  ((max G.X.lo ⌈(c.1 - G.X.org - (rcbox T).1) / G.X.h⌉ ≤ n.1 ∧
      n.1 ≤ min G.X.hi ⌊(c.1 - G.X.org + (rcbox T).1) / G.X.h⌋) ∧
    (max G.Y.lo ⌈(c.2.1 - (rcbox T).2.1) / G.Y.h⌉ ≤ n.2.1 ∧
      n.2.1 ≤ min G.Y.hi ⌊(c.2.1 + (rcbox T).2.1) / G.Y.h⌋) ∧
    (max G.Z.lo ⌈(c.2.2 - (rcbox T).2.2) / G.Z.h⌉ ≤ n.2.2 ∧
      n.2.2 ≤ min G.Z.hi ⌊(c.2.2 + (rcbox T).2.2) / G.Z.h⌋)) ∧
    dist (nodePt G n) c * dist (nodePt G n) c ≤ rcMax T * rcMax T

open Classical in
/-- **Every projector value exactly once.**  The arrays allocated have exactly the lengths
written.  For any quantity `F` that depends on the atom, the position of its image, a node and
the node's place in the process's array, and that vanishes at distance `rc` and beyond, adding
`F` over the stored nodes of all records of a type gives the sum over all nodes of the process
of the sum over all images of all atoms of the type. -/
theorem nloc_sum {G : Geo} (hX : HeldN G.X) (hY : HeldN G.Y) (hZ : HeldN G.Z)
    (oY : G.Y.org = 0) (oZ : G.Z.org = 0)
    (dist : ℝ × ℝ × ℝ → ℝ × ℝ × ℝ → ℝ) (h0 : ∀ p c, 0 ≤ dist p c)
    (types : List NTyp) (pos : ℕ → ℝ) (t : ℕ) (T : NTyp) (ht : types[t]? = some T)
    (hbox : ∀ p c, dist p c < rcMax T →
      |p.1 - c.1| < (rcbox T).1 ∧ |p.2.1 - c.2.1| < (rcbox T).2.1 ∧
        |p.2.2 - c.2.2| < (rcbox T).2.2) :
    ∃ m recs, (influenceN G dist types pos).out[t]? = some ⟨m, m, recs.length, recs⟩ ∧
      ∀ (M : Type) [AddCommMonoid M] (F : ℕ → ℝ × ℝ × ℝ → ℤ × ℤ × ℤ → ℤ → M),
        (∀ J c n g, rcMax T ≤ dist (nodePt G n) c → F J c n g = 0) →
        (recs.map fun R =>
            (R.gpos.map fun g => F R.idx (R.x, R.y, R.z) (decode G g) g).sum).sum
          = ∑ J ∈ Ico ((types.take t).map NTyp.n).sum (((types.take t).map NTyp.n).sum + T.n),
              ∑ n ∈ domain G, ∑ᶠ v,
                if Allowed G v then F J (image G pos J v) n (nodeIdx G n) else 0 := by
  refine ⟨_, _, influenceN_out G dist types pos t T ht, ?_⟩
  intro M _ F hF
  unfold keptN
  rw [filter_sum _ _ (fun R hR => by simp [hR])]
  unfold rawN
  rw [List.map_flatMap, list_sum_flatMap, sum_range'_eq]
  refine Finset.sum_congr rfl fun J _ => ?_
  rw [List.map_map]
  -- the value of one image, written over the nodes of the process
  have one : ∀ v, ((fun R : NRec =>
      (R.gpos.map fun g => F R.idx (R.x, R.y, R.z) (decode G g) g).sum) ∘
        fun v : ℤ × ℤ × ℤ => mkNRec G dist T pos J v.1 v.2.1 v.2.2) v
      = ∑ n ∈ domain G, if CovN G dist T (image G pos J v) n
        then F J (image G pos J v) n (nodeIdx G n) else 0 := by
    intro v
    rw [Function.comp_apply, ← Finset.sum_filter]
    unfold mkNRec
    dsimp only
    rw [sphere_eq, List.map_map]
    have hsub : ∀ n ∈ (nodes (max G.X.lo ⌈(pos (3 * J) + G.X.L * v.1 - G.X.org - (rcbox T).1)
          / G.X.h⌉) (min G.X.hi ⌊(pos (3 * J) + G.X.L * v.1 - G.X.org + (rcbox T).1) / G.X.h⌋)
          (max G.Y.lo ⌈(pos (3 * J + 1) + G.Y.L * v.2.1 - (rcbox T).2.1) / G.Y.h⌉)
          (min G.Y.hi ⌊(pos (3 * J + 1) + G.Y.L * v.2.1 + (rcbox T).2.1) / G.Y.h⌋)
          (max G.Z.lo ⌈(pos (3 * J + 2) + G.Z.L * v.2.2 - (rcbox T).2.2) / G.Z.h⌉)
          (min G.Z.hi ⌊(pos (3 * J + 2) + G.Z.L * v.2.2 + (rcbox T).2.2) / G.Z.h⌋)),
        decode G (loc G n) = n := by
      intro n hn
      rw [mem_nodes] at hn
      simp only [max_le_iff, le_min_iff] at hn
      exact (decode_loc G ⟨hn.1.1.1, hn.1.2.1⟩ ⟨hn.2.1.1.1, hn.2.1.2.1⟩ hn.2.2.1.1).1
    rw [← List.sum_toFinset _ ((nodup_nodes _ _ _ _ _ _).filter _)]
    refine Finset.sum_congr ?_ ?_
    · ext n
      simp only [List.mem_toFinset, List.mem_filter, mem_nodes,
        Finset.mem_filter, domain, mem_product, mem_Icc, image, pt, nodePt, CovN, max_le_iff,
        le_min_iff]
      constructor
      · rintro ⟨h1, h2⟩
        exact ⟨⟨⟨h1.1.1.1, h1.1.2.1⟩, ⟨h1.2.1.1.1, h1.2.1.2.1⟩, h1.2.2.1.1, h1.2.2.2.1⟩, h1,
          of_decide_eq_true h2⟩
      · rintro ⟨-, h1, h2⟩
        exact ⟨h1, decide_eq_true h2⟩
    · intro n hn
      rw [Function.comp_apply, hsub n (mem_nodes.2 (Finset.mem_filter.1 hn).2.1), loc_eq]
      rfl
  rw [List.map_congr_left (fun v _ => one v), list_sum_finsum _ (keysN_nodup G T pos J)]
  have push : ∀ v, (if v ∈ keysN G T pos J then ∑ n ∈ domain G,
        (if CovN G dist T (image G pos J v) n
          then F J (image G pos J v) n (nodeIdx G n) else 0) else 0)
      = ∑ n ∈ domain G, if v ∈ keysN G T pos J ∧ Allowed G v
          then F J (image G pos J v) n (nodeIdx G n) else 0 := by
    intro v
    by_cases hv : v ∈ keysN G T pos J
    · have ha : Allowed G v := ((keysN_mem hX hY hZ T pos J v).1 hv).1
      rw [if_pos hv]
      refine Finset.sum_congr rfl fun n hn => ?_
      rw [if_pos (show v ∈ keysN G T pos J ∧ Allowed G v from ⟨hv, ha⟩)]
      by_cases hd : dist (nodePt G n) (image G pos J v) < rcMax T
      · rw [if_pos]
        simp only [domain, mem_product, mem_Icc] at hn
        obtain ⟨b1, b2, b3⟩ := hbox _ _ hd
        refine ⟨⟨?_, ?_, ?_⟩, mul_self_le_mul_self (h0 _ _) hd.le⟩
        · exact (boxN_of_lt G.X hX.h_pos _ _ _ hn.1 b1).2
        · have := (boxN_of_lt G.Y hY.h_pos _ (image G pos J v).2.1 _ hn.2.1
            (by rw [oY, zero_add]; exact b2)).2
          rw [oY] at this
          simpa using this
        · have := (boxN_of_lt G.Z hZ.h_pos _ (image G pos J v).2.2 _ hn.2.2
            (by rw [oZ, zero_add]; exact b3)).2
          rw [oZ] at this
          simpa using this
      · rw [hF _ _ _ _ (not_lt.1 hd), ite_self]
    · rw [if_neg hv]
      symm
      refine Finset.sum_eq_zero fun n _ => ?_
      rw [if_neg (fun h => hv h.1)]
  refine (finsum_congr fun v => (?_ : _ = ∑ n ∈ domain G, if v ∈ keysN G T pos J ∧ Allowed G v
          then F J (image G pos J v) n (nodeIdx G n) else 0)).trans ?_
  · convert push v
  rw [finsum_sum_comm]
  · refine Finset.sum_congr rfl fun n hn => finsum_congr fun v => ?_
    by_cases ha : Allowed G v
    · by_cases hv : v ∈ keysN G T pos J
      · rw [if_pos ⟨hv, ha⟩, if_pos ha]
      · rw [if_neg (fun h => hv h.1), if_pos ha]
        symm
        apply hF
        by_contra hd
        rw [not_le] at hd
        apply hv
        rw [keysN_mem hX hY hZ]
        simp only [domain, mem_product, mem_Icc] at hn
        obtain ⟨b1, b2, b3⟩ := hbox _ _ hd
        refine ⟨ha, ?_, ?_, ?_⟩
        · exact (boxN_of_lt G.X hX.h_pos _ _ _ hn.1 b1).1
        · exact (boxN_of_lt G.Y hY.h_pos _ (image G pos J v).2.1 _ hn.2.1
            (by rw [oY, zero_add]; exact b2)).1
        · exact (boxN_of_lt G.Z hZ.h_pos _ (image G pos J v).2.2 _ hn.2.2
            (by rw [oZ, zero_add]; exact b3)).1
    · rw [if_neg (fun h => ha h.2), if_neg ha]
  · intro n _
    refine ((keysN G T pos J).toFinset.finite_toSet).subset ?_
    intro v hv
    simp only [Function.mem_support, ne_eq, ite_eq_right_iff, not_forall] at hv
    simpa using hv.1.1

/-- **Nothing beyond the sphere, nothing outside the array.**  Every stored place is the place
of a node of the process no further than `rc` from the image; no place is stored twice in a
record; no kept record is empty. -/
theorem nloc_record {G : Geo} (dist : ℝ × ℝ × ℝ → ℝ × ℝ × ℝ → ℝ)
    (hX : HeldN G.X) (hY : HeldN G.Y) (hZ : HeldN G.Z)
    (types : List NTyp) (pos : ℕ → ℝ) (t : ℕ) (T : NTyp) (ht : types[t]? = some T) :
    ∃ m recs, (influenceN G dist types pos).out[t]? = some ⟨m, m, recs.length, recs⟩ ∧
      ∀ R ∈ recs, R.gpos ≠ [] ∧ R.gpos.Nodup ∧
        (((types.take t).map NTyp.n).sum ≤ R.idx ∧
          R.idx < ((types.take t).map NTyp.n).sum + T.n) ∧
        (∃ v, Allowed G v ∧ (R.x, R.y, R.z) = image G pos R.idx v) ∧
        ∀ g ∈ R.gpos, ∃ n ∈ domain G, g = nodeIdx G n ∧ decode G g = n ∧
          0 ≤ g ∧ g < (G.X.hi - G.X.lo + 1) * ((G.Y.hi - G.Y.lo + 1) * (G.Z.hi - G.Z.lo + 1)) ∧
          dist (nodePt G n) (R.x, R.y, R.z) ≤ rcMax T := by
  classical
  refine ⟨_, _, influenceN_out G dist types pos t T ht, ?_⟩
  intro R hR
  unfold keptN rawN at hR
  simp only [List.mem_filter, List.mem_flatMap, List.mem_map, List.mem_range'_1,
    decide_eq_true_eq] at hR
  obtain ⟨⟨J, hJ, v, hv, rfl⟩, hlen⟩ := hR
  rw [keysN_mem hX hY hZ] at hv
  have dec : ∀ n, n ∈ domain G → decode G (loc G n) = n ∧ 0 ≤ loc G n := by
    intro n hn
    simp only [domain, mem_product, mem_Icc] at hn
    exact decode_loc G hn.1 hn.2.1 hn.2.2.1
  refine ⟨List.length_pos_iff.1 hlen, ?_, hJ, ⟨v, hv.1, rfl⟩, ?_⟩
  · unfold mkNRec
    dsimp only
    rw [sphere_eq]
    refine List.Nodup.map_on ?_ ((nodup_nodes _ _ _ _ _ _).filter _)
    intro n hn m hm he
    simp only [List.mem_filter, mem_nodes, max_le_iff, le_min_iff] at hn hm
    rw [← (dec n (by simp only [domain, mem_product, mem_Icc]; tauto)).1,
      ← (dec m (by simp only [domain, mem_product, mem_Icc]; tauto)).1, he]
  · intro g hg
    unfold mkNRec at hg
    dsimp only at hg
    rw [sphere_eq] at hg
    simp only [List.mem_map, List.mem_filter, mem_nodes, max_le_iff, le_min_iff,
      decide_eq_true_eq] at hg
    obtain ⟨n, ⟨hn, hd⟩, rfl⟩ := hg
    have hnd : n ∈ domain G := by simp only [domain, mem_product, mem_Icc]; tauto
    refine ⟨n, hnd, loc_eq G n, (dec n hnd).1, (dec n hnd).2, ?_, ?_⟩
    · rw [loc_eq]
      unfold nodeIdx
      simp only [domain, mem_product, mem_Icc] at hnd
      obtain ⟨⟨a1, a2⟩, ⟨b1, b2⟩, c1, c2⟩ := hnd
      obtain ⟨x, hx⟩ : ∃ x, x = n.1 - G.X.lo := ⟨_, rfl⟩
      obtain ⟨y, hy⟩ : ∃ x, x = n.2.1 - G.Y.lo := ⟨_, rfl⟩
      obtain ⟨z, hz⟩ : ∃ x, x = n.2.2 - G.Z.lo := ⟨_, rfl⟩
      obtain ⟨p, hp⟩ : ∃ x, x = G.X.hi - G.X.lo + 1 := ⟨_, rfl⟩
      obtain ⟨q, hq⟩ : ∃ x, x = G.Y.hi - G.Y.lo + 1 := ⟨_, rfl⟩
      obtain ⟨r, hr⟩ : ∃ x, x = G.Z.hi - G.Z.lo + 1 := ⟨_, rfl⟩
      rw [← hx, ← hy, ← hz, ← hp, ← hq, ← hr]
      have h1 : y + q * z + 1 ≤ q * r := by nlinarith [show z + 1 ≤ r by omega, show y + 1 ≤ q by omega, show 0 ≤ y by omega]
      nlinarith [show x + 1 ≤ p by omega, show 0 ≤ x by omega]
    · exact le_of_mul_self_le_mul_self hd (rcMax_nonneg T)
where
  le_of_mul_self_le_mul_self {a b : ℝ} (h : a * a ≤ b * b) (hb : 0 ≤ b) : a ≤ b := by
    by_contra hab
    nlinarith

/-- In an orthogonal cell, where the half-widths are `rc`, the distance of `CalculateDistance`
satisfies the hypotheses of `nloc_sum`. -/
theorem orth_box (C : Coord.Geom) (hC : C.cellTyp = 0) (T : NTyp) (hT : T.orth = true)
    (p c : ℝ × ℝ × ℝ) :
    0 ≤ (Coord.calcDist C p c).getD 0 ∧ ((Coord.calcDist C p c).getD 0 < rcMax T →
      |p.1 - c.1| < (rcbox T).1 ∧ |p.2.1 - c.2.1| < (rcbox T).2.1 ∧
        |p.2.2 - c.2.2| < (rcbox T).2.2) := by
  unfold Coord.calcDist
  rw [if_pos hC, Option.getD_some]
  refine ⟨Real.sqrt_nonneg _, fun h => ?_⟩
  have hr := rcMax_nonneg T
  rw [Real.sqrt_lt' (by linarith [Real.sqrt_nonneg ((p.1 - c.1) ^ 2 + (p.2.1 - c.2.1) ^ 2
    + (p.2.2 - c.2.2) ^ 2)])] at h
  unfold rcbox
  rw [if_pos hT]
  refine ⟨?_, ?_, ?_⟩ <;> refine abs_lt_of_sq_lt_sq ?_ hr <;>
    nlinarith [sq_nonneg (p.1 - c.1), sq_nonneg (p.2.1 - c.2.1), sq_nonneg (p.2.2 - c.2.2)]

/-- A projector that does not vanish: a hat function of radius 1 meets the hypothesis on `F`. -/
example (G : Geo) (dist : ℝ × ℝ × ℝ → ℝ × ℝ × ℝ → ℝ) :
    ∀ (J : ℕ) (c : ℝ × ℝ × ℝ) (n : ℤ × ℤ × ℤ) (g : ℤ),
      rcMax ⟨[1], true, 0, 0, 0, 1⟩ ≤ dist (nodePt G n) c →
        max 0 (1 - dist (nodePt G n) c) * ((J : ℝ) + 1) * (g + 1) = 0 := by
  intro J c n g h
  have : rcMax ⟨[1], true, 0, 0, 0, 1⟩ = 1 := by simp [rcMax]
  rw [this] at h
  rw [max_eq_left (by linarith)]
  ring

/-- With SQ, nodes up to `rcut = 2` outside a cell of ten nodes are held. -/
example : HeldN ⟨0, 5, 0, 1 / 2, 10, -4, 13, true, 2⟩ :=
  ⟨by norm_num, by norm_num, fun _ => by norm_num⟩

/-- Distance along x only; y and z have one node each. -/
noncomputable def dX (p c : ℝ × ℝ × ℝ) : ℝ := |p.1 - c.1|

/-- Nodes `0 … hi` of a non-periodic direction with unit spacing. -/
noncomputable def eX (hi : ℤ) : Axis := ⟨1, 10, 0, 1, 11, 0, hi, false, 0⟩

/-- **Finding: an image at distance exactly `rc` to the right of the last node is dropped.**
The routine compares with the last node (`>=`, nlocVecRoutines.c:156-162) while a node at
distance exactly `rc` is wanted (`<=`, 296).  With nodes 0 and 1 on one process, an atom at
1/2 with `rc` = 1/2 stores node 0; if the process holds node 0 only, it stores nothing. -/
theorem nloc_edge_lost :
    (∃ o : NOut, (influenceN ⟨eX 1, eX 0, eX 0⟩ dX [⟨[1 / 2], true, 0, 0, 0, 1⟩]
        (fun i => if i = 0 then 1 / 2 else 0)).out[0]? = some o ∧
      ∃ R ∈ o.recs, (0 : ℤ) ∈ R.gpos) ∧
    (∃ o : NOut, (influenceN ⟨eX 0, eX 0, eX 0⟩ dX [⟨[1 / 2], true, 0, 0, 0, 1⟩]
        (fun i => if i = 0 then 1 / 2 else 0)).out[0]? = some o ∧ o.recs = []) := by
  classical
  have hx : ∀ hi, HeldN (eX hi) := fun hi =>
    ⟨by norm_num [eX], by norm_num [eX], fun h => by norm_num [eX] at h⟩
  have hr : rcMax ⟨[1 / 2], true, 0, 0, 0, 1⟩ = 1 / 2 := by simp [rcMax]
  have hb : rcbox ⟨[1 / 2], true, 0, 0, 0, 1⟩ = (1 / 2, 1 / 2, 1 / 2) := by
    unfold rcbox
    rw [if_pos rfl, hr]
  refine ⟨⟨_, influenceN_out _ _ _ _ 0 _ rfl, ?_⟩, ⟨_, influenceN_out _ _ _ _ 0 _ rfl, ?_⟩⟩
  · have hk : ((0, 0, 0) : ℤ × ℤ × ℤ) ∈ keysN ⟨eX 1, eX 0, eX 0⟩ ⟨[1 / 2], true, 0, 0, 0, 1⟩
        (fun i => if i = 0 then 1 / 2 else 0) 0 := by
      rw [keysN_mem (hx _) (hx _) (hx _)]
      refine ⟨⟨fun _ => rfl, fun _ => rfl, fun _ => rfl⟩, ?_, ?_, ?_⟩ <;>
        rw [hb] <;> norm_num [skip, dms, dmeN, eX, image]
    have hg : (0 : ℤ) ∈ (mkNRec ⟨eX 1, eX 0, eX 0⟩ dX ⟨[1 / 2], true, 0, 0, 0, 1⟩
        (fun i => if i = 0 then 1 / 2 else 0) 0 0 0 0).gpos := by
      unfold mkNRec
      dsimp only
      rw [sphere_eq, hb, hr, List.mem_map]
      refine ⟨(0, 0, 0), ?_, by simp [loc, eX]⟩
      rw [List.mem_filter, mem_nodes]
      refine ⟨?_, ?_⟩
      · simp only [max_le_iff, le_min_iff, Int.ceil_le, Int.le_floor]
        norm_num [eX]
      · rw [decide_eq_true_eq]
        norm_num [dX, pt, eX]
    refine ⟨_, ?_, hg⟩
    unfold keptN rawN
    rw [List.mem_filter]
    refine ⟨?_, by simpa using List.length_pos_of_mem hg⟩
    simp only [List.mem_flatMap, List.mem_map]
    exact ⟨0, by simp, (0, 0, 0), hk, rfl⟩
  · have hk : keysN ⟨eX 0, eX 0, eX 0⟩ ⟨[1 / 2], true, 0, 0, 0, 1⟩
        (fun i => if i = 0 then 1 / 2 else 0) 0 = [] := by
      rw [List.eq_nil_iff_forall_not_mem]
      intro v hv
      rw [keysN_mem (hx _) (hx _) (hx _)] at hv
      have h0 : v.1 = 0 := hv.1.1 (by simp [eX])
      have := hv.2.1
      rw [hb] at this
      simp [skip, dms, dmeN, eX, image, h0] at this
    have e : rawN ⟨eX 0, eX 0, eX 0⟩ dX (fun i => if i = 0 then 1 / 2 else 0) 0
        ⟨[1 / 2], true, 0, 0, 0, 1⟩ = [] := by
      unfold rawN
      rw [List.range'_one, List.flatMap_singleton, hk]
      rfl
    unfold keptN
    rw [List.take_zero, List.map_nil, List.sum_nil, e]
    rfl

end Sparc.Infl

import Verif.Tac
import Verif.Grid.Model

/-!
# C42: enumeration of boxes and restriction to boxes
-/

namespace Sparc.Grid

open Loop

/-! ### `c_ndgrid` -/

/-- Number of points of the first `d` axes. -/
def points (n : ℕ → ℕ) : ℕ → ℕ
  | 0 => 1
  | d + 1 => points n d * n d

theorem points_pos {n : ℕ → ℕ} {d : ℕ} (h : ∀ a < d, 0 < n a) : 0 < points n d := by
  induction d with
  | zero => exact Nat.one_pos
  | succ d ih => exact Nat.mul_pos (ih fun a ha => h a (by omega)) (h d (by omega))

theorem points_dvd (n : ℕ → ℕ) {a d : ℕ} (h : a < d) : points n (a + 1) ∣ points n d := by
  induction d with
  | zero => omega
  | succ d ih =>
    rcases Nat.lt_succ_iff_lt_or_eq.1 h with h | rfl
    · exact (ih h).mul_right _
    · exact dvd_rfl

theorem vals_get {nc nd m t : ℕ} (f : ℕ → ℤ) (hm : 0 < m) (hnd : 0 < nd) (ht : t < nc * (nd * m)) :
    ((List.range nc).flatMap fun _ => (List.range nd).flatMap fun (i : ℕ) =>
      List.replicate m (f i))[t]? = some (f (t / m % nd)) := by
  have hL : 0 < nd * m := Nat.mul_pos hnd hm
  have e1 : t = t % (nd * m) + t / (nd * m) * (nd * m) := by
    rw [Nat.mul_comm (t / _)]; exact (Nat.mod_add_div t (nd * m)).symm
  have hlt : t / (nd * m) < nc := Nat.div_lt_of_lt_mul (by rw [Nat.mul_comm]; exact ht)
  have e3 : t / m % nd = t % (nd * m) / m := by
    rw [Nat.mul_comm nd m, Nat.mod_mul_right_div_self]
  rw [e3]
  conv_lhs => rw [e1]
  rw [getElem?_flatMap_range _ (nd * m) nc (fun k => by simp [List.length_flatMap])
    (Nat.mod_lt _ hL) hlt]
  set r := t % (nd * m)
  have hr : r < nd * m := Nat.mod_lt _ hL
  have hri : r / m < nd := Nat.div_lt_of_lt_mul (by rw [Nat.mul_comm]; exact hr)
  have e2 : r = r % m + r / m * m := by
    rw [Nat.mul_comm (r / _)]; exact (Nat.mod_add_div r m).symm
  conv_lhs => rw [e2]
  rw [getElem?_flatMap_range _ m nd (fun k => by simp) (Nat.mod_lt _ hm) hri,
    List.getElem?_replicate, if_pos (Nat.mod_lt _ hm)]

theorem vals_length (nc nd m : ℕ) (f : ℕ → ℤ) :
    ((List.range nc).flatMap fun _ => (List.range nd).flatMap fun (i : ℕ) =>
      List.replicate m (f i)).length = nc * (nd * m) := by
  simp [List.length_flatMap]

theorem writeSeq_in {α : Type} {start : ℕ} {l : List α} {X : ℕ → α} {t : ℕ} {v : α}
    (h : l[t]? = some v) : writeSeq start l X (start + t) = v := by
  unfold writeSeq
  rw [if_pos (by omega), Nat.add_sub_cancel_left, h]
  rfl

theorem writeSeq_out {α : Type} {start : ℕ} {l : List α} {X : ℕ → α} {p : ℕ}
    (h : p < start ∨ start + l.length ≤ p) : writeSeq start l X p = X p := by
  unfold writeSeq
  split_ifs with h1
  · rw [List.getElem?_eq_none (by omega)]
    rfl
  · rfl

theorem ndgridRec_spec {xs xe : ℕ → ℤ} {n : ℕ → ℕ} (hn : ∀ a, n a = (xe a - xs a + 1).toNat) (d nc : ℕ)
    (X : ℕ → ℤ) (hpos : ∀ a < d, 0 < n a) :
    ∃ X', ndgridRec xs xe d nc (points n d) X = some X' ∧
      (∀ a < d, ∀ t < nc * points n d,
        X' (nc * points n d * a + t) = xs a + (t / points n a % n a : ℕ)) ∧
      ∀ p, nc * points n d * d ≤ p → X' p = X p := by
  induction d generalizing nc X with
  | zero => exact ⟨X, rfl, by simp, fun _ _ => rfl⟩
  | succ d ih =>
    have hd : 0 < n d := hpos d (by omega)
    have hm : 0 < points n d := points_pos fun a ha => hpos a (by omega)
    have hT : nc * points n (d + 1) = nc * n d * points n d := by
      rw [points]; ring
    have hdiv : points n (d + 1) / n d = points n d := Nat.mul_div_cancel _ hd
    have hdiv2 : nc * points n (d + 1) / points n d = nc * n d := by
      rw [hT]; exact Nat.mul_div_cancel _ hm
    unfold ndgridRec
    rw [← hn d]
    dsimp only
    rw [if_neg hd.ne', hdiv, if_neg hm.ne', hdiv2, Nat.mul_comm (points n (d + 1)) nc]
    set vals := (List.range nc).flatMap fun _ => (List.range (n d)).flatMap fun (i : ℕ) =>
      List.replicate (points n d) (xs d + i) with hvals
    have hlen : vals.length = nc * points n (d + 1) := by
      rw [hvals, vals_length nc (n d) (points n d) fun i => xs d + i, hT]; ring
    obtain ⟨X', h1, h2, h3⟩ := ih (nc * n d) (writeSeq (nc * points n (d + 1) * d) vals X)
      fun a ha => hpos a (by omega)
    rw [← hT] at h2 h3
    refine ⟨X', h1, ?_, ?_⟩
    · intro a ha t ht
      rcases Nat.lt_succ_iff_lt_or_eq.1 ha with h | rfl
      · exact h2 a h t ht
      · rw [h3 _ (by omega)]
        exact writeSeq_in (vals_get (fun i => xs a + i) hm hd (by rw [hT] at ht; linarith))
    · intro p hp
      have e : nc * points n (d + 1) * (d + 1) = nc * points n (d + 1) * d + nc * points n (d + 1) := by
        ring
      rw [h3 p (by omega), writeSeq_out (Or.inr (by omega))]

/-- Positive extents. -/
def Nonempty (ndims : ℕ) (xs xe : ℕ → ℤ) : Prop := ∀ a < ndims, xs a ≤ xe a

/-- Number of points along an axis. -/
def extent (xs xe : ℕ → ℤ) (a : ℕ) : ℕ := (xe a - xs a + 1).toNat

theorem extent_pos {ndims : ℕ} {xs xe : ℕ → ℤ} (h : Nonempty ndims xs xe) :
    ∀ a < ndims, 0 < extent xs xe a := by
  intro a ha
  have := h a ha
  unfold extent
  omega

/-- **C42.** In any number of dimensions the coordinate along axis `a` of entry `t` is the `a`-th
mixed-radix digit of `t`, the first axis running fastest; nothing else is written. -/
theorem ndgrid_spec {ndims : ℕ} {xs xe : ℕ → ℤ} (h : Nonempty ndims xs xe) (X : ℕ → ℤ) :
    ∃ X', ndgrid ndims xs xe X = some X' ∧
      (∀ a < ndims, ∀ t < points (extent xs xe) ndims,
        X' (points (extent xs xe) ndims * a + t) =
          xs a + (t / points (extent xs xe) a % extent xs xe a : ℕ)) ∧
      ∀ p, points (extent xs xe) ndims * ndims ≤ p → X' p = X p := by
  have e : ∀ d, (List.range d).foldl (fun p i => p * (xe i - xs i + 1).toNat) 1 =
      points (extent xs xe) d := by
    intro d
    induction d with
    | zero => rfl
    | succ d ih => rw [List.range_succ, List.foldl_append, ih]; rfl
  obtain ⟨X', h1, h2, h3⟩ := ndgridRec_spec (n := extent xs xe) (fun _ => rfl) ndims 1 X
    (extent_pos h)
  rw [Nat.one_mul] at h2 h3
  refine ⟨X', ?_, h2, h3⟩
  unfold ndgrid
  rw [e]
  exact h1

theorem digits_unique {n : ℕ → ℕ} {d : ℕ} {c : ℕ → ℕ} (hc : ∀ a < d, c a < n a) :
    ∃! t, t < points n d ∧ ∀ a < d, t / points n a % n a = c a := by
  induction d with
  | zero =>
    refine ⟨0, ⟨Nat.one_pos, by simp⟩, ?_⟩
    rintro t ⟨ht, -⟩
    exact Nat.lt_one_iff.1 ht
  | succ d ih =>
    obtain ⟨t, ⟨ht, hd⟩, hu⟩ := ih fun a ha => hc a (by omega)
    have hcd := hc d (by omega)
    have hpos : 0 < points n d := points_pos fun a ha => Nat.zero_lt_of_lt (hc a (by omega))
    have hlow : ∀ (a : ℕ), a < d → ∀ t q : ℕ, (t + q * points n d) / points n a % n a =
        t / points n a % n a := by
      intro a ha t q
      obtain ⟨r, hr⟩ := points_dvd n ha
      have hpa : 0 < points n a := points_pos fun b hb => Nat.zero_lt_of_lt (hc b (by omega))
      have e : t + q * points n d = t + points n a * (n a * (q * r)) := by
        rw [hr, points]; ring
      rw [e, Nat.add_mul_div_left _ _ hpa, Nat.add_mul_mod_self_left]
    refine ⟨t + c d * points n d, ⟨?_, ?_⟩, ?_⟩
    · calc t + c d * points n d < points n d + c d * points n d := by omega
        _ = points n d * (c d + 1) := by ring
        _ ≤ points n d * n d := Nat.mul_le_mul_left _ hcd
    · intro a ha
      rcases Nat.lt_succ_iff_lt_or_eq.1 ha with h | rfl
      · rw [hlow a h, hd a h]
      · rw [Nat.add_mul_div_right _ _ hpos, Nat.div_eq_of_lt ht, Nat.zero_add, Nat.mod_eq_of_lt hcd]
    · rintro s ⟨hs, hs'⟩
      have hq : s / points n d = c d := by
        have := hs' d (by omega)
        rwa [Nat.mod_eq_of_lt (Nat.div_lt_of_lt_mul (by simpa [points] using hs))] at this
      have hs2 : s = s % points n d + c d * points n d := by
        rw [← hq, Nat.mul_comm]; exact (Nat.mod_add_div s _).symm
      have : s % points n d = t := by
        refine hu _ ⟨Nat.mod_lt _ hpos, ?_⟩
        intro a ha
        rw [← hs' a (by omega)]
        conv_rhs => rw [hs2]
        rw [hlow a ha]
      omega

/-- **C42.** Every point of the box is listed exactly once, and only points of the box are. -/
theorem ndgrid_each_once {ndims : ℕ} {xs xe : ℕ → ℤ} (h : Nonempty ndims xs xe) (X : ℕ → ℤ) :
    ∃ X', ndgrid ndims xs xe X = some X' ∧
      (∀ c : ℕ → ℤ, (∀ a < ndims, xs a ≤ c a ∧ c a ≤ xe a) →
        ∃! t, t < points (extent xs xe) ndims ∧
          ∀ a < ndims, X' (points (extent xs xe) ndims * a + t) = c a) ∧
      ∀ t < points (extent xs xe) ndims, ∀ a < ndims,
        xs a ≤ X' (points (extent xs xe) ndims * a + t) ∧
          X' (points (extent xs xe) ndims * a + t) ≤ xe a := by
  obtain ⟨X', h1, h2, -⟩ := ndgrid_spec h X
  refine ⟨X', h1, ?_, ?_⟩
  · intro c hc
    obtain ⟨t, ⟨ht, hd⟩, hu⟩ := digits_unique (n := extent xs xe) (d := ndims)
      (c := fun a => (c a - xs a).toNat) (by
        intro a ha
        have := hc a ha
        unfold extent
        omega)
    have key : ∀ s < points (extent xs xe) ndims, ∀ a < ndims,
        (X' (points (extent xs xe) ndims * a + s) = c a ↔
          s / points (extent xs xe) a % extent xs xe a = (c a - xs a).toNat) := by
      intro s hs a ha
      rw [h2 a ha s hs]
      have := hc a ha
      generalize s / points (extent xs xe) a % extent xs xe a = q
      omega
    refine ⟨t, ⟨ht, fun a ha => (key t ht a ha).2 (hd a ha)⟩, ?_⟩
    rintro s ⟨hs, hs'⟩
    exact hu s ⟨hs, fun a ha => (key s hs a ha).1 (hs' a ha)⟩
  · intro t ht a ha
    rw [h2 a ha t ht]
    have hlt : t / points (extent xs xe) a % extent xs xe a < extent xs xe a :=
      Nat.mod_lt _ (extent_pos h a ha)
    generalize t / points (extent xs xe) a % extent xs xe a = q at *
    unfold extent at hlt
    omega

/-- **C42.** The order is the storage order: of two entries the earlier one has the smaller
coordinate along the last axis where they differ. -/
theorem ndgrid_order {ndims : ℕ} {xs xe : ℕ → ℤ} (h : Nonempty ndims xs xe) (X : ℕ → ℤ) :
    ∃ X', ndgrid ndims xs xe X = some X' ∧
      ∀ t t', t < t' → t' < points (extent xs xe) ndims →
        ∃ a < ndims, X' (points (extent xs xe) ndims * a + t) <
            X' (points (extent xs xe) ndims * a + t') ∧
          ∀ b < ndims, a < b → X' (points (extent xs xe) ndims * b + t) =
            X' (points (extent xs xe) ndims * b + t') := by
  obtain ⟨X', h1, h2, -⟩ := ndgrid_spec h X
  refine ⟨X', h1, ?_⟩
  intro t t' htt ht'
  have key : ∀ d ≤ ndims, ∀ s s', s < s' → s' < points (extent xs xe) d → ∃ a < d,
      s / points (extent xs xe) a % extent xs xe a < s' / points (extent xs xe) a % extent xs xe a ∧
      ∀ b < d, a < b → s / points (extent xs xe) b % extent xs xe b =
        s' / points (extent xs xe) b % extent xs xe b := by
    intro d
    induction d with
    | zero =>
      intro _ s s' h1 h2
      simp only [points] at h2
      omega
    | succ d ih =>
      intro hd s s' hss hs'
      set n := extent xs xe
      have hpos : 0 < points n d := points_pos fun a ha => extent_pos h a (by omega)
      have e1 : ∀ r, r < points n (d + 1) → r / points n d % n d = r / points n d := fun r hr =>
        Nat.mod_eq_of_lt (Nat.div_lt_of_lt_mul (by simpa [points] using hr))
      rcases Nat.lt_or_ge (s / points n d) (s' / points n d) with hlt | hge
      · exact ⟨d, by omega, by rw [e1 s (by omega), e1 s' hs']; exact hlt, fun b hb hb' => by omega⟩
      · have heq : s / points n d = s' / points n d :=
          le_antisymm (Nat.div_le_div_right hss.le) hge
        have hmod : s % points n d < s' % points n d := by
          have a1 := Nat.mod_add_div s (points n d)
          have a2 := Nat.mod_add_div s' (points n d)
          rw [heq] at a1
          omega
        obtain ⟨a, ha, h3, h4⟩ := ih (by omega) (s % points n d) (s' % points n d) hmod
          (Nat.mod_lt _ hpos)
        have hlow : ∀ (a : ℕ), a < d → ∀ r, r % points n d / points n a % n a =
            r / points n a % n a := by
          intro a ha r
          obtain ⟨q, hq⟩ := points_dvd n ha
          rw [hq, points, Nat.mul_assoc, Nat.mod_mul_right_div_self, Nat.mod_mul_right_mod]
        refine ⟨a, by omega, ?_, ?_⟩
        · rw [← hlow a ha s, ← hlow a ha s']; exact h3
        · intro b hb hab
          rcases Nat.lt_succ_iff_lt_or_eq.1 hb with hb | rfl
          · rw [← hlow b hb s, ← hlow b hb s']; exact h4 b hb hab
          · rw [e1 s (by omega), e1 s' hs']; exact heq
  obtain ⟨a, ha, h3, h4⟩ := key ndims le_rfl t t' htt ht'
  refine ⟨a, ha, ?_, ?_⟩
  · rw [h2 a ha t (by omega), h2 a ha t' ht']
    omega
  · intro b hb hab
    rw [h2 b hb t (by omega), h2 b hb t' ht', h4 b hb hab]

/-- The box `[2,4] × [5,6]`: entry 4 is the point `(3, 6)`. -/
example : ((ndgrid 2 (fun a => if a = 0 then 2 else 5) (fun a => if a = 0 then 4 else 6)
    (fun _ => 0)).map fun X => (X 4, X 10, X 12)) = some (3, 6, 0) := by
  decide

/-! ### Tests for points outside the domain -/

/-- **C42.** A point is reported outside iff its global index leaves the domain along some axis. -/
theorem outside_iff (ip jp kp oi oj ok : ℤ) (D : Fin 6 → ℤ) (N : Fin 3 → ℤ) :
    isGridOutside ip jp kp oi oj ok D N = false ↔
      (0 ≤ ip + oi + D 0 ∧ ip + oi + D 0 < N 0) ∧ (0 ≤ jp + oj + D 2 ∧ jp + oj + D 2 < N 1) ∧
        (0 ≤ kp + ok + D 4 ∧ kp + ok + D 4 < N 2) := by
  simp only [isGridOutside, Bool.or_eq_false_iff, decide_eq_false_iff_not, not_lt, not_le, ge_iff_le]
  tauto

/-- On which side of the interval `[0, N)` a point lies. -/
inductive Side
  | below
  | inside
  | above
  deriving DecidableEq, Repr

def side (N x : ℤ) : Side := if x < 0 then .below else if x < N then .inside else .above

/-- **C42.** The region number is -1 exactly for points inside the domain. -/
theorem region_inside_iff {ip jp kp oi oj ok : ℤ} {D : Fin 6 → ℤ} {N : Fin 3 → ℤ} (hN : ∀ a, 0 < N a) :
    gridOutsideRegion ip jp kp oi oj ok D N = -1 ↔ isGridOutside ip jp kp oi oj ok D N = false := by
  rw [outside_iff]
  have h0 := hN 0
  have h1 := hN 1
  have h2 := hN 2
  unfold gridOutsideRegion b2i
  dsimp only
  generalize ip + oi + D 0 = x, jp + oj + D 2 = y, kp + ok + D 4 = z
  simp only [decide_eq_true_eq]
  split_ifs <;> omega

/-- **C42.** Points outside get a number from 0 to 25, and two points get the same number exactly
if they lie on the same side along every axis. -/
theorem region_eq_iff {D : Fin 6 → ℤ} {N : Fin 3 → ℤ} (hN : ∀ a, 0 < N a)
    (ip jp kp oi oj ok ip' jp' kp' : ℤ) :
    -1 ≤ gridOutsideRegion ip jp kp oi oj ok D N ∧ gridOutsideRegion ip jp kp oi oj ok D N ≤ 25 ∧
    (gridOutsideRegion ip jp kp oi oj ok D N = gridOutsideRegion ip' jp' kp' oi oj ok D N ↔
      side (N 0) (ip + oi + D 0) = side (N 0) (ip' + oi + D 0) ∧
      side (N 1) (jp + oj + D 2) = side (N 1) (jp' + oj + D 2) ∧
      side (N 2) (kp + ok + D 4) = side (N 2) (kp' + ok + D 4)) := by
  have key : ∀ (M x : ℤ), 0 < M → b2i (decide (0 ≤ x)) - b2i (decide (x < M)) =
      match side M x with | .below => -1 | .inside => 0 | .above => 1 := by
    intro M x hM
    unfold side b2i
    by_cases h1 : x < 0
    · rw [if_pos h1]
      simp [not_le.2 h1, show x < M by omega]
    · rw [if_neg h1]
      by_cases h2 : x < M
      · simp [h2, not_lt.1 h1]
      · simp [h2, not_lt.1 h1]
  unfold gridOutsideRegion
  dsimp only
  rw [key _ _ (hN 0), key _ _ (hN 1), key _ _ (hN 2), key _ _ (hN 0), key _ _ (hN 1), key _ _ (hN 2)]
  generalize side (N 0) (ip + oi + D 0) = a, side (N 1) (jp + oj + D 2) = b,
    side (N 2) (kp + ok + D 4) = c, side (N 0) (ip' + oi + D 0) = a',
    side (N 1) (jp' + oj + D 2) = b', side (N 2) (kp' + ok + D 4) = c'
  revert a b c a' b' c'
  intro a b c a' b' c'
  cases a <;> cases b <;> cases c <;> cases a' <;> cases b' <;> cases c' <;> decide

example : gridOutsideRegion 0 0 9 (-1) 0 0 (fun _ => 0) (fun _ => 8) = 20 := by decide

/-! ### `restrict_to_subgrid` -/

theorem mem_irange {a b x : ℤ} : x ∈ irange a b ↔ a ≤ x ∧ x ≤ b := by
  unfold irange
  simp only [List.mem_map, List.mem_range]
  constructor
  · rintro ⟨t, ht, rfl⟩
    omega
  · intro h
    exact ⟨(x - a).toNat, by omega, by omega⟩

/-- Position `(x, y, z)` of an array with the given strides. -/
def addr (sy sz x y z : ℤ) : ℤ := z * sz + y * sy + x

/-- **C42.** Restriction copies exactly the points of the box: with strides that keep the points of
the target box apart, every point gets the value at the same offset of the source, and every other
element stays as it was. -/
theorem restrict_spec {α : Type} (S : Sub) (vi vo : ℤ → α)
    (hy : S.x1 - S.x0 < S.syo) (hz : S.x1 - S.x0 + (S.y1 - S.y0) * S.syo < S.szo) :
    (∀ x y z, S.x0 ≤ x → x ≤ S.x1 → S.y0 ≤ y → y ≤ S.y1 → S.z0 ≤ z → z ≤ S.z1 →
      restrictSub S vi vo (addr S.syo S.szo x y z) =
        vi (addr S.syi S.szi (S.xi + (x - S.x0)) (S.yi + (y - S.y0)) (S.zi + (z - S.z0)))) ∧
    ∀ p, (∀ x y z, S.x0 ≤ x → x ≤ S.x1 → S.y0 ≤ y → y ≤ S.y1 → S.z0 ≤ z → z ≤ S.z1 →
      p ≠ addr S.syo S.szo x y z) → restrictSub S vi vo p = vo p := by
  have mem : ∀ t : ℤ × ℤ × ℤ, t ∈ ((irange S.z0 S.z1).flatMap fun k => (irange S.y0 S.y1).flatMap
      fun j => (irange S.x0 S.x1).map fun i => (i, j, k)) ↔
      (S.x0 ≤ t.1 ∧ t.1 ≤ S.x1) ∧ (S.y0 ≤ t.2.1 ∧ t.2.1 ≤ S.y1) ∧ (S.z0 ≤ t.2.2 ∧ t.2.2 ≤ S.z1) := by
    rintro ⟨x, y, z⟩
    simp only [List.mem_flatMap, List.mem_map, mem_irange, Prod.mk.injEq]
    constructor
    · rintro ⟨k, hk, j, hj, i, hi, rfl, rfl, rfl⟩
      exact ⟨hi, hj, hk⟩
    · rintro ⟨hi, hj, hk⟩
      exact ⟨z, hk, y, hj, x, hi, rfl, rfl, rfl⟩
  -- the strides separate the points
  have inj1 : ∀ (s d e : ℤ), |d| < s → d + e * s = 0 → d = 0 ∧ e = 0 := by
    intro s d e hd h
    have he : e = 0 := by
      by_contra hne
      have h1 : 1 ≤ |e| := Int.one_le_abs hne
      have h2 : |e * s| = |e| * |s| := abs_mul e s
      have h3 : |d| = |e * s| := by
        rw [show d = -(e * s) by linarith, abs_neg]
      have h4 : s ≤ |s| := le_abs_self s
      have h5 : 0 ≤ |d| := abs_nonneg d
      nlinarith
    subst he
    exact ⟨by linarith, rfl⟩
  have inj : ∀ x y z x' y' z' : ℤ, S.x0 ≤ x → x ≤ S.x1 → S.y0 ≤ y → y ≤ S.y1 → S.x0 ≤ x' →
      x' ≤ S.x1 → S.y0 ≤ y' → y' ≤ S.y1 → z * S.szo + y * S.syo + x = z' * S.szo + y' * S.syo + x' →
      x = x' ∧ y = y' ∧ z = z' := by
    intro x y z x' y' z' a1 a2 a3 a4 b1 b2 b3 b4 h
    have hs : 0 < S.syo := by linarith
    have hd : |(x - x') + (y - y') * S.syo| < S.szo := by
      rw [abs_lt]
      constructor <;> nlinarith
    obtain ⟨h1, h2⟩ := inj1 S.szo ((x - x') + (y - y') * S.syo) (z - z') hd (by linarith)
    obtain ⟨h3, h4⟩ := inj1 S.syo (x - x') (y - y') (by rw [abs_lt]; constructor <;> linarith) h1
    exact ⟨by linarith, by linarith, by linarith⟩
  constructor
  · intro x y z h1 h2 h3 h4 h5 h6
    have := fill_at (idx := fun t : ℤ × ℤ × ℤ => t.2.2 * S.szo + t.2.1 * S.syo + t.1)
      (val := fun t => vi ((t.2.2 + (S.zi - S.z0)) * S.szi + (t.2.1 + (S.yi - S.y0)) * S.syi +
        (t.1 + (S.xi - S.x0)))) (m := vo) (t := (x, y, z)) ((mem _).2 ⟨⟨h1, h2⟩, ⟨h3, h4⟩, h5, h6⟩) (by
        rintro ⟨x', y', z'⟩ ht he
        obtain ⟨⟨c1, c2⟩, ⟨c3, c4⟩, -⟩ := (mem _).1 ht
        obtain ⟨rfl, rfl, rfl⟩ := inj _ _ _ _ _ _ c1 c2 c3 c4 h1 h2 h3 h4 he
        rfl)
    refine this.trans ?_
    dsimp only [addr]
    congr 1
    ring
  · intro p hp
    refine fill_other ?_
    rintro ⟨x, y, z⟩ ht
    obtain ⟨⟨c1, c2⟩, ⟨c3, c4⟩, c5, c6⟩ := (mem _).1 ht
    exact (hp x y z c1 c2 c3 c4 c5 c6).symm

/-- A `2 × 2` corner of a `3 × 3` sheet written into a `4 × 4` sheet. -/
example : restrictSub ⟨4, 3, 16, 9, 1, 2, 1, 2, 0, 0, 1, 1, 0⟩ (fun p : ℤ => p + 100) (fun _ => 0)
    (addr 4 16 2 2 0) = 100 + addr 3 9 2 2 0 := by
  rw [(restrict_spec ⟨4, 3, 16, 9, 1, 2, 1, 2, 0, 0, 1, 1, 0⟩ (fun p : ℤ => p + 100) (fun _ => 0)
    (by decide) (by decide)).1 2 2 0] <;> decide

end Sparc.Grid

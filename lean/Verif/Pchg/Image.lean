import Verif.Pchg.Lemmas
import Mathlib.Algebra.BigOperators.Group.Finset.Basic
import Mathlib.Algebra.BigOperators.Group.List.Basic

/-!
# Pseudocharge densities: the effect of one image
-/

namespace Sparc.Pchg

open Loop Lap Finset

/-- Place of a node in the arrays of the process. -/
def place (G : Infl.Geo) (n : ℤ × ℤ × ℤ) : ℤ :=
  (n.2.2 - G.Z.lo) * ((G.X.hi - G.X.lo + 1) * (G.Y.hi - G.Y.lo + 1))
    + (n.2.1 - G.Y.lo) * (G.X.hi - G.X.lo + 1) + (n.1 - G.X.lo)

theorem place_inj {G : Infl.Geo} {n n' : ℤ × ℤ × ℤ} (hn : n ∈ Infl.domain G)
    (hn' : n' ∈ Infl.domain G) (h : place G n = place G n') : n = n' := by
  obtain ⟨i, j, k⟩ := n
  obtain ⟨i', j', k'⟩ := n'
  simp only [Infl.domain, mem_product, mem_Icc] at hn hn'
  obtain ⟨⟨a1, a2⟩, ⟨b1, b2⟩, c1, c2⟩ := hn
  obtain ⟨⟨a3, a4⟩, ⟨b3, b4⟩, c3, c4⟩ := hn'
  obtain ⟨A, hA⟩ := Int.eq_ofNat_of_zero_le (show 0 ≤ G.X.hi - G.X.lo + 1 by omega)
  obtain ⟨B, hB⟩ := Int.eq_ofNat_of_zero_le (show 0 ≤ G.Y.hi - G.Y.lo + 1 by omega)
  obtain ⟨x, hx⟩ := Int.eq_ofNat_of_zero_le (show 0 ≤ i - G.X.lo by omega)
  obtain ⟨y, hy⟩ := Int.eq_ofNat_of_zero_le (show 0 ≤ j - G.Y.lo by omega)
  obtain ⟨z, hz⟩ := Int.eq_ofNat_of_zero_le (show 0 ≤ k - G.Z.lo by omega)
  obtain ⟨x', hx'⟩ := Int.eq_ofNat_of_zero_le (show 0 ≤ i' - G.X.lo by omega)
  obtain ⟨y', hy'⟩ := Int.eq_ofNat_of_zero_le (show 0 ≤ j' - G.Y.lo by omega)
  obtain ⟨z', hz'⟩ := Int.eq_ofNat_of_zero_le (show 0 ≤ k' - G.Z.lo by omega)
  unfold place at h
  simp only [hA, hB, hx, hy, hz, hx', hy', hz'] at h
  have e : x + y * A + z * (A * B) = x' + y' * A + z' * (A * B) := by
    zify
    linarith
  obtain ⟨e1, e2, e3⟩ := flat3_inj (nx := A) (ny := B) (by omega) (by omega) (by omega) (by omega) e
  simp only [Prod.mk.injEq]
  omega

theorem nodup_box (a b c : ℕ) : (box a b c).Nodup := by
  unfold box
  rw [List.nodup_flatMap]
  refine ⟨fun k _ => ?_, ?_⟩
  · rw [List.nodup_flatMap]
    refine ⟨fun j _ => ?_, ?_⟩
    · exact List.nodup_range.map fun x y h => by simpa using h
    · refine List.nodup_range.imp ?_
      intro j j' hne
      simp only [Function.onFun, List.disjoint_left, List.mem_map]
      rintro t ⟨i, -, rfl⟩ ⟨i', -, h⟩
      simp only [Prod.mk.injEq] at h
      exact hne h.2.1.symm
  · refine List.nodup_range.imp ?_
    intro k k' hne
    simp only [Function.onFun, List.disjoint_left, List.mem_flatMap, List.mem_map]
    rintro t ⟨j, -, i, -, rfl⟩ ⟨j', -, i', -, h⟩
    simp only [Prod.mk.injEq] at h
    exact hne h.2.2.symm

theorem fold_add {τ : Type} (get : St → Mem) (step : St → τ → St) (idx : τ → ℤ) (val : τ → ℝ)
    (l : List τ) (h : ∀ s, ∀ t ∈ l, get (step s t) = add (get s) (idx t) (val t)) (s : St) (q : ℤ) :
    get (l.foldl step s) q = get s q + (l.map fun t => if idx t = q then val t else 0).sum := by
  induction l generalizing s with
  | nil => simp
  | cons a l ih =>
    rw [List.foldl_cons, ih fun s t ht => h s t (List.mem_cons_of_mem _ ht),
      h s a List.mem_cons_self, List.map_cons, List.sum_cons]
    unfold add
    by_cases e : idx a = q
    · rw [if_pos e, e, Function.update_self]; ring
    · rw [if_neg e, Function.update_of_ne (Ne.symm e)]; ring

theorem fold_keep {τ α : Type} (get : St → α) (step : St → τ → St) (l : List τ)
    (h : ∀ s, ∀ t ∈ l, get (step s t) = get s) (s : St) : get (l.foldl step s) = get s := by
  induction l generalizing s with
  | nil => rfl
  | cons a l ih =>
    rw [List.foldl_cons, ih fun s t ht => h s t (List.mem_cons_of_mem _ ht), h s a List.mem_cons_self]

theorem fold_sub {τ : Type} (get : St → ℝ) (step : St → τ → St) (val : τ → ℝ) (l : List τ)
    (h : ∀ s, ∀ t ∈ l, get (step s t) = get s - val t) (s : St) :
    get (l.foldl step s) = get s - (l.map val).sum := by
  induction l generalizing s with
  | nil => simp
  | cons a l ih =>
    rw [List.foldl_cons, ih fun s t ht => h s t (List.mem_cons_of_mem _ ht), h s a List.mem_cons_self,
      List.map_cons, List.sum_cons]
    ring

theorem sum_one {τ : Type} (idx : τ → ℤ) (val : τ → ℝ) (q : ℤ) (t0 : τ) (l : List τ)
    (hl : l.Nodup) (h0 : t0 ∈ l) (hq : idx t0 = q) (hu : ∀ t ∈ l, idx t = q → t = t0) :
    (l.map fun t => if idx t = q then val t else 0).sum = val t0 := by
  induction l with
  | nil => cases h0
  | cons a l ih =>
    rw [List.map_cons, List.sum_cons]
    rw [List.nodup_cons] at hl
    by_cases e : a = t0
    · have hz : ∀ t ∈ l, (if idx t = q then val t else 0) = 0 := by
        intro t ht
        refine if_neg fun h => ?_
        have := hu t (List.mem_cons_of_mem _ ht) h
        rw [this, ← e] at ht
        exact hl.1 ht
      rw [List.sum_eq_zero (by simpa using hz), e, if_pos hq, add_zero]
    · have hm : t0 ∈ l := by
        rcases List.mem_cons.1 h0 with h | h
        · exact absurd h.symm e
        · exact h
      have hn : ¬ idx a = q := fun h => e (hu a List.mem_cons_self h)
      rw [if_neg hn, zero_add, ih hl.2 hm fun t ht => hu t (List.mem_cons_of_mem _ ht)]

/-- The index ranges of a record lie in the process. -/
structure Good (G : Infl.Geo) (R : Infl.Rec) : Prop where
  x : G.X.lo ≤ R.xs ∧ R.xe ≤ G.X.hi ∧ 0 ≤ R.xe - R.xs + 1
  y : G.Y.lo ≤ R.ys ∧ R.ye ≤ G.Y.hi ∧ 0 ≤ R.ye - R.ys + 1
  z : G.Z.lo ≤ R.zs ∧ R.ze ≤ G.Z.hi ∧ 0 ≤ R.ze - R.zs + 1

/-- The node visited by a turn of the loops over the box of a record. -/
def node (R : Infl.Rec) (t : ℕ × ℕ × ℕ) : ℤ × ℤ × ℤ := (t.1 + R.xs, t.2.1 + R.ys, t.2.2 + R.zs)

theorem node_inj (R : Infl.Rec) {t t' : ℕ × ℕ × ℕ} (h : node R t = node R t') : t = t' := by
  obtain ⟨i, j, k⟩ := t
  obtain ⟨i', j', k'⟩ := t'
  simp only [node, Prod.mk.injEq] at h
  simp only [Prod.mk.injEq]
  omega

section
variable {G : Infl.Geo} {R : Infl.Rec} (hR : Good G R) {a b c : ℕ} (ha : R.xe - R.xs + 1 = a)
  (hb : R.ye - R.ys + 1 = b) (hc : R.ze - R.zs + 1 = c)
include hR ha hb hc

theorem node_mem {t : ℕ × ℕ × ℕ} (ht : t ∈ box a b c) :
    node R t ∈ Infl.domain G ∧ Infl.InRec R (node R t) := by
  rw [mem_box] at ht
  obtain ⟨x1, x2, x3⟩ := hR.x
  obtain ⟨y1, y2, y3⟩ := hR.y
  obtain ⟨z1, z2, z3⟩ := hR.z
  simp only [Infl.domain, mem_product, mem_Icc, node, Infl.InRec]
  omega

omit hR in
theorem node_surj {n : ℤ × ℤ × ℤ} (hn : Infl.InRec R n) : ∃ t ∈ box a b c, node R t = n := by
  obtain ⟨⟨x1, x2⟩, ⟨y1, y2⟩, z1, z2⟩ := hn
  refine ⟨((n.1 - R.xs).toNat, (n.2.1 - R.ys).toNat, (n.2.2 - R.zs).toNat), ?_, ?_⟩
  · rw [mem_box]
    simp only
    omega
  · obtain ⟨i, j, k⟩ := n
    simp only [node, Prod.mk.injEq] at *
    omega

open Classical in
theorem box_sum (val : ℕ × ℕ × ℕ → ℝ) (F : ℤ × ℤ × ℤ → ℝ) (idx : ℕ × ℕ × ℕ → ℤ)
    (hidx : ∀ t, idx t = place G (node R t)) (hval : ∀ t ∈ box a b c, val t = F (node R t))
    {n : ℤ × ℤ × ℤ} (hn : n ∈ Infl.domain G) :
    ((box a b c).map fun t => if idx t = place G n then val t else 0).sum =
      if Infl.InRec R n then F n else 0 := by
  by_cases h : Infl.InRec R n
  · rw [if_pos h]
    obtain ⟨t0, ht0, hn0⟩ := node_surj ha hb hc h
    rw [sum_one idx val (place G n) t0 _ (nodup_box a b c) ht0 (by rw [hidx, hn0]) ?_,
      hval t0 ht0, hn0]
    intro t ht he
    rw [hidx] at he
    have := place_inj (node_mem hR ha hb hc ht).1 hn he
    exact node_inj R (this.trans hn0.symm)
  · rw [if_neg h]
    refine List.sum_eq_zero ?_
    simp only [List.mem_map, forall_exists_index, and_imp, forall_apply_eq_imp_iff₂]
    intro t ht
    refine if_neg fun he => h ?_
    rw [hidx] at he
    have := node_mem hR ha hb hc ht
    rw [← place_inj this.1 hn he]
    exact this.2

open Classical in
theorem box_total (F : ℤ × ℤ × ℤ → ℝ) :
    ((box a b c).map fun t => F (node R t)).sum =
      ∑ n ∈ Infl.domain G, if Infl.InRec R n then F n else 0 := by
  rw [← List.sum_toFinset _ (nodup_box a b c), ← Finset.sum_filter]
  refine Finset.sum_bij (fun t _ => node R t) ?_ ?_ ?_ ?_
  · intro t ht
    rw [List.mem_toFinset] at ht
    rw [Finset.mem_filter]
    exact node_mem hR ha hb hc ht
  · intro t _ t' _ h
    exact node_inj R h
  · intro n hn
    rw [Finset.mem_filter] at hn
    obtain ⟨t, ht, e⟩ := node_surj ha hb hc hn.2
    exact ⟨t, List.mem_toFinset.2 ht, e⟩
  · intro t _
    rfl

end

/-- A function of the distance from `p` on the grid. -/
noncomputable def field (G : Infl.Geo) (dist : ℝ × ℝ × ℝ → ℝ × ℝ × ℝ → ℝ) (f : ℝ → ℝ) (p : ℝ × ℝ × ℝ) : Fun3 :=
  fun i j k => f (dist (pt G (i, j, k)) p)

/-- The spacings. -/
noncomputable def spacing (G : Infl.Geo) : Fin 3 → ℝ := ![G.X.h, G.Y.h, G.Z.h]

theorem densStep_keep (E : Env) (G : Infl.Geo) (S : Spec) (R : Infl.Rec) (rho rhoc : Mem)
    (p : ℕ × ℕ × ℕ → ℤ) (s : St) (t : ℕ × ℕ × ℕ) :
    (densStep E G S R rho rhoc p s t).b = s.b ∧ (densStep E G S R rho rhoc p s t).bref = s.bref ∧
    (densStep E G S R rho rhoc p s t).Vc = s.Vc ∧ (densStep E G S R rho rhoc p s t).Esc = s.Esc := by
  unfold densStep
  dsimp only
  split_ifs <;> exact ⟨rfl, rfl, rfl, rfl⟩

theorem add_zero' (m : Mem) (q : ℤ) : add m q 0 = m := by
  unfold add
  rw [add_zero, Function.update_eq_self]

theorem densStep_add (E : Env) {G : Infl.Geo} (S : Spec) {R : Infl.Rec} (hR : Good G R) {a b c : ℕ}
    (ha : R.xe - R.xs + 1 = a) (hb : R.ye - R.ys + 1 = b) (hc : R.ze - R.zs + 1 = c)
    (rho rhoc : Mem) (p : ℕ × ℕ × ℕ → ℤ) (s : St) {t : ℕ × ℕ × ℕ} (ht : t ∈ box a b c) :
    (densStep E G S R rho rhoc p s t).at_ = add s.at_ (place G (node R t)) (rho (p t)) ∧
    (densStep E G S R rho rhoc p s t).core = add s.core (place G (node R t)) (rhoc (p t)) ∧
    (densStep E G S R rho rhoc p s t).magx = add s.magx (place G (node R t))
      (if E.spin = 2 then R.spin.1 / S.Z * rho (p t) else 0) ∧
    (densStep E G S R rho rhoc p s t).magy = add s.magy (place G (node R t))
      (if E.spin = 2 then R.spin.2.1 / S.Z * rho (p t) else 0) ∧
    (densStep E G S R rho rhoc p s t).magz = add s.magz (place G (node R t))
      (if E.spin = 1 ∨ E.spin = 2 then R.spin.2.2 / S.Z * rho (p t) else 0) := by
  rw [mem_box] at ht
  obtain ⟨x1, x2, x3⟩ := hR.x
  obtain ⟨y1, y2, y3⟩ := hR.y
  obtain ⟨z1, z2, z3⟩ := hR.z
  unfold densStep
  dsimp only
  rw [if_neg (by omega), if_neg (by omega), if_neg (by omega)]
  by_cases h1 : E.spin = 1
  · have h2 : ¬ E.spin = 2 := by omega
    rw [if_pos h1, if_neg h2, if_neg h2, if_pos (Or.inl h1), add_zero', add_zero']
    exact ⟨rfl, rfl, rfl, rfl, rfl⟩
  · by_cases h2 : E.spin = 2
    · rw [if_neg h1, if_pos h2, if_pos h2, if_pos h2, if_pos (Or.inr h2)]
      exact ⟨rfl, rfl, rfl, rfl, rfl⟩
    · rw [if_neg h1, if_neg h2, if_neg h2, if_neg h2, if_neg (by tauto), add_zero', add_zero',
        add_zero']
      exact ⟨rfl, rfl, rfl, rfl, rfl⟩

theorem chgStep_keep (G : Infl.Geo) (R : Infl.Rec) (nx ny : ℤ) (bJ bJref VJ VJref : Mem)
    (p : ℕ × ℕ × ℕ → ℤ) (s : St) (t : ℕ × ℕ × ℕ) :
    (chgStep G R nx ny bJ bJref VJ VJref p s t).at_ = s.at_ ∧
    (chgStep G R nx ny bJ bJref VJ VJref p s t).core = s.core ∧
    (chgStep G R nx ny bJ bJref VJ VJref p s t).magx = s.magx ∧
    (chgStep G R nx ny bJ bJref VJ VJref p s t).magy = s.magy ∧
    (chgStep G R nx ny bJ bJref VJ VJref p s t).magz = s.magz := ⟨rfl, rfl, rfl, rfl, rfl⟩

open Classical in
/-- One image adds its contribution at the nodes of its box and nowhere else. -/
theorem image_spec {E : Env} {G : Infl.Geo} {dist : ℝ × ℝ × ℝ → ℝ × ℝ × ℝ → ℝ}
    {op : Fun3 → Fun3} (hC : Cell E (spacing G) dist op) (S : Spec) (s : St) {R : Infl.Rec}
    (hR : Good G R) : ∃ s', image E G S s R = some s' ∧
      (∀ n ∈ Infl.domain G,
        s'.b (place G n) = s.b (place G n) + (if Infl.InRec R n then
          -inv4pi * op (field G dist (vj S) (R.x, R.y, R.z)) n.1 n.2.1 n.2.2 else 0) ∧
        s'.bref (place G n) = s.bref (place G n) + (if Infl.InRec R n then
          -inv4pi * op (field G dist (vref E.rcut (-S.Z)) (R.x, R.y, R.z)) n.1 n.2.1 n.2.2 else 0) ∧
        s'.Vc (place G n) = s.Vc (place G n) + (if Infl.InRec R n then
          vref E.rcut (-S.Z) (dist (pt G n) (R.x, R.y, R.z)) - vj S (dist (pt G n) (R.x, R.y, R.z))
          else 0) ∧
        s'.at_ (place G n) = s.at_ (place G n) + (if Infl.InRec R n then
          rhoj S (dist (pt G n) (R.x, R.y, R.z)) else 0) ∧
        s'.core (place G n) = s.core (place G n) + (if Infl.InRec R n then
          rhocj S (dist (pt G n) (R.x, R.y, R.z)) else 0) ∧
        s'.magx (place G n) = s.magx (place G n) + (if Infl.InRec R n then
          if E.spin = 2 then R.spin.1 / S.Z * rhoj S (dist (pt G n) (R.x, R.y, R.z)) else 0
          else 0) ∧
        s'.magy (place G n) = s.magy (place G n) + (if Infl.InRec R n then
          if E.spin = 2 then R.spin.2.1 / S.Z * rhoj S (dist (pt G n) (R.x, R.y, R.z)) else 0
          else 0) ∧
        s'.magz (place G n) = s.magz (place G n) + (if Infl.InRec R n then
          if E.spin = 1 ∨ E.spin = 2 then
            R.spin.2.2 / S.Z * rhoj S (dist (pt G n) (R.x, R.y, R.z)) else 0 else 0)) ∧
      s'.Esc = s.Esc - ∑ n ∈ Infl.domain G, if Infl.InRec R n then
        -inv4pi * op (field G dist (vref E.rcut (-S.Z)) (R.x, R.y, R.z)) n.1 n.2.1 n.2.2
          * vref E.rcut (-S.Z) (dist (pt G n) (R.x, R.y, R.z)) else 0 := by
  obtain ⟨x1, x2, x3⟩ := hR.x
  obtain ⟨y1, y2, y3⟩ := hR.y
  obtain ⟨z1, z2, z3⟩ := hR.z
  obtain ⟨a, ha⟩ := Int.eq_ofNat_of_zero_le x3
  obtain ⟨b, hb⟩ := Int.eq_ofNat_of_zero_le y3
  obtain ⟨c, hc⟩ := Int.eq_ofNat_of_zero_le z3
  -- tables
  have tab : ∀ (f : ℝ → ℝ) (i j k : ℤ), -E.FDn ≤ i → i < a + E.FDn → -E.FDn ≤ j → j < b + E.FDn →
      -E.FDn ≤ k → k < c + E.FDn →
      pointwise (((a : ℤ) + 2 * E.FDn) * (b + 2 * E.FDn) * (c + 2 * E.FDn)) f
        (dists E G.X.h G.Y.h G.Z.h R (a + 2 * E.FDn) (b + 2 * E.FDn) (c + 2 * E.FDn)) E.J
        ((k + E.FDn) * (((a : ℤ) + 2 * E.FDn) * (b + 2 * E.FDn)) +
          (j + E.FDn) * (a + 2 * E.FDn) + (i + E.FDn)) =
      move R.xs R.ys R.zs (field G dist f (R.x, R.y, R.z)) i j k := by
    intro f i j k i1 i2 j1 j2 k1 k2
    have := table_at (G := G) hC R f (a + 2 * E.FDn) (b + 2 * E.FDn) (c + 2 * E.FDn) E.J
      (i := i + E.FDn) (j := j + E.FDn) (k := k + E.FDn) (by omega) (by push_cast; omega) (by omega)
      (by push_cast; omega) (by omega) (by push_cast; omega)
    push_cast at this
    rw [this]
    unfold move field
    rw [show i + (E.FDn : ℤ) + R.xs - E.FDn = i + R.xs by ring,
      show j + (E.FDn : ℤ) + R.ys - E.FDn = j + R.ys by ring,
      show k + (E.FDn : ℤ) + R.zs - E.FDn = k + R.zs by ring]
  obtain ⟨m1, hm1, hm1'⟩ := calcLapV_at hC _ E.J E.J E.J
    (move R.xs R.ys R.zs (field G dist (vj S) (R.x, R.y, R.z))) a b c (tab (vj S))
  obtain ⟨m2, hm2, hm2'⟩ := calcLapV_at hC _ E.J E.J E.J
    (move R.xs R.ys R.zs (field G dist (vref E.rcut (-S.Z)) (R.x, R.y, R.z))) a b c
    (tab (vref E.rcut (-S.Z)))
  rw [hC.shift] at hm1' hm2'
  have inner : ∀ (f : ℝ → ℝ) (t : ℕ × ℕ × ℕ), t ∈ box a b c →
      pointwise (((a : ℤ) + 2 * E.FDn) * (b + 2 * E.FDn) * (c + 2 * E.FDn)) f
        (dists E G.X.h G.Y.h G.Z.h R (a + 2 * E.FDn) (b + 2 * E.FDn) (c + 2 * E.FDn)) E.J
        ((t.2.2 + E.FDn) * (((a : ℤ) + 2 * E.FDn) * (b + 2 * E.FDn)) +
          (t.2.1 + E.FDn) * (a + 2 * E.FDn) + (t.1 + E.FDn)) =
      f (dist (pt G (node R t)) (R.x, R.y, R.z)) := by
    intro f t ht
    rw [mem_box] at ht
    rw [tab f t.1 t.2.1 t.2.2 (by omega) (by omega) (by omega) (by omega) (by omega) (by omega)]
    rfl
  have lapAt : ∀ (m : Mem) (u : Fun3), (∀ i j k : ℕ, i < a → j < b → k < c →
      m ((k : ℤ) * ((a : ℤ) * b) + j * a + i) = -inv4pi * move R.xs R.ys R.zs u i j k) →
      ∀ t ∈ box a b c, m ((t.2.2 : ℤ) * ((a : ℤ) * b) + t.2.1 * a + t.1) =
        -inv4pi * u (node R t).1 (node R t).2.1 (node R t).2.2 := by
    intro m u hm t ht
    rw [mem_box] at ht
    exact hm t.1 t.2.1 t.2.2 ht.1 ht.2.1 ht.2.2
  have hidx : ∀ t : ℕ × ℕ × ℕ, (t.2.2 + R.zs - G.Z.lo) * ((G.X.hi - G.X.lo + 1) *
      (G.Y.hi - G.Y.lo + 1)) + (t.2.1 + R.ys - G.Y.lo) * (G.X.hi - G.X.lo + 1) +
      (t.1 + R.xs - G.X.lo) = place G (node R t) := fun t => rfl
  have hidx2 : ∀ t : ℕ × ℕ × ℕ, ((t.2.2 : ℤ) + (R.zs - G.Z.lo)) * (G.X.hi - G.X.lo + 1) *
      (G.Y.hi - G.Y.lo + 1) + (t.2.1 + (R.ys - G.Y.lo)) * (G.X.hi - G.X.lo + 1) +
      (t.1 + (R.xs - G.X.lo)) = place G (node R t) := fun t => by
    unfold place node
    ring
  unfold image
  simp only [ha, hb, hc, Int.toNat_natCast]
  erw [hm1, hm2]
  simp only [Option.bind_some]
  refine ⟨_, rfl, ?_, ?_⟩
  · intro n hn
    refine ⟨?_, ?_, ?_, ?_, ?_, ?_, ?_, ?_⟩
    · rw [fold_add St.b _ _ _ _ (fun s t _ => rfl), box_sum hR ha hb hc _
        (fun n => -inv4pi * op (field G dist (vj S) (R.x, R.y, R.z)) n.1 n.2.1 n.2.2) _ hidx2
        (lapAt m1 _ hm1') hn, fold_keep St.b _ _ (fun s t _ => (densStep_keep ..).1)]
    · rw [fold_add St.bref _ _ _ _ (fun s t _ => rfl), box_sum hR ha hb hc _
        (fun n => -inv4pi * op (field G dist (vref E.rcut (-S.Z)) (R.x, R.y, R.z)) n.1 n.2.1 n.2.2)
        _ hidx2 (lapAt m2 _ hm2') hn, fold_keep St.bref _ _ (fun s t _ => (densStep_keep ..).2.1)]
    · rw [fold_add St.Vc _ _ _ _ (fun s t _ => rfl), box_sum hR ha hb hc _
        (fun n => vref E.rcut (-S.Z) (dist (pt G n) (R.x, R.y, R.z))
          - vj S (dist (pt G n) (R.x, R.y, R.z))) _ hidx2
        (fun t ht => by rw [inner _ t ht, inner _ t ht]) hn,
        fold_keep St.Vc _ _ (fun s t _ => (densStep_keep ..).2.2.1)]
    · rw [fold_keep St.at_ _ _ (fun s t _ => (chgStep_keep ..).1), fold_add St.at_ _ _ _ _
        (fun s t ht => (densStep_add E S hR ha hb hc _ _ _ s ht).1),
        box_sum hR ha hb hc _ (fun n => rhoj S (dist (pt G n) (R.x, R.y, R.z))) _ (fun _ => rfl)
        (fun t ht => inner _ t ht) hn]
    · rw [fold_keep St.core _ _ (fun s t _ => (chgStep_keep ..).2.1), fold_add St.core _ _ _ _
        (fun s t ht => (densStep_add E S hR ha hb hc _ _ _ s ht).2.1),
        box_sum hR ha hb hc _ (fun n => rhocj S (dist (pt G n) (R.x, R.y, R.z))) _ (fun _ => rfl)
        (fun t ht => inner _ t ht) hn]
    · rw [fold_keep St.magx _ _ (fun s t _ => (chgStep_keep ..).2.2.1), fold_add St.magx _ _ _ _
        (fun s t ht => (densStep_add E S hR ha hb hc _ _ _ s ht).2.2.1),
        box_sum hR ha hb hc _ (fun n => if E.spin = 2 then
          R.spin.1 / S.Z * rhoj S (dist (pt G n) (R.x, R.y, R.z)) else 0) _ (fun _ => rfl)
        (fun t ht => by rw [inner _ t ht]) hn]
    · rw [fold_keep St.magy _ _ (fun s t _ => (chgStep_keep ..).2.2.2.1), fold_add St.magy _ _ _ _
        (fun s t ht => (densStep_add E S hR ha hb hc _ _ _ s ht).2.2.2.1),
        box_sum hR ha hb hc _ (fun n => if E.spin = 2 then
          R.spin.2.1 / S.Z * rhoj S (dist (pt G n) (R.x, R.y, R.z)) else 0) _ (fun _ => rfl)
        (fun t ht => by rw [inner _ t ht]) hn]
    · rw [fold_keep St.magz _ _ (fun s t _ => (chgStep_keep ..).2.2.2.2), fold_add St.magz _ _ _ _
        (fun s t ht => (densStep_add E S hR ha hb hc _ _ _ s ht).2.2.2.2),
        box_sum hR ha hb hc _ (fun n => if E.spin = 1 ∨ E.spin = 2 then
          R.spin.2.2 / S.Z * rhoj S (dist (pt G n) (R.x, R.y, R.z)) else 0) _ (fun _ => rfl)
        (fun t ht => by rw [inner _ t ht]) hn]
  · rw [fold_sub St.Esc _ _ _ (fun s t _ => rfl),
      fold_keep St.Esc _ _ (fun s t _ => (densStep_keep ..).2.2.2)]
    congr 1
    rw [← box_total hR ha hb hc (fun n =>
      -inv4pi * op (field G dist (vref E.rcut (-S.Z)) (R.x, R.y, R.z)) n.1 n.2.1 n.2.2
          * vref E.rcut (-S.Z) (dist (pt G n) (R.x, R.y, R.z)))]
    congr 1
    refine List.map_congr_left fun t ht => ?_
    rw [lapAt m2 _ hm2' t ht, inner _ t ht]

end Sparc.Pchg

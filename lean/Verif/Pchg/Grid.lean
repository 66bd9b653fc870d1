import Verif.Pchg.Total
import Mathlib.Data.Int.CardIntervalMod

/-!
# Pseudocharge densities: sums over the grid and the processes
-/

namespace Sparc.Pchg

open Loop Lap Finset

/-- `gs` are the shares of the processes in the grid `B`: they have the axes of `B` and every
node of `B` belongs to exactly one of them. -/
structure Split (B : Infl.Geo) (gs : List Infl.Geo) : Prop where
  axes : ∀ g ∈ gs, ∃ x x' y y' z z', g = ⟨{ B.X with lo := x, hi := x' },
    { B.Y with lo := y, hi := y' }, { B.Z with lo := z, hi := z' }⟩
  inside : ∀ g ∈ gs, Infl.domain g ⊆ Infl.domain B
  once : ∀ n ∈ Infl.domain B, ∃! i : Fin gs.length, n ∈ Infl.domain gs[i]

theorem Split.sum {B : Infl.Geo} {gs : List Infl.Geo} (h : Split B gs) (F : ℤ × ℤ × ℤ → ℝ) :
    (gs.map fun g => ∑ n ∈ Infl.domain g, F n).sum = ∑ n ∈ Infl.domain B, F n := by
  have e : (gs.map fun g => ∑ n ∈ Infl.domain g, F n).sum =
      ∑ i : Fin gs.length, ∑ n ∈ Infl.domain gs[i], F n := by
    rw [← List.sum_ofFn]
    congr 1
    refine List.ext_getElem (by simp) fun i h1 h2 => ?_
    simp
  have e2 : ∀ i : Fin gs.length, ∑ n ∈ Infl.domain gs[i], F n =
      ∑ n ∈ Infl.domain B, if n ∈ Infl.domain gs[i] then F n else 0 := by
    intro i
    have hs : Infl.domain gs[i] ⊆ Infl.domain B := h.inside _ (List.getElem_mem i.2)
    rw [← Finset.sum_filter, Finset.filter_mem_eq_inter, Finset.inter_eq_right.2 hs]
  rw [e, Finset.sum_congr rfl fun i _ => e2 i, Finset.sum_comm]
  refine Finset.sum_congr rfl fun n hn => ?_
  obtain ⟨i, hi, hu⟩ := h.once n hn
  rw [Finset.sum_eq_single i (fun j _ hj => if_neg fun hc => hj (hu j hc)) (by simp), if_pos hi]

theorem Split.images {B : Infl.Geo} {gs : List Infl.Geo} (h : Split B gs) {g : Infl.Geo}
    (hg : g ∈ gs) (Ts : List (Spec × Infl.Typ)) (pos : ℕ → ℝ) (n : ℤ × ℤ × ℤ)
    (f : Spec → ℕ → ℝ × ℝ × ℝ → ℝ) : overImages g Ts pos n f = overImages B Ts pos n f := by
  obtain ⟨x, x', y, y', z, z', rfl⟩ := h.axes g hg
  rfl

theorem Split.spacing {B : Infl.Geo} {gs : List Infl.Geo} (h : Split B gs) {g : Infl.Geo}
    (hg : g ∈ gs) : Pchg.spacing g = Pchg.spacing B ∧ (∀ d f p, field g d f p = field B d f p) ∧
      ∀ n, pt g n = pt B n := by
  obtain ⟨x, x', y, y', z, z', rfl⟩ := h.axes g hg
  exact ⟨rfl, fun _ _ _ => rfl, fun _ => rfl⟩

theorem place_bounds {G : Infl.Geo} {n : ℤ × ℤ × ℤ} (hn : n ∈ Infl.domain G) :
    0 ≤ place G n ∧ place G n < nd G := by
  obtain ⟨i, j, k⟩ := n
  simp only [Infl.domain, mem_product, mem_Icc] at hn
  obtain ⟨⟨a1, a2⟩, ⟨b1, b2⟩, c1, c2⟩ := hn
  obtain ⟨A, hA⟩ := Int.eq_ofNat_of_zero_le (show 0 ≤ G.X.hi - G.X.lo + 1 by omega)
  obtain ⟨B, hB⟩ := Int.eq_ofNat_of_zero_le (show 0 ≤ G.Y.hi - G.Y.lo + 1 by omega)
  obtain ⟨C, hC⟩ := Int.eq_ofNat_of_zero_le (show 0 ≤ G.Z.hi - G.Z.lo + 1 by omega)
  obtain ⟨x, hx⟩ := Int.eq_ofNat_of_zero_le (show 0 ≤ i - G.X.lo by omega)
  obtain ⟨y, hy⟩ := Int.eq_ofNat_of_zero_le (show 0 ≤ j - G.Y.lo by omega)
  obtain ⟨z, hz⟩ := Int.eq_ofNat_of_zero_le (show 0 ≤ k - G.Z.lo by omega)
  unfold place nd
  simp only [hA, hB, hC, hx, hy, hz]
  refine ⟨by positivity, ?_⟩
  have := flat3_lt (nx := A) (ny := B) (nz := C) (i := x) (j := y) (k := z) (by omega) (by omega)
    (by omega)
  zify at this
  linarith

theorem card_domain {G : Infl.Geo} (hx : G.X.lo ≤ G.X.hi) (hy : G.Y.lo ≤ G.Y.hi)
    (hz : G.Z.lo ≤ G.Z.hi) : ((Infl.domain G).card : ℤ) = nd G := by
  unfold Infl.domain nd
  rw [card_product, card_product, Int.card_Icc, Int.card_Icc, Int.card_Icc]
  push_cast
  rw [Int.toNat_of_nonneg (by omega), Int.toNat_of_nonneg (by omega), Int.toNat_of_nonneg (by omega)]
  ring

/-- A loop over the memory of a process visits its nodes. -/
theorem total_eq {G : Infl.Geo} (hx : G.X.lo ≤ G.X.hi) (hy : G.Y.lo ≤ G.Y.hi)
    (hz : G.Z.lo ≤ G.Z.hi) (f : ℤ → ℝ) (init : ℝ) :
    total G f init = init + ∑ n ∈ Infl.domain G, f (place G n) := by
  have h1 : ∀ (l : List ℕ) (acc : ℝ), l.foldl (fun acc (i : ℕ) => acc + f i) acc =
      acc + (l.map fun i : ℕ => f i).sum := by
    intro l
    induction l with
    | nil => intro acc; simp
    | cons a l ih =>
      intro acc
      rw [List.foldl_cons, ih, List.map_cons, List.sum_cons]
      ring
  unfold total
  rw [h1]
  congr 1
  have h2 : ((List.range (nd G).toNat).map fun i : ℕ => f i).sum =
      ∑ i ∈ Finset.range (nd G).toNat, f i := rfl
  have h3 : (Infl.domain G).image (fun n => (place G n).toNat) = Finset.range (nd G).toNat := by
    refine Finset.eq_of_subset_of_card_le ?_ ?_
    · intro q hq
      rw [Finset.mem_image] at hq
      obtain ⟨n, hn, rfl⟩ := hq
      have := place_bounds hn
      rw [Finset.mem_range]
      omega
    · rw [Finset.card_range, Finset.card_image_of_injOn, ← card_domain hx hy hz]
      · simp
      · intro n hn n' hn' h
        have a := place_bounds hn
        have b := place_bounds hn'
        have h : (place G n).toNat = (place G n').toNat := h
        exact place_inj hn hn' (by omega)
  rw [h2, ← h3, Finset.sum_image]
  · refine Finset.sum_congr rfl fun n hn => ?_
    rw [Int.toNat_of_nonneg (place_bounds hn).1]
  · intro n hn n' hn' h
    have a := place_bounds hn
    have b := place_bounds hn'
    have h : (place G n).toNat = (place G n').toNat := h
    exact place_inj hn hn' (by omega)

end Sparc.Pchg

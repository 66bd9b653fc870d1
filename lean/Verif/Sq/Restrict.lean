import Verif.Sq.Hsub

/-! # Spectral quadrature: projectors of a node -/

namespace Sparc.Sq

open Finset Lap Loop

theorem decodePR_flat (S : Sizes) {a b c : ℕ} (ha : a < S.px) (hb : b < S.py) :
    decodePR S (a + b * S.px + c * (S.px * S.py)) = (a, b, c) := by
  obtain ⟨d1, d2, d3⟩ := decode_node (K := c) ha hb
  unfold decodePR
  simp only [d1, d2, d3]

theorem decodeDM_flat (S : Sizes) {I J K : ℕ} (hI : I < S.DMnx) (hJ : J < S.DMny) :
    decodeDM S (I + J * S.DMnx + K * (S.DMnx * S.DMny)) = (I, J, K) := by
  obtain ⟨d1, d2, d3⟩ := decode_node (K := K) hI hJ
  unfold decodeDM
  simp only [d1, d2, d3]

/-- Every index is the flat index of its decoded triple. -/
theorem flat_of (S : Sizes) (hx : 0 < S.px) (hy : 0 < S.py) (g : ℕ) :
    ∃ a b c, a < S.px ∧ b < S.py ∧ g = a + b * S.px + c * (S.px * S.py) := by
  refine ⟨g % S.px, g / S.px % S.py, g / S.px / S.py, Nat.mod_lt _ hx, Nat.mod_lt _ hy, ?_⟩
  have h1 := Nat.div_add_mod g S.px
  have h2 := Nat.div_add_mod (g / S.px) S.py
  calc g = S.px * (g / S.px) + g % S.px := h1.symm
    _ = S.px * (S.py * (g / S.px / S.py) + g / S.px % S.py) + g % S.px := by rw [h2]
    _ = _ := by ring

/-- `rcut` of the loop. -/
noncomputable def rc (S : Sizes) (dx dy dz : ℝ) : ℝ :=
  max (max (S.nloc0 * dx) (S.nloc1 * dy)) (S.nloc2 * dz)

theorem keep_iff (S : Sizes) (dx dy dz : ℝ) {I J K a b c : ℕ} (hI : I < S.DMnx) (hJ : J < S.DMny)
    (ha : a < S.px) (hb : b < S.py) :
    keep S dx dy dz (I + J * S.DMnx + K * (S.DMnx * S.DMny)) (a + b * S.px + c * (S.px * S.py)) ↔
      (((a : ℝ) - I - S.nloc0) * dx) ^ 2 + (((b : ℝ) - J - S.nloc1) * dy) ^ 2
        + (((c : ℝ) - K - S.nloc2) * dz) ^ 2 ≤ rc S dx dy dz ^ 2 := by
  unfold keep rc
  simp only [decodePR_flat S ha hb, decodeDM_flat S hI hJ]
  push_cast
  rw [not_lt, ← pow_two]
  simp only [sub_sub]

theorem off_bound {x y z R d : ℝ} {n m : ℕ} {k : ℤ} (hd : 0 < d) (hx : x = k * d)
    (h : x ^ 2 + y ^ 2 + z ^ 2 ≤ R ^ 2) (hR : 0 ≤ R) (hn : R < (n + 1) * d) (hm : m = n) :
    -(m : ℤ) ≤ k ∧ k ≤ m := by
  subst hm
  have h1 : |x| ≤ R := abs_le_of_sq_le_sq (by nlinarith [sq_nonneg y, sq_nonneg z]) hR
  have h2 : |(k : ℝ)| < m + 1 := by
    have : |x| = |(k : ℝ)| * d := by rw [hx, abs_mul, abs_of_pos hd]
    rw [this] at h1
    exact lt_of_mul_lt_mul_right (h1.trans_lt hn) hd.le
  obtain ⟨h3, h4⟩ := abs_lt.1 h2
  constructor
  · have : -((m : ℤ) + 1) < k := by exact_mod_cast h3
    omega
  · have : k < (m : ℤ) + 1 := by exact_mod_cast h4
    omega

/-- The condition on the mesh spacings. -/
def Even (S : Sizes) (dx dy dz : ℝ) : Prop :=
  0 < dx ∧ 0 < dy ∧ 0 < dz ∧ rc S dx dy dz < (S.nloc0 + 1) * dx ∧ rc S dx dy dz < (S.nloc1 + 1) * dy ∧
    rc S dx dy dz < (S.nloc2 + 1) * dz

theorem keep_box (S : Sizes) {dx dy dz : ℝ} (hE : Even S dx dy dz) {I J K a b c : ℕ} (hI : I < S.DMnx)
    (hJ : J < S.DMny) (ha : a < S.px) (hb : b < S.py)
    (hk : keep S dx dy dz (I + J * S.DMnx + K * (S.DMnx * S.DMny)) (a + b * S.px + c * (S.px * S.py))) :
    (I ≤ a ∧ a < I + S.nx) ∧ (J ≤ b ∧ b < J + S.ny) ∧ (K ≤ c ∧ c < K + S.nz) := by
  rw [keep_iff S dx dy dz hI hJ ha hb] at hk
  obtain ⟨hx, hy, hz, h1, h2, h3⟩ := hE
  have hR : 0 ≤ rc S dx dy dz := by
    unfold rc
    exact le_max_of_le_right (by positivity)
  have e1 := off_bound (n := S.nloc0) (m := S.nloc0) (k := (a : ℤ) - I - S.nloc0) hx (by push_cast; rfl)
    hk hR h1 rfl
  have e2 := off_bound (n := S.nloc1) (m := S.nloc1) (k := (b : ℤ) - J - S.nloc1) hy (by push_cast; rfl)
    (by linarith : (((b : ℝ) - J - S.nloc1) * dy) ^ 2 + (((a : ℝ) - I - S.nloc0) * dx) ^ 2
        + (((c : ℝ) - K - S.nloc2) * dz) ^ 2 ≤ rc S dx dy dz ^ 2) hR h2 rfl
  have e3 := off_bound (n := S.nloc2) (m := S.nloc2) (k := (c : ℤ) - K - S.nloc2) hz (by push_cast; rfl)
    (by linarith : (((c : ℝ) - K - S.nloc2) * dz) ^ 2 + (((a : ℝ) - I - S.nloc0) * dx) ^ 2
        + (((b : ℝ) - J - S.nloc1) * dy) ^ 2 ≤ rc S dx dy dz ^ 2) hR h3 rfl
  unfold Sizes.nx Sizes.ny Sizes.nz
  omega

theorem nodePos_flat (S : Sizes) {I J K a b c : ℕ} (hI : I < S.DMnx) (hJ : J < S.DMny)
    (ha : a < S.px) (hb : b < S.py) :
    nodePos S (I + J * S.DMnx + K * (S.DMnx * S.DMny)) (a + b * S.px + c * (S.px * S.py))
      = ((a : ℤ) - I) + ((b : ℤ) - J) * S.nx + ((c : ℤ) - K) * S.nx * S.ny := by
  unfold nodePos
  simp only [decodePR_flat S ha hb, decodeDM_flat S hI hJ]

theorem sum_getD (l : List ℕ) (F : ℕ → ℝ) : ∑ i ∈ range l.length, F (l.getD i 0) = (l.map F).sum := by
  induction l with
  | nil => rfl
  | cons a l ih =>
    rw [List.length_cons, sum_range_succ', List.map_cons, List.sum_cons, ← ih, add_comm]
    rfl

theorem sum_filter_list (l : List ℕ) (P : ℕ → Bool) (F : ℕ → ℝ) :
    ((l.filter P).map F).sum = (l.map fun p => if P p then F p else 0).sum := by
  induction l with
  | nil => rfl
  | cons a l ih =>
    rw [List.filter_cons, List.map_cons, List.sum_cons]
    by_cases h : P a
    · rw [if_pos h, if_pos h, List.map_cons, List.sum_cons, ih]
    · rw [if_neg h, if_neg h, ih, zero_add]

theorem filter_getD_mem (l : List ℕ) (P : ℕ → Bool) {i : ℕ} (h : i < (l.filter P).length) :
    (l.filter P).getD i 0 ∈ l ∧ P ((l.filter P).getD i 0) := by
  have : (l.filter P).getD i 0 ∈ l.filter P := by
    rw [List.getD_eq_getElem?_getD, List.getElem?_eq_getElem h]; exact List.getElem_mem h
  exact List.mem_filter.1 this

open Classical in
/-- The projector of an image at offset `(i,j,k)` of the box of node `(I,J,K)`: its value at that
grid point when the point lies within `rcut` of the node, zero otherwise. -/
noncomputable def cutChi (S : Sizes) (dx dy dz : ℝ) (gpos : List ℕ) (chi : ℕ → ℝ) (I J K c i j k : ℕ) : ℝ :=
  if (((i : ℝ) - S.nloc0) * dx) ^ 2 + (((j : ℝ) - S.nloc1) * dy) ^ 2 + (((k : ℝ) - S.nloc2) * dz) ^ 2
      ≤ (max (max (S.nloc0 * dx) (S.nloc1 * dy)) (S.nloc2 * dz)) ^ 2 then
    ∑ p ∈ range gpos.length,
      if gpos.getD p 0 = (I + i) + (J + j) * S.px + (K + k) * (S.px * S.py) then
        chi (p + c * gpos.length) else 0
  else 0

open Classical in
theorem kept_sum (S : Sizes) {dx dy dz : ℝ} (hE : Even S dx dy dz) (gpos : List ℕ) (chi : ℕ → ℝ)
    {I J K : ℕ} (hI : I < S.DMnx) (hJ : J < S.DMny) (c : ℕ) {i j k : ℕ} (hi : i < S.nx) (hj : j < S.ny)
    (hk : k < S.nz) (ipos : List ℕ) (hip : ipos = (List.range gpos.length).filter fun ip =>
      decide (keep S dx dy dz (I + J * S.DMnx + K * (S.DMnx * S.DMny)) (gpos.getD ip 0))) :
    ∑ r ∈ range ipos.length, (if nodePos S (I + J * S.DMnx + K * (S.DMnx * S.DMny))
        (gpos.getD (ipos.getD r 0) 0) = (k : ℤ) * (S.nx * S.ny) + j * S.nx + i then
        chi (ipos.getD r 0 + c * gpos.length) else 0)
      = cutChi S dx dy dz gpos chi I J K c i j k := by
  have hpx : 0 < S.px := by unfold Sizes.px; omega
  have hpy : 0 < S.py := by unfold Sizes.py; omega
  have hx : I + i < S.px := by unfold Sizes.px; unfold Sizes.nx at hi; omega
  have hy : J + j < S.py := by unfold Sizes.py; unfold Sizes.ny at hj; omega
  rw [sum_getD ipos (fun p => if nodePos S (I + J * S.DMnx + K * (S.DMnx * S.DMny)) (gpos.getD p 0)
      = (k : ℤ) * (S.nx * S.ny) + j * S.nx + i then chi (p + c * gpos.length) else 0), hip,
    sum_filter_list, list_sum_range]
  have hkeep : keep S dx dy dz (I + J * S.DMnx + K * (S.DMnx * S.DMny))
      ((I + i) + (J + j) * S.px + (K + k) * (S.px * S.py)) ↔
      (((i : ℝ) - S.nloc0) * dx) ^ 2 + (((j : ℝ) - S.nloc1) * dy) ^ 2 + (((k : ℝ) - S.nloc2) * dz) ^ 2
      ≤ (max (max (S.nloc0 * dx) (S.nloc1 * dy)) (S.nloc2 * dz)) ^ 2 := by
    rw [keep_iff S dx dy dz hI hJ hx hy]
    push_cast
    simp only [add_sub_cancel_left]
    rfl
  unfold cutChi
  have main : ∀ p, (if decide (keep S dx dy dz (I + J * S.DMnx + K * (S.DMnx * S.DMny)) (gpos.getD p 0)) then
        (if nodePos S (I + J * S.DMnx + K * (S.DMnx * S.DMny)) (gpos.getD p 0)
          = (k : ℤ) * (S.nx * S.ny) + j * S.nx + i then chi (p + c * gpos.length) else 0) else 0)
      = if (((i : ℝ) - S.nloc0) * dx) ^ 2 + (((j : ℝ) - S.nloc1) * dy) ^ 2
          + (((k : ℝ) - S.nloc2) * dz) ^ 2
          ≤ (max (max (S.nloc0 * dx) (S.nloc1 * dy)) (S.nloc2 * dz)) ^ 2 then
          (if gpos.getD p 0 = (I + i) + (J + j) * S.px + (K + k) * (S.px * S.py) then
            chi (p + c * gpos.length) else 0) else 0 := by
    intro p
    generalize gpos.getD p 0 = g
    by_cases hg : g = (I + i) + (J + j) * S.px + (K + k) * (S.px * S.py)
    · rw [hg]
      have hn : nodePos S (I + J * S.DMnx + K * (S.DMnx * S.DMny))
          ((I + i) + (J + j) * S.px + (K + k) * (S.px * S.py))
          = (k : ℤ) * (S.nx * S.ny) + j * S.nx + i := by
        rw [nodePos_flat S hI hJ hx hy]; push_cast; ring
      rw [if_pos hn, if_pos rfl]
      by_cases h : keep S dx dy dz (I + J * S.DMnx + K * (S.DMnx * S.DMny))
          ((I + i) + (J + j) * S.px + (K + k) * (S.px * S.py))
      · rw [if_pos (by simpa using h), if_pos (hkeep.1 h)]
      · rw [if_neg (by simpa using h), if_neg (fun hh => h (hkeep.2 hh))]
    · rw [if_neg hg, ite_self]
      by_cases h : keep S dx dy dz (I + J * S.DMnx + K * (S.DMnx * S.DMny)) g
      · rw [if_pos (by simpa using h), if_neg]
        intro he
        obtain ⟨a, b, d, ha, hb, rfl⟩ := flat_of S hpx hpy g
        obtain ⟨⟨b1, b2⟩, ⟨b3, b4⟩, b5, b6⟩ := keep_box S hE hI hJ ha hb h
        rw [nodePos_flat S hI hJ ha hb] at he
        have he' : ((d : ℤ) - K) * (S.nx * S.ny) + ((b : ℤ) - J) * S.nx + ((a : ℤ) - I)
            = (k : ℤ) * (S.nx * S.ny) + j * S.nx + i := by rw [← he]; ring
        obtain ⟨h1, h2, h3⟩ := int_flat3 (by omega) (by omega) (by omega) (by omega) (by omega)
          (by omega) he'
        apply hg
        have : a = I + i := by omega
        subst this
        have : b = J + j := by omega
        subst this
        have : d = K + k := by omega
        subst this
        rfl
      · rw [if_neg (by simpa using h)]
  rw [sum_congr rfl fun p _ => main p]
  split_ifs with h
  · rfl
  · simp

theorem inbox_pos (S : Sizes) {dx dy dz : ℝ} (hE : Even S dx dy dz) {I J K : ℕ} (hI : I < S.DMnx)
    (hJ : J < S.DMny) (g : ℕ) (h : keep S dx dy dz (I + J * S.DMnx + K * (S.DMnx * S.DMny)) g) :
    0 ≤ nodePos S (I + J * S.DMnx + K * (S.DMnx * S.DMny)) g ∧
    nodePos S (I + J * S.DMnx + K * (S.DMnx * S.DMny)) g < S.nd := by
  have hpx : 0 < S.px := by unfold Sizes.px; omega
  have hpy : 0 < S.py := by unfold Sizes.py; omega
  obtain ⟨a, b, d, ha, hb, rfl⟩ := flat_of S hpx hpy g
  obtain ⟨⟨b1, b2⟩, ⟨b3, b4⟩, b5, b6⟩ := keep_box S hE hI hJ ha hb h
  rw [nodePos_flat S hI hJ ha hb]
  obtain ⟨i, rfl⟩ := Nat.exists_eq_add_of_le b1
  obtain ⟨j, rfl⟩ := Nat.exists_eq_add_of_le b3
  obtain ⟨k, rfl⟩ := Nat.exists_eq_add_of_le b5
  have := flat3_lt (nx := S.nx) (ny := S.ny) (nz := S.nz) (i := i) (j := j) (k := k) (by omega)
    (by omega) (by omega)
  have e : (((I + i : ℕ) : ℤ) - I) + (((J + j : ℕ) : ℤ) - J) * S.nx + (((K + k : ℕ) : ℤ) - K) * S.nx * S.ny
      = ((i + j * S.nx + k * (S.nx * S.ny) : ℕ) : ℤ) := by push_cast; ring
  rw [e]
  exact ⟨by omega, by exact_mod_cast this⟩

end Sparc.Sq

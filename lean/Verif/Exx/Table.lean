import Verif.Exx.Shift
import Verif.Kpt.Props

/-! # Properties of the table of Bloch shifts (C106) -/

namespace Sparc.Exx

open Classical

/-- For every pair of a k-point and a point of the exchange mesh, the block of constants that the
solver selects was built for a vector that agrees with `k - q` in each component to `1e-12`. -/
theorem shift_table (ks qs : List Vec) (t : Tab) (h : findShift ks qs = some t) (i j : ℕ) (k q : Vec)
    (hk : ks[i]? = some k) (hq : qs[j]? = some q) :
    ∃ l, t.map[i + j * ks.length]? = some l ∧ l < t.count ∧ t.block l < t.count ∧
      |(t.blockVec (t.block l)).1 - (k.1 - q.1)| < 1 / 10 ^ 12 ∧
      |(t.blockVec (t.block l)).2.1 - (k.2.1 - q.2.1)| < 1 / 10 ^ 12 ∧
      |(t.blockVec (t.block l)).2.2 - (k.2.2 - q.2.2)| < 1 / 10 ^ 12 := by
  obtain ⟨hg, -⟩ := find_good h
  have hd := diffs_get hk hq
  have hmem : diff k q ∈ diffs ks qs := List.mem_of_getElem? hd
  obtain ⟨r, hr⟩ := hg.ne
  have hcnt : t.count = r.length + 1 := by unfold Tab.count; rw [hr]; rfl
  refine ⟨lookup t.shifts (diff k q), by rw [hg.map, List.getElem?_map, hd]; rfl, ?_⟩
  have fin : ∀ s : Vec, near s (diff k q) →
      |s.1 - (k.1 - q.1)| < 1 / 10 ^ 12 ∧ |s.2.1 - (k.2.1 - q.2.1)| < 1 / 10 ^ 12 ∧
        |s.2.2 - (k.2.2 - q.2.2)| < 1 / 10 ^ 12 := fun s hs => hs
  by_cases h0 : near (diff k q) (0, 0, 0)
  · have e : lookup t.shifts (diff k q) = 0 := by unfold lookup; rw [if_pos h0]
    rw [e]
    have eb : t.block 0 = r.length := by unfold Tab.block; rw [if_pos rfl, hcnt]; omega
    refine ⟨by omega, by omega, ?_⟩
    have ev : t.blockVec (t.block 0) = (0, 0, 0) := by
      unfold Tab.blockVec; rw [eb, if_neg (by omega)]
    rw [ev]
    exact fin _ (near_symm h0)
  · obtain ⟨s, hs, hsd⟩ := hg.found _ hmem h0
    cases hf : t.shifts.findIdx? (fun x => decide (near x (diff k q))) with
    | none =>
      rw [List.findIdx?_eq_none_iff] at hf
      have := hf s hs
      simp [hsd] at this
    | some n =>
      have hn := flag_pos hg h0 n hf
      have e : lookup t.shifts (diff k q) = n := by unfold lookup; rw [if_neg h0, hf]; rfl
      obtain ⟨hlt, hp, -⟩ := List.findIdx?_eq_some_iff_getElem.mp hf
      have hlt' : n < r.length + 1 := by rw [hr] at hlt; simpa using hlt
      rw [e]
      have eb : t.block n = n - 1 := by unfold Tab.block; rw [if_neg (by omega)]
      refine ⟨by omega, by omega, ?_⟩
      have ev : t.blockVec (t.block n) = t.shifts[n] := by
        unfold Tab.blockVec Tab.stored
        rw [eb, if_pos (by omega), List.getElem?_drop, show 1 + (n - 1) = n by omega,
          List.getElem?_eq_getElem hlt]
        rfl
      rw [ev]
      exact fin _ (by simpa using hp)

/-- Pairs with the same difference share a block. -/
theorem same_difference (ks qs : List Vec) (t : Tab) (h : findShift ks qs = some t) (i j i' j' : ℕ)
    (k q k' q' : Vec) (hk : ks[i]? = some k) (hq : qs[j]? = some q) (hk' : ks[i']? = some k')
    (hq' : qs[j']? = some q') (e1 : k.1 - q.1 = k'.1 - q'.1) (e2 : k.2.1 - q.2.1 = k'.2.1 - q'.2.1)
    (e3 : k.2.2 - q.2.2 = k'.2.2 - q'.2.2) :
    t.map[i + j * ks.length]? = t.map[i' + j' * ks.length]? := by
  obtain ⟨hg, -⟩ := find_good h
  rw [hg.map, List.getElem?_map, List.getElem?_map, diffs_get hk hq, diffs_get hk' hq']
  have : diff k q = diff k' q' := by unfold diff; rw [e1, e2, e3]
  rw [this]

/-- No two blocks belong to the same vector (to the tolerance), every block but the last belongs to
a pair that occurs, and there are no more blocks than pairs. -/
theorem blocks_distinct (ks qs : List Vec) (t : Tab) (h : findShift ks qs = some t) :
    (∀ a b, a < b → b < t.count → ¬ (|(t.blockVec a).1 - (t.blockVec b).1| < 1 / 10 ^ 12 ∧
      |(t.blockVec a).2.1 - (t.blockVec b).2.1| < 1 / 10 ^ 12 ∧
      |(t.blockVec a).2.2 - (t.blockVec b).2.2| < 1 / 10 ^ 12)) ∧
    (∀ a, a < t.count - 1 → ∃ k ∈ ks, ∃ q ∈ qs,
      t.blockVec a = (k.1 - q.1, k.2.1 - q.2.1, k.2.2 - q.2.2)) ∧
    t.blockVec (t.count - 1) = (0, 0, 0) ∧ t.count ≤ ks.length * qs.length := by
  obtain ⟨hg, hc⟩ := find_good h
  obtain ⟨r, hr⟩ := hg.ne
  have hcnt : t.count = r.length + 1 := by unfold Tab.count; rw [hr]; rfl
  have hlast : t.blockVec (t.count - 1) = (0, 0, 0) := by unfold Tab.blockVec; rw [if_neg (by omega)]
  have hbv : ∀ a (ha : a < r.length), t.blockVec a = r[a] := by
    intro a ha
    unfold Tab.blockVec Tab.stored
    rw [hr, if_pos (by omega), List.drop_succ_cons, List.drop_zero, List.getElem?_eq_getElem ha]
    rfl
  have hap := hg.apart
  rw [hr, List.pairwise_cons] at hap
  refine ⟨?_, ?_, hlast, by rw [← hc]; exact hg.fits⟩
  · intro a b hab hb hn
    have ha : a < r.length := by omega
    rw [hbv a ha] at hn
    by_cases hb' : b < r.length
    · rw [hbv b hb'] at hn
      exact List.pairwise_iff_getElem.mp hap.2 a b ha hb' hab hn
    · have : b = t.count - 1 := by omega
      rw [this, hlast] at hn
      exact hap.1 _ (List.getElem_mem ha) (near_symm (a := r[a]) hn)
  · intro a ha
    have ha' : a < r.length := by omega
    rw [hbv a ha']
    have hm : r[a] ∈ diffs ks qs := hg.src _ (by rw [hr]; exact List.getElem_mem ha')
    unfold diffs at hm
    rw [List.mem_flatMap] at hm
    obtain ⟨q, hq, hm⟩ := hm
    obtain ⟨k, hk, hm⟩ := List.mem_map.mp hm
    exact ⟨k, hk, q, hq, hm.symm⟩

/-- Two vectors that the search takes for equal. -/
def Alike (a b : Vec) : Prop :=
  |a.1 - b.1| < 1 / 10 ^ 12 ∧ |a.2.1 - b.2.1| < 1 / 10 ^ 12 ∧ |a.2.2 - b.2.2| < 1 / 10 ^ 12

/-- **When the table overruns its arrays**: exactly if no k-point coincides with a point of the
exchange mesh and no difference occurs twice. -/
theorem overrun_iff (ks qs : List Vec) (hk : ks ≠ []) (hq : qs ≠ []) :
    findShift ks qs = none ↔
      (∀ k ∈ ks, ∀ q ∈ qs, ¬ Alike k q) ∧
      (qs.flatMap fun q => ks.map fun k => (k.1 - q.1, k.2.1 - q.2.1, k.2.2 - q.2.2)).Pairwise
        (fun a b => ¬ Alike a b) := by
  have hpos : 0 < ks.length * qs.length :=
    Nat.mul_pos (List.length_pos_iff.mpr hk) (List.length_pos_iff.mpr hq)
  have hz : (∀ d ∈ diffs ks qs, ¬ near d (0, 0, 0)) ↔ ∀ k ∈ ks, ∀ q ∈ qs, ¬ Alike k q := by
    unfold diffs
    constructor
    · intro h k hk q hq hn
      apply h (diff k q) (List.mem_flatMap.mpr ⟨q, hq, List.mem_map.mpr ⟨k, hk, rfl⟩⟩)
      unfold near diff
      simp only [sub_zero]
      exact hn
    · intro h d hd hn
      obtain ⟨q, hq, hd⟩ := List.mem_flatMap.mp hd
      obtain ⟨k, hk, rfl⟩ := List.mem_map.mp hd
      apply h k hk q hq
      unfold near diff at hn
      simp only [sub_zero] at hn
      exact hn
  rw [← hz]
  show _ ↔ (∀ d ∈ diffs ks qs, ¬ near d (0, 0, 0)) ∧ (diffs ks qs).Pairwise fun a b => ¬ near a b
  constructor
  · intro h
    unfold findShift at h
    rw [if_pos hpos] at h
    have := fold_none (init_good hpos) h (by rw [List.nil_append, diffs_length])
    simpa using this
  · rintro ⟨h0, hp⟩
    cases e : findShift ks qs with
    | none => rfl
    | some t =>
      obtain ⟨hg, hc⟩ := find_good e
      have h1 := good_full hg h0 hp
      have h2 := hg.fits
      rw [diffs_length] at h1
      omega

/-- A k-point that belongs to the exchange mesh keeps the table within its arrays. -/
theorem common_point_fits (ks qs : List Vec) (p : Vec) (hk : p ∈ ks) (hq : p ∈ qs) :
    findShift ks qs ≠ none := by
  intro h
  have := ((overrun_iff ks qs (List.ne_nil_of_mem hk) (List.ne_nil_of_mem hq)).mp h).1 p hk p hq
  apply this
  unfold Alike
  simp

/-- **Without down-sampling the table fits**: the exchange mesh is then the whole Monkhorst-Pack
mesh and the k-points are those kept of it. -/
theorem full_mesh_fits_partial (I : Kpt.Inp) (hI : I.Ok) (hx : 0 < I.Kx) (hy : 0 < I.Ky) (hz : 0 < I.Kz) :
    findShift ((Kpt.reduced I).map Prod.fst) (Kpt.hfPts I (1, 1, 1)) ≠ none := by
  obtain ⟨own, h1, h2, h3, h4⟩ := Kpt.kpt_reduction I hI
  have hhf : Kpt.hfPts I (1, 1, 1) = Kpt.mesh I := by
    unfold Kpt.hfPts Kpt.mesh
    congr 1
    rw [List.filter_eq_self]
    intro n _
    simp [Kpt.slot]
  have hpos : 0 < own.length := by rw [h1]; positivity
  have hj := h4 own[0] (List.getElem_mem hpos)
  obtain ⟨pm, -, -⟩ := h3 _ _ _ (List.getElem?_eq_getElem hj)
  rw [hhf]
  exact common_point_fits _ _ _ (List.mem_map_of_mem (List.getElem_mem hj)) pm

/-- `KPOINT_GRID: 3 1 1` without shift. -/
noncomputable def three : Kpt.Inp :=
  { Kx := 3, Ky := 1, Kz := 1, sx := 0, sy := 0, sz := 0,
    Lx := 2 * Real.pi, Ly := 2 * Real.pi, Lz := 2 * Real.pi }

/-- **Finding.** `KPOINT_GRID: 3 1 1` with `EXX_DOWNSAMPLING: 3 1 1` is accepted.  The one point of
the exchange mesh is `1/3`, whose time reverse `-1/3` was kept in its place.  The two differences
`-2/3` and `-1/3` are distinct and not zero, so that the third entry of the table is written past
arrays of two entries. -/
theorem downsampled_overrun :
    three.Ok ∧ Kpt.hfAccepted three (3, 1, 1) ∧
    findShift ((Kpt.reduced three).map Prod.fst) (Kpt.hfPts three (3, 1, 1)) = none := by
  have hp := Real.pi_pos
  have ht := Kpt.tol_pos
  have ht4 : Kpt.tol < 1 / 10 := by unfold Kpt.tol; norm_num
  have ok : three.Ok := ⟨Kpt.resolved_two_pi (by norm_num [three]), Kpt.resolved_two_pi (by norm_num [three]),
    Kpt.resolved_two_pi (by norm_num [three])⟩
  have c : ∀ K s n, Kpt.kcart K s (2 * Real.pi) n = Kpt.kred K s n := by
    intro K s n; unfold Kpt.kcart; field_simp
  have k0 : Kpt.kred 1 0 0 = 0 := Kpt.kred_of_lt (by norm_num) (by linarith) (by norm_num)
  have ka : Kpt.kred 3 0 0 = 0 := Kpt.kred_of_lt (by norm_num) (by linarith) (by norm_num)
  have kb : Kpt.kred 3 0 1 = 1 / 3 := Kpt.kred_of_lt (by norm_num) (by linarith) (by norm_num)
  have kc : Kpt.kred 3 0 (-1) = -1 / 3 := Kpt.kred_of_lt (by norm_num) (by linarith) (by norm_num)
  have hidx : Kpt.idxs three = [(-1, 0, 0), (0, 0, 0), (1, 0, 0)] := by decide
  have one : 2 * Real.pi / (2 * Real.pi) = 1 := by field_simp
  have n1 : ¬ Kpt.pairs1 (2 * Real.pi) 0 (-1 / 3) := by
    unfold Kpt.pairs1; rw [one, abs_lt, abs_lt]; rintro (⟨h, -⟩ | ⟨h, -⟩) <;> linarith
  have y1 : Kpt.pairs1 (2 * Real.pi) (1 / 3) (-1 / 3) := by
    left; rw [show (1 / 3 : ℝ) + -1 / 3 = 0 by norm_num, abs_zero]; exact ht
  have y0 : Kpt.pairs1 (2 * Real.pi) 0 0 := by
    left; rw [add_zero, abs_zero]; exact ht
  have hr : (Kpt.reduced three).map Prod.fst = [(-1 / 3, 0, 0), (0, 0, 0)] := by
    unfold Kpt.reduced
    rw [hidx]
    simp only [List.foldl_cons, List.foldl_nil, Kpt.kpt, three, c, k0, ka, kb, kc]
    have e1 : ¬ Kpt.pairs three (0, 0, 0) (-1 / 3, 0, 0) := fun h => n1 h.1
    have e2 : Kpt.pairs three (1 / 3, 0, 0) (-1 / 3, 0, 0) := ⟨y1, y0, y0⟩
    unfold three at e1 e2
    have f1 : ∀ M : Vec → Vec → Prop, ¬ M (0, 0, 0) (-1 / 3, 0, 0) → M (1 / 3, 0, 0) (-1 / 3, 0, 0) →
        (Kpt.step M (Kpt.step M (Kpt.step M [] ((-1 / 3 : ℝ), (0 : ℝ), (0 : ℝ))) (0, 0, 0)) (1 / 3, 0, 0)).map
          Prod.fst = [(-1 / 3, 0, 0), (0, 0, 0)] := by
      intro M m1 m2
      have a1 : Kpt.step M [] ((-1 / 3 : ℝ), (0 : ℝ), (0 : ℝ)) = [((-1 / 3, 0, 0), 1)] := rfl
      have a2 : Kpt.step M [((-1 / 3, 0, 0), 1)] (0, 0, 0) = [((-1 / 3, 0, 0), 1), ((0, 0, 0), 1)] := by
        unfold Kpt.step
        rw [List.findIdx?_cons, decide_eq_false m1]; rfl
      have a3 : Kpt.step M [((-1 / 3, 0, 0), 1), ((0, 0, 0), 1)] (1 / 3, 0, 0) =
          [((-1 / 3, 0, 0), 2), ((0, 0, 0), 1)] := by
        unfold Kpt.step
        rw [List.findIdx?_cons, decide_eq_true m2]; rfl
      rw [a1, a2, a3]; rfl
    exact f1 _ e1 e2
  have hq : Kpt.hfPts three (3, 1, 1) = [(1 / 3, 0, 0)] := by
    unfold Kpt.hfPts
    rw [hidx]
    have s1 : Kpt.slot 3 3 0 (2 * Real.pi) (-1) = false := by simp [Kpt.slot, Kpt.nkStart]
    have s2 : Kpt.slot 3 3 0 (2 * Real.pi) 0 = false := by simp [Kpt.slot, Kpt.nkStart]
    have s3 : Kpt.slot 3 3 0 (2 * Real.pi) 1 = true := by simp [Kpt.slot, Kpt.nkStart]
    have s4 : Kpt.slot 1 1 0 (2 * Real.pi) 0 = true := by simp [Kpt.slot, Kpt.nkStart]
    simp [three, List.filter, s1, s2, s3, s4, Kpt.kpt, c, k0, kb]
  refine ⟨ok, ?_, ?_⟩
  · unfold Kpt.hfAccepted three
    simp
  · rw [hr, hq, overrun_iff _ _ (by simp) (by simp)]
    have t1 : ∀ a b : ℝ, 1 / 10 ≤ b - a → ¬ |a - b| < 1 / 10 ^ 12 := by
      intro a b h hl
      rw [abs_lt] at hl
      have : (1 : ℝ) / 10 ^ 12 < 1 / 10 := by norm_num
      linarith [hl.1]
    constructor
    · intro k hk q hq hn
      simp only [List.mem_cons, List.not_mem_nil, or_false] at hk hq
      subst hq
      rcases hk with rfl | rfl
      · exact t1 _ _ (by norm_num) hn.1
      · exact t1 _ _ (by norm_num) hn.1
    · simp only [List.flatMap_cons, List.flatMap_nil, List.map_cons, List.map_nil, List.append_nil,
        List.pairwise_cons, List.mem_cons, List.not_mem_nil, or_false, forall_eq, false_implies, implies_true,
        List.Pairwise.nil, and_true]
      intro hn
      exact t1 _ _ (by norm_num) hn.1

/-- The k-points `-1/3` and `0` with the mesh `-1/3, 0, 1/3`: three blocks for the differences
`1/3`, `-1/3`, `-2/3` and one for zero, in arrays of six. -/
example : findShift [((-1 / 3 : ℝ), 0, 0), (0, 0, 0)] [((-1 / 3 : ℝ), 0, 0), (0, 0, 0), (1 / 3, 0, 0)] ≠ none :=
  common_point_fits _ _ (0, 0, 0) (by simp) (by simp)

end Sparc.Exx

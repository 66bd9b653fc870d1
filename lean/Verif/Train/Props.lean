import Verif.Train.Lemmas

/-! # C39: sparsification of the training set and distribution of atoms

The columns of the training set (`cols`: entries of the matrix, descriptor, element), the agreement of the counts
with them (`Good`) and the position of a column among those of its element (`rank`) are defined beside the
lemmas and are not used by the model. -/

namespace Sparc.Train

/-! ## Removing one column -/

/-- Removing a column leaves the others, in order, with their matrix entries, descriptors and elements, and the
counts keep agreeing with the columns. -/
theorem remove_one (T : Train) (hT : Good T) (c : ℕ) (hc : c < T.ncols) :
    cols (removeCol T c) = (cols T).eraseIdx c ∧ Good (removeCol T c) :=
  ⟨cols_removeCol T c hc, good_removeCol T hT c hc⟩

/-! ## The kept columns -/

open Classical in
/-- Indices of small eigenvalues. -/
noncomputable def small (n : ℕ) (w : ℕ → ℝ) : Finset ℕ := (Finset.range n).filter fun j => w j < 1 / 10 ^ 10

/-- Mean squared component of column `i` along the eigenvectors of the small eigenvalues. -/
noncomputable def leverage (n : ℕ) (w V : ℕ → ℝ) (i : ℕ) : ℝ :=
  (∑ j ∈ small n w, V (i * n + j) ^ 2) / (small n w).card

/-- `keep` has one column for each eigenvalue that is not small, with the least leverages. -/
structure Chosen (n : ℕ) (w V : ℕ → ℝ) (keep : Finset ℕ) : Prop where
  lt : ∀ i ∈ keep, i < n
  card : keep.card + (small n w).card = n
  least : ∀ i ∈ keep, ∀ j < n, j ∉ keep → leverage n w V i ≤ leverage n w V j

/-- Descriptors of the columns of element `e`, in order. -/
def descr (T : Train) (e : ℕ) : List (ℕ → ℝ) := ((cols T).filter fun x => x.2.2 = e).map fun x => x.2.1

theorem descr_eq (T : Train) (e : ℕ) : descr T e =
    ((List.range T.ncols).filter fun j => T.typ j = e).map fun j k => if k < T.sizeX then T.X3 j k else 0 := by
  unfold descr cols
  rw [List.filter_map, List.map_map]
  rfl

open Classical in
theorem step_spec (solver : List (ℕ → ℝ) → (ℕ → ℝ) × (ℕ → ℝ)) (e : ℕ) (T : Train) (hT : Good T)
    (hV : ∀ i < (descr T e).length, ∑ j ∈ Finset.range (descr T e).length,
      (solver (descr T e)).2 (i * (descr T e).length + j) ^ 2 = 1) :
    ∃ T' keep, elemStep solver e T = some T' ∧ Good T' ∧
      Chosen (descr T e).length (solver (descr T e)).1 (solver (descr T e)).2 keep ∧
      cols T' = ((List.range T.ncols).filter fun p => T.typ p = e → rank T.typ p ∈ keep).map (col T) := by
  have hlen : ((List.range T.ncols).filter fun j => T.typ j = e).length = (descr T e).length := by
    rw [descr_eq, List.length_map]
  generalize hs : solver (descr T e) = s at *
  generalize hn : (descr T e).length = n at *
  have hcard : n - nLow n s.1 ≤ ((Finset.range n).filter fun i => score n s.1 s.2 i < 10 ^ 10).card := by
    rw [Finset.filter_true_of_mem fun i hi => score_lt n s.1 s.2 i (hV i (Finset.mem_range.1 hi)), Finset.card_range]
    omega
  obtain ⟨high, h1, h2, h3, h4, h5⟩ := pick_spec n _ _ hcard
  have hpos := positions T.typ e high T.ncols
  have hpl := positions_length T.typ e high T.ncols h3 (fun i hi => by rw [hlen]; exact (h4 i hi).1)
  rw [hlen] at hpl hpos
  set P := (List.range T.ncols).filter fun p => T.typ p = e ∧ rank T.typ p ∉ high with hP
  have hPs : P.Pairwise (· < ·) := List.pairwise_lt_range.filter _
  have hPn : ∀ p ∈ P, p < T.ncols := fun p hp => List.mem_range.1 (List.mem_filter.1 hp).1
  obtain ⟨r1, r2, -, -⟩ := remove_fold T hT P hPs hPn P.length le_rfl
  have hcnt : T.cnt e = n := by rw [hT.cnt e, hlen]
  have htot : T.total.toNat = T.ncols := by rw [hT.total]; rfl
  refine ⟨_, high.toFinset, ?_, r2, ⟨?_, ?_, ?_⟩, ?_⟩
  · unfold elemStep
    dsimp only
    rw [htot, hlen, if_neg (by rw [hcnt]; simp), ← descr_eq, hs, h1, Option.bind_some]
    rw [hpos, if_neg (by rw [hcnt]; push Not; omega)]
  · intro i hi
    exact (h4 i (List.mem_toFinset.1 hi)).1
  · rw [List.toFinset_card_of_nodup h3, h2, small, ← nLow_eq]
    have : nLow n s.1 ≤ n := by
      rw [nLow_eq]
      exact (Finset.card_filter_le _ _).trans (by simp)
    omega
  · intro i hi j hj hjk
    have := h5 i (List.mem_toFinset.1 hi) j hj (fun h => hjk (List.mem_toFinset.2 h))
    rw [score_eq, score_eq] at this
    exact this
  · rw [r1, List.take_length]
    congr 1
    apply List.filter_congr
    intro x hx
    rw [hP]
    simp only [List.mem_filter, hx, true_and, List.mem_toFinset, decide_eq_true_eq, not_and, Decidable.not_not]

/-- Positions of a filtered range. -/
theorem take_filter (n : ℕ) (Q : ℕ → Bool) (i p : ℕ) (hi : ((List.range n).filter Q)[i]? = some p) :
    ((List.range n).filter Q).take i = (List.range p).filter Q := by
  obtain ⟨hr, hQ⟩ := List.mem_filter.1 (List.mem_of_getElem? hi)
  have hnd : ((List.range n).filter Q).Nodup := List.nodup_range.filter _
  have hsp : (List.range n).filter Q = (List.range p).filter Q ++ p :: (List.range' (p + 1) (n - p - 1)).filter Q := by
    rw [range_split (List.mem_range.1 hr), List.filter_append, List.filter_cons_of_pos hQ]
  rw [hsp] at hi hnd ⊢
  obtain ⟨hil, hi⟩ := List.getElem?_eq_some_iff.1 hi
  have hlen : ((List.range p).filter Q).length <
      ((List.range p).filter Q ++ p :: (List.range' (p + 1) (n - p - 1)).filter Q).length := by simp
  have hg : ((List.range p).filter Q ++ p :: (List.range' (p + 1) (n - p - 1)).filter Q)[((List.range p).filter Q).length]
      = p := by
    rw [List.getElem_append_right (le_refl _)]
    simp
  have hi2 := (List.Nodup.getElem_inj_iff hnd).1 (hi.trans hg.symm)
  rw [hi2, List.take_left]

/-- Sparsification succeeds; for every element it keeps one column for each eigenvalue of the kernel matrix that
is not small, with the least leverages, and every column of the elements not treated; the kept columns are
unchanged and in their former order, and the counts agree with them. -/
theorem sparsify_spec (solver : List (ℕ → ℝ) → (ℕ → ℝ) × (ℕ → ℝ))
    (hV : ∀ d : List (ℕ → ℝ), ∀ i < d.length, ∑ j ∈ Finset.range d.length, (solver d).2 (i * d.length + j) ^ 2 = 1)
    (T : Train) (hT : Good T) : ∀ nelem, ∃ (T' : Train) (keep : ℕ → Finset ℕ), sparsify solver nelem T = some T' ∧ Good T' ∧
      (∀ e < nelem, Chosen (descr T e).length (solver (descr T e)).1 (solver (descr T e)).2 (keep e)) ∧
      cols T' = ((List.range T.ncols).filter fun p => T.typ p < nelem → rank T.typ p ∈ keep (T.typ p)).map (col T)
  | 0 => ⟨T, fun _ => ∅, rfl, hT, by simp, by simp [cols]⟩
  | e + 1 => by
    obtain ⟨T1, keep, a1, a2, a3, a4⟩ := sparsify_spec solver hV T hT e
    set L := (List.range T.ncols).filter fun p => decide (T.typ p < e → rank T.typ p ∈ keep (T.typ p)) with hL
    have hN : T1.ncols = L.length := by
      have := congrArg List.length a4
      simpa [cols] using this
    have hcol : ∀ i (hi : i < L.length), col T1 i = col T L[i] := by
      intro i hi
      have := congrArg (fun l => l[i]?) a4
      simp only [cols, List.getElem?_map] at this
      rw [List.getElem?_range (by omega), List.getElem?_eq_getElem hi] at this
      simpa using this
    have hty : ∀ i (hi : i < L.length), T1.typ i = T.typ L[i] := fun i hi =>
      congrArg (fun x => x.2.2) (hcol i hi)
    have hLe : L.filter (fun p => decide (T.typ p = e)) = (List.range T.ncols).filter fun p => decide (T.typ p = e) := by
      rw [hL, List.filter_filter]
      apply List.filter_congr
      intro x _
      by_cases hx : T.typ x = e
      · simp [hx]
      · simp [hx]
    have hd : descr T1 e = descr T e := by
      unfold descr
      rw [a4]
      unfold cols
      rw [List.filter_map, List.filter_map]
      congr 2
    obtain ⟨T2, k2, b1, b2, b3, b4⟩ := step_spec solver e T1 a2 (hV _)
    rw [hd] at b3
    refine ⟨T2, fun x => if x = e then k2 else keep x, ?_, b2, ?_, ?_⟩
    · unfold sparsify
      rw [a1, Option.bind_some, b1]
    · intro x hx
      by_cases hxe : x = e
      · simpa [hxe] using b3
      · simpa [hxe] using a3 x (by omega)
    · -- ranks in the sparsified list are the original ranks
      have hrk : ∀ i (hi : i < L.length), T.typ L[i] = e → rank T1.typ i = rank T.typ L[i] := by
        intro i hi hie
        unfold rank
        rw [hty i hi, hie]
        have t1 : ((List.range i).filter fun q => decide (T1.typ q = e)).length =
            ((L.take i).filter fun p => decide (T.typ p = e)).length := by
          have : L.take i = (List.range i).map fun q => L.getD q 0 := by
            apply List.ext_getElem
            · simp; omega
            · intro k h1 h2
              rw [List.length_take] at h1
              simp [show k < L.length by omega]
          rw [this, List.filter_map, List.length_map]
          congr 1
          apply List.filter_congr
          intro q hq
          rw [List.mem_range] at hq
          have hql : q < L.length := by omega
          simp [hty q hql, hql]
        rw [t1, take_filter T.ncols _ i L[i] (List.getElem?_eq_getElem hi), List.filter_filter]
        congr 1
        apply List.filter_congr
        intro x _
        by_cases hx : T.typ x = e
        · simp [hx]
        · simp [hx]
      rw [b4]
      have hmap : ((List.range T1.ncols).filter fun p => decide (T1.typ p = e → rank T1.typ p ∈ k2)).map (col T1) =
          (L.filter fun p => decide (T.typ p = e → rank T.typ p ∈ k2)).map (col T) := by
        have hLr : L = (List.range L.length).map fun q => L.getD q 0 := by
          apply List.ext_getElem
          · simp
          · intro k h1 h2
            simp [h1]
        conv_rhs => rw [hLr]
        rw [List.filter_map, List.map_map, hN]
        have hf : (List.range L.length).filter (fun p => decide (T1.typ p = e → rank T1.typ p ∈ k2)) =
            (List.range L.length).filter ((fun p => decide (T.typ p = e → rank T.typ p ∈ k2)) ∘ fun q => L.getD q 0) := by
          apply List.filter_congr
          intro q hq
          rw [List.mem_range] at hq
          simp only [Function.comp_apply, hty q hq, List.getD_eq_getElem?_getD, List.getElem?_eq_getElem hq,
            Option.getD_some]
          by_cases hx : T.typ L[q] = e
          · rw [hrk q hq hx]
          · simp [hx]
        rw [hf]
        apply List.map_congr_left
        intro q hq
        have hq := List.mem_range.1 (List.mem_filter.1 hq).1
        rw [hcol q hq]
        simp [hq]
      rw [hmap, hL, List.filter_filter]
      congr 1
      apply List.filter_congr
      intro x _
      by_cases hx : T.typ x = e
      · simp [hx]
      · by_cases h2 : T.typ x < e
        · simp [hx, h2, show T.typ x < e + 1 by omega]
        · simp [hx, h2, show ¬T.typ x < e + 1 by omega]

/-! ## Distribution of the atoms -/

theorem start_eq (natom np : ℕ) (r : ℕ) :
    (List.range r).foldl (fun s i => s + natomProc natom np i) 0 = r * (natom / np) + min r (natom % np) := by
  induction r with
  | zero => simp
  | succ r ih =>
    rw [List.range_succ, List.foldl_append, ih]
    simp only [List.foldl_cons, List.foldl_nil, natomProc]
    rw [Nat.succ_mul]
    by_cases h : r < natom % np
    · rw [if_pos h]; omega
    · rw [if_neg h]; omega

theorem start_end (natom np : ℕ) (h : 0 < np) :
    (List.range np).foldl (fun s i => s + natomProc natom np i) 0 = natom := by
  rw [start_eq, Nat.min_eq_right (Nat.mod_lt _ h).le, Nat.div_add_mod]

theorem start_succ (natom np r : ℕ) :
    (List.range (r + 1)).foldl (fun s i => s + natomProc natom np i) 0 =
      (List.range r).foldl (fun s i => s + natomProc natom np i) 0 + natomProc natom np r := by
  rw [List.range_succ, List.foldl_append]
  rfl

theorem start_mono (natom np r m : ℕ) (h : r ≤ m) :
    (List.range r).foldl (fun s i => s + natomProc natom np i) 0 ≤
      (List.range m).foldl (fun s i => s + natomProc natom np i) 0 := by
  induction m, h using Nat.le_induction with
  | base => exact le_refl _
  | succ m _ ih =>
    rw [start_succ]
    omega

theorem parts_range (natom np : ℕ) (r : ℕ) :
    (List.range r).flatMap (fun r => List.range' ((List.range r).foldl (fun s i => s + natomProc natom np i) 0)
      (natomProc natom np r)) = List.range ((List.range r).foldl (fun s i => s + natomProc natom np i) 0) := by
  induction r with
  | zero => rfl
  | succ r ih =>
    rw [List.range_succ, List.flatMap_append, ih, List.foldl_append]
    simp only [List.flatMap_cons, List.flatMap_nil, List.append_nil, List.foldl_cons, List.foldl_nil]
    generalize (List.range r).foldl (fun s i => s + natomProc natom np i) 0 = x
    rw [List.range_eq_range', List.range_eq_range', ← List.range'_append_1, Nat.zero_add]

theorem element_at (k : ℕ) (nAtomv : List ℕ) (a e : ℕ)
    (h : ((nAtomv.zipIdx k).flatMap fun t => List.replicate t.1 t.2)[a]? = some e) :
    k ≤ e ∧ e < k + nAtomv.length ∧ (nAtomv.take (e - k)).sum ≤ a ∧ a < (nAtomv.take (e - k + 1)).sum := by
  induction nAtomv generalizing k a with
  | nil => simp at h
  | cons x l ih =>
    rw [List.zipIdx_cons, List.flatMap_cons] at h
    by_cases ha : a < x
    · rw [List.getElem?_append_left (by simpa using ha)] at h
      simp only [List.getElem?_replicate, ha, if_true, Option.some.injEq] at h
      subst h
      simp [ha]
    · rw [List.getElem?_append_right (by simp; omega), List.length_replicate] at h
      obtain ⟨h1, h2, h3, h4⟩ := ih (k + 1) (a - x) h
      obtain ⟨d, rfl⟩ : ∃ d, e = k + 1 + d := ⟨e - (k + 1), by omega⟩
      rw [show k + 1 + d - (k + 1) = d by omega] at h3 h4
      rw [show k + 1 + d - k = d + 1 by omega]
      simp only [List.length_cons, List.take_succ_cons, List.sum_cons]
      exact ⟨by omega, by omega, by omega, by omega⟩

theorem flat_length (k : ℕ) (nAtomv : List ℕ) :
    ((nAtomv.zipIdx k).flatMap fun t => List.replicate t.1 t.2).length = nAtomv.sum := by
  induction nAtomv generalizing k with
  | nil => rfl
  | cons x l ih => rw [List.zipIdx_cons, List.flatMap_cons, List.length_append, List.length_replicate, ih, List.sum_cons]

/-- Every atom goes to one rank: the lists of the ranks, one after the other, are all atoms in order, and each
atom comes with the element whose atoms include it; list sizes differ by at most one. -/
theorem decompose_spec (natom : ℕ) (nAtomv : List ℕ) (np : ℕ) (hnp : 0 < np) (hsum : nAtomv.sum = natom) :
    ∃ parts : ℕ → List (ℕ × ℕ), (∀ r < np, decompose natom nAtomv np r = some (parts r)) ∧
      ((List.range np).flatMap parts).map Prod.fst = List.range natom ∧
      (∀ r < np, (parts r).length = natom / np ∨ (parts r).length = natom / np + 1) ∧
      ∀ r < np, ∀ a e, (a, e) ∈ parts r →
        e < nAtomv.length ∧ (nAtomv.take e).sum ≤ a ∧ a < (nAtomv.take (e + 1)).sum := by
  set el := nAtomv.zipIdx.flatMap fun t => List.replicate t.1 t.2 with hel
  have hl : el.length = natom := by rw [hel, flat_length, hsum]
  have hE : elGlobal natom nAtomv = some el := by
    unfold elGlobal
    rw [← hel]
    simp [hl]
  set st := fun r => (List.range r).foldl (fun s i => s + natomProc natom np i) 0 with hst
  refine ⟨fun r => (List.range' (st r) (natomProc natom np r)).map fun a => (a, el.getD a 0), ?_, ?_, ?_, ?_⟩
  · intro r hr
    have hb : st r + natomProc natom np r ≤ natom := by
      have := start_mono natom np (r + 1) np hr
      rw [start_succ, start_end natom np hnp] at this
      exact this
    unfold decompose
    rw [hE, Option.bind_some]
    show (List.range (natomProc natom np r)).mapM (fun i => (el[st r + i]?).map fun e => (st r + i, e)) =
      some ((List.range' (st r) (natomProc natom np r)).map fun a => (a, el.getD a 0))
    rw [List.range'_eq_map_range, List.map_map]
    generalize natomProc natom np r = c at hb ⊢
    induction c with
    | zero => rfl
    | succ c ih =>
      rw [List.range_succ, List.mapM_append, ih (by omega), List.map_append]
      have hlt : st r + c < el.length := by omega
      simp [hlt]
  · rw [List.map_flatMap]
    simp only [List.map_map]
    have : (fun r => ((List.range' (st r) (natomProc natom np r)).map (Prod.fst ∘ fun a => (a, el.getD a 0)))) =
        fun r => List.range' (st r) (natomProc natom np r) := by
      funext r
      exact List.map_id _
    rw [this, hst, parts_range, start_end natom np hnp]
  · intro r _
    rw [List.length_map, List.length_range']
    unfold natomProc
    split
    · right; rfl
    · left; rfl
  · intro r hr a e hae
    obtain ⟨x, hx, hxe⟩ := List.mem_map.1 hae
    rw [Prod.mk.injEq] at hxe
    obtain ⟨rfl, rfl⟩ := hxe
    have hb : st r + natomProc natom np r ≤ natom := by
      have := start_mono natom np (r + 1) np hr
      rw [start_succ, start_end natom np hnp] at this
      exact this
    rw [List.mem_range'_1] at hx
    have hlt : x < el.length := by omega
    have := element_at 0 nAtomv x (el.getD x 0) (by
      rw [← hel, List.getElem?_eq_getElem hlt]
      simp [hlt])
    simpa using this

/-- The restart path passes the number of atoms of a stored structure with the elements' counts of the current
one: if the stored structure is smaller, the array of elements is filled past its end. -/
theorem decompose_overflow (natom : ℕ) (nAtomv : List ℕ) (np rank : ℕ) (h : natom < nAtomv.sum) :
    decompose natom nAtomv np rank = none := by
  unfold decompose elGlobal
  dsimp only
  rw [flat_length, if_neg (by omega)]
  rfl

/-! ## Removal of a structure -/

/-- With three structures of two rows, removing the first does not leave the rows of the other two. -/
theorem removeStr_loses : ∃ (lens : List ℕ) (b : ℕ → ℝ),
    (List.range 4).map (removeStr lens 0 b) ≠ (List.range' 2 4).map b := by
  refine ⟨[2, 2, 2], fun i => i, ?_⟩
  intro h
  have h2 := congrArg (fun l => l[2]?) h
  norm_num [removeStr, upd, List.range', List.range_succ] at h2

/-! ## Examples -/

/-- Three columns of two elements. -/
noncomputable def exT : Train :=
  { ncols := 3, nrows := 2, sizeX := 2, K := fun j i => 10 * j + i, X3 := fun i k => i + k,
    typ := fun i => if i = 1 then 1 else 0, cnt := fun e => if e = 0 then 2 else if e = 1 then 1 else 0, total := 3 }

example : Good exT := by
  constructor
  · rfl
  · intro e
    show (if e = 0 then (2 : ℤ) else if e = 1 then 1 else 0) =
      (((List.range 3).filter fun p => decide ((if p = 1 then 1 else 0) = e)).length : ℤ)
    rcases e with _ | _ | e
    · rfl
    · rfl
    · simp [List.range_succ]

/-- A solver satisfying the hypothesis of `sparsify_spec`. -/
noncomputable def exSolver (d : List (ℕ → ℝ)) : (ℕ → ℝ) × (ℕ → ℝ) :=
  (fun j => if j = 0 then 0 else 1, fun x => if x / d.length = x % d.length then 1 else 0)

example : ∀ d : List (ℕ → ℝ), ∀ i < d.length,
    ∑ j ∈ Finset.range d.length, (exSolver d).2 (i * d.length + j) ^ 2 = 1 := by
  intro d i hi
  have : ∀ j ∈ Finset.range d.length, (exSolver d).2 (i * d.length + j) ^ 2 = if j = i then 1 else 0 := by
    intro j hj
    have hj := Finset.mem_range.1 hj
    have h1 : (i * d.length + j) / d.length = i := by
      rw [Nat.mul_comm, Nat.mul_add_div (by omega), Nat.div_eq_of_lt hj, Nat.add_zero]
    have h2 : (i * d.length + j) % d.length = j := by
      rw [Nat.mul_comm, Nat.mul_add_mod, Nat.mod_eq_of_lt hj]
    show (if (i * d.length + j) / d.length = (i * d.length + j) % d.length then (1 : ℝ) else 0) ^ 2 = _
    rw [h1, h2]
    by_cases hij : i = j
    · simp [hij]
    · simp [hij, Ne.symm hij]
  rw [Finset.sum_congr rfl this, Finset.sum_ite_eq' (Finset.range d.length) i, if_pos (Finset.mem_range.2 hi)]

example : decompose 5 [2, 3] 2 0 = some [(0, 0), (1, 0), (2, 1)] ∧ decompose 5 [2, 3] 2 1 = some [(3, 1), (4, 1)] := by
  decide

end Sparc.Train

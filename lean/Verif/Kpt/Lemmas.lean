import Verif.Tac
import Mathlib.Data.List.Nodup
import Mathlib.Data.List.ProdSigma
import Mathlib.Data.List.Induction
import Verif.Wrap.Props
import Verif.Kpt.Model

/-! # Lemmas for the k-point reduction -/

namespace Sparc.Kpt

open Classical

/-! ## Generic reduction loop -/

section
variable {P : Type*} (M : P → P → Prop)

/-- Relation between the processed list and the loop state. -/
def Inv (l : List P) (st : List (P × ℝ)) (asg : List ℕ) : Prop :=
  asg.length = l.length ∧
  (∀ (i : ℕ) (q : P), l[i]? = some q → ∃ (j : ℕ) (e : P × ℝ), asg[i]? = some j ∧ st[j]? = some e ∧ (q = e.1 ∨ M q e.1)) ∧
  (∀ (j : ℕ) (e : P × ℝ), st[j]? = some e → e.1 ∈ l ∧
    ((e.2 = 1 ∧ asg.count j = 1) ∨ (e.2 = 2 ∧ asg.count j = 2 ∧ ∃ q ∈ l, M q e.1))) ∧
  (∀ j ∈ asg, j < st.length) ∧
  st.Pairwise (fun e e' => ¬ M e'.1 e.1) ∧
  (st.map Prod.fst).Sublist l

theorem inv_exists (l : List P)
    (hu : ∀ p ∈ l, l.Pairwise (fun q q' => ¬ (M q p ∧ M q' p))) :
    ∃ asg, Inv M l (l.foldl (step M) []) asg := by
  induction l using List.reverseRecOn with
  | nil =>
    refine ⟨[], rfl, ?_, ?_, ?_, ?_, ?_⟩ <;> simp
  | append_singleton l q ih =>
    obtain ⟨asg, h1, h2, h3, h4, h5, h6⟩ := ih (fun p hp => by
      have := hu p (List.mem_append_left _ hp)
      exact (List.pairwise_append.mp this).1)
    rw [List.foldl_append, List.foldl_cons, List.foldl_nil]
    generalize hst : l.foldl (step M) [] = st at *
    unfold step
    split
    · rename_i hf
      rw [List.findIdx?_eq_none_iff] at hf
      refine ⟨asg ++ [st.length], ?_, ?_, ?_, ?_, ?_, ?_⟩
      · simp [h1]
      · intro i q' hq'
        rcases Nat.lt_or_ge i l.length with hi | hi
        · rw [List.getElem?_append_left hi] at hq'
          obtain ⟨j, e, ha, he, hh⟩ := h2 i q' hq'
          refine ⟨j, e, ?_, ?_, hh⟩
          · rw [List.getElem?_append_left (by omega)]; exact ha
          · rw [List.getElem?_append_left (by
              by_contra hc
              rw [List.getElem?_eq_none (by omega)] at he; cases he)]
            exact he
        · have hi' : i = l.length := by
            by_contra hc
            rw [List.getElem?_eq_none (by simp; omega)] at hq'; cases hq'
          subst hi'
          simp at hq'
          subst hq'
          refine ⟨st.length, (q, 1), ?_, ?_, Or.inl rfl⟩
          · rw [← h1]; simp
          · simp
      · intro j e he
        rcases Nat.lt_or_ge j st.length with hj | hj
        · rw [List.getElem?_append_left hj] at he
          obtain ⟨m, hc⟩ := h3 j e he
          refine ⟨List.mem_append_left _ m, ?_⟩
          have : List.count j (asg ++ [st.length]) = List.count j asg := by
            rw [List.count_append, List.count_singleton]
            have : (st.length == j) = false := by simp; omega
            simp [this]
          rw [this]
          rcases hc with hc | ⟨a, b, q', hq', hM⟩
          · exact Or.inl hc
          · exact Or.inr ⟨a, b, q', List.mem_append_left _ hq', hM⟩
        · have hj' : j = st.length := by
            by_contra hc
            rw [List.getElem?_eq_none (by simp; omega)] at he; cases he
          subst hj'
          simp at he
          subst he
          refine ⟨by simp, Or.inl ⟨rfl, ?_⟩⟩
          rw [List.count_append]
          have : List.count st.length asg = 0 := by
            rw [List.count_eq_zero]; intro hm; exact lt_irrefl _ (h4 _ hm)
          simp [this]
      · intro j hj
        rw [List.mem_append] at hj
        simp only [List.length_append, List.length_singleton]
        rcases hj with hj | hj
        · have := h4 j hj; omega
        · simp at hj; omega
      · rw [List.pairwise_append]
        refine ⟨h5, List.pairwise_singleton _ _, ?_⟩
        intro e he e' he'
        simp at he'
        subst he'
        have := hf e he
        simpa using this
      · rw [List.map_append]
        exact List.Sublist.append h6 (by simp)
    · rename_i i hf
      rw [List.findIdx?_eq_some_iff_getElem] at hf
      obtain ⟨hi, hM, -⟩ := hf
      simp only [decide_eq_true_eq] at hM
      have hlen : (st.modify i (fun e => (e.1, (2 : ℝ)))).length = st.length := List.length_modify ..
      have hget : ∀ (j : ℕ) (e : P × ℝ), (st.modify i (fun e => (e.1, (2 : ℝ))))[j]? = some e →
          ∃ e0, st[j]? = some e0 ∧ e.1 = e0.1 ∧ (j ≠ i → e = e0) ∧ (j = i → e.2 = 2) := by
        intro j e he
        rw [List.getElem?_modify] at he
        obtain ⟨e0, h0, he0⟩ := Option.map_eq_some_iff.mp he
        refine ⟨e0, h0, ?_, ?_, ?_⟩
        · split at he0 <;> (rw [← he0])
        · intro hne; rw [if_neg (fun h => hne h.symm)] at he0; exact he0.symm
        · intro hje; rw [if_pos hje.symm] at he0; rw [← he0]
      have hfst : (st.modify i (fun e => (e.1, (2 : ℝ)))).map Prod.fst = st.map Prod.fst := by
        apply List.ext_getElem?
        intro j
        rw [List.getElem?_map, List.getElem?_map, List.getElem?_modify]
        cases st[j]? with
        | none => rfl
        | some e => simp only [Option.map_eq_map, Option.map_some]; split <;> rfl
      have hgi : st[i]? = some st[i] := List.getElem?_eq_getElem hi
      obtain ⟨hmem, hw⟩ := h3 i _ hgi
      have hpw := hu st[i].1 (List.mem_append_left _ hmem)
      rw [List.pairwise_append] at hpw
      have hc1 : asg.count i = 1 := by
        rcases hw with ⟨-, h⟩ | ⟨-, -, q', hq', hM'⟩
        · exact h
        · exact absurd ⟨hM', hM⟩ (hpw.2.2 q' hq' q (by simp))
      refine ⟨asg ++ [i], ?_, ?_, ?_, ?_, ?_, ?_⟩
      · simp [h1]
      · intro k q' hq'
        rcases Nat.lt_or_ge k l.length with hk | hk
        · rw [List.getElem?_append_left hk] at hq'
          obtain ⟨j, e, ha, he, hh⟩ := h2 k q' hq'
          refine ⟨j, if i = j then (e.1, 2) else e, ?_, ?_, ?_⟩
          · rw [List.getElem?_append_left (by omega)]; exact ha
          · rw [List.getElem?_modify, he]
            simp only [Option.map_eq_map, Option.map_some]
          · split <;> exact hh
        · have hk' : k = l.length := by
            by_contra hc
            rw [List.getElem?_eq_none (by simp; omega)] at hq'; cases hq'
          subst hk'
          simp at hq'
          subst hq'
          refine ⟨i, (st[i].1, 2), ?_, ?_, Or.inr hM⟩
          · rw [← h1]; simp
          · rw [List.getElem?_modify, hgi]; simp
      · intro j e he
        obtain ⟨e0, h0, hf1, hne, heq⟩ := hget j e he
        obtain ⟨m, hc⟩ := h3 j e0 h0
        refine ⟨by rw [hf1]; exact List.mem_append_left _ m, ?_⟩
        by_cases hji : j = i
        · subst hji
          refine Or.inr ⟨heq rfl, ?_, q, by simp, ?_⟩
          · rw [List.count_append, hc1]; simp
          · rw [hgi] at h0; cases h0; rw [hf1]; exact hM
        · have : List.count j (asg ++ [i]) = List.count j asg := by
            rw [List.count_append, List.count_singleton]
            have : (i == j) = false := by simp; omega
            simp [this]
          rw [this, hne hji]
          rcases hc with hc | ⟨a, b, q', hq', hM'⟩
          · exact Or.inl hc
          · exact Or.inr ⟨a, b, q', List.mem_append_left _ hq', hM'⟩
      · intro j hj
        rw [hlen]
        rw [List.mem_append] at hj
        rcases hj with hj | hj
        · exact h4 j hj
        · simp at hj; omega
      · have : ∀ s : List (P × ℝ), s.Pairwise (fun e e' => ¬ M e'.1 e.1) ↔ (s.map Prod.fst).Pairwise (fun a b => ¬ M b a) := by
          intro s; rw [List.pairwise_map]
        rw [this, hfst, ← this]; exact h5
      · rw [hfst]
        exact h6.trans (List.sublist_append_left _ _)

end

/-! ## The mesh -/

theorem nkRange_mem {K : ℕ} {n : ℤ} : n ∈ nkRange K ↔ nkStart K ≤ n ∧ n < nkStart K + K := by
  unfold nkRange
  rw [List.mem_map]
  constructor
  · rintro ⟨i, hi, rfl⟩
    rw [List.mem_range] at hi
    omega
  · rintro ⟨h1, h2⟩
    exact ⟨(n - nkStart K).toNat, List.mem_range.mpr (by omega), by omega⟩

theorem nkRange_nodup (K : ℕ) : (nkRange K).Nodup := by
  unfold nkRange
  exact List.nodup_range.map (fun a b h => by simpa using h)

theorem idxs_eq (I : Inp) : idxs I = nkRange I.Kx ×ˢ (nkRange I.Ky ×ˢ nkRange I.Kz) := by
  show _ = (nkRange I.Kx).product ((nkRange I.Ky).product (nkRange I.Kz))
  unfold idxs
  simp only [List.product, List.map_flatMap, List.map_map]
  rfl

theorem idxs_nodup (I : Inp) : (idxs I).Nodup := by
  rw [idxs_eq]
  exact (nkRange_nodup _).product ((nkRange_nodup _).product (nkRange_nodup _))

theorem idxs_length (I : Inp) : (idxs I).length = I.Kx * I.Ky * I.Kz := by
  rw [idxs_eq, List.length_product, List.length_product]
  simp [nkRange, Nat.mul_assoc]

theorem idxs_mem {I : Inp} {n : Idx} : n ∈ idxs I ↔ n.1 ∈ nkRange I.Kx ∧ n.2.1 ∈ nkRange I.Ky ∧ n.2.2 ∈ nkRange I.Kz := by
  rw [idxs_eq]
  obtain ⟨a, b, c⟩ := n
  simp [List.mem_product]

/-- The reduced coordinate differs from the unwrapped one by an integer. -/
theorem kred_mod (K : ℕ) (s : ℝ) (n : ℤ) : ∃ z : ℤ, kred K s n = (n : ℝ) / K + s / K + z := by
  unfold kred
  obtain ⟨-, -, z, hz⟩ := Wrap.fmod_spec (x := (n : ℝ) * 1 / K + s / K + 1 / 2 - tol) (y := 1) one_pos
  exact ⟨z, by rw [hz]; ring⟩

/-- Different mesh indices stay at least `1/K` apart modulo 1. -/
theorem kred_sep {K : ℕ} (s : ℝ) {n m : ℤ} (hn : n ∈ nkRange K) (hm : m ∈ nkRange K) (hne : n ≠ m) (z : ℤ) :
    1 / (K : ℝ) ≤ |kred K s n - kred K s m - z| := by
  rw [nkRange_mem] at hn hm
  have hK : 0 < K := by omega
  have hK' : (0 : ℝ) < K := by exact_mod_cast hK
  obtain ⟨z1, h1⟩ := kred_mod K s n
  obtain ⟨z2, h2⟩ := kred_mod K s m
  have e : kred K s n - kred K s m - z = ((n - m + (z1 - z2 - z) * K : ℤ) : ℝ) / K := by
    rw [h1, h2]; push_cast; field_simp; ring
  rw [e, abs_div, abs_of_pos hK', div_le_div_iff_of_pos_right hK']
  have hz : n - m + (z1 - z2 - z) * K ≠ 0 := by
    intro h0
    have hd : (K : ℤ) ∣ n - m := ⟨-(z1 - z2 - z), by linarith⟩
    have := Int.eq_zero_of_abs_lt_dvd hd (by rw [abs_lt]; omega)
    omega
  have : (1 : ℤ) ≤ |n - m + (z1 - z2 - z) * K| := Int.one_le_abs hz
  rw [← Int.cast_abs]
  exact_mod_cast this

/-- Resolution hypothesis: the tolerance is finer than the mesh. -/
def Resolved (K : ℕ) (L : ℝ) : Prop := 0 < L ∧ tol * L * K ≤ Real.pi

theorem kcart_sep {K : ℕ} (s : ℝ) {L : ℝ} (hL : Resolved K L) {n m : ℤ} (hn : n ∈ nkRange K) (hm : m ∈ nkRange K)
    (hne : n ≠ m) (z : ℤ) : 2 * tol ≤ |kcart K s L n - kcart K s L m - z * (2 * Real.pi / L)| := by
  obtain ⟨hL0, hr⟩ := hL
  have hK : (0 : ℝ) < K := by
    rw [nkRange_mem] at hn
    have : 0 < K := by omega
    exact_mod_cast this
  have hs := kred_sep s hn hm hne z
  have e : kcart K s L n - kcart K s L m - z * (2 * Real.pi / L) =
      (kred K s n - kred K s m - z) * (2 * Real.pi / L) := by unfold kcart; ring
  have hp : 0 < 2 * Real.pi / L := by positivity
  rw [e, abs_mul, abs_of_pos hp]
  have : 2 * tol ≤ 1 / (K : ℝ) * (2 * Real.pi / L) := by
    rw [div_mul_div_comm, le_div_iff₀ (by positivity)]
    nlinarith
  exact this.trans (mul_le_mul_of_nonneg_right hs hp.le)

theorem pairs1_unique {K : ℕ} {s L : ℝ} (hL : Resolved K L) {n m : ℤ} (hn : n ∈ nkRange K) (hm : m ∈ nkRange K)
    {p : ℝ} (h1 : pairs1 L (kcart K s L n) p) (h2 : pairs1 L (kcart K s L m) p) : n = m := by
  by_contra hne
  have key : ∃ z : ℤ, |kcart K s L n - kcart K s L m - z * (2 * Real.pi / L)| < 2 * tol := by
    unfold pairs1 at h1 h2
    simp only [abs_lt] at *
    rcases h1 with ⟨a1, a2⟩ | ⟨a1, a2⟩ <;> rcases h2 with ⟨b1, b2⟩ | ⟨b1, b2⟩
    · exact ⟨0, by push_cast; constructor <;> linarith⟩
    · exact ⟨-1, by push_cast; constructor <;> linarith⟩
    · exact ⟨1, by push_cast; constructor <;> linarith⟩
    · exact ⟨0, by push_cast; constructor <;> linarith⟩
  obtain ⟨z, hz⟩ := key
  exact absurd (kcart_sep s hL hn hm hne z) (not_le.mpr hz)

/-- All three directions resolved. -/
def Inp.Ok (I : Inp) : Prop := Resolved I.Kx I.Lx ∧ Resolved I.Ky I.Ly ∧ Resolved I.Kz I.Lz

theorem pairs_unique {I : Inp} (hI : I.Ok) {n m : Idx} (hn : n ∈ idxs I) (hm : m ∈ idxs I) {p : Pt}
    (h1 : pairs I (kpt I n) p) (h2 : pairs I (kpt I m) p) : n = m := by
  rw [idxs_mem] at hn hm
  obtain ⟨n1, n2, n3⟩ := n
  obtain ⟨m1, m2, m3⟩ := m
  have e1 := pairs1_unique hI.1 hn.1 hm.1 h1.1 h2.1
  have e2 := pairs1_unique hI.2.1 hn.2.1 hm.2.1 h1.2.1 h2.2.1
  have e3 := pairs1_unique hI.2.2 hn.2.2 hm.2.2 h1.2.2 h2.2.2
  simp only at e1 e2 e3
  rw [e1, e2, e3]

theorem close1 {K : ℕ} {s L : ℝ} (hL : Resolved K L) {n m : ℤ} (hn : n ∈ nkRange K) (hm : m ∈ nkRange K)
    (h : |kcart K s L n - kcart K s L m| < 2 * tol) : n = m := by
  by_contra hne
  have := kcart_sep s hL hn hm hne 0
  push_cast at this
  rw [zero_mul, sub_zero] at this
  linarith

theorem tol_pos : 0 < tol := by unfold tol; norm_num

theorem same_unique {I : Inp} (hI : I.Ok) {n m : Idx} (hn : n ∈ idxs I) (hm : m ∈ idxs I)
    (h : same (kpt I n) (kpt I m)) : n = m := by
  rw [idxs_mem] at hn hm
  have ht := tol_pos
  obtain ⟨n1, n2, n3⟩ := n
  obtain ⟨m1, m2, m3⟩ := m
  have e1 := close1 hI.1 hn.1 hm.1 (by have := h.1; dsimp only [kpt] at this; linarith)
  have e2 := close1 hI.2.1 hn.2.1 hm.2.1 (by have := h.2.1; dsimp only [kpt] at this; linarith)
  have e3 := close1 hI.2.2 hn.2.2 hm.2.2 (by have := h.2.2; dsimp only [kpt] at this; linarith)
  simp only at e1 e2 e3
  rw [e1, e2, e3]

theorem same_refl (p : Pt) : same p p := by
  unfold same; simp [tol_pos]

theorem kpt_inj {I : Inp} (hI : I.Ok) {n m : Idx} (hn : n ∈ idxs I) (hm : m ∈ idxs I)
    (h : kpt I n = kpt I m) : n = m := same_unique hI hn hm (h ▸ same_refl _)

/-- The full mesh in loop order. -/
noncomputable def mesh (I : Inp) : List Pt := (idxs I).map (kpt I)

theorem mesh_nodup {I : Inp} (hI : I.Ok) : (mesh I).Nodup := by
  unfold mesh
  exact List.Nodup.map_on (fun a ha b hb h => kpt_inj hI ha hb h) (idxs_nodup I)

theorem reduced_eq (I : Inp) : reduced I = (mesh I).foldl (step (pairs I)) [] := by
  unfold reduced mesh
  rw [List.foldl_map]

theorem mesh_pairs_unique {I : Inp} (hI : I.Ok) {q q' p : Pt} (hq : q ∈ mesh I) (hq' : q' ∈ mesh I)
    (h1 : pairs I q p) (h2 : pairs I q' p) : q = q' := by
  obtain ⟨n, hn, rfl⟩ := List.mem_map.mp hq
  obtain ⟨m, hm, rfl⟩ := List.mem_map.mp hq'
  rw [pairs_unique hI hn hm h1 h2]

theorem mesh_same {I : Inp} (hI : I.Ok) {q q' : Pt} (hq : q ∈ mesh I) (hq' : q' ∈ mesh I) (h : same q q') : q = q' := by
  obtain ⟨n, hn, rfl⟩ := List.mem_map.mp hq
  obtain ⟨m, hm, rfl⟩ := List.mem_map.mp hq'
  rw [same_unique hI hn hm h]

theorem reduced_inv {I : Inp} (hI : I.Ok) : ∃ asg, Inv (pairs I) (mesh I) (reduced I) asg := by
  rw [reduced_eq]
  apply inv_exists
  intro p _
  have := mesh_nodup hI
  refine List.Pairwise.imp_of_mem ?_ this
  intro a b ha hb hab hc
  exact hab (mesh_pairs_unique hI ha hb hc.1 hc.2)

end Sparc.Kpt

import Verif.Soc.Op

/-! # Spin-orbit coupling: the order of the projectors -/

namespace Sparc.Soc

open Pres

variable {𝕜 : Type} [RCLike 𝕜]

/-- The radial functions of a type: angular momentum and number. -/
def shells (T : Typ) : List (ℕ × ℕ) :=
  (List.range (T.lmax + 1)).flatMap fun (l : ℕ) =>
    if (l : ℤ) = T.lloc ∨ l = 0 then [] else (List.range (T.pplSoc (l - 1))).map fun np => (l, np)

/-- The spin-orbit projectors of a type in storage order: angular momentum, number of the radial
function and magnetic number. -/
def full (T : Typ) : List (ℕ × ℕ × ℤ) :=
  (shells T).flatMap fun u => (List.range (2 * u.1 + 1)).map fun (i : ℕ) => (u.1, u.2, (i : ℤ) - u.1)

theorem shells_eq (T : Typ) : shells T = (List.range' 1 T.lmax).flatMap fun (l : ℕ) =>
    if (l : ℤ) = T.lloc then [] else (List.range (T.pplSoc (l - 1))).map fun np => (l, np) := by
  unfold shells
  rw [List.range_eq_range', List.range'_succ, List.flatMap_cons, if_pos (Or.inr rfl),
    List.nil_append]
  refine List.flatMap_congr fun l hl => ?_
  have : ¬ l = 0 := by
    have := List.mem_range'_1.1 hl
    omega
  simp [this]

theorem chan_full (o : Opt) (ho : o ≠ .SC) (T : Typ) :
    chan o T = (full T).filter fun c => kept o c := by
  unfold chan full shells
  rw [List.flatMap_assoc, List.filter_flatMap]
  refine List.flatMap_congr fun l _ => ?_
  by_cases h : (l : ℤ) = T.lloc ∨ l = 0
  · rw [if_pos h, if_pos (by tauto)]
    rfl
  · rw [if_neg h, if_neg (by tauto), List.flatMap_map, List.filter_flatMap]
    cases o
    · exact absurd rfl ho
    · rfl
    · rfl

/-! ### The extraction of columns -/

theorem pick_run {α β : Type} (p : α → Bool) (C : ℕ → β) (l : List α) (a : ℕ) (out : List β) :
    l.foldl (fun (s : ℕ × List β) c => if p c then (s.1 + 1, s.2) else (s.1 + 1, s.2 ++ [C s.1]))
      (a, out) = (a + l.length, out ++ ((l.zipIdx a).filter fun c => !p c.1).map fun c => C c.2) := by
  induction l generalizing a out with
  | nil => simp
  | cons c l ih =>
    rw [List.foldl_cons, List.zipIdx_cons, List.filter_cons]
    cases h : p c
    · rw [if_neg (by simp), ih]
      simp only [List.length_cons, h, Bool.not_false, if_true, List.map_cons, List.append_assoc,
        List.singleton_append, Prod.mk.injEq, and_true]
      omega
    · rw [if_pos rfl, ih]
      simp only [List.length_cons, h, Bool.not_true, Bool.false_eq_true, if_false, Prod.mk.injEq,
        and_true]
      omega

theorem extract_eq {β : Type} (out : ℕ → ℤ) (T : Typ) (C : ℕ → β) (χ : ℕ × ℕ × ℤ → β)
    (h : ∀ i c, (full T)[i]? = some c → C i = χ c) :
    extract out T C = ((full T).filter fun c => !decide (c.2.2 = out c.1)).map χ := by
  have h1 : extract out T C = ((full T).foldl (fun (s : ℕ × List β) c =>
      if decide (c.2.2 = out c.1) then (s.1 + 1, s.2) else (s.1 + 1, s.2 ++ [C s.1])) (0, [])).2 := by
    unfold extract full
    rw [foldl_flatMap, shells_eq, foldl_flatMap]
    congr 1
    refine List.foldl_ext _ _ _ fun s l _ => ?_
    by_cases hl : (l : ℤ) = T.lloc
    · rw [if_pos hl, if_pos hl]
      rfl
    · rw [if_neg hl, if_neg hl, List.foldl_map]
      refine List.foldl_ext _ _ _ fun s np _ => ?_
      rw [List.foldl_map]
      simp only [decide_eq_true_eq]
  rw [h1, pick_run (fun c : ℕ × ℕ × ℤ => decide (c.2.2 = out c.1))]
  dsimp only
  rw [List.nil_append]
  have h2 : ∀ c ∈ (full T).zipIdx, C c.2 = χ c.1 := fun c hc => h c.2 c.1 (mem_zip hc)
  have h3 : ((full T).zipIdx.filter fun c => !decide (c.1.2.2 = out c.1.1)).map (fun c => C c.2)
      = ((full T).zipIdx.filter fun c => !decide (c.1.2.2 = out c.1.1)).map (fun c => χ c.1) :=
    List.map_congr_left fun c hc => h2 c (List.mem_of_mem_filter hc)
  have h4 : ((full T).zipIdx.filter fun c => !decide (c.1.2.2 = out c.1.1)).map Prod.fst
      = (full T).filter fun c => !decide (c.2.2 = out c.1) := by
    have := List.filter_map (f := Prod.fst) (p := fun c : ℕ × ℕ × ℤ => !decide (c.2.2 = out c.1))
      (l := (full T).zipIdx)
    rw [List.zipIdx_map_fst] at this
    exact this.symm
  rw [h3, ← h4, List.map_map]
  rfl

theorem shift_filter (l : ℕ) :
    ((List.range (2 * l + 1)).filter fun (i : ℕ) => !decide ((i : ℤ) - l = -(l : ℤ)))
      = ((List.range (2 * l + 1)).filter fun (i : ℕ) => !decide ((i : ℤ) - l = l)).map (· + 1) := by
  have h1 : ((List.range (2 * l + 1)).filter fun (i : ℕ) => !decide ((i : ℤ) - l = l))
      = List.range (2 * l) := by
    rw [List.range_succ, List.filter_append]
    have e1 : (List.range (2 * l)).filter (fun (i : ℕ) => !decide ((i : ℤ) - l = l)) = List.range (2 * l) := by
      rw [List.filter_eq_self]
      intro i hi
      rw [List.mem_range] at hi
      simp only [Bool.not_eq_true', decide_eq_false_iff_not]
      omega
    have e2 : [2 * l].filter (fun (i : ℕ) => !decide ((i : ℤ) - l = l)) = [] := by
      have : ((2 * l : ℕ) : ℤ) - l = l := by push_cast; ring
      rw [List.filter_cons, this]
      simp
    rw [e1, e2, List.append_nil]
  rw [h1, List.range_succ_eq_map, List.filter_cons]
  have e0 : (!decide (((0 : ℕ) : ℤ) - l = -(l : ℤ))) = false := by simp
  rw [e0, if_neg (by simp), List.filter_eq_self.2]
  intro i hi
  obtain ⟨j, _, rfl⟩ := List.mem_map.1 hi
  simp only [Bool.not_eq_true', decide_eq_false_iff_not, Nat.succ_eq_add_one]
  push_cast
  omega

theorem full_up (T : Typ) : ((full T).filter fun c => !decide (c.2.2 = -(c.1 : ℤ)))
    = (chan .SO2 T).map fun c => (c.1, c.2.1, c.2.2 + 1) := by
  rw [chan_full .SO2 (by decide)]
  unfold full
  rw [List.filter_flatMap, List.filter_flatMap, List.map_flatMap]
  refine List.flatMap_congr fun u _ => ?_
  rw [List.filter_map, List.filter_map]
  have := shift_filter u.1
  change List.map _ ((List.range (2 * u.1 + 1)).filter fun (i : ℕ) => !decide ((i : ℤ) - u.1 = -(u.1 : ℤ))) = _
  rw [this, List.map_map, List.map_map]
  have e : ((fun c : ℕ × ℕ × ℤ => kept Opt.SO2 c) ∘ fun (i : ℕ) => (u.1, u.2, (i : ℤ) - u.1))
      = fun (i : ℕ) => !decide ((i : ℤ) - u.1 = u.1) := by
    funext i
    simp [kept]
  rw [e]
  refine List.map_congr_left fun i _ => ?_
  simp only [Function.comp]
  push_cast
  rw [add_sub_right_comm]

/-! ### The columns and their splines -/

/-- The record of the type with the spin-orbit radial functions in the place of the scalar ones. -/
def asPsd (udv : ℕ → Nloc.Row) (T : Typ) : Nloc.Psd where
  lmax := T.lmax
  lloc := T.lloc
  ppl l := if l = 0 then 0 else T.pplSoc (l - 1)
  gamma := T.gamSoc
  udv := udv
  n := T.n
  rcs := []
  cx := 0
  cy := 0
  cz := 0

theorem first_asPsd (udv : ℕ → Nloc.Row) (T : Typ) (l : ℕ) :
    Nloc.first (asPsd udv T) l = ∑ i ∈ Finset.range (l - 1), T.pplSoc i := by
  cases l with
  | zero => simp [Nloc.first]
  | succ l =>
    unfold Nloc.first
    rw [Finset.sum_range_succ', Nat.add_sub_cancel]
    simp [asPsd]

theorem fold_drop {σ : Type} (lmax : ℕ) (f : σ → ℕ → σ) (s : σ) (h : f s 0 = s) :
    (List.range (lmax + 1)).foldl f s = (List.range' 1 lmax).foldl f s := by
  rw [List.range_eq_range', List.range'_succ, List.foldl_cons, h]

theorem splineFit_eq (fit : Nloc.Row → Nloc.Row) (udv : ℕ → Nloc.Row) (T : Typ) :
    splineFit fit udv T = Nloc.splineFit fit (asPsd udv T) := by
  unfold splineFit Nloc.splineFit
  have hl : (asPsd udv T).lmax = T.lmax := rfl
  rw [hl, fold_drop]
  · congr 2
    refine List.foldl_ext _ _ _ fun s l hl => ?_
    have : l ≠ 0 := by
      have := List.mem_range'_1.1 hl
      omega
    simp [asPsd, this]
  · simp [asPsd]

theorem columns_eq (Y : ℕ → ℤ → Col 𝕜) (interp : Nloc.Row → Nloc.Row → ℝ → ℝ) (udv D : ℕ → Nloc.Row)
    (T : Typ) : columns Y interp udv D T = (full T).map fun c d => Y c.1 c.2.2 d *
      ((interp (udv (Nloc.first (asPsd udv T) c.1 + c.2.1))
        (D (Nloc.firstD (asPsd udv T) c.1 + c.2.1))
        (Real.sqrt (d.1 ^ 2 + d.2.1 ^ 2 + d.2.2 ^ 2)) : ℝ) : 𝕜) := by
  have hrun := Nloc.columns_run (fun (l a b : ℕ) (m : ℤ) (d : ℝ × ℝ × ℝ) => Y l m d *
      ((interp (udv b) (D a) (Real.sqrt (d.1 ^ 2 + d.2.1 ^ 2 + d.2.2 ^ 2)) : ℝ) : 𝕜))
    (asPsd udv T) (T.lmax + 1)
  have hir : ∀ l : ℕ, Infl.irange (-(l : ℤ)) l = (List.range (2 * l + 1)).map fun (i : ℕ) => (i : ℤ) - l := by
    intro l
    unfold Infl.irange
    have : ((l : ℤ) - -(l : ℤ) + 1).toNat = 2 * l + 1 := by omega
    rw [this]
    refine List.map_congr_left fun i _ => ?_
    ring
  have h1 : columns Y interp udv D T = ((List.range (T.lmax + 1)).foldl
      (fun (s : ℕ × ℕ × List (Col 𝕜)) (l : ℕ) =>
        if (l : ℤ) = (asPsd udv T).lloc then (s.1, s.2.1 + (asPsd udv T).ppl l, s.2.2)
        else (List.range ((asPsd udv T).ppl l)).foldl
          (fun (s : ℕ × ℕ × List (Col 𝕜)) _ =>
            (s.1 + 1, s.2.1 + 1,
              (Infl.irange (-(l : ℤ)) l).foldl (fun cols m => cols ++ [fun d => Y l m d *
                ((interp (udv s.2.1) (D s.1)
                  (Real.sqrt (d.1 ^ 2 + d.2.1 ^ 2 + d.2.2 ^ 2)) : ℝ) : 𝕜)]) s.2.2)) s)
      (0, 0, [])).2.2 := by
    unfold columns
    rw [fold_drop]
    · congr 2
      refine List.foldl_ext _ _ _ fun s l hl => ?_
      have : l ≠ 0 := by
        have := List.mem_range'_1.1 hl
        omega
      have hp : (asPsd udv T).ppl l = T.pplSoc (l - 1) := by simp [asPsd, this]
      rw [hp, hir]
      simp only [List.foldl_map]
      rfl
    · simp [asPsd]
  rw [h1, hrun]
  dsimp only
  unfold full shells
  rw [List.map_flatMap, List.flatMap_assoc]
  refine List.flatMap_congr fun l _ => ?_
  by_cases hl : (l : ℤ) = T.lloc
  · have hl' : (l : ℤ) = (asPsd udv T).lloc := hl
    rw [if_pos hl', if_pos (Or.inl hl)]
    rfl
  · have hl' : ¬ (l : ℤ) = (asPsd udv T).lloc := hl
    rw [if_neg hl']
    by_cases h0 : l = 0
    · rw [if_pos (Or.inr h0)]
      subst h0
      simp [asPsd]
    · rw [if_neg (by tauto), List.flatMap_map]
      have hp : (asPsd udv T).ppl l = T.pplSoc (l - 1) := by simp [asPsd, h0]
      rw [hp]
      refine List.flatMap_congr fun np _ => ?_
      rw [hir, List.map_map, List.map_map]
      rfl

theorem mem_full {T : Typ} {c : ℕ × ℕ × ℤ} (h : c ∈ full T) :
    1 ≤ c.1 ∧ c.1 ≤ T.lmax ∧ (c.1 : ℤ) ≠ T.lloc ∧ c.2.1 < T.pplSoc (c.1 - 1) := by
  unfold full shells at h
  obtain ⟨u, hu, hc⟩ := List.mem_flatMap.1 h
  obtain ⟨i, _, rfl⟩ := List.mem_map.1 hc
  obtain ⟨l, hl, hu⟩ := List.mem_flatMap.1 hu
  rw [List.mem_range] at hl
  by_cases h0 : (l : ℤ) = T.lloc ∨ l = 0
  · rw [if_pos h0] at hu
    exact absurd hu (by simp)
  · rw [if_neg h0] at hu
    obtain ⟨np, hnp, rfl⟩ := List.mem_map.1 hu
    rw [List.mem_range] at hnp
    push Not at h0
    exact ⟨by simp only; omega, by simp only; omega, h0.1, hnp⟩

end Sparc.Soc

import Verif.D3.Model

/-! The lists of image cells as boxes, and the number of a cell. -/

namespace Sparc.D3

theorem len_flat {α : Type*} (a b : ℕ) (f : ℕ → List α) (hf : ∀ x, x < a → (f x).length = b) :
    ((List.range a).flatMap f).length = a * b := by
  induction a with
  | zero => simp
  | succ a ih =>
    rw [List.range_succ, List.flatMap_append, List.length_append, ih fun x hx => hf x (by omega)]
    simp [hf a (by omega)]
    ring

theorem flat_idx {α : Type*} (a b : ℕ) (f : ℕ → List α) (hf : ∀ x, x < a → (f x).length = b) (m : ℕ) (y : α)
    (h : ((List.range a).flatMap f)[m]? = some y) :
    ∃ x, x < a ∧ ∃ q, q < b ∧ (f x)[q]? = some y ∧ m = x * b + q := by
  induction a with
  | zero => simp at h
  | succ a ih =>
    rw [List.range_succ, List.flatMap_append, List.getElem?_append] at h
    have hl := len_flat a b f fun x hx => hf x (by omega)
    split at h
    · obtain ⟨x, hx, r⟩ := ih (fun x hx => hf x (by omega)) h
      exact ⟨x, by omega, r⟩
    · rename_i hm
      rw [hl] at hm h
      simp only [List.flatMap_cons, List.flatMap_nil, List.append_nil] at h
      refine ⟨a, by omega, m - a * b, ?_, h, by omega⟩
      have := (List.getElem?_eq_some_iff.1 h).1
      rwa [hf a (by omega)] at this

/-- The box of cells between two corners. -/
noncomputable def boxLH (lo hi : Fin 3 → ℤ) : Finset Img :=
  Finset.Icc (lo 0) (hi 0) ×ˢ Finset.Icc (lo 1) (hi 1) ×ˢ Finset.Icc (lo 2) (hi 2)

/-- The box of cells `-n ≤ x ≤ n`. -/
noncomputable def box (n : Fin 3 → ℤ) : Finset Img := boxLH (fun d => -n d) n

theorem mem_boxLH (lo hi : Fin 3 → ℤ) (T : Img) :
    T ∈ boxLH lo hi ↔ (lo 0 ≤ T.1 ∧ T.1 ≤ hi 0) ∧ (lo 1 ≤ T.2.1 ∧ T.2.1 ≤ hi 1) ∧ (lo 2 ≤ T.2.2 ∧ T.2.2 ≤ hi 2) := by
  simp [boxLH, Finset.mem_product]

theorem mem_box (n : Fin 3 → ℤ) (T : Img) :
    T ∈ box n ↔ (-n 0 ≤ T.1 ∧ T.1 ≤ n 0) ∧ (-n 1 ≤ T.2.1 ∧ T.2.1 ≤ n 1) ∧ (-n 2 ≤ T.2.2 ∧ T.2.2 ≤ n 2) :=
  mem_boxLH _ _ _

theorem sum_range_list (n : ℕ) (f : ℕ → ℝ) : ((List.range n).map f).sum = ∑ i ∈ Finset.range n, f i := by
  induction n with
  | zero => simp
  | succ n ih => simp [List.range_succ, ih, Finset.sum_range_succ]

theorem sum_flatMap {α β : Type} (l : List α) (g : α → List β) (f : β → ℝ) :
    ((l.flatMap g).map f).sum = (l.map fun x => ((g x).map f).sum).sum := by
  induction l with
  | nil => simp
  | cons a l ih => simp [List.flatMap_cons, ih]

theorem sum_range_int (lo hi : ℤ) (g : ℤ → ℝ) :
    ((List.range (hi + 1 - lo).toNat).map fun (x : ℕ) => g (lo + x)).sum = ∑ x ∈ Finset.Icc lo hi, g x := by
  rw [sum_range_list]
  refine Finset.sum_bij (fun (x : ℕ) _ => lo + (x : ℤ)) ?_ ?_ ?_ ?_
  · intro x hx
    simp only [Finset.mem_range] at hx
    simp only [Finset.mem_Icc]; omega
  · intro x _ y _ h; simp at h; exact h
  · intro y hy
    simp only [Finset.mem_Icc] at hy
    exact ⟨(y - lo).toNat, by simp only [Finset.mem_range]; omega, by omega⟩
  · intros; rfl

theorem sum_imgs (lo hi : Fin 3 → ℤ) (g : Img → ℝ) :
    ((imgs lo hi).map g).sum = ∑ T ∈ boxLH lo hi, g T := by
  unfold imgs boxLH
  rw [sum_flatMap]
  simp only [sum_flatMap, List.map_map]
  rw [Finset.sum_product]
  rw [← sum_range_int]
  refine congrArg List.sum (List.map_congr_left fun x _ => ?_)
  rw [Finset.sum_product, ← sum_range_int]
  refine congrArg List.sum (List.map_congr_left fun y _ => ?_)
  rw [← sum_range_int]
  rfl

theorem sum_cells (n : Fin 3 → ℤ) (g : Img → ℝ) : ((cells n).map g).sum = ∑ T ∈ box n, g T := sum_imgs _ _ g

theorem mem_imgs (lo hi : Fin 3 → ℤ) (T : Img) : T ∈ imgs lo hi ↔ T ∈ boxLH lo hi := by
  rw [mem_boxLH]
  unfold imgs
  simp only [List.mem_flatMap, List.mem_range, List.mem_map]
  constructor
  · rintro ⟨x, hx, y, hy, z, hz, rfl⟩
    simp only
    omega
  · rintro ⟨hx, hy, hz⟩
    obtain ⟨x, y, z⟩ := T
    simp only at hx hy hz
    exact ⟨(x - lo 0).toNat, by omega, (y - lo 1).toNat, by omega, (z - lo 2).toNat, by omega,
      by simp only [Prod.mk.injEq]; omega⟩

theorem mem_cells (n : Fin 3 → ℤ) (T : Img) : T ∈ cells n ↔ T ∈ box n := mem_imgs _ _ T

/-- The place of a cell in the list is the number `d3_count_image` gives it. -/
theorem idx_cells (n : Fin 3 → ℤ) (T : Img) (m : ℕ) (h : (T, m) ∈ (cells n).zipIdx) : (m : ℤ) = countImage T n := by
  rw [List.mem_zipIdx_iff_getElem?] at h
  simp only at h
  have hmem : T ∈ box n := (mem_cells n T).1 (List.mem_of_getElem? h)
  rw [mem_box] at hmem
  unfold cells imgs at h
  obtain ⟨x, hx, q, hq, hy, rfl⟩ := flat_idx _ ((n 1 + 1 - -n 1).toNat * (n 2 + 1 - -n 2).toNat) _ (fun x _ =>
    len_flat _ _ _ fun y _ => by simp) _ _ h
  obtain ⟨y, hy', z, hz, hT, rfl⟩ := flat_idx _ ((n 2 + 1 - -n 2).toNat) _ (fun y _ => by simp) _ _ hy
  have hT' := List.getElem?_eq_some_iff.1 hT
  obtain ⟨hl, hT⟩ := hT'
  simp at hT
  subst hT
  have e1 : (((n 1 + 1 - -n 1).toNat : ℕ) : ℤ) = 2 * n 1 + 1 := by omega
  have e2 : (((n 2 + 1 - -n 2).toNat : ℕ) : ℤ) = 2 * n 2 + 1 := by omega
  generalize (n 1 + 1 - -n 1).toNat = B at *
  generalize (n 2 + 1 - -n 2).toNat = C at *
  unfold countImage
  push_cast
  rw [← e1, ← e2]
  ring

theorem digits (c P P' Z Z' : ℤ) (hZ : 0 ≤ Z) (hZc : Z < c) (hZ' : 0 ≤ Z') (hZc' : Z' < c)
    (h : P * c + Z = P' * c + Z') : P = P' ∧ Z = Z' := by
  have : P = P' := by
    rcases lt_trichotomy P P' with h1 | h1 | h1
    · nlinarith
    · exact h1
    · nlinarith
  subst this
  exact ⟨rfl, by linarith⟩

/-- Different cells of the box have different numbers. -/
theorem countImage_inj (n : Fin 3 → ℤ) (T U : Img) (hT : T ∈ box n) (hU : U ∈ box n)
    (h : countImage T n = countImage U n) : T = U := by
  rw [mem_box] at hT hU
  unfold countImage at h
  obtain ⟨x, y, z⟩ := T
  obtain ⟨x', y', z'⟩ := U
  simp only at *
  obtain ⟨h1, h2⟩ := digits (2 * n 2 + 1) ((x + n 0) * (2 * n 1 + 1) + (y + n 1))
    ((x' + n 0) * (2 * n 1 + 1) + (y' + n 1)) (z + n 2) (z' + n 2) (by omega) (by omega) (by omega) (by omega)
    (by linear_combination h)
  obtain ⟨h3, h4⟩ := digits (2 * n 1 + 1) (x + n 0) (x' + n 0) (y + n 1) (y' + n 1) (by omega) (by omega) (by omega)
    (by omega) h1
  simp only [Prod.mk.injEq]
  omega

end Sparc.D3

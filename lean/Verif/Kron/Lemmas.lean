import Verif.Tac
import Verif.Loop
import Verif.Kron.Model
import Mathlib.LinearAlgebra.Matrix.Kronecker
import Mathlib.Data.Int.Interval

/-!
# Kronecker-product Laplacian (auxiliary results)
-/

namespace Sparc.Kron

open ComplexConjugate Matrix Kronecker

variable {𝕜 : Type} [RCLike 𝕜]

/-! ## Folds -/

theorem fold_add {τ α : Type} (l : List τ) (g : (α → 𝕜) → τ → α → 𝕜) (a : α) (c : τ → 𝕜)
    (h : ∀ t ∈ l, ∀ m, g m t a = m a + c t) (m : α → 𝕜) : l.foldl g m a = m a + (l.map c).sum := by
  induction l generalizing m with
  | nil => simp
  | cons t l ih =>
    rw [List.foldl_cons, ih (fun s hs => h s (List.mem_cons_of_mem _ hs)), h t List.mem_cons_self, List.map_cons,
      List.sum_cons, add_assoc]

theorem fold_set {τ α : Type} (l : List τ) (g : (α → 𝕜) → τ → α → 𝕜) (a : α) (v : 𝕜)
    (h : ∀ t ∈ l, (∀ m, g m t a = v) ∨ (∀ m, g m t a = m a)) (m : α → 𝕜) :
    ((∃ t ∈ l, ∀ m, g m t a = v) → l.foldl g m a = v) ∧
      ((∀ t ∈ l, ∀ m, g m t a = m a) → l.foldl g m a = m a) := by
  constructor
  · intro he
    have key : ∀ (l : List τ) (m : α → 𝕜), (∀ t ∈ l, (∀ m, g m t a = v) ∨ (∀ m, g m t a = m a)) →
        ((∃ t ∈ l, ∀ m, g m t a = v) ∨ m a = v) → l.foldl g m a = v := by
      intro l
      induction l with
      | nil => rintro m _ (⟨t, ht, _⟩ | h); · simp at ht
               · exact h
      | cons t l ih =>
        intro m h1 h2
        rw [List.foldl_cons]
        refine ih _ (fun s hs => h1 s (List.mem_cons_of_mem _ hs)) ?_
        rcases h1 t List.mem_cons_self with h3 | h3
        · exact Or.inr (h3 m)
        · rcases h2 with ⟨s, hs, h4⟩ | h4
          · rcases List.mem_cons.1 hs with rfl | hs
            · exact Or.inr (h4 m)
            · exact Or.inl ⟨s, hs, h4⟩
          · exact Or.inr ((h3 m).trans h4)
    exact key l m h (Or.inl he)
  · intro hn
    clear h
    induction l generalizing m with
    | nil => rfl
    | cons t l ih =>
      rw [List.foldl_cons, ih _ (fun s hs => hn s (List.mem_cons_of_mem _ hs)), hn t List.mem_cons_self]

theorem mem_cols {lo hi j : ℤ} : j ∈ cols lo hi ↔ lo ≤ j ∧ j ≤ hi := by
  unfold cols
  simp only [List.mem_map, List.mem_range]
  constructor
  · rintro ⟨t, ht, rfl⟩; omega
  · rintro ⟨h1, h2⟩; exact ⟨(j - lo).toNat, by omega, by omega⟩

theorem nodup_cols (lo hi : ℤ) : (cols lo hi).Nodup := by
  unfold cols
  exact List.Nodup.map (fun a b h => by simpa using h) List.nodup_range

theorem sum_cols (lo hi : ℤ) (f : ℤ → 𝕜) : ((cols lo hi).map f).sum = ∑ j ∈ Finset.Icc lo hi, f j := by
  rw [← List.sum_toFinset f (nodup_cols lo hi)]
  congr 1
  ext j
  rw [List.mem_toFinset, mem_cols, Finset.mem_Icc]

theorem sum_rangeL (n : ℕ) (f : ℕ → 𝕜) : ((List.range n).map f).sum = ∑ l ∈ Finset.range n, f l := rfl

theorem addr_inj {N : ℕ} {i i' : ℕ} {j j' : ℤ} (hi : i < N) (hi' : i' < N)
    (h : j * N + i = j' * N + i') : j = j' ∧ i = i' := by
  have hN : (0 : ℤ) < N := by omega
  have e : ∀ (j : ℤ) (i : ℕ), i < N → (j * N + i) / (N : ℤ) = j := by
    intro j i hi
    rw [add_comm, Int.add_mul_ediv_right _ _ hN.ne', Int.ediv_eq_zero_of_lt (by omega) (by omega)]; omega
  have h1 : j = j' := by rw [← e j i hi, ← e j' i' hi', h]
  subst h1
  exact ⟨rfl, by omega⟩

/-! ## Matrix entries -/

theorem dirichlet_entry (F : ℕ) (w : ℕ → ℝ) (N i j : ℕ) (hi : i < N) (hj : j < N) :
    lapDirichlet (𝕜 := 𝕜) F w N ((j : ℤ) * N + i) =
      if ((j : ℤ) - i).natAbs ≤ F then ((w ((j : ℤ) - i).natAbs : ℝ) : 𝕜) else 0 := by
  unfold lapDirichlet
  set a : ℤ := (j : ℤ) * N + i with ha
  set g : (ℤ → 𝕜) → ℕ → ℤ → 𝕜 := fun m i =>
    (cols (max 0 ((i : ℤ) - F)) (min ((N : ℤ) - 1) (i + F))).foldl (fun m j =>
      put m (j * N + i) ((w (j - i).natAbs : ℝ) : 𝕜)) m with hg
  -- one row
  have other : ∀ i' ∈ List.range N, i' ≠ i → ∀ m, g m i' a = m a := by
    intro i' hi' hne m
    rw [List.mem_range] at hi'
    refine (fold_set _ _ a 0 ?_ m).2 ?_ <;> intro t _
    · right; intro m; unfold put; rw [if_neg]
      intro h; exact hne (addr_inj hi hi' h).2.symm
    · intro m; unfold put; rw [if_neg]
      intro h; exact hne (addr_inj hi hi' h).2.symm
  have row : ∀ t ∈ cols (max 0 ((i : ℤ) - F)) (min ((N : ℤ) - 1) (i + F)), t ≠ j → ∀ m : ℤ → 𝕜,
      put m (t * N + i) ((w (t - i).natAbs : ℝ) : 𝕜) a = m a := by
    intro t _ hne m
    unfold put; rw [if_neg]
    intro h; exact hne (addr_inj hi hi h).1.symm
  by_cases hin : ((j : ℤ) - i).natAbs ≤ F
  · rw [if_pos hin]
    have self : ∀ m, g m i a = ((w ((j : ℤ) - i).natAbs : ℝ) : 𝕜) := by
      intro m
      refine (fold_set _ _ a _ ?_ m).1 ⟨(j : ℤ), ?_, ?_⟩
      · intro t ht
        by_cases h : t = j
        · left; intro m; subst h; unfold put; rw [if_pos rfl]
        · right; exact row t ht h
      · rw [mem_cols]; omega
      · intro m; unfold put; rw [if_pos rfl]
    refine (fold_set _ g a _ ?_ _).1 ⟨i, List.mem_range.2 hi, self⟩
    intro t ht
    by_cases h : t = i
    · left; subst h; exact self
    · right; exact other t ht h
  · rw [if_neg hin]
    have self : ∀ m, g m i a = m a := by
      intro m
      have hr : ∀ t ∈ cols (max 0 ((i : ℤ) - F)) (min ((N : ℤ) - 1) (i + F)), ∀ m : ℤ → 𝕜,
          put m (t * N + i) ((w (t - i).natAbs : ℝ) : 𝕜) a = m a := by
        intro t ht
        refine row t ht ?_
        rintro rfl
        rw [mem_cols] at ht
        omega
      exact (fold_set _ _ a 0 (fun t ht => Or.inr (hr t ht)) m).2 hr
    have hall : ∀ t ∈ List.range N, ∀ m, g m t a = m a := by
      intro t ht
      by_cases h : t = i
      · subst h; exact self
      · exact other t ht h
    exact (fold_set _ g a 0 (fun t ht => Or.inr (hall t ht)) _).2 hall

theorem wrap_eq {F N i i0 j0 : ℕ} {j : ℤ} (hF : F ≤ N) (hi : i < N) (hi0 : i0 < N)
    (hj : (i : ℤ) - F ≤ j) : wrapAddr N i j = (j0 : ℤ) * N + i0 ↔ i = i0 ∧ j % N = j0 := by
  unfold wrapAddr
  rw [Int.tmod_eq_emod_of_nonneg (by omega), Int.add_emod_right]
  constructor
  · intro h
    have := addr_inj hi hi0 h
    exact ⟨this.2, this.1⟩
  · rintro ⟨rfl, h⟩
    rw [h]

/-- Value added for the column `j`. -/
def term (w : ℕ → ℝ) (N : ℕ) (phase : 𝕜) (i : ℕ) (j : ℤ) : 𝕜 :=
  if j < 0 then ((w (j - i).natAbs : ℝ) : 𝕜) * conj phase
  else if N ≤ j then ((w (j - i).natAbs : ℝ) : 𝕜) * phase
  else ((w (j - i).natAbs : ℝ) : 𝕜)

theorem bloch_entry (F : ℕ) (w : ℕ → ℝ) (N : ℕ) (phase : 𝕜) (i j : ℕ) (hF : F ≤ N) (hi : i < N) :
    lapBloch F w N phase ((j : ℤ) * N + i) =
      ∑ t ∈ Finset.Icc ((i : ℤ) - F) (i + F), if t % N = j then term w N phase i t else 0 := by
  unfold lapBloch
  set a : ℤ := (j : ℤ) * N + i with ha
  have inner : ∀ (i' : ℕ) (m : ℤ → 𝕜), (cols ((i' : ℤ) - F) (i' + F)).foldl (fun m j =>
      put m (wrapAddr N i' j) (m (wrapAddr N i' j) + term w N phase i' j)) m a = m a +
        ((cols ((i' : ℤ) - F) (i' + F)).map fun t => if wrapAddr N i' t = a then term w N phase i' t else 0).sum := by
    intro i' m
    refine fold_add _ _ a _ ?_ m
    intro t _ m
    unfold put
    by_cases h : a = wrapAddr N i' t
    · rw [if_pos h, if_pos h.symm, h]
    · rw [if_neg h, if_neg (Ne.symm h), add_zero]
  refine (fold_add _ _ a (fun (i' : ℕ) => ((cols ((i' : ℤ) - F) (i' + F)).map fun t =>
    if wrapAddr N i' t = a then term w N phase i' t else 0).sum) (fun i' _ m => inner i' m) _).trans ?_
  rw [zero_add, sum_rangeL, Finset.sum_eq_single i]
  · rw [sum_cols]
    refine Finset.sum_congr rfl fun t ht => ?_
    rw [Finset.mem_Icc] at ht
    simp only [ha, wrap_eq hF hi hi ht.1, true_and]
  · intro i' hi' hne
    rw [Finset.mem_range] at hi'
    rw [sum_cols]
    refine Finset.sum_eq_zero fun t ht => ?_
    rw [Finset.mem_Icc] at ht
    rw [if_neg]
    rw [ha, wrap_eq hF hi' hi ht.1]
    exact fun h => hne h.1
  · intro h; exact absurd (Finset.mem_range.2 hi) h

theorem periodic_eq_bloch (F : ℕ) (w : ℕ → ℝ) (N : ℕ) :
    lapPeriodic (𝕜 := 𝕜) F w N = lapBloch F w N 1 := by
  unfold lapPeriodic lapBloch
  simp only [map_one, mul_one, ite_self]

/-! ## Spec of the one-dimensional operators -/

/-- Row `i` of the matrix `A` applied to `u`. -/
theorem bloch_apply (F : ℕ) (w : ℕ → ℝ) (N : ℕ) (phase : 𝕜) (hp : conj phase * phase = 1) (u : ℕ → 𝕜) (i : ℕ)
    (hF : F ≤ N) (hi : i < N) :
    ∑ j ∈ Finset.range N, lapBloch F w N phase ((j : ℤ) * N + i) * u j =
      ∑ d ∈ Finset.Icc (-(F : ℤ)) F, ((w d.natAbs : ℝ) : 𝕜) *
        (phase ^ ((i + d) / (N : ℤ)) * u ((i + d) % (N : ℤ)).toNat) := by
  have hN : (0 : ℤ) < N := by omega
  have hph : phase⁻¹ = conj phase := by
    have h0 : phase ≠ 0 := by rintro rfl; simp at hp
    field_simp
    rw [mul_comm]; exact hp.symm
  have e1 : ∀ j ∈ Finset.range N, lapBloch F w N phase ((j : ℤ) * N + i) * u j =
      ∑ t ∈ Finset.Icc ((i : ℤ) - F) (i + F), if t % N = (j : ℤ) then term w N phase i t * u (t % (N : ℤ)).toNat
        else 0 := by
    intro j hj
    rw [bloch_entry F w N phase i j hF hi, Finset.sum_mul]
    refine Finset.sum_congr rfl fun t _ => ?_
    split_ifs with h
    · rw [h]; rfl
    · rw [zero_mul]
  rw [Finset.sum_congr rfl e1, Finset.sum_comm]
  have e2 : ∀ t ∈ Finset.Icc ((i : ℤ) - F) (i + F), (∑ j ∈ Finset.range N,
      if t % N = (j : ℤ) then term w N phase i t * u (t % (N : ℤ)).toNat else 0) =
      term w N phase i t * u (t % (N : ℤ)).toNat := by
    intro t _
    have h0 := Int.emod_nonneg t hN.ne'
    have h1 := Int.emod_lt_of_pos t hN
    rw [Finset.sum_eq_single (t % (N : ℤ)).toNat]
    · rw [if_pos (by omega)]
    · intro j _ hne; rw [if_neg (by omega)]
    · intro h; exact absurd (Finset.mem_range.2 (by omega)) h
  rw [Finset.sum_congr rfl e2]
  refine Finset.sum_nbij' (fun t => t - i) (fun d => i + d) ?_ ?_ ?_ ?_ ?_
  · intro t ht; rw [Finset.mem_Icc] at ht ⊢; omega
  · intro t ht; rw [Finset.mem_Icc] at ht ⊢; omega
  · intro t _; ring
  · intro t _; ring
  · intro t ht
    rw [Finset.mem_Icc] at ht
    have : (i : ℤ) + (t - i) = t := by ring
    rw [this, ← mul_assoc]
    congr 1
    unfold term
    split_ifs with h1 h2
    · have : t / (N : ℤ) = -1 := by
        rw [Int.ediv_eq_iff_of_pos hN]; constructor <;> linarith [hF]
      rw [this, zpow_neg_one, hph]
    · have : t / (N : ℤ) = 1 := by
        rw [Int.ediv_eq_iff_of_pos hN]; constructor <;> linarith
      rw [this, zpow_one]
    · have : t / (N : ℤ) = 0 := Int.ediv_eq_zero_of_lt (by omega) (by omega)
      rw [this, zpow_zero, mul_one]

theorem dirichlet_apply (F : ℕ) (w : ℕ → ℝ) (N : ℕ) (u : ℕ → 𝕜) (i : ℕ) (hi : i < N) :
    ∑ j ∈ Finset.range N, lapDirichlet (𝕜 := 𝕜) F w N ((j : ℤ) * N + i) * u j =
      ∑ d ∈ Finset.Icc (-(F : ℤ)) F, ((w d.natAbs : ℝ) : 𝕜) *
        (if 0 ≤ i + d ∧ i + d < N then u (i + d).toNat else 0) := by
  have e1 : ∀ j ∈ Finset.range N, lapDirichlet (𝕜 := 𝕜) F w N ((j : ℤ) * N + i) * u j =
      if ((j : ℤ) - i).natAbs ≤ F then ((w ((j : ℤ) - i).natAbs : ℝ) : 𝕜) * u j else 0 := by
    intro j hj
    rw [dirichlet_entry F w N i j hi (Finset.mem_range.1 hj)]
    split_ifs
    · rfl
    · rw [zero_mul]
  rw [Finset.sum_congr rfl e1, ← Finset.sum_filter]
  simp only [mul_ite, mul_zero]
  rw [← Finset.sum_filter]
  refine Finset.sum_nbij' (fun j => (j : ℤ) - i) (fun d => (i + d).toNat) ?_ ?_ ?_ ?_ ?_
  · intro j hj
    simp only [Finset.mem_filter, Finset.mem_range, Finset.mem_Icc] at hj ⊢
    omega
  · intro j hj
    simp only [Finset.mem_filter, Finset.mem_range, Finset.mem_Icc] at hj ⊢
    omega
  · intro j hj
    simp only [Finset.mem_filter, Finset.mem_range] at hj
    omega
  · intro j hj
    simp only [Finset.mem_filter, Finset.mem_Icc] at hj
    omega
  · intro j hj
    have : ((i : ℤ) + ((j : ℤ) - i)).toNat = j := by omega
    rw [this]

/-! ## Symmetry -/

theorem dirichlet_symm (F : ℕ) (w : ℕ → ℝ) (N i j : ℕ) (hi : i < N) (hj : j < N) :
    lapDirichlet (𝕜 := 𝕜) F w N ((j : ℤ) * N + i) = conj (lapDirichlet (𝕜 := 𝕜) F w N ((i : ℤ) * N + j)) := by
  rw [dirichlet_entry F w N i j hi hj, dirichlet_entry F w N j i hj hi]
  have : ((i : ℤ) - j).natAbs = ((j : ℤ) - i).natAbs := by omega
  rw [this]
  split_ifs <;> simp

theorem bloch_symm (F : ℕ) (w : ℕ → ℝ) (N : ℕ) (phase : 𝕜) (i j : ℕ) (hF : F ≤ N) (hi : i < N) (hj : j < N) :
    lapBloch F w N phase ((j : ℤ) * N + i) = conj (lapBloch F w N phase ((i : ℤ) * N + j)) := by
  have hN : (0 : ℤ) < N := by omega
  rw [bloch_entry F w N phase i j hF hi, bloch_entry F w N phase j i hF hj, map_sum]
  refine Finset.sum_nbij' (fun t => i + j - t) (fun t => i + j - t) ?_ ?_ ?_ ?_ ?_
  · intro t ht; rw [Finset.mem_Icc] at ht ⊢; omega
  · intro t ht; rw [Finset.mem_Icc] at ht ⊢; omega
  · intro t _; ring
  · intro t _; ring
  · intro t ht
    rw [Finset.mem_Icc] at ht
    have hiff : t % (N : ℤ) = j ↔ ((i : ℤ) + j - t) % (N : ℤ) = i := by
      constructor
      · intro h
        have h1 := Int.mul_ediv_add_emod t N
        have h2 : (i : ℤ) + j - t = i + N * (-(t / N)) := by rw [h] at h1; linarith
        rw [h2, Int.add_mul_emod_self_left, Int.emod_eq_of_lt (by omega) (by omega)]
      · intro h
        have h1 := Int.mul_ediv_add_emod ((i : ℤ) + j - t) N
        have h2 : t = j + N * (-(((i : ℤ) + j - t) / N)) := by rw [h] at h1; linarith
        rw [h2, Int.add_mul_emod_self_left, Int.emod_eq_of_lt (by omega) (by omega)]
    by_cases h : t % (N : ℤ) = j
    · rw [if_pos h, if_pos (hiff.1 h)]
      have h1 := Int.mul_ediv_add_emod t N
      rw [h] at h1
      generalize t / (N : ℤ) = q at h1
      have habs : ((i : ℤ) + j - t - j).natAbs = (t - i).natAbs := by omega
      unfold term
      rw [habs]
      rcases lt_trichotomy q 0 with hq | hq | hq
      · have h3 : (N : ℤ) * q ≤ N * (-1) := mul_le_mul_of_nonneg_left (by omega) (by omega)
        rw [if_pos (by linarith [(Nat.cast_lt (α := ℤ)).2 hj]), if_neg (by omega), if_pos (by omega)]
        simp
      · rw [hq, mul_zero] at h1
        rw [if_neg (by omega), if_neg (by omega), if_neg (by omega), if_neg (by omega)]
        simp
      · have h3 : (N : ℤ) * 1 ≤ N * q := mul_le_mul_of_nonneg_left (by omega) (by omega)
        rw [if_neg (by omega), if_pos (by omega), if_pos (by omega)]
        simp
    · rw [if_neg h, if_neg (fun h' => h (hiff.2 h')), map_zero]

end Sparc.Kron

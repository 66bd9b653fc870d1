import Verif.D3.Three

/-! The derivative of the energy along a path, and what the last loop makes of it. -/

namespace Sparc.D3

open Classical Filter Topology

variable {I : Inp} {v : ℕ → Fin 3 → ℝ} {M : Fin 3 → Fin 3 → ℝ}

theorem mem_slots2 {I : Inp} {s : ℕ × ℕ × Img × ℕ} (h : s ∈ I.slots2) :
    s.1 < I.natom ∧ s.2.1 ≤ s.1 ∧ s.2.2.1 ∈ box I.nEG ∧ (s.2.2.2 : ℤ) = countImage s.2.2.1 I.nEG := by
  unfold Inp.slots2 at h
  simp only [List.mem_flatMap, List.mem_range, List.mem_map] at h
  obtain ⟨i, hi, j, hj, ⟨T, m⟩, hT, rfl⟩ := h
  refine ⟨hi, by simp only; omega, ?_, idx_cells _ _ _ hT⟩
  rw [← mem_cells]
  exact List.fst_mem_of_mem_zipIdx hT

theorem mem_slots3 {I : Inp} {s : ℕ × ℕ × Img × ℕ × Img} (h : s ∈ I.slots3) :
    s.1 < I.natom ∧ s.2.1 ≤ s.1 ∧ s.2.2.2.1 ≤ s.2.1 ∧ s.2.2.1 ∈ box I.nCN ∧ s.2.2.2.2 ∈ box I.nCN ∧
      s.2.2.2.2 - s.2.2.1 ∈ box I.nCN := by
  unfold Inp.slots3 at h
  simp only [List.mem_flatMap, List.mem_range, List.mem_map] at h
  obtain ⟨i, hi, j, hj, T, hT, k, hk, U, hU, rfl⟩ := h
  rw [mem_cells] at hT
  rw [mem_imgs] at hU
  have := scope_mem _ hT hU
  exact ⟨hi, by simp only; omega, by simp only; omega, hT, this.1, this.2⟩

theorem slots2_sum (I : Inp) (g : ℕ → ℕ → Img → ℤ → ℝ) :
    (I.slots2.map fun s => g s.1 s.2.1 s.2.2.1 (s.2.2.2 : ℤ)).sum
      = ∑ i ∈ Finset.range I.natom, ∑ j ∈ Finset.range (i + 1), ∑ T ∈ box I.nEG, g i j T (countImage T I.nEG) := by
  unfold Inp.slots2
  rw [sum_flatMap, sum_range_list]
  refine Finset.sum_congr rfl fun i _ => ?_
  rw [sum_flatMap, sum_range_list]
  refine Finset.sum_congr rfl fun j _ => ?_
  rw [List.map_map, ← sum_cells]
  have : (cells I.nEG).map (fun T => g i j T (countImage T I.nEG))
      = (cells I.nEG).zipIdx.map (fun p => g i j p.1 (countImage p.1 I.nEG)) := by
    conv_lhs => rw [← List.zipIdx_map_fst 0 (cells I.nEG)]
    rw [List.map_map]
    rfl
  rw [this]
  refine congrArg List.sum (List.map_congr_left fun p hp => ?_)
  simp only [Function.comp]
  rw [idx_cells _ _ _ hp]

theorem slots3_sum (I : Inp) (g : ℕ → ℕ → ℕ → Img → Img → ℝ) :
    (I.slots3.map fun s => g s.1 s.2.1 s.2.2.2.1 s.2.2.1 s.2.2.2.2).sum
      = ∑ i ∈ Finset.range I.natom, ∑ j ∈ Finset.range (i + 1), ∑ T ∈ box I.nCN, ∑ k ∈ Finset.range (j + 1),
          ∑ U ∈ boxLH (scopeLo I.nCN T) (scopeHi I.nCN T), g i j k T U := by
  unfold Inp.slots3
  rw [sum_flatMap, sum_range_list]
  refine Finset.sum_congr rfl fun i _ => ?_
  rw [sum_flatMap, sum_range_list]
  refine Finset.sum_congr rfl fun j _ => ?_
  rw [sum_flatMap, ← sum_cells]
  refine congrArg List.sum (List.map_congr_left fun T _ => ?_)
  rw [sum_flatMap, sum_range_list]
  refine Finset.sum_congr rfl fun k _ => ?_
  rw [List.map_map, ← sum_imgs]
  rfl

/-- The energy as the sum of its terms. -/
theorem energy_sum (I : Inp) : I.energy = -(I.slots2.map fun s => I.E2 s.1 s.2.1 s.2.2.1).sum
    + (I.slots3.map fun s => I.E3 s.1 s.2.1 s.2.2.2.1 s.2.2.1 s.2.2.2.2).sum := by
  unfold Inp.energy Inp.acc
  have h3 := foldl_proj (fun a : Acc => a.e6 + a.e8 - a.e63) I.step3
    (fun s => I.E3 s.1 s.2.1 s.2.2.2.1 s.2.2.1 s.2.2.2.2) I.slots3
    (fun a s _ => step3_E I a s.1 s.2.1 s.2.2.2.1 s.2.2.1 s.2.2.2.2)
    (I.slots2.foldl I.step2 ⟨fun _ _ _ => 0, fun _ => 0, 0, 0, 0⟩)
  have h2 := foldl_proj (fun a : Acc => a.e6 + a.e8 - a.e63) I.step2
    (fun s => -I.E2 s.1 s.2.1 s.2.2.1) I.slots2
    (fun a s _ => by rw [step2_E I a s]; ring) ⟨fun _ _ _ => 0, fun _ => 0, 0, 0, 0⟩
  rw [h3, h2]
  have : ∀ l : List (ℕ × ℕ × Img × ℕ), (l.map fun s => -I.E2 s.1 s.2.1 s.2.2.1).sum
      = -(l.map fun s => I.E2 s.1 s.2.1 s.2.2.1).sum := by
    intro l
    induction l with
    | nil => simp
    | cons a l ih => simp only [List.map_cons, List.sum_cons, ih]; ring
  rw [this]
  ring

theorem L_acc (h : Regular I) : I.L v M I.acc = (I.slots2.map fun s => I.f2 v M s.1 s.2.1 s.2.2.1).sum
    + (I.slots3.map fun s => I.f3 v M s.1 s.2.1 s.2.2.2.1 s.2.2.1 s.2.2.2.2).sum := by
  unfold Inp.acc
  rw [foldl_proj (I.L v M) I.step3 (fun s => I.f3 v M s.1 s.2.1 s.2.2.2.1 s.2.2.1 s.2.2.2.2) I.slots3
    (fun a s hs => by
      obtain ⟨h1, h2, h3, h4, h5, h6⟩ := mem_slots3 hs
      exact step3_L h a h1 h2 h3 (h.sub h4) (h.sub h5) (h.sub h6)),
    foldl_proj (I.L v M) I.step2 (fun s => I.f2 v M s.1 s.2.1 s.2.2.1) I.slots2
    (fun a s hs => by
      obtain ⟨h1, h2, h3, h4⟩ := mem_slots2 hs
      exact step2_L h a h1 h2 h3 _ h4)]
  have : I.L v M ⟨fun _ _ _ => 0, fun _ => 0, 0, 0, 0⟩ = 0 := by
    unfold Inp.L Inp.LD Inp.LF
    simp
  rw [this]
  ring

/-- The derivative of the energy along a path is minus what the last loop makes of the accumulated values. -/
theorem hd_energy (h : Regular I) : HasDerivAt (fun t => (I.move v M t).energy) (-I.L v M I.acc) 0 := by
  have h2 := hd_listSum I.slots2 (fun s t => (I.move v M t).E2 s.1 s.2.1 s.2.2.1)
    (fun s => I.f2 v M s.1 s.2.1 s.2.2.1) 0 (fun s hs => by
      obtain ⟨h1, h2, h3, h4⟩ := mem_slots2 hs
      exact hd_E2 h h1 (by omega) h3)
  have h3 := hd_listSum I.slots3 (fun s t => (I.move v M t).E3 s.1 s.2.1 s.2.2.2.1 s.2.2.1 s.2.2.2.2)
    (fun s => -I.f3 v M s.1 s.2.1 s.2.2.2.1 s.2.2.1 s.2.2.2.2) 0 (fun s hs => by
      obtain ⟨h1, h2, h3, h4, h5, h6⟩ := mem_slots3 hs
      exact hd_E3 h h1 (by omega) (by omega) (h.sub h4) (h.sub h5) (h.sub h6))
  have e : ∀ t, (I.move v M t).energy = -(I.slots2.map fun s => (I.move v M t).E2 s.1 s.2.1 s.2.2.1).sum
      + (I.slots3.map fun s => (I.move v M t).E3 s.1 s.2.1 s.2.2.2.1 s.2.2.1 s.2.2.2.2).sum := fun t =>
    energy_sum (I.move v M t)
  simp only [e]
  refine (h2.neg.add h3).congr_deriv ?_
  rw [L_acc h]
  have : ∀ l : List (ℕ × ℕ × Img × ℕ × Img), (l.map fun s => -I.f3 v M s.1 s.2.1 s.2.2.2.1 s.2.2.1 s.2.2.2.2).sum
      = -(l.map fun s => I.f3 v M s.1 s.2.1 s.2.2.2.1 s.2.2.1 s.2.2.2.2).sum := by
    intro l
    induction l with
    | nil => simp
    | cons a l ih => simp only [List.map_cons, List.sum_cons, ih]; ring
  rw [this]
  ring

theorem tri_sum (n : ℕ) (H : ℕ → ℕ → ℝ) : ∑ i ∈ Finset.range n, ∑ j ∈ Finset.range n, H i j
    = ∑ i ∈ Finset.range n, ∑ j ∈ Finset.range (i + 1), (if i ≠ j then H i j + H j i else H i j) := by
  induction n with
  | zero => simp
  | succ n ih =>
    rw [Finset.sum_range_succ _ n, Finset.sum_congr rfl fun i _ => Finset.sum_range_succ (H i) n,
      Finset.sum_add_distrib, ih, Finset.sum_range_succ _ n, Finset.sum_range_succ _ n, Finset.sum_range_succ _ n]
    have : ∑ j ∈ Finset.range n, (if n ≠ j then H n j + H j n else H n j)
        = ∑ j ∈ Finset.range n, H n j + ∑ j ∈ Finset.range n, H j n := by
      rw [← Finset.sum_add_distrib]
      refine Finset.sum_congr rfl fun j hj => ?_
      rw [if_pos (by simp only [Finset.mem_range] at hj; omega)]
    rw [this]
    simp
    ring

theorem sep_neg (I : Inp) (i j : ℕ) (T : Img) (d : Fin 3) : I.sep j i (-T) d = -I.sep i j T d := by
  simp only [Inp.sep, Prod.fst_neg, Prod.snd_neg]; push_cast; ring

theorem sep2_neg (I : Inp) (i j : ℕ) (T : Img) : I.sep2 j i (-T) = I.sep2 i j T := by
  simp only [Inp.sep2, sep_neg, neg_sq]

theorem vel_neg (v M) (i j : ℕ) (T : Img) (d : Fin 3) : vel v M j i (-T) d = -vel v M i j T d := by
  simp only [vel, Prod.fst_neg, Prod.snd_neg]; push_cast; ring

theorem w_neg (I : Inp) (v M) (i j : ℕ) (T : Img) : I.w v M j i (-T) = I.w v M i j T := by
  simp only [Inp.w, sep_neg, vel_neg, sep2_neg, neg_mul_neg]

theorem dCN_neg (I : Inp) (i j : ℕ) (T : Img) : I.dCN j i (-T) = I.dCN i j T := by
  simp only [Inp.dCN, distB_eq, sep2_neg, add_comm (I.rcov j)]

theorem box_neg (n : Fin 3 → ℤ) (f : Img → ℝ) : ∑ T ∈ box n, f (-T) = ∑ T ∈ box n, f T := by
  refine Finset.sum_nbij' (fun T => -T) (fun T => -T) ?_ ?_ ?_ ?_ ?_
  · intro T hT; rw [mem_box] at *; simp only [Prod.fst_neg, Prod.snd_neg]; omega
  · intro T hT; rw [mem_box] at *; simp only [Prod.fst_neg, Prod.snd_neg]; omega
  · intro T _; simp
  · intro T _; simp
  · intro T _; rfl

theorem LF_eq (h : Regular I) (F : ℕ → ℝ) : I.LF v M F
    = ∑ i ∈ Finset.range I.natom, ∑ j ∈ Finset.range (i + 1), ∑ T ∈ box I.nEG,
        if I.valid i j T then I.dCN i j T * (if i ≠ j then F i + F j else F i) * I.w v M i j T else 0 := by
  have hz : ∀ i j T, ¬ I.sep2 i j T < I.cnThr → I.dCN i j T = 0 := fun i j T hn => by
    unfold Inp.dCN
    simp only [distB_eq]
    rw [if_neg fun hh => hn hh.1]
  set G : ℕ → ℕ → ℝ := fun i j => ∑ T ∈ box I.nEG, I.dCN i j T * I.w v M i j T with hG
  have h1 : ∀ i ∈ Finset.range I.natom, F i * I.CN' v M i = ∑ j ∈ Finset.range I.natom, F i * G i j := by
    intro i hi
    rw [← Finset.mul_sum]
    congr 1
    unfold Inp.CN'
    refine Finset.sum_congr rfl fun j hj => ?_
    refine Finset.sum_subset h.sub fun T hT hT' => ?_
    rw [hz i j T, zero_mul]
    intro hlt
    exact hT' (h.cover i (Finset.mem_range.1 hi) j (Finset.mem_range.1 hj) T hT hlt)
  have h2 : ∀ i j, G j i = G i j := fun i j => by
    simp only [hG]
    rw [← box_neg]
    exact Finset.sum_congr rfl fun T _ => by rw [dCN_neg, w_neg]
  unfold Inp.LF
  rw [Finset.sum_congr rfl h1, tri_sum]
  refine Finset.sum_congr rfl fun i hi => Finset.sum_congr rfl fun j hj => ?_
  have hi := Finset.mem_range.1 hi
  have hj := Finset.mem_range.1 hj
  have e : (if i ≠ j then F i * G i j + F j * G j i else F i * G i j) = (if i ≠ j then F i + F j else F i) * G i j := by
    rw [h2]; split <;> ring
  rw [e]
  simp only [hG]
  rw [Finset.mul_sum]
  refine Finset.sum_congr rfl fun T hT => ?_
  by_cases hv : I.valid i j T
  · rw [if_pos hv]; ring
  · rw [if_neg hv]
    have : I.dCN i j T = 0 := by
      unfold Inp.valid at hv
      push Not at hv
      rcases hv with ⟨hij, h3⟩ | ⟨hij, h3⟩
      · rcases h3 with h3 | h3
        · exact hz i j T (not_lt.2 (h.thr.trans h3.le))
        · exact absurd h3 (not_lt.2 (h.apart i hi j (by omega) hij T hT).le)
      · unfold Inp.dCN
        simp only [distB_eq]
        rw [if_neg fun hh => absurd h3 (not_lt.2 hh.2.le)]
    rw [this]; ring

theorem L_eq (h : Regular I) (a : Acc) : I.L v M a
    = (I.slots2.map fun s => if I.valid s.1 s.2.1 s.2.2.1 then
        I.xi a s.1 s.2.1 s.2.2.1 (s.2.2.2 : ℤ) * I.w v M s.1 s.2.1 s.2.2.1 else 0).sum := by
  rw [slots2_sum I fun i j T m => if I.valid i j T then I.xi a i j T m * I.w v M i j T else 0]
  unfold Inp.L
  rw [LF_eq h, Inp.LD, ← Finset.sum_add_distrib]
  refine Finset.sum_congr rfl fun i _ => ?_
  rw [← Finset.sum_add_distrib]
  refine Finset.sum_congr rfl fun j _ => ?_
  rw [← Finset.sum_add_distrib]
  refine Finset.sum_congr rfl fun T _ => ?_
  unfold Inp.xi
  split
  · split <;> ring
  · ring

/-- What one pass of the last loop adds to the product of the gradient with a displacement. -/
theorem stepOut_grads (I : Inp) (a : Acc) (o : Out) (v : ℕ → Fin 3 → ℝ) {s : ℕ × ℕ × Img × ℕ} (hi : s.1 < I.natom)
    (hj : s.2.1 ≤ s.1) :
    ∑ b ∈ Finset.range I.natom, ∑ d : Fin 3, (I.stepOut a o s).grads b d * v b d
      = ∑ b ∈ Finset.range I.natom, ∑ d : Fin 3, o.grads b d * v b d
        + -(if I.valid s.1 s.2.1 s.2.2.1 then
          I.xi a s.1 s.2.1 s.2.2.1 (s.2.2.2 : ℤ) * I.w v (fun _ _ => 0) s.1 s.2.1 s.2.2.1 else 0) := by
  obtain ⟨i, j, T, m⟩ := s
  simp only at hi hj ⊢
  unfold Inp.stepOut Inp.valid
  simp only [distB_eq, ijVec_eq]
  split
  · simp
  · rename_i hs
    by_cases hij : i = j
    · subst hij
      simp only [ne_eq, not_true_eq_false, if_false]
      have : I.w v (fun _ _ => 0) i i T = 0 := by
        simp [Inp.w, vel]
      rw [this]; simp
    · simp only [ne_eq, hij, not_false_eq_true, if_true]
      set q : Fin 3 → ℝ := fun d => I.xi a i j T m * I.sep i j T d / Real.sqrt (I.sep2 i j T) with hq
      have e : ∀ b ∈ Finset.range I.natom, (∑ d : Fin 3,
          (if b = i then o.grads b d + q d else if b = j then o.grads b d - q d else o.grads b d) * v b d)
          = ∑ d : Fin 3, o.grads b d * v b d + ((if b = i then ∑ d : Fin 3, q d * v i d else 0)
            - (if b = j then ∑ d : Fin 3, q d * v j d else 0)) := by
        intro b _
        by_cases h1 : b = i
        · subst h1
          simp only [if_true, if_neg hij]
          rw [sub_zero, ← Finset.sum_add_distrib]
          exact Finset.sum_congr rfl fun d _ => by ring
        · by_cases h2 : b = j
          · subst h2
            simp only [if_true, if_neg h1]
            rw [zero_sub, ← sub_eq_add_neg, ← Finset.sum_sub_distrib]
            exact Finset.sum_congr rfl fun d _ => by ring
          · simp [h1, h2]
      rw [Finset.sum_congr rfl e, Finset.sum_add_distrib, Finset.sum_sub_distrib, Finset.sum_ite_eq',
        Finset.sum_ite_eq', if_pos (Finset.mem_range.2 hi), if_pos (Finset.mem_range.2 (by omega))]
      congr 1
      simp only [hq, Inp.w, vel, Fin.sum_univ_three]
      ring

theorem stepOut_sigma (I : Inp) (a : Acc) (o : Out) (ε : Fin 3 → Fin 3 → ℝ) (s : ℕ × ℕ × Img × ℕ) :
    ∑ r : Fin 3, ∑ c : Fin 3, (I.stepOut a o s).sigma r c * ε r c
      = ∑ r : Fin 3, ∑ c : Fin 3, o.sigma r c * ε r c
        + (if I.valid s.1 s.2.1 s.2.2.1 then
          I.xi a s.1 s.2.1 s.2.2.1 (s.2.2.2 : ℤ) * I.w (fun b d => ∑ c : Fin 3, ε d c * I.pos b c)
            (fun r d => ∑ c : Fin 3, ε d c * I.lat r c) s.1 s.2.1 s.2.2.1 else 0) := by
  obtain ⟨i, j, T, m⟩ := s
  simp only
  unfold Inp.stepOut Inp.valid
  simp only [distB_eq, ijVec_eq]
  split
  · simp
  · rename_i hs
    simp only [Inp.w, vel, Fin.sum_univ_three]
    have : ∀ d, I.sep i j T d = I.pos j d + (T.1 * I.lat 0 d + T.2.1 * I.lat 1 d + T.2.2 * I.lat 2 d) - I.pos i d :=
      fun d => rfl
    generalize Real.sqrt (I.sep2 i j T) = q
    simp only [this]
    ring

end Sparc.D3

import Verif.D3.Coeff

/-! The derivative of every term of the energy is minus what the code adds to `drij` and `FdivR6mulDC6`. -/

namespace Sparc.D3

open Classical Filter Topology

variable {I : Inp} {v : ℕ → Fin 3 → ℝ} {M : Fin 3 → Fin 3 → ℝ}

/-- The pairs the last loop does not skip. -/
def Inp.valid (I : Inp) (i j : ℕ) (T : Img) : Prop :=
  ¬ ((i ≠ j ∧ (I.sep2 i j T > I.rThr ∨ I.sep2 i j T < 0.5)) ∨ (i = j ∧ I.sep2 i j T < 1e-15))

/-- The use the last loop makes of `drij`. -/
noncomputable def Inp.LD (I : Inp) (v : ℕ → Fin 3 → ℝ) (M : Fin 3 → Fin 3 → ℝ) (D : Drij) : ℝ :=
  ∑ i ∈ Finset.range I.natom, ∑ j ∈ Finset.range (i + 1), ∑ T ∈ box I.nEG,
    if I.valid i j T then D (countImage T I.nEG) i j * I.w v M i j T else 0

/-- The use the last loop makes of `FdivR6mulDC6`. -/
noncomputable def Inp.LF (I : Inp) (v : ℕ → Fin 3 → ℝ) (M : Fin 3 → Fin 3 → ℝ) (F : ℕ → ℝ) : ℝ :=
  ∑ i ∈ Finset.range I.natom, F i * I.CN' v M i

theorem LD_add (I : Inp) (v M) (D : Drij) {i j : ℕ} {T : Img} (hi : i < I.natom) (hj : j ≤ i) (hT : T ∈ box I.nEG)
    (hv : I.valid i j T) (x : ℝ) :
    I.LD v M (D.add (countImage T I.nEG) i j x) = I.LD v M D + x * I.w v M i j T := by
  have h1 : ∀ a ∈ Finset.range I.natom, ∀ b ∈ Finset.range (a + 1), ∀ U ∈ box I.nEG,
      (if I.valid a b U then D.add (countImage T I.nEG) i j x (countImage U I.nEG) a b * I.w v M a b U else 0)
      = (if I.valid a b U then D (countImage U I.nEG) a b * I.w v M a b U else 0)
        + (if U = T then if b = j then if a = i then x * I.w v M i j T else 0 else 0 else 0) := by
    intro a _ b _ U hU
    unfold Drij.add
    by_cases h : U = T ∧ a = i ∧ b = j
    · obtain ⟨rfl, rfl, rfl⟩ := h
      simp only [and_self, if_true, if_pos hv]
      ring
    · have h' : ¬ (countImage U I.nEG = countImage T I.nEG ∧ a = i ∧ b = j) := fun hh =>
        h ⟨countImage_inj _ _ _ hU hT hh.1, hh.2⟩
      rw [if_neg h']
      have : (if U = T then if b = j then if a = i then x * I.w v M i j T else 0 else 0 else 0) = (0 : ℝ) := by
        split_ifs with h1 h2 h3
        · exact absurd ⟨h1, h3, h2⟩ h
        · rfl
        · rfl
        · rfl
      rw [this, add_zero]
  unfold Inp.LD
  rw [Finset.sum_congr rfl fun a ha => Finset.sum_congr rfl fun b hb => Finset.sum_congr rfl (h1 a ha b hb)]
  simp only [Finset.sum_add_distrib]
  congr 1
  rw [Finset.sum_eq_single i, Finset.sum_eq_single j, Finset.sum_eq_single T]
  · simp
  · intro U _ hU; simp [hU]
  · intro h; exact absurd hT h
  · intro b _ hb; exact Finset.sum_eq_zero fun U _ => by simp [hb]
  · intro h; exact absurd (Finset.mem_range.2 (by omega)) h
  · intro a _ ha; exact Finset.sum_eq_zero fun b _ => Finset.sum_eq_zero fun U _ => by simp [ha]
  · intro h; exact absurd (Finset.mem_range.2 hi) h

theorem LD_mirror (I : Inp) (v M) (D : Drij) {i j : ℕ} (m : ℤ) (hj : j ≤ i) :
    I.LD v M (D.mirror m i j) = I.LD v M D := by
  unfold Inp.LD
  refine Finset.sum_congr rfl fun a _ => Finset.sum_congr rfl fun b hb => Finset.sum_congr rfl fun U _ => ?_
  have : D.mirror m i j (countImage U I.nEG) a b = D (countImage U I.nEG) a b := by
    unfold Drij.mirror
    split
    · rename_i h
      obtain ⟨h1, h2, h3⟩ := h
      have : a = b := by simp only [Finset.mem_range] at hb; omega
      rw [h1]
      congr 1 <;> omega
    · rfl
  rw [this]

theorem LF_add (I : Inp) (v M) (F : ℕ → ℝ) {i : ℕ} (hi : i < I.natom) (x : ℝ) :
    I.LF v M (addF F i x) = I.LF v M F + x * I.CN' v M i := by
  unfold Inp.LF addF
  have : ∀ a ∈ Finset.range I.natom, (if a = i then F a + x else F a) * I.CN' v M a
      = F a * I.CN' v M a + (if a = i then x * I.CN' v M a else 0) := fun a _ => by
    split <;> ring
  rw [Finset.sum_congr rfl this, Finset.sum_add_distrib, Finset.sum_ite_eq', if_pos (Finset.mem_range.2 hi)]

/-- What the last loop makes of the accumulated values. -/
noncomputable def Inp.L (I : Inp) (v : ℕ → Fin 3 → ℝ) (M : Fin 3 → Fin 3 → ℝ) (a : Acc) : ℝ :=
  I.LD v M a.drij + I.LF v M a.F

/-- The factor of a pair. -/
noncomputable def half (i j : ℕ) : ℝ := if i = j then 1 / 2 else 1

/-- A term of `-(e6 + e8)`. -/
noncomputable def Inp.E2 (I : Inp) (i j : ℕ) (T : Img) : ℝ :=
  if I.sep2 i j T > I.rThr ∨ I.sep2 i j T < 1e-15 then 0 else
    half i j * (1 / I.sep2 i j T ^ 3 * (1 / (1 + 6 * (I.rs6 * (I.r0 i j / Real.sqrt (I.sep2 i j T))) ^ 14))
        * (I.pair i j).1
      + 3 * I.s8 * (I.r2r4 i * I.r2r4 j) / (I.sep2 i j T ^ 3 * I.sep2 i j T)
        * (1 / (1 + 6 * (1 * (I.r0 i j / Real.sqrt (I.sep2 i j T))) ^ 16)) * (I.pair i j).1)

/-- What the code adds for it. -/
noncomputable def Inp.f2 (I : Inp) (v : ℕ → Fin 3 → ℝ) (M : Fin 3 → Fin 3 → ℝ) (i j : ℕ) (T : Img) : ℝ :=
  if I.sep2 i j T > I.rThr ∨ I.sep2 i j T < 1e-15 then 0 else
    let r := Real.sqrt (I.sep2 i j T)
    let t6 := (I.rs6 * (I.r0 i j / r)) ^ 14
    let t8 := (1 * (I.r0 i j / r)) ^ 16
    let d6 := 1 / (1 + 6 * t6)
    let d8 := 1 / (1 + 6 * t8)
    let m := I.r2r4 i * I.r2r4 j
    let a6 := 1 * 6 * d6 * (I.pair i j).1 / (I.sep2 i j T ^ 3 * r)
    let a8 := I.s8 * 6 * (I.pair i j).1 * m * d8 / (I.sep2 i j T ^ 3 * I.sep2 i j T * r)
    half i j * ((-(a6 + 4 * a8) + (a6 * 14 * t6 * d6 + 3 * a8 * 16 * t8 * d8)) * I.w v M i j T
      + (1 / I.sep2 i j T ^ 3 * d6 + 3 * I.s8 * m / (I.sep2 i j T ^ 3 * I.sep2 i j T) * d8)
        * ((I.pair i j).2.1 * I.CN' v M i + (I.pair i j).2.2 * I.CN' v M j))

theorem hd_E2 (h : Regular I) {i j : ℕ} (hi : i < I.natom) (hj : j < I.natom) {T : Img} (hT : T ∈ box I.nEG) :
    HasDerivAt (fun t => (I.move v M t).E2 i j T) (I.f2 v M i j T) 0 := by
  have hc := cont_sep2 I v M i j T
  rcases h.far hi hj hT with ⟨rfl, rfl⟩ | hd
  · have e1 : I.f2 v M i i 0 = 0 := by
      unfold Inp.f2; rw [if_pos (Or.inr (by rw [sep2_self]; norm_num))]
    rw [e1]
    refine hd_ite_pos (Eventually.of_forall fun t => Or.inr (by rw [sep2_self]; norm_num)) (hasDerivAt_const _ _)
  · rcases lt_or_gt_of_ne (h.offR i hi j hj T hT) with hlt | hgt
    · have hpos : 0 < I.sep2 i j T := lt_trans (by norm_num) hd
      have hev : ∀ᶠ t in 𝓝 (0 : ℝ), ¬ ((I.move v M t).sep2 i j T > I.rThr ∨ (I.move v M t).sep2 i j T < 1e-15) := by
        have a1 : ∀ᶠ t in 𝓝 (0 : ℝ), (I.move v M t).sep2 i j T < I.rThr :=
          hc.eventually_lt continuousAt_const (by rw [move_zero]; exact hlt)
        have a2 : ∀ᶠ t in 𝓝 (0 : ℝ), 1e-15 < (I.move v M t).sep2 i j T :=
          continuousAt_const.eventually_lt hc (by rw [move_zero]; exact hd)
        filter_upwards [a1, a2] with t h1 h2
        rintro (h3 | h3)
        · exact absurd h3 (not_lt.2 h1.le)
        · exact absurd h3 (not_lt.2 h2.le)
      have e0 : ¬ (I.sep2 i j T > I.rThr ∨ I.sep2 i j T < 1e-15) := by
        rintro (h3 | h3)
        · exact absurd h3 (not_lt.2 hlt.le)
        · exact absurd h3 (not_lt.2 hd.le)
      have hr := hd_sep I v M i j T hpos
      have hr0 : 0 < Real.sqrt ((I.move v M 0).sep2 i j T) := by rw [move_zero]; exact Real.sqrt_pos.2 hpos
      have hp := hd_pair (v := v) (M := M) h hi hj
      have h6 := (hd_e6 I.rs6 (I.r0 i j) hr hr0).mul hp
      have h8 := ((hd_e8 (I.r0 i j) hr hr0).mul hp).const_mul (3 * I.s8 * (I.r2r4 i * I.r2r4 j))
      have hs := (h6.add h8).const_mul (half i j)
      have sq : ∀ t, Real.sqrt ((I.move v M t).sep2 i j T) ^ 2 = (I.move v M t).sep2 i j T := fun t =>
        Real.sq_sqrt (sep2_nonneg _ _ _ _)
      unfold Inp.f2
      rw [if_neg e0]
      refine hd_ite_neg hev ?_
      refine (hs.congr_of_eventuallyEq (Eventually.of_forall fun t => ?_)).congr_deriv ?_
      · simp only [Pi.mul_apply, Pi.add_apply, sq]
        show half i j * (1 / (I.move v M t).sep2 i j T ^ 3 * (1 / (1 + 6 * (I.rs6 * (I.r0 i j /
            Real.sqrt ((I.move v M t).sep2 i j T))) ^ 14)) * ((I.move v M t).pair i j).1
          + 3 * I.s8 * (I.r2r4 i * I.r2r4 j) / ((I.move v M t).sep2 i j T ^ 3 * (I.move v M t).sep2 i j T)
            * (1 / (1 + 6 * (1 * (I.r0 i j / Real.sqrt ((I.move v M t).sep2 i j T))) ^ 16))
            * ((I.move v M t).pair i j).1) = _
        ring
      · simp only [sq]
        simp only [move_zero]
        ring
    · have e1 : I.f2 v M i j T = 0 := by unfold Inp.f2; rw [if_pos (Or.inl hgt)]
      rw [e1]
      refine hd_ite_pos ?_ (hasDerivAt_const _ _)
      have a1 : ∀ᶠ t in 𝓝 (0 : ℝ), I.rThr < (I.move v M t).sep2 i j T :=
        continuousAt_const.eventually_lt hc (by rw [move_zero]; exact hgt)
      exact a1.mono fun t ht => Or.inl ht

theorem Regular.valid (h : Regular I) {i j : ℕ} (hi : i < I.natom) (hj : j < I.natom) {T : Img} (hT : T ∈ box I.nEG)
    (h1 : ¬ (I.sep2 i j T > I.rThr ∨ I.sep2 i j T < 1e-15)) : I.valid i j T := by
  unfold Inp.valid
  push Not at h1
  rintro (⟨hij, h2⟩ | ⟨_, h2⟩)
  · rcases h2 with h2 | h2
    · exact absurd h2 (not_lt.2 h1.1)
    · exact absurd h2 (not_lt.2 (h.apart i hi j hj hij T hT).le)
  · exact absurd h2 (not_lt.2 h1.2)

theorem step2_E (I : Inp) (a : Acc) (s : ℕ × ℕ × Img × ℕ) :
    (I.step2 a s).e6 + (I.step2 a s).e8 - (I.step2 a s).e63 = a.e6 + a.e8 - a.e63 - I.E2 s.1 s.2.1 s.2.2.1 := by
  unfold Inp.step2 Inp.E2 half
  simp only [distA_eq]
  split
  · ring
  · split
    · simp only; ring
    · simp only; ring

theorem step2_L (h : Regular I) (a : Acc) {i j : ℕ} (hi : i < I.natom) (hj : j ≤ i) {T : Img} (hT : T ∈ box I.nEG)
    (m : ℕ) (hm : (m : ℤ) = countImage T I.nEG) :
    I.L v M (I.step2 a (i, j, T, m)) = I.L v M a + I.f2 v M i j T := by
  unfold Inp.step2 Inp.f2 half
  simp only [distA_eq, hm]
  split
  · simp
  · rename_i hn
    have hv := h.valid hi (by omega) hT hn
    unfold Inp.L
    split
    · rename_i he
      subst he
      simp only
      rw [LD_add I v M _ hi le_rfl hT hv, LD_add I v M _ hi le_rfl hT hv, LF_add I v M _ hi]
      ring
    · rename_i he
      simp only
      rw [LD_mirror I v M _ _ hj, LD_add I v M _ hi hj hT hv, LD_add I v M _ hi hj hT hv,
        LF_add I v M _ (by omega), LF_add I v M _ hi]
      ring

end Sparc.D3

import Verif.D3.Terms

/-! The three-body terms. -/

namespace Sparc.D3

open Classical Filter Topology

variable {I : Inp} {v : ℕ → Fin 3 → ℝ} {M : Fin 3 → Fin 3 → ℝ}

/-- The factor of a triple. -/
noncomputable def wgt (i j k : ℕ) : ℝ := if i = j ∧ i = k then 1 / 6 else if i = j ∨ j = k then 1 / 2 else 1

/-- The damping of a triple as a function of the three squares of distances. -/
noncomputable def Inp.damp3 (I : Inp) (i j k : ℕ) (A B C : ℝ) : ℝ :=
  1 / (1 + 6 * (4 / 3 / (Real.sqrt A / I.r0 i j * (Real.sqrt C / I.r0 i k) * (Real.sqrt B / I.r0 j k))
    ^ ((1 : ℝ) / 3)) ^ 16)

/-- `dFdamp`. -/
noncomputable def Inp.dF3 (I : Inp) (i j k : ℕ) (A B C : ℝ) : ℝ :=
  -2 * 16 * (4 / 3 / (Real.sqrt A / I.r0 i j * (Real.sqrt C / I.r0 i k) * (Real.sqrt B / I.r0 j k))
    ^ ((1 : ℝ) / 3)) ^ 16 * I.damp3 i j k A B C ^ 2

/-- The angular factor as a function of the three squares of distances. -/
noncomputable def ang3 (A B C : ℝ) : ℝ :=
  (0.375 * (A + B - C) * (A + C - B) * (C + B - A) / (A * B * C) + 1) / (A * B * C) ^ (1.5 : ℝ)

/-- The product of the three coefficients. -/
noncomputable def Inp.c9 (I : Inp) (i j k : ℕ) : ℝ := I.sqrtC6 i j * I.sqrtC6 i k * I.sqrtC6 j k

/-- A triple is skipped. -/
def Inp.skip3 (I : Inp) (i j k : ℕ) (T U : Img) : Prop :=
  (I.sep2 i j T > I.cnThr ∨ I.sep2 i j T < 1e-15) ∨ (I.sep2 i k U > I.cnThr ∨ I.sep2 i k U < 1e-15)
    ∨ (I.sep2 j k (U - T) > I.cnThr ∨ I.sep2 j k (U - T) < 1e-15)

/-- A term of `-e63`. -/
noncomputable def Inp.E3 (I : Inp) (i j k : ℕ) (T U : Img) : ℝ :=
  if I.skip3 i j k T U then 0 else
    I.damp3 i j k (I.sep2 i j T) (I.sep2 j k (U - T)) (I.sep2 i k U) * I.c9 i j k
      * ang3 (I.sep2 i j T) (I.sep2 j k (U - T)) (I.sep2 i k U) * wgt i j k

/-- What the code adds for it. -/
noncomputable def Inp.f3 (I : Inp) (v : ℕ → Fin 3 → ℝ) (M : Fin 3 → Fin 3 → ℝ) (i j k : ℕ) (T U : Img) : ℝ :=
  if I.skip3 i j k T U then 0 else
    let A := I.sep2 i j T
    let B := I.sep2 j k (U - T)
    let C := I.sep2 i k U
    let d := I.damp3 i j k A B C
    let dF := I.dF3 i j k A B C
    let a := ang3 A B C
    let c := I.c9 i j k
    (dF / Real.sqrt A * c * a * wgt i j k - dAng A B C (A * B * C) * c * d * wgt i j k) * I.w v M i j T
    + (dF / Real.sqrt B * c * a * wgt i j k - dAng B C A (A * B * C) * c * d * wgt i j k) * I.w v M j k (U - T)
    + (dF / Real.sqrt C * c * a * wgt i j k - dAng C B A (A * B * C) * c * d * wgt i j k) * I.w v M i k U
    + a * d * wgt i j k *
      (-0.5 * c * (I.dC6ij i j / (I.sqrtC6 i j * I.sqrtC6 i j) + I.dC6ij i k / (I.sqrtC6 i k * I.sqrtC6 i k))
          * I.CN' v M i
        + -0.5 * c * (I.dC6ij j i / (I.sqrtC6 i j * I.sqrtC6 i j) + I.dC6ij j k / (I.sqrtC6 j k * I.sqrtC6 j k))
          * I.CN' v M j
        + -0.5 * c * (I.dC6ij k i / (I.sqrtC6 i k * I.sqrtC6 i k) + I.dC6ij k j / (I.sqrtC6 j k * I.sqrtC6 j k))
          * I.CN' v M k)

theorem hd_c9 (h : Regular I) {i j k : ℕ} (hi : i < I.natom) (hj : j < I.natom) (hk : k < I.natom) :
    HasDerivAt (fun t => (I.move v M t).c9 i j k)
      (-(-0.5 * I.c9 i j k * (I.dC6ij i j / (I.sqrtC6 i j * I.sqrtC6 i j) + I.dC6ij i k / (I.sqrtC6 i k * I.sqrtC6 i k))
          * I.CN' v M i
        + -0.5 * I.c9 i j k * (I.dC6ij j i / (I.sqrtC6 i j * I.sqrtC6 i j)
            + I.dC6ij j k / (I.sqrtC6 j k * I.sqrtC6 j k)) * I.CN' v M j
        + -0.5 * I.c9 i j k * (I.dC6ij k i / (I.sqrtC6 i k * I.sqrtC6 i k)
            + I.dC6ij k j / (I.sqrtC6 j k * I.sqrtC6 j k)) * I.CN' v M k)) 0 := by
  have h1 := hd_sqrtC6 (v := v) (M := M) h hi hj
  have h2 := hd_sqrtC6 (v := v) (M := M) h hi hk
  have h3 := hd_sqrtC6 (v := v) (M := M) h hj hk
  have p1 := sqrtC6_pos h hi hj
  have p2 := sqrtC6_pos h hi hk
  have p3 := sqrtC6_pos h hj hk
  refine ((h1.mul h2).mul h3).congr_deriv ?_
  simp only [Pi.mul_apply, move_zero]
  unfold Inp.c9
  field_simp
  ring

theorem hd_damp (I : Inp) {i j k : ℕ} {A B C : ℝ → ℝ} {a b c x : ℝ}
    (hA : HasDerivAt (fun t => Real.sqrt (A t)) a x) (hB : HasDerivAt (fun t => Real.sqrt (B t)) b x)
    (hC : HasDerivAt (fun t => Real.sqrt (C t)) c x) (hA0 : 0 < A x) (hB0 : 0 < B x) (hC0 : 0 < C x)
    (p1 : 0 < I.r0 i j) (p2 : 0 < I.r0 i k) (p3 : 0 < I.r0 j k) :
    HasDerivAt (fun t => I.damp3 i j k (A t) (B t) (C t))
      (-I.dF3 i j k (A x) (B x) (C x) * (a / Real.sqrt (A x) + b / Real.sqrt (B x) + c / Real.sqrt (C x))) x := by
  have qA := Real.sqrt_pos.2 hA0
  have qB := Real.sqrt_pos.2 hB0
  have qC := Real.sqrt_pos.2 hC0
  have hp := ((hA.div_const (I.r0 i j)).mul (hC.div_const (I.r0 i k))).mul (hB.div_const (I.r0 j k))
  have hd := hd_damp3 hp (by simp only [Pi.mul_apply]; positivity)
  refine hd.congr_deriv ?_
  simp only [Pi.mul_apply]
  unfold Inp.dF3 Inp.damp3
  have : ((a / I.r0 i j * (Real.sqrt (C x) / I.r0 i k) + Real.sqrt (A x) / I.r0 i j * (c / I.r0 i k))
        * (Real.sqrt (B x) / I.r0 j k)
      + Real.sqrt (A x) / I.r0 i j * (Real.sqrt (C x) / I.r0 i k) * (b / I.r0 j k))
      / (Real.sqrt (A x) / I.r0 i j * (Real.sqrt (C x) / I.r0 i k) * (Real.sqrt (B x) / I.r0 j k))
      = a / Real.sqrt (A x) + b / Real.sqrt (B x) + c / Real.sqrt (C x) := by
    field_simp
    ring
  rw [this]
  ring

theorem scope_mem (n : Fin 3 → ℤ) {T U : Img} (hT : T ∈ box n) (hU : U ∈ boxLH (scopeLo n T) (scopeHi n T)) :
    U ∈ box n ∧ U - T ∈ box n := by
  rw [mem_boxLH] at hU
  rw [mem_box] at *
  rw [mem_box]
  simp only [scopeLo, scopeHi, Matrix.cons_val_zero, Matrix.cons_val_one, Matrix.cons_val] at hU
  simp only [Prod.fst_sub, Prod.snd_sub]
  omega

theorem mem_scope (n : Fin 3 → ℤ) {T U : Img} (hU : U ∈ box n) (hV : U - T ∈ box n) :
    U ∈ boxLH (scopeLo n T) (scopeHi n T) := by
  rw [mem_boxLH]
  rw [mem_box] at *
  simp only [scopeLo, scopeHi, Matrix.cons_val_zero, Matrix.cons_val_one, Matrix.cons_val]
  simp only [Prod.fst_sub, Prod.snd_sub] at hV
  omega

/-- Along a path a pair stays on its side of the conditions of the three-body loop. -/
theorem skip_ev (h : Regular I) {i j : ℕ} (hi : i < I.natom) (hj : j < I.natom) {T : Img} (hT : T ∈ box I.nEG) :
    ((I.sep2 i j T > I.cnThr ∨ I.sep2 i j T < 1e-15) ∧
      ∀ᶠ t in 𝓝 (0 : ℝ), (I.move v M t).sep2 i j T > I.cnThr ∨ (I.move v M t).sep2 i j T < 1e-15) ∨
    (1e-15 < I.sep2 i j T ∧ I.sep2 i j T < I.cnThr ∧
      ∀ᶠ t in 𝓝 (0 : ℝ), ¬ ((I.move v M t).sep2 i j T > I.cnThr ∨ (I.move v M t).sep2 i j T < 1e-15)) := by
  have hc := cont_sep2 I v M i j T
  rcases h.far hi hj hT with ⟨rfl, rfl⟩ | hd
  · exact Or.inl ⟨Or.inr (by rw [sep2_self]; norm_num),
      Eventually.of_forall fun t => Or.inr (by rw [sep2_self]; norm_num)⟩
  · rcases lt_or_gt_of_ne (h.offC i hi j hj T hT) with hlt | hgt
    · right
      refine ⟨hd, hlt, ?_⟩
      have a1 : ∀ᶠ t in 𝓝 (0 : ℝ), (I.move v M t).sep2 i j T < I.cnThr :=
        hc.eventually_lt continuousAt_const (by rw [move_zero]; exact hlt)
      have a2 : ∀ᶠ t in 𝓝 (0 : ℝ), 1e-15 < (I.move v M t).sep2 i j T :=
        continuousAt_const.eventually_lt hc (by rw [move_zero]; exact hd)
      filter_upwards [a1, a2] with t h1 h2
      rintro (h3 | h3)
      · exact absurd h3 (not_lt.2 h1.le)
      · exact absurd h3 (not_lt.2 h2.le)
    · left
      refine ⟨Or.inl hgt, ?_⟩
      have a1 : ∀ᶠ t in 𝓝 (0 : ℝ), I.cnThr < (I.move v M t).sep2 i j T :=
        continuousAt_const.eventually_lt hc (by rw [move_zero]; exact hgt)
      exact a1.mono fun t ht => Or.inl ht

theorem hd_E3 (h : Regular I) {i j k : ℕ} (hi : i < I.natom) (hj : j < I.natom) (hk : k < I.natom) {T U : Img}
    (hT : T ∈ box I.nEG) (hU : U ∈ box I.nEG) (hV : U - T ∈ box I.nEG) :
    HasDerivAt (fun t => (I.move v M t).E3 i j k T U) (-I.f3 v M i j k T U) 0 := by
  have zero : I.skip3 i j k T U → (∀ᶠ t in 𝓝 (0 : ℝ), (I.move v M t).skip3 i j k T U) →
      HasDerivAt (fun t => (I.move v M t).E3 i j k T U) (-I.f3 v M i j k T U) 0 := by
    intro h1 h2
    have e1 : I.f3 v M i j k T U = 0 := by unfold Inp.f3; rw [if_pos h1]
    rw [e1, neg_zero]
    exact hd_ite_pos h2 (hasDerivAt_const _ _)
  rcases skip_ev (v := v) (M := M) h hi hj hT with ⟨a1, a2⟩ | ⟨a1, a1', a2⟩
  · exact zero (Or.inl a1) (a2.mono fun t ht => Or.inl ht)
  rcases skip_ev (v := v) (M := M) h hi hk hU with ⟨b1, b2⟩ | ⟨b1, b1', b2⟩
  · exact zero (Or.inr (Or.inl b1)) (b2.mono fun t ht => Or.inr (Or.inl ht))
  rcases skip_ev (v := v) (M := M) h hj hk hV with ⟨c1, c2⟩ | ⟨c1, c1', c2⟩
  · exact zero (Or.inr (Or.inr c1)) (c2.mono fun t ht => Or.inr (Or.inr ht))
  have hn : ¬ I.skip3 i j k T U := by
    rintro ((x | x) | (x | x) | (x | x)) <;> linarith
  have hev : ∀ᶠ t in 𝓝 (0 : ℝ), ¬ (I.move v M t).skip3 i j k T U := by
    filter_upwards [a2, b2, c2] with t h1 h2 h3
    rintro (x | x | x)
    · exact h1 x
    · exact h2 x
    · exact h3 x
  have pA : 0 < I.sep2 i j T := lt_trans (by norm_num) a1
  have pB : 0 < I.sep2 j k (U - T) := lt_trans (by norm_num) c1
  have pC : 0 < I.sep2 i k U := lt_trans (by norm_num) b1
  have hd := hd_damp I (i := i) (j := j) (k := k) (hd_sep I v M i j T pA) (hd_sep I v M j k (U - T) pB)
    (hd_sep I v M i k U pC) (by rw [move_zero]; exact pA) (by rw [move_zero]; exact pB) (by rw [move_zero]; exact pC)
    (h.r0pos i hi j hj) (h.r0pos i hi k hk) (h.r0pos j hj k hk)
  have ha := hd_ang (hd_sep2' I v M i j T pA) (hd_sep2' I v M j k (U - T) pB) (hd_sep2' I v M i k U pC)
    (by rw [move_zero]; exact pA) (by rw [move_zero]; exact pB) (by rw [move_zero]; exact pC)
  have h9 := hd_c9 (v := v) (M := M) h hi hj hk
  unfold Inp.f3
  rw [if_neg hn]
  refine hd_ite_neg hev ?_
  refine (((hd.mul h9).mul ha).mul_const (wgt i j k)).congr_deriv ?_
  simp only [Pi.mul_apply, move_zero]
  change _ = _
  rw [show (0.375 * (I.sep2 i j T + I.sep2 j k (U - T) - I.sep2 i k U) * (I.sep2 i j T + I.sep2 i k U
    - I.sep2 j k (U - T)) * (I.sep2 i k U + I.sep2 j k (U - T) - I.sep2 i j T) / (I.sep2 i j T * I.sep2 j k (U - T)
      * I.sep2 i k U) + 1) / (I.sep2 i j T * I.sep2 j k (U - T) * I.sep2 i k U) ^ (1.5 : ℝ)
      = ang3 (I.sep2 i j T) (I.sep2 j k (U - T)) (I.sep2 i k U) from rfl]
  ring

theorem step3_E (I : Inp) (a : Acc) (i j k : ℕ) (T U : Img) :
    (I.step3 a (i, j, T, k, U)).e6 + (I.step3 a (i, j, T, k, U)).e8 - (I.step3 a (i, j, T, k, U)).e63
      = a.e6 + a.e8 - a.e63 + I.E3 i j k T U := by
  unfold Inp.step3 Inp.E3
  simp only [distB_eq, distJK_eq]
  split
  · rename_i h1
    rw [if_pos (show I.skip3 i j k T U from Or.inl h1)]; ring
  · rename_i h1
    split
    · rename_i h2
      rw [if_pos (show I.skip3 i j k T U from Or.inr (Or.inl h2))]; ring
    · rename_i h2
      split
      · rename_i h3
        rw [if_pos (show I.skip3 i j k T U from Or.inr (Or.inr h3))]; ring
      · rename_i h3
        have hn : ¬ I.skip3 i j k T U := by
          rintro (x | x | x)
          exacts [h1 x, h2 x, h3 x]
        rw [if_neg hn]
        simp only [Inp.damp3, ang3, Inp.c9, wgt]
        ring

theorem step3_L (h : Regular I) (a : Acc) {i j k : ℕ} (hi : i < I.natom) (hj : j ≤ i) (hk : k ≤ j) {T U : Img}
    (hT : T ∈ box I.nEG) (hU : U ∈ box I.nEG) (hV : U - T ∈ box I.nEG) :
    I.L v M (I.step3 a (i, j, T, k, U)) = I.L v M a + I.f3 v M i j k T U := by
  unfold Inp.step3 Inp.f3
  simp only [distB_eq, distJK_eq]
  split
  · rename_i h1
    rw [if_pos (show I.skip3 i j k T U from Or.inl h1)]; ring
  · rename_i h1
    split
    · rename_i h2
      rw [if_pos (show I.skip3 i j k T U from Or.inr (Or.inl h2))]; ring
    · rename_i h2
      split
      · rename_i h3
        rw [if_pos (show I.skip3 i j k T U from Or.inr (Or.inr h3))]; ring
      · rename_i h3
        have hn : ¬ I.skip3 i j k T U := by
          rintro (x | x | x)
          exacts [h1 x, h2 x, h3 x]
        rw [if_neg hn]
        have up : ∀ {x : ℝ}, ¬ (x > I.cnThr ∨ x < 1e-15) → ¬ (x > I.rThr ∨ x < 1e-15) := by
          intro x hx
          rintro (h4 | h4)
          · exact hx (Or.inl (lt_of_le_of_lt h.thr h4))
          · exact hx (Or.inr h4)
        have v1 := h.valid hi (show j < I.natom by omega) hT (up h1)
        have v2 := h.valid hi (show k < I.natom by omega) hU (up h2)
        have v3 := h.valid (show j < I.natom by omega) (show k < I.natom by omega) hV (up h3)
        unfold Inp.L
        have e : countImage (U.1 - T.1, U.2.1 - T.2.1, U.2.2 - T.2.2) I.nEG = countImage (U - T) I.nEG := rfl
        simp only [e]
        by_cases hc : i = j ∧ i = k
        · simp only [if_pos hc]
          rw [LD_add I v M _ hi (by omega) hU v2, LD_add I v M _ hi (by omega) hU v2,
            LD_add I v M _ (by omega) hk hV v3, LD_add I v M _ (by omega) hk hV v3,
            LD_add I v M _ hi hj hT v1, LD_add I v M _ hi hj hT v1, LF_add I v M _ (by omega),
            LF_add I v M _ (by omega), LF_add I v M _ hi]
          simp only [Inp.damp3, ang3, Inp.c9, wgt, Inp.dF3, if_pos hc]
          ring
        · simp only [if_neg hc]
          rw [LD_mirror I v M _ _ (by omega), LD_add I v M _ hi (by omega) hU v2, LD_add I v M _ hi (by omega) hU v2,
            LD_add I v M _ (by omega) hk hV v3, LD_add I v M _ (by omega) hk hV v3, LD_mirror I v M _ _ hj,
            LD_add I v M _ hi hj hT v1, LD_add I v M _ hi hj hT v1, LF_add I v M _ (by omega),
            LF_add I v M _ (by omega), LF_add I v M _ hi]
          simp only [Inp.damp3, ang3, Inp.c9, wgt, Inp.dF3, if_neg hc]
          ring

end Sparc.D3

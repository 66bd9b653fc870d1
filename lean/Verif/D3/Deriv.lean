import Verif.D3.Calc
import Verif.D3.Cells
import Mathlib.Analysis.Calculus.Deriv.Prod
import Mathlib.Analysis.Calculus.Deriv.Add
import Mathlib.Analysis.Calculus.Deriv.Mul

/-! Derivatives of the distances, coordination numbers and coefficients along a path. -/

namespace Sparc.D3

open Classical Filter Topology

/-- The atoms moved along `v` and the lattice along `M`, by the amount `t`. -/
def Inp.move (I : Inp) (v : ℕ → Fin 3 → ℝ) (M : Fin 3 → Fin 3 → ℝ) (t : ℝ) : Inp :=
  { I with
    pos := fun i d => I.pos i d + t * v i d
    lat := fun r c => I.lat r c + t * M r c }

/-- The vector from atom `i` to the image of atom `j` in the cell `T`. -/
def Inp.sep (I : Inp) (i j : ℕ) (T : Img) (d : Fin 3) : ℝ :=
  I.pos j d + (T.1 * I.lat 0 d + T.2.1 * I.lat 1 d + T.2.2 * I.lat 2 d) - I.pos i d

/-- The square of the distance between atom `i` and the image of atom `j` in the cell `T`. -/
def Inp.sep2 (I : Inp) (i j : ℕ) (T : Img) : ℝ := ∑ d : Fin 3, I.sep i j T d ^ 2

/-- The velocity of the vector between the two. -/
def vel (v : ℕ → Fin 3 → ℝ) (M : Fin 3 → Fin 3 → ℝ) (i j : ℕ) (T : Img) (d : Fin 3) : ℝ :=
  v j d + (T.1 * M 0 d + T.2.1 * M 1 d + T.2.2 * M 2 d) - v i d

/-- The velocity of the distance between the two. -/
noncomputable def Inp.w (I : Inp) (v : ℕ → Fin 3 → ℝ) (M : Fin 3 → Fin 3 → ℝ) (i j : ℕ) (T : Img) : ℝ :=
  (∑ d : Fin 3, I.sep i j T d * vel v M i j T d) / Real.sqrt (I.sep2 i j T)

theorem distB_eq (I : Inp) (i j : ℕ) (T : Img) : I.distB i j T = I.sep2 i j T := by
  simp only [Inp.distB, Inp.sep2, Inp.sep, Inp.ijVec, Inp.imageVec, Fin.sum_univ_three]; ring

theorem distA_eq (I : Inp) (i j : ℕ) (T : Img) : I.distA i j T = I.sep2 i j T := by
  simp only [Inp.distA, Inp.sep2, Inp.sep, Inp.imageVec, Fin.sum_univ_three]; ring

theorem distJK_eq (I : Inp) (j k : ℕ) (T U : Img) : I.distJK j k T U = I.sep2 j k (U - T) := by
  simp only [Inp.distJK, Inp.sep2, Inp.sep, Inp.imageVec, Fin.sum_univ_three, Prod.fst_sub, Prod.snd_sub]
  push_cast
  ring

theorem ijVec_eq (I : Inp) (i j : ℕ) (T : Img) (d : Fin 3) : I.ijVec i j T d = I.sep i j T d := by
  simp only [Inp.ijVec, Inp.sep, Inp.imageVec]; ring

theorem sep2_nonneg (I : Inp) (i j : ℕ) (T : Img) : 0 ≤ I.sep2 i j T :=
  Finset.sum_nonneg fun _ _ => sq_nonneg _

theorem move_zero (I : Inp) (v M) : I.move v M 0 = I := by simp [Inp.move]

theorem sep_move (I : Inp) (v M t i j T d) : (I.move v M t).sep i j T d = I.sep i j T d + t * vel v M i j T d := by
  simp only [Inp.sep, Inp.move, vel]; ring

theorem hd_sep2 (I : Inp) (v M i j T) :
    HasDerivAt (fun t => (I.move v M t).sep2 i j T) (2 * ∑ d : Fin 3, I.sep i j T d * vel v M i j T d) 0 := by
  have h : ∀ d : Fin 3, HasDerivAt (fun t : ℝ => (I.sep i j T d + t * vel v M i j T d) ^ 2)
      (2 * (I.sep i j T d * vel v M i j T d)) 0 := fun d => by
    have := (((hasDerivAt_id (0 : ℝ)).mul_const (vel v M i j T d)).const_add (I.sep i j T d)).pow 2
    refine this.congr_deriv ?_
    simp; ring
  simp only [Inp.sep2, sep_move, Fin.sum_univ_three]
  exact (((h 0).add (h 1)).add (h 2)).congr_deriv (by ring)

theorem cont_sep2 (I : Inp) (v M i j T) : ContinuousAt (fun t => (I.move v M t).sep2 i j T) 0 :=
  (hd_sep2 I v M i j T).continuousAt

theorem hd_sep (I : Inp) (v M i j T) (h : 0 < I.sep2 i j T) :
    HasDerivAt (fun t => Real.sqrt ((I.move v M t).sep2 i j T)) (I.w v M i j T) 0 := by
  have := (hd_sep2 I v M i j T).sqrt (by rw [move_zero]; exact h.ne')
  refine this.congr_deriv ?_
  rw [move_zero, Inp.w, mul_div_mul_left _ _ two_ne_zero]

theorem hd_sep2' (I : Inp) (v M i j T) (h : 0 < I.sep2 i j T) :
    HasDerivAt (fun t => (I.move v M t).sep2 i j T)
      (2 * Real.sqrt ((I.move v M 0).sep2 i j T) * I.w v M i j T) 0 := by
  refine (hd_sep2 I v M i j T).congr_deriv ?_
  rw [move_zero, Inp.w]
  have := Real.sqrt_pos.2 h
  field_simp

theorem sep2_self (I : Inp) (i : ℕ) : I.sep2 i i 0 = 0 := by simp [Inp.sep2, Inp.sep]

/-- What is asked of a configuration: every pair of images within the shorter cut-off is in the shorter box, no two
atoms nearly coincide, no distance is at a cut-off, every pair has reference coefficients near its coordination
numbers, and the table of coefficients is symmetric. -/
structure Regular (I : Inp) : Prop where
  le : ∀ d, I.nCN d ≤ I.nEG d
  thr : I.cnThr ≤ I.rThr
  r0pos : ∀ i < I.natom, ∀ j < I.natom, 0 < I.r0 i j
  cover : ∀ i < I.natom, ∀ j < I.natom, ∀ T ∈ box I.nEG, I.sep2 i j T < I.cnThr → T ∈ box I.nCN
  apart : ∀ i < I.natom, ∀ j < I.natom, i ≠ j → ∀ T ∈ box I.nEG, 0.5 < I.sep2 i j T
  self : ∀ i < I.natom, ∀ T ∈ box I.nEG, T ≠ 0 → 1e-15 < I.sep2 i i T
  offR : ∀ i < I.natom, ∀ j < I.natom, ∀ T ∈ box I.nEG, I.sep2 i j T ≠ I.rThr
  offC : ∀ i < I.natom, ∀ j < I.natom, ∀ T ∈ box I.nEG, I.sep2 i j T ≠ I.cnThr
  weight : ∀ i < I.natom, ∀ j < I.natom, 1e-99 < ∑ s ∈ Finset.range (I.maxci i), ∑ u ∈ Finset.range (I.maxci j),
    if 0 < I.c6v i j s u then Real.exp (-4 * ((I.c6i i j s u - I.CN i) ^ 2 + (I.c6j i j s u - I.CN j) ^ 2)) else 0
  sym : ∀ i < I.natom, ∀ s u, I.c6v i i s u = I.c6v i i u s ∧ I.c6i i i s u = I.c6j i i u s

variable {I : Inp} {v : ℕ → Fin 3 → ℝ} {M : Fin 3 → Fin 3 → ℝ}

theorem Regular.sub (h : Regular I) : box I.nCN ⊆ box I.nEG := by
  intro T hT
  rw [mem_box] at hT ⊢
  have h0 := h.le 0
  have h1 := h.le 1
  have h2 := h.le 2
  omega

/-- Either the two are the same atom, or their distance is above the least distance. -/
theorem Regular.far (h : Regular I) {i j : ℕ} (hi : i < I.natom) (hj : j < I.natom) {T : Img} (hT : T ∈ box I.nEG) :
    (i = j ∧ T = 0) ∨ 1e-15 < I.sep2 i j T := by
  by_cases hij : i = j
  · subst hij
    by_cases hT0 : T = 0
    · exact Or.inl ⟨rfl, hT0⟩
    · exact Or.inr (h.self i hi T hT hT0)
  · exact Or.inr (lt_trans (by norm_num) (h.apart i hi j hj hij T hT))

theorem dCN_zero (I : Inp) (i : ℕ) : I.dCN i i 0 = 0 := by
  unfold Inp.dCN
  simp only [distB_eq, sep2_self]
  rw [if_neg]
  norm_num

/-- The velocity of the coordination number. -/
noncomputable def Inp.CN' (I : Inp) (v : ℕ → Fin 3 → ℝ) (M : Fin 3 → Fin 3 → ℝ) (i : ℕ) : ℝ :=
  ∑ j ∈ Finset.range I.natom, ∑ T ∈ box I.nCN, I.dCN i j T * I.w v M i j T

theorem foldl_ite_sum {α : Type} (l : List α) (c : α → Prop) [DecidablePred c] (f : α → ℝ) (a : ℝ) :
    l.foldl (fun s x => if c x then s + f x else s) a = a + (l.map fun x => if c x then f x else 0).sum := by
  induction l generalizing a with
  | nil => simp
  | cons x l ih =>
    rw [List.foldl_cons, ih, List.map_cons, List.sum_cons]
    split <;> ring

theorem CN_sum (I : Inp) (i : ℕ) :
    I.CN i = (((List.range I.natom).flatMap fun j => (cells I.nCN).map fun T => (j, T)).map fun (p : ℕ × Img) =>
      if Real.sqrt (I.sep2 i p.1 p.2) < Real.sqrt I.cnThr ∧ Real.sqrt (I.sep2 i p.1 p.2) > 1e-10 then
        1 / (1 + Real.exp (-K1 * ((I.rcov i + I.rcov p.1) / Real.sqrt (I.sep2 i p.1 p.2) - 1))) else 0).sum := by
  unfold Inp.CN
  simp only [distA_eq]
  rw [foldl_ite_sum (c := fun p : ℕ × Img => Real.sqrt (I.sep2 i p.1 p.2) < Real.sqrt I.cnThr ∧
    Real.sqrt (I.sep2 i p.1 p.2) > 1e-10)
    (f := fun p => 1 / (1 + Real.exp (-K1 * ((I.rcov i + I.rcov p.1) / Real.sqrt (I.sep2 i p.1 p.2) - 1))))]
  simp

theorem hd_CN (h : Regular I) {i : ℕ} (hi : i < I.natom) :
    HasDerivAt (fun t => (I.move v M t).CN i) (I.CN' v M i) 0 := by
  have key := hd_listSum ((List.range I.natom).flatMap fun j => (cells I.nCN).map fun T => (j, T))
    (fun p t => if Real.sqrt ((I.move v M t).sep2 i p.1 p.2) < Real.sqrt I.cnThr ∧
        Real.sqrt ((I.move v M t).sep2 i p.1 p.2) > 1e-10 then
        1 / (1 + Real.exp (-K1 * ((I.rcov i + I.rcov p.1) / Real.sqrt ((I.move v M t).sep2 i p.1 p.2) - 1))) else 0)
    (fun p => I.dCN i p.1 p.2 * I.w v M i p.1 p.2) 0 ?_
  · have e : (((List.range I.natom).flatMap fun j => (cells I.nCN).map fun T => (j, T)).map fun (p : ℕ × Img) =>
      I.dCN i p.1 p.2 * I.w v M i p.1 p.2).sum = I.CN' v M i := by
      rw [sum_flatMap]
      simp only [List.map_map]
      unfold Inp.CN'
      rw [sum_range_list]
      refine Finset.sum_congr rfl fun j _ => ?_
      exact sum_cells I.nCN fun T => I.dCN i j T * I.w v M i j T
    rw [e] at key
    refine key.congr_of_eventuallyEq (Eventually.of_forall fun t => ?_)
    exact CN_sum (I.move v M t) i
  · rintro ⟨j, T⟩ hp
    simp only [List.mem_flatMap, List.mem_range, List.mem_map, Prod.mk.injEq] at hp
    obtain ⟨j', hj, T', hT, rfl, rfl⟩ := hp
    rw [mem_cells] at hT
    simp only
    rcases h.far hi hj (h.sub hT) with ⟨rfl, rfl⟩ | hd
    · rw [dCN_zero, zero_mul]
      refine hd_ite_neg (Eventually.of_forall fun t => ?_) (hasDerivAt_const _ _)
      rw [sep2_self]
      norm_num
    · have hpos : 0 < I.sep2 i j' T' := lt_trans (by norm_num) hd
      have hc := cont_sep2 I v M i j' T'
      have hr := hd_sep I v M i j' T' hpos
      rcases lt_or_gt_of_ne (h.offC i hi j' hj T' (h.sub hT)) with hlt | hgt
      · have e1 : I.dCN i j' T' = -K1 * (I.rcov i + I.rcov j') *
            Real.exp (-K1 * ((I.rcov i + I.rcov j') / Real.sqrt (I.sep2 i j' T') - 1)) /
              (Real.sqrt (I.sep2 i j' T') *
                (Real.exp (-K1 * ((I.rcov i + I.rcov j') / Real.sqrt (I.sep2 i j' T') - 1)) + 1)) ^ 2 := by
          unfold Inp.dCN
          simp only [distB_eq]
          rw [if_pos ⟨hlt, hd⟩]
        rw [e1]
        refine hd_ite_pos ?_ ?_
        · have a1 : ∀ᶠ t in 𝓝 (0 : ℝ), (I.move v M t).sep2 i j' T' < I.cnThr :=
            hc.eventually_lt continuousAt_const (by rw [move_zero]; exact hlt)
          have a2 : ∀ᶠ t in 𝓝 (0 : ℝ), 1e-15 < (I.move v M t).sep2 i j' T' :=
            continuousAt_const.eventually_lt hc (by rw [move_zero]; exact hd)
          filter_upwards [a1, a2] with t h1 h2
          refine ⟨Real.sqrt_lt_sqrt (sep2_nonneg _ _ _ _) h1, ?_⟩
          refine Real.lt_sqrt_of_sq_lt (lt_trans ?_ h2)
          norm_num
        · have := hd_cn (I.rcov i + I.rcov j') hr (by rw [move_zero]; exact Real.sqrt_pos.2 hpos)
          simpa only [move_zero] using this
      · have e1 : I.dCN i j' T' = 0 := by
          unfold Inp.dCN
          simp only [distB_eq]
          rw [if_neg]
          rintro ⟨h1, _⟩
          exact absurd h1 (not_lt.2 hgt.le)
        rw [e1, zero_mul]
        refine hd_ite_neg ?_ (hasDerivAt_const _ _)
        have a1 : ∀ᶠ t in 𝓝 (0 : ℝ), I.cnThr < (I.move v M t).sep2 i j' T' :=
          continuousAt_const.eventually_lt hc (by rw [move_zero]; exact hgt)
        filter_upwards [a1] with t h1
        rintro ⟨h2, _⟩
        exact absurd h2 (not_lt.2 (Real.sqrt_le_sqrt h1.le))

end Sparc.D3

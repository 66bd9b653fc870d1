import Verif.D3.Exact
import Verif.D3.Images
import Mathlib.Analysis.Complex.ExponentialBounds

/-!
# Properties of the dispersion correction

C67: the D3 forces are minus the gradient of the D3 energy, they add to zero, and the D3 stress is the derivative of that
energy with respect to the strain of the cell, per volume.

C68: the D3 energy is the sum over all pairs and all triples of atoms and of images within the cut-offs.
-/

namespace Sparc.D3

open Classical

variable {I : Inp}

/-! ### C67 -/

theorem sum_neg_list {α : Type} (l : List α) (f : α → ℝ) : (l.map fun x => -f x).sum = -(l.map f).sum := by
  induction l with
  | nil => simp
  | cons x l ih => rw [List.map_cons, List.sum_cons, List.map_cons, List.sum_cons, ih]; ring

theorem grads_eq (h : Regular I) (v : ℕ → Fin 3 → ℝ) :
    ∑ b ∈ Finset.range I.natom, ∑ d : Fin 3, I.out.grads b d * v b d = -I.L v (fun _ _ => 0) I.acc := by
  unfold Inp.out
  rw [foldl_proj (fun o : Out => ∑ b ∈ Finset.range I.natom, ∑ d : Fin 3, o.grads b d * v b d) (I.stepOut I.acc)
    (fun s => -(if I.valid s.1 s.2.1 s.2.2.1 then
      I.xi I.acc s.1 s.2.1 s.2.2.1 (s.2.2.2 : ℤ) * I.w v (fun _ _ => 0) s.1 s.2.1 s.2.2.1 else 0)) I.slots2
    (fun a s hs => by
      obtain ⟨h1, h2, h3, h4⟩ := mem_slots2 hs
      exact stepOut_grads I I.acc a v h1 h2), L_eq h]
  rw [sum_neg_list I.slots2 fun s => if I.valid s.1 s.2.1 s.2.2.1 then
    I.xi I.acc s.1 s.2.1 s.2.2.1 (s.2.2.2 : ℤ) * I.w v (fun _ _ => 0) s.1 s.2.1 s.2.2.1 else 0]
  simp only [zero_mul, Finset.sum_const_zero, zero_add]

/-- **C67.** What `add_d3_forces` adds to the forces is minus the gradient of the D3 energy: along any motion of the atoms
the energy changes at the rate minus force times velocity. -/
theorem forces_are_minus_gradient (h : Regular I) (F v : ℕ → Fin 3 → ℝ) :
    HasDerivAt (fun t : ℝ => Inp.energy { I with pos := fun i d => I.pos i d + t * v i d })
      (-∑ i ∈ Finset.range I.natom, ∑ d : Fin 3, (I.addForces F i d - F i d) * v i d) 0 := by
  have h1 := hd_energy (v := v) (M := fun _ _ => 0) h
  have e : (fun t : ℝ => Inp.energy { I with pos := fun i d => I.pos i d + t * v i d })
      = fun t => (I.move v (fun _ _ => 0) t).energy := by
    funext t
    simp only [Inp.move, mul_zero, add_zero]
  rw [e]
  refine h1.congr_deriv ?_
  rw [← grads_eq h v, ← Finset.sum_neg_distrib]
  refine Finset.sum_congr rfl fun i _ => ?_
  rw [← Finset.sum_neg_distrib]
  refine Finset.sum_congr rfl fun d _ => ?_
  unfold Inp.addForces
  ring

/-- **C67.** The forces added by the correction add to zero, whatever the configuration. -/
theorem forces_sum_zero (I : Inp) (F : ℕ → Fin 3 → ℝ) (d : Fin 3) :
    ∑ i ∈ Finset.range I.natom, (I.addForces F i d - F i d) = 0 := by
  have : ∑ b ∈ Finset.range I.natom, I.out.grads b d = 0 := by
    unfold Inp.out
    rw [foldl_proj (fun o : Out => ∑ b ∈ Finset.range I.natom, o.grads b d) (I.stepOut I.acc) (fun _ => 0) I.slots2
      (fun o s hs => by
        obtain ⟨h1, h2, h3, h4⟩ := mem_slots2 hs
        obtain ⟨i, j, T, m⟩ := s
        simp only at h1 h2 ⊢
        unfold Inp.stepOut
        simp only
        rw [add_zero]
        split
        · rfl
        · simp only
          split
          · next hij =>
            have e : ∀ b, (if b = i then o.grads b d + I.xi I.acc i j T m * I.ijVec i j T d / Real.sqrt (I.distB i j T)
                else if b = j then o.grads b d - I.xi I.acc i j T m * I.ijVec i j T d / Real.sqrt (I.distB i j T)
                else o.grads b d) = o.grads b d
                  + ((if b = i then I.xi I.acc i j T m * I.ijVec i j T d / Real.sqrt (I.distB i j T) else 0)
                    - (if b = j then I.xi I.acc i j T m * I.ijVec i j T d / Real.sqrt (I.distB i j T) else 0)) := by
              intro b
              by_cases hb : b = i
              · subst hb; simp [hij]
              · by_cases hb' : b = j
                · subst hb'; simp [hb]; ring
                · simp [hb, hb']
            simp only [e, Finset.sum_add_distrib, Finset.sum_sub_distrib, Finset.sum_ite_eq', Finset.mem_range,
              h1, show j < I.natom by omega, if_true, sub_self, add_zero]
          · rfl)]
    simp
  rw [← neg_eq_zero, ← Finset.sum_neg_distrib, ← this]
  refine Finset.sum_congr rfl fun i _ => ?_
  unfold Inp.addForces
  ring

/-- The atoms and the cell under the strain `t ε`. -/
def Inp.strain (I : Inp) (ε : Fin 3 → Fin 3 → ℝ) (t : ℝ) : Inp :=
  { I with
    pos := fun i d => I.pos i d + t * ∑ c, ε d c * I.pos i c
    lat := fun r d => I.lat r d + t * ∑ c, ε d c * I.lat r c }

theorem sigma_eq (h : Regular I) (ε : Fin 3 → Fin 3 → ℝ) :
    ∑ r : Fin 3, ∑ c : Fin 3, I.out.sigma r c * ε r c
      = I.L (fun b d => ∑ c : Fin 3, ε d c * I.pos b c) (fun r d => ∑ c : Fin 3, ε d c * I.lat r c) I.acc := by
  unfold Inp.out
  rw [foldl_proj (fun o : Out => ∑ r : Fin 3, ∑ c : Fin 3, o.sigma r c * ε r c) (I.stepOut I.acc) _ I.slots2
    (fun a s _ => stepOut_sigma I I.acc a ε s), L_eq h]
  simp only [zero_mul, Finset.sum_const_zero, zero_add]

/-- **C67.** The D3 stress is the derivative of the D3 energy with respect to the strain of the atoms and the cell, divided
by the volume. -/
theorem stress_is_strain_derivative (h : Regular I) (hdet : I.detLattice ≠ 0) (ε : Fin 3 → Fin 3 → ℝ) :
    HasDerivAt (fun t => (I.strain ε t).energy) (I.detLattice * ∑ r : Fin 3, ∑ c : Fin 3, I.stress r c * ε r c) 0 := by
  have h1 := hd_energy (v := fun b d => ∑ c : Fin 3, ε d c * I.pos b c)
    (M := fun r d => ∑ c : Fin 3, ε d c * I.lat r c) h
  refine h1.congr_deriv ?_
  rw [← sigma_eq h ε, Finset.mul_sum, ← Finset.sum_neg_distrib]
  refine Finset.sum_congr rfl fun r _ => ?_
  rw [Finset.mul_sum, ← Finset.sum_neg_distrib]
  refine Finset.sum_congr rfl fun c _ => ?_
  unfold Inp.stress
  field_simp

/-- **C67.** The D3 stress is symmetric. -/
theorem stress_symm (I : Inp) (r c : Fin 3) : I.stress r c = I.stress c r := by
  have : I.out.sigma r c = I.out.sigma c r := by
    unfold Inp.out
    have : ∀ (l : List (ℕ × ℕ × Img × ℕ)) (o : Out), o.sigma r c = o.sigma c r →
        (l.foldl (I.stepOut I.acc) o).sigma r c = (l.foldl (I.stepOut I.acc) o).sigma c r := by
      intro l
      induction l with
      | nil => exact fun o h => h
      | cons s l ih =>
        intro o ho
        rw [List.foldl_cons]
        refine ih _ ?_
        unfold Inp.stepOut
        simp only
        split
        · exact ho
        · simp only
          rw [ho]
          ring
    exact this _ _ rfl
  unfold Inp.stress
  rw [this]

/-- **C67.** The six entries added to `stress_xc`, in their order, are the derivative for a symmetric strain. -/
theorem stress_entries (h : Regular I) (hdet : I.detLattice ≠ 0) (xx xy xz yy yz zz : ℝ) :
    HasDerivAt (fun t => (I.strain ![![xx, xy, xz], ![xy, yy, yz], ![xz, yz, zz]] t).energy)
      (I.detLattice * (I.stressXc 0 * xx + 2 * I.stressXc 1 * xy + 2 * I.stressXc 2 * xz + I.stressXc 3 * yy
        + 2 * I.stressXc 4 * yz + I.stressXc 5 * zz)) 0 := by
  refine (stress_is_strain_derivative h hdet _).congr_deriv ?_
  simp only [Fin.sum_univ_three]
  rw [stress_symm I 1 0, stress_symm I 2 0, stress_symm I 2 1]
  simp only [Inp.stressXc, Matrix.cons_val_zero, Matrix.cons_val_one, Matrix.cons_val]
  ring

/-- **C67.** When only the pressure is asked for, what is added to `pres_xc` is the derivative of the D3 energy with
respect to the logarithm of the size of the cell. -/
theorem pressure_is_scaling_derivative (h : Regular I) (hdet : I.detLattice ≠ 0) :
    HasDerivAt (fun t : ℝ => Inp.energy { I with
      pos := fun i d => (1 + t) * I.pos i d, lat := fun r c => (1 + t) * I.lat r c }) I.presXc 0 := by
  have h1 := stress_entries h hdet 1 0 0 1 0 1
  have e : (fun t : ℝ => Inp.energy { I with
      pos := fun i d => (1 + t) * I.pos i d, lat := fun r c => (1 + t) * I.lat r c })
      = fun t => (I.strain ![![1, 0, 0], ![0, 1, 0], ![0, 0, 1]] t).energy := by
    funext t
    have hp : (fun (i : ℕ) (d : Fin 3) => (1 + t) * I.pos i d)
        = fun i d => I.pos i d + t * ∑ c : Fin 3,
            (![![1, 0, 0], ![0, 1, 0], ![0, 0, 1]] : Fin 3 → Fin 3 → ℝ) d c * I.pos i c := by
      funext i d
      fin_cases d <;> simp [Fin.sum_univ_three] <;> ring
    have hl : (fun (r d : Fin 3) => (1 + t) * I.lat r d)
        = fun r d => I.lat r d + t * ∑ c : Fin 3,
            (![![1, 0, 0], ![0, 1, 0], ![0, 0, 1]] : Fin 3 → Fin 3 → ℝ) d c * I.lat r c := by
      funext r d
      fin_cases d <;> simp [Fin.sum_univ_three] <;> ring
    unfold Inp.strain
    rw [hp, hl]
  rw [e]
  refine h1.congr_deriv ?_
  simp only [Inp.presXc, Inp.stressXc, Matrix.cons_val_zero, Matrix.cons_val_one, Matrix.cons_val]
  ring

theorem det_latOf (U : Fin 3 → Fin 3 → ℝ) (cell : Fin 3 → ℝ) (hl : I.lat = latOf U cell) :
    I.detLattice = jacbdet U * (cell 0 * cell 1 * cell 2) := by
  unfold Inp.detLattice jacbdet
  rw [hl]
  simp only [latOf]
  ring

/-- **C67**, what holds of it in every cell.  *Missing*: the stress is per `cell_measure`, as the other parts of the
stress are, only when all three directions are periodic; see `stress_per_measure_fails`. -/
theorem stress_per_measure_partial (h : Regular I) (U : Fin 3 → Fin 3 → ℝ) (cell : Fin 3 → ℝ) (hl : I.lat = latOf U cell)
    (hU : 0 < jacbdet U) (hc : ∀ d, 0 < cell d) (ε : Fin 3 → Fin 3 → ℝ) (E' : ℝ)
    (hE : HasDerivAt (fun t => (I.strain ε t).energy) E' 0) :
    ∑ r : Fin 3, ∑ c : Fin 3, I.stress r c * ε r c = E' / cellMeasure U cell (fun _ => true) := by
  have hd := det_latOf U cell hl
  have hp : 0 < I.detLattice := by
    rw [hd]
    have := hc 0
    have := hc 1
    have := hc 2
    positivity
  have := hE.unique (stress_is_strain_derivative h hp.ne' ε)
  rw [this]
  have e : cellMeasure U cell (fun _ => true) = I.detLattice := by
    rw [hd]
    simp only [cellMeasure, if_true]
    ring
  rw [e]
  field_simp

/-! A wire: one atom, periodic along `x` with the length 4, in a box of 10 by 10. -/

/-- The wire. -/
noncomputable def wire : Inp where
  natom := 1
  pos := fun _ _ => 0
  lat := latOf (fun r c => if r = c then 1 else 0) ![4, 10, 10]
  nEG := setCriteria 25 ![true, false, false] (latOf (fun r c => if r = c then 1 else 0) ![4, 10, 10])
  nCN := setCriteria 1 ![true, false, false] (latOf (fun r c => if r = c then 1 else 0) ![4, 10, 10])
  rcov := fun _ => 1
  r2r4 := fun _ => 1
  r0 := fun _ _ => 1
  maxci := fun _ => 1
  c6v := fun _ _ _ _ => 10
  c6i := fun _ _ _ _ => 0
  c6j := fun _ _ _ _ => 0
  cnThr := 1
  rThr := 25
  s8 := 0
  rs6 := 1

theorem wire_sep (T : Img) (h1 : T.2.1 = 0) (h2 : T.2.2 = 0) (i j : ℕ) : wire.sep2 i j T = 16 * (T.1 : ℝ) ^ 2 := by
  simp [Inp.sep2, Inp.sep, wire, latOf, Fin.sum_univ_three, h1, h2]
  ring

theorem wire_box {T : Img} (h : T ∈ box wire.nEG) : T.2.1 = 0 ∧ T.2.2 = 0 := by
  rw [mem_box] at h
  have e1 : wire.nEG 1 = 0 := criteria_off ![true, false, false] 25 wire.lat 1 rfl
  have e2 : wire.nEG 2 = 0 := criteria_off ![true, false, false] 25 wire.lat 2 rfl
  omega

theorem wire_det : wire.detLattice = 400 := by
  simp [Inp.detLattice, wire, latOf]
  norm_num

theorem int_sq (z : ℤ) : z = 0 ∨ (1 : ℝ) ≤ (z : ℝ) ^ 2 := by
  rcases eq_or_ne z 0 with h | h
  · exact Or.inl h
  · right
    have : (1 : ℤ) ≤ z ^ 2 := by
      rcases lt_or_gt_of_ne h with h | h <;> nlinarith
    exact_mod_cast this

theorem wire_sub {T : Img} (h : T ∈ box wire.nCN) : T ∈ box wire.nEG := by
  rw [mem_box] at *
  have := fun d => criteria_mono (I := wire) (by rw [wire_det]; norm_num) ![true, false, false]
    (show (1 : ℝ) ≤ 25 by norm_num) d
  have h0 : wire.nCN 0 ≤ wire.nEG 0 := this 0
  have h1 : wire.nCN 1 ≤ wire.nEG 1 := this 1
  have h2 : wire.nCN 2 ≤ wire.nEG 2 := this 2
  omega

theorem wire_CN (i : ℕ) : wire.CN i = 0 := by
  rw [CN_sum, sum_flatMap]
  refine List.sum_eq_zero fun x hx => ?_
  rw [List.mem_map] at hx
  obtain ⟨j, _, rfl⟩ := hx
  rw [List.map_map]
  refine List.sum_eq_zero fun x hx => ?_
  rw [List.mem_map] at hx
  obtain ⟨T, hT, rfl⟩ := hx
  rw [mem_cells] at hT
  have hb := wire_box (wire_sub hT)
  simp only [Function.comp]
  rw [if_neg]
  rintro ⟨h1, h2⟩
  rw [wire_sep T hb.1 hb.2] at h1 h2
  rcases int_sq T.1 with h0 | h0
  · rw [h0] at h2
    norm_num at h2
  · have := (Real.sqrt_lt_sqrt_iff (by positivity)).1 h1
    have e : wire.cnThr = 1 := rfl
    rw [e] at this
    linarith

theorem wire_regular : Regular wire where
  le := fun d => criteria_mono (I := wire) (by rw [wire_det]; norm_num) _ (by norm_num) d
  thr := by simp [wire]
  r0pos := fun _ _ _ _ => by simp [wire]
  cover := fun i hi j hj T hT hs => by
    have hb := wire_box hT
    refine covered (I := wire) (f := fun _ _ => 0) ⟨fun _ _ _ => by norm_num, fun _ _ _ => by simp [wire]⟩
      (by rw [wire_det]; norm_num) _ _ hi hj T ?_ ?_ ?_ hs.le
    · intro h; simp at h
    · exact fun _ => hb.1
    · exact fun _ => hb.2
  apart := fun i hi j hj hij => by
    have : wire.natom = 1 := rfl
    omega
  self := fun i hi T hT h0 => by
    have hb := wire_box hT
    rw [wire_sep T hb.1 hb.2]
    rcases int_sq T.1 with h | h
    · exact absurd (Prod.ext h (Prod.ext hb.1 hb.2)) h0
    · linarith
  offR := fun i hi j hj T hT => by
    have hb := wire_box hT
    rw [wire_sep T hb.1 hb.2]
    have : (16 * T.1 ^ 2 : ℤ) ≠ 25 := by omega
    exact fun h => this (by have h : 16 * (T.1 : ℝ) ^ 2 = 25 := h; exact_mod_cast h)
  offC := fun i hi j hj T hT => by
    have hb := wire_box hT
    rw [wire_sep T hb.1 hb.2]
    have : (16 * T.1 ^ 2 : ℤ) ≠ 1 := by omega
    exact fun h => this (by have h : 16 * (T.1 : ℝ) ^ 2 = 1 := h; exact_mod_cast h)
  weight := fun i _ j _ => by
    rw [wire_CN, wire_CN]
    simp [wire]
    norm_num
  sym := fun _ _ _ _ => ⟨rfl, rfl⟩

/-- The stretch along the wire. -/
noncomputable def stretch : Fin 3 → Fin 3 → ℝ := fun r c => if r = 0 ∧ c = 0 then 1 else 0

theorem wire_pair : wire.pair 0 0 = (10, 0, 0) := by
  unfold Inp.pair
  rw [c6At_eq _ _ _ _ _ (wire_regular.W (by decide) (by decide)), wire_CN]
  simp [Inp.Z, Inp.W, Inp.WI, Inp.WJ, Inp.ZI, Inp.ZJ, Inp.samples, Inp.wt, wire]

theorem wire_w (x : ℤ) (hx : x ≠ 0) : 0 < wire.w (fun b d => ∑ c : Fin 3, stretch d c * wire.pos b c)
    (fun r d => ∑ c : Fin 3, stretch d c * wire.lat r c) 0 0 (x, 0, 0) := by
  unfold Inp.w
  refine div_pos ?_ (Real.sqrt_pos.2 ?_)
  · simp [Inp.sep, vel, stretch, wire, latOf]
    exact hx
  · rw [wire_sep _ rfl rfl]
    have : (x : ℝ) ≠ 0 := Int.cast_ne_zero.2 hx
    positivity

theorem wire_f2 (x : ℤ) (hx : x ≠ 0) (h25 : 16 * (x : ℝ) ^ 2 ≤ 25) :
    wire.f2 (fun b d => ∑ c : Fin 3, stretch d c * wire.pos b c)
      (fun r d => ∑ c : Fin 3, stretch d c * wire.lat r c) 0 0 (x, 0, 0) < 0 := by
  have hw := wire_w x hx
  have h1 : (1 : ℝ) ≤ (x : ℝ) ^ 2 := (int_sq x).resolve_left hx
  have hx1 : (x : ℝ) ^ 2 = 1 := by
    have : x ^ 2 < 2 := by
      have : (x : ℝ) ^ 2 < 2 := by linarith
      exact_mod_cast this
    have h' : 1 ≤ x ^ 2 := by exact_mod_cast h1
    have : x ^ 2 = 1 := by omega
    exact_mod_cast this
  have hsep : wire.sep2 0 0 (x, 0, 0) = 16 := by rw [wire_sep _ rfl rfl]; simp [hx1]
  have hsq : Real.sqrt 16 = 4 := by
    rw [show (16 : ℝ) = 4 ^ 2 by norm_num, Real.sqrt_sq (by norm_num)]
  unfold Inp.f2
  rw [hsep, wire_pair, if_neg (by simp [wire]; norm_num)]
  simp only [hsq, half, if_true]
  generalize wire.w _ _ 0 0 (x, 0, 0) = W at *
  simp [wire]
  norm_num
  exact hw

theorem wire_L : wire.L (fun b d => ∑ c : Fin 3, stretch d c * wire.pos b c)
    (fun r d => ∑ c : Fin 3, stretch d c * wire.lat r c) wire.acc < 0 := by
  rw [L_acc wire_regular]
  set v : ℕ → Fin 3 → ℝ := fun b d => ∑ c : Fin 3, stretch d c * wire.pos b c
  set M : Fin 3 → Fin 3 → ℝ := fun r d => ∑ c : Fin 3, stretch d c * wire.lat r c
  have h3 : (wire.slots3.map fun s => wire.f3 v M s.1 s.2.1 s.2.2.2.1 s.2.2.1 s.2.2.2.2).sum = 0 := by
    refine List.sum_eq_zero fun y hy => ?_
    rw [List.mem_map] at hy
    obtain ⟨s, hs, rfl⟩ := hy
    obtain ⟨-, -, -, hT, -, -⟩ := mem_slots3 hs
    unfold Inp.f3
    rw [if_pos]
    left
    have hb := wire_box (wire_sub hT)
    rw [wire_sep _ hb.1 hb.2]
    rcases int_sq s.2.2.1.1 with h | h
    · right; rw [h]; norm_num
    · left
      have e : wire.cnThr = 1 := rfl
      rw [e]
      linarith
  have hval : ∀ T ∈ box wire.nEG, wire.f2 v M 0 0 T ≤ 0 := by
    intro T hT
    have hb := wire_box hT
    obtain ⟨x, y, z⟩ := T
    simp only at hb
    obtain ⟨rfl, rfl⟩ := hb
    by_cases hx : x = 0
    · subst hx
      unfold Inp.f2
      rw [if_pos (Or.inr (by rw [wire_sep _ rfl rfl]; norm_num))]
    · by_cases h25 : 16 * (x : ℝ) ^ 2 ≤ 25
      · exact (wire_f2 x hx h25).le
      · unfold Inp.f2
        rw [if_pos (Or.inl (by rw [wire_sep _ rfl rfl]; exact not_le.1 h25))]
  have hmem : ((1, 0, 0) : Img) ∈ box wire.nEG := by
    refine covered (I := wire) (f := fun _ _ => 0) ⟨fun _ _ _ => by norm_num, fun _ _ _ => by simp [wire]⟩
      (by rw [wire_det]; norm_num) _ _ (i := 0) (j := 0) (by decide) (by decide) _ (by simp) (by simp) (by simp) ?_
    rw [wire_sep _ rfl rfl]
    norm_num
  rw [h3, add_zero, slots2_sum wire fun i j T _ => wire.f2 v M i j T]
  have hn : wire.natom = 1 := rfl
  rw [hn]
  simp only [zero_add, Finset.sum_range_one]
  refine Finset.sum_neg' hval ⟨_, hmem, wire_f2 1 (by decide) (by norm_num)⟩

/-- **C67, a finding.** In a wire the D3 stress is not the derivative of the D3 energy per `cell_measure`: it is divided by
the whole of the box, its empty directions included, and so is too small by the area of the box, while every other part of the stress is divided by
`cell_measure`. -/
theorem stress_per_measure_fails : ∃ (I : Inp) (U : Fin 3 → Fin 3 → ℝ) (cell : Fin 3 → ℝ) (periodic : Fin 3 → Bool)
    (ε : Fin 3 → Fin 3 → ℝ) (E' : ℝ), Regular I ∧ I.lat = latOf U cell ∧ 0 < jacbdet U ∧ (∀ d, 0 < cell d) ∧
      I.nEG = setCriteria I.rThr periodic I.lat ∧ I.nCN = setCriteria I.cnThr periodic I.lat ∧
      HasDerivAt (fun t => (I.strain ε t).energy) E' 0 ∧
      ∑ r : Fin 3, ∑ c : Fin 3, I.stress r c * ε r c ≠ E' / cellMeasure U cell periodic := by
  refine ⟨wire, _, _, ![true, false, false], stretch, _, wire_regular, rfl, ?_, ?_, rfl, rfl,
    stress_is_strain_derivative wire_regular (by rw [wire_det]; norm_num) stretch, ?_⟩
  · simp [jacbdet]
  · intro d
    fin_cases d <;> norm_num
  · have hm : cellMeasure (fun r c : Fin 3 => if r = c then (1 : ℝ) else 0) ![4, 10, 10] ![true, false, false] = 4 := by
      simp [cellMeasure, jacbdet]
    rw [hm, wire_det]
    have hs := sigma_eq wire_regular stretch
    have hneg := wire_L
    rw [← hs] at hneg
    have : ∑ r : Fin 3, ∑ c : Fin 3, wire.stress r c * stretch r c
        = -(∑ r : Fin 3, ∑ c : Fin 3, wire.out.sigma r c * stretch r c) / 400 := by
      rw [← Finset.sum_neg_distrib, Finset.sum_div]
      refine Finset.sum_congr rfl fun r _ => ?_
      rw [← Finset.sum_neg_distrib, Finset.sum_div]
      refine Finset.sum_congr rfl fun c _ => ?_
      unfold Inp.stress
      rw [wire_det]
      ring
    intro hc
    linarith

/-- The wire has a stress to which all this applies. -/
example : Regular wire ∧ wire.detLattice ≠ 0 ∧ wire.stress 0 0 ≠ 0 := by
  refine ⟨wire_regular, by rw [wire_det]; norm_num, ?_⟩
  have hs := sigma_eq wire_regular stretch
  have hneg := wire_L
  rw [← hs] at hneg
  have e : ∑ r : Fin 3, ∑ c : Fin 3, wire.out.sigma r c * stretch r c = wire.out.sigma 0 0 := by
    simp [Fin.sum_univ_three, stretch]
  rw [e] at hneg
  unfold Inp.stress
  rw [wire_det]
  intro hc
  linarith

/-! Two atoms half a cell apart in a cube of 6, within both cut-offs of each other and of their images. -/

/-- The cube. -/
noncomputable def cube : Inp where
  natom := 2
  pos := fun i d => if i = 1 ∧ d = 0 then 3 else 0
  lat := fun r c => if r = c then 6 else 0
  nEG := fun _ => 1
  nCN := fun _ => 1
  rcov := fun _ => 1 / 2
  r2r4 := fun i => i + 1
  r0 := fun _ _ => 2
  maxci := fun _ => 2
  c6v := fun _ _ s u => 10 + s + u
  c6i := fun _ _ s _ => s
  c6j := fun _ _ _ u => u
  cnThr := 40
  rThr := 50
  s8 := 1
  rs6 := 1

theorem cube_sep {i j : ℕ} (hi : i < 2) (hj : j < 2) (T : Img) :
    cube.sep2 i j T = ((9 * ((j : ℤ) - i + 2 * T.1) ^ 2 + 36 * T.2.1 ^ 2 + 36 * T.2.2 ^ 2 : ℤ) : ℝ) := by
  have e : ∀ k < 2, cube.pos k 0 = 3 * (k : ℝ) := fun k hk => by
    interval_cases k <;> simp [cube]
  have e1 : ∀ k, cube.pos k 1 = 0 := fun k => by simp [cube]
  have e2 : ∀ k, cube.pos k 2 = 0 := fun k => by simp [cube]
  simp only [Inp.sep2, Inp.sep, Fin.sum_univ_three, e i hi, e j hj, e1, e2]
  simp [cube]
  ring

theorem cube_far {i j : ℕ} (hi : i < 2) (hj : j < 2) (T : Img) :
    (i = j ∧ T = 0) ∨ (9 : ℝ) ≤ cube.sep2 i j T := by
  rw [cube_sep hi hj]
  by_cases h : i = j ∧ T = 0
  · exact Or.inl h
  · right
    have : (9 : ℤ) ≤ 9 * ((j : ℤ) - i + 2 * T.1) ^ 2 + 36 * T.2.1 ^ 2 + 36 * T.2.2 ^ 2 := by
      have p : ∀ z : ℤ, z ≠ 0 → 1 ≤ z ^ 2 := fun z hz => by
        rcases lt_or_gt_of_ne hz with h | h <;> nlinarith
      by_cases h2 : T.2.1 = 0
      · by_cases h3 : T.2.2 = 0
        · have h1 : (j : ℤ) - i + 2 * T.1 ≠ 0 := by
            intro hc
            refine h ⟨by omega, Prod.ext (show T.1 = 0 by omega) (Prod.ext h2 h3)⟩
          have := p _ h1
          rw [h2, h3]
          omega
        · have := p _ h3
          have := sq_nonneg T.2.1
          have := sq_nonneg ((j : ℤ) - i + 2 * T.1)
          omega
      · have := p _ h2
        have := sq_nonneg T.2.2
        have := sq_nonneg ((j : ℤ) - i + 2 * T.1)
        omega
    exact_mod_cast this

theorem cube_CN {i : ℕ} (hi : i < 2) : 0 ≤ cube.CN i ∧ cube.CN i ≤ 1 := by
  have e : cube.CN i = ∑ j ∈ Finset.range 2, ∑ T ∈ box (fun _ => 1),
      (if Real.sqrt (cube.sep2 i j T) < Real.sqrt cube.cnThr ∧ Real.sqrt (cube.sep2 i j T) > 1e-10 then
        1 / (1 + Real.exp (-K1 * ((cube.rcov i + cube.rcov j) / Real.sqrt (cube.sep2 i j T) - 1))) else 0) := by
    rw [CN_sum, sum_flatMap, sum_range_list]
    refine Finset.sum_congr rfl fun j hj => ?_
    rw [List.map_map]
    exact sum_cells (fun _ => 1) _
  have b : ∀ j < 2, ∀ T : Img, 0 ≤ (if Real.sqrt (cube.sep2 i j T) < Real.sqrt cube.cnThr ∧
        Real.sqrt (cube.sep2 i j T) > 1e-10 then
        1 / (1 + Real.exp (-K1 * ((cube.rcov i + cube.rcov j) / Real.sqrt (cube.sep2 i j T) - 1))) else 0) ∧
      (if Real.sqrt (cube.sep2 i j T) < Real.sqrt cube.cnThr ∧ Real.sqrt (cube.sep2 i j T) > 1e-10 then
        1 / (1 + Real.exp (-K1 * ((cube.rcov i + cube.rcov j) / Real.sqrt (cube.sep2 i j T) - 1))) else 0)
        ≤ (1 : ℝ) / 1000 := by
    intro j hj T
    split
    · next hc =>
      have h9 : (9 : ℝ) ≤ cube.sep2 i j T := by
        rcases cube_far hi hj T with h | h
        · rw [h.1, h.2, sep2_self] at hc
          simp at hc
          norm_num at hc
        · exact h
      have h3 : (3 : ℝ) ≤ Real.sqrt (cube.sep2 i j T) := Real.le_sqrt_of_sq_le (by linarith)
      have hr : cube.rcov i + cube.rcov j = 1 := by simp [cube]; norm_num
      have hle : 1 / Real.sqrt (cube.sep2 i j T) ≤ 1 / 3 := by
        refine one_div_le_one_div_of_le (by norm_num) h3
      have hx : (10 : ℝ) ≤ -K1 * ((cube.rcov i + cube.rcov j) / Real.sqrt (cube.sep2 i j T) - 1) := by
        rw [hr, K1]
        linarith
      have hexp : (1000 : ℝ) ≤ Real.exp (-K1 * ((cube.rcov i + cube.rcov j) / Real.sqrt (cube.sep2 i j T) - 1)) := by
        refine le_trans ?_ (Real.exp_le_exp.2 hx)
        have h2 : (2 : ℝ) ≤ Real.exp 1 := by
          have := Real.add_one_le_exp (1 : ℝ)
          linarith
        have : Real.exp 10 = Real.exp 1 ^ 10 := by rw [← Real.exp_nat_mul]; norm_num
        rw [this]
        calc (1000 : ℝ) ≤ 2 ^ 10 := by norm_num
          _ ≤ Real.exp 1 ^ 10 := pow_le_pow_left₀ (by norm_num) h2 10
      refine ⟨by positivity, ?_⟩
      refine one_div_le_one_div_of_le (by norm_num) (by linarith)
    · norm_num
  have hcard : (box (fun _ => 1)).card = 27 := by
    simp [box, boxLH]
  rw [e]
  constructor
  · exact Finset.sum_nonneg fun j hj => Finset.sum_nonneg fun T _ => (b j (Finset.mem_range.1 hj) T).1
  · refine le_trans (Finset.sum_le_sum fun j hj =>
      Finset.sum_le_card_nsmul _ _ ((1 : ℝ) / 1000) fun T _ => (b j (Finset.mem_range.1 hj) T).2) ?_
    rw [hcard]
    norm_num

theorem cube_regular : Regular cube where
  le := fun _ => le_refl _
  thr := by norm_num [cube]
  r0pos := fun _ _ _ _ => by norm_num [cube]
  cover := fun _ _ _ _ _ hT _ => hT
  apart := fun i hi j hj hij T _ => by
    rcases cube_far hi hj T with h | h
    · exact absurd h.1 hij
    · linarith
  self := fun i hi T _ h0 => by
    rcases cube_far hi hi T with h | h
    · exact absurd h.2 h0
    · linarith
  offR := fun i hi j hj T _ => by
    rw [cube_sep hi hj]
    intro h
    have h : ((9 * ((j : ℤ) - i + 2 * T.1) ^ 2 + 36 * T.2.1 ^ 2 + 36 * T.2.2 ^ 2 : ℤ) : ℝ) = 50 := h
    have h' : 9 * ((j : ℤ) - i + 2 * T.1) ^ 2 + 36 * T.2.1 ^ 2 + 36 * T.2.2 ^ 2 = 50 := by exact_mod_cast h
    omega
  offC := fun i hi j hj T _ => by
    rw [cube_sep hi hj]
    intro h
    have h : ((9 * ((j : ℤ) - i + 2 * T.1) ^ 2 + 36 * T.2.1 ^ 2 + 36 * T.2.2 ^ 2 : ℤ) : ℝ) = 40 := h
    have h' : 9 * ((j : ℤ) - i + 2 * T.1) ^ 2 + 36 * T.2.1 ^ 2 + 36 * T.2.2 ^ 2 = 40 := by exact_mod_cast h
    omega
  weight := fun i hi j hj => by
    obtain ⟨a0, a1⟩ := cube_CN hi
    obtain ⟨b0, b1⟩ := cube_CN hj
    generalize cube.CN i = p at *
    generalize cube.CN j = q at *
    have key : (1e-99 : ℝ) < Real.exp (-4 * ((0 - p) ^ 2 + (0 - q) ^ 2)) := by
      have h1 : -8 ≤ -4 * ((0 - p) ^ 2 + (0 - q) ^ 2) := by nlinarith
      refine lt_of_lt_of_le ?_ (Real.exp_le_exp.2 h1)
      have h3 : Real.exp 1 < 3 := lt_trans Real.exp_one_lt_d9 (by norm_num)
      have h8 : Real.exp 8 < 3 ^ 8 := by
        have : Real.exp 8 = Real.exp 1 ^ 8 := by rw [← Real.exp_nat_mul]; norm_num
        rw [this]
        exact pow_lt_pow_left₀ h3 (Real.exp_pos _).le (by norm_num)
      rw [Real.exp_neg]
      have := inv_strictAnti₀ (Real.exp_pos 8) h8
      refine lt_trans ?_ this
      norm_num
    refine lt_of_lt_of_le key ?_
    have e00 : Real.exp (-4 * ((0 - p) ^ 2 + (0 - q) ^ 2))
        = if 0 < cube.c6v i j 0 0 then
          Real.exp (-4 * ((cube.c6i i j 0 0 - p) ^ 2 + (cube.c6j i j 0 0 - q) ^ 2)) else 0 := by
      simp [cube]
    rw [e00]
    have hnn : ∀ s u, 0 ≤ (if 0 < cube.c6v i j s u then
        Real.exp (-4 * ((cube.c6i i j s u - p) ^ 2 + (cube.c6j i j s u - q) ^ 2)) else 0) := fun s u => by
      split <;> positivity
    have h0 : 0 ∈ Finset.range (cube.maxci i) := by simp [cube]
    have h0' : 0 ∈ Finset.range (cube.maxci j) := by simp [cube]
    refine le_trans (Finset.single_le_sum (f := fun u => if 0 < cube.c6v i j 0 u then
        Real.exp (-4 * ((cube.c6i i j 0 u - p) ^ 2 + (cube.c6j i j 0 u - q) ^ 2)) else 0) (fun u _ => hnn 0 u) h0') ?_
    exact Finset.single_le_sum (f := fun s => ∑ u ∈ Finset.range (cube.maxci j), if 0 < cube.c6v i j s u then
        Real.exp (-4 * ((cube.c6i i j s u - p) ^ 2 + (cube.c6j i j s u - q) ^ 2)) else 0)
        (fun s _ => Finset.sum_nonneg fun u _ => hnn s u) h0
  sym := fun _ _ s u => ⟨by simp [cube]; ring, rfl⟩

/-- The cube meets the hypotheses; two of its distances are within both cut-offs. -/
example : Regular cube ∧ cube.detLattice = 216 ∧ cube.sep2 0 1 0 = 9 ∧ cube.sep2 0 0 (1, 0, 0) = 36 := by
  refine ⟨cube_regular, ?_, ?_, ?_⟩
  · simp [Inp.detLattice, cube]; norm_num
  · rw [cube_sep (by norm_num) (by norm_num)]; norm_num
  · rw [cube_sep (by norm_num) (by norm_num)]; norm_num

/-! ### C68 -/

/-- **C68.** The energy is minus half the sum over all ordered pairs and all images of the two damped terms, plus a sixth
of the sum over all ordered triples and all pairs of images of the damped Axilrod-Teller term, with coefficients
interpolated at the coordination numbers; `B` is any finite set of cells which holds the boxes. -/
theorem energy_exact {A : Img → Prop} (h : Complete I A) (B : Finset Img) (hB : box I.nEG ⊆ B) (hA : ∀ T ∈ B, A T) :
    I.energy = -(1 / 2 * ∑ i ∈ Finset.range I.natom, ∑ j ∈ Finset.range I.natom, ∑ T ∈ B,
          I.pairTerm (I.cbar (I.specCN B)) i j T)
      + 1 / 6 * ∑ i ∈ Finset.range I.natom, ∑ j ∈ Finset.range I.natom, ∑ k ∈ Finset.range I.natom,
          ∑ T ∈ B, ∑ U ∈ B, I.tripleTerm (I.cbar (I.specCN B)) i j k T U := by
  have hB' : box I.nCN ⊆ B := h.subset.trans hB
  have hc : ∀ i < I.natom, ∀ j < I.natom, I.cbar (I.specCN B) i j = I.cbar I.CN i j := by
    intro i hi j hj
    unfold Inp.cbar
    rw [CN_spec h B hB' hA hi, CN_spec h B hB' hA hj]
  have e2 : ∀ i ∈ Finset.range I.natom, ∀ j ∈ Finset.range I.natom, ∀ T ∈ B,
      I.pairTerm (I.cbar I.CN) i j T = I.pairTerm (I.cbar (I.specCN B)) i j T := by
    intro i hi j hj T _
    have := hc i (Finset.mem_range.1 hi) j (Finset.mem_range.1 hj)
    unfold Inp.pairTerm
    simp only [this]
  have e3 : ∀ i ∈ Finset.range I.natom, ∀ j ∈ Finset.range I.natom, ∀ k ∈ Finset.range I.natom, ∀ T ∈ B, ∀ U ∈ B,
      I.tripleTerm (I.cbar I.CN) i j k T U = I.tripleTerm (I.cbar (I.specCN B)) i j k T U := by
    intro i hi j hj k hk T _ U _
    simp only [Finset.mem_range] at hi hj hk
    have h1 := hc i hi j hj
    have h2 := hc i hi k hk
    have h3 := hc j hj k hk
    unfold Inp.tripleTerm
    simp only [h1, h2, h3]
  rw [energy_sum, energy2 h B hB hA, energy3 h B hB' hA,
    Finset.sum_congr rfl fun i hi => Finset.sum_congr rfl fun j hj => Finset.sum_congr rfl (e2 i hi j hj),
    Finset.sum_congr rfl fun i hi => Finset.sum_congr rfl fun j hj => Finset.sum_congr rfl fun k hk =>
      Finset.sum_congr rfl fun T hT => Finset.sum_congr rfl (e3 i hi j hj k hk T hT)]

/-- The cells of the periodic directions. -/
def Cell (periodic : Fin 3 → Bool) (T : Img) : Prop :=
  (periodic 0 = false → T.1 = 0) ∧ (periodic 1 = false → T.2.1 = 0) ∧ (periodic 2 = false → T.2.2 = 0)

/-- **C68.** With the boxes of `d3_set_criteria`, in a right-handed cell whose atoms are inside it, every image of any
atom within a cut-off of any other atom is counted. -/
theorem images_complete (periodic : Fin 3 → Bool) {f : ℕ → Fin 3 → ℝ} (hw : I.Wrapped f) (hdet : 0 < I.detLattice)
    (hEG : I.nEG = setCriteria I.rThr periodic I.lat) (hCN : I.nCN = setCriteria I.cnThr periodic I.lat)
    (i j : ℕ) (hi : i < I.natom) (hj : j < I.natom) (T : Img) (hT : Cell periodic T) :
    (I.sep2 i j T ≤ I.rThr → T ∈ box I.nEG) ∧ (I.sep2 i j T ≤ I.cnThr → T ∈ box I.nCN) := by
  rw [hEG, hCN]
  exact ⟨covered hw hdet periodic _ hi hj T hT.1 hT.2.1 hT.2.2, covered hw hdet periodic _ hi hj T hT.1 hT.2.1 hT.2.2⟩

/-- **C68.** The energy of a cell set up by the code is the sum over all cells of the periodic directions. -/
theorem energy_of_cell (periodic : Fin 3 → Bool) {f : ℕ → Fin 3 → ℝ} (hw : I.Wrapped f) (hdet : 0 < I.detLattice)
    (hEG : I.nEG = setCriteria I.rThr periodic I.lat) (hCN : I.nCN = setCriteria I.cnThr periodic I.lat)
    (hthr : I.cnThr ≤ I.rThr)
    (symR0 : ∀ i < I.natom, ∀ j < I.natom, I.r0 i j = I.r0 j i)
    (symV : ∀ i < I.natom, ∀ j < I.natom, ∀ s u, I.c6v i j s u = I.c6v j i u s)
    (symC : ∀ i < I.natom, ∀ j < I.natom, ∀ s u, I.c6i i j s u = I.c6j j i u s)
    (weight : ∀ i < I.natom, ∀ j < I.natom,
      1e-99 < ∑ s ∈ Finset.range (I.maxci i), ∑ u ∈ Finset.range (I.maxci j), if 0 < I.c6v i j s u then
        Real.exp (-4 * ((I.c6i i j s u - I.CN i) ^ 2 + (I.c6j i j s u - I.CN j) ^ 2)) else 0)
    (B : Finset Img) (hB : box I.nEG ⊆ B) (hA : ∀ T ∈ B, Cell periodic T) :
    I.energy = -(1 / 2 * ∑ i ∈ Finset.range I.natom, ∑ j ∈ Finset.range I.natom, ∑ T ∈ B,
          I.pairTerm (I.cbar (I.specCN B)) i j T)
      + 1 / 6 * ∑ i ∈ Finset.range I.natom, ∑ j ∈ Finset.range I.natom, ∑ k ∈ Finset.range I.natom,
          ∑ T ∈ B, ∑ U ∈ B, I.tripleTerm (I.cbar (I.specCN B)) i j k T U := by
  refine energy_exact (A := Cell periodic) ?_ B hB hA
  exact
    { zero := ⟨fun _ => rfl, fun _ => rfl, fun _ => rfl⟩
      sub := fun T U hT hU => by
        refine ⟨fun h => ?_, fun h => ?_, fun h => ?_⟩
        · simp [hT.1 h, hU.1 h]
        · simp [hT.2.1 h, hU.2.1 h]
        · simp [hT.2.2 h, hU.2.2 h]
      inA := fun T hT => hA T (hB hT)
      le := fun d => by rw [hEG, hCN]; exact criteria_mono hdet periodic hthr d
      coverR := fun i hi j hj T hT => (images_complete periodic hw hdet hEG hCN i j hi hj T hT).1
      coverC := fun i hi j hj T hT => (images_complete periodic hw hdet hEG hCN i j hi hj T hT).2
      symR0 := symR0
      symV := symV
      symC := symC
      weight := weight }

/-- The wire meets the hypotheses. -/
example : wire.energy = -(1 / 2 * ∑ i ∈ Finset.range 1, ∑ j ∈ Finset.range 1, ∑ T ∈ box wire.nEG,
          wire.pairTerm (wire.cbar (wire.specCN (box wire.nEG))) i j T)
      + 1 / 6 * ∑ i ∈ Finset.range 1, ∑ j ∈ Finset.range 1, ∑ k ∈ Finset.range 1,
          ∑ T ∈ box wire.nEG, ∑ U ∈ box wire.nEG, wire.tripleTerm (wire.cbar (wire.specCN (box wire.nEG))) i j k T U :=
  energy_of_cell ![true, false, false] (f := fun _ _ => 0) ⟨fun _ _ _ => by norm_num, fun _ _ _ => by simp [wire]⟩
    (by rw [wire_det]; norm_num) rfl rfl wire_regular.thr (fun _ _ _ _ => rfl) (fun _ _ _ _ _ _ => rfl)
    (fun _ _ _ _ _ _ => rfl) wire_regular.weight _ (Finset.Subset.refl _) fun T hT =>
      ⟨fun h => by simp at h, fun _ => (wire_box hT).1, fun _ => (wire_box hT).2⟩

/-- **C68.** The table filled by `copyC6` is symmetric under the exchange of the two atoms when the rows of an atom with
itself have the same coordination number twice. -/
theorem table_symmetric (rows : List Row)
    (hd : ∀ r ∈ rows, r.iat = r.jat → r.iadr = r.jadr → r.cn1 = r.cn2) (a b s u : ℕ) :
    copyC6 rows b a u s = ((copyC6 rows a b s u).1, (copyC6 rows a b s u).2.2, (copyC6 rows a b s u).2.1) := by
  unfold copyC6
  have : ∀ (l : List Row) (t : ℕ → ℕ → ℕ → ℕ → ℝ × ℝ × ℝ), (∀ r ∈ l, r.iat = r.jat → r.iadr = r.jadr → r.cn1 = r.cn2) →
      (∀ a b s u, t b a u s = ((t a b s u).1, (t a b s u).2.2, (t a b s u).2.1)) →
      ∀ a b s u, (l.foldl (fun t r =>
          setC6 (setC6 t r.iat r.jat r.iadr r.jadr (r.c6, r.cn1, r.cn2)) r.jat r.iat r.jadr r.iadr (r.c6, r.cn2, r.cn1))
          t) b a u s
        = ((l.foldl (fun t r =>
          setC6 (setC6 t r.iat r.jat r.iadr r.jadr (r.c6, r.cn1, r.cn2)) r.jat r.iat r.jadr r.iadr (r.c6, r.cn2, r.cn1))
          t a b s u).1, (l.foldl (fun t r =>
          setC6 (setC6 t r.iat r.jat r.iadr r.jadr (r.c6, r.cn1, r.cn2)) r.jat r.iat r.jadr r.iadr (r.c6, r.cn2, r.cn1))
          t a b s u).2.2, (l.foldl (fun t r =>
          setC6 (setC6 t r.iat r.jat r.iadr r.jadr (r.c6, r.cn1, r.cn2)) r.jat r.iat r.jadr r.iadr (r.c6, r.cn2, r.cn1))
          t a b s u).2.1) := by
    intro l
    induction l with
    | nil => exact fun t _ h => h
    | cons r l ih =>
      intro t hl ht
      simp only [List.foldl_cons]
      refine ih _ (fun x hx => hl x (List.mem_cons_of_mem _ hx)) ?_
      intro a b s u
      have h0 := hl r List.mem_cons_self
      unfold setC6
      by_cases h1 : a = r.iat ∧ b = r.jat ∧ s = r.iadr ∧ u = r.jadr
      · obtain ⟨rfl, rfl, rfl, rfl⟩ := h1
        by_cases h2 : r.iat = r.jat ∧ r.iadr = r.jadr
        · have := h0 h2.1 h2.2
          simp [h2.1, h2.2, this]
        · have e1 : ¬ (r.iat = r.jat ∧ r.jat = r.iat ∧ r.iadr = r.jadr ∧ r.jadr = r.iadr) := fun h => h2 ⟨h.1, h.2.2.1⟩
          simp [e1]
      · by_cases h3 : b = r.iat ∧ a = r.jat ∧ u = r.iadr ∧ s = r.jadr
        · obtain ⟨rfl, rfl, rfl, rfl⟩ := h3
          have e1 : ¬ (r.iat = r.jat ∧ r.jat = r.iat ∧ r.iadr = r.jadr ∧ r.jadr = r.iadr) := fun h =>
            h1 ⟨h.2.1, h.1, h.2.2.2, h.2.2.1⟩
          simp [e1]
        · have e1 : ¬ (b = r.jat ∧ a = r.iat ∧ u = r.jadr ∧ s = r.iadr) := fun h => h1 ⟨h.2.1, h.1, h.2.2.2, h.2.2.1⟩
          have e2 : ¬ (a = r.jat ∧ b = r.iat ∧ s = r.jadr ∧ u = r.iadr) := fun h => h3 ⟨h.2.1, h.1, h.2.2.2, h.2.2.1⟩
          rw [if_neg e1, if_neg h3, if_neg e2, if_neg h1]
          exact ht a b s u
  exact this rows _ hd (fun _ _ _ _ => rfl) a b s u

/-- Two rows: two atoms with different references, and a diagonal one. -/
example : copyC6 [⟨6, 1, 0, 1, 7, 2, 3⟩, ⟨6, 6, 0, 0, 9, 4, 4⟩] 1 6 1 0 = (7, 3, 2) ∧
    copyC6 [⟨6, 1, 0, 1, 7, 2, 3⟩, ⟨6, 6, 0, 0, 9, 4, 4⟩] 6 1 0 1 = (7, 2, 3) := by
  constructor <;> simp [copyC6, setC6]

end Sparc.D3

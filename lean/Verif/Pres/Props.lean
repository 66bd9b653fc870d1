import Verif.Pres.Nl
import Mathlib.Order.Interval.Finset.Basic

/-!
# Stress tensor and pressure: properties

C80: `pressure.c` and `stress.c` agree term by term up to the energies that the pressure takes
from the total energy.  C81: components of the stress as sums over the grid.  C82: the nonlocal
terms as sums over atoms and projectors.
-/

namespace Sparc.Pres

open Loop Matrix

variable {𝕜 : Type} [RCLike 𝕜] {L : ℕ → ℝ} {E : Env}

/-! ### Vocabulary -/

/-- Sum over the grid nodes (global indices) of the box of an image. -/
noncomputable def boxSum (R : Infl.Rec) (f : ℤ → ℤ → ℤ → ℝ) : ℝ :=
  ∑ K ∈ Finset.Icc R.zs R.ze, ∑ J ∈ Finset.Icc R.ys R.ye, ∑ I ∈ Finset.Icc R.xs R.xe, f I J K

/-- The value at a global node of an array on the box of an image widened by `w` nodes on each
side, first index fastest. -/
def onBox (R : Infl.Rec) (w : ℕ) (m : ℤ → ℝ) (I J K : ℤ) : ℝ :=
  m ((I - (R.xs - w)) + (J - (R.ys - w)) * (R.xe - R.xs + 1 + 2 * w)
    + (K - (R.zs - w)) * (R.xe - R.xs + 1 + 2 * w) * (R.ye - R.ys + 1 + 2 * w))

/-- The value at a global node of an array of a process, first index fastest. -/
def onDom (D : Dom) (m : ℤ → ℝ) (I J K : ℤ) : ℝ :=
  m ((I - D.lo.1) + (J - D.lo.2.1) * D.nx + (K - D.lo.2.2) * D.nx * D.ny)

/-- The Cartesian gradient at a global node by central differences. -/
noncomputable def nabla (L : ℕ → ℝ) (E : Env) (F : ℤ → ℤ → ℤ → ℝ) (I J K : ℤ) : Fin 3 → ℝ :=
  cgrad L (∑ p ∈ Finset.Icc 1 E.FDn, (F (I + p) J K - F (I - p) J K) * E.D1x p,
   ∑ p ∈ Finset.Icc 1 E.FDn, (F I (J + p) K - F I (J - p) K) * E.D1y p,
   ∑ p ∈ Finset.Icc 1 E.FDn, (F I J (K + p) - F I J (K - p)) * E.D1z p)

/-- The Cartesian vector from an image to a global node. -/
noncomputable def lever (L : ℕ → ℝ) (E : Env) (R : Infl.Rec) (I J K : ℤ) : Fin 3 → ℝ :=
  cpos L (I * E.h.1 - R.x, J * E.h.2.1 - R.y, K * E.h.2.2 - R.z)

/-- Sum over all the images of a process. -/
noncomputable def imgSum (D : Dom) (f : Img → ℝ) : ℝ := (D.imgs.map fun l => (l.map f).sum).sum

/-- Kinetic energy of the orbitals: half the occupied sum of their squared gradients. -/
noncomputable def kinetic (L : ℕ → ℝ) (E : Env) (N : NEnv) (Ps : List (Grp 𝕜)) : ℝ :=
  1 / 2 * (Ps.map fun P => (P.doms.map fun D => bandSum E N P D fun q =>
    ∑ c, ‖psiGrad L D q c‖ ^ 2).sum).sum

/-- `∫ ρ φ`. -/
noncomputable def hartree (E : Env) (ps : List Dom) : ℝ :=
  (ps.map fun D => E.dV * ((List.range D.nd).map fun n : ℕ => D.rho n * D.phi n).sum).sum

/-! ### C80: pressure against stress -/

theorem div_trace {V : ℝ} (hV : V ≠ 0) (s : Ten) : V * tr (fun i => s i / V) = tr s := by
  simp only [tr_apply]
  field_simp

theorem tr_sub (a b : Ten) : tr (a - b) = tr a - tr b := by
  simp only [tr_apply, Pi.sub_apply]; ring

theorem xc_trace (h : Coord.transformMat L = some E.G) (h0 : E.G.cellTyp = 0 → unitMat L = 1)
    {V : ℝ} (hV : V ≠ 0) (Exc corr : ℝ) (isgrad nlcc : Bool) (ps : List Dom) :
    xcPressure E Exc corr isgrad nlcc ps
      = V * tr (xcStress E V Exc corr isgrad nlcc ps) + 2 * corr := by
  have hg : (ps.map (gradP E)).sum = tr (ps.map (gradS E)).sum := by
    rw [map_sum_list]
    exact congrArg _ (List.map_congr_left fun D _ => gradP_eq h h0 D)
  have hn : (ps.map (nlccP E)).sum = tr (ps.map (nlccS E)).sum := by
    rw [map_sum_list]
    exact congrArg _ (List.map_congr_left fun D _ => nlccP_eq h h0 D)
  have hd : tr (![Exc - corr, 0, 0, Exc - corr, 0, Exc - corr] : Ten) = 3 * Exc - 3 * corr := by
    change Exc - corr + (Exc - corr) + (Exc - corr) = _
    ring
  have hs : ∀ a b : Ten, V * tr (fun i => a i / V + b i / V) = tr a + tr b := by
    intro a b
    simp only [tr_apply]
    field_simp
    ring
  unfold xcPressure xcStress
  dsimp only
  rw [hg, hn]
  cases isgrad <;> cases nlcc <;> simp only [Bool.false_eq_true, if_false, if_true] <;>
    simp only [hs, div_trace hV, tr_sub, hd] <;> ring

theorem local_trace (h : Coord.transformMat L = some E.G) (h0 : E.G.cellTyp = 0 → unitMat L = 1)
    {V : ℝ} (hV : V ≠ 0) (Esc : ℝ) (ps : List Dom) :
    localPressure E Esc ps = V * tr (localStress E V Esc ps) + 2 * hartree E ps := by
  unfold localPressure localStress hartree
  dsimp only
  rw [div_trace hV, map_add, map_sum_list]
  have hd : tr (![Esc, 0, 0, Esc, 0, Esc] : Ten) = 3 * Esc := by
    change Esc + Esc + Esc = _
    ring
  have he : (ps.map (elP E)).sum = (ps.map fun D => tr (elS E D)).sum
      + 2 * (ps.map fun D => E.dV * ((List.range D.nd).map fun n : ℕ => D.rho n * D.phi n).sum).sum
      := by
    rw [← List.sum_map_mul_left, ← List.sum_map_add]
    exact congrArg _ (List.map_congr_left fun D _ => elP_eq h h0 D)
  rw [hd, he]
  ring

theorem kin_trace (h : Coord.transformMat L = some E.G) (h0 : E.G.cellTyp = 0 → unitMat L = 1)
    (N : NEnv) {V : ℝ} (hV : V ≠ 0) (Ps : List (Grp 𝕜)) :
    V * tr (kineticStress E N V Ps) = -2 * kinetic L E N Ps := by
  unfold kineticStress kinetic
  dsimp only
  rw [div_trace hV, map_sum_list, ← mul_assoc, show (-2 * (1 / 2) : ℝ) = -1 by norm_num,
    neg_one_mul, ← sum_map_neg]
  refine congrArg _ (List.map_congr_left fun P _ => ?_)
  rw [map_sum_list, ← sum_map_neg]
  refine congrArg _ (List.map_congr_left fun D _ => ?_)
  change kinPair E N P D 0 0 + kinPair E N P D 1 1 + kinPair E N P D 2 2 = _
  rw [kinPair_eq h h0, kinPair_eq h h0, kinPair_eq h h0, ← neg_add, ← neg_add]
  congr 1
  unfold bandSum
  rw [← mul_add, ← mul_add, ← List.sum_map_add, ← List.sum_map_add]
  refine congrArg _ (congrArg _ (List.map_congr_left fun k _ => ?_))
  rw [← mul_add, ← mul_add, ← List.sum_map_add, ← List.sum_map_add]
  refine congrArg _ (congrArg _ (List.map_congr_left fun n _ => ?_))
  rw [← List.sum_map_add, ← List.sum_map_add]
  refine congrArg _ (List.map_congr_left fun s _ => ?_)
  rw [← mul_add, ← mul_add, ← List.sum_map_add, ← List.sum_map_add]
  refine congrArg _ (congrArg _ (List.map_congr_left fun i _ => ?_))
  have hn : ∀ z : 𝕜, RCLike.re ((starRingEnd 𝕜) z * z) = ‖z‖ ^ 2 := by
    intro z
    rw [RCLike.conj_mul, ← RCLike.ofReal_pow, RCLike.ofReal_re]
  beta_reduce
  rw [hn, hn, hn, Fin.sum_univ_three]

/-- C80.  The pressure of `pressure.c` is minus a third of the trace of the stress of `stress.c`
plus `2/(3V)` times what is missing in `Eband + Escc` for it to be the kinetic energy plus
`Exc_corr` plus `∫ρφ` plus the nonlocal energy. -/
theorem pressure_stress (h : Coord.transformMat L = some E.G)
    (h0 : E.G.cellTyp = 0 → unitMat L = 1) (N : NEnv) {V : ℝ} (hV : V ≠ 0) (bc : ℤ × ℤ × ℤ)
    (isgrad nlcc soc : Bool) (s : Scal) (ps : List Dom) (Ps : List (Grp 𝕜)) :
    ∃ p, (stress E N V 2 bc isgrad nlcc soc s ps Ps).2 = some p ∧
      pressure E N V isgrad nlcc soc s ps Ps
        = p + 2 / (3 * V) * (s.Eband + s.Escc - (kinetic L E N Ps + s.corr + hartree E ps
          + (Ps.map (energyNl E N soc)).sum)) := by
  refine ⟨_, show (if 2 = 2 then some _ else none) = some _ from if_pos rfl, ?_⟩
  have e1 := xc_trace h h0 hV s.Exc s.corr isgrad nlcc ps
  have e2 := local_trace h h0 hV s.Esc ps
  have e3 := nonlocal_trace h h0 N hV soc Ps
  have e4 := kin_trace h h0 N hV Ps
  unfold pressure
  rw [e1, e2, e3]
  simp only [tr_apply] at e4 ⊢
  rw [show (-1.0 : ℝ) = -1 by norm_num, show (3.0 : ℝ) = 3 by norm_num]
  field_simp
  linear_combination e4

/-- C80.  The two pressures are equal exactly when the energies balance. -/
theorem pressure_eq_iff (h : Coord.transformMat L = some E.G)
    (h0 : E.G.cellTyp = 0 → unitMat L = 1) (N : NEnv) {V : ℝ} (hV : V ≠ 0) (bc : ℤ × ℤ × ℤ)
    (isgrad nlcc soc : Bool) (s : Scal) (ps : List Dom) (Ps : List (Grp 𝕜)) :
    (stress E N V 2 bc isgrad nlcc soc s ps Ps).2
        = some (pressure E N V isgrad nlcc soc s ps Ps) ↔
      s.Eband + s.Escc = kinetic L E N Ps + s.corr + hartree E ps
        + (Ps.map (energyNl E N soc)).sum := by
  obtain ⟨p, hp, he⟩ := pressure_stress h h0 N hV bc isgrad nlcc soc s ps Ps
  rw [hp, he]
  have h3 : (2 / (3 * V)) ≠ 0 := by positivity
  constructor
  · intro e
    have := Option.some.inj e
    have hz : 2 / (3 * V) * (s.Eband + s.Escc - (kinetic L E N Ps + s.corr + hartree E ps
          + (Ps.map (energyNl E N soc)).sum)) = 0 := by linarith
    rcases mul_eq_zero.1 hz with e | e
    · exact absurd e h3
    · linarith
  · intro e
    rw [e, sub_self, mul_zero, add_zero]

/-- The hypotheses are met by an oblique cell and by an orthogonal one. -/
example : ∃ E : Env, Coord.transformMat Coord.exL = some E.G ∧ (E.G.cellTyp = 0 → unitMat Coord.exL = 1)
    ∧ E.G.cellTyp ≠ 0 := by
  obtain ⟨G, hG, ht⟩ := Coord.exL_oblique
  exact ⟨⟨G, (1, 1, 1), 1, 6, fun _ => 0, fun _ => 0, fun _ => 0, 0⟩, hG,
    fun e => by simp only at e; omega, by simp only; omega⟩

/-! ### C81: components -/

theorem range_box (n : ℕ) (a : ℤ) (f : ℤ → ℝ) :
    ((List.range n).map fun i : ℕ => f (a + i)).sum = ∑ i ∈ Finset.Icc a (a + n - 1), f i := by
  induction n with
  | zero => simp
  | succ n ih =>
    rw [List.range_succ, List.map_append, List.sum_append, ih]
    have : Finset.Icc a (a + (n + 1 : ℕ) - 1) = insert (a + n) (Finset.Icc a (a + n - 1)) := by
      ext x
      simp only [Finset.mem_Icc, Finset.mem_insert]
      push_cast
      omega
    rw [this, Finset.sum_insert (by simp)]
    simp
    ring

theorem sum_flatMap' {α β : Type} (l : List α) (f : α → List β) (g : β → ℝ) :
    ((l.flatMap f).map g).sum = (l.map fun x => ((f x).map g).sum).sum := by
  induction l with
  | nil => simp
  | cons x l ih => simp [ih]

theorem nodes_sum (R : Infl.Rec) (f : ℤ → ℤ → ℤ → ℝ) :
    ((nodes R).map fun t => f (R.xs + t.1) (R.ys + t.2.1) (R.zs + t.2.2)).sum = boxSum R f := by
  have key : ∀ (a b : ℤ) (g : ℤ → ℝ), ((List.range (b - a + 1).toNat).map fun i : ℕ =>
      g (a + i)).sum = ∑ i ∈ Finset.Icc a b, g i := by
    intro a b g
    rw [range_box]
    by_cases hab : a ≤ b + 1
    · congr 2; omega
    · rw [Finset.Icc_eq_empty (by omega), Finset.Icc_eq_empty (by omega)]
  unfold nodes box boxSum ext
  dsimp only
  rw [sum_flatMap', ← key]
  refine congrArg _ (List.map_congr_left fun k _ => ?_)
  rw [sum_flatMap', ← key]
  refine congrArg _ (List.map_congr_left fun j _ => ?_)
  rw [List.map_map, ← key]
  rfl

theorem boxed_onBox (R : Infl.Rec) (w : ℕ) (m : ℤ → ℝ) (i j k : ℤ) :
    boxed ((ext R).1 + 2 * w) ((ext R).2.1 + 2 * w) m (i + w) (j + w) (k + w)
      = onBox R w m (R.xs + i) (R.ys + j) (R.zs + k) := by
  unfold boxed onBox ext
  dsimp only
  congr 1
  ring

theorem place_onDom (D : Dom) (R : Infl.Rec) (m : ℤ → ℝ) (t : ℕ × ℕ × ℕ) :
    m (place D R t) = onDom D m (R.xs + t.1) (R.ys + t.2.1) (R.zs + t.2.2) := by
  unfold onDom place
  congr 1
  ring

theorem imgGrad_nabla (I : Img) (w : ℕ) (m : ℤ → ℝ) (t : ℕ × ℕ × ℕ) :
    imgGrad L E I w m t = nabla L E (onBox I.R w m) (I.R.xs + t.1) (I.R.ys + t.2.1)
      (I.R.zs + t.2.2) := by
  have b := boxed_onBox I.R w m
  unfold imgGrad nabla lgrad
  congr 2
  · refine Finset.sum_congr rfl fun p _ => ?_
    rw [show (t.1 : ℤ) + w + p = (t.1 + p) + w by ring, show (t.1 : ℤ) + w - p = (t.1 - p) + w by ring,
      b, b]
    congr 3 <;> ring
  · congr 1
    · refine Finset.sum_congr rfl fun p _ => ?_
      rw [show (t.2.1 : ℤ) + w + p = (t.2.1 + p) + w by ring,
        show (t.2.1 : ℤ) + w - p = (t.2.1 - p) + w by ring, b, b]
      congr 3 <;> ring
    · refine Finset.sum_congr rfl fun p _ => ?_
      rw [show (t.2.2 : ℤ) + w + p = (t.2.2 + p) + w by ring,
        show (t.2.2 : ℤ) + w - p = (t.2.2 - p) + w by ring, b, b]
      congr 3 <;> ring

theorem arm_lever (R : Infl.Rec) (t : ℕ × ℕ × ℕ) :
    arm L E R t = lever L E R (R.xs + t.1) (R.ys + t.2.1) (R.zs + t.2.2) := by
  unfold arm lever
  push_cast
  rfl

theorem overImgs_box (D : Dom) (f : Img → ℕ × ℕ × ℕ → ℝ) (g : Img → ℤ → ℤ → ℤ → ℝ)
    (hfg : ∀ I t, f I t = g I (I.R.xs + t.1) (I.R.ys + t.2.1) (I.R.zs + t.2.2)) :
    overImgs D f = imgSum D fun I => boxSum I.R (g I) := by
  unfold overImgs imgSum
  refine congrArg _ (List.map_congr_left fun l _ => ?_)
  refine congrArg _ (List.map_congr_left fun I _ => ?_)
  rw [← nodes_sum]
  exact congrArg _ (List.map_congr_left fun t _ => hfg I t)

/-- C81.  Components of the exchange-correlation stress: the diagonal `Exc - Exc_corr`, the
gradient term `∫ ∂e/∂|∇ρ|…∂_iρ ∂_jρ`, and the core charge term `∫ Vxc ∂_iρ_c (x-R)_j` with `Vxc`
averaged over the spins. -/
theorem xc_component (h : Coord.transformMat L = some E.G) (h0 : E.G.cellTyp = 0 → unitMat L = 1)
    (V Exc corr : ℝ) (isgrad nlcc : Bool) (ps : List Dom) {i j : Fin 3} (hij : i ≤ j) :
    xcStress E V Exc corr isgrad nlcc ps (ix i j) = 1 / V * ((if i = j then Exc - corr else 0)
      - (if isgrad then (ps.map fun D => E.dV * ((List.range (D.ncol * D.nd)).map fun n =>
          cgrad L (D.Dr n) i * cgrad L (D.Dr n) j * D.Dxc n).sum).sum else 0)
      + (if nlcc then (ps.map fun D => E.dV * imgSum D fun A => boxSum A.R fun I J K =>
          nabla L E (onBox A.R (2 * E.FDn) A.rhocJ) I J K i * lever L E A.R I J K j
          * (if E.spin = 0 then onDom D D.Vxc I J K
            else 1 / 2 * (onDom D D.Vxc I J K + onDom D (fun q => D.Vxc (D.nd + q)) I J K))).sum
        else 0)) := by
  have hg : (ps.map (gradS E)).sum (ix i j) = (ps.map fun D => E.dV *
      ((List.range (D.ncol * D.nd)).map fun n =>
          cgrad L (D.Dr n) i * cgrad L (D.Dr n) j * D.Dxc n).sum).sum := by
    rw [sum_at]
    exact congrArg _ (List.map_congr_left fun D _ => gradS_at h h0 D hij)
  have hn : (ps.map (nlccS E)).sum (ix i j) = (ps.map fun D => E.dV * imgSum D fun A =>
      boxSum A.R fun I J K =>
          nabla L E (onBox A.R (2 * E.FDn) A.rhocJ) I J K i * lever L E A.R I J K j
          * (if E.spin = 0 then onDom D D.Vxc I J K
            else 1 / 2 * (onDom D D.Vxc I J K
              + onDom D (fun q => D.Vxc (D.nd + q)) I J K))).sum := by
    rw [sum_at]
    refine congrArg _ (List.map_congr_left fun D _ => ?_)
    rw [nlccS_at h h0 D hij, overImgs_box D _ (fun A I J K =>
          nabla L E (onBox A.R (2 * E.FDn) A.rhocJ) I J K i * lever L E A.R I J K j
          * (if E.spin = 0 then onDom D D.Vxc I J K
            else 1 / 2 * (onDom D D.Vxc I J K + onDom D (fun q => D.Vxc (D.nd + q)) I J K)))]
    intro A t
    have hc : coreGrad L E A t = imgGrad L E A (2 * E.FDn) A.rhocJ t := by
      unfold coreGrad imgGrad
      push_cast
      rw [show (4 * (E.FDn : ℤ)) = 2 * (2 * E.FDn) by ring]
    rw [hc, imgGrad_nabla, arm_lever]
    unfold vxcAt
    rw [place_onDom D A.R D.Vxc, place_onDom D A.R (fun q => D.Vxc (D.nd + q)), half]
  have hd := diag_ix (Exc - corr) hij
  unfold xcStress
  dsimp only
  cases isgrad <;> cases nlcc <;> simp only [Bool.false_eq_true, if_false, if_true] <;>
    simp only [Pi.sub_apply, hg, hn, hd] <;> ring

/-- C81.  Components of the electrostatic stress: the Maxwell term, the diagonal
`½∫(b-ρ)φ + Esc`, and for every image `∫ (φ∇b_J + ½[(Vc - V_ref)∇b_ref + Vc∇b_J
+ (b + b_ref)∇(V_ref - V_J) - b_ref∇V_ref])_i (x-R)_j`. -/
theorem local_component (h : Coord.transformMat L = some E.G)
    (h0 : E.G.cellTyp = 0 → unitMat L = 1) (V Esc : ℝ) (ps : List Dom) {i j : Fin 3}
    (hij : i ≤ j) :
    localStress E V Esc ps (ix i j) = 1 / V * ((ps.map fun D => E.dV *
      (((List.range D.nd).map fun n : ℕ =>
        1 / (4 * Real.pi) * (cgrad L (D.Dphi n) i * cgrad L (D.Dphi n) j)
          + if i = j then 1 / 2 * (D.b n - D.rho n) * D.phi n else 0).sum
      + imgSum D fun A => boxSum A.R fun I J K =>
          (onDom D D.phi I J K * nabla L E (onBox A.R E.FDn A.bJ) I J K i
          + 1 / 2 * ((onDom D D.Vc I J K - onBox A.R (2 * E.FDn) A.VJref I J K)
                * nabla L E (onBox A.R E.FDn A.bJref) I J K i
            + onDom D D.Vc I J K * nabla L E (onBox A.R E.FDn A.bJ) I J K i
            + (onDom D D.b I J K + onDom D D.bref I J K)
                * (nabla L E (onBox A.R (2 * E.FDn) A.VJref) I J K i
                  - nabla L E (onBox A.R (2 * E.FDn) A.VJ) I J K i)
            - onBox A.R E.FDn A.bJref I J K * nabla L E (onBox A.R (2 * E.FDn) A.VJref) I J K i))
          * lever L E A.R I J K j)).sum
      + if i = j then Esc else 0) := by
  have hd := diag_ix Esc hij
  unfold localStress
  rw [Pi.add_apply, sum_at, hd, one_div, inv_mul_eq_div]
  congr 2
  refine congrArg _ (List.map_congr_left fun D _ => ?_)
  rw [elS_at h h0 D hij]
  congr 2
  refine overImgs_box D _ _ fun A t => ?_
  rw [arm_lever]
  congr 1
  unfold imgVec
  simp only [imgGrad_nabla, place_onDom D A.R D.phi, place_onDom D A.R D.Vc,
    place_onDom D A.R D.b, place_onDom D A.R D.bref]
  have hat : ∀ w m, imgAt A w m t = onBox A.R w m (A.R.xs + t.1) (A.R.ys + t.2.1) (A.R.zs + t.2.2) :=
    fun w m => boxed_onBox A.R w m _ _ _
  simp only [hat, Pi.add_apply, Pi.sub_apply, Pi.smul_apply, smul_eq_mul]

/-- C81.  Components of the kinetic stress: `-Re Σ occ ∫ conj(∂_iψ) ∂_jψ / V`. -/
theorem kinetic_component (h : Coord.transformMat L = some E.G)
    (h0 : E.G.cellTyp = 0 → unitMat L = 1) (N : NEnv) (V : ℝ) (Ps : List (Grp 𝕜)) {i j : Fin 3}
    (hij : i ≤ j) :
    kineticStress E N V Ps (ix i j) = -(1 / V * (Ps.map fun P => (P.doms.map fun D =>
      bandSum E N P D fun q =>
        RCLike.re ((starRingEnd 𝕜) (psiGrad L D q i) * psiGrad L D q j)).sum).sum) := by
  unfold kineticStress
  rw [sum_at, one_div, inv_mul_eq_div, ← neg_div, ← sum_map_neg]
  congr 2
  refine List.map_congr_left fun P _ => ?_
  rw [sum_at, ← sum_map_neg]
  refine congrArg _ (List.map_congr_left fun D _ => ?_)
  rw [six_ix (fun c c' => kinPair E N P D c c') hij, kinPair_eq h h0]

/-- The symmetric matrix stored in six components. -/
def full (s : Ten) : Matrix (Fin 3) (Fin 3) ℝ := fun i j => s (ix i j)

theorem bandSum_nonneg (E : Env) {N : NEnv} {P : Grp 𝕜} (D : PDom 𝕜) {f : ℕ → ℝ}
    (h1 : 0 ≤ N.occfac) (h2 : ∀ k, 0 ≤ P.wt k) (h3 : ∀ q, 0 ≤ P.occ q) (hf : ∀ q, 0 ≤ f q) :
    0 ≤ bandSum E N P D f := by
  have pos : ∀ {α : Type} (l : List α) (g : α → ℝ), (∀ x, 0 ≤ g x) → 0 ≤ (l.map g).sum := by
    intro α l g hg
    refine List.sum_nonneg fun x hx => ?_
    obtain ⟨y, -, rfl⟩ := List.mem_map.1 hx
    exact hg y
  unfold bandSum
  refine mul_nonneg h1 (pos _ _ fun k => mul_nonneg (div_nonneg (h2 k) (Nat.cast_nonneg _))
    (pos _ _ fun n => pos _ _ fun s => mul_nonneg (h3 _) (pos _ _ fun i => hf _)))

theorem bandSum_add (E : Env) (N : NEnv) (P : Grp 𝕜) (D : PDom 𝕜) (f g : ℕ → ℝ) :
    bandSum E N P D (fun q => f q + g q) = bandSum E N P D f + bandSum E N P D g := by
  unfold bandSum
  simp only [List.sum_map_add, mul_add]

theorem bandSum_mul (E : Env) (N : NEnv) (P : Grp 𝕜) (D : PDom 𝕜) (a : ℝ) (f : ℕ → ℝ) :
    bandSum E N P D (fun q => a * f q) = a * bandSum E N P D f := by
  unfold bandSum
  rw [mul_left_comm]
  congr 1
  rw [← List.sum_map_mul_left (r := a)]
  refine congrArg _ (List.map_congr_left fun k _ => ?_)
  rw [mul_left_comm a, ← List.sum_map_mul_left (r := a)]
  refine congrArg _ (congrArg _ (List.map_congr_left fun n _ => ?_))
  rw [← List.sum_map_mul_left]
  refine congrArg _ (List.map_congr_left fun s _ => ?_)
  rw [mul_left_comm a, ← List.sum_map_mul_left (r := a)]

theorem full_kin (h : Coord.transformMat L = some E.G)
    (h0 : E.G.cellTyp = 0 → unitMat L = 1) (N : NEnv) (V : ℝ) (Ps : List (Grp 𝕜)) (i j : Fin 3) :
    full (kineticStress E N V Ps) i j = -(1 / V * (Ps.map fun P => (P.doms.map fun D =>
      bandSum E N P D fun q =>
        RCLike.re ((starRingEnd 𝕜) (psiGrad L D q i) * psiGrad L D q j)).sum).sum) := by
  rcases le_total i j with hij | hij
  · exact kinetic_component h h0 N V Ps hij
  · have hs : ix i j = ix j i := by fin_cases i <;> fin_cases j <;> rfl
    have hr : ∀ z w : 𝕜, RCLike.re ((starRingEnd 𝕜) z * w) = RCLike.re ((starRingEnd 𝕜) w * z) := by
      intro z w
      rw [RCLike.mul_re, RCLike.mul_re]
      simp only [RCLike.conj_re, RCLike.conj_im]
      ring
    unfold full
    rw [hs, kinetic_component h h0 N V Ps hij]
    simp only [hr (psiGrad L _ _ i)]

/-- C81.  The kinetic stress is negative semidefinite: for every direction `v`,
`vᵀ σ v = -(1/V) Σ occ ∫ |v·∇ψ|² ≤ 0`. -/
theorem kinetic_definite (h : Coord.transformMat L = some E.G)
    (h0 : E.G.cellTyp = 0 → unitMat L = 1) (N : NEnv) {V : ℝ} (hV : 0 < V) (Ps : List (Grp 𝕜))
    (h1 : 0 ≤ N.occfac) (h2 : ∀ P ∈ Ps, ∀ k, 0 ≤ P.wt k) (h3 : ∀ P ∈ Ps, ∀ q, 0 ≤ P.occ q)
    (v : Fin 3 → ℝ) :
    v ⬝ᵥ full (kineticStress E N V Ps) *ᵥ v = -(1 / V * (Ps.map fun P => (P.doms.map fun D =>
      bandSum E N P D fun q => ‖∑ c, (v c : 𝕜) * psiGrad L D q c‖ ^ 2).sum).sum)
    ∧ v ⬝ᵥ full (kineticStress E N V Ps) *ᵥ v ≤ 0 := by
  have e : v ⬝ᵥ full (kineticStress E N V Ps) *ᵥ v = -(1 / V * (Ps.map fun P =>
      (P.doms.map fun D => bandSum E N P D fun q =>
        ‖∑ c, (v c : 𝕜) * psiGrad L D q c‖ ^ 2).sum).sum) := by
    have hq : ∀ (P : Grp 𝕜) (D : PDom 𝕜), bandSum E N P D (fun q =>
        ‖∑ c, (v c : 𝕜) * psiGrad L D q c‖ ^ 2)
        = ∑ i, ∑ j, v i * v j * bandSum E N P D fun q =>
          RCLike.re ((starRingEnd 𝕜) (psiGrad L D q i) * psiGrad L D q j) := by
      intro P D
      have : (fun q => ‖∑ c, (v c : 𝕜) * psiGrad L D q c‖ ^ 2) = fun q =>
          v 0 * v 0 * RCLike.re ((starRingEnd 𝕜) (psiGrad L D q 0) * psiGrad L D q 0)
          + v 0 * v 1 * RCLike.re ((starRingEnd 𝕜) (psiGrad L D q 0) * psiGrad L D q 1)
          + v 0 * v 2 * RCLike.re ((starRingEnd 𝕜) (psiGrad L D q 0) * psiGrad L D q 2)
          + v 1 * v 0 * RCLike.re ((starRingEnd 𝕜) (psiGrad L D q 1) * psiGrad L D q 0)
          + v 1 * v 1 * RCLike.re ((starRingEnd 𝕜) (psiGrad L D q 1) * psiGrad L D q 1)
          + v 1 * v 2 * RCLike.re ((starRingEnd 𝕜) (psiGrad L D q 1) * psiGrad L D q 2)
          + v 2 * v 0 * RCLike.re ((starRingEnd 𝕜) (psiGrad L D q 2) * psiGrad L D q 0)
          + v 2 * v 1 * RCLike.re ((starRingEnd 𝕜) (psiGrad L D q 2) * psiGrad L D q 1)
          + v 2 * v 2 * RCLike.re ((starRingEnd 𝕜) (psiGrad L D q 2) * psiGrad L D q 2) := by
        funext q
        rw [← RCLike.normSq_eq_def', RCLike.normSq_apply, Fin.sum_univ_three]
        simp only [map_add, RCLike.mul_re, RCLike.mul_im, RCLike.conj_re, RCLike.conj_im,
          RCLike.ofReal_re, RCLike.ofReal_im]
        ring
      rw [this]
      simp only [bandSum_add, bandSum_mul, Fin.sum_univ_three]
      ring
    simp only [hq]
    have key : ∀ i j, (Ps.map fun P => (P.doms.map fun D => v i * v j * bandSum E N P D fun q =>
          RCLike.re ((starRingEnd 𝕜) (psiGrad L D q i) * psiGrad L D q j)).sum).sum
        = v i * v j * (Ps.map fun P => (P.doms.map fun D => bandSum E N P D fun q =>
          RCLike.re ((starRingEnd 𝕜) (psiGrad L D q i) * psiGrad L D q j)).sum).sum := by
      intro i j
      rw [← List.sum_map_mul_left]
      refine congrArg _ (List.map_congr_left fun P _ => ?_)
      rw [← List.sum_map_mul_left]
    simp only [Fin.sum_univ_three, List.sum_map_add, key]
    have f := full_kin h h0 N V Ps
    simp only [dotProduct, Matrix.mulVec, Fin.sum_univ_three, f]
    ring
  refine ⟨e, ?_⟩
  rw [e]
  refine neg_nonpos.2 (mul_nonneg (by positivity) (List.sum_nonneg fun x hx => ?_))
  obtain ⟨P, hP, rfl⟩ := List.mem_map.1 hx
  refine List.sum_nonneg fun y hy => ?_
  obtain ⟨D, hD, rfl⟩ := List.mem_map.1 hy
  exact bandSum_nonneg E D h1 (h2 P hP) (h3 P hP) fun q => by positivity

/-- C81.  The measure of the cell is the Jacobian times the lengths of the periodic directions. -/
theorem measure_eq (det : ℝ) (bc : ℤ × ℤ × ℤ) (Lc : ℝ × ℝ × ℝ) :
    measure det bc Lc = det * ∏ d : Fin 3, if (![bc.1, bc.2.1, bc.2.2] d) = 0
      then ![Lc.1, Lc.2.1, Lc.2.2] d else 1 := by
  unfold measure
  rw [Fin.prod_univ_three]
  simp only [Matrix.cons_val_zero, Matrix.cons_val_one, Matrix.cons_val]
  by_cases h1 : bc.1 = 0 <;> by_cases h2 : bc.2.1 = 0 <;> by_cases h3 : bc.2.2 = 0 <;>
    simp [h1, h2, h3] <;> ring

/-- C81.  In a slab (`BC = 3`, two periodic directions) and in a wire (`BC = 4`, one) a component
of the total stress survives exactly when both its directions are periodic; otherwise it is zero.
In a crystal nothing is cleared. -/
theorem clear_spec (BC : ℕ) (bc : ℤ × ℤ × ℤ) (s : Ten)
    (hbc : (BC = 3 ∧ (Finset.univ.filter fun d => ![bc.1, bc.2.1, bc.2.2] d = 0).card = 2)
      ∨ (BC = 4 ∧ (Finset.univ.filter fun d => ![bc.1, bc.2.1, bc.2.2] d = 0).card = 1)
      ∨ (BC = 2 ∧ (Finset.univ.filter fun d => ![bc.1, bc.2.1, bc.2.2] d = 0).card = 3))
    {i j : Fin 3} (hij : i ≤ j) :
    clear BC bc s (ix i j) = if ![bc.1, bc.2.1, bc.2.2] i = 0 ∧ ![bc.1, bc.2.1, bc.2.2] j = 0
      then s (ix i j) else 0 := by
  obtain ⟨x, y, z⟩ := bc
  have hcard : (Finset.univ.filter fun d => (![x, y, z] : Fin 3 → ℤ) d = 0).card
      = (if x = 0 then 1 else 0) + (if y = 0 then 1 else 0) + (if z = 0 then 1 else 0) := by
    rw [Finset.card_filter, Fin.sum_univ_three]
    rfl
  rw [hcard] at hbc
  unfold clear
  by_cases hx : x = 0 <;> by_cases hy : y = 0 <;> by_cases hz : z = 0 <;>
    simp only [hx, hy, hz, if_true, if_false] at hbc <;> norm_num at hbc <;> subst hbc <;>
    fin_cases i <;> fin_cases j <;> first
      | exact absurd hij (by decide)
      | simp [ix, hx, hy, hz]

example : clear 3 (0, 1, 0) ![1, 2, 3, 4, 5, 6] = ![1, 0, 3, 0, 0, 6] := by
  funext i
  fin_cases i <;> rfl

/-- C81.  Components of the ionic stress: `-(1/V) Σ m (v - v̄)_j (v - v̄)_k` with `v̄` the
mass-weighted mean velocity; the ionic pressure is minus a third of the trace. -/
theorem ionic_component (V : ℝ) (BC : ℕ) (at_ : List (ℝ × (Fin 3 → ℝ))) {j k : Fin 3}
    (hjk : j ≤ k) :
    (ionic V BC at_).1 (ix j k) = -(1 / V * (at_.map fun a =>
      a.1 * (a.2 j - (at_.map fun b => b.1 * b.2 j).sum / (at_.map fun b => b.1).sum)
        * (a.2 k - (at_.map fun b => b.1 * b.2 k).sum / (at_.map fun b => b.1).sum)).sum)
    ∧ (BC = 2 → (ionic V BC at_).2 = some (-(tr (ionic V BC at_).1) / 3)) := by
  have hacc : at_.foldl (fun (s : (Fin 3 → ℝ) × ℝ) a => (s.1 + a.1 • a.2, s.2 + a.1)) (0, 0)
      = ((at_.map fun a => a.1 • a.2).sum, (at_.map fun a => a.1).sum) := by
    have e := foldl_adds (fun (s : (Fin 3 → ℝ) × ℝ) (a : ℝ × (Fin 3 → ℝ)) =>
      (s.1 + a.1 • a.2, s.2 + a.1)) (fun a => (a.1 • a.2, a.1)) at_ (0, 0) (fun _ _ _ => rfl)
    rw [e]
    have h1 := map_sum_list (AddMonoidHom.fst (Fin 3 → ℝ) ℝ) at_ fun a => (a.1 • a.2, a.1)
    have h2 := map_sum_list (AddMonoidHom.snd (Fin 3 → ℝ) ℝ) at_ fun a => (a.1 • a.2, a.1)
    refine Prod.ext ?_ ?_
    · simpa using h1
    · simpa using h2
  have hv : ∀ j, (at_.map fun a => a.1 • a.2).sum j = (at_.map fun b => b.1 * b.2 j).sum := by
    intro j
    exact map_sum_list (Pi.evalAddMonoidHom (fun _ : Fin 3 => ℝ) j) at_ fun a => a.1 • a.2
  constructor
  · unfold ionic
    dsimp only
    rw [hacc]
    dsimp only
    rw [six_ix (fun j k => at_.foldl (fun s a => s - a.1 *
      (a.2 j - (at_.map fun a => a.1 • a.2).sum j / (at_.map fun a => a.1).sum) *
      (a.2 k - (at_.map fun a => a.1 • a.2).sum k / (at_.map fun a => a.1).sum)) 0) hjk]
    rw [foldl_adds _ (fun a => -(a.1 *
      (a.2 j - (at_.map fun a => a.1 • a.2).sum j / (at_.map fun a => a.1).sum) *
      (a.2 k - (at_.map fun a => a.1 • a.2).sum k / (at_.map fun a => a.1).sum))) at_ 0
      (fun _ _ _ => sub_eq_add_neg _ _), zero_add, sum_map_neg, hv, hv]
    ring
  · intro hB
    subst hB
    unfold ionic
    dsimp only
    rw [if_pos rfl, tr_apply]
    norm_num

/-- C81.  The ionic stress does not change when a common velocity is added to all the atoms. -/
theorem ionic_galilean (V : ℝ) (BC : ℕ) (at_ : List (ℝ × (Fin 3 → ℝ))) (u : Fin 3 → ℝ)
    (hm : (at_.map fun a => a.1).sum ≠ 0) {j k : Fin 3} (hjk : j ≤ k) :
    (ionic V BC (at_.map fun a => (a.1, a.2 + u))).1 (ix j k) = (ionic V BC at_).1 (ix j k) := by
  rw [(ionic_component V BC _ hjk).1, (ionic_component V BC _ hjk).1]
  simp only [List.map_map, Function.comp_def, Pi.add_apply, mul_add, List.sum_map_add,
    List.sum_map_mul_right]
  have e : ∀ x c : ℝ, (x + (at_.map fun a => a.1).sum * c) / (at_.map fun a => a.1).sum
      = x / (at_.map fun a => a.1).sum + c := by
    intro x c
    field_simp
  have hs : ∀ j, (at_.map fun b => b.1 * b.2 j).sum + (at_.map fun b => b.1 * u j).sum
      = (at_.map fun b => b.1 * b.2 j).sum + (at_.map fun a => a.1).sum * u j := by
    intro j
    rw [List.sum_map_mul_right]
  congr 3
  refine List.map_congr_left fun a _ => ?_
  rw [e, e]
  ring

example : (ionic 2 2 [(1, ![1, 0, 0]), (3, ![-1, 2, 0])]).1 (ix 0 1) = 3 / 2 := by
  rw [(ionic_component 2 2 _ (by decide)).1]
  norm_num

/-! ### C82: the nonlocal terms -/

/-- The three terms with their energies. -/
noncomputable def enl (E : Env) (Ts : List Typ) (Lc : ℝ × ℝ × ℝ) (Nkpts : ℕ) (P : Grp 𝕜) :
    Opt → ℝ
  | .SO2 => projSum E Ts Nkpts P .SO2 [0] fun k _ a n j =>
      2 * RCLike.re ((starRingEnd 𝕜) (proj E Lc P .SO2 k 0 a n j) * proj E Lc P .SO2 k 1 a n j)
  | o => projSum E Ts Nkpts P o (List.range P.nsp) fun k s a n j => ‖proj E Lc P o k s a n j‖ ^ 2

variable {Ts : List Typ} {Lc : ℝ × ℝ × ℝ} {occfac : ℝ} {Nkpts : ℕ}

/-- C82.  The nonlocal energy: `occfac/dV` times the sum over k-points, spinors, atoms, bands and
projectors of weight, occupation and coefficient times the squared projection (the product of
the two spinor projections for the term that couples them). -/
theorem energy_nonlocal (soc : Bool) (P : Grp 𝕜) (hP : ∀ D ∈ P.doms, Placed Ts D)
    (hsoc : soc = true → P.nsp = 2) :
    energyNl E (mkEnv Ts Lc occfac Nkpts) soc P = occfac / E.dV *
      ((if soc then [Opt.SC, Opt.SO1, Opt.SO2] else [Opt.SC]).map (enl E Ts Lc Nkpts P)).sum := by
  unfold energyNl
  rw [mul_comm]
  congr 1
  change (List.map _ (if soc then [Opt.SC, Opt.SO1, Opt.SO2] else [Opt.SC])).sum = _
  refine congrArg _ (List.map_congr_left fun o ho => ?_)
  cases o with
  | SC => exact nlE_at P .SC (by decide) hP
  | SO1 => exact nlE_at P .SO1 (by decide) hP
  | SO2 =>
    have hs : soc = true := by
      cases soc
      · simp at ho
      · rfl
    exact nlE_so2 P hP (hsoc hs)

/-- C82.  Components of the nonlocal stress: `-2 occfac/V` times the sum over k-points, spinors,
atoms, bands and projectors of the conjugated projection times the integral of the projector
with `∂_iψ (x-R)_j`, minus the nonlocal energy on the diagonal. -/
theorem nonlocal_component (h : Coord.transformMat L = some E.G)
    (h0 : E.G.cellTyp = 0 → unitMat L = 1) (V : ℝ) (soc : Bool) (Ps : List (Grp 𝕜))
    (hP : ∀ P ∈ Ps, ∀ D ∈ P.doms, Placed Ts D) (hsoc : soc = true → ∀ P ∈ Ps, P.nsp = 2)
    {c c' : Fin 3} (hc : c ≤ c') :
    nonlocalStress E (mkEnv Ts Lc occfac Nkpts) V soc Ps (ix c c') = 1 / V * (Ps.map fun P =>
      -(2 * occfac * ((if soc then [Opt.SC, Opt.SO1, Opt.SO2] else [Opt.SC]).map fun o =>
        projSum E Ts Nkpts P o (List.range P.nsp) fun k s a n j =>
          RCLike.re ((starRingEnd 𝕜) (proj E Lc P o k s a n j)
            * moment L E Lc P o c c' k s a n j)).sum)
      - if c = c' then energyNl E (mkEnv Ts Lc occfac Nkpts) soc P else 0).sum := by
  unfold nonlocalStress
  dsimp only
  rw [sum_at, one_div, inv_mul_eq_div]
  congr 2
  refine List.map_congr_left fun P hPm => ?_
  have hdiag : ∀ (s : Ten) (e : ℝ), (![s 0 - e, s 1, s 2, s 3 - e, s 4, s 5 - e] : Ten) (ix c c')
      = s (ix c c') - if c = c' then e else 0 := by
    intro s e
    fin_cases c <;> fin_cases c' <;> first
      | exact absurd hc (by decide)
      | simp [ix]
  rw [hdiag]
  congr 1
  rw [Pi.smul_apply, smul_eq_mul, sum_at, ← mul_neg, ← sum_map_neg]
  change occfac * 2 * _ = _
  rw [mul_comm occfac 2]
  congr 1
  change (List.map _ (if soc then [Opt.SC, Opt.SO1, Opt.SO2] else [Opt.SC])).sum = _
  refine congrArg _ (List.map_congr_left fun o ho => ?_)
  refine nlS_at h h0 P o (hP P hPm) ?_ hc
  rintro rfl
  have hs : soc = true := by
    cases soc
    · simp at ho
    · rfl
  exact hsoc hs P hPm

/-! ### Axes pointing backwards -/

/-- `LATVEC` with the first two axes reversed. -/
def backL : ℕ → ℝ := fun n => if n = 0 ∨ n = 4 then -1 else if n = 8 then 1 else 0

/-- One atom with one `s` projector at one node, one orbital equal to its derivative along the
first direction. -/
def backD : PDom ℝ where
  lo := (1, 0, 0)
  nx := 1
  ny := 1
  nd := 1
  psi := fun _ => 1
  D := fun c _ => if c = 0 then 1 else 0
  imgs := [[{ R := (0, 0, 0), atom := 0, ndc := 1, pos := fun _ => 0, chi := fun _ _ => 1,
              so0 := fun _ _ => 0, sol := fun _ _ => 0, sonl := fun _ _ => 0 }]]

/-- See `backD`. -/
def backP : Grp ℝ where
  ncol := 1
  nsp := 1
  Nk := 1
  b0 := 0
  Ns := 1
  occ := fun _ => 1
  wt := fun _ => 1
  k := fun _ => (0, 0, 0)
  doms := [backD]

/-- See `backD`. -/
def backT : Typ where
  lmax := 0
  lloc := 4
  ppl := fun _ => 1
  pplSoc := fun _ => 0
  gam := fun _ => 1
  gamSoc := fun _ => 0
  n := 1

/-- The assumptions on the images and on the weights are met by this process. -/
example : (∀ P ∈ [backP], ∀ D ∈ P.doms, Placed [backT] D) ∧ (∀ P ∈ [backP], ∀ k, 0 ≤ P.wt k)
    ∧ (∀ P ∈ [backP], ∀ q, 0 ≤ P.occ q) := by
  refine ⟨?_, ?_, ?_⟩
  · intro P hP D hD li hli I hI
    rw [List.mem_singleton.1 hP] at hD
    rw [show D = backD from List.mem_singleton.1 hD] at hli
    have hl : li = (backD.imgs.head (by decide), 0) := List.mem_singleton.1 hli
    subst hl
    have hi : I.atom = 0 := by rw [List.mem_singleton.1 hI]
    exact ⟨backT, by rw [hi]; rfl⟩
  · intro P hP k
    rw [List.mem_singleton.1 hP]
    exact zero_le_one
  · intro P hP k
    rw [List.mem_singleton.1 hP]
    exact zero_le_one

theorem back_geom : ∃ G, Coord.transformMat backL = some G ∧ G.cellTyp = 0 ∧ G.U 0 = -1 := by
  have u : Coord.latU backL = backL := by
    funext n
    by_cases hn : n < 9
    · interval_cases n <;> norm_num [Coord.latU, backL]
    · have : n ≠ 0 ∧ n ≠ 4 ∧ n ≠ 8 := by omega
      simp [Coord.latU, backL, this]
  have hd : Coord.jacbdet backL = 1 := by
    rw [Coord.jacbdet_eq]; norm_num [backL]
  have hl : ∀ n, n = 1 ∨ n = 2 ∨ n = 5 → Coord.lapcT (Coord.gradT backL 1) n = 0 := by
    have r3 : List.range 3 = [0, 1, 2] := rfl
    rintro n (rfl | rfl | rfl) <;>
      norm_num [Coord.lapcT, r3, Coord.gradT, backL]
  have hT : Coord.transformMat backL = some ⟨backL, 1, Coord.metricT backL, Coord.gradT backL 1,
      Coord.lapcT (Coord.gradT backL 1),
      Coord.cellTyp1 (Coord.lapcT (Coord.gradT backL 1)) (Coord.cellTyp0 backL)⟩ := by
    unfold Coord.transformMat
    dsimp only
    rw [u, hd, if_neg (by norm_num)]
  refine ⟨_, hT, ?_, ?_⟩
  · dsimp only
    unfold Coord.cellTyp1
    have t : (0 : ℝ) < Coord.tempTol := by norm_num [Coord.tempTol]
    rw [hl 1 (by simp), hl 2 (by simp), hl 5 (by simp)]
    simp [not_lt.2 t.le]
    norm_num [Coord.cellTyp0, backL, not_lt.2 t.le]
  · norm_num [backL]

/-- Finding.  Without the assumption that an orthogonal cell has its axes along the positive
Cartesian ones the two files disagree about the nonlocal term, whatever the scalars. -/
theorem backwards_axes : ∃ (E : Env) (N : NEnv), Coord.transformMat backL = some E.G ∧
    N = mkEnv [backT] (1, 1, 1) 1 1 ∧
    nonlocalPressure E N false [backP] ≠ 1 * tr (nonlocalStress E N 1 false [backP])
      + 2 * ([backP].map (energyNl E N false)).sum := by
  obtain ⟨G, hG, ht, hU⟩ := back_geom
  refine ⟨⟨G, (1, 1, 1), 1, 6, fun _ => 0, fun _ => 0, fun _ => 0, 0⟩, _, hG, rfl, ?_⟩
  have w : ∀ {M : Type} [AddCommGroup M] [Module ℝ M] (sc : ℝ) (f : ℕ → M),
      walk (⟨G, (1, 1, 1), 1, 6, fun _ => 0, fun _ => 0, fun _ => 0, 0⟩ : Env)
        (mkEnv [backT] (1, 1, 1) 1 1) backP .SC sc f = sc • f 0 := by
    intro M _ _ sc f
    simp [walk, atomLoop, bandLoop, lLoop, mLoop, backP, backT, mkEnv, pplOf, mex, coef]
  have i0 : ∀ v : ℕ → NImg ℝ → ℕ → ℕ → ℕ → ℝ, ∀ I ∈ backD.imgs.flatten,
      integral (mkEnv [backT] (1, 1, 1) 1 1) backP .SC backD v 0 = v 0 I 0 0 0 := by
    intro v I hI
    simp only [backD, List.flatten_cons, List.flatten_nil, List.append_nil, List.mem_singleton] at hI
    subst hI
    simp [integral, backP, backD, backT, mkEnv, NEnv.nproj, NEnv.ip, nprojOf, ipTable, addAt]
  set E : Env := ⟨G, (1, 1, 1), 1, 6, fun _ => 0, fun _ => 0, fun _ => 0, 0⟩ with hE
  set N := mkEnv [backT] (1, 1, 1) 1 1 with hN
  have hdoms : backP.doms = [backD] := rfl
  have hI : ∃ I, I ∈ backD.imgs.flatten := ⟨_, List.mem_singleton.2 rfl⟩
  have a0 : alpha E N backP .SC backD 0 = 1 := by
    unfold alpha
    rw [i0 _ _ (List.mem_singleton.2 rfl)]
    simp [blochC, backP, backD, hE]
  have b0 : ∀ d, betaP E N backP .SC backD d 0 = if d = 0 then 1 else 0 := by
    intro d
    unfold betaP chiX
    rw [i0 _ _ (List.mem_singleton.2 rfl)]
    fin_cases d <;> simp [bloch, backP, backD, hE, comp, ndisp]
  have c0 : ∀ c c', c = c' → betaS E N backP .SC backD c c' 0 = if c = 0 then -1 else 0 := by
    rintro c _ rfl
    unfold betaS chiX
    rw [i0 _ _ (List.mem_singleton.2 rfl)]
    fin_cases c <;> simp [bloch, backP, backD, hE, ndisp, dpsiFull, ht, hU]
  have ho : N.occfac = 1 := rfl
  have e1 : energyNl E N false backP = 1 := by
    simp [energyNl, opts, nlE, w, hdoms, a0, ho, show E.dV = 1 from rfl]
  have e2 : nonlocalPressure E N false [backP] = -3 := by
    simp only [nonlocalPressure, opts, List.map_cons, List.map_nil, List.sum_cons, List.sum_nil,
      Bool.false_eq_true, if_false, nlP, w, hdoms, add_zero, a0, b0, e1, ho]
    rw [if_pos trivial, if_neg (by decide), if_neg (by decide)]
    norm_num [reMul]
  have e3 : tr (nonlocalStress E N 1 false [backP]) = -1 := by
    simp only [nonlocalStress, opts, List.map_cons, List.map_nil, List.sum_cons, List.sum_nil,
      Bool.false_eq_true, if_false, nlS, w, hdoms, add_zero, a0, e1, ho, tr_apply]
    have q : ∀ s : Ten, (![s 0 - 1, s 1, s 2, s 3 - 1, s 4, s 5 - 1] : Ten) 0 / 1
        + (![s 0 - 1, s 1, s 2, s 3 - 1, s 4, s 5 - 1] : Ten) 3 / 1
        + (![s 0 - 1, s 1, s 2, s 3 - 1, s 4, s 5 - 1] : Ten) 5 / 1 = s 0 + s 3 + s 5 - 3 := by
      intro s
      change (s 0 - 1) / 1 + (s 3 - 1) / 1 + (s 5 - 1) / 1 = _
      ring
    have q' : ∀ a b c d e f : ℝ, (![a, b, c, d, e, f] : Ten) 0 = a ∧ (![a, b, c, d, e, f] : Ten) 3 = d
        ∧ (![a, b, c, d, e, f] : Ten) 5 = f := fun _ _ _ _ _ _ => ⟨rfl, rfl, rfl⟩
    rw [q]
    simp only [Pi.smul_apply, smul_eq_mul, (q' _ _ _ _ _ _).1, (q' _ _ _ _ _ _).2.1,
      (q' _ _ _ _ _ _).2.2, c0 _ _ rfl]
    rw [if_pos trivial, if_neg (by decide), if_neg (by decide)]
    norm_num [reMul]
  rw [e2, e3]
  simp only [List.map_cons, List.map_nil, List.sum_cons, List.sum_nil, e1]
  norm_num

end Sparc.Pres

import Verif.Hub.PropsA
import Mathlib.Data.Real.StarOrdered

/-! # DFT+U: properties C92 and C93, examples -/

namespace Sparc.Hub

open Pres Loop

variable {𝕜 : Type} [RCLike 𝕜] {Ts : List UTyp} {Lc : ℝ × ℝ × ℝ} {occfac : ℝ} {Nkpts : ℕ}
  {L : ℕ → ℝ} {E : Env}

/-! ### C92: forces, pressure and stress -/

/-- `Σ wt f Σ_rm U_r (δ_rm / 2 - ρ_rm) X_rm` over the k-points, spins, atoms with U, bands and
pairs of orbitals of a group. -/
noncomputable def pairSum (E : Env) (Ts : List UTyp) (Nkpts : ℕ) (P : HGrp 𝕜)
    (rho : ℕ → ℕ → ℕ → ℝ) (X : ℕ → ℕ → ℕ → ℕ → ℕ → ℕ → ℝ) : ℝ :=
  ((List.range P.Nk).map fun k => ((List.range P.nsp).map fun s => uSum Ts fun T a =>
    ((List.range (nproj T)).map fun r => ((List.range (nproj T)).map fun m =>
      ((List.range P.ncol).map fun n => P.wt k / Nkpts * occOf E P.toGrp k n s
        * (T.U ((orbs T).getD r 0) * ((if r = m then 1 / 2 else 0)
          - rho a (P.sp s) (nproj T * m + r)))
        * X k s a n r m).sum).sum).sum).sum).sum

theorem pairSum_congr (P : HGrp 𝕜) (rho : ℕ → ℕ → ℕ → ℝ)
    (X Y : ℕ → ℕ → ℕ → ℕ → ℕ → ℕ → ℝ) (h : ∀ k s a n r m, X k s a n r m = Y k s a n r m) :
    pairSum E Ts Nkpts P rho X = pairSum E Ts Nkpts P rho Y := by
  have : X = Y := by funext k s a n r m; exact h k s a n r m
  rw [this]

theorem pairSum_add (P : HGrp 𝕜) (rho : ℕ → ℕ → ℕ → ℝ) (X Y : ℕ → ℕ → ℕ → ℕ → ℕ → ℕ → ℝ) :
    pairSum E Ts Nkpts P rho (fun k s a n r m => X k s a n r m + Y k s a n r m)
      = pairSum E Ts Nkpts P rho X + pairSum E Ts Nkpts P rho Y := by
  unfold pairSum
  simp only [mul_add, List.sum_map_add, uSum_add]

theorem pairSum_mul (P : HGrp 𝕜) (rho : ℕ → ℕ → ℕ → ℝ) (x : ℝ)
    (X : ℕ → ℕ → ℕ → ℕ → ℕ → ℕ → ℝ) :
    x * pairSum E Ts Nkpts P rho X
      = pairSum E Ts Nkpts P rho (fun k s a n r m => x * X k s a n r m) := by
  have hm := uSum_mul (𝕜 := ℝ) (Ts := Ts) x
  unfold pairSum
  simp only [← List.sum_map_mul_left]
  refine congrArg _ (List.map_congr_left fun k _ => congrArg _ (List.map_congr_left fun s _ => ?_))
  rw [hm]
  refine uSum_congr _ _ _ fun a T _ _ => ?_
  simp only [← List.sum_map_mul_left]
  refine congrArg _ (List.map_congr_left fun r _ => congrArg _ (List.map_congr_left fun m _ =>
    congrArg _ (List.map_congr_left fun n _ => ?_)))
  ring

/-- The innermost sums. -/
theorem inner_sum (T : UTyp) (hG : Good T) (rho : ℕ → ℝ) {r : ℕ} (hr : r < nproj T) (ncol : ℕ)
    (A B : ℕ → ℕ → 𝕜) (g : ℕ → ℝ) :
    RCLike.re (((List.range (nproj T)).map fun m => ((pre T rho (nproj T) r m : ℝ) : 𝕜) * (2 *
      ((List.range ncol).map fun n => A n m * (B n m * ((g n : ℝ) : 𝕜))).sum)).sum)
    = 2 * ((List.range (nproj T)).map fun m => ((List.range ncol).map fun n => g n *
      (T.U ((orbs T).getD r 0) * ((if r = m then 1 / 2 else 0) - rho (nproj T * m + r)))
      * RCLike.re (B n m * A n m)).sum).sum := by
  rw [re_list_sum, ← List.sum_map_mul_left]
  refine congrArg _ (List.map_congr_left fun m _ => ?_)
  rw [pre_eq T hG _ hr]
  have e : ((vU T rho r m : ℝ) : 𝕜) * (2 *
      ((List.range ncol).map fun n => A n m * (B n m * ((g n : ℝ) : 𝕜))).sum)
      = ((2 * vU T rho r m : ℝ) : 𝕜) *
      ((List.range ncol).map fun n => A n m * (B n m * ((g n : ℝ) : 𝕜))).sum := by
    rw [RCLike.ofReal_mul, RCLike.ofReal_ofNat]; ring
  rw [e, RCLike.re_ofReal_mul, re_list_sum, mul_assoc, ← List.sum_map_mul_left]
  congr 1
  refine congrArg _ (List.map_congr_left fun n _ => ?_)
  have : A n m * (B n m * ((g n : ℝ) : 𝕜)) = ((g n : ℝ) : 𝕜) * (B n m * A n m) := by ring
  rw [this, RCLike.re_ofReal_mul]
  unfold vU uOf
  ring

/-- C92.  The Hubbard force on an atom with U, in Cartesian components: `-2 occfac Re Σ f
U_r (δ_rm / 2 - ρ_rm) ⟨ψ|φ_m⟩ ⟨φ_r|∂ψ⟩`; every other atom keeps its force.  For types with U next
to each other; `force_misplaced` shows what happens without this. -/
theorem hubbard_force_partial (P : HGrp 𝕜) (S : Setup Ts P.doms) (hc : Contig Ts)
    (rho : ℕ → ℕ → ℕ → ℝ) (F : Force.Forces) (a : ℕ) (c : Fin 3) :
    (∀ T, (uatoms Ts)[a]? = some T → T.flag = true →
      ((unitMat L)⁻¹.mulVec (hubForce E Ts Lc occfac Nkpts P rho
        (P.doms.map fun D => alpha E (env Ts Lc occfac Nkpts) P.toGrp .SC D).sum
        (fun d => (P.doms.map fun D => Force.beta (env Ts Lc occfac Nkpts) P.toGrp .SC D d).sum) F
        a)) c
      = ((unitMat L)⁻¹.mulVec (F a)) c - 2 * occfac * pairSum E Ts Nkpts P rho
        fun k s b n r m => if b = a then RCLike.re ((starRingEnd 𝕜)
          (proj E Lc P.toGrp .SC k s a n m) * Force.dproj L Lc P.toGrp .SC c k s a n r) else 0)
    ∧ ((∀ T, (uatoms Ts)[a]? = some T → T.flag = false) →
      hubForce E Ts Lc occfac Nkpts P rho
        (P.doms.map fun D => alpha E (env Ts Lc occfac Nkpts) P.toGrp .SC D).sum
        (fun d => (P.doms.map fun D => Force.beta (env Ts Lc occfac Nkpts) P.toGrp .SC D d).sum) F a
      = F a) := by
  set al := (P.doms.map fun D => alpha E (env Ts Lc occfac Nkpts) P.toGrp .SC D).sum with hal
  set be : Fin 3 → ℕ → 𝕜 := fun d =>
    (P.doms.map fun D => Force.beta (env Ts Lc occfac Nkpts) P.toGrp .SC D d).sum with hbe
  have key : ∀ d, hubForce E Ts Lc occfac Nkpts P rho al be F a d = F a d
      - 2 * occfac * pairSum E Ts Nkpts P rho fun k s b n r m => if b = a then RCLike.re
        ((starRingEnd 𝕜) (proj E Lc P.toGrp .SC k s a n m) *
          (P.doms.map fun D => ofAtom D a fun I => phase Lc (P.k k) I.R *
          ((List.range I.ndc).map fun i => (starRingEnd 𝕜) (I.chi i r)
            * D.D d (orb P.toGrp D k n s (I.pos i))).sum).sum) else 0 := by
    intro d
    rw [hubForce_eq S.atoms hc S.good, sub_eq_add_neg]
    congr 1
    unfold pairSum
    rw [← List.sum_map_mul_left, ← Pres.sum_map_neg]
    refine congrArg _ (List.map_congr_left fun k hk => ?_)
    rw [← List.sum_map_mul_left, ← Pres.sum_map_neg]
    refine congrArg _ (List.map_congr_left fun s hs => ?_)
    rw [← neg_mul]
    have hm := uSum_mul (𝕜 := ℝ) (Ts := Ts) (-(2 * occfac))
    rw [hm]
    refine uSum_congr _ _ _ fun b T hb hf => ?_
    have hG := S.good T (mem_uatoms hb) hf
    by_cases e : b = a
    · subst e
      simp only [if_true]
      rw [neg_mul]
      congr 1
      rw [← List.sum_map_mul_left]
      refine congrArg _ (List.map_congr_left fun r hr => ?_)
      have hr' := List.mem_range.1 hr
      have e1 : ∀ m ∈ List.range (nproj T), ((pre T (rho b (P.sp s)) (nproj T) r m : ℝ) : 𝕜) * (2 *
            ((List.range P.ncol).map fun n =>
              al (pos .SC (Ts.map emb) P.ncol P.nsp k s b (nproj T) n m)
                * ((occfac * gOcc E Nkpts P.toGrp k s n : ℝ) : 𝕜)
              * be d (pos .SC (Ts.map emb) P.ncol P.nsp k s b (nproj T) n r)).sum)
          = ((pre T (rho b (P.sp s)) (nproj T) r m : ℝ) : 𝕜) * (2 *
            ((List.range P.ncol).map fun n =>
              (P.doms.map fun D => ofAtom D b fun I => phase Lc (P.k k) I.R *
              ((List.range I.ndc).map fun i => (starRingEnd 𝕜) (I.chi i r)
              * D.D d (orb P.toGrp D k n s (I.pos i))).sum).sum *
              ((starRingEnd 𝕜) (proj E Lc P.toGrp .SC k s b n m)
                * ((occfac * gOcc E Nkpts P.toGrp k s n : ℝ) : 𝕜))).sum) := by
        intro m hm
        congr 2
        refine congrArg _ (List.map_congr_left fun n hn => ?_)
        rw [hal, al_env S.atoms E P.toGrp S.placed (List.mem_range.1 hk) (List.mem_range.1 hs) hb hf
          (List.mem_range.1 hn) (List.mem_range.1 hm), hbe]
        dsimp only
        rw [beF_env S.atoms P.toGrp S.placed d (List.mem_range.1 hk) (List.mem_range.1 hs) hb hf
          (List.mem_range.1 hn) hr']
        ring
      rw [List.map_congr_left e1, inner_sum T hG _ hr', mul_assoc]
      congr 1
      rw [← List.sum_map_mul_left]
      refine congrArg _ (List.map_congr_left fun m hm => ?_)
      rw [← List.sum_map_mul_left]
      refine congrArg _ (List.map_congr_left fun n hn => ?_)
      rw [gOcc_eq]
      ring
    · simp only [if_neg e, mul_zero]
      simp
  constructor
  · intro T ha hf
    have hl : ∀ v : Fin 3 → ℝ, ((unitMat L)⁻¹.mulVec v) c = ∑ d, (unitMat L)⁻¹ c d * v d := fun v => rfl
    rw [hl, hl]
    simp only [key, mul_sub, Finset.sum_sub_distrib]
    congr 1
    have : ∀ d, (unitMat L)⁻¹ c d * (2 * occfac * pairSum E Ts Nkpts P rho fun k s b n r m =>
        if b = a then RCLike.re
        ((starRingEnd 𝕜) (proj E Lc P.toGrp .SC k s a n m) *
          (P.doms.map fun D => ofAtom D a fun I => phase Lc (P.k k) I.R *
          ((List.range I.ndc).map fun i => (starRingEnd 𝕜) (I.chi i r)
            * D.D d (orb P.toGrp D k n s (I.pos i))).sum).sum) else 0)
        = 2 * occfac * pairSum E Ts Nkpts P rho fun k s b n r m =>
        (unitMat L)⁻¹ c d * (if b = a then RCLike.re
        ((starRingEnd 𝕜) (proj E Lc P.toGrp .SC k s a n m) *
          (P.doms.map fun D => ofAtom D a fun I => phase Lc (P.k k) I.R *
          ((List.range I.ndc).map fun i => (starRingEnd 𝕜) (I.chi i r)
            * D.D d (orb P.toGrp D k n s (I.pos i))).sum).sum) else 0) := by
      intro d
      rw [mul_left_comm]
      congr 1
      exact pairSum_mul _ _ _ _
    simp only [this]
    rw [← Finset.mul_sum, Fin.sum_univ_three, ← pairSum_add, ← pairSum_add]
    congr 1
    refine pairSum_congr _ _ _ _ fun k s b n r m => ?_
    by_cases e : b = a
    · simp only [if_pos e]
      rw [Force.dproj_eq, Fin.sum_univ_three]
      have hre : ∀ (x : ℝ) (y z : 𝕜), RCLike.re (y * ((x : 𝕜) * z)) = x * RCLike.re (y * z) := by
        intro x y z
        rw [mul_left_comm, RCLike.re_ofReal_mul]
      rw [mul_add, mul_add, map_add, map_add, hre, hre, hre]
      rfl
    · simp only [if_neg e]; ring
  · intro h
    funext d
    rw [key d]
    have : pairSum E Ts Nkpts P rho (fun k s b n r m => if b = a then RCLike.re
        ((starRingEnd 𝕜) (proj E Lc P.toGrp .SC k s a n m) *
          (P.doms.map fun D => ofAtom D a fun I => phase Lc (P.k k) I.R *
          ((List.range I.ndc).map fun i => (starRingEnd 𝕜) (I.chi i r)
            * D.D d (orb P.toGrp D k n s (I.pos i))).sum).sum) else 0) = 0 := by
      unfold pairSum
      refine List.sum_eq_zero fun x hx => ?_
      obtain ⟨k, _, rfl⟩ := List.mem_map.1 hx
      refine List.sum_eq_zero fun x hx => ?_
      obtain ⟨s, _, rfl⟩ := List.mem_map.1 hx
      have : uSum Ts (fun _ _ => (0 : ℝ)) = 0 := by
        unfold uSum
        exact List.sum_eq_zero fun x hx => by
          obtain ⟨_, _, rfl⟩ := List.mem_map.1 hx; simp
      refine Eq.trans ?_ this
      refine uSum_congr _ _ _ fun b T hb hf => ?_
      have hne : b ≠ a := by
        rintro rfl
        rw [h T hb] at hf
        exact absurd hf (by decide)
      simp only [if_neg hne, mul_zero]
      simp
    rw [this, mul_zero, sub_zero]

/-- The trace of one stress component. -/
theorem trace_form (h : Coord.transformMat L = some E.G) (h0 : E.G.cellTyp = 0 → unitMat L = 1)
    (P : HGrp 𝕜) (S : Setup Ts P.doms) (rule : Rule) (hw : aWalk rule Ts = marked Ts 0)
    (rho : ℕ → ℕ → ℕ → ℝ) (c c' : Fin 3) :
    hubTrace rule E Ts Lc occfac Nkpts P rho
      (P.doms.map fun D => alpha E (env Ts Lc occfac Nkpts) P.toGrp .SC D).sum
      (P.doms.map fun D => betaS E (env Ts Lc occfac Nkpts) P.toGrp .SC D c c').sum
    = -2 * occfac * pairSum E Ts Nkpts P rho fun k s a n r m => RCLike.re ((starRingEnd 𝕜)
        (proj E Lc P.toGrp .SC k s a n r) * moment L E Lc P.toGrp .SC c c' k s a n m) := by
  rw [hubTrace_eq S.atoms rule hw]
  have e2 : ∀ x : ℝ, -2 * occfac * x = -(occfac * (2 * x)) := fun x => by ring
  rw [e2]
  congr 2
  unfold pairSum
  rw [← List.sum_map_mul_left]
  refine congrArg _ (List.map_congr_left fun k hk => ?_)
  rw [← List.sum_map_mul_left]
  refine congrArg _ (List.map_congr_left fun s hs => ?_)
  rw [uSum_mul (𝕜 := ℝ) (Ts := Ts) 2]
  refine uSum_congr _ _ _ fun a T ha hf => ?_
  have hG := S.good T (mem_uatoms ha) hf
  rw [← List.sum_map_mul_left]
  refine congrArg _ (List.map_congr_left fun r hr => ?_)
  have hr' := List.mem_range.1 hr
  have e1 : ∀ m ∈ List.range (nproj T), ((pre T (rho a (P.sp s)) (nproj T) r m : ℝ) : 𝕜) * (2 *
      ((List.range P.ncol).map fun n =>
        (P.doms.map fun D => betaS E (env Ts Lc occfac Nkpts) P.toGrp .SC D c c').sum
          (pos .SC (Ts.map emb) P.ncol P.nsp k s a (nproj T) n m)
        * ((P.doms.map fun D => alpha E (env Ts Lc occfac Nkpts) P.toGrp .SC D).sum
          (pos .SC (Ts.map emb) P.ncol P.nsp k s a (nproj T) n r)
          * ((gOcc E Nkpts P.toGrp k s n : ℝ) : 𝕜))).sum)
      = ((pre T (rho a (P.sp s)) (nproj T) r m : ℝ) : 𝕜) * (2 *
      ((List.range P.ncol).map fun n => moment L E Lc P.toGrp .SC c c' k s a n m
        * ((starRingEnd 𝕜) (proj E Lc P.toGrp .SC k s a n r)
          * ((gOcc E Nkpts P.toGrp k s n : ℝ) : 𝕜))).sum) := by
    intro m hm
    congr 2
    refine congrArg _ (List.map_congr_left fun n hn => ?_)
    rw [al_env S.atoms E P.toGrp S.placed (List.mem_range.1 hk) (List.mem_range.1 hs) ha hf
      (List.mem_range.1 hn) hr', beS_env S.atoms h h0 P.toGrp S.placed c c' (List.mem_range.1 hk)
      (List.mem_range.1 hs) ha hf (List.mem_range.1 hn) (List.mem_range.1 hm)]
  rw [List.map_congr_left e1, inner_sum T hG _ hr' P.ncol
    (fun n m => moment L E Lc P.toGrp .SC c c' k s a n m)
    (fun n _ => (starRingEnd 𝕜) (proj E Lc P.toGrp .SC k s a n r))]
  congr 1
  refine congrArg _ (List.map_congr_left fun m _ => congrArg _ (List.map_congr_left fun n _ => ?_))
  rw [gOcc_eq]

/-- The stress of the theorems below. -/
noncomputable def stressForm (E : Env) (L : ℕ → ℝ) (Lc : ℝ × ℝ × ℝ) (Ts : List UTyp)
    (occfac : ℝ) (Nkpts Nspinor : ℕ) (Ps : List (HGrp 𝕜)) (rho : ℕ → ℕ → ℕ → ℝ) (c c' : Fin 3) : ℝ :=
  -2 * occfac * (Ps.map fun P => pairSum E Ts Nkpts P rho fun k s a n r m => RCLike.re
    ((starRingEnd 𝕜) (proj E Lc P.toGrp .SC k s a n r)
      * moment L E Lc P.toGrp .SC c c' k s a n m)).sum
  - if c = c' then hubEnergy Ts Nspinor occfac rho else 0

/-- The stress with either walk. -/
theorem stress_of (h : Coord.transformMat L = some E.G) (h0 : E.G.cellTyp = 0 → unitMat L = 1)
    (Nspinor : ℕ) (cell : ℝ) (hcell : cell ≠ 0) (Ps : List (HGrp 𝕜))
    (S : ∀ P ∈ Ps, Setup Ts P.doms) (rule : Rule) (hw : aWalk rule Ts = marked Ts 0)
    (rho : ℕ → ℕ → ℕ → ℝ) (c c' : Fin 3) :
    cell * hubStress rule E Ts Lc occfac Nkpts Nspinor cell Ps rho c c'
      = stressForm E L Lc Ts occfac Nkpts Nspinor Ps rho c c' := by
  unfold hubStress stressForm
  dsimp only
  rw [mul_div_cancel₀ _ hcell, ← List.sum_map_mul_left,
    List.map_congr_left fun P hP => trace_form h h0 P (S P hP) rule hw rho c c']
  split <;> simp

/-- C92.  The Hubbard stress of the Γ-point, wherever the types without U stand. -/
theorem hubbard_stress_gamma (h : Coord.transformMat L = some E.G)
    (h0 : E.G.cellTyp = 0 → unitMat L = 1)
    (Nspinor : ℕ) (cell : ℝ) (hcell : cell ≠ 0) (Ps : List (HGrp 𝕜))
    (S : ∀ P ∈ Ps, Setup Ts P.doms) (rho : ℕ → ℕ → ℕ → ℝ) (c c' : Fin 3) :
    cell * hubStress .always E Ts Lc occfac Nkpts Nspinor cell Ps rho c c'
      = stressForm E L Lc Ts occfac Nkpts Nspinor Ps rho c c' :=
  stress_of h h0 Nspinor cell hcell Ps S .always
    (by rw [aWalk_eq, aWalk_always, List.nil_append]) rho c c'

/-- C92.  The Hubbard stress for k-points, for types with U next to each other. -/
theorem hubbard_stress_kpt_partial (h : Coord.transformMat L = some E.G)
    (h0 : E.G.cellTyp = 0 → unitMat L = 1)
    (Nspinor : ℕ) (cell : ℝ) (hcell : cell ≠ 0) (Ps : List (HGrp 𝕜))
    (S : ∀ P ∈ Ps, Setup Ts P.doms) (hc : Contig Ts) (rho : ℕ → ℕ → ℕ → ℝ) (c c' : Fin 3) :
    cell * hubStress .first E Ts Lc occfac Nkpts Nspinor cell Ps rho c c'
      = stressForm E L Lc Ts occfac Nkpts Nspinor Ps rho c c' :=
  stress_of h h0 Nspinor cell hcell Ps S .first (aWalk_first Ts hc) rho c c'

theorem hubTrace_add (hn : ∀ T ∈ Ts, 0 < T.n) (rule : Rule) (hw : aWalk rule Ts = marked Ts 0)
    (P : HGrp 𝕜) (rho : ℕ → ℕ → ℕ → ℝ) (al b1 b2 : ℕ → 𝕜) :
    hubTrace rule E Ts Lc occfac Nkpts P rho al (b1 + b2)
      = hubTrace rule E Ts Lc occfac Nkpts P rho al b1
        + hubTrace rule E Ts Lc occfac Nkpts P rho al b2 := by
  rw [hubTrace_eq hn rule hw, hubTrace_eq hn rule hw, hubTrace_eq hn rule hw]
  simp only [Pi.add_apply, add_mul, mul_add, List.sum_map_add, map_add, uSum_add]
  ring

/-- C92.  The Hubbard pressure is the trace of the stress up to the energy, when the types with U
come first. -/
theorem hubbard_pressure_partial (h : Coord.transformMat L = some E.G)
    (h0 : E.G.cellTyp = 0 → unitMat L = 1) (Nspinor : ℕ) (Ps : List (HGrp 𝕜))
    (B C : List UTyp) (hB : ∀ T ∈ B, T.flag = true) (hC : ∀ T ∈ C, T.flag = false)
    (S : ∀ P ∈ Ps, Setup (B ++ C) P.doms) (rho : ℕ → ℕ → ℕ → ℝ) :
    hubPressure .never E (B ++ C) Lc occfac Nkpts Nspinor Ps rho
      = stressForm E L Lc (B ++ C) occfac Nkpts Nspinor Ps rho 0 0
        + stressForm E L Lc (B ++ C) occfac Nkpts Nspinor Ps rho 1 1
        + stressForm E L Lc (B ++ C) occfac Nkpts Nspinor Ps rho 2 2
        + 2 * hubEnergy (B ++ C) Nspinor occfac rho := by
  have hw := aWalk_never B C hB hC
  unfold hubPressure stressForm
  dsimp only
  simp only [if_true, ← List.sum_map_mul_left]
  have e : ∀ P ∈ Ps, ((List.finRange 3).map fun d => hubTrace .never E (B ++ C) Lc occfac Nkpts P rho
      (P.doms.map fun D => alpha E (env (B ++ C) Lc occfac Nkpts) P.toGrp .SC D).sum
      (P.doms.map fun D => betaP E (env (B ++ C) Lc occfac Nkpts) P.toGrp .SC D d).sum).sum
      = (-2 * occfac * pairSum E (B ++ C) Nkpts P rho fun k s a n r m => RCLike.re ((starRingEnd 𝕜)
        (proj E Lc P.toGrp .SC k s a n r) * moment L E Lc P.toGrp .SC 0 0 k s a n m))
      + (-2 * occfac * pairSum E (B ++ C) Nkpts P rho fun k s a n r m => RCLike.re ((starRingEnd 𝕜)
        (proj E Lc P.toGrp .SC k s a n r) * moment L E Lc P.toGrp .SC 1 1 k s a n m))
      + (-2 * occfac * pairSum E (B ++ C) Nkpts P rho fun k s a n r m => RCLike.re ((starRingEnd 𝕜)
        (proj E Lc P.toGrp .SC k s a n r) * moment L E Lc P.toGrp .SC 2 2 k s a n m)) := by
    intro P hP
    have hn := (S P hP).atoms
    rw [← trace_form h h0 P (S P hP) .never hw, ← trace_form h h0 P (S P hP) .never hw,
      ← trace_form h h0 P (S P hP) .never hw, ← hubTrace_add hn .never hw,
      ← hubTrace_add hn .never hw]
    have e3 : (List.finRange 3) = [0, 1, 2] := by decide
    rw [e3]
    simp only [List.map_cons, List.map_nil, List.sum_cons, List.sum_nil, add_zero]
    rw [← add_assoc, ← hubTrace_add hn .never hw, ← hubTrace_add hn .never hw]
    congr 1
    simp only [← List.sum_map_add]
    refine congrArg _ (List.map_congr_left fun D _ => ?_)
    exact (beta_trace h h0 _ _ _ D).symm
  rw [List.map_congr_left e, List.sum_map_add, List.sum_map_add]
  ring

/-! ### C93: initial occupations -/

theorem range_succ_sum (f : ℕ → ℕ) (l : ℕ) (x : ℤ) :
    (List.range (l + 1)).foldl (fun (d : ℤ) ll => d + f ll) x
      = x + (((List.range (l + 1)).map f).sum : ℕ) := by
  rw [foldl_adds _ (fun ll => ((f ll : ℕ) : ℤ)) _ _ (fun _ _ _ => rfl)]
  congr 1
  induction List.range (l + 1) with
  | nil => simp
  | cons a v ih => simp [ih]

theorem lStates_eq (T : UTyp) (h : Good T) : lStates T = (orbs T).map fun l =>
    (2 * l + 1, T.occ (((List.range (l + 1)).map T.ppl).sum - 1)) := by
  unfold lStates orbs
  rw [foldl_append_flatMap _ _ (fun l => if T.U l = 0 then []
    else List.replicate (2 * l + 1)
      (2 * l + 1, T.occ (((List.range (l + 1)).map T.ppl).sum - 1))) ?_, List.nil_append,
    List.map_flatMap]
  · have : ∀ l ∈ List.range (T.lmax + 1), (if T.U l = 0 then []
        else List.replicate (2 * l + 1)
          (2 * l + 1, T.occ (((List.range (l + 1)).map T.ppl).sum - 1)))
        = List.map (fun l => (2 * l + 1, T.occ (((List.range (l + 1)).map T.ppl).sum - 1)))
          (if T.U l = 0 then [] else List.replicate (T.ppl l * (2 * l + 1)) l) := by
      intro l hl
      rcases h l (by have := List.mem_range.1 hl; omega) with h0 | ⟨h1, h2⟩
      · simp [h0]
      · have : T.U l ≠ 0 := by
          intro e
          rw [e] at h1
          norm_num at h1
        simp [this, h2]
    exact List.flatMap_congr this
  · intro v l hl
    rcases h l (by have := List.mem_range.1 hl; omega) with h0 | ⟨h1, h2⟩
    · rw [h0]
      norm_num
    · have hne : T.U l ≠ 0 := by
        intro e
        rw [e] at h1
        norm_num at h1
      have hlt : ¬ T.U l < 1e-12 := not_lt.2 h1
      rw [if_neg hlt, if_neg hne]
      dsimp only
      rw [range_succ_sum]
      have e : (-1 + ((((List.range (l + 1)).map T.ppl).sum : ℕ) : ℤ)).toNat
          = ((List.range (l + 1)).map T.ppl).sum - 1 := by omega
      rw [e]
      generalize (2 * l + 1, T.occ (((List.range (l + 1)).map T.ppl).sum - 1)) = q
      generalize 2 * l + 1 = j
      induction j with
      | zero => simp
      | succ j ih => rw [List.range_succ, List.foldl_append, ih]; simp [List.replicate_succ']

/-- Number of electrons the pseudoatom has in the channel of orbital `m`: the entry of `occ` of the
last radial function of its `l`. -/
noncomputable def shellOcc (T : UTyp) (m : ℕ) : ℤ :=
  T.occ (((List.range ((orbs T).getD m 0 + 1)).map T.ppl).sum - 1)

theorem lStates_at (T : UTyp) (h : Good T) {m : ℕ} (hm : m < nproj T) :
    (lStates T).getD m (0, 0) = (2 * (orbs T).getD m 0 + 1, shellOcc T m) := by
  rw [nproj_eq] at hm
  rw [lStates_eq T h]
  unfold shellOcc
  simp [List.getD_eq_getElem?_getD, hm]

/-- C93.  The initial occupations of the orbitals of a shell add up to the electrons of the shell
over the two spins, and each lies between 0 and 1, unless the atom is magnetic and its shell less
than half full. -/
theorem initial_occupation_partial (T : UTyp) (h : Good T) (spin : ℕ) (mag : ℝ) {m : ℕ}
    (hm : m < nproj T)
    (hh : spin = 1 → mag ≠ 0 → 2 * (orbs T).getD m 0 + 1 ≤ shellOcc T m) :
    (initOcc T spin mag 0 m + initOcc T spin mag 1 m) * (2 * (orbs T).getD m 0 + 1)
      = shellOcc T m
    ∧ (0 ≤ shellOcc T m → shellOcc T m ≤ 2 * (2 * (orbs T).getD m 0 + 1) → ∀ σ,
      0 ≤ initOcc T spin mag σ m ∧ initOcc T spin mag σ m ≤ 1)
    ∧ (spin = 1 → 0 < mag → initOcc T spin mag 0 m = 1)
    ∧ (spin = 1 → mag < 0 → initOcc T spin mag 1 m = 1)
    ∧ ((spin ≠ 1 ∨ mag = 0) → initOcc T spin mag 0 m = initOcc T spin mag 1 m) := by
  unfold initOcc
  rw [lStates_at T h hm]
  generalize hl : (orbs T).getD m 0 = l at *
  generalize shellOcc T m = o at *
  have hpos : (0 : ℝ) < 2 * l + 1 := by positivity
  have frac : 0 ≤ o → o ≤ 2 * (2 * l + 1) → (2 * l + 1 : ℤ) ≤ o →
      0 ≤ ((o - (2 * l + 1 : ℕ) : ℤ) : ℝ) / ((2 * l + 1 : ℕ) : ℝ)
      ∧ ((o - (2 * l + 1 : ℕ) : ℤ) : ℝ) / ((2 * l + 1 : ℕ) : ℝ) ≤ 1 := by
    intro _ h2 h3
    have h2' : (o : ℝ) ≤ 2 * (2 * l + 1) := by exact_mod_cast h2
    have h3' : (2 * l + 1 : ℝ) ≤ o := by exact_mod_cast h3
    push_cast
    exact ⟨div_nonneg (by linarith) hpos.le, by rw [div_le_one hpos]; linarith⟩
  have half : (0.5 * (o : ℝ) / ((2 * l + 1 : ℕ) : ℝ) + 0.5 * (o : ℝ) / ((2 * l + 1 : ℕ) : ℝ))
      * (2 * l + 1) = o
      ∧ (0 ≤ o → o ≤ 2 * (2 * l + 1) → 0 ≤ 0.5 * (o : ℝ) / ((2 * l + 1 : ℕ) : ℝ)
        ∧ 0.5 * (o : ℝ) / ((2 * l + 1 : ℕ) : ℝ) ≤ 1) := by
    push_cast
    refine ⟨by field_simp; norm_num; ring, fun h1 h2 => ?_⟩
    have h1' : (0 : ℝ) ≤ o := by exact_mod_cast h1
    have h2' : (o : ℝ) ≤ 2 * (2 * l + 1) := by exact_mod_cast h2
    exact ⟨div_nonneg (by linarith) hpos.le, by rw [div_le_one hpos]; linarith⟩
  dsimp only
  by_cases hs : spin = 1
  · rw [if_pos hs]
    rcases lt_trichotomy mag 0 with h1 | h1 | h1
    · have hn : ¬ mag > 0 := not_lt.2 h1.le
      have ho := hh hs h1.ne
      have hge : o ≥ ((2 * l + 1 : ℕ) : ℤ) := by push_cast; exact ho
      rw [if_neg hn, if_pos h1]
      simp only [if_pos hge]
      refine ⟨?_, fun a b σ => ?_, fun _ h => absurd h hn, fun _ _ => by simp, fun h => ?_⟩
      · push_cast
        norm_num
        field_simp
        ring
      · split
        · norm_num
        · exact frac a b ho
      · rcases h with h | h
        · exact absurd hs h
        · exact absurd h h1.ne
    · subst h1
      simp only [gt_iff_lt, lt_irrefl, if_false]
      exact ⟨half.1, fun a b _ => half.2 a b, fun _ h => absurd h (by norm_num),
        fun _ h => absurd h (by norm_num), fun _ => trivial⟩
    · have hn : ¬ mag < 0 := not_lt.2 h1.le
      have ho := hh hs h1.ne'
      have hge : o ≥ ((2 * l + 1 : ℕ) : ℤ) := by push_cast; exact ho
      rw [if_pos h1]
      simp only [if_pos hge]
      refine ⟨?_, fun a b σ => ?_, fun _ _ => by simp, fun _ h => absurd h hn, fun h => ?_⟩
      · push_cast
        norm_num
        field_simp
        ring
      · split
        · norm_num
        · exact frac a b ho
      · rcases h with h | h
        · exact absurd hs h
        · exact absurd h h1.ne'
  · rw [if_neg hs]
    exact ⟨half.1, fun a b _ => half.2 a b, fun h => absurd h hs, fun h => absurd h hs, fun _ => rfl⟩

/-- C93.  A magnetic atom with a shell less than half full starts with a negative occupation of
the majority spin and an empty minority spin. -/
theorem initial_occupation_negative (T : UTyp) (h : Good T) (mag : ℝ) (hmag : 0 < mag) {m : ℕ}
    (hm : m < nproj T) (ho : shellOcc T m < 2 * (orbs T).getD m 0 + 1) :
    initOcc T 1 mag 0 m < 0 ∧ initOcc T 1 mag 1 m = 0
    ∧ (initOcc T 1 mag 0 m + initOcc T 1 mag 1 m) * (2 * (orbs T).getD m 0 + 1)
      = shellOcc T m - (2 * (orbs T).getD m 0 + 1) := by
  unfold initOcc
  rw [lStates_at T h hm]
  generalize hl : (orbs T).getD m 0 = l at *
  generalize shellOcc T m = o at *
  have hpos : (0 : ℝ) < 2 * l + 1 := by positivity
  have hge : ¬ o ≥ ((2 * l + 1 : ℕ) : ℤ) := by push_cast; exact not_le.2 ho
  have ho' : (o : ℝ) < 2 * l + 1 := by exact_mod_cast ho
  dsimp only
  rw [if_pos rfl, if_pos hmag]
  simp only [if_neg hge, if_true]
  push_cast
  refine ⟨div_neg_of_neg_of_pos (by linarith) hpos, by norm_num, ?_⟩
  norm_num
  field_simp

/-! ### Witnesses and examples -/

/-- A type with one s orbital, a U of 1 and `n` atoms. -/
noncomputable def exU (n : ℕ) : UTyp := ⟨true, n, 0, fun _ => 1, fun _ => 1, fun _ => 1⟩

/-- A type without U. -/
noncomputable def exO : UTyp := ⟨false, 1, 0, fun _ => 0, fun _ => 1, fun _ => 2⟩

theorem nproj_exU (n : ℕ) : nproj (exU n) = 1 := by simp [nproj, exU]

theorem angnum_exU (n : ℕ) : angnum (exU n) = 1 := by norm_num [angnum, exU]

theorem good_exU (n : ℕ) : Good (exU n) := fun l _ => Or.inr ⟨by norm_num [exU], rfl⟩

theorem orbs_exU (n : ℕ) : orbs (exU n) = [0] := by simp [orbs, exU]

/-- A group with one band, k-point and spin. -/
def exP (doms : List (PDom 𝕜)) : HGrp 𝕜 where
  ncol := 1
  nsp := 1
  Nk := 1
  b0 := 0
  Ns := 1
  occ _ := 1
  wt _ := 1
  k _ := (0, 0, 0)
  doms := doms
  spidx := 0

theorem ipU_OU : ipU [exO, exU 1] 0 = -1 ∧ ipU [exO, exU 1] 1 = 0 := by
  have h : nproj (exU 1) = 1 := nproj_exU 1
  constructor
  · simp [ipU, displ, exO, h, show (exU 1).flag = true from rfl, show (exU 1).n = 1 from rfl,
      List.range_succ]
  · simp [ipU, displ, exO, h, show (exU 1).flag = true from rfl, show (exU 1).n = 1 from rfl,
      List.range_succ]

/-- C92.  With a type without U before the type with U the pressure loses its sum over the bands:
the products with the occupations are written before the start of the block that is read. -/
theorem pressure_lost (E : Env) (rho : ℕ → ℕ → ℕ → ℝ) (al be : ℕ → ℝ) :
    hubTrace .never E [exO, exU 1] Lc occfac 1 (exP []) rho al be = 0
    ∧ hubTrace .always E [exO, exU 1] Lc occfac 1 (exP []) rho al be
      = -(occfac * (2 * ((1 / 2 - rho 1 0 0) * (be 0 * al 0)))) := by
  have h : nproj (exU 1) = 1 := nproj_exU 1
  have w1 : aWalk .never [exO, exU 1] = [(exU 1, 0)] := by
    simp [aWalk, exO, show (exU 1).flag = true from rfl, show (exU 1).n = 1 from rfl,
      List.range_succ]
  have w2 : aWalk .always [exO, exU 1] = [(exU 1, 1)] := by
    simp [aWalk, exO, show (exU 1).flag = true from rfl, show (exU 1).n = 1 from rfl,
      List.range_succ]
  have hu : uval (exU 1) = [1] := by norm_num [uval, exU]
  have hN : ∀ L : ℝ × ℝ × ℝ, shift (env [exO, exU 1] L occfac 1) (exP ([] : List (PDom ℝ))).toGrp 0 0
      = 0 := by
    intro L; simp [shift]
  constructor
  · simp [hubTrace, w1, w2, exP, alphaGn, h, ipU_OU.1, ipU_OU.2, Function.update]
  · have hN' := hN Lc
    simp only [exP] at hN'
    simp [hubTrace, w2, exP, alphaGn, h, ipU_OU.2, Function.update, pre, hu, rd, gOcc, HGrp.sp, hN']
    norm_num
    ring_nf
    simp

theorem ipU_UOU : ipU [exU 1, exO, exU 2] 1 = 1 ∧ ipU [exU 1, exO, exU 2] 2 = 1
    ∧ ipU [exU 1, exO, exU 2] 3 = 2 := by
  have h : nproj (exU 1) = 1 := nproj_exU 1
  have h2 : nproj (exU 2) = 1 := nproj_exU 2
  refine ⟨?_, ?_, ?_⟩ <;>
  simp [ipU, displ, exO, h, h2, show (exU 1).flag = true from rfl, show (exU 1).n = 1 from rfl,
      show (exU 2).flag = true from rfl, show (exU 2).n = 2 from rfl,
      List.range_succ]

/-- C92.  With a type without U between types with U the force on the last atom is made from the
integrals of the atom before it. -/
theorem force_misplaced (E : Env) (rho : ℕ → ℕ → ℕ → ℝ) (al : ℕ → ℝ) (be : Fin 3 → ℕ → ℝ)
    (F : Force.Forces) (d : Fin 3) :
    hubForce E [exU 1, exO, exU 2] Lc occfac 1 (exP []) rho al be F 3 d
      = F 3 d - (1 / 2 - rho 3 0 0) * (2 * (al 1 * occfac * be d 1))
    ∧ ipU [exU 1, exO, exU 2] 3 = 2 := by
  refine ⟨?_, ipU_UOU.2.2⟩
  have h : nproj (exU 1) = 1 := nproj_exU 1
  have h2 : nproj (exU 2) = 1 := nproj_exU 2
  have g : angnum (exU 1) = 1 := angnum_exU 1
  have g2 : angnum (exU 2) = 1 := angnum_exU 2
  have w1 : aWalk .first [exU 1, exO, exU 2] = [(exU 1, 0), (exU 2, 1), (exU 2, 2)] := by
    simp [aWalk, exO, show (exU 1).flag = true from rfl, show (exU 1).n = 1 from rfl,
      show (exU 2).flag = true from rfl, show (exU 2).n = 2 from rfl, List.range_succ]
  have w2 : fWalk [exU 1, exO, exU 2] = [(exU 1, 0, 0), (exU 2, 2, 1), (exU 2, 3, 2)] := by
    simp [fWalk, exO, show (exU 1).flag = true from rfl, show (exU 1).n = 1 from rfl,
      show (exU 2).flag = true from rfl, show (exU 2).n = 2 from rfl, List.range_succ]
  have hu2 : uval (exU 2) = [1] := by norm_num [uval, exU]
  have hN : shift (env [exU 1, exO, exU 2] Lc occfac 1) (exP ([] : List (PDom ℝ))).toGrp 0 0 = 0 := by
    simp [shift]
  simp only [exP] at hN
  simp [hubForce, w1, w2, exP, alphaGn, h, h2, g, g2, ipU_UOU.1, ipU_UOU.2.1, Function.update, pre,
    hu2, rd, gOcc, HGrp.sp, hN, Force.bump]
  norm_num
  ring_nf

/-- An image of atom 0 with two nodes. -/
def exI : NImg 𝕜 where
  R := (1, 2, 3)
  atom := 0
  ndc := 2
  pos i := 3 * i
  chi i j := ((i + j + 1 : ℕ) : 𝕜)
  so0 _ _ := 0
  sol _ _ := 0
  sonl _ _ := 0

/-- A process with four nodes and this image. -/
def exD : PDom 𝕜 where
  lo := (0, 0, 0)
  nx := 4
  ny := 1
  nd := 4
  psi q := (q : 𝕜)
  D _ q := (q : 𝕜)
  imgs := [[exI]]

/-- One type with U, then one without. -/
noncomputable def exTs : List UTyp := [exU 1] ++ [exO]

theorem exSetup : Setup exTs [(exD : PDom 𝕜)] where
  atoms T hT := by
    simp only [exTs, List.mem_append, List.mem_singleton] at hT
    rcases hT with rfl | rfl <;> exact Nat.one_pos
  good T hT hf := by
    simp only [exTs, List.mem_append, List.mem_singleton] at hT
    rcases hT with rfl | rfl
    · exact good_exU 1
    · exact absurd hf (by simp [exO])
  placed D hD li hli I hI := by
    rw [List.mem_singleton.1 hD] at hli
    rw [show li = ([exI], 0) from List.mem_singleton.1 hli] at hI ⊢
    rw [List.mem_singleton.1 hI]
    exact ⟨emb (exU 1), rfl⟩
  inside D hD l hl I hI i hi := by
    rw [List.mem_singleton.1 hD] at hl ⊢
    rw [show l = [exI] from List.mem_singleton.1 hl] at hI
    rw [List.mem_singleton.1 hI] at hi ⊢
    have : i < 2 := hi
    show 3 * i < 4
    omega
  real D hD l hl I hI i j := by
    rw [List.mem_singleton.1 hD] at hl
    rw [show l = [exI] from List.mem_singleton.1 hl] at hI
    rw [List.mem_singleton.1 hI]
    simp [exI]

theorem exContig : Contig exTs :=
  ⟨[], [exU 1], [exO], rfl, by simp, by simp [exU], by simp [exO]⟩

theorem exAtom : (uatoms exTs)[0]? = some (exU 1) := rfl

/-- C89. -/
example := displacements (exSetup (𝕜 := ℝ)).atoms exAtom rfl

example : ipU [exU 1, exO, exU 2] 3 = 2 := ipU_UOU.2.2

/-- C90. -/
example (z x : PDom ℂ → ℕ → ℂ) := potential_form (Lc := (1, 1, 1)) 1 (0, 0, 1) 1 (fun D => D.nd) _
  exSetup (fun _ _ => le_rfl) (fun _ _ => 1 / 3) z x 0 (n := 0) Nat.one_pos

example (z x : PDom ℂ → ℕ → ℂ) := potential_hermitian_partial (Lc := (1, 1, 1)) 1 (0, 0, 1) 1
  (fun D => D.nd) _ exSetup (fun _ _ => le_rfl) (fun _ _ => 1 / 3) (fun _ _ _ _ _ _ _ _ => rfl)
  (fun a T ha hf r _ c _ _ => by
    have hT := mem_uatoms ha
    simp only [exTs, List.mem_append, List.mem_singleton] at hT
    rcases hT with rfl | rfl
    · rfl
    · exact absurd hf (by simp [exO])) z x (n' := 0) (n := 0) Nat.one_pos Nat.one_pos

/-- C91. -/
example (E : Env) (hV : 0 < E.dV) := occupation_gamma (Lc := (1, 1, 1)) E hV [exP [exD]]
  (fun P hP => by rw [List.mem_singleton.1 hP]; exact exSetup) (by simp) 0 exAtom rfl (r := 0)
  (c := 0) (by rw [nproj_exU]; exact Nat.one_pos) (by rw [nproj_exU]; exact Nat.one_pos)

example (E : Env) (hV : 0 < E.dV) := occupation_kpt (Lc := (1, 1, 1)) (Nkpts := 1) E hV
  [exP [exD]] (fun P hP => by rw [List.mem_singleton.1 hP]; exact exSetup) (by simp) 0 exAtom rfl
  (r := 0) (c := 0) (by rw [nproj_exU]; exact Nat.one_pos) (by rw [nproj_exU]; exact Nat.one_pos)

/-- An s orbital occupied by a half: the energy is `U (1/2 - 1/4) / 2`. -/
example : (hubE [exU 1] 1 1 fun _ _ _ => 1 / 2).2 = 1 / 8 := by
  have h : ∀ T ∈ [exU 1], T.flag = true → Good T := by
    intro T hT _
    rw [List.mem_singleton.1 hT]; exact good_exU 1
  rw [(energy_correction h 1 1 _).2]
  simp only [uSum, show uatoms [exU 1] = [exU 1] from rfl]
  simp [nproj_exU, show (exU 1).flag = true from rfl, show ∀ l, (exU 1).U l = 1 from fun _ => rfl]
  norm_num

theorem occMat_half : occMat 1 (fun _ => 1 / 2) = (1 / 2 : ℝ) • (1 : Matrix (Fin 1) (Fin 1) ℝ) := by
  ext i j
  simp [occMat, Matrix.one_apply, Subsingleton.elim i j]

/-- The hypotheses of `energy_nonneg`. -/
example : 0 ≤ (hubE [exU 1] 1 1 fun _ _ _ => 1 / 2).2 := by
  refine energy_nonneg (fun T hT _ => by rw [List.mem_singleton.1 hT]; exact good_exU 1) 1 1
    zero_le_one _ fun a T ha _ σ _ => ?_
  have hT := List.mem_singleton.1 (mem_uatoms ha)
  subst hT
  rw [nproj_exU, occMat_half]
  have h1 : ((1 / 2 : ℝ) • (1 : Matrix (Fin 1) (Fin 1) ℝ)).PosSemidef :=
    Matrix.PosSemidef.one.smul (by norm_num)
  refine ⟨h1, ?_⟩
  have : (1 : Matrix (Fin 1) (Fin 1) ℝ) - (1 / 2 : ℝ) • 1 = (1 / 2 : ℝ) • 1 := by
    ext i j
    simp [Matrix.one_apply, Subsingleton.elim i j]
    norm_num
  rw [this]
  exact h1

/-- The hypotheses of `energy_expectation`. -/
example (E : Env) (hV : 0 < E.dV) := energy_expectation (Lc := (1, 1, 1)) (occfac := 2)
  (Nkpts := 1) E hV 1 [exP [(exD : PDom ℂ)]]
  (fun P hP => by rw [List.mem_singleton.1 hP]; exact exSetup) (exSetup (𝕜 := ℝ)).good
  (fun a σ _ => density E (1, 1, 1) 1 [exP [(exD : PDom ℂ)]] a σ 0 0)
  (fun a T ha hf σ _ r hr c hc => by
    have hT := mem_uatoms ha
    simp only [exTs, List.mem_append, List.mem_singleton] at hT
    rcases hT with rfl | rfl
    · rw [nproj_exU] at hr hc
      rw [Nat.lt_one_iff.1 hr, Nat.lt_one_iff.1 hc]
    · exact absurd hf (by simp [exO]))
  (fun P hP s hs => by rw [List.mem_singleton.1 hP]; exact Nat.one_pos)

/-- C92. -/
example (rho : ℕ → ℕ → ℕ → ℝ) (F : Force.Forces) (c : Fin 3) (E : Env) :=
  (hubbard_force_partial (L := Coord.exL) (E := E) (Lc := (1, 1, 1)) (occfac := 2) (Nkpts := 1)
    (exP [(exD : PDom ℂ)]) exSetup exContig rho F 0 c).1 (exU 1) exAtom rfl

example (rho : ℕ → ℕ → ℕ → ℝ) (c c' : Fin 3) : ∃ E : Env, 2 *
    hubStress .first E exTs (1, 1, 1) 2 1 1 2 [exP [(exD : PDom ℂ)]] rho c c'
      = stressForm E Coord.exL (1, 1, 1) exTs 2 1 1 [exP [(exD : PDom ℂ)]] rho c c'
    ∧ 2 * hubStress .always E exTs (1, 1, 1) 2 1 1 2 [exP [(exD : PDom ℝ)]] rho c c'
      = stressForm E Coord.exL (1, 1, 1) exTs 2 1 1 [exP [(exD : PDom ℝ)]] rho c c'
    ∧ hubPressure .never E exTs (1, 1, 1) 2 1 1 [exP [(exD : PDom ℝ)]] rho
      = stressForm E Coord.exL (1, 1, 1) exTs 2 1 1 [exP [(exD : PDom ℝ)]] rho 0 0
        + stressForm E Coord.exL (1, 1, 1) exTs 2 1 1 [exP [(exD : PDom ℝ)]] rho 1 1
        + stressForm E Coord.exL (1, 1, 1) exTs 2 1 1 [exP [(exD : PDom ℝ)]] rho 2 2
        + 2 * hubEnergy exTs 1 2 rho := by
  obtain ⟨G, hG, ht⟩ := Coord.exL_oblique
  refine ⟨⟨G, (1, 1, 1), 1, 6, fun _ => 0, fun _ => 0, fun _ => 0, 0⟩, ?_, ?_, ?_⟩
  · exact hubbard_stress_kpt_partial hG (fun e => by simp only at e; omega) 1 2 two_ne_zero _
      (fun P hP => by rw [List.mem_singleton.1 hP]; exact exSetup) exContig rho c c'
  · exact hubbard_stress_gamma hG (fun e => by simp only at e; omega) 1 2 two_ne_zero _
      (fun P hP => by rw [List.mem_singleton.1 hP]; exact exSetup) rho c c'
  · exact hubbard_pressure_partial hG (fun e => by simp only at e; omega) 1 _ [exU 1] [exO]
      (by simp [exU]) (by simp [exO])
      (fun P hP => by rw [List.mem_singleton.1 hP]; exact exSetup) rho

/-- A d shell. -/
noncomputable def exV (o : ℤ) : UTyp :=
  ⟨true, 1, 2, fun l => if l = 2 then 1 else 0, fun _ => 1, fun _ => o⟩

theorem good_exV (o : ℤ) : Good (exV o) := fun l _ => by
  by_cases h : l = 2
  · exact Or.inr ⟨by norm_num [exV, h], rfl⟩
  · exact Or.inl (by simp [exV, h])

theorem orbs_exV (o : ℤ) : orbs (exV o) = [2, 2, 2, 2, 2] := by
  simp [orbs, exV, List.range_succ, List.replicate_succ]

theorem nproj_exV (o : ℤ) : nproj (exV o) = 5 := by rw [nproj_eq, orbs_exV]; rfl

theorem shell_exV (o : ℤ) : shellOcc (exV o) 0 = o := rfl

/-- C93.  Seven electrons: the majority spin is full, the minority holds two of five. -/
example : initOcc (exV 7) 1 1 0 0 = 1 ∧ initOcc (exV 7) 1 1 1 0 = 2 / 5 := by
  have h := initial_occupation_partial (exV 7) (good_exV 7) 1 1 (m := 0)
    (by rw [nproj_exV]; norm_num) (fun _ _ => by rw [orbs_exV, shell_exV]; norm_num)
  have h1 := h.2.2.1 rfl one_pos
  refine ⟨h1, ?_⟩
  have h2 := h.1
  rw [h1, shell_exV, orbs_exV] at h2
  norm_num at h2
  linarith

/-- Two electrons in a d shell of a magnetic atom: the majority spin starts at `-3/5`. -/
example : initOcc (exV 2) 1 1 0 0 = -(3 / 5) ∧ initOcc (exV 2) 1 1 1 0 = 0 := by
  have h := initial_occupation_negative (exV 2) (good_exV 2) 1 one_pos (m := 0)
    (by rw [nproj_exV]; norm_num) (by rw [orbs_exV, shell_exV]; norm_num)
  refine ⟨?_, h.2.1⟩
  have h2 := h.2.2
  rw [h.2.1, shell_exV, orbs_exV] at h2
  norm_num at h2
  linarith

end Sparc.Hub

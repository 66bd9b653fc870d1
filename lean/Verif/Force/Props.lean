import Verif.Force.Lemmas

/-! # Forces on the atoms: properties C83, C84, C85 -/

namespace Sparc.Force

open Loop Pres Matrix

variable {L : ℕ → ℝ} {E : Env}

/-- The value at a global node of a vector array of a process. -/
def vecOn (D : Dom) (m : ℤ → ℝ × ℝ × ℝ) (I J K : ℤ) : ℝ × ℝ × ℝ :=
  (onDom D (fun q => (m q).1) I J K, onDom D (fun q => (m q).2.1) I J K,
    onDom D (fun q => (m q).2.2) I J K)

theorem vecOn_place (D : Dom) (R : Infl.Rec) (m : ℤ → ℝ × ℝ × ℝ) (t : ℕ × ℕ × ℕ) :
    m (place D R t) = vecOn D m (R.xs + t.1) (R.ys + t.2.1) (R.zs + t.2.2) := by
  unfold vecOn
  rw [← place_onDom D R (fun q => (m q).1) t, ← place_onDom D R (fun q => (m q).2.1) t,
    ← place_onDom D R (fun q => (m q).2.2) t]

/-! ### C84: local forces and core charges -/

/-- `∇(V_ref - V_J)` of an image at a global node. -/
noncomputable def selfGrad (L : ℕ → ℝ) (E : Env) (A : Img) (I J K : ℤ) : Fin 3 → ℝ :=
  nabla L E (fun I J K => onBox A.R E.FDn A.VJref I J K - onBox A.R E.FDn A.VJ I J K) I J K

/-- The integrand of the electrostatic force: `-b_J ∂φ + ½[(b + b_ref) ∂(V_ref - V_J)
- (b_J + b_Jref) ∂Vc]`. -/
noncomputable def density (L : ℕ → ℝ) (E : Env) (P : FDom) (A : Img) (c : Fin 3) (I J K : ℤ) : ℝ :=
  -(onBox A.R 0 A.bJ I J K * cgrad L (vecOn P.D P.Dphi I J K) c)
    + 1 / 2 * ((onDom P.D P.D.b I J K + onDom P.D P.D.bref I J K) * selfGrad L E A I J K c
      - (onBox A.R 0 A.bJ I J K + onBox A.R 0 A.bJref I J K)
        * cgrad L (vecOn P.D P.DVc I J K) c)

theorem toC_img (P : FDom) (A : Img) (c : Fin 3) :
    toC L c (imgForce E P A) = E.dV * boxSum A.R (density L E P A c) := by
  rw [imgForce_eq, map_smul, smul_eq_mul]
  congr 1
  have := map_sum_list (toC L c).toAddMonoidHom (nodes A.R) (nodeVec E P A)
  simp only [LinearMap.toAddMonoidHom_coe] at this
  rw [this, ← nodes_sum]
  refine congrArg _ (List.map_congr_left fun t _ => ?_)
  have hat : ∀ m, imgAt A 0 m t = onBox A.R 0 m (A.R.xs + t.1) (A.R.ys + t.2.1) (A.R.zs + t.2.2) :=
    fun m => boxed_onBox A.R 0 m _ _ _
  have hg := imgGrad_nabla (L := L) (E := E) A E.FDn (fun p => A.VJref p - A.VJ p) t
  unfold nodeVec density selfGrad
  dsimp only
  simp only [map_add, map_neg, map_sub, map_smul, smul_eq_mul, toC_vec, hat,
    vecOn_place P.D A.R P.Dphi, vecOn_place P.D A.R P.DVc, place_onDom P.D A.R P.D.b,
    place_onDom P.D A.R P.D.bref]
  rw [show (fun I J K => onBox A.R E.FDn A.VJref I J K - onBox A.R E.FDn A.VJ I J K)
    = onBox A.R E.FDn (fun p => A.VJref p - A.VJ p) from rfl, ← hg]
  rfl

theorem toC_local (ps : List FDom) (a : ℕ) (c : Fin 3) :
    ((unitMat L)⁻¹ *ᵥ localForces E ps a) c = (ps.map fun P => E.dV * onAtom P.D a fun A =>
      boxSum A.R (density L E P A c)).sum := by
  rw [← toC_apply]
  unfold localForces
  rw [sum_apply]
  have := map_sum_list (toC L c).toAddMonoidHom ps (fun P => localOn E P a)
  simp only [LinearMap.toAddMonoidHom_coe] at this
  rw [this]
  refine congrArg _ (List.map_congr_left fun P _ => ?_)
  unfold localOn
  rw [foldl_bump]
  have := onAtom_map (toC L c).toAddMonoidHom P.D a (imgForce E P)
  simp only [LinearMap.toAddMonoidHom_coe] at this
  rw [this, ← onAtom_mul]
  exact onAtom_congr fun A => toC_img P A c

/-- C84.  The local force on an atom, in Cartesian components: over the processes and the images
of the atom there, `∫ -b_J ∂φ + ½[(b + b_ref) ∂(V_ref - V_J) - (b_J + b_Jref) ∂Vc]`. -/
theorem local_force (ps : List FDom) (a : ℕ) (c : Fin 3) :
    ((unitMat L)⁻¹ *ᵥ localForces E ps a) c = (ps.map fun P => E.dV *
      ((P.D.imgs.flatten.filter fun A => A.R.idx = a).map fun A => boxSum A.R fun I J K =>
        -(onBox A.R 0 A.bJ I J K * cgrad L (vecOn P.D P.Dphi I J K) c)
        + 1 / 2 * ((onDom P.D P.D.b I J K + onDom P.D P.D.bref I J K)
            * nabla L E (fun I J K => onBox A.R E.FDn A.VJref I J K - onBox A.R E.FDn A.VJ I J K)
                I J K c
          - (onBox A.R 0 A.bJ I J K + onBox A.R 0 A.bJref I J K)
            * cgrad L (vecOn P.D P.DVc I J K) c)).sum).sum :=
  toC_local ps a c

/-- C84.  The force of the core charge on an atom, already Cartesian: over the processes and the
images of the atom there, `∫ Vxc ∂ρ_cJ`, with `Vxc` averaged over the spins. -/
theorem xc_force (h : Coord.transformMat L = some E.G) (h0 : E.G.cellTyp = 0 → unitMat L = 1)
    (ps : List FDom) (a : ℕ) (c : Fin 3) :
    xcForces E ps a c = (ps.map fun P => E.dV *
      ((P.D.imgs.flatten.filter fun A => A.R.idx = a).map fun A => boxSum A.R fun I J K =>
        (if E.spin = 0 then onDom P.D P.D.Vxc I J K
          else 1 / 2 * (onDom P.D P.D.Vxc I J K
            + onDom P.D (fun q => P.D.Vxc (P.D.nd + q)) I J K))
        * nabla L E (onBox A.R (2 * E.FDn) A.rhocJ) I J K c).sum).sum := by
  unfold xcForces
  rw [sum_apply, sum_apply3]
  refine congrArg _ (List.map_congr_left fun P _ => ?_)
  unfold xcOn
  rw [foldl_bump]
  have := onAtom_map (Pi.evalAddMonoidHom (fun _ : Fin 3 => ℝ) c) P.D a (xcImg E P.D)
  simp only [Pi.evalAddMonoidHom_apply] at this
  rw [this]
  change _ = E.dV * onAtom P.D a _
  rw [← onAtom_mul]
  refine onAtom_congr fun A => ?_
  rw [xcImg_eq h h0, ← nodes_sum]
  congr 2
  refine List.map_congr_left fun t _ => ?_
  have hc : coreGrad L E A t = imgGrad L E A (2 * E.FDn) A.rhocJ t := by
    unfold coreGrad imgGrad
    push_cast
    rw [show (4 * (E.FDn : ℤ)) = 2 * (2 * E.FDn) by ring]
  rw [hc, imgGrad_nabla]
  unfold vxcAt
  rw [place_onDom P.D A.R P.D.Vxc, place_onDom P.D A.R (fun q => P.D.Vxc (P.D.nd + q)), half]

/-- Whether a global node is in the box of an image. -/
def inBox (R : Infl.Rec) (I J K : ℤ) : Prop :=
  (R.xs ≤ I ∧ I ≤ R.xe) ∧ (R.ys ≤ J ∧ J ≤ R.ye) ∧ (R.zs ≤ K ∧ K ≤ R.ze)

instance (R : Infl.Rec) (I J K : ℤ) : Decidable (inBox R I J K) := by
  unfold inBox; infer_instance

/-- The nodes of the box of an image. -/
noncomputable def boxF (R : Infl.Rec) : Finset (ℤ × ℤ × ℤ) :=
  Finset.Icc R.xs R.xe ×ˢ Finset.Icc R.ys R.ye ×ˢ Finset.Icc R.zs R.ze

theorem mem_boxF {R : Infl.Rec} {n : ℤ × ℤ × ℤ} : n ∈ boxF R ↔ inBox R n.1 n.2.1 n.2.2 := by
  unfold boxF inBox
  simp only [Finset.mem_product, Finset.mem_Icc]

theorem boxSum_eq (R : Infl.Rec) (f : ℤ → ℤ → ℤ → ℝ) :
    boxSum R f = ∑ n ∈ boxF R, f n.1 n.2.1 n.2.2 := by
  unfold boxSum boxF
  rw [Finset.sum_product, Finset.sum_congr rfl fun K _ => Finset.sum_comm, Finset.sum_comm]
  refine Finset.sum_congr rfl fun I _ => ?_
  rw [Finset.sum_product, Finset.sum_comm]

theorem sum_swap {α β : Type} [DecidableEq β] (l : List α) (S : Finset β) (f : α → β → ℝ) :
    (l.map fun x => ∑ n ∈ S, f x n).sum = ∑ n ∈ S, (l.map fun x => f x n).sum := by
  induction l with
  | nil => simp
  | cons x l ih => simp [ih, Finset.sum_add_distrib]

/-- Over the images of a process. -/
theorem balance (l : List Img) (w v : ℤ → ℤ → ℤ → ℝ) (wA uA : Img → ℤ → ℤ → ℤ → ℝ)
    (hw : ∀ I J K, (∃ A ∈ l, inBox A.R I J K) →
      w I J K = ((l.filter fun A => inBox A.R I J K).map fun A => wA A I J K).sum)
    (hv : ∀ I J K, (∃ A ∈ l, inBox A.R I J K) →
      v I J K = ((l.filter fun A => inBox A.R I J K).map fun A => uA A I J K).sum) :
    (l.map fun A => boxSum A.R fun I J K => w I J K * uA A I J K - wA A I J K * v I J K).sum = 0 := by
  classical
  set S : Finset (ℤ × ℤ × ℤ) := l.toFinset.biUnion fun A => boxF A.R with hS
  have e : ∀ A ∈ l, (boxSum A.R fun I J K => w I J K * uA A I J K - wA A I J K * v I J K)
      = ∑ n ∈ S, if inBox A.R n.1 n.2.1 n.2.2 then w n.1 n.2.1 n.2.2 * uA A n.1 n.2.1 n.2.2
        - wA A n.1 n.2.1 n.2.2 * v n.1 n.2.1 n.2.2 else 0 := by
    intro A hA
    rw [boxSum_eq, ← Finset.sum_filter]
    refine Finset.sum_congr ?_ fun _ _ => rfl
    ext n
    rw [Finset.mem_filter, mem_boxF, hS, Finset.mem_biUnion]
    constructor
    · exact fun hn => ⟨⟨A, List.mem_toFinset.2 hA, mem_boxF.2 hn⟩, hn⟩
    · exact fun hn => hn.2
  rw [List.map_congr_left e, sum_swap]
  refine Finset.sum_eq_zero fun n hn => ?_
  rw [hS, Finset.mem_biUnion] at hn
  obtain ⟨A, hA, hn⟩ := hn
  have hx : ∃ A ∈ l, inBox A.R n.1 n.2.1 n.2.2 := ⟨A, List.mem_toFinset.1 hA, mem_boxF.1 hn⟩
  have h1 := hw _ _ _ hx
  have h2 := hv _ _ _ hx
  rw [← filter_sum l (fun A => inBox A.R n.1 n.2.1 n.2.2)]
  simp only [sub_eq_add_neg, List.sum_map_add, ← neg_mul, List.sum_map_mul_left, List.sum_map_mul_right]
  rw [← h2, Pres.sum_map_neg, ← h1]
  ring

/-- C84.  The corrections exert no net force: when on every node of the boxes of a process
`b + b_ref` is the sum of the images' charges and `∂Vc` the sum of their `∂(V_ref - V_J)`, the
local forces on all the atoms add up to the force of the field `-∂φ` on the pseudocharges. -/
theorem net_local (ps : List FDom) (natom : ℕ) (c : Fin 3)
    (hidx : ∀ P ∈ ps, ∀ A ∈ P.D.imgs.flatten, A.R.idx < natom)
    (hb : ∀ P ∈ ps, ∀ I J K, (∃ A ∈ P.D.imgs.flatten, inBox A.R I J K) →
      onDom P.D P.D.b I J K + onDom P.D P.D.bref I J K
        = ((P.D.imgs.flatten.filter fun A => inBox A.R I J K).map fun A =>
          onBox A.R 0 A.bJ I J K + onBox A.R 0 A.bJref I J K).sum)
    (hV : ∀ P ∈ ps, ∀ I J K, (∃ A ∈ P.D.imgs.flatten, inBox A.R I J K) →
      cgrad L (vecOn P.D P.DVc I J K) c
        = ((P.D.imgs.flatten.filter fun A => inBox A.R I J K).map fun A =>
          nabla L E (fun I J K => onBox A.R E.FDn A.VJref I J K - onBox A.R E.FDn A.VJ I J K)
            I J K c).sum) :
    ∑ a ∈ Finset.range natom, ((unitMat L)⁻¹ *ᵥ localForces E ps a) c
      = (ps.map fun P => E.dV * (P.D.imgs.flatten.map fun A => boxSum A.R fun I J K =>
        -(onBox A.R 0 A.bJ I J K * cgrad L (vecOn P.D P.Dphi I J K) c)).sum).sum := by
  simp only [toC_local]
  rw [← sum_swap]
  refine congrArg _ (List.map_congr_left fun P hP => ?_)
  rw [← Finset.mul_sum]
  congr 1
  have e : ∑ a ∈ Finset.range natom, (onAtom P.D a fun A => boxSum A.R (density L E P A c))
      = (P.D.imgs.flatten.map fun A => boxSum A.R (density L E P A c)).sum := by
    unfold onAtom
    simp only [filter_sum]
    rw [← sum_swap]
    refine congrArg _ (List.map_congr_left fun A hA => ?_)
    rw [Finset.sum_ite_eq, if_pos (Finset.mem_range.2 (hidx P hP A hA))]
  rw [e]
  have hb0 := balance P.D.imgs.flatten (fun I J K => onDom P.D P.D.b I J K + onDom P.D P.D.bref I J K)
    (fun I J K => cgrad L (vecOn P.D P.DVc I J K) c)
    (fun A I J K => onBox A.R 0 A.bJ I J K + onBox A.R 0 A.bJref I J K)
    (fun A I J K => selfGrad L E A I J K c) (hb P hP) (hV P hP)
  have s : ∀ A : Img, boxSum A.R (density L E P A c) = (boxSum A.R fun I J K =>
      -(onBox A.R 0 A.bJ I J K * cgrad L (vecOn P.D P.Dphi I J K) c))
      + 1 / 2 * boxSum A.R fun I J K =>
        (onDom P.D P.D.b I J K + onDom P.D P.D.bref I J K) * selfGrad L E A I J K c
      - (onBox A.R 0 A.bJ I J K + onBox A.R 0 A.bJref I J K)
        * cgrad L (vecOn P.D P.DVc I J K) c := by
    intro A
    simp only [boxSum_eq]
    rw [Finset.mul_sum, ← Finset.sum_add_distrib]
    rfl
  simp only [s, List.sum_map_add, List.sum_map_mul_left]
  rw [hb0, mul_zero, add_zero]

/-- One image with a box of one node, charge 2 and a self potential rising along the first
direction. -/
def oneImg : Img where
  R := ⟨0, 0, 0, 0, (0, 0, 0), 0, 0, 0, 0, 0, 0⟩
  VJ := fun _ => 0
  VJref := fun q => if q = 14 then 1 else 0
  bJ := fun _ => 2
  bJref := fun _ => 0
  rhocJ := fun _ => 0

/-- A process with that image. -/
def oneDom : FDom where
  D := ⟨(0, 0, 0), 1, 1, 1, 1, fun _ => 0, fun _ => 0, fun _ => 0, fun _ => 0, fun _ => 2,
    fun _ => 0, fun _ => 0, fun _ => 0, fun _ => 0, [[oneImg]]⟩
  Dphi := fun _ => (3, 0, 0)
  DVc := fun _ => (1, 0, 0)

/-- The assumptions of `net_local` are met by this process. -/
example (L : ℕ → ℝ) (E : Env) (hE : E.FDn = 1 ∧ E.D1x 1 = 1) (c : Fin 3) :
    (∀ P ∈ [oneDom], ∀ A ∈ P.D.imgs.flatten, A.R.idx < 1)
    ∧ (∀ P ∈ [oneDom], ∀ I J K, (∃ A ∈ P.D.imgs.flatten, inBox A.R I J K) →
      onDom P.D P.D.b I J K + onDom P.D P.D.bref I J K
        = ((P.D.imgs.flatten.filter fun A => inBox A.R I J K).map fun A =>
          onBox A.R 0 A.bJ I J K + onBox A.R 0 A.bJref I J K).sum)
    ∧ (∀ P ∈ [oneDom], ∀ I J K, (∃ A ∈ P.D.imgs.flatten, inBox A.R I J K) →
      cgrad L (vecOn P.D P.DVc I J K) c
        = ((P.D.imgs.flatten.filter fun A => inBox A.R I J K).map fun A =>
          nabla L E (fun I J K => onBox A.R E.FDn A.VJref I J K - onBox A.R E.FDn A.VJ I J K)
            I J K c).sum) := by
  obtain ⟨h1, h2⟩ := hE
  have hf : oneDom.D.imgs.flatten = [oneImg] := rfl
  refine ⟨?_, ?_, ?_⟩
  · intro P hP A hA
    rw [List.mem_singleton.1 hP, hf] at hA
    rw [List.mem_singleton.1 hA]
    exact Nat.one_pos
  · rintro P hP I J K ⟨A, hA, hb⟩
    rw [List.mem_singleton.1 hP, hf] at hA
    rw [List.mem_singleton.1 hA] at hb
    rw [List.mem_singleton.1 hP, hf, List.filter_cons_of_pos (by simpa using hb)]
    simp [oneDom, oneImg, onDom, onBox]
  · rintro P hP I J K ⟨A, hA, hb⟩
    rw [List.mem_singleton.1 hP, hf] at hA
    rw [List.mem_singleton.1 hA] at hb
    rw [List.mem_singleton.1 hP, hf, List.filter_cons_of_pos (by simpa using hb)]
    obtain ⟨⟨x1, x2⟩, ⟨y1, y2⟩, ⟨z1, z2⟩⟩ := hb
    have hI : I = 0 := le_antisymm x2 x1
    have hJ : J = 0 := le_antisymm y2 y1
    have hK : K = 0 := le_antisymm z2 z1
    subst hI hJ hK
    simp [oneDom, oneImg, onDom, onBox, vecOn, nabla, h1, h2]

/-! ### C83: nonlocal forces -/

variable {𝕜 : Type} [RCLike 𝕜] {Ts : List Typ} {Lc : ℝ × ℝ × ℝ} {occfac : ℝ} {Nkpts : ℕ}

theorem foldl_add_at {α : Type} (l : List α) (f : α → Forces → Forces) (v : α → Fin 3 → ℝ) (a : ℕ)
    (hf : ∀ x ∈ l, ∀ F, f x F a = F a + v x) (F : Forces) :
    (l.foldl (fun F x => f x F) F) a = F a + (l.map v).sum := by
  induction l generalizing F with
  | nil => simp
  | cons x l ih =>
    rw [List.foldl_cons, ih (fun y hy => hf y (List.mem_cons_of_mem _ hy)),
      hf x List.mem_cons_self, List.map_cons, List.sum_cons, add_assoc]

theorem option_force (P : Grp 𝕜) (o : Opt) (hP : ∀ D ∈ P.doms, Placed Ts D)
    (hso : o = .SO2 → P.nsp = 2) {a : ℕ} {T : Typ} {i : ℕ} (ha : (atoms Ts)[a]? = some (T, i))
    (F : Forces) (c : Fin 3) :
    toC L c (byIntegrals E (mkEnv Ts Lc occfac Nkpts) P o
      ((P.doms.map (alpha E (mkEnv Ts Lc occfac Nkpts) P o)).sum)
      (fun d => (P.doms.map fun D => beta (mkEnv Ts Lc occfac Nkpts) P o D d).sum) F a)
      = toC L c (F a) + -(2 * occfac * atomSum E Nkpts T P o fun k s n j =>
        RCLike.re ((starRingEnd 𝕜) (proj E Lc P o k s a n j) * dproj L Lc P o c k s a n j)) := by
  rw [byIntegrals_eq E P o _ _ F ha, map_sub, sub_eq_add_neg]
  congr 2
  have push : ∀ {α : Type} (l : List α) (f : α → Fin 3 → ℝ),
      toC L c (l.map f).sum = (l.map fun x => toC L c (f x)).sum := by
    intro α l f
    exact map_sum_list (toC L c).toAddMonoidHom l f
  unfold atomSum
  rw [push, ← List.sum_map_mul_left]
  refine congrArg _ (List.map_congr_left fun k hk => ?_)
  rw [push, ← mul_assoc, ← List.sum_map_mul_left]
  refine congrArg _ (List.map_congr_left fun s hs => ?_)
  rw [map_smul, smul_eq_mul, push]
  congr 1
  · norm_num; ring
  refine congrArg _ (List.map_congr_left fun n hn => ?_)
  rw [map_smul, smul_eq_mul, push]
  refine congrArg _ (congrArg _ (List.map_congr_left fun cj hcj => ?_))
  rw [map_smul, smul_eq_mul]
  congr 1
  have hk := List.mem_range.1 hk
  have hs := List.mem_range.1 hs
  have hn := List.mem_range.1 hn
  have hj : cj.2 < (chan o T).length := (List.getElem?_eq_some_iff.1 (mem_zip hcj)).1
  rw [alpha_at E P o hP hk hs ha hn hj, beta_at P o hP 0 hk hs hso ha hn hj,
    beta_at P o hP 1 hk hs hso ha hn hj, beta_at P o hP 2 hk hs hso ha hn hj]
  beta_reduce
  rw [dproj_eq, Finset.mul_sum, map_sum, toC_apply]
  simp only [Matrix.mulVec, dotProduct, Fin.sum_univ_three]
  simp only [Matrix.cons_val_zero, Matrix.cons_val_one, Matrix.cons_val_two, Matrix.cons_val]
  simp only [reMul_eq]
  have pull : ∀ (r : ℝ) (x y : 𝕜), RCLike.re (x * ((r : 𝕜) * y)) = r * RCLike.re (x * y) := by
    intro r x y
    rw [mul_left_comm, RCLike.re_ofReal_mul]
  rw [pull, pull, pull]
  rfl

/-- C83.  The nonlocal force on an atom, in Cartesian components: minus twice the occupied sum of
`weight · Re(conj⟨χ|ψ⟩ ⟨χ|∂ψ⟩)` over its projectors, for the scalar-relativistic and, with
spin-orbit coupling, the two spin-orbit parts. -/
theorem nonlocal_force (soc : Bool) (Ps : List (Grp 𝕜)) (hP : ∀ P ∈ Ps, ∀ D ∈ P.doms, Placed Ts D)
    (hso : soc = true → ∀ P ∈ Ps, P.nsp = 2) {a : ℕ} {T : Typ} {i : ℕ}
    (ha : (atoms Ts)[a]? = some (T, i)) (c : Fin 3) :
    ((unitMat L)⁻¹ *ᵥ nonlocalForces E (mkEnv Ts Lc occfac Nkpts) soc Ps a) c
      = -(2 * occfac * (Ps.map fun P =>
        ((if soc then [Opt.SC, Opt.SO1, Opt.SO2] else [Opt.SC]).map fun o =>
          ((List.range P.Nk).map fun k => P.wt k / Nkpts * ((List.range P.nsp).map fun s =>
            ((List.range P.ncol).map fun n => occOf E P k n s * ((chan o T).zipIdx.map fun cj =>
              weight o T s cj.1 * RCLike.re ((starRingEnd 𝕜) (proj E Lc P o k s a n cj.2)
                * dproj L Lc P o c k s a n cj.2)).sum).sum).sum).sum).sum).sum) := by
  rw [← toC_apply]
  unfold nonlocalForces
  rw [sum_apply]
  have push : ∀ {α : Type} (l : List α) (f : α → Fin 3 → ℝ),
      toC L c (l.map f).sum = (l.map fun x => toC L c (f x)).sum := by
    intro α l f
    exact map_sum_list (toC L c).toAddMonoidHom l f
  rw [push, ← neg_mul, ← List.sum_map_mul_left]
  refine congrArg _ (List.map_congr_left fun P hp => ?_)
  have key : ∀ (l : List Opt) (F : Forces), (∀ o ∈ l, o ∈ opts soc) →
      toC L c ((l.foldl (fun F o => byIntegrals E (mkEnv Ts Lc occfac Nkpts) P o
        ((P.doms.map (alpha E (mkEnv Ts Lc occfac Nkpts) P o)).sum)
        (fun d => (P.doms.map fun D => beta (mkEnv Ts Lc occfac Nkpts) P o D d).sum) F) F) a)
      = toC L c (F a) + (l.map fun o => -(2 * occfac * atomSum E Nkpts T P o fun k s n j =>
        RCLike.re ((starRingEnd 𝕜) (proj E Lc P o k s a n j)
          * dproj L Lc P o c k s a n j))).sum := by
    intro l
    induction l with
    | nil => intro F _; simp
    | cons o l ih =>
      intro F hl
      have ho : o = .SO2 → P.nsp = 2 := by
        intro e
        have := hl o List.mem_cons_self
        subst e
        cases soc with
        | false => simp [opts] at this
        | true => exact hso rfl P hp
      rw [List.foldl_cons, ih _ fun o ho => hl o (List.mem_cons_of_mem _ ho),
        option_force P o (hP P hp) ho ha, List.map_cons, List.sum_cons, add_assoc]
  unfold groupForce
  rw [key (opts soc) 0 fun o ho => ho]
  simp only [Pi.zero_apply, map_zero, zero_add]
  rw [← List.sum_map_mul_left]
  refine congrArg _ (List.map_congr_left fun o _ => ?_)
  rw [← neg_mul]
  rfl

theorem foldl_keep {α β : Type} (l : List α) (f : β → α → β) (g : β → Fin 3 → ℝ)
    (hf : ∀ x s, g (f s x) = g s) (s : β) : g (l.foldl f s) = g s := by
  induction l generalizing s with
  | nil => rfl
  | cons x l ih => rw [List.foldl_cons, ih, hf]

/-- C83.  The loops write the entries of the atoms and no others. -/
theorem beyond_atoms (soc : Bool) (Ps : List (Grp 𝕜)) {a : ℕ}
    (ha : (mkEnv Ts Lc occfac Nkpts).natom ≤ a) :
    nonlocalForces E (mkEnv Ts Lc occfac Nkpts) soc Ps a = 0 := by
  have hnat : (mkEnv Ts Lc occfac Nkpts).natom = (atoms Ts).length := (atoms_length Ts).symm
  unfold nonlocalForces
  rw [sum_apply]
  refine List.sum_eq_zero fun v hv => ?_
  obtain ⟨P, -, rfl⟩ := List.mem_map.1 hv
  unfold groupForce
  refine foldl_keep _ _ (fun F : Forces => F a) (fun o F => ?_) 0
  unfold byIntegrals
  refine foldl_keep _ _ (fun st : ℕ × Forces => st.2 a) (fun k st => ?_) _
  refine foldl_keep _ _ (fun st : ℕ × Forces => st.2 a) (fun s st => ?_) _
  obtain ⟨c, G⟩ := st
  rw [spinorLoop_eq]
  dsimp only
  rw [Pi.add_apply, sum_apply]
  refine add_eq_left.2 (List.sum_eq_zero fun v hv => ?_)
  obtain ⟨z, hz, rfl⟩ := List.mem_map.1 hv
  have : z.2 < (atoms Ts).length := (List.getElem?_eq_some_iff.1 (mem_zip hz)).1
  exact Pi.single_eq_of_ne (by omega) _

/-- The force on the atom of `Pres.backP`, whose orbital is equal to its derivative along the
first direction; see there for the assumptions. -/
example (E : Env) (hE : E.dV = 1) :
    nonlocalForces E (mkEnv [backT] (1, 1, 1) 1 1) false [backP] 0 = ![-2, 0, 0] := by
  have i0 : ∀ v : ℕ → NImg ℝ → ℕ → ℕ → ℕ → ℝ, ∀ I ∈ backD.imgs.flatten,
      integral (mkEnv [backT] (1, 1, 1) 1 1) backP .SC backD v 0 = v 0 I 0 0 0 := by
    intro v I hI
    simp only [backD, List.flatten_cons, List.flatten_nil, List.append_nil, List.mem_singleton] at hI
    subst hI
    simp [integral, backP, backD, backT, mkEnv, NEnv.nproj, NEnv.ip, nprojOf, ipTable, addAt]
  have a0 : alpha E (mkEnv [backT] (1, 1, 1) 1 1) backP .SC backD 0 = 1 := by
    unfold alpha
    rw [i0 _ _ (List.mem_singleton.2 rfl)]
    simp [blochC, backP, backD, hE]
  have b0 : ∀ d, beta (mkEnv [backT] (1, 1, 1) 1 1) backP .SC backD d 0 = if d = 0 then 1 else 0 := by
    intro d
    unfold beta
    rw [i0 _ _ (List.mem_singleton.2 rfl)]
    fin_cases d <;> simp [bloch, backP, backD]
  have hb := byIntegrals_eq (Ts := [backT]) (Lc := (1, 1, 1)) (occfac := 1) (Nkpts := 1) E backP .SC
    (alpha E (mkEnv [backT] (1, 1, 1) 1 1) backP .SC backD)
    (fun d => beta (mkEnv [backT] (1, 1, 1) 1 1) backP .SC backD d) 0 (a := 0) (T := backT) (i := 0) rfl
  have hch : chan .SC backT = [(0, 0, 0)] := by
    simp [chan, backT, kept]
  have h1 : (List.range backP.Nk) = [0] ∧ (List.range backP.nsp) = [0] ∧ List.range backP.ncol = [0] :=
    ⟨rfl, rfl, rfl⟩
  have hp : pos .SC [backT] backP.ncol backP.nsp 0 0 0 1 0 0 = 0 := by simp [pos, before]
  have hw : backP.wt 0 = 1 ∧ (∀ k n s, occOf E backP k n s = 1) ∧ weight .SC backT 0 (0, 0, 0) = 1 :=
    ⟨rfl, fun _ _ _ => rfl, by simp [weight, backT]⟩
  rw [hch, h1.1, h1.2.1, h1.2.2] at hb
  simp only [List.map_cons, List.map_nil, List.sum_cons, List.sum_nil, List.zipIdx_cons,
    List.zipIdx_nil, List.length_cons, List.length_nil, Nat.zero_add, hp, a0, b0, hw.1, hw.2.1,
    hw.2.2, add_zero] at hb
  have hd : backP.doms = [backD] := rfl
  simp only [nonlocalForces, groupForce, opts, Bool.false_eq_true, if_false, List.map_cons,
    List.map_nil, List.sum_cons, List.sum_nil, List.foldl_cons, List.foldl_nil, hd, add_zero]
  rw [hb]
  funext c
  fin_cases c <;> norm_num [reMul] <;> decide

/-! ### C85: the forces on the atoms -/

/-- The forces before the net force is removed. -/
noncomputable def raw (L : ℕ → ℝ) (E : Env) (N : NEnv) (w : Sw) (ps : List FDom)
    (Ps : List (Grp 𝕜)) (a : ℕ) (c : Fin 3) : ℝ :=
  ((unitMat L)⁻¹ *ᵥ localForces E ps a) c + ((unitMat L)⁻¹ *ᵥ nonlocalForces E N w.soc Ps a) c
    + (match w.hub with | some H => ((unitMat L)⁻¹ *ᵥ H a) c | none => 0)
    + (if w.nlcc then xcForces E ps a c else 0)
    - (match w.d3 with | some g => g a c | none => 0)

theorem cart_eq (h : Coord.transformMat L = some E.G)
    (hc : E.G.cellTyp = 0 ∧ unitMat L = 1 ∨ 10 < E.G.cellTyp) (F : Forces) (a : ℕ) :
    cart E F a = (unitMat L)⁻¹ *ᵥ F a := by
  unfold cart
  rcases hc with ⟨h0, h1⟩ | h1
  · rw [if_neg (by omega), h1]
    simp
  · have hlt : E.G.cellTyp < 20 := by
      obtain ⟨-, -, -, -, -, -, hc⟩ := Coord.transformMat_some h
      rw [hc]; unfold Coord.cellTyp1 Coord.cellTyp0
      dsimp only
      repeat' split
      all_goals omega
    rw [if_pos ⟨h1, hlt⟩]
    have e : F a = vec (F a 0, F a 1, F a 2) := by
      funext d; fin_cases d <;> rfl
    conv_rhs => rw [e]
    exact vec_gradToCart h _

theorem foldl_range (n : ℕ) (f : ℕ → ℝ) :
    (List.range n).foldl (fun s a => s + f a) 0 = ∑ a ∈ Finset.range n, f a := by
  induction n with
  | zero => rfl
  | succ n ih => rw [List.range_succ, List.foldl_append, ih, Finset.sum_range_succ]; rfl

theorem symmetrize_eq (natom : ℕ) (cyc : Bool) (F : Forces) {a : ℕ} (ha : a < natom) (d : Fin 3) :
    symmetrize natom cyc F a d = F a d - if cyc = true ∧ d ≠ 2 then 0
      else (∑ b ∈ Finset.range natom, F b d) / natom := by
  unfold symmetrize
  dsimp only
  rw [if_pos ha]
  simp only [foldl_range]
  cases cyc with
  | false => simp
  | true => fin_cases d <;> simp

theorem egs_eq (h : Coord.transformMat L = some E.G)
    (hc : E.G.cellTyp = 0 ∧ unitMat L = 1 ∨ 10 < E.G.cellTyp) (N : NEnv) (w : Sw)
    (ps : List FDom) (Ps : List (Grp 𝕜)) :
    ∃ F : Forces, (∀ b c, F b c = raw L E N w ps Ps b c) ∧ egsForces E N w ps Ps
      = if w.relax = 1 ∨ w.md = 1 then fun a d => symmetrize N.natom w.cyc F a d * w.mv a d
        else symmetrize N.natom w.cyc F := by
  refine ⟨_, ?_, rfl⟩
  intro b c
  unfold raw
  cases w.d3 <;> cases w.hub <;> cases w.nlcc <;>
    simp only [Pi.add_apply, Pi.sub_apply, cart_eq h hc, Matrix.mulVec_add, if_true,
      Bool.false_eq_true, if_false, add_zero, sub_zero]

/-- C85.  The force on an atom: the Cartesian local, nonlocal and Hubbard forces, the force of the
core charge, minus the D3 gradient, from which the mean over the atoms is removed (for cyclix
systems along the axis only), times the constraint in molecular dynamics and relaxation. -/
theorem total_force (h : Coord.transformMat L = some E.G)
    (hc : E.G.cellTyp = 0 ∧ unitMat L = 1 ∨ 10 < E.G.cellTyp) (N : NEnv) (w : Sw)
    (ps : List FDom) (Ps : List (Grp 𝕜)) {a : ℕ} (ha : a < N.natom) (c : Fin 3) :
    egsForces E N w ps Ps a c = (raw L E N w ps Ps a c - (if w.cyc = true ∧ c ≠ 2 then 0 else
      (∑ b ∈ Finset.range N.natom, raw L E N w ps Ps b c) / N.natom))
      * (if w.relax = 1 ∨ w.md = 1 then w.mv a c else 1) := by
  obtain ⟨F, hF, e⟩ := egs_eq h hc N w ps Ps
  rw [e]
  by_cases hm : w.relax = 1 ∨ w.md = 1
  · rw [if_pos hm, if_pos hm, symmetrize_eq _ _ _ ha]
    simp only [hF]
  · rw [if_neg hm, if_neg hm, symmetrize_eq _ _ _ ha, mul_one]
    simp only [hF]

theorem egs_form (N : NEnv) (w : Sw) (ps : List FDom) (Ps : List (Grp 𝕜)) :
    ∃ F : Forces, egsForces E N w ps Ps
      = if w.relax = 1 ∨ w.md = 1 then fun a d => symmetrize N.natom w.cyc F a d * w.mv a d
        else symmetrize N.natom w.cyc F := ⟨_, rfl⟩

/-- C85.  No net force: outside molecular dynamics and relaxation with constraints, the forces
on the atoms add up to zero (for cyclix systems along the axis). -/
theorem no_net_force (N : NEnv) (w : Sw) (ps : List FDom) (Ps : List (Grp 𝕜)) (c : Fin 3)
    (hm : (w.relax ≠ 1 ∧ w.md ≠ 1) ∨ ∀ a < N.natom, w.mv a c = 1) (hcyc : w.cyc = true → c = 2) :
    ∑ a ∈ Finset.range N.natom, egsForces E N w ps Ps a c = 0 := by
  have s0 : ∀ F : Forces, ∑ a ∈ Finset.range N.natom, symmetrize N.natom w.cyc F a c = 0 := by
    intro F
    rw [Finset.sum_congr rfl fun a ha => symmetrize_eq N.natom w.cyc F (Finset.mem_range.1 ha) c]
    have hn : ¬ (w.cyc = true ∧ c ≠ 2) := fun hh => hh.2 (hcyc hh.1)
    simp only [if_neg hn]
    rw [Finset.sum_sub_distrib, Finset.sum_const, Finset.card_range, nsmul_eq_mul]
    by_cases h0 : (N.natom : ℝ) = 0
    · have : N.natom = 0 := by exact_mod_cast h0
      rw [this]; simp
    · rw [mul_div_cancel₀ _ h0, sub_self]
  obtain ⟨F, e⟩ := egs_form (E := E) N w ps Ps
  rw [e, ← s0 F]
  refine Finset.sum_congr rfl fun a ha => ?_
  split
  · rename_i hh
    rcases hm with hm | hm
    · exact absurd hh (by tauto)
    · beta_reduce
      rw [hm a (Finset.mem_range.1 ha), mul_one]
  · rfl

/-- C85.  Removing the net force does not change the difference of the forces on two atoms, and
a constrained component (`mv = 0`) is zero in molecular dynamics and relaxation. -/
theorem relative_force (h : Coord.transformMat L = some E.G)
    (hc : E.G.cellTyp = 0 ∧ unitMat L = 1 ∨ 10 < E.G.cellTyp) (N : NEnv) (w : Sw)
    (ps : List FDom) (Ps : List (Grp 𝕜)) {a b : ℕ} (ha : a < N.natom) (hb : b < N.natom)
    (c : Fin 3) :
    ((w.relax ≠ 1 ∧ w.md ≠ 1) →
      egsForces E N w ps Ps a c - egsForces E N w ps Ps b c
        = raw L E N w ps Ps a c - raw L E N w ps Ps b c)
    ∧ (w.relax = 1 ∨ w.md = 1 → w.mv a c = 0 → egsForces E N w ps Ps a c = 0) := by
  constructor
  · intro hm
    have hn : ¬ (w.relax = 1 ∨ w.md = 1) := by tauto
    rw [total_force h hc N w ps Ps ha, total_force h hc N w ps Ps hb, if_neg hn, if_neg hn]
    ring
  · intro hm h0
    rw [total_force h hc N w ps Ps ha, if_pos hm, h0, mul_zero]

/-- The assumptions on the cell are met by the oblique cell of `Coord`. -/
example : ∃ E : Env, Coord.transformMat Coord.exL = some E.G
    ∧ (E.G.cellTyp = 0 ∧ unitMat Coord.exL = 1 ∨ 10 < E.G.cellTyp) := by
  obtain ⟨G, hG, ht⟩ := Coord.exL_oblique
  exact ⟨⟨G, (1, 1, 1), 1, 6, fun _ => 0, fun _ => 0, fun _ => 0, 0⟩, hG, Or.inr ht⟩

/-- C85.  With constraints the forces need not add up to zero: the net force is removed before
the constraint is applied. -/
theorem constrained_net : ∃ (N : NEnv) (w : Sw), N.natom = 2 ∧ w.relax = 1 ∧
    (∀ a c, w.mv a c = 0 ∨ w.mv a c = 1) ∧
    ∀ (E : Env) (Ps : List (Grp ℝ)), Ps = [] → E.G.cellTyp = 0 →
      ∑ a ∈ Finset.range 2, egsForces E N w [] Ps a 0 ≠ 0 := by
  refine ⟨mkEnv [⟨0, 0, fun _ => 0, fun _ => 0, fun _ => 0, fun _ => 0, 2⟩] (1, 1, 1) 1 1,
    ⟨some fun a _ => a, false, none, false, false, 1, 0, fun a _ => if a = 0 then 0 else 1⟩,
    rfl, rfl, ?_, ?_⟩
  · intro a c
    dsimp only
    split
    · exact Or.inl rfl
    · exact Or.inr rfl
  · intro E Ps hP hG
    subst hP
    have hn : ¬ (10 < E.G.cellTyp ∧ E.G.cellTyp < 20) := by omega
    simp only [egsForces, cart, if_neg hn, localForces, nonlocalForces, List.map_nil, List.sum_nil,
      Finset.sum_range_succ, Finset.sum_range_zero]
    norm_num [symmetrize, mkEnv, List.range_succ]

end Sparc.Force

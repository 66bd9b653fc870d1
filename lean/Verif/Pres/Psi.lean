import Verif.Pres.Phi

/-! # Stress and pressure: nonlocal and kinetic terms -/

namespace Sparc.Pres

open Loop Matrix

variable {𝕜 : Type} [RCLike 𝕜]

/-! ### The walk over the stored integrals commutes with linear maps -/

section Walk

variable {M M' : Type} [AddCommGroup M] [Module ℝ M] [AddCommGroup M'] [Module ℝ M']

theorem foldl_nat (φ : M →ₗ[ℝ] M') {α : Type} (g₁ : ℕ × M → α → ℕ × M)
    (g₂ : ℕ × M' → α → ℕ × M')
    (hg : ∀ st x, g₂ (st.1, φ st.2) x = ((g₁ st x).1, φ (g₁ st x).2)) (l : List α)
    (st : ℕ × M) :
    l.foldl g₂ (st.1, φ st.2) = ((l.foldl g₁ st).1, φ (l.foldl g₁ st).2) := by
  induction l generalizing st with
  | nil => rfl
  | cons x l ih => rw [List.foldl_cons, List.foldl_cons, hg, ih]

theorem mLoop_map (φ : M →ₗ[ℝ] M') (o : Opt) (T : Typ) (s ld np l : ℕ) (f : ℕ → M)
    (st : ℕ × M) :
    mLoop o T s ld np l (fun c => φ (f c)) (st.1, φ st.2)
      = ((mLoop o T s ld np l f st).1, φ (mLoop o T s ld np l f st).2) := by
  unfold mLoop
  refine foldl_nat φ _ _ (fun st i => ?_) _ st
  dsimp only
  split
  · rfl
  · rw [map_add, map_smul]

theorem lLoop_map (φ : M →ₗ[ℝ] M') (o : Opt) (T : Typ) (s : ℕ) (f : ℕ → M) (c : ℕ) :
    lLoop o T s (fun c => φ (f c)) c = ((lLoop o T s f c).1, φ (lLoop o T s f c).2) := by
  unfold lLoop
  dsimp only
  have h := List.foldl_hom (fun st : ℕ × ℕ × M => (st.1, st.2.1, φ st.2.2))
    (g₁ := fun (st : ℕ × ℕ × M) (l : ℕ) =>
      if (l : ℤ) = T.lloc then (st.1, st.2.1 + pplOf o T l, st.2.2)
      else
        let r := (List.range (pplOf o T l)).foldl
          (fun (x : ℕ × M) np => mLoop o T s st.2.1 np l f x) (st.1, st.2.2)
        (r.1, st.2.1 + pplOf o T l, r.2))
    (g₂ := fun (st : ℕ × ℕ × M') (l : ℕ) =>
      if (l : ℤ) = T.lloc then (st.1, st.2.1 + pplOf o T l, st.2.2)
      else
        let r := (List.range (pplOf o T l)).foldl
          (fun (x : ℕ × M') np => mLoop o T s st.2.1 np l (fun c => φ (f c)) x) (st.1, st.2.2)
        (r.1, st.2.1 + pplOf o T l, r.2))
    (l := List.range' (if o = .SC then 0 else 1) (T.lmax + 1 - (if o = .SC then 0 else 1)))
    (init := (c, 0, 0)) (fun st l => by
      dsimp only
      split
      · rfl
      · have e := List.foldl_hom (fun st : ℕ × M => (st.1, φ st.2))
          (g₁ := fun (x : ℕ × M) np => mLoop o T s st.2.1 np l f x)
          (g₂ := fun (x : ℕ × M') np => mLoop o T s st.2.1 np l (fun c => φ (f c)) x)
          (l := List.range (pplOf o T l)) (init := (st.1, st.2.2))
          (fun x np => mLoop_map φ o T s st.2.1 np l f x)
        dsimp only at e
        rw [e])
  rw [map_zero] at h
  rw [h]

theorem bandLoop_map (φ : M →ₗ[ℝ] M') (E : Env) (P : Grp 𝕜) (o : Opt) (T : Typ) (k s : ℕ)
    (f : ℕ → M) (c : ℕ) :
    bandLoop E P o T k s (fun c => φ (f c)) c
      = ((bandLoop E P o T k s f c).1, φ (bandLoop E P o T k s f c).2) := by
  unfold bandLoop
  have e : ((c, 0) : ℕ × M') = (((c, 0) : ℕ × M).1, φ ((c, 0) : ℕ × M).2) := by simp
  rw [e]
  refine foldl_nat φ _ _ (fun st n => ?_) _ _
  dsimp only
  rw [lLoop_map, map_add, map_smul]

theorem atomLoop_map (φ : M →ₗ[ℝ] M') (E : Env) (N : NEnv) (P : Grp 𝕜) (o : Opt) (sc : ℝ)
    (k s : ℕ) (f : ℕ → M) (st : ℕ × M) :
    atomLoop E N P o sc k s (fun c => φ (f c)) (st.1, φ st.2)
      = ((atomLoop E N P o sc k s f st).1, φ (atomLoop E N P o sc k s f st).2) := by
  unfold atomLoop
  refine foldl_nat φ _ _ (fun st T => ?_) _ st
  refine foldl_nat φ _ _ (fun st _ => ?_) _ st
  dsimp only
  rw [bandLoop_map, map_add, map_smul]

theorem walk_map (φ : M →ₗ[ℝ] M') (E : Env) (N : NEnv) (P : Grp 𝕜) (o : Opt) (sc : ℝ)
    (f : ℕ → M) : walk E N P o sc (fun c => φ (f c)) = φ (walk E N P o sc f) := by
  unfold walk
  have e : ((0, 0) : ℕ × M') = (((0, 0) : ℕ × M).1, φ ((0, 0) : ℕ × M).2) := by simp
  rw [e, foldl_nat φ _ _ (fun st k => ?_) _ _]
  refine foldl_nat φ _ _ (fun st s => ?_) _ st
  exact atomLoop_map φ E N P o sc k s f st

/-- The factor of the weights comes out. -/
theorem walk_scale (E : Env) (N : NEnv) (P : Grp 𝕜) (o : Opt) (sc : ℝ) (f : ℕ → M) :
    walk E N P o sc f = sc • walk E N P o 1 f := by
  have ha : ∀ k s (st : ℕ × M), atomLoop E N P o sc k s f (st.1, sc • st.2)
      = ((atomLoop E N P o 1 k s f st).1, sc • (atomLoop E N P o 1 k s f st).2) := by
    intro k s st
    unfold atomLoop
    refine foldl_nat (LinearMap.lsmul ℝ M sc) _ _ (fun st T => ?_) _ st
    refine foldl_nat (LinearMap.lsmul ℝ M sc) _ _ (fun st _ => ?_) _ st
    simp only [LinearMap.lsmul_apply, smul_add, smul_smul, one_mul]
  have hw := foldl_nat (LinearMap.lsmul ℝ M sc)
    (fun st k => (List.range P.nsp).foldl (fun st s => atomLoop E N P o 1 k s f st) st)
    (fun st k => (List.range P.nsp).foldl (fun st s => atomLoop E N P o sc k s f st) st)
    (fun st k => foldl_nat (LinearMap.lsmul ℝ M sc) _ _ (fun st s => ha k s st) _ st)
    (List.range P.Nk) (0, 0)
  simp only [LinearMap.lsmul_apply, smul_zero] at hw
  unfold walk
  rw [hw]

end Walk

/-! ### The integrals are linear in what is integrated -/

/-- The closed form of the loops filling an array of integrals. -/
noncomputable def integralSum (N : NEnv) (P : Grp 𝕜) (o : Opt) (D : PDom 𝕜)
    (v : ℕ → NImg 𝕜 → ℕ → ℕ → ℕ → 𝕜) : ℕ → 𝕜 :=
  ((List.range P.Nk).map fun k => (D.imgs.zipIdx.map fun li =>
    (li.1.map fun I => ((List.range P.nsp).map fun s => ((List.range P.ncol).map fun n =>
      ((List.range (N.nproj o li.2)).map fun p =>
        (Pi.single (N.ip o N.natom * P.ncol * P.nsp * k
          + (N.ip o N.natom * P.ncol * s + N.ip o I.atom * P.ncol)
          + (n * N.nproj o li.2 + p)) (v k I s n p) : ℕ → 𝕜)).sum).sum).sum).sum).sum).sum

theorem addAt_eq (m : ℕ → 𝕜) (q : ℕ) (v : 𝕜) : addAt m q v = m + Pi.single q v := by
  funext x
  unfold addAt
  by_cases e : x = q
  · subst e; simp
  · simp [e]

theorem integral_eq (N : NEnv) (P : Grp 𝕜) (o : Opt) (D : PDom 𝕜)
    (v : ℕ → NImg 𝕜 → ℕ → ℕ → ℕ → 𝕜) : integral N P o D v = integralSum N P o D v := by
  unfold integral integralSum
  rw [show (fun _ => 0 : ℕ → 𝕜) = 0 from rfl, ← zero_add (List.sum _)]
  refine foldl_adds _ _ _ _ fun k _ m => ?_
  refine foldl_adds _ _ _ _ fun li _ m => ?_
  split
  · rename_i e
    rw [e]
    simp
  · refine foldl_adds _ _ _ _ fun I _ m => ?_
    refine foldl_adds _ _ _ _ fun s _ m => ?_
    refine foldl_adds _ _ _ _ fun n _ m => ?_
    refine foldl_adds _ _ _ _ fun p _ m => ?_
    exact addAt_eq _ _ _

theorem integral_add (N : NEnv) (P : Grp 𝕜) (o : Opt) (D : PDom 𝕜)
    (v w : ℕ → NImg 𝕜 → ℕ → ℕ → ℕ → 𝕜) :
    integral N P o D (fun k I s n p => v k I s n p + w k I s n p)
      = integral N P o D v + integral N P o D w := by
  simp only [integral_eq, integralSum, Pi.single_add, List.sum_map_add]

/-! ### Derivative along and displacement along -/

variable {L : ℕ → ℝ} {E : Env}

theorem U_id (h : Coord.transformMat L = some E.G) (h1 : unitMat L = 1) (i k : Fin 3) :
    E.G.U (3 * i.val + k.val) = if i = k then 1 else 0 := by
  rw [U_eq h, h1, Matrix.one_apply]

theorem contract (h : Coord.transformMat L = some E.G) (h0 : E.G.cellTyp = 0 → unitMat L = 1)
    (D : PDom 𝕜) (q : ℕ) (x : ℝ × ℝ × ℝ) :
    dpsiFull E D 0 q * ((E.G.U 0 * x.1 + E.G.U 3 * x.2.1 + E.G.U 6 * x.2.2 : ℝ) : 𝕜)
      + dpsiFull E D 1 q * ((E.G.U 1 * x.1 + E.G.U 4 * x.2.1 + E.G.U 7 * x.2.2 : ℝ) : 𝕜)
      + dpsiFull E D 2 q * ((E.G.U 2 * x.1 + E.G.U 5 * x.2.1 + E.G.U 8 * x.2.2 : ℝ) : 𝕜)
      = D.D 0 q * (x.1 : 𝕜) + D.D 1 q * (x.2.1 : 𝕜) + D.D 2 q * (x.2.2 : 𝕜) := by
  by_cases hc : E.G.cellTyp = 0
  · have u := U_id h (h0 hc)
    have u00 := u 0 0; have u01 := u 0 1; have u02 := u 0 2
    have u10 := u 1 0; have u11 := u 1 1; have u12 := u 1 2
    have u20 := u 2 0; have u21 := u 2 1; have u22 := u 2 2
    simp at u00 u01 u02 u10 u11 u12 u20 u21 u22
    simp [dpsiFull, hc, u00, u01, u02, u10, u11, u12, u20, u21, u22]
  · obtain ⟨g1, g2, g3, g4, g5, g6, g7, g8, g9⟩ := Coord.grad_inv h
    simp only [dpsiFull, hc, if_false]
    have c : ∀ {a b : ℝ}, a = b → (a : 𝕜) = (b : 𝕜) := fun e => by rw [e]
    have k1 := c g1; have k2 := c g2; have k3 := c g3
    have k4 := c g4; have k5 := c g5; have k6 := c g6
    have k7 := c g7; have k8 := c g8; have k9 := c g9
    push_cast at k1 k2 k3 k4 k5 k6 k7 k8 k9 ⊢
    simp only [Fin.val_zero, Fin.val_one, Fin.val_two, Nat.zero_add, Nat.reduceAdd]
    linear_combination (D.D 0 q * (x.1 : 𝕜)) * k1 + (D.D 0 q * (x.2.1 : 𝕜)) * k2
      + (D.D 0 q * (x.2.2 : 𝕜)) * k3 + (D.D 1 q * (x.1 : 𝕜)) * k4 + (D.D 1 q * (x.2.1 : 𝕜)) * k5
      + (D.D 1 q * (x.2.2 : 𝕜)) * k6 + (D.D 2 q * (x.1 : 𝕜)) * k7 + (D.D 2 q * (x.2.1 : 𝕜)) * k8
      + (D.D 2 q * (x.2.2 : 𝕜)) * k9

theorem chiX_add (N : NEnv) (P : Grp 𝕜) (o : Opt) (D : PDom 𝕜) (d : Fin 3 → ℕ → 𝕜)
    (X : Fin 3 → NImg 𝕜 → ℕ → ℝ) (e : Fin 3 → ℕ → 𝕜) (Y : Fin 3 → NImg 𝕜 → ℕ → ℝ)
    (hXY : ∀ I q r, d 0 q * (X 0 I r : 𝕜) + d 1 q * (X 1 I r : 𝕜) + d 2 q * (X 2 I r : 𝕜)
      = e 0 q * (Y 0 I r : 𝕜) + e 1 q * (Y 1 I r : 𝕜) + e 2 q * (Y 2 I r : 𝕜)) :
    chiX N P o D (d 0) (X 0) + chiX N P o D (d 1) (X 1) + chiX N P o D (d 2) (X 2)
      = chiX N P o D (e 0) (Y 0) + chiX N P o D (e 1) (Y 1) + chiX N P o D (e 2) (Y 2) := by
  unfold chiX
  rw [← integral_add, ← integral_add, ← integral_add, ← integral_add]
  congr 1
  funext k I s n p
  dsimp only
  rw [← mul_add, ← mul_add, ← mul_add, ← mul_add, ← List.sum_map_add, ← List.sum_map_add,
    ← List.sum_map_add, ← List.sum_map_add]
  congr 2
  refine List.map_congr_left fun i _ => ?_
  rw [← mul_add, ← mul_add, ← mul_add, ← mul_add, hXY]

theorem beta_trace (h : Coord.transformMat L = some E.G) (h0 : E.G.cellTyp = 0 → unitMat L = 1)
    (N : NEnv) (P : Grp 𝕜) (o : Opt) (D : PDom 𝕜) :
    betaS E N P o D 0 0 + betaS E N P o D 1 1 + betaS E N P o D 2 2
      = betaP E N P o D 0 + betaP E N P o D 1 + betaP E N P o D 2 := by
  unfold betaS betaP
  refine chiX_add N P o D (fun c => dpsiFull E D c) (fun c' I indx =>
    E.G.U c'.val * (ndisp E D I.R indx).1 + E.G.U (3 + c'.val) * (ndisp E D I.R indx).2.1
      + E.G.U (6 + c'.val) * (ndisp E D I.R indx).2.2) D.D
    (fun d I indx => comp d (ndisp E D I.R indx)) fun I q r => ?_
  exact contract h h0 D q (ndisp E D I.R r)

theorem reMul_add (a b c : 𝕜) : reMul a (b + c) = reMul a b + reMul a c := by
  unfold reMul
  rw [map_add, map_add]
  ring

/-- The trace as a linear map. -/
def trL : Ten →ₗ[ℝ] ℝ where
  toFun s := s 0 + s 3 + s 5
  map_add' a b := by simp only [Pi.add_apply]; ring
  map_smul' a b := by simp only [Pi.smul_apply, smul_eq_mul, RingHom.id_apply]; ring

theorem trL_apply (s : Ten) : trL s = tr s := rfl

theorem nl_trace (E : Env) (N : NEnv) (P : Grp 𝕜) (o : Opt) (al : ℕ → 𝕜) (be : Fin 3 → ℕ → 𝕜)
    (bs : Fin 3 → Fin 3 → ℕ → 𝕜) (hb : bs 0 0 + bs 1 1 + bs 2 2 = be 0 + be 1 + be 2) :
    nlP E N P o al be = 2 * tr (nlS E N P o al bs) := by
  unfold nlP nlS
  rw [← trL_apply, ← walk_map trL, walk_scale E N P o (-2), walk_scale E N P o (-1)]
  have : (fun c => reMul (al c) (be 0 c) + reMul (al c) (be 1 c) + reMul (al c) (be 2 c))
      = fun c => trL ![reMul (al c) (bs 0 0 c), reMul (al c) (bs 0 1 c),
    reMul (al c) (bs 0 2 c), reMul (al c) (bs 1 1 c), reMul (al c) (bs 1 2 c),
    reMul (al c) (bs 2 2 c)] := by
    funext c
    have hc := congrFun hb c
    simp only [Pi.add_apply] at hc
    change _ = reMul (al c) (bs 0 0 c) + reMul (al c) (bs 1 1 c) + reMul (al c) (bs 2 2 c)
    rw [← reMul_add, ← reMul_add, ← reMul_add, ← reMul_add, hc]
  rw [this]
  simp only [smul_eq_mul]
  ring

theorem sum3 {α : Type} (l : List α) (f g h : α → ℕ → 𝕜) :
    (l.map f).sum + (l.map g).sum + (l.map h).sum = (l.map fun x => f x + g x + h x).sum := by
  rw [List.sum_map_add, List.sum_map_add]

theorem nonlocal_trace (h : Coord.transformMat L = some E.G)
    (h0 : E.G.cellTyp = 0 → unitMat L = 1) (N : NEnv) {V : ℝ} (hV : V ≠ 0) (soc : Bool)
    (Ps : List (Grp 𝕜)) :
    nonlocalPressure E N soc Ps = V * tr (nonlocalStress E N V soc Ps)
      + 2 * (Ps.map (energyNl E N soc)).sum := by
  unfold nonlocalPressure nonlocalStress
  dsimp only
  have hd : ∀ s : Ten, V * tr (fun i => s i / V) = tr s := by
    intro s
    simp only [tr_apply]
    field_simp
  rw [hd, map_sum_list, ← List.sum_map_mul_left, ← List.sum_map_add]
  congr 1
  refine List.map_congr_left fun P _ => ?_
  have ho : ∀ o, nlP E N P o ((P.doms.map (alpha E N P o)).sum)
      (fun d => (P.doms.map fun D => betaP E N P o D d).sum)
      = 2 * tr (nlS E N P o ((P.doms.map (alpha E N P o)).sum)
        (fun c c' => (P.doms.map fun D => betaS E N P o D c c').sum)) := by
    intro o
    refine nl_trace E N P o _ _ _ ?_
    rw [sum3, sum3]
    congr 1
    exact List.map_congr_left fun D _ => beta_trace h h0 N P o D
  simp only [ho]
  have he : ∀ (s : Ten) (e : ℝ), tr (![s 0 - e, s 1, s 2, s 3 - e, s 4, s 5 - e] : Ten)
      = tr s - 3 * e := by
    intro s e
    change s 0 - e + (s 3 - e) + (s 5 - e) = s 0 + s 3 + s 5 - 3 * e
    ring
  rw [he, ← trL_apply, map_smul, trL_apply, map_sum_list, List.sum_map_mul_left, smul_eq_mul]
  ring

/-! ### Kinetic energy -/

/-- The Cartesian gradient of the orbitals at a place: the inverse of the matrix of unit lattice
vectors applied to the derivatives along them. -/
noncomputable def psiGrad (L : ℕ → ℝ) (D : PDom 𝕜) (q : ℕ) : Fin 3 → 𝕜 := fun c =>
  ∑ d, (((unitMat L)⁻¹ c d : ℝ) : 𝕜) * D.D d q

theorem inv_eq (h : Coord.transformMat L = some E.G) (c d : Fin 3) :
    (unitMat L)⁻¹ c d = E.G.grad (c.val + 3 * d.val) := by
  have e := vec_gradToCart h (if d = 0 then 1 else 0, if d = 1 then 1 else 0, if d = 2 then 1 else 0)
  have e' := congrFun e c
  unfold cgrad at e'
  fin_cases d <;> fin_cases c <;>
    simp [vec, Coord.gradToCart, Matrix.mulVec, dotProduct, Fin.sum_univ_three] at e' ⊢ <;>
    exact e'.symm

theorem dpsiFull_eq (h : Coord.transformMat L = some E.G)
    (h0 : E.G.cellTyp = 0 → unitMat L = 1) (D : PDom 𝕜) (c : Fin 3) (q : ℕ) :
    dpsiFull E D c q = psiGrad L D q c := by
  unfold dpsiFull psiGrad
  split
  · rename_i hc
    rw [h0 hc, inv_one]
    simp [Matrix.one_apply]
  · simp only [inv_eq h, Fin.sum_univ_three]
    rfl

/-- The place of a value of an orbital: k-point, band, spinor component, node. -/
def orb (P : Grp 𝕜) (D : PDom 𝕜) (k n s i : ℕ) : ℕ :=
  k * (D.nd * P.nsp * P.ncol) + n * (D.nd * P.nsp) + s * D.nd + i

/-- The occupation used for a band of a k-point and spinor component. -/
def occOf (E : Env) (P : Grp 𝕜) (k n s : ℕ) : ℝ :=
  P.occ (k * P.Ns + (if E.spin = 1 then s * P.Nk * P.Ns else 0) + (n + P.b0))

/-- Sum over k-points (weighted), bands and spinor components (with the occupation), and nodes. -/
noncomputable def bandSum (E : Env) (N : NEnv) (P : Grp 𝕜) (D : PDom 𝕜) (f : ℕ → ℝ) : ℝ :=
  N.occfac * ((List.range P.Nk).map fun k => P.wt k / N.Nkpts * ((List.range P.ncol).map fun n =>
    ((List.range P.nsp).map fun s => occOf E P k n s * ((List.range D.nd).map fun i =>
      f (orb P D k n s i)).sum).sum).sum).sum

theorem sum_map_neg {α : Type} (l : List α) (f : α → ℝ) :
    (l.map fun x => -f x).sum = -(l.map f).sum := by
  induction l with
  | nil => simp
  | cons x l ih => simp only [List.map_cons, List.sum_cons, ih]; ring

theorem kinPair_eq (h : Coord.transformMat L = some E.G) (h0 : E.G.cellTyp = 0 → unitMat L = 1)
    (N : NEnv) (P : Grp 𝕜) (D : PDom 𝕜) (c c' : Fin 3) :
    kinPair E N P D c c' = -bandSum E N P D fun q =>
      RCLike.re ((starRingEnd 𝕜) (psiGrad L D q c) * psiGrad L D q c') := by
  unfold kinPair bandSum
  rw [foldl_adds _ (fun k => -(N.occfac * (P.wt k / N.Nkpts * ((List.range P.ncol).map fun n =>
    ((List.range P.nsp).map fun s => occOf E P k n s * ((List.range D.nd).map fun i =>
      RCLike.re ((starRingEnd 𝕜) (psiGrad L D (orb P D k n s i) c)
        * psiGrad L D (orb P D k n s i) c')).sum).sum).sum))) _ _ ?_, zero_add, ← List.sum_map_mul_left,
    sum_map_neg]
  intro k _ acc
  dsimp only
  rw [foldl_adds _ (fun n => ((List.range P.nsp).map fun s => occOf E P k n s
    * ((List.range D.nd).map fun i => RCLike.re ((starRingEnd 𝕜) (psiGrad L D (orb P D k n s i) c)
        * psiGrad L D (orb P D k n s i) c')).sum).sum) _ _ ?_, zero_add]
  · ring
  intro n _ tk
  refine foldl_adds _ _ _ _ fun s _ tk => ?_
  rw [foldl_add, zero_add, mul_comm]
  congr 2
  refine congrArg _ (List.map_congr_left fun i _ => ?_)
  rw [dpsiFull_eq h h0, dpsiFull_eq h h0]
  simp [orb, RCLike.mul_re]

end Sparc.Pres

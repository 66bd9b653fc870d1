import Verif.Hub.Op

/-! # DFT+U: sizes, occupation matrices and energies -/

namespace Sparc.Hub

open Pres Loop

variable {𝕜 : Type} [RCLike 𝕜]

/-- The angular momentum of every projector of a type, in order. -/
noncomputable def orbs (T : UTyp) : List ℕ :=
  (List.range (T.lmax + 1)).flatMap fun l =>
    if T.U l = 0 then [] else List.replicate (T.ppl l * (2 * l + 1)) l

/-- The U of projector `r`. -/
noncomputable def uOf (T : UTyp) (r : ℕ) : ℝ := T.U ((orbs T).getD r 0)

/-- A type whose channels have no U or a U above the tolerance, with one radial function. -/
def Good (T : UTyp) : Prop := ∀ l ≤ T.lmax, T.U l = 0 ∨ (1e-12 ≤ T.U l ∧ T.ppl l = 1)

theorem nproj_eq (T : UTyp) : nproj T = (orbs T).length := by
  unfold nproj orbs
  rw [List.length_flatMap, foldl_adds (M := ℕ) _ (fun l => if T.U l = 0 then 0
    else T.ppl l * (2 * l + 1)) _ _ ?_, Nat.zero_add]
  · refine congrArg _ (List.map_congr_left fun l _ => ?_)
    split <;> simp
  · intro l _ n
    split <;> simp

theorem angnum_eq (T : UTyp) (h : Good T) : angnum T = nproj T := by
  unfold angnum nproj
  refine List.foldl_ext _ _ _ fun n l hl => ?_
  rcases h l (by have := List.mem_range.1 hl; omega) with h0 | ⟨h1, h2⟩
  · rw [if_pos (by rw [h0]; norm_num), if_pos h0]
  · rw [if_neg (not_lt.2 h1), if_neg (by intro e; rw [e] at h1; norm_num at h1), h2, Nat.one_mul]

theorem push_replicate {α : Type} (k : ℕ) (x : α) (v : List α) :
    (List.range k).foldl (fun (v : List α) _ => v ++ [x]) v = v ++ List.replicate k x := by
  induction k with
  | zero => simp
  | succ k ih =>
    rw [List.range_succ, List.foldl_append, ih, List.replicate_succ', List.foldl_cons,
      List.foldl_nil, List.append_assoc]

theorem foldl_append_flatMap {α β : Type} (l : List α) (f : List β → α → List β) (g : α → List β)
    (h : ∀ v, ∀ a ∈ l, f v a = v ++ g a) (v : List β) : l.foldl f v = v ++ l.flatMap g := by
  induction l generalizing v with
  | nil => simp
  | cons a l ih =>
    rw [List.foldl_cons, h v a (by simp), ih fun v b hb => h v b (by simp [hb]), List.flatMap_cons,
      List.append_assoc]

theorem uval_eq (T : UTyp) (h : Good T) : uval T = (orbs T).map T.U := by
  unfold uval orbs
  rw [foldl_append_flatMap _ _ (fun l => if T.U l = 0 then []
    else List.replicate (2 * l + 1) (T.U l)) ?_, List.nil_append, List.map_flatMap]
  · have : ∀ l ∈ List.range (T.lmax + 1), (if T.U l = 0 then []
        else List.replicate (2 * l + 1) (T.U l)) = List.map T.U (if T.U l = 0 then []
          else List.replicate (T.ppl l * (2 * l + 1)) l) := by
      intro l hl
      rcases h l (by have := List.mem_range.1 hl; omega) with h0 | ⟨h1, h2⟩
      · rw [if_pos h0, if_pos h0]; rfl
      · have : ¬ T.U l = 0 := by intro e; rw [e] at h1; norm_num at h1
        rw [if_neg this, if_neg this, h2, Nat.one_mul, List.map_replicate]
    simp only [List.flatMap]
    rw [List.map_congr_left this]
  · intro v l hl
    rcases h l (by have := List.mem_range.1 hl; omega) with h0 | ⟨h1, h2⟩
    · rw [if_pos (by rw [h0]; norm_num), if_pos h0, List.append_nil]
    · rw [if_neg (not_lt.2 h1), if_neg (by intro e; rw [e] at h1; norm_num at h1), push_replicate]

/-- The factor of the potential: `U_r (δ_rc / 2 - ρ_rc)`. -/
noncomputable def vU (T : UTyp) (rho : ℕ → ℝ) (r c : ℕ) : ℝ :=
  uOf T r * ((if r = c then 1 / 2 else 0) - rho (nproj T * c + r))

theorem uval_at (T : UTyp) (h : Good T) {r : ℕ} (hr : r < nproj T) : (uval T).getD r 0 = uOf T r := by
  rw [nproj_eq] at hr
  unfold uOf
  rw [uval_eq T h]
  simp [List.getD_eq_getElem?_getD, hr]

theorem pre_eq (T : UTyp) (h : Good T) (rho : ℕ → ℝ) {r c : ℕ} (hr : r < nproj T) :
    pre T rho (nproj T) r c = vU T rho r c := by
  unfold pre vU
  rw [uval_at T h hr]
  dsimp only
  by_cases e : r = c
  · rw [if_pos e, if_pos e]; norm_num; ring
  · rw [if_neg e, if_neg e]; ring

variable {Ts : List UTyp} {Lc : ℝ × ℝ × ℝ}

theorem upto_succ (sz : UTyp → ℕ) {a : ℕ} {T : UTyp} (h : (uatoms Ts)[a]? = some T)
    (hf : T.flag = true) : upto sz Ts (a + 1) = upto sz Ts a + sz T := by
  unfold upto
  rw [List.take_add_one, h]
  simp [hf]

theorem upto_mono (sz : UTyp → ℕ) {a b : ℕ} (h : a ≤ b) : upto sz Ts a ≤ upto sz Ts b := by
  unfold upto
  obtain ⟨c, rfl⟩ := Nat.exists_eq_add_of_le h
  rw [List.take_add, List.map_append, List.sum_append]
  exact Nat.le_add_right _ _

/-- Blocks of different atoms with U do not meet. -/
theorem block_inj (sz : UTyp → ℕ) {a b : ℕ} {T T' : UTyp} {x y : ℕ}
    (h : (uatoms Ts)[a]? = some T) (hf : T.flag = true) (h' : (uatoms Ts)[b]? = some T')
    (hf' : T'.flag = true) (hx : x < sz T) (hy : y < sz T')
    (e : upto sz Ts a + x = upto sz Ts b + y) : a = b ∧ x = y := by
  rcases lt_trichotomy a b with hlt | rfl | hlt
  · have := upto_mono (Ts := Ts) sz (Nat.succ_le_of_lt hlt)
    rw [Nat.succ_eq_add_one, upto_succ sz h hf] at this
    omega
  · exact ⟨rfl, by omega⟩
  · have := upto_mono (Ts := Ts) sz (Nat.succ_le_of_lt hlt)
    rw [Nat.succ_eq_add_one, upto_succ sz h' hf'] at this
    omega

theorem sq_lt {np c r : ℕ} (hc : c < np) (hr : r < np) : c * np + r < np * np := by
  have := Nat.mul_le_mul_right np (Nat.succ_le_of_lt hc)
  rw [Nat.succ_mul] at this
  omega

theorem sq_inj {np c r c' r' : ℕ} (hr : r < np) (hr' : r' < np)
    (e : c * np + r = c' * np + r') : c = c' ∧ r = r' := by
  have h1 := congrArg (· / np) e
  have h2 := congrArg (· % np) e
  have hp : 0 < np := by omega
  simp only [Nat.mul_comm c np, Nat.mul_comm c' np, Nat.mul_add_div hp, Nat.mul_add_mod,
    Nat.div_eq_of_lt hr, Nat.div_eq_of_lt hr', Nat.mod_eq_of_lt hr, Nat.mod_eq_of_lt hr'] at h1 h2
  exact ⟨by omega, h2⟩

theorem uSum_single {M : Type} [AddCommMonoid M] {a : ℕ} {T : UTyp}
    (h : (uatoms Ts)[a]? = some T) (hf : T.flag = true) (F : UTyp → ℕ → M)
    (h0 : ∀ b T', (uatoms Ts)[b]? = some T' → T'.flag = true → b ≠ a → F T' b = 0) :
    uSum Ts F = F T a := by
  have := Soc.zip_one (uatoms Ts) 0 a T h (fun y => F y.1 y.2)
  simp only [Nat.zero_add] at this
  rw [← this]
  unfold uSum
  refine congrArg _ (List.map_congr_left fun Ta hTa => ?_)
  have hm : (uatoms Ts)[Ta.2]? = some Ta.1 := mem_zip hTa
  by_cases e : a = Ta.2
  · rw [if_pos e]
    rw [← e, h] at hm
    rw [← Option.some.inj hm, if_pos hf]
  · rw [if_neg e]
    split
    · rename_i hf'
      exact h0 _ _ hm hf' (Ne.symm e)
    · rfl

/-- The value the code adds to an entry of `rho_mn`. -/
noncomputable def rhoVal (E : Env) (Ts : List UTyp) (L : ℝ × ℝ × ℝ) (Nkpts : ℕ) (P : Grp 𝕜)
    (k s : ℕ) (T : UTyp) (a c r : ℕ) : 𝕜 :=
  ((List.range P.ncol).map fun n =>
            alphaOcc E Ts L P k s ((ipU Ts a).toNat * P.ncol + (n * nproj T + r))
              * ((gOcc E Nkpts P k s n : ℝ) : 𝕜)
            * (starRingEnd 𝕜) (alphaOcc E Ts L P k s
              ((ipU Ts a).toNat * P.ncol + (n * nproj T + c)))).sum

theorem rhoStep_sum (E : Env) (Nkpts : ℕ) (P : Grp 𝕜) (k s : ℕ) (m : ℕ → 𝕜) (q : ℕ) :
    rhoStep E Ts Lc Nkpts P k s m q = m q + uSum Ts fun T a =>
      ((List.range (nproj T)).map fun c => ((List.range (nproj T)).map fun r =>
        if (rhoDispl Ts a).toNat + (c * nproj T + r) = q then rhoVal E Ts Lc Nkpts P k s T a c r
        else 0).sum).sum := by
  have h1 : rhoStep E Ts Lc Nkpts P k s m = ((uatoms Ts).zipIdx 0).foldl (fun m Ta =>
      if Ta.1.flag = false ∨ nproj Ta.1 = 0 then m else
        (List.range (nproj Ta.1)).foldl (fun m c => (List.range (nproj Ta.1)).foldl (fun m r =>
        addAt m ((rhoDispl Ts Ta.2).toNat + (c * nproj Ta.1 + r))
          (rhoVal E Ts Lc Nkpts P k s Ta.1 Ta.2 c r)) m) m) m := by
    have := congrArg Prod.snd (walk (fun T => T.flag = false ∨ nproj T = 0)
      (fun T a m => (List.range (nproj T)).foldl (fun m c => (List.range (nproj T)).foldl (fun m r =>
        addAt m ((rhoDispl Ts a).toNat + (c * nproj T + r))
          (rhoVal E Ts Lc Nkpts P k s T a c r)) m) m) Ts 0 m)
    dsimp only at this
    rw [← this]
    unfold rhoStep
    dsimp only
    congr 2
    funext st T
    by_cases h1 : T.flag = false
    · rw [if_pos h1, if_pos (Or.inl h1)]
    · by_cases h2 : nproj T = 0
      · rw [if_neg h1, if_pos h2, if_pos (Or.inr h2)]
      · rw [if_neg h1, if_neg h2, if_neg (by tauto)]
        rfl
  rw [h1]
  unfold uSum
  refine Soc.fold_add q _ _ _ (fun m Ta _ => ?_) m
  by_cases h0 : Ta.1.flag = true
  · rw [if_pos h0]
    by_cases hz : nproj Ta.1 = 0
    · rw [if_pos (Or.inr hz)]
      dsimp only
      rw [hz]; simp
    · rw [if_neg (by rw [h0]; simp; exact hz)]
      refine Soc.fold_add q _ _ _ (fun m c _ => ?_) m
      refine Soc.fold_add q _ _ _ (fun m r _ => ?_) m
      exact Soc.addAt_eq _ _ _ _
  · have : Ta.1.flag = false := by simpa using h0
    rw [if_pos (Or.inl this), if_neg h0, add_zero]

theorem rhoStep_at (hn : ∀ T ∈ Ts, 0 < T.n) (E : Env) (Nkpts : ℕ) (P : Grp 𝕜) (k s : ℕ)
    (m : ℕ → 𝕜) {a r c : ℕ} {T : UTyp} (ha : (uatoms Ts)[a]? = some T) (hf : T.flag = true)
    (hr : r < nproj T) (hc : c < nproj T) :
    rhoStep E Ts Lc Nkpts P k s m ((rhoDispl Ts a).toNat + (c * nproj T + r))
      = m ((rhoDispl Ts a).toNat + (c * nproj T + r)) + rhoVal E Ts Lc Nkpts P k s T a c r := by
  have hd : ∀ a T, (uatoms Ts)[a]? = some T → T.flag = true →
      (rhoDispl Ts a).toNat = upto (fun T => nproj T * nproj T) Ts a := by
    intro a T h1 h2
    unfold rhoDispl
    rw [(displ_at _ Ts hn h1 h2).1]; rfl
  rw [rhoStep_sum]
  congr 1
  rw [uSum_single ha hf]
  · have : ((List.range (nproj T)).map fun c' => ((List.range (nproj T)).map fun r' =>
        if (rhoDispl Ts a).toNat + (c' * nproj T + r')
          = (rhoDispl Ts a).toNat + (c * nproj T + r) then rhoVal E Ts Lc Nkpts P k s T a c' r'
        else 0).sum).sum
        = ((List.range (nproj T)).map fun c' => if c' = c then ((List.range (nproj T)).map fun r' =>
          if r' = r then rhoVal E Ts Lc Nkpts P k s T a c' r' else 0).sum else 0).sum := by
      refine congrArg _ (List.map_congr_left fun c' _ => ?_)
      rw [← sum_ite_list]
      refine congrArg _ (List.map_congr_left fun r' hr' => ?_)
      by_cases e : c' = c
      · subst e
        rw [if_pos rfl]
        refine if_congr ⟨fun h => by omega, fun h => by rw [h]⟩ rfl rfl
      · rw [if_neg e, if_neg]
        intro h
        exact e (sq_inj (List.mem_range.1 hr') hr (by omega)).1
    rw [this, sum_range_one _ c hc, sum_range_one _ r hr]
  · intro b T' hb hf' hne
    refine List.sum_eq_zero fun v hv => ?_
    obtain ⟨c', hc', rfl⟩ := List.mem_map.1 hv
    refine List.sum_eq_zero fun v hv => ?_
    obtain ⟨r', hr', rfl⟩ := List.mem_map.1 hv
    rw [if_neg]
    intro e
    rw [hd a T ha hf, hd b T' hb hf'] at e
    exact hne (block_inj (fun T => nproj T * nproj T) hb hf' ha hf
      (sq_lt (List.mem_range.1 hc') (List.mem_range.1 hr')) (sq_lt hc hr) e).1

theorem rhoAll_at (hn : ∀ T ∈ Ts, 0 < T.n) (E : Env) (Nkpts : ℕ) (Ps : List (HGrp 𝕜)) (σ : ℕ)
    {a r c : ℕ} {T : UTyp} (ha : (uatoms Ts)[a]? = some T) (hf : T.flag = true)
    (hr : r < nproj T) (hc : c < nproj T) :
    rhoAll E Ts Lc Nkpts Ps σ ((rhoDispl Ts a).toNat + (c * nproj T + r))
      = (Ps.map fun P => ((List.range P.Nk).map fun k => ((List.range P.nsp).map fun s =>
          if P.sp s = σ then rhoVal E Ts Lc Nkpts P.toGrp k s T a c r else 0).sum).sum).sum := by
  unfold rhoAll
  rw [Pres.push]
  refine congrArg _ (List.map_congr_left fun P _ => ?_)
  unfold rhoGrp
  rw [Soc.fold_add ((rhoDispl Ts a).toNat + (c * nproj T + r)) _ _ _ (fun m k _ =>
    Soc.fold_add _ _ _ (fun s => if P.sp s = σ then rhoVal E Ts Lc Nkpts P.toGrp k s T a c r else 0)
      (fun m s _ => ?_) m), zero_add]
  by_cases h : P.sp s = σ
  · rw [if_pos h, if_pos h, rhoStep_at hn E Nkpts P.toGrp k s m ha hf hr hc]
  · rw [if_neg h, if_neg h, add_zero]

/-- The inner products with the orbitals divided by `√dV`. -/
theorem alphaOcc_at (hn : ∀ T ∈ Ts, 0 < T.n) (E : Env) (P : Grp 𝕜)
    (hP : ∀ D ∈ P.doms, Placed (Ts.map emb) D) (hR : ∀ D ∈ P.doms, Soc.RealChi D) (k s : ℕ)
    {a n j : ℕ} {T : UTyp} (ha : (uatoms Ts)[a]? = some T) (hf : T.flag = true)
    (hnc : n < P.ncol) (hj : j < nproj T) :
    alphaOcc E Ts Lc P k s ((ipU Ts a).toNat * P.ncol + (n * nproj T + j))
      = proj E Lc P .SC k s a n j / ((Real.sqrt E.dV : ℝ) : 𝕜) := by
  obtain ⟨t, ht⟩ := atom_ex Ts ha
  have hl : (chan .SC (emb T)).length = nproj T := by rw [chan_emb, cnt_of T hf]
  have hpl : (ipU Ts a).toNat * P.ncol + (n * nproj T + j)
      = Soc.place (Ts.map emb) .SC P.ncol a (chan .SC (emb T)).length n j := by
    unfold Soc.place; rw [env_ip hn ha hf, hl]; ring
  unfold alphaOcc proj
  rw [Pres.push, hpl, div_eq_mul_inv, ← List.sum_map_mul_right]
  refine congrArg _ (List.map_congr_left fun D hD => ?_)
  rw [gather_env hn _ _ _ _ _ _ D (hP D hD), Soc.gather_at (Ts.map emb) Lc 1 1 E.dV (P.k k) P.ncol
    (D.nd * P.nsp) _ .SC 0 D (hP D hD) _ ht hnc (by rw [hl]; exact hj),
    mul_comm (ofAtom D a _), ← Soc.ofAtom_mul]
  refine Soc.ofAtom_congr D a _ _ fun l hl I hI => ?_
  rw [bloch_eq]
  have : ∀ (x y : 𝕜) (f g : ℕ → 𝕜), (∀ i, f i = y * g i) →
      phase Lc (P.k k) I.R * x * ((List.range I.ndc).map f).sum
        = y * (phase Lc (P.k k) I.R * (x * ((List.range I.ndc).map g).sum)) := by
    intro x y f g h
    have : (List.range I.ndc).map f = (List.range I.ndc).map fun i => y * g i :=
      List.map_congr_left fun i _ => h i
    rw [this, List.sum_map_mul_left]; ring
  refine this _ _ _ _ fun i => ?_
  have he : Soc.entry .SC (Soc.chiIn .SC 0 I i j) = (starRingEnd 𝕜) (bra .SC s I i j) :=
    (hR D hD l hl I hI i j).symm
  have hi : k * (D.nd * P.nsp * P.ncol) + s * D.nd + (n * (D.nd * P.nsp) + I.pos i)
      = orb P D k n s (I.pos i) := by
    unfold orb; ring
  rw [he, hi, div_eq_mul_inv]
  ring

/-- The occupation matrix of spin `σ` of an atom: the sum over groups, k-points, spins and bands
of weight, occupation and the real part of the product of the projections. -/
noncomputable def density (E : Env) (Lc : ℝ × ℝ × ℝ) (Nkpts : ℕ) (Ps : List (HGrp 𝕜))
    (a σ r c : ℕ) : ℝ :=
  (Ps.map fun P => ((List.range P.Nk).map fun k => ((List.range P.nsp).map fun s =>
    if P.sp s = σ then ((List.range P.ncol).map fun n => P.wt k / Nkpts * occOf E P.toGrp k n s
      * RCLike.re (proj E Lc P.toGrp .SC k s a n r
        * (starRingEnd 𝕜) (proj E Lc P.toGrp .SC k s a n c)) / E.dV).sum else 0).sum).sum).sum

theorem gOcc_eq (E : Env) (Nkpts : ℕ) (P : Grp 𝕜) (k s n : ℕ) :
    gOcc E Nkpts P k s n = P.wt k / Nkpts * occOf E P k n s := by
  unfold gOcc occOf
  rw [Nat.add_comm P.b0 n]
  congr 2
  split <;> ring_nf

theorem re_list_sum {α : Type} (l : List α) (f : α → 𝕜) :
    RCLike.re ((l.map f).sum) = (l.map fun x => RCLike.re (f x)).sum :=
  map_sum_list (RCLike.re : 𝕜 →+ ℝ) l f

theorem rhoVal_re (hn : ∀ T ∈ Ts, 0 < T.n) (E : Env) (hV : 0 < E.dV) (Nkpts : ℕ) (P : Grp 𝕜)
    (hP : ∀ D ∈ P.doms, Placed (Ts.map emb) D) (hR : ∀ D ∈ P.doms, Soc.RealChi D) (k s : ℕ)
    {a r c : ℕ} {T : UTyp} (ha : (uatoms Ts)[a]? = some T) (hf : T.flag = true)
    (hr : r < nproj T) (hc : c < nproj T) :
    RCLike.re (rhoVal E Ts Lc Nkpts P k s T a c r)
      = ((List.range P.ncol).map fun n => P.wt k / Nkpts * occOf E P k n s
      * RCLike.re (proj E Lc P .SC k s a n r
        * (starRingEnd 𝕜) (proj E Lc P .SC k s a n c)) / E.dV).sum := by
  unfold rhoVal
  rw [re_list_sum]
  refine congrArg _ (List.map_congr_left fun n hnm => ?_)
  have hnc := List.mem_range.1 hnm
  rw [alphaOcc_at hn E P hP hR k s ha hf hnc hr, alphaOcc_at hn E P hP hR k s ha hf hnc hc, gOcc_eq]
  set x := proj E Lc P .SC k s a n r
  set y := proj E Lc P .SC k s a n c
  set g := P.wt k / Nkpts * occOf E P k n s
  have h2 : x / ((Real.sqrt E.dV : ℝ) : 𝕜) * ((g : ℝ) : 𝕜)
      * (starRingEnd 𝕜) (y / ((Real.sqrt E.dV : ℝ) : 𝕜))
      = ((g / E.dV : ℝ) : 𝕜) * (x * (starRingEnd 𝕜) y) := by
    rw [map_div₀, RCLike.conj_ofReal]
    have hs : ((Real.sqrt E.dV : ℝ) : 𝕜) * ((Real.sqrt E.dV : ℝ) : 𝕜) = ((E.dV : ℝ) : 𝕜) := by
      rw [← RCLike.ofReal_mul, Real.mul_self_sqrt hV.le]
    have h0 : ((Real.sqrt E.dV : ℝ) : 𝕜) ≠ 0 := by
      rw [Ne, RCLike.ofReal_eq_zero]
      exact (Real.sqrt_pos.2 hV).ne'
    have h1 : ((E.dV : ℝ) : 𝕜) ≠ 0 := by
      rw [Ne, RCLike.ofReal_eq_zero]; exact hV.ne'
    rw [RCLike.ofReal_div, ← hs]
    field_simp
  rw [h2, RCLike.re_ofReal_mul]
  ring

theorem rho_density (hn : ∀ T ∈ Ts, 0 < T.n) (E : Env) (hV : 0 < E.dV) (Nkpts : ℕ)
    (Ps : List (HGrp 𝕜)) (hP : ∀ P ∈ Ps, ∀ D ∈ P.doms, Placed (Ts.map emb) D)
    (hR : ∀ P ∈ Ps, ∀ D ∈ P.doms, Soc.RealChi D) (σ : ℕ) {a r c : ℕ} {T : UTyp}
    (ha : (uatoms Ts)[a]? = some T) (hf : T.flag = true) (hr : r < nproj T) (hc : c < nproj T) :
    RCLike.re (rhoAll E Ts Lc Nkpts Ps σ ((rhoDispl Ts a).toNat + (c * nproj T + r)))
      = density E Lc Nkpts Ps a σ r c := by
  rw [rhoAll_at hn E Nkpts Ps σ ha hf hr hc]
  unfold density
  rw [re_list_sum]
  refine congrArg _ (List.map_congr_left fun P hPm => ?_)
  rw [re_list_sum]
  refine congrArg _ (List.map_congr_left fun k _ => ?_)
  rw [re_list_sum]
  refine congrArg _ (List.map_congr_left fun s _ => ?_)
  by_cases h : P.sp s = σ
  · rw [if_pos h, if_pos h, rhoVal_re hn E hV Nkpts P.toGrp (hP P hPm) (hR P hPm) k s ha hf hr hc]
  · rw [if_neg h, if_neg h, map_zero]

theorem density_symm (E : Env) (Nkpts : ℕ) (Ps : List (HGrp 𝕜)) (a σ r c : ℕ) :
    density E Lc Nkpts Ps a σ r c = density E Lc Nkpts Ps a σ c r := by
  unfold density
  refine congrArg _ (List.map_congr_left fun P _ => congrArg _ (List.map_congr_left fun k _ =>
    congrArg _ (List.map_congr_left fun s _ => ?_)))
  by_cases h : P.sp s = σ
  · rw [if_pos h, if_pos h]
    refine congrArg _ (List.map_congr_left fun n _ => ?_)
    have : ∀ x y : 𝕜, RCLike.re (x * (starRingEnd 𝕜) y) = RCLike.re (y * (starRingEnd 𝕜) x) := by
      intro x y
      simp only [RCLike.mul_re, RCLike.conj_re, RCLike.conj_im]; ring
    rw [this]
  · rw [if_neg h, if_neg h]

end Sparc.Hub

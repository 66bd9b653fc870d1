import Verif.Hub.Occ

/-! # DFT+U: symmetrisation, energies -/

namespace Sparc.Hub

open Pres Loop

variable {𝕜 : Type} [RCLike 𝕜]

/-! ### The symmetrised matrices -/

theorem fold_keep {α S : Type} (l : List α) (f : S → α → S) (Q : S → Prop)
    (h : ∀ m, ∀ a ∈ l, Q m → Q (f m a)) (m : S) (hm : Q m) : Q (l.foldl f m) := by
  induction l generalizing m with
  | nil => exact hm
  | cons a l ih =>
    rw [List.foldl_cons]
    exact ih (fun m b hb => h m b (List.mem_cons_of_mem _ hb)) _ (h m a List.mem_cons_self hm)

theorem fold_reach {α S : Type} (l : List α) (f : S → α → S) (R Q : S → Prop)
    (hR : ∀ m, ∀ a ∈ l, R m → R (f m a)) (h : ∀ m, ∀ a ∈ l, R m → Q m → Q (f m a)) {a : α}
    (ha : a ∈ l) (hs : ∀ m, R m → Q (f m a)) (m : S) (hm : R m) : Q (l.foldl f m) := by
  induction l generalizing m with
  | nil => simp at ha
  | cons b l ih =>
    rw [List.foldl_cons]
    rcases List.mem_cons.1 ha with rfl | ha'
    · have := fold_keep l f (fun m => R m ∧ Q m) (fun m c hc hq =>
        ⟨hR m c (List.mem_cons_of_mem _ hc) hq.1, h m c (List.mem_cons_of_mem _ hc) hq.1 hq.2⟩)
        (f m a) ⟨hR m a List.mem_cons_self hm, hs m hm⟩
      exact this.2
    · exact ih (fun m c hc => hR m c (List.mem_cons_of_mem _ hc))
        (fun m c hc => h m c (List.mem_cons_of_mem _ hc)) ha' _ (hR m b List.mem_cons_self hm)

/-- The Γ-point: one triangle is copied on the other. -/
theorem hermG_at (ang : ℕ) (b : ℕ → ℝ) {c r : ℕ} (hc : c < ang) (hr : r < ang) :
    hermG ang b (c * ang + r) = b (max c r * ang + min c r) := by
  have hup : ∀ (m : ℕ → ℝ) (i j : ℕ) (v : ℝ) (k l : ℕ), j < ang → l < ang →
      Function.update m (i * ang + j) v (k * ang + l)
        = if i = k ∧ j = l then v else m (k * ang + l) := by
    intro m i j v k l hj hl
    by_cases e : i = k ∧ j = l
    · obtain ⟨rfl, rfl⟩ := e
      rw [Function.update_self, if_pos ⟨rfl, rfl⟩]
    · rw [if_neg e, Function.update_of_ne]
      intro h
      have := sq_inj hl hj h
      exact e ⟨this.1.symm, this.2.symm⟩
  -- entries on and below keep their value, an entry of the other triangle has one of two values
  have hlow : ∀ i < ang, ∀ j ≤ i, hermG ang b (i * ang + j) = b (i * ang + j) := by
    intro i hi j hj
    unfold hermG
    refine fold_keep _ _ (fun m => ∀ i < ang, ∀ j ≤ i, m (i * ang + j) = b (i * ang + j))
      (fun m c hcm hm => ?_) b (fun _ _ _ _ => rfl) i hi j hj
    refine fold_keep _ _ (fun m => ∀ i < ang, ∀ j ≤ i, m (i * ang + j) = b (i * ang + j))
      (fun m r hrm hm i hi j hj => ?_) m hm
    have hr := List.mem_range'_1.1 hrm
    rw [hup m c r _ i j (by omega) (by omega)]
    split
    · rename_i e
      obtain ⟨rfl, rfl⟩ := e
      have : c = r := by omega
      subst this
      exact hm c (by omega) c le_rfl
    · exact hm i hi j hj
  rcases le_or_gt r c with h | h
  · rw [max_eq_left h, min_eq_right h]
    exact hlow c hc r h
  · rw [max_eq_right h.le, min_eq_left h.le]
    unfold hermG
    refine fold_reach _ _ (fun m => ∀ i < ang, ∀ j ≤ i, m (i * ang + j) = b (i * ang + j))
      (fun m => m (c * ang + r) = b (r * ang + c)) (fun m c' hcm hm => ?_)
      (fun m c' hcm hR hm => ?_) (List.mem_range.2 hc) (fun m hR => ?_) b (fun _ _ _ _ => rfl)
    · refine fold_keep _ _ (fun m => ∀ i < ang, ∀ j ≤ i, m (i * ang + j) = b (i * ang + j))
        (fun m r hrm hm i hi j hj => ?_) m hm
      have hr := List.mem_range'_1.1 hrm
      rw [hup m c' r _ i j (by omega) (by omega)]
      split
      · rename_i e
        obtain ⟨rfl, rfl⟩ := e
        have : c' = r := by omega
        subst this
        exact hm c' (by omega) c' le_rfl
      · exact hm i hi j hj
    · have := fold_keep (List.range' c' (ang - c')) (fun (b : ℕ → ℝ) r =>
        Function.update b (c' * ang + r) (b (r * ang + c')))
        (fun m => (∀ i < ang, ∀ j ≤ i, m (i * ang + j) = b (i * ang + j)) ∧
          m (c * ang + r) = b (r * ang + c)) (fun m r' hrm hm => ?_) m ⟨hR, hm⟩
      · exact this.2
      · have hr' := List.mem_range'_1.1 hrm
        refine ⟨fun i hi j hj => ?_, ?_⟩
        · rw [hup m c' r' _ i j (by omega) (by omega)]
          split
          · rename_i e
            obtain ⟨rfl, rfl⟩ := e
            have : c' = r' := by omega
            subst this
            exact hm.1 c' (by omega) c' le_rfl
          · exact hm.1 i hi j hj
        · rw [hup m c' r' _ c r (by omega) (by omega)]
          split
          · rename_i e
            obtain ⟨rfl, rfl⟩ := e
            exact hm.1 r' (by omega) c' (by omega)
          · exact hm.2
    · refine fold_reach _ _ (fun m => ∀ i < ang, ∀ j ≤ i, m (i * ang + j) = b (i * ang + j))
        (fun m => m (c * ang + r) = b (r * ang + c)) (fun m r' hrm hm i hi j hj => ?_)
        (fun m r' hrm hR hm => ?_) (a := r)
        (List.mem_range'_1.2 (by omega) : r ∈ List.range' c (ang - c)) (fun m hR => ?_) m hR
      · have hr' := List.mem_range'_1.1 hrm
        rw [hup m c r' _ i j (by omega) (by omega)]
        split
        · rename_i e
          obtain ⟨rfl, rfl⟩ := e
          have : c = r' := by omega
          subst this
          exact hm c (by omega) c le_rfl
        · exact hm i hi j hj
      · have hr' := List.mem_range'_1.1 hrm
        rw [hup m c r' _ c r (by omega) (by omega)]
        split
        · rename_i e
          rw [e.2]
          exact hR r (by omega) c (by omega)
        · exact hm
      · rw [hup m c r _ c r hr hr, if_pos ⟨rfl, rfl⟩]
        exact hR r hr c h.le

/-- The k-points: mean of the matrix and its adjoint, real part. -/
theorem hermK_at (ang : ℕ) (b : ℕ → ℂ) {c r : ℕ} (hc : c < ang) (hr : r < ang) :
    hermK ang b (c * ang + r) = ((b (c * ang + r)).re + (b (r * ang + c)).re) / 2 := by
  have hup : ∀ (m : ℕ → ℂ) (i j : ℕ) (v : ℂ) (k l : ℕ), j < ang → l < ang →
      Function.update m (i * ang + j) v (k * ang + l)
        = if i = k ∧ j = l then v else m (k * ang + l) := by
    intro m i j v k l hj hl
    by_cases e : i = k ∧ j = l
    · obtain ⟨rfl, rfl⟩ := e
      rw [Function.update_self, if_pos ⟨rfl, rfl⟩]
    · rw [if_neg e, Function.update_of_ne]
      intro h
      have := sq_inj hl hj h
      exact e ⟨this.1.symm, this.2.symm⟩
  set st : ℕ → (ℕ → ℂ) → ℕ → ℕ → ℂ := fun c b r =>
      let avg := 0.5 * (b (c * ang + r) + (starRingEnd ℂ) (b (r * ang + c)))
      Function.update (Function.update b (c * ang + r) avg) (r * ang + c) ((starRingEnd ℂ) avg)
    with hst
  have hre : ∀ (m : ℕ → ℂ) (c r i j : ℕ), c < ang → r < ang → i < ang → j < ang →
      (st c m r (i * ang + j)).re = if (c = i ∧ r = j) ∨ (r = i ∧ c = j) then
        ((m (c * ang + r)).re + (m (r * ang + c)).re) / 2 else (m (i * ang + j)).re := by
    intro m c r i j hc hr hi hj
    rw [hst]
    dsimp only
    rw [hup _ r c _ i j hc hj, hup _ c r _ i j hr hj]
    have hav : (0.5 * (m (c * ang + r) + (starRingEnd ℂ) (m (r * ang + c)))).re
        = ((m (c * ang + r)).re + (m (r * ang + c)).re) / 2 := by
      have : (0.5 : ℂ) = ((1 / 2 : ℝ) : ℂ) := by norm_num
      rw [this, Complex.re_ofReal_mul, Complex.add_re, Complex.conj_re]; ring
    by_cases e1 : r = i ∧ c = j
    · rw [if_pos e1, if_pos (Or.inr e1), Complex.conj_re, hav]
    · rw [if_neg e1]
      by_cases e2 : c = i ∧ r = j
      · rw [if_pos e2, if_pos (Or.inl e2), hav]
      · rw [if_neg e2, if_neg (by tauto)]
  set dg : ℕ → (ℕ → ℂ) → ℕ → ℂ := fun c b => Function.update b (c * ang + c)
    ((b (c * ang + c)).re : ℂ) with hdg
  have hdre : ∀ (m : ℕ → ℂ) (c i j : ℕ), c < ang → j < ang →
      (dg c m (i * ang + j)).re = (m (i * ang + j)).re := by
    intro m c i j hc hj
    rw [hdg]
    dsimp only
    rw [hup m c c _ i j hc hj]
    split
    · rename_i e
      rw [← e.1, ← e.2]; simp
    · rfl
  set S : (ℕ → ℂ) → Prop := fun m => ∀ i < ang, ∀ j < ang,
    (m (i * ang + j)).re + (m (j * ang + i)).re = (b (i * ang + j)).re + (b (j * ang + i)).re with hS
  have hSst : ∀ c r m, c < ang → r < ang → S m → S (st c m r) := by
    intro c r m hc hr hm i hi j hj
    rw [hre m c r i j hc hr hi hj, hre m c r j i hc hr hj hi]
    have := hm i hi j hj
    by_cases e : (c = i ∧ r = j) ∨ (r = i ∧ c = j)
    · rw [if_pos e, if_pos (by tauto)]
      rcases e with ⟨rfl, rfl⟩ | ⟨rfl, rfl⟩
      · linarith
      · linarith
    · rw [if_neg e, if_neg (by tauto)]
      exact this
  have hSdg : ∀ c m, c < ang → S m → S (dg c m) := by
    intro c m hc hm i hi j hj
    rw [hdre m c i j hc hj, hdre m c j i hc hi]
    exact hm i hi j hj
  set f : (ℕ → ℂ) → ℕ → ℕ → ℂ := fun b c => dg c ((List.range' (c + 1) (ang - (c + 1))).foldl
    (st c) b) with hf
  have hfin : hermK ang b = fun q => ((List.range ang).foldl f b q).re := rfl
  have hSf : ∀ m, ∀ c ∈ List.range ang, S m → S (f m c) := by
    intro m c hcm hm
    have hc := List.mem_range.1 hcm
    refine hSdg c _ hc (fold_keep _ _ S (fun m r hrm hm => ?_) m hm)
    have := List.mem_range'_1.1 hrm
    exact hSst c r m hc (by omega) hm
  have hSall : S ((List.range ang).foldl f b) := fold_keep _ _ S hSf b (fun _ _ _ _ => rfl)
  -- the two entries agree
  have heq : ∀ i j, i < j → j < ang → ((List.range ang).foldl f b (i * ang + j)).re
      = ((List.range ang).foldl f b (j * ang + i)).re := by
    intro i j hij hj
    have hi : i < ang := by omega
    set Q : (ℕ → ℂ) → Prop := fun m => (m (i * ang + j)).re = (m (j * ang + i)).re with hQ
    have hQst : ∀ c r m, c < ang → r < ang → Q m → Q (st c m r) := by
      intro c r m hc hr hm
      show (st c m r (i * ang + j)).re = (st c m r (j * ang + i)).re
      rw [hre m c r i j hc hr hi hj, hre m c r j i hc hr hj hi]
      by_cases e : (c = i ∧ r = j) ∨ (r = i ∧ c = j)
      · rw [if_pos e, if_pos (by tauto)]
      · rw [if_neg e, if_neg (by tauto)]; exact hm
    have hQset : ∀ m, Q (st i m j) := by
      intro m
      show (st i m j (i * ang + j)).re = (st i m j (j * ang + i)).re
      rw [hre m i j i j hi hj hi hj, hre m i j j i hi hj hj hi, if_pos (by tauto), if_pos (by tauto)]
    have hQdg : ∀ c m, c < ang → Q m → Q (dg c m) := by
      intro c m hc hm
      show (dg c m (i * ang + j)).re = (dg c m (j * ang + i)).re
      rw [hdre m c i j hc hj, hdre m c j i hc hi]
      exact hm
    refine fold_reach _ f (fun _ => True) Q (fun _ _ _ _ => trivial) (fun m c hcm _ hm => ?_)
      (List.mem_range.2 hi) (fun m _ => ?_) b trivial
    · have hc := List.mem_range.1 hcm
      refine hQdg c _ hc (fold_keep _ _ Q (fun m r hrm hm => ?_) m hm)
      have := List.mem_range'_1.1 hrm
      exact hQst c r m hc (by omega) hm
    · refine hQdg i _ hi (fold_reach _ _ (fun _ => True) Q (fun _ _ _ _ => trivial)
        (fun m r hrm _ hm => ?_) (a := j) (List.mem_range'_1.2 (by omega)) (fun m _ => hQset m) m
        trivial)
      have := List.mem_range'_1.1 hrm
      exact hQst i r m hi (by omega) hm
  rw [hfin]
  dsimp only
  have hsum := hSall c hc r hr
  rcases lt_trichotomy c r with h | h | h
  · have := heq c r h hr
    linarith
  · subst h
    linarith
  · have := heq r c h hc
    linarith

/-! ### Energies -/

theorem hubEnergy_eq (Ts : List UTyp) (Nspinor : ℕ) (occfac : ℝ) (rho : ℕ → ℕ → ℕ → ℝ) :
    hubEnergy Ts Nspinor occfac rho = uSum Ts fun T a => ((List.range Nspinor).map fun σ =>
      occfac * ((List.range (nproj T)).map fun col => ((List.range (nproj T)).map fun m =>
        pre T (rho a σ) (nproj T) col m * rho a σ (nproj T * col + m)).sum).sum).sum := by
  have h := congrArg Prod.snd (walk (fun T => T.flag = false) (fun T a (x : ℝ) =>
    (List.range Nspinor).foldl (fun (e : ℝ) σ =>
        e + occfac * (List.range (nproj T)).foldl (fun (t : ℝ) col =>
          t + ((List.range (nproj T)).map fun m => pre T (rho a σ) (nproj T) col m
            * rho a σ (nproj T * col + m)).sum) 0) x) Ts 0 0)
  dsimp only at h
  unfold hubEnergy
  rw [h, ← zero_add (uSum Ts _)]
  unfold uSum
  refine foldl_adds _ _ _ _ fun Ta _ x => ?_
  by_cases hf : Ta.1.flag = true
  · rw [if_neg (by rw [hf]; decide), if_pos hf]
    refine foldl_adds _ _ _ _ fun σ _ x => ?_
    rw [foldl_adds (M := ℝ) _ (fun col => ((List.range (nproj Ta.1)).map fun m =>
      pre Ta.1 (rho Ta.2 σ) (nproj Ta.1) col m * rho Ta.2 σ (nproj Ta.1 * col + m)).sum) _ _
      (fun _ _ _ => rfl), zero_add]
  · have : Ta.1.flag = false := by simpa using hf
    rw [if_pos this, if_neg hf, add_zero]

/-- Entry `c` of the diagonal of the squared matrix. -/
noncomputable def sqDiag (T : UTyp) (rho : ℕ → ℝ) (c : ℕ) : ℝ :=
  ((List.range (nproj T)).map fun m => rho (nproj T * m + c) * rho (nproj T * c + m)).sum

theorem hubE_eq (Ts : List UTyp) (hg : ∀ T ∈ Ts, T.flag = true → Good T) (Nspinor : ℕ)
    (occfac : ℝ) (rho : ℕ → ℕ → ℕ → ℝ) :
    hubE Ts Nspinor occfac rho = uSum Ts fun T a => ((List.range Nspinor).map fun σ =>
      ((occfac * ((List.range (nproj T)).map fun c => 1 / 2 * uOf T c * sqDiag T (rho a σ) c).sum,
        occfac * ((List.range (nproj T)).map fun c => 1 / 2 * uOf T c
          * (rho a σ (nproj T * c + c) - sqDiag T (rho a σ) c)).sum) : ℝ × ℝ)).sum := by
  have h := congrArg Prod.snd (walk (fun T => T.flag = false) (fun T a (x : ℝ × ℝ) =>
    (List.range Nspinor).foldl (fun (e : ℝ × ℝ) σ =>
        let sq := fun q : ℕ => ((List.range (angnum T)).map fun m =>
          rho a σ (angnum T * m + q % angnum T) * rho a σ (angnum T * (q / angnum T) + m)).sum
        let loc := (List.range (angnum T)).foldl (fun (t : ℝ × ℝ) col =>
          (t.1 + 0.5 * (uval T).getD col 0 * sq (angnum T * col + col),
           t.2 + 0.5 * (uval T).getD col 0
            * (rho a σ (angnum T * col + col) - sq (angnum T * col + col)))) (0, 0)
        (e.1 + occfac * loc.1, e.2 + occfac * loc.2)) x) Ts 0 (0, 0))
  dsimp only at h
  unfold hubE
  dsimp only
  rw [h, show ((0, 0) : ℝ × ℝ) = 0 from rfl, ← zero_add (uSum Ts _)]
  unfold uSum
  refine foldl_adds _ _ _ _ fun Ta hTa x => ?_
  by_cases hf : Ta.1.flag = true
  · rw [if_neg (by rw [hf]; decide), if_pos hf]
    have hG := hg Ta.1 (mem_uatoms (mem_zip hTa)) hf
    refine foldl_adds _ _ _ _ fun σ _ x => ?_
    rw [angnum_eq _ hG]
    have hloc : ∀ l : List ℕ, (∀ c ∈ l, c < nproj Ta.1) → ∀ t : ℝ × ℝ,
        l.foldl (fun (t : ℝ × ℝ) col =>
          (t.1 + 0.5 * (uval Ta.1).getD col 0 * ((List.range (nproj Ta.1)).map fun m =>
            rho Ta.2 σ (nproj Ta.1 * m + (nproj Ta.1 * col + col) % nproj Ta.1)
              * rho Ta.2 σ (nproj Ta.1 * ((nproj Ta.1 * col + col) / nproj Ta.1) + m)).sum,
           t.2 + 0.5 * (uval Ta.1).getD col 0
            * (rho Ta.2 σ (nproj Ta.1 * col + col) - ((List.range (nproj Ta.1)).map fun m =>
            rho Ta.2 σ (nproj Ta.1 * m + (nproj Ta.1 * col + col) % nproj Ta.1)
              * rho Ta.2 σ (nproj Ta.1 * ((nproj Ta.1 * col + col) / nproj Ta.1) + m)).sum))) t
        = (t.1 + (l.map fun c => 1 / 2 * uOf Ta.1 c * sqDiag Ta.1 (rho Ta.2 σ) c).sum,
           t.2 + (l.map fun c => 1 / 2 * uOf Ta.1 c
          * (rho Ta.2 σ (nproj Ta.1 * c + c) - sqDiag Ta.1 (rho Ta.2 σ) c)).sum) := by
      intro l
      induction l with
      | nil => intro _ t; simp
      | cons c l ih =>
        intro hl t
        have hc : c < nproj Ta.1 := hl c (by simp)
        rw [List.foldl_cons, ih fun c' h' => hl c' (by simp [h'])]
        rw [uval_at Ta.1 hG hc, Nat.mul_add_mod, Nat.mod_eq_of_lt hc,
          Nat.mul_add_div (by omega), Nat.div_eq_of_lt hc, Nat.add_zero]
        have h05 : (0.5 : ℝ) = 1 / 2 := by norm_num
        rw [h05]
        simp only [List.map_cons, List.sum_cons, ← add_assoc]
        rfl
    rw [hloc _ (fun c h => List.mem_range.1 h)]
    simp only [Prod.fst_zero, Prod.snd_zero, zero_add]
    rfl
  · have : Ta.1.flag = false := by simpa using hf
    rw [if_pos this, if_neg hf, add_zero]

theorem uSum_fst (Ts : List UTyp) (F : UTyp → ℕ → ℝ × ℝ) :
    (uSum Ts F).1 = uSum Ts fun T a => (F T a).1 := by
  unfold uSum
  rw [show ∀ x : ℝ × ℝ, x.1 = AddMonoidHom.fst ℝ ℝ x from fun _ => rfl, map_sum_list]
  refine congrArg _ (List.map_congr_left fun Ta _ => ?_)
  split <;> rfl

theorem uSum_snd (Ts : List UTyp) (F : UTyp → ℕ → ℝ × ℝ) :
    (uSum Ts F).2 = uSum Ts fun T a => (F T a).2 := by
  unfold uSum
  rw [show ∀ x : ℝ × ℝ, x.2 = AddMonoidHom.snd ℝ ℝ x from fun _ => rfl, map_sum_list]
  refine congrArg _ (List.map_congr_left fun Ta _ => ?_)
  split <;> rfl

theorem uSum_add {M : Type} [AddCommMonoid M] (Ts : List UTyp) (F G : UTyp → ℕ → M) :
    uSum Ts (fun T a => F T a + G T a) = uSum Ts F + uSum Ts G := by
  unfold uSum
  rw [← List.sum_map_add]
  refine congrArg _ (List.map_congr_left fun Ta _ => ?_)
  split <;> simp

theorem uSum_nonneg (Ts : List UTyp) (F : UTyp → ℕ → ℝ)
    (h : ∀ a T, (uatoms Ts)[a]? = some T → T.flag = true → 0 ≤ F T a) : 0 ≤ uSum Ts F := by
  unfold uSum
  refine List.sum_nonneg fun x hx => ?_
  obtain ⟨Ta, hTa, rfl⟩ := List.mem_map.1 hx
  split
  · rename_i hf
    exact h _ _ (mem_zip hTa) hf
  · exact le_rfl

theorem uSum_swap {M : Type} {α : Type} [AddCommMonoid M] (Ts : List UTyp) (l : List α)
    (F : α → UTyp → ℕ → M) :
    uSum Ts (fun T a => (l.map fun x => F x T a).sum) = (l.map fun x => uSum Ts (F x)).sum := by
  unfold uSum
  rw [Soc.sum_swap l]
  refine congrArg _ (List.map_congr_left fun Ta _ => ?_)
  split
  · rfl
  · simp

end Sparc.Hub

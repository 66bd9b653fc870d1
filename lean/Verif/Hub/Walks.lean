import Verif.Hub.Energy

/-! # DFT+U: the loops of forces, pressure and stress -/

namespace Sparc.Hub

open Pres Loop

variable {𝕜 : Type} [RCLike 𝕜]

/-- The atoms with U and their numbers. -/
def marked (Ts : List UTyp) (c : ℕ) : List (UTyp × ℕ) :=
  ((uatoms Ts).zipIdx c).filter fun Ta => Ta.1.flag

/-- Types with U next to each other. -/
def Contig (Ts : List UTyp) : Prop :=
  ∃ A B C : List UTyp, Ts = A ++ B ++ C ∧ (∀ T ∈ A, T.flag = false) ∧ (∀ T ∈ B, T.flag = true)
    ∧ ∀ T ∈ C, T.flag = false

/-- One type of `aWalk`. -/
def aStep (rule : Rule) (st : ℕ × ℕ × List (UTyp × ℕ)) (T : UTyp) : ℕ × ℕ × List (UTyp × ℕ) :=
    if T.flag = false then
      (match rule with
        | .always => st.1 + T.n
        | .first => if st.2.1 = 0 then st.1 + T.n else st.1
        | .never => st.1, st.2)
    else
      let r := (List.range T.n).foldl (fun (r : ℕ × List (UTyp × ℕ)) _ =>
        (r.1 + 1, r.2 ++ [(T, r.1)])) (st.1, st.2.2)
      (r.1, if st.2.1 = 0 then st.2.1 + 1 else st.2.1, r.2)

theorem aWalk_eq (rule : Rule) (Ts : List UTyp) :
    aWalk rule Ts = (Ts.foldl (aStep rule) (0, 0, [])).2.2 := rfl

theorem push_atoms (T : UTyp) (k c : ℕ) (v : List (UTyp × ℕ)) :
    (List.range k).foldl (fun (r : ℕ × List (UTyp × ℕ)) _ => (r.1 + 1, r.2 ++ [(T, r.1)])) (c, v)
      = (c + k, v ++ (List.replicate k T).zipIdx c) := by
  induction k with
  | zero => simp
  | succ k ih =>
    rw [List.range_succ, List.foldl_append, ih, List.replicate_succ', List.zipIdx_append,
      List.length_replicate]
    simp [add_assoc]

theorem marked_cons (T : UTyp) (Ts : List UTyp) (c : ℕ) : marked (T :: Ts) c
    = (if T.flag = true then (List.replicate T.n T).zipIdx c else []) ++ marked Ts (c + T.n) := by
  have hu : uatoms (T :: Ts) = List.replicate T.n T ++ uatoms Ts := by simp [uatoms]
  unfold marked
  rw [hu, List.zipIdx_append, List.filter_append, List.length_replicate]
  congr 1
  split
  · rename_i h
    rw [List.filter_eq_self]
    intro Ta hTa
    have := List.fst_mem_of_mem_zipIdx hTa
    rw [List.eq_of_mem_replicate this, h]
  · rename_i h
    rw [List.filter_eq_nil_iff]
    intro Ta hTa
    have := List.fst_mem_of_mem_zipIdx hTa
    rw [List.eq_of_mem_replicate this]
    exact h

theorem aStep_flag (rule : Rule) (T : UTyp) (h : T.flag = true) (c i : ℕ) (v : List (UTyp × ℕ)) :
    aStep rule (c, i, v) T = (c + T.n, if i = 0 then 1 else i,
      v ++ (List.replicate T.n T).zipIdx c) := by
  unfold aStep
  rw [if_neg (by rw [h]; decide)]
  dsimp only
  rw [push_atoms]
  by_cases e : i = 0
  · subst e; rfl
  · rw [if_neg e, if_neg e]

theorem natoms_cons (T : UTyp) (Ts : List UTyp) : natoms (T :: Ts) = T.n + natoms Ts := by
  simp [natoms]

theorem aWalk_always (Ts : List UTyp) (c i : ℕ) (v : List (UTyp × ℕ)) :
    (Ts.foldl (aStep .always) (c, i, v)).2.2 = v ++ marked Ts c := by
  induction Ts generalizing c i v with
  | nil => simp [marked, uatoms]
  | cons T l ih =>
    rw [List.foldl_cons, marked_cons]
    by_cases h : T.flag = true
    · rw [aStep_flag _ T h, ih, if_pos h, List.append_assoc]
    · have h' : T.flag = false := by simpa using h
      have : aStep .always (c, i, v) T = (c + T.n, i, v) := by unfold aStep; rw [if_pos h']
      rw [this, ih, if_neg h, List.nil_append]

theorem aWalk_flagged (rule : Rule) (Ts : List UTyp) (h : ∀ T ∈ Ts, T.flag = true) (c i : ℕ)
    (v : List (UTyp × ℕ)) :
    (Ts.foldl (aStep rule) (c, i, v)).2.2 = v ++ marked Ts c := by
  induction Ts generalizing c i v with
  | nil => simp [marked, uatoms]
  | cons T l ih =>
    rw [List.foldl_cons, marked_cons, aStep_flag _ T (h T (by simp)),
      ih (fun T hT => h T (by simp [hT])), if_pos (h T (by simp)), List.append_assoc]

theorem aWalk_bare (rule : Rule) (Ts : List UTyp) (h : ∀ T ∈ Ts, T.flag = false)
    (st : ℕ × ℕ × List (UTyp × ℕ)) : (Ts.foldl (aStep rule) st).2 = st.2 := by
  induction Ts generalizing st with
  | nil => rfl
  | cons T l ih =>
    rw [List.foldl_cons, ih fun T hT => h T (by simp [hT])]
    unfold aStep
    rw [if_pos (h T (by simp))]

theorem aWalk_first0 (Ts : List UTyp) (h : ∀ T ∈ Ts, T.flag = false) (c : ℕ)
    (v : List (UTyp × ℕ)) : Ts.foldl (aStep .first) (c, 0, v) = (c + natoms Ts, 0, v) := by
  induction Ts generalizing c with
  | nil => rfl
  | cons T l ih =>
    have : aStep .first (c, 0, v) T = (c + T.n, 0, v) := by
      unfold aStep; rw [if_pos (h T (by simp))]; rfl
    rw [List.foldl_cons, this, ih fun T hT => h T (by simp [hT]), natoms_cons, add_assoc]

theorem marked_append (A B : List UTyp) (c : ℕ) :
    marked (A ++ B) c = marked A c ++ marked B (c + natoms A) := by
  unfold marked
  have : uatoms (A ++ B) = uatoms A ++ uatoms B := by simp [uatoms]
  rw [this, List.zipIdx_append, List.filter_append, uatoms_length]

theorem marked_bare (A : List UTyp) (h : ∀ T ∈ A, T.flag = false) (c : ℕ) : marked A c = [] := by
  induction A generalizing c with
  | nil => simp [marked, uatoms]
  | cons T l ih =>
    rw [marked_cons, if_neg (by rw [h T (by simp)]; decide), ih fun T hT => h T (by simp [hT])]
    rfl

theorem aWalk_first (Ts : List UTyp) (h : Contig Ts) : aWalk .first Ts = marked Ts 0 := by
  obtain ⟨A, B, C, rfl, hA, hB, hC⟩ := h
  rw [aWalk_eq, List.foldl_append, List.foldl_append, aWalk_first0 A hA,
    show ∀ x : ℕ × ℕ × List (UTyp × ℕ), x.2.2 = (x.2).2 from fun _ => rfl, aWalk_bare _ C hC,
    aWalk_flagged _ B hB, marked_append, marked_append, marked_bare A hA, marked_bare C hC]
  simp

theorem aWalk_never (B C : List UTyp) (hB : ∀ T ∈ B, T.flag = true) (hC : ∀ T ∈ C, T.flag = false) :
    aWalk .never (B ++ C) = marked (B ++ C) 0 := by
  rw [aWalk_eq, List.foldl_append,
    show ∀ x : ℕ × ℕ × List (UTyp × ℕ), x.2.2 = (x.2).2 from fun _ => rfl, aWalk_bare _ C hC,
    aWalk_flagged _ B hB, marked_append, marked_bare C hC]
  simp

/-- One type of `fWalk`. -/
def fStep (st : ℕ × ℕ × ℕ × List (UTyp × ℕ × ℕ)) (T : UTyp) : ℕ × ℕ × ℕ × List (UTyp × ℕ × ℕ) :=
    if T.flag = false then
      let a := st.1 + T.n
      (a, if st.2.2.1 = 0 then a else st.2.1, st.2.2)
    else
      let r := (List.range T.n).foldl (fun (r : ℕ × ℕ × List (UTyp × ℕ × ℕ)) _ =>
        (r.1 + 1, r.2.1 + 1, r.2.2 ++ [(T, r.1, r.2.1)])) (st.1, st.2.1, st.2.2.2)
      (r.1, r.2.1, if st.2.2.1 = 0 then st.2.2.1 + 1 else st.2.2.1, r.2.2)

theorem fWalk_eq (Ts : List UTyp) : fWalk Ts = (Ts.foldl fStep (0, 0, 0, [])).2.2.2 := rfl

theorem push_atoms2 (T : UTyp) (k c : ℕ) (v : List (UTyp × ℕ × ℕ)) :
    (List.range k).foldl (fun (r : ℕ × ℕ × List (UTyp × ℕ × ℕ)) _ =>
        (r.1 + 1, r.2.1 + 1, r.2.2 ++ [(T, r.1, r.2.1)])) (c, c, v)
      = (c + k, c + k, v ++ ((List.replicate k T).zipIdx c).map fun w => (w.1, w.2, w.2)) := by
  induction k with
  | zero => simp
  | succ k ih =>
    rw [List.range_succ, List.foldl_append, ih, List.replicate_succ', List.zipIdx_append,
      List.length_replicate]
    simp [add_assoc]

theorem fWalk_contig (Ts : List UTyp) (h : Contig Ts) :
    fWalk Ts = (marked Ts 0).map fun w => (w.1, w.2, w.2) := by
  obtain ⟨A, B, C, rfl, hA, hB, hC⟩ := h
  have h1 : ∀ (A : List UTyp), (∀ T ∈ A, T.flag = false) → ∀ c v,
      A.foldl fStep (c, c, 0, v) = (c + natoms A, c + natoms A, 0, v) := by
    intro A
    induction A with
    | nil => intro _ c v; rfl
    | cons T l ih =>
      intro h c v
      have : fStep (c, c, 0, v) T = (c + T.n, c + T.n, 0, v) := by
        unfold fStep; rw [if_pos (h T (by simp))]; rfl
      rw [List.foldl_cons, this, ih fun T hT => h T (by simp [hT]), natoms_cons, add_assoc]
  have h2 : ∀ (B : List UTyp), (∀ T ∈ B, T.flag = true) → ∀ c i v,
      (B.foldl fStep (c, c, i, v)).2.2.2 = v ++ (marked B c).map fun w => (w.1, w.2, w.2) := by
    intro B
    induction B with
    | nil => intro _ c i v; simp [marked, uatoms]
    | cons T l ih =>
      intro h c i v
      have : fStep (c, c, i, v) T = (c + T.n, c + T.n, if i = 0 then i + 1 else i,
          v ++ ((List.replicate T.n T).zipIdx c).map fun w => (w.1, w.2, w.2)) := by
        unfold fStep
        rw [if_neg (by rw [h T (by simp)]; decide)]
        dsimp only
        rw [push_atoms2]
      rw [List.foldl_cons, this, ih fun T hT => h T (by simp [hT]), marked_cons,
        if_pos (h T (by simp)), List.map_append, List.append_assoc]
  have h3 : ∀ (C : List UTyp), (∀ T ∈ C, T.flag = false) → ∀ st,
      (C.foldl fStep st).2.2.2 = st.2.2.2 := by
    intro C
    induction C with
    | nil => intro _ st; rfl
    | cons T l ih =>
      intro h st
      rw [List.foldl_cons, ih fun T hT => h T (by simp [hT])]
      unfold fStep
      rw [if_pos (h T (by simp))]
  rw [fWalk_eq, List.foldl_append, List.foldl_append, h1 A hA, h3 C hC, h2 B hB, marked_append,
    marked_append, marked_bare A hA, marked_bare C hC]
  simp

variable {Ts : List UTyp} {Lc : ℝ × ℝ × ℝ} {occfac : ℝ} {Nkpts : ℕ}

theorem mem_marked {Ta : UTyp × ℕ} (h : Ta ∈ marked Ts 0) :
    (uatoms Ts)[Ta.2]? = some Ta.1 ∧ Ta.1.flag = true := by
  unfold marked at h
  rw [List.mem_filter] at h
  exact ⟨mem_zip h.1, h.2⟩

theorem marked_sum {M : Type} [AddCommMonoid M] (F : UTyp → ℕ → M) :
    ((marked Ts 0).map fun Ta => F Ta.1 Ta.2).sum = uSum Ts F := by
  unfold marked uSum
  generalize (uatoms Ts).zipIdx = l
  induction l with
  | nil => rfl
  | cons x l ih =>
    by_cases h : x.1.flag = true
    · rw [List.filter_cons_of_pos (p := fun Ta : UTyp × ℕ => Ta.1.flag) h]
      simp [h, ih]
    · rw [List.filter_cons_of_neg (p := fun Ta : UTyp × ℕ => Ta.1.flag) h]
      simp [h, ih]

theorem ipU_cast (hn : ∀ T ∈ Ts, 0 < T.n) {a : ℕ} {T : UTyp} (ha : (uatoms Ts)[a]? = some T)
    (hf : T.flag = true) : ipU Ts a = (upto nproj Ts a : ℕ) := (displ_at nproj Ts hn ha hf).1

/-- The products with the occupations, where the loop visits the right atoms. -/
theorem alphaGn_at (hn : ∀ T ∈ Ts, 0 < T.n) (rule : Rule) (hw : aWalk rule Ts = marked Ts 0)
    (ncol off : ℕ) (g : ℕ → ℝ) (al : ℕ → 𝕜) {a n j : ℕ} {T : UTyp}
    (ha : (uatoms Ts)[a]? = some T) (hf : T.flag = true) (hnc : n < ncol) (hj : j < nproj T) :
    alphaGn rule Ts ncol off g al (ipU Ts a * ncol + (n * nproj T + j : ℕ))
      = rd al (off + (ipU Ts a * ncol + (n * nproj T + j : ℕ))) * ((g n : ℝ) : 𝕜) := by
  have h2 : alphaGn rule Ts ncol off g al = ((marked Ts 0).flatMap fun Ta =>
        (List.range ncol).flatMap fun n => (List.range (nproj Ta.1)).map fun p =>
        (ipU Ts Ta.2 * ncol + ((n * nproj Ta.1 + p : ℕ) : ℤ),
          rd al (off + (ipU Ts Ta.2 * ncol + (n * nproj Ta.1 + p : ℕ))) * ((g n : ℝ) : 𝕜))).foldl
          (fun m p => Function.update m p.1 p.2) (fun _ => 0) := by
    unfold alphaGn
    rw [hw, List.foldl_flatMap]
    congr 1
    funext m Ta
    rw [List.foldl_flatMap]
    congr 1
    funext m n
    rw [List.foldl_map]
  rw [h2]
  refine update_val _ _ _ _ (fun p hp e => ?_) ?_
  · obtain ⟨⟨T', a'⟩, hz, hp'⟩ := List.mem_flatMap.1 hp
    obtain ⟨ha', hf'⟩ := mem_marked hz
    obtain ⟨n', hn', hp''⟩ := List.mem_flatMap.1 hp'
    obtain ⟨r', hr', rfl⟩ := List.mem_map.1 hp''
    dsimp only at e ha' hf' ⊢
    have e' := e
    rw [ipU_cast hn ha' hf', ipU_cast hn ha hf] at e'
    have e'' : upto nproj Ts a' * ncol + (n' * nproj T' + r')
        = upto nproj Ts a * ncol + (n * nproj T + j) := by exact_mod_cast e'
    obtain ⟨_, rfl, _⟩ := place_inj ha' ha (List.mem_range.1 hn') hnc
        (by rw [cnt_of T' hf']; exact List.mem_range.1 hr') (by rw [cnt_of T hf]; exact hj)
        (by rw [cnt_of T' hf', cnt_of T hf]; exact e'')
    rw [e]
  · refine ⟨(_, _), List.mem_flatMap.2 ⟨(T, a), ?_, List.mem_flatMap.2 ⟨n, List.mem_range.2 hnc,
      List.mem_map.2 ⟨j, List.mem_range.2 hj, rfl⟩⟩⟩, rfl⟩
    unfold marked
    rw [List.mem_filter]
    exact ⟨by rw [List.mem_zipIdx_iff_getElem?]; simpa using ha, hf⟩

/-- The position read by forces, pressure and stress. -/
theorem rd_at (hn : ∀ T ∈ Ts, 0 < T.n) (m : ℕ → 𝕜) (P : Grp 𝕜) (k s : ℕ) {a : ℕ} {T : UTyp}
    (ha : (uatoms Ts)[a]? = some T) (hf : T.flag = true) (n j : ℕ) :
    rd m (shift (env Ts Lc occfac Nkpts) P k s + (ipU Ts a * P.ncol + (n * nproj T + j : ℕ)))
      = m (pos .SC (Ts.map emb) P.ncol P.nsp k s a (nproj T) n j) := by
  unfold rd
  congr 1
  have ht : (env Ts Lc occfac Nkpts).IP (env Ts Lc occfac Nkpts).natom
      = total .SC (Ts.map emb) := env_total hn
  unfold shift pos
  rw [ipU_cast hn ha hf, ht, before_emb]
  have : ((total .SC (Ts.map emb) * P.ncol * P.nsp * k + total .SC (Ts.map emb) * P.ncol * s : ℕ) : ℤ)
      + (((upto nproj Ts a : ℕ) : ℤ) * P.ncol + ((n * nproj T + j : ℕ) : ℤ))
      = (((k * P.nsp + s) * (P.ncol * total .SC (Ts.map emb)) + P.ncol * upto nproj Ts a
        + n * nproj T + j : ℕ) : ℤ) := by
    push_cast; ring
  rw [this]
  rfl

theorem al_env (hn : ∀ T ∈ Ts, 0 < T.n) (E : Env) (P : Grp 𝕜)
    (hP : ∀ D ∈ P.doms, Placed (Ts.map emb) D) {k s a n j : ℕ} {T : UTyp} (hk : k < P.Nk)
    (hs : s < P.nsp) (ha : (uatoms Ts)[a]? = some T) (hf : T.flag = true) (hnc : n < P.ncol)
    (hj : j < nproj T) :
    (P.doms.map fun D => alpha E (env Ts Lc occfac Nkpts) P .SC D).sum
      (pos .SC (Ts.map emb) P.ncol P.nsp k s a (nproj T) n j)
      = (starRingEnd 𝕜) (proj E Lc P .SC k s a n j) := by
  obtain ⟨t, ht⟩ := atom_ex Ts ha
  have hl : (chan .SC (emb T)).length = nproj T := by rw [chan_emb, cnt_of T hf]
  have e := alpha_at (Ts := Ts.map emb) (Lc := Lc) (occfac := occfac) (Nkpts := Nkpts) E P .SC hP hk
    hs ht hnc (by rw [hl]; exact hj)
  rw [hl] at e
  rw [← e]
  refine congrFun (congrArg List.sum (List.map_congr_left fun D hD => ?_)) _
  unfold alpha
  exact integral_env hn P D (hP D hD) _

theorem beS_env (hn : ∀ T ∈ Ts, 0 < T.n) {L : ℕ → ℝ} {E : Env}
    (h : Coord.transformMat L = some E.G) (h0 : E.G.cellTyp = 0 → unitMat L = 1) (P : Grp 𝕜)
    (hP : ∀ D ∈ P.doms, Placed (Ts.map emb) D) (c c' : Fin 3) {k s a n j : ℕ} {T : UTyp}
    (hk : k < P.Nk)
    (hs : s < P.nsp) (ha : (uatoms Ts)[a]? = some T) (hf : T.flag = true) (hnc : n < P.ncol)
    (hj : j < nproj T) :
    (P.doms.map fun D => betaS E (env Ts Lc occfac Nkpts) P .SC D c c').sum
      (pos .SC (Ts.map emb) P.ncol P.nsp k s a (nproj T) n j)
      = moment L E Lc P .SC c c' k s a n j := by
  obtain ⟨t, ht⟩ := atom_ex Ts ha
  have hl : (chan .SC (emb T)).length = nproj T := by rw [chan_emb, cnt_of T hf]
  have e := Pres.beta_at (Ts := Ts.map emb) (Lc := Lc) (occfac := occfac) (Nkpts := Nkpts) h h0 P
    .SC hP c c' hk hs (fun h => by simp at h) ht hnc (by rw [hl]; exact hj)
  rw [hl] at e
  rw [← e]
  refine congrFun (congrArg List.sum (List.map_congr_left fun D hD => ?_)) _
  unfold betaS chiX
  exact integral_env hn P D (hP D hD) _

theorem beF_env (hn : ∀ T ∈ Ts, 0 < T.n) (P : Grp 𝕜)
    (hP : ∀ D ∈ P.doms, Placed (Ts.map emb) D) (d : Fin 3) {k s a n j : ℕ} {T : UTyp}
    (hk : k < P.Nk)
    (hs : s < P.nsp) (ha : (uatoms Ts)[a]? = some T) (hf : T.flag = true) (hnc : n < P.ncol)
    (hj : j < nproj T) :
    (P.doms.map fun D => Force.beta (env Ts Lc occfac Nkpts) P .SC D d).sum
      (pos .SC (Ts.map emb) P.ncol P.nsp k s a (nproj T) n j)
      = (P.doms.map fun D => ofAtom D a fun I => phase Lc (P.k k) I.R *
    ((List.range I.ndc).map fun i => (starRingEnd 𝕜) (I.chi i j)
      * D.D d (orb P D k n s (I.pos i))).sum).sum := by
  obtain ⟨t, ht⟩ := atom_ex Ts ha
  have hl : (chan .SC (emb T)).length = nproj T := by rw [chan_emb, cnt_of T hf]
  have e := Force.beta_at (Ts := Ts.map emb) (Lc := Lc) (occfac := occfac) (Nkpts := Nkpts) P
    .SC hP d hk hs (fun h => by simp at h) ht hnc (by rw [hl]; exact hj)
  rw [hl] at e
  have e2 : (P.doms.map fun D => Force.beta (env Ts Lc occfac Nkpts) P .SC D d)
      = P.doms.map fun D => Force.beta (mkEnv (Ts.map emb) Lc occfac Nkpts) P .SC D d := by
    refine List.map_congr_left fun D hD => ?_
    unfold Force.beta
    exact integral_env hn P D (hP D hD) _
  rw [e2, e]
  rfl

/-- The value of one atom, k-point and spin in the trace. -/
theorem hubTrace_eq (hn : ∀ T ∈ Ts, 0 < T.n) (rule : Rule) (hw : aWalk rule Ts = marked Ts 0)
    (E : Env) (P : HGrp 𝕜) (rho : ℕ → ℕ → ℕ → ℝ) (al be : ℕ → 𝕜) :
    hubTrace rule E Ts Lc occfac Nkpts P rho al be
      = -(occfac * ((List.range P.Nk).map fun k => ((List.range P.nsp).map fun s =>
        uSum Ts fun T a => ((List.range (nproj T)).map fun col => RCLike.re
          (((List.range (nproj T)).map fun m =>
            ((pre T (rho a (P.sp s)) (nproj T) col m : ℝ) : 𝕜) * (2 *
            ((List.range P.ncol).map fun n =>
              be (pos .SC (Ts.map emb) P.ncol P.nsp k s a (nproj T) n m)
              * (al (pos .SC (Ts.map emb) P.ncol P.nsp k s a (nproj T) n col)
                * ((gOcc E Nkpts P.toGrp k s n : ℝ) : 𝕜))).sum)).sum)).sum).sum).sum) := by
  have hal : aWalk .always Ts = marked Ts 0 := by
    rw [aWalk_eq, aWalk_always, List.nil_append]
  unfold hubTrace
  dsimp only
  rw [hal, ← List.sum_map_mul_left, ← Pres.sum_map_neg, ← zero_add (List.sum _)]
  refine foldl_adds _ _ _ _ fun k hk x => ?_
  rw [← List.sum_map_mul_left, ← Pres.sum_map_neg]
  refine foldl_adds _ _ _ _ fun s hs x => ?_
  rw [← marked_sum, ← List.sum_map_mul_left, ← Pres.sum_map_neg]
  refine foldl_adds _ _ _ _ fun Ta hTa x => ?_
  obtain ⟨ha, hf⟩ := mem_marked hTa
  rw [sub_eq_add_neg]
  congr 3
  refine congrArg _ (List.map_congr_left fun col hcol => ?_)
  congr 1
  refine congrArg _ (List.map_congr_left fun m hm => ?_)
  congr 2
  refine congrArg _ (List.map_congr_left fun n hnc => ?_)
  rw [alphaGn_at hn rule hw _ _ _ _ ha hf (List.mem_range.1 hnc) (List.mem_range.1 hcol),
    rd_at hn be P.toGrp k s ha hf, rd_at hn al P.toGrp k s ha hf]

/-- The forces added by one group. -/
theorem hubForce_eq (hn : ∀ T ∈ Ts, 0 < T.n) (hc : Contig Ts)
    (hg : ∀ T ∈ Ts, T.flag = true → Good T) (E : Env) (P : HGrp 𝕜) (rho : ℕ → ℕ → ℕ → ℝ)
    (al : ℕ → 𝕜) (be : Fin 3 → ℕ → 𝕜) (F : Force.Forces) (a : ℕ) (d : Fin 3) :
    hubForce E Ts Lc occfac Nkpts P rho al be F a d = F a d
      + ((List.range P.Nk).map fun k => ((List.range P.nsp).map fun s =>
        uSum Ts fun T b => if b = a then -((List.range (nproj T)).map fun row => RCLike.re
          (((List.range (nproj T)).map fun m =>
            ((pre T (rho b (P.sp s)) (nproj T) row m : ℝ) : 𝕜) * (2 *
            ((List.range P.ncol).map fun n =>
              al (pos .SC (Ts.map emb) P.ncol P.nsp k s b (nproj T) n m)
                * ((occfac * gOcc E Nkpts P.toGrp k s n : ℝ) : 𝕜)
              * be d (pos .SC (Ts.map emb) P.ncol P.nsp k s b (nproj T) n row)).sum)).sum)).sum
        else 0).sum).sum := by
  have fold : ∀ {α : Type} (l : List α) (f : Force.Forces → α → Force.Forces) (g : α → ℝ),
      (∀ F, ∀ x ∈ l, f F x a d = F a d + g x) → ∀ F, l.foldl f F a d = F a d + (l.map g).sum := by
    intro α l f g h
    induction l with
    | nil => intro F; simp
    | cons x l ih =>
      intro F
      rw [List.foldl_cons, ih (fun F y hy => h F y (by simp [hy])), h F x (by simp),
        List.map_cons, List.sum_cons, add_assoc]
  unfold hubForce
  dsimp only
  rw [fWalk_contig Ts hc]
  refine fold _ _ _ (fun F k hk => ?_) F
  refine fold _ _ _ (fun F s hs => ?_) F
  rw [← marked_sum, List.foldl_map]
  refine fold _ _ _ (fun F Ta hTa => ?_) F
  obtain ⟨ha, hf⟩ := mem_marked hTa
  have hG := hg Ta.1 (mem_uatoms ha) hf
  unfold Force.bump
  by_cases e : Ta.2 = a
  · rw [if_pos e, ← e, Function.update_self, Pi.add_apply]
    congr 2
    rw [angnum_eq _ hG]
    refine congrArg _ (List.map_congr_left fun row hrow => ?_)
    congr 1
    refine congrArg _ (List.map_congr_left fun m hm => ?_)
    congr 2
    refine congrArg _ (List.map_congr_left fun n hnc => ?_)
    rw [alphaGn_at hn .first (aWalk_first Ts hc) _ _ _ _ ha hf (List.mem_range.1 hnc)
      (List.mem_range.1 hm), rd_at hn (be d) P.toGrp k s ha hf, rd_at hn al P.toGrp k s ha hf]
  · rw [if_neg e, add_zero, Function.update_of_ne (Ne.symm e)]

end Sparc.Hub

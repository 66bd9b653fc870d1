import Verif.Hub.Bridge

/-! # DFT+U: the operator as a sum over the atoms -/

namespace Sparc.Hub

open Pres Loop

variable {𝕜 : Type} [RCLike 𝕜]

/-- A loop over types with an atom counter, as a loop over the atoms. -/
theorem walk {S : Type} (skip : UTyp → Prop) [DecidablePred skip] (f : UTyp → ℕ → S → S)
    (Ts : List UTyp) (c : ℕ) (m : S) :
    Ts.foldl (fun (st : ℕ × S) T => if skip T then (st.1 + T.n, st.2)
      else (List.range T.n).foldl (fun (st : ℕ × S) _ => (st.1 + 1, f T st.1 st.2)) st) (c, m)
    = (c + natoms Ts, ((uatoms Ts).zipIdx c).foldl (fun m Ta =>
        if skip Ta.1 then m else f Ta.1 Ta.2 m) m) := by
  induction Ts generalizing c m with
  | nil => rfl
  | cons T l ih =>
    have hu : uatoms (T :: l) = List.replicate T.n T ++ uatoms l := by
      simp [uatoms]
    have hna : natoms (T :: l) = T.n + natoms l := by simp [natoms]
    rw [List.foldl_cons, hu, List.zipIdx_append, List.foldl_append, List.length_replicate, hna]
    have hs : ∀ (k j : ℕ) (x : S), skip T → ((List.replicate k T).zipIdx j).foldl (fun m Ta =>
        if skip Ta.1 then m else f Ta.1 Ta.2 m) x = x := by
      intro k
      induction k with
      | zero => intro j x _; rfl
      | succ k ih =>
        intro j x h
        rw [List.replicate_succ, List.zipIdx_cons, List.foldl_cons]
        dsimp only
        rw [if_pos h]
        exact ih _ _ h
    have hr : ∀ (k j : ℕ) (x : S), ¬ skip T → (List.range k).foldl
        (fun (st : ℕ × S) _ => (st.1 + 1, f T st.1 st.2)) (j, x)
        = (j + k, ((List.replicate k T).zipIdx j).foldl (fun m Ta =>
        if skip Ta.1 then m else f Ta.1 Ta.2 m) x) := by
      intro k
      induction k with
      | zero => intro j x _; rfl
      | succ k ih =>
        intro j x h
        rw [List.range_succ, List.foldl_append, ih j x h, List.replicate_succ',
          List.zipIdx_append, List.foldl_append, List.length_replicate]
        simp only [List.foldl_cons, List.foldl_nil, List.zipIdx_cons, List.zipIdx_nil, if_neg h]
        rw [add_assoc]
    by_cases h : skip T
    · rw [if_pos h, hs _ _ _ h]
      dsimp only
      rw [ih]
      simp only [add_assoc]
    · rw [if_neg h, hr _ _ _ h]
      rw [ih]
      simp only [add_assoc]

/-- A list of assignments: the value at a position all of whose assignments agree. -/
theorem update_val {I M : Type} [DecidableEq I] (l : List (I × M)) (m : I → M) (q : I) (v : M)
    (h : ∀ p ∈ l, p.1 = q → p.2 = v) (hex : ∃ p ∈ l, p.1 = q) :
    l.foldl (fun m p => Function.update m p.1 p.2) m q = v := by
  induction l using List.reverseRecOn generalizing m with
  | nil => obtain ⟨p, hp, _⟩ := hex; simp at hp
  | append_singleton l p ih =>
    rw [List.foldl_append, List.foldl_cons, List.foldl_nil]
    by_cases e : p.1 = q
    · rw [← e, Function.update_self]
      exact h p (by simp) e
    · rw [Function.update_of_ne (Ne.symm e)]
      refine ih m (fun p' hp' => h p' (by simp [hp'])) ?_
      obtain ⟨p', hp', e'⟩ := hex
      rcases List.mem_append.1 hp' with h' | h'
      · exact ⟨p', h', e'⟩
      · rw [List.mem_singleton.1 h'] at e'
        exact absurd e' e

variable {Ts : List UTyp} {Lc : ℝ × ℝ × ℝ}

/-- Positions of the inner products of two atoms with U. -/
theorem place_inj {ncol a n j a' n' j' : ℕ} {T T' : UTyp}
    (h : (uatoms Ts)[a]? = some T) (h' : (uatoms Ts)[a']? = some T')
    (hn : n < ncol) (hn' : n' < ncol) (hj : j < cnt T) (hj' : j' < cnt T')
    (e : upto nproj Ts a * ncol + (n * cnt T + j) = upto nproj Ts a' * ncol + (n' * cnt T' + j')) :
    a = a' ∧ n = n' ∧ j = j' := by
  obtain ⟨i, hi⟩ := atom_ex Ts h
  obtain ⟨i', hi'⟩ := atom_ex Ts h'
  have := (pos_inj (Ts := Ts.map emb) .SC (ncol := ncol) (nsp := 1) (k := 0) (s := 0) (k' := 0)
    (s' := 0) hi hi' Nat.one_pos Nat.one_pos hn hn' (by rw [chan_emb]; exact hj)
    (by rw [chan_emb]; exact hj')).1 (by
      unfold pos
      rw [chan_emb, chan_emb, before_emb, before_emb]
      simp only [Nat.zero_mul, Nat.zero_add]
      rw [Nat.mul_comm ncol, Nat.mul_comm ncol]
      omega)
  exact ⟨this.2.2.1, this.2.2.2.1, this.2.2.2.2⟩

theorem cnt_of (T : UTyp) (h : T.flag = true) : cnt T = nproj T := if_pos h

theorem mem_uatoms {a : ℕ} {T : UTyp} (h : (uatoms Ts)[a]? = some T) : T ∈ Ts := by
  have := List.mem_of_getElem? h
  unfold uatoms at this
  obtain ⟨T', hT', hr⟩ := List.mem_flatMap.1 this
  rw [List.eq_of_mem_replicate hr]
  exact hT'

/-- The products with the factors. -/
theorem preAlpha_at (hn : ∀ T ∈ Ts, 0 < T.n) (ncol : ℕ) (rho : ℕ → ℕ → ℝ) (al : ℕ → 𝕜)
    {a n r : ℕ} {T : UTyp} (ha : (uatoms Ts)[a]? = some T) (hf : T.flag = true)
    (hnc : n < ncol) (hr : r < nproj T) :
    preAlpha Ts ncol rho al (upto nproj Ts a * ncol + (n * nproj T + r))
      = ((List.range (nproj T)).map fun c => ((pre T (rho a) (nproj T) r c : ℝ) : 𝕜)
          * al (upto nproj Ts a * ncol + (n * nproj T + c))).sum := by
  have hip : ∀ a T, (uatoms Ts)[a]? = some T → T.flag = true →
      (ipU Ts a).toNat = upto nproj Ts a := by
    intro a T h1 h2
    rw [env_ip hn h1 h2, before_emb]
  set val : UTyp → ℕ → ℕ → ℕ → 𝕜 := fun T a n row =>
    ((List.range (nproj T)).map fun col => ((pre T (rho a) (nproj T) row col : ℝ) : 𝕜)
            * al ((ipU Ts a).toNat * ncol + (n * nproj T + col))).sum with hval
  have h1 : preAlpha Ts ncol rho al = ((uatoms Ts).zipIdx 0).foldl (fun m Ta =>
      if Ta.1.flag = false ∨ nproj Ta.1 = 0 then m else
        (List.range ncol).foldl (fun m n => (List.range (nproj Ta.1)).foldl (fun m row =>
        Function.update m ((ipU Ts Ta.2).toNat * ncol + (n * nproj Ta.1 + row))
          (val Ta.1 Ta.2 n row)) m) m) (fun _ => 0) := by
    have := congrArg Prod.snd (walk (fun T => T.flag = false ∨ nproj T = 0)
      (fun T a m => (List.range ncol).foldl (fun m n => (List.range (nproj T)).foldl (fun m row =>
        Function.update m ((ipU Ts a).toNat * ncol + (n * nproj T + row))
          (val T a n row)) m) m) Ts 0 (fun _ => (0 : 𝕜)))
    dsimp only at this
    rw [← this]
    unfold preAlpha
    congr 2
    funext st T
    by_cases h1 : T.flag = false
    · rw [if_pos h1, if_pos (Or.inl h1)]
    · by_cases h2 : nproj T = 0
      · rw [if_neg h1, if_pos h2, if_pos (Or.inr h2)]
      · rw [if_neg h1, if_neg h2, if_neg (by tauto)]
  have h2 : preAlpha Ts ncol rho al = (((uatoms Ts).zipIdx 0).flatMap fun Ta =>
      if Ta.1.flag = false ∨ nproj Ta.1 = 0 then [] else
        (List.range ncol).flatMap fun n => (List.range (nproj Ta.1)).map fun row =>
        ((ipU Ts Ta.2).toNat * ncol + (n * nproj Ta.1 + row), val Ta.1 Ta.2 n row)).foldl
          (fun m p => Function.update m p.1 p.2) (fun _ => 0) := by
    rw [h1, List.foldl_flatMap]
    congr 1
    funext m Ta
    split
    · rfl
    · rw [List.foldl_flatMap]
      congr 1
      funext m n
      rw [List.foldl_map]
  rw [h2]
  have hv : val T a n r = ((List.range (nproj T)).map fun c =>
      ((pre T (rho a) (nproj T) r c : ℝ) : 𝕜)
          * al (upto nproj Ts a * ncol + (n * nproj T + c))).sum := by
    rw [hval]
    dsimp only
    rw [hip a T ha hf]
  rw [← hv]
  refine update_val _ _ _ _ (fun p hp e => ?_) ?_
  · obtain ⟨⟨T', a'⟩, hz, hp'⟩ := List.mem_flatMap.1 hp
    dsimp only at hp'
    have ha' : (uatoms Ts)[a']? = some T' := mem_zip hz
    by_cases hc : T'.flag = false ∨ nproj T' = 0
    · rw [if_pos hc] at hp'; simp at hp'
    · rw [if_neg hc] at hp'
      obtain ⟨n', hn', hp''⟩ := List.mem_flatMap.1 hp'
      obtain ⟨r', hr', rfl⟩ := List.mem_map.1 hp''
      have hf' : T'.flag = true := by
        by_contra h; exact hc (Or.inl (by simpa using h))
      dsimp only at e ⊢
      rw [hip a' T' ha' hf'] at e
      obtain ⟨rfl, rfl, rfl⟩ := place_inj ha' ha (List.mem_range.1 hn') hnc
        (by rw [cnt_of T' hf']; exact List.mem_range.1 hr') (by rw [cnt_of T hf]; exact hr)
        (by rw [cnt_of T' hf', cnt_of T hf]; exact e)
      rw [ha] at ha'
      rw [Option.some.inj ha']
  · refine ⟨(upto nproj Ts a * ncol + (n * nproj T + r), val T a n r), ?_, rfl⟩
    refine List.mem_flatMap.2 ⟨(T, a), ?_, ?_⟩
    · rw [List.mem_zipIdx_iff_getElem?]
      simpa using ha
    · dsimp only
      rw [if_neg (by rw [hf]; simp; omega), hip a T ha hf]
      exact List.mem_flatMap.2 ⟨n, List.mem_range.2 hnc, List.mem_map.2 ⟨r, List.mem_range.2 hr, rfl⟩⟩

/-- Sum over the atoms with U. -/
def uSum {M : Type} [AddCommMonoid M] (Ts : List UTyp) (F : UTyp → ℕ → M) : M :=
  ((uatoms Ts).zipIdx.map fun Ta => if Ta.1.flag = true then F Ta.1 Ta.2 else 0).sum

theorem uSum_congr {M : Type} [AddCommMonoid M] (Ts : List UTyp) (F G : UTyp → ℕ → M)
    (h : ∀ a T, (uatoms Ts)[a]? = some T → T.flag = true → F T a = G T a) :
    uSum Ts F = uSum Ts G := by
  unfold uSum
  refine congrArg _ (List.map_congr_left fun Ta hTa => ?_)
  by_cases hf : Ta.1.flag = true
  · rw [if_pos hf, if_pos hf]; exact h _ _ (mem_zip hTa) hf
  · rw [if_neg hf, if_neg hf]

/-- `by_atoms` over the atoms with U. -/
theorem by_uatoms {M : Type} [AddCommMonoid M] (D : PDom 𝕜) (hD : Placed (Ts.map emb) D)
    (G : List (NImg 𝕜) × ℕ → NImg 𝕜 → M) (F : UTyp → ℕ → NImg 𝕜 → M)
    (h : ∀ li ∈ D.imgs.zipIdx, ∀ I ∈ li.1, ∀ T, (uatoms Ts)[I.atom]? = some T →
      Ts[li.2]? = some T → G li I = if T.flag = true then F T I.atom I else 0) :
    (D.imgs.zipIdx.map fun li => (li.1.map fun I => G li I).sum).sum
      = uSum Ts fun T a => ofAtom D a (F T a) := by
  have key : (D.imgs.zipIdx.map fun li => (li.1.map fun I => G li I).sum).sum
      = ((uatoms Ts).zipIdx.map fun Ta => ofAtom D Ta.2 fun I =>
        if Ta.1.flag = true then F Ta.1 Ta.2 I else 0).sum := by
    simp only [ofAtom_eq]
    rw [Soc.sum_swap]
    refine congrArg _ (List.map_congr_left fun li hli => ?_)
    rw [Soc.sum_swap]
    refine congrArg _ (List.map_congr_left fun I hI => ?_)
    obtain ⟨T', hT'⟩ := hD li hli I hI
    obtain ⟨T, q1, q2, q3⟩ := atom_types Ts hT'
    rw [h li hli I hI T q1 q3]
    have := Soc.zip_one (uatoms Ts) 0 I.atom T q1
      (fun y => if y.1.flag = true then F y.1 y.2 I else 0)
    simp only [Nat.zero_add] at this
    rw [← this]
  rw [key]
  unfold uSum
  refine congrArg _ (List.map_congr_left fun Ta _ => ?_)
  by_cases hf : Ta.1.flag = true
  · simp only [if_pos hf]
  · simp only [if_neg hf]
    unfold ofAtom
    exact List.sum_eq_zero fun v hv => by
      obtain ⟨_, _, rfl⟩ := List.mem_map.1 hv; rfl

/-- The operator on one process. -/
theorem vhub_at (hn : ∀ T ∈ Ts, 0 < T.n) (dV : ℝ) (kv : ℝ × ℝ × ℝ) (ncol : ℕ)
    (ldi ldo : PDom 𝕜 → ℕ) (doms : List (PDom 𝕜)) (hD : ∀ D ∈ doms, Placed (Ts.map emb) D)
    (hR : ∀ D ∈ doms, Soc.RealChi D) (rho : ℕ → ℕ → ℝ) (x : PDom 𝕜 → ℕ → 𝕜) (D : PDom 𝕜)
    (hDm : D ∈ doms) (hin : Soc.Inside D) (hld : D.nd ≤ ldo D) (H : ℕ → 𝕜) {n q : ℕ}
    (hnc : n < ncol) (hq : q < D.nd) :
    vhub Ts Lc dV kv ncol ldi ldo doms rho x D H (n * ldo D + q) = H (n * ldo D + q)
      + uSum Ts fun T a => ((List.range (nproj T)).map fun r =>
          ((List.range (nproj T)).map fun c => ((pre T (rho a) (nproj T) r c : ℝ) : 𝕜)
            * Soc.projV dV Lc kv ldi doms x .SC 0 a n c).sum * Soc.ket Lc kv D .SC 0 a r q).sum := by
  unfold vhub
  have hal : (doms.map fun D' => Soc.gather (env Ts Lc 1 1) dV kv ncol (ldi D') 0 .SC 0 D' (x D'))
      = doms.map fun D' => Soc.gather (mkEnv (Ts.map emb) Lc 1 1) dV kv ncol (ldi D')
        ((if Opt.SC = .SO2 then 1 - 0 else 0) * D'.nd) .SC 0 D' (x D') := by
    refine List.map_congr_left fun D' hD' => ?_
    rw [gather_env hn _ _ _ _ _ _ D' (hD D' hD')]
    simp
  rw [hal, scatter_env hn _ _ _ _ _ D (hD D hDm), Soc.scatter_sum]
  set al := (doms.map fun D' => Soc.gather (mkEnv (Ts.map emb) Lc 1 1) dV kv ncol (ldi D')
        ((if Opt.SC = .SO2 then 1 - 0 else 0) * D'.nd) .SC 0 D' (x D')).sum with halp
  congr 1
  have hmain := by_uatoms (Ts := Ts) D (hD D hDm)
    (fun li I => ((List.range ncol).map fun n' => ((List.range I.ndc).map fun i =>
        if 0 + (n' * ldo D + I.pos i) = n * ldo D + q then
          blochC (mkEnv (Ts.map emb) Lc 1 1).L kv I.R *
          ((List.range ((mkEnv (Ts.map emb) Lc 1 1).nproj .SC li.2)).map fun p =>
            Soc.chiOut .SC 0 I i p
            * preAlpha Ts ncol rho al ((mkEnv (Ts.map emb) Lc 1 1).ip .SC I.atom * ncol
              + (n' * (mkEnv (Ts.map emb) Lc 1 1).nproj .SC li.2 + p))).sum else 0).sum).sum)
    (fun T a I => ((List.range (nproj T)).map fun r =>
      ((List.range (nproj T)).map fun c => ((pre T (rho a) (nproj T) r c : ℝ) : 𝕜)
            * Soc.projV dV Lc kv ldi doms x .SC 0 a n c).sum * ((starRingEnd 𝕜) (phase Lc kv I.R)
    * ((List.range I.ndc).map fun i => if I.pos i = q then bra .SC 0 I i r else 0).sum)).sum)
    ?_
  · rw [hmain]
    refine uSum_congr _ _ _ fun a T _ _ => ?_
    unfold Soc.ket
    rw [Soc.ofAtom_sum]
    refine congrArg _ (List.map_congr_left fun r _ => ?_)
    rw [Soc.ofAtom_mul]
  · intro li hli I hI T q1 q3
    have hnp : (mkEnv (Ts.map emb) Lc 1 1).nproj .SC li.2 = cnt T := by
      rw [mk_nproj (o := .SC) (T := emb T) (h := by rw [List.getElem?_map, q3]; rfl), chan_emb]
    have hip : (mkEnv (Ts.map emb) Lc 1 1).ip .SC I.atom = upto nproj Ts I.atom := by
      obtain ⟨i, hi⟩ := atom_ex Ts q1
      rw [mk_ip _ _ _ _ _ _ (List.getElem?_eq_some_iff.1 hi).1.le, before_emb]
    rw [hnp, hip]
    by_cases hf : T.flag = true
    · rw [if_pos hf, cnt_of T hf]
      have hpos : ∀ n' i, i < I.ndc → (0 + (n' * ldo D + I.pos i) = n * ldo D + q ↔
          n' = n ∧ I.pos i = q) := by
        intro n' i hi
        have hp : I.pos i < D.nd := hin li.1 (List.fst_mem_of_mem_zipIdx hli) I hI i hi
        constructor
        · intro e
          have : n' = n := by
            rcases lt_trichotomy n' n with h | h | h
            · have := Nat.mul_le_mul_right (ldo D) (Nat.succ_le_of_lt h)
              rw [Nat.succ_mul] at this
              omega
            · exact h
            · have := Nat.mul_le_mul_right (ldo D) (Nat.succ_le_of_lt h)
              rw [Nat.succ_mul] at this
              omega
          subst this
          exact ⟨rfl, by omega⟩
        · rintro ⟨rfl, rfl⟩; ring
      have step : ∀ g : ℕ → ℕ → 𝕜, ((List.range ncol).map fun n' => ((List.range I.ndc).map fun i =>
          if 0 + (n' * ldo D + I.pos i) = n * ldo D + q then g n' i else 0).sum).sum
          = ((List.range I.ndc).map fun i => if I.pos i = q then g n i else 0).sum := by
        intro g
        have : ((List.range ncol).map fun n' => ((List.range I.ndc).map fun i =>
          if 0 + (n' * ldo D + I.pos i) = n * ldo D + q then g n' i else 0).sum).sum
          = ((List.range ncol).map fun n' => if n' = n then ((List.range I.ndc).map fun i =>
            if I.pos i = q then g n' i else 0).sum else 0).sum := by
          refine congrArg _ (List.map_congr_left fun n' _ => ?_)
          rw [← sum_ite_list]
          refine congrArg _ (List.map_congr_left fun i hi => ?_)
          have hp := hpos n' i (List.mem_range.1 hi)
          by_cases e : n' = n
          · subst e
            rw [if_pos rfl]
            exact if_congr (by rw [hp]; simp) rfl rfl
          · rw [if_neg (by rw [hp]; tauto), if_neg e]
        rw [this, sum_range_one ncol n hnc]
      rw [step]
      have hterm : ∀ i, ((List.range (nproj T)).map fun p => Soc.chiOut .SC 0 I i p
            * preAlpha Ts ncol rho al (upto nproj Ts I.atom * ncol + (n * nproj T + p))).sum
          = ((List.range (nproj T)).map fun r => bra .SC 0 I i r *
            ((List.range (nproj T)).map fun c => ((pre T (rho I.atom) (nproj T) r c : ℝ) : 𝕜)
            * Soc.projV dV Lc kv ldi doms x .SC 0 I.atom n c).sum).sum := by
        intro i
        refine congrArg _ (List.map_congr_left fun r hr => ?_)
        rw [preAlpha_at hn ncol rho al q1 hf hnc (List.mem_range.1 hr)]
        congr 1
        refine congrArg _ (List.map_congr_left fun c hc => ?_)
        congr 1
        obtain ⟨t, ht⟩ := atom_ex Ts q1
        have hl : (chan .SC (emb T)).length = nproj T := by rw [chan_emb, cnt_of T hf]
        have e := Soc.alpha_sum (Ts := Ts.map emb) (Lc := Lc) (occfac := 1) (Nkpts := 1) dV kv ncol
          ldi doms hD hR x .SC 0 (fun h => by simp at h) ht hnc
          (by rw [hl]; exact List.mem_range.1 hc)
        rw [← halp, hl] at e
        have hpl : upto nproj Ts I.atom * ncol + (n * nproj T + c)
            = Soc.place (Ts.map emb) .SC ncol I.atom (nproj T) n c := by
          unfold Soc.place; rw [before_emb]; ring
        rw [hpl, e]
        rfl
      simp only [hterm]
      have hbl : (blochC (mkEnv (Ts.map emb) Lc 1 1).L kv I.R : 𝕜)
          = (starRingEnd 𝕜) (phase Lc kv I.R) := blochC_eq Lc kv I.R
      rw [hbl]
      generalize hX : (fun r => ((List.range (nproj T)).map fun c =>
        ((pre T (rho I.atom) (nproj T) r c : ℝ) : 𝕜)
            * Soc.projV dV Lc kv ldi doms x .SC 0 I.atom n c).sum) = X
      have hX' : ∀ r, ((List.range (nproj T)).map fun c =>
        ((pre T (rho I.atom) (nproj T) r c : ℝ) : 𝕜)
            * Soc.projV dV Lc kv ldi doms x .SC 0 I.atom n c).sum = X r := fun r => congrFun hX r
      simp only [hX', ← List.sum_map_mul_left]
      rw [Soc.sum_swap (List.range (nproj T))]
      refine congrArg _ (List.map_congr_left fun i _ => ?_)
      by_cases e : I.pos i = q
      · simp only [if_pos e]
        refine congrArg _ (List.map_congr_left fun cj _ => ?_)
        ring
      · simp only [if_neg e, mul_zero]
        simp
    · rw [if_neg hf]
      unfold cnt
      rw [if_neg hf]
      simp

end Sparc.Hub

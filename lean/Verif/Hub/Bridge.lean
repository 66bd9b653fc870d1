import Verif.Hub.Layout

/-! # DFT+U: the loops over images in terms of the projector loops

A type with U is a `Pres.Typ` with its channels of nonzero U; a type without U has no channels. -/

namespace Sparc.Hub

open Pres Loop

variable {𝕜 : Type} [RCLike 𝕜]

/-- The channels of a type as a type of the nonlocal loops. -/
noncomputable def emb (T : UTyp) : Typ :=
  ⟨T.lmax, -1, fun l => if T.flag = true ∧ T.U l ≠ 0 then T.ppl l else 0, fun _ => 0, fun _ => 0,
    fun _ => 0, T.n⟩

/-- Number of projectors of an atom, zero without U. -/
noncomputable def cnt (T : UTyp) : ℕ := if T.flag = true then nproj T else 0

theorem nprojOf_emb (T : UTyp) : nprojOf .SC (emb T) = cnt T := by
  unfold nprojOf cnt nproj emb
  rw [if_pos rfl]
  have hl : ∀ l : ℕ, ¬ ((l : ℤ) = -1) := fun l => by omega
  by_cases h : T.flag = true
  · rw [if_pos h]
    congr 1
    funext n l
    dsimp only
    rw [if_neg (hl l)]
    by_cases hu : T.U l = 0
    · simp [hu]
    · simp [hu, h]
  · rw [if_neg h]
    have hc : ∀ l, ¬ (T.flag = true ∧ T.U l ≠ 0) := fun l hc => h hc.1
    simp only [hl, if_false, hc, Nat.zero_mul, Nat.add_zero]
    induction List.range (T.lmax + 1) with
    | nil => rfl
    | cons a l ih => rw [List.foldl_cons]; exact ih

theorem chan_emb (T : UTyp) : (chan .SC (emb T)).length = cnt T := by
  rw [chan_length, nprojOf_emb]

theorem atoms_emb (Ts : List UTyp) :
    atoms (Ts.map emb) = Ts.zipIdx.flatMap fun T => List.replicate T.1.n (emb T.1, T.2) := by
  unfold atoms
  rw [List.zipIdx_map, List.flatMap_map]
  rfl

theorem atoms_fst (Ts : List UTyp) :
    (atoms (Ts.map emb)).map Prod.fst = (uatoms Ts).map emb := by
  rw [atoms_emb, uatoms, List.map_flatMap, List.map_flatMap]
  simp only [List.map_replicate]
  have : ∀ k, (Ts.zipIdx k).flatMap (fun T => List.replicate T.1.n (emb T.1))
      = Ts.flatMap fun T => List.replicate T.n (emb T) := by
    induction Ts with
    | nil => intro k; rfl
    | cons T l ih =>
      intro k
      rw [List.zipIdx_cons, List.flatMap_cons, List.flatMap_cons, ih]
  exact this 0

theorem atoms_len (Ts : List UTyp) : (atoms (Ts.map emb)).length = (uatoms Ts).length := by
  have := congrArg List.length (atoms_fst Ts)
  simpa using this

theorem before_emb (Ts : List UTyp) (a : ℕ) :
    before .SC (Ts.map emb) a = upto nproj Ts a := by
  unfold before upto
  have h : ∀ l : List (Typ × ℕ), (l.map fun T => (chan .SC T.1).length)
      = ((l.map Prod.fst).map fun T => (chan .SC T).length) := by
    intro l; rw [List.map_map]; rfl
  rw [h, List.map_take, atoms_fst, ← List.map_take, List.map_map]
  refine congrArg _ (List.map_congr_left fun T _ => ?_)
  rw [Function.comp, chan_emb]; rfl

/-- The types of an atom in the two lists. -/
theorem atom_types (Ts : List UTyp) {a i : ℕ} {T' : Typ}
    (h : (atoms (Ts.map emb))[a]? = some (T', i)) :
    ∃ T, (uatoms Ts)[a]? = some T ∧ T' = emb T ∧ Ts[i]? = some T := by
  have h1 : (uatoms Ts)[a]?.map emb = some T' := by
    rw [← List.getElem?_map, ← atoms_fst, List.getElem?_map, h]; rfl
  have hm := List.mem_of_getElem? h
  rw [atoms_emb] at hm
  obtain ⟨⟨T, j⟩, hz, hr⟩ := List.mem_flatMap.1 hm
  have he := List.eq_of_mem_replicate hr
  dsimp only at he
  obtain ⟨rfl, rfl⟩ := Prod.mk.inj he
  have hj : Ts[i]? = some T := mem_zip hz
  -- the atom list of the indexed types
  have key : ∀ (l : List UTyp) (k : ℕ) (a : ℕ) (p : Typ × ℕ),
      ((l.zipIdx k).flatMap fun T => List.replicate T.1.n (emb T.1, T.2))[a]? = some p →
      ∃ T, (l.flatMap fun T => List.replicate T.n T)[a]? = some T ∧ p.1 = emb T ∧ k ≤ p.2 ∧
        l[p.2 - k]? = some T := by
    intro l
    induction l with
    | nil => intro k a p hp; simp at hp
    | cons T l ih =>
      intro k a p hp
      rw [List.zipIdx_cons, List.flatMap_cons] at hp
      rw [List.flatMap_cons]
      by_cases hlt : a < T.n
      · rw [List.getElem?_append_left (by simpa using hlt)] at hp
        rw [List.getElem?_append_left (by simpa using hlt)]
        have := List.eq_of_mem_replicate (List.mem_of_getElem? hp)
        subst this
        refine ⟨T, ?_, rfl, le_rfl, ?_⟩
        · rw [List.getElem?_replicate, if_pos hlt]
        · simp
      · rw [List.getElem?_append_right (by simpa using hlt), List.length_replicate] at hp
        rw [List.getElem?_append_right (by simpa using hlt), List.length_replicate]
        obtain ⟨T', q1, q2, q3, q4⟩ := ih (k + 1) _ p hp
        refine ⟨T', q1, q2, by omega, ?_⟩
        have : p.2 - k = p.2 - (k + 1) + 1 := by omega
        rw [this, List.getElem?_cons_succ]
        exact q4
  rw [atoms_emb] at h
  obtain ⟨T', q1, q2, _, q4⟩ := key Ts 0 a _ h
  exact ⟨T', q1, q2, by simpa using q4⟩

theorem atom_ex (Ts : List UTyp) {a : ℕ} {T : UTyp} (h : (uatoms Ts)[a]? = some T) :
    ∃ i, (atoms (Ts.map emb))[a]? = some (emb T, i) := by
  have h1 : ((atoms (Ts.map emb)).map Prod.fst)[a]? = some (emb T) := by
    rw [atoms_fst, List.getElem?_map, h]; rfl
  rw [List.getElem?_map] at h1
  cases he : (atoms (Ts.map emb))[a]? with
  | none => rw [he] at h1; simp at h1
  | some p =>
    rw [he] at h1
    obtain ⟨T', i⟩ := p
    simp only [Option.map_some, Option.some.injEq] at h1
    exact ⟨i, by rw [← h1]⟩

section
variable {Ts : List UTyp} {Lc : ℝ × ℝ × ℝ} {occfac : ℝ} {Nkpts : ℕ}

theorem env_np (i : ℕ) : (env Ts Lc occfac Nkpts).np i
    = (mkEnv (Ts.map emb) Lc occfac Nkpts).nproj .SC i := by
  cases h : Ts[i]? with
  | none => simp [env, mkEnv, NEnv.nproj, h]
  | some T =>
    rw [mk_nproj (o := .SC) (T := emb T) (h := by rw [List.getElem?_map, h]; rfl), chan_emb]
    unfold env cnt
    dsimp only
    rw [h]
    dsimp only
    by_cases hf : T.flag = true
    · simp [hf]
    · have : T.flag = false := by simpa using hf
      simp [this]

theorem env_ip (hn : ∀ T ∈ Ts, 0 < T.n) {a : ℕ} {T : UTyp} (ha : (uatoms Ts)[a]? = some T)
    (hT : T.flag = true) : (ipU Ts a).toNat = before .SC (Ts.map emb) a := by
  unfold ipU
  rw [(displ_at nproj Ts hn ha hT).1, before_emb]; rfl

theorem env_total (hn : ∀ T ∈ Ts, 0 < T.n) :
    (ipU Ts (lastU (ipU Ts) (natoms Ts)).toNat).toNat = total .SC (Ts.map emb) := by
  have ht : total .SC (Ts.map emb) = upto nproj Ts (natoms Ts) := by
    rw [← before_emb, ← uatoms_length, ← atoms_len, before_total]
  rw [ht]
  by_cases hu : ∃ T ∈ Ts, T.flag = true
  · unfold ipU
    rw [(displ_last nproj Ts hn hu).2]; rfl
  · unfold ipU
    rw [displ_none nproj Ts hn hu]
    symm
    refine upto_unflagged nproj Ts (fun T hT => ?_) _
    by_contra hc
    exact hu ⟨T, hT, by simpa using hc⟩

theorem flag_of_np {T : UTyp} {i : ℕ} (hi : Ts[i]? = some T)
    (h : (env Ts Lc occfac Nkpts).np i ≠ 0) : T.flag = true := by
  by_contra hc
  have : T.flag = false := by simpa using hc
  refine h ?_
  unfold env
  dsimp only
  rw [hi]
  simp [this]

/-- A loop over the images that passes over types without projectors. -/
theorem imgs_congr {S : Type} (hn : ∀ T ∈ Ts, 0 < T.n) (D : PDom 𝕜) (hD : Placed (Ts.map emb) D)
    (f : ℕ → ℕ → S → NImg 𝕜 → S) (m : S) :
    D.imgs.zipIdx.foldl (fun m (li : List (NImg 𝕜) × ℕ) =>
      if (env Ts Lc occfac Nkpts).nproj .SC li.2 = 0 then m
      else li.1.foldl (fun m I => f ((env Ts Lc occfac Nkpts).nproj .SC li.2)
        ((env Ts Lc occfac Nkpts).ip .SC I.atom) m I) m) m
    = D.imgs.zipIdx.foldl (fun m (li : List (NImg 𝕜) × ℕ) =>
      if (mkEnv (Ts.map emb) Lc occfac Nkpts).nproj .SC li.2 = 0 then m
      else li.1.foldl (fun m I => f ((mkEnv (Ts.map emb) Lc occfac Nkpts).nproj .SC li.2)
        ((mkEnv (Ts.map emb) Lc occfac Nkpts).ip .SC I.atom) m I) m) m := by
  refine List.foldl_ext _ _ _ fun m li hli => ?_
  have e : (env Ts Lc occfac Nkpts).nproj .SC li.2
      = (mkEnv (Ts.map emb) Lc occfac Nkpts).nproj .SC li.2 := env_np li.2
  rw [e]
  by_cases h0 : (mkEnv (Ts.map emb) Lc occfac Nkpts).nproj .SC li.2 = 0
  · rw [if_pos h0, if_pos h0]
  · rw [if_neg h0, if_neg h0]
    refine List.foldl_ext _ _ _ fun m I hI => ?_
    obtain ⟨T', hT'⟩ := hD li hli I hI
    obtain ⟨T, q1, q2, q3⟩ := atom_types Ts hT'
    have hf := flag_of_np (Lc := Lc) (occfac := occfac) (Nkpts := Nkpts) q3 (by
      rw [← e] at h0; exact h0)
    have : (env Ts Lc occfac Nkpts).ip .SC I.atom
        = (mkEnv (Ts.map emb) Lc occfac Nkpts).ip .SC I.atom := by
      rw [mk_ip _ _ _ _ _ _ (List.getElem?_eq_some_iff.1 hT').1.le]
      exact env_ip hn q1 hf
    rw [this]

theorem gather_env (hn : ∀ T ∈ Ts, 0 < T.n) (dV : ℝ) (kv : ℝ × ℝ × ℝ) (ncol ldi off s : ℕ)
    (D : PDom 𝕜) (hD : Placed (Ts.map emb) D) (x : ℕ → 𝕜) :
    Soc.gather (env Ts Lc occfac Nkpts) dV kv ncol ldi off .SC s D x
      = Soc.gather (mkEnv (Ts.map emb) Lc occfac Nkpts) dV kv ncol ldi off .SC s D x :=
  imgs_congr hn D hD (fun np ip m (I : NImg 𝕜) => (List.range ncol).foldl (fun m n =>
      (List.range np).foldl (fun m p =>
        addAt m (ip * ncol + (n * np + p))
          (bloch Lc kv I.R * (dV : 𝕜) * ((List.range I.ndc).map fun i =>
            Soc.entry .SC (Soc.chiIn .SC s I i p) * x (off + (n * ldi + I.pos i))).sum)) m) m) _

theorem scatter_env (hn : ∀ T ∈ Ts, 0 < T.n) (kv : ℝ × ℝ × ℝ) (ncol ldo off s : ℕ)
    (D : PDom 𝕜) (hD : Placed (Ts.map emb) D) (al Hx : ℕ → 𝕜) :
    Soc.scatter (env Ts Lc occfac Nkpts) kv ncol ldo off .SC s D al Hx
      = Soc.scatter (mkEnv (Ts.map emb) Lc occfac Nkpts) kv ncol ldo off .SC s D al Hx :=
  imgs_congr hn D hD (fun np ip H (I : NImg 𝕜) => (List.range ncol).foldl (fun H n =>
      (List.range I.ndc).foldl (fun H i =>
        addAt H (off + (n * ldo + I.pos i))
          (blochC Lc kv I.R * ((List.range np).map fun p =>
            Soc.chiOut .SC s I i p * al (ip * ncol + (n * np + p))).sum)) H) H) _

theorem integral_env (hn : ∀ T ∈ Ts, 0 < T.n) (P : Grp 𝕜) (D : PDom 𝕜)
    (hD : Placed (Ts.map emb) D) (v : ℕ → NImg 𝕜 → ℕ → ℕ → ℕ → 𝕜) :
    integral (env Ts Lc occfac Nkpts) P .SC D v
      = integral (mkEnv (Ts.map emb) Lc occfac Nkpts) P .SC D v := by
  have ht : (env Ts Lc occfac Nkpts).ip .SC (env Ts Lc occfac Nkpts).natom
      = (mkEnv (Ts.map emb) Lc occfac Nkpts).ip .SC (mkEnv (Ts.map emb) Lc occfac Nkpts).natom := by
    have e : (mkEnv (Ts.map emb) Lc occfac Nkpts).natom = (atoms (Ts.map emb)).length :=
      (atoms_length _).symm
    rw [e, mk_ip _ _ _ _ _ _ le_rfl, before_total]
    exact env_total hn
  unfold integral
  dsimp only
  rw [ht]
  refine List.foldl_ext _ _ _ fun m k _ => ?_
  exact imgs_congr hn D hD (fun np ip m (I : NImg 𝕜) => (List.range P.nsp).foldl (fun m s =>
      (List.range P.ncol).foldl (fun m n => (List.range np).foldl (fun m p =>
        addAt m ((mkEnv (Ts.map emb) Lc occfac Nkpts).ip .SC
            (mkEnv (Ts.map emb) Lc occfac Nkpts).natom * P.ncol * P.nsp * k
          + ((mkEnv (Ts.map emb) Lc occfac Nkpts).ip .SC
            (mkEnv (Ts.map emb) Lc occfac Nkpts).natom * P.ncol * s + ip * P.ncol)
          + (n * np + p)) (v k I s n p)) m) m) m) _

end

end Sparc.Hub

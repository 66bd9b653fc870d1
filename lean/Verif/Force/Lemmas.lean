import Verif.Force.Model
import Verif.Pres.Props

/-! # Forces: loops and closed forms -/

namespace Sparc.Force

open Loop Pres Matrix

/-! ### Adding to the entries of an atom -/

theorem bump_eq (F : Forces) (a : ℕ) (v : Fin 3 → ℝ) : bump F a v = F + Pi.single a v := by
  funext b
  unfold bump
  by_cases hb : b = a
  · subst hb; simp
  · simp [hb]

theorem sum_apply {α : Type} (l : List α) (f : α → Forces) (a : ℕ) :
    (l.map f).sum a = (l.map fun x => f x a).sum :=
  map_sum_list (Pi.evalAddMonoidHom (fun _ : ℕ => Fin 3 → ℝ) a) l f

theorem sum_apply3 {α : Type} (l : List α) (f : α → Fin 3 → ℝ) (c : Fin 3) :
    (l.map f).sum c = (l.map fun x => f x c).sum :=
  map_sum_list (Pi.evalAddMonoidHom (fun _ : Fin 3 => ℝ) c) l f

/-- The sum over the images of an atom on a process. -/
noncomputable def onAtom {M : Type} [AddCommMonoid M] (D : Dom) (a : ℕ) (f : Img → M) : M :=
  ((D.imgs.flatten.filter fun I => I.R.idx = a).map f).sum

theorem filter_sum {α M : Type} [AddCommMonoid M] (l : List α) (p : α → Prop) [DecidablePred p]
    (f : α → M) : ((l.filter fun x => p x).map f).sum = (l.map fun x => if p x then f x else 0).sum := by
  induction l with
  | nil => rfl
  | cons x l ih =>
    by_cases hx : p x
    · simp [hx, ih]
    · simp [hx, ih]

theorem flatten_sum {α M : Type} [AddCommMonoid M] (l : List (List α)) (f : α → M) :
    (l.flatten.map f).sum = (l.map fun x => (x.map f).sum).sum := by
  induction l with
  | nil => rfl
  | cons x l ih => rw [List.flatten_cons, List.map_append, List.sum_append, ih]; rfl

/-- The loops over types and images. -/
theorem foldl_bump (D : Dom) (v : Img → Fin 3 → ℝ) (a : ℕ) :
    (D.imgs.foldl (fun F l => l.foldl (fun F (I : Img) => bump F I.R.idx (v I)) F) (0 : Forces)) a
      = onAtom D a v := by
  rw [foldl_adds _ (fun l : List Img => (l.map fun I => (Pi.single I.R.idx (v I) : Forces)).sum) _ _
    (fun l _ s => foldl_adds _ _ _ _ fun I _ s => bump_eq s I.R.idx (v I)), zero_add, sum_apply]
  unfold onAtom
  rw [filter_sum, flatten_sum]
  refine congrArg _ (List.map_congr_left fun l _ => ?_)
  rw [sum_apply]
  refine congrArg _ (List.map_congr_left fun I _ => ?_)
  by_cases h : I.R.idx = a
  · subst h; simp
  · simp [h]

theorem onAtom_map {M N : Type} [AddCommMonoid M] [AddCommMonoid N] (g : M →+ N) (D : Dom) (a : ℕ)
    (f : Img → M) : g (onAtom D a f) = onAtom D a fun I => g (f I) := map_sum_list g _ f

theorem onAtom_congr {M : Type} [AddCommMonoid M] {D : Dom} {a : ℕ} {f g : Img → M}
    (h : ∀ I, f I = g I) : onAtom D a f = onAtom D a g :=
  congrArg List.sum (List.map_congr_left fun I _ => h I)

theorem onAtom_mul (D : Dom) (a : ℕ) (r : ℝ) (f : Img → ℝ) :
    onAtom D a (fun I => r * f I) = r * onAtom D a f := List.sum_map_mul_left ..

/-! ### Local forces -/

variable {L : ℕ → ℝ} {E : Env}

/-- The Cartesian component of a vector given along the lattice directions. -/
noncomputable def toC (L : ℕ → ℝ) (c : Fin 3) : (Fin 3 → ℝ) →ₗ[ℝ] ℝ :=
  (LinearMap.proj c).comp (Matrix.mulVecLin (unitMat L)⁻¹)

theorem toC_apply (c : Fin 3) (v : Fin 3 → ℝ) : toC L c v = ((unitMat L)⁻¹ *ᵥ v) c := rfl

theorem toC_vec (c : Fin 3) (v : ℝ × ℝ × ℝ) : toC L c (vec v) = cgrad L v c := rfl

/-- What one node adds. -/
noncomputable def nodeVec (E : Env) (P : FDom) (I : Img) (t : ℕ × ℕ × ℕ) : Fin 3 → ℝ :=
  let q := place P.D I.R t
  let n := E.FDn;
  -(imgAt I 0 I.bJ t • vec (P.Dphi q)) + (1 / 2 : ℝ) • ((P.D.b q + P.D.bref q) •
    vec (lgrad E (boxed ((ext I.R).1 + 2 * n) ((ext I.R).2.1 + 2 * n)
      fun p => I.VJref p - I.VJ p) (t.1 + n) (t.2.1 + n) (t.2.2 + n))
    - (imgAt I 0 I.bJ t + imgAt I 0 I.bJref t) • vec (P.DVc q))

theorem imgForce_eq (P : FDom) (I : Img) :
    imgForce E P I = E.dV • ((nodes I.R).map (nodeVec E P I)).sum := by
  set q : ℕ × ℕ × ℕ → ℤ := place P.D I.R
  set g : ℕ × ℕ × ℕ → (Fin 3 → ℝ) × (Fin 3 → ℝ) := fun t =>
    (-(imgAt I 0 I.bJ t • vec (P.Dphi (q t))), (P.D.b (q t) + P.D.bref (q t)) •
      vec (lgrad E (boxed ((ext I.R).1 + 2 * E.FDn) ((ext I.R).2.1 + 2 * E.FDn)
        fun p => I.VJref p - I.VJ p) (t.1 + E.FDn) (t.2.1 + E.FDn) (t.2.2 + E.FDn))
      - (imgAt I 0 I.bJ t + imgAt I 0 I.bJref t) • vec (P.DVc (q t))) with hg
  have hstep : ∀ t ∈ nodes I.R, ∀ s, node E P I s t = s + g t := by
    intro t _ s
    have hat : ∀ m : ℤ → ℝ, m ((t.2.2 : ℤ) * (ext I.R).1 * (ext I.R).2.1 + t.2.1 * (ext I.R).1 + t.1)
        = imgAt I 0 m t := by
      intro m
      unfold imgAt boxed
      congr 1
      push_cast
      ring
    unfold node
    dsimp only
    rw [hat I.bJ, hat I.bJref, grad_eq, hg]
    dsimp only
    refine Prod.ext ?_ ?_
    · change s.1 - _ = s.1 + _
      rw [sub_eq_add_neg]
      congr 1
      funext d
      fin_cases d <;> simp [vec, q]
    · change s.2 + _ = s.2 + _
      congr 1
      funext d
      fin_cases d <;> simp [vec, q] <;> ring
  unfold imgForce
  rw [foldl_adds _ g _ _ hstep]
  have h1 := map_sum_list (AddMonoidHom.fst (Fin 3 → ℝ) (Fin 3 → ℝ)) (nodes I.R) g
  have h2 := map_sum_list (AddMonoidHom.snd (Fin 3 → ℝ) (Fin 3 → ℝ)) (nodes I.R) g
  simp only [AddMonoidHom.coe_fst, AddMonoidHom.coe_snd] at h1 h2
  have h0 : ((0, 0) : (Fin 3 → ℝ) × (Fin 3 → ℝ)) + (List.map g (nodes I.R)).sum
      = (List.map g (nodes I.R)).sum := zero_add _
  rw [h0]
  dsimp only
  rw [h1, h2]
  funext d
  rw [Pi.smul_apply, smul_eq_mul, sum_apply3, sum_apply3, sum_apply3, ← List.sum_map_mul_left,
    ← List.sum_map_add, mul_comm]
  congr 2
  refine List.map_congr_left fun t _ => ?_
  rw [hg]
  simp only [nodeVec, Pi.add_apply, Pi.smul_apply, smul_eq_mul]
  norm_num
  simp [q]

/-! ### Core charges -/

theorem xcImg_eq (h : Coord.transformMat L = some E.G) (h0 : E.G.cellTyp = 0 → unitMat L = 1)
    (D : Dom) (I : Img) (c : Fin 3) :
    xcImg E D I c = E.dV * ((nodes I.R).map fun t => vxcAt E D (place D I.R t)
      * coreGrad L E I t c).sum := by
  unfold xcImg
  dsimp only
  rw [foldl_adds _ (fun t => vxcAt E D (place D I.R t) • coreGrad L E I t) _ _ ?_, zero_add,
    sum_apply3, mul_comm]
  · rfl
  intro t ht s
  have e := drhoc_at E I t ht
  have g := vec_ite_grad h h0 (lgrad E (boxed ((ext I.R).1 + 4 * E.FDn)
    ((ext I.R).2.1 + 4 * E.FDn) I.rhocJ) (t.1 + 2 * E.FDn) (t.2.1 + 2 * E.FDn)
    (t.2.2 + 2 * E.FDn))
  rw [e]
  unfold coreGrad
  rw [← g]
  congr 1
  by_cases hc : E.G.cellTyp = 0 <;> simp only [hc, ne_eq, not_true, not_false_eq_true, if_true, if_false] <;>
    funext d <;> fin_cases d <;> rfl

/-! ### Nonlocal forces -/

variable {𝕜 : Type} [RCLike 𝕜]

/-- A loop that advances a position and writes to the entries of the atoms in turn. -/
theorem foldl_write {α : Type} (w : α → ℕ) (G : α → ℕ → Fin 3 → ℝ) (l : List α) (c i : ℕ)
    (F : Forces) :
    l.foldl (fun (st : ℕ × ℕ × Forces) y => (st.1 + w y, st.2.1 + 1, bump st.2.2 st.2.1 (G y st.1)))
      (c, i, F) = (c + (l.map w).sum, i + l.length, F + (l.zipIdx.map fun yi =>
        (Pi.single (i + yi.2) (G yi.1 (c + ((l.take yi.2).map w).sum)) : Forces)).sum) := by
  induction l using List.reverseRecOn with
  | nil => simp
  | append_singleton l y ih =>
    rw [List.foldl_append, ih, List.zipIdx_append]
    simp only [List.foldl_cons, List.foldl_nil, List.map_append, List.sum_append, List.map_cons,
      List.map_nil, List.sum_cons, List.sum_nil, add_zero, List.zipIdx_cons, List.zipIdx_nil,
      Nat.zero_add, List.take_left, List.length_append, List.length_cons, List.length_nil]
    refine Prod.ext (by dsimp only; ring) (Prod.ext (by dsimp only; ring) ?_)
    dsimp only
    rw [bump_eq, add_assoc]
    congr 2
    refine congrArg _ (List.map_congr_left fun yi hyi => ?_)
    have : yi.2 < l.length := by
      have := mem_zip hyi
      exact (List.getElem?_eq_some_iff.1 this).1
    rw [List.take_append_of_le_length this.le]

theorem zip_single {α : Type} (l : List α) (g : α × ℕ → Fin 3 → ℝ) {a : ℕ} {x : α}
    (hx : l[a]? = some x) :
    (l.zipIdx.map fun y => (Pi.single y.2 (g y) : Forces)).sum a = g (x, a) := by
  rw [sum_apply]
  induction l using List.reverseRecOn with
  | nil => simp at hx
  | append_singleton l y ih =>
    rw [List.zipIdx_append, List.map_append, List.sum_append]
    simp only [List.zipIdx_cons, List.zipIdx_nil, List.map_cons, List.map_nil, List.sum_cons,
      List.sum_nil, add_zero, Nat.zero_add]
    by_cases ha : a < l.length
    · rw [List.getElem?_append_left ha] at hx
      rw [ih hx, Pi.single_eq_of_ne (by omega), add_zero]
    · have hl := (List.getElem?_eq_some_iff.1 hx).1
      simp only [List.length_append, List.length_cons, List.length_nil] at hl
      have e : a = l.length := by omega
      subst e
      have hxy : y = x := by simpa using hx
      have hz : (l.zipIdx.map fun y => (Pi.single y.2 (g y) : Forces) l.length).sum = 0 := by
        refine List.sum_eq_zero fun v hv => ?_
        obtain ⟨z, hz, rfl⟩ := List.mem_map.1 hv
        have := (List.getElem?_eq_some_iff.1 (mem_zip hz)).1
        exact Pi.single_eq_of_ne (by omega) _
      rw [hz, zero_add, Pi.single_eq_same, hxy]

variable {Ts : List Typ} {Lc : ℝ × ℝ × ℝ} {occfac : ℝ} {Nkpts : ℕ}

theorem spinorLoop_eq (E : Env) (N : NEnv) (P : Grp 𝕜) (o : Opt) (k s : ℕ) (f : ℕ → Fin 3 → ℝ)
    (c : ℕ) (F : Forces) :
    spinorLoop E N P o k s f (c, F) = (c + P.ncol * total o N.Ts,
      F + ((atoms N.Ts).zipIdx.map fun Ta => (Pi.single Ta.2
        (-((N.occfac * 2.0 * P.wt k / N.Nkpts) • ((List.range P.ncol).map fun n =>
          occOf E P k n s • ((chan o Ta.1.1).zipIdx.map fun cj => weight o Ta.1.1 s cj.1 •
            f (c + P.ncol * before o N.Ts Ta.2 + n * (chan o Ta.1.1).length + cj.2)).sum).sum)) :
          Forces)).sum) := by
  have hw := foldl_write (fun T : Typ × ℕ => P.ncol * (chan o T.1).length) (fun T q =>
    -((N.occfac * 2.0 * P.wt k / N.Nkpts) • ((List.range P.ncol).map fun n =>
          occOf E P k n s • ((chan o T.1).zipIdx.map fun cj => weight o T.1 s cj.1 •
            f (q + n * (chan o T.1).length + cj.2)).sum).sum)) (atoms N.Ts) c 0 F
  have h : N.Ts.foldl (fun (st : ℕ × ℕ × Forces) T =>
    (List.range T.n).foldl (fun (st : ℕ × ℕ × Forces) _ =>
      ((bandLoop E P o T k s f st.1).1, st.2.1 + 1, bump st.2.2 st.2.1
        (-((N.occfac * 2.0 * P.wt k / N.Nkpts) • (bandLoop E P o T k s f st.1).2)))) st) (c, 0, F)
      = (atoms N.Ts).foldl (fun (st : ℕ × ℕ × Forces) T =>
        (st.1 + P.ncol * (chan o T.1).length, st.2.1 + 1, bump st.2.2 st.2.1
          (-((N.occfac * 2.0 * P.wt k / N.Nkpts) • ((List.range P.ncol).map fun n =>
          occOf E P k n s • ((chan o T.1).zipIdx.map fun cj => weight o T.1 s cj.1 •
            f (st.1 + n * (chan o T.1).length + cj.2)).sum).sum)))) (c, 0, F) := by
    unfold atoms
    simp only [bandLoop_eq]
    rw [foldl_flatMap]
    simp only [foldl_replicate]
    rw [foldl_zipIdx N.Ts 0 (fun x (T : Typ) => (List.range T.n).foldl
      (fun (st : ℕ × ℕ × Forces) _ => (st.1 + P.ncol * (chan o T).length, st.2.1 + 1,
        bump st.2.2 st.2.1 (-((N.occfac * 2.0 * P.wt k / N.Nkpts) •
        ((List.range P.ncol).map fun n =>
          occOf E P k n s • ((chan o T).zipIdx.map fun cj =>
            weight o T s cj.1 • f (st.1 + n * (chan o T).length + cj.2)).sum).sum)))) x)]
  unfold spinorLoop
  dsimp only
  rw [h, hw]
  simp only [List.sum_map_mul_left, total, before, Nat.zero_add]

/-- Sum over k-points (weighted), spinor components, bands (with occupation) and the projectors
(with coefficient) of an atom of type `T`. -/
noncomputable def atomSum (E : Env) (Nkpts : ℕ) (T : Typ) (P : Grp 𝕜) (o : Opt)
    (F : ℕ → ℕ → ℕ → ℕ → ℝ) : ℝ :=
  ((List.range P.Nk).map fun k => P.wt k / Nkpts * ((List.range P.nsp).map fun s =>
    ((List.range P.ncol).map fun n => occOf E P k n s * ((chan o T).zipIdx.map fun cj =>
      weight o T s cj.1 * F k s n cj.2).sum).sum).sum).sum

theorem byIntegrals_eq (E : Env) (P : Grp 𝕜) (o : Opt) (al : ℕ → 𝕜) (be : Fin 3 → ℕ → 𝕜)
    (F : Forces) {a : ℕ} {T : Typ} {i : ℕ} (ha : (atoms Ts)[a]? = some (T, i)) :
    byIntegrals E (mkEnv Ts Lc occfac Nkpts) P o al be F a = F a
      - ((List.range P.Nk).map fun k => ((List.range P.nsp).map fun s =>
        (occfac * 2.0 * P.wt k / Nkpts) • ((List.range P.ncol).map fun n =>
          occOf E P k n s • ((chan o T).zipIdx.map fun cj => weight o T s cj.1 •
            (![reMul (al (pos o Ts P.ncol P.nsp k s a (chan o T).length n cj.2))
                (be 0 (pos o Ts P.ncol P.nsp k s a (chan o T).length n cj.2)),
              reMul (al (pos o Ts P.ncol P.nsp k s a (chan o T).length n cj.2))
                (be 1 (pos o Ts P.ncol P.nsp k s a (chan o T).length n cj.2)),
              reMul (al (pos o Ts P.ncol P.nsp k s a (chan o T).length n cj.2))
                (be 2 (pos o Ts P.ncol P.nsp k s a (chan o T).length n cj.2))] :
                Fin 3 → ℝ)).sum).sum).sum).sum := by
  set N := mkEnv Ts Lc occfac Nkpts with hN
  set f : ℕ → Fin 3 → ℝ := fun c => ![reMul (al c) (be 0 c), reMul (al c) (be 1 c),
      reMul (al c) (be 2 c)] with hf
  set g : ℕ → ℕ → ℕ → Forces := fun k s q => ((atoms Ts).zipIdx.map fun Ta => (Pi.single Ta.2
        (-((occfac * 2.0 * P.wt k / Nkpts) • ((List.range P.ncol).map fun n =>
          occOf E P k n s • ((chan o Ta.1.1).zipIdx.map fun cj => weight o Ta.1.1 s cj.1 •
            f (q + P.ncol * before o Ts Ta.2 + n * (chan o Ta.1.1).length + cj.2)).sum).sum)) :
          Forces)).sum with hgdef
  have hin : ∀ k c (x : Forces), (List.range P.nsp).foldl (fun st s => spinorLoop E N P o k s f st)
      (c, x) = (c + P.nsp * (P.ncol * total o Ts), x + ((List.range P.nsp).map fun s =>
        g k s (c + s * (P.ncol * total o Ts))).sum) := by
    intro k c x
    rw [← foldl_steps (P.ncol * total o Ts) (fun s q => g k s q)]
    exact List.foldl_ext _ _ _ fun st s _ => spinorLoop_eq E N P o k s f st.1 st.2
  have hout := foldl_steps (P.nsp * (P.ncol * total o Ts)) (fun k c =>
      ((List.range P.nsp).map fun s => g k s (c + s * (P.ncol * total o Ts))).sum) P.Nk 0 F
  have he : (List.range P.Nk).foldl (fun st k => (List.range P.nsp).foldl
      (fun st s => spinorLoop E N P o k s f st) st) ((0, F) : ℕ × Forces)
      = (List.range P.Nk).foldl (fun (st : ℕ × Forces) k => (st.1 + P.nsp * (P.ncol * total o Ts),
        st.2 + ((List.range P.nsp).map fun s => g k s (st.1 + s * (P.ncol * total o Ts))).sum))
        (0, F) :=
    List.foldl_ext _ _ _ fun st k _ => hin k st.1 st.2
  unfold byIntegrals
  rw [he, hout]
  dsimp only
  rw [Pi.add_apply, sum_apply, sub_eq_add_neg]
  congr 1
  have neg_sum : ∀ {α : Type} (l : List α) (f : α → Fin 3 → ℝ),
      -(l.map f).sum = (l.map fun x => -f x).sum := fun l f => map_sum_list (negAddMonoidHom) l f
  rw [neg_sum]
  refine congrArg _ (List.map_congr_left fun k _ => ?_)
  rw [sum_apply, neg_sum]
  refine congrArg _ (List.map_congr_left fun s _ => ?_)
  rw [hgdef]
  dsimp only
  rw [zip_single (atoms Ts) (fun Ta => -((occfac * 2.0 * P.wt k / Nkpts) •
    ((List.range P.ncol).map fun n =>
          occOf E P k n s • ((chan o Ta.1.1).zipIdx.map fun cj => weight o Ta.1.1 s cj.1 •
            f (0 + k * (P.nsp * (P.ncol * total o Ts)) + s * (P.ncol * total o Ts)
              + P.ncol * before o Ts Ta.2 + n * (chan o Ta.1.1).length + cj.2)).sum).sum)) ha]
  dsimp only
  refine congrArg _ (congrArg _ (congrArg _ (List.map_congr_left fun n _ => congrArg _
    (congrArg _ (List.map_congr_left fun cj _ => congrArg _ ?_)))))
  have e : 0 + k * (P.nsp * (P.ncol * total o Ts)) + s * (P.ncol * total o Ts)
              + P.ncol * before o Ts a + n * (chan o T).length + cj.2
      = pos o Ts P.ncol P.nsp k s a (chan o T).length n cj.2 := by
    unfold pos; ring
  rw [e]

/-- The projection of the derivative of a band along Cartesian direction `c` on projector `j` of
atom `a`, taken with the projector and the spinor component on the other side of the operator. -/
noncomputable def dproj (L : ℕ → ℝ) (Lc : ℝ × ℝ × ℝ) (P : Grp 𝕜) (o : Opt) (c : Fin 3)
    (k s a n j : ℕ) : 𝕜 :=
  (P.doms.map fun D => ofAtom D a fun I => phase Lc (P.k k) I.R *
    ((List.range I.ndc).map fun i => (starRingEnd 𝕜) (bra o (other o s) I i j)
      * psiGrad L D (orb P D k n (other o s) (I.pos i)) c).sum).sum

theorem beta_at (P : Grp 𝕜) (o : Opt) (hP : ∀ D ∈ P.doms, Placed Ts D) (d : Fin 3)
    {k s a n j : ℕ} {T : Typ} {i : ℕ} (hk : k < P.Nk)
    (hs : s < P.nsp) (hso : o = .SO2 → P.nsp = 2) (ha : (atoms Ts)[a]? = some (T, i))
    (hn : n < P.ncol) (hj : j < (chan o T).length) :
    (P.doms.map fun D => beta (mkEnv Ts Lc occfac Nkpts) P o D d).sum
      (pos o Ts P.ncol P.nsp k s a (chan o T).length n j)
      = (P.doms.map fun D => ofAtom D a fun I => phase Lc (P.k k) I.R *
    ((List.range I.ndc).map fun i => (starRingEnd 𝕜) (bra o (other o s) I i j)
      * D.D d (orb P D k n (other o s) (I.pos i))).sum).sum := by
  rw [push]
  refine congrArg _ (List.map_congr_left fun D hD => ?_)
  unfold beta
  rw [integral_at Ts Lc occfac Nkpts P o D (hP D hD) _ hk hs ha hn hj]
  unfold ofAtom
  refine congrArg _ (List.map_congr_left fun I _ => ?_)
  dsimp only
  change bloch Lc (P.k k) I.R * _ = _
  rw [bloch_eq]
  congr 2
  refine List.map_congr_left fun i _ => ?_
  have ho : (if o = .SO2 then 1 - s else s) = other o s := by
    cases o with
    | SC => rfl
    | SO1 => rfl
    | SO2 =>
      have := hso rfl
      simp only [other, if_true]
      split <;> omega
  have e : k * (D.nd * P.nsp * P.ncol) + (n * (D.nd * P.nsp)
      + (if o = .SO2 then 1 - s else s) * D.nd) + I.pos i
      = orb P D k n (other o s) (I.pos i) := by
    rw [ho]; unfold orb; ring
  rw [e]
  congr 1
  clear e ho hso hj
  have hb : (match o with
      | .SC => I.chi
      | .SO1 => I.so0
      | .SO2 => if s = 0 then I.sonl else I.sol) = bra o (other o s) I := by
    cases o with
    | SC => rfl
    | SO1 => rfl
    | SO2 =>
      by_cases e0 : s = 0
      · simp [bra, other, e0]
      · simp [bra, other, e0]
  exact congrArg (starRingEnd 𝕜) (congrFun (congrFun hb i) j)

theorem dproj_eq (P : Grp 𝕜) (o : Opt) (c : Fin 3) (k s a n j : ℕ) :
    dproj L Lc P o c k s a n j = ∑ d, (((unitMat L)⁻¹ c d : ℝ) : 𝕜) *
      (P.doms.map fun D => ofAtom D a fun I => phase Lc (P.k k) I.R *
    ((List.range I.ndc).map fun i => (starRingEnd 𝕜) (bra o (other o s) I i j)
      * D.D d (orb P D k n (other o s) (I.pos i))).sum).sum := by
  unfold dproj psiGrad ofAtom
  simp only [Fin.sum_univ_three, ← List.sum_map_mul_left, ← List.sum_map_add]
  refine congrArg _ (List.map_congr_left fun D _ => ?_)
  refine congrArg _ (List.map_congr_left fun I _ => ?_)
  refine congrArg _ (List.map_congr_left fun i _ => ?_)
  ring

end Sparc.Force

import Verif.Soc.Model
import Verif.Pres.Nl
import Verif.Nloc.Lemmas

/-! # Spin-orbit coupling: loops as sums -/

namespace Sparc.Soc

open Pres Loop

variable {𝕜 : Type} [RCLike 𝕜]

/-! ### Inner products -/

variable (Ts : List Typ) (Lc : ℝ × ℝ × ℝ) (occfac : ℝ) (Nkpts : ℕ)

/-- The place of an inner product: atom, band, projector. -/
def place (o : Opt) (ncol a np n j : ℕ) : ℕ := ncol * before o Ts a + n * np + j

/-- The conjugate taken with the inner products, for a real matrix in the scalar term. -/
def RealChi (D : PDom 𝕜) : Prop :=
  ∀ l ∈ D.imgs, ∀ I ∈ l, ∀ i j, (starRingEnd 𝕜) (I.chi i j) = I.chi i j

theorem gather_at (dV : ℝ) (kv : ℝ × ℝ × ℝ) (ncol ldi off : ℕ) (o : Opt) (s : ℕ) (D : PDom 𝕜)
    (hD : Placed Ts D) (x : ℕ → 𝕜) {a n j : ℕ} {T : Typ} {t : ℕ}
    (ha : (atoms Ts)[a]? = some (T, t)) (hn : n < ncol) (hj : j < (chan o T).length) :
    gather (mkEnv Ts Lc occfac Nkpts) dV kv ncol ldi off o s D x
      (place Ts o ncol a (chan o T).length n j)
      = ofAtom D a fun I => bloch Lc kv I.R * (dV : 𝕜) * ((List.range I.ndc).map fun i =>
          entry o (chiIn o s I i j) * x (off + (n * ldi + I.pos i))).sum := by
  have h := integral_at (Ts := Ts) (Lc := Lc) (occfac := occfac) (Nkpts := Nkpts)
    (⟨ncol, 1, 1, 0, 0, fun _ => 0, fun _ => 0, fun _ => kv, [D]⟩ : Grp 𝕜) o D hD
    (fun _ I _ n p => bloch Lc kv I.R * (dV : 𝕜) * ((List.range I.ndc).map fun i =>
          entry o (chiIn o s I i p) * x (off + (n * ldi + I.pos i))).sum)
    (k := 0) (s := 0) (hk := Nat.one_pos) (hs := Nat.one_pos) ha hn hj
  rw [← h]
  unfold integral gather place pos
  simp only [List.range_one, List.foldl_cons, List.foldl_nil, Nat.mul_zero, Nat.zero_add,
    Nat.zero_mul, Nat.add_zero]
  rfl

/-! ### Coefficients -/

theorem factor_eq (o : Opt) (T : Typ) (s np l : ℕ) (m : ℤ) :
    factor o T s (ldOf o T l) np l m = weight o T s (l, np, m) := by
  cases o with
  | SC => simp [factor, weight, ldOf]
  | SO1 =>
    simp only [factor, weight, ldOf]
    split
    · norm_num; left; ring
    · norm_num; left; ring
  | SO2 =>
    simp only [factor, weight, ldOf]
    push_cast
    norm_num
    left
    ring

theorem skipped_eq (o : Opt) (l np : ℕ) (m : ℤ) : skipped o l m = !kept o (l, np, m) := by
  cases o <;> simp [skipped, kept]

/-- One coefficient after the other. -/
noncomputable def steps (o : Opt) (T : Typ) (s : ℕ) (cs : List (ℕ × ℕ × ℤ)) (st : ℕ × (ℕ → 𝕜)) :
    ℕ × (ℕ → 𝕜) :=
  (cs.map fun c => ((weight o T s c : ℝ) : 𝕜)).foldl Nloc.mulAt st

theorem steps_append (o : Opt) (T : Typ) (s : ℕ) (a b : List (ℕ × ℕ × ℤ)) (st : ℕ × (ℕ → 𝕜)) :
    steps o T s (a ++ b) st = steps o T s b (steps o T s a st) := by
  unfold steps
  rw [List.map_append, List.foldl_append]

theorem lrun (o : Opt) (T : Typ) (s : ℕ) (st : ℕ × (ℕ → 𝕜)) :
    ((List.range' (if o = .SC then 0 else 1) (T.lmax + 1 - if o = .SC then 0 else 1)).foldl
      (fun (u : ℕ × ℕ × (ℕ → 𝕜)) (l : ℕ) =>
        if (l : ℤ) = T.lloc then (u.1 + (if o = .SC then T.ppl l else T.pplSoc (l - 1)), u.2)
        else (u.1 + (if o = .SC then T.ppl l else T.pplSoc (l - 1)),
          (List.range (if o = .SC then T.ppl l else T.pplSoc (l - 1))).foldl
            (fun (v : ℕ × (ℕ → 𝕜)) np =>
              (List.range (2 * l + 1)).foldl (fun (v : ℕ × (ℕ → 𝕜)) (i : ℕ) =>
                if skipped o l ((i : ℤ) - l) then v
                else (v.1 + 1, Function.update v.2 v.1
                  (v.2 v.1 * ((factor o T s u.1 np l ((i : ℤ) - l) : ℝ) : 𝕜)))) v) u.2))
        (0, st)).2 = steps o T s (chan o T) st := by
  set l0 := if o = .SC then 0 else 1 with hl0
  set ppl := fun l => if o = .SC then T.ppl l else T.pplSoc (l - 1) with hppl
  set step := fun (u : ℕ × ℕ × (ℕ → 𝕜)) (l : ℕ) =>
        if (l : ℤ) = T.lloc then (u.1 + ppl l, u.2)
        else (u.1 + ppl l,
          (List.range (ppl l)).foldl
            (fun (v : ℕ × (ℕ → 𝕜)) np =>
              (List.range (2 * l + 1)).foldl (fun (v : ℕ × (ℕ → 𝕜)) (i : ℕ) =>
                if skipped o l ((i : ℤ) - l) then v
                else (v.1 + 1, Function.update v.2 v.1
                  (v.2 v.1 * ((factor o T s u.1 np l ((i : ℤ) - l) : ℝ) : 𝕜)))) v) u.2) with hstep
  have key : ∀ t, (List.range' l0 t).foldl step (0, st)
      = (ldOf o T (l0 + t), steps o T s ((List.range' l0 t).flatMap (chanL o T)) st) := by
    intro t
    induction t with
    | zero =>
      simp only [List.range'_zero, List.foldl_nil, List.flatMap_nil, Nat.add_zero]
      refine Prod.ext ?_ rfl
      cases o <;> simp [ldOf, hl0]
    | succ t ih =>
      rw [List.range'_concat, List.foldl_append, ih, List.flatMap_append, steps_append]
      simp only [List.foldl_cons, List.foldl_nil, one_mul, List.flatMap_cons, List.flatMap_nil,
        List.append_nil]
      generalize steps o T s ((List.range' l0 t).flatMap (chanL o T)) st = R
      have hld : ldOf o T (l0 + t) + ppl (l0 + t) = ldOf o T (l0 + (t + 1)) := by
        cases o with
        | SC =>
          simp only [ldOf, hppl, hl0, if_true]
          rw [show 0 + (t + 1) = 0 + t + 1 by ring, Finset.sum_range_succ]
        | SO1 =>
          simp only [ldOf, hppl, hl0, reduceCtorEq, if_false]
          rw [show 1 + (t + 1) - 1 = t + 1 by omega, show 1 + t - 1 = t by omega,
            Finset.sum_range_succ]
        | SO2 =>
          simp only [ldOf, hppl, hl0, reduceCtorEq, if_false]
          rw [show 1 + (t + 1) - 1 = t + 1 by omega, show 1 + t - 1 = t by omega,
            Finset.sum_range_succ]
      have hz : ¬ (o ≠ .SC ∧ l0 + t = 0) := by
        rintro ⟨h1, h2⟩
        simp only [hl0, if_neg h1] at h2
        omega
      rw [hstep]
      dsimp only
      by_cases hl : ((l0 + t : ℕ) : ℤ) = T.lloc
      · rw [if_pos hl, hld]
        have : chanL o T (l0 + t) = [] := by
          unfold chanL
          rw [if_pos (Or.inl hl)]
        rw [this]
        rfl
      · rw [if_neg hl, hld]
        have hc : chanL o T (l0 + t) = (List.range (ppl (l0 + t))).flatMap fun np =>
            ((List.range (2 * (l0 + t) + 1)).map fun (i : ℕ) => (l0 + t, np, (i : ℤ) - ((l0 + t : ℕ) : ℤ))).filter
              fun c => kept o c := by
          unfold chanL
          rw [if_neg (by rintro (h | h); exacts [hl h, hz h])]
          cases o <;> simp [hppl]
        refine Prod.ext rfl ?_
        dsimp only
        rw [hc]
        unfold steps
        rw [List.foldl_map, foldl_flatMap]
        refine List.foldl_ext _ _ _ fun v np _ => ?_
        rw [foldl_filter, List.foldl_map]
        refine List.foldl_ext _ _ _ fun v i _ => ?_
        rw [skipped_eq o (l0 + t) np, factor_eq]
        cases kept o (l0 + t, np, (i : ℤ) - ((l0 + t : ℕ) : ℤ))
        · rfl
        · rfl
  have hlist : (List.range' l0 (T.lmax + 1 - l0)).flatMap (chanL o T) = chan o T := by
    have hch : chan o T = (List.range' 0 (T.lmax + 1)).flatMap (chanL o T) := by
      rw [← List.range_eq_range']
      rfl
    rw [hch]
    by_cases ho : o = .SC
    · simp [hl0, ho]
    · simp only [hl0, if_neg ho, Nat.add_sub_cancel]
      rw [List.range'_succ, List.flatMap_cons]
      have : chanL o T 0 = [] := by
        unfold chanL
        rw [if_pos (Or.inr ⟨ho, rfl⟩)]
      rw [this]
      rfl
  rw [key, hlist]

/-- The coefficients of a type in order. -/
noncomputable def gams (𝕜 : Type) [RCLike 𝕜] (o : Opt) (s : ℕ) (T : Typ) : List 𝕜 :=
  (chan o T).map fun c => ((weight o T s c : ℝ) : 𝕜)

theorem scale_eq (ncol : ℕ) (o : Opt) (s : ℕ) (al : ℕ → 𝕜) :
    scale (mkEnv Ts Lc occfac Nkpts) ncol o s al
      = (((atoms Ts).flatMap fun T => (List.range ncol).flatMap fun _ => gams 𝕜 o s T.1).foldl
        Nloc.mulAt (0, al)).2 := by
  unfold scale
  dsimp only
  congr 1
  rw [foldl_flatMap]
  unfold atoms
  rw [foldl_flatMap]
  simp only [foldl_replicate]
  rw [foldl_zipIdx Ts 0 (fun x (T : Typ) => (List.range T.n).foldl (fun x _ =>
    List.foldl Nloc.mulAt x ((List.range ncol).flatMap fun _ => gams 𝕜 o s T)) x)]
  refine List.foldl_ext _ _ _ fun st T _ => ?_
  refine List.foldl_ext _ _ _ fun st _ _ => ?_
  rw [foldl_flatMap]
  refine List.foldl_ext _ _ _ fun st _ _ => ?_
  exact lrun o T s st

theorem scale_at (ncol : ℕ) (o : Opt) (s : ℕ) (al : ℕ → 𝕜) {a n j : ℕ} {T : Typ} {t : ℕ}
    {c : ℕ × ℕ × ℤ} (ha : (atoms Ts)[a]? = some (T, t)) (hn : n < ncol)
    (hc : (chan o T)[j]? = some c) :
    scale (mkEnv Ts Lc occfac Nkpts) ncol o s al (place Ts o ncol a (chan o T).length n j)
      = al (place Ts o ncol a (chan o T).length n j) * ((weight o T s c : ℝ) : 𝕜) := by
  have hj : j < (chan o T).length := (List.getElem?_eq_some_iff.1 hc).1
  have lg : ∀ T, (gams 𝕜 o s T).length = (chan o T).length := by
    intro T; unfold gams; rw [List.length_map]
  have lw : ∀ T : Typ × ℕ, ((List.range ncol).flatMap fun _ => gams 𝕜 o s T.1).length
      = ncol * (chan o T.1).length := by
    intro T
    rw [List.length_flatMap]
    simp [lg]
  have hin : n * (chan o T).length + j < ncol * (chan o T).length := by
    calc n * (chan o T).length + j < n * (chan o T).length + (chan o T).length := by omega
      _ = (n + 1) * (chan o T).length := by ring
      _ ≤ ncol * (chan o T).length := Nat.mul_le_mul_right _ hn
  have h1 := Nloc.flatMap_get (atoms Ts) (fun T => (List.range ncol).flatMap fun _ => gams 𝕜 o s T.1)
    a (T, t) ha (n * (chan o T).length + j) (by rw [lw]; exact hin)
  have h2 := Nloc.flatMap_get (List.range ncol) (fun _ => gams 𝕜 o s T) n n (by simp [hn]) j
    (by rw [lg]; exact hj)
  have e1 : (((atoms Ts).take a).map fun T =>
      ((List.range ncol).flatMap fun _ => gams 𝕜 o s T.1).length).sum = ncol * before o Ts a := by
    simp only [lw]
    unfold before
    rw [List.sum_map_mul_left]
  have e2 : (((List.range ncol).take n).map fun _ => (gams 𝕜 o s T).length).sum
      = n * (chan o T).length := by
    rw [lg]
    simp [Nat.min_eq_left hn.le]
  rw [e1] at h1
  rw [e2] at h2
  dsimp only at h1
  rw [h2] at h1
  have h3 : ((atoms Ts).flatMap fun T => (List.range ncol).flatMap fun _ => gams 𝕜 o s T.1)[
      place Ts o ncol a (chan o T).length n j]? = some ((weight o T s c : ℝ) : 𝕜) := by
    unfold place
    rw [Nat.add_assoc, h1]
    unfold gams
    rw [List.getElem?_map, hc]
    rfl
  rw [scale_eq, Nloc.mulAt_run]
  have hlt := (List.getElem?_eq_some_iff.1 h3).1
  dsimp only
  rw [if_pos (by omega), Nat.sub_zero, List.getD_eq_getElem?_getD, h3]
  rfl

/-! ### Back to the grid -/

theorem fold_add {α : Type} (q : ℕ) (l : List α) (f : (ℕ → 𝕜) → α → ℕ → 𝕜) (g : α → 𝕜)
    (h : ∀ m, ∀ a ∈ l, f m a q = m q + g a) (m : ℕ → 𝕜) :
    l.foldl f m q = m q + (l.map g).sum := by
  induction l generalizing m with
  | nil => simp
  | cons a l ih =>
    rw [List.foldl_cons, ih (fun m b hb => h m b (List.mem_cons_of_mem _ hb)),
      h m a List.mem_cons_self, List.map_cons, List.sum_cons, add_assoc]

theorem addAt_eq (m : ℕ → 𝕜) (p : ℕ) (v : 𝕜) (q : ℕ) :
    addAt m p v q = m q + if p = q then v else 0 := by
  unfold addAt
  by_cases h : p = q
  · subst h; simp
  · rw [Function.update_of_ne (Ne.symm h), if_neg h, add_zero]

theorem scatter_sum (N : NEnv) (kv : ℝ × ℝ × ℝ) (ncol ldo off : ℕ) (o : Opt) (s : ℕ)
    (D : PDom 𝕜) (al Hx : ℕ → 𝕜) (q : ℕ) :
    scatter N kv ncol ldo off o s D al Hx q = Hx q + (D.imgs.zipIdx.map fun li =>
      (li.1.map fun I => ((List.range ncol).map fun n => ((List.range I.ndc).map fun i =>
        if off + (n * ldo + I.pos i) = q then blochC N.L kv I.R *
          ((List.range (N.nproj o li.2)).map fun p => chiOut o s I i p
            * al (N.ip o I.atom * ncol + (n * N.nproj o li.2 + p))).sum else 0).sum).sum).sum).sum := by
  unfold scatter
  refine fold_add q _ _ _ (fun m li _ => ?_) Hx
  by_cases h0 : N.nproj o li.2 = 0
  · rw [if_pos h0]
    simp [h0]
  · rw [if_neg h0]
    refine fold_add q _ _ _ (fun m I _ => ?_) m
    refine fold_add q _ _ _ (fun m n _ => ?_) m
    refine fold_add q _ _ _ (fun m i _ => ?_) m
    exact addAt_eq m _ _ q

theorem sum_swap {α β M : Type} [AddCommMonoid M] (l : List α) (r : List β) (f : α → β → M) :
    (l.map fun a => (r.map fun b => f a b).sum).sum
      = (r.map fun b => (l.map fun a => f a b).sum).sum := by
  induction l with
  | nil => simp
  | cons a l ih => simp only [List.map_cons, List.sum_cons, ih, List.sum_map_add]

theorem zip_one {α M : Type} [AddCommMonoid M] (l : List α) (k a : ℕ) (x : α)
    (h : l[a]? = some x) (f : α × ℕ → M) :
    ((l.zipIdx k).map fun y => if k + a = y.2 then f y else 0).sum = f (x, k + a) := by
  induction l generalizing k a with
  | nil => simp at h
  | cons b l ih =>
    rw [List.zipIdx_cons, List.map_cons, List.sum_cons]
    cases a with
    | zero =>
      simp only [List.getElem?_cons_zero, Option.some.injEq] at h
      subst h
      rw [Nat.add_zero, if_pos rfl]
      have : ((l.zipIdx (k + 1)).map fun y => if k = y.2 then f y else 0).sum = 0 := by
        refine List.sum_eq_zero fun v hv => ?_
        rw [List.mem_map] at hv
        obtain ⟨y, hy, rfl⟩ := hv
        have := List.le_snd_of_mem_zipIdx hy
        rw [if_neg (by omega)]
      rw [this, add_zero]
    | succ a =>
      simp only [List.getElem?_cons_succ] at h
      have := ih (k + 1) a h
      rw [show k + 1 + a = k + (a + 1) by omega] at this
      rw [if_neg (by simp), zero_add, this]

/-- A sum over the images of a process, atom by atom. -/
theorem by_atoms {M : Type} [AddCommMonoid M] (D : PDom 𝕜) (hD : Placed Ts D)
    (G : List (NImg 𝕜) × ℕ → NImg 𝕜 → M) (F : Typ → ℕ → NImg 𝕜 → M)
    (h : ∀ li ∈ D.imgs.zipIdx, ∀ I ∈ li.1, ∀ T, (atoms Ts)[I.atom]? = some (T, li.2) →
      G li I = F T I.atom I) :
    (D.imgs.zipIdx.map fun li => (li.1.map fun I => G li I).sum).sum
      = ((atoms Ts).zipIdx.map fun Ta => ofAtom D Ta.2 (F Ta.1.1 Ta.2)).sum := by
  simp only [ofAtom_eq]
  rw [sum_swap]
  refine congrArg _ (List.map_congr_left fun li hli => ?_)
  rw [sum_swap]
  refine congrArg _ (List.map_congr_left fun I hI => ?_)
  obtain ⟨T, hT⟩ := hD li hli I hI
  rw [h li hli I hI T hT]
  have := zip_one (atoms Ts) 0 I.atom (T, li.2) hT (fun y => F y.1.1 y.2 I)
  simp only [Nat.zero_add] at this
  exact this.symm

end Sparc.Soc

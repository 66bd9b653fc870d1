import Verif.Soc.Lemmas

/-! # Spin-orbit coupling: the operator as a sum over atoms and projectors -/

namespace Sparc.Soc

open Pres

variable {𝕜 : Type} [RCLike 𝕜]

/-- The nodes of the images lie on the process. -/
def Inside (D : PDom 𝕜) : Prop := ∀ l ∈ D.imgs, ∀ I ∈ l, ∀ i < I.ndc, I.pos i < D.nd

/-- The projection of component `s` of band `n` of `x` on projector `j` of atom `a`. -/
noncomputable def projV (dV : ℝ) (Lc kv : ℝ × ℝ × ℝ) (ld : PDom 𝕜 → ℕ) (doms : List (PDom 𝕜))
    (x : PDom 𝕜 → ℕ → 𝕜) (o : Opt) (s a n j : ℕ) : 𝕜 :=
  (doms.map fun D => ofAtom D a fun I => phase Lc kv I.R * ((dV : 𝕜) *
    ((List.range I.ndc).map fun i => (starRingEnd 𝕜) (bra o s I i j)
      * x D (s * D.nd + (n * ld D + I.pos i))).sum)).sum

/-- Projector `j` of atom `a`, summed over its images with their phases, at node `q` of a
process. -/
noncomputable def ket (Lc kv : ℝ × ℝ × ℝ) (D : PDom 𝕜) (o : Opt) (s a j q : ℕ) : 𝕜 :=
  ofAtom D a fun I => (starRingEnd 𝕜) (phase Lc kv I.R)
    * ((List.range I.ndc).map fun i => if I.pos i = q then bra o s I i j else 0).sum

theorem ofAtom_sum {α M : Type} [AddCommMonoid M] (D : PDom 𝕜) (a : ℕ) (l : List α)
    (F : α → NImg 𝕜 → M) :
    ofAtom D a (fun I => (l.map fun y => F y I).sum) = (l.map fun y => ofAtom D a (F y)).sum := by
  unfold ofAtom
  exact sum_swap _ _ _

theorem ofAtom_congr {M : Type} [AddCommMonoid M] (D : PDom 𝕜) (a : ℕ) (F G : NImg 𝕜 → M)
    (h : ∀ l ∈ D.imgs, ∀ I ∈ l, F I = G I) : ofAtom D a F = ofAtom D a G := by
  unfold ofAtom
  refine congrArg _ (List.map_congr_left fun I hI => ?_)
  obtain ⟨l, hl, hI⟩ := List.mem_flatten.1 (List.mem_of_mem_filter hI)
  exact h l hl I hI

theorem ofAtom_mul (D : PDom 𝕜) (a : ℕ) (c : 𝕜) (F : NImg 𝕜 → 𝕜) :
    ofAtom D a (fun I => c * F I) = c * ofAtom D a F := by
  unfold ofAtom
  rw [List.sum_map_mul_left]

theorem bra_other (o : Opt) (s : ℕ) (I : NImg 𝕜) : chiIn o s I = bra o (other o s) I := by
  cases o <;> simp only [chiIn, bra, other]
  by_cases h : s = 0 <;> simp [h]

theorem chiOut_eq (o : Opt) (s : ℕ) (I : NImg 𝕜) : chiOut o s I = bra o s I := by
  cases o <;> rfl

theorem range_zip {α M : Type} [AddCommMonoid M] (l : List α) (f : ℕ → M) :
    ((List.range l.length).map f).sum = (l.zipIdx.map fun y => f y.2).sum := by
  have : List.range l.length = l.zipIdx.map Prod.snd := by
    rw [List.zipIdx_map_snd, List.range_eq_range']
  rw [this, List.map_map]
  rfl

variable {Ts : List Typ} {Lc : ℝ × ℝ × ℝ} {occfac : ℝ} {Nkpts : ℕ}

/-- The inner products after the sum over the processes. -/
theorem alpha_sum (dV : ℝ) (kv : ℝ × ℝ × ℝ) (ncol : ℕ) (ldi : PDom 𝕜 → ℕ) (doms : List (PDom 𝕜))
    (hD : ∀ D ∈ doms, Placed Ts D) (hR : ∀ D ∈ doms, RealChi D) (x : PDom 𝕜 → ℕ → 𝕜) (o : Opt)
    (s : ℕ) (hs : o = .SO2 → s < 2) {a n j : ℕ} {T : Typ} {t : ℕ}
    (ha : (atoms Ts)[a]? = some (T, t)) (hn : n < ncol) (hj : j < (chan o T).length) :
    (doms.map fun D' => gather (mkEnv Ts Lc occfac Nkpts) dV kv ncol (ldi D')
      ((if o = .SO2 then 1 - s else s) * D'.nd) o s D' (x D')).sum
        (place Ts o ncol a (chan o T).length n j)
      = projV dV Lc kv ldi doms x o (other o s) a n j := by
  rw [Pres.push]
  unfold projV
  refine congrArg _ (List.map_congr_left fun D hDm => ?_)
  rw [gather_at Ts Lc occfac Nkpts dV kv ncol (ldi D) _ o s D (hD D hDm) (x D) ha hn hj]
  refine ofAtom_congr D a _ _ fun l hl I hI => ?_
  have ho : (if o = .SO2 then 1 - s else s) = other o s := by
    cases o with
    | SC => rfl
    | SO1 => rfl
    | SO2 =>
      have := hs rfl
      have : s = 0 ∨ s = 1 := by omega
      rcases this with rfl | rfl <;> rfl
  rw [bloch_eq, mul_assoc, ho]
  congr 2
  refine congrArg _ (List.map_congr_left fun i _ => ?_)
  congr 1
  rw [bra_other]
  cases o with
  | SC => exact (hR D hDm l hl I hI i j).symm
  | SO1 => rfl
  | SO2 => rfl

/-- One term of the operator at a node. -/
theorem term_at (dV : ℝ) (kv : ℝ × ℝ × ℝ) (nsp ncol : ℕ) (ldi ldo : PDom 𝕜 → ℕ)
    (doms : List (PDom 𝕜)) (hD : ∀ D ∈ doms, Placed Ts D) (hR : ∀ D ∈ doms, RealChi D)
    (x : PDom 𝕜 → ℕ → 𝕜) (o : Opt) (D : PDom 𝕜) (hDm : D ∈ doms) (hin : Inside D)
    (hld : nsp * D.nd ≤ ldo D) (H : ℕ → 𝕜) {s s' n q : ℕ} (hs : s < nsp) (hs' : s' < nsp)
    (h2 : o = .SO2 → s' < 2) (hn : n < ncol) (hq : q < D.nd) :
    scatter (mkEnv Ts Lc occfac Nkpts) kv ncol (ldo D) (s' * D.nd) o s' D
      (scale (mkEnv Ts Lc occfac Nkpts) ncol o s' ((doms.map fun D' =>
        gather (mkEnv Ts Lc occfac Nkpts) dV kv ncol (ldi D')
          ((if o = .SO2 then 1 - s' else s') * D'.nd) o s' D' (x D')).sum)) H
      (s * D.nd + (n * ldo D + q))
    = H (s * D.nd + (n * ldo D + q)) + if s' = s then
        ((atoms Ts).zipIdx.map fun Ta => ((chan o Ta.1.1).zipIdx.map fun cj =>
          ((weight o Ta.1.1 s cj.1 : ℝ) : 𝕜) * projV dV Lc kv ldi doms x o (other o s) Ta.2 n cj.2
            * ket Lc kv D o s Ta.2 cj.2 q).sum).sum else 0 := by
  rw [scatter_sum]
  congr 1
  set N := mkEnv Ts Lc occfac Nkpts with hN
  have hsplit : ∀ n' p, p < D.nd → (s' * D.nd + (n' * ldo D + p) = s * D.nd + (n * ldo D + q)
      ↔ (s' = s ∧ n' = n) ∧ p = q) := by
    intro n' p hp
    constructor
    · intro h
      have b1 : s' * D.nd + p < ldo D := by
        calc s' * D.nd + p < s' * D.nd + D.nd := by omega
          _ = (s' + 1) * D.nd := by ring
          _ ≤ nsp * D.nd := Nat.mul_le_mul_right _ hs'
          _ ≤ ldo D := hld
      have b2 : s * D.nd + q < ldo D := by
        calc s * D.nd + q < s * D.nd + D.nd := by omega
          _ = (s + 1) * D.nd := by ring
          _ ≤ nsp * D.nd := Nat.mul_le_mul_right _ hs
          _ ≤ ldo D := hld
      have e1 : (s' * D.nd + p) + ldo D * n' = (s * D.nd + q) + ldo D * n := by
        rw [Nat.mul_comm (ldo D) n', Nat.mul_comm (ldo D) n]; omega
      have d1 := congrArg (· / ldo D) e1
      have m1 := congrArg (· % ldo D) e1
      simp only [Nat.add_mul_div_left _ _ (lt_of_le_of_lt (Nat.zero_le _) b1),
        Nat.add_mul_mod_self_left, Nat.div_eq_of_lt b1, Nat.div_eq_of_lt b2,
        Nat.mod_eq_of_lt b1, Nat.mod_eq_of_lt b2] at d1 m1
      have m2 : p + D.nd * s' = q + D.nd * s := by
        rw [Nat.mul_comm D.nd s', Nat.mul_comm D.nd s]; omega
      have d3 := congrArg (· / D.nd) m2
      have m3 := congrArg (· % D.nd) m2
      simp only [Nat.add_mul_div_left _ _ (lt_of_le_of_lt (Nat.zero_le _) hp),
        Nat.add_mul_mod_self_left, Nat.div_eq_of_lt hp, Nat.div_eq_of_lt hq,
        Nat.mod_eq_of_lt hp, Nat.mod_eq_of_lt hq] at d3 m3
      exact ⟨⟨by omega, by omega⟩, m3⟩
    · rintro ⟨⟨rfl, rfl⟩, rfl⟩
      rfl
  by_cases hss : s' = s
  · subst hss
    rw [if_pos rfl]
    rw [by_atoms Ts D (hD D hDm) _ (fun T a I => ((chan o T).zipIdx.map fun cj =>
      ((weight o T s' cj.1 : ℝ) : 𝕜) * projV dV Lc kv ldi doms x o (other o s') a n cj.2
        * ((starRingEnd 𝕜) (phase Lc kv I.R) * ((List.range I.ndc).map fun i =>
          if I.pos i = q then bra o s' I i cj.2 else 0).sum)).sum)]
    · refine congrArg _ (List.map_congr_left fun Ta _ => ?_)
      rw [ofAtom_sum]
      refine congrArg _ (List.map_congr_left fun cj _ => ?_)
      rw [ofAtom_mul]
      rfl
    · intro li hli I hI T hT
      have hnp : N.nproj o li.2 = (chan o T).length :=
        mk_nproj Ts Lc occfac Nkpts o (mem_atoms (List.mem_of_getElem? hT))
      have hip : N.ip o I.atom = before o Ts I.atom :=
        mk_ip Ts Lc occfac Nkpts o _ (le_of_lt (lt_length hT))
      have hImem : li.1 ∈ D.imgs := List.mem_of_getElem? (mem_zip hli)
      have step : ((List.range ncol).map fun n' => ((List.range I.ndc).map fun i =>
          if s' * D.nd + (n' * ldo D + I.pos i) = s' * D.nd + (n * ldo D + q) then
            blochC N.L kv I.R * ((List.range (N.nproj o li.2)).map fun p => chiOut o s' I i p
              * scale N ncol o s' ((doms.map fun D' => gather N dV kv ncol (ldi D')
                ((if o = .SO2 then 1 - s' else s') * D'.nd) o s' D' (x D')).sum)
                (N.ip o I.atom * ncol + (n' * N.nproj o li.2 + p))).sum else 0).sum).sum
          = ((List.range ncol).map fun n' => if n' = n then ((List.range I.ndc).map fun i =>
            if I.pos i = q then
            blochC N.L kv I.R * ((List.range (N.nproj o li.2)).map fun p => chiOut o s' I i p
              * scale N ncol o s' ((doms.map fun D' => gather N dV kv ncol (ldi D')
                ((if o = .SO2 then 1 - s' else s') * D'.nd) o s' D' (x D')).sum)
                (N.ip o I.atom * ncol + (n' * N.nproj o li.2 + p))).sum else 0).sum else 0).sum := by
        refine congrArg _ (List.map_congr_left fun n' _ => ?_)
        rw [← sum_ite_list]
        refine congrArg _ (List.map_congr_left fun i hi => ?_)
        have hp := hin li.1 hImem I hI i (List.mem_range.1 hi)
        have := hsplit n' (I.pos i) hp
        by_cases e : n' = n
        · subst e
          rw [if_pos rfl]
          refine if_congr ?_ rfl rfl
          rw [this]
          simp
        · have hne : ¬ (s' * D.nd + (n' * ldo D + I.pos i) = s' * D.nd + (n * ldo D + q)) := by
            rw [this]; rintro ⟨⟨_, h⟩, _⟩; exact e h
          rw [if_neg hne, if_neg e]
      rw [step, sum_range_one ncol n hn]
      have hterm : ∀ i, ((List.range (N.nproj o li.2)).map fun p => chiOut o s' I i p
              * scale N ncol o s' ((doms.map fun D' => gather N dV kv ncol (ldi D')
                ((if o = .SO2 then 1 - s' else s') * D'.nd) o s' D' (x D')).sum)
                (N.ip o I.atom * ncol + (n * N.nproj o li.2 + p))).sum
          = ((chan o T).zipIdx.map fun cj => bra o s' I i cj.2 *
            (projV dV Lc kv ldi doms x o (other o s') I.atom n cj.2
              * ((weight o T s' cj.1 : ℝ) : 𝕜))).sum := by
        intro i
        rw [hnp, hip, range_zip]
        refine congrArg _ (List.map_congr_left fun cj hcj => ?_)
        rw [chiOut_eq]
        congr 1
        have hc := mem_zip hcj
        have e := scale_at Ts Lc occfac Nkpts ncol o s' ((doms.map fun D' => gather N dV kv ncol
          (ldi D') ((if o = .SO2 then 1 - s' else s') * D'.nd) o s' D' (x D')).sum) hT hn hc
        have hpl : before o Ts I.atom * ncol + (n * (chan o T).length + cj.2)
            = place Ts o ncol I.atom (chan o T).length n cj.2 := by
          unfold place; ring
        rw [hpl, e, alpha_sum dV kv ncol ldi doms hD hR x o s' h2 hT hn (lt_length hc)]
      simp only [hterm]
      have hbl : (blochC N.L kv I.R : 𝕜) = (starRingEnd 𝕜) (phase Lc kv I.R) := blochC_eq Lc kv I.R
      rw [hbl]
      simp only [← List.sum_map_mul_left]
      rw [sum_swap (chan o T).zipIdx]
      refine congrArg _ (List.map_congr_left fun i _ => ?_)
      by_cases e : I.pos i = q
      · simp only [if_pos e]
        refine congrArg _ (List.map_congr_left fun cj _ => ?_)
        ring
      · simp only [if_neg e, mul_zero]
        simp
  · rw [if_neg hss]
    refine List.sum_eq_zero fun v hv => ?_
    obtain ⟨li, hli, rfl⟩ := List.mem_map.1 hv
    refine List.sum_eq_zero fun v hv => ?_
    obtain ⟨I, hI, rfl⟩ := List.mem_map.1 hv
    refine List.sum_eq_zero fun v hv => ?_
    obtain ⟨n', _, rfl⟩ := List.mem_map.1 hv
    refine List.sum_eq_zero fun v hv => ?_
    obtain ⟨i, hi, rfl⟩ := List.mem_map.1 hv
    have hp := hin li.1 (List.mem_of_getElem? (mem_zip hli)) I hI i (List.mem_range.1 hi)
    rw [if_neg]
    rw [hsplit n' _ hp]
    rintro ⟨⟨h, _⟩, _⟩
    exact hss h

/-- The operator at a node. -/
theorem vnl_at (dV : ℝ) (kv : ℝ × ℝ × ℝ) (soc : Bool) (nsp ncol : ℕ) (ldi ldo : PDom 𝕜 → ℕ)
    (doms : List (PDom 𝕜)) (hD : ∀ D ∈ doms, Placed Ts D) (hR : ∀ D ∈ doms, RealChi D)
    (hsoc : soc = true → nsp = 2) (x : PDom 𝕜 → ℕ → 𝕜) (D : PDom 𝕜) (hDm : D ∈ doms)
    (hin : Inside D) (hld : nsp * D.nd ≤ ldo D) (H : ℕ → 𝕜) {s n q : ℕ} (hs : s < nsp)
    (hn : n < ncol) (hq : q < D.nd) :
    vnl (mkEnv Ts Lc occfac Nkpts) dV kv soc nsp ncol ldi ldo doms x D H
      (s * D.nd + (n * ldo D + q))
    = H (s * D.nd + (n * ldo D + q)) + ((opts soc).map fun o =>
        ((atoms Ts).zipIdx.map fun Ta => ((chan o Ta.1.1).zipIdx.map fun cj =>
          ((weight o Ta.1.1 s cj.1 : ℝ) : 𝕜) * projV dV Lc kv ldi doms x o (other o s) Ta.2 n cj.2
            * ket Lc kv D o s Ta.2 cj.2 q).sum).sum).sum := by
  unfold vnl
  have h2 : ∀ o ∈ opts soc, o = .SO2 → nsp = 2 := by
    intro o ho e
    subst e
    refine hsoc ?_
    cases soc
    · simp [opts] at ho
    · rfl
  rw [fold_add (s * D.nd + (n * ldo D + q)) (List.range nsp) _ (fun s' => ((opts soc).map fun o =>
    if s' = s then ((atoms Ts).zipIdx.map fun Ta => ((chan o Ta.1.1).zipIdx.map fun cj =>
          ((weight o Ta.1.1 s cj.1 : ℝ) : 𝕜) * projV dV Lc kv ldi doms x o (other o s) Ta.2 n cj.2
            * ket Lc kv D o s Ta.2 cj.2 q).sum).sum else 0).sum)]
  · congr 1
    simp only [sum_ite_list]
    exact sum_range_one nsp s hs (fun _ => _)
  · intro m s' hs'
    rw [List.mem_range] at hs'
    refine fold_add _ _ _ _ (fun m o ho => ?_) m
    refine term_at dV kv nsp ncol ldi ldo doms hD hR x o D hDm hin hld m hs hs' ?_ hn hq
    intro e
    have := h2 o ho e
    omega

/-- The part of a process that is not addressed stays as it is. -/
theorem vnl_frame (dV : ℝ) (kv : ℝ × ℝ × ℝ) (soc : Bool) (nsp ncol : ℕ) (ldi ldo : PDom 𝕜 → ℕ)
    (doms : List (PDom 𝕜)) (x : PDom 𝕜 → ℕ → 𝕜) (D : PDom 𝕜) (hin : Inside D) (H : ℕ → 𝕜) (p : ℕ)
    (hp : ∀ s < nsp, ∀ n < ncol, ∀ q < D.nd, p ≠ s * D.nd + (n * ldo D + q)) :
    vnl (mkEnv Ts Lc occfac Nkpts) dV kv soc nsp ncol ldi ldo doms x D H p = H p := by
  unfold vnl
  rw [fold_add p (List.range nsp) _ (fun _ => 0)]
  · simp
  · intro m s hs
    rw [fold_add p (opts soc) _ (fun _ => 0)]
    · simp
    · intro m o _
      rw [scatter_sum]
      congr 1
      refine List.sum_eq_zero fun v hv => ?_
      obtain ⟨li, hli, rfl⟩ := List.mem_map.1 hv
      refine List.sum_eq_zero fun v hv => ?_
      obtain ⟨I, hI, rfl⟩ := List.mem_map.1 hv
      refine List.sum_eq_zero fun v hv => ?_
      obtain ⟨n', hn', rfl⟩ := List.mem_map.1 hv
      refine List.sum_eq_zero fun v hv => ?_
      obtain ⟨i, hi, rfl⟩ := List.mem_map.1 hv
      have hq := hin li.1 (List.mem_of_getElem? (mem_zip hli)) I hI i (List.mem_range.1 hi)
      rw [if_neg]
      exact fun e => hp s (List.mem_range.1 hs) n' (List.mem_range.1 hn') _ hq e.symm

/-- Conjugated projection, with the roles of orbital and projector exchanged. -/
theorem proj_star (dV : ℝ) (kv : ℝ × ℝ × ℝ) (ld : PDom 𝕜 → ℕ) (doms : List (PDom 𝕜))
    (hin : ∀ D ∈ doms, Inside D) (z : PDom 𝕜 → ℕ → 𝕜) (o : Opt) (s a n j : ℕ) :
    (starRingEnd 𝕜) (projV dV Lc kv ld doms z o s a n j)
      = (dV : 𝕜) * (doms.map fun D => ((List.range D.nd).map fun q =>
          (starRingEnd 𝕜) (z D (s * D.nd + (n * ld D + q))) * ket Lc kv D o s a j q).sum).sum := by
  unfold projV
  rw [Pres.star_sum, ← List.sum_map_mul_left]
  refine congrArg _ (List.map_congr_left fun D hDm => ?_)
  rw [ofAtom_star]
  have h1 : ((List.range D.nd).map fun q => (starRingEnd 𝕜) (z D (s * D.nd + (n * ld D + q)))
      * ket Lc kv D o s a j q).sum = ofAtom D a fun I => ((List.range D.nd).map fun q =>
        (starRingEnd 𝕜) (z D (s * D.nd + (n * ld D + q))) * ((starRingEnd 𝕜) (phase Lc kv I.R)
          * ((List.range I.ndc).map fun i => if I.pos i = q then bra o s I i j else 0).sum)).sum := by
    rw [ofAtom_sum]
    refine congrArg _ (List.map_congr_left fun q _ => ?_)
    rw [ofAtom_mul]
    rfl
  rw [h1, ← ofAtom_mul]
  refine ofAtom_congr D a _ _ fun l hl I hI => ?_
  rw [map_mul, map_mul, Pres.star_sum, RCLike.conj_ofReal]
  simp only [← List.sum_map_mul_left]
  rw [sum_swap (List.range D.nd)]
  refine congrArg _ (List.map_congr_left fun i hi => ?_)
  have hq := hin D hDm l hl I hI i (List.mem_range.1 hi)
  have e : ∀ q, (dV : 𝕜) * ((starRingEnd 𝕜) (z D (s * D.nd + (n * ld D + q)))
      * ((starRingEnd 𝕜) (phase Lc kv I.R) * if I.pos i = q then bra o s I i j else 0))
      = if q = I.pos i then (dV : 𝕜) * ((starRingEnd 𝕜) (z D (s * D.nd + (n * ld D + q)))
      * ((starRingEnd 𝕜) (phase Lc kv I.R) * bra o s I i j)) else 0 := by
    intro q
    by_cases h : I.pos i = q
    · rw [if_pos h, if_pos h.symm]
    · rw [if_neg h, if_neg (fun h' => h h'.symm), mul_zero, mul_zero, mul_zero]
  simp only [e]
  rw [sum_range_one D.nd (I.pos i) hq, map_mul, starRingEnd_self_apply]
  ring

end Sparc.Soc

import Verif.Pres.Layout

/-! # Stress and pressure: nonlocal energy and stress as sums over atoms and projectors -/

namespace Sparc.Pres

open Loop Matrix

variable {𝕜 : Type} [RCLike 𝕜]

/-- The Bloch phase of the cell an image lies in. -/
noncomputable def phase (Lc k R : ℝ × ℝ × ℝ) : 𝕜 :=
  let θ : ℝ := -(k.1 * (⌊R.1 / Lc.1⌋ * Lc.1) + k.2.1 * (⌊R.2.1 / Lc.2.1⌋ * Lc.2.1)
    + k.2.2 * (⌊R.2.2 / Lc.2.2⌋ * Lc.2.2))
  (Real.cos θ : 𝕜) + (Real.sin θ : 𝕜) * RCLike.I

/-- The projector on the left of the operator for a spinor component. -/
def bra (o : Opt) (s : ℕ) (I : NImg 𝕜) : ℕ → ℕ → 𝕜 :=
  match o with
  | .SC => I.chi
  | .SO1 => I.so0
  | .SO2 => if s = 0 then I.sol else I.sonl

/-- The spinor component on the other side of the operator. -/
def other (o : Opt) (s : ℕ) : ℕ :=
  match o with
  | .SO2 => if s = 0 then 1 else 0
  | _ => s

/-- The projection of a band on projector `j` of atom `a`: the sum over the processes and the
images of the atom there of the phase times `dV` times the sum of the conjugated projector times
the orbital. -/
noncomputable def proj (E : Env) (Lc : ℝ × ℝ × ℝ) (P : Grp 𝕜) (o : Opt) (k s a n j : ℕ) : 𝕜 :=
  (P.doms.map fun D => ofAtom D a fun I => phase Lc (P.k k) I.R * ((E.dV : 𝕜) *
    ((List.range I.ndc).map fun i => (starRingEnd 𝕜) (bra o s I i j)
      * D.psi (orb P D k n s (I.pos i))).sum)).sum

/-- Cartesian vector from an image to the node `q` of a process. -/
noncomputable def nodeArm (L : ℕ → ℝ) (E : Env) (D : PDom 𝕜) (R : ℝ × ℝ × ℝ) (q : ℕ) :
    Fin 3 → ℝ :=
  cpos L ((D.lo.1 + (q % D.nx : ℕ)) * E.h.1 - R.1,
    (D.lo.2.1 + (q / D.nx % D.ny : ℕ)) * E.h.2.1 - R.2.1,
    (D.lo.2.2 + (q / D.nx / D.ny : ℕ)) * E.h.2.2 - R.2.2)

/-- The same with derivative `c` of the orbital times component `c'` of the arm, taken with the
projector and the spinor component on the other side of the operator. -/
noncomputable def moment (L : ℕ → ℝ) (E : Env) (Lc : ℝ × ℝ × ℝ) (P : Grp 𝕜) (o : Opt)
    (c c' : Fin 3) (k s a n j : ℕ) : 𝕜 :=
  (P.doms.map fun D => ofAtom D a fun I => phase Lc (P.k k) I.R *
    ((List.range I.ndc).map fun i => (starRingEnd 𝕜) (bra o (other o s) I i j)
      * psiGrad L D (orb P D k n (other o s) (I.pos i)) c
      * ((nodeArm L E D I.R (I.pos i) c' : ℝ) : 𝕜)).sum).sum

/-- Sum over k-points (weighted), spinor components, atoms, bands (with occupation) and
projectors (with coefficient). -/
noncomputable def projSum (E : Env) (Ts : List Typ) (Nkpts : ℕ) (P : Grp 𝕜) (o : Opt)
    (ss : List ℕ) (F : ℕ → ℕ → ℕ → ℕ → ℕ → ℝ) : ℝ :=
  ((List.range P.Nk).map fun k => P.wt k / Nkpts * (ss.map fun s =>
    ((atoms Ts).zipIdx.map fun Ta => ((List.range P.ncol).map fun n => occOf E P k n s *
      ((chan o Ta.1.1).zipIdx.map fun cj => weight o Ta.1.1 s cj.1
        * F k s Ta.2 n cj.2).sum).sum).sum).sum).sum

theorem blochC_eq (Lc k R : ℝ × ℝ × ℝ) :
    (blochC Lc k R : 𝕜) = (starRingEnd 𝕜) (phase Lc k R) := by
  unfold blochC phase
  have hI : (starRingEnd 𝕜) (RCLike.I : 𝕜) = -RCLike.I := RCLike.conj_I
  dsimp only
  rw [map_add, map_mul, RCLike.conj_ofReal, RCLike.conj_ofReal, hI]
  have : ∀ x y z : ℝ, -k.1 * x - k.2.1 * y - k.2.2 * z = -(k.1 * x + k.2.1 * y + k.2.2 * z) := by
    intro x y z; ring
  rw [this]
  ring

theorem bloch_eq (Lc k R : ℝ × ℝ × ℝ) : (bloch Lc k R : 𝕜) = phase Lc k R := by
  unfold bloch phase
  dsimp only
  have : ∀ x y z : ℝ, -k.1 * x - k.2.1 * y - k.2.2 * z = -(k.1 * x + k.2.1 * y + k.2.2 * z) := by
    intro x y z; ring
  rw [this]

theorem push {α : Type} (l : List α) (f : α → ℕ → 𝕜) (q : ℕ) :
    (l.map f).sum q = (l.map fun x => f x q).sum :=
  map_sum_list (Pi.evalAddMonoidHom (fun _ : ℕ => 𝕜) q) l f

theorem star_sum {α : Type} (l : List α) (f : α → 𝕜) :
    (starRingEnd 𝕜) ((l.map f).sum) = (l.map fun x => (starRingEnd 𝕜) (f x)).sum :=
  map_sum_list (starRingEnd 𝕜).toAddMonoidHom l f

theorem ofAtom_star (D : PDom 𝕜) (a : ℕ) (F : NImg 𝕜 → 𝕜) :
    (starRingEnd 𝕜) (ofAtom D a F) = ofAtom D a fun I => (starRingEnd 𝕜) (F I) := star_sum _ _

variable {Ts : List Typ} {Lc : ℝ × ℝ × ℝ} {occfac : ℝ} {Nkpts : ℕ}

theorem alpha_at (E : Env) (P : Grp 𝕜) (o : Opt) (hP : ∀ D ∈ P.doms, Placed Ts D)
    {k s a n j : ℕ} {T : Typ} {i : ℕ} (hk : k < P.Nk)
    (hs : s < P.nsp) (ha : (atoms Ts)[a]? = some (T, i)) (hn : n < P.ncol)
    (hj : j < (chan o T).length) :
    (P.doms.map (alpha E (mkEnv Ts Lc occfac Nkpts) P o)).sum
      (pos o Ts P.ncol P.nsp k s a (chan o T).length n j)
      = (starRingEnd 𝕜) (proj E Lc P o k s a n j) := by
  rw [push]
  unfold proj
  rw [star_sum]
  refine congrArg _ (List.map_congr_left fun D hD => ?_)
  unfold alpha
  rw [integral_at Ts Lc occfac Nkpts P o D (hP D hD) _ hk hs ha hn hj, ofAtom_star]
  unfold ofAtom
  refine congrArg _ (List.map_congr_left fun I _ => ?_)
  dsimp only
  rw [map_mul, map_mul, RCLike.conj_ofReal, star_sum, mul_assoc]
  change blochC Lc (P.k k) I.R * _ = _
  rw [blochC_eq]
  congr 2
  refine congrArg _ (List.map_congr_left fun i _ => ?_)
  rw [map_mul, RCLike.conj_conj]
  have e : k * (D.nd * P.nsp * P.ncol) + (n * (D.nd * P.nsp) + s * D.nd) + I.pos i
      = orb P D k n s (I.pos i) := by
    unfold orb; ring
  rw [e]
  congr 1

theorem ndisp_eq (E : Env) (D : PDom 𝕜) (R : ℝ × ℝ × ℝ) (q : ℕ) :
    ndisp E D R q = ((D.lo.1 + (q % D.nx : ℕ)) * E.h.1 - R.1,
    (D.lo.2.1 + (q / D.nx % D.ny : ℕ)) * E.h.2.1 - R.2.1,
    (D.lo.2.2 + (q / D.nx / D.ny : ℕ)) * E.h.2.2 - R.2.2) := by
  have e1 : q / (D.nx * D.ny) = q / D.nx / D.ny := (Nat.div_div_eq_div_mul _ _ _).symm
  have e2 : (q - q / (D.nx * D.ny) * (D.nx * D.ny)) / D.nx = q / D.nx % D.ny := by
    have : q - q / (D.nx * D.ny) * (D.nx * D.ny) = q % (D.nx * D.ny) := by
      have := Nat.div_add_mod q (D.nx * D.ny)
      rw [Nat.mul_comm] at this
      omega
    rw [this, Nat.mod_mul_right_div_self]
  unfold ndisp
  dsimp only
  rw [e2, e1]
  simp only [Int.cast_add, Int.cast_natCast]
  refine Prod.ext ?_ (Prod.ext ?_ ?_) <;> dsimp only <;> ring

variable {L : ℕ → ℝ} {E : Env}

theorem beta_at (h : Coord.transformMat L = some E.G) (h0 : E.G.cellTyp = 0 → unitMat L = 1)
    (P : Grp 𝕜) (o : Opt) (hP : ∀ D ∈ P.doms, Placed Ts D) (c c' : Fin 3)
    {k s a n j : ℕ} {T : Typ} {i : ℕ} (hk : k < P.Nk)
    (hs : s < P.nsp) (hso : o = .SO2 → P.nsp = 2) (ha : (atoms Ts)[a]? = some (T, i))
    (hn : n < P.ncol) (hj : j < (chan o T).length) :
    (P.doms.map fun D => betaS E (mkEnv Ts Lc occfac Nkpts) P o D c c').sum
      (pos o Ts P.ncol P.nsp k s a (chan o T).length n j)
      = moment L E Lc P o c c' k s a n j := by
  rw [push]
  unfold moment
  refine congrArg _ (List.map_congr_left fun D hD => ?_)
  unfold betaS chiX
  rw [integral_at Ts Lc occfac Nkpts P o D (hP D hD) _ hk hs ha hn hj]
  unfold ofAtom
  refine congrArg _ (List.map_congr_left fun I _ => ?_)
  dsimp only
  change bloch Lc (P.k k) I.R * _ = _
  rw [bloch_eq]
  congr 2
  refine List.map_congr_left fun i _ => ?_
  rw [dpsiFull_eq h h0, ← mul_assoc]
  have ho : (if o = .SO2 then 1 - s else s) = other o s := by
    cases o with
    | SC => rfl
    | SO1 => rfl
    | SO2 =>
      have := hso rfl
      simp only [other, if_true]
      split <;> omega
  have e : k * (D.nd * P.nsp * P.ncol) + (n * (D.nd * P.nsp)
      + (if o = .SO2 then 1 - s else s) * D.nd) + I.pos i
      = orb P D k n (other o s) (I.pos i) := by
    rw [ho]; unfold orb; ring
  rw [e]
  have u := U_eq h
  have hX : E.G.U c'.val * (ndisp E D I.R (I.pos i)).1
      + E.G.U (3 + c'.val) * (ndisp E D I.R (I.pos i)).2.1
      + E.G.U (6 + c'.val) * (ndisp E D I.R (I.pos i)).2.2 = nodeArm L E D I.R (I.pos i) c' := by
    unfold nodeArm
    rw [← ndisp_eq]
    have u0 := u 0 c'; have u1 := u 1 c'; have u2 := u 2 c'
    simp only [Fin.val_zero, Fin.val_one, Fin.val_two, Nat.mul_zero, Nat.zero_add, Nat.mul_one,
      Nat.reduceMul] at u0 u1 u2
    rw [u0, u1, u2]
    simp [cpos, vec, Matrix.vecMul, dotProduct, Fin.sum_univ_three]
    ring
  rw [hX]
  congr 2
  clear e ho hso hj
  have hb : (match o with
      | .SC => I.chi
      | .SO1 => I.so0
      | .SO2 => if s = 0 then I.sonl else I.sol) = bra o (other o s) I := by
    cases o with
    | SC => rfl
    | SO1 => rfl
    | SO2 =>
      by_cases e0 : s = 0
      · simp [bra, other, e0]
      · simp [bra, other, e0]
  exact congrArg (starRingEnd 𝕜) (congrFun (congrFun hb i) j)

theorem mem_zip {α : Type} {l : List α} {x : α × ℕ} (h : x ∈ l.zipIdx) : l[x.2]? = some x.1 := by
  rw [List.mem_zipIdx_iff_getElem?] at h
  simpa using h

/-- A walk over stored integrals in closed form. -/
theorem walk_real (P : Grp 𝕜) (o : Opt) (sc : ℝ) (f : ℕ → ℝ) (F : ℕ → ℕ → ℕ → ℕ → ℕ → ℝ)
    (hF : ∀ k s a n j T i, k < P.Nk → s < P.nsp → (atoms Ts)[a]? = some (T, i) → n < P.ncol →
      j < (chan o T).length → f (pos o Ts P.ncol P.nsp k s a (chan o T).length n j)
        = F k s a n j) :
    walk E (mkEnv Ts Lc occfac Nkpts) P o sc f
      = sc * projSum E Ts Nkpts P o (List.range P.nsp) F := by
  rw [walk_eq]
  unfold projSum
  rw [← List.sum_map_mul_left]
  refine congrArg _ (List.map_congr_left fun k hk => ?_)
  rw [← mul_assoc, ← List.sum_map_mul_left]
  refine congrArg _ (List.map_congr_left fun s hs => ?_)
  rw [← List.sum_map_mul_left]
  refine congrArg _ (List.map_congr_left fun Ta hTa => ?_)
  rw [smul_eq_mul]
  refine congrArg _ (congrArg _ (List.map_congr_left fun n hn => ?_))
  rw [smul_eq_mul]
  refine congrArg _ (congrArg _ (List.map_congr_left fun cj hcj => ?_))
  rw [smul_eq_mul]
  refine congrArg _ ?_
  exact hF k s Ta.2 n cj.2 Ta.1.1 Ta.1.2 (List.mem_range.1 hk) (List.mem_range.1 hs)
    (mem_zip hTa) (List.mem_range.1 hn) (lt_length (mem_zip hcj))

theorem reMul_eq (a b : 𝕜) : reMul ((starRingEnd 𝕜) a) b = RCLike.re ((starRingEnd 𝕜) a * b) := by
  unfold reMul
  rw [RCLike.mul_re]

theorem six_ix (g : Fin 3 → Fin 3 → ℝ) {c c' : Fin 3} (hc : c ≤ c') :
    (![g 0 0, g 0 1, g 0 2, g 1 1, g 1 2, g 2 2] : Ten) (ix c c') = g c c' := by
  fin_cases c <;> fin_cases c' <;> first | rfl | exact absurd hc (by decide)

/-- A component of a walk with tensors. -/
theorem walk_ix (E : Env) (N : NEnv) (P : Grp 𝕜) (o : Opt) (sc : ℝ) (f : ℕ → Ten)
    (g : Fin 3 → Fin 3 → ℕ → ℝ) {c c' : Fin 3} (hc : c ≤ c')
    (hf : f = fun q => ![g 0 0 q, g 0 1 q, g 0 2 q, g 1 1 q, g 1 2 q, g 2 2 q] := by rfl) :
    walk E N P o sc f (ix c c') = walk E N P o sc (g c c') := by
  have e := walk_map (LinearMap.proj (R := ℝ) (φ := fun _ : Fin 6 => ℝ) (ix c c')) E N P o sc f
  rw [LinearMap.proj_apply] at e
  rw [← e]
  congr 1
  funext q
  rw [LinearMap.proj_apply, hf]
  exact six_ix (fun c c' => g c c' q) hc

/-- A component of the nonlocal sum. -/
theorem nlS_at (h : Coord.transformMat L = some E.G) (h0 : E.G.cellTyp = 0 → unitMat L = 1)
    (P : Grp 𝕜) (o : Opt) (hP : ∀ D ∈ P.doms, Placed Ts D) (hso : o = .SO2 → P.nsp = 2)
    {c c' : Fin 3} (hc : c ≤ c') :
    nlS E (mkEnv Ts Lc occfac Nkpts) P o
      ((P.doms.map (alpha E (mkEnv Ts Lc occfac Nkpts) P o)).sum)
      (fun c c' => (P.doms.map fun D => betaS E (mkEnv Ts Lc occfac Nkpts) P o D c c').sum) (ix c c')
    = -projSum E Ts Nkpts P o (List.range P.nsp) fun k s a n j =>
        RCLike.re ((starRingEnd 𝕜) (proj E Lc P o k s a n j)
          * moment L E Lc P o c c' k s a n j) := by
  unfold nlS
  rw [walk_ix _ _ _ _ _ _ (fun c c' q => reMul ((P.doms.map
    (alpha E (mkEnv Ts Lc occfac Nkpts) P o)).sum q)
    ((P.doms.map fun D => betaS E (mkEnv Ts Lc occfac Nkpts) P o D c c').sum q)) hc,
    walk_real P o (-1) _ (fun k s a n j => RCLike.re ((starRingEnd 𝕜) (proj E Lc P o k s a n j)
          * moment L E Lc P o c c' k s a n j)) ?_, neg_one_mul]
  intro k s a n j T i hk hs ha hn hj
  rw [alpha_at (Lc := Lc) (occfac := occfac) (Nkpts := Nkpts) E P o hP hk hs ha hn hj,
    beta_at (Lc := Lc) (occfac := occfac) (Nkpts := Nkpts) h h0 P o hP c c' hk hs hso ha hn hj,
    reMul_eq]

/-- The nonlocal energy of one term. -/
theorem nlE_at (P : Grp 𝕜) (o : Opt) (ho : o ≠ .SO2) (hP : ∀ D ∈ P.doms, Placed Ts D) :
    nlE E (mkEnv Ts Lc occfac Nkpts) P o
      ((P.doms.map (alpha E (mkEnv Ts Lc occfac Nkpts) P o)).sum)
    = projSum E Ts Nkpts P o (List.range P.nsp) fun k s a n j =>
        ‖proj E Lc P o k s a n j‖ ^ 2 := by
  unfold nlE
  dsimp only
  rw [if_neg ho, walk_real P o 1 _ (fun k s a n j => ‖proj E Lc P o k s a n j‖ ^ 2) ?_, one_mul]
  intro k s a n j T i hk hs ha hn hj
  rw [alpha_at E P o hP hk hs ha hn hj, ← RCLike.normSq_eq_def', RCLike.normSq_apply,
    RCLike.conj_re, RCLike.conj_im]
  ring

/-- The nonlocal energy of the term coupling the two spinor components. -/
theorem nlE_so2 (P : Grp 𝕜) (hP : ∀ D ∈ P.doms, Placed Ts D) (hsp : P.nsp = 2) :
    nlE E (mkEnv Ts Lc occfac Nkpts) P .SO2
      ((P.doms.map (alpha E (mkEnv Ts Lc occfac Nkpts) P .SO2)).sum)
    = projSum E Ts Nkpts P .SO2 [0] fun k _ a n j =>
        2 * RCLike.re ((starRingEnd 𝕜) (proj E Lc P .SO2 k 0 a n j)
          * proj E Lc P .SO2 k 1 a n j) := by
  set N := mkEnv Ts Lc occfac Nkpts with hN
  set al := (P.doms.map (alpha E N P .SO2)).sum with hal
  have hshift : N.ip .SO2 N.natom * P.ncol = P.ncol * total .SO2 Ts := by
    have hnat : N.natom = (atoms Ts).length := (atoms_length Ts).symm
    rw [hnat, mk_ip Ts Lc occfac Nkpts .SO2 _ le_rfl, before_total, Nat.mul_comm]
  unfold nlE
  dsimp only
  rw [if_pos rfl, hshift, hsp, show (List.range 2).take 1 = [0] from rfl]
  simp only [List.foldl_cons, List.foldl_nil]
  set f : ℕ → ℝ := fun c => 2 * (RCLike.re (al c) * RCLike.re (al (c + P.ncol * total .SO2 Ts))
        + RCLike.im (al c) * RCLike.im (al (c + P.ncol * total .SO2 Ts))) with hf
  have hstep := foldl_steps (2 * (P.ncol * total .SO2 Ts)) (fun k q =>
    ((atoms Ts).zipIdx.map fun Ta => (1 * (P.wt k / (N.Nkpts : ℝ))) •
        ((List.range P.ncol).map fun n => occOf E P k n 0 • ((chan .SO2 Ta.1.1).zipIdx.map fun cj =>
          weight .SO2 Ta.1.1 0 cj.1 • f (q + P.ncol * before .SO2 Ts Ta.2
            + n * (chan .SO2 Ta.1.1).length + cj.2)).sum).sum).sum) P.Nk 0 (0 : ℝ)
  have he : (List.range P.Nk).foldl (fun (st : ℕ × ℝ) k =>
      ((atomLoop E N P .SO2 1 k 0 f st).1 + P.ncol * total .SO2 Ts,
        (atomLoop E N P .SO2 1 k 0 f st).2)) (0, 0)
      = (List.range P.Nk).foldl (fun (st : ℕ × ℝ) k => (st.1 + 2 * (P.ncol * total .SO2 Ts),
        st.2 + ((atoms Ts).zipIdx.map fun Ta => (1 * (P.wt k / (N.Nkpts : ℝ))) •
        ((List.range P.ncol).map fun n => occOf E P k n 0 • ((chan .SO2 Ta.1.1).zipIdx.map fun cj =>
          weight .SO2 Ta.1.1 0 cj.1 • f (st.1 + P.ncol * before .SO2 Ts Ta.2
            + n * (chan .SO2 Ta.1.1).length + cj.2)).sum).sum).sum)) (0, 0) := by
    refine List.foldl_ext _ _ _ fun st k _ => ?_
    rw [show st = (st.1, st.2) from rfl, atomLoop_eq]
    refine Prod.ext ?_ rfl
    change st.1 + P.ncol * total .SO2 Ts + P.ncol * total .SO2 Ts = _
    ring
  rw [he, hstep]
  dsimp only
  rw [zero_add]
  unfold projSum
  refine congrArg _ (List.map_congr_left fun k hk => ?_)
  rw [List.map_singleton, List.sum_singleton, ← List.sum_map_mul_left]
  refine congrArg _ (List.map_congr_left fun Ta hTa => ?_)
  rw [smul_eq_mul, one_mul]
  refine congrArg _ (congrArg _ (List.map_congr_left fun n hn => ?_))
  rw [smul_eq_mul]
  refine congrArg _ (congrArg _ (List.map_congr_left fun cj hcj => ?_))
  rw [smul_eq_mul]
  refine congrArg _ ?_
  have hk' := List.mem_range.1 hk
  have hn' := List.mem_range.1 hn
  have hj' := lt_length (mem_zip hcj)
  have a0 := alpha_at (Lc := Lc) (occfac := occfac) (Nkpts := Nkpts) E P .SO2 hP hk'
    (s := 0) (by omega) (mem_zip hTa) hn' hj'
  have a1 := alpha_at (Lc := Lc) (occfac := occfac) (Nkpts := Nkpts) E P .SO2 hP hk'
    (s := 1) (by omega) (mem_zip hTa) hn' hj'
  have p0 : 0 + k * (2 * (P.ncol * total .SO2 Ts)) + P.ncol * before .SO2 Ts Ta.2
      + n * (chan .SO2 Ta.1.1).length + cj.2
      = pos .SO2 Ts P.ncol P.nsp k 0 Ta.2 (chan .SO2 Ta.1.1).length n cj.2 := by
    rw [hsp]; unfold pos; ring
  have p1 : pos .SO2 Ts P.ncol P.nsp k 0 Ta.2 (chan .SO2 Ta.1.1).length n cj.2
      + P.ncol * total .SO2 Ts
      = pos .SO2 Ts P.ncol P.nsp k 1 Ta.2 (chan .SO2 Ta.1.1).length n cj.2 := by
    rw [hsp]; unfold pos; ring
  rw [hf]
  dsimp only
  rw [p0, p1, hal, a0, a1, RCLike.mul_re]
  simp only [RCLike.conj_re, RCLike.conj_im]
  ring

end Sparc.Pres

import Verif.Halo.Lemmas
import Verif.Lap.Props

/-!
# C03: the distributed Laplacian equals the serial one

The global grid function `g` lives on `0 ≤ I < N 0`, ...; `ext L g` extends it by periodic images
or by zero, according to the boundary conditions.  `Distributed` says that every process holds its
block of `g`.
-/

namespace Sparc.Halo

open Loop Lap

/-! ### The halo after the exchange -/

/-- After the exchange of the orthogonal routine, `x_ex` on process `p` holds the extended grid
function at every point outside the block in at most one direction; no message is lost or has the
wrong length. -/
theorem xex6_halo {L : Layout} (hF : L.Fits) {ldi : Proc → ℤ} {g : ℕ → ℕ → ℕ → ℕ → ℝ}
    {xs : Proc → Mem} (hx : Distributed L ldi L.ncol g xs) {p : Proc} (hp : L.Valid p) (m : Mem) :
    ∃ m', xex6 L ldi xs p m = some m' ∧ Holds (L.isize p) L.FDn (target L g p)
      (fun P => Inner L p P ∨ ∃ s < 6, Reg L (exch6 L) p s P) m' := by
  unfold xex6
  split_ifs with h
  · exact haloMany_holds (good6 L) hF hx hp m
  · have h1 : ∀ d, L.dims d = 1 := by
      have hpos : ∀ d, 0 < L.dims d := fun d => lt_of_le_of_lt (Nat.zero_le _) (hp d)
      have a := hpos 0
      have b := hpos 1
      have c := hpos 2
      have h' : L.dims 0 * L.dims 1 * L.dims 2 = 1 :=
        le_antisymm (not_lt.1 h) (Nat.mul_pos (Nat.mul_pos a b) c)
      have h2 := Nat.eq_one_of_mul_eq_one_left h'
      have h3 := Nat.eq_one_of_mul_eq_one_right h'
      exact fin3 (Nat.eq_one_of_mul_eq_one_right h3) (Nat.eq_one_of_mul_eq_one_left h3) h2
    refine ⟨_, rfl, ?_⟩
    have h0 := copyIn_holds hx hp (C := fun _ => False) (m := m) (fun P _ h => h.elim)
    refine (fold_holds (E := exch6 L) _ (fun _ => False) 6 ?_ (fun _ h => h.elim) h0 6 le_rfl).mono ?_
    · intro s hs C m' _ hC
      have hnb := nbr_one h1 hp (step6 s hs)
      have hax : (∀ d, offs6.getD s 0 d = 0 ∨ L.per d = true) ↔
          L.per (Fin.ofNat 3 (s / 2)) = true := by
        constructor
        · intro hh
          rcases hh (Fin.ofNat 3 (s / 2)) with h' | h'
          · exfalso
            have key : ∀ s < 6, offs6.getD s 0 (Fin.ofNat 3 (s / 2)) ≠ 0 := by decide +kernel
            exact key s hs h'
          · exact h'
        · intro hh d
          by_cases hd : d = Fin.ofNat 3 (s / 2)
          · right; rw [hd]; exact hh
          · left; exact offs6_axis s hs d hd
      simp only [hax] at hnb
      split_ifs with hper
      · rw [if_pos hper] at hnb
        obtain ⟨o1, -⟩ := offs6_opp s hs 0
        have o2 := fun d => (offs6_opp s hs d).2
        refine copySlot_holds (good6 L) hF hx hp hs hnb (fun d => ?_) (fun d => ?_) hC
        · have := (send6_eq (L.isize p) L.FDn _ o1 d).1
          rw [o2 d, neg_neg] at this
          exact this
        · have := (send6_eq (L.isize p) L.FDn _ o1 d).2
          rw [o2 d, neg_neg] at this
          exact this
      · rw [if_neg hper] at hnb
        exact zeroSlot_holds (good6 L) hF hx hp hs hnb hC
    · rintro P - (hc | hc)
      · exact Or.inl (Or.inr hc)
      · exact Or.inr hc

theorem isnonzero26_eq (per : Fin 3 → Bool) : ∀ s < 26,
    ((isnonzero26 per).getD s false = true ↔ ∀ d, offs26.getD s 0 d = 0 ∨ per d = true) := by
  have key : ∀ a b c : Bool, ∀ s < 26, ((isnonzero26 ![a, b, c]).getD s false = true ↔
      ∀ d, offs26.getD s 0 d = 0 ∨ ![a, b, c] d = true) := by
    decide +kernel
  have e : per = ![per 0, per 1, per 2] := by
    funext d
    exact fin3 (P := fun d => per d = ![per 0, per 1, per 2] d) rfl rfl rfl d
  rw [e]
  exact key _ _ _

/-- The same for the oblique routine, at every point of the block and its halo. -/
theorem xex26_halo {L : Layout} (hF : L.Fits) {ldi : Proc → ℤ} {g : ℕ → ℕ → ℕ → ℕ → ℝ}
    {xs : Proc → Mem} (hx : Distributed L ldi L.ncol g xs) {p : Proc} (hp : L.Valid p) :
    ∃ m', xex26 L ldi xs p = some m' ∧ Holds (L.isize p) L.FDn (target L g p)
      (fun P => Inner L p P ∨ ∃ s < 26, Reg L (exch26 L) p s P) m' := by
  unfold xex26
  split_ifs with h
  · exact haloMany_holds (good26 L) hF hx hp _
  · have h1 : ∀ d, L.dims d = 1 := by
      have hpos : ∀ d, 0 < L.dims d := fun d => lt_of_le_of_lt (Nat.zero_le _) (hp d)
      have a := hpos 0
      have b := hpos 1
      have c := hpos 2
      have h' : L.dims 0 * L.dims 1 * L.dims 2 = 1 :=
        le_antisymm (not_lt.1 h) (Nat.mul_pos (Nat.mul_pos a b) c)
      have h2 := Nat.eq_one_of_mul_eq_one_left h'
      have h3 := Nat.eq_one_of_mul_eq_one_right h'
      exact fin3 (Nat.eq_one_of_mul_eq_one_right h3) (Nat.eq_one_of_mul_eq_one_left h3) h2
    refine ⟨_, rfl, ?_⟩
    have h00 : Holds (L.isize p) L.FDn (target L g p) (fun P => target L g p P = 0) (fun _ => 0) :=
      fun P _ h => h.symm
    have h0 := copyIn_holds hx hp h00
    refine (fold_holds (E := exch26 L) _ (fun P => target L g p P = 0) 26 ?_
      (fun _ h => Or.inl h) h0 26 le_rfl).mono ?_
    · intro s hs C m' hZ hC
      have hnb := nbr_one h1 hp (step26 s hs)
      simp only [← isnonzero26_eq L.per s hs] at hnb
      split_ifs with hnz
      · rw [if_pos hnz] at hnb
        exact copySlot_holds (good26 L) hF hx hp hs hnb
          (fun d => (one26_eq (L.isize p) L.FDn hs d).1)
          (fun d => (one26_eq (L.isize p) L.FDn hs d).2) hC
      · rw [if_neg hnz] at hnb
        intro P hP hc
        rcases hc with hc | hc
        · exact hC P hP hc
        · exact hC P hP (hZ P (target_none (good26 L) hF hx hp hs hnb hc))
    · rintro P - (hc | hc)
      · exact Or.inl (Or.inr hc)
      · exact Or.inr hc

/-! ### The Laplacian -/

/-- The term with the potential: dropped when no potential is given or the factor is below the
program's threshold. -/
noncomputable def potential (Q : Call) (V : ℕ → ℕ → ℕ → ℝ) (I J K : ℕ) : ℝ :=
  if Q.v = none ∨ |Q.b| < 1 / 10 ^ 14 then 0 else Q.b * V I J K

/-- The processes hold the parts of the potential. -/
def PotentialOf (L : Layout) (Q : Call) (V : ℕ → ℕ → ℕ → ℝ) : Prop :=
  ∀ v, Q.v = some v → Distributed L (fun _ => 0) 1 (fun _ => V) v

/-- Second-derivative stencils of the global (extended) function at a grid point. -/
noncomputable def globalLap (L : Layout) (h : Fin 3 → ℝ) (u : ℕ → ℕ → ℕ → ℝ) (I J K : ℕ) : ℝ :=
  FD.applyD2 L.FDn (FD.coefD2 L.FDn (h 0)) (fun s => ext L u s J K) I +
  FD.applyD2 L.FDn (FD.coefD2 L.FDn (h 1)) (fun s => ext L u I s K) J +
  FD.applyD2 L.FDn (FD.coefD2 L.FDn (h 2)) (fun s => ext L u I J s) K

theorem applyD2_shift (n : ℕ) (c : ℕ → ℝ) (f : ℤ → ℝ) (a i : ℤ) :
    FD.applyD2 n c (fun s => f (a + s)) i = FD.applyD2 n c f (a + i) := by
  simp only [FD.applyD2, FD.foldl_add_sum, add_assoc, add_sub_assoc]

theorem applyD1_shift (n : ℕ) (c : ℕ → ℝ) (f : ℤ → ℝ) (a i : ℤ) :
    FD.applyD1 n c (fun s => f (a + s)) i = FD.applyD1 n c f (a + i) := by
  simp only [FD.applyD1, FD.foldl_add_sum, add_assoc, add_sub_assoc]

theorem at3_eq (L : Layout) (p : Proc) (Q : Call) (n : ℕ) (m : Mem) (i j k : ℕ) :
    at3 (kernelArgs L p Q n m) i j k = addr (L.isize p) 0 0 i j k := by
  unfold at3 addr Layout.isize kernelArgs
  dsimp only
  push_cast
  ring

theorem kernel_potential {L : Layout} {Q : Call} {V : ℕ → ℕ → ℕ → ℝ} (hV : PotentialOf L Q V)
    {p : Proc} (hp : L.Valid p) {n : ℕ} (m : Mem) (u : ℝ) {i j k : ℕ}
    (hi : i < L.size p 0) (hj : j < L.size p 1) (hk : k < L.size p 2) :
    effB (kernelArgs L p Q n m).b (kernelArgs L p Q n m).v *
      (effV (kernelArgs L p Q n m).b (kernelArgs L p Q n m).v (kernelArgs L p Q n m).x
        (addr (L.isize p) 0 0 i j k) * u) =
      potential Q V (L.start p 0 + i) (L.start p 1 + j) (L.start p 2 + k) * u := by
  set A := kernelArgs L p Q n m with hA
  obtain ⟨p1, p2, -⟩ := potential_term A.b A.v A.x (addr (L.isize p) 0 0 i j k) u
  unfold potential
  cases hv : Q.v with
  | none =>
    rw [p2 (by rw [hA]; unfold kernelArgs; dsimp only; rw [hv]; rfl), if_pos (Or.inl rfl), zero_mul]
  | some v =>
    by_cases hb : |Q.b| < 1 / 10 ^ 14
    · rw [if_pos (Or.inr hb), zero_mul]
      have : effB A.b A.v = 0 := if_pos (Or.inl hb)
      rw [this, zero_mul]
    · rw [if_neg (by push Not; exact ⟨by simp, not_lt.1 hb⟩),
        p1 (v p) (by rw [hA]; unfold kernelArgs; dsimp only; rw [hv]; rfl) (not_lt.1 hb)]
      have := hV v hv p hp 0 (by norm_num) i hi j hj k hk
      rw [this]
      rfl

theorem exIdx_eq (L : Layout) (p : Proc) (Q : Call) (n : ℕ) (m : Mem) (i j k : ℤ) :
    (kernelArgs L p Q n m).xex ((k + (kernelArgs L p Q n m).FDn) *
      (((kernelArgs L p Q n m).DMnx + 2 * (kernelArgs L p Q n m).FDn) *
        ((kernelArgs L p Q n m).DMny + 2 * (kernelArgs L p Q n m).FDn)) +
      (j + (kernelArgs L p Q n m).FDn) *
        ((kernelArgs L p Q n m).DMnx + 2 * (kernelArgs L p Q n m).FDn) +
      (i + (kernelArgs L p Q n m).FDn)) =
    m ((⟨n, i, j, k⟩ : Pt).place (L.isize p) L.FDn) := by
  unfold kernelArgs Pt.place exIdx
  dsimp only [Layout.isize]
  congr 1
  ring

/-- The function seen from the point `a`. -/
def shift (a : Fin 3 → ℤ) (u : Fun3) : Fun3 := fun i j k => u (a 0 + i) (a 1 + j) (a 2 + k)

theorem DD_shift (n : ℕ) (h : Fin 3 → ℝ) (a : Fin 3 → ℤ) (u : Fun3) (d : Fin 3) :
    DD n h d (shift a u) = shift a (DD n h d u) := by
  funext i j k
  revert d
  refine fin3 ?_ ?_ ?_
  · exact applyD2_shift _ _ (fun s => u s (a 1 + j) (a 2 + k)) _ _
  · exact applyD2_shift _ _ (fun s => u (a 0 + i) s (a 2 + k)) _ _
  · exact applyD2_shift _ _ (fun s => u (a 0 + i) (a 1 + j) s) _ _

theorem D_shift (n : ℕ) (h : Fin 3 → ℝ) (a : Fin 3 → ℤ) (u : Fun3) (d : Fin 3) :
    D n h d (shift a u) = shift a (D n h d u) := by
  funext i j k
  revert d
  refine fin3 ?_ ?_ ?_
  · exact applyD1_shift _ _ (fun s => u s (a 1 + j) (a 2 + k)) _ _
  · exact applyD1_shift _ _ (fun s => u (a 0 + i) s (a 2 + k)) _ _
  · exact applyD1_shift _ _ (fun s => u (a 0 + i) (a 1 + j) s) _ _

theorem lap_shift (n : ℕ) (h : Fin 3 → ℝ) (T : ℕ → ℝ) (a : Fin 3 → ℤ) (u : Fun3) :
    lap n h T (shift a u) = shift a (lap n h T u) := by
  funext i j k
  unfold lap
  simp only [DD_shift, D_shift]
  rfl

/-- **C03.** On every process grid, with every combination of boundary conditions, the distributed
orthogonal-cell operator is defined on every process and gives at every point of its block
`a ∇² u + b V u + c u` with the stencil of the whole grid. -/
theorem lap_distributed {L : Layout} (hF : L.Fits) (dx dy dz : ℝ) (Q : Call)
    {g : ℕ → ℕ → ℕ → ℕ → ℝ} (hx : Distributed L Q.ldi L.ncol g Q.x) {V : ℕ → ℕ → ℕ → ℝ}
    (hV : PotentialOf L Q V) {p : Proc} (hp : L.Valid p) {n i j k : ℕ} (hn : n < L.ncol)
    (hi : i < L.size p 0) (hj : j < L.size p 1) (hk : k < L.size p 2) :
    ∃ y, lapOrth L (coefs0 L.FDn dx dy dz) Q p n = some y ∧
      y (addr (L.isize p) 0 0 i j k) =
        Q.a * globalLap L ![dx, dy, dz] (g n) (L.start p 0 + i) (L.start p 1 + j) (L.start p 2 + k) +
        (potential Q V (L.start p 0 + i) (L.start p 1 + j) (L.start p 2 + k) + Q.c) *
          g n (L.start p 0 + i) (L.start p 1 + j) (L.start p 2 + k) := by
  obtain ⟨m, hm, hh⟩ := xex6_halo hF hx hp Q.ex0
  refine ⟨_, by unfold lapOrth; rw [hm]; rfl, ?_⟩
  set A := kernelArgs L p Q n m with hA
  set u : Fun3 := fun i j k => ext L (g n) (L.start p 0 + i) (L.start p 1 + j) (L.start p 2 + k)
    with hu
  have hf : HaloFaces A u := by
    intro i' j' k' a1 a2 a3 a4 a5 a6 a7
    have hPin : (⟨n, i', j', k'⟩ : Pt).In (L.isize p) L.FDn := ⟨⟨a1, a2⟩, ⟨a3, a4⟩, a5, a6⟩
    exact (exIdx_eq L p Q n m i' j' k').trans (hh ⟨n, i', j', k'⟩ hPin (cover6 L p hPin hn (by
      rcases a7 with ⟨b1, b2, b3, b4⟩ | ⟨b1, b2, b3, b4⟩ | ⟨b1, b2, b3, b4⟩
      · exact Or.inl ⟨⟨b1, b2⟩, b3, b4⟩
      · exact Or.inr (Or.inl ⟨⟨b1, b2⟩, b3, b4⟩)
      · exact Or.inr (Or.inr ⟨⟨b1, b2⟩, b3, b4⟩))))
  have key := orth_point L.FDn dx dy dz A rfl u hf hi hj hk
  have e1 : at3 A i j k = addr (L.isize p) 0 0 i j k := at3_eq L p Q n m i j k
  rw [← e1]
  refine key.trans ?_
  have e2 : u i j k = g n (L.start p 0 + i) (L.start p 1 + j) (L.start p 2 + k) :=
    target_inner g hp (n := n) hi hj hk
  have e3 := kernel_potential hV hp (n := n) m (u i j k) hi hj hk
  rw [← e1] at e3
  rw [e3, e2]
  have e4 : DD L.FDn ![dx, dy, dz] 0 u i j k + DD L.FDn ![dx, dy, dz] 1 u i j k +
      DD L.FDn ![dx, dy, dz] 2 u i j k =
      globalLap L ![dx, dy, dz] (g n) (L.start p 0 + i) (L.start p 1 + j) (L.start p 2 + k) := by
    unfold DD globalLap
    dsimp only
    rw [hu]
    dsimp only
    rw [applyD2_shift _ _ (fun s => ext L (g n) s (L.start p 1 + j) (L.start p 2 + k)),
      applyD2_shift _ _ (fun s => ext L (g n) (L.start p 0 + i) s (L.start p 2 + k)),
      applyD2_shift _ _ (fun s => ext L (g n) (L.start p 0 + i) (L.start p 1 + j) s)]
    push_cast
    rfl
  rw [e4]
  change Q.a * _ + _ + Q.c * _ = _
  ring

/-- **C03.** The same for an oblique cell: the distributed operator is defined on every process and
gives `a Σ_de T_de D_d D_e u + b V u + c u` with the stencils of the whole grid, with the couplings
`T` that the program keeps. -/
theorem lap_distributed_oblique {L : Layout} (hF : L.Fits) (LV : ℕ → ℝ) (G : Coord.Geom)
    (hG : Coord.transformMat LV = some G) (h10 : 10 < G.cellTyp) (dx dy dz : ℝ) (Q : Call)
    {g : ℕ → ℕ → ℕ → ℕ → ℝ} (hx : Distributed L Q.ldi L.ncol g Q.x) {V : ℕ → ℕ → ℕ → ℝ}
    (hV : PotentialOf L Q V) {p : Proc} (hp : L.Valid p) {n i j k : ℕ} (hn : n < L.ncol)
    (hi : i < L.size p 0) (hj : j < L.size p 1) (hk : k < L.size p 2) :
    ∃ y, lapNonorth L (coefs G.lapc L.FDn dx dy dz) G.cellTyp Q p n = some y ∧
      y (addr (L.isize p) 0 0 i j k) =
        Q.a * lap L.FDn ![dx, dy, dz] (kept G) (ext L (g n))
          (L.start p 0 + i : ℕ) (L.start p 1 + j : ℕ) (L.start p 2 + k : ℕ) +
        (potential Q V (L.start p 0 + i) (L.start p 1 + j) (L.start p 2 + k) + Q.c) *
          g n (L.start p 0 + i) (L.start p 1 + j) (L.start p 2 + k) := by
  obtain ⟨m, hm, hh⟩ := xex26_halo hF hx hp
  refine ⟨_, by unfold lapNonorth; rw [hm]; rfl, ?_⟩
  set A := kernelArgs L p Q n m with hA
  set u : Fun3 := shift (fun d => (L.start p d : ℤ)) (ext L (g n)) with hu
  have hf : Halo A u := by
    intro i' j' k' a1 a2 a3 a4 a5 a6
    have hPin : (⟨n, i', j', k'⟩ : Pt).In (L.isize p) L.FDn := ⟨⟨a1, a2⟩, ⟨a3, a4⟩, a5, a6⟩
    exact (exIdx_eq L p Q n m i' j' k').trans (hh ⟨n, i', j', k'⟩ hPin (cover26 L p hPin hn))
  have key := nonorth_correct LV G hG h10 dx dy dz A u hf hi hj hk
  have e1 : at3 A i j k = addr (L.isize p) 0 0 i j k := at3_eq L p Q n m i j k
  rw [← e1]
  refine key.trans ?_
  have e2 : u i j k = g n (L.start p 0 + i) (L.start p 1 + j) (L.start p 2 + k) :=
    target_inner g hp (n := n) hi hj hk
  have e3 := kernel_potential hV hp (n := n) m (u i j k) hi hj hk
  rw [← e1] at e3
  rw [e3, e2, hu, lap_shift]
  unfold shift
  push_cast
  change Q.a * lap L.FDn ![dx, dy, dz] (kept G) (ext L (g n)) _ _ _ + _ + Q.c * _ = _
  ring

/-! ### Independence of the process grid -/

theorem ext_congr {W : Type} [Zero W] {L L' : Layout} (hN : L'.N = L.N) (hper : L'.per = L.per) :
    (ext L' : (ℕ → ℕ → ℕ → W) → ℤ → ℤ → ℤ → W) = ext L := by
  funext u I J K
  unfold ext
  rw [hN, hper]

/-- **C03.** Two runs of the same problem on different process grids agree at every grid point. -/
theorem lap_grid_independent {L L' : Layout} (hF : L.Fits) (hF' : L'.Fits) (hN : L'.N = L.N)
    (hper : L'.per = L.per) (hFD : L'.FDn = L.FDn) (dx dy dz : ℝ) (Q Q' : Call)
    (ha : Q'.a = Q.a) (hb : Q'.b = Q.b) (hc : Q'.c = Q.c) (hv : Q'.v = none ↔ Q.v = none)
    {g : ℕ → ℕ → ℕ → ℕ → ℝ} (hx : Distributed L Q.ldi L.ncol g Q.x)
    (hx' : Distributed L' Q'.ldi L'.ncol g Q'.x) {V : ℕ → ℕ → ℕ → ℝ} (hV : PotentialOf L Q V)
    (hV' : PotentialOf L' Q' V) {p p' : Proc} (hp : L.Valid p) (hp' : L'.Valid p') {n : ℕ}
    (hn : n < L.ncol) (hn' : n < L'.ncol) {i j k i' j' k' : ℕ}
    (hi : i < L.size p 0) (hj : j < L.size p 1) (hk : k < L.size p 2)
    (hi' : i' < L'.size p' 0) (hj' : j' < L'.size p' 1) (hk' : k' < L'.size p' 2)
    (hI : L'.start p' 0 + i' = L.start p 0 + i) (hJ : L'.start p' 1 + j' = L.start p 1 + j)
    (hK : L'.start p' 2 + k' = L.start p 2 + k) :
    ∃ y y', lapOrth L (coefs0 L.FDn dx dy dz) Q p n = some y ∧
      lapOrth L' (coefs0 L'.FDn dx dy dz) Q' p' n = some y' ∧
      y' (addr (L'.isize p') 0 0 i' j' k') = y (addr (L.isize p) 0 0 i j k) := by
  obtain ⟨y, h1, h2⟩ := lap_distributed hF dx dy dz Q hx hV hp hn hi hj hk
  obtain ⟨y', h1', h2'⟩ := lap_distributed hF' dx dy dz Q' hx' hV' hp' hn' hi' hj' hk'
  refine ⟨y, y', h1, h1', ?_⟩
  rw [h2, h2', hI, hJ, hK, ha, hc]
  unfold globalLap potential
  rw [ext_congr hN hper, hFD, hb]
  simp only [hv]

/-- **C03.** The same for an oblique cell. -/
theorem lap_grid_independent_oblique {L L' : Layout} (hF : L.Fits) (hF' : L'.Fits)
    (hN : L'.N = L.N) (hper : L'.per = L.per) (hFD : L'.FDn = L.FDn) (LV : ℕ → ℝ) (G : Coord.Geom)
    (hG : Coord.transformMat LV = some G) (h10 : 10 < G.cellTyp) (dx dy dz : ℝ) (Q Q' : Call)
    (ha : Q'.a = Q.a) (hb : Q'.b = Q.b) (hc : Q'.c = Q.c) (hv : Q'.v = none ↔ Q.v = none)
    {g : ℕ → ℕ → ℕ → ℕ → ℝ} (hx : Distributed L Q.ldi L.ncol g Q.x)
    (hx' : Distributed L' Q'.ldi L'.ncol g Q'.x) {V : ℕ → ℕ → ℕ → ℝ} (hV : PotentialOf L Q V)
    (hV' : PotentialOf L' Q' V) {p p' : Proc} (hp : L.Valid p) (hp' : L'.Valid p') {n : ℕ}
    (hn : n < L.ncol) (hn' : n < L'.ncol) {i j k i' j' k' : ℕ}
    (hi : i < L.size p 0) (hj : j < L.size p 1) (hk : k < L.size p 2)
    (hi' : i' < L'.size p' 0) (hj' : j' < L'.size p' 1) (hk' : k' < L'.size p' 2)
    (hI : L'.start p' 0 + i' = L.start p 0 + i) (hJ : L'.start p' 1 + j' = L.start p 1 + j)
    (hK : L'.start p' 2 + k' = L.start p 2 + k) :
    ∃ y y', lapNonorth L (coefs G.lapc L.FDn dx dy dz) G.cellTyp Q p n = some y ∧
      lapNonorth L' (coefs G.lapc L'.FDn dx dy dz) G.cellTyp Q' p' n = some y' ∧
      y' (addr (L'.isize p') 0 0 i' j' k') = y (addr (L.isize p) 0 0 i j k) := by
  obtain ⟨y, h1, h2⟩ := lap_distributed_oblique hF LV G hG h10 dx dy dz Q hx hV hp hn hi hj hk
  obtain ⟨y', h1', h2'⟩ :=
    lap_distributed_oblique hF' LV G hG h10 dx dy dz Q' hx' hV' hp' hn' hi' hj' hk'
  refine ⟨y, y', h1, h1', ?_⟩
  rw [h2, h2', hI, hJ, hK, ha, hc]
  unfold potential
  rw [ext_congr hN hper, hFD, hb]
  simp only [hv]

/-! ### The buffers have the allocated size -/

/-- `nd_in` of the orthogonal routine, lapVecRoutines.c:389 (`order = 2 FDn`). -/
theorem buffer6 (D : Fin 3 → ℤ) (F : ℤ) (ncol : ℕ) :
    ((List.range 6).map (count6 D F ncol)).sum =
      ncol * (2 * F) * (D 0 * D 1 + D 1 * D 2 + D 0 * D 2) := by
  simp only [show List.range 6 = [0, 1, 2, 3, 4, 5] from rfl, count6, List.map_cons, List.map_nil,
    List.sum_cons, List.sum_nil, List.getD_cons_zero, List.getD_cons_succ]
  ring

/-- `nd_in` of the oblique routine, lapVecRoutines.c:1031. -/
theorem buffer26 (D : Fin 3 → ℤ) (F : ℤ) (ncol : ℕ) :
    ((List.range 26).map (count26 D F ncol)).sum =
      ncol * 2 * F * (4 * F * F + 2 * F * (D 0 + D 1 + D 2) +
        (D 0 * D 1 + D 0 * D 2 + D 1 * D 2)) := by
  simp [List.range_succ, count26]
  ring

/-! ### The hypotheses can be met -/

/-- Every grid function can be distributed. -/
theorem distributed_exists {W : Type} (L : Layout) (ncol : ℕ) (g : ℕ → ℕ → ℕ → ℕ → W) :
    ∃ xs, Distributed L (fun p => L.isize p 0 * L.isize p 1 * L.isize p 2) ncol g xs := by
  refine ⟨fun p a =>
    let D := L.isize p
    g (a / D 0 / D 1 / D 2).toNat (L.start p 0 + (a % D 0).toNat)
      (L.start p 1 + (a / D 0 % D 1).toNat) (L.start p 2 + (a / D 0 / D 1 % D 2).toNat), ?_⟩
  intro p hp n hn i hi j hj k hk
  have e : addr (L.isize p) (L.isize p 0 * L.isize p 1 * L.isize p 2) n i j k =
      ((n * L.isize p 2 + k) * L.isize p 1 + j) * L.isize p 0 + i := by
    unfold addr
    ring
  have q : ∀ {A i : ℕ} (a : ℤ), i < A → (a * (A : ℤ) + i) % (A : ℤ) = i ∧
      (a * (A : ℤ) + i) / (A : ℤ) = a := by
    intro A i a h
    constructor
    · rw [add_comm, Int.add_mul_emod_self_right, Int.emod_eq_of_lt (by omega) (by omega)]
    · rw [add_comm, Int.add_mul_ediv_right _ _ (by omega), Int.ediv_eq_zero_of_lt (by omega) (by omega),
        zero_add]
  dsimp only
  rw [e]
  unfold Layout.isize
  rw [(q _ hi).1, (q _ hi).2, (q _ hj).1, (q _ hj).2, (q _ hk).1, (q _ hk).2]
  simp

/-- Three, two and one processes along the axes; the first and the third axis are periodic. -/
def exLayout : Layout where
  N := ![8, 5, 4]
  dims := ![3, 2, 1]
  per := ![true, false, true]
  FDn := 2
  ncol := 2

/-- One process. -/
def exSerial : Layout := { exLayout with dims := ![1, 1, 1] }

theorem exLayout_fits : exLayout.Fits := by
  intro r hr
  have h0 := hr 0
  have h1 := hr 1
  have h2 := hr 2
  change r 0 < 3 at h0
  change r 1 < 2 at h1
  change r 2 < 1 at h2
  refine fin3 ?_ ?_ ?_
  · change 2 ≤ Block.blockDecompose 8 3 (r 0)
    generalize r 0 = t at h0
    revert t
    decide
  · change 2 ≤ Block.blockDecompose 5 2 (r 1)
    generalize r 1 = t at h1
    revert t
    decide
  · change 2 ≤ Block.blockDecompose 4 1 (r 2)
    generalize r 2 = t at h2
    revert t
    decide

theorem exSerial_fits : exSerial.Fits := by
  intro r hr
  have h0 := hr 0
  have h1 := hr 1
  have h2 := hr 2
  change r 0 < 1 at h0
  change r 1 < 1 at h1
  change r 2 < 1 at h2
  refine fin3 ?_ ?_ ?_
  · change 2 ≤ Block.blockDecompose 8 1 (r 0)
    generalize r 0 = t at h0
    revert t
    decide
  · change 2 ≤ Block.blockDecompose 5 1 (r 1)
    generalize r 1 = t at h1
    revert t
    decide
  · change 2 ≤ Block.blockDecompose 4 1 (r 2)
    generalize r 2 = t at h2
    revert t
    decide

/-- The same field on six processes and on one, with a potential. -/
example (g : ℕ → ℕ → ℕ → ℕ → ℝ) (V : ℕ → ℕ → ℕ → ℝ) (junk : Mem) :
    ∃ Q Q' : Call, Q.a = -1 / 2 ∧ Q'.a = -1 / 2 ∧ Distributed exLayout Q.ldi 2 g Q.x ∧
      Distributed exSerial Q'.ldi 2 g Q'.x ∧ PotentialOf exLayout Q V ∧ PotentialOf exSerial Q' V ∧
      ∃ y y', lapOrth exLayout (coefs0 2 1 1 1) Q ![2, 1, 0] 1 = some y ∧
        lapOrth exSerial (coefs0 2 1 1 1) Q' ![0, 0, 0] 1 = some y' ∧
        y' (addr (exSerial.isize ![0, 0, 0]) 0 0 7 4 3) =
          y (addr (exLayout.isize ![2, 1, 0]) 0 0 1 1 3) := by
  obtain ⟨x, hx⟩ := distributed_exists exLayout 2 g
  obtain ⟨x', hx'⟩ := distributed_exists exSerial 2 g
  obtain ⟨v, hv⟩ := distributed_exists exLayout 1 (fun _ => V)
  obtain ⟨v', hv'⟩ := distributed_exists exSerial 1 (fun _ => V)
  let Q : Call := ⟨-1 / 2, 1, 0, some v,
    fun p => exLayout.isize p 0 * exLayout.isize p 1 * exLayout.isize p 2, x, junk, junk, junk, junk, fun _ => 0⟩
  let Q' : Call := ⟨-1 / 2, 1, 0, some v',
    fun p => exSerial.isize p 0 * exSerial.isize p 1 * exSerial.isize p 2, x', junk, junk, junk, junk, fun _ => 0⟩
  have hV : PotentialOf exLayout Q V := by
    rintro w hw p hp n hn i hi j hj k hk
    cases hw
    have := hv p hp n hn i hi j hj k hk
    obtain rfl : n = 0 := by omega
    refine Eq.trans ?_ this
    unfold addr
    simp
  have hV' : PotentialOf exSerial Q' V := by
    rintro w hw p hp n hn i hi j hj k hk
    cases hw
    have := hv' p hp n hn i hi j hj k hk
    obtain rfl : n = 0 := by omega
    refine Eq.trans ?_ this
    unfold addr
    simp
  refine ⟨Q, Q', rfl, rfl, hx, hx', hV, hV', ?_⟩
  exact lap_grid_independent exLayout_fits exSerial_fits rfl rfl rfl 1 1 1 Q Q' rfl rfl rfl
    (by simp [Q, Q']) hx hx' hV hV' (p := ![2, 1, 0]) (p' := ![0, 0, 0])
    (fin3 (by decide) (by decide) (by decide)) (fin3 (by decide) (by decide) (by decide))
    (n := 1) (by decide) (by decide) (i := 1) (j := 1) (k := 3) (i' := 7) (j' := 4) (k' := 3)
    (by decide) (by decide) (by decide) (by decide) (by decide) (by decide)
    (by decide) (by decide) (by decide)

/-- The hypotheses of the oblique theorem: the cell of `Coord.exL` on six processes. -/
example (g : ℕ → ℕ → ℕ → ℕ → ℝ) (junk : Mem) :
    ∃ (Q : Call) (G : Coord.Geom), Coord.transformMat Coord.exL = some G ∧ 10 < G.cellTyp ∧
      Distributed exLayout Q.ldi 2 g Q.x ∧ PotentialOf exLayout Q (fun _ _ _ => 0) ∧
      ∃ y, lapNonorth exLayout (coefs G.lapc 2 1 1 1) G.cellTyp Q ![2, 1, 0] 1 = some y ∧
        y (addr (exLayout.isize ![2, 1, 0]) 0 0 1 1 3) =
          lap 2 ![1, 1, 1] (kept G) (ext exLayout (g 1)) 7 4 3 + 5 * g 1 7 4 3 := by
  obtain ⟨x, hx⟩ := distributed_exists exLayout 2 g
  obtain ⟨G, hG, h10⟩ := Coord.exL_oblique
  let Q : Call := ⟨1, 0, 5, none,
    fun p => exLayout.isize p 0 * exLayout.isize p 1 * exLayout.isize p 2, x,
    junk, junk, junk, junk, fun _ => 0⟩
  have hV : PotentialOf exLayout Q (fun _ _ _ => 0) := fun v h => by cases h
  refine ⟨Q, G, hG, h10, hx, hV, ?_⟩
  obtain ⟨y, h1, h2⟩ := lap_distributed_oblique exLayout_fits _ G hG h10 1 1 1 Q hx hV
    (p := ![2, 1, 0]) (fin3 (by decide) (by decide) (by decide)) (n := 1) (by decide)
    (i := 1) (j := 1) (k := 3) (by decide) (by decide) (by decide)
  refine ⟨y, h1, h2.trans ?_⟩
  rw [show exLayout.start ![2, 1, 0] 0 + 1 = 7 by decide,
    show exLayout.start ![2, 1, 0] 1 + 1 = 4 by decide,
    show exLayout.start ![2, 1, 0] 2 + 3 = 3 by decide]
  have : potential Q (fun _ _ _ => 0) 7 4 3 = 0 := if_pos (Or.inl rfl)
  rw [this, zero_add]
  change 1 * _ + 5 * _ = _
  rw [one_mul]
  rfl

end Sparc.Halo

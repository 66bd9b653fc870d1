import Verif.Grad.Lemmas

/-!
# C61: the distributed first derivative

`Gradient_vectors_dir` and `Gradient_vectors_dir_kpt` apply `∂/∂x_dir + c` with the stencil of the
whole grid to the continuation of each column (periodic images or zero for real columns, Bloch
phases at a k-point).  With `c = 0` the operator is skew-adjoint.
-/

namespace Sparc.Grad

open Loop Lap Halo Bloch

/-- The coefficient arrays are those of the mesh widths `h`. -/
structure D1Coefs (C : Coefs) (n : ℕ) (h : Fin 3 → ℝ) : Prop where
  x : ∀ r, C.D1x r = FD.coefD1 n (h 0) r
  y : ∀ r, C.D1y r = FD.coefD1 n (h 1) r
  z : ∀ r, C.D1z r = FD.coefD1 n (h 2) r

/-- The arrays of an orthogonal cell. -/
theorem coefs0_d1 (n : ℕ) (dx dy dz : ℝ) : D1Coefs (coefs0 n dx dy dz) n ![dx, dy, dz] :=
  ⟨fun _ => rfl, fun _ => rfl, fun _ => rfl⟩

/-- The arrays of an oblique cell. -/
theorem coefs_d1 (T : ℕ → ℝ) (n : ℕ) (dx dy dz : ℝ) :
    D1Coefs (coefs T n dx dy dz) n ![dx, dy, dz] :=
  ⟨fun _ => rfl, fun _ => rfl, fun _ => rfl⟩

/-- `∂u/∂x_dir + c u` of a real grid function. -/
noncomputable def opR (L : Layout) (h : Fin 3 → ℝ) (dir : Fin 3) (c : ℝ) (u : ℕ → ℕ → ℕ → ℝ)
    (I J K : ℕ) : ℝ :=
  D L.FDn h dir (ext L u) I J K + c * u I J K

/-- `∂u/∂x_dir + c u` of a complex grid function at a k-point. -/
noncomputable def opC (L : Layout) (q : KPoint) (h : Fin 3 → ℝ) (dir : Fin 3) (c : ℝ)
    (u : ℕ → ℕ → ℕ → ℂ) (I J K : ℕ) : ℂ :=
  Dc L.FDn h dir (bloch L q u) I J K + c * u I J K

/-! ### One call -/

theorem coeffsDim_eq {C : Coefs} {n : ℕ} {h : Fin 3 → ℝ} (hC : D1Coefs C n h) (dir : Fin 3) :
    ∀ r, 1 ≤ r → coeffsDim C dir r = FD.coefD1 n (h dir) r := by
  intro r hr
  unfold coeffsDim
  rw [if_neg (by omega)]
  revert dir
  exact fin3 (hC.x r) (hC.y r) (hC.z r)

theorem coeffsDirs_eq {C : Coefs} {n : ℕ} {h : Fin 3 → ℝ} (hC : D1Coefs C n h) (dir : Fin 3) :
    ∀ r, 1 ≤ r → coeffsDirs C dir r = FD.coefD1 n (h dir) r := by
  intro r _
  revert dir
  exact fin3 (hC.x r) (hC.y r) (hC.z r)

/-- **C61.** One call of `Gradient_vec_dir`, for any number of columns. -/
theorem gradVecDir_correct {L : Layout} (hF : L.Fits) {C : Coefs} {h : Fin 3 → ℝ}
    (hC : D1Coefs C L.FDn h) (dir : Fin 3) (c : ℝ) {ldi : Proc → ℤ} {g : ℕ → ℕ → ℕ → ℕ → ℝ}
    {xs : Proc → Mem} (hx : Distributed L ldi L.ncol g xs) {p : Proc} (hp : L.Valid p)
    (ex0 Dx : Mem) {n : ℕ} (hn : n < L.ncol) :
    ∃ y, gradVecDir L C dir c ldi xs p ex0 Dx n = some y ∧
      ∀ i < L.size p 0, ∀ j < L.size p 1, ∀ k < L.size p 2, y (addr (L.isize p) 0 0 i j k) =
        opR L h dir c (g n) (L.start p 0 + i) (L.start p 1 + j) (L.start p 2 + k) := by
  obtain ⟨m, hm, hh⟩ := gXex_holds (dir := dir) (G := target L g p) (f := fun _ v => v) hF hx hp
    (fun _ _ => rfl) (fun _ _ _ _ _ => rfl) (fun _ => rfl) ex0
  refine ⟨_, by unfold gradVecDir; rw [hm]; rfl, fun i hi j hj k hk => ?_⟩
  refine (gKernel L dir p h (coeffsDim_eq hC dir) c hh Dx hn hi hj hk).trans ?_
  have e : (fun i j k => target L g p ⟨n, i, j, k⟩) =
      shift (fun d => (L.start p d : ℤ)) (ext L (g n)) := rfl
  rw [e, D_shift, target_inner g hp (n := n) hi hj hk, add_comm]
  unfold opR shift
  push_cast
  rfl

/-- **C61.** One call of `Gradient_vec_dir_kpt`. -/
theorem gradVecDirK_correct {L : Layout} (hF : L.Fits) (q : KPoint) {C : Coefs} {h : Fin 3 → ℝ}
    (hC : D1Coefs C L.FDn h) (dir : Fin 3) (c : ℝ) {ldi : Proc → ℤ} {g : ℕ → ℕ → ℕ → ℕ → ℂ}
    {xs : Proc → MemK} (hx : Distributed L ldi L.ncol g xs) {p : Proc} (hp : L.Valid p)
    (ex0 Dx : MemK) {n : ℕ} (hn : n < L.ncol) :
    ∃ y, gradVecDirK L C dir q.len (q.k dir) c ldi xs p ex0 Dx n = some y ∧
      ∀ i < L.size p 0, ∀ j < L.size p 1, ∀ k < L.size p 2, y (addr (L.isize p) 0 0 i j k) =
        opC L q h dir c (g n) (L.start p 0 + i) (L.start p 1 + j) (L.start p 2 + k) := by
  obtain ⟨m, hm, hh⟩ := gXex_holds (dir := dir) (G := targetK L q g p)
    (f := gScale L dir q.len (q.k dir) p) hF hx hp (fun P hP => targetK_inner q g hp hP)
    (fun s hs n t ht => by
      rw [targetK_slot (good6 L) hF q g hp (mem_slots.1 hs).1 (by rw [grecv_cells hs] at ht; exact ht),
        gScale_eq hF dir q hp hs ht])
    (fun s => by unfold gScale; simp) ex0
  refine ⟨_, by unfold gradVecDirK; rw [hm]; rfl, fun i hi j hj k hk => complex_ext fun φ => ?_⟩
  refine (congrFun (map_calcDX φ _ _ _ _ _ _ _ _ _ _ _ _ _ _ _ _ _ _ _) _).trans ?_
  have hh' : GHolds L dir (L.isize p) (fun P => φ (targetK L q g p P)) (fun P => P.n < L.ncol)
      (fun a => φ (m a)) := fun P hP hn => congrArg φ (hh P hP hn)
  refine (gKernel L dir p h (coeffsDirs_eq hC dir) c hh' (fun a => φ (Dx a)) hn hi hj hk).trans ?_
  have e : (fun i j k => φ (targetK L q g p ⟨n, i, j, k⟩)) =
      shift (fun d => (L.start p d : ℤ)) (fun i j k => φ (bloch L q (g n) i j k)) := rfl
  have e2 : targetK L q g p ⟨n, i, j, k⟩ =
      g n (L.start p 0 + i) (L.start p 1 + j) (L.start p 2 + k) := targetK_grid q g hp hi hj hk
  rw [e, D_shift, add_comm]
  unfold opC
  rw [map_add, map_real_mul, map_Dc, e2]
  unfold shift
  push_cast
  rfl

/-! ### All columns -/

theorem one_column {W : Type} {L : Layout} {ldi : Proc → ℤ} {ncol : ℕ} {g : ℕ → ℕ → ℕ → ℕ → W}
    {xs : Proc → ℤ → W} (hx : Distributed L ldi ncol g xs) {i : ℕ} (hi : i < ncol) :
    Distributed { L with ncol := 1 } ldi 1 (fun _ => g i) (fun q a => xs q (i * ldi q + a)) := by
  intro p hp n hn x hx' y hy z hz
  refine Eq.trans ?_ (hx p hp i hi x hx' y hy z hz)
  obtain rfl : n = 0 := by omega
  unfold addr
  dsimp only [Layout.isize, Layout.size]
  congr 1
  push_cast
  ring

/-- **C61.** `Gradient_vectors_dir`: every column, on every process grid and with every combination
of boundary conditions, whatever the work array and the result contained before. -/
theorem gradVectorsDir_correct {L : Layout} (hF : L.Fits) {C : Coefs} {h : Fin 3 → ℝ}
    (hC : D1Coefs C L.FDn h) (dir : Fin 3) (c : ℝ) {ldi : Proc → ℤ} {ncol : ℕ}
    {g : ℕ → ℕ → ℕ → ℕ → ℝ} {xs : Proc → Mem} (hx : Distributed L ldi ncol g xs) {p : Proc}
    (hp : L.Valid p) (ex0 Dx : ℕ → Mem) {n : ℕ} (hn : n < ncol) :
    ∃ y, gradVectorsDir L C dir c ldi xs p ex0 Dx n = some y ∧
      ∀ i < L.size p 0, ∀ j < L.size p 1, ∀ k < L.size p 2, y (addr (L.isize p) 0 0 i j k) =
        opR L h dir c (g n) (L.start p 0 + i) (L.start p 1 + j) (L.start p 2 + k) :=
  gradVecDir_correct (L := { L with ncol := 1 }) hF hC dir c (one_column hx hn) hp (ex0 n) (Dx n)
    (n := 0) Nat.one_pos

/-- **C61.** `Gradient_vectors_dir_kpt`.  The only component of the k-point that is passed is the
one of the direction. -/
theorem gradVectorsDirK_correct {L : Layout} (hF : L.Fits) (q : KPoint) {C : Coefs} {h : Fin 3 → ℝ}
    (hC : D1Coefs C L.FDn h) (dir : Fin 3) (c : ℝ) {ldi : Proc → ℤ} {ncol : ℕ}
    {g : ℕ → ℕ → ℕ → ℕ → ℂ} {xs : Proc → MemK} (hx : Distributed L ldi ncol g xs)
    (ex0 Dx : Proc → ℕ → MemK) {n : ℕ} (hn : n < ncol) :
    Computes L (fun p => gradVectorsDirK L C dir q.len (q.k dir) c ldi xs p (ex0 p) (Dx p)) n
      (opC L q h dir c (g n)) := fun p hp =>
  gradVecDirK_correct (L := { L with ncol := 1 }) hF q hC dir c (one_column hx hn) hp (ex0 p n)
    (Dx p n) (n := 0) Nat.one_pos

/-! ### Independence of the process grid -/

/-- **C61.** The result does not depend on the process grid. -/
theorem grad_grid_independent {L L' : Layout} (hF : L.Fits) (hF' : L'.Fits) (hN : L'.N = L.N)
    (hper : L'.per = L.per) (hFD : L'.FDn = L.FDn) {C : Coefs} {h : Fin 3 → ℝ}
    (hC : D1Coefs C L.FDn h) (dir : Fin 3) (c : ℝ) {ldi ldi' : Proc → ℤ} {ncol : ℕ}
    {g : ℕ → ℕ → ℕ → ℕ → ℝ} {xs xs' : Proc → Mem} (hx : Distributed L ldi ncol g xs)
    (hx' : Distributed L' ldi' ncol g xs') {p p' : Proc} (hp : L.Valid p) (hp' : L'.Valid p')
    (ex0 Dx ex0' Dx' : ℕ → Mem) {n : ℕ} (hn : n < ncol) {i j k i' j' k' : ℕ}
    (hi : i < L.size p 0) (hj : j < L.size p 1) (hk : k < L.size p 2)
    (hi' : i' < L'.size p' 0) (hj' : j' < L'.size p' 1) (hk' : k' < L'.size p' 2)
    (hI : L'.start p' 0 + i' = L.start p 0 + i) (hJ : L'.start p' 1 + j' = L.start p 1 + j)
    (hK : L'.start p' 2 + k' = L.start p 2 + k) :
    ∃ y y', gradVectorsDir L C dir c ldi xs p ex0 Dx n = some y ∧
      gradVectorsDir L' C dir c ldi' xs' p' ex0' Dx' n = some y' ∧
      y' (addr (L'.isize p') 0 0 i' j' k') = y (addr (L.isize p) 0 0 i j k) := by
  obtain ⟨y, h1, h2⟩ := gradVectorsDir_correct hF hC dir c hx hp ex0 Dx hn
  obtain ⟨y', h1', h2'⟩ := gradVectorsDir_correct (L := L') hF' (by rw [hFD]; exact hC) dir c hx' hp'
    ex0' Dx' hn
  refine ⟨y, y', h1, h1', ?_⟩
  rw [h2 i hi j hj k hk, h2' i' hi' j' hj' k' hk', hI, hJ, hK]
  unfold opR
  rw [ext_congr hN hper, hFD]

/-- The specification at a k-point does not mention the process grid. -/
theorem opC_grid {L L' : Layout} (hN : L'.N = L.N) (hper : L'.per = L.per) (hFD : L'.FDn = L.FDn) :
    opC L' = opC L := by
  funext q h dir c u I J K
  have : bloch L' q u = bloch L q u := by
    funext I J K
    unfold bloch
    rw [hN, ext_congr hN hper]
  unfold opC
  rw [this, hFD]

/-! ### Integration by parts -/

theorem adj_Dc (L : Layout) (q : KPoint) (n : ℕ) (h : Fin 3 → ℝ) (d : Fin 3) :
    Adj L q (Dc n h d) (fun u i j k => ((-1 : ℝ) : ℂ) * Dc n h d u i j k) := by
  have e : Dc n h d = fun u i j k => ∑ r ∈ Finset.range n, (FD.coefD1 n (h d) (r + 1) : ℂ) *
      (sh (Pi.single d ((r + 1 : ℕ) : ℤ)) u i j k +
        ((-1 : ℝ) : ℂ) * sh (-Pi.single d ((r + 1 : ℕ) : ℤ)) u i j k) := by
    funext u i j k
    rw [D1c_sh]
    refine Finset.sum_congr rfl fun r _ => ?_
    push_cast
    ring
  have key : Adj L q (Dc n h d) (fun u i j k => ∑ r ∈ Finset.range n,
      (FD.coefD1 n (h d) (r + 1) : ℂ) * (sh (-Pi.single d ((r + 1 : ℕ) : ℤ)) u i j k +
        ((-1 : ℝ) : ℂ) * sh (Pi.single d ((r + 1 : ℕ) : ℤ)) u i j k)) := by
    rw [e]
    refine Adj.sum _ fun r => Adj.smul ((adj_sh L q _).add (Adj.smul ?_ _)) _
    have := adj_sh L q (-Pi.single d ((r + 1 : ℕ) : ℤ))
    rwa [neg_neg] at this
  have e2 : (fun (u : Fun3c) i j k => ((-1 : ℝ) : ℂ) * Dc n h d u i j k) =
      (fun u i j k => ∑ r ∈ Finset.range n, (FD.coefD1 n (h d) (r + 1) : ℂ) *
        (sh (-Pi.single d ((r + 1 : ℕ) : ℤ)) u i j k +
        ((-1 : ℝ) : ℂ) * sh (Pi.single d ((r + 1 : ℕ) : ℤ)) u i j k)) := by
    funext u i j k
    rw [D1c_sh, Finset.mul_sum]
    refine Finset.sum_congr rfl fun r _ => ?_
    push_cast
    ring
  rw [e2]
  exact key

/-- **C61.** Integration by parts at a k-point: `⟨f, ∂g⟩ = -⟨∂f, g⟩` for what the processes
compute with `c = 0`, whatever the k-point and the boundary conditions. -/
theorem gradK_skew {L : Layout} (hF : L.Fits) (hd : ∀ d, 0 < L.dims d) (q : KPoint) {C : Coefs}
    {h : Fin 3 → ℝ} (hC : D1Coefs C L.FDn h) (dir : Fin 3) {ldi ldi' : Proc → ℤ} {ncol : ℕ}
    {f g : ℕ → ℕ → ℕ → ℕ → ℂ} {xs xs' : Proc → MemK} (hx : Distributed L ldi ncol g xs)
    (hx' : Distributed L ldi' ncol f xs') {ex0 Dx ex0' Dx' : Proc → ℕ → MemK} {n n' : ℕ}
    (hn : n < ncol) (hn' : n' < ncol) {G F : ℕ → ℕ → ℕ → ℂ}
    (hG : Computes L (fun p => gradVectorsDirK L C dir q.len (q.k dir) 0 ldi xs p (ex0 p) (Dx p)) n G)
    (hF' : Computes L
      (fun p => gradVectorsDirK L C dir q.len (q.k dir) 0 ldi' xs' p (ex0' p) (Dx' p)) n' F) :
    inner3 L (f n') G = -inner3 L F (g n) := by
  have key : ∀ {ldi : Proc → ℤ} {u : ℕ → ℕ → ℕ → ℕ → ℂ} {xs : Proc → MemK}
      (_ : Distributed L ldi ncol u xs) {e0 D0 : Proc → ℕ → MemK} {m : ℕ} (_ : m < ncol)
      {U : ℕ → ℕ → ℕ → ℂ} (_ : Computes L
        (fun p => gradVectorsDirK L C dir q.len (q.k dir) 0 ldi xs p (e0 p) (D0 p)) m U),
      ∀ I J K, I < L.N 0 → J < L.N 1 → K < L.N 2 →
        U I J K = Dc L.FDn h dir (bloch L q (u m)) I J K := by
    intro ldi u xs hx e0 D0 m hm U hU I J K hI hJ hK
    have := computes_unique hd hU (F' := opC L q h dir 0 (u m)) (fun p hp i hi j hj k hk => by
      obtain ⟨y, h1, h2⟩ := gradVectorsDirK_correct hF q hC dir 0 hx e0 D0 hm p hp
      exact ⟨y, h1, h2 i hi j hj k hk⟩) hI hJ hK
    rw [this]
    unfold opC
    simp
  rw [inner3_congr L (fun _ _ _ _ _ _ => rfl) (key hx hn hG),
    inner3_congr L (key hx' hn' hF') (fun _ _ _ _ _ _ => rfl)]
  have := adj_Dc L q L.FDn h dir (f n') (g n)
  rw [this, inner3_mul_left L (fun I J K => Dc L.FDn h dir (bloch L q (f n')) I J K)]
  push_cast
  ring

/-- The sum over the grid of a product. -/
noncomputable def dot3 (L : Layout) (f g : ℕ → ℕ → ℕ → ℝ) : ℝ :=
  ∑ I ∈ Finset.range (L.N 0), ∑ J ∈ Finset.range (L.N 1), ∑ K ∈ Finset.range (L.N 2),
    f I J K * g I J K

/-- **C61.** Integration by parts for real functions. -/
theorem grad_skew (L : Layout) (h : Fin 3 → ℝ) (dir : Fin 3) (f g : ℕ → ℕ → ℕ → ℝ) :
    dot3 L f (opR L h dir 0 g) = -dot3 L (opR L h dir 0 f) g := by
  have hb : ∀ (u : ℕ → ℕ → ℕ → ℝ) I J K, bloch L ⟨0, 0⟩ (fun I J K => (u I J K : ℂ)) I J K =
      ((ext L u I J K : ℝ) : ℂ) := by
    intro u I J K
    unfold bloch ext
    simp only [Pi.zero_apply, zero_mul, add_zero, Complex.ofReal_zero, mul_zero, Complex.exp_zero,
      one_mul]
    split <;> simp
  have hD : ∀ (u : ℕ → ℕ → ℕ → ℝ) (I J K : ℕ),
      Dc L.FDn h dir (bloch L ⟨0, 0⟩ (fun I J K => (u I J K : ℂ))) I J K =
        ((opR L h dir 0 u I J K : ℝ) : ℂ) := by
    intro u I J K
    have e : opR L h dir 0 u I J K = D L.FDn h dir (ext L u) I J K := by unfold opR; ring
    rw [e]
    apply Complex.ext
    · rw [← Complex.reLm_coe, map_Dc]
      simp only [hb, Complex.reLm_coe, Complex.ofReal_re]
    · rw [← Complex.imLm_coe, map_Dc]
      simp only [hb, Complex.imLm_coe, Complex.ofReal_im]
      revert dir
      refine fin3 ?_ ?_ ?_ <;> intro _ <;> simp [D, applyD1_eq, S1]
  have key := adj_Dc L ⟨0, 0⟩ L.FDn h dir (fun I J K => (f I J K : ℂ)) (fun I J K => (g I J K : ℂ))
  have h1 : inner3 L (fun I J K => (f I J K : ℂ))
      (fun I J K => Dc L.FDn h dir (bloch L ⟨0, 0⟩ (fun I J K => (g I J K : ℂ))) I J K) =
      ((dot3 L f (opR L h dir 0 g) : ℝ) : ℂ) := by
    simp only [hD]
    unfold inner3 dot3
    push_cast
    simp only [Complex.conj_ofReal]
  have h2 : inner3 L (fun I J K => ((-1 : ℝ) : ℂ) *
      Dc L.FDn h dir (bloch L ⟨0, 0⟩ (fun I J K => (f I J K : ℂ))) I J K)
      (fun I J K => (g I J K : ℂ)) = ((-dot3 L (opR L h dir 0 f) g : ℝ) : ℂ) := by
    simp only [hD]
    rw [inner3_mul_left L (fun I J K => ((opR L h dir 0 f I J K : ℝ) : ℂ))]
    unfold inner3 dot3
    push_cast
    simp only [Complex.conj_ofReal]
    ring
  rw [h1, h2] at key
  exact_mod_cast key

/-! ### The hypotheses can be met -/

/-- On three by two processes, the last process, a point that needs values through the periodic
boundary of the first axis. -/
example (g : ℕ → ℕ → ℕ → ℕ → ℝ) (junk : ℕ → Mem) :
    ∃ (ldi : Proc → ℤ) (xs : Proc → Mem), Distributed exLayout ldi 2 g xs ∧
      ∃ y, gradVectorsDir exLayout (coefs0 2 1 1 1) 0 5 ldi xs ![2, 1, 0] junk junk 1 = some y ∧
        y (addr (exLayout.isize ![2, 1, 0]) 0 0 1 1 3) =
          opR exLayout ![1, 1, 1] 0 5 (g 1) 7 4 3 := by
  obtain ⟨x, hx⟩ := distributed_exists exLayout 2 g
  obtain ⟨y, h1, h2⟩ := gradVectorsDir_correct exLayout_fits (coefs0_d1 2 1 1 1) 0 5 hx
    (p := ![2, 1, 0]) (fin3 (by decide) (by decide) (by decide)) junk junk (n := 1) (by decide)
  exact ⟨_, x, hx, y, h1, h2 1 (by decide) 1 (by decide) 3 (by decide)⟩

/-- At a k-point, with the two columns of one call. -/
example (g : ℕ → ℕ → ℕ → ℕ → ℂ) (junk : Proc → ℕ → MemK) :
    ∃ (ldi : Proc → ℤ) (xs : Proc → MemK) (F G : ℕ → ℕ → ℕ → ℂ), Distributed exLayout ldi 2 g xs ∧
      Computes exLayout (fun p => gradVectorsDirK exLayout (coefs0 2 1 1 1) 0 exK.len (exK.k 0) 0
        ldi xs p (junk p) (junk p)) 0 G ∧
      Computes exLayout (fun p => gradVectorsDirK exLayout (coefs0 2 1 1 1) 0 exK.len (exK.k 0) 0
        ldi xs p (junk p) (junk p)) 1 F ∧
      inner3 exLayout (g 1) G = -inner3 exLayout F (g 0) := by
  obtain ⟨x, hx⟩ := distributed_exists exLayout 2 g
  have h0 := gradVectorsDirK_correct exLayout_fits exK (coefs0_d1 2 1 1 1) 0 0 hx junk junk
    (n := 0) (by decide)
  have h1 := gradVectorsDirK_correct exLayout_fits exK (coefs0_d1 2 1 1 1) 0 0 hx junk junk
    (n := 1) (by decide)
  exact ⟨_, x, _, _, hx, h0, h1, gradK_skew exLayout_fits (fin3 (by decide) (by decide) (by decide))
    exK (coefs0_d1 2 1 1 1) 0 hx hx (by decide) (by decide) h0 h1⟩

end Sparc.Grad

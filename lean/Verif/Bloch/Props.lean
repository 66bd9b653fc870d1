import Verif.Bloch.Lemmas
import Verif.Block.Props

/-!
# C60: the distributed Laplacian at a k-point

The orbitals at a k-point are continued beyond the cell by Bloch's theorem (`bloch`).  On every
process grid the routines apply the stencil to this continuation, and the operator they compute is
Hermitian.
-/

namespace Sparc.Bloch

open Loop Lap Halo

/-- A complex function on the infinite grid. -/
abbrev Fun3c := ℤ → ℤ → ℤ → ℂ

/-- First derivative with coefficients `c 1, …, c n`. -/
noncomputable def D1c (n : ℕ) (c : ℕ → ℝ) (f : ℤ → ℂ) (i : ℤ) : ℂ :=
  ∑ r ∈ Finset.range n, (c (r + 1) : ℂ) * (f (i + (r + 1 : ℕ)) - f (i - (r + 1 : ℕ)))

/-- Second derivative with coefficients `c 0, …, c n`. -/
noncomputable def D2c (n : ℕ) (c : ℕ → ℝ) (f : ℤ → ℂ) (i : ℤ) : ℂ :=
  (c 0 : ℂ) * f i +
    ∑ r ∈ Finset.range n, (c (r + 1) : ℂ) * (f (i - (r + 1 : ℕ)) + f (i + (r + 1 : ℕ)))

/-- First derivative along one lattice direction with the finite-difference coefficients. -/
noncomputable def Dc (n : ℕ) (h : Fin 3 → ℝ) (d : Fin 3) (u : Fun3c) : Fun3c := fun i j k =>
  match d with
  | 0 => D1c n (FD.coefD1 n (h 0)) (fun s => u s j k) i
  | 1 => D1c n (FD.coefD1 n (h 1)) (fun s => u i s k) j
  | 2 => D1c n (FD.coefD1 n (h 2)) (fun s => u i j s) k

/-- Second derivative along one lattice direction. -/
noncomputable def DDc (n : ℕ) (h : Fin 3 → ℝ) (d : Fin 3) (u : Fun3c) : Fun3c := fun i j k =>
  match d with
  | 0 => D2c n (FD.coefD2 n (h 0)) (fun s => u s j k) i
  | 1 => D2c n (FD.coefD2 n (h 1)) (fun s => u i s k) j
  | 2 => D2c n (FD.coefD2 n (h 2)) (fun s => u i j s) k

/-- `Σ_de T_de D_d D_e u`, with the second-derivative stencil on the diagonal. -/
noncomputable def lapc (n : ℕ) (h : Fin 3 → ℝ) (T : ℕ → ℝ) (u : Fun3c) : Fun3c := fun i j k =>
  ∑ d : Fin 3, ∑ e : Fin 3, (T (3 * d + e) : ℂ) *
    (if d = e then DDc n h d u i j k else Dc n h d (Dc n h e u) i j k)

/-- The couplings of an orthogonal cell. -/
def orthT (m : ℕ) : ℝ := if m = 0 ∨ m = 4 ∨ m = 8 then 1 else 0

/-- The term with the potential: dropped when no potential is given or the factor is below the
program's threshold. -/
noncomputable def potentialK (Q : CallK) (V : ℕ → ℕ → ℕ → ℝ) (I J K : ℕ) : ℝ :=
  if Q.v = none ∨ |Q.b| < 1 / 10 ^ 14 then 0 else Q.b * V I J K

/-- The processes hold the parts of the potential. -/
def PotentialOfK (L : Layout) (Q : CallK) (V : ℕ → ℕ → ℕ → ℝ) : Prop :=
  ∀ v, Q.v = some v → Distributed L (fun _ => 0) 1 (fun _ => V) v

/-- `a ∇² u + b V u + c u` of a grid function at a k-point. -/
noncomputable def opK (L : Layout) (q : KPoint) (h : Fin 3 → ℝ) (T : ℕ → ℝ) (Q : CallK)
    (V : ℕ → ℕ → ℕ → ℝ) (u : ℕ → ℕ → ℕ → ℂ) (I J K : ℕ) : ℂ :=
  Q.a * lapc L.FDn h T (bloch L q u) I J K + ((potentialK Q V I J K + Q.c : ℝ) : ℂ) * u I J K

/-! ### The continuation satisfies Bloch's theorem -/

theorem image_in {N : ℕ} (per : Bool) {I : ℕ} (h : I < N) : image N per I = some I := by
  unfold image
  split_ifs with h1
  · rw [Int.emod_eq_of_lt (by omega) (by omega)]; simp
  · simp
  · omega

/-- On the grid the continuation is the function. -/
theorem bloch_grid (L : Layout) (q : KPoint) (u : ℕ → ℕ → ℕ → ℂ) {I J K : ℕ} (hI : I < L.N 0)
    (hJ : J < L.N 1) (hK : K < L.N 2) : bloch L q u I J K = u I J K := by
  unfold bloch ext
  rw [image_in _ hI, image_in _ hJ, image_in _ hK,
    Int.ediv_eq_zero_of_lt (by omega) (by omega), Int.ediv_eq_zero_of_lt (by omega) (by omega),
    Int.ediv_eq_zero_of_lt (by omega) (by omega)]
  simp

theorem image_translate {N : ℕ} (I : ℤ) : image N true (I + N) = image N true I := by
  unfold image
  simp

theorem ediv_translate {N : ℕ} (h : 0 < N) (I : ℤ) : (I + N) / (N : ℤ) = I / N + 1 := by
  rw [Int.add_ediv_of_dvd_right (dvd_refl _), Int.ediv_self (by omega)]

/-- A translation by the cell along a periodic axis multiplies by the Bloch phase. -/
theorem bloch_translate (L : Layout) (q : KPoint) (u : ℕ → ℕ → ℕ → ℂ) (I J K : ℤ) :
    (L.per 0 = true → 0 < L.N 0 → bloch L q u (I + L.N 0) J K =
      Complex.exp (Complex.I * ((q.k 0 * q.len 0 : ℝ) : ℂ)) * bloch L q u I J K) ∧
    (L.per 1 = true → 0 < L.N 1 → bloch L q u I (J + L.N 1) K =
      Complex.exp (Complex.I * ((q.k 1 * q.len 1 : ℝ) : ℂ)) * bloch L q u I J K) ∧
    (L.per 2 = true → 0 < L.N 2 → bloch L q u I J (K + L.N 2) =
      Complex.exp (Complex.I * ((q.k 2 * q.len 2 : ℝ) : ℂ)) * bloch L q u I J K) := by
  refine ⟨?_, ?_, ?_⟩ <;> intro hper hN <;> unfold bloch ext <;>
    rw [hper, image_translate, ediv_translate hN, ← mul_assoc, ← Complex.exp_add] <;>
    · congr 2
      push_cast
      ring

/-- Outside a non-periodic boundary it is zero. -/
theorem bloch_outside (L : Layout) (q : KPoint) (u : ℕ → ℕ → ℕ → ℂ) (I : Fin 3 → ℤ) {d : Fin 3}
    (hper : L.per d = false) (h : ¬ (0 ≤ I d ∧ I d < L.N d)) : bloch L q u (I 0) (I 1) (I 2) = 0 := by
  unfold bloch
  rw [ext_none (d := d) (by unfold image; rw [hper]; simp [h]), mul_zero]

/-! ### Components -/

theorem map_D1c (φ : ℂ →ₗ[ℝ] ℝ) (n : ℕ) (c : ℕ → ℝ) (f : ℤ → ℂ) (i : ℤ) :
    φ (D1c n c f i) = FD.applyD1 n c (fun s => φ (f s)) i := by
  unfold D1c FD.applyD1
  rw [FD.foldl_add_sum (fun (p : ℕ) => (φ (f (i + p)) - φ (f (i - p))) * c p), zero_add, map_sum]
  exact Finset.sum_congr rfl fun r _ => by rw [map_real_mul, map_sub, mul_comm]

theorem map_D2c (φ : ℂ →ₗ[ℝ] ℝ) (n : ℕ) (c : ℕ → ℝ) (f : ℤ → ℂ) (i : ℤ) :
    φ (D2c n c f i) = FD.applyD2 n c (fun s => φ (f s)) i := by
  unfold D2c FD.applyD2
  rw [FD.foldl_add_sum (fun (p : ℕ) => (φ (f (i - p)) + φ (f (i + p))) * c p), map_add, map_sum,
    map_real_mul, mul_comm]
  congr 1
  exact Finset.sum_congr rfl fun r _ => by rw [map_real_mul, map_add, mul_comm]

theorem map_Dc (φ : ℂ →ₗ[ℝ] ℝ) (n : ℕ) (h : Fin 3 → ℝ) (d : Fin 3) (u : Fun3c) (i j k : ℤ) :
    φ (Dc n h d u i j k) = D n h d (fun i j k => φ (u i j k)) i j k := by
  revert d
  refine fin3 ?_ ?_ ?_
  · exact map_D1c φ n _ (fun s => u s j k) i
  · exact map_D1c φ n _ (fun s => u i s k) j
  · exact map_D1c φ n _ (fun s => u i j s) k

theorem map_DDc (φ : ℂ →ₗ[ℝ] ℝ) (n : ℕ) (h : Fin 3 → ℝ) (d : Fin 3) (u : Fun3c) (i j k : ℤ) :
    φ (DDc n h d u i j k) = DD n h d (fun i j k => φ (u i j k)) i j k := by
  revert d
  refine fin3 ?_ ?_ ?_
  · exact map_D2c φ n _ (fun s => u s j k) i
  · exact map_D2c φ n _ (fun s => u i s k) j
  · exact map_D2c φ n _ (fun s => u i j s) k

theorem map_lapc (φ : ℂ →ₗ[ℝ] ℝ) (n : ℕ) (h : Fin 3 → ℝ) (T : ℕ → ℝ) (u : Fun3c) (i j k : ℤ) :
    φ (lapc n h T u i j k) = lap n h T (fun i j k => φ (u i j k)) i j k := by
  unfold lapc lap
  rw [map_sum]
  refine Finset.sum_congr rfl fun d _ => ?_
  rw [map_sum]
  refine Finset.sum_congr rfl fun e _ => ?_
  rw [map_real_mul]
  congr 1
  split_ifs
  · exact map_DDc φ _ _ _ _ _ _ _
  · rw [map_Dc]
    simp only [map_Dc]

theorem kernel_potentialK (φ : ℂ →ₗ[ℝ] ℝ) {L : Layout} {Q : CallK} {V : ℕ → ℕ → ℕ → ℝ}
    (hV : PotentialOfK L Q V) {p : Proc} (hp : L.Valid p) (m : MemK) (u : ℝ) {i j k : ℕ}
    (hi : i < L.size p 0) (hj : j < L.size p 1) (hk : k < L.size p 2) :
    effB (compArgs φ L Q p m).b (compArgs φ L Q p m).v *
      (effV (compArgs φ L Q p m).b (compArgs φ L Q p m).v (compArgs φ L Q p m).x
        (addr (L.isize p) 0 0 i j k) * u) =
      potentialK Q V (L.start p 0 + i) (L.start p 1 + j) (L.start p 2 + k) * u := by
  set A := compArgs φ L Q p m with hA
  obtain ⟨p1, p2, -⟩ := potential_term A.b A.v A.x (addr (L.isize p) 0 0 i j k) u
  unfold potentialK
  cases hv : Q.v with
  | none =>
    rw [p2 (by rw [hA]; unfold compArgs; dsimp only; rw [hv]; rfl), if_pos (Or.inl rfl), zero_mul]
  | some v =>
    by_cases hb : |Q.b| < 1 / 10 ^ 14
    · rw [if_pos (Or.inr hb), zero_mul]
      have : effB A.b A.v = 0 := if_pos (Or.inl hb)
      rw [this, zero_mul]
    · rw [if_neg (by push Not; exact ⟨by simp, not_lt.1 hb⟩),
        p1 (v p) (by rw [hA]; unfold compArgs; dsimp only; rw [hv]; rfl) (not_lt.1 hb)]
      have := hV v hv p hp 0 (by norm_num) i hi j hj k hk
      rw [this]
      rfl

theorem at3K (φ : ℂ →ₗ[ℝ] ℝ) (L : Layout) (p : Proc) (Q : CallK) (m : MemK) (i j k : ℕ) :
    at3 (compArgs φ L Q p m) i j k = addr (L.isize p) 0 0 i j k := by
  unfold at3 addr Layout.isize compArgs
  dsimp only
  push_cast
  ring

theorem exIdxK (φ : ℂ →ₗ[ℝ] ℝ) (L : Layout) (p : Proc) (Q : CallK) (n : ℕ) (m : MemK) (i j k : ℤ) :
    (compArgs φ L Q p (column L p n m)).xex ((k + L.FDn) *
      ((L.size p 0 + 2 * L.FDn) * (L.size p 1 + 2 * L.FDn)) +
      (j + L.FDn) * (L.size p 0 + 2 * L.FDn) + (i + L.FDn)) =
    φ (m ((⟨n, i, j, k⟩ : Pt).place (L.isize p) L.FDn)) := by
  unfold compArgs column Pt.place exIdx
  dsimp only [Layout.isize]
  congr 2
  ring

theorem complex_ext {z w : ℂ} (h : ∀ φ : ℂ →ₗ[ℝ] ℝ, φ z = φ w) : z = w :=
  Complex.ext (h Complex.reLm) (h Complex.imLm)

theorem targetK_grid {L : Layout} (q : KPoint) (g : ℕ → ℕ → ℕ → ℕ → ℂ) {p : Proc} (hp : L.Valid p)
    {n i j k : ℕ} (hi : i < L.size p 0) (hj : j < L.size p 1) (hk : k < L.size p 2) :
    bloch L q (g n) (L.start p 0 + i : ℤ) (L.start p 1 + j) (L.start p 2 + k) =
      g n (L.start p 0 + i) (L.start p 1 + j) (L.start p 2 + k) := by
  have key : ∀ d, ∀ x, x < L.size p d → L.start p d + x < L.N d := by
    intro d x hx
    have h0 : 0 < L.dims d := lt_of_le_of_lt (Nat.zero_le _) (hp d)
    have := Block.nstart_mono (L.N d) (L.dims d) (show p d + 1 ≤ L.dims d from hp d)
    rw [Block.nstart_succ, Block.nstart_last _ _ h0] at this
    unfold Layout.size at hx
    unfold Layout.start
    omega
  have := bloch_grid L q (g n) (key 0 i hi) (key 1 j hj) (key 2 k hk)
  push_cast at this
  exact this

/-! ### The distributed operator -/

/-- **C60.** On every process grid and with every combination of boundary conditions the distributed
orthogonal-cell operator at a k-point is defined on every process and gives at every point of its
block `a ∇² u + b V u + c u`, with the stencil of the whole grid applied to the Bloch continuation
of `u`. -/
theorem lapK_distributed {L : Layout} (hF : L.Fits) (q : KPoint) (dx dy dz : ℝ) (Q : CallK)
    {g : ℕ → ℕ → ℕ → ℕ → ℂ} (hx : Distributed L Q.ldi L.ncol g Q.x) {V : ℕ → ℕ → ℕ → ℝ}
    (hV : PotentialOfK L Q V) {p : Proc} (hp : L.Valid p) {n i j k : ℕ} (hn : n < L.ncol)
    (hi : i < L.size p 0) (hj : j < L.size p 1) (hk : k < L.size p 2) :
    ∃ y, lapOrthK L q (coefs0 L.FDn dx dy dz) Q p n = some y ∧
      y (addr (L.isize p) 0 0 i j k) =
        opK L q ![dx, dy, dz] orthT Q V (g n)
          (L.start p 0 + i) (L.start p 1 + j) (L.start p 2 + k) := by
  obtain ⟨m, hm, hh⟩ := xex6K_halo hF q hx hp Q.ex0
  refine ⟨_, by unfold lapOrthK; rw [hm]; rfl, complex_ext fun φ => ?_⟩
  rw [map_orth]
  set A := compArgs φ L Q p (column L p n m) with hA
  set u : Fun3 := shift (fun d => (L.start p d : ℤ)) (fun i j k => φ (bloch L q (g n) i j k)) with hu
  have hf : HaloFaces A u := by
    intro i' j' k' a1 a2 a3 a4 a5 a6 a7
    have hPin : (⟨n, i', j', k'⟩ : Pt).In (L.isize p) L.FDn := ⟨⟨a1, a2⟩, ⟨a3, a4⟩, a5, a6⟩
    exact (exIdxK φ L p Q n m i' j' k').trans (congrArg φ (hh ⟨n, i', j', k'⟩ hPin
      (cover6 L p hPin hn (by
        rcases a7 with ⟨b1, b2, b3, b4⟩ | ⟨b1, b2, b3, b4⟩ | ⟨b1, b2, b3, b4⟩
        · exact Or.inl ⟨⟨b1, b2⟩, b3, b4⟩
        · exact Or.inr (Or.inl ⟨⟨b1, b2⟩, b3, b4⟩)
        · exact Or.inr (Or.inr ⟨⟨b1, b2⟩, b3, b4⟩)))))
  have key := orth_point L.FDn dx dy dz A rfl u hf hi hj hk
  have e1 : at3 A i j k = addr (L.isize p) 0 0 i j k := at3K φ L p Q _ i j k
  rw [← e1]
  refine key.trans ?_
  have e2 : u i j k = φ (g n (L.start p 0 + i) (L.start p 1 + j) (L.start p 2 + k)) :=
    congrArg φ (targetK_grid q g hp hi hj hk)
  have e3 := kernel_potentialK φ hV hp (column L p n m) (u i j k) hi hj hk
  rw [← e1] at e3
  rw [e3, e2, hu]
  simp only [DD_shift]
  unfold opK
  rw [map_add, map_real_mul, map_real_mul, map_lapc]
  unfold lap orthT
  simp only [Fin.sum_univ_three]
  unfold shift
  push_cast
  change Q.a * _ + _ + Q.c * _ = _
  norm_num
  ring

/-- **C60.** The same for an oblique cell, with the couplings that the program keeps. -/
theorem lapK_distributed_oblique {L : Layout} (hF : L.Fits) (q : KPoint) (LV : ℕ → ℝ)
    (G : Coord.Geom) (hG : Coord.transformMat LV = some G) (h10 : 10 < G.cellTyp) (dx dy dz : ℝ)
    (Q : CallK) {g : ℕ → ℕ → ℕ → ℕ → ℂ} (hx : Distributed L Q.ldi L.ncol g Q.x)
    {V : ℕ → ℕ → ℕ → ℝ} (hV : PotentialOfK L Q V) {p : Proc} (hp : L.Valid p) {n i j k : ℕ}
    (hn : n < L.ncol) (hi : i < L.size p 0) (hj : j < L.size p 1) (hk : k < L.size p 2) :
    ∃ y, lapNonorthK L q (coefs G.lapc L.FDn dx dy dz) G.cellTyp Q p n = some y ∧
      y (addr (L.isize p) 0 0 i j k) =
        opK L q ![dx, dy, dz] (kept G) Q V (g n)
          (L.start p 0 + i) (L.start p 1 + j) (L.start p 2 + k) := by
  obtain ⟨m, hm, hh⟩ := xex26K_halo hF q hx hp
  refine ⟨_, by unfold lapNonorthK; rw [hm]; rfl, complex_ext fun φ => ?_⟩
  rw [map_nonorth]
  set A := compArgs φ L Q p (column L p n m) with hA
  set u : Fun3 := shift (fun d => (L.start p d : ℤ)) (fun i j k => φ (bloch L q (g n) i j k)) with hu
  have hf : Halo A u := by
    intro i' j' k' a1 a2 a3 a4 a5 a6
    have hPin : (⟨n, i', j', k'⟩ : Pt).In (L.isize p) L.FDn := ⟨⟨a1, a2⟩, ⟨a3, a4⟩, a5, a6⟩
    exact (exIdxK φ L p Q n m i' j' k').trans (congrArg φ (hh ⟨n, i', j', k'⟩ hPin
      (cover26 L p hPin hn)))
  have key := nonorth_correct LV G hG h10 dx dy dz A u hf hi hj hk
  have e1 : at3 A i j k = addr (L.isize p) 0 0 i j k := at3K φ L p Q _ i j k
  rw [← e1]
  refine key.trans ?_
  have e2 : u i j k = φ (g n (L.start p 0 + i) (L.start p 1 + j) (L.start p 2 + k)) :=
    congrArg φ (targetK_grid q g hp hi hj hk)
  have e3 := kernel_potentialK φ hV hp (column L p n m) (u i j k) hi hj hk
  rw [← e1] at e3
  rw [e3, e2, hu, lap_shift]
  unfold opK
  rw [map_add, map_real_mul, map_real_mul, map_lapc]
  unfold shift
  push_cast
  change Q.a * lap L.FDn ![dx, dy, dz] (kept G) _ _ _ _ + _ + Q.c * _ = _
  ring

/-! ### The operator is Hermitian -/

/-- Sums of periodic functions over one period agree. -/
theorem sum_periodic (N : ℕ) (h : ℤ → ℂ) (hp : ∀ x : ℤ, h (x + N) = h x) (a : ℤ) :
    ∑ x ∈ Finset.range N, h (x + a) = ∑ x ∈ Finset.range N, h x := by
  have step : ∀ a : ℤ, ∑ x ∈ Finset.range N, h (x + (a + 1)) = ∑ x ∈ Finset.range N, h (x + a) := by
    intro a
    have h1 := Finset.sum_range_succ (fun x : ℕ => h (x + a)) N
    have h2 := Finset.sum_range_succ' (fun x : ℕ => h (x + a)) N
    rw [h1] at h2
    have h3 : h ((N : ℤ) + a) = h ((0 : ℕ) + a) := by
      rw [add_comm, hp]; simp
    rw [h3] at h2
    have h4 := add_right_cancel h2
    rw [h4]
    refine Finset.sum_congr rfl fun x _ => ?_
    congr 1
    push_cast
    ring
  induction a using Int.induction_on with
  | zero => simp
  | succ a ih => rw [step, ih]
  | pred a ih =>
    have := step (-(a : ℤ) - 1)
    rw [sub_add_cancel] at this
    rw [← this, ih]

/-- One axis: a function that is periodic, or that vanishes unless both `x` and `x + a` are in the
range, has the same sum from `0` and from `-a`. -/
theorem sum_shift (N : ℕ) (h : ℤ → ℂ) (a : ℤ)
    (hh : (∀ x : ℤ, h (x + N) = h x) ∨
      ∀ x : ℤ, ¬ ((0 ≤ x ∧ x < N) ∧ 0 ≤ x + a ∧ x + a < N) → h x = 0) :
    ∑ x ∈ Finset.range N, h x = ∑ x ∈ Finset.range N, h (x - a) := by
  rcases hh with hp | hz
  · exact (sum_periodic N h hp (-a)).symm
  · have e1 : ∑ x ∈ Finset.range N, h x = ∑ x ∈ Finset.Ico (0 : ℤ) N, h x := by
      refine Finset.sum_bij (fun x _ => (x : ℤ)) ?_ ?_ ?_ ?_
      · intro x hx; have := Finset.mem_range.1 hx; exact Finset.mem_Ico.2 (by omega)
      · intro x _ y _ hxy; exact Int.ofNat_inj.1 hxy
      · intro x hx
        have := Finset.mem_Ico.1 hx
        exact ⟨x.toNat, Finset.mem_range.2 (by omega), by omega⟩
      · intro x _; rfl
    have e2 : ∑ x ∈ Finset.range N, h (x - a) = ∑ x ∈ Finset.Ico (-a) (N - a), h x := by
      refine Finset.sum_bij (fun x _ => (x : ℤ) - a) ?_ ?_ ?_ ?_
      · intro x hx; have := Finset.mem_range.1 hx; exact Finset.mem_Ico.2 (by omega)
      · intro x _ y _ hxy; omega
      · intro x hx
        have := Finset.mem_Ico.1 hx
        exact ⟨(x + a).toNat, Finset.mem_range.2 (by omega), by omega⟩
      · intro x _; rfl
    rw [e1, e2]
    refine Finset.sum_subset_zero_on_sdiff (s₁ := Finset.Ico (0 : ℤ) N ∩ Finset.Ico (-a) (N - a))
      (s₂ := Finset.Ico (0 : ℤ) N) Finset.inter_subset_left ?_ (fun _ _ => rfl) |>.symm.trans
      (Finset.sum_subset_zero_on_sdiff Finset.inter_subset_right ?_ (fun _ _ => rfl))
    · intro x hx
      simp only [Finset.mem_sdiff, Finset.mem_inter, Finset.mem_Ico] at hx
      exact hz x (by omega)
    · intro x hx
      simp only [Finset.mem_sdiff, Finset.mem_inter, Finset.mem_Ico] at hx
      exact hz x (by omega)

/-- The inner product of two grid functions. -/
noncomputable def inner3 (L : Layout) (f g : ℕ → ℕ → ℕ → ℂ) : ℂ :=
  ∑ I ∈ Finset.range (L.N 0), ∑ J ∈ Finset.range (L.N 1), ∑ K ∈ Finset.range (L.N 2),
    (starRingEnd ℂ) (f I J K) * g I J K

theorem conj_phase_mul (θ : ℝ) (z w : ℂ) :
    (starRingEnd ℂ) (Complex.exp (Complex.I * θ) * z) * (Complex.exp (Complex.I * θ) * w) =
      (starRingEnd ℂ) z * w := by
  rw [map_mul, ← Complex.exp_conj]
  have : Complex.exp ((starRingEnd ℂ) (Complex.I * θ)) * Complex.exp (Complex.I * θ) = 1 := by
    rw [← Complex.exp_add]
    simp
  calc _ = (Complex.exp ((starRingEnd ℂ) (Complex.I * θ)) * Complex.exp (Complex.I * θ)) *
        ((starRingEnd ℂ) z * w) := by ring
    _ = _ := by rw [this, one_mul]

/-- Product of two continuations along an axis. -/
theorem axis_shift (L : Layout) (q : KPoint) (f g : ℕ → ℕ → ℕ → ℂ) (a : Fin 3 → ℤ) :
    (∀ J K J' K', ∑ I ∈ Finset.range (L.N 0),
        (starRingEnd ℂ) (bloch L q f I J K) * bloch L q g (I + a 0) J' K' =
      ∑ I ∈ Finset.range (L.N 0),
        (starRingEnd ℂ) (bloch L q f (I - a 0) J K) * bloch L q g I J' K') ∧
    (∀ I K I' K', ∑ J ∈ Finset.range (L.N 1),
        (starRingEnd ℂ) (bloch L q f I J K) * bloch L q g I' (J + a 1) K' =
      ∑ J ∈ Finset.range (L.N 1),
        (starRingEnd ℂ) (bloch L q f I (J - a 1) K) * bloch L q g I' J K') ∧
    (∀ I J I' J', ∑ K ∈ Finset.range (L.N 2),
        (starRingEnd ℂ) (bloch L q f I J K) * bloch L q g I' J' (K + a 2) =
      ∑ K ∈ Finset.range (L.N 2),
        (starRingEnd ℂ) (bloch L q f I J (K - a 2)) * bloch L q g I' J' K) := by
  refine ⟨?_, ?_, ?_⟩
  · intro J K J' K'
    rcases Nat.eq_zero_or_pos (L.N 0) with h0 | h0
    · rw [h0]; simp
    have := sum_shift (L.N 0)
      (fun x => (starRingEnd ℂ) (bloch L q f x J K) * bloch L q g (x + a 0) J' K') (a 0) ?_
    · simpa using this
    cases hper : L.per 0 with
    | true =>
      left
      intro x
      rw [show x + (L.N 0 : ℤ) + a 0 = x + a 0 + L.N 0 by ring, (bloch_translate L q f x J K).1 hper h0,
        (bloch_translate L q g (x + a 0) J' K').1 hper h0, conj_phase_mul]
    | false =>
      right
      intro x hx
      rcases not_and_or.1 hx with hx | hx
      · rw [show bloch L q f x J K = 0 from bloch_outside L q f ![x, J, K] (d := 0) hper hx]
        simp
      · rw [show bloch L q g (x + a 0) J' K' = 0 from
          bloch_outside L q g ![x + a 0, J', K'] (d := 0) hper hx, mul_zero]
  · intro J K J' K'
    rcases Nat.eq_zero_or_pos (L.N 1) with h0 | h0
    · rw [h0]; simp
    have := sum_shift (L.N 1)
      (fun x => (starRingEnd ℂ) (bloch L q f J x K) * bloch L q g J' (x + a 1) K') (a 1) ?_
    · simpa using this
    cases hper : L.per 1 with
    | true =>
      left
      intro x
      rw [show x + (L.N 1 : ℤ) + a 1 = x + a 1 + L.N 1 by ring,
        (bloch_translate L q f J x K).2.1 hper h0,
        (bloch_translate L q g J' (x + a 1) K').2.1 hper h0, conj_phase_mul]
    | false =>
      right
      intro x hx
      rcases not_and_or.1 hx with hx | hx
      · rw [show bloch L q f J x K = 0 from bloch_outside L q f ![J, x, K] (d := 1) hper hx]
        simp
      · rw [show bloch L q g J' (x + a 1) K' = 0 from
          bloch_outside L q g ![J', x + a 1, K'] (d := 1) hper hx, mul_zero]
  · intro J K J' K'
    rcases Nat.eq_zero_or_pos (L.N 2) with h0 | h0
    · rw [h0]; simp
    have := sum_shift (L.N 2)
      (fun x => (starRingEnd ℂ) (bloch L q f J K x) * bloch L q g J' K' (x + a 2)) (a 2) ?_
    · simpa using this
    cases hper : L.per 2 with
    | true =>
      left
      intro x
      rw [show x + (L.N 2 : ℤ) + a 2 = x + a 2 + L.N 2 by ring,
        (bloch_translate L q f J K x).2.2 hper h0,
        (bloch_translate L q g J' K' (x + a 2)).2.2 hper h0, conj_phase_mul]
    | false =>
      right
      intro x hx
      rcases not_and_or.1 hx with hx | hx
      · rw [show bloch L q f J K x = 0 from bloch_outside L q f ![J, K, x] (d := 2) hper hx]
        simp
      · rw [show bloch L q g J' K' (x + a 2) = 0 from
          bloch_outside L q g ![J', K', x + a 2] (d := 2) hper hx, mul_zero]

/-- `A` and `B` are adjoint to each other on grid functions. -/
def Adj (L : Layout) (q : KPoint) (A B : Fun3c → Fun3c) : Prop :=
  ∀ f g : ℕ → ℕ → ℕ → ℂ, inner3 L f (fun I J K => A (bloch L q g) I J K) =
    inner3 L (fun I J K => B (bloch L q f) I J K) g

/-- Translation of a function. -/
def sh (a : Fin 3 → ℤ) (u : Fun3c) : Fun3c := fun i j k => u (i + a 0) (j + a 1) (k + a 2)

theorem adj_sh (L : Layout) (q : KPoint) (a : Fin 3 → ℤ) : Adj L q (sh a) (sh (-a)) := by
  intro f g
  have sw : ∀ (A B : ℕ) (F : ℕ → ℕ → ℂ), ∑ x ∈ Finset.range A, ∑ y ∈ Finset.range B, F x y =
      ∑ y ∈ Finset.range B, ∑ x ∈ Finset.range A, F x y := fun A B F => Finset.sum_comm
  have ax := axis_shift L q f g a
  have e1 : inner3 L f (fun I J K => sh a (bloch L q g) I J K) =
      ∑ I ∈ Finset.range (L.N 0), ∑ J ∈ Finset.range (L.N 1), ∑ K ∈ Finset.range (L.N 2),
        (starRingEnd ℂ) (bloch L q f I J K) * bloch L q g (I + a 0) (J + a 1) (K + a 2) := by
    refine Finset.sum_congr rfl fun I hI => Finset.sum_congr rfl fun J hJ =>
      Finset.sum_congr rfl fun K hK => ?_
    rw [bloch_grid L q f (Finset.mem_range.1 hI) (Finset.mem_range.1 hJ) (Finset.mem_range.1 hK)]
    rfl
  have e2 : inner3 L (fun I J K => sh (-a) (bloch L q f) I J K) g =
      ∑ I ∈ Finset.range (L.N 0), ∑ J ∈ Finset.range (L.N 1), ∑ K ∈ Finset.range (L.N 2),
        (starRingEnd ℂ) (bloch L q f (I - a 0) (J - a 1) (K - a 2)) * bloch L q g I J K := by
    refine Finset.sum_congr rfl fun I hI => Finset.sum_congr rfl fun J hJ =>
      Finset.sum_congr rfl fun K hK => ?_
    rw [bloch_grid L q g (Finset.mem_range.1 hI) (Finset.mem_range.1 hJ) (Finset.mem_range.1 hK)]
    rfl
  rw [e1, e2]
  calc _ = ∑ I ∈ Finset.range (L.N 0), ∑ J ∈ Finset.range (L.N 1), ∑ K ∈ Finset.range (L.N 2),
        (starRingEnd ℂ) (bloch L q f I J (K - a 2)) * bloch L q g (I + a 0) (J + a 1) K :=
        Finset.sum_congr rfl fun I _ => Finset.sum_congr rfl fun J _ => ax.2.2 _ _ _ _
    _ = ∑ I ∈ Finset.range (L.N 0), ∑ K ∈ Finset.range (L.N 2), ∑ J ∈ Finset.range (L.N 1),
        (starRingEnd ℂ) (bloch L q f I (J - a 1) (K - a 2)) * bloch L q g (I + a 0) J K :=
        Finset.sum_congr rfl fun I _ => (sw _ _ _).trans
          (Finset.sum_congr rfl fun K _ => ax.2.1 _ _ _ _)
    _ = ∑ I ∈ Finset.range (L.N 0), ∑ J ∈ Finset.range (L.N 1), ∑ K ∈ Finset.range (L.N 2),
        (starRingEnd ℂ) (bloch L q f I (J - a 1) (K - a 2)) * bloch L q g (I + a 0) J K :=
        Finset.sum_congr rfl fun I _ => sw _ _ _
    _ = ∑ J ∈ Finset.range (L.N 1), ∑ K ∈ Finset.range (L.N 2), ∑ I ∈ Finset.range (L.N 0),
        (starRingEnd ℂ) (bloch L q f I (J - a 1) (K - a 2)) * bloch L q g (I + a 0) J K :=
        (sw _ _ _).trans (Finset.sum_congr rfl fun J _ => sw _ _ _)
    _ = ∑ J ∈ Finset.range (L.N 1), ∑ K ∈ Finset.range (L.N 2), ∑ I ∈ Finset.range (L.N 0),
        (starRingEnd ℂ) (bloch L q f (I - a 0) (J - a 1) (K - a 2)) * bloch L q g I J K :=
        Finset.sum_congr rfl fun J _ => Finset.sum_congr rfl fun K _ => ax.1 _ _ _ _
    _ = _ := ((sw _ _ _).trans (Finset.sum_congr rfl fun J _ => sw _ _ _)).symm

theorem inner3_add_right (L : Layout) (f g g' : ℕ → ℕ → ℕ → ℂ) :
    inner3 L f (fun I J K => g I J K + g' I J K) = inner3 L f g + inner3 L f g' := by
  unfold inner3
  simp only [mul_add, Finset.sum_add_distrib]

theorem inner3_add_left (L : Layout) (f f' g : ℕ → ℕ → ℕ → ℂ) :
    inner3 L (fun I J K => f I J K + f' I J K) g = inner3 L f g + inner3 L f' g := by
  unfold inner3
  simp only [map_add, add_mul, Finset.sum_add_distrib]

theorem inner3_mul_right (L : Layout) (f g : ℕ → ℕ → ℕ → ℂ) (c : ℂ) :
    inner3 L f (fun I J K => c * g I J K) = c * inner3 L f g := by
  unfold inner3
  simp only [mul_left_comm _ c, Finset.mul_sum]

theorem inner3_mul_left (L : Layout) (f g : ℕ → ℕ → ℕ → ℂ) (c : ℝ) :
    inner3 L (fun I J K => (c : ℂ) * f I J K) g = c * inner3 L f g := by
  unfold inner3
  simp only [map_mul, Complex.conj_ofReal, mul_assoc, Finset.mul_sum]

theorem Adj.add {L : Layout} {q : KPoint} {A B A' B' : Fun3c → Fun3c} (h : Adj L q A B)
    (h' : Adj L q A' B') : Adj L q (fun u i j k => A u i j k + A' u i j k)
      (fun u i j k => B u i j k + B' u i j k) := by
  intro f g
  rw [inner3_add_right L f (fun I J K => A (bloch L q g) I J K) (fun I J K => A' (bloch L q g) I J K),
    inner3_add_left L (fun I J K => B (bloch L q f) I J K) (fun I J K => B' (bloch L q f) I J K),
    h f g, h' f g]

theorem Adj.smul {L : Layout} {q : KPoint} {A B : Fun3c → Fun3c} (h : Adj L q A B) (c : ℝ) :
    Adj L q (fun u i j k => (c : ℂ) * A u i j k) (fun u i j k => (c : ℂ) * B u i j k) := by
  intro f g
  rw [inner3_mul_right L f (fun I J K => A (bloch L q g) I J K),
    inner3_mul_left L (fun I J K => B (bloch L q f) I J K), h f g]

theorem Adj.sum {L : Layout} {q : KPoint} {ι : Type} (s : Finset ι) {A B : ι → Fun3c → Fun3c}
    (h : ∀ x, Adj L q (A x) (B x)) : Adj L q (fun u i j k => ∑ x ∈ s, A x u i j k)
      (fun u i j k => ∑ x ∈ s, B x u i j k) := by
  classical
  induction s using Finset.induction_on with
  | empty =>
    intro f g
    simp [inner3]
  | insert x s hx ih =>
    simp only [Finset.sum_insert hx]
    exact (h x).add ih

/-- A shift and the opposite shift. -/
theorem adj_pair (L : Layout) (q : KPoint) (a : Fin 3 → ℤ) :
    Adj L q (fun u i j k => sh a u i j k + sh (-a) u i j k)
      (fun u i j k => sh a u i j k + sh (-a) u i j k) := by
  have := (adj_sh L q a).add (adj_sh L q (-a))
  rw [neg_neg] at this
  intro f g
  rw [this f g]
  simp only [add_comm]

theorem D1c_sh (n : ℕ) (h : Fin 3 → ℝ) (d : Fin 3) (u : Fun3c) (i j k : ℤ) :
    Dc n h d u i j k = ∑ r ∈ Finset.range n, (FD.coefD1 n (h d) (r + 1) : ℂ) *
      (sh (Pi.single d ((r + 1 : ℕ) : ℤ)) u i j k - sh (-Pi.single d ((r + 1 : ℕ) : ℤ)) u i j k) := by
  revert d
  refine fin3 ?_ ?_ ?_ <;>
  · unfold Dc sh D1c
    simp [sub_eq_add_neg]

theorem D2c_sh (n : ℕ) (h : Fin 3 → ℝ) (d : Fin 3) (u : Fun3c) (i j k : ℤ) :
    DDc n h d u i j k = (FD.coefD2 n (h d) 0 : ℂ) * sh 0 u i j k +
      ∑ r ∈ Finset.range n, (FD.coefD2 n (h d) (r + 1) : ℂ) *
      (sh (Pi.single d ((r + 1 : ℕ) : ℤ)) u i j k + sh (-Pi.single d ((r + 1 : ℕ) : ℤ)) u i j k) := by
  revert d
  refine fin3 ?_ ?_ ?_ <;>
  · unfold DDc sh D2c
    simp [sub_eq_add_neg, add_comm]

theorem sh_sh (a b : Fin 3 → ℤ) (u : Fun3c) : sh a (sh b u) = sh (a + b) u := by
  funext i j k
  unfold sh
  simp [add_assoc]

theorem adj_DDc (L : Layout) (q : KPoint) (n : ℕ) (h : Fin 3 → ℝ) (d : Fin 3) :
    Adj L q (DDc n h d) (DDc n h d) := by
  have e : DDc n h d = fun u i j k => (FD.coefD2 n (h d) 0 : ℂ) * sh 0 u i j k +
      ∑ r ∈ Finset.range n, (FD.coefD2 n (h d) (r + 1) : ℂ) *
      (sh (Pi.single d ((r + 1 : ℕ) : ℤ)) u i j k + sh (-Pi.single d ((r + 1 : ℕ) : ℤ)) u i j k) := by
    funext u i j k
    exact D2c_sh n h d u i j k
  rw [e]
  have h0 := adj_sh L q 0
  rw [neg_zero] at h0
  exact (h0.smul _).add (Adj.sum _ fun r => (adj_pair L q _).smul _)

theorem adj_DcDc (L : Layout) (q : KPoint) (n : ℕ) (h : Fin 3 → ℝ) (d e : Fin 3) :
    Adj L q (fun u => Dc n h d (Dc n h e u)) (fun u => Dc n h d (Dc n h e u)) := by
  have key : (fun u => Dc n h d (Dc n h e u)) = fun u i j k =>
      ∑ r ∈ Finset.range n, ∑ s ∈ Finset.range n,
        ((FD.coefD1 n (h d) (r + 1) * FD.coefD1 n (h e) (s + 1) : ℝ) : ℂ) *
        ((sh (Pi.single d ((r + 1 : ℕ) : ℤ) + Pi.single e ((s + 1 : ℕ) : ℤ)) u i j k +
          sh (-(Pi.single d ((r + 1 : ℕ) : ℤ) + Pi.single e ((s + 1 : ℕ) : ℤ))) u i j k) +
        ((-1 : ℝ) : ℂ) *
         (sh (Pi.single d ((r + 1 : ℕ) : ℤ) - Pi.single e ((s + 1 : ℕ) : ℤ)) u i j k +
          sh (-(Pi.single d ((r + 1 : ℕ) : ℤ) - Pi.single e ((s + 1 : ℕ) : ℤ))) u i j k)) := by
    funext u i j k
    rw [D1c_sh]
    refine Finset.sum_congr rfl fun r _ => ?_
    have h1 : ∀ a : Fin 3 → ℤ, sh a (Dc n h e u) i j k =
        ∑ s ∈ Finset.range n, (FD.coefD1 n (h e) (s + 1) : ℂ) *
          (sh (a + Pi.single e ((s + 1 : ℕ) : ℤ)) u i j k -
            sh (a + -Pi.single e ((s + 1 : ℕ) : ℤ)) u i j k) := by
      intro a
      simp only [← sh_sh]
      exact D1c_sh n h e u _ _ _
    rw [h1, h1, ← Finset.sum_sub_distrib, Finset.mul_sum]
    refine Finset.sum_congr rfl fun s _ => ?_
    rw [neg_add, neg_sub]
    rw [show -Pi.single d ((r + 1 : ℕ) : ℤ) + Pi.single e ((s + 1 : ℕ) : ℤ) =
      (Pi.single e ((s + 1 : ℕ) : ℤ) - Pi.single d ((r + 1 : ℕ) : ℤ) : Fin 3 → ℤ) from by abel]
    rw [← sub_eq_add_neg (Pi.single d ((r + 1 : ℕ) : ℤ) : Fin 3 → ℤ) (Pi.single e ((s + 1 : ℕ) : ℤ))]
    push_cast
    ring
  rw [key]
  exact Adj.sum _ fun r => Adj.sum _ fun s =>
    ((adj_pair L q _).add ((adj_pair L q _).smul _)).smul _

theorem adj_lapc (L : Layout) (q : KPoint) (n : ℕ) (h : Fin 3 → ℝ) (T : ℕ → ℝ) :
    Adj L q (lapc n h T) (lapc n h T) := by
  unfold lapc
  refine Adj.sum _ fun d => Adj.sum _ fun e => Adj.smul ?_ _
  by_cases h' : d = e
  · simp only [if_pos h']
    exact adj_DDc L q n h d
  · simp only [if_neg h']
    exact adj_DcDc L q n h d e

/-- **C60.** `a ∇² + b V + c` at a k-point is Hermitian, for every k-point and every combination of
boundary conditions. -/
theorem opK_hermitian (L : Layout) (q : KPoint) (h : Fin 3 → ℝ) (T : ℕ → ℝ) (Q : CallK)
    (V : ℕ → ℕ → ℕ → ℝ) (f g : ℕ → ℕ → ℕ → ℂ) :
    inner3 L f (opK L q h T Q V g) = inner3 L (opK L q h T Q V f) g := by
  have h1 := ((adj_lapc L q L.FDn h T).smul Q.a) f g
  have h2 : inner3 L f (fun I J K => ((potentialK Q V I J K + Q.c : ℝ) : ℂ) * g I J K) =
      inner3 L (fun I J K => ((potentialK Q V I J K + Q.c : ℝ) : ℂ) * f I J K) g := by
    refine Finset.sum_congr rfl fun I _ => Finset.sum_congr rfl fun J _ =>
      Finset.sum_congr rfl fun K _ => ?_
    rw [map_mul, Complex.conj_ofReal]
    ring
  unfold opK
  rw [inner3_add_right L f (fun I J K => (Q.a : ℂ) * lapc L.FDn h T (bloch L q g) I J K),
    inner3_add_left L (fun I J K => (Q.a : ℂ) * lapc L.FDn h T (bloch L q f) I J K), h1, h2]

/-! ### The result as a grid function -/

/-- The distributed operator returns the grid function `F`: every process computes its block. -/
def Computes (L : Layout) (run : Proc → ℕ → Option MemK) (n : ℕ) (F : ℕ → ℕ → ℕ → ℂ) : Prop :=
  ∀ p, L.Valid p → ∃ y, run p n = some y ∧ ∀ i < L.size p 0, ∀ j < L.size p 1, ∀ k < L.size p 2,
    y (addr (L.isize p) 0 0 i j k) = F (L.start p 0 + i) (L.start p 1 + j) (L.start p 2 + k)

/-- Every grid point belongs to a process. -/
theorem owner3 (L : Layout) (hd : ∀ d, 0 < L.dims d) {I : Fin 3 → ℕ} (hI : ∀ d, I d < L.N d) :
    ∃ p, L.Valid p ∧ ∃ i : Fin 3 → ℕ, ∀ d, i d < L.size p d ∧ L.start p d + i d = I d := by
  have key : ∀ d, ∃ r, r < L.dims d ∧ Block.blockNstart (L.N d) (L.dims d) r ≤ I d ∧
      I d < Block.blockNstart (L.N d) (L.dims d) r + Block.blockDecompose (L.N d) (L.dims d) r :=
    fun d => ((Block.block_decompose_partition (L.N d) (L.dims d) (hd d)).owner _ (hI d)).exists
  choose r hr using key
  refine ⟨r, fun d => (hr d).1, fun d => I d - Block.blockNstart (L.N d) (L.dims d) (r d), fun d => ?_⟩
  have := hr d
  unfold Layout.size Layout.start
  dsimp only
  omega

theorem computes_unique {L : Layout} (hd : ∀ d, 0 < L.dims d) {run : Proc → ℕ → Option MemK} {n : ℕ}
    {F F' : ℕ → ℕ → ℕ → ℂ} (h : Computes L run n F)
    (h' : ∀ p, L.Valid p → ∀ i < L.size p 0, ∀ j < L.size p 1, ∀ k < L.size p 2, ∃ y,
      run p n = some y ∧ y (addr (L.isize p) 0 0 i j k) =
        F' (L.start p 0 + i) (L.start p 1 + j) (L.start p 2 + k))
    {I J K : ℕ} (hI : I < L.N 0) (hJ : J < L.N 1) (hK : K < L.N 2) : F I J K = F' I J K := by
  obtain ⟨p, hp, i, hi⟩ := owner3 L hd (I := ![I, J, K]) (fin3 hI hJ hK)
  obtain ⟨y, hy, hy'⟩ := h p hp
  obtain ⟨y2, hy2, hy3⟩ := h' p hp _ (hi 0).1 _ (hi 1).1 _ (hi 2).1
  rw [hy] at hy2
  cases hy2
  have e := (hy' _ (hi 0).1 _ (hi 1).1 _ (hi 2).1).symm.trans hy3
  rw [(hi 0).2, (hi 1).2, (hi 2).2] at e
  exact e

theorem inner3_congr (L : Layout) {f f' g g' : ℕ → ℕ → ℕ → ℂ}
    (h : ∀ I J K, I < L.N 0 → J < L.N 1 → K < L.N 2 → f I J K = f' I J K)
    (h' : ∀ I J K, I < L.N 0 → J < L.N 1 → K < L.N 2 → g I J K = g' I J K) :
    inner3 L f g = inner3 L f' g' := by
  refine Finset.sum_congr rfl fun I hI => Finset.sum_congr rfl fun J hJ =>
    Finset.sum_congr rfl fun K hK => ?_
  rw [h I J K (Finset.mem_range.1 hI) (Finset.mem_range.1 hJ) (Finset.mem_range.1 hK),
    h' I J K (Finset.mem_range.1 hI) (Finset.mem_range.1 hJ) (Finset.mem_range.1 hK)]

/-- Two calls with the same scalars and potential. -/
structure SameOp (Q Q' : CallK) : Prop where
  a : Q'.a = Q.a
  b : Q'.b = Q.b
  c : Q'.c = Q.c
  v : Q'.v = none ↔ Q.v = none

theorem opK_same {Q Q' : CallK} (h : SameOp Q Q') (L : Layout) (q : KPoint) (s : Fin 3 → ℝ)
    (T : ℕ → ℝ) (V : ℕ → ℕ → ℕ → ℝ) (u : ℕ → ℕ → ℕ → ℂ) :
    opK L q s T Q' V u = opK L q s T Q V u := by
  funext I J K
  unfold opK potentialK
  rw [h.a, h.b, h.c]
  simp only [h.v]

/-- **C60.** What the processes compute for two orbitals `f`, `g` satisfies `⟨f, H g⟩ = ⟨H f, g⟩`
(orthogonal cell). -/
theorem lapK_hermitian {L : Layout} (hF : L.Fits) (hd : ∀ d, 0 < L.dims d) (q : KPoint)
    (dx dy dz : ℝ) {Q Q' : CallK} (hQ : SameOp Q Q') {g g' : ℕ → ℕ → ℕ → ℕ → ℂ}
    (hx : Distributed L Q.ldi L.ncol g Q.x) (hx' : Distributed L Q'.ldi L.ncol g' Q'.x)
    {V : ℕ → ℕ → ℕ → ℝ} (hV : PotentialOfK L Q V) (hV' : PotentialOfK L Q' V) {n n' : ℕ}
    (hn : n < L.ncol) (hn' : n' < L.ncol) {F F' : ℕ → ℕ → ℕ → ℂ}
    (hY : Computes L (lapOrthK L q (coefs0 L.FDn dx dy dz) Q) n F)
    (hY' : Computes L (lapOrthK L q (coefs0 L.FDn dx dy dz) Q') n' F') :
    inner3 L (g' n') F = inner3 L F' (g n) := by
  have e : ∀ I J K, I < L.N 0 → J < L.N 1 → K < L.N 2 →
      F I J K = opK L q ![dx, dy, dz] orthT Q V (g n) I J K := fun I J K hI hJ hK =>
    computes_unique hd hY (fun p hp i hi j hj k hk =>
      lapK_distributed hF q dx dy dz Q hx hV hp hn hi hj hk) hI hJ hK
  have e' : ∀ I J K, I < L.N 0 → J < L.N 1 → K < L.N 2 →
      F' I J K = opK L q ![dx, dy, dz] orthT Q' V (g' n') I J K := fun I J K hI hJ hK =>
    computes_unique hd hY' (fun p hp i hi j hj k hk =>
      lapK_distributed hF q dx dy dz Q' hx' hV' hp hn' hi hj hk) hI hJ hK
  rw [inner3_congr L (fun _ _ _ _ _ _ => rfl) e, inner3_congr L e' (fun _ _ _ _ _ _ => rfl),
    opK_same hQ, opK_hermitian]

/-- **C60.** The same for an oblique cell. -/
theorem lapK_hermitian_oblique {L : Layout} (hF : L.Fits) (hd : ∀ d, 0 < L.dims d) (q : KPoint)
    (LV : ℕ → ℝ) (G : Coord.Geom) (hG : Coord.transformMat LV = some G) (h10 : 10 < G.cellTyp)
    (dx dy dz : ℝ) {Q Q' : CallK} (hQ : SameOp Q Q') {g g' : ℕ → ℕ → ℕ → ℕ → ℂ}
    (hx : Distributed L Q.ldi L.ncol g Q.x) (hx' : Distributed L Q'.ldi L.ncol g' Q'.x)
    {V : ℕ → ℕ → ℕ → ℝ} (hV : PotentialOfK L Q V) (hV' : PotentialOfK L Q' V) {n n' : ℕ}
    (hn : n < L.ncol) (hn' : n' < L.ncol) {F F' : ℕ → ℕ → ℕ → ℂ}
    (hY : Computes L (lapNonorthK L q (coefs G.lapc L.FDn dx dy dz) G.cellTyp Q) n F)
    (hY' : Computes L (lapNonorthK L q (coefs G.lapc L.FDn dx dy dz) G.cellTyp Q') n' F') :
    inner3 L (g' n') F = inner3 L F' (g n) := by
  have e : ∀ I J K, I < L.N 0 → J < L.N 1 → K < L.N 2 →
      F I J K = opK L q ![dx, dy, dz] (kept G) Q V (g n) I J K := fun I J K hI hJ hK =>
    computes_unique hd hY (fun p hp i hi j hj k hk =>
      lapK_distributed_oblique hF q LV G hG h10 dx dy dz Q hx hV hp hn hi hj hk) hI hJ hK
  have e' : ∀ I J K, I < L.N 0 → J < L.N 1 → K < L.N 2 →
      F' I J K = opK L q ![dx, dy, dz] (kept G) Q' V (g' n') I J K := fun I J K hI hJ hK =>
    computes_unique hd hY' (fun p hp i hi j hj k hk =>
      lapK_distributed_oblique hF q LV G hG h10 dx dy dz Q' hx' hV' hp hn' hi hj hk) hI hJ hK
  rw [inner3_congr L (fun _ _ _ _ _ _ => rfl) e, inner3_congr L e' (fun _ _ _ _ _ _ => rfl),
    opK_same hQ, opK_hermitian]

/-- The grid function that is computed exists. -/
theorem computes_exists {L : Layout} {run : Proc → ℕ → Option MemK} {n : ℕ} {F : ℕ → ℕ → ℕ → ℂ}
    (h1 : ∀ p, L.Valid p → (run p n).isSome)
    (h : ∀ p, L.Valid p → ∀ i < L.size p 0, ∀ j < L.size p 1, ∀ k < L.size p 2, ∃ y,
      run p n = some y ∧ y (addr (L.isize p) 0 0 i j k) =
        F (L.start p 0 + i) (L.start p 1 + j) (L.start p 2 + k)) : Computes L run n F := by
  intro p hp
  obtain ⟨y, hy⟩ := Option.isSome_iff_exists.1 (h1 p hp)
  refine ⟨y, hy, fun i hi j hj k hk => ?_⟩
  obtain ⟨y', hy', e⟩ := h p hp i hi j hj k hk
  rw [hy] at hy'
  cases hy'
  exact e

/-- **C60.** The processes compute a grid function, the same one on every process grid. -/
theorem lapK_computes {L : Layout} (hF : L.Fits) (q : KPoint) (dx dy dz : ℝ) (Q : CallK)
    {g : ℕ → ℕ → ℕ → ℕ → ℂ} (hx : Distributed L Q.ldi L.ncol g Q.x) {V : ℕ → ℕ → ℕ → ℝ}
    (hV : PotentialOfK L Q V) {n : ℕ} (hn : n < L.ncol) :
    Computes L (lapOrthK L q (coefs0 L.FDn dx dy dz) Q) n
      (opK L q ![dx, dy, dz] orthT Q V (g n)) := by
  refine computes_exists (fun p hp => ?_) fun p hp i hi j hj k hk =>
    lapK_distributed hF q dx dy dz Q hx hV hp hn hi hj hk
  obtain ⟨m, hm, -⟩ := xex6K_halo hF q hx hp Q.ex0
  unfold lapOrthK
  rw [hm]
  rfl

/-- **C60.** The same for an oblique cell. -/
theorem lapK_computes_oblique {L : Layout} (hF : L.Fits) (q : KPoint) (LV : ℕ → ℝ)
    (G : Coord.Geom) (hG : Coord.transformMat LV = some G) (h10 : 10 < G.cellTyp) (dx dy dz : ℝ)
    (Q : CallK) {g : ℕ → ℕ → ℕ → ℕ → ℂ} (hx : Distributed L Q.ldi L.ncol g Q.x)
    {V : ℕ → ℕ → ℕ → ℝ} (hV : PotentialOfK L Q V) {n : ℕ} (hn : n < L.ncol) :
    Computes L (lapNonorthK L q (coefs G.lapc L.FDn dx dy dz) G.cellTyp Q) n
      (opK L q ![dx, dy, dz] (kept G) Q V (g n)) := by
  refine computes_exists (fun p hp => ?_) fun p hp i hi j hj k hk =>
    lapK_distributed_oblique hF q LV G hG h10 dx dy dz Q hx hV hp hn hi hj hk
  obtain ⟨m, hm, -⟩ := xex26K_halo hF q hx hp
  unfold lapNonorthK
  rw [hm]
  rfl

/-- The specification does not mention the process grid. -/
theorem opK_grid {L L' : Layout} (hN : L'.N = L.N) (hper : L'.per = L.per) (hFD : L'.FDn = L.FDn) :
    opK L' = opK L := by
  funext q h T Q V u I J K
  have : bloch L' q u = bloch L q u := by
    funext I J K
    unfold bloch
    rw [hN, ext_congr hN hper]
  unfold opK
  rw [this, hFD]

/-! ### The hypotheses can be met -/

/-- A k-point with three different phases. -/
noncomputable def exK : KPoint := ⟨![1 / 3, 1 / 5, -1 / 7], ![8, 5, 4]⟩

/-- On three by two processes, for two arbitrary orbitals: the corner of the last process is reached
through the periodic boundary, and the matrix elements agree. -/
example (g : ℕ → ℕ → ℕ → ℕ → ℂ) (V : ℕ → ℕ → ℕ → ℝ) (junk : MemK) :
    ∃ (Q : CallK) (F F' : ℕ → ℕ → ℕ → ℂ), Q.a = -1 / 2 ∧ Q.b = 1 ∧
      Distributed exLayout Q.ldi 2 g Q.x ∧ PotentialOfK exLayout Q V ∧
      Computes exLayout (lapOrthK exLayout exK (coefs0 2 1 1 1) Q) 0 F ∧
      Computes exLayout (lapOrthK exLayout exK (coefs0 2 1 1 1) Q) 1 F' ∧
      inner3 exLayout (g 1) F = inner3 exLayout F' (g 0) := by
  obtain ⟨x, hx⟩ := distributed_exists exLayout 2 g
  obtain ⟨v, hv⟩ := distributed_exists exLayout 1 (fun _ => V)
  let Q : CallK := ⟨-1 / 2, 1, 0, some v,
    fun p => exLayout.isize p 0 * exLayout.isize p 1 * exLayout.isize p 2, x, fun _ _ => 0,
    junk, junk, junk, junk, fun _ => 0⟩
  have hV : PotentialOfK exLayout Q V := by
    intro w hw
    cases hw
    intro p hp n hn i hi j hj k hk
    have := hv p hp n hn i hi j hj k hk
    obtain rfl : n = 0 := by omega
    simpa [addr] using this
  have h0 := lapK_computes exLayout_fits exK 1 1 1 Q hx hV (n := 0) (by decide)
  have h1 := lapK_computes exLayout_fits exK 1 1 1 Q hx hV (n := 1) (by decide)
  exact ⟨Q, _, _, rfl, rfl, hx, hV, h0, h1,
    lapK_hermitian exLayout_fits (fin3 (by decide) (by decide) (by decide)) exK 1 1 1
      ⟨rfl, rfl, rfl, Iff.rfl⟩ hx hx hV hV (by decide) (by decide) h0 h1⟩

/-- An oblique cell. -/
example (g : ℕ → ℕ → ℕ → ℕ → ℂ) (junk : MemK) :
    ∃ (Q : CallK) (G : Coord.Geom), Coord.transformMat Coord.exL = some G ∧ 10 < G.cellTyp ∧
      Distributed exLayout Q.ldi 2 g Q.x ∧ PotentialOfK exLayout Q (fun _ _ _ => 0) ∧
      ∃ y, lapNonorthK exLayout exK (coefs G.lapc 2 1 1 1) G.cellTyp Q ![2, 1, 0] 1 = some y ∧
        y (addr (exLayout.isize ![2, 1, 0]) 0 0 1 1 3) =
          opK exLayout exK ![1, 1, 1] (kept G) Q (fun _ _ _ => 0) (g 1) 7 4 3 := by
  obtain ⟨x, hx⟩ := distributed_exists exLayout 2 g
  obtain ⟨G, hG, h10⟩ := Coord.exL_oblique
  let Q : CallK := ⟨1, 0, 5, none,
    fun p => exLayout.isize p 0 * exLayout.isize p 1 * exLayout.isize p 2, x, fun _ _ => 0,
    junk, junk, junk, junk, fun _ => 0⟩
  have hV : PotentialOfK exLayout Q (fun _ _ _ => 0) := fun v h => by cases h
  refine ⟨Q, G, hG, h10, hx, hV, ?_⟩
  exact lapK_distributed_oblique exLayout_fits exK _ G hG h10 1 1 1 Q hx hV
    (p := ![2, 1, 0]) (fin3 (by decide) (by decide) (by decide)) (n := 1) (by decide)
    (i := 1) (j := 1) (k := 3) (by decide) (by decide) (by decide)

/-- The phase is not trivial: one cell to the right along the first axis. -/
example (u : ℕ → ℕ → ℕ → ℂ) : bloch exLayout exK u (8 + 1) 2 3 =
    Complex.exp (Complex.I * ((1 / 3 * 8 : ℝ) : ℂ)) * u 1 2 3 := by
  have h := (bloch_translate exLayout exK u 1 2 3).1 rfl (by decide)
  have h2 := bloch_grid exLayout exK u (I := 1) (J := 2) (K := 3) (by decide) (by decide) (by decide)
  push_cast at h2
  rw [h2] at h
  rw [add_comm]
  exact h

end Sparc.Bloch

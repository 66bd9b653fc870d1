import Verif.Kron.Lemmas

/-!
# Kronecker-product Laplacian (the transform)
-/

namespace Sparc.Kron

open ComplexConjugate Matrix Kronecker

variable {𝕜 : Type} [RCLike 𝕜]

/-! ## `gemm` -/

theorem gemm_at (ta tb : Tr) (m n k : ℕ) (A : ℕ → 𝕜) (lda : ℕ) (B : ℕ → 𝕜) (ldb : ℕ) (C : ℕ → 𝕜) (off i j : ℕ)
    (hi : i < m) (hj : j < n) :
    gemm ta tb m n k A lda B ldb C off m (i + j * m + off) =
      ∑ l ∈ Finset.range k, op ta A lda i l * op tb B ldb l j := by
  unfold gemm
  have h1 : (i + j * m + off - off) % m = i := by
    rw [Nat.add_sub_cancel, Nat.add_mul_mod_self_right, Nat.mod_eq_of_lt hi]
  have h2 : (i + j * m + off - off) / m = j := by
    rw [Nat.add_sub_cancel, Nat.add_mul_div_right _ _ (by omega), Nat.div_eq_of_lt hi, zero_add]
  rw [h1, h2, if_pos ⟨by omega, hi, hj⟩]
  rfl

theorem gemm_out (ta tb : Tr) (m n k : ℕ) (A : ℕ → 𝕜) (lda : ℕ) (B : ℕ → 𝕜) (ldb : ℕ) (C : ℕ → 𝕜) (off x : ℕ)
    (hm : 0 < m) (hx : x < off ∨ off + m * n ≤ x) :
    gemm ta tb m n k A lda B ldb C off m x = C x := by
  unfold gemm
  rw [if_neg]
  rintro ⟨h1, _, h3⟩
  rcases hx with h | h
  · omega
  · rw [Nat.div_lt_iff_lt_mul hm] at h3
    rw [mul_comm n m] at h3
    omega

/-- First loop: slice by slice transform of `vec`. -/
theorem loop1 (t : Tr) (nx ny n : ℕ) (Vx Vy vec work out : ℕ → 𝕜) (hx : 0 < nx) :
    let s := (List.range n).foldl (fun (s : (ℕ → 𝕜) × (ℕ → 𝕜)) k =>
      let w := gemm .no .no nx ny ny (fun x => vec (x + k * (nx * ny))) nx Vy ny s.1 0 nx
      (w, gemm t .no nx ny nx Vx nx w nx s.2 (k * (nx * ny)) nx)) (work, out)
    ∀ i j k, i < nx → j < ny → k < n → s.2 (i + j * nx + k * (nx * ny)) =
      ∑ a ∈ Finset.range nx, op t Vx nx i a *
        ∑ b ∈ Finset.range ny, vec (a + b * nx + k * (nx * ny)) * Vy (b + j * ny) := by
  induction n with
  | zero => intro s i j k _ _ hk; omega
  | succ n ih =>
    intro s i j k hi hj hk
    simp only [s, List.range_succ, List.foldl_append, List.foldl_cons, List.foldl_nil]
    set s0 := (List.range n).foldl (fun (s : (ℕ → 𝕜) × (ℕ → 𝕜)) k =>
      let w := gemm .no .no nx ny ny (fun x => vec (x + k * (nx * ny))) nx Vy ny s.1 0 nx
      (w, gemm t .no nx ny nx Vx nx w nx s.2 (k * (nx * ny)) nx)) (work, out) with hs0
    by_cases hkn : k = n
    · subst hkn
      rw [gemm_at _ _ _ _ _ _ _ _ _ _ _ _ _ hi hj]
      refine Finset.sum_congr rfl fun a ha => ?_
      rw [Finset.mem_range] at ha
      congr 1
      have := gemm_at .no .no nx ny ny (fun x => vec (x + k * (nx * ny))) nx Vy ny s0.1 0 a j ha hj
      rw [Nat.add_zero] at this
      exact this
    · rw [gemm_out _ _ _ _ _ _ _ _ _ _ _ _ hx]
      · exact ih i j k hi hj (by omega)
      · left
        have h1 : i + j * nx < nx * ny := by
          have := Loop.flat3_lt (nz := 1) (k := 0) hi hj (by omega); simpa using this
        have h2 : (k + 1) * (nx * ny) ≤ n * (nx * ny) := Nat.mul_le_mul_right _ (by omega)
        rw [Nat.succ_mul] at h2
        omega

/-- Second loop: slice by slice transform in place. -/
theorem loop2 (nx ny n : ℕ) (Vx Vy work P : ℕ → 𝕜) (hx : 0 < nx) :
    let s := (List.range n).foldl (fun (r : (ℕ → 𝕜) × (ℕ → 𝕜)) k =>
      let w := gemm .no .trans nx ny ny (fun x => r.2 (x + k * (nx * ny))) nx Vy ny r.1 0 nx
      (w, gemm .no .no nx ny nx Vx nx w nx r.2 (k * (nx * ny)) nx)) (work, P)
    (∀ i j k, i < nx → j < ny → k < n → s.2 (i + j * nx + k * (nx * ny)) =
      ∑ a ∈ Finset.range nx, Vx (i + a * nx) *
        ∑ b ∈ Finset.range ny, P (a + b * nx + k * (nx * ny)) * Vy (j + b * ny)) ∧
    ∀ x, n * (nx * ny) ≤ x → s.2 x = P x := by
  induction n with
  | zero => intro s; exact ⟨fun i j k _ _ hk => by omega, fun x _ => rfl⟩
  | succ n ih =>
    intro s
    simp only [s, List.range_succ, List.foldl_append, List.foldl_cons, List.foldl_nil]
    set s0 := (List.range n).foldl (fun (r : (ℕ → 𝕜) × (ℕ → 𝕜)) k =>
      let w := gemm .no .trans nx ny ny (fun x => r.2 (x + k * (nx * ny))) nx Vy ny r.1 0 nx
      (w, gemm .no .no nx ny nx Vx nx w nx r.2 (k * (nx * ny)) nx)) (work, P) with hs0
    constructor
    · intro i j k hi hj hk
      by_cases hkn : k = n
      · subst hkn
        rw [gemm_at _ _ _ _ _ _ _ _ _ _ _ _ _ hi hj]
        refine Finset.sum_congr rfl fun a ha => ?_
        rw [Finset.mem_range] at ha
        congr 1
        have := gemm_at .no .trans nx ny ny (fun x => s0.2 (x + k * (nx * ny))) nx Vy ny s0.1 0 a j ha hj
        rw [Nat.add_zero] at this
        refine this.trans (Finset.sum_congr rfl fun b _ => ?_)
        show s0.2 (a + b * nx + k * (nx * ny)) * Vy (j + b * ny) = _
        rw [ih.2 _ (by omega)]
      · rw [gemm_out _ _ _ _ _ _ _ _ _ _ _ _ hx]
        · exact ih.1 i j k hi hj (by omega)
        · left
          have h1 : i + j * nx < nx * ny := by
            have := Loop.flat3_lt (nz := 1) (k := 0) hi hj (by omega); simpa using this
          have h2 : (k + 1) * (nx * ny) ≤ n * (nx * ny) := Nat.mul_le_mul_right _ (by omega)
          rw [Nat.succ_mul] at h2
          omega
    · intro x hx'
      rw [Nat.succ_mul] at hx'
      rw [gemm_out _ _ _ _ _ _ _ _ _ _ _ _ hx (Or.inr hx')]
      exact ih.2 x (by omega)

/-- What the complex transform computes. -/
theorem lapKronC_sum (nx ny nz : ℕ) (Vx Vy Vz VyH VzH vec : ℕ → 𝕜) (diag : ℕ → ℝ) (work P out : ℕ → 𝕜)
    (i j k : ℕ) (hi : i < nx) (hj : j < ny) (hk : k < nz) :
    lapKronC nx ny nz Vx Vy Vz VyH VzH vec diag work P out (i + j * nx + k * (nx * ny)) =
      ∑ c ∈ Finset.range nz, (∑ a ∈ Finset.range nx, Vx (i + a * nx) * ∑ b ∈ Finset.range ny,
        ((∑ k' ∈ Finset.range nz, (∑ i' ∈ Finset.range nx, conj (Vx (i' + a * nx)) *
          ∑ j' ∈ Finset.range ny, vec (i' + j' * nx + k' * (nx * ny)) * VyH (j' + b * ny)) *
            VzH (k' + c * nz)) * ((diag (a + b * nx + c * (nx * ny)) : ℝ) : 𝕜)) * Vy (j + b * ny)) *
        Vz (k + c * nz) := by
  have hx : 0 < nx := by omega
  have hij : ∀ {i j : ℕ}, i < nx → j < ny → i + j * nx < nx * ny := by
    intro i j hi hj
    have := Loop.flat3_lt (nz := 1) (k := 0) hi hj (by omega); simpa using this
  unfold lapKronC
  dsimp only
  have g1' := fun A B C => gemm_at (𝕜 := 𝕜) .no .trans (nx * ny) nz nz A (nx * ny) B nz C 0 (i + j * nx) k
    (hij hi hj) hk
  simp only [Nat.add_zero] at g1'
  rw [g1']
  refine Finset.sum_congr rfl fun c hc => ?_
  rw [Finset.mem_range] at hc
  show _ * Vz (k + c * nz) = _
  congr 1
  refine ((loop2 nx ny nz Vx Vy _ _ hx).1 i j c hi hj hc).trans ?_
  refine Finset.sum_congr rfl fun a ha => ?_
  rw [Finset.mem_range] at ha
  congr 1
  refine Finset.sum_congr rfl fun b hb => ?_
  rw [Finset.mem_range] at hb
  congr 1
  rw [if_pos (Loop.flat3_lt ha hb hc)]
  congr 1
  have g2 := fun A B C => gemm_at (𝕜 := 𝕜) .no .no (nx * ny) nz nz A (nx * ny) B nz C 0 (a + b * nx) c (hij ha hb) hc
  simp only [Nat.add_zero] at g2
  rw [g2]
  refine Finset.sum_congr rfl fun k' hk' => ?_
  rw [Finset.mem_range] at hk'
  show _ * VzH (k' + c * nz) = _
  congr 1
  exact loop1 .conjTrans nx ny nz Vx VyH vec work out hx a b k' ha hb hk'

/-- The real transform is the complex one on real numbers. -/
theorem lapKron_eq (nx ny nz : ℕ) (Vx Vy Vz vec : ℕ → ℝ) (diag : ℕ → ℝ) (work P out : ℕ → ℝ) :
    lapKron nx ny nz Vx Vy Vz vec diag work P out = lapKronC nx ny nz Vx Vy Vz Vy Vz vec diag work P out := by
  have : ∀ (nx ny n : ℕ) (A : ℕ → ℝ) (lda : ℕ) (B : ℕ → ℝ) (ldb : ℕ) (C : ℕ → ℝ) (off ldc : ℕ),
      gemm .trans .no nx ny n A lda B ldb C off ldc = gemm .conjTrans .no nx ny n A lda B ldb C off ldc := by
    intros; unfold gemm op; simp
  unfold lapKron lapKronC
  simp only [this]

/-! ## Eigenvalues -/

theorem eig3_spec (nx : ℕ) (lx : ℕ → ℝ) (ny : ℕ) (ly : ℕ → ℝ) (nz : ℕ) (lz : ℕ → ℝ) (i j k : ℕ)
    (hi : i < nx) (hj : j < ny) (hk : k < nz) :
    eig3 nx lx ny ly nz lz (i + j * nx + k * (nx * ny)) = lx i + ly j + lz k := by
  have key : ∀ (n m : ℕ) (f : ℕ → List ℝ) (q r : ℕ), (∀ a, (f a).length = m) → q < n → r < m →
      ((List.range n).flatMap f).getD (r + q * m) 0 = (f q).getD r 0 := by
    intro n m f q r hf hq hr
    rw [List.getD_eq_getElem?_getD, List.getD_eq_getElem?_getD,
      Loop.getElem?_flatMap_range f m n hf hr hq]
  have hij : i + j * nx < ny * nx := by
    have := Loop.flat3_lt (nz := 1) (k := 0) hi hj (by omega)
    rw [mul_comm ny nx]; simpa using this
  have hjk : j + k * ny < ny * nz := by
    have := Loop.flat3_lt (nz := 1) (k := 0) hj hk (by omega); simpa using this
  unfold eig3 addList
  dsimp only
  have e1 : i + j * nx + k * (nx * ny) = i + (j + k * ny) * nx := by ring
  have e2 : i + j * nx + k * (nx * ny) = (i + j * nx) + k * (ny * nx) := by ring
  have a1 : ((List.range (ny * nz)).flatMap fun _ => (List.range nx).map lx).getD (i + j * nx + k * (nx * ny)) 0 =
      lx i := by
    rw [e1, key _ nx _ _ _ (by simp) hjk hi, List.getD_eq_getElem?_getD]
    simp [hi]
  have a2 : ((List.range nz).flatMap fun _ => (List.range ny).flatMap fun j =>
      (List.range nx).map fun _ => ly j).getD (i + j * nx + k * (nx * ny)) 0 = ly j := by
    rw [e2, key _ (ny * nx) _ _ _ (by simp) hk hij, key _ nx _ _ _ (by simp) hj hi,
      List.getD_eq_getElem?_getD]
    simp [hi]
  have a3 : ((List.range nz).flatMap fun k => (List.range (ny * nx)).map fun _ => lz k).getD
      (i + j * nx + k * (nx * ny)) 0 = lz k := by
    rw [e2, key _ (ny * nx) _ _ _ (by simp) hk hij, List.getD_eq_getElem?_getD]
    simp [hij]
  rw [a1, a2, a3, zero_add]

/-! ## Linear algebra -/

section
variable {X Y Z : Type} [Fintype X] [Fintype Y] [Fintype Z] [DecidableEq X] [DecidableEq Y] [DecidableEq Z]

/-- The tensor product of the eigenvectors. -/
def ten (Vx : Matrix X X 𝕜) (Vy : Matrix Y Y 𝕜) (Vz : Matrix Z Z 𝕜) : Matrix (Z × Y × X) (Z × Y × X) 𝕜 :=
  Vz ⊗ₖ (Vy ⊗ₖ Vx)

/-- The three-dimensional operator. -/
def lap3 (Lx : Matrix X X 𝕜) (Ly : Matrix Y Y 𝕜) (Lz : Matrix Z Z 𝕜) : Matrix (Z × Y × X) (Z × Y × X) 𝕜 :=
  1 ⊗ₖ (1 ⊗ₖ Lx) + 1 ⊗ₖ (Ly ⊗ₖ 1) + Lz ⊗ₖ (1 ⊗ₖ 1)

theorem ten_unitary (Vx : Matrix X X 𝕜) (Vy : Matrix Y Y 𝕜) (Vz : Matrix Z Z 𝕜) (hx : Vxᴴ * Vx = 1)
    (hy : Vyᴴ * Vy = 1) (hz : Vzᴴ * Vz = 1) : (ten Vx Vy Vz)ᴴ * ten Vx Vy Vz = 1 := by
  unfold ten
  rw [conjTranspose_kronecker, conjTranspose_kronecker, ← mul_kronecker_mul, ← mul_kronecker_mul, hx, hy, hz,
    one_kronecker_one, one_kronecker_one]

theorem ten_diag (Vx : Matrix X X 𝕜) (Vy : Matrix Y Y 𝕜) (Vz : Matrix Z Z 𝕜)
    (Lx : Matrix X X 𝕜) (Ly : Matrix Y Y 𝕜) (Lz : Matrix Z Z 𝕜) (lx : X → 𝕜) (ly : Y → 𝕜) (lz : Z → 𝕜)
    (hx : Lx * Vx = Vx * diagonal lx) (hy : Ly * Vy = Vy * diagonal ly) (hz : Lz * Vz = Vz * diagonal lz) :
    lap3 Lx Ly Lz * ten Vx Vy Vz = ten Vx Vy Vz * diagonal fun p => lx p.2.2 + ly p.2.1 + lz p.1 := by
  have e : (diagonal fun p : Z × Y × X => lx p.2.2 + ly p.2.1 + lz p.1) =
      lap3 (diagonal lx) (diagonal ly) (diagonal lz) := by
    unfold lap3
    rw [← diagonal_one, ← diagonal_one, ← diagonal_one]
    simp only [diagonal_kronecker_diagonal, diagonal_add, one_mul, mul_one]
  rw [e]
  unfold lap3 ten
  simp only [Matrix.add_mul, Matrix.mul_add, ← mul_kronecker_mul, hx, hy, hz, Matrix.one_mul, Matrix.mul_one]

end

/-! ## Flat arrays as matrices -/

/-- A square column-major array. -/
def mat (N : ℕ) (V : ℕ → 𝕜) : Matrix (Fin N) (Fin N) 𝕜 := fun i a => V (i + a * N)

/-- A three-dimensional array. -/
def vec3 (nx ny nz : ℕ) (u : ℕ → 𝕜) : Fin nz × Fin ny × Fin nx → 𝕜 :=
  fun p => u (p.2.2 + p.2.1 * nx + p.1 * (nx * ny))

theorem lapKronC_mat (nx ny nz : ℕ) (Vx Vy Vz vec : ℕ → 𝕜) (diag : ℕ → ℝ) (work P out : ℕ → 𝕜)
    (p : Fin nz × Fin ny × Fin nx) :
    vec3 nx ny nz (lapKronC nx ny nz Vx Vy Vz (fun x => conj (Vy x)) (fun x => conj (Vz x)) vec diag work P out) p =
      (ten (mat nx Vx) (mat ny Vy) (mat nz Vz) *ᵥ (diagonal (vec3 nx ny nz fun n => ((diag n : ℝ) : 𝕜)) *ᵥ
        ((ten (mat nx Vx) (mat ny Vy) (mat nz Vz))ᴴ *ᵥ vec3 nx ny nz vec))) p := by
  obtain ⟨k, j, i⟩ := p
  have hd : ∀ (d w : Fin nz × Fin ny × Fin nx → 𝕜), diagonal d *ᵥ w = fun x => d x * w x := by
    intro d w; ext x; exact mulVec_diagonal d w x
  rw [hd]
  unfold vec3
  dsimp only
  rw [lapKronC_sum nx ny nz Vx Vy Vz _ _ vec diag work P out i j k i.2 j.2 k.2]
  simp only [mulVec, dotProduct, Fintype.sum_prod_type, ten, kroneckerMap_apply, mat, Finset.sum_range,
    conjTranspose_apply]
  refine Finset.sum_congr rfl fun c _ => ?_
  rw [Finset.sum_mul, Finset.sum_comm]
  refine Finset.sum_congr rfl fun a _ => ?_
  rw [Finset.mul_sum, Finset.sum_mul]
  refine Finset.sum_congr rfl fun b _ => ?_
  have e : (∑ k' : Fin nz, (∑ i' : Fin nx, conj (Vx (i' + a * nx)) * ∑ j' : Fin ny,
      vec (i' + j' * nx + k' * (nx * ny)) * conj (Vy (j' + b * ny))) * conj (Vz (k' + c * nz))) =
      ∑ k' : Fin nz, ∑ j' : Fin ny, ∑ i' : Fin nx,
        star (Vz (k' + c * nz) * (Vy (j' + b * ny) * Vx (i' + a * nx))) * vec (i' + j' * nx + k' * (nx * ny)) := by
    refine Finset.sum_congr rfl fun k' _ => ?_
    rw [Finset.sum_mul, Finset.sum_comm]
    refine Finset.sum_congr rfl fun i' _ => ?_
    rw [Finset.mul_sum, Finset.sum_mul]
    refine Finset.sum_congr rfl fun j' _ => ?_
    simp only [RCLike.star_def, map_mul]
    ring
  rw [e]
  ring

end Sparc.Kron

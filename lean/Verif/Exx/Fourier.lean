import Verif.Exx.Table
import Verif.Loop
import Mathlib.RingTheory.RootsOfUnity.Complex

/-! # The Poisson solve for one pair of Bloch vectors: lemmas -/

namespace Sparc.Exx

open Classical Sparc.Loop

/-- Values of a function on the mesh in the order of memory. -/
def flat {α : Type} (Nx Ny Nz : ℕ) (f : ℕ → ℕ → ℕ → α) : List α :=
  (List.range Nz).flatMap fun k => (List.range Ny).flatMap fun j => (List.range Nx).map fun i => f i j k

theorem flat_length {α : Type} (Nx Ny Nz : ℕ) (f : ℕ → ℕ → ℕ → α) : (flat Nx Ny Nz f).length = Nx * Ny * Nz := by
  unfold flat
  simp only [List.length_flatMap, List.length_map, List.length_range, List.map_const', List.sum_replicate, smul_eq_mul]
  ring

theorem flat_get {α : Type} {Nx Ny Nz i j k : ℕ} (f : ℕ → ℕ → ℕ → α) (hi : i < Nx) (hj : j < Ny) (hk : k < Nz) :
    (flat Nx Ny Nz f)[i + j * Nx + k * (Nx * Ny)]? = some (f i j k) := by
  unfold flat
  have h1 : i + j * Nx < Nx * Ny := by
    calc i + j * Nx < (j + 1) * Nx := by rw [Nat.succ_mul]; omega
      _ ≤ Ny * Nx := Nat.mul_le_mul_right _ hj
      _ = Nx * Ny := Nat.mul_comm _ _
  rw [getElem?_flatMap_range _ (Nx * Ny) Nz (fun k => by
    simp only [List.length_flatMap, List.length_map, List.length_range, List.map_const', List.sum_replicate, smul_eq_mul]
    ring) h1 hk]
  rw [getElem?_flatMap_range _ Nx Ny (fun j => by simp) hi hj]
  rw [List.getElem?_map, List.getElem?_range hi]
  rfl

theorem at_lt (M : Mesh) {i j k : ℕ} (hi : i < M.Nx) (hj : j < M.Ny) (hk : k < M.Nz) : M.at i j k < M.Nd :=
  flat3_lt hi hj hk

/-- The constant read for block `b` at the mesh point `(i, j, k)`. -/
theorem const_get (P : Ker) (M : Mesh) (t : Tab) {i j k b : ℕ} (hi : i < M.Nx) (hj : j < M.Ny) (hk : k < M.Nz)
    (hb : b < t.count) :
    (poisConst P M t)[M.at i j k + M.Nd * b]? = some (P.sr (M.norm2 (M.G (t.blockVec b) i j k))) := by
  unfold poisConst
  rw [Nat.mul_comm]
  refine (getElem?_flatMap_range (fun l => flat M.Nx M.Ny M.Nz fun i j k => P.sr (M.norm2 (M.G (t.blockVec l) i j k)))
    M.Nd t.count (fun l => flat_length _ _ _ _) (at_lt M hi hj hk) hb).trans ?_
  exact flat_get (fun i j k => P.sr (M.norm2 (M.G (t.blockVec b) i j k))) hi hj hk

/-- The phase read for the stored shift `l`. -/
theorem phase_get (M : Mesh) (t : Tab) (sg : ℝ) {i j k l : ℕ} (hi : i < M.Nx) (hj : j < M.Ny) (hk : k < M.Nz)
    (hl : l < t.count - 1) :
    (phases M t sg)[M.at i j k + l * M.Nd]? =
      some ((Real.cos (M.dot (t.blockVec l) i j k) : ℂ) + sg * Complex.I * (Real.sin (M.dot (t.blockVec l) i j k) : ℂ)) := by
  unfold phases
  refine (getElem?_flatMap_range (fun l => flat M.Nx M.Ny M.Nz fun i j k =>
      (Real.cos (M.dot ((t.stored[l]?).getD (0, 0, 0)) i j k) : ℂ) +
        sg * Complex.I * (Real.sin (M.dot ((t.stored[l]?).getD (0, 0, 0)) i j k) : ℂ))
    M.Nd (t.count - 1) (fun l => flat_length _ _ _ _) (at_lt M hi hj hk) hl).trans ?_
  have : t.blockVec l = (t.stored[l]?).getD (0, 0, 0) := by unfold Tab.blockVec; rw [if_pos hl]
  rw [this]
  exact flat_get (fun i j k => (Real.cos (M.dot ((t.stored[l]?).getD (0, 0, 0)) i j k) : ℂ) +
        sg * Complex.I * (Real.sin (M.dot ((t.stored[l]?).getD (0, 0, 0)) i j k) : ℂ)) hi hj hk

theorem cis (x : ℝ) : (Real.cos x : ℂ) + ((1 : ℝ) : ℂ) * Complex.I * (Real.sin x : ℂ) = Complex.exp ((x : ℂ) * Complex.I) := by
  rw [Complex.exp_mul_I]; push_cast; ring

theorem cis_neg (x : ℝ) : (Real.cos x : ℂ) + ((-1 : ℝ) : ℂ) * Complex.I * (Real.sin x : ℂ) = Complex.exp (((-x : ℝ) : ℂ) * Complex.I) := by
  rw [Complex.exp_mul_I]; push_cast
  rw [Complex.cos_neg, Complex.sin_neg]; ring

/-- `applyPhase` multiplies by `exp(± i r·s)` with `s` the vector of the selected block. -/
theorem applyPhase_neg (M : Mesh) (t : Tab) {l i j k : ℕ} (v : Field) (hl : l < t.count) (hi : i < M.Nx) (hj : j < M.Ny)
    (hk : k < M.Nz) :
    applyPhase M t (-1) l v i j k =
      v i j k * Complex.exp (((-(M.dot (t.blockVec (t.block l)) i j k) : ℝ) : ℂ) * Complex.I) := by
  unfold applyPhase
  by_cases h0 : l = 0
  · subst h0
    have : t.blockVec (t.block 0) = (0, 0, 0) := by
      unfold Tab.blockVec Tab.block; rw [if_pos rfl, if_neg (by omega)]
    rw [if_pos rfl, this]
    simp [Mesh.dot]
  · have : t.block l = l - 1 := by unfold Tab.block; rw [if_neg h0]
    rw [if_neg h0, phase_get M t (-1) hi hj hk (by omega : l - 1 < t.count - 1), Option.getD_some, this, cis_neg]

theorem applyPhase_pos (M : Mesh) (t : Tab) {l i j k : ℕ} (v : Field) (hl : l < t.count) (hi : i < M.Nx) (hj : j < M.Ny)
    (hk : k < M.Nz) :
    applyPhase M t 1 l v i j k =
      v i j k * Complex.exp (((M.dot (t.blockVec (t.block l)) i j k : ℝ) : ℂ) * Complex.I) := by
  unfold applyPhase
  by_cases h0 : l = 0
  · subst h0
    have : t.blockVec (t.block 0) = (0, 0, 0) := by
      unfold Tab.blockVec Tab.block; rw [if_pos rfl, if_neg (by omega)]
    rw [if_pos rfl, this]
    simp [Mesh.dot]
  · have : t.block l = l - 1 := by unfold Tab.block; rw [if_neg h0]
    rw [if_neg h0, phase_get M t 1 hi hj hk (by omega : l - 1 < t.count - 1), Option.getD_some, this, cis]

/-! ## Orthogonality of the roots of unity -/

theorem root_pow (sg : ℝ) (N a n : ℕ) (hN : 0 < N) : root sg N a n = (root sg N a 1) ^ n := by
  unfold root
  rw [← Complex.exp_nat_mul]
  congr 1
  push_cast
  ring

theorem root_one (N a : ℕ) (hN : 0 < N) : root 1 N a 1 = Complex.exp (2 * Real.pi * Complex.I / N) ^ a := by
  unfold root
  rw [← Complex.exp_nat_mul]
  congr 1
  push_cast
  ring

theorem root_neg (N a n : ℕ) : root (-1) N a n = (root 1 N a n)⁻¹ := by
  unfold root
  rw [← Complex.exp_neg]
  congr 1
  push_cast
  ring

theorem root_sum {N a b : ℕ} (hN : 0 < N) (ha : a < N) (hb : b < N) :
    ∑ n ∈ Finset.range N, root 1 N a n * root (-1) N b n = if a = b then (N : ℂ) else 0 := by
  have hz := Complex.isPrimitiveRoot_exp N (by omega)
  set z := Complex.exp (2 * Real.pi * Complex.I / N) with hzd
  have hz0 : z ≠ 0 := Complex.exp_ne_zero _
  have e : ∀ n, root 1 N a n * root (-1) N b n = (z ^ a * (z ^ b)⁻¹) ^ n := by
    intro n
    rw [root_neg, root_pow 1 N a n hN, root_pow 1 N b n hN, root_one N a hN, root_one N b hN, mul_pow, inv_pow]
  simp only [e]
  by_cases hab : a = b
  · subst hab
    rw [if_pos rfl, mul_inv_cancel₀ (pow_ne_zero _ hz0)]
    simp
  · rw [if_neg hab]
    have hw1 : z ^ a * (z ^ b)⁻¹ ≠ 1 := by
      intro h
      have : z ^ a = z ^ b := by
        rw [mul_inv_eq_one₀ (pow_ne_zero _ hz0)] at h; exact h
      exact hab (hz.pow_inj ha hb this)
    have hwN : (z ^ a * (z ^ b)⁻¹) ^ N = 1 := by
      rw [mul_pow, inv_pow, ← pow_mul, ← pow_mul, mul_comm a, mul_comm b, pow_mul, pow_mul, hz.pow_eq_one]
      simp
    have hg := mul_geom_sum (z ^ a * (z ^ b)⁻¹) N
    rw [hwN, sub_self] at hg
    exact (mul_eq_zero.mp hg).resolve_left (sub_ne_zero.mpr hw1)

/-- The plane wave with indices `(a, b, c)`. -/
noncomputable def pw (M : Mesh) (a b c : ℕ) : Field := fun i j k =>
  root 1 M.Nx a i * root 1 M.Ny b j * root 1 M.Nz c k

/-- Transform of a plane wave. -/
theorem dft_pw (M : Mesh) {a b c a' b' c' : ℕ} (v : Field)
    (hv : ∀ i j k, i < M.Nx → j < M.Ny → k < M.Nz → v i j k = pw M a b c i j k)
    (ha : a < M.Nx) (hb : b < M.Ny) (hc : c < M.Nz) (ha' : a' < M.Nx) (hb' : b' < M.Ny) (hc' : c' < M.Nz) :
    dft M (-1) v a' b' c' = if a = a' ∧ b = b' ∧ c = c' then (M.Nd : ℂ) else 0 := by
  unfold dft
  have e : ∀ k ∈ Finset.range M.Nz, ∀ j ∈ Finset.range M.Ny, ∀ i ∈ Finset.range M.Nx,
      v i j k * (root (-1) M.Nx a' i * root (-1) M.Ny b' j * root (-1) M.Nz c' k) =
      (root 1 M.Nz c k * root (-1) M.Nz c' k) * ((root 1 M.Ny b j * root (-1) M.Ny b' j) *
        (root 1 M.Nx a i * root (-1) M.Nx a' i)) := by
    intro k hk j hj i hi
    rw [Finset.mem_range] at hk hj hi
    rw [hv i j k hi hj hk]
    unfold pw
    ring
  rw [Finset.sum_congr rfl fun k hk => Finset.sum_congr rfl fun j hj => Finset.sum_congr rfl fun i hi => e k hk j hj i hi]
  simp only [← Finset.mul_sum]
  rw [← Finset.sum_mul, ← Finset.sum_mul, root_sum (by omega) ha ha', root_sum (by omega) hb hb', root_sum (by omega) hc hc']
  unfold Mesh.Nd
  by_cases h1 : a = a' <;> by_cases h2 : b = b' <;> by_cases h3 : c = c' <;> simp [h1, h2, h3] <;> ring

/-- Inverse transform of a single coefficient. -/
theorem idft_single (M : Mesh) {a b c i j k : ℕ} (w : Field) (x : ℂ)
    (hw : ∀ a' b' c', a' < M.Nx → b' < M.Ny → c' < M.Nz → w a' b' c' = if a = a' ∧ b = b' ∧ c = c' then x else 0)
    (ha : a < M.Nx) (hb : b < M.Ny) (hc : c < M.Nz) :
    dft M 1 w i j k = x * (root 1 M.Nx i a * root 1 M.Ny j b * root 1 M.Nz k c) := by
  unfold dft
  rw [Finset.sum_eq_single_of_mem c (Finset.mem_range.mpr hc), Finset.sum_eq_single_of_mem b (Finset.mem_range.mpr hb),
    Finset.sum_eq_single_of_mem a (Finset.mem_range.mpr ha), hw a b c ha hb hc, if_pos ⟨rfl, rfl, rfl⟩]
  · intro a' ha' hne
    rw [hw a' b c (Finset.mem_range.mp ha') hb hc, if_neg (fun h => hne h.1.symm), zero_mul]
  · intro b' hb' hne
    refine Finset.sum_eq_zero fun a' ha' => ?_
    rw [hw a' b' c (Finset.mem_range.mp ha') (Finset.mem_range.mp hb') hc, if_neg (fun h => hne h.2.1.symm), zero_mul]
  · intro c' hc' hne
    refine Finset.sum_eq_zero fun b' hb' => Finset.sum_eq_zero fun a' ha' => ?_
    rw [hw a' b' c' (Finset.mem_range.mp ha') (Finset.mem_range.mp hb') (Finset.mem_range.mp hc'),
      if_neg (fun h => hne h.2.2.symm), zero_mul]

theorem root_swap (N a n : ℕ) : root 1 N n a = root 1 N a n := by
  unfold root; congr 3; ring

/-! ## Frequencies -/

/-- Index of the integer frequency `m`. -/
def idx (N : ℕ) (m : ℤ) : ℕ := (m % N).toNat

theorem idx_lt {N : ℕ} (hN : 0 < N) (m : ℤ) : idx N m < N := by
  unfold idx
  have := Int.emod_nonneg m (show (N : ℤ) ≠ 0 by omega)
  have := Int.emod_lt_of_pos m (show (0 : ℤ) < N by omega)
  omega

theorem freq_idx {N : ℕ} {L : ℝ} {m : ℤ} (h1 : -(N : ℤ) < 2 * m) (h2 : 2 * m ≤ N) (hN : 0 < N) :
    freq N L (idx N m) = 2 * Real.pi * m / L := by
  unfold freq idx
  by_cases hm : 0 ≤ m
  · have e : m % (N : ℤ) = m := Int.emod_eq_of_lt hm (by omega)
    rw [e, if_pos (by omega)]
    have : ((m.toNat : ℕ) : ℝ) = (m : ℝ) := by exact_mod_cast Int.toNat_of_nonneg hm
    rw [this]; ring
  · have e : m % (N : ℤ) = m + N := by
      rw [← Int.add_emod_right]; exact Int.emod_eq_of_lt (by omega) (by omega)
    rw [e, if_neg (by omega)]
    have : (((m + N).toNat : ℕ) : ℝ) = (m : ℝ) + N := by
      have : (((m + N).toNat : ℕ) : ℤ) = m + N := Int.toNat_of_nonneg (by omega)
      exact_mod_cast this
    rw [this]; ring

theorem root_idx {N : ℕ} {L : ℝ} (hL : L ≠ 0) (m : ℤ) (n : ℕ) (hN : 0 < N) :
    root 1 N (idx N m) n = Complex.exp (((2 * Real.pi * m / L * (n * L / N) : ℝ) : ℂ) * Complex.I) := by
  unfold root idx
  have hN' : (N : ℝ) ≠ 0 := by exact_mod_cast hN.ne'
  have h0 := Int.emod_nonneg m (show (N : ℤ) ≠ 0 by omega)
  have e : (((m % (N : ℤ)).toNat : ℕ) : ℝ) = (m : ℝ) - N * ((m / (N : ℤ) : ℤ) : ℝ) := by
    have h1 : (((m % (N : ℤ)).toNat : ℕ) : ℤ) = m - N * (m / N) := by
      rw [Int.toNat_of_nonneg h0, Int.emod_def]
    exact_mod_cast h1
  rw [e, Complex.exp_eq_exp_iff_exists_int]
  refine ⟨-((m / (N : ℤ)) * n), ?_⟩
  have r : (1 * (2 * Real.pi * ((((m : ℝ) - N * ((m / (N : ℤ) : ℤ) : ℝ)) * n) / N)) : ℝ) =
      2 * Real.pi * m / L * (n * L / N) - 2 * Real.pi * ((m / (N : ℤ) : ℤ) : ℝ) * n := by
    field_simp
  rw [r]
  push_cast
  ring

end Sparc.Exx

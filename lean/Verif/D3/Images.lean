import Verif.D3.Deriv

/-! The box of image cells holds every image within the cut-off. -/

namespace Sparc.D3

theorem cauchy (x y z a b c : ℝ) : (x * a + y * b + z * c) ^ 2 ≤ (x ^ 2 + y ^ 2 + z ^ 2) * (a ^ 2 + b ^ 2 + c ^ 2) := by
  nlinarith [sq_nonneg (x * b - y * a), sq_nonneg (x * c - z * a), sq_nonneg (y * c - z * b)]

theorem norm_pos (F0 F1 F2 a b c : ℝ) (h : 0 < F0 * a + F1 * b + F2 * c) : 0 < a ^ 2 + b ^ 2 + c ^ 2 := by
  have h1 := cauchy F0 F1 F2 a b c
  have h2 : 0 < (F0 * a + F1 * b + F2 * c) ^ 2 := by positivity
  by_contra hc
  have h3 : a ^ 2 + b ^ 2 + c ^ 2 = 0 := le_antisymm (not_lt.1 hc) (by positivity)
  rw [h3, mul_zero] at h1
  linarith

/-- The height of a cell over one of its faces, and the number of cells within a radius: the distance between two points
whose coordinates along the first vector differ by `u` is at least `|u|` heights. -/
theorem height (F S T : Fin 3 → ℝ) (u v w : ℝ) (hdet : 0 < F 0 * (S 1 * T 2 - T 1 * S 2)
      + F 1 * (S 2 * T 0 - T 2 * S 0) + F 2 * (S 0 * T 1 - T 0 * S 1)) :
    0 < solveCos F S T ∧
      |u| * solveCos F S T ≤ Real.sqrt (∑ d : Fin 3, (u * F d + v * S d + w * T d) ^ 2) := by
  unfold solveCos
  simp only
  have e : u * (F 0 * (S 1 * T 2 - T 1 * S 2) + F 1 * (S 2 * T 0 - T 2 * S 0) + F 2 * (S 0 * T 1 - T 0 * S 1))
      = (u * F 0 + v * S 0 + w * T 0) * (S 1 * T 2 - T 1 * S 2) + (u * F 1 + v * S 1 + w * T 1) * (S 2 * T 0 - T 2 * S 0)
        + (u * F 2 + v * S 2 + w * T 2) * (S 0 * T 1 - T 0 * S 1) := by ring
  have hN := norm_pos _ _ _ _ _ _ hdet
  have hs := Real.sqrt_pos.2 hN
  refine ⟨div_pos hdet hs, ?_⟩
  refine Real.le_sqrt_of_sq_le ?_
  rw [mul_pow, sq_abs, div_pow, Real.sq_sqrt hN.le, ← mul_div_assoc, div_le_iff₀ hN, Fin.sum_univ_three, ← mul_pow, e]
  exact cauchy _ _ _ _ _ _

/-- An integer within a radius of a point within one cell. -/
theorem within (R h f : ℝ) (T : ℤ) (hh : 0 < h) (hf : |f| < 1) (hd : |f + T| * h ≤ R) :
    -(⌊R / h⌋ + 1) ≤ T ∧ T ≤ ⌊R / h⌋ + 1 := by
  have h1 : |f + T| ≤ R / h := (le_div_iff₀ hh).2 hd
  rw [abs_le] at h1
  rw [abs_lt] at hf
  have e : ∀ z : ℤ, (z : ℝ) < R / h + 1 → z ≤ ⌊R / h⌋ + 1 := fun z hz => by
    have : ((z - 1 : ℤ) : ℝ) ≤ R / h := by push_cast; linarith
    have := Int.le_floor.2 this
    omega
  refine ⟨?_, e T (by linarith)⟩
  have := e (-T) (by push_cast; linarith)
  omega

variable {I : Inp}

/-- The position of an atom in the cell. -/
def Inp.Wrapped (I : Inp) (f : ℕ → Fin 3 → ℝ) : Prop :=
  (∀ i < I.natom, ∀ a, 0 ≤ f i a ∧ f i a < 1) ∧ ∀ i < I.natom, ∀ d, I.pos i d = ∑ a, f i a * I.lat a d

theorem covered {f : ℕ → Fin 3 → ℝ} (hw : I.Wrapped f) (hdet : 0 < I.detLattice) (periodic : Fin 3 → Bool) (R : ℝ)
    {i j : ℕ} (hi : i < I.natom) (hj : j < I.natom) (T : Img)
    (h0 : periodic 0 = false → T.1 = 0) (h1 : periodic 1 = false → T.2.1 = 0) (h2 : periodic 2 = false → T.2.2 = 0)
    (hd : I.sep2 i j T ≤ R) : T ∈ box (setCriteria R periodic I.lat) := by
  set g : Fin 3 → ℝ := fun a => f j a - f i a with hg
  have hg1 : ∀ a, |g a| < 1 := fun a => by
    have h1 := hw.1 i hi a
    have h2 := hw.1 j hj a
    rw [abs_lt]
    constructor <;> simp only [hg] <;> linarith
  have hsep : ∀ d, I.sep i j T d = (g 0 + T.1) * I.lat 0 d + (g 1 + T.2.1) * I.lat 1 d + (g 2 + T.2.2) * I.lat 2 d := by
    intro d
    unfold Inp.sep
    rw [hw.2 i hi, hw.2 j hj, Fin.sum_univ_three, Fin.sum_univ_three]
    simp only [hg]
    ring
  have hR : Real.sqrt (I.sep2 i j T) ≤ Real.sqrt R := Real.sqrt_le_sqrt hd
  unfold Inp.detLattice at hdet
  rw [mem_box]
  unfold setCriteria
  have k0 := height (I.lat 0) (I.lat 1) (I.lat 2) (g 0 + T.1) (g 1 + T.2.1) (g 2 + T.2.2) (by linarith)
  have k1 := height (I.lat 1) (I.lat 2) (I.lat 0) (g 1 + T.2.1) (g 2 + T.2.2) (g 0 + T.1) (by linarith)
  have k2 := height (I.lat 2) (I.lat 0) (I.lat 1) (g 2 + T.2.2) (g 0 + T.1) (g 1 + T.2.1) (by linarith)
  have s0 : ∑ d : Fin 3, ((g 0 + T.1) * I.lat 0 d + (g 1 + T.2.1) * I.lat 1 d + (g 2 + T.2.2) * I.lat 2 d) ^ 2
      = I.sep2 i j T := Finset.sum_congr rfl fun d _ => by rw [hsep]
  have s1 : ∑ d : Fin 3, ((g 1 + T.2.1) * I.lat 1 d + (g 2 + T.2.2) * I.lat 2 d + (g 0 + T.1) * I.lat 0 d) ^ 2
      = I.sep2 i j T := Finset.sum_congr rfl fun d _ => by rw [hsep]; ring
  have s2 : ∑ d : Fin 3, ((g 2 + T.2.2) * I.lat 2 d + (g 0 + T.1) * I.lat 0 d + (g 1 + T.2.1) * I.lat 1 d) ^ 2
      = I.sep2 i j T := Finset.sum_congr rfl fun d _ => by rw [hsep]; ring
  rw [s0] at k0
  rw [s1] at k1
  rw [s2] at k2
  have w0 := within (Real.sqrt R) _ (g 0) T.1 k0.1 (hg1 0) (k0.2.trans hR)
  have w1 := within (Real.sqrt R) _ (g 1) T.2.1 k1.1 (hg1 1) (k1.2.trans hR)
  have w2 := within (Real.sqrt R) _ (g 2) T.2.2 k2.1 (hg1 2) (k2.2.trans hR)
  refine ⟨?_, ?_, ?_⟩
  · cases hp : periodic 0
    · simp [h0 hp]
    · simpa using w0
  · cases hp : periodic 1
    · simp [h1 hp]
    · simpa using w1
  · cases hp : periodic 2
    · simp [h2 hp]
    · simpa using w2

theorem criteria_mono (hdet : 0 < I.detLattice) (periodic : Fin 3 → Bool) {R R' : ℝ} (h : R ≤ R') (d : Fin 3) :
    setCriteria R periodic I.lat d ≤ setCriteria R' periodic I.lat d := by
  unfold setCriteria
  unfold Inp.detLattice at hdet
  have k0 := (height (I.lat 0) (I.lat 1) (I.lat 2) 0 0 0 (by linarith)).1
  have k1 := (height (I.lat 1) (I.lat 2) (I.lat 0) 0 0 0 (by linarith)).1
  have k2 := (height (I.lat 2) (I.lat 0) (I.lat 1) 0 0 0 (by linarith)).1
  split
  · have hs := Real.sqrt_le_sqrt h
    have e : ∀ c : ℝ, 0 < c → ⌊Real.sqrt R / c⌋ + 1 ≤ ⌊Real.sqrt R' / c⌋ + 1 := fun c hc => by
      have := Int.floor_le_floor (div_le_div_of_nonneg_right hs hc.le)
      omega
    match d with
    | 0 => exact e _ k0
    | 1 => exact e _ k1
    | 2 => exact e _ k2
  · exact le_refl _

theorem criteria_off (periodic : Fin 3 → Bool) (R : ℝ) (lat : Fin 3 → Fin 3 → ℝ) (d : Fin 3)
    (h : periodic d = false) : setCriteria R periodic lat d = 0 := by
  unfold setCriteria
  rw [h]
  rfl

end Sparc.D3

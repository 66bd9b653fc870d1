import Verif.Tac
import Mathlib.Analysis.Calculus.LineDeriv.Basic
import Mathlib.LinearAlgebra.Matrix.Determinant.Basic
import Verif.Coord.Model

/-! # C16: coordinate conversions round-trip and preserve distances and gradients -/

namespace Sparc.Coord

/-! ## Specification -/

/-- Length of lattice vector `i` (row `i` of the row-major array). -/
noncomputable def len (L : ℕ → ℝ) (i : ℕ) : ℝ :=
  Real.sqrt (L (3 * i) ^ 2 + L (3 * i + 1) ^ 2 + L (3 * i + 2) ^ 2)

/-- Cartesian position of the point with lattice coordinates `(s₀, s₁, s₂)`, measured as
lengths along the unit lattice vectors: `∑ sᵢ aᵢ/|aᵢ|`. -/
noncomputable def position (L : ℕ → ℝ) (p : ℝ × ℝ × ℝ) : ℝ × ℝ × ℝ :=
  let comp (k : ℕ) := p.1 * (L k / len L 0) + p.2.1 * (L (3 + k) / len L 1) + p.2.2 * (L (6 + k) / len L 2)
  (comp 0, comp 1, comp 2)

/-- Euclidean distance of two Cartesian points. -/
noncomputable def euclid (p q : ℝ × ℝ × ℝ) : ℝ :=
  Real.sqrt ((p.1 - q.1) ^ 2 + (p.2.1 - q.2.1) ^ 2 + (p.2.2 - q.2.2) ^ 2)

/-- The lattice matrix (rows are the lattice vectors). -/
def latMat (L : ℕ → ℝ) : Matrix (Fin 3) (Fin 3) ℝ := fun i k => L (3 * i.val + k.val)

/-! ## Helper facts -/

theorem jacbdet_eq (U : ℕ → ℝ) : jacbdet U =
    U 0 * (U 4 * U 8 - U 5 * U 7) - U 1 * (U 3 * U 8 - U 5 * U 6) + U 2 * (U 3 * U 7 - U 4 * U 6) := by
  have r3 : List.range 3 = [0, 1, 2] := rfl
  unfold jacbdet
  simp only [r3, List.foldl_cons, List.foldl_nil]
  have t1 : Int.tdiv (-2) 2 = -1 := rfl
  have t2 : Int.tdiv 2 2 = 1 := rfl
  norm_num [t1, t2]
  ring

theorem transformMat_some {L : ℕ → ℝ} {G : Geom} (h : transformMat L = some G) :
    G.U = latU L ∧ G.det = jacbdet (latU L) ∧ 0 < G.det ∧ G.grad = gradT (latU L) G.det ∧
    G.metric = metricT (latU L) ∧ G.lapc = lapcT G.grad ∧ G.cellTyp = cellTyp1 G.lapc (cellTyp0 L) := by
  unfold transformMat at h
  dsimp only at h
  split at h
  · cases h
  · rename_i hd
    cases h
    exact ⟨rfl, rfl, not_le.mp hd, rfl, rfl, rfl, rfl⟩

theorem toCart_position {L : ℕ → ℝ} {G : Geom} (h : transformMat L = some G) (p : ℝ × ℝ × ℝ) :
    toCart G p = position L p := by
  obtain ⟨hU, -⟩ := transformMat_some h
  unfold toCart position
  simp only [hU, latU, len]
  norm_num
  refine ⟨by ring, by ring, by ring⟩

theorem grad_inv {L : ℕ → ℝ} {G : Geom} (h : transformMat L = some G) :
    (G.grad 0 * G.U 0 + G.grad 1 * G.U 1 + G.grad 2 * G.U 2 = 1) ∧
    (G.grad 0 * G.U 3 + G.grad 1 * G.U 4 + G.grad 2 * G.U 5 = 0) ∧
    (G.grad 0 * G.U 6 + G.grad 1 * G.U 7 + G.grad 2 * G.U 8 = 0) ∧
    (G.grad 3 * G.U 0 + G.grad 4 * G.U 1 + G.grad 5 * G.U 2 = 0) ∧
    (G.grad 3 * G.U 3 + G.grad 4 * G.U 4 + G.grad 5 * G.U 5 = 1) ∧
    (G.grad 3 * G.U 6 + G.grad 4 * G.U 7 + G.grad 5 * G.U 8 = 0) ∧
    (G.grad 6 * G.U 0 + G.grad 7 * G.U 1 + G.grad 8 * G.U 2 = 0) ∧
    (G.grad 6 * G.U 3 + G.grad 7 * G.U 4 + G.grad 8 * G.U 5 = 0) ∧
    (G.grad 6 * G.U 6 + G.grad 7 * G.U 7 + G.grad 8 * G.U 8 = 1) := by
  obtain ⟨hU, hd, hpos, hg, -⟩ := transformMat_some h
  rw [hg, hU]
  rw [jacbdet_eq] at hd
  have hne : G.det ≠ 0 := ne_of_gt hpos
  generalize latU L = U at *
  generalize G.det = d at *
  simp only [gradT]
  norm_num
  refine ⟨?_, ?_, ?_, ?_, ?_, ?_, ?_, ?_, ?_⟩ <;> field_simp <;> (first | linear_combination -hd | ring1)

theorem grad_inv' {L : ℕ → ℝ} {G : Geom} (h : transformMat L = some G) :
    (G.U 0 * G.grad 0 + G.U 3 * G.grad 3 + G.U 6 * G.grad 6 = 1) ∧
    (G.U 0 * G.grad 1 + G.U 3 * G.grad 4 + G.U 6 * G.grad 7 = 0) ∧
    (G.U 0 * G.grad 2 + G.U 3 * G.grad 5 + G.U 6 * G.grad 8 = 0) ∧
    (G.U 1 * G.grad 0 + G.U 4 * G.grad 3 + G.U 7 * G.grad 6 = 0) ∧
    (G.U 1 * G.grad 1 + G.U 4 * G.grad 4 + G.U 7 * G.grad 7 = 1) ∧
    (G.U 1 * G.grad 2 + G.U 4 * G.grad 5 + G.U 7 * G.grad 8 = 0) ∧
    (G.U 2 * G.grad 0 + G.U 5 * G.grad 3 + G.U 8 * G.grad 6 = 0) ∧
    (G.U 2 * G.grad 1 + G.U 5 * G.grad 4 + G.U 8 * G.grad 7 = 0) ∧
    (G.U 2 * G.grad 2 + G.U 5 * G.grad 5 + G.U 8 * G.grad 8 = 1) := by
  obtain ⟨hU, hd, hpos, hg, -⟩ := transformMat_some h
  rw [hg, hU]
  rw [jacbdet_eq] at hd
  have hne : G.det ≠ 0 := ne_of_gt hpos
  generalize latU L = U at *
  generalize G.det = d at *
  simp only [gradT]
  norm_num
  refine ⟨?_, ?_, ?_, ?_, ?_, ?_, ?_, ?_, ?_⟩ <;> field_simp <;> (first | linear_combination -hd | ring1)

/-! ## Theorems -/

/-- **C16, acceptance.** The program accepts exactly the right-handed, non-degenerate
lattices: those with positive determinant. -/
theorem accepted_iff (L : ℕ → ℝ) : (transformMat L).isSome ↔ 0 < (latMat L).det := by
  have h1 : (transformMat L).isSome ↔ 0 < jacbdet (latU L) := by
    unfold transformMat
    dsimp only
    split <;> simp_all
  rw [h1, jacbdet_eq, Matrix.det_fin_three]
  simp only [latU, latMat]
  norm_num
  have key : ∀ m0 m1 m2 D : ℝ, 0 ≤ m0 → 0 ≤ m1 → 0 ≤ m2 → (m0 = 0 → D = 0) → (m1 = 0 → D = 0) → (m2 = 0 → D = 0) →
      (0 < D / (m0 * m1 * m2) ↔ 0 < D) := by
    intro m0 m1 m2 D h0 h1 h2 z0 z1 z2
    constructor
    · intro h
      by_contra hD
      exact absurd (div_nonpos_of_nonpos_of_nonneg (not_lt.mp hD) (by positivity)) (not_le.mpr h)
    · intro h
      have n0 : m0 ≠ 0 := fun e => by rw [z0 e] at h; exact lt_irrefl _ h
      have n1 : m1 ≠ 0 := fun e => by rw [z1 e] at h; exact lt_irrefl _ h
      have n2 : m2 ≠ 0 := fun e => by rw [z2 e] at h; exact lt_irrefl _ h
      positivity
  have hz : ∀ a b c : ℝ, Real.sqrt (a ^ 2 + b ^ 2 + c ^ 2) = 0 → a = 0 ∧ b = 0 ∧ c = 0 := by
    intro a b c h
    rw [Real.sqrt_eq_zero (by positivity)] at h
    refine ⟨?_, ?_, ?_⟩ <;> nlinarith [sq_nonneg a, sq_nonneg b, sq_nonneg c]
  have := key (Real.sqrt (L 0 ^ 2 + L 1 ^ 2 + L 2 ^ 2)) (Real.sqrt (L 3 ^ 2 + L 4 ^ 2 + L 5 ^ 2))
    (Real.sqrt (L 6 ^ 2 + L 7 ^ 2 + L 8 ^ 2))
    (L 0 * (L 4 * L 8 - L 5 * L 7) - L 1 * (L 3 * L 8 - L 5 * L 6) + L 2 * (L 3 * L 7 - L 4 * L 6))
    (Real.sqrt_nonneg _) (Real.sqrt_nonneg _) (Real.sqrt_nonneg _)
    (fun e => by obtain ⟨a, b, c⟩ := hz _ _ _ e; rw [a, b, c]; ring)
    (fun e => by obtain ⟨a, b, c⟩ := hz _ _ _ e; rw [a, b, c]; ring)
    (fun e => by obtain ⟨a, b, c⟩ := hz _ _ _ e; rw [a, b, c]; ring)
  generalize Real.sqrt (L 0 ^ 2 + L 1 ^ 2 + L 2 ^ 2) = m0 at *
  generalize Real.sqrt (L 3 ^ 2 + L 4 ^ 2 + L 5 ^ 2) = m1 at *
  generalize Real.sqrt (L 6 ^ 2 + L 7 ^ 2 + L 8 ^ 2) = m2 at *
  have e : L 0 / m0 * (L 4 / m1 * (L 8 / m2) - L 5 / m1 * (L 7 / m2)) -
        L 1 / m0 * (L 3 / m1 * (L 8 / m2) - L 5 / m1 * (L 6 / m2)) +
      L 2 / m0 * (L 3 / m1 * (L 7 / m2) - L 4 / m1 * (L 6 / m2)) =
      (L 0 * (L 4 * L 8 - L 5 * L 7) - L 1 * (L 3 * L 8 - L 5 * L 6) + L 2 * (L 3 * L 7 - L 4 * L 6)) / (m0 * m1 * m2) := by
    simp only [div_eq_mul_inv, mul_inv]; ring
  have e2 : L 0 * L 4 * L 8 - L 0 * L 5 * L 7 - L 1 * L 3 * L 8 + L 1 * L 5 * L 6 + L 2 * L 3 * L 7 - L 2 * L 4 * L 6 =
    (L 0 * (L 4 * L 8 - L 5 * L 7) - L 1 * (L 3 * L 8 - L 5 * L 6) + L 2 * (L 3 * L 7 - L 4 * L 6)) := by ring
  rw [e, this, ← e2, sub_pos]

/-- **C16, round trip.** For every accepted lattice, lattice → Cartesian is the documented
position, and the two conversions are mutually inverse. -/
theorem coord_round_trip (L : ℕ → ℝ) (G : Geom) (h : transformMat L = some G) (p : ℝ × ℝ × ℝ) :
    toCart G p = position L p ∧ ofCart G (toCart G p) = p ∧ toCart G (ofCart G p) = p := by
  refine ⟨toCart_position h p, ?_, ?_⟩
  · obtain ⟨a1, a2, a3, a4, a5, a6, a7, a8, a9⟩ := grad_inv h
    obtain ⟨x, y, z⟩ := p
    simp only [ofCart, toCart, Prod.mk.injEq]
    refine ⟨?_, ?_, ?_⟩
    · linear_combination x * a1 + y * a2 + z * a3
    · linear_combination x * a4 + y * a5 + z * a6
    · linear_combination x * a7 + y * a8 + z * a9
  · obtain ⟨a1, a2, a3, a4, a5, a6, a7, a8, a9⟩ := grad_inv' h
    obtain ⟨x, y, z⟩ := p
    simp only [ofCart, toCart, Prod.mk.injEq]
    refine ⟨?_, ?_, ?_⟩
    · linear_combination x * a1 + y * a2 + z * a3
    · linear_combination x * a4 + y * a5 + z * a6
    · linear_combination x * a7 + y * a8 + z * a9

/-- **C16, distances (oblique cells).** Whenever the cell type decided by the program is in
the non-orthogonal range, the computed distance is the Euclidean distance of the Cartesian
positions. -/
theorem distance_oblique_partial (L : ℕ → ℝ) (G : Geom) (h : transformMat L = some G)
    (ht : 10 < G.cellTyp) (p q : ℝ × ℝ × ℝ) :
    calcDist G p q = some (euclid (position L p) (position L q)) := by
  obtain ⟨hU, -, -, -, hm, -, hc⟩ := transformMat_some h
  have hlt : G.cellTyp < 20 := by
    rw [hc]; unfold cellTyp1 cellTyp0
    dsimp only
    repeat' split
    all_goals omega
  unfold calcDist
  rw [if_neg (by omega), if_pos ⟨ht, hlt⟩]
  dsimp only
  rw [← toCart_position h, ← toCart_position h]
  unfold euclid toCart
  dsimp only
  congr 2
  rw [hm, hU]
  have r3 : List.range 3 = [0, 1, 2] := rfl
  simp only [metricT, r3, List.foldl_cons, List.foldl_nil]
  norm_num
  ring

/-- **C16, distances (orthogonal cells).** In the cell type reserved for axis-aligned cells
the computed distance is the Euclidean distance of the positions, provided the off-diagonal
lattice entries are zero (the program only checks that they are below its tolerance). -/
theorem distance_orthogonal_partial (L : ℕ → ℝ) (G : Geom) (h : transformMat L = some G)
    (ht : G.cellTyp = 0) (h1 : L 1 = 0) (h2 : L 2 = 0) (h3 : L 3 = 0) (h5 : L 5 = 0) (h6 : L 6 = 0)
    (h7 : L 7 = 0) (p q : ℝ × ℝ × ℝ) :
    calcDist G p q = some (euclid (position L p) (position L q)) := by
  have hpos : 0 < (latMat L).det := (accepted_iff L).mp (by rw [h]; rfl)
  rw [Matrix.det_fin_three] at hpos
  simp only [latMat] at hpos
  norm_num [h1, h2, h3, h5, h6, h7] at hpos
  have n0 : L 0 ≠ 0 := fun e => by rw [e] at hpos; norm_num at hpos
  have n4 : L 4 ≠ 0 := fun e => by rw [e] at hpos; norm_num at hpos
  have n8 : L 8 ≠ 0 := fun e => by rw [e] at hpos; norm_num at hpos
  have sq1 : ∀ x : ℝ, x ≠ 0 → (x / |x|) ^ 2 = 1 := by
    intro x hx
    rw [div_pow, sq_abs, div_self (pow_ne_zero 2 hx)]
  unfold calcDist
  rw [if_pos ht]
  unfold euclid position len
  dsimp only
  norm_num [h1, h2, h3, h5, h6, h7, Real.sqrt_sq_eq_abs]
  congr 1
  have e0 := sq1 _ n0
  have e4 := sq1 _ n4
  have e8 := sq1 _ n8
  linear_combination (-(p.1 - q.1) ^ 2) * e0 + (-(p.2.1 - q.2.1) ^ 2) * e4 + (-(p.2.2 - q.2.2) ^ 2) * e8

/-- **C16, gradients.** If `f` is a differentiable function of the Cartesian position, the
vector of its derivatives along the lattice coordinates is turned into its Cartesian
gradient. -/
theorem gradient_consistent (L : ℕ → ℝ) (G : Geom) (h : transformMat L = some G)
    (f : ℝ × ℝ × ℝ → ℝ) (p : ℝ × ℝ × ℝ) (hf : DifferentiableAt ℝ f (position L p)) :
    gradToCart G (lineDeriv ℝ (fun r => f (position L r)) p (1, 0, 0),
                  lineDeriv ℝ (fun r => f (position L r)) p (0, 1, 0),
                  lineDeriv ℝ (fun r => f (position L r)) p (0, 0, 1)) =
      (lineDeriv ℝ f (position L p) (1, 0, 0), lineDeriv ℝ f (position L p) (0, 1, 0),
       lineDeriv ℝ f (position L p) (0, 0, 1)) := by
  have hline : ∀ v : ℝ × ℝ × ℝ, lineDeriv ℝ (fun r => f (position L r)) p v =
      fderiv ℝ f (position L p) (toCart G v) := by
    intro v
    have hp : ∀ t : ℝ, position L (p + t • v) = position L p + t • toCart G v := by
      intro t
      rw [← toCart_position h, ← toCart_position h]
      obtain ⟨x, y, z⟩ := p
      obtain ⟨a, b, c⟩ := v
      simp only [toCart, Prod.smul_mk, Prod.mk_add_mk, smul_eq_mul, Prod.mk.injEq]
      refine ⟨by ring, by ring, by ring⟩
    have e : lineDeriv ℝ (fun r => f (position L r)) p v = lineDeriv ℝ f (position L p) (toCart G v) := by
      unfold lineDeriv
      simp only [hp]
    rw [e, hf.lineDeriv_eq_fderiv]
  rw [hline, hline, hline, hf.lineDeriv_eq_fderiv, hf.lineDeriv_eq_fderiv, hf.lineDeriv_eq_fderiv]
  have hdec : ∀ v : ℝ × ℝ × ℝ, fderiv ℝ f (position L p) v =
      v.1 * fderiv ℝ f (position L p) (1, 0, 0) + v.2.1 * fderiv ℝ f (position L p) (0, 1, 0) +
      v.2.2 * fderiv ℝ f (position L p) (0, 0, 1) := by
    intro v
    conv_lhs => rw [show v = v.1 • ((1, 0, 0) : ℝ × ℝ × ℝ) + v.2.1 • ((0, 1, 0) : ℝ × ℝ × ℝ) + v.2.2 • ((0, 0, 1) : ℝ × ℝ × ℝ) by
      obtain ⟨a, b, c⟩ := v; simp]
    simp only [map_add, map_smul, smul_eq_mul]
  rw [hdec (toCart G (1, 0, 0)), hdec (toCart G (0, 1, 0)), hdec (toCart G (0, 0, 1))]
  generalize fderiv ℝ f (position L p) (1, 0, 0) = g0
  generalize fderiv ℝ f (position L p) (0, 1, 0) = g1
  generalize fderiv ℝ f (position L p) (0, 0, 1) = g2
  obtain ⟨a1, a2, a3, a4, a5, a6, a7, a8, a9⟩ := grad_inv' h
  simp only [toCart, gradToCart, Prod.mk.injEq, mul_one, mul_zero, add_zero, zero_add]
  refine ⟨?_, ?_, ?_⟩
  · linear_combination g0 * a1 + g1 * a4 + g2 * a7
  · linear_combination g0 * a2 + g1 * a5 + g2 * a8
  · linear_combination g0 * a3 + g1 * a6 + g2 * a9

/-- **C16, Laplacian.** `lapcT` holds the coefficients of the Laplacian in lattice coordinates:
for every matrix `H` of second derivatives in Cartesian coordinates, whose entries along the
lattice directions are `Σ U_ik U_jl H_kl`, the sum `Σ lapcT_ij` times those entries is the trace
of `H`. -/
theorem laplacian_consistent (L : ℕ → ℝ) (G : Geom) (h : transformMat L = some G)
    (H : Fin 3 → Fin 3 → ℝ) :
    ∑ i : Fin 3, ∑ j : Fin 3, G.lapc (3 * i + j) *
      (∑ k : Fin 3, ∑ l : Fin 3, G.U (3 * i + k) * G.U (3 * j + l) * H k l) =
    H 0 0 + H 1 1 + H 2 2 := by
  obtain ⟨a1, a2, a3, a4, a5, a6, a7, a8, a9⟩ := grad_inv' h
  obtain ⟨-, -, -, -, -, hl, -⟩ := transformMat_some h
  have r3 : List.range 3 = [0, 1, 2] := rfl
  have e : ∀ i j : Fin 3, G.lapc (3 * i + j) =
      ∑ m : Fin 3, G.grad (3 * i + m) * G.grad (3 * j + m) := by
    intro i j
    have h1 : (3 * (i : ℕ) + j) / 3 = i := by omega
    have h2 : (3 * (i : ℕ) + j) % 3 = j := by omega
    rw [hl]
    simp only [lapcT, r3, List.foldl_cons, List.foldl_nil, h1, h2, Fin.sum_univ_three]
    simp
  have d : ∀ k m : Fin 3, ∑ i : Fin 3, G.U (3 * i + k) * G.grad (3 * i + m) =
      if k = m then 1 else 0 := by
    intro k m
    rw [Fin.sum_univ_three]
    fin_cases k <;> fin_cases m <;> simp <;> assumption
  have step : ∑ i : Fin 3, ∑ j : Fin 3, G.lapc (3 * i + j) *
      (∑ k : Fin 3, ∑ l : Fin 3, G.U (3 * i + k) * G.U (3 * j + l) * H k l) =
      ∑ m : Fin 3, ∑ k : Fin 3, ∑ l : Fin 3, (∑ i : Fin 3, G.U (3 * i + k) * G.grad (3 * i + m)) *
        (∑ j : Fin 3, G.U (3 * j + l) * G.grad (3 * j + m)) * H k l := by
    simp only [e, Fin.sum_univ_three]
    ring
  rw [step]
  simp only [d]
  simp [Fin.sum_univ_three]

/-- **C16, cell type.** The cell type says which of the mixed coefficients of the Laplacian
are kept: every coefficient that is not zero up to the tolerance is among those of the type, and
no type but 17 keeps one that is. -/
theorem cellType_couplings (L : ℕ → ℝ) (G : Geom) (h : transformMat L = some G) :
    (tempTol < |G.lapc 1| → |G.lapc 2| ≠ tempTol → |G.lapc 5| ≠ tempTol →
      G.cellTyp ∈ [11, 14, 16, 17]) ∧
    (tempTol < |G.lapc 2| → |G.lapc 1| ≠ tempTol → |G.lapc 5| ≠ tempTol →
      G.cellTyp ∈ [12, 14, 15, 17]) ∧
    (tempTol < |G.lapc 5| → |G.lapc 1| ≠ tempTol → |G.lapc 2| ≠ tempTol →
      G.cellTyp ∈ [13, 15, 16, 17]) ∧
    (G.cellTyp ∈ [11, 14, 16] → tempTol < |G.lapc 1|) ∧
    (G.cellTyp ∈ [12, 14, 15] → tempTol < |G.lapc 2|) ∧
    (G.cellTyp ∈ [13, 15, 16] → tempTol < |G.lapc 5|) := by
  obtain ⟨-, -, -, -, -, -, hc⟩ := transformMat_some h
  have h0 : cellTyp0 L = 0 ∨ cellTyp0 L = 1 ∨ cellTyp0 L = 17 := by
    unfold cellTyp0
    dsimp only
    split_ifs <;> simp
  rw [hc]
  unfold cellTyp1
  generalize |G.lapc 1| = x
  generalize |G.lapc 2| = y
  generalize |G.lapc 5| = z
  generalize cellTyp0 L = t at h0
  generalize tempTol = e
  rcases lt_trichotomy x e with hx | hx | hx <;> rcases lt_trichotomy y e with hy | hy | hy <;>
    rcases lt_trichotomy z e with hz | hz | hz <;>
    (simp [hx, hy, hz, hx.not_gt, hy.not_gt, hz.not_gt] <;> omega)

/-! ## Concrete cases and the gap in the cell-type decision -/

/-- A monoclinic cell: rows `(3,4,0)`, `(0,5,0)`, `(0,0,2)`. -/
def exL : ℕ → ℝ := fun n => if n = 0 then 3 else if n = 1 then 4 else if n = 4 then 5 else if n = 8 then 2 else 0

/-- The hypotheses of the theorems above are met by `exL`: it is accepted and its cell type
is in the oblique range. -/
theorem exL_oblique : ∃ G, transformMat exL = some G ∧ 10 < G.cellTyp := by
  have hs : (transformMat exL).isSome := by
    rw [accepted_iff, Matrix.det_fin_three]; norm_num [latMat, exL]
  obtain ⟨G, hG⟩ := Option.isSome_iff_exists.mp hs
  refine ⟨G, hG, ?_⟩
  obtain ⟨hU, hd, hpos, hg, hm, hl, hc⟩ := transformMat_some hG
  have s25 : Real.sqrt 25 = 5 := by
    rw [show (25 : ℝ) = 5 ^ 2 by norm_num]; exact Real.sqrt_sq (by norm_num)
  have s2 : Real.sqrt 4 = 2 := by
    rw [show (4 : ℝ) = 2 ^ 2 by norm_num]; exact Real.sqrt_sq (by norm_num)
  have u : latU exL = fun n => if n = 0 then 3 / 5 else if n = 1 then 4 / 5 else if n = 4 then 1 else if n = 8 then 1 else 0 := by
    funext n
    rcases Nat.lt_or_ge n 9 with h | h
    · interval_cases n <;> norm_num [latU, exL] <;> norm_num [s25, s2]
    · have : ¬ n = 0 ∧ ¬ n = 1 ∧ ¬ n = 4 ∧ ¬ n = 8 := by omega
      simp [latU, exL, this]
  have hd' : G.det = 3 / 5 := by rw [hd, jacbdet_eq, u]; norm_num
  have r3 : List.range 3 = [0, 1, 2] := rfl
  have l1 : G.lapc 1 = -20 / 9 := by
    rw [hl, hg, u, hd']; norm_num [lapcT, gradT, r3]
  have l2 : G.lapc 2 = 0 := by
    rw [hl, hg, u, hd']; norm_num [lapcT, gradT, r3]
  have l5 : G.lapc 5 = 0 := by
    rw [hl, hg, u, hd']; norm_num [lapcT, gradT, r3]
  rw [hc]
  unfold cellTyp1
  rw [if_pos]
  · norm_num
  · rw [l1, l2, l5]; norm_num [tempTol]

/-- A slightly sheared cube of edge 100: the two tolerance tests of the program disagree. -/
noncomputable def gapL : ℕ → ℝ := fun n =>
  if n = 0 then 100 else if n = 3 then 100 * (2 / 10 ^ 14) else if n = 4 then 100 * (1 - 1 / 10 ^ 28)
  else if n = 8 then 100 else 0

/-- **Finding.** Not every accepted lattice gets a usable cell type: for `gapL` the first
test (absolute dot products) says "not orthogonal", the second one (`lapcT`) finds no
coupling, the type stays 1, and `CalculateDistance` then never writes its result. -/
theorem cellType_gap : ∃ G, transformMat gapL = some G ∧ G.cellTyp = 1 ∧
    ∀ p q, calcDist G p q = none := by
  have hs : (transformMat gapL).isSome := by
    rw [accepted_iff, Matrix.det_fin_three]; norm_num [latMat, gapL]
  obtain ⟨G, hG⟩ := Option.isSome_iff_exists.mp hs
  refine ⟨G, hG, ?_⟩
  obtain ⟨hU, hd, hpos, hg, hm, hl, hc⟩ := transformMat_some hG
  have s100 : Real.sqrt (100 ^ 2) = 100 := Real.sqrt_sq (by norm_num)
  have sm : Real.sqrt ((100 * (2 / 10 ^ 14)) ^ 2 + (100 * (1 - 1 / 10 ^ 28)) ^ 2) = 100 * (1 + 1 / 10 ^ 28) := by
    rw [show ((100 : ℝ) * (2 / 10 ^ 14)) ^ 2 + (100 * (1 - 1 / 10 ^ 28)) ^ 2 = (100 * (1 + 1 / 10 ^ 28)) ^ 2 by norm_num]
    exact Real.sqrt_sq (by norm_num)
  have u : latU gapL = fun n => if n = 0 then 1 else if n = 3 then (2 / 10 ^ 14) / (1 + 1 / 10 ^ 28)
      else if n = 4 then (1 - 1 / 10 ^ 28) / (1 + 1 / 10 ^ 28) else if n = 8 then 1 else 0 := by
    funext n
    rcases Nat.lt_or_ge n 9 with h | h
    · interval_cases n <;> simp [latU, gapL] <;> first | rfl | (simp only [← one_div]; rw [sm]; norm_num)
    · have : ¬ n = 0 ∧ ¬ n = 3 ∧ ¬ n = 4 ∧ ¬ n = 8 := by omega
      simp [latU, gapL, this]
  have hd' : G.det = (1 - 1 / 10 ^ 28) / (1 + 1 / 10 ^ 28) := by rw [hd, jacbdet_eq, u]; norm_num
  have r3 : List.range 3 = [0, 1, 2] := rfl
  have l1 : |G.lapc 1| < tempTol := by
    rw [hl, hg, u, hd']; norm_num [lapcT, gradT, r3, tempTol, abs_lt]
  have l2 : |G.lapc 2| < tempTol := by
    rw [hl, hg, u, hd']; norm_num [lapcT, gradT, r3, tempTol]
  have l5 : |G.lapc 5| < tempTol := by
    rw [hl, hg, u, hd']; norm_num [lapcT, gradT, r3, tempTol]
  have h0 : cellTyp0 gapL = 1 := by
    unfold cellTyp0
    dsimp only
    rw [if_pos]
    left
    norm_num [gapL, tempTol]
  have h1 : G.cellTyp = 1 := by
    rw [hc, h0]
    unfold cellTyp1
    simp only [not_lt.mpr (le_of_lt l1), not_lt.mpr (le_of_lt l2), not_lt.mpr (le_of_lt l5), false_and,
      and_false, if_false]
  refine ⟨h1, fun p q => ?_⟩
  unfold calcDist
  rw [h1]; norm_num

end Sparc.Coord

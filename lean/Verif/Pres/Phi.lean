import Verif.Pres.Lemmas

/-! # Stress and pressure: exchange-correlation and electrostatic terms -/

namespace Sparc.Pres

open Loop Matrix

/-! ### Differences on a box -/

/-- The entry of an array for the node `(i, j, k)` of a box with `nx` by `ny` planes. -/
def boxed (nx ny : ℤ) (m : ℤ → ℝ) (i j k : ℤ) : ℝ := m (k * nx * ny + j * nx + i)

/-- The central differences of a function of the node, with the first-derivative coefficients. -/
noncomputable def lgrad (E : Env) (F : ℤ → ℤ → ℤ → ℝ) (i j k : ℤ) : ℝ × ℝ × ℝ :=
  (∑ p ∈ Finset.Icc 1 E.FDn, (F (i + p) j k - F (i - p) j k) * E.D1x p,
   ∑ p ∈ Finset.Icc 1 E.FDn, (F i (j + p) k - F i (j - p) k) * E.D1y p,
   ∑ p ∈ Finset.Icc 1 E.FDn, (F i j (k + p) - F i j (k - p)) * E.D1z p)

theorem d1_eq (n : ℕ) (c : ℕ → ℝ) (m : ℤ → ℝ) (q s : ℤ) :
    d1 n c m q s = ∑ p ∈ Finset.Icc 1 n, (m (q + p * s) - m (q - p * s)) * c p := by
  unfold d1
  induction n with
  | zero => simp
  | succ n ih =>
    rw [List.range_succ, List.foldl_append, ih, Finset.sum_Icc_succ_top (by omega)]
    rfl

theorem grad_eq (E : Env) (m : ℤ → ℝ) (nx ny i j k : ℤ) :
    grad E m nx ny (k * nx * ny + j * nx + i) = lgrad E (boxed nx ny m) i j k := by
  unfold grad lgrad boxed
  rw [d1_eq, d1_eq, d1_eq]
  simp only [Prod.mk.injEq]
  refine ⟨Finset.sum_congr rfl fun p _ => ?_, Finset.sum_congr rfl fun p _ => ?_,
    Finset.sum_congr rfl fun p _ => ?_⟩
  · congr 3 <;> ring
  · congr 3 <;> ring
  · congr 3 <;> ring

theorem drhoc_at (E : Env) (I : Img) (t : ℕ × ℕ × ℕ) (ht : t ∈ nodes I.R) :
    drhoc E I ((t.2.2 + E.FDn) * ((ext I.R).1 + 2 * E.FDn) * ((ext I.R).2.1 + 2 * E.FDn)
      + (t.2.1 + E.FDn) * ((ext I.R).1 + 2 * E.FDn) + (t.1 + E.FDn))
    = lgrad E (boxed ((ext I.R).1 + 4 * E.FDn) ((ext I.R).2.1 + 4 * E.FDn) I.rhocJ)
        (t.1 + 2 * E.FDn) (t.2.1 + 2 * E.FDn) (t.2.2 + 2 * E.FDn) := by
  obtain ⟨i, j, k⟩ := t
  simp only [nodes, mem_box] at ht
  obtain ⟨hi, hj, hk⟩ := ht
  set X := (ext I.R).1
  set Y := (ext I.R).2.1
  set Z := (ext I.R).2.2
  have hX : ((X + 2 * E.FDn : ℤ).toNat : ℤ) = X + 2 * E.FDn := Int.toNat_of_nonneg (by omega)
  have hY : ((Y + 2 * E.FDn : ℤ).toNat : ℤ) = Y + 2 * E.FDn := Int.toNat_of_nonneg (by omega)
  have key := fill_at (l := box (X + 2 * E.FDn).toNat (Y + 2 * E.FDn).toNat (Z + 2 * E.FDn).toNat)
    (idx := fun t : ℕ × ℕ × ℕ => (t.2.2 : ℤ) * (X + 2 * E.FDn) * (Y + 2 * E.FDn)
      + t.2.1 * (X + 2 * E.FDn) + t.1)
    (val := fun t => grad E I.rhocJ (X + 2 * E.FDn + 2 * E.FDn) (Y + 2 * E.FDn + 2 * E.FDn)
      ((t.2.2 + E.FDn) * (X + 2 * E.FDn + 2 * E.FDn) * (Y + 2 * E.FDn + 2 * E.FDn)
        + (t.2.1 + E.FDn) * (X + 2 * E.FDn + 2 * E.FDn) + (t.1 + E.FDn)))
    (m := fun _ => (0, 0, 0)) (t := (i + E.FDn, j + E.FDn, k + E.FDn))
    (by rw [mem_box]; refine ⟨?_, ?_, ?_⟩ <;> dsimp only <;> omega)
    (by
      rintro ⟨a, b, c⟩ hs he
      rw [mem_box] at hs
      obtain ⟨h1, h2, -⟩ := hs
      dsimp only at h1 h2 he
      rw [← hX, ← hY] at he
      have he' : a + b * (X + 2 * E.FDn).toNat + c * ((X + 2 * E.FDn).toNat * (Y + 2 * E.FDn).toNat)
          = (i + E.FDn) + (j + E.FDn) * (X + 2 * E.FDn).toNat
            + (k + E.FDn) * ((X + 2 * E.FDn).toNat * (Y + 2 * E.FDn).toNat) := by
        zify
        push_cast at he
        linear_combination he
      obtain ⟨rfl, rfl, rfl⟩ := flat3_inj h1 (by omega) h2 (by omega) he'
      rfl)
  have e1 : (X + 2 * E.FDn + 2 * E.FDn : ℤ) = X + 4 * E.FDn := by ring
  have e2 : (Y + 2 * E.FDn + 2 * E.FDn : ℤ) = Y + 4 * E.FDn := by ring
  have key' : drhoc E I (((k + E.FDn : ℕ) : ℤ) * (X + 2 * E.FDn) * (Y + 2 * E.FDn)
      + ((j + E.FDn : ℕ) : ℤ) * (X + 2 * E.FDn) + ((i + E.FDn : ℕ) : ℤ))
      = grad E I.rhocJ (X + 2 * E.FDn + 2 * E.FDn) (Y + 2 * E.FDn + 2 * E.FDn)
        ((((k + E.FDn : ℕ) : ℤ) + E.FDn) * (X + 2 * E.FDn + 2 * E.FDn)
            * (Y + 2 * E.FDn + 2 * E.FDn)
          + (((j + E.FDn : ℕ) : ℤ) + E.FDn) * (X + 2 * E.FDn + 2 * E.FDn)
          + (((i + E.FDn : ℕ) : ℤ) + E.FDn)) := key
  rw [grad_eq, e1, e2] at key'
  push_cast at key'
  rw [show ((k : ℤ) + E.FDn + E.FDn) = k + 2 * E.FDn by ring,
    show ((j : ℤ) + E.FDn + E.FDn) = j + 2 * E.FDn by ring,
    show ((i : ℤ) + E.FDn + E.FDn) = i + 2 * E.FDn by ring] at key'
  exact key'

/-! ### Components -/

theorem outer_ix (a b : Fin 3 → ℝ) {i j : Fin 3} (h : i ≤ j) :
    (![a 0 * b 0, a 0 * b 1, a 0 * b 2, a 1 * b 1, a 1 * b 2, a 2 * b 2] : Ten) (ix i j)
      = a i * b j := by
  fin_cases i <;> fin_cases j <;> first | rfl | exact absurd h (by decide)

theorem outer_w_ix (a b : Fin 3 → ℝ) (w : ℝ) {i j : Fin 3} (h : i ≤ j) :
    (![a 0 * b 0 * w, a 0 * b 1 * w, a 0 * b 2 * w, a 1 * b 1 * w, a 1 * b 2 * w,
      a 2 * b 2 * w] : Ten) (ix i j) = a i * b j * w := by
  fin_cases i <;> fin_cases j <;> first | rfl | exact absurd h (by decide)

theorem diag_ix (e : ℝ) {i j : Fin 3} (h : i ≤ j) :
    (![e, 0, 0, e, 0, e] : Ten) (ix i j) = if i = j then e else 0 := by
  fin_cases i <;> fin_cases j <;> first | rfl | exact absurd h (by decide)

variable {L : ℕ → ℝ} {E : Env}

/-! ### Exchange and correlation -/

theorem gradS_at (h : Coord.transformMat L = some E.G) (h0 : E.G.cellTyp = 0 → unitMat L = 1)
    (D : Dom) {i j : Fin 3} (hij : i ≤ j) :
    gradS E D (ix i j) = E.dV * ((List.range (D.ncol * D.nd)).map fun n =>
      cgrad L (D.Dr n) i * cgrad L (D.Dr n) j * D.Dxc n).sum := by
  unfold gradS
  rw [Pi.smul_apply, smul_eq_mul, foldl_add, zero_add, sum_at]
  congr 2
  refine List.map_congr_left fun n _ => ?_
  rw [← vec_ite_grad h h0]
  simp only [fst_eq, snd_eq, trd_eq]
  exact outer_w_ix _ _ _ hij

theorem gradP_eq (h : Coord.transformMat L = some E.G) (h0 : E.G.cellTyp = 0 → unitMat L = 1)
    (D : Dom) : gradP E D = tr (gradS E D) := by
  have e : tr (gradS E D) = E.dV * ((List.range (D.ncol * D.nd)).map fun n =>
      cgrad L (D.Dr n) ⬝ᵥ cgrad L (D.Dr n) * D.Dxc n).sum := by
    have a0 := gradS_at h h0 D (i := 0) (j := 0) le_rfl
    have a1 := gradS_at h h0 D (i := 1) (j := 1) le_rfl
    have a2 := gradS_at h h0 D (i := 2) (j := 2) le_rfl
    rw [tr_apply]
    change gradS E D 0 = _ at a0
    change gradS E D 3 = _ at a1
    change gradS E D 5 = _ at a2
    rw [a0, a1, a2, ← mul_add, ← mul_add, ← List.sum_map_add, ← List.sum_map_add]
    congr 2
    refine List.map_congr_left fun n _ => ?_
    simp only [dotProduct, Fin.sum_univ_three]
    ring
  rw [e]
  unfold gradP
  dsimp only
  split
  · rename_i hc
    rw [foldl_add, zero_add, mul_comm]
    congr 2
    refine List.map_congr_left fun n _ => ?_
    rw [cgrad_one (h0 hc)]
    simp [vec, dotProduct, Fin.sum_univ_three]
  · rw [foldl_add, zero_add, mul_comm]
    congr 2
    refine List.map_congr_left fun n _ => ?_
    rw [cgrad_sq h]
    ring

/-- Cartesian gradient of the core charge of an image at a node. -/
noncomputable def coreGrad (L : ℕ → ℝ) (E : Env) (I : Img) (t : ℕ × ℕ × ℕ) : Fin 3 → ℝ :=
  cgrad L (lgrad E (boxed ((ext I.R).1 + 4 * E.FDn) ((ext I.R).2.1 + 4 * E.FDn) I.rhocJ)
    (t.1 + 2 * E.FDn) (t.2.1 + 2 * E.FDn) (t.2.2 + 2 * E.FDn))

/-- Cartesian vector from an image to a node of its box. -/
noncomputable def arm (L : ℕ → ℝ) (E : Env) (R : Infl.Rec) (t : ℕ × ℕ × ℕ) : Fin 3 → ℝ :=
  cpos L ((R.xs + t.1) * E.h.1 - R.x, (R.ys + t.2.1) * E.h.2.1 - R.y,
    (R.zs + t.2.2) * E.h.2.2 - R.z)

theorem disp_eq (D : Dom) (R : Infl.Rec) (t : ℕ × ℕ × ℕ) :
    disp E D R t = ((R.xs + t.1) * E.h.1 - R.x, (R.ys + t.2.1) * E.h.2.1 - R.y,
      (R.zs + t.2.2) * E.h.2.2 - R.z) := by
  unfold disp
  dsimp only
  push_cast
  refine Prod.ext ?_ (Prod.ext ?_ ?_) <;> dsimp only <;> ring

theorem coreVecs_eq (h : Coord.transformMat L = some E.G)
    (h0 : E.G.cellTyp = 0 → unitMat L = 1) (D : Dom) (I : Img) (t : ℕ × ℕ × ℕ)
    (ht : t ∈ nodes I.R) :
    vec (coreVecs E D I t).1 = coreGrad L E I t ∧ vec (coreVecs E D I t).2 = arm L E I.R t := by
  have e := drhoc_at E I t ht
  have g := vec_ite_grad h h0 (lgrad E (boxed ((ext I.R).1 + 4 * E.FDn)
    ((ext I.R).2.1 + 4 * E.FDn) I.rhocJ) (t.1 + 2 * E.FDn) (t.2.1 + 2 * E.FDn)
    (t.2.2 + 2 * E.FDn))
  have x := vec_ite_pos h h0 (disp E D I.R t)
  rw [disp_eq] at x
  unfold coreVecs coreGrad arm
  dsimp only
  rw [e, disp_eq, ← g, ← x]
  by_cases hc : E.G.cellTyp = 0
  · simp [hc]
  · simp [hc]

theorem nlccS_at (h : Coord.transformMat L = some E.G) (h0 : E.G.cellTyp = 0 → unitMat L = 1)
    (D : Dom) {i j : Fin 3} (hij : i ≤ j) :
    nlccS E D (ix i j) = E.dV * overImgs D fun I t =>
      coreGrad L E I t i * arm L E I.R t j * vxcAt E D (place D I.R t) := by
  unfold nlccS
  rw [Pi.smul_apply, smul_eq_mul, foldl_imgs D (fun I acc t => acc + _) _
    (fun _ _ _ _ _ _ _ => rfl), zero_add, overImgs_at]
  congr 1
  refine overImgs_congr fun l hl I hI t ht => ?_
  obtain ⟨e1, e2⟩ := coreVecs_eq h h0 D I t ht
  rw [← e1, ← e2]
  simp only [fst_eq, snd_eq, trd_eq]
  exact outer_w_ix _ _ _ hij

theorem nlccP_eq (h : Coord.transformMat L = some E.G) (h0 : E.G.cellTyp = 0 → unitMat L = 1)
    (D : Dom) : nlccP E D = tr (nlccS E D) := by
  have a0 := nlccS_at h h0 D (i := 0) (j := 0) le_rfl
  have a1 := nlccS_at h h0 D (i := 1) (j := 1) le_rfl
  have a2 := nlccS_at h h0 D (i := 2) (j := 2) le_rfl
  rw [tr_apply]
  change nlccS E D 0 = _ at a0
  change nlccS E D 3 = _ at a1
  change nlccS E D 5 = _ at a2
  rw [a0, a1, a2]
  unfold nlccP
  rw [foldl_imgs D (fun I acc t => acc + _) _ (fun _ _ _ _ _ _ _ => rfl), zero_add, mul_comm,
    ← mul_add, ← mul_add]
  congr 1
  unfold overImgs
  rw [← List.sum_map_add, ← List.sum_map_add]
  congr 1
  refine List.map_congr_left fun l hl => ?_
  rw [← List.sum_map_add, ← List.sum_map_add]
  congr 1
  refine List.map_congr_left fun I hI => ?_
  rw [← List.sum_map_add, ← List.sum_map_add]
  congr 1
  refine List.map_congr_left fun t ht => ?_
  obtain ⟨e1, e2⟩ := coreVecs_eq h h0 D I t ht
  beta_reduce
  rw [← e1, ← e2]
  simp only [fst_eq, snd_eq, trd_eq]
  ring

/-! ### Electrostatics -/

theorem elNodesS_at (h : Coord.transformMat L = some E.G) (D : Dom) {i j : Fin 3} (hij : i ≤ j) :
    elNodesS E D (ix i j) = ((List.range D.nd).map fun n : ℕ =>
      1 / (4 * Real.pi) * (cgrad L (D.Dphi n) i * cgrad L (D.Dphi n) j)
        + if i = j then 1 / 2 * (D.b n - D.rho n) * D.phi n else 0).sum := by
  unfold elNodesS
  rw [foldl_add, zero_add, sum_at]
  congr 1
  refine List.map_congr_left fun n _ => ?_
  rw [← vec_gradToCart h]
  have e4 : inv4pi = 1 / (4 * Real.pi) := by
    unfold inv4pi
    rw [show (0.25 : ℝ) = 1 / 4 by norm_num]
    field_simp
  have e5 : (0.5 : ℝ) = 1 / 2 := by norm_num
  rw [e4, e5]
  fin_cases i <;> fin_cases j <;>
    first
      | (simp [ix, vec]; ring)
      | exact absurd hij (by decide)

theorem elNodesP_eq (h : Coord.transformMat L = some E.G)
    (h0 : E.G.cellTyp = 0 → unitMat L = 1) (D : Dom) :
    elNodesP E D = tr (elNodesS E D)
      + 2 * ((List.range D.nd).map fun n : ℕ => D.rho n * D.phi n).sum := by
  have e4 : inv4pi = 1 / (4 * Real.pi) := by
    unfold inv4pi
    rw [show (0.25 : ℝ) = 1 / 4 by norm_num]
    field_simp
  have e5 : (0.5 : ℝ) = 1 / 2 := by norm_num
  have e : tr (elNodesS E D) + 2 * ((List.range D.nd).map fun n : ℕ => D.rho n * D.phi n).sum
      = ((List.range D.nd).map fun n : ℕ =>
        1 / (4 * Real.pi) * (cgrad L (D.Dphi n) ⬝ᵥ cgrad L (D.Dphi n))
          + 1 / 2 * ((D.rho n + 3 * D.b n) * D.phi n)).sum := by
    have a0 := elNodesS_at h D (i := 0) (j := 0) le_rfl
    have a1 := elNodesS_at h D (i := 1) (j := 1) le_rfl
    have a2 := elNodesS_at h D (i := 2) (j := 2) le_rfl
    rw [tr_apply]
    change elNodesS E D 0 = _ at a0
    change elNodesS E D 3 = _ at a1
    change elNodesS E D 5 = _ at a2
    rw [a0, a1, a2, ← List.sum_map_mul_left, ← List.sum_map_add, ← List.sum_map_add,
      ← List.sum_map_add]
    congr 1
    refine List.map_congr_left fun n _ => ?_
    simp only [dotProduct, Fin.sum_univ_three, if_true]
    ring
  rw [e]
  unfold elNodesP
  dsimp only
  split
  · rename_i hc
    rw [foldl_add, foldl_add, zero_add, zero_add, ← List.sum_map_mul_left,
      ← List.sum_map_mul_left, ← List.sum_map_add, e4, e5]
    congr 1
    refine List.map_congr_left fun n _ => ?_
    rw [cgrad_one (h0 hc)]
    simp only [vec, dotProduct, Fin.sum_univ_three, Matrix.cons_val_zero, Matrix.cons_val_one,
      Matrix.cons_val]
  · simp only [foldl_add, zero_add]
    simp only [← List.sum_map_mul_left, ← List.sum_map_add]
    rw [e4, e5]
    congr 1
    refine List.map_congr_left fun n _ => ?_
    rw [cgrad_sq h]

/-- Cartesian gradient at a node of an array on the box of an image widened by `w` nodes on each
side. -/
noncomputable def imgGrad (L : ℕ → ℝ) (E : Env) (I : Img) (w : ℕ) (m : ℤ → ℝ) (t : ℕ × ℕ × ℕ) :
    Fin 3 → ℝ :=
  cgrad L (lgrad E (boxed ((ext I.R).1 + 2 * w) ((ext I.R).2.1 + 2 * w) m)
    (t.1 + w) (t.2.1 + w) (t.2.2 + w))

/-- Entry at a node of an array on the box of an image widened by `w` nodes on each side. -/
def imgAt (I : Img) (w : ℕ) (m : ℤ → ℝ) (t : ℕ × ℕ × ℕ) : ℝ :=
  boxed ((ext I.R).1 + 2 * w) ((ext I.R).2.1 + 2 * w) m (t.1 + w) (t.2.1 + w) (t.2.2 + w)

/-- The vector multiplying the arm in the electrostatic integrals of an image. -/
noncomputable def imgVec (L : ℕ → ℝ) (E : Env) (D : Dom) (I : Img) (t : ℕ × ℕ × ℕ) : Fin 3 → ℝ :=
  let n := E.FDn
  let p := place D I.R t
  D.phi p • imgGrad L E I n I.bJ t
    + (1 / 2 : ℝ) • ((D.Vc p - imgAt I (2 * n) I.VJref t) • imgGrad L E I n I.bJref t
      + D.Vc p • imgGrad L E I n I.bJ t
      + (D.b p + D.bref p) • (imgGrad L E I (2 * n) I.VJref t - imgGrad L E I (2 * n) I.VJ t)
      - imgAt I n I.bJref t • imgGrad L E I (2 * n) I.VJref t)

theorem diffs_eq (E : Env) (I : Img) (t : ℕ × ℕ × ℕ) :
    let d := diffs E I t
    let n := E.FDn
    cgrad L d.b = imgGrad L E I n I.bJ t ∧ cgrad L d.bref = imgGrad L E I n I.bJref t
      ∧ cgrad L d.V = imgGrad L E I (2 * n) I.VJ t
      ∧ cgrad L d.Vref = imgGrad L E I (2 * n) I.VJref t
      ∧ I.bJref d.q = imgAt I n I.bJref t ∧ I.VJref d.q2 = imgAt I (2 * n) I.VJref t := by
  have e1 : (ext I.R).1 + 2 * (E.FDn : ℤ) + 2 * E.FDn
      = (ext I.R).1 + 2 * ((2 * E.FDn : ℕ) : ℤ) := by push_cast; ring
  have e2 : (ext I.R).2.1 + 2 * (E.FDn : ℤ) + 2 * E.FDn
      = (ext I.R).2.1 + 2 * ((2 * E.FDn : ℕ) : ℤ) := by push_cast; ring
  have e3 : (2 * (E.FDn : ℤ)) = ((2 * E.FDn : ℕ) : ℤ) := by push_cast; ring
  dsimp only [diffs]
  refine ⟨?_, ?_, ?_, ?_, ?_, ?_⟩
  · rw [grad_eq]; rfl
  · rw [grad_eq]; rfl
  · rw [grad_eq, e1, e2, e3]; rfl
  · rw [grad_eq, e1, e2, e3]; rfl
  · rfl
  · rw [e1, e2, e3]; rfl

theorem half : (0.5 : ℝ) = 1 / 2 := by norm_num

theorem elS_at (h : Coord.transformMat L = some E.G) (h0 : E.G.cellTyp = 0 → unitMat L = 1)
    (D : Dom) {i j : Fin 3} (hij : i ≤ j) :
    elS E D (ix i j) = E.dV * (((List.range D.nd).map fun n : ℕ =>
      1 / (4 * Real.pi) * (cgrad L (D.Dphi n) i * cgrad L (D.Dphi n) j)
        + if i = j then 1 / 2 * (D.b n - D.rho n) * D.phi n else 0).sum
      + overImgs D fun I t => imgVec L E D I t i * arm L E I.R t j) := by
  unfold elS
  rw [foldl_imgs D (elStepS E D) (fun I t => elStepS E D I 0 t)
    (by
      intro _ _ _ _ _ _ s
      simp only [elStepS, Prod.fst_zero, Prod.snd_zero, zero_add]
      rfl)]
  have hf : ∀ f : Img → ℕ × ℕ × ℕ → Ten × Ten,
      (overImgs D f).1 = overImgs D (fun I t => (f I t).1) := fun f =>
    map_overImgs (AddMonoidHom.fst Ten Ten) D f
  have hs : ∀ f : Img → ℕ × ℕ × ℕ → Ten × Ten,
      (overImgs D f).2 = overImgs D (fun I t => (f I t).2) := fun f =>
    map_overImgs (AddMonoidHom.snd Ten Ten) D f
  rw [Prod.fst_add, Prod.snd_add, Pi.add_apply, Pi.add_apply, hf, hs]
  dsimp only
  rw [elNodesS_at h D hij, Pi.zero_apply, zero_add, overImgs_at, overImgs_at, mul_comm, add_assoc]
  congr 2
  have hm : ∀ f : Img → ℕ × ℕ × ℕ → ℝ, (0.5 : ℝ) * overImgs D f
      = overImgs D (fun I t => 0.5 * f I t) := fun f =>
    map_overImgs (AddMonoidHom.mulLeft (0.5 : ℝ)) D f
  have ha : ∀ f g : Img → ℕ × ℕ × ℕ → ℝ, overImgs D f + overImgs D g
      = overImgs D (fun I t => f I t + g I t) := by
    intro f g
    simp only [overImgs, List.sum_map_add]
  rw [hm, ha]
  refine overImgs_congr fun l hl I hI t ht => ?_
  obtain ⟨g1, g2, g3, g4, g5, g6⟩ := diffs_eq (L := L) E I t
  rw [← vec_ite_grad h h0] at g1 g2 g3 g4
  have gx := vec_ite_pos h h0 (disp E D I.R t)
  rw [disp_eq] at gx
  change _ = arm L E I.R t at gx
  unfold imgVec
  rw [← g1, ← g2, ← g3, ← g4, ← g5, ← g6, ← gx, half]
  unfold elStepS
  dsimp only
  simp only [disp_eq, Prod.fst_zero, Prod.snd_zero, zero_add, Pi.add_apply, Pi.sub_apply,
    Pi.smul_apply, smul_eq_mul]
  fin_cases i <;> fin_cases j <;>
    first
      | exact absurd hij (by decide)
      | (simp [ix, vec]; ring)

theorem elP_eq (h : Coord.transformMat L = some E.G) (h0 : E.G.cellTyp = 0 → unitMat L = 1)
    (D : Dom) : elP E D = tr (elS E D)
      + 2 * (E.dV * ((List.range D.nd).map fun n : ℕ => D.rho n * D.phi n).sum) := by
  have a0 := elS_at h h0 D (i := 0) (j := 0) le_rfl
  have a1 := elS_at h h0 D (i := 1) (j := 1) le_rfl
  have a2 := elS_at h h0 D (i := 2) (j := 2) le_rfl
  change elS E D 0 = _ at a0
  change elS E D 3 = _ at a1
  change elS E D 5 = _ at a2
  have ha : ∀ f g : Img → ℕ × ℕ × ℕ → ℝ, overImgs D f + overImgs D g
      = overImgs D (fun I t => f I t + g I t) := by
    intro f g
    simp only [overImgs, List.sum_map_add]
  have hdot : tr (elS E D) = E.dV * (tr (elNodesS E D)
      + overImgs D fun I t => imgVec L E D I t ⬝ᵥ arm L E I.R t) := by
    have b0 := elNodesS_at h D (i := 0) (j := 0) le_rfl
    have b1 := elNodesS_at h D (i := 1) (j := 1) le_rfl
    have b2 := elNodesS_at h D (i := 2) (j := 2) le_rfl
    change elNodesS E D 0 = _ at b0
    change elNodesS E D 3 = _ at b1
    change elNodesS E D 5 = _ at b2
    rw [← b0] at a0
    rw [← b1] at a1
    rw [← b2] at a2
    rw [tr_apply, tr_apply, a0, a1, a2]
    simp only [dotProduct, Fin.sum_univ_three]
    rw [← ha, ← ha]
    ring
  have hm : ∀ f : Img → ℕ × ℕ × ℕ → ℝ, (0.5 : ℝ) * overImgs D f
      = overImgs D (fun I t => 0.5 * f I t) := fun f =>
    map_overImgs (AddMonoidHom.mulLeft (0.5 : ℝ)) D f
  have hP : elP E D = E.dV * (elNodesP E D
      + overImgs D fun I t => imgVec L E D I t ⬝ᵥ arm L E I.R t) := by
    unfold elP
    dsimp only
    rw [foldl_imgs D (elStepP E D) (fun I t => elStepP E D I 0 t)
      (by
        intro _ _ _ _ _ _ s
        refine Prod.ext ?_ ?_
        · simp only [elStepP, Prod.fst_zero, zero_add, Prod.fst_add]
        · simp only [elStepP, Prod.snd_zero, zero_add, Prod.snd_add]
          ring)]
    have hf : ∀ f : Img → ℕ × ℕ × ℕ → ℝ × ℝ,
        (overImgs D f).1 = overImgs D (fun I t => (f I t).1) := fun f =>
      map_overImgs (AddMonoidHom.fst ℝ ℝ) D f
    have hs : ∀ f : Img → ℕ × ℕ × ℕ → ℝ × ℝ,
        (overImgs D f).2 = overImgs D (fun I t => (f I t).2) := fun f =>
      map_overImgs (AddMonoidHom.snd ℝ ℝ) D f
    rw [Prod.fst_add, Prod.snd_add, hf, hs]
    dsimp only
    rw [zero_add, mul_comm, add_assoc, hm, ha]
    congr 2
    refine overImgs_congr fun l hl I hI t ht => ?_
    obtain ⟨g1, g2, g3, g4, g5, g6⟩ := diffs_eq (L := L) E I t
    unfold imgVec
    dsimp only
    rw [← g1, ← g2, ← g3, ← g4, ← g5, ← g6]
    unfold arm
    simp only [add_dotProduct, sub_dotProduct, smul_dotProduct, dot_cart h, smul_eq_mul]
    unfold elStepP
    dsimp only
    simp only [disp_eq, half, Prod.fst_zero, Prod.snd_zero, zero_add]
    ring
  rw [hP, hdot, elNodesP_eq h h0]
  ring

end Sparc.Pres

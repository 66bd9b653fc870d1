import Verif.Pres.Model
import Verif.Coord.Props
import Verif.Tac
import Mathlib.LinearAlgebra.Matrix.NonsingularInverse

/-! # Stress and pressure: geometry, loops and traces -/

namespace Sparc.Pres

open Loop Matrix

/-! ### Geometry -/

/-- The unit lattice vectors as rows. -/
noncomputable def unitMat (L : ℕ → ℝ) : Matrix (Fin 3) (Fin 3) ℝ := fun i k =>
  L (3 * i.val + k.val)
    / Real.sqrt (L (3 * i.val) ^ 2 + L (3 * i.val + 1) ^ 2 + L (3 * i.val + 2) ^ 2)

/-- A triple as a vector. -/
def vec (v : ℝ × ℝ × ℝ) : Fin 3 → ℝ := ![v.1, v.2.1, v.2.2]

/-- The Cartesian vector whose components along the unit lattice vectors are `v`: the gradient of
a function with derivatives `v` along them. -/
noncomputable def cgrad (L : ℕ → ℝ) (v : ℝ × ℝ × ℝ) : Fin 3 → ℝ := (unitMat L)⁻¹ *ᵥ vec v

/-- The Cartesian position with lattice coordinates `v`. -/
noncomputable def cpos (L : ℕ → ℝ) (v : ℝ × ℝ × ℝ) : Fin 3 → ℝ := vec v ᵥ* unitMat L

variable {L : ℕ → ℝ} {G : Coord.Geom}

theorem U_eq (h : Coord.transformMat L = some G) (i k : Fin 3) :
    G.U (3 * i.val + k.val) = unitMat L i k := by
  obtain ⟨hU, -⟩ := Coord.transformMat_some h
  rw [hU]
  have e : (3 * i.val + k.val) / 3 = i.val := by omega
  simp only [Coord.latU, unitMat, e]

theorem vec_toCart (h : Coord.transformMat L = some G) (v : ℝ × ℝ × ℝ) :
    vec (Coord.toCart G v) = cpos L v := by
  have u := U_eq h
  have u00 := u 0 0; have u01 := u 0 1; have u02 := u 0 2
  have u10 := u 1 0; have u11 := u 1 1; have u12 := u 1 2
  have u20 := u 2 0; have u21 := u 2 1; have u22 := u 2 2
  simp only [Fin.val_zero, Fin.val_one, Fin.val_two] at u00 u01 u02 u10 u11 u12 u20 u21 u22
  norm_num at u00 u01 u02 u10 u11 u12 u20 u21 u22
  funext c
  fin_cases c <;>
    simp [vec, Coord.toCart, cpos, Matrix.vecMul, dotProduct, Fin.sum_univ_three, u00, u01, u02,
      u10, u11, u12, u20, u21, u22] <;> ring

theorem unit_mul_grad (h : Coord.transformMat L = some G) (v : ℝ × ℝ × ℝ) :
    unitMat L *ᵥ vec (Coord.gradToCart G v) = vec v := by
  have u := U_eq h
  have u00 := u 0 0; have u01 := u 0 1; have u02 := u 0 2
  have u10 := u 1 0; have u11 := u 1 1; have u12 := u 1 2
  have u20 := u 2 0; have u21 := u 2 1; have u22 := u 2 2
  simp only [Fin.val_zero, Fin.val_one, Fin.val_two] at u00 u01 u02 u10 u11 u12 u20 u21 u22
  norm_num at u00 u01 u02 u10 u11 u12 u20 u21 u22
  obtain ⟨g1, g2, g3, g4, g5, g6, g7, g8, g9⟩ := Coord.grad_inv h
  funext c
  fin_cases c <;>
    simp [vec, Coord.gradToCart, Matrix.mulVec, dotProduct, Fin.sum_univ_three, ← u00, ← u01,
      ← u02, ← u10, ← u11, ← u12, ← u20, ← u21, ← u22]
  · linear_combination v.1 * g1 + v.2.1 * g4 + v.2.2 * g7
  · linear_combination v.1 * g2 + v.2.1 * g5 + v.2.2 * g8
  · linear_combination v.1 * g3 + v.2.1 * g6 + v.2.2 * g9

theorem det_unit (h : Coord.transformMat L = some G) : (unitMat L).det = G.det := by
  obtain ⟨-, hd, -⟩ := Coord.transformMat_some h
  have u := U_eq h
  have u00 := u 0 0; have u01 := u 0 1; have u02 := u 0 2
  have u10 := u 1 0; have u11 := u 1 1; have u12 := u 1 2
  have u20 := u 2 0; have u21 := u 2 1; have u22 := u 2 2
  simp only [Fin.val_zero, Fin.val_one, Fin.val_two] at u00 u01 u02 u10 u11 u12 u20 u21 u22
  norm_num at u00 u01 u02 u10 u11 u12 u20 u21 u22
  obtain ⟨hU, -⟩ := Coord.transformMat_some h
  rw [hd, ← hU, Coord.jacbdet_eq, Matrix.det_fin_three, ← u00, ← u01, ← u02, ← u10, ← u11, ← u12,
    ← u20, ← u21, ← u22]
  ring

theorem isUnit_unit (h : Coord.transformMat L = some G) : IsUnit (unitMat L).det := by
  rw [det_unit h]
  exact (ne_of_gt (Coord.transformMat_some h).2.2.1).isUnit

theorem vec_gradToCart (h : Coord.transformMat L = some G) (v : ℝ × ℝ × ℝ) :
    vec (Coord.gradToCart G v) = cgrad L v := by
  have e := congrArg (fun w => (unitMat L)⁻¹ *ᵥ w) (unit_mul_grad h v)
  simp only [Matrix.mulVec_mulVec, Matrix.nonsing_inv_mul _ (isUnit_unit h),
    Matrix.one_mulVec] at e
  exact e

theorem dot_cart (h : Coord.transformMat L = some G) (g x : ℝ × ℝ × ℝ) :
    cgrad L g ⬝ᵥ cpos L x = g.1 * x.1 + g.2.1 * x.2.1 + g.2.2 * x.2.2 := by
  rw [cgrad, cpos, dotProduct_comm, ← Matrix.dotProduct_mulVec, Matrix.mulVec_mulVec,
    Matrix.mul_nonsing_inv _ (isUnit_unit h), Matrix.one_mulVec]
  simp [vec, dotProduct, Fin.sum_univ_three]
  ring

/-- In an orthogonal cell along the positive axes, Cartesian components are lattice ones. -/
theorem cgrad_one (h : unitMat L = 1) (v : ℝ × ℝ × ℝ) : cgrad L v = vec v := by
  rw [cgrad, h, inv_one, Matrix.one_mulVec]

theorem cpos_one (h : unitMat L = 1) (v : ℝ × ℝ × ℝ) : cpos L v = vec v := by
  rw [cpos, h, Matrix.vecMul_one]

/-- The gradient after the test on the cell type. -/
theorem vec_ite_grad (h : Coord.transformMat L = some G) (h0 : G.cellTyp = 0 → unitMat L = 1)
    (v : ℝ × ℝ × ℝ) :
    vec (if G.cellTyp = 0 then v else Coord.gradToCart G v) = cgrad L v := by
  split
  · rename_i e
    rw [cgrad_one (h0 e)]
  · exact vec_gradToCart h v

/-- The position after the test on the cell type. -/
theorem vec_ite_pos (h : Coord.transformMat L = some G) (h0 : G.cellTyp = 0 → unitMat L = 1)
    (v : ℝ × ℝ × ℝ) :
    vec (if G.cellTyp = 0 then v else Coord.toCart G v) = cpos L v := by
  split
  · rename_i e
    rw [cpos_one (h0 e)]
  · exact vec_toCart h v

theorem fst_eq (v : ℝ × ℝ × ℝ) : v.1 = vec v 0 := rfl
theorem snd_eq (v : ℝ × ℝ × ℝ) : v.2.1 = vec v 1 := rfl
theorem trd_eq (v : ℝ × ℝ × ℝ) : v.2.2 = vec v 2 := rfl

/-- The squared length of a gradient through `lapcT`. -/
theorem cgrad_sq (h : Coord.transformMat L = some G) (v : ℝ × ℝ × ℝ) :
    cgrad L v ⬝ᵥ cgrad L v = G.lapc 0 * (v.1 * v.1) + G.lapc 4 * (v.2.1 * v.2.1)
      + G.lapc 8 * (v.2.2 * v.2.2) + 2 * (G.lapc 1 * (v.1 * v.2.1) + G.lapc 2 * (v.1 * v.2.2)
      + G.lapc 5 * (v.2.1 * v.2.2)) := by
  obtain ⟨-, -, -, -, -, hl, -⟩ := Coord.transformMat_some h
  rw [← vec_gradToCart h, hl]
  have r3 : List.range 3 = [0, 1, 2] := rfl
  simp only [Coord.lapcT, r3, List.foldl_cons, List.foldl_nil]
  norm_num
  simp [vec, Coord.gradToCart, dotProduct, Fin.sum_univ_three]
  ring

/-! ### Loops -/

/-- An accumulating loop is a sum. -/
theorem foldl_add {α M : Type} [AddCommMonoid M] (f : α → M) (l : List α) (a : M) :
    l.foldl (fun s x => s + f x) a = a + (l.map f).sum := by
  induction l generalizing a with
  | nil => simp
  | cons x l ih => rw [List.foldl_cons, ih, List.map_cons, List.sum_cons, add_assoc]

/-- A loop whose turns each add something adds the sum. -/
theorem foldl_adds {α M : Type} [AddCommMonoid M] (step : M → α → M) (f : α → M) (l : List α)
    (a : M) (h : ∀ x ∈ l, ∀ s, step s x = s + f x) : l.foldl step a = a + (l.map f).sum := by
  induction l generalizing a with
  | nil => simp
  | cons x l ih =>
    rw [List.foldl_cons, ih _ fun y hy => h y (List.mem_cons_of_mem _ hy),
      h x List.mem_cons_self, List.map_cons, List.sum_cons, add_assoc]

/-- The sum of a function over the nodes of all the images. -/
noncomputable def overImgs {M : Type} [AddCommMonoid M] (D : Dom)
    (f : Img → ℕ × ℕ × ℕ → M) : M :=
  (D.imgs.map fun l => (l.map fun I => ((nodes I.R).map (f I)).sum).sum).sum

/-- The three nested loops over types, images and nodes. -/
theorem foldl_imgs {M : Type} [AddCommMonoid M] (D : Dom) (step : Img → M → ℕ × ℕ × ℕ → M)
    (f : Img → ℕ × ℕ × ℕ → M)
    (h : ∀ l ∈ D.imgs, ∀ I ∈ l, ∀ t ∈ nodes I.R, ∀ s, step I s t = s + f I t) (a : M) :
    D.imgs.foldl (fun s l => l.foldl (fun s (I : Img) => (nodes I.R).foldl (step I) s) s) a
      = a + overImgs D f := by
  refine foldl_adds _ _ _ _ fun l hl s => ?_
  refine foldl_adds _ _ _ _ fun I hI s => ?_
  exact foldl_adds _ _ _ _ fun t ht s => h l hl I hI t ht s

theorem map_sum_list {M N : Type} [AddCommMonoid M] [AddCommMonoid N] (g : M →+ N) {α : Type}
    (l : List α) (f : α → M) : g ((l.map f).sum) = (l.map fun x => g (f x)).sum := by
  rw [map_list_sum, List.map_map]
  rfl

theorem map_overImgs {M N : Type} [AddCommMonoid M] [AddCommMonoid N] (g : M →+ N) (D : Dom)
    (f : Img → ℕ × ℕ × ℕ → M) : g (overImgs D f) = overImgs D fun I t => g (f I t) := by
  simp only [overImgs, map_sum_list]

theorem overImgs_congr {M : Type} [AddCommMonoid M] {D : Dom} {f g : Img → ℕ × ℕ × ℕ → M}
    (h : ∀ l ∈ D.imgs, ∀ I ∈ l, ∀ t ∈ nodes I.R, f I t = g I t) :
    overImgs D f = overImgs D g := by
  unfold overImgs
  refine congrArg _ (List.map_congr_left fun l hl => ?_)
  refine congrArg _ (List.map_congr_left fun I hI => ?_)
  exact congrArg _ (List.map_congr_left fun t ht => h l hl I hI t ht)

/-- The trace `xx + yy + zz`. -/
def tr : Ten →+ ℝ where
  toFun s := s 0 + s 3 + s 5
  map_zero' := by simp
  map_add' a b := by simp only [Pi.add_apply]; ring

theorem tr_apply (s : Ten) : tr s = s 0 + s 3 + s 5 := rfl

/-- The stored component for directions `i ≤ j`. -/
def ix (i j : Fin 3) : Fin 6 := ![![0, 1, 2], ![1, 3, 4], ![2, 4, 5]] i j

/-- Reading one component. -/
def at6 (i : Fin 6) : Ten →+ ℝ where
  toFun s := s i
  map_zero' := rfl
  map_add' _ _ := rfl

theorem at6_apply (i : Fin 6) (s : Ten) : at6 i s = s i := rfl

theorem sum_at {α : Type} (l : List α) (f : α → Ten) (i : Fin 6) :
    (l.map f).sum i = (l.map fun x => f x i).sum := map_sum_list (at6 i) l f

theorem overImgs_at (D : Dom) (f : Img → ℕ × ℕ × ℕ → Ten) (i : Fin 6) :
    overImgs D f i = overImgs D fun I t => f I t i := map_overImgs (at6 i) D f

end Sparc.Pres

import Verif.Vxc.Model
import Verif.Xc.Props
import Verif.FD.Lemmas

namespace Sparc.Vxc

open Xc

/-! ### The gradient is an antisymmetric matrix -/

theorem wrap_swap {N : ℕ} {per : Bool} {a b : ℕ} (ha : a < N) (hb : b < N) (s : ℤ) :
    wrap N per (a + s) = b ↔ wrap N per (b + -s) = a := by
  unfold wrap
  cases per
  · simp only [Bool.false_eq_true, if_false]; omega
  · simp only [if_true]
    have hN : (0 : ℤ) < N := by omega
    constructor
    · intro h
      have h1 := Int.emod_add_mul_ediv (a + s) N
      have : (b : ℤ) + -s = a + N * (-((a + s) / N)) := by rw [← h]; linarith
      rw [this, Int.add_mul_emod_self_left, Int.emod_eq_of_lt (by omega) (by omega)]
    · intro h
      have h1 := Int.emod_add_mul_ediv (b + -s) N
      have : (a : ℤ) + s = b + N * (-((b + -s) / N)) := by rw [← h]; linarith
      rw [this, Int.add_mul_emod_self_left, Int.emod_eq_of_lt (by omega) (by omega)]

/-- The grid point that stands for position `x`. -/
def hit (C : Cell) (x : Fin 3 → ℤ) (g : Pnt C) : Prop :=
  ∀ d, wrap (C.N d) (C.per d) (x d) = ((g d : ℕ) : ℤ)

open Classical in
theorem ext_eq (C : Cell) (f : Fld C) (x : Fin 3 → ℤ) :
    ext C f x = ∑ g, if hit C x g then f g else 0 := by
  unfold ext
  split_ifs with h
  · rw [Finset.sum_eq_single
      (fun d => ⟨(wrap (C.N d) (C.per d) (x d)).toNat, by have := h d; omega⟩ : Pnt C)]
    · rw [if_pos]
      intro d
      have := h d
      simp only [Int.toNat_of_nonneg this.1]
    · intro g _ hg
      rw [if_neg]
      intro hh
      refine hg (funext fun d => Fin.ext ?_)
      simp only [hh d, Int.toNat_natCast]
    · simp
  · rw [Finset.sum_eq_zero]
    intro g _
    rw [if_neg]
    intro hh
    refine h fun d => ?_
    rw [hh d]
    have := (g d).isLt
    omega

theorem wrap_self {N : ℕ} {per : Bool} {a : ℕ} (ha : a < N) : wrap N per a = a := by
  unfold wrap
  split_ifs
  · exact Int.emod_eq_of_lt (by omega) (by omega)
  · rfl

theorem hit_swap {C : Cell} (g g' : Pnt C) (dir : Fin 3) (s : ℤ) :
    hit C (step g dir s) g' ↔ hit C (step g' dir (-s)) g := by
  have key : ∀ (a b : Pnt C) (t : ℤ), hit C (step a dir t) b →  hit C (step b dir (-t)) a := by
    intro a b t h d
    have hd := h d
    by_cases e : d = dir
    · subst e
      simp only [step, Function.update_self] at hd ⊢
      exact (wrap_swap (a d).isLt (b d).isLt t).1 hd
    · simp only [step, Function.update_of_ne e] at hd ⊢
      rw [wrap_self (a d).isLt] at hd
      rw [wrap_self (b d).isLt]
      exact hd.symm
  constructor
  · exact key g g' s
  · intro h
    have := key _ _ _ h
    rwa [neg_neg] at this

open Classical in
/-- Entry of the matrix of `grad C dir`. -/
noncomputable def M (C : Cell) (dir : Fin 3) (g g' : Pnt C) : ℝ :=
  ∑ p ∈ Finset.range C.FDn, ((if hit C (step g dir (p + 1)) g' then 1 else 0)
    - (if hit C (step g dir (-(p + 1))) g' then 1 else 0)) * C.w dir (p + 1)

theorem M_anti (C : Cell) (dir : Fin 3) (g g' : Pnt C) : M C dir g g' = -M C dir g' g := by
  classical
  unfold M
  rw [← Finset.sum_neg_distrib]
  refine Finset.sum_congr rfl fun p _ => ?_
  have h1 : hit C (step g dir (p + 1)) g' ↔ hit C (step g' dir (-(p + 1))) g := hit_swap g g' dir _
  have h2 : hit C (step g dir (-(p + 1))) g' ↔ hit C (step g' dir (p + 1)) g :=
    (hit_swap g' g dir _).symm
  simp only [h1, h2]
  ring

theorem M_diag (C : Cell) (dir : Fin 3) (g : Pnt C) : M C dir g g = 0 := by
  have := M_anti C dir g g
  linarith

theorem grad_eq (C : Cell) (dir : Fin 3) (f : Fld C) (g : Pnt C) :
    grad C dir f g = ∑ g', M C dir g g' * f g' := by
  classical
  unfold grad M
  rw [FD.foldl_add_sum]
  simp only [ext_eq, Finset.sum_mul, mul_zero, zero_add]
  rw [Finset.sum_comm]
  refine Finset.sum_congr rfl fun p _ => ?_
  rw [← Finset.sum_sub_distrib, Finset.sum_mul]
  refine Finset.sum_congr rfl fun g' _ => ?_
  push_cast
  split_ifs <;> ring

/-- Change of one entry. -/
theorem grad_update (C : Cell) (dir : Fin 3) (f : Fld C) (j g : Pnt C) (y : ℝ) :
    grad C dir (Function.update f j y) g = grad C dir f g + M C dir g j * (y - f j) := by
  have h : ∀ g', M C dir g g' * Function.update f j y g'
      = M C dir g g' * f g' + if g' = j then M C dir g j * (y - f j) else 0 := by
    intro g'
    split_ifs with e
    · subst e; rw [Function.update_self]; ring
    · rw [Function.update_of_ne e]; ring
  rw [grad_eq, grad_eq, Finset.sum_congr rfl fun g' _ => h g', Finset.sum_add_distrib]
  simp

/-! ### The squared gradient -/

/-- `lapcT` is a symmetric matrix. -/
def Symm (C : Cell) : Prop :=
  C.oblique = true → C.lapcT 3 = C.lapcT 1 ∧ C.lapcT 6 = C.lapcT 2 ∧ C.lapcT 7 = C.lapcT 5

/-- Squared gradient of a column at a point. -/
noncomputable def W (C : Cell) (rho : Fld C) (i : Pnt C) : ℝ :=
  normSquare C (grad C 0 rho i) (grad C 1 rho i) (grad C 2 rho i)

theorem W_deriv {C : Cell} (hs : Symm C) (rho : Fld C) (i j : Pnt C) :
    HasDerivAt (fun t => W C (Function.update rho j t) i)
      (2 * (M C 0 i j * timesV2 C (fun d => grad C d rho) (fun _ => 1) 0 i
        + M C 1 i j * timesV2 C (fun d => grad C d rho) (fun _ => 1) 1 i
        + M C 2 i j * timesV2 C (fun d => grad C d rho) (fun _ => 1) 2 i)) (rho j) := by
  have hl : ∀ a : Fin 3, HasDerivAt (fun t => grad C a rho i + M C a i j * (t - rho j))
      (M C a i j) (rho j) := fun a =>
    ((((hasDerivAt_id' (rho j)).sub_const (rho j)).const_mul (M C a i j)).const_add
      (grad C a rho i)).congr_deriv (by ring)
  have e : (fun t => W C (Function.update rho j t) i) = fun t => normSquare C
      (grad C 0 rho i + M C 0 i j * (t - rho j)) (grad C 1 rho i + M C 1 i j * (t - rho j))
      (grad C 2 rho i + M C 2 i j * (t - rho j)) := by
    funext t; simp only [W, grad_update]
  rw [e]
  unfold normSquare timesV2
  cases ho : C.oblique
  · simp only [Bool.false_eq_true, if_false, Matrix.cons_val_zero, Matrix.cons_val_one,
      Matrix.cons_val]
    refine (((d_mul (hl 0) (hl 0)).fun_add (d_mul (hl 1) (hl 1))).fun_add
      (d_mul (hl 2) (hl 2))).congr_deriv ?_
    ring
  · simp only [if_true, Matrix.cons_val_zero, Matrix.cons_val_one, Matrix.cons_val]
    obtain ⟨h1, h2, h3⟩ := hs ho
    refine (((d_mul (hl 0) (((hl 0).const_mul (C.lapcT 0)).fun_add
      ((hl 1).const_mul (2 * C.lapcT 1)))).fun_add (d_mul (hl 1)
      (((hl 1).const_mul (C.lapcT 4)).fun_add ((hl 2).const_mul (2 * C.lapcT 5))))).fun_add
      (d_mul (hl 2) (((hl 2).const_mul (C.lapcT 8)).fun_add
        ((hl 0).const_mul (2 * C.lapcT 2))))).congr_deriv ?_
    rw [h1, h2, h3]
    ring

theorem W_self {C : Cell} (rho : Fld C) (j : Pnt C) (t : ℝ) :
    W C (Function.update rho j t) j = W C rho j := by
  simp only [W, grad_update, M_diag, zero_mul, add_zero]

theorem timesV2_eq (C : Cell) (D : Fin 3 → Fld C) (v2 : Fld C) (a : Fin 3) (i : Pnt C) :
    timesV2 C D v2 a i = timesV2 C D (fun _ => 1) a i * v2 i := by
  unfold timesV2
  cases C.oblique <;> fin_cases a <;> simp

/-- The sum over the points of the derivatives of the squared gradients, weighted with the
gradient term of the potential, is minus the divergence. -/
theorem sum_div (C : Cell) (rho v2 : Fld C) (j : Pnt C) :
    ∑ i, v2 i / 2 * (2 * (M C 0 i j * timesV2 C (fun d => grad C d rho) (fun _ => 1) 0 i
        + M C 1 i j * timesV2 C (fun d => grad C d rho) (fun _ => 1) 1 i
        + M C 2 i j * timesV2 C (fun d => grad C d rho) (fun _ => 1) 2 i))
      = -grad C 0 (timesV2 C (fun d => grad C d rho) v2 0) j
        - grad C 1 (timesV2 C (fun d => grad C d rho) v2 1) j
        - grad C 2 (timesV2 C (fun d => grad C d rho) v2 2) j := by
  simp only [grad_eq C _ (timesV2 C (fun d => grad C d rho) v2 _), ← Finset.sum_neg_distrib,
    ← Finset.sum_sub_distrib]
  refine Finset.sum_congr rfl fun i _ => ?_
  rw [timesV2_eq C _ v2 0, timesV2_eq C _ v2 1, timesV2_eq C _ v2 2, M_anti C 0 i j,
    M_anti C 1 i j, M_anti C 2 i j]
  ring

/-- Derivative of an energy that depends on a density and its squared gradient. -/
theorem core_deriv {C : Cell} (hs : Symm C) (rho v2 : Fld C) (j : Pnt C)
    (Φ : Pnt C → ℝ → ℝ → ℝ) {a : ℝ}
    (hr : HasDerivAt (fun r => Φ j r (W C rho j)) a (rho j))
    (hg : ∀ i, HasDerivAt (fun s => Φ i (rho i) s) (v2 i / 2) (W C rho i)) :
    HasDerivAt (fun t => ∑ i, Φ i (Function.update rho j t i) (W C (Function.update rho j t) i))
      (a + (-grad C 0 (timesV2 C (fun d => grad C d rho) v2 0) j
        - grad C 1 (timesV2 C (fun d => grad C d rho) v2 1) j
        - grad C 2 (timesV2 C (fun d => grad C d rho) v2 2) j)) (rho j) := by
  rw [← sum_div]
  have hterm : ∀ i ∈ (Finset.univ : Finset (Pnt C)), HasDerivAt
      (fun t => Φ i (Function.update rho j t i) (W C (Function.update rho j t) i))
      ((if i = j then a else 0)
        + v2 i / 2 * (2 * (M C 0 i j * timesV2 C (fun d => grad C d rho) (fun _ => 1) 0 i
        + M C 1 i j * timesV2 C (fun d => grad C d rho) (fun _ => 1) 1 i
        + M C 2 i j * timesV2 C (fun d => grad C d rho) (fun _ => 1) 2 i))) (rho j) := by
    intro i _
    by_cases e : i = j
    · subst e
      simp only [W_self, Function.update_self, M_diag, zero_mul, add_zero, mul_zero, if_true]
      exact hr
    · simp only [Function.update_of_ne e, if_neg e, zero_add]
      refine HasDerivAt.comp (rho j) (h₂ := fun s => Φ i (rho i) s) ?_ (W_deriv hs rho i j)
      rw [Function.update_eq_self]
      exact hg i
  refine (HasDerivAt.fun_sum hterm).congr_deriv ?_
  rw [Finset.sum_add_distrib]
  simp

/-- The same without gradient. -/
theorem core_deriv0 {C : Cell} (rho : Fld C) (j : Pnt C) (Φ : Pnt C → ℝ → ℝ) {a : ℝ}
    (hr : HasDerivAt (fun r => Φ j r) a (rho j)) :
    HasDerivAt (fun t => ∑ i, Φ i (Function.update rho j t i)) a (rho j) := by
  have hterm : ∀ i ∈ (Finset.univ : Finset (Pnt C)), HasDerivAt
      (fun t => Φ i (Function.update rho j t i)) (if i = j then a else 0) (rho j) := by
    intro i _
    by_cases e : i = j
    · subst e
      simp only [Function.update_self, if_true]
      exact hr
    · simp only [Function.update_of_ne e, if_neg e]
      exact hasDerivAt_const _ _
  refine (HasDerivAt.fun_sum hterm).congr_deriv ?_
  simp

/-! ### The floors -/

/-- Density before the floor. -/
noncomputable def raw {C : Cell} (O : Opt C) (c : ℝ) (rho : Fld C) (i : Pnt C) : ℝ :=
  if O.nlcc then rho i + c * O.core i else rho i

theorem addCore_of_lt {C : Cell} {O : Opt C} {c : ℝ} {rho : Fld C} {i : Pnt C}
    (h : O.rhotol < raw O c rho i) : addCore O c rho i = raw O c rho i := by
  unfold addCore raw at *
  dsimp only
  rw [if_neg (not_lt.2 h.le)]

theorem addCore_ge {C : Cell} (O : Opt C) (c : ℝ) (rho : Fld C) (i : Pnt C) :
    O.rhotol ≤ addCore O c rho i := by
  unfold addCore
  dsimp only
  split_ifs with h1 h2 h2
  · exact le_refl _
  · exact not_lt.1 h2
  · exact le_refl _
  · exact not_lt.1 h2

/-- What the core adds at a point. -/
noncomputable def shift {C : Cell} (O : Opt C) (c : ℝ) (i : Pnt C) : ℝ :=
  if O.nlcc then c * O.core i else 0

theorem raw_eq {C : Cell} (O : Opt C) (c : ℝ) (rho : Fld C) (i : Pnt C) :
    raw O c rho i = rho i + shift O c i := by
  unfold raw shift; split_ifs <;> simp

/-- Near a density above the floor, changing it changes the density with core the same way. -/
theorem addCore_update {C : Cell} {O : Opt C} {c : ℝ} {rho : Fld C} {j : Pnt C}
    (h : O.rhotol < raw O c rho j) :
    ∀ᶠ t in nhds (rho j), addCore O c (Function.update rho j t)
      = Function.update (addCore O c rho) j (t + shift O c j) := by
  have hc : ContinuousAt (fun t : ℝ => t + shift O c j) (rho j) := by fun_prop
  rw [raw_eq] at h
  filter_upwards [hc.eventually_const_lt h] with t ht
  funext i
  by_cases e : i = j
  · subst e
    rw [addCore_of_lt (by rw [raw_eq, Function.update_self]; exact ht), raw_eq,
      Function.update_self, Function.update_self]
  · rw [Function.update_of_ne e]
    simp only [addCore, Function.update_of_ne e]

theorem W_cont {C : Cell} (hs : Symm C) (rho : Fld C) (i j : Pnt C) :
    ContinuousAt (fun t => W C (Function.update rho j t) i) (rho j) :=
  (W_deriv hs rho i j).continuousAt

theorem sigma_update {C : Cell} {O : Opt C} (hs : Symm C) {rho : Fld C} (j : Pnt C)
    (h : ∀ i, O.sigmatol < W C rho i) :
    ∀ᶠ t in nhds (rho j), ∀ i, sigmaOf O (Function.update rho j t) i
      = W C (Function.update rho j t) i := by
  rw [Filter.eventually_all]
  intro i
  have hc := W_cont hs rho i j
  have h0 : O.sigmatol < W C (Function.update rho j (rho j)) i := by
    rw [Function.update_eq_self]; exact h i
  filter_upwards [hc.eventually_const_lt h0] with t ht
  exact max_eq_left ht.le

end Sparc.Vxc

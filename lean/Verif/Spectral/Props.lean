import Verif.Spectral.Lemmas

/-! # C63, C64: what the spectral grid of the atom solver does exactly

The differentiation matrices give the derivative, in `x` and in the radius, of everything that is a
polynomial of degree at most `N` in `x`; the weights integrate such functions exactly. -/

namespace Sparc.Spectral

open Polynomial Finset
open Polynomial.Chebyshev (T U)

theorem foldl_add (n : ℕ) (f : ℕ → ℝ) (a : ℝ) :
    (List.range n).foldl (fun s k => s + f k) a = a + ∑ k ∈ range n, f k := by
  induction n generalizing a with
  | zero => simp
  | succ n ih => rw [List.range_succ, List.foldl_append, ih, sum_range_succ]; simp [add_assoc]

theorem foldl_add_if (n i : ℕ) (f : ℕ → ℝ) (a : ℝ) :
    (List.range n).foldl (fun s k => if i ≠ k then s + f k else s) a
      = a + ∑ k ∈ range n, if i = k then 0 else f k := by
  induction n generalizing a with
  | zero => simp
  | succ n ih =>
    rw [List.range_succ, List.foldl_append, ih, sum_range_succ]
    simp only [List.foldl_cons, List.foldl_nil]
    split_ifs <;> simp_all [add_assoc]

theorem foldl_fun (n : ℕ) (g : ℕ → ℕ → ℝ) (v : ℕ → ℝ) (i : ℕ) :
    (List.range n).foldl (fun (v : ℕ → ℝ) k => fun i => v i - g k i) v i
      = v i - ∑ k ∈ range n, g k i := by
  induction n with
  | zero => simp
  | succ n ih => rw [List.range_succ, List.foldl_append, sum_range_succ]; simp [ih]; ring

theorem addr_mod {N i : ℕ} (j : ℕ) (hi : i ≤ N) : (j * (N + 1) + i) % (N + 1) = i := by
  rw [Nat.add_comm, Nat.add_mul_mod_self_right, Nat.mod_eq_of_lt (by omega)]

theorem addr_div {N i : ℕ} (j : ℕ) (hi : i ≤ N) : (j * (N + 1) + i) / (N + 1) = j := by
  rw [Nat.add_comm, Nat.add_mul_div_right _ _ (by omega), Nat.div_eq_of_lt (by omega), zero_add]

theorem addr_inj {N i j k : ℕ} (hi : i ≤ N) (hk : k ≤ N) (h : j * (N + 1) + i = k * (N + 1) + k) :
    j = k ∧ i = k := by
  have h1 := congrArg (· % (N + 1)) h
  have h2 := congrArg (· / (N + 1)) h
  simp only [addr_mod j hi, addr_mod k hk, addr_div j hi, addr_div k hk] at h1 h2
  exact ⟨h2, h1⟩

theorem fill_at {N : ℕ} (R : ℝ) {i : ℕ} (j : ℕ) (hi : i ≤ N) : fill N R (j * (N + 1) + i)
    = if i = j then 0 else (coef N i / coef N j) / (grid N R i - grid N R j) := by
  unfold fill; rw [addr_mod j hi, addr_div j hi]

theorem offSum_at {N : ℕ} (D : ℕ → ℝ) (i : ℕ) :
    offSum N D i = ∑ j ∈ range (N + 1), if i = j then 0 else D (j * (N + 1) + i) := by
  unfold offSum; rw [foldl_add_if, zero_add]

theorem chebD_loop (N : ℕ) (R : ℝ) : ∀ n, n ≤ N + 1 → ∀ i ≤ N, ∀ j ≤ N,
    ((List.range n).foldl (fun D i => Function.update D (i * (N + 1) + i) (-offSum N D i))
      (fill N R)) (j * (N + 1) + i)
    = if i = j ∧ i < n then -offSum N (fill N R) i else fill N R (j * (N + 1) + i) := by
  intro n
  induction n with
  | zero => intro _ i _ j _; simp
  | succ n ih =>
    intro hn i hi j hj
    have ih := ih (by omega)
    rw [List.range_succ, List.foldl_append]
    simp only [List.foldl_cons, List.foldl_nil]
    set D' := (List.range n).foldl
      (fun D i => Function.update D (i * (N + 1) + i) (-offSum N D i)) (fill N R)
    by_cases hd : j * (N + 1) + i = n * (N + 1) + n
    · obtain ⟨rfl, rfl⟩ := addr_inj hi (by omega) hd
      rw [Function.update_self, if_pos ⟨rfl, by omega⟩]
      rw [offSum_at, offSum_at]
      refine congrArg Neg.neg (sum_congr rfl fun k hk => ?_)
      rw [mem_range] at hk
      split_ifs with hik
      · rfl
      · rw [ih _ hi k (by omega), if_neg (by tauto)]
    · rw [Function.update_of_ne hd, ih i hi j hj]
      by_cases hij : i = j ∧ i < n
      · rw [if_pos hij, if_pos ⟨hij.1, by omega⟩]
      · rw [if_neg hij, if_neg]
        rintro ⟨rfl, h2⟩
        have : i = n := by
          by_contra hne
          exact hij ⟨rfl, by omega⟩
        subst this
        exact hd rfl

/-- The entries of `chebD`. -/
theorem chebD_at {N : ℕ} (R : ℝ) {i j : ℕ} (hi : i ≤ N) (hj : j ≤ N) :
    chebD N R (j * (N + 1) + i) =
      if i = j then -∑ k ∈ range (N + 1),
          (if i = k then 0 else (coef N i / coef N k) / (grid N R i - grid N R k))
      else (coef N i / coef N j) / (grid N R i - grid N R j) := by
  unfold chebD
  rw [chebD_loop N R (N + 1) le_rfl i hi j hj]
  by_cases hij : i = j
  · rw [if_pos ⟨hij, by omega⟩, if_pos hij, offSum_at]
    refine congrArg Neg.neg (sum_congr rfl fun k _ => ?_)
    rw [fill_at R k hi]
    split_ifs <;> rfl
  · rw [if_neg (by tauto), if_neg hij, fill_at R j hi, if_neg hij]

theorem grid_eq (N : ℕ) (R : ℝ) (i : ℕ) : grid N R i = R * tn N i + R := rfl

/-- **C63.** For every `N ≥ 1`, every scale `R ≠ 0` and every polynomial of degree at most `N`, row
`i` of the matrix `chebD` writes applied to the values at the grid points gives the derivative at
grid point `i`. -/
theorem chebD_exact {N : ℕ} (hN : 1 ≤ N) {R : ℝ} (hR : R ≠ 0) {p : ℝ[X]} (hp : p.natDegree ≤ N)
    {i : ℕ} (hi : i ≤ N) :
    ∑ j ∈ range (N + 1), chebD N R (j * (N + 1) + i) * p.eval (grid N R j)
      = (derivative p).eval (grid N R i) := by
  let g : ℝ[X] := p.comp (C R * X + C R)
  have hg : g.natDegree ≤ N := by
    refine natDegree_comp_le.trans ?_
    have : (C R * X + C R : ℝ[X]).natDegree ≤ 1 := natDegree_linear_le
    calc p.natDegree * _ ≤ p.natDegree * 1 := Nat.mul_le_mul_left _ this
      _ ≤ N := by omega
  have hge : ∀ t, g.eval t = p.eval (R * t + R) := by
    intro t; simp [g]
  have hgd : ∀ t, (derivative g).eval t = R * (derivative p).eval (R * t + R) := by
    intro t; simp [g, derivative_comp]
  have h := deriv_tn hN hg hi
  rw [hgd] at h
  have hsum : ∑ j ∈ range (N + 1), chebD N R (j * (N + 1) + i) * p.eval (grid N R j)
      = ∑ j ∈ range (N + 1), if i = j then 0 else
        (coef N i / coef N j) / (grid N R i - grid N R j) *
          (p.eval (grid N R j) - p.eval (grid N R i)) := by
    have e : ∀ j ∈ range (N + 1), chebD N R (j * (N + 1) + i) * p.eval (grid N R j)
        = (if i = j then 0 else (coef N i / coef N j) / (grid N R i - grid N R j)
            * p.eval (grid N R j))
          + (if j = i then chebD N R (i * (N + 1) + i) * p.eval (grid N R i) else 0) := by
      intro j hj
      rw [mem_range] at hj
      by_cases hij : i = j
      · subst hij; rw [if_pos rfl, if_pos rfl, zero_add]
      · rw [if_neg hij, if_neg (Ne.symm hij), chebD_at R hi (by omega), if_neg hij, add_zero]
    rw [sum_congr rfl e, sum_add_distrib, sum_ite_eq' , if_pos (mem_range.mpr (by omega)),
      chebD_at R hi hi, if_pos rfl, neg_mul, sum_mul, ← sub_eq_add_neg, ← sum_sub_distrib]
    refine sum_congr rfl fun j _ => ?_
    split_ifs <;> ring
  rw [hsum]
  refine mul_left_cancel₀ hR ?_
  rw [grid_eq N R i, h, mul_sum]
  refine sum_congr rfl fun j _ => ?_
  split_ifs
  · ring
  · rw [grid_eq, hge, hge, show R * tn N i + R - (R * tn N j + R) = R * (tn N i - tn N j) by ring,
      ← div_div, div_right_comm]
    field_simp

/-- The map from the radius to `x`. -/
noncomputable def xmap (α β r : ℝ) : ℝ := α * (1 - Real.exp (β * r))

theorem xmap_deriv (α β r : ℝ) : HasDerivAt (xmap α β) (-β * (α - xmap α β r)) r := by
  have h1 : HasDerivAt (fun r => β * r) β r := by simpa using (hasDerivAt_id r).const_mul β
  have h2 := (((h1.exp).const_sub 1).const_mul α)
  refine h2.congr_deriv ?_
  unfold xmap; ring

section
variable {N : ℕ} {R α β : ℝ}

theorem one_sub_pos (hα : α ≠ 0) (i : ℕ) :
    0 < 1 - grid N (α * (1 - Real.exp (2 * β * R)) / 2) i / α := by
  have h1 := Real.cos_le_one (Real.pi * i / N)
  have h2 := Real.neg_one_le_cos (Real.pi * i / N)
  have he := Real.exp_pos (2 * β * R)
  have : 1 - grid N (α * (1 - Real.exp (2 * β * R)) / 2) i / α
      = 1 - (1 - Real.exp (2 * β * R)) * ((Real.cos (Real.pi * i / N) + 1) / 2) := by
    unfold grid; field_simp
  rw [this]
  generalize Real.cos (Real.pi * i / N) = c at h1 h2
  generalize Real.exp (2 * β * R) = e at he
  rcases le_or_gt c 0 with hc | hc
  · have : 0 ≤ e * (c + 1) := mul_nonneg he.le (by linarith)
    linarith
  · have : 0 < e * (c + 1) := mul_pos he (by linarith)
    linarith

/-- The grid `x` is the image of the grid `r`. -/
theorem x_of_r (hα : α ≠ 0) (hβ : β ≠ 0) (i : ℕ) :
    (setGridGradLap (Params.mk' N R α β)).x i
      = xmap α β ((setGridGradLap (Params.mk' N R α β)).r i) := by
  have hpos := one_sub_pos (N := N) (R := R) (β := β) hα i
  unfold setGridGradLap Params.mk'
  dsimp only
  by_cases h0 : i = 0
  · subst h0
    rw [Function.update_self]
    unfold xmap grid
    simp only [Nat.cast_zero, mul_zero, zero_div, Real.cos_zero]
    rw [show β * (2 * R) = 2 * β * R by ring]; ring
  · rw [Function.update_of_ne h0]
    unfold xmap
    rw [← mul_assoc, mul_one_div_cancel hβ, one_mul, Real.exp_log hpos]
    field_simp
    ring

theorem grad_row (P : Params) {i : ℕ} (hi : i ≤ P.Nd) (u : ℕ → ℝ) :
    ∑ j ∈ range (P.Nd + 1), (setGridGradLap P).grad (j * (P.Nd + 1) + i) * u j
      = (setGridGradLap P).intScale i * ∑ j ∈ range (P.Nd + 1),
          chebD P.Nd P.xmax (j * (P.Nd + 1) + i) * u j := by
  unfold setGridGradLap
  dsimp only
  rw [mul_sum]
  refine sum_congr rfl fun j _ => ?_
  rw [addr_mod j hi]; ring

theorem lap_row (P : Params) {i : ℕ} (hi : i ≤ P.Nd) (u : ℕ → ℝ) :
    ∑ j ∈ range (P.Nd + 1), (setGridGradLap P).laplacian (j * (P.Nd + 1) + i) * u j
      = (setGridGradLap P).intScale i ^ 2 * ∑ k ∈ range (P.Nd + 1),
          chebD P.Nd P.xmax (k * (P.Nd + 1) + i) *
            ∑ j ∈ range (P.Nd + 1), chebD P.Nd P.xmax (j * (P.Nd + 1) + k) * u j
        + P.beta * (setGridGradLap P).intScale i * ∑ j ∈ range (P.Nd + 1),
          chebD P.Nd P.xmax (j * (P.Nd + 1) + i) * u j := by
  unfold setGridGradLap
  dsimp only
  have e : ∑ k ∈ range (P.Nd + 1), chebD P.Nd P.xmax (k * (P.Nd + 1) + i) *
            ∑ j ∈ range (P.Nd + 1), chebD P.Nd P.xmax (j * (P.Nd + 1) + k) * u j
      = ∑ j ∈ range (P.Nd + 1), (∑ k ∈ range (P.Nd + 1), chebD P.Nd P.xmax (k * (P.Nd + 1) + i) *
          chebD P.Nd P.xmax (j * (P.Nd + 1) + k)) * u j := by
    simp only [mul_sum, sum_mul]
    rw [sum_comm]
    exact sum_congr rfl fun j _ => sum_congr rfl fun k _ => by ring
  rw [e, mul_sum, mul_sum, ← sum_add_distrib]
  refine sum_congr rfl fun j _ => ?_
  rw [addr_mod j hi, addr_div j hi, foldl_add, zero_add]; ring

theorem xmax_ne (hα : α ≠ 0) (hβ : β ≠ 0) (hR : R ≠ 0) :
    α * (1 - Real.exp (2 * β * R)) / 2 ≠ 0 := by
  have h1 : Real.exp (2 * β * R) ≠ 1 := by
    intro h
    rw [Real.exp_eq_one_iff] at h
    rcases mul_eq_zero.mp h with h | h
    · exact hβ (by linarith)
    · exact hR h
  have : 1 - Real.exp (2 * β * R) ≠ 0 := fun h => h1 (by linarith)
  exact div_ne_zero (mul_ne_zero hα this) (by norm_num)

theorem f_deriv (p : ℝ[X]) (α β r : ℝ) :
    HasDerivAt (fun r => p.eval (xmap α β r))
      (-β * (α - xmap α β r) * (derivative p).eval (xmap α β r)) r := by
  have h := (p.hasDerivAt (xmap α β r)).comp r (xmap_deriv α β r)
  exact h.congr_deriv (by ring)

/-- **C63.** The gradient matrix differentiates in the radius: for every function
`f(r) = p(x(r))` with `p` a polynomial of degree at most `Nd` and `x(r) = α(1 - exp(β r))`, row `i` of
`grad` applied to the values of `f` at the radii `r[j]` is the derivative of `f` at `r[i]`. -/
theorem grad_exact (hN : 1 ≤ N) (hα : α ≠ 0) (hβ : β ≠ 0) (hR : R ≠ 0) {p : ℝ[X]}
    (hp : p.natDegree ≤ N) {i : ℕ} (hi : i ≤ N) :
    let o := setGridGradLap (Params.mk' N R α β)
    let f := fun r : ℝ => p.eval (α * (1 - Real.exp (β * r)))
    HasDerivAt f (∑ j ∈ range (N + 1), o.grad (j * (N + 1) + i) * f (o.r j)) (o.r i) := by
  intro o f
  have hx : ∀ j, f (o.r j) = p.eval (grid N (α * (1 - Real.exp (2 * β * R)) / 2) j) := fun j =>
    congrArg p.eval (x_of_r hα hβ j).symm
  have h := grad_row (Params.mk' N R α β) hi (fun j => f (o.r j))
  dsimp only [Params.mk'] at h
  simp only [hx] at h
  rw [chebD_exact hN (xmax_ne hα hβ hR) hp hi] at h
  simp only [hx]
  refine (f_deriv p α β (o.r i)).congr_deriv ?_
  rw [← x_of_r hα hβ i]
  exact h.symm

/-- **C63.** The Laplacian matrix gives the second derivative in the radius of the same functions. -/
theorem lap_exact (hN : 1 ≤ N) (hα : α ≠ 0) (hβ : β ≠ 0) (hR : R ≠ 0) {p : ℝ[X]}
    (hp : p.natDegree ≤ N) {i : ℕ} (hi : i ≤ N) :
    let o := setGridGradLap (Params.mk' N R α β)
    let f := fun r : ℝ => p.eval (α * (1 - Real.exp (β * r)))
    HasDerivAt (deriv f) (∑ j ∈ range (N + 1), o.laplacian (j * (N + 1) + i) * f (o.r j))
      (o.r i) := by
  intro o f
  have hx : ∀ j, f (o.r j) = p.eval (grid N (α * (1 - Real.exp (2 * β * R)) / 2) j) := fun j =>
    congrArg p.eval (x_of_r hα hβ j).symm
  have h := lap_row (Params.mk' N R α β) hi (fun j => f (o.r j))
  dsimp only [Params.mk'] at h
  simp only [hx] at h
  have hin : ∀ k ∈ range (N + 1), chebD N (α * (1 - Real.exp (2 * β * R)) / 2) (k * (N + 1) + i) *
      ∑ j ∈ range (N + 1), chebD N (α * (1 - Real.exp (2 * β * R)) / 2) (j * (N + 1) + k)
        * p.eval (grid N (α * (1 - Real.exp (2 * β * R)) / 2) j)
      = chebD N (α * (1 - Real.exp (2 * β * R)) / 2) (k * (N + 1) + i) *
        (derivative p).eval (grid N (α * (1 - Real.exp (2 * β * R)) / 2) k) := by
    intro k hk
    rw [mem_range] at hk
    rw [chebD_exact hN (xmax_ne hα hβ hR) hp (by omega)]
  have hp' : (derivative p).natDegree ≤ N := (natDegree_derivative_le p).trans (by omega)
  rw [sum_congr rfl hin, chebD_exact hN (xmax_ne hα hβ hR) hp hi,
    chebD_exact hN (xmax_ne hα hβ hR) hp' hi] at h
  simp only [hx]
  have hd : deriv f = fun r => -β * (α - xmap α β r) * (derivative p).eval (xmap α β r) :=
    funext fun r => (f_deriv p α β r).deriv
  rw [hd]
  have h2 := (((xmap_deriv α β (o.r i)).const_sub α).const_mul (-β)).mul
    (f_deriv (derivative p) α β (o.r i))
  refine h2.congr_deriv ?_
  refine Eq.trans ?_ h.symm
  rw [← x_of_r hα hβ i]
  change _ = (-β * (α - o.x i)) ^ 2 * (derivative (derivative p)).eval (o.x i)
    + β * (-β * (α - o.x i)) * (derivative p).eval (o.x i)
  ring

/-- The ends of the grid: `r[0]` is the outer radius and `r[Nd]` is the origin. -/
theorem r_ends (hN : 1 ≤ N) :
    (setGridGradLap (Params.mk' N R α β)).r 0 = 2 * R ∧
    (setGridGradLap (Params.mk' N R α β)).r N = 0 := by
  have hNR : (N : ℝ) ≠ 0 := by positivity
  unfold setGridGradLap Params.mk'
  dsimp only
  refine ⟨Function.update_self _ _ _, ?_⟩
  rw [Function.update_of_ne (by omega)]
  unfold grid
  rw [mul_div_assoc, div_self hNR, mul_one, Real.cos_pi]
  simp

/-- **C63.** With the signs the code uses the radii go down strictly from `2 Rmax` to `0`. -/
theorem r_decreasing (hα : 0 < α) (hβ : β < 0) (hR : 0 < R) {i j : ℕ}
    (hij : i < j) (hj : j ≤ N) :
    (setGridGradLap (Params.mk' N R α β)).r j < (setGridGradLap (Params.mk' N R α β)).r i := by
  have hx : ∀ i, (setGridGradLap (Params.mk' N R α β)).x i
      = xmap α β ((setGridGradLap (Params.mk' N R α β)).r i) :=
    fun i => x_of_r hα.ne' hβ.ne i
  have ht : tn N j < tn N i := by
    rw [tn_eq, tn_eq]; exact Polynomial.Chebyshev.node_lt hj hij
  have hexp : Real.exp (2 * β * R) < 1 := by
    rw [Real.exp_lt_one_iff]; nlinarith
  have hxm : 0 < α * (1 - Real.exp (2 * β * R)) / 2 := by
    have : 0 < 1 - Real.exp (2 * β * R) := by linarith
    positivity
  have hlt : (setGridGradLap (Params.mk' N R α β)).x j < (setGridGradLap (Params.mk' N R α β)).x i := by
    change (α * (1 - Real.exp (2 * β * R)) / 2) * tn N j + α * (1 - Real.exp (2 * β * R)) / 2
      < (α * (1 - Real.exp (2 * β * R)) / 2) * tn N i + α * (1 - Real.exp (2 * β * R)) / 2
    have := mul_lt_mul_of_pos_left ht hxm
    linarith
  rw [hx, hx] at hlt
  unfold xmap at hlt
  have h1 : Real.exp (β * (setGridGradLap (Params.mk' N R α β)).r i)
      < Real.exp (β * (setGridGradLap (Params.mk' N R α β)).r j) := by
    by_contra hc
    push Not at hc
    have := mul_le_mul_of_nonneg_left hc hα.le
    linarith
  rw [Real.exp_lt_exp] at h1
  by_contra hc
  push Not at hc
  have := mul_le_mul_of_nonpos_left hc hβ.le
  linarith

/-- Away from the origin. -/
theorem r_ne_zero (hα : α ≠ 0) (hβ : β ≠ 0) (hR : R ≠ 0) {i : ℕ} (hi : i < N) :
    (setGridGradLap (Params.mk' N R α β)).r i ≠ 0 := by
  intro h
  have hx := x_of_r (N := N) (R := R) hα hβ i
  rw [h] at hx
  have ht : tn N N < tn N i := by
    rw [tn_eq, tn_eq]; exact Polynomial.Chebyshev.node_lt le_rfl hi
  have hN : tn N N = -1 := by
    have hNR : (N : ℝ) ≠ 0 := by
      have : 0 < N := by omega
      positivity
    unfold tn; rw [mul_div_assoc, div_self hNR, mul_one, Real.cos_pi]
  have hx2 : (α * (1 - Real.exp (2 * β * R)) / 2) * (tn N i + 1) = 0 := by
    have : (setGridGradLap (Params.mk' N R α β)).x i
      = (α * (1 - Real.exp (2 * β * R)) / 2) * tn N i + α * (1 - Real.exp (2 * β * R)) / 2 := rfl
    rw [this] at hx
    simp only [xmap, mul_zero, Real.exp_zero, sub_self] at hx
    linarith
  rcases mul_eq_zero.mp hx2 with h | h
  · exact xmax_ne hα hβ hR h
  · rw [hN] at ht; linarith

/-- **C63.** The radial derivative of the density used by the gradient functionals: if
`r ρ(r)` is a polynomial of degree at most `Nd` in `x(r)` that vanishes at the origin and at the outer
radius, the code's `Drho` at an interior point is the derivative of `ρ` there. -/
theorem drho_exact (hα : α ≠ 0) (hβ : β ≠ 0) (hR : R ≠ 0) {p : ℝ[X]}
    (hp : p.natDegree ≤ N) {ρ : ℝ → ℝ} (hρ : ∀ r, r * ρ r = p.eval (α * (1 - Real.exp (β * r))))
    (h0 : p.eval 0 = 0) (hend : ρ (2 * R) = 0) {i : ℕ} (hi : i + 1 < N) :
    let o := setGridGradLap (Params.mk' N R α β)
    HasDerivAt ρ (drho (Params.mk' N R α β) (fun j => ρ (o.r (j + 1))) i) (o.r (i + 1)) := by
  intro o
  have hN : 1 ≤ N := by omega
  obtain ⟨n, rfl⟩ : ∃ n, N = n + 1 := ⟨N - 1, by omega⟩
  obtain ⟨hr0, hrN⟩ := r_ends (N := n + 1) (R := R) (α := α) (β := β) hN
  have hg := grad_exact hN hα hβ hR hp (i := i + 1) (by omega)
  dsimp only at hg
  have hsum : ∑ j ∈ range (n + 1 + 1), (setGridGradLap (Params.mk' (n + 1) R α β)).grad
        (j * (n + 1 + 1) + (i + 1)) *
        p.eval (α * (1 - Real.exp (β * (setGridGradLap (Params.mk' (n + 1) R α β)).r j)))
      = ∑ j ∈ range n, o.grad ((i + 1) + (j + 1) * (n + 1 + 1)) * (o.r (j + 1) * ρ (o.r (j + 1))) := by
    rw [sum_range_succ, sum_range_succ', hr0, hrN, ← hρ (2 * R), hend]
    simp only [mul_zero, Real.exp_zero, sub_self, h0, add_zero]
    refine sum_congr rfl fun j _ => ?_
    rw [← hρ, Nat.add_comm ((j + 1) * (n + 1 + 1))]
  rw [hsum] at hg
  have hne : o.r (i + 1) ≠ 0 := r_ne_zero hα hβ hR (by omega)
  have hq := hg.div (hasDerivAt_id (o.r (i + 1))) hne
  have hev : ρ =ᶠ[nhds (o.r (i + 1))]
      ((fun r : ℝ => p.eval (α * (1 - Real.exp (β * r)))) / id) := by
    filter_upwards [isOpen_ne.mem_nhds hne] with r hr
    have hr' : r ≠ 0 := hr
    simp only [Pi.div_apply, id]
    rw [← hρ r, mul_div_cancel_left₀ _ hr']
  refine (hq.congr_of_eventuallyEq hev).congr_deriv ?_
  have hdef : drho (Params.mk' (n + 1) R α β) (fun j => ρ (o.r (j + 1))) i
      = (∑ j ∈ range n, o.grad ((i + 1) + (j + 1) * (n + 1 + 1)) * (o.r (j + 1) * ρ (o.r (j + 1)))
        - ρ (o.r (i + 1))) / o.r (i + 1) := by
    unfold drho
    dsimp only [Params.mk']
    rw [foldl_add, zero_add]
    rfl
  rw [hdef]
  have hpv : p.eval (α * (1 - Real.exp (β * o.r (i + 1)))) = o.r (i + 1) * ρ (o.r (i + 1)) :=
    (hρ _).symm
  change (_ * o.r (i + 1) - p.eval (α * (1 - Real.exp (β * o.r (i + 1)))) * 1) / o.r (i + 1) ^ 2 = _
  rw [hpv]
  generalize ∑ j ∈ range n, o.grad ((i + 1) + (j + 1) * (n + 1 + 1)) *
    (o.r (j + 1) * ρ (o.r (j + 1))) = S
  field_simp

/-- **C63.** The radial Poisson equation: if `u(r)` is a polynomial of degree at most `Nd` in `x(r)`
with `u(0) = 0`, `u(2 Rmax) = Znucl` and `u'' = -4π r ρ` at the interior points, then its values at the
points `0 … Nd-1` satisfy the linear system handed to `dgesv`. -/
theorem poisson_exact (hN : 1 ≤ N) (hα : α ≠ 0) (hβ : β ≠ 0) (hR : R ≠ 0) {p : ℝ[X]}
    (hp : p.natDegree ≤ N) {rho : ℕ → ℝ} {Z : ℝ} (h0 : p.eval 0 = 0)
    (hend : p.eval (α * (1 - Real.exp (β * (2 * R)))) = Z)
    (hode : ∀ i, i + 1 < N →
      deriv (deriv fun r : ℝ => p.eval (α * (1 - Real.exp (β * r))))
        ((setGridGradLap (Params.mk' N R α β)).r (i + 1))
      = -4 * Real.pi * (setGridGradLap (Params.mk' N R α β)).r (i + 1) * rho i)
    {row : ℕ} (hrow : row < N) :
    ∑ col ∈ range N, poissonMat (Params.mk' N R α β) (col * N + row) *
      p.eval (α * (1 - Real.exp (β * (setGridGradLap (Params.mk' N R α β)).r col)))
      = poissonRhs (Params.mk' N R α β) rho Z row := by
  obtain ⟨hr0, hrN⟩ := r_ends (N := N) (R := R) (α := α) (β := β) hN
  have hmod : ∀ col, (col * N + row) % N = row := fun col => by
    rw [Nat.add_comm, Nat.add_mul_mod_self_right, Nat.mod_eq_of_lt hrow]
  have hdiv : ∀ col, (col * N + row) / N = col := fun col => by
    rw [Nat.add_comm, Nat.add_mul_div_right _ _ (by omega), Nat.div_eq_of_lt hrow, zero_add]
  unfold poissonMat poissonRhs
  dsimp only
  change ∑ col ∈ range N, (if col * N + row = 0 then 1 else if (col * N + row) % N = 0 then 0 else
    (setGridGradLap (Params.mk' N R α β)).laplacian
      ((col * N + row) / N * (N + 1) + (col * N + row) % N)) * _ = _
  simp only [hmod, hdiv]
  by_cases hz : row = 0
  · subst hz
    rw [if_pos rfl]
    rw [Finset.sum_eq_single 0]
    · rw [if_pos (by ring), one_mul, hr0, hend]
    · intro c _ hc
      rw [if_neg, if_pos rfl, zero_mul]
      have : 0 < c * N := Nat.mul_pos (Nat.pos_of_ne_zero hc) hN
      omega
    · intro h; exact absurd (mem_range.mpr hN) h
  · rw [if_neg hz]
    obtain ⟨i, rfl⟩ : ∃ i, row = i + 1 := ⟨row - 1, by omega⟩
    have hl := (lap_exact hN hα hβ hR hp (i := i + 1) (by omega)).deriv
    dsimp only at hl
    rw [hode i hrow, sum_range_succ, hrN] at hl
    simp only [mul_zero, Real.exp_zero, sub_self, h0, add_zero] at hl
    rw [Nat.add_sub_cancel, hl]
    refine sum_congr rfl fun c _ => ?_
    rw [if_neg (by omega), if_neg hz]

end

/-! ## Quadrature -/

/-- The end coefficient of the cosine series of the weights. -/
noncomputable def bk (N k : ℕ) : ℝ := if 2 * k = N then 1 else 2

theorem tele (n : ℕ) : ∑ k ∈ range n, 2 / (4 * ((k : ℝ) + 1) * ((k : ℝ) + 1) - 1)
    = 1 - 1 / (2 * n + 1) := by
  induction n with
  | zero => simp
  | succ n ih =>
    rw [sum_range_succ, ih]
    have h1 : (2 * (n : ℝ) + 1) ≠ 0 := by positivity
    have h2 : (2 * ((n + 1 : ℕ) : ℝ) + 1) ≠ 0 := by positivity
    have h3 : 4 * ((n : ℝ) + 1) * ((n : ℝ) + 1) - 1 = (2 * n + 1) * (2 * ((n + 1 : ℕ) : ℝ) + 1) := by
      push_cast; ring
    rw [h3]
    field_simp
    push_cast; ring

theorem ccV_eq {N : ℕ} (hN : 1 ≤ N) (i : ℕ) : ccV N i = 1 - ∑ k ∈ range (N / 2),
    bk N (k + 1) * Real.cos (2 * ((k : ℝ) + 1) * theta N i)
      / (4 * ((k : ℝ) + 1) * ((k : ℝ) + 1) - 1) := by
  unfold ccV
  by_cases he : N % 2 = 0
  · rw [if_pos he]
    dsimp only
    rw [foldl_fun (N / 2 - 1) (fun k' i => 2 * Real.cos (2 * ((k' : ℝ) + 1) * theta N i) /
      (4 * ((k' : ℝ) + 1) * ((k' : ℝ) + 1) - 1))]
    obtain ⟨n, hn⟩ : ∃ n, N = 2 * (n + 1) := ⟨N / 2 - 1, by omega⟩
    have h1 : N / 2 = n + 1 := by omega
    rw [h1, Nat.add_sub_cancel, sum_range_succ]
    have hb : bk N (n + 1) = 1 := by unfold bk; rw [if_pos (by omega)]
    have hb2 : ∀ k ∈ range n, bk N (k + 1) = 2 := by
      intro k hk; rw [mem_range] at hk; unfold bk; rw [if_neg (by omega)]
    have hs : ∑ k ∈ range n, bk N (k + 1) * Real.cos (2 * ((k : ℝ) + 1) * theta N i)
          / (4 * ((k : ℝ) + 1) * ((k : ℝ) + 1) - 1)
        = ∑ k ∈ range n, 2 * Real.cos (2 * ((k : ℝ) + 1) * theta N i)
          / (4 * ((k : ℝ) + 1) * ((k : ℝ) + 1) - 1) := sum_congr rfl fun k hk => by rw [hb2 k hk]
    rw [hb, hs]
    have hc : (N : ℝ) = 2 * ((n : ℝ) + 1) := by rw [hn]; push_cast; ring
    rw [hc, show 2 * ((n : ℝ) + 1) * (2 * ((n : ℝ) + 1)) = 4 * ((n : ℝ) + 1) * ((n : ℝ) + 1) by ring]
    ring
  · rw [if_neg he]
    rw [foldl_fun ((N - 1) / 2) (fun k' i => 2 * Real.cos (2 * ((k' : ℝ) + 1) * theta N i) /
      (4 * ((k' : ℝ) + 1) * ((k' : ℝ) + 1) - 1))]
    rw [show (N - 1) / 2 = N / 2 by omega]
    refine congrArg (1 - ·) (sum_congr rfl fun k _ => ?_)
    unfold bk; rw [if_neg (by omega)]

/-- The end weights fit the interior formula. -/
theorem end_weight {N : ℕ} (hN : 1 ≤ N) :
    (if N % 2 = 0 then 1 / ((N : ℝ) * N - 1) else 1 / ((N : ℝ) * N))
      = (1 - ∑ k ∈ range (N / 2), bk N (k + 1) / (4 * ((k : ℝ) + 1) * ((k : ℝ) + 1) - 1)) / N := by
  by_cases he : N % 2 = 0
  · rw [if_pos he]
    obtain ⟨n, rfl⟩ : ∃ n, N = 2 * (n + 1) := ⟨N / 2 - 1, by omega⟩
    rw [show 2 * (n + 1) / 2 = n + 1 by omega, sum_range_succ]
    have hb : bk (2 * (n + 1)) (n + 1) = 1 := if_pos rfl
    have hb2 : ∀ k ∈ range n, bk (2 * (n + 1)) (k + 1) = 2 := by
      intro k hk; rw [mem_range] at hk; unfold bk; rw [if_neg (by omega)]
    rw [hb, sum_congr rfl (fun k hk => by rw [hb2 k hk]), tele]
    push_cast
    have h1 : 2 * (n : ℝ) + 1 ≠ 0 := by positivity
    have h2 : 2 * (n : ℝ) + 3 ≠ 0 := by positivity
    have h3 : 4 * ((n : ℝ) + 1) * ((n : ℝ) + 1) - 1 = (2 * n + 1) * (2 * n + 3) := by ring
    have h4 : 2 * ((n : ℝ) + 1) * (2 * ((n : ℝ) + 1)) - 1 = (2 * n + 1) * (2 * n + 3) := by ring
    have h5 : (n : ℝ) + 1 ≠ 0 := by positivity
    rw [h3, h4]
    field_simp
    ring
  · rw [if_neg he]
    have hb2 : ∀ k ∈ range (N / 2), bk N (k + 1) = 2 := by
      intro k hk; unfold bk; rw [if_neg (by omega)]
    rw [sum_congr rfl (fun k hk => by rw [hb2 k hk]), tele]
    have hc : (N : ℝ) = 2 * ((N / 2 : ℕ) : ℝ) + 1 := by
      have : N = 2 * (N / 2) + 1 := by omega
      exact_mod_cast this
    have hNR : (N : ℝ) ≠ 0 := by positivity
    rw [← hc]
    field_simp
    ring

/-- All weights in one formula. -/
theorem clencurt_eq {N : ℕ} (hN : 1 ≤ N) {j : ℕ} (hj : j ≤ N) :
    clencurt N j = (if j = 0 ∨ j = N then (1 : ℝ) else 2) *
      ((1 - ∑ k ∈ range (N / 2), bk N (k + 1) / (4 * ((k : ℝ) + 1) * ((k : ℝ) + 1) - 1)
        * Real.cos (((2 * ((k : ℤ) + 1) : ℤ) : ℝ) * (Real.pi * j / N))) / N) := by
  have hNR : (N : ℝ) ≠ 0 := by positivity
  unfold clencurt
  by_cases hin : 1 ≤ j ∧ j ≤ N - 1
  · rw [if_pos hin, if_neg (by omega), ccV_eq hN]
    rw [mul_div_assoc]
    refine congrArg (2 * ·) (congrArg (· / (N : ℝ)) (congrArg (1 - ·) (sum_congr rfl fun k _ => ?_)))
    unfold theta; push_cast; ring
  · have hends : j = 0 ∨ j = N := by omega
    rw [if_neg hin, if_pos hends, if_pos hends, one_mul, end_weight hN]
    refine congrArg (· / (N : ℝ)) (congrArg (1 - ·) (sum_congr rfl fun k _ => ?_))
    have : Real.cos (((2 * ((k : ℤ) + 1) : ℤ) : ℝ) * (Real.pi * j / N)) = 1 := by
      rcases (by omega : j = 0 ∨ j = N) with rfl | rfl
      · simp
      · rw [mul_div_assoc, div_self hNR, mul_one]
        rw [show (((2 * ((k : ℤ) + 1) : ℤ) : ℝ)) * Real.pi = ((k + 1 : ℕ) : ℝ) * (2 * Real.pi) by
          push_cast; ring]
        exact Real.cos_nat_mul_two_pi (k + 1)
    rw [this, mul_one]

/-- Exactness on a Chebyshev polynomial. -/
theorem clencurt_T {N : ℕ} (hN : 1 ≤ N) {m : ℕ} (hm : m ≤ N) :
    ∑ j ∈ range (N + 1), clencurt N j * (T ℝ (m : ℤ)).eval (tn N j)
      = ∫ x in (-1 : ℝ)..1, (T ℝ (m : ℤ)).eval x := by
  have hNR : (N : ℝ) ≠ 0 := by positivity
  rw [integral_T]
  have hT : ∀ j, (T ℝ (m : ℤ)).eval (tn N j) = Real.cos ((m : ℤ) * (Real.pi * j / N)) := by
    intro j; unfold tn; rw [Polynomial.Chebyshev.T_real_cos]
  have hsum : ∑ j ∈ range (N + 1), clencurt N j * (T ℝ (m : ℤ)).eval (tn N j)
      = (1 / N) * (trap N (fun j => Real.cos ((m : ℤ) * (Real.pi * j / N)))
        - ∑ k ∈ range (N / 2), bk N (k + 1) / (4 * ((k : ℝ) + 1) * ((k : ℝ) + 1) - 1) *
          trap N (fun j => Real.cos (((2 * ((k : ℤ) + 1) : ℤ) : ℝ) * (Real.pi * j / N))
            * Real.cos ((m : ℤ) * (Real.pi * j / N)))) := by
    simp only [← trap_smul]
    rw [← trap_sum, sub_eq_add_neg, ← neg_one_mul (trap N _), ← trap_smul, ← trap_add, ← trap_smul,
      trap_weights hN]
    refine sum_congr rfl fun j hj => ?_
    rw [mem_range] at hj
    rw [clencurt_eq hN (by omega), hT]
    simp only [← mul_assoc, ← sum_mul]
    generalize (∑ k ∈ range (N / 2), bk N (k + 1) / (4 * ((k : ℝ) + 1) * ((k : ℝ) + 1) - 1)
        * Real.cos (((2 * ((k : ℤ) + 1) : ℤ) : ℝ) * (Real.pi * j / N))) = S
    ring
  rw [hsum]
  simp only [trap_cos_mul hN]
  rw [trap_cos hN]
  by_cases hm0 : m = 0
  · subst hm0
    have hz : ∀ k ∈ range (N / 2), bk N (k + 1) / (4 * ((k : ℝ) + 1) * ((k : ℝ) + 1) - 1) *
        (1 / 2 * ((if 2 * (N : ℤ) ∣ 2 * ((k : ℤ) + 1) + ((0 : ℕ) : ℤ) then 2 * (N : ℝ) else 0) +
          if 2 * (N : ℤ) ∣ 2 * ((k : ℤ) + 1) - ((0 : ℕ) : ℤ) then 2 * (N : ℝ) else 0)) = 0 := by
      intro k hk
      rw [mem_range] at hk
      have hnd : ¬ 2 * (N : ℤ) ∣ 2 * ((k : ℤ) + 1) := by
        intro h
        have := Int.le_of_dvd (by omega) h
        omega
      simp only [Nat.cast_zero, add_zero, sub_zero, if_neg hnd, mul_zero]
    rw [sum_congr rfl hz]
    simp only [Nat.cast_zero, dvd_zero, if_true, sum_const_zero, sub_zero]
    norm_num
    field_simp
  · have hnd0 : ¬ 2 * (N : ℤ) ∣ (m : ℤ) := by
      intro h
      have := Int.le_of_dvd (by omega) h
      omega
    rw [if_neg hnd0, zero_sub]
    by_cases he : m % 2 = 0
    · rw [if_pos he]
      obtain ⟨a, ha⟩ : ∃ a, m = 2 * (a + 1) := ⟨m / 2 - 1, by omega⟩
      rw [Finset.sum_eq_single a]
      · have hd2 : 2 * (N : ℤ) ∣ 2 * ((a : ℤ) + 1) - (m : ℤ) := by
          rw [ha]; push_cast; rw [show 2 * ((a : ℤ) + 1) - 2 * ((a : ℤ) + 1) = 0 by ring]
          exact dvd_zero _
        rw [if_pos hd2]
        have hq : (m : ℝ) = 2 * ((a : ℝ) + 1) := by rw [ha]; push_cast; ring
        have h4 : 4 * ((a : ℝ) + 1) * ((a : ℝ) + 1) - 1 = (m : ℝ) ^ 2 - 1 := by rw [hq]; ring
        have h5 : (m : ℝ) ^ 2 - 1 ≠ 0 := by
          have : (m : ℝ) ^ 2 - 1 = (2 * a + 1) * (2 * a + 3) := by rw [hq]; ring
          rw [this]; positivity
        have h6 : 1 - (m : ℝ) ^ 2 ≠ 0 := fun h => h5 (by linarith)
        rw [h4]
        unfold bk
        by_cases hmN : m = N
        · have hd1 : 2 * (N : ℤ) ∣ 2 * ((a : ℤ) + 1) + (m : ℤ) := ⟨1, by omega⟩
          rw [if_pos hd1, if_pos (by omega)]
          rw [show (1 : ℝ) - (m : ℝ) ^ 2 = -((m : ℝ) ^ 2 - 1) by ring]
          field_simp
          ring
        · have hd1 : ¬ 2 * (N : ℤ) ∣ 2 * ((a : ℤ) + 1) + (m : ℤ) := by
            intro h
            have := Int.le_of_dvd (by omega) h
            omega
          rw [if_neg hd1, if_neg (by omega)]
          rw [show (1 : ℝ) - (m : ℝ) ^ 2 = -((m : ℝ) ^ 2 - 1) by ring]
          field_simp
          ring
      · intro k hk hka
        rw [mem_range] at hk
        have hd1 : ¬ 2 * (N : ℤ) ∣ 2 * ((k : ℤ) + 1) + (m : ℤ) := by
          intro h
          have := Int.le_of_dvd (by omega) h
          omega
        have hd2 : ¬ 2 * (N : ℤ) ∣ 2 * ((k : ℤ) + 1) - (m : ℤ) := by
          intro h
          rcases lt_trichotomy (2 * ((k : ℤ) + 1) - (m : ℤ)) 0 with h1 | h1 | h1
          · have := Int.le_of_dvd (by omega : 0 < -(2 * ((k : ℤ) + 1) - (m : ℤ))) (Int.dvd_neg.mpr h)
            omega
          · omega
          · have := Int.le_of_dvd h1 h
            omega
        rw [if_neg hd1, if_neg hd2]; ring
      · intro h
        rw [mem_range] at h
        omega
    · rw [if_neg he]
      have hz : ∀ k ∈ range (N / 2), bk N (k + 1) / (4 * ((k : ℝ) + 1) * ((k : ℝ) + 1) - 1) *
          (1 / 2 * ((if 2 * (N : ℤ) ∣ 2 * ((k : ℤ) + 1) + (m : ℤ) then 2 * (N : ℝ) else 0) +
            if 2 * (N : ℤ) ∣ 2 * ((k : ℤ) + 1) - (m : ℤ) then 2 * (N : ℝ) else 0)) = 0 := by
        intro k hk
        have hd1 : ¬ 2 * (N : ℤ) ∣ 2 * ((k : ℤ) + 1) + (m : ℤ) := by
          rintro ⟨c, hc⟩
          have : (2 * ((k : ℤ) + 1) + (m : ℤ)) % 2 = 0 := by
            rw [hc, mul_assoc]; exact Int.mul_emod_right 2 _
          omega
        have hd2 : ¬ 2 * (N : ℤ) ∣ 2 * ((k : ℤ) + 1) - (m : ℤ) := by
          rintro ⟨c, hc⟩
          have : (2 * ((k : ℤ) + 1) - (m : ℤ)) % 2 = 0 := by
            rw [hc, mul_assoc]; exact Int.mul_emod_right 2 _
          omega
        rw [if_neg hd1, if_neg hd2]; ring
      rw [sum_congr rfl hz]; simp

/-- **C64.** The weights of `clencurt` integrate every polynomial of degree at most `N` over
`[-1, 1]` exactly, for every `N ≥ 1`, even or odd. -/
theorem clencurt_exact {N : ℕ} (hN : 1 ≤ N) {p : ℝ[X]} (hp : p.natDegree ≤ N) :
    ∑ j ∈ range (N + 1), clencurt N j * p.eval (Real.cos (Real.pi * j / N))
      = ∫ x in (-1 : ℝ)..1, p.eval x := by
  let L : ℝ[X] →ₗ[ℝ] ℝ :=
    { toFun := fun p => ∑ j ∈ range (N + 1), clencurt N j * p.eval (tn N j)
        - ∫ x in (-1 : ℝ)..1, p.eval x
      map_add' := by
        intro p q
        simp only [eval_add, mul_add, sum_add_distrib]
        rw [intervalIntegral.integral_add (p.continuous.intervalIntegrable _ _)
          (q.continuous.intervalIntegrable _ _)]
        ring
      map_smul' := by
        intro c p
        simp only [eval_smul, smul_eq_mul, RingHom.id_apply]
        rw [intervalIntegral.integral_const_mul, mul_sub, mul_sum]
        refine congrArg (· - _) (sum_congr rfl fun j _ => by ring) }
  have h := cheb_span (N := N) L (fun m hm => sub_eq_zero.mpr (clencurt_T hN hm)) N le_rfl p hp
  exact sub_eq_zero.mp h

/-- **C64.** The scaled weights integrate over the grid `x`, from `0` to `2 xmax`. -/
theorem weights_exact {P : Params} (hN : 1 ≤ P.Nd) {p : ℝ[X]} (hp : p.natDegree ≤ P.Nd) :
    ∑ j ∈ range (P.Nd + 1), (setGridGradLap P).w j * p.eval ((setGridGradLap P).x j)
      = ∫ x in (0 : ℝ)..(2 * P.xmax), p.eval x := by
  let g : ℝ[X] := p.comp (C P.xmax * X + C P.xmax)
  have hg : g.natDegree ≤ P.Nd := by
    refine natDegree_comp_le.trans ?_
    have : (C P.xmax * X + C P.xmax : ℝ[X]).natDegree ≤ 1 := natDegree_linear_le
    calc p.natDegree * _ ≤ p.natDegree * 1 := Nat.mul_le_mul_left _ this
      _ ≤ P.Nd := by omega
  have hge : ∀ t, g.eval t = p.eval (P.xmax * t + P.xmax) := by
    intro t; simp [g]
  have h := clencurt_exact hN hg
  simp only [hge] at h
  have hi := intervalIntegral.mul_integral_comp_mul_add (a := -1) (b := 1)
    (f := fun x => p.eval x) P.xmax P.xmax
  rw [show P.xmax * (-1) + P.xmax = 0 by ring, show P.xmax * 1 + P.xmax = 2 * P.xmax by ring] at hi
  rw [← hi, ← h, mul_sum]
  refine sum_congr rfl fun j _ => ?_
  change clencurt P.Nd j * P.xmax * p.eval (P.xmax * Real.cos (Real.pi * j / P.Nd) + P.xmax) = _
  ring

theorem clencurt_pos {N : ℕ} (hN : 1 ≤ N) {j : ℕ} (hj : j ≤ N) : 0 < clencurt N j := by
  have hNR : 0 < (N : ℝ) := by exact_mod_cast hN
  rw [clencurt_eq hN hj]
  have hend : 0 < (1 - ∑ k ∈ range (N / 2),
      bk N (k + 1) / (4 * ((k : ℝ) + 1) * ((k : ℝ) + 1) - 1)) := by
    have h := end_weight hN
    have hpos : 0 < (if N % 2 = 0 then 1 / ((N : ℝ) * N - 1) else 1 / ((N : ℝ) * N)) := by
      split_ifs with he
      · have : (2 : ℝ) ≤ N := by exact_mod_cast (by omega : 2 ≤ N)
        have : 0 < (N : ℝ) * N - 1 := by nlinarith
        positivity
      · positivity
    rw [h] at hpos
    by_contra hc
    push Not at hc
    exact absurd hpos (not_lt.mpr (div_nonpos_of_nonpos_of_nonneg hc hNR.le))
  have hle : ∑ k ∈ range (N / 2), bk N (k + 1) / (4 * ((k : ℝ) + 1) * ((k : ℝ) + 1) - 1)
        * Real.cos (((2 * ((k : ℤ) + 1) : ℤ) : ℝ) * (Real.pi * j / N))
      ≤ ∑ k ∈ range (N / 2), bk N (k + 1) / (4 * ((k : ℝ) + 1) * ((k : ℝ) + 1) - 1) := by
    refine sum_le_sum fun k _ => ?_
    have h1 : 0 ≤ bk N (k + 1) / (4 * ((k : ℝ) + 1) * ((k : ℝ) + 1) - 1) := by
      refine div_nonneg ?_ ?_
      · unfold bk; split_ifs <;> norm_num
      · have : 4 * ((k : ℝ) + 1) * ((k : ℝ) + 1) - 1 = (2 * k + 1) * (2 * k + 3) := by ring
        rw [this]; positivity
    exact mul_le_of_le_one_right h1 (Real.cos_le_one _)
  refine mul_pos (by split_ifs <;> norm_num) (div_pos (by linarith) hNR)

/-- **C64.** Integrals over the radius: for a function `g(r) = x'(r) p(x(r))` with `p` a polynomial of
degree at most `Nd` in `x` that vanishes at both ends, the sum the code forms from the interior
values is `∫ g` from `0` to `2 Rmax`. -/
theorem radial_exact {N : ℕ} {R α β : ℝ} (hN : 1 ≤ N) (hα : α ≠ 0) (hβ : β ≠ 0) {p : ℝ[X]}
    (hp : p.natDegree ≤ N) (h0 : p.eval 0 = 0)
    (hend : p.eval (α * (1 - Real.exp (β * (2 * R)))) = 0) :
    let o := setGridGradLap (Params.mk' N R α β)
    let g := fun r : ℝ => -α * β * Real.exp (β * r) * p.eval (α * (1 - Real.exp (β * r)))
    radialSum (Params.mk' N R α β) (fun j => g (o.r (j + 1))) = ∫ r in (0 : ℝ)..(2 * R), g r := by
  intro o g
  obtain ⟨n, rfl⟩ : ∃ n, N = n + 1 := ⟨N - 1, by omega⟩
  have hxr : ∀ j, o.x j = xmap α β (o.r j) := fun j => x_of_r hα hβ j
  have hs : ∀ j, o.intScale j = -α * β * Real.exp (β * o.r j) * -1 * -1 := by
    intro j
    change -β * (α - o.x j) = _
    rw [hxr]; unfold xmap; ring
  have hs0 : ∀ j, o.intScale j ≠ 0 := by
    intro j
    rw [hs]
    have := (Real.exp_pos (β * o.r j)).ne'
    simp [hα, hβ]
  obtain ⟨hr0, hrN⟩ := r_ends (N := n + 1) (R := R) (α := α) (β := β) hN
  -- the substitution
  have hsub : ∫ r in (0 : ℝ)..(2 * R), g r
      = ∫ x in (0 : ℝ)..(2 * (Params.mk' (n + 1) R α β).xmax), p.eval x := by
    have h := intervalIntegral.integral_comp_mul_deriv (a := 0) (b := 2 * R) (g := fun x => p.eval x)
      (f := xmap α β) (f' := fun r => -β * (α - xmap α β r))
      (fun r _ => xmap_deriv α β r)
      (by
        have : Continuous fun r => -β * (α - xmap α β r) := by unfold xmap; fun_prop
        exact this.continuousOn) p.continuous
    have e0 : xmap α β 0 = 0 := by simp [xmap]
    have e1 : xmap α β (2 * R) = 2 * (Params.mk' (n + 1) R α β).xmax := by
      change α * (1 - Real.exp (β * (2 * R))) = 2 * (α * (1 - Real.exp (2 * β * R)) / 2)
      rw [show β * (2 * R) = 2 * β * R by ring]; ring
    rw [e0, e1] at h
    rw [← h]
    refine intervalIntegral.integral_congr fun r _ => ?_
    simp only [g, Function.comp, xmap]; ring
  rw [hsub, ← weights_exact (P := Params.mk' (n + 1) R α β) hN hp]
  change radialSum _ _ = ∑ j ∈ range (n + 1 + 1), o.w j * p.eval (o.x j)
  have hx0 : p.eval (o.x 0) = 0 := by
    have hr0' : o.r 0 = 2 * R := hr0
    rw [hxr, hr0']; exact hend
  have hxN : p.eval (o.x (n + 1)) = 0 := by
    have hrN' : o.r (n + 1) = 0 := hrN
    rw [hxr, hrN']; simpa [xmap] using h0
  rw [sum_range_succ, sum_range_succ', hx0, hxN, mul_zero, mul_zero, add_zero, add_zero]
  unfold radialSum
  dsimp only
  rw [foldl_add, zero_add]
  refine sum_congr rfl fun j _ => ?_
  change o.w (j + 1) / o.intScale (j + 1) * g (o.r (j + 1)) = _
  have hg : g (o.r (j + 1)) = o.intScale (j + 1) * p.eval (o.x (j + 1)) := by
    rw [hs, hxr]; simp only [g, xmap]; ring
  rw [hg]
  have := hs0 (j + 1)
  field_simp

/-- **C64.** With the signs the code uses, the integral of a function that is nowhere negative, and
positive at some interior point, comes out positive: the weights are positive. -/
theorem radial_pos {N : ℕ} {R α β : ℝ} (hα : 0 < α) (hβ : β < 0) (hR : 0 < R)
    {f : ℕ → ℝ} (hf : ∀ j, j + 1 < N → 0 ≤ f j) {a : ℕ} (ha : a + 1 < N) (hfa : 0 < f a) :
    0 < radialSum (Params.mk' N R α β) f := by
  unfold radialSum
  dsimp only [Params.mk']
  rw [foldl_add, zero_add]
  have hexp : Real.exp (2 * β * R) < 1 := by
    rw [Real.exp_lt_one_iff]; nlinarith
  have hxm : 0 < α * (1 - Real.exp (2 * β * R)) / 2 := by
    have : 0 < 1 - Real.exp (2 * β * R) := by linarith
    positivity
  have hw : ∀ j, j + 1 < N → 0 < (setGridGradLap (Params.mk' N R α β)).w (j + 1) /
      (setGridGradLap (Params.mk' N R α β)).intScale (j + 1) := by
    intro j hj
    refine div_pos (mul_pos (clencurt_pos (N := N) (by omega) (by omega)) hxm) ?_
    have hx : (setGridGradLap (Params.mk' N R α β)).x (j + 1) = _ := x_of_r hα.ne' hβ.ne (j + 1)
    change 0 < -β * (α - (setGridGradLap (Params.mk' N R α β)).x (j + 1))
    rw [hx]
    unfold xmap
    have := Real.exp_pos (β * (setGridGradLap (Params.mk' N R α β)).r (j + 1))
    have h2 := mul_pos hα this
    have h3 : 0 < -β := by linarith
    refine mul_pos h3 ?_
    linarith
  refine sum_pos' (fun j hj => ?_) ⟨a, mem_range.mpr (by omega), mul_pos (hw a ha) hfa⟩
  have hj : j < N - 1 := mem_range.mp hj
  exact mul_nonneg (hw j (by omega)).le (hf j (by omega))

/-! ## Examples -/

/-- The default grid of the code. -/
example : (setGridGradLap Params.default).r 0 = 40 ∧ (setGridGradLap Params.default).r 400 = 0 := by
  have h := r_ends (N := 400) (R := 20) (α := 1) (β := -0.45) (by norm_num)
  exact ⟨h.1.trans (by norm_num), h.2⟩

/-- A cubic on the grid with `N = 3`, `R = 2`. -/
example : ∑ j ∈ range 4, chebD 3 2 (j * 4 + 1) * (grid 3 2 j) ^ 3 = 27 := by
  have h := chebD_exact (N := 3) (by norm_num) (R := 2) (by norm_num)
    (p := X ^ 3) (by simp) (i := 1) (by norm_num)
  simp only [eval_pow, eval_X, derivative_X_pow, eval_mul, eval_natCast, map_natCast] at h
  rw [show (3 + 1 : ℕ) = 4 from rfl] at h
  rw [h]
  have hg : grid 3 2 1 = 3 := by
    unfold grid; push_cast; rw [mul_one, Real.cos_pi_div_three]; norm_num
  rw [hg]; norm_num

/-- `∫ x² = 2/3` with three points. -/
example : ∑ j ∈ range 3, clencurt 2 j * (Real.cos (Real.pi * j / 2)) ^ 2 = 2 / 3 := by
  have h := clencurt_exact (N := 2) (by norm_num) (p := X ^ 2) (by simp)
  simp only [eval_pow, eval_X] at h
  have e : ((2 : ℕ) : ℝ) = 2 := by norm_num
  rw [e] at h
  rw [show (2 + 1 : ℕ) = 3 from rfl] at h
  rw [h, integral_pow]; norm_num

/-- The gradient of `1 - exp(-r/2)` on three points. -/
example : HasDerivAt (fun r : ℝ => (X : ℝ[X]).eval (1 * (1 - Real.exp (-1 / 2 * r))))
    (∑ j ∈ range 3, (setGridGradLap (Params.mk' 2 1 1 (-1 / 2))).grad (j * 3 + 1) *
      (X : ℝ[X]).eval (1 * (1 - Real.exp (-1 / 2 *
        (setGridGradLap (Params.mk' 2 1 1 (-1 / 2))).r j))))
    ((setGridGradLap (Params.mk' 2 1 1 (-1 / 2))).r 1) :=
  grad_exact (N := 2) (by norm_num) (by norm_num) (by norm_num) (by norm_num)
    (by simp) (by norm_num)

/-- The hypotheses of `drho_exact` and `radial_exact` are met: `p = X (X - x(2R))`. -/
example : ∃ (p : ℝ[X]) (ρ : ℝ → ℝ), p.natDegree ≤ 4 ∧ p ≠ 0 ∧
    (∀ r, r * ρ r = p.eval (1 * (1 - Real.exp (-1 * r)))) ∧ p.eval 0 = 0 ∧ ρ (2 * 3) = 0 ∧
    p.eval (1 * (1 - Real.exp (-1 * (2 * 3)))) = 0 := by
  refine ⟨X * (X - C (1 * (1 - Real.exp (-1 * (2 * 3))))),
    fun r => (X * (X - C (1 * (1 - Real.exp (-1 * (2 * 3)))))).eval (1 * (1 - Real.exp (-1 * r))) / r,
    ?_, ?_, ?_, ?_, ?_, ?_⟩
  · refine natDegree_mul_le.trans ?_
    rw [natDegree_X, natDegree_X_sub_C]; norm_num
  · exact mul_ne_zero X_ne_zero (X_sub_C_ne_zero _)
  · intro r
    by_cases hr : r = 0
    · subst hr; simp
    · rw [mul_div_cancel₀ _ hr]
  · simp
  · simp
  · simp

/-- The hypotheses of `poisson_exact` are met: `p = X`, with the density read off from it. -/
example : ∀ row < 5,
    ∑ col ∈ range 5, poissonMat (Params.mk' 5 2 1 (-1)) (col * 5 + row) *
      (X : ℝ[X]).eval (1 * (1 - Real.exp (-1 * (setGridGradLap (Params.mk' 5 2 1 (-1))).r col)))
      = poissonRhs (Params.mk' 5 2 1 (-1)) (fun i =>
          deriv (deriv fun r : ℝ => (X : ℝ[X]).eval (1 * (1 - Real.exp (-1 * r))))
            ((setGridGradLap (Params.mk' 5 2 1 (-1))).r (i + 1))
          / (-4 * Real.pi * (setGridGradLap (Params.mk' 5 2 1 (-1))).r (i + 1)))
        (1 * (1 - Real.exp (-1 * (2 * 2)))) row := by
  intro row hrow
  refine poisson_exact (by norm_num) (by norm_num) (by norm_num) (by norm_num) (by simp) (by simp)
    (by simp) ?_ hrow
  intro i hi
  have h1 : (setGridGradLap (Params.mk' 5 2 1 (-1))).r (i + 1) ≠ 0 :=
    r_ne_zero (by norm_num) (by norm_num) (by norm_num) hi
  have h2 := Real.pi_ne_zero
  field_simp

end Sparc.Spectral

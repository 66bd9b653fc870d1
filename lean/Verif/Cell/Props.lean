import Verif.Cell.Model
import Mathlib.Algebra.BigOperators.Fin
import Mathlib.Analysis.SpecialFunctions.Pow.Deriv

/-!
# Properties of the relaxation of the cell (C115, C116)
-/

namespace Sparc.Cell
open Finset

/-- A cell of positive lengths. -/
structure Ok (c : Cell) : Prop where
  L : ∀ i, 0 < c.L i
  J : 0 < c.J

theorem Ok.vol {c : Cell} (h : Ok c) : 0 < c.vol := mul_pos (mul_pos (mul_pos (h.L 0) (h.L 1)) (h.L 2)) h.J

theorem ndim_pos {d : Fin 3 → Bool} (hd : ∃ i, d i = true) : 0 < ndim d := by
  obtain ⟨i, hi⟩ := hd
  unfold ndim
  fin_cases i <;> simp at hi <;> simp [hi]

theorem scal_pos {c : Cell} (h : Ok c) {d : Fin 3 → Bool} {v : ℝ} (hv : 0 < v) : 0 < scal d v c :=
  Real.rpow_pos_of_pos (div_pos hv h.vol) _

theorem scal_pow {c : Cell} (h : Ok c) {d : Fin 3 → Bool} (hd : ∃ i, d i = true) {v : ℝ} (hv : 0 < v) :
    scal d v c ^ ndim d = v / c.vol := by
  unfold scal
  rw [← Real.rpow_natCast, ← Real.rpow_mul (div_pos hv h.vol).le, one_div, inv_mul_cancel₀, Real.rpow_one]
  exact_mod_cast (ndim_pos hd).ne'

/-! ## C115: the cell of a volume -/

/-- A positive volume is accepted; the cell has it; the directions not relaxed keep their lengths, the
relaxed ones change by one factor; spacings and positions change with the lengths, so that numbers of
points and fractional coordinates stay; the volume element is that of the new spacings. -/
theorem cell_of_volume {c : Cell} (h : Ok c) {d : Fin 3 → Bool} (hd : ∃ i, d i = true) {v : ℝ} (hv : 0 < v) :
    ∃ c', reinit d v c = some c' ∧ Ok c' ∧ c'.L 0 * c'.L 1 * c'.L 2 * c'.J = v ∧ c'.J = c.J ∧
      (∀ i, d i = false → c'.L i = c.L i) ∧
      (∀ i j, d i = true → d j = true → c'.L i * c.L j = c.L i * c'.L j) ∧
      (∀ i, c'.delta i * c.L i = c.delta i * c'.L i) ∧
      c'.dV = c'.delta 0 * c'.delta 1 * c'.delta 2 * c'.J ∧
      c'.atoms.length = c.atoms.length ∧
      ∀ (k : ℕ) (x y : Fin 3 → ℝ), c.atoms[k]? = some x → c'.atoms[k]? = some y → ∀ i, y i / c'.L i = x i / c.L i := by
  have hs := scal_pos (d := d) h hv
  have hp := scal_pow h hd hv
  have hV := h.vol
  refine ⟨_, if_neg (not_le.2 hv), ⟨fun i => ?_, h.J⟩, ?_, rfl, ?_, ?_, ?_, rfl, by simp, ?_⟩
  · dsimp only
    split
    · exact mul_pos (h.L i) hs
    · exact h.L i
  · dsimp only
    have : v = c.vol * scal d v c ^ ndim d := by rw [hp]; field_simp
    conv_rhs => rw [this]
    unfold Cell.vol ndim
    cases d 0 <;> cases d 1 <;> cases d 2 <;> simp <;> ring
  · intro i hi; dsimp only; rw [hi]; simp
  · intro i j hi hj; dsimp only; rw [hi, hj]; simp; ring
  · intro i; dsimp only; split <;> ring
  · intro k x y hx hy i
    simp only [List.getElem?_map, hx, Option.map_some, Option.some.injEq] at hy
    rw [← hy]
    dsimp only
    split
    · rw [mul_div_mul_right _ _ hs.ne']
    · rfl

/-- No other volume is. -/
theorem volume_refused (c : Cell) (d : Fin 3 → Bool) {v : ℝ} (hv : v ≤ 0) : reinit d v c = none := if_pos hv

/-- The cell of a volume does not depend on the volumes tried before. -/
theorem history_immaterial {c : Cell} (h : Ok c) {d : Fin 3 → Bool} (hd : ∃ i, d i = true) {v w : ℝ} (hv : 0 < v)
    (hw : 0 < w) : (reinit d v c).bind (reinit d w) = reinit d w c := by
  obtain ⟨c', h1, h2, h3, -⟩ := cell_of_volume h hd hv
  have hvol : c'.vol = v := h3
  have hs : scal d v c * scal d w c' = scal d w c := by
    unfold scal
    rw [hvol, ← Real.mul_rpow (div_pos hv h.vol).le (div_pos hw hv).le]
    congr 1
    have := h.vol.ne'
    field_simp
  have e1 : reinit d v c = some _ := if_neg (not_le.2 hv)
  rw [h1, Option.bind_some]
  have hc : c' = _ := Option.some.inj (h1.symm.trans e1)
  unfold reinit
  rw [if_neg (not_le.2 hw), if_neg (not_le.2 hw)]
  dsimp only
  have hL : ∀ i, c'.L i = if d i then c.L i * scal d v c else c.L i := by intro i; rw [hc]
  have hD : ∀ i, c'.delta i = if d i then c.delta i * scal d v c else c.delta i := by intro i; rw [hc]
  have hJ : c'.J = c.J := by rw [hc]
  have hA : c'.atoms = c.atoms.map fun x i => if d i then x i * scal d v c else x i := by rw [hc]
  have key : ∀ (x : ℝ) (b : Bool), (if b then (if b then x * scal d v c else x) * scal d w c' else (if b then x * scal d v c else x)) =
      if b then x * scal d w c else x := by
    intro x b; cases b <;> simp; rw [mul_assoc, hs]
  simp only [hL, hD, hJ, hA, key, List.map_map, Function.comp_def]

/-- The directions relaxed are the periodic ones. -/
theorem dims_periodic (bc : Fin 3 → ℕ) (i : Fin 3) : dims bc i = true ↔ bc i = 0 := by
  unfold dims; simp

/-- The volumes of the first bracket: the present one is inside, and for each of them no length changes
by more than the largest dilatation. -/
theorem bracket {c : Cell} (h : Ok c) {d : Fin 3 → Bool} (hd : ∃ i, d i = true) {m : ℝ} (hm : 1 ≤ m) :
    (bounds m (ndim d) c.vol).1 ≤ c.vol ∧ c.vol ≤ (bounds m (ndim d) c.vol).2 ∧
    ∀ v, (bounds m (ndim d) c.vol).1 ≤ v → v ≤ (bounds m (ndim d) c.vol).2 →
      ∃ c', reinit d v c = some c' ∧ ∀ i, c.L i / m ≤ c'.L i ∧ c'.L i ≤ c.L i * m := by
  have hV := h.vol
  have hm0 : 0 < m := by linarith
  have hmn : 1 ≤ m ^ ndim d := one_le_pow₀ hm
  have hmn0 : 0 < m ^ ndim d := by linarith
  unfold bounds
  dsimp only
  refine ⟨(div_le_iff₀ hmn0).2 (by nlinarith), by nlinarith, fun v h1 h2 => ?_⟩
  have hv : 0 < v := lt_of_lt_of_le (div_pos hV hmn0) h1
  refine ⟨_, if_neg (not_le.2 hv), fun i => ?_⟩
  have hs := scal_pos (d := d) h hv
  have hp := scal_pow h hd hv
  have hn := (ndim_pos hd).ne'
  have hup : scal d v c ≤ m := by
    refine le_of_pow_le_pow_left₀ hn hm0.le ?_
    rw [hp, div_le_iff₀ hV]; linarith
  have hlo : 1 / m ≤ scal d v c := by
    refine le_of_pow_le_pow_left₀ hn hs.le ?_
    rw [hp, one_div, inv_pow, le_div_iff₀ hV]
    rw [div_eq_mul_inv] at h1; linarith
  have hL := h.L i
  dsimp only
  split
  · refine ⟨?_, mul_le_mul_of_nonneg_left hup hL.le⟩
    calc c.L i / m = c.L i * (1 / m) := by ring
      _ ≤ _ := mul_le_mul_of_nonneg_left hlo hL.le
  · exact ⟨div_le_self hL.le hm, by nlinarith⟩

/-- The lower end after `k` enlargements of the bracket. -/
noncomputable def lowest (m : ℝ) (n k : ℕ) (V : ℝ) : ℝ := (V / m ^ n + V * m ^ n) / 2 - 2 ^ k * ((V * m ^ n - V / m ^ n) / 2)

/-- If the residual has one sign on the first bracket and on the two after it, the search tries the third
enlargement, whose lower end is a positive volume only if `7 m^(2n) < 9`. -/
theorem third_enlargement {m V : ℝ} {n : ℕ} (hm : 0 < m) (hV : 0 < V) : 0 < lowest m n 3 V ↔ 7 * (m ^ n) ^ 2 < 9 := by
  unfold lowest
  have hx : 0 < m ^ n := pow_pos hm n
  generalize m ^ n = x at hx
  have : (V / x + V * x) / 2 - 2 ^ 3 * ((V * x - V / x) / 2) = V / (2 * x) * (9 - 7 * x ^ 2) := by
    field_simp; ring
  rw [this]
  have hp : 0 < V / (2 * x) := by positivity
  constructor
  · intro h; by_contra hc; nlinarith
  · intro h; exact mul_pos hp (by linarith)

/-- With the default dilatation 1.06 it is not when three directions are relaxed (it is for one or two):
the search then ends the program with an invalid volume in place of the message on the bracket. -/
theorem default_dilatation {V : ℝ} (hV : 0 < V) :
    lowest 1.06 3 3 V < 0 ∧ 0 < lowest 1.06 2 3 V ∧ 0 < lowest 1.06 1 3 V := by
  refine ⟨?_, ?_, ?_⟩
  · unfold lowest; norm_num; nlinarith
  · rw [third_enlargement (by norm_num) hV]; norm_num
  · rw [third_enlargement (by norm_num) hV]; norm_num

/-- The search does call the residual there: the points evaluated when the residual has no root. -/
theorem evaluated_lowest {m V : ℝ} {n : ℕ} (f : ℝ → ℝ) (hf : ∀ x y, 0 < f x * f y) (tolx tolf : ℝ) (niter : ℕ) :
    ∃ ev, Brent.volumeSearch f tolx tolf niter (bounds m n V).1 (bounds m n V).2 = .noBracket ev ∧ lowest m n 3 V ∈ ev := by
  unfold Brent.volumeSearch Brent.search
  simp only [Brent.expand, gt_iff_lt, hf, if_true]
  refine ⟨_, rfl, ?_⟩
  simp only [List.mem_append, List.mem_cons, bounds, lowest]
  right; left; ring

/-- If the lower end of the bracket is as good as the tolerance asks, it is what the search returns, but
the cell is left at the upper end, the one tried last. -/
theorem lower_end_lost {c : Cell} (h : Ok c) {d : Fin 3 → Bool} (hd : ∃ i, d i = true) {m tolf : ℝ} (hm : 1 < m)
    {f : ℝ → ℝ} {niter : ℕ}
    (h1 : |f (c.vol / m ^ ndim d)| < tolf) (h2 : f (c.vol / m ^ ndim d) < 0) (h3 : 0 < f (c.vol * m ^ ndim d))
    (h4 : |f (c.vol / m ^ ndim d)| < |f (c.vol * m ^ ndim d)|) :
    ∃ c', relaxCell f d m tolf (niter + 1) c = some (c.vol / m ^ ndim d, c') ∧
      c'.L 0 * c'.L 1 * c'.L 2 * c'.J = c.vol * m ^ ndim d ∧ c.vol / m ^ ndim d < c.vol * m ^ ndim d := by
  have hV := h.vol
  have hmn : 1 < m ^ ndim d := one_lt_pow₀ hm (ndim_pos hd).ne'
  have hmn0 : 0 < m ^ ndim d := by linarith
  have hlt : c.vol / m ^ ndim d < c.vol * m ^ ndim d :=
    ((div_lt_iff₀ hmn0).2 (by nlinarith)).trans (by nlinarith : c.vol < c.vol * m ^ ndim d)
  have hsearch : Brent.volumeSearch f (1 / 10 ^ 4) tolf (niter + 1) (c.vol / m ^ ndim d) (c.vol * m ^ ndim d) =
      .found (c.vol / m ^ ndim d) [c.vol / m ^ ndim d, c.vol * m ^ ndim d] := by
    generalize c.vol / m ^ ndim d = x at *
    generalize c.vol * m ^ ndim d = y at *
    have hneg : ¬ 0 < f x * f y := not_lt.2 (mul_nonpos_of_nonpos_of_nonneg h2.le h3.le)
    have he : Brent.expand f 3 x y [x, y] = (x, y, [x, y]) := by
      rw [Brent.expand, if_neg hneg]
    unfold Brent.volumeSearch Brent.search
    dsimp only
    rw [he]
    dsimp only
    rw [if_neg hneg, Brent.run]
    have ha : Brent.adjust2 (Brent.adjust1 { a := x, b := y, c := y, fa := f x, fb := f y, fc := f y, d := 0, e := 0, evals := [x, y] })
        = { a := y, b := x, c := y, fa := f y, fb := f x, fc := f y, d := y - x, e := y - x, evals := [x, y] } := by
      simp [Brent.adjust1, Brent.adjust2, h3, h4]
    unfold Brent.body
    dsimp only
    rw [ha]
    simp [h1]
  obtain ⟨c1, e1, ok1, -⟩ := cell_of_volume h hd (div_pos hV hmn0)
  obtain ⟨c2, e2, -, v2, -⟩ := cell_of_volume ok1 hd (mul_pos hV hmn0)
  refine ⟨c2, ?_, v2, hlt⟩
  unfold relaxCell bounds
  dsimp only
  rw [hsearch]
  simp [List.foldlM_cons, e1, e2]

/-- A cell, three relaxed directions, and a residual with a small value at the lower end. -/
example : Ok ⟨fun _ => 10, fun _ => 1 / 2, 1, 1 / 8, [fun _ => 3]⟩ ∧ (∃ i, (fun _ : Fin 3 => true) i = true) :=
  ⟨⟨fun _ => by norm_num, by norm_num⟩, 0, rfl⟩

/-- The lower end lost: a cubic cell with the default dilatation and tolerance. -/
example : ∃ c', relaxCell (fun v => v - 1000 / 1.06 ^ 3 - 1 / 1000) (fun _ => true) 1.06 (1 / 100) (0 + 1)
      ⟨fun _ => 10, fun _ => 1 / 2, 1, 1 / 8, [fun _ => 3]⟩ = some (1000 / 1.06 ^ 3, c') ∧
    c'.L 0 * c'.L 1 * c'.L 2 * c'.J = 1000 * 1.06 ^ 3 := by
  have hV : Cell.vol ⟨fun _ => 10, fun _ => 1 / 2, 1, 1 / 8, [fun _ => 3]⟩ = 1000 := by norm_num [Cell.vol]
  have hn : ndim (fun _ => true) = 3 := by simp [ndim]
  have h := lower_end_lost (c := ⟨fun _ => 10, fun _ => 1 / 2, 1, 1 / 8, [fun _ => 3]⟩) (d := fun _ => true) (m := 1.06)
    (tolf := 1 / 100) (f := fun v => v - 1000 / 1.06 ^ 3 - 1 / 1000) (niter := 0)
    ⟨fun _ => by norm_num, by norm_num⟩ ⟨0, rfl⟩ (by norm_num)
  rw [hV, hn] at h
  obtain ⟨c', h1, h2, -⟩ := h (by norm_num [abs_lt]) (by norm_num) (by norm_num) (by
    rw [abs_of_neg (by norm_num), abs_of_pos (by norm_num)]; norm_num)
  exact ⟨c', h1, h2⟩

/-! ## C116: the residual -/

/-- The product of the rows of `gradT` with the lattice vectors is the identity. -/
theorem dual {U : ℕ → ℝ} {det : ℝ} (hdet : det = U 0 * (U 4 * U 8 - U 5 * U 7) - U 1 * (U 3 * U 8 - U 5 * U 6) + U 2 * (U 3 * U 7 - U 4 * U 6))
    (h0 : det ≠ 0) (k l : Fin 3) :
    ∑ i : Fin 3, U (3 * i + k) * Coord.gradT U det (3 * i + l) = if k = l then 1 else 0 := by
  fin_cases k <;> fin_cases l <;> simp [Fin.sum_univ_three, Coord.gradT] <;> field_simp <;>
    first | ring1 | (rw [hdet]; ring1)

/-- The residual is minus the mean of the stress over the strain that scales the relaxed directions, minus
the target: `e` is the strain that takes the lattice vectors of relaxed directions to themselves and the others
to zero. -/
theorem residual_strain {typ : ℕ} {U : ℕ → ℝ} {det : ℝ}
    (hdet : det = U 0 * (U 4 * U 8 - U 5 * U 7) - U 1 * (U 3 * U 8 - U 5 * U 6) + U 2 * (U 3 * U 7 - U 4 * U 6)) (h0 : det ≠ 0)
    (htyp : (10 < typ ∧ typ < 20) ∨ ∀ i k : Fin 3, U (3 * i + k) = if i = k then 1 else 0)
    (s : Fin 3 → Fin 3 → ℝ) (hs : ∀ k l, s k l = s l k) (d : Fin 3 → Bool) (bc2 : Bool) (target : ℝ) (e : Fin 3 → Fin 3 → ℝ)
    (he : ∀ i k : Fin 3, ∑ l : Fin 3, e k l * U (3 * i + l) = if d i then U (3 * i + k) else 0) :
    residual typ U (Coord.gradT U det) ![s 0 0, s 0 1, s 0 2, s 1 1, s 1 2, s 2 2] d bc2 target =
      -((if bc2 then 29421.01569650548 else 1) * (∑ k, ∑ l, s k l * e k l) /
        (univ.filter fun i => d i = true).card) - target := by
  have hdual := dual hdet h0
  set g := Coord.gradT U det with hg
  have hexp : ∀ k l : Fin 3, e k l = ∑ i : Fin 3, (if d i then U (3 * i + k) else 0) * g (3 * i + l) := by
    intro k l
    have h1 : e k l = ∑ m : Fin 3, e k m * (if m = l then 1 else 0) := by simp
    rw [h1]
    simp only [← hdual, ← he, mul_sum, sum_mul]
    rw [sum_comm]
    exact sum_congr rfl fun i _ => sum_congr rfl fun m _ => by ring
  have hwork : ∑ k, ∑ l, s k l * e k l = ∑ i : Fin 3, if d i then ∑ k : Fin 3, ∑ l : Fin 3, U (3 * i + k) * s k l * g (3 * i + l) else 0 := by
    have h1 : ∀ k l : Fin 3, s k l * e k l = ∑ i : Fin 3, if d i then U (3 * i + k) * s k l * g (3 * i + l) else 0 := by
      intro k l
      rw [hexp, mul_sum]
      refine sum_congr rfl fun i _ => ?_
      split <;> ring
    simp only [h1]
    have h2 : ∀ k : Fin 3, (∑ l : Fin 3, ∑ i : Fin 3, if d i then U (3 * i + k) * s k l * g (3 * i + l) else 0) =
        ∑ i : Fin 3, ∑ l : Fin 3, if d i then U (3 * i + k) * s k l * g (3 * i + l) else 0 := fun k => sum_comm
    rw [sum_congr rfl fun k _ => h2 k, sum_comm]
    refine sum_congr rfl fun i _ => ?_
    cases d i <;> simp
  have hdiag : ∀ i : Fin 3, diag typ U g ![s 0 0, s 0 1, s 0 2, s 1 1, s 1 2, s 2 2] i =
      ∑ k : Fin 3, ∑ l : Fin 3, U (3 * i + k) * s k l * g (3 * i + l) := by
    intro i
    have hfull : ∀ k l : Fin 3, full ![s 0 0, s 0 1, s 0 2, s 1 1, s 1 2, s 2 2] (3 * k + l) = s k l := by
      intro k l
      fin_cases k <;> fin_cases l <;> simp [full] <;> exact hs _ _
    unfold diag
    by_cases ht : 10 < typ ∧ typ < 20
    · rw [if_pos ht, sum_range]
      refine sum_congr rfl fun k _ => ?_
      rw [sum_range]
      exact sum_congr rfl fun l _ => by rw [hfull]
    · have hU := htyp.resolve_left ht
      have hgi : ∀ k l : Fin 3, g (3 * k + l) = if k = l then 1 else 0 := by
        intro k l
        rw [← hdual k l]
        simp [hU]
      rw [if_neg ht]
      simp only [hU, hgi, mul_ite, mul_one, mul_zero, sum_ite_eq, mem_univ, if_true, ite_mul, one_mul, zero_mul]
      fin_cases i <;> simp
  have hcard : ((univ.filter fun i => d i = true).card : ℝ) = ndim d := by
    rw [card_filter, Fin.sum_univ_three]; unfold ndim; push_cast; rfl
  rw [hcard, hwork]
  unfold residual gpa
  simp only [hdiag, Fin.sum_univ_three]
  cases bc2
  · simp only [Bool.false_eq_true, if_false, one_mul]
  · simp only [if_true]
    congr 3
    cases d 0 <;> cases d 1 <;> cases d 2 <;> simp <;> ring

/-- The residual is the pressure minus the target: if the energy `E` as a function of the three lengths, at fixed
fractional coordinates, changes under the strain that scales the relaxed directions by the stress times
the measure `mu` of the cell (its volume if all directions are periodic), then its derivative in the volume the
search varies is `mu / V * p`, and the residual is `-p` (in GPa if all directions are periodic) minus the
target. -/
theorem residual_pressure {c : Cell} (h : Ok c) {d : Fin 3 → Bool} (hd : ∃ i, d i = true) {typ : ℕ} {U : ℕ → ℝ} {det : ℝ}
    (hdet : det = U 0 * (U 4 * U 8 - U 5 * U 7) - U 1 * (U 3 * U 8 - U 5 * U 6) + U 2 * (U 3 * U 7 - U 4 * U 6)) (h0 : det ≠ 0)
    (htyp : (10 < typ ∧ typ < 20) ∨ ∀ i k : Fin 3, U (3 * i + k) = if i = k then 1 else 0)
    (s : Fin 3 → Fin 3 → ℝ) (hs : ∀ k l, s k l = s l k) (bc2 : Bool) (target : ℝ) (e : Fin 3 → Fin 3 → ℝ)
    (he : ∀ i k : Fin 3, ∑ l : Fin 3, e k l * U (3 * i + l) = if d i then U (3 * i + k) else 0)
    (E : (Fin 3 → ℝ) → ℝ) (mu : ℝ)
    (hE : HasDerivAt (fun t => E fun i => if d i then t * c.L i else c.L i) (mu * ∑ k, ∑ l, s k l * e k l) 1)
    (len : ℝ → Fin 3 → ℝ) (hlen : ∀ v, 0 < v → ∃ c', reinit d v c = some c' ∧ len v = c'.L) :
    ∃ p, HasDerivAt (fun v => E (len v)) (mu / c.vol * p) c.vol ∧
      residual typ U (Coord.gradT U det) ![s 0 0, s 0 1, s 0 2, s 1 1, s 1 2, s 2 2] d bc2 target =
        -((if bc2 then 29421.01569650548 else 1) * p) - target := by
  have hV := h.vol
  have hn : (ndim d : ℝ) ≠ 0 := by exact_mod_cast (ndim_pos hd).ne'
  have hcard : ((univ.filter fun i => d i = true).card : ℝ) = ndim d := by
    rw [card_filter, Fin.sum_univ_three]; unfold ndim; push_cast; rfl
  refine ⟨(∑ k, ∑ l, s k l * e k l) / ndim d, ?_, ?_⟩
  · have hsc : HasDerivAt (fun v => scal d v c) (1 / (ndim d * c.vol)) c.vol := by
      have h1 : HasDerivAt (fun v : ℝ => v / c.vol) (1 / c.vol) c.vol := (hasDerivAt_id _).div_const _
      have h2 := h1.rpow_const (p := (1 : ℝ) / ndim d) (Or.inl (by rw [div_self hV.ne']; norm_num))
      rw [div_self hV.ne', Real.one_rpow, mul_one] at h2
      have e3 : 1 / c.vol * (1 / (ndim d : ℝ)) = 1 / (ndim d * c.vol) := by field_simp
      rw [e3] at h2
      exact h2
    have hone : scal d c.vol c = 1 := by unfold scal; rw [div_self hV.ne', Real.one_rpow]
    rw [← hone] at hE
    have hcomp := hE.comp c.vol hsc
    have e4 : mu * (∑ k, ∑ l, s k l * e k l) * (1 / (ndim d * c.vol)) = mu / c.vol * ((∑ k, ∑ l, s k l * e k l) / ndim d) := by
      field_simp
    rw [e4] at hcomp
    refine hcomp.congr_of_eventuallyEq ?_
    filter_upwards [lt_mem_nhds hV] with v hv
    obtain ⟨c', h1, h2⟩ := hlen v hv
    have h3 : reinit d v c = some _ := if_neg (not_le.2 hv)
    have h4 : c' = _ := Option.some.inj (h1.symm.trans h3)
    show E (len v) = _
    rw [h2, h4]
    simp only [Function.comp]
    congr 1
    funext i
    split <;> ring
  · rw [residual_strain hdet h0 htyp s hs d bc2 target e he, hcard, mul_div_assoc]


/-- A hexagonal cell relaxed in its plane: the strain that keeps the third vector. -/
example : let U : ℕ → ℝ := fun n => ![1, 0, 0, 1 / 2, 2, 0, 0, 0, 1] (Fin.ofNat 9 n)
    (∀ i k : Fin 3, ∑ l : Fin 3, (if k = l ∧ k ≠ 2 then (1 : ℝ) else 0) * U (3 * i + l) =
      if (fun i : Fin 3 => i != 2) i then U (3 * i + k) else 0) ∧
    U 0 * (U 4 * U 8 - U 5 * U 7) - U 1 * (U 3 * U 8 - U 5 * U 6) + U 2 * (U 3 * U 7 - U 4 * U 6) ≠ 0 := by
  intro U
  refine ⟨fun i k => ?_, by simp [U, Fin.ofNat]⟩
  fin_cases i <;> fin_cases k <;> simp [U, Fin.ofNat]

end Sparc.Cell

import Verif.Exx.Fourier
import Mathlib.Analysis.SpecialFunctions.Pow.Deriv
import Mathlib.Analysis.SpecialFunctions.Sqrt
import Mathlib.Analysis.SpecialFunctions.ExpDeriv
import Mathlib.Analysis.SpecialFunctions.Trigonometric.Bounds

/-!
# Properties of the Poisson solves of exact exchange

The table of Bloch shifts (C106) is in `Table.lean`.
-/

namespace Sparc.Exx

open Classical

/-! ## C107: the solve for a pair of Bloch vectors -/

/-- The wave `exp(i v·r)` on the mesh points `r = (i L1/Nx, j L2/Ny, k L3/Nz)`. -/
noncomputable def wave (M : Mesh) (v : Vec) (i j k : ℕ) : ℂ :=
  Complex.exp (((v.1 * (i * M.L.1 / M.Nx) + v.2.1 * (j * M.L.2.1 / M.Ny) + v.2.2 * (k * M.L.2.2 / M.Nz) : ℝ) : ℂ) *
    Complex.I)

/-- A direction with a Bloch shift is periodic: its `range` is `N` steps long. -/
def Periodic (M : Mesh) (s : Vec) : Prop :=
  s.1 * M.R.1 = s.1 * M.L.1 ∧ s.2.1 * M.R.2.1 = s.2.1 * M.L.2.1 ∧ s.2.2 * M.R.2.2 = s.2.2 * M.L.2.2

/-- **The solve is diagonal in Bloch waves.**  For every pair `(k, q)` and every integer frequency
`m` that the mesh resolves, the wave with the vector `2π m/L + s`, `s = k - q` to `1e-12`, is
returned multiplied by the multiplier at the squared length of that very vector. -/
theorem bloch_wave_solved (P : Ker) (M : Mesh) (ks qs : List Vec) (t : Tab) (h : findShift ks qs = some t)
    (ik iq : ℕ) (k q : Vec) (hk : ks[ik]? = some k) (hq : qs[iq]? = some q)
    (hx : 0 < M.Nx) (hy : 0 < M.Ny) (hz : 0 < M.Nz) (hLx : M.L.1 ≠ 0) (hLy : M.L.2.1 ≠ 0) (hLz : M.L.2.2 ≠ 0) :
    ∃ (l : ℕ) (s : Vec), t.map[ik + iq * ks.length]? = some l ∧
      |s.1 - (k.1 - q.1)| < 1 / 10 ^ 12 ∧ |s.2.1 - (k.2.1 - q.2.1)| < 1 / 10 ^ 12 ∧
      |s.2.2 - (k.2.2 - q.2.2)| < 1 / 10 ^ 12 ∧
      (Periodic M s → ∀ mx my mz : ℤ, -(M.Nx : ℤ) < 2 * mx → 2 * mx ≤ M.Nx → -(M.Ny : ℤ) < 2 * my → 2 * my ≤ M.Ny →
        -(M.Nz : ℤ) < 2 * mz → 2 * mz ≤ M.Nz →
        ∀ v : Vec, v = (2 * Real.pi * mx / M.L.1 + s.1, 2 * Real.pi * my / M.L.2.1 + s.2.1,
          2 * Real.pi * mz / M.L.2.2 + s.2.2) →
        ∀ rhs : Field, (∀ i j k, i < M.Nx → j < M.Ny → k < M.Nz → rhs i j k = wave M v i j k) →
        ∀ i j k, i < M.Nx → j < M.Ny → k < M.Nz →
          poisFft P M t l rhs i j k =
            (P.sr (∑ a : Fin 3, ∑ b : Fin 3, ![v.1, v.2.1, v.2.2] a * M.lapcT a b * ![v.1, v.2.1, v.2.2] b) : ℝ) *
              rhs i j k) := by
  obtain ⟨l, hl, hlt, hbt, h1, h2, h3⟩ := shift_table ks qs t h ik iq k q hk hq
  refine ⟨l, t.blockVec (t.block l), hl, h1, h2, h3, ?_⟩
  set s := t.blockVec (t.block l) with hs
  intro hper mx my mz hx1 hx2 hy1 hy2 hz1 hz2 v hv rhs hr
  have ax := idx_lt hx mx
  have ay := idx_lt hy my
  have az := idx_lt hz mz
  have hNx : (M.Nx : ℝ) ≠ 0 := by exact_mod_cast hx.ne'
  have hNy : (M.Ny : ℝ) ≠ 0 := by exact_mod_cast hy.ne'
  have hNz : (M.Nz : ℝ) ≠ 0 := by exact_mod_cast hz.ne'
  -- the wave is a plane wave of the mesh times the phase
  have hdot : ∀ i j k : ℕ, M.dot s i j k =
      s.1 * (i * M.L.1 / M.Nx) + s.2.1 * (j * M.L.2.1 / M.Ny) + s.2.2 * (k * M.L.2.2 / M.Nz) := by
    intro i j k
    unfold Mesh.dot
    have e1 : (i : ℝ) * M.R.1 / M.Nx * s.1 = (s.1 * M.R.1) * i / M.Nx := by ring
    have e2 : (j : ℝ) * M.R.2.1 / M.Ny * s.2.1 = (s.2.1 * M.R.2.1) * j / M.Ny := by ring
    have e3 : (k : ℝ) * M.R.2.2 / M.Nz * s.2.2 = (s.2.2 * M.R.2.2) * k / M.Nz := by ring
    rw [e1, e2, e3, hper.1, hper.2.1, hper.2.2]
    ring
  have hw : ∀ i j k : ℕ, wave M v i j k =
      pw M (idx M.Nx mx) (idx M.Ny my) (idx M.Nz mz) i j k * Complex.exp (((M.dot s i j k : ℝ) : ℂ) * Complex.I) := by
    intro i j k
    unfold wave pw
    rw [root_idx hLx mx i hx, root_idx hLy my j hy, root_idx hLz mz k hz, ← Complex.exp_add, ← Complex.exp_add,
      ← Complex.exp_add, hdot, hv]
    congr 1
    push_cast
    ring
  have hcancel : ∀ x : ℝ, Complex.exp ((x : ℂ) * Complex.I) * Complex.exp (((-x : ℝ) : ℂ) * Complex.I) = 1 := by
    intro x
    rw [← Complex.exp_add, show (x : ℂ) * Complex.I + ((-x : ℝ) : ℂ) * Complex.I = 0 by push_cast; ring, Complex.exp_zero]
  have hph : ∀ i j k, i < M.Nx → j < M.Ny → k < M.Nz →
      applyPhase M t (-1) l rhs i j k = pw M (idx M.Nx mx) (idx M.Ny my) (idx M.Nz mz) i j k := by
    intro i j k hi hj hk
    rw [applyPhase_neg M t rhs hlt hi hj hk, hr i j k hi hj hk, hw, ← hs, mul_assoc, hcancel, mul_one]
  intro i j k hi hj hk
  unfold poisFft
  rw [applyPhase_pos M t _ hlt hi hj hk, ← hs]
  have hG : M.G s (idx M.Nx mx) (idx M.Ny my) (idx M.Nz mz) = v := by
    unfold Mesh.G
    rw [freq_idx hx1 hx2 hx, freq_idx hy1 hy2 hy, freq_idx hz1 hz2 hz, hv]
  have hn : M.norm2 v = ∑ a : Fin 3, ∑ b : Fin 3, ![v.1, v.2.1, v.2.2] a * M.lapcT a b * ![v.1, v.2.1, v.2.2] b := by
    unfold Mesh.norm2
    simp [Fin.sum_univ_three]
    ring
  rw [idft_single M (a := idx M.Nx mx) (b := idx M.Ny my) (c := idx M.Nz mz) _ ((M.Nd : ℂ) * (P.sr (M.norm2 v) : ℝ)) ?_ ax ay az]
  · have hNd : (M.Nd : ℂ) ≠ 0 := by
      unfold Mesh.Nd
      have : M.Nx * M.Ny * M.Nz ≠ 0 := by positivity
      exact_mod_cast this
    rw [root_swap M.Nx _ i, root_swap M.Ny _ j, root_swap M.Nz _ k, hr i j k hi hj hk, hw, ← hn]
    unfold pw
    rw [div_mul_eq_mul_div, div_eq_iff hNd]
    ring
  · intro a' b' c' ha' hb' hc'
    rw [dft_pw M _ hph ax ay az ha' hb' hc', const_get P M t ha' hb' hc' hbt, Option.getD_some]
    by_cases he : idx M.Nx mx = a' ∧ idx M.Ny my = b' ∧ idx M.Nz mz = c'
    · rw [if_pos he, if_pos he]
      obtain ⟨rfl, rfl, rfl⟩ := he
      rw [← hs, hG]
    · rw [if_neg he, if_neg he, zero_mul]

/-- **The solve is linear** in its right-hand side. -/
theorem solve_linear (P : Ker) (M : Mesh) (t : Tab) (l : ℕ) (x y : Field) (c : ℂ) (i j k : ℕ) :
    poisFft P M t l (fun i j k => x i j k + c * y i j k) i j k =
      poisFft P M t l x i j k + c * poisFft P M t l y i j k := by
  have hph : ∀ (sg : ℝ) (u w : Field), applyPhase M t sg l (fun i j k => u i j k + c * w i j k) =
      fun i j k => applyPhase M t sg l u i j k + c * applyPhase M t sg l w i j k := by
    intro sg u w
    funext i j k
    unfold applyPhase
    split <;> ring
  have hd : ∀ (sg : ℝ) (u w : Field), dft M sg (fun i j k => u i j k + c * w i j k) =
      fun i j k => dft M sg u i j k + c * dft M sg w i j k := by
    intro sg u w
    funext a b d
    unfold dft
    simp only [Finset.mul_sum, ← Finset.sum_add_distrib]
    refine Finset.sum_congr rfl fun _ _ => Finset.sum_congr rfl fun _ _ => Finset.sum_congr rfl fun _ _ => ?_
    ring
  unfold poisFft
  rw [hph, hd]
  have e : ∀ u w : Field, ∀ α : ℕ → ℕ → ℕ → ℂ,
      (fun a b c' => (u a b c' + c * w a b c') * α a b c') = fun a b c' => u a b c' * α a b c' + c * (w a b c' * α a b c') := by
    intro u w α; funext a b d; ring
  rw [e, hd]
  have e2 : ∀ u w : Field, (fun i j k => (u i j k + c * w i j k) / (M.Nd : ℂ)) =
      fun i j k => u i j k / M.Nd + c * (w i j k / M.Nd) := by
    intro u w; funext a b d; ring
  rw [e2, hph]

/-! ## C108: the multipliers -/

/-- A cell of positive volume and at least one exchange point. -/
def Ker.Valid (P : Ker) : Prop := 0 < P.V ∧ 0 < P.Nhf

/-- **The cutoff sphere** has the volume of the `Nkpts_hf` cells. -/
theorem cutoff_volume (P : Ker) (h : P.Valid) : 0 < P.Rc ∧ 4 / 3 * Real.pi * P.Rc ^ 3 = P.Nhf * P.V := by
  have hp := Real.pi_pos
  have hN : (0 : ℝ) < P.Nhf := by exact_mod_cast h.2
  have hV := h.1
  have hb : 0 < 3 * (P.V * P.Nhf) / (4 * Real.pi) := by positivity
  unfold Ker.Rc
  refine ⟨Real.rpow_pos_of_pos hb _, ?_⟩
  have e : ((3 * (P.V * P.Nhf) / (4 * Real.pi)) ^ ((1 : ℝ) / 3)) ^ 3 = 3 * (P.V * P.Nhf) / (4 * Real.pi) := by
    rw [← Real.rpow_natCast, ← Real.rpow_mul hb.le]
    norm_num
  rw [e]
  field_simp

/-- **The truncated multiplier** is nonnegative and nowhere larger than its value at zero. -/
theorem truncated_bounds (P : Ker) (h : P.Valid) (hf : P.flag = 0) (g : ℝ) (hg : 0 ≤ g) :
    0 ≤ P.sr g ∧ P.sr g ≤ P.sr 0 ∧ P.sr 0 = 2 * Real.pi * P.Rc ^ 2 := by
  have hp := Real.pi_pos
  have hR := (cutoff_volume P h).1
  have e0 : P.sr 0 = 2 * Real.pi * (P.Rc * P.Rc) := by
    unfold Ker.sr; rw [if_pos hf, if_neg (by norm_num)]
  refine ⟨?_, ?_, by rw [e0]; ring⟩
  · unfold Ker.sr
    rw [if_pos hf]
    split
    · have := Real.cos_le_one (P.Rc * √g)
      have h1 : 0 ≤ 1 - Real.cos (P.Rc * √g) := by linarith
      positivity
    · positivity
  · rw [e0]
    unfold Ker.sr
    rw [if_pos hf]
    split
    · rename_i hgt
      have hg0 : 0 < g := by
        rcases hg.lt_or_eq with h | h
        · exact h
        · rw [← h] at hgt; norm_num at hgt
      rw [div_le_iff₀ hg0]
      have hc := Real.one_sub_sq_div_two_le_cos (x := P.Rc * √g)
      rw [mul_pow, Real.sq_sqrt hg] at hc
      nlinarith
    · exact le_rfl

/-- **The screened multiplier** (`ERFC`) is nonnegative and nowhere larger than its value at zero. -/
theorem screened_bounds (P : Ker) (hf : P.flag = 2) (hw : 0 < P.omega) (g : ℝ) (hg : 0 ≤ g) :
    0 ≤ P.sr g ∧ P.sr g ≤ P.sr 0 ∧ P.sr 0 = Real.pi / P.omega ^ 2 := by
  have hp := Real.pi_pos
  have f0 : P.flag ≠ 0 := by omega
  have f1 : P.flag ≠ 1 := by omega
  have e0 : P.sr 0 = Real.pi / (P.omega * P.omega) := by
    unfold Ker.sr; rw [if_neg f0, if_neg f1, if_neg (by norm_num)]
  have hx : P.x g ≤ 0 := by
    unfold Ker.x
    have : 0 ≤ 1 / 4 / (P.omega * P.omega) * g := by positivity
    have e : -(1 / 4) / (P.omega * P.omega) * g = -(1 / 4 / (P.omega * P.omega) * g) := by ring
    rw [e]; linarith
  refine ⟨?_, ?_, by rw [e0]; ring⟩
  · unfold Ker.sr
    rw [if_neg f0, if_neg f1]
    split
    · have : Real.exp (P.x g) ≤ 1 := by rw [Real.exp_le_one_iff]; exact hx
      have h1 : 0 ≤ 1 - Real.exp (P.x g) := by linarith
      positivity
    · positivity
  · rw [e0]
    unfold Ker.sr
    rw [if_neg f0, if_neg f1]
    split
    · rename_i hgt
      have hg0 : 0 < g := by
        rcases hg.lt_or_eq with h | h
        · exact h
        · rw [← h] at hgt; norm_num at hgt
      rw [div_le_iff₀ hg0]
      have hc := Real.add_one_le_exp (P.x g)
      have e : Real.pi / (P.omega * P.omega) * g = 4 * Real.pi * (-(P.x g)) := by
        unfold Ker.x; field_simp
      rw [e]
      apply mul_le_mul_of_nonneg_left _ (by positivity)
      linarith
    · exact le_rfl

theorem big_nhds {g : ℝ} (hg : 1 / 10 ^ 4 < g) : ∀ᶠ y in nhds g, |y| > 1 / 10 ^ 4 := by
  have : ∀ᶠ y in nhds g, 1 / 10 ^ 4 < y := lt_mem_nhds hg
  exact this.mono fun y hy => lt_of_lt_of_le hy (le_abs_self y)

/-- **Stress of the truncated multiplier**: `sr_const_stress` is minus the derivative of the
multiplier with respect to the squared length. -/
theorem truncated_stress (P : Ker) (hf : P.flag = 0) (g : ℝ) (hg : 1 / 10 ^ 4 < g) :
    HasDerivAt P.sr (-P.stress g) g := by
  have hg0 : 0 < g := lt_trans (by norm_num) hg
  have hs : √g ≠ 0 := (Real.sqrt_pos.mpr hg0).ne'
  have d1 : HasDerivAt (fun y => P.Rc * √y) (P.Rc * (1 / (2 * √g))) g := (Real.hasDerivAt_sqrt hg0.ne').const_mul _
  have d2 : HasDerivAt (fun y => 4 * Real.pi * (1 - Real.cos (P.Rc * √y)))
      (4 * Real.pi * (Real.sin (P.Rc * √g) * (P.Rc * (1 / (2 * √g))))) g := by
    have := ((d1.cos).const_sub 1).const_mul (4 * Real.pi)
    refine this.congr_deriv ?_
    ring
  have d3 := d2.div (hasDerivAt_id g) hg0.ne'
  have e : P.sr =ᶠ[nhds g] fun y => 4 * Real.pi * (1 - Real.cos (P.Rc * √y)) / y := by
    refine (big_nhds hg).mono fun y hy => ?_
    unfold Ker.sr
    rw [if_pos hf, if_pos hy]
  have habs : |g| > 1 / 10 ^ 4 := lt_of_lt_of_le hg (le_abs_self g)
  refine HasDerivAt.congr_of_eventuallyEq (HasDerivAt.congr_deriv d3 ?_) e
  unfold Ker.stress
  rw [if_pos hf, if_pos habs]
  have hsq : √g * √g = g := Real.mul_self_sqrt hg0.le
  have hs1 : 1 / (2 * √g) = √g / (2 * g) := by
    rw [div_eq_div_iff (by positivity) (by positivity)]; linarith [hsq]
  simp only [id]
  rw [hs1]
  field_simp
  ring

theorem exp_kernel_deriv (P : Ker) {g : ℝ} (hg0 : 0 < g) :
    HasDerivAt (fun y => 4 * Real.pi * (1 - Real.exp (P.x y)) / y)
      (-(4 * Real.pi * (1 - Real.exp (P.x g) * (1 - P.x g)) / (g * g))) g := by
  have d1 : HasDerivAt P.x (-(1 / 4) / (P.omega * P.omega)) g := by
    have := (hasDerivAt_id g).const_mul (-(1 / 4) / (P.omega * P.omega))
    rw [mul_one] at this
    exact this
  have d2 : HasDerivAt (fun y => 4 * Real.pi * (1 - Real.exp (P.x y)))
      (4 * Real.pi * (-(Real.exp (P.x g) * (-(1 / 4) / (P.omega * P.omega))))) g :=
    ((d1.exp).const_sub 1).const_mul _
  have d3 := d2.div (hasDerivAt_id g) hg0.ne'
  refine HasDerivAt.congr_deriv d3 ?_
  have hx : -(1 / 4) / (P.omega * P.omega) * g = P.x g := rfl
  simp only [id]
  rw [show 4 * Real.pi * -(Real.exp (P.x g) * (-(1 / 4) / (P.omega * P.omega))) * g =
    4 * Real.pi * -(Real.exp (P.x g) * (-(1 / 4) / (P.omega * P.omega) * g)) by ring, hx]
  field_simp
  ring

/-- **Stress of the screened multiplier**: minus the derivative, as for the truncated one. -/
theorem screened_stress (P : Ker) (hf : P.flag = 2) (g : ℝ) (hg : 1 / 10 ^ 4 < g) :
    HasDerivAt P.sr (-P.stress g) g := by
  have hg0 : 0 < g := lt_trans (by norm_num) hg
  have f0 : P.flag ≠ 0 := by omega
  have f1 : P.flag ≠ 1 := by omega
  have habs : |g| > 1 / 10 ^ 4 := lt_of_lt_of_le hg (le_abs_self g)
  have e : P.sr =ᶠ[nhds g] fun y => 4 * Real.pi * (1 - Real.exp (P.x y)) / y := by
    refine (big_nhds hg).mono fun y hy => ?_
    unfold Ker.sr
    rw [if_neg f0, if_neg f1, if_pos hy]
  have es : P.stress g = 4 * Real.pi * (1 - Real.exp (P.x g) * (1 - P.x g)) / (g * g) := by
    unfold Ker.stress; rw [if_neg f0, if_neg f1, if_pos habs]
  rw [es]
  exact (exp_kernel_deriv P hg0).congr_of_eventuallyEq e

/-- **Finding.** With the auxiliary function the stored constant is a quarter of minus the
derivative; the remaining three quarters enter the stress as `Eexx/2` on the diagonal. -/
theorem auxiliary_stress (P : Ker) (hf : P.flag = 1) (g : ℝ) (hg : 1 / 10 ^ 4 < g) :
    HasDerivAt P.sr (-(4 * P.stress g)) g := by
  have hg0 : 0 < g := lt_trans (by norm_num) hg
  have f0 : P.flag ≠ 0 := by omega
  have habs : |g| > 1 / 10 ^ 4 := lt_of_lt_of_le hg (le_abs_self g)
  by_cases hw : P.omega > 0
  · have e : P.sr =ᶠ[nhds g] fun y => 4 * Real.pi * (1 - Real.exp (P.x y)) / y := by
      refine (big_nhds hg).mono fun y hy => ?_
      unfold Ker.sr
      rw [if_neg f0, if_pos hf, if_pos hy, if_pos hw]
      ring
    have es : 4 * P.stress g = 4 * Real.pi * (1 - Real.exp (P.x g) * (1 - P.x g)) / (g * g) := by
      unfold Ker.stress; rw [if_neg f0, if_pos hf, if_pos habs, if_pos hw]; ring
    rw [es]
    exact (exp_kernel_deriv P hg0).congr_of_eventuallyEq e
  · have e : P.sr =ᶠ[nhds g] fun y => 4 * Real.pi / y := by
      refine (big_nhds hg).mono fun y hy => ?_
      unfold Ker.sr
      rw [if_neg f0, if_pos hf, if_pos hy, if_neg hw]
    have es : 4 * P.stress g = 4 * Real.pi / (g * g) := by
      unfold Ker.stress; rw [if_neg f0, if_pos hf, if_pos habs, if_neg hw]; ring
    rw [es]
    have d := (hasDerivAt_inv hg0.ne').const_mul (4 * Real.pi)
    have d' : HasDerivAt (fun y : ℝ => 4 * Real.pi / y) (-(4 * Real.pi / (g * g))) g := by
      refine (HasDerivAt.congr_deriv d ?_)
      field_simp
    exact d'.congr_of_eventuallyEq e

/-- **The second stress constant** is half the derivative of the truncated multiplier with
respect to the logarithm of the volume (the radius grows with the cell), for every length. -/
theorem truncated_volume (P : Ker) (h : P.Valid) (hf : P.flag = 0) (g : ℝ) :
    HasDerivAt (fun v => ({ P with V := v } : Ker).sr g) (2 * P.stress2 g / P.V) P.V := by
  have hp := Real.pi_pos
  have hN : (0 : ℝ) < P.Nhf := by exact_mod_cast h.2
  have hV := h.1
  have hb : 0 < 3 * (P.V * P.Nhf) / (4 * Real.pi) := by positivity
  have dR : HasDerivAt (fun v => ({ P with V := v } : Ker).Rc) (P.Rc / (3 * P.V)) P.V := by
    have d0 : HasDerivAt (fun v : ℝ => 3 * (v * P.Nhf) / (4 * Real.pi)) (3 * P.Nhf / (4 * Real.pi)) P.V := by
      have := ((((hasDerivAt_id P.V).mul_const (P.Nhf : ℝ)).const_mul 3)).div_const (4 * Real.pi)
      rw [one_mul] at this
      exact this
    have d1 := d0.rpow_const (p := (1 : ℝ) / 3) (Or.inl hb.ne')
    refine HasDerivAt.congr_deriv d1 ?_
    unfold Ker.Rc
    rw [Real.rpow_sub hb, Real.rpow_one]
    field_simp
  by_cases hg : |g| > 1 / 10 ^ 4
  · have e : (fun v => ({ P with V := v } : Ker).sr g) =
        fun v => 4 * Real.pi * (1 - Real.cos (({ P with V := v } : Ker).Rc * √g)) / g := by
      funext v
      unfold Ker.sr
      rw [if_pos hf, if_pos hg]
    rw [e]
    have d := ((((dR.mul_const (√g)).cos).const_sub 1).const_mul (4 * Real.pi)).div_const g
    refine HasDerivAt.congr_deriv d ?_
    unfold Ker.stress2
    rw [if_pos hg]
    have : ({ P with V := P.V } : Ker).Rc = P.Rc := rfl
    rw [this]
    ring
  · have e : (fun v => ({ P with V := v } : Ker).sr g) =
        fun v => 2 * Real.pi * (({ P with V := v } : Ker).Rc * ({ P with V := v } : Ker).Rc) := by
      funext v
      unfold Ker.sr
      rw [if_pos hf, if_neg hg]
    rw [e]
    have d := (dR.mul dR).const_mul (2 * Real.pi)
    refine HasDerivAt.congr_deriv d ?_
    unfold Ker.stress2
    rw [if_neg hg]
    have : ({ P with V := P.V } : Ker).Rc = P.Rc := rfl
    rw [this]
    ring

/-- **Trace of the truncated constants**: a kernel of dimension length squared gives back itself. -/
theorem truncated_trace (P : Ker) (hf : P.flag = 0) (g : ℝ) (hg : 1 / 10 ^ 4 < g ∨ g = 0) :
    g * P.stress g + 3 * P.stress2 g = P.sr g := by
  rcases hg with hg | rfl
  · have hg0 : g ≠ 0 := (lt_trans (by norm_num) hg).ne'
    have habs : |g| > 1 / 10 ^ 4 := lt_of_lt_of_le hg (le_abs_self g)
    unfold Ker.stress Ker.stress2 Ker.sr
    rw [if_pos hf, if_pos hf, if_pos habs, if_pos habs, if_pos habs]
    field_simp
    ring
  · unfold Ker.stress2 Ker.sr
    rw [if_pos hf, if_neg (by norm_num), if_neg (by norm_num)]
    ring

/-- **Pressure constants** are the trace of the stress constants. -/
theorem pressure_trace (P : Ker) (hf : P.flag = 1 ∨ P.flag = 2) (g : ℝ) : P.press g = g * P.stress g := by
  unfold Ker.press Ker.stress
  rcases hf with hf | hf
  · have f0 : P.flag ≠ 0 := by omega
    rw [if_pos hf, if_neg f0, if_pos hf]
    by_cases hg : |g| > 1 / 10 ^ 4
    · have hg0 : g ≠ 0 := by rintro rfl; norm_num at hg
      rw [if_pos hg, if_pos hg]
      split <;> field_simp
    · rw [if_neg hg, if_neg hg, mul_zero]
  · have f0 : P.flag ≠ 0 := by omega
    have f1 : P.flag ≠ 1 := by omega
    rw [if_neg f1, if_neg f0, if_neg f1]
    by_cases hg : |g| > 1 / 10 ^ 4
    · have hg0 : g ≠ 0 := by rintro rfl; norm_num at hg
      rw [if_pos hg, if_pos hg]
      field_simp
    · rw [if_neg hg, if_neg hg, mul_zero]

/-! ### The auxiliary function -/

theorem aux_term (P : Ker) (hf : P.flag = 1) (hw : P.omega ≠ 0) (alpha g : ℝ) (hg : 1 / 10 ^ 4 < g) :
    Real.exp (-alpha * g) * P.sr g = 4 * Real.pi * auxTerm alpha P.omega g := by
  have hg0 : 0 < g := lt_trans (by norm_num) hg
  have habs : |g| > 1 / 10 ^ 4 := lt_of_lt_of_le hg (le_abs_self g)
  have h8 : g > 1 / 10 ^ 8 := lt_trans (by norm_num) hg
  unfold auxTerm Ker.sr
  rw [if_neg (by omega), if_pos hf, if_pos habs, if_pos h8]
  by_cases hn : P.omega < 0
  · rw [if_neg (by linarith), if_pos hn]; ring
  · have hpos : P.omega > 0 := lt_of_le_of_ne (not_lt.mp hn) (Ne.symm hw)
    rw [if_pos hpos, if_neg hn]
    have : P.x g = -g / 4 / (P.omega * P.omega) := by unfold Ker.x; ring
    rw [this]; ring

/-- What the constant at zero is for: the sum of the multiplier times `exp(-alpha g)` over all
lattice vectors is the exact integral of that function (`intf`, and `alpha` for the part of the
expansion at zero). -/
def SumRule (P : Ker) (alpha intf : ℝ) (gs : List ℝ) : Prop :=
  (gs.map fun g => Real.exp (-alpha * g) * P.sr g).sum = 4 * Real.pi * (intf + if P.omega < 0 then alpha else 0)

/-- **The auxiliary sum rule**: it holds if one lattice vector is zero and all others are longer
than `1e-2`. -/
theorem aux_sum_rule_partial (P : Ker) (hf : P.flag = 1) (hw : P.omega ≠ 0) (alpha intf : ℝ) (l r : List ℝ)
    (hl : ∀ g ∈ l ++ r, 1 / 10 ^ 4 < g) (ha : P.aux = constAux alpha P.omega intf (l ++ 0 :: r)) :
    SumRule P alpha intf (l ++ 0 :: r) := by
  unfold SumRule
  have hs : ∀ x : List ℝ, (∀ g ∈ x, 1 / 10 ^ 4 < g) →
      (x.map fun g => Real.exp (-alpha * g) * P.sr g).sum = 4 * Real.pi * (x.map (auxTerm alpha P.omega)).sum := by
    intro x hx
    rw [← List.sum_map_mul_left]
    congr 1
    exact List.map_congr_left fun g hg => aux_term P hf hw alpha g (hx g hg)
  have h0 : auxTerm alpha P.omega 0 = 0 := by unfold auxTerm; rw [if_neg (by norm_num)]
  rw [List.map_append, List.map_cons, List.sum_append, List.sum_cons, hs l fun g hg => hl g (List.mem_append_left _ hg),
    hs r fun g hg => hl g (List.mem_append_right _ hg), mul_zero, Real.exp_zero, one_mul]
  unfold constAux at ha
  rw [List.map_append, List.map_cons, List.sum_append, List.sum_cons, h0] at ha
  unfold Ker.sr
  rw [if_neg (by omega), if_pos hf, if_neg (by norm_num)]
  by_cases hn : P.omega < 0
  · rw [if_pos hn] at ha ⊢
    rw [if_neg (by linarith), ha]; ring
  · have hpos : P.omega > 0 := lt_of_le_of_ne (not_lt.mp hn) (Ne.symm hw)
    rw [if_neg hn] at ha ⊢
    rw [if_pos hpos, ha]; ring

/-- **Finding.** The sum leaves out vectors with `g ≤ 1e-8`, the multiplier replaces those with
`g ≤ 1e-4`.  One vector in between breaks the rule, unless the constant happens to be `1/g`. -/
theorem threshold_mismatch (P : Ker) (hf : P.flag = 1) (hw : P.omega < 0) (alpha intf g : ℝ) (l r : List ℝ)
    (hl : ∀ x ∈ l ++ r, 1 / 10 ^ 4 < x) (h1 : 1 / 10 ^ 8 < g) (h2 : g ≤ 1 / 10 ^ 4)
    (ha : P.aux = constAux alpha P.omega intf (l ++ 0 :: g :: r)) :
    SumRule P alpha intf (l ++ 0 :: g :: r) ↔ P.aux = 1 / g := by
  have hp := Real.pi_pos
  have hg0 : 0 < g := lt_trans (by norm_num) h1
  unfold SumRule
  have hs : ∀ x : List ℝ, (∀ g ∈ x, 1 / 10 ^ 4 < g) →
      (x.map fun g => Real.exp (-alpha * g) * P.sr g).sum = 4 * Real.pi * (x.map (auxTerm alpha P.omega)).sum := by
    intro x hx
    rw [← List.sum_map_mul_left]
    congr 1
    exact List.map_congr_left fun g hg => aux_term P hf hw.ne alpha g (hx g hg)
  have h0 : auxTerm alpha P.omega 0 = 0 := by unfold auxTerm; rw [if_neg (by norm_num)]
  have hgt : auxTerm alpha P.omega g = Real.exp (-alpha * g) / g := by unfold auxTerm; rw [if_pos h1, if_pos hw]
  have hsm : ∀ y : ℝ, 0 ≤ y → y ≤ 1 / 10 ^ 4 → P.sr y = 4 * Real.pi * P.aux := by
    intro y hy0 hy
    unfold Ker.sr
    rw [if_neg (by omega), if_pos hf, if_neg (by rw [abs_of_nonneg hy0]; exact not_lt.mpr hy), if_neg (by linarith)]
  rw [List.map_append, List.map_cons, List.map_cons, List.sum_append, List.sum_cons, List.sum_cons,
    hs l fun g hg => hl g (List.mem_append_left _ hg), hs r fun g hg => hl g (List.mem_append_right _ hg), mul_zero,
    Real.exp_zero, one_mul, hsm 0 le_rfl (by norm_num), hsm g hg0.le h2, if_pos hw]
  unfold constAux at ha
  rw [if_pos hw, List.map_append, List.map_cons, List.map_cons, List.sum_append, List.sum_cons, List.sum_cons, h0, hgt] at ha
  have he := Real.exp_pos (-alpha * g)
  set E := Real.exp (-alpha * g)
  set A := (l.map (auxTerm alpha P.omega)).sum
  set B := (r.map (auxTerm alpha P.omega)).sum
  have key : 4 * Real.pi * A + (4 * Real.pi * P.aux + (E * (4 * Real.pi * P.aux) + 4 * Real.pi * B)) -
      4 * Real.pi * (intf + alpha) = 4 * Real.pi * E * (P.aux - 1 / g) := by
    have : E / g = E * (1 / g) := by ring
    rw [this] at ha
    have hA : intf + alpha = P.aux + (A + (0 + (E * (1 / g) + B))) := by rw [ha]; ring
    rw [hA]; ring
  constructor
  · intro hsum
    rw [hsum, sub_self] at key
    have hne : 4 * Real.pi * E ≠ 0 := by positivity
    rcases mul_eq_zero.mp key.symm with h | h
    · exact absurd h hne
    · linarith
  · intro h
    rw [h, sub_self, mul_zero] at key
    rw [h]
    linarith

/-! ## Examples -/

/-- A cubic cell of side one with one exchange point and the truncated multiplier. -/
noncomputable def exKer : Ker := { flag := 0, V := 1, Nhf := 1, omega := -1, aux := 0 }

example : exKer.Valid ∧ exKer.flag = 0 ∧ HasDerivAt exKer.sr (-exKer.stress 1) 1 :=
  ⟨⟨by norm_num [exKer], by norm_num [exKer]⟩, rfl, truncated_stress _ rfl _ (by norm_num)⟩

/-- A mesh of four points per direction, a mesh of three exchange points and the wave of the
second pair. -/
example : ∃ t : Tab, findShift [((-1 / 3 : ℝ), 0, 0), (0, 0, 0)] [((-1 / 3 : ℝ), 0, 0), (0, 0, 0), (1 / 3, 0, 0)] = some t :=
  Option.ne_none_iff_exists'.mp (common_point_fits _ _ (0, 0, 0) (by simp) (by simp))

example : ∃ M : Mesh, 0 < M.Nx ∧ M.L.1 ≠ 0 ∧ Periodic M (1 / 3, 0, 0) :=
  ⟨⟨4, 4, 4, (2 * Real.pi, 1, 1), (2 * Real.pi, 1, 1), fun a b => if a = b then 1 else 0⟩, by norm_num,
    by simp [Real.pi_ne_zero], rfl, rfl, rfl⟩

example : ∃ (P : Ker) (alpha intf : ℝ), P.flag = 1 ∧ P.omega ≠ 0 ∧ P.aux = constAux alpha P.omega intf ([1] ++ 0 :: [2]) ∧
    SumRule P alpha intf ([1] ++ 0 :: [2]) := by
  refine ⟨⟨1, 1, 1, -1, constAux 1 (-1) 1 ([1] ++ 0 :: [2])⟩, 1, 1, rfl, by norm_num, rfl, ?_⟩
  exact aux_sum_rule_partial _ rfl (by norm_num) 1 1 [1] [2] (by simp; norm_num) rfl

end Sparc.Exx

import Verif.Ofdft.Model
import Mathlib.Analysis.SpecialFunctions.Pow.Deriv
import Mathlib.Analysis.SpecialFunctions.Sqrt
import Mathlib.Analysis.Calculus.Deriv.Pi
import Mathlib.Analysis.Calculus.Deriv.Abs
import Mathlib.Analysis.Calculus.FDeriv.Pi

/-!
# Energy and operator of orbital-free density functional theory
-/

namespace Sparc.Ofdft
open Finset

variable {n : ℕ}

/-- What the given functions have to satisfy at the density `rho`: the Laplacian is linear and symmetric, the electrostatic
potential is a symmetric linear function of density plus pseudocharge, and the exchange-correlation
potential is the derivative of the exchange-correlation energy. -/
structure Fits (S : Sys n) (K : (Fin n → ℝ) →ₗ[ℝ] (Fin n → ℝ)) (L : (Fin n → ℝ) →ₗ[ℝ] (Fin n → ℝ))
    (rho : Fin n → ℝ) : Prop where
  lap : S.lap = fun v => L v
  lapSymm : ∀ v w, (∑ i, v i * L w i) = ∑ i, w i * L v i
  phi : S.phi = fun r => K (fun i => r i + S.b i)
  phiSymm : ∀ v w, (∑ i, v i * K w i) = ∑ i, w i * K v i
  xc : HasFDerivAt S.exc (∑ i, (S.dV * S.vxc rho i) • ContinuousLinearMap.proj (R := ℝ) (φ := fun _ : Fin n => ℝ) i) rho

theorem der_congr {f g : ℝ → ℝ} {a b t : ℝ} (h : HasDerivAt f a t) (hf : ∀ s, g s = f s) (hd : b = a) :
    HasDerivAt g b t := by
  subst hd
  have : g = f := funext hf
  rw [this]; exact h

theorem deriv_lin (L : (Fin n → ℝ) →ₗ[ℝ] (Fin n → ℝ)) {γ : ℝ → Fin n → ℝ} {v : Fin n → ℝ} {t : ℝ}
    (h : HasDerivAt γ v t) (i : Fin n) : HasDerivAt (fun s => L (γ s) i) (L v i) t := by
  have := (L.toContinuousLinearMap.hasFDerivAt (x := γ t)).comp_hasDerivAt t h
  exact (hasDerivAt_pi.1 this) i

/-- The quadratic form of a symmetric map along a curve. -/
theorem deriv_quad {L : (Fin n → ℝ) →ₗ[ℝ] (Fin n → ℝ)} (hL : ∀ v w, (∑ i, v i * L w i) = ∑ i, w i * L v i)
    {γ : ℝ → Fin n → ℝ} {v : Fin n → ℝ} {t : ℝ} (h : HasDerivAt γ v t) :
    HasDerivAt (fun s => ∑ i, γ s i * L (γ s) i) (2 * ∑ i, L (γ t) i * v i) t := by
  have h' := hasDerivAt_pi.1 h
  have : HasDerivAt (fun s => ∑ i, γ s i * L (γ s) i) (∑ i, (v i * L (γ t) i + γ t i * L v i)) t :=
    HasDerivAt.fun_sum fun i _ => (h' i).mul (deriv_lin L h i)
  refine der_congr this (fun _ => rfl) ?_
  rw [sum_add_distrib, hL (γ t) v, two_mul]
  simp [mul_comm]

theorem energy_curve {S : Sys n} {K L : (Fin n → ℝ) →ₗ[ℝ] (Fin n → ℝ)} {γ : ℝ → Fin n → ℝ} {v : Fin n → ℝ}
    {t : ℝ} (hS : Fits S K L (sq (γ t))) (h : HasDerivAt γ v t) :
    HasDerivAt (fun s => S.energy (sq (γ s)) (γ s)) (2 * S.dV * ∑ i, S.ham (γ t) i * v i) t := by
  have h' := hasDerivAt_pi.1 h
  have hq : HasDerivAt (fun s => sq (γ s)) (fun i => 2 * (γ t i * v i)) t := by
    rw [hasDerivAt_pi]; intro i
    exact der_congr ((h' i).mul (h' i)) (fun _ => rfl) (by ring)
  have hq' := hasDerivAt_pi.1 hq
  have hxc := hS.xc.comp_hasDerivAt t hq
  have hw : HasDerivAt (fun s => (fun i => sq (γ s) i + S.b i : Fin n → ℝ)) (fun i => 2 * (γ t i * v i)) t := by
    rw [hasDerivAt_pi]; intro i; exact (hq' i).add_const _
  have hele := (deriv_quad hS.phiSymm hw).mul_const (0.5 * S.dV)
  have htf : HasDerivAt (fun s => (∑ i, (sq (γ s) i) ^ ((5 : ℝ) / 3)) * (S.Cf * S.dV))
      ((∑ i, 2 * (γ t i * v i) * (5 / 3) * (sq (γ t) i) ^ ((5 : ℝ) / 3 - 1)) * (S.Cf * S.dV)) t :=
    (HasDerivAt.fun_sum fun i _ => (hq' i).rpow_const (Or.inr (by norm_num))).mul_const _
  have hvw := ((deriv_quad hS.lapSymm h).mul_const (-0.5 * S.dV)).const_mul S.lam
  have hall := ((hxc.add hele).add (htf.add hvw)).add_const S.Esc
  refine der_congr hall ?_ ?_
  · intro s
    simp only [Sys.energy, hS.phi, hS.lap, Pi.add_apply, Function.comp]
    rw [← add_mul, ← sum_add_distrib]
    congr 4
    exact sum_congr rfl fun i _ => by ring
  · have h23 : (5 : ℝ) / 3 - 1 = 2 / 3 := by norm_num
    rw [h23]
    simp only [Sys.ham, hS.phi, hS.lap]
    simp only [ContinuousLinearMap.sum_apply, ContinuousLinearMap.smul_apply, ContinuousLinearMap.proj_apply,
      smul_eq_mul, mul_sum, sum_mul, ← sum_add_distrib]
    refine sum_congr rfl fun i _ => ?_
    ring

theorem res_orth (S : Sys n) (hN : S.N ≠ 0) {u : Fin n → ℝ} (hu : (∑ i, u i * u i) * S.dV = S.N) :
    ∑ i, S.res u i * u i = 0 := by
  have h1 : ∑ i, S.res u i * u i = -2 * ((∑ i, S.ham u i * u i) -
      (∑ i, S.ham u i * u i) * (S.dV / S.N) * ∑ i, u i * u i) := by
    simp only [Sys.res]
    rw [mul_sub, mul_sum, mul_sum, mul_sum, ← sum_sub_distrib]
    exact sum_congr rfl fun i _ => by ring
  rw [h1]
  have : S.dV / S.N * (∑ i, u i * u i) = 1 := by
    rw [div_mul_eq_mul_div, mul_comm, hu, div_self hN]
  rw [mul_assoc, this]; ring

theorem norm_sum (u d : Fin n → ℝ) (h : ∑ i, d i * u i = 0) (s : ℝ) :
    ∑ i, (u i + s * d i) * (u i + s * d i) = (∑ i, u i * u i) + s ^ 2 * ∑ i, d i * d i := by
  have : ∀ i, (u i + s * d i) * (u i + s * d i) = u i * u i + 2 * s * (d i * u i) + s ^ 2 * (d i * d i) :=
    fun i => by ring
  simp only [this, sum_add_distrib, ← mul_sum, h]; ring

/-- The normalised path leaves a positive vector of the right length along the direction, if that is
orthogonal to it. -/
theorem extend_deriv {u d : Fin n → ℝ} (hu : ∀ i, 0 < u i) (h : ∑ i, d i * u i = 0)
    (hn : 0 < ∑ i, u i * u i) :
    HasDerivAt (fun s => extend u d s (√(∑ i, u i * u i))) d 0 := by
  rw [hasDerivAt_pi]; intro i
  set U := ∑ i, u i * u i with hU
  set R := ∑ i, d i * d i
  have hsq : HasDerivAt (fun s : ℝ => √(U + s ^ 2 * R)) 0 0 := by
    have h1 : HasDerivAt (fun s : ℝ => U + s ^ 2 * R) (2 * (0 : ℝ) ^ (2 - 1) * R) 0 := by
      simpa using (((hasDerivAt_pow 2 (0 : ℝ)).mul_const R).const_add U)
    have h2 := h1.sqrt (by simpa using hn.ne')
    simpa using h2
  have hU0 : √(U + (0 : ℝ) ^ 2 * R) = √U := by simp
  have hpos : 0 < √U := Real.sqrt_pos.2 hn
  have hw : HasDerivAt (fun s : ℝ => (u i + s * d i) * (√U / √(U + s ^ 2 * R))) (d i) 0 := by
    have h1 : HasDerivAt (fun s : ℝ => u i + s * d i) (d i) 0 := by
      simpa using ((hasDerivAt_id (0 : ℝ)).mul_const (d i)).const_add (u i)
    have h2 : HasDerivAt (fun s : ℝ => √U / √(U + s ^ 2 * R)) 0 0 := by
      have := (hasDerivAt_const (0 : ℝ) (√U)).div hsq (by rw [hU0]; exact hpos.ne')
      exact der_congr this (fun _ => rfl) (by simp)
    have h3 := h1.mul h2
    refine der_congr h3 (fun _ => rfl) ?_
    simp [hpos.ne']
  have habs : HasDerivAt (fun s : ℝ => |(u i + s * d i) * (√U / √(U + s ^ 2 * R))|) (d i) 0 := by
    have h0 : 0 < (u i + (0 : ℝ) * d i) * (√U / √(U + (0 : ℝ) ^ 2 * R)) := by
      rw [hU0, div_self hpos.ne']; simpa using hu i
    have := (hasDerivAt_abs_pos h0).comp (0 : ℝ) hw
    exact der_congr this (fun _ => rfl) (by simp)
  refine der_congr habs (fun s => ?_) rfl
  simp only [extend]
  rw [norm_sum u d h s]

end Sparc.Ofdft

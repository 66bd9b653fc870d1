import Verif.Vxc.Lemmas
import Verif.Lap.Props

/-!
# The exchange-correlation potential is the derivative of the exchange-correlation energy

Property C55.
-/

namespace Sparc.Vxc

open Xc

/-- Discrete integration by parts: the finite-difference gradient is antisymmetric with periodic
and with zero boundary conditions, for any stencil coefficients. -/
theorem grad_adjoint (C : Cell) (dir : Fin 3) (f g : Fld C) :
    ∑ i, f i * grad C dir g i = -∑ i, grad C dir f i * g i := by
  simp only [grad_eq, Finset.mul_sum, Finset.sum_mul, ← Finset.sum_neg_distrib]
  rw [Finset.sum_comm]
  refine Finset.sum_congr rfl fun a _ => Finset.sum_congr rfl fun b _ => ?_
  rw [M_anti C dir b a]
  ring

/-- `lapcT` as computed from the lattice vectors is symmetric. -/
theorem symm_of_transformMat {C : Cell} {L : ℕ → ℝ} {G : Coord.Geom}
    (h : Coord.transformMat L = some G) (hC : C.lapcT = G.lapc) : Symm C := by
  intro _
  rw [hC]
  exact Lap.lapc_symm h

/-! ### Without spin -/

/-- For any functional: if at each grid point the gradient term is twice the derivative of the
energy density by the squared gradient, then the derivative of the energy by the density at
grid point `j` is `dV` times the potential there (with `a` in place of the local part, if the
local part is the derivative only up to rounding of constants). -/
theorem vxc_deriv {C : Cell} (O : Opt C) (K : ℝ → ℝ → Out) (dens : Fld C) (j : Pnt C) {a : ℝ}
    (hs : Symm C)
    (hj : O.rhotol < if O.nlcc then dens j + 1 * O.core j else dens j)
    (hr : HasDerivAt (fun r => r * (K r (sigmaOf O (addCore O 1 dens) j)).e) a
      (addCore O 1 dens j))
    (h0 : O.isgradient = false → ∀ r s s', (K r s).e = (K r s').e)
    (hg : O.isgradient = true → ∀ i,
      O.sigmatol < normSquare C (grad C 0 (addCore O 1 dens) i) (grad C 1 (addCore O 1 dens) i)
        (grad C 2 (addCore O 1 dens) i)
      ∧ HasDerivAt (fun s => addCore O 1 dens i * (K (addCore O 1 dens i) s).e)
        ((K (addCore O 1 dens i) (sigmaOf O (addCore O 1 dens) i)).v2 / 2)
        (sigmaOf O (addCore O 1 dens) i)) :
    HasDerivAt (fun t => excTotal O (Function.update dens j t) (exc O K (Function.update dens j t)))
      (C.dV * (vxc O K dens j
        + (a - (K (addCore O 1 dens j) (sigmaOf O (addCore O 1 dens) j)).v))) (dens j) := by
  have hraw : O.rhotol < raw O 1 dens j := hj
  set rho := addCore O 1 dens with hrho
  have hrj : rho j = dens j + shift O 1 j := by
    rw [hrho, addCore_of_lt hraw, raw_eq]
  have hev := addCore_update hraw
  rw [← hrho] at hev
  -- derivative in terms of the density with core
  have key : ∀ {G : ℝ → ℝ} {b : ℝ}, HasDerivAt G b (rho j) →
      (∀ᶠ t in nhds (rho j), G t = ∑ i, Function.update rho j t i
        * (K (Function.update rho j t i) (sigmaOf O (Function.update rho j t) i)).e) →
      HasDerivAt (fun t => excTotal O (Function.update dens j t)
        (exc O K (Function.update dens j t))) (b * C.dV) (dens j) := by
    intro G b hG hGe
    rw [hrj] at hG hGe
    have h1 : HasDerivAt (fun t => G (t + shift O 1 j)) b (dens j) :=
      HasDerivAt.comp_add_const (dens j) (shift O 1 j) hG
    refine (h1.mul_const C.dV).congr_of_eventuallyEq ?_
    have hc : Filter.Tendsto (fun t : ℝ => t + shift O 1 j) (nhds (dens j))
        (nhds (dens j + shift O 1 j)) := by
      have : ContinuousAt (fun t : ℝ => t + shift O 1 j) (dens j) := by fun_prop
      exact this
    filter_upwards [hev, hc.eventually hGe] with t ht hGt
    simp only [excTotal, exc, ht]
    rw [hGt]
  cases hb : O.isgradient
  · have hK := h0 hb
    have hr' : HasDerivAt (fun r => r * (K r 0).e) a (rho j) := by
      refine hr.congr_of_eventuallyEq (Filter.Eventually.of_forall fun r => ?_)
      dsimp only
      rw [hK r 0]
    have := key (core_deriv0 rho j (fun _ r => r * (K r 0).e) hr')
      (Filter.Eventually.of_forall fun t => Finset.sum_congr rfl fun i _ => by rw [hK])
    refine this.congr_deriv ?_
    simp only [vxc, hb, Bool.false_eq_true, if_false, ← hrho]
    ring
  · have hgi := hg hb
    have hsig : ∀ i, sigmaOf O rho i = W C rho i := fun i => max_eq_left (hgi i).1.le
    have := key (core_deriv hs rho (fun i => (K (rho i) (sigmaOf O rho i)).v2) j
      (fun _ r s => r * (K r s).e) (by rw [← hsig]; exact hr)
      (fun i => by rw [← hsig]; exact (hgi i).2))
      (by
        filter_upwards [sigma_update hs j fun i => (hgi i).1] with t ht
        refine Finset.sum_congr rfl fun i _ => by rw [ht])
    refine this.congr_deriv ?_
    simp only [vxc, hb, if_true, ← hrho]
    ring

/-- The functionals for which `spin_typ = 0` and `spin_typ = 1` are covered: LDA without
gradient; PBE-type or PW86 exchange with PW or PBE correlation with gradient
(initialization.c 4748-4829). -/
def Supported (F : Fun) (isgradient : Bool) : Prop :=
  (isgradient = false ∧ F.ixc0 = 1 ∧ (F.ixc1 = 1 ∨ F.ixc1 = 2))
    ∨ (isgradient = true ∧ (F.ixc0 = 2 ∨ F.ixc0 = 3) ∧ (F.ixc1 = 2 ∨ F.ixc1 = 3))

/-- The derivative of the exchange-correlation energy by the density at a grid point is `dV`
times the potential there: exactly for the gradient functionals, within the rounding of the
Slater constants for the local ones. -/
theorem vxc_is_derivative {C : Cell} (O : Opt C) (F : Fun) (dens : Fld C) (j : Pnt C)
    (hF : Supported F O.isgradient) (hs : Symm C) (hrt : 0 < O.rhotol) (hst : 1e-14 ≤ O.sigmatol)
    (hj : O.rhotol < if O.nlcc then dens j + 1 * O.core j else dens j)
    (hpz : F.ixc1 = 1 → 0.6203504908993999 / addCore O 1 dens j ^ (1 / 3 : ℝ) ≠ 1)
    (hg : O.isgradient = true → ∀ i,
      O.sigmatol < normSquare C (grad C 0 (addCore O 1 dens) i) (grad C 1 (addCore O 1 dens) i)
        (grad C 2 (addCore O 1 dens) i)) :
    ∃ v, HasDerivAt (fun t => excTotal O (Function.update dens j t)
          (exc O (point F) (Function.update dens j t))) (C.dV * v) (dens j)
      ∧ |vxc O (point F) dens j - v|
        ≤ if F.ixc0 = 1 then 1e-15 * |F.scale| * addCore O 1 dens j ^ (1 / 3 : ℝ) else 0 := by
  set rho := addCore O 1 dens with hrho
  have hpos : ∀ i, 0 < rho i := fun i => lt_of_lt_of_le hrt (addCore_ge O 1 dens i)
  rcases hF with ⟨hb, hx, hc⟩ | ⟨hb, hx, hc⟩
  · -- LDA
    obtain ⟨dx, hdx, hdx2⟩ := slater_potential (rho j) (hpos j)
    have hcd : HasDerivAt (fun r => r * (corr F.ixc0 F.ixc1 F.opt1 r (sigmaOf O rho j)).e)
        (corr F.ixc0 F.ixc1 F.opt1 (rho j) (sigmaOf O rho j)).v (rho j) := by
      rcases hc with hc | hc <;> simp only [corr, hc]
      · exact pz_potential _ (hpos j) (hpz hc)
      · exact pw_potential _ (hpos j)
    have hr : HasDerivAt (fun r => r * (point F r (sigmaOf O rho j)).e)
        (dx * F.scale + (corr F.ixc0 F.ixc1 F.opt1 (rho j) (sigmaOf O rho j)).v) (rho j) := by
      refine ((hdx.mul_const F.scale).fun_add hcd).congr_of_eventuallyEq
        (Filter.Eventually.of_forall fun r => ?_)
      simp only [point, exch, hx]
      ring
    refine ⟨_, vxc_deriv O (point F) dens j hs hj hr (fun _ r s s' => ?_) (fun h => ?_), ?_⟩
    · rcases hc with hc | hc <;> simp only [point, exch, corr, hx, hc]
    · rw [hb] at h; cases h
    · rw [if_pos hx, ← hrho]
      have e : vxc O (point F) dens j - (vxc O (point F) dens j + (dx * F.scale
          + (corr F.ixc0 F.ixc1 F.opt1 (rho j) (sigmaOf O rho j)).v
          - (point F (rho j) (sigmaOf O rho j)).v)) = F.scale * ((slater (rho j)).v - dx) := by
        simp only [point, exch, hx]; ring
      rw [e, abs_mul]
      calc |F.scale| * |(slater (rho j)).v - dx|
          ≤ |F.scale| * (1e-15 * rho j ^ (1 / 3 : ℝ)) :=
            mul_le_mul_of_nonneg_left hdx2 (abs_nonneg _)
        _ = _ := by ring
  · have hsg : ∀ i, 1e-14 < sigmaOf O rho i := fun i =>
      lt_of_le_of_lt hst (lt_of_lt_of_le (hg hb i) (le_max_left _ _))
    have hsg0 : ∀ i, 0 < sigmaOf O rho i := fun i => lt_trans (by norm_num) (hsg i)
    have hcd : ∀ i, HasDerivAt (fun r => r * (corr F.ixc0 F.ixc1 F.opt1 r (sigmaOf O rho i)).e)
          (corr F.ixc0 F.ixc1 F.opt1 (rho i) (sigmaOf O rho i)).v (rho i)
        ∧ HasDerivAt (fun s => rho i * (corr F.ixc0 F.ixc1 F.opt1 (rho i) s).e)
          ((corr F.ixc0 F.ixc1 F.opt1 (rho i) (sigmaOf O rho i)).v2 / 2) (sigmaOf O rho i) := by
      intro i
      rcases hc with hc | hc
      · simp only [corr, hc]
        refine ⟨pw_potential _ (hpos i), ?_⟩
        refine (hasDerivAt_const _ _).congr_deriv ?_
        simp [pw]
      · have h := pbec_potential F.opt1 (rho i) (sigmaOf O rho i) (hpos i) (hsg0 i).le
        have hfl : ∀ s, 1e-14 < s → (if F.ixc0 = 3 then floorSigma s else s) = s := by
          intro s h
          simp only [floorSigma, if_neg (not_lt.2 h.le), ite_self]
        refine ⟨?_, ?_⟩
        · simp only [corr, hc, hfl _ (hsg i)]
          exact h.1
        · simp only [corr, hc, hfl _ (hsg i)]
          refine h.2.congr_of_eventuallyEq ?_
          filter_upwards [lt_mem_nhds (hsg i)] with s hs'
          rw [hfl s hs']
    have hxd : ∀ i, HasDerivAt (fun r => r * (exch F.ixc0 F.opt0 r (sigmaOf O rho i)).e)
          (exch F.ixc0 F.opt0 (rho i) (sigmaOf O rho i)).v (rho i)
        ∧ HasDerivAt (fun s => rho i * (exch F.ixc0 F.opt0 (rho i) s).e)
          ((exch F.ixc0 F.opt0 (rho i) (sigmaOf O rho i)).v2 / 2) (sigmaOf O rho i) := by
      intro i
      rcases hx with hx | hx <;> simp only [exch, hx]
      · exact pbex_potential _ _ _ (hpos i) (hsg0 i).le
      · have h := rPW86x_potential (rho i) (sigmaOf O rho i) (hpos i)
        exact ⟨h.1, h.2 (hsg i)⟩
    have hr : HasDerivAt (fun r => r * (point F r (sigmaOf O rho j)).e)
        (point F (rho j) (sigmaOf O rho j)).v (rho j) := by
      refine ((((hxd j).1.mul_const F.scale).fun_add (hcd j).1).congr_of_eventuallyEq
        (Filter.Eventually.of_forall fun r => ?_)).congr_deriv ?_
      · simp only [point]; ring
      · simp only [point]
    refine ⟨_, vxc_deriv O (point F) dens j hs hj hr (fun h => ?_) (fun _ i => ⟨hg hb i, ?_⟩), ?_⟩
    · rw [hb] at h; cases h
    · refine ((((hxd i).2.mul_const F.scale).fun_add (hcd i).2).congr_of_eventuallyEq
        (Filter.Eventually.of_forall fun r => ?_)).congr_deriv ?_
      · simp only [point, ← hrho]; ring
      · simp only [point]; ring
    · have : F.ixc0 ≠ 1 := by rcases hx with hx | hx <;> rw [hx] <;> norm_num
      rw [if_neg this, ← hrho]
      simp

/-! ### With spin -/

/-- What is needed of a spin-polarised functional: the potentials are the derivatives of the
energy density by the spin densities, the gradient terms twice those by the squared gradients
(of each spin for exchange, of the total for correlation). -/
structure Kernel (isgradient : Bool) (Kx : Pt → OutX) (Kc : Pt → OutC) : Prop where
  xind : ∀ u d g g' gu gd, (Kx (mk u d g gu gd)).e = (Kx (mk u d g' gu gd)).e
  cind : ∀ u d g gu gu' gd gd', (Kc (mk u d g gu gd)).e = (Kc (mk u d g gu' gd')).e
  none : isgradient = false → ∀ u d g g' gu gu' gd gd',
    (Kx (mk u d g gu gd)).e = (Kx (mk u d g' gu' gd')).e
      ∧ (Kc (mk u d g gu gd)).e = (Kc (mk u d g' gu' gd')).e
  x : ∀ u d g gu gd, 0 < u → 0 < d → 1e-14 < g → 1e-14 < gu → 1e-14 < gd →
    HasDerivAt (fun y => (y + d) * (Kx (mk y d g gu gd)).e) (Kx (mk u d g gu gd)).vu u
      ∧ HasDerivAt (fun y => (u + y) * (Kx (mk u y g gu gd)).e) (Kx (mk u d g gu gd)).vd d
      ∧ (isgradient = true →
        HasDerivAt (fun y => (u + d) * (Kx (mk u d g y gd)).e) ((Kx (mk u d g gu gd)).v2u / 2) gu
        ∧ HasDerivAt (fun y => (u + d) * (Kx (mk u d g gu y)).e) ((Kx (mk u d g gu gd)).v2d / 2) gd)
  c : ∀ u d g gu gd, 0 < u → 0 < d → 1e-14 < g → 1e-14 < gu → 1e-14 < gd →
    HasDerivAt (fun y => (y + d) * (Kc (mk y d g gu gd)).e) (Kc (mk u d g gu gd)).vu u
      ∧ HasDerivAt (fun y => (u + y) * (Kc (mk u y g gu gd)).e) (Kc (mk u d g gu gd)).vd d
      ∧ (isgradient = true →
        HasDerivAt (fun y => (u + d) * (Kc (mk u d y gu gd)).e) ((Kc (mk u d g gu gd)).v2 / 2) g)

/-- Every spin density is above its floor, and every squared gradient if they are used. -/
structure Clear {C : Cell} (O : Opt C) (up dn : Fld C) : Prop where
  above_up : ∀ i, O.rhotol < if O.nlcc then up i + 0.5 * O.core i else up i
  above_dn : ∀ i, O.rhotol < if O.nlcc then dn i + 0.5 * O.core i else dn i
  above_grad : O.isgradient = true → ∀ rho ∈ ([addCore O 0.5 up, addCore O 0.5 dn,
      fun i => addCore O 0.5 up i + addCore O 0.5 dn i] : List (Fld C)), ∀ i,
    O.sigmatol < normSquare C (grad C 0 rho i) (grad C 1 rho i) (grad C 2 rho i)

theorem spinPoint_mk {C : Cell} (O : Opt C) (up dn : Fld C) (i : Pnt C) :
    spinPoint O up dn i = mk (addCore O 0.5 up i) (addCore O 0.5 dn i)
      (sigmaOf O (fun i => addCore O 0.5 up i + addCore O 0.5 dn i) i)
      (sigmaOf O (addCore O 0.5 up) i) (sigmaOf O (addCore O 0.5 dn) i) := rfl

theorem vxcSpin_up {C : Cell} (O : Opt C) {Kx : Pt → OutX} {Kc : Pt → OutC}
    (hK : Kernel O.isgradient Kx Kc) (up dn : Fld C) (j : Pnt C) (hs : Symm C)
    (hrt : 0 < O.rhotol) (hst : 1e-14 < O.sigmatol) (h : Clear O up dn) :
    HasDerivAt (fun t => excTotal O (fun i => Function.update up j t i + dn i)
        (excSpin O Kx Kc (Function.update up j t) dn))
      (C.dV * (vxcSpin O Kx Kc up dn).1 j) (up j) := by
  have hraw : ∀ i, O.rhotol < raw O 0.5 up i := h.above_up
  have hrawd : ∀ i, O.rhotol < raw O 0.5 dn i := h.above_dn
  set u := addCore O 0.5 up with hu
  set d := addCore O 0.5 dn with hd
  have huj : u j = up j + shift O 0.5 j := by rw [hu, addCore_of_lt (hraw j), raw_eq]
  have hpu : ∀ i, 0 < u i := fun i => lt_of_lt_of_le hrt (addCore_ge O 0.5 up i)
  have hpd : ∀ i, 0 < d i := fun i => lt_of_lt_of_le hrt (addCore_ge O 0.5 dn i)
  have hsg : ∀ rho i, 1e-14 < sigmaOf O (C := C) rho i := fun rho i =>
    lt_of_lt_of_le hst (le_max_right _ _)
  set T : Fld C := fun i => u i + d i with hT
  have hev := addCore_update (hraw j)
  rw [← hu] at hev
  have hTup : ∀ y, (fun i => Function.update u j y i + d i) = Function.update T j (y + d j) := by
    intro y
    funext i
    by_cases e : i = j
    · subst e; simp only [Function.update_self]
    · simp only [Function.update_of_ne e, hT]
  -- total density of `Calculate_Exc`
  have hcore : ∀ᶠ t in nhds (up j), addCore O 1 (fun i => Function.update up j t i + dn i)
      = fun i => Function.update u j (t + shift O 0.5 j) i + d i := by
    have hc : ContinuousAt (fun t : ℝ => t + shift O 0.5 j) (up j) := by fun_prop
    have h0 := hraw j
    rw [raw_eq] at h0
    filter_upwards [hc.eventually_const_lt h0] with t ht
    funext i
    have hsh : shift O 1 i = shift O 0.5 i + shift O 0.5 i := by
      unfold shift; split_ifs <;> ring
    have hdi := hrawd i
    rw [raw_eq] at hdi
    have hdv : d i = dn i + shift O 0.5 i := by rw [hd, addCore_of_lt (hrawd i), raw_eq]
    have hui := hraw i
    rw [raw_eq] at hui
    have huv : u i = up i + shift O 0.5 i := by rw [hu, addCore_of_lt (hraw i), raw_eq]
    by_cases e : i = j
    · subst e
      have : O.rhotol < raw O 1 (fun i' => Function.update up i t i' + dn i') i := by
        rw [raw_eq]; simp only [Function.update_self]; linarith
      rw [addCore_of_lt this, raw_eq]
      simp only [Function.update_self]
      linarith
    · have : O.rhotol < raw O 1 (fun i' => Function.update up j t i' + dn i') i := by
        rw [raw_eq]; simp only [Function.update_of_ne e]; linarith
      rw [addCore_of_lt this, raw_eq]
      simp only [Function.update_of_ne e]
      linarith
  have key : ∀ {G : ℝ → ℝ} {b : ℝ}, HasDerivAt G b (u j) →
      (∀ᶠ y in nhds (u j), G y = ∑ i, (Function.update u j y i + d i)
        * ((Kx (mk (Function.update u j y i) (d i)
            (sigmaOf O (Function.update T j (y + d j)) i)
            (sigmaOf O (Function.update u j y) i) (sigmaOf O d i))).e
          + (Kc (mk (Function.update u j y i) (d i)
            (sigmaOf O (Function.update T j (y + d j)) i)
            (sigmaOf O (Function.update u j y) i) (sigmaOf O d i))).e)) →
      HasDerivAt (fun t => excTotal O (fun i => Function.update up j t i + dn i)
        (excSpin O Kx Kc (Function.update up j t) dn)) (b * C.dV) (up j) := by
    intro G b hG hGe
    rw [huj] at hG hGe
    have h1 : HasDerivAt (fun t => G (t + shift O 0.5 j)) b (up j) :=
      HasDerivAt.comp_add_const (up j) (shift O 0.5 j) hG
    refine (h1.mul_const C.dV).congr_of_eventuallyEq ?_
    have hc : Filter.Tendsto (fun t : ℝ => t + shift O 0.5 j) (nhds (up j))
        (nhds (up j + shift O 0.5 j)) := by
      have : ContinuousAt (fun t : ℝ => t + shift O 0.5 j) (up j) := by fun_prop
      exact this
    filter_upwards [hev, hcore, hc.eventually hGe] with t ht hct hGt
    simp only [excTotal, excSpin, spinPoint_mk, ht, hct, ← hd, hTup]
    rw [hGt]
  have hTj : T j = u j + d j := rfl
  cases hb : O.isgradient
  · have hn := hK.none hb
    have hx := (hK.x (u j) (d j) (sigmaOf O T j) (sigmaOf O u j) (sigmaOf O d j) (hpu j) (hpd j)
      (hsg _ _) (hsg _ _) (hsg _ _)).1
    have hc := (hK.c (u j) (d j) (sigmaOf O T j) (sigmaOf O u j) (sigmaOf O d j) (hpu j) (hpd j)
      (hsg _ _) (hsg _ _) (hsg _ _)).1
    have := key (core_deriv0 u j (fun i r => (r + d i) * ((Kx (mk r (d i) (sigmaOf O T j)
        (sigmaOf O u j) (sigmaOf O d j))).e + (Kc (mk r (d i) (sigmaOf O T j)
        (sigmaOf O u j) (sigmaOf O d j))).e)) (by
          refine (hx.fun_add hc).congr_of_eventuallyEq (Filter.Eventually.of_forall fun r => ?_)
          dsimp only; ring))
      (Filter.Eventually.of_forall fun y => Finset.sum_congr rfl fun i _ => by
        rw [(hn _ _ _ (sigmaOf O (Function.update T j (y + d j)) i) _
          (sigmaOf O (Function.update u j y) i) _ (sigmaOf O d i)).1,
          (hn _ _ _ (sigmaOf O (Function.update T j (y + d j)) i) _
          (sigmaOf O (Function.update u j y) i) _ (sigmaOf O d i)).2])
    refine this.congr_deriv ?_
    simp only [vxcSpin, hb, Bool.false_eq_true, if_false, spinPoint_mk, ← hu, ← hd, ← hT]
    ring
  · have hgr := h.above_grad hb
    rw [← hu, ← hd, ← hT] at hgr
    have hWu : ∀ i, O.sigmatol < W C u i := fun i => hgr u (by simp) i
    have hWT : ∀ i, O.sigmatol < W C T i := fun i => hgr T (by simp) i
    have hsu : ∀ i, sigmaOf O u i = W C u i := fun i => max_eq_left (hWu i).le
    have hsT : ∀ i, sigmaOf O T i = W C T i := fun i => max_eq_left (hWT i).le
    have hx := fun i => hK.x (u i) (d i) (sigmaOf O T i) (sigmaOf O u i) (sigmaOf O d i) (hpu i)
      (hpd i) (hsg _ _) (hsg _ _) (hsg _ _)
    have hc := fun i => hK.c (u i) (d i) (sigmaOf O T i) (sigmaOf O u i) (sigmaOf O d i) (hpu i)
      (hpd i) (hsg _ _) (hsg _ _) (hsg _ _)
    have hX := core_deriv hs u (fun i => (Kx (spinPoint O up dn i)).v2u) j
      (fun i r s => (r + d i) * (Kx (mk r (d i) (sigmaOf O T i) s (sigmaOf O d i))).e)
      (by rw [← hsu]; exact (hx j).1)
      (fun i => by rw [← hsu]; exact ((hx i).2.2 hb).1)
    have hC := core_deriv hs T (fun i => (Kc (spinPoint O up dn i)).v2) j
      (fun i r s => r * (Kc (mk (r - d i) (d i) s (sigmaOf O u i) (sigmaOf O d i))).e)
      (a := (Kc (spinPoint O up dn j)).vu)
      (by
        have h1 := (hc j).1
        have e : u j = T j - d j := by rw [hTj]; ring
        rw [e] at h1
        have h2 := HasDerivAt.comp_sub_const (T j) (d j) h1
        rw [← hsT]
        refine (h2.congr_of_eventuallyEq (Filter.Eventually.of_forall fun r => ?_)).congr_deriv ?_
        · dsimp only; rw [sub_add_cancel]
        · rw [spinPoint_mk, ← e])
      (fun i => by
        rw [← hsT]
        have e : T i - d i = u i := by simp only [hT]; ring
        simp only [e]
        exact (hc i).2.2 hb)
    have hC' := HasDerivAt.comp_add_const (u j) (d j) hC
    have := key (hX.fun_add hC') (by
      have hcont : Filter.Tendsto (fun y : ℝ => y + d j) (nhds (u j)) (nhds (T j)) := by
        have : ContinuousAt (fun y : ℝ => y + d j) (u j) := by fun_prop
        exact this
      filter_upwards [sigma_update hs j hWu, hcont.eventually (sigma_update hs j hWT)] with y h1 h2
      rw [← Finset.sum_add_distrib]
      refine Finset.sum_congr rfl fun i _ => ?_
      have e1 : Function.update T j (y + d j) i = Function.update u j y i + d i :=
        (congrFun (hTup y) i).symm
      rw [h1 i, h2 i, e1, add_sub_cancel_right,
        hK.xind _ _ (W C (Function.update T j (y + d j)) i) (sigmaOf O T i),
        hK.cind _ _ _ (W C (Function.update u j y) i) (sigmaOf O u i) (sigmaOf O d i) (sigmaOf O d i)]
      ring)
    refine this.congr_deriv ?_
    simp only [vxcSpin, hb, if_true, spinPoint_mk, ← hu, ← hd, ← hT]
    ring

/-- Exchange of the two spins. -/
def swap (p : Pt) : Pt :=
  { rho := p.rho, up := p.dn, dn := p.up, sg := p.sg, sgu := p.sgd, sgd := p.sgu }

theorem swap_mk (u d g gu gd : ℝ) : swap (mk u d g gu gd) = mk d u g gd gu := by
  simp only [swap, mk, add_comm]

theorem vxcSpin_dn {C : Cell} (O : Opt C) {Kx : Pt → OutX} {Kc : Pt → OutC}
    (hK : Kernel O.isgradient Kx Kc) (up dn : Fld C) (j : Pnt C) (hs : Symm C)
    (hrt : 0 < O.rhotol) (hst : 1e-14 < O.sigmatol) (h : Clear O up dn) :
    HasDerivAt (fun t => excTotal O (fun i => up i + Function.update dn j t i)
        (excSpin O Kx Kc up (Function.update dn j t)))
      (C.dV * (vxcSpin O Kx Kc up dn).2 j) (dn j) := by
  let Kx' : Pt → OutX := fun p =>
    { e := (Kx (swap p)).e, vu := (Kx (swap p)).vd, vd := (Kx (swap p)).vu,
      v2u := (Kx (swap p)).v2d, v2d := (Kx (swap p)).v2u }
  let Kc' : Pt → OutC := fun p =>
    { e := (Kc (swap p)).e, vu := (Kc (swap p)).vd, vd := (Kc (swap p)).vu,
      v2 := (Kc (swap p)).v2 }
  have hK' : Kernel O.isgradient Kx' Kc' := by
    refine ⟨?_, ?_, ?_, ?_, ?_⟩
    · intro u d g g' gu gd
      simp only [Kx', swap_mk]
      exact hK.xind _ _ _ _ _ _
    · intro u d g gu gu' gd gd'
      simp only [Kc', swap_mk]
      exact hK.cind _ _ _ _ _ _ _
    · intro hb u d g g' gu gu' gd gd'
      simp only [Kx', Kc', swap_mk]
      exact hK.none hb _ _ _ _ _ _ _ _
    · intro u d g gu gd hu hd h1 h2 h3
      obtain ⟨a, b, c⟩ := hK.x d u g gd gu hd hu h1 h3 h2
      simp only [Kx', swap_mk]
      refine ⟨?_, ?_, fun hb => ?_⟩
      · exact b.congr_of_eventuallyEq (Filter.Eventually.of_forall fun y => by
          dsimp only; rw [add_comm y d])
      · exact a.congr_of_eventuallyEq (Filter.Eventually.of_forall fun y => by
          dsimp only; rw [add_comm u y])
      · rw [add_comm u d]
        exact ⟨(c hb).2, (c hb).1⟩
    · intro u d g gu gd hu hd h1 h2 h3
      obtain ⟨a, b, c⟩ := hK.c d u g gd gu hd hu h1 h3 h2
      simp only [Kc', swap_mk]
      refine ⟨?_, ?_, fun hb => ?_⟩
      · exact b.congr_of_eventuallyEq (Filter.Eventually.of_forall fun y => by
          dsimp only; rw [add_comm y d])
      · exact a.congr_of_eventuallyEq (Filter.Eventually.of_forall fun y => by
          dsimp only; rw [add_comm u y])
      · rw [add_comm u d]
        exact c hb
  have hT : ∀ a b : Fld C, (fun i => a i + b i) = fun i => b i + a i := fun a b => by
    funext i; rw [add_comm]
  have hcl : Clear O dn up := by
    refine ⟨h.above_dn, h.above_up, fun hb rho hr => ?_⟩
    refine h.above_grad hb rho ?_
    rw [hT (addCore O 0.5 dn) (addCore O 0.5 up)] at hr
    simp only [List.mem_cons, List.not_mem_nil, or_false] at hr ⊢
    tauto
  have hsp : ∀ a b : Fld C, ∀ i, swap (spinPoint O a b i) = spinPoint O b a i := by
    intro a b i
    rw [spinPoint_mk, spinPoint_mk, swap_mk, hT (addCore O 0.5 a) (addCore O 0.5 b)]
  have := vxcSpin_up O hK' dn up j hs hrt hst hcl
  refine (this.congr_of_eventuallyEq (Filter.Eventually.of_forall fun t => ?_)).congr_deriv ?_
  · dsimp only
    rw [hT (Function.update dn j t) up]
    congr 1
    funext i
    simp only [excSpin, Kx', Kc', hsp]
  · congr 1
    simp only [vxcSpin, Kx', Kc', hsp, hT (addCore O 0.5 dn) (addCore O 0.5 up)]
    split_ifs <;> rfl

theorem kernel_supported (F : Fun) {isgradient : Bool} (hF : Supported F isgradient)
    (hpz : F.ixc1 ≠ 1) :
    Kernel isgradient (exchScaled F) (corrSpin F.ixc1 F.opt1) := by
  have hcc : F.ixc1 = 2 ∨ F.ixc1 = 3 := by
    rcases hF with ⟨_, _, h⟩ | ⟨_, _, h⟩
    · exact Or.inl (h.resolve_left hpz)
    · exact h
  have hxx : F.ixc0 = 1 ∨ F.ixc0 = 2 ∨ F.ixc0 = 3 := by
    rcases hF with ⟨_, h, _⟩ | ⟨_, h, _⟩
    · exact Or.inl h
    · exact Or.inr h
  refine ⟨?_, ?_, ?_, ?_, ?_⟩
  · intro u d g g' gu gd
    rcases hxx with h | h | h <;> simp only [exchScaled, exchSpin, h] <;> rfl
  · intro u d g gu gu' gd gd'
    rcases hcc with h | h <;> simp only [corrSpin, h] <;> rfl
  · intro hb u d g g' gu gu' gd gd'
    rcases hF with ⟨_, h, h'⟩ | ⟨h, _⟩
    · have h' := h'.resolve_left hpz
      simp only [exchScaled, exchSpin, corrSpin, h, h']
      exact ⟨rfl, rfl⟩
    · rw [hb] at h; cases h
  · intro u d g gu gd hu hd h1 h2 h3
    have e : ∀ {f : ℝ → Pt} {m : ℝ → ℝ} {a b : ℝ},
        HasDerivAt (fun y => m y * (exchSpin F.ixc0 F.opt0 (f y)).e) a b →
        HasDerivAt (fun y => m y * (exchScaled F (f y)).e) (a * F.scale) b := by
      intro f m a b hh
      refine (hh.mul_const F.scale).congr_of_eventuallyEq (Filter.Eventually.of_forall fun y => ?_)
      simp only [exchScaled]; ring
    have key : HasDerivAt (fun y => (y + d) * (exchSpin F.ixc0 F.opt0 (mk y d g gu gd)).e)
          (exchSpin F.ixc0 F.opt0 (mk u d g gu gd)).vu u
        ∧ HasDerivAt (fun y => (u + y) * (exchSpin F.ixc0 F.opt0 (mk u y g gu gd)).e)
          (exchSpin F.ixc0 F.opt0 (mk u d g gu gd)).vd d
        ∧ (isgradient = true →
          HasDerivAt (fun y => (u + d) * (exchSpin F.ixc0 F.opt0 (mk u d g y gd)).e)
            ((exchSpin F.ixc0 F.opt0 (mk u d g gu gd)).v2u / 2) gu
          ∧ HasDerivAt (fun y => (u + d) * (exchSpin F.ixc0 F.opt0 (mk u d g gu y)).e)
            ((exchSpin F.ixc0 F.opt0 (mk u d g gu gd)).v2d / 2) gd) := by
      rcases hxx with h | h | h <;> simp only [exchSpin, h]
      · obtain ⟨a, b⟩ := slaterSpin_potential u d g gu gd hu hd
        refine ⟨a, b, fun hb => ?_⟩
        rcases hF with ⟨h', _⟩ | ⟨_, h', _⟩
        · rw [hb] at h'; cases h'
        · rw [h] at h'; omega
      · obtain ⟨a, b, c, c'⟩ := pbexSpin_potential F.opt0 u d g gu gd hu hd
          (le_trans (by norm_num) h2.le) (le_trans (by norm_num) h3.le)
        exact ⟨a, b, fun _ => ⟨c, c'⟩⟩
      · obtain ⟨a, b, c, c'⟩ := rPW86xSpin_potential u d g gu gd hu hd
        exact ⟨a, b, fun _ => ⟨c h2, c' h3⟩⟩
    refine ⟨e key.1, e key.2.1, fun hb => ⟨?_, ?_⟩⟩
    · refine (e (m := fun _ => u + d) (key.2.2 hb).1).congr_deriv ?_
      simp only [exchScaled]; ring
    · refine (e (m := fun _ => u + d) (key.2.2 hb).2).congr_deriv ?_
      simp only [exchScaled]; ring
  · intro u d g gu gd hu hd h1 h2 h3
    rcases hcc with h | h <;> simp only [corrSpin, h]
    · obtain ⟨a, b⟩ := pwSpin_potential u d g gu gd hu hd
      refine ⟨a, b, fun _ => ?_⟩
      refine ((hasDerivAt_const g ((u + d) * (pwSpin (mk u d g gu gd)).e)).congr_of_eventuallyEq
        (Filter.Eventually.of_forall fun y => ?_)).congr_deriv ?_
      · rfl
      · simp [pwSpin]
    · obtain ⟨a, b, c⟩ := pbecSpin_potential F.opt1 u d g gu gd hu hd
        (le_trans (by norm_num) h1.le)
      exact ⟨a, b, fun _ => c⟩

/-- With spin, the derivatives of the exchange-correlation energy by the two spin densities at a
grid point are `dV` times the two columns of the potential. -/
theorem vxcSpin_is_derivative {C : Cell} (O : Opt C) (F : Fun) (up dn : Fld C) (j : Pnt C)
    (hF : Supported F O.isgradient) (hpz : F.ixc1 ≠ 1) (hs : Symm C)
    (hrt : 0 < O.rhotol) (hst : 1e-14 < O.sigmatol) (h : Clear O up dn) :
    HasDerivAt (fun t => excTotal O (fun i => Function.update up j t i + dn i)
        (excSpin O (exchScaled F) (corrSpin F.ixc1 F.opt1) (Function.update up j t) dn))
      (C.dV * (vxcSpin O (exchScaled F) (corrSpin F.ixc1 F.opt1) up dn).1 j) (up j)
    ∧ HasDerivAt (fun t => excTotal O (fun i => up i + Function.update dn j t i)
        (excSpin O (exchScaled F) (corrSpin F.ixc1 F.opt1) up (Function.update dn j t)))
      (C.dV * (vxcSpin O (exchScaled F) (corrSpin F.ixc1 F.opt1) up dn).2 j) (dn j) :=
  ⟨vxcSpin_up O (kernel_supported F hF hpz) up dn j hs hrt hst h,
    vxcSpin_dn O (kernel_supported F hF hpz) up dn j hs hrt hst h⟩

/-! ### Examples -/

/-- Three periodic points in a row. -/
def row : Cell where
  N := ![3, 1, 1]
  per := fun _ => true
  FDn := 1
  w := fun _ _ => 1
  oblique := false
  lapcT := fun _ => 0
  dV := 2

noncomputable def rowDens : Fld row := fun i => ![1, 2, 4] (i 0)

noncomputable def rowOpt (g : Bool) : Opt row where
  nlcc := false
  core := fun _ => 0
  rhotol := 1e-14
  sigmatol := 1e-10
  isgradient := g

theorem row_ext (x : Fin 3 → ℤ) (k : Fin 3) (hk : x 0 % 3 = k) :
    ext row rowDens x = ![1, 2, 4] k := by
  have hN : ∀ d, 0 < row.N d := by intro d; fin_cases d <;> decide
  have h : ∀ d, 0 ≤ wrap (row.N d) (row.per d) (x d) ∧ wrap (row.N d) (row.per d) (x d) < row.N d := by
    intro d
    have := hN d
    simp only [wrap, row, if_true] at this ⊢
    exact ⟨Int.emod_nonneg _ (by omega), Int.emod_lt_of_pos _ (by omega)⟩
  unfold ext
  rw [dif_pos h]
  show ![(1 : ℝ), 2, 4] _ = _
  congr 1
  apply Fin.ext
  show (x 0 % ((3 : ℕ) : ℤ)).toNat = (k : ℕ)
  have : ((3 : ℕ) : ℤ) = 3 := rfl
  rw [this, hk, Int.toNat_natCast]

theorem row_grad (i : Pnt row) (a : Fin 3) (ha : i 0 = a) :
    grad row 0 rowDens i = ![-2, 3, -1] a := by
  have e : grad row 0 rowDens i = ext row rowDens (step i 0 1) - ext row rowDens (step i 0 (-1)) := by
    show rowDens i * 0 + (ext row rowDens (step i 0 ((1 : ℕ) : ℤ))
      - ext row rowDens (step i 0 (-((1 : ℕ) : ℤ)))) * 1 = _
    push_cast; ring
  have s1 : ∀ t, step i 0 t 0 = (a : ℕ) + t := by
    intro t; simp only [step, Function.update_self, ha]
  rw [e]
  fin_cases a
  · rw [row_ext _ 1 (by rw [s1]; rfl), row_ext _ 2 (by rw [s1]; rfl)]
    show (2 : ℝ) - 4 = -2; norm_num
  · rw [row_ext _ 2 (by rw [s1]; rfl), row_ext _ 0 (by rw [s1]; rfl)]
    show (4 : ℝ) - 1 = 3; norm_num
  · rw [row_ext _ 0 (by rw [s1]; rfl), row_ext _ 1 (by rw [s1]; rfl)]; norm_num

theorem row_core (g : Bool) (c : ℝ) : addCore (rowOpt g) c rowDens = rowDens := by
  funext i
  have : (1e-14 : ℝ) ≤ rowDens i := by
    have h : ∀ a : Fin 3, (1e-14 : ℝ) ≤ ![(1 : ℝ), 2, 4] a := by
      intro a; fin_cases a <;> norm_num
    exact h _
  simp only [addCore, rowOpt, Bool.false_eq_true, if_false, if_neg (not_lt.2 this)]

theorem row_sigma (rho : Fld row) (hr : grad row 0 rho = grad row 0 rowDens) (i : Pnt row) :
    (1e-10 : ℝ) < normSquare row (grad row 0 rho i) (grad row 1 rho i) (grad row 2 rho i) := by
  have h0 : 1 ≤ grad row 0 rho i * grad row 0 rho i := by
    rw [hr, row_grad i _ rfl]
    have h : ∀ a : Fin 3, (1 : ℝ) ≤ ![(-2 : ℝ), 3, -1] a * ![(-2 : ℝ), 3, -1] a := by
      intro a; fin_cases a <;> norm_num
    exact h _
  show (1e-10 : ℝ) < _ * _ + _ * _ + _ * _
  nlinarith [mul_self_nonneg (grad row 1 rho i), mul_self_nonneg (grad row 2 rho i)]

/-- PBE on the three points. -/
example (j : Pnt row) : ∃ v, HasDerivAt (fun t => excTotal (rowOpt true) (Function.update rowDens j t)
      (exc (rowOpt true) (point ⟨2, 3, 1, 1, 1⟩) (Function.update rowDens j t))) (2 * v) (rowDens j)
    ∧ |vxc (rowOpt true) (point ⟨2, 3, 1, 1, 1⟩) rowDens j - v| ≤ 0 := by
  obtain ⟨v, h1, h2⟩ := vxc_is_derivative (rowOpt true) ⟨2, 3, 1, 1, 1⟩ rowDens j (Or.inr ⟨rfl, Or.inl rfl, Or.inr rfl⟩)
    (by intro h; cases h) (by simp only [rowOpt]; norm_num) (by simp only [rowOpt]; norm_num)
    (by
      have h : ∀ a : Fin 3, (1e-14 : ℝ) < ![(1 : ℝ), 2, 4] a := by
        intro a; fin_cases a <;> norm_num
      simp only [rowOpt, Bool.false_eq_true, if_false]
      exact h _)
    (by intro h; cases h)
    (by rw [row_core]; exact fun _ i => row_sigma _ rfl i)
  exact ⟨v, h1, by simpa using h2⟩

/-- Spin-polarised PBE0 with equal spins on the three points: the hypotheses hold. -/
example : Clear (rowOpt true) rowDens rowDens ∧ Supported ⟨2, 3, 1, 1, 0.75⟩ (rowOpt true).isgradient := by
  have h : ∀ a : Fin 3, (1e-14 : ℝ) < ![(1 : ℝ), 2, 4] a := by
    intro a; fin_cases a <;> norm_num
  refine ⟨⟨fun i => ?_, fun i => ?_, fun _ rho hr i => ?_⟩, Or.inr ⟨rfl, Or.inl rfl, Or.inr rfl⟩⟩
  · simp only [rowOpt, Bool.false_eq_true, if_false]; exact h _
  · simp only [rowOpt, Bool.false_eq_true, if_false]; exact h _
  · simp only [row_core, List.mem_cons, List.not_mem_nil, or_false, or_self_left] at hr
    rcases hr with hr | hr
    · rw [hr]; exact row_sigma _ rfl i
    · have h2 : ∀ a : Fin 3, grad row a rho i = 2 * grad row a rowDens i := by
        intro a
        rw [grad_eq, grad_eq, Finset.mul_sum]
        refine Finset.sum_congr rfl fun g _ => ?_
        rw [hr]; ring
      have := row_sigma rowDens rfl i
      rw [h2, h2, h2]
      simp only [normSquare, row, Bool.false_eq_true, if_false] at this ⊢
      show (1e-10 : ℝ) < _
      nlinarith [this]

/-! ### Noncollinear potential -/

/-- The potential matrix of a noncollinear calculation has the up and the down potential as
eigenvalues: their sum is its trace and their product its determinant. -/
theorem noncollinear_eigenvalues (magtol vup vdw mx my mz : ℝ) (h0 : 0 ≤ magtol)
    (h : magtol < √(mx ^ 2 + my ^ 2 + mz ^ 2)) :
    let V := noncollinear magtol vup vdw mx my mz √(mx ^ 2 + my ^ 2 + mz ^ 2)
    V 0 + V 1 = vup + vdw ∧ V 0 * V 1 - (V 2 ^ 2 + V 3 ^ 2) = vup * vdw := by
  intro V
  have hp : 0 < √(mx ^ 2 + my ^ 2 + mz ^ 2) := lt_of_le_of_lt h0 h
  have hq : √(mx ^ 2 + my ^ 2 + mz ^ 2) ^ 2 = mx ^ 2 + my ^ 2 + mz ^ 2 :=
    Real.sq_sqrt (by positivity)
  simp only [V, noncollinear, gt_iff_lt, if_pos h, Matrix.cons_val_zero, Matrix.cons_val_one,
    Matrix.cons_val]
  generalize √(mx ^ 2 + my ^ 2 + mz ^ 2) = r at hp hq
  constructor
  · ring
  · field_simp
    ring_nf
    have : mx ^ 2 = r ^ 2 - my ^ 2 - mz ^ 2 := by linarith
    rw [this]
    ring

/-- Chain rule for a function of `(n + |m|)/2` and `(n - |m|)/2`. -/
theorem noncollinear_chain {f : ℝ × ℝ → ℝ} {n vup vdw x r' : ℝ} {r : ℝ → ℝ}
    (hf : HasFDerivAt f (vup • ContinuousLinearMap.fst ℝ ℝ ℝ + vdw • ContinuousLinearMap.snd ℝ ℝ ℝ)
      ((n + r x) / 2, (n - r x) / 2)) (hr : HasDerivAt r r' x) :
    HasDerivAt (fun y => f ((n + r y) / 2, (n - r y) / 2)) (0.5 * (vup - vdw) * r') x := by
  have h1 : HasDerivAt (fun y => ((n + r y) / 2, (n - r y) / 2)) (r' / 2, -r' / 2) x :=
    ((hr.const_add n).div_const 2).prodMk ((hr.const_sub n).div_const 2)
  refine (hf.comp_hasDerivAt x h1).congr_deriv ?_
  simp
  ring

/-- The components of the noncollinear potential are the derivatives of the energy: if the up and
down potentials are the derivatives of `f` by the up and down densities
`(n ± |m|)/2`, the derivative by `n` is `(V11 + V22)/2` and those by the components of `m` are
`Re V12`, `-Im V12`, `(V11 - V22)/2`. -/
theorem noncollinear_is_derivative (magtol n vup vdw mx my mz : ℝ) (f : ℝ × ℝ → ℝ)
    (h0 : 0 ≤ magtol) (h : magtol < √(mx ^ 2 + my ^ 2 + mz ^ 2))
    (hf : HasFDerivAt f (vup • ContinuousLinearMap.fst ℝ ℝ ℝ + vdw • ContinuousLinearMap.snd ℝ ℝ ℝ)
      ((n + √(mx ^ 2 + my ^ 2 + mz ^ 2)) / 2, (n - √(mx ^ 2 + my ^ 2 + mz ^ 2)) / 2)) :
    let V := noncollinear magtol vup vdw mx my mz √(mx ^ 2 + my ^ 2 + mz ^ 2)
    let E : ℝ → ℝ → ℝ → ℝ → ℝ := fun n x y z =>
      f ((n + √(x ^ 2 + y ^ 2 + z ^ 2)) / 2, (n - √(x ^ 2 + y ^ 2 + z ^ 2)) / 2)
    HasDerivAt (fun t => E t mx my mz) ((V 0 + V 1) / 2) n
      ∧ HasDerivAt (fun t => E n t my mz) (V 2) mx
      ∧ HasDerivAt (fun t => E n mx t mz) (-V 3) my
      ∧ HasDerivAt (fun t => E n mx my t) ((V 0 - V 1) / 2) mz := by
  intro V E
  have hp : 0 < √(mx ^ 2 + my ^ 2 + mz ^ 2) := lt_of_le_of_lt h0 h
  have hq : mx ^ 2 + my ^ 2 + mz ^ 2 ≠ 0 := (Real.sqrt_pos.1 hp).ne'
  simp only [V, noncollinear, gt_iff_lt, if_pos h, Matrix.cons_val_zero, Matrix.cons_val_one,
    Matrix.cons_val, E]
  refine ⟨?_, ?_, ?_, ?_⟩
  · have h1 : HasDerivAt (fun y => ((y + √(mx ^ 2 + my ^ 2 + mz ^ 2)) / 2,
        (y - √(mx ^ 2 + my ^ 2 + mz ^ 2)) / 2)) ((1 : ℝ) / 2, (1 : ℝ) / 2) n :=
      (((hasDerivAt_id' n).add_const _).div_const 2).prodMk
        (((hasDerivAt_id' n).sub_const _).div_const 2)
    refine (hf.comp_hasDerivAt n h1).congr_deriv ?_
    simp
    ring
  · have hr : HasDerivAt (fun t : ℝ => √(t ^ 2 + my ^ 2 + mz ^ 2))
        (mx / √(mx ^ 2 + my ^ 2 + mz ^ 2)) mx := by
      refine (((((hasDerivAt_id' mx).pow 2).add_const (my ^ 2)).add_const (mz ^ 2)).sqrt hq).congr_deriv ?_
      simp only [Nat.cast_ofNat, Nat.add_one_sub_one, pow_one, mul_one, Pi.pow_apply]
      field_simp
    refine (noncollinear_chain (r := fun t => √(t ^ 2 + my ^ 2 + mz ^ 2)) hf hr).congr_deriv ?_
    ring
  · have hr : HasDerivAt (fun t : ℝ => √(mx ^ 2 + t ^ 2 + mz ^ 2))
        (my / √(mx ^ 2 + my ^ 2 + mz ^ 2)) my := by
      refine (((((hasDerivAt_id' my).pow 2).const_add (mx ^ 2)).add_const (mz ^ 2)).sqrt hq).congr_deriv ?_
      simp only [Nat.cast_ofNat, Nat.add_one_sub_one, pow_one, mul_one, Pi.pow_apply]
      field_simp
    refine (noncollinear_chain (r := fun t => √(mx ^ 2 + t ^ 2 + mz ^ 2)) hf hr).congr_deriv ?_
    ring
  · have hr : HasDerivAt (fun t : ℝ => √(mx ^ 2 + my ^ 2 + t ^ 2))
        (mz / √(mx ^ 2 + my ^ 2 + mz ^ 2)) mz := by
      refine ((((hasDerivAt_id' mz).pow 2).const_add (mx ^ 2 + my ^ 2)).sqrt hq).congr_deriv ?_
      simp only [Nat.cast_ofNat, Nat.add_one_sub_one, pow_one, mul_one, Pi.pow_apply]
      field_simp
    refine (noncollinear_chain (r := fun t => √(mx ^ 2 + my ^ 2 + t ^ 2)) hf hr).congr_deriv ?_
    ring

/-- A magnetisation along x: the potential is off-diagonal. -/
example : noncollinear 1e-14 3 1 2 0 0 2 = ![2, 2, 1, 0] := by
  unfold noncollinear
  rw [if_pos (by norm_num)]
  norm_num

end Sparc.Vxc

import Verif.Scf.PropsA
import Mathlib.Algebra.Algebra.Bilinear

/-!
# C94 (examples, non-collinear spin and meta-GGA), C95: iteration count, convergence measure and
mean of the potential; C96: energies of the exact-exchange iteration
-/

namespace Sparc.Scf

open Finset

/-! ### A small run -/

/-- One process, one grid point of volume 1. -/
noncomputable def exP (spin : ℕ) (mgga : Bool) (fock : ℕ) : Par where
  np := 1
  nd := fun _ => 1
  Nd := 1
  cyclix := false
  wt := fun _ _ => 0
  dV := 1
  spin := spin
  mgga := mgga
  usefock := fock
  Esc := 5
  b := fun _ _ => -1
  core := fun _ _ => 1
  BC := 2
  TOL_SCF := 1 / 10
  TOL_SCF_INIT := 1 / 5
  MAXIT_SCF := 3
  MINIT_SCF := 2

/-- One k-point, one band with kinetic energy 3 in each channel. -/
noncomputable def exSolve (P : Par) (V v3 : Arr) : Sol where
  procs := fun _ _ => ⟨nchan P, 1, 1, fun _ => 1, fun _ => 1,
    fun s => 3 + V 0 s + if P.mgga = true then v3 0 s else 0⟩
  rho := fun _ j => if P.spin = 0 then 1 else if j = 0 then 2 else 1
  mag := fun _ _ => 0
  tau := fun _ j => if P.spin = 0 then 1 else if j = 0 then 2 else 1
  ent := -1
  eexx := 0

noncomputable def exO (P : Par) : Ops where
  occfac := 1
  Nkpts := 1
  npspin := 1
  npkpt := 1
  solve := exSolve P
  pois := fun rho p i => 2 * (P.b p i + rho p i)
  vxc := fun rho _ _ p i => -rho p i
  vnc := fun rho _ _ p i => -rho p i
  exd := fun rho _ _ p i => -rho p i / 2
  v3 := fun _ _ _ _ _ => 1
  mixV := fun _ v p i => v p i / 2
  mixD := fun _ rho m => (rho, m)

theorem exHolds (P : Par) (V v3 : Arr) :
    Holds (nchan P) 1 1 1 1 (fun _ => 1) (fun _ _ _ => 1)
      (fun s _ _ => 3 + V 0 s + if P.mgga = true then v3 0 s else 0) (exSolve P V v3).procs where
  hspin := one_pos
  hkpt := one_pos
  hdvd := one_dvd _
  hns := by intro a _ b _; simp [exSolve, Groups.spinCount]
  hnk := by
    intro a _ b hb
    have : b = 0 := by omega
    subst this
    simp [exSolve, Groups.kptCount]
  hNs := by intro a _ b _; rfl
  hw := by intro a _ b _ k _; rfl
  hocc := by intro a _ b _ s _ k _ n _; rfl
  hlam := by
    intro a ha b hb s hs k hk n hn
    have : a = 0 := by omega
    subst this
    have : b = 0 := by omega
    subst this
    have : n = 0 := by omega
    subst this
    have hc : Groups.kptCount 1 1 0 = 1 := by simp [Groups.kptCount]
    have : k = 0 := by omega
    subst this
    simp [exSolve, hc, Groups.spinStart]

theorem exInteg (spin : ℕ) (mgga : Bool) (fock : ℕ) (f g : Arr) :
    integ (exP spin mgga fock) f g = f 0 0 * g 0 0 := by
  simp [integ, exP, W]

noncomputable def exB (spin : ℕ) (hs : spin ≤ 1) (mgga : Bool) (fock : ℕ) (V v3 : Arr) :
    Bands (exP spin mgga fock) (exO (exP spin mgga fock)) V v3
      ((exO (exP spin mgga fock)).solve V v3) where
  Ns := 1
  w := fun _ => 1
  occ := fun _ _ _ => 1
  lam := fun s _ _ => 3 + V 0 s + if mgga = true then v3 0 s else 0
  kin := fun _ _ _ => 3
  vx := fun _ _ _ => 0
  psi2 := fun _ _ _ _ _ => 1
  tau := fun _ _ _ _ _ => 1
  holds := exHolds (exP spin mgga fock) V v3
  eig := by
    intro s _ k _ n _
    simp only [exInteg]
    simp [exP]
  dens := by
    intro s hs' p hp i hi
    have hp' : p = 0 := by simp [exP] at hp; exact hp
    have hi' : i = 0 := by simp [exP] at hi; exact hi
    subst hp'; subst hi'
    simp only [exO, exSolve, chanCol, exP]
    by_cases h : spin = 0
    · simp [h]
    · simp [h]
  total := by
    intro h p hp i hi
    have hi' : i = 0 := by simp [exP] at hi; exact hi
    subst hi'
    have h' : spin ≠ 0 := h
    simp [exO, exSolve, exP, h']
    norm_num
  taud := by
    intro _ s hs' p hp i hi
    have hp' : p = 0 := by simp [exP] at hp; exact hp
    have hi' : i = 0 := by simp [exP] at hi; exact hi
    subst hp'; subst hi'
    simp only [exO, exSolve, chanCol, exP]
    by_cases h : spin = 0
    · simp [h]
    · simp [h]

theorem exVx (spin : ℕ) (hs : spin ≤ 1) (mgga : Bool) (fock : ℕ) (V v3 : Arr) :
    (exB spin hs mgga fock V v3).vxE = 0 := by
  simp [Bands.vxE, exB]

/-- Starting potentials. -/
noncomputable def exS : StV := { veff := fun _ j => 7 + j, dia := fun _ _ => 0, v3 := fun _ _ => 0 }

/-- `potential_mixing_energy` applies to a spin-polarised run that starts from an arbitrary
potential. -/
example (r : Rec) (hr : r ∈ scfRun (exP 1 false 0) (stepV (exP 1 false 0) (exO (exP 1 false 0))) exS) :
    r.etot = 3 + 3 + (-1 + 2) * (2 * (-1 + 2)) / 2 + (2 + 1) * (-2 / 2) + 5 + -1 := by
  have h := (potential_mixing_energy (P := exP 1 false 0) (O := exO (exP 1 false 0)) (by decide)
    rfl (by decide) one_pos one_pos (exB 1 (by norm_num) false 0) (exVx 1 (by norm_num) false 0)
    exS r hr)
  rw [h.2, h.1]
  unfold ks
  simp only [exInteg]
  simp [Bands.kinE, exB, nchan, exP, exO, exSolve, sum_range_succ]
  norm_num

/-- `eband_split` on it: two channels with eigenvalues 10 and 11. -/
example : eband 1 1 1 1 ((exO (exP 1 false 0)).solve exS.veff exS.v3).procs 0 0 = 10 + 11 := by
  have h := eband_split (exB 1 (by norm_num) false 0 exS.veff exS.v3) (by decide) one_pos one_pos
  refine h.trans ?_
  rw [exVx]
  unfold spinInt
  simp only [exInteg]
  simp [Bands.kinE, exB, nchan, exP, exO, exSolve, sum_range_succ, exS]
  norm_num

/-- A density and its potentials to start density mixing from. -/
noncomputable def exD (P : Par) : StD where
  rho := fun _ _ => 0
  xk := fun _ _ => 0
  phi := (exO P).pois fun _ _ => 0
  xc := (exO P).vxc (fun _ _ => 0) (fun _ _ => 0) (fun _ _ => 0)
  exd := (exO P).exd (fun _ _ => 0) (fun _ _ => 0) (fun _ _ => 0)
  veff := veffLoc P ((exO P).vxc (fun _ _ => 0) (fun _ _ => 0) (fun _ _ => 0))
    ((exO P).vnc (fun _ _ => 0) (fun _ _ => 0) (fun _ _ => 0)) ((exO P).pois fun _ _ => 0)
  v3 := fun _ _ => 0

theorem exConsistent (P : Par) : Consistent P (exO P) (exD P) (fun _ _ => 0) (fun _ _ => 0) :=
  ⟨rfl, fun _ _ _ _ _ => by simp [exD], rfl, rfl, rfl, rfl⟩

theorem exPoisson (P : Par) : IsPoisson P (exO P) (fun f p i => 2 * f p i) where
  pois := fun _ => rfl
  add := fun f g p i => by ring
  symm := fun f g => by
    unfold integ
    exact sum_congr rfl fun p _ => sum_congr rfl fun i _ => by ring

/-- `density_mixing_energy` applies without spin (`hmix` holds vacuously of the total there). -/
example (r : Rec) (hr : r ∈ scfRun (exP 0 false 0) (stepD (exP 0 false 0) (exO (exP 0 false 0)))
    (exD (exP 0 false 0))) : r.sol = (exO (exP 0 false 0)).solve r.veff r.v3 :=
  (density_mixing_energy (P := exP 0 false 0) (O := exO (exP 0 false 0)) (by decide)
    (fun _ => rfl) (by decide) one_pos one_pos (exB 0 (by norm_num) false 0)
    (exVx 0 (by norm_num) false 0) _ (exPoisson _) (fun _ _ _ h => absurd rfl h) _ _ _
    (exConsistent _) r hr).1

/-- The first energy of that run is off from the Kohn–Sham energy by the second-order terms. -/
example : ((stepD (exP 0 false 0) (exO (exP 0 false 0)) 0 (exD (exP 0 false 0))).1).etot = 6 := by
  have h := stepD_energy (P := exP 0 false 0) (O := exO (exP 0 false 0)) (by decide) (fun _ => rfl)
    0 (exD (exP 0 false 0)) (exConsistent _) one_pos one_pos (exB 0 (by norm_num) false 0 _ _)
  rw [h, exVx]
  unfold ks spinInt
  simp only [exInteg]
  simp [Bands.kinE, exB, nchan, exP, exO, exSolve, sum_range_succ, exD, fock]
  norm_num

/-- A state whose density is the one the solver returns: `density_mixing_fixed_point`. -/
noncomputable def exF (P : Par) : StD where
  rho := (exSolve P 0 0).rho
  xk := (exSolve P 0 0).rho
  phi := (exO P).pois (exSolve P 0 0).rho
  xc := (exO P).vxc (exSolve P 0 0).rho (exSolve P 0 0).mag (exSolve P 0 0).tau
  exd := (exO P).exd (exSolve P 0 0).rho (exSolve P 0 0).mag (exSolve P 0 0).tau
  veff := veffLoc P ((exO P).vxc (exSolve P 0 0).rho (exSolve P 0 0).mag (exSolve P 0 0).tau)
    ((exO P).vnc (exSolve P 0 0).rho (exSolve P 0 0).mag (exSolve P 0 0).tau)
    ((exO P).pois (exSolve P 0 0).rho)
  v3 := fun _ _ => 1

example : (stepD (exP 1 true 0) (exO (exP 1 true 0)) 0 (exF (exP 1 true 0))).1.etot =
    3 + 3 + (-1 + 2) * (2 * (-1 + 2)) / 2 + (2 + 1) * (-2 / 2) + 5 + -1 := by
  have h := density_mixing_fixed_point (P := exP 1 true 0) (O := exO (exP 1 true 0)) (by decide)
    (fun _ => rfl) one_pos one_pos (exB 1 (by norm_num) true 0) 0 (exF (exP 1 true 0))
    ⟨rfl, (exB 1 (by norm_num) true 0 0 0).total, rfl, rfl, rfl, rfl⟩ rfl
  rw [h, exVx]
  unfold ks
  simp only [exInteg]
  simp [Bands.kinE, exB, nchan, exP, exO, exSolve, sum_range_succ, exF, fock]
  norm_num

/-- **C94 fails for meta-GGA with potential mixing**: the reported energy is not the Kohn–Sham
energy of the orbitals, because the change of `vxcMGGA3` is not corrected for. -/
theorem mgga_correction_missing :
    ∃ (P : Par) (O : Ops) (B : ∀ V v3, Bands P O V v3 (O.solve V v3)) (s0 : StV) (r : Rec),
      P.spin = 0 ∧ P.mgga = true ∧ ¬ fock P ∧ r ∈ scfRun P (stepV P O) s0 ∧
      r.etot ≠ ks P (B r.veff r.v3).kinE r.sol.rho (O.pois r.sol.rho)
        (O.exd r.sol.rho r.sol.mag r.sol.tau) r.sol.ent := by
  have hr : (stepV (exP 0 true 0) (exO (exP 0 true 0)) 0 exS).1 ∈
      scfRun (exP 0 true 0) (stepV (exP 0 true 0) (exO (exP 0 true 0))) exS := by
    unfold scfRun
    change _ ∈ scfLoop _ 2 3 0 exS
    unfold scfLoop
    dsimp only
    split <;> simp
  refine ⟨exP 0 true 0, exO (exP 0 true 0), exB 0 (by norm_num) true 0, exS, _, rfl, rfl,
    by decide, hr, ?_⟩
  have h := potential_mixing_energy_partial (P := exP 0 true 0) (O := exO (exP 0 true 0))
    (by decide) (fun _ => rfl) one_pos one_pos (exB 0 (by norm_num) true 0) exS _ hr
  rw [h, exVx]
  have hf : ¬ fock (exP 0 true 0) := by decide
  have hm : (exP 0 true 0).mgga = true := rfl
  rw [if_neg hf, if_pos hm]
  intro he
  have hx : spinInt (exP 0 true 0) (exSolve (exP 0 true 0) exS.veff exS.v3).tau (fun _ _ => 0) -
      spinInt (exP 0 true 0) (exSolve (exP 0 true 0) exS.veff exS.v3).tau (fun _ _ => 1) = 0 := by
    have : ∀ a b : ℝ, a + b + (0 - 0) = a → b = 0 := fun a b h => by linarith
    exact this _ _ he
  unfold spinInt at hx
  simp only [exInteg] at hx
  simp [exP, exSolve] at hx

/-! ### Non-collinear spin -/

/-- **C94 (non-collinear spin).** With potential mixing the energy is off from the Kohn–Sham
energy by what the potential of the eigenproblem gives for the density (`U`) less the diagonal
density times the *diagonal potential of the previous iteration*, which is not the potential of
the eigenproblem. -/
theorem noncollinear_energy_partial (P : Par) (O : Ops) (hs : P.spin = 2) (hm : P.mgga = false)
    (hf : ¬ fock P) (k : ℕ) (s : StV) (kin U : ℝ)
    (ht : TotalDens P (O.solve s.veff s.v3).rho)
    (hE : eband O.occfac O.Nkpts O.npspin O.npkpt (O.solve s.veff s.v3).procs 0 0 = kin + U) :
    let sol := O.solve s.veff s.v3
    (stepV P O k s).1.etot =
      ks P kin sol.rho (O.pois sol.rho) (O.exd sol.rho sol.mag sol.tau) sol.ent +
        (U - spinInt P sol.rho s.dia) := by
  intro sol
  unfold stepV
  simp only [hs, if_true]
  have e := escc_eq P (veffDia P (O.vxc sol.rho sol.mag sol.tau) (O.pois sol.rho)) s.dia sol.rho
  rw [hs] at e
  rw [freeEnergy_eq, e, hE]
  have hv := spinInt_split P sol.rho (O.vxc sol.rho sol.mag sol.tau) (O.pois sol.rho)
    (veffDia P (O.vxc sol.rho sol.mag sol.tau) (O.pois sol.rho))
    ht (fun p _ i hi => veffDia_0 P _ _ hi) (fun _ p _ i hi => veffDia_1 P _ _ hi)
  rw [hv]
  unfold ks
  rw [integ_add_left P P.b sol.rho]
  dsimp only [sol]
  simp only [hm, hf, Bool.false_eq_true, false_and, if_false]
  ring

/-- One electron with its moment along `z`, whose density does not depend on the potential: the
output potential is 1 in both diagonal terms, the mixing moves the input half way. -/
noncomputable def ncP : Par := { exP 2 false 0 with BC := 1, core := fun _ _ => 0, Esc := 0 }

noncomputable def ncO : Ops where
  occfac := 1
  Nkpts := 1
  npspin := 1
  npkpt := 1
  solve := fun V _ => ⟨fun _ _ => ⟨1, 1, 1, fun _ => 1, fun _ => 1, fun _ => V 0 0⟩,
    fun _ j => if j = 2 then 0 else 1, fun _ j => if j = 0 ∨ j = 3 then 1 else 0, fun _ _ => 0, 0, 0⟩
  pois := fun _ _ _ => 1
  vxc := fun _ _ _ _ _ => 0
  vnc := fun _ _ _ _ _ => 0
  exd := fun _ _ _ _ _ => 0
  v3 := fun _ _ _ _ _ => 0
  mixV := fun _ v p i => if i < 2 then v p i + 1 else v p i
  mixD := fun _ rho m => (rho, m)

/-- The state before the first iteration: potential 3, and 3 for its diagonal terms. -/
noncomputable def ncS : StV := { veff := fun _ j => if j < 2 then 3 else 0, dia := fun _ _ => 3, v3 := fun _ _ => 0 }

/-- **C94 and C95 fail for non-collinear spin with potential mixing.**  In the second iteration
the eigenproblem is solved with the mixed potential 2, the output potential is 1, and yet the error
is 0 and the iteration stops as converged, because the output is compared with the output of the
iteration before; the reported energy is 1 while the Kohn–Sham energy of the orbitals is 0. -/
theorem noncollinear_false_convergence :
    let r1 := stepV ncP ncO 0 ncS
    let r2 := stepV ncP ncO 1 r1.2
    scfRun ncP (stepV ncP ncO) ncS = [r1.1, r2.1] ∧ r1.1.conv = false ∧
    r2.1.veff 0 0 = 2 ∧ veffLoc ncP (ncO.vxc r2.1.sol.rho r2.1.sol.mag r2.1.sol.tau)
      (ncO.vnc r2.1.sol.rho r2.1.sol.mag r2.1.sol.tau) (ncO.pois r2.1.sol.rho) 0 0 = 1 ∧
    r2.1.err = 0 ∧ r2.1.conv = true ∧ r2.1.etot = 1 ∧
    ks ncP 0 r2.1.sol.rho (ncO.pois r2.1.sol.rho)
      (ncO.exd r2.1.sol.rho r2.1.sol.mag r2.1.sol.tau) r2.1.sol.ent = 0 := by
  intro r1 r2
  have hdia : r1.2.dia 0 0 = 1 ∧ r1.2.dia 0 1 = 1 := by
    simp [r1, stepV, veffDia, ncO]
  have hveff : r1.2.veff 0 0 = 2 := by
    simp [r1, stepV, veffLoc, ncO, ncP, exP, shift]
    norm_num
  have herr1 : r1.1.err = 2 := by
    simp only [r1, stepV, scfError]
    simp [ncP, exP, ncO, ncS, veffDia, Par.ndens, sum_range_succ]
    norm_num
    rw [show (4 : ℝ) = 2 ^ 2 by norm_num]
    exact Real.sqrt_sq (by norm_num)
  have herr2 : r2.1.err = 0 := by
    have e : r2.1.err = scfError ncP r1.2.dia (veffDia ncP (fun _ _ => 0) (fun _ _ => 1)) := by
      simp only [r2, stepV]
      simp [ncP, exP, ncO]
    rw [e, scfError]
    simp only [ncP, exP, Par.ndens]
    simp [sum_range_succ, hdia.1, hdia.2, veffDia]
  have hc1 : r1.1.conv = false := by
    have : r1.1.conv = decide (r1.1.err < ncP.tol) := rfl
    rw [this, herr1, decide_eq_false_iff_not]
    simp [Par.tol, ncP, exP]
    norm_num
  have hc2 : r2.1.conv = true := by
    have : r2.1.conv = decide (r2.1.err < ncP.tol) := rfl
    rw [this, herr2, decide_eq_true_iff]
    simp [Par.tol, ncP, exP]
  have hks : ks ncP 0 r2.1.sol.rho (ncO.pois r2.1.sol.rho)
      (ncO.exd r2.1.sol.rho r2.1.sol.mag r2.1.sol.tau) r2.1.sol.ent = 0 := by
    simp [ks, integ, ncP, exP, W, r2, stepV, ncO]
  refine ⟨?_, hc1, hveff, ?_, herr2, hc2, ?_, hks⟩
  · unfold scfRun
    change scfLoop _ 2 3 0 ncS = _
    unfold scfLoop
    dsimp only
    have h1 : ¬ ((stepV ncP ncO 0 ncS).1.conv = true ∧ 0 + 1 ≥ 2) := by omega
    rw [if_neg h1]
    unfold scfLoop
    dsimp only
    have h2 : (stepV ncP ncO (0 + 1) (stepV ncP ncO 0 ncS).2).1.conv = true ∧ 0 + 1 + 1 ≥ 2 :=
      ⟨hc2, le_refl _⟩
    rw [if_pos h2]
  · simp [veffLoc, ncO, ncP, exP]
  · have h := noncollinear_energy_partial ncP ncO rfl rfl (by decide) 1 r1.2 0 2
      (by
        intro _ p _ i hi
        have hi' : i = 0 := by simp [ncP, exP] at hi; exact hi
        subst hi'
        simp [ncO, ncP, exP])
      (by simp [eband, ebandLocal, ncO, hveff, List.range_succ])
    change (stepV ncP ncO 1 r1.2).1.etot = 1
    rw [h]
    have e : ks ncP 0 (ncO.solve r1.2.veff r1.2.v3).rho
        (ncO.pois (ncO.solve r1.2.veff r1.2.v3).rho)
        (ncO.exd (ncO.solve r1.2.veff r1.2.v3).rho (ncO.solve r1.2.veff r1.2.v3).mag
          (ncO.solve r1.2.veff r1.2.v3).tau) (ncO.solve r1.2.veff r1.2.v3).ent = 0 := hks
    rw [e]
    have hd := hdia.1
    simp [spinInt, integ, ncP, exP, W, ncO]
    change (2 : ℝ) - r1.2.dia 0 0 = 1
    rw [hd]; norm_num

/-! ### C95: the loop -/

/-- The state after `j` iterations. -/
def stAt {S : Type} (step : ℕ → S → Rec × S) (cnt : ℕ) (s : S) : ℕ → S
  | 0 => s
  | j + 1 => (step (cnt + j) (stAt step cnt s j)).2

theorem stAt_succ {S : Type} (step : ℕ → S → Rec × S) (cnt : ℕ) (s : S) (j : ℕ) :
    stAt step cnt s (j + 1) = stAt step (cnt + 1) (step cnt s).2 j := by
  induction j with
  | zero => rfl
  | succ j ih =>
    change (step (cnt + (j + 1)) (stAt step cnt s (j + 1))).2 = _
    rw [ih, show cnt + (j + 1) = cnt + 1 + j by omega]
    rfl

theorem loop_spec {S : Type} (step : ℕ → S → Rec × S) (minit fuel cnt : ℕ) (s : S) :
    ∃ m ≤ fuel, (0 < fuel → 0 < m) ∧
      scfLoop step minit fuel cnt s =
        (List.range m).map (fun j => (step (cnt + j) (stAt step cnt s j)).1) ∧
      (∀ j, j + 1 < m → ¬ ((step (cnt + j) (stAt step cnt s j)).1.conv = true ∧
        cnt + j + 1 ≥ minit)) ∧
      (m < fuel → ∃ j, j + 1 = m ∧ (step (cnt + j) (stAt step cnt s j)).1.conv = true ∧
        cnt + m ≥ minit) := by
  induction fuel generalizing cnt s with
  | zero => exact ⟨0, le_refl _, fun h => h, by simp [scfLoop], fun j h => absurd h (by omega),
      fun h => absurd h (by omega)⟩
  | succ fuel ih =>
    unfold scfLoop
    dsimp only
    by_cases h : (step cnt s).1.conv = true ∧ cnt + 1 ≥ minit
    · rw [if_pos h]
      exact ⟨1, by omega, fun _ => one_pos, by simp [stAt], fun j hj => absurd hj (by omega),
        fun _ => ⟨0, rfl, by simpa [stAt] using h.1, h.2⟩⟩
    · rw [if_neg h]
      obtain ⟨m, hm, h0, hl, hn, hs⟩ := ih (cnt + 1) (step cnt s).2
      have hst : ∀ j, (step (cnt + (j + 1)) (stAt step cnt s (j + 1))).1 =
          (step (cnt + 1 + j) (stAt step (cnt + 1) (step cnt s).2 j)).1 := by
        intro j
        rw [stAt_succ, show cnt + (j + 1) = cnt + 1 + j by omega]
      refine ⟨m + 1, by omega, fun _ => Nat.succ_pos _, ?_, ?_, ?_⟩
      · rw [hl, List.range_succ_eq_map, List.map_cons, List.map_map]
        congr 1
        refine List.map_congr_left fun j _ => ?_
        simp only [Function.comp]
        exact (hst j).symm
      · intro j hj
        cases j with
        | zero => simpa [stAt] using h
        | succ j =>
          rw [hst j]
          have := hn j (by omega)
          rw [show cnt + (j + 1) + 1 = cnt + 1 + j + 1 by omega]
          exact this
      · intro hlt
        obtain ⟨j, hj, hc, hge⟩ := hs (by omega)
        exact ⟨j + 1, by omega, by rw [hst j]; exact hc, by omega⟩

/-- **C95 (iterations).** The loop performs the iterations one after the other and stops after the
first one that is converged and not earlier than the `MINIT_SCF`-th, and after `MAXIT_SCF` of them
at the latest. -/
theorem scf_iterations {S : Type} (P : Par) (step : ℕ → S → Rec × S) (s : S) :
    ∃ m ≤ P.MAXIT_SCF, scfRun P step s = (List.range m).map (fun j => (step j (stAt step 0 s j)).1) ∧
      (0 < P.MAXIT_SCF → 0 < m) ∧ (m < P.MINIT_SCF → m = P.MAXIT_SCF) ∧
      (∀ j, j + 1 < m → P.MINIT_SCF ≤ j + 1 → (step j (stAt step 0 s j)).1.conv = false) ∧
      (m < P.MAXIT_SCF → ∃ j, j + 1 = m ∧ (step j (stAt step 0 s j)).1.conv = true) := by
  obtain ⟨m, hm, h0, hl, hn, hs⟩ := loop_spec step P.MINIT_SCF P.MAXIT_SCF 0 s
  simp only [zero_add] at hl hn hs
  refine ⟨m, hm, hl, h0, ?_, ?_, ?_⟩
  · intro h
    by_contra hne
    obtain ⟨j, hj, -, hge⟩ := hs (by omega)
    omega
  · intro j hj hmin
    have := hn j hj
    cases hc : (step j (stAt step 0 s j)).1.conv with
    | false => rfl
    | true => exact absurd ⟨hc, hmin⟩ this
  · intro h
    obtain ⟨j, hj, hc, -⟩ := hs h
    exact ⟨j, hj, hc⟩

/-- The tolerance that applies: TOL_SCF_INIT in the first ground state of a hybrid functional, which is marked by an odd flag,
TOL_SCF otherwise. -/
def tolOf (P : Par) : ℝ := if P.usefock % 2 = 1 then P.TOL_SCF_INIT else P.TOL_SCF

private theorem tol_eq (P : Par) : P.tol = tolOf P := rfl

/-- **C95 (warning).** If the run is not reported as unconverged, the last iteration met the
tolerance (or equalled it); if it is, all `MAXIT_SCF` iterations were done.  Applies to both kinds
of mixing: an iteration counts as converged exactly when its error is below the tolerance. -/
theorem scf_warning {S : Type} (P : Par) (step : ℕ → S → Rec × S)
    (hconv : ∀ k s, (step k s).1.conv = decide ((step k s).1.err < tolOf P)) (s : S)
    (hmax : 0 < P.MAXIT_SCF) :
    ∃ r, (scfRun P step s).getLast? = some r ∧
      (warns P (scfRun P step s) = true ↔ tolOf P < r.err) ∧
      (warns P (scfRun P step s) = true → (scfRun P step s).length = P.MAXIT_SCF) ∧
      ((scfRun P step s).length < P.MAXIT_SCF → r.err < tolOf P) := by
  simp only [← tol_eq]
  simp only [← tol_eq] at hconv
  obtain ⟨m, hm, hl, h0, -, -, hs⟩ := scf_iterations P step s
  obtain ⟨j, rfl⟩ : ∃ j, m = j + 1 := ⟨m - 1, by have := h0 hmax; omega⟩
  have hlast : (scfRun P step s).getLast? = some (step j (stAt step 0 s j)).1 := by
    rw [hl, List.range_succ, List.map_append, List.map_cons, List.map_nil, List.getLast?_append]
    simp
  have hw : warns P (scfRun P step s) = true ↔ P.tol < (step j (stAt step 0 s j)).1.err := by
    unfold warns finalErr
    rw [hlast]
    simp
  have hlen : (scfRun P step s).length = j + 1 := by rw [hl]; simp
  have hearly : j + 1 < P.MAXIT_SCF → (step j (stAt step 0 s j)).1.err < P.tol := by
    intro h
    obtain ⟨i, hi, hc⟩ := hs h
    have : i = j := by omega
    subst this
    rw [hconv] at hc
    exact of_decide_eq_true hc
  refine ⟨_, hlast, hw, ?_, ?_⟩
  · intro h
    rw [hlen]
    by_contra hne
    have := hearly (by omega)
    have := hw.1 h
    linarith
  · rw [hlen]; exact hearly

/-- The two kinds of mixing meet the hypothesis. -/
theorem conv_iff_err (P : Par) (O : Ops) :
    (∀ k s, (stepV P O k s).1.conv = decide ((stepV P O k s).1.err < tolOf P)) ∧
    (∀ k s, (stepD P O k s).1.conv = decide ((stepD P O k s).1.err < tolOf P)) := by
  rw [← tol_eq]
  exact ⟨fun _ _ => rfl, fun _ _ => rfl⟩

/-- **C95 (convergence measure).** An iteration is converged exactly when the squared distance of
output and input, summed over all columns, points and processes, is below the squared tolerance
times the squared norm of the output. -/
theorem scf_error_spec (P : Par) (vin vout : ℕ → ℕ → ℝ) (t : ℝ) (ht : 0 < t)
    (hn : 0 < ∑ p ∈ range P.np, ∑ i ∈ range ((if P.spin = 0 then 1 else 2) * P.nd p), vout p i ^ 2) :
    scfError P vin vout < t ↔
      ∑ p ∈ range P.np, ∑ i ∈ range ((if P.spin = 0 then 1 else 2) * P.nd p),
        (vout p i - vin p i) ^ 2 <
      t ^ 2 * ∑ p ∈ range P.np, ∑ i ∈ range ((if P.spin = 0 then 1 else 2) * P.nd p),
        vout p i ^ 2 := by
  unfold scfError Par.ndens
  simp only [← sq]
  rw [Real.sqrt_lt' ht, div_lt_iff₀ hn]

/-- **C95 (what is compared).** With collinear spin or none, potential mixing compares the
potential of the eigenproblem with the one made from the density it gave, and density mixing the
density (per spin channel) the potentials were made from with the new one. -/
theorem scf_error_arguments (P : Par) (O : Ops) (k : ℕ) (hs : P.spin ≠ 2) :
    (∀ s : StV, (stepV P O k s).1.err = scfError P s.veff
      (fun p j => O.vxc (O.solve s.veff s.v3).rho (O.solve s.veff s.v3).mag (O.solve s.veff s.v3).tau
        p (j / P.nd p * P.nd p + j % P.nd p) + O.pois (O.solve s.veff s.v3).rho p (j % P.nd p))) ∧
    (∀ (s : StD), s.xk = s.rho → (stepD P O k s).1.err = scfError P
      (fun p j => s.rho p ((if P.spin = 0 then 0 else P.nd p) + j))
      (fun p j => (O.solve s.veff s.v3).rho p ((if P.spin = 0 then 0 else P.nd p) + j))) := by
  constructor
  · intro s
    simp only [stepV, hs, if_false]
    congr 1
    funext p j
    simp [veffLoc, hs]
  · intro s hx
    simp only [stepD]
    by_cases h : P.spin = 0
    · simp [h, hx]
    · have e : ∀ f : Arr, col P f 1 = fun p j => f p (P.nd p + j) := by
        intro f; funext p j; simp [col]
      simp only [h, if_false, e]

/-- A constant added to input and output of the potential changes the error: contrary to the
comment in front of `Evaluate_scf_error` (electronicGroundState.c 1157-1158) the means are not
taken out, although in a periodic cell the potential is defined only up to a constant. -/
theorem error_depends_on_constant :
    scfError (exP 0 false 0) (fun _ _ => 0) (fun _ _ => 1) = 1 ∧
    scfError (exP 0 false 0) (fun _ _ => 0 + 9) (fun _ _ => 1 + 9) = 1 / 10 := by
  constructor
  · simp [scfError, exP, Par.ndens]
  · simp only [scfError, exP, Par.ndens]
    simp
    norm_num
    rw [show (100 : ℝ) = 10 ^ 2 by norm_num, Real.sqrt_sq (by norm_num)]
    norm_num

example : scfRun (exP 1 false 0) (stepV (exP 1 false 0) (exO (exP 1 false 0))) exS ≠ [] := by
  obtain ⟨m, -, h, h0, -⟩ := scf_iterations (exP 1 false 0)
    (stepV (exP 1 false 0) (exO (exP 1 false 0))) exS
  rw [h]
  have : 0 < m := h0 (by decide)
  intro he
  have := congrArg List.length he
  simp at this
  omega

example : ∃ r, (scfRun (exP 0 false 1) (stepD (exP 0 false 1) (exO (exP 0 false 1)))
    (exD (exP 0 false 1))).getLast? = some r := by
  obtain ⟨r, h, -⟩ := scf_warning (exP 0 false 1) _ (conv_iff_err _ (exO (exP 0 false 1))).2
    (exD (exP 0 false 1)) (by decide)
  exact ⟨r, h⟩

/-- The hypotheses of `scf_error_spec`. -/
example : scfError (exP 0 false 0) (fun _ _ => 99 / 100) (fun _ _ => 1) < tolOf (exP 0 false 0) := by
  rw [scf_error_spec]
  · simp [exP, tolOf]; norm_num
  · simp [exP, tolOf]
  · simp [exP]

/-! ### C95: the mean of the potential -/

/-- Sum of column `c` of an array over the whole grid. -/
def colSum (P : Par) (v : ℕ → ℕ → ℝ) (c : ℕ) : ℝ :=
  ∑ p ∈ range P.np, ∑ i ∈ range (P.nd p), v p (c * P.nd p + i)

theorem colSum_shift (P : Par) (hBC : P.BC = 2) (hNd : P.Nd = ∑ p ∈ range P.np, P.nd p)
    (v : Arr) (mean : ℕ → ℝ) (dir : ℝ) {c : ℕ} (hc : c < P.ncol) :
    colSum P (shift P v mean dir) c = colSum P v c + P.Nd * (dir * mean c) := by
  unfold colSum
  rw [hNd, Nat.cast_sum, sum_mul, ← sum_add_distrib]
  refine sum_congr rfl fun p _ => ?_
  have : ∀ i ∈ range (P.nd p), shift P v mean dir p (c * P.nd p + i) =
      v p (c * P.nd p + i) + dir * mean c := by
    intro i hi
    have hi' := mem_range.1 hi
    have hq : (c * P.nd p + i) / P.nd p = c := by
      rw [mul_comm, Nat.mul_add_div (by omega), Nat.div_eq_of_lt hi', add_zero]
    unfold shift
    rw [if_neg (by omega), hq, if_pos hc]
  rw [sum_congr rfl this, sum_add_distrib, sum_const, card_range, nsmul_eq_mul]

/-- **C95 (shift).** In a periodic cell the shift before mixing leaves a potential without mean:
each column with no spin or non-collinear spin, the two channels together with collinear spin; the
difference of the two channels is not touched. -/
theorem shift_removes_mean (P : Par) (hBC : P.BC = 2) (hNd : P.Nd = ∑ p ∈ range P.np, P.nd p)
    (hpos : 0 < P.Nd) (v : ℕ → ℕ → ℝ) :
    (P.spin ≠ 1 → ∀ c < P.ncol, colSum P (shift P v (veffMean P v) (-1)) c = 0) ∧
    (P.spin = 1 → colSum P (shift P v (veffMean P v) (-1)) 0 +
        colSum P (shift P v (veffMean P v) (-1)) 1 = 0 ∧
      ∀ p, ∀ i < P.nd p, shift P v (veffMean P v) (-1) p i -
        shift P v (veffMean P v) (-1) p (P.nd p + i) = v p i - v p (P.nd p + i)) := by
  have hN : (P.Nd : ℝ) ≠ 0 := by exact_mod_cast hpos.ne'
  have hb : ¬ P.BC ≠ 2 := by omega
  have hmean : ∀ c, ¬ (P.spin = 1 ∧ c < 2) → veffMean P v c = colSum P v c / P.Nd := by
    intro c h
    unfold veffMean
    rw [if_neg hb]
    dsimp only
    rw [if_neg h]
    rfl
  constructor
  · intro h1 c hc
    rw [colSum_shift P hBC hNd _ _ _ hc, hmean c (by omega)]
    field_simp
    ring
  · intro h1
    have hcol : P.ncol = 2 := by simp [Par.ncol, h1]
    have hm : ∀ c < 2, veffMean P v c = (colSum P v 0 / P.Nd + colSum P v 1 / P.Nd) / 2 := by
      intro c hc
      unfold veffMean
      rw [if_neg hb]
      dsimp only
      rw [if_pos ⟨h1, hc⟩]
      rfl
    constructor
    · rw [colSum_shift P hBC hNd _ _ _ (by omega), colSum_shift P hBC hNd _ _ _ (by omega),
        hm 0 (by omega), hm 1 (by omega)]
      field_simp
      ring
    · intro p i hi
      unfold shift
      rw [if_neg hb, if_neg hb, Nat.div_eq_of_lt hi]
      have hq : (P.nd p + i) / P.nd p = 1 := by
        rw [Nat.add_div_left _ (by omega), Nat.div_eq_of_lt hi]
      rw [hq, hcol, if_pos (by omega), if_pos (by omega), hm 0 (by omega), hm 1 (by omega)]
      ring

/-- **C95 (shift and back).** Shifting by the means and back restores the potential, and without
periodicity in all directions nothing is shifted. -/
theorem shift_back (P : Par) (v : ℕ → ℕ → ℝ) (mean : ℕ → ℝ) :
    shift P (shift P v mean (-1)) mean 1 = v ∧ (P.BC ≠ 2 → shift P v mean (-1) = v) := by
  constructor
  · funext p j
    unfold shift
    by_cases hb : P.BC ≠ 2
    · simp [hb]
    · rw [if_neg hb, if_neg hb]
      split
      · ring
      · rfl
  · intro hb
    funext p j
    simp [shift, hb]

/-- **C95 (mean of the next potential).** In a periodic cell, if the mixing keeps potentials
without mean so, the potential of the next iteration has the mean of the output potential of the
current one: in every column, or for the two channels together with collinear spin. -/
theorem next_potential_mean (P : Par) (O : Ops) (hBC : P.BC = 2)
    (hNd : P.Nd = ∑ p ∈ range P.np, P.nd p) (hpos : 0 < P.Nd) (k : ℕ) (s : StV)
    (hmix : ∀ v : ℕ → ℕ → ℝ, (P.spin ≠ 1 → (∀ c < P.ncol, colSum P v c = 0) →
        ∀ c < P.ncol, colSum P (O.mixV k v) c = 0) ∧
      (P.spin = 1 → colSum P v 0 + colSum P v 1 = 0 →
        colSum P (O.mixV k v) 0 + colSum P (O.mixV k v) 1 = 0)) :
    let sol := O.solve s.veff s.v3
    let out := veffLoc P (O.vxc sol.rho sol.mag sol.tau) (O.vnc sol.rho sol.mag sol.tau)
      (O.pois sol.rho)
    (P.spin ≠ 1 → ∀ c < P.ncol, colSum P (stepV P O k s).2.veff c = colSum P out c) ∧
    (P.spin = 1 → colSum P (stepV P O k s).2.veff 0 + colSum P (stepV P O k s).2.veff 1 =
      colSum P out 0 + colSum P out 1) := by
  intro sol out
  have hnext : (stepV P O k s).2.veff =
      shift P (O.mixV k (shift P out (veffMean P out) (-1))) (veffMean P out) 1 := rfl
  rw [hnext]
  obtain ⟨h1, h2⟩ := shift_removes_mean P hBC hNd hpos out
  constructor
  · intro hs c hc
    have hz := h1 hs
    have hm := (hmix (shift P out (veffMean P out) (-1))).1 hs hz c hc
    have hc0 := hz c hc
    rw [colSum_shift P hBC hNd _ _ _ hc] at hc0 ⊢
    rw [hm]
    linarith
  · intro hs
    have hcol : P.ncol = 2 := by simp [Par.ncol, hs]
    have hz := (h2 hs).1
    have hm := (hmix (shift P out (veffMean P out) (-1))).2 hs hz
    rw [colSum_shift P hBC hNd _ _ _ (by omega), colSum_shift P hBC hNd _ _ _ (by omega)] at hz ⊢
    linarith

/-- The run above is periodic and its mixing halves the potential. -/
example : colSum (exP 0 false 0) (stepV (exP 0 false 0) (exO (exP 0 false 0)) 0 exS).2.veff 0 =
    -1 := by
  have h := (next_potential_mean (exP 0 false 0) (exO (exP 0 false 0)) rfl (by simp [exP]) (by decide) 0 exS (fun v => ⟨fun _ hz c hc => by
      have := hz c hc
      simp [colSum, exP, exO] at this ⊢
      exact this, fun h => absurd h (by decide)⟩)).1 (by decide) 0 (by decide)
  rw [h]
  simp [colSum, exP, exO, exSolve, veffLoc]

/-! ### C96: the outer iteration of exact exchange -/

/-- **C96 (inner run).** Exchange energy is half a symmetric form of the density matrix.  With the
operator made from the old density matrix `Po` and orbitals with the new one `Pn`, the energy of
the inner run (the expectation of the operator less `Eexx`, C94) is the Hartree–Fock energy of the
new orbitals up to the second-order term. -/
theorem exx_inner_second_order {M : Type} [AddCommGroup M] [Module ℝ M] (F : M →ₗ[ℝ] M →ₗ[ℝ] ℝ)
    (hF : ∀ x y, F x y = F y x) (Po Pn : M) (E : ℝ) :
    E + F Po Pn - F Po Po / 2 = (E + F Pn Pn / 2) - F (Pn - Po) (Pn - Po) / 2 := by
  simp only [map_sub, LinearMap.sub_apply]
  rw [hF Pn Po]
  ring

/-- **C96 (update).** After the inner run `Exc` is brought up to date with the new `Eexx`, but the
total energy keeps the old `Eexx` in its exchange-correlation part: the reported total is not the
sum of the reported parts, `Etot = rest + Exc - 2 Eexx`, but off by `Eold - Enew`. -/
theorem exx_update_partial (rest Exc Eold Enew : ℝ) :
    let e := exxUpdate (Exc + Eold) (rest + (Exc + Eold) - 2 * Eold) Eold Enew
    e.1 = Exc + Enew ∧ e.2 = rest + e.1 - 2 * Enew + (Eold - Enew) := by
  constructor
  · simp only [exxUpdate]; ring
  · simp only [exxUpdate]; ring

/-- **C96 (bound).** When the outer iteration stops as converged, that difference is below
`TOL_FOCK` per atom. -/
theorem exx_update_bound (TOL_FOCK : ℝ) (n_atom MINIT_FOCK count : ℕ) (hn : 0 < n_atom)
    (rest Exc Eold Enew : ℝ) (hstop : exxStop TOL_FOCK n_atom MINIT_FOCK count Eold Enew = true) :
    let e := exxUpdate (Exc + Eold) (rest + (Exc + Eold) - 2 * Eold) Eold Enew
    |e.2 - (rest + e.1 - 2 * Enew)| < n_atom * TOL_FOCK ∧ MINIT_FOCK ≤ count + 1 := by
  intro e
  have h := (exx_update_partial rest Exc Eold Enew).2
  have hd : e.2 - (rest + e.1 - 2 * Enew) = Eold - Enew := by
    change e.2 = rest + e.1 - 2 * Enew + (Eold - Enew) at h
    rw [h]; ring
  unfold exxStop at hstop
  rw [Bool.and_eq_true, decide_eq_true_iff, decide_eq_true_iff] at hstop
  rw [hd]
  refine ⟨?_, hstop.2⟩
  have hn' : (0 : ℝ) < n_atom := by exact_mod_cast hn
  have := (div_lt_iff₀ hn').1 hstop.1
  linarith

/-- **C96 (order of the error).** Because of this, the total energy after the update differs from
the Hartree–Fock energy of the new orbitals already in first order: by twice the change of `Eexx`,
on top of the second-order term of the inner run. -/
theorem exx_update_first_order {M : Type} [AddCommGroup M] [Module ℝ M]
    (F : M →ₗ[ℝ] M →ₗ[ℝ] ℝ) (hF : ∀ x y, F x y = F y x) (Po Pn : M) (E Exc : ℝ) :
    (exxUpdate Exc (E + F Po Pn - F Po Po / 2) (F Po Po / 2) (F Pn Pn / 2)).2 =
      (E + F Pn Pn / 2) - F (Pn - Po) (Pn - Po) / 2 + 2 * (F Po Po / 2 - F Pn Pn / 2) := by
  rw [← exx_inner_second_order F hF]
  simp only [exxUpdate]
  ring

/-- One orbital whose occupation grows from 1 to 11/10 and a form with exchange energy `-x²/2`:
the inner run is off by 1/200, the updated energy by 43/200. -/
example : (exxUpdate 0 (0 + LinearMap.mul ℝ ℝ 1 (-(11 / 10)) - (-1) / 2) (-1 / 2) (-(121 / 100) / 2)).2 -
    (0 + -(121 / 100) / 2) = 43 / 200 := by
  simp only [exxUpdate, LinearMap.mul_apply']
  norm_num

example : ∀ Po Pn : ℝ, (0 : ℝ) + LinearMap.mul ℝ ℝ Po Pn - LinearMap.mul ℝ ℝ Po Po / 2 =
    (0 + LinearMap.mul ℝ ℝ Pn Pn / 2) - LinearMap.mul ℝ ℝ (Pn - Po) (Pn - Po) / 2 :=
  fun Po Pn => exx_inner_second_order (LinearMap.mul ℝ ℝ) (fun x y => by simp [mul_comm]) Po Pn 0

example : exxStop 1 2 3 2 (1 / 2) 1 = true := by
  simp only [exxStop]
  norm_num [abs_of_neg]

end Sparc.Scf

import Verif.Scf.Lemmas

/-!
# C94: the energy an iteration reports
-/

namespace Sparc.Scf

open Finset

/-- Number of spin channels of the eigenproblem without spinors. -/
def nchan (P : Par) : ℕ := if P.spin = 1 then 2 else 1

/-- Column of the density array that holds channel `s`. -/
def chanCol (P : Par) (s : ℕ) : ℕ := if P.spin = 0 then 0 else 1 + s

/-- The eigensolver did its work for the potential `V` (and the meta-GGA potential `v3`): every
eigenvalue is the expectation of the Hamiltonian, which is that of kinetic energy and nonlocal
projectors (`kin`), of the local potential, of the meta-GGA term and of exact exchange (`vx`), and
the densities are the sums of the occupied orbitals (C22).  `psi2` is the density of an orbital,
`tau` its kinetic energy density. -/
structure Bands (P : Par) (O : Ops) (V v3 : ℕ → ℕ → ℝ) (sol : Sol) where
  Ns : ℕ
  w : ℕ → ℝ
  occ : ℕ → ℕ → ℕ → ℝ
  lam : ℕ → ℕ → ℕ → ℝ
  kin : ℕ → ℕ → ℕ → ℝ
  vx : ℕ → ℕ → ℕ → ℝ
  psi2 : ℕ → ℕ → ℕ → ℕ → ℕ → ℝ
  tau : ℕ → ℕ → ℕ → ℕ → ℕ → ℝ
  holds : Holds (nchan P) O.Nkpts Ns O.npspin O.npkpt w occ lam sol.procs
  eig : ∀ s < nchan P, ∀ k < O.Nkpts, ∀ n < Ns, lam s k n = kin s k n +
    integ P (psi2 s k n) (fun p i => V p (s * P.nd p + i)) +
    (if P.mgga = true then integ P (tau s k n) (fun p i => v3 p (s * P.nd p + i)) else 0) + vx s k n
  dens : ∀ s < nchan P, ∀ p < P.np, ∀ i < P.nd p, sol.rho p (chanCol P s * P.nd p + i) =
    ∑ k ∈ range O.Nkpts, ∑ n ∈ range Ns, O.occfac * (w k / O.Nkpts) * occ s k n * psi2 s k n p i
  total : TotalDens P sol.rho
  taud : P.mgga = true → ∀ s < nchan P, ∀ p < P.np, ∀ i < P.nd p,
    sol.tau p (chanCol P s * P.nd p + i) =
    ∑ k ∈ range O.Nkpts, ∑ n ∈ range Ns, O.occfac * (w k / O.Nkpts) * occ s k n * tau s k n p i

variable {P : Par} {O : Ops} {V v3 : ℕ → ℕ → ℝ} {sol : Sol}

/-- Kinetic and nonlocal energy of the occupied orbitals. -/
noncomputable def Bands.kinE (B : Bands P O V v3 sol) : ℝ :=
  ∑ s ∈ range (nchan P), ∑ k ∈ range O.Nkpts, ∑ n ∈ range B.Ns,
    O.occfac * (B.w k / O.Nkpts) * B.occ s k n * B.kin s k n

/-- Expectation of the exact-exchange operator in the occupied orbitals. -/
noncomputable def Bands.vxE (B : Bands P O V v3 sol) : ℝ :=
  ∑ s ∈ range (nchan P), ∑ k ∈ range O.Nkpts, ∑ n ∈ range B.Ns,
    O.occfac * (B.w k / O.Nkpts) * B.occ s k n * B.vx s k n

theorem integ_bands (P : Par) (K N : ℕ) (c : ℕ → ℕ → ℝ) (f : ℕ → ℕ → Arr) (g : Arr) :
    ∑ k ∈ range K, ∑ n ∈ range N, c k n * integ P (f k n) g =
      integ P (fun p i => ∑ k ∈ range K, ∑ n ∈ range N, c k n * f k n p i) g := by
  unfold integ
  simp only [mul_sum, sum_mul]
  simp only [sum_comm (s := range N) (t := range P.np)]
  rw [sum_comm]
  refine sum_congr rfl fun p _ => ?_
  simp only [sum_comm (s := range N) (t := range (P.nd p))]
  rw [sum_comm]
  refine sum_congr rfl fun i _ => sum_congr rfl fun k _ => sum_congr rfl fun n _ => ?_
  ring

theorem chan_integ (hs : P.spin ≤ 1) (K N : ℕ) (c : ℕ → ℕ → ℕ → ℝ) (f : ℕ → ℕ → ℕ → Arr)
    (rho v : Arr)
    (hd : ∀ s < nchan P, ∀ p < P.np, ∀ i < P.nd p, rho p (chanCol P s * P.nd p + i) =
      ∑ k ∈ range K, ∑ n ∈ range N, c s k n * f s k n p i) :
    ∑ s ∈ range (nchan P), ∑ k ∈ range K, ∑ n ∈ range N,
      c s k n * integ P (f s k n) (fun p i => v p (s * P.nd p + i)) = spinInt P rho v := by
  simp only [integ_bands]
  unfold spinInt
  by_cases h0 : P.spin = 0
  · have hn : nchan P = 1 := by simp [nchan, h0]
    rw [hn, sum_range_one, if_pos h0]
    refine integ_congr P (fun p hp i hi => ?_) (fun p _ i _ => by simp)
    rw [← hd 0 (by omega) p hp i hi]
    simp [chanCol, h0]
  · have h1 : P.spin = 1 := by omega
    have hn : nchan P = 2 := by simp [nchan, h1]
    rw [hn, sum_range_succ, sum_range_one, if_neg h0]
    congr 1
    · refine integ_congr P (fun p hp i hi => ?_) (fun p _ i _ => by simp)
      rw [← hd 0 (by omega) p hp i hi]
      simp [chanCol, h1]
    · refine integ_congr P (fun p hp i hi => ?_) (fun p _ i _ => by simp)
      rw [← hd 1 (by omega) p hp i hi]
      simp [chanCol, h1]

/-- **C94 (band energy).** On every process the band energy is kinetic plus nonlocal energy plus
the integral of the densities times the potential the eigenproblem was solved with, whatever the
numbers of spin and k-point groups. -/
theorem eband_split (B : Bands P O V v3 sol) (hs : P.spin ≤ 1) {a b : ℕ} (ha : a < O.npspin)
    (hb : b < O.npkpt) :
    eband O.occfac O.Nkpts O.npspin O.npkpt sol.procs a b = B.kinE + spinInt P sol.rho V +
      (if P.mgga = true then spinInt P sol.tau v3 else 0) + B.vxE := by
  rw [eband_eq B.holds _ ha hb]
  have e : ∀ s ∈ range (nchan P), ∀ k ∈ range O.Nkpts, ∀ n ∈ range B.Ns,
      O.occfac * (B.w k / O.Nkpts) * B.occ s k n * B.lam s k n =
      O.occfac * (B.w k / O.Nkpts) * B.occ s k n * B.kin s k n +
      O.occfac * (B.w k / O.Nkpts) * B.occ s k n *
        integ P (B.psi2 s k n) (fun p i => V p (s * P.nd p + i)) +
      (if P.mgga = true then O.occfac * (B.w k / O.Nkpts) * B.occ s k n *
        integ P (B.tau s k n) (fun p i => v3 p (s * P.nd p + i)) else 0) +
      O.occfac * (B.w k / O.Nkpts) * B.occ s k n * B.vx s k n := by
    intro s h1 k h2 n h3
    rw [B.eig s (mem_range.1 h1) k (mem_range.1 h2) n (mem_range.1 h3)]
    split <;> ring
  rw [sum_congr rfl fun s h1 => sum_congr rfl fun k h2 => sum_congr rfl fun n h3 => e s h1 k h2 n h3]
  simp only [sum_add_distrib]
  congr 1
  congr 1
  · congr 1
    exact chan_integ hs O.Nkpts B.Ns (fun s k n => O.occfac * (B.w k / O.Nkpts) * B.occ s k n)
      B.psi2 sol.rho V B.dens
  · by_cases hm : P.mgga = true
    · simp only [hm, if_true]
      exact chan_integ hs O.Nkpts B.Ns (fun s k n => O.occfac * (B.w k / O.Nkpts) * B.occ s k n)
        B.tau sol.tau v3 (B.taud hm)
    · simp [hm]

/-- The Kohn–Sham free energy of given orbitals: kinetic and nonlocal energy `kin`, electrostatic
energy of the total charge `rho + b`, exchange-correlation energy of `rho` with the core charge,
the correction of the pseudocharges and the entropy term. -/
noncomputable def ks (P : Par) (kin : ℝ) (rho phi exd : ℕ → ℕ → ℝ) (ent : ℝ) : ℝ :=
  kin + integ P (fun p i => P.b p i + rho p i) phi / 2 +
    integ P (fun p i => rho p i + P.core p i) exd + P.Esc + ent

/-- Exact exchange enters: an even, non-zero `usefock`. -/
def fock (P : Par) : Prop := P.usefock ≠ 0 ∧ P.usefock % 2 = 0

instance (P : Par) : Decidable (fock P) := by unfold fock; infer_instance

theorem freeEnergy_eq (P : Par) (Eband Ent Eexx : ℝ) (rho phi xc exd tau v3 : Arr) :
    (freeEnergy P Eband Ent Eexx rho phi xc exd tau v3).2 =
      Eband + integ P P.b phi / 2 - integ P rho phi / 2 - spinInt P rho xc -
      (if P.mgga = true ∧ P.cyclix = false then spinInt P tau v3 else 0) +
      integ P (fun p i => rho p i + P.core p i) exd + P.Esc + Ent -
      (if fock P then Eexx else 0) := by
  unfold freeEnergy
  simp only [eHalf_eq, e3_eq, excE_eq]
  by_cases h : P.usefock = 0 ∨ P.usefock % 2 = 1
  · have h' : ¬ fock P := by unfold fock; omega
    rw [if_pos h, if_neg h']
    ring
  · have h' : fock P := by unfold fock; omega
    rw [if_neg h, if_pos h']
    ring

/-- The energy of one iteration with potential mixing. -/
theorem stepV_energy (hs : P.spin ≤ 1) (hm : P.mgga = true → P.cyclix = false) (k : ℕ) (s : StV)
    (hspin : 0 < O.npspin) (hkpt : 0 < O.npkpt)
    (B : Bands P O s.veff s.v3 (O.solve s.veff s.v3)) :
    let sol := O.solve s.veff s.v3
    (stepV P O k s).1.etot =
      ks P B.kinE sol.rho (O.pois sol.rho) (O.exd sol.rho sol.mag sol.tau) sol.ent +
      (if P.mgga = true then spinInt P sol.tau s.v3 -
        spinInt P sol.tau (O.v3 sol.rho sol.mag sol.tau) else 0) +
      (B.vxE - if fock P then sol.eexx else 0) := by
  intro sol
  have h2 : P.spin ≠ 2 := by omega
  unfold stepV
  simp only [h2, if_false]
  rw [freeEnergy_eq, escc_eq, eband_split B hs hspin hkpt]
  have hv := spinInt_split P sol.rho (O.vxc sol.rho sol.mag sol.tau) (O.pois sol.rho)
    (veffLoc P (O.vxc sol.rho sol.mag sol.tau) (O.vnc sol.rho sol.mag sol.tau) (O.pois sol.rho))
    B.total (fun p _ i hi => veffLoc_0 P h2 _ _ _ hi) (fun _ p _ i hi => veffLoc_1 P h2 _ _ _ hi)
  rw [hv]
  unfold ks
  rw [integ_add_left P P.b sol.rho]
  dsimp only [sol]
  by_cases hg : P.mgga = true
  · have hc := hm hg
    simp only [hg, hc, and_self, if_true]
    ring
  · simp only [hg, Bool.false_eq_true, false_and, if_false]
    ring

/-- **C94 (potential mixing).** Without spin or with collinear spin, with a functional other than
meta-GGA and without exact exchange, the energy reported by every iteration is the Kohn–Sham free
energy of the orbitals and the density of that iteration: the potential they were computed from
drops out, converged or not. -/
theorem potential_mixing_energy (hs : P.spin ≤ 1) (hm : P.mgga = false) (hf : ¬ fock P)
    (hspin : 0 < O.npspin) (hkpt : 0 < O.npkpt)
    (B : ∀ V v3, Bands P O V v3 (O.solve V v3)) (hvx : ∀ V v3, (B V v3).vxE = 0)
    (s0 : StV) (r : Rec) (hr : r ∈ scfRun P (stepV P O) s0) :
    r.sol = O.solve r.veff r.v3 ∧
    r.etot = ks P (B r.veff r.v3).kinE r.sol.rho (O.pois r.sol.rho)
      (O.exd r.sol.rho r.sol.mag r.sol.tau) r.sol.ent := by
  obtain ⟨k, s, -, rfl⟩ := mem_loop _ _ (fun _ => True) (fun _ _ _ => trivial) _ _ s0 trivial r hr
  refine ⟨rfl, ?_⟩
  have h := stepV_energy hs (fun h => by rw [hm] at h; cases h) k s hspin hkpt (B s.veff s.v3)
  rw [hvx] at h
  simp only [hm, hf, if_false, Bool.false_eq_true] at h
  rw [add_zero, sub_zero, add_zero] at h
  exact h

/-- **C94 (potential mixing, meta-GGA and exact exchange).** With a meta-GGA functional the energy
misses the correction for the change of the meta-GGA potential, so it agrees with the Kohn–Sham
energy only when that potential has stopped changing; with exact exchange it contains the
expectation of the operator less `Eexx`. -/
theorem potential_mixing_energy_partial (hs : P.spin ≤ 1) (hm : P.mgga = true → P.cyclix = false)
    (hspin : 0 < O.npspin) (hkpt : 0 < O.npkpt) (B : ∀ V v3, Bands P O V v3 (O.solve V v3))
    (s0 : StV) (r : Rec) (hr : r ∈ scfRun P (stepV P O) s0) :
    r.etot = ks P (B r.veff r.v3).kinE r.sol.rho (O.pois r.sol.rho)
      (O.exd r.sol.rho r.sol.mag r.sol.tau) r.sol.ent +
      (if P.mgga = true then spinInt P r.sol.tau r.v3 -
        spinInt P r.sol.tau (O.v3 r.sol.rho r.sol.mag r.sol.tau) else 0) +
      ((B r.veff r.v3).vxE - if fock P then r.sol.eexx else 0) := by
  obtain ⟨k, s, -, rfl⟩ := mem_loop _ _ (fun _ => True) (fun _ _ _ => trivial) _ _ s0 trivial r hr
  exact stepV_energy hs hm k s hspin hkpt (B s.veff s.v3)

/-! ### Density mixing -/

/-- The potentials in memory belong to the density in memory. -/
structure Consistent (P : Par) (O : Ops) (s : StD) (m t : ℕ → ℕ → ℝ) : Prop where
  xk : s.xk = s.rho
  total : TotalDens P s.rho
  phi : s.phi = O.pois s.rho
  xc : s.xc = O.vxc s.rho m t
  exd : s.exd = O.exd s.rho m t
  veff : s.veff = veffLoc P s.xc (O.vnc s.rho m t) s.phi

/-- The electrostatic potential depends linearly and symmetrically on the charge `rho + b`. -/
structure IsPoisson (P : Par) (O : Ops) (G : (ℕ → ℕ → ℝ) → ℕ → ℕ → ℝ) : Prop where
  pois : ∀ rho, O.pois rho = G (fun p i => P.b p i + rho p i)
  add : ∀ f g p i, G (fun p i => f p i + g p i) p i = G f p i + G g p i
  symm : ∀ f g, integ P f (G g) = integ P g (G f)

theorem stepD_energy (hs : P.spin ≤ 1) (hm : P.mgga = true → P.cyclix = false) (k : ℕ) (s : StD)
    {m t : Arr} (hc : Consistent P O s m t) (hspin : 0 < O.npspin) (hkpt : 0 < O.npkpt)
    (B : Bands P O s.veff s.v3 (O.solve s.veff s.v3)) :
    let sol := O.solve s.veff s.v3
    (stepD P O k s).1.etot =
      ks P B.kinE s.rho (O.pois s.rho) (O.exd s.rho m t) sol.ent +
      (spinInt P sol.rho (O.vxc s.rho m t) - spinInt P s.rho (O.vxc s.rho m t)) +
      (integ P sol.rho (O.pois s.rho) - integ P s.rho (O.pois s.rho)) +
      (B.vxE - if fock P then sol.eexx else 0) := by
  intro sol
  have h2 : P.spin ≠ 2 := by omega
  unfold stepD
  have hin : (if P.spin = 0 then s.xk else s.rho) = s.rho := by rw [hc.xk]; simp
  simp only [hin]
  rw [freeEnergy_eq, eband_split B hs hspin hkpt]
  have hv := spinInt_split P sol.rho s.xc s.phi s.veff B.total
    (fun p _ i hi => by rw [hc.veff]; exact veffLoc_0 P h2 _ _ _ hi)
    (fun _ p _ i hi => by rw [hc.veff]; exact veffLoc_1 P h2 _ _ _ hi)
  rw [hv, hc.xc, hc.exd, hc.phi]
  unfold ks
  rw [integ_add_left P P.b s.rho]
  by_cases hg : P.mgga = true
  · have hc := hm hg
    simp only [hg, hc, and_self, if_true]
    ring
  · simp only [hg, Bool.false_eq_true, false_and, if_false]
    ring

/-- An array minus another, channel by channel. -/
theorem spinInt_sub (P : Par) (f g v : Arr) :
    spinInt P (fun p i => f p i - g p i) v = spinInt P f v - spinInt P g v := by
  unfold spinInt
  split
  · exact integ_sub_left P f g v
  · rw [integ_sub_left P (fun p i => f p (P.nd p + i)) (fun p i => g p (P.nd p + i)),
      integ_sub_left P (fun p i => f p (2 * P.nd p + i)) (fun p i => g p (2 * P.nd p + i))]
    ring

/-- **C94 (density mixing).** The energy reported by every iteration, computed from the input
density, differs from the Kohn–Sham free energy of the orbitals and density of that iteration only
in second order: by half the electrostatic self-energy of the density change and the remainder of
the first-order expansion of the exchange-correlation energy.  In particular the two agree when
the density has stopped changing. -/
theorem density_mixing_energy (hs : P.spin ≤ 1) (hm : P.mgga = true → P.cyclix = false)
    (hf : ¬ fock P) (hspin : 0 < O.npspin) (hkpt : 0 < O.npkpt)
    (B : ∀ V v3, Bands P O V v3 (O.solve V v3)) (hvx : ∀ V v3, (B V v3).vxE = 0)
    (G : (ℕ → ℕ → ℝ) → ℕ → ℕ → ℝ) (hG : IsPoisson P O G)
    (hmix : ∀ k rho mag, TotalDens P (O.mixD k rho mag).1)
    (s0 : StD) (m0 t0 : ℕ → ℕ → ℝ) (h0 : Consistent P O s0 m0 t0)
    (r : Rec) (hr : r ∈ scfRun P (stepD P O) s0) :
    r.sol = O.solve r.veff r.v3 ∧ ∃ rho m t : ℕ → ℕ → ℝ,
      r.veff = veffLoc P (O.vxc rho m t) (O.vnc rho m t) (O.pois rho) ∧
      (let d := fun p i => r.sol.rho p i - rho p i
       ks P (B r.veff r.v3).kinE r.sol.rho (O.pois r.sol.rho)
          (O.exd r.sol.rho r.sol.mag r.sol.tau) r.sol.ent - r.etot =
        integ P d (G d) / 2 +
        (integ P (fun p i => r.sol.rho p i + P.core p i) (O.exd r.sol.rho r.sol.mag r.sol.tau) -
          integ P (fun p i => rho p i + P.core p i) (O.exd rho m t) -
          spinInt P d (O.vxc rho m t))) := by
  obtain ⟨k, s, ⟨m, t, hc⟩, rfl⟩ := mem_loop (stepD P O) _ (fun s => ∃ m t, Consistent P O s m t)
    (fun k s _ => ⟨_, _, ⟨rfl, hmix _ _ _, rfl, rfl, rfl, rfl⟩⟩) _ _ s0 ⟨m0, t0, h0⟩ r hr
  refine ⟨rfl, s.rho, m, t, ?_, ?_⟩
  · change s.veff = _
    rw [hc.veff, hc.xc, hc.phi]
  · intro d
    have h := stepD_energy hs hm k s hc hspin hkpt (B s.veff s.v3)
    rw [hvx] at h
    simp only [hf, if_false, sub_zero, add_zero] at h
    rw [h]
    have hsol : (stepD P O k s).1.sol = O.solve s.veff s.v3 := rfl
    have hd : d = fun p i => (O.solve s.veff s.v3).rho p i - s.rho p i := rfl
    change ks P (B s.veff s.v3).kinE _ _ _ _ - _ = _
    simp only [hsol]
    set ro := (O.solve s.veff s.v3).rho
    have e1 : integ P (fun p i => P.b p i + ro p i) (O.pois ro) =
        integ P (fun p i => P.b p i + s.rho p i) (O.pois s.rho) +
        2 * integ P d (O.pois s.rho) + integ P d (G d) := by
      have hq : (fun p i => P.b p i + ro p i) =
          fun p i => (P.b p i + s.rho p i) + d p i := by
        funext p i; simp only [hd]; ring
      rw [hG.pois, hG.pois, hq]
      have hGs : G (fun p i => (P.b p i + s.rho p i) + d p i) =
          fun p i => G (fun p i => P.b p i + s.rho p i) p i + G d p i := by
        funext p i; exact hG.add _ _ p i
      rw [hGs, integ_add_right P _ (G fun p i => P.b p i + s.rho p i) (G d),
        integ_add_left P (fun p i => P.b p i + s.rho p i) d,
        integ_add_left P (fun p i => P.b p i + s.rho p i) d,
        hG.symm (fun p i => P.b p i + s.rho p i) d]
      ring
    have e2 : integ P d (O.pois s.rho) = integ P ro (O.pois s.rho) - integ P s.rho (O.pois s.rho) := by
      rw [hd]; exact integ_sub_left P ro s.rho _
    have e3 : spinInt P d (O.vxc s.rho m t) =
        spinInt P ro (O.vxc s.rho m t) - spinInt P s.rho (O.vxc s.rho m t) := by
      rw [hd]; exact spinInt_sub P ro s.rho _
    unfold ks
    rw [e1, e3, e2]
    ring

/-- **C94 (density mixing at self-consistency).** Once an iteration returns the density,
magnetisation and kinetic energy density its potentials were made from, the energy is the
Kohn–Sham free energy, and with exact exchange it contains the expectation of the operator less
`Eexx`. -/
theorem density_mixing_fixed_point (hs : P.spin ≤ 1) (hm : P.mgga = true → P.cyclix = false)
    (hspin : 0 < O.npspin) (hkpt : 0 < O.npkpt) (B : ∀ V v3, Bands P O V v3 (O.solve V v3))
    (k : ℕ) (s : StD)
    (hc : Consistent P O s (O.solve s.veff s.v3).mag (O.solve s.veff s.v3).tau)
    (hfix : (O.solve s.veff s.v3).rho = s.rho) :
    let sol := O.solve s.veff s.v3
    (stepD P O k s).1.etot = ks P (B s.veff s.v3).kinE sol.rho (O.pois sol.rho)
      (O.exd sol.rho sol.mag sol.tau) sol.ent +
      ((B s.veff s.v3).vxE - if fock P then sol.eexx else 0) := by
  intro sol
  have h := stepD_energy hs hm k s hc hspin hkpt (B s.veff s.v3)
  dsimp only at h
  rw [h]
  dsimp only [sol]
  rw [hfix]
  ring

end Sparc.Scf

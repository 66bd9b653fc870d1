import Verif.Tac
import Mathlib.Algebra.BigOperators.Ring.Finset
import Mathlib.Analysis.Real.Sqrt

/-!
# The free energy and the self-consistent iteration

`energy.c` (`Calculate_Free_Energy`, `Calculate_Eband`, `Calculate_Escc`),
`electronicGroundState.c` (`scf_loop`, `Evaluate_scf_error`, `Calculate_Veff_loc_dmcomm_phi`,
`shifting_Veff_mean`) and the outer iteration of `xc/exx/exactExchange.c`.

Simplifications.  Doubles are reals.  An array of the phi-domain is a function of the process of
`dmcomm_phi` and the local index; the reductions add over the processes.  The eigensolver, the
Poisson solver, the exchange-correlation routines and the mixing are parameters: the theorems hold
whatever they return.  The moves between the phi- and the psi-domain (`Transfer_Veff_loc`) are the
identity.  Spectral quadrature, DFT+U (see `Verif/Hub`) and vdW-DF (`Add_Exc_vdWDF`) are left out.
`0/0` in the convergence measure (NaN in C) is `0` here; the theorems assume a non-zero output.
-/

namespace Sparc.Scf

open Finset

/-- An array distributed over the processes of `dmcomm_phi`. -/
abbrev Arr := ℕ → ℕ → ℝ

/-- Inputs of the run used below. -/
structure Par where
  /-- number of processes of `dmcomm_phi` -/
  np : ℕ
  /-- `Nd_d` of each process -/
  nd : ℕ → ℕ
  /-- `Nd` -/
  Nd : ℕ
  /-- `CyclixFlag` -/
  cyclix : Bool
  /-- `Intgwt_phi` -/
  wt : Arr
  dV : ℝ
  /-- `spin_typ` -/
  spin : ℕ
  /-- `ixc[2]`: a meta-GGA functional -/
  mgga : Bool
  usefock : ℕ
  Esc : ℝ
  /-- `psdChrgDens` -/
  b : Arr
  /-- core density added by `add_rho_core` (zero without core correction) -/
  core : Arr
  /-- boundary condition code, 2 for a periodic cell -/
  BC : ℕ
  TOL_SCF : ℝ
  TOL_SCF_INIT : ℝ
  MAXIT_SCF : ℕ
  MINIT_SCF : ℕ

/-- `Nspdend`: 1 without spin, otherwise 2 (initialization.c 1692). -/
def Par.ndens (P : Par) : ℕ := if P.spin = 0 then 1 else 2

/-- `Nspden`: 1, 2 or 4 (initialization.c 1693). -/
def Par.ncol (P : Par) : ℕ := 1 <<< P.spin

/-- A pointer into a distributed array advanced by `c` columns (`f + c*Nd_d`). -/
def col (P : Par) (f : Arr) (c : ℕ) : Arr := fun p i => f p (c * P.nd p + i)

/-- `VectorDotProduct`, tools.c 780-791; `len` is the length on each process. -/
def dot (P : Par) (f g : Arr) (len : ℕ → ℕ) : ℝ :=
  ∑ p ∈ range P.np, ∑ i ∈ range (len p), f p i * g p i

/-- `VectorDotProduct_wt`, tools.c 797-808. -/
def dotWt (P : Par) (f g : Arr) : ℝ :=
  ∑ p ∈ range P.np, ∑ i ∈ range (P.nd p), f p i * g p i * P.wt p i

/-! ### Energies -/

/-- `Calculate_Exc`, exchangeCorrelation.c 429-454; `exd` is the array `e_xc`. -/
noncomputable def excE (P : Par) (rho exd : Arr) : ℝ :=
  if P.cyclix then
    ∑ p ∈ range P.np, ∑ i ∈ range (P.nd p), (rho p i + P.core p i) * exd p i * P.wt p i
  else
    ∑ p ∈ range P.np, (∑ i ∈ range (P.nd p), (rho p i + P.core p i) * exd p i) * P.dV

/-- `E1` or `E2`, energy.c 83-84, 92-93, 95-96, 102-103: half the product with the
electrostatic potential. -/
noncomputable def eHalf (P : Par) (f phi : Arr) : ℝ :=
  if P.cyclix then dotWt P f phi * 0.5 else dot P f phi P.nd * (0.5 * P.dV)

/-- `E3`, energy.c 85-91, 97-100, 104, with the meta-GGA term of 106-114 (skipped for cyclix). -/
noncomputable def e3 (P : Par) (rho xc tau v3 : Arr) : ℝ :=
  if P.cyclix then
    if P.spin = 0 then dotWt P rho xc
    else dotWt P (col P rho 1) xc + dotWt P (col P rho 2) (col P xc 1)
  else
    (if P.spin = 0 then dot P rho xc P.nd
      else dot P (col P rho 1) xc (fun p => 2 * P.nd p)) * P.dV +
    (if P.mgga then
      (if P.spin = 0 then dot P tau v3 P.nd
        else dot P (col P tau 1) v3 (fun p => 2 * P.nd p)) * P.dV
      else 0)

/-- The part of `Calculate_Free_Energy` that puts the terms together, energy.c 163-188: the
exchange-correlation energy and the total. -/
noncomputable def freeEnergy (P : Par) (Eband Ent Eexx : ℝ) (rho phi xc exd tau v3 : Arr) : ℝ × ℝ :=
  let Exc := excE P rho exd
  let E1 := eHalf P P.b phi
  let E2 := eHalf P rho phi
  let E3 := e3 P rho xc tau v3
  if P.usefock = 0 ∨ P.usefock % 2 = 1 then
    (Exc, Eband + E1 - E2 - E3 + Exc + P.Esc + Ent)
  else
    let Exc' := Exc + Eexx
    (Exc', Eband + E1 - E2 - E3 + Exc' + P.Esc + Ent - 2 * Eexx)

/-- `Calculate_Escc`, energy.c 331-366. -/
noncomputable def escc (P : Par) (ncol : ℕ) (vout vin rho : Arr) : ℝ :=
  if P.cyclix then
    ∑ n ∈ range ncol, dotWt P (col P rho n) (col P vout n) -
      ∑ n ∈ range ncol, dotWt P (col P rho n) (col P vin n)
  else
    (dot P rho vout (fun p => P.nd p * ncol) - dot P rho vin (fun p => P.nd p * ncol)) * P.dV

/-- What one process holds for the band sums. -/
structure BProc where
  /-- `Nspin_spincomm` -/
  ns : ℕ
  /-- `Nkpts_kptcomm` -/
  nk : ℕ
  /-- `Nstates` -/
  Ns : ℕ
  /-- `kptWts_loc` -/
  wts : ℕ → ℝ
  occ : ℕ → ℝ
  lam : ℕ → ℝ

/-- The triple loop of `Calculate_Eband`, energy.c 219-226. -/
def ebandLocal (occfac : ℝ) (p : BProc) : ℝ :=
  (List.range p.ns).foldl (fun e s =>
    (List.range p.nk).foldl (fun e k =>
      (List.range p.Ns).foldl (fun e n =>
        e + occfac * p.wts k * p.occ (n + k * p.Ns + s * p.nk * p.Ns) *
          p.lam (n + k * p.Ns + s * p.nk * p.Ns)) e) e) 0

/-- `Calculate_Eband`, energy.c 205-235, on the process of spin group `a` and k-point group `b`. -/
noncomputable def eband (occfac : ℝ) (Nkpts npspin npkpt : ℕ) (procs : ℕ → ℕ → BProc) (a b : ℕ) :
    ℝ :=
  let e0 := fun a b => ebandLocal occfac (procs a b) / Nkpts
  let e1 := fun a b => if npspin ≠ 1 then ∑ a' ∈ range npspin, e0 a' b else e0 a b
  if npkpt ≠ 1 then ∑ b' ∈ range npkpt, e1 a b' else e1 a b

/-! ### Potentials, their mean and the convergence measure -/

/-- `Calculate_Veff_loc_dmcomm_phi`, electronicGroundState.c 1219-1247: the potential used by the
Hamiltonian.  `nc` is `XCPotential_nc` (four columns), `xc` is `XCPotential`. -/
def veffLoc (P : Par) (xc nc phi : Arr) : Arr := fun p j =>
  let c := j / P.nd p
  let i := j % P.nd p
  if P.spin = 2 then
    if c = 0 then nc p i + phi p i
    else if c = 1 then nc p (i + P.nd p) + phi p i
    else nc p (i + c * P.nd p)
  else xc p (c * P.nd p + i) + phi p i

/-- The two diagonal terms, `Veff_dia_loc_dmcomm_phi`, electronicGroundState.c 1232-1236. -/
def veffDia (P : Par) (xc phi : Arr) : Arr := fun p j =>
  let c := j / P.nd p
  let i := j % P.nd p
  xc p (i + c * P.nd p) + phi p i

/-- The means computed by `shifting_Veff_mean` with `option = 0`,
electronicGroundState.c 1282-1295. -/
noncomputable def veffMean (P : Par) (v : Arr) (c : ℕ) : ℝ :=
  if P.BC ≠ 2 then 0
  else
    let m := fun c => (∑ p ∈ range P.np, ∑ i ∈ range (P.nd p), v p (c * P.nd p + i)) / P.Nd
    if P.spin = 1 ∧ c < 2 then (m 0 + m 1) / 2 else m c

/-- The shift of `shifting_Veff_mean`, electronicGroundState.c 1298-1300 (returned from before it
when `BC` is not 2). -/
def shift (P : Par) (v : Arr) (mean : ℕ → ℝ) (dir : ℝ) : Arr := fun p j =>
  if P.BC ≠ 2 then v p j
  else if j / P.nd p < P.ncol then v p j + dir * mean (j / P.nd p) else v p j

/-- The tolerance used, electronicGroundState.c 1191-1192 and 1131. -/
def Par.tol (P : Par) : ℝ := if P.usefock % 2 = 1 then P.TOL_SCF_INIT else P.TOL_SCF

/-- `Evaluate_scf_error`, electronicGroundState.c 1160-1193: the error of arrays with
`Nspdend*Nd_d` entries. -/
noncomputable def scfError (P : Par) (vin vout : Arr) : ℝ :=
  let s0 := ∑ p ∈ range P.np, ∑ i ∈ range (P.ndens * P.nd p), vout p i * vout p i
  let s1 := ∑ p ∈ range P.np, ∑ i ∈ range (P.ndens * P.nd p),
    (vout p i - vin p i) * (vout p i - vin p i)
  √(s1 / s0)

/-! ### The iteration -/

/-- What the eigensolver and `Calculate_elecDens` leave for given potentials. -/
structure Sol where
  /-- arrays for the band sums, by spin and k-point group -/
  procs : ℕ → ℕ → BProc
  /-- `electronDens`: total (and the two diagonal) densities -/
  rho : Arr
  /-- `mag` -/
  mag : Arr
  /-- `KineticTauPhiDomain` -/
  tau : Arr
  /-- `Entropy` -/
  ent : ℝ
  /-- `Eexx` in force during this iteration -/
  eexx : ℝ

/-- The parts of the program taken as parameters. -/
structure Ops where
  occfac : ℝ
  Nkpts : ℕ
  npspin : ℕ
  npkpt : ℕ
  /-- eigenproblem and density for given `Veff_loc` and `vxcMGGA3` -/
  solve : Arr → Arr → Sol
  /-- `Calculate_elecstPotential`, from the density -/
  pois : Arr → Arr
  /-- `Calculate_Vxc`: `XCPotential`, from density, magnetisation and kinetic energy density -/
  vxc : Arr → Arr → Arr → Arr
  /-- `XCPotential_nc` -/
  vnc : Arr → Arr → Arr → Arr
  /-- `e_xc` -/
  exd : Arr → Arr → Arr → Arr
  /-- `vxcMGGA3` -/
  v3 : Arr → Arr → Arr → Arr
  /-- `Mixing` of the potential at an iteration -/
  mixV : ℕ → Arr → Arr
  /-- `Mixing` of density and magnetisation at an iteration -/
  mixD : ℕ → Arr → Arr → Arr × Arr

/-- What an iteration reports (with the data it was computed from, for the statements). -/
structure Rec where
  etot : ℝ
  err : ℝ
  conv : Bool
  /-- the potentials the eigenproblem was solved with -/
  veff : Arr
  v3 : Arr
  sol : Sol

/-- Memory carried between iterations with potential mixing. -/
structure StV where
  /-- `Veff_loc_dmcomm_phi` -/
  veff : Arr
  /-- `Veff_dia_loc_dmcomm_phi` -/
  dia : Arr
  /-- `vxcMGGA3` -/
  v3 : Arr

/-- One iteration with potential mixing, `scf_loop`, electronicGroundState.c 759-763, 784-792,
843-868, 870-908, 914, 927-932, 944-948. -/
noncomputable def stepV (P : Par) (O : Ops) (k : ℕ) (s : StV) : Rec × StV :=
  let vin := if P.spin = 2 then s.dia else s.veff
  let sol := O.solve s.veff s.v3
  let phi := O.pois sol.rho
  let xc := O.vxc sol.rho sol.mag sol.tau
  let v3 := O.v3 sol.rho sol.mag sol.tau
  let veff := veffLoc P xc (O.vnc sol.rho sol.mag sol.tau) phi
  let dia := veffDia P xc phi
  let out := if P.spin = 2 then dia else veff
  let fe := freeEnergy P (eband O.occfac O.Nkpts O.npspin O.npkpt sol.procs 0 0) sol.ent sol.eexx
    sol.rho phi xc (O.exd sol.rho sol.mag sol.tau) sol.tau v3
  let etot := fe.2 + escc P (if P.spin = 0 then 1 else 2) out vin
    (if P.spin > 0 then col P sol.rho 1 else sol.rho)
  let err := scfError P vin out
  let mean := veffMean P veff
  let next := shift P (O.mixV k (shift P veff mean (-1))) mean 1
  ({ etot := etot, err := err, conv := decide (err < P.tol), veff := s.veff, v3 := s.v3, sol := sol },
    { veff := next, dia := dia, v3 := v3 })

/-- Memory carried between iterations with density mixing. -/
structure StD where
  /-- `electronDens` -/
  rho : Arr
  /-- `mixing_hist_xk` (its first column is the density) -/
  xk : Arr
  phi : Arr
  xc : Arr
  exd : Arr
  veff : Arr
  v3 : Arr

/-- One iteration with density mixing, `scf_loop`, electronicGroundState.c 764-767, 784-792,
798-828, 914, 932, 949-955; mixing.c 419-440 stores the mixed density in `electronDens` and in
`mixing_hist_xk`. -/
noncomputable def stepD (P : Par) (O : Ops) (k : ℕ) (s : StD) : Rec × StD :=
  let rin := if P.spin = 0 then s.xk else s.rho
  let sol := O.solve s.veff s.v3
  let fe := freeEnergy P (eband O.occfac O.Nkpts O.npspin O.npkpt sol.procs 0 0) sol.ent sol.eexx
    rin s.phi s.xc s.exd sol.tau s.v3
  let err := scfError P (if P.spin = 0 then s.xk else col P s.rho 1)
    (if P.spin = 0 then sol.rho else col P sol.rho 1)
  let m := O.mixD k sol.rho sol.mag
  let phi := O.pois m.1
  let xc := O.vxc m.1 m.2 sol.tau
  ({ etot := fe.2, err := err, conv := decide (err < P.tol), veff := s.veff, v3 := s.v3, sol := sol },
    { rho := m.1, xk := m.1, phi := phi, xc := xc, exd := O.exd m.1 m.2 sol.tau,
      veff := veffLoc P xc (O.vnc m.1 m.2 sol.tau) phi, v3 := O.v3 m.1 m.2 sol.tau })

/-- The loop of `scf_loop`, electronicGroundState.c 750 and 1006: at most `fuel` iterations
remain, `cnt` were done; the reports of the iterations in order. -/
def scfLoop {S : Type} (step : ℕ → S → Rec × S) (minit : ℕ) : ℕ → ℕ → S → List Rec
  | 0, _, _ => []
  | fuel + 1, cnt, s =>
    let r := step cnt s
    if r.1.conv = true ∧ cnt + 1 ≥ minit then [r.1]
    else r.1 :: scfLoop step minit fuel (cnt + 1) r.2

/-- `scf_loop`: starts at count 0 with `MAXIT_SCF` iterations allowed. -/
def scfRun {S : Type} (P : Par) (step : ℕ → S → Rec × S) (s : S) : List Rec :=
  scfLoop step P.MINIT_SCF P.MAXIT_SCF 0 s

/-- The error in force after the loop: that of the last iteration, `TOL_SCF + 1` without any
(electronicGroundState.c 742). -/
def finalErr (P : Par) (l : List Rec) : ℝ := ((l.getLast?).map Rec.err).getD (P.TOL_SCF + 1)

/-- Whether the warning of electronicGroundState.c 1130-1146 is printed. -/
noncomputable def warns (P : Par) (l : List Rec) : Bool := decide (finalErr P l > P.tol)

/-! ### The outer iteration of exact exchange -/

/-- The update after an inner self-consistent run, exactExchange.c 265-279: from the energies
(`Exc`, `Etot`) with the old `Eexx` to those with the new one. -/
def exxUpdate (Exc Etot Eold Enew : ℝ) : ℝ × ℝ :=
  let Exc := Exc - Eold
  let Etot := Etot + 2 * Eold
  (Exc + Enew, Etot - 2 * Enew)

/-- The stopping test, exactExchange.c 282 and 290. -/
noncomputable def exxStop (TOL_FOCK : ℝ) (n_atom MINIT_FOCK count : ℕ) (Eold Enew : ℝ) : Bool :=
  decide (|Eold - Enew| / n_atom < TOL_FOCK) && decide (count + 1 ≥ MINIT_FOCK)

end Sparc.Scf

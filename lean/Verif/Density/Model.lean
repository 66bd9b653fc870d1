import Mathlib.Data.Complex.Basic
import Mathlib.Algebra.BigOperators.Group.Finset.Basic
import Mathlib.Analysis.Real.Sqrt
import Verif.Groups.Model

/-!
# Electron and magnetisation density (model)

`/repo/src/electronDensity.c:30-330`.  The local part of each routine is transcribed with its
running index `count`; a memory is a function from indices to reals.  `MPI_Allreduce(MPI_SUM)`
is the sum over the members of the communicator.  `double` becomes `ℝ`, `double _Complex`
becomes `ℂ`.  `CyclixFlag` is off (density scaled by `1/dV`).  All arrays are those of one
grid domain of `D = Nd_d_dmcomm` points.
-/

namespace Sparc.Density

/-- A memory and the running index `count`. -/
abbrev St := (ℕ → ℝ) × ℕ

/-- `a[j] += v` -/
def addAt (a : ℕ → ℝ) (j : ℕ) (v : ℝ) : ℕ → ℝ := Function.update a j (a j + v)

/-- Fields of `pSPARC` read by one process. -/
structure Proc where
  /-- `isGammaPoint` -/
  gamma : Bool
  /-- `spin_typ` -/
  spinTyp : ℕ
  /-- `Nstates` -/
  Ns : ℕ
  /-- `Nkpts_kptcomm` -/
  nk : ℕ
  /-- `band_start_indx` -/
  nstart : ℕ
  /-- number of local bands: `band_end_indx = nstart + nb - 1` -/
  nb : ℕ
  /-- `Nspinor_spincomm` -/
  nsp : ℕ
  /-- `spinor_start_indx` -/
  spStart : ℕ
  occfac : ℝ
  /-- `kptWts_loc` -/
  wts : ℕ → ℝ
  /-- `Nkpts` -/
  Nk : ℝ
  occ : ℕ → ℝ
  Xorb : ℕ → ℝ
  XorbKpt : ℕ → ℂ

/-- Loops over grid points, electronDensity.c:135-146. -/
def rhoI (p : Proc) (D spinorG : ℕ) (g : ℝ) (s : St) : St :=
  (List.range D).foldl (fun s i =>
    (addAt s.1 (i + spinorG * D)
      (if p.gamma then g * p.Xorb s.2 * p.Xorb s.2
       else g * ((p.XorbKpt s.2).re * (p.XorbKpt s.2).re + (p.XorbKpt s.2).im * (p.XorbKpt s.2).im)),
     s.2 + 1)) s

/-- Loop over spinors, electronDensity.c:129-147. -/
noncomputable def rhoSp (p : Proc) (D k n : ℕ) (s : St) : St :=
  (List.range p.nsp).foldl (fun s spinor =>
    let woccfac := p.occfac * (p.wts k / p.Nk)
    let off := k * p.Ns + (if p.spinTyp = 1 then spinor * p.Ns * p.nk else 0)
    rhoI p D (spinor + p.spStart) (woccfac * p.occ (off + n)) s) s

/-- Loops over k-points and bands, electronDensity.c:125-149, from a cleared array. -/
noncomputable def rhoLocal (p : Proc) (D : ℕ) : ℕ → ℝ :=
  ((List.range p.nk).foldl (fun s k =>
    (List.range' p.nstart p.nb).foldl (fun s n => rhoSp p D k n s) s) ((fun _ => 0), 0)).1

/-- Inner loop of `Calculate_Magx_Magy_psi`, electronDensity.c:234-240 (including the final
`count += DMnd`). -/
def magI (p : Proc) (D : ℕ) (g : ℝ) (s : St) : St :=
  let t := (List.range D).foldl (fun s i =>
    let r := p.XorbKpt s.2 * (starRingEnd ℂ) (p.XorbKpt (s.2 + D))
    (addAt (addAt s.1 i (2 * g * r.re)) (i + D) (-(2 * g * r.im)), s.2 + 1)) s
  (t.1, t.2 + D)

/-- Local part of `Calculate_Magx_Magy_psi`, electronDensity.c:229-243: `magx` at `0 … D-1`,
`magy` at `D … 2D-1`. -/
noncomputable def magLocal (p : Proc) (D : ℕ) : ℕ → ℝ :=
  ((List.range p.nk).foldl (fun s k =>
    (List.range' p.nstart p.nb).foldl (fun s n =>
      let woccfac := p.occfac * (p.wts k / p.Nk)
      magI p D (woccfac * p.occ (n + k * p.Ns)) s) s) ((fun _ => 0), 0)).1

/-- The three reductions, electronDensity.c:158-182 and 252-276: over the spin bridge
(`npspin > 1`), the k-point bridge (`npkpt > 1`) and the band groups.  `loc a b c` is the array
of the process of spin group `a`, k-point group `b`, band group `c`; the result is the array of
process `(a, b, c)` afterwards. -/
def reduce (npspin npkpt npband : ℕ) (loc : ℕ → ℕ → ℕ → ℕ → ℝ) (a b c : ℕ) : ℕ → ℝ :=
  let r1 := fun a b c j => if npspin > 1 then ∑ a' ∈ Finset.range npspin, loc a' b c j else loc a b c j
  let r2 := fun a b c j => if npkpt > 1 then ∑ b' ∈ Finset.range npkpt, r1 a b' c j else r1 a b c j
  fun j => if npband ≠ 0 then ∑ c' ∈ Finset.range npband, r2 a b c' j else r2 a b c j

/-- `CalculateDensity_psi` on process `(a, b, c)`. -/
noncomputable def rhoPsi (npspin npkpt npband : ℕ) (procs : ℕ → ℕ → ℕ → Proc) (D : ℕ) (dV : ℝ)
    (a b c : ℕ) : ℕ → ℝ :=
  fun j => reduce npspin npkpt npband (fun a b c => rhoLocal (procs a b c) D) a b c j * (1 / dV)

/-- `Calculate_Magx_Magy_psi` on process `(a, b, c)`. -/
noncomputable def magPsi (npspin npkpt npband : ℕ) (procs : ℕ → ℕ → ℕ → Proc) (D : ℕ) (dV : ℝ)
    (a b c : ℕ) : ℕ → ℝ :=
  fun j => reduce npspin npkpt npband (fun a b c => magLocal (procs a b c) D) a b c j * (1 / dV)

/-- `Calculate_Magnorm`, electronDensity.c:310-315, at one point. -/
noncomputable def magNorm (x y z : ℝ) : ℝ := √(x * x + y * y + z * z)

/-- `Calculate_diagonal_Density`, electronDensity.c:318-324, at one point. -/
noncomputable def diagonal (rho m : ℝ) : ℝ × ℝ := (0.5 * (rho + m), 0.5 * (rho - m))

/-! ### Global data and how it is laid out over the processes -/

/-- The physical data: `occ s k n`, weights `w k`, orbitals `psi s k n i` on this domain. -/
structure Data where
  occ : ℕ → ℕ → ℕ → ℝ
  w : ℕ → ℝ
  psi : ℕ → ℕ → ℕ → ℕ → ℂ

/-- Process `(a, b, c)` holds its share: k-points `kptStart …` of group `b`, bands
`bandStart …` of group `c` and spinors `spinStart …` of group `a`, stored in the order
k-point, band, spinor, grid point.  `Xorb` is allocated with that shape in
parallelization.c:632-660; `occ` at 994; `kptWts_loc` set in initialization.c:3449.  With
`spin_typ` 1 there is one block of occupations per local spin, otherwise a single block. -/
structure Holds (d : Data) (gamma : Bool) (spinTyp Nspinor Nk Ns npspin npkpt npband D : ℕ)
    (occfac : ℝ) (a b c : ℕ) (p : Proc) : Prop where
  hgamma : p.gamma = gamma
  hspin : p.spinTyp = spinTyp
  hNs : p.Ns = Ns
  hnk : p.nk = Groups.kptCount Nk npkpt b
  hnstart : p.nstart = Groups.bandStart Ns npband c
  hnb : p.nb = Groups.bandCount Ns npband c
  hnsp : p.nsp = Groups.spinCount Nspinor npspin
  hspStart : p.spStart = Groups.spinStart Nspinor npspin a
  hoccfac : p.occfac = occfac
  hNk : p.Nk = Nk
  hwts : ∀ k < p.nk, p.wts k = d.w (Groups.kptStart Nk npkpt b + k)
  hocc : ∀ k < p.nk, ∀ n < Ns, ∀ sp < p.nsp,
    p.occ (k * Ns + (if spinTyp = 1 then sp * Ns * p.nk else 0) + n) =
      d.occ (p.spStart + sp) (Groups.kptStart Nk npkpt b + k) n
  hpsi : ∀ k < p.nk, ∀ n < p.nb, ∀ sp < p.nsp, ∀ i < D,
    (if gamma then (p.Xorb (((k * p.nb + n) * p.nsp + sp) * D + i) : ℂ)
     else p.XorbKpt (((k * p.nb + n) * p.nsp + sp) * D + i)) =
      d.psi (p.spStart + sp) (Groups.kptStart Nk npkpt b + k) (p.nstart + n) i

end Sparc.Density

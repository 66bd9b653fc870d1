import Verif.Tac
import Mathlib.Analysis.SpecialFunctions.Trigonometric.Deriv
import Mathlib.Analysis.SpecialFunctions.Pow.Real
import Mathlib.Analysis.Complex.Trigonometric

/-!
# Poisson solves of exact exchange with Bloch vectors (model)

`find_k_shift`, `kshift_phasefactor`, `compute_pois_fft_const`, `singularity_remooval_const` and
`auxiliary_constant` of `/repo/src/xc/exx/exactExchangeInitialization.c`, and `pois_fft_kpt` with
`apply_phase_factor` of `/repo/src/xc/exx/exactExchangeKpt.c`.

`double` is replaced by `ℝ` and `double _Complex` by `ℂ`; tolerances are kept.  A write past the
end of an array is the outcome `none`.  The library transforms (MKL or FFTW) are taken as the
discrete Fourier sums they are documented to compute, with the factor `1/Nd` in the inverse.
-/

namespace Sparc.Exx

open Classical

/-- A wave vector `(k1, k2, k3)`. -/
abbrev Vec := ℝ × ℝ × ℝ

/-- `TEMP_TOL`, exactExchangeInitialization.c:30. -/
noncomputable def tol : ℝ := 1 / 10 ^ 12

/-- `fabs(a1 - b1) < TEMP_TOL && …`, exactExchangeInitialization.c:617-618 (with `b = 0`) and
626-628. -/
def near (a b : Vec) : Prop := |a.1 - b.1| < tol ∧ |a.2.1 - b.2.1| < tol ∧ |a.2.2 - b.2.2| < tol

/-- `k_shift_temp = k - k_hf`, exactExchangeInitialization.c:614-616. -/
def diff (k q : Vec) : Vec := (k.1 - q.1, k.2.1 - q.2.1, k.2.2 - q.2.2)

/-! ## `find_k_shift`, exactExchangeInitialization.c:593-674 -/

/-- Local arrays `k1_shift, k2_shift, k3_shift` of allocated length `cap` (601-603) with their
first `count` entries `shifts`, and the entries of `Kptshift_map` set so far.  The loops set
`Kptshift_map[k + q*Nkpts_sym]` with `q` outermost, hence in increasing order. -/
structure Tab where
  cap : ℕ
  shifts : List Vec
  map : List ℕ

/-- Body of the double loop, exactExchangeInitialization.c:614-640.  `flag` is the first index of
an equal shift and `0` if there is none. -/
noncomputable def Tab.step (t : Tab) (d : Vec) : Option Tab :=
  if near d (0, 0, 0) then some { t with map := t.map ++ [0] }
  else
    let flag := (t.shifts.findIdx? fun s => decide (near s d)).getD 0
    if flag = 0 then
      if t.shifts.length < t.cap then
        some { t with shifts := t.shifts ++ [d], map := t.map ++ [t.shifts.length] }
      else none
    else some { t with map := t.map ++ [flag] }

/-- Order of the double loop, exactExchangeInitialization.c:611-612. -/
def diffs (ks qs : List Vec) : List Vec := qs.flatMap fun q => ks.map fun k => diff k q

/-- The whole search, exactExchangeInitialization.c:600-643: entry `0` is the zero shift. -/
noncomputable def findShift (ks qs : List Vec) : Option Tab :=
  if 0 < ks.length * qs.length then
    (diffs ks qs).foldlM Tab.step ⟨ks.length * qs.length, [(0, 0, 0)], []⟩
  else none

/-- `Nkpts_shift`, exactExchangeInitialization.c:643. -/
def Tab.count (t : Tab) : ℕ := t.shifts.length

/-- `pSPARC->k1_shift[l]` and so on: the table without its first entry,
exactExchangeInitialization.c:650-654. -/
def Tab.stored (t : Tab) : List Vec := t.shifts.drop 1

/-- Shift added to `G` in block `l` of the constants: the last block has none,
exactExchangeInitialization.c:311-315. -/
def Tab.blockVec (t : Tab) (l : ℕ) : Vec :=
  if l < t.count - 1 then (t.stored[l]?).getD (0, 0, 0) else (0, 0, 0)

/-- Block of constants used for the map entry `l`, exactExchangeKpt.c:946-951. -/
def Tab.block (t : Tab) (l : ℕ) : ℕ := if l = 0 then t.count - 1 else l - 1

/-! ## Multipliers -/

/-- Parameters of the multipliers: `ExxDivFlag`, `V` = volume of the cell, `Nkpts_hf`,
`hyb_range_fock` and `const_aux`. -/
structure Ker where
  flag : ℕ
  V : ℝ
  Nhf : ℕ
  omega : ℝ
  aux : ℝ

/-- `R_c = pow(3*V/(4*M_PI), 1.0/3)` with `V` = `Nkpts_hf` cells,
exactExchangeInitialization.c:185-186. -/
noncomputable def Ker.Rc (P : Ker) : ℝ := (3 * (P.V * P.Nhf) / (4 * Real.pi)) ^ ((1 : ℝ) / 3)

/-- `x = -0.25/omega2*G2`, exactExchangeInitialization.c:210, 247. -/
noncomputable def Ker.x (P : Ker) (g : ℝ) : ℝ := -(1 / 4) / (P.omega * P.omega) * g

/-- `sr_const`, exactExchangeInitialization.c:179-267. -/
noncomputable def Ker.sr (P : Ker) (g : ℝ) : ℝ :=
  if P.flag = 0 then
    if |g| > 1 / 10 ^ 4 then 4 * Real.pi * (1 - Real.cos (P.Rc * √g)) / g
    else 2 * Real.pi * (P.Rc * P.Rc)
  else if P.flag = 1 then
    if |g| > 1 / 10 ^ 4 then
      if P.omega > 0 then 4 * Real.pi / g * (1 - Real.exp (P.x g)) else 4 * Real.pi / g
    else if P.omega > 0 then 4 * Real.pi * (P.aux + 1 / 4 / (P.omega * P.omega))
    else 4 * Real.pi * P.aux
  else
    if |g| > 1 / 10 ^ 4 then 4 * Real.pi * (1 - Real.exp (P.x g)) / g
    else Real.pi / (P.omega * P.omega)

/-- `sr_const_stress`, exactExchangeInitialization.c:197, 203, 215, 222, 231, 238, 251, 258. -/
noncomputable def Ker.stress (P : Ker) (g : ℝ) : ℝ :=
  if P.flag = 0 then
    if |g| > 1 / 10 ^ 4 then
      4 * Real.pi * (1 - Real.cos (P.Rc * √g) - P.Rc * √g / 2 * Real.sin (P.Rc * √g)) / (g * g)
    else 4 * Real.pi * P.Rc ^ 4 / 24
  else if P.flag = 1 then
    if |g| > 1 / 10 ^ 4 then
      if P.omega > 0 then 4 * Real.pi * (1 - Real.exp (P.x g) * (1 - P.x g)) / (g * g) / 4
      else 4 * Real.pi / (g * g) / 4
    else 0
  else
    if |g| > 1 / 10 ^ 4 then 4 * Real.pi * (1 - Real.exp (P.x g) * (1 - P.x g)) / (g * g)
    else 0

/-- `sr_const_stress2`, exactExchangeInitialization.c:198, 204 (only for `ExxDivFlag == 0`). -/
noncomputable def Ker.stress2 (P : Ker) (g : ℝ) : ℝ :=
  if |g| > 1 / 10 ^ 4 then 4 * Real.pi * (P.Rc * √g / 2 * Real.sin (P.Rc * √g)) / g / 3
  else 4 * Real.pi * (P.Rc * P.Rc / 2) / 3

/-- `sr_const_press`, exactExchangeInitialization.c:217, 224, 233, 240, 253, 260 (not set for
`ExxDivFlag == 0`). -/
noncomputable def Ker.press (P : Ker) (g : ℝ) : ℝ :=
  if P.flag = 1 then
    if |g| > 1 / 10 ^ 4 then
      if P.omega > 0 then 4 * Real.pi * (1 - Real.exp (P.x g) * (1 - P.x g)) / g / 4
      else 4 * Real.pi / g / 4
    else 0
  else
    if |g| > 1 / 10 ^ 4 then 4 * Real.pi * (1 - Real.exp (P.x g) * (1 - P.x g)) / g
    else 0

/-! ## The mesh -/

/-- Mesh, `L = delta*N` in each direction, `R = range` in each direction, and `lapcT`. -/
structure Mesh where
  Nx : ℕ
  Ny : ℕ
  Nz : ℕ
  L : Vec
  R : Vec
  lapcT : Fin 3 → Fin 3 → ℝ

def Mesh.Nd (M : Mesh) : ℕ := M.Nx * M.Ny * M.Nz

/-- `(i < N/2+1) ? i*2*pi/L : (i-N)*2*pi/L`, exactExchangeInitialization.c:308-310. -/
noncomputable def freq (N : ℕ) (L : ℝ) (i : ℕ) : ℝ :=
  if i < N / 2 + 1 then (i : ℝ) * 2 * Real.pi / L else ((i : ℝ) - N) * 2 * Real.pi / L

/-- `G` with the shift `s` added, exactExchangeInitialization.c:308-315. -/
noncomputable def Mesh.G (M : Mesh) (s : Vec) (i j k : ℕ) : Vec :=
  (freq M.Nx M.L.1 i + s.1, freq M.Ny M.L.2.1 j + s.2.1, freq M.Nz M.L.2.2 k + s.2.2)

/-- `G2 = G · lapcT G`, exactExchangeInitialization.c:316-317 (`matrixTimesVec_3d`). -/
def Mesh.norm2 (M : Mesh) (v : Vec) : ℝ :=
  v.1 * (M.lapcT 0 0 * v.1 + M.lapcT 0 1 * v.2.1 + M.lapcT 0 2 * v.2.2) +
  v.2.1 * (M.lapcT 1 0 * v.1 + M.lapcT 1 1 * v.2.1 + M.lapcT 1 2 * v.2.2) +
  v.2.2 * (M.lapcT 2 0 * v.1 + M.lapcT 2 1 * v.2.1 + M.lapcT 2 2 * v.2.2)

/-- One block of constants in the order of the loops over `k`, `j`, `i`,
exactExchangeInitialization.c:303-323 (complex orbitals, `Nx_len = Nx`). -/
noncomputable def blockConst (P : Ker) (M : Mesh) (s : Vec) : List ℝ :=
  (List.range M.Nz).flatMap fun k => (List.range M.Ny).flatMap fun j => (List.range M.Nx).map fun i =>
    P.sr (M.norm2 (M.G s i j k))

/-- `pois_const`: block `l` starts at `l*Nd`, exactExchangeInitialization.c:301-324. -/
noncomputable def poisConst (P : Ker) (M : Mesh) (t : Tab) : List ℝ :=
  (List.range t.count).flatMap fun l => blockConst P M (t.blockVec l)

/-- Argument `r · k_shift` of the phases, `r = (i*L1/Nx, …)` with `L1 = range_x`,
exactExchangeInitialization.c:710-713. -/
noncomputable def Mesh.dot (M : Mesh) (s : Vec) (i j k : ℕ) : ℝ :=
  (i : ℝ) * M.R.1 / M.Nx * s.1 + (j : ℝ) * M.R.2.1 / M.Ny * s.2.1 + (k : ℝ) * M.R.2.2 / M.Nz * s.2.2

/-- `neg_phase` (`sg = -1`) and `pos_phase` (`sg = 1`), exactExchangeInitialization.c:706-721. -/
noncomputable def phases (M : Mesh) (t : Tab) (sg : ℝ) : List ℂ :=
  (List.range (t.count - 1)).flatMap fun l =>
    (List.range M.Nz).flatMap fun k => (List.range M.Ny).flatMap fun j => (List.range M.Nx).map fun i =>
      (Real.cos (M.dot ((t.stored[l]?).getD (0, 0, 0)) i j k) : ℂ) +
        sg * Complex.I * (Real.sin (M.dot ((t.stored[l]?).getD (0, 0, 0)) i j k) : ℂ)

/-- A field on the mesh by its three indices; in memory `i + j*Nx + k*Nx*Ny`. -/
abbrev Field := ℕ → ℕ → ℕ → ℂ

def Mesh.at (M : Mesh) (i j k : ℕ) : ℕ := i + j * M.Nx + k * (M.Nx * M.Ny)

/-- `apply_phase_factor`, exactExchangeKpt.c:1131-1160, for map entry `l`. -/
noncomputable def applyPhase (M : Mesh) (t : Tab) (sg : ℝ) (l : ℕ) (v : Field) : Field :=
  fun i j k => if l = 0 then v i j k else v i j k * ((phases M t sg)[M.at i j k + (l - 1) * M.Nd]?).getD 0

/-- `exp(sg * 2 pi i (a n/N))`. -/
noncomputable def root (sg : ℝ) (N a n : ℕ) : ℂ :=
  Complex.exp ((sg * (2 * Real.pi * ((a : ℝ) * n / N)) : ℝ) * Complex.I)

/-- The forward transform (`sg = -1`) or the inverse without its factor (`sg = 1`). -/
noncomputable def dft (M : Mesh) (sg : ℝ) (v : Field) : Field := fun a b c =>
  ∑ k ∈ Finset.range M.Nz, ∑ j ∈ Finset.range M.Ny, ∑ i ∈ Finset.range M.Nx,
    v i j k * (root sg M.Nx a i * root sg M.Ny b j * root sg M.Nz c k)

/-- `pois_fft_kpt`, exactExchangeKpt.c:910-972, for one right-hand side and map entry `l`. -/
noncomputable def poisFft (P : Ker) (M : Mesh) (t : Tab) (l : ℕ) (rhs : Field) : Field :=
  let bar := dft M (-1) (applyPhase M t (-1) l rhs)
  let scaled : Field := fun a b c => bar a b c * (((poisConst P M t)[M.at a b c + M.Nd * t.block l]?).getD 0 : ℝ)
  applyPhase M t 1 l fun i j k => dft M 1 scaled i j k / M.Nd

/-! ## `auxiliary_constant`, exactExchangeInitialization.c:468-569 -/

/-- One term of the sum, exactExchangeInitialization.c:531-536. -/
noncomputable def auxTerm (alpha omega g : ℝ) : ℝ :=
  if g > 1 / 10 ^ 8 then
    if omega < 0 then Real.exp (-alpha * g) / g
    else Real.exp (-alpha * g) / g * (1 - Real.exp (-g / 4 / (omega * omega)))
  else 0

/-- `const_aux`, exactExchangeInitialization.c:507-563, from the list of all `|G+q|^2` and
`intf` = `scaled_intf` (whose numerical quadrature for `omega > 0`, 549-561, is not modelled). -/
noncomputable def constAux (alpha omega intf : ℝ) (gs : List ℝ) : ℝ :=
  if omega < 0 then intf + alpha - (gs.map (auxTerm alpha omega)).sum
  else intf - ((gs.map (auxTerm alpha omega)).sum + 1 / 4 / (omega * omega))

end Sparc.Exx

import Verif.Grad.Model

/-!
# The Hamiltonian at a k-point and its meta-GGA term: model

Source: src/hamiltonianVecRoutines.c, src/xc/mgga/mGGAhamiltonianTerm.c.  The Laplacian and the
first derivative are those of `Verif.Bloch` and `Verif.Grad`.  Left out: the nonlocal projectors
(`Verif.Nloc`), Hubbard, spin-orbit and exact exchange terms, which are added to the same columns,
and the choice of the array of the potential by communicator.
-/

namespace Sparc.Ham

open Loop Lap Halo Bloch Grad

/-- `DMnd`. -/
def nd (L : Layout) (p : Proc) : ℤ := L.isize p 0 * L.isize p 1 * L.isize p 2

/-- An array of columns of `DMnd` values. -/
def stack {V : Type} (L : Layout) (p : Proc) (cols : ℕ → ℤ → V) : ℤ → V := fun a =>
  cols (a / nd L p).toNat (a % nd L p)

open Classical in
/-- A collective operation can use what every process computed only if every process got there. -/
noncomputable def everyone {V : Type} [Zero V] (L : Layout) (m : Proc → Option (ℤ → V)) :
    Option (Proc → ℤ → V) :=
  if ∀ p : Proc, (∀ d, p d < L.dims d) → (m p).isSome then some (fun p => (m p).getD 0) else none

/-! ### Real functions -/

/-- `Dx_x`, `Dx_y`, `Dx_z` of column `i`, mGGAhamiltonianTerm.c:70-72 (allocated with `calloc`,
55-66; `ex0` is the uninitialised work array of the derivative). -/
noncomputable def gradR (L : Layout) (C : Coefs) (ldx : Proc → ℤ) (x : Proc → Mem) (ex0 : ℕ → Mem)
    (i : ℕ) (d : Fin 3) (p : Proc) : Option Mem :=
  gradVectorsDir L C d 0 ldx (fun q a => x q (i * ldx q + a)) p ex0 (fun _ _ => 0) 0

/-- The vectors before the second derivative: mGGAhamiltonianTerm.c:74-95. -/
noncomputable def fluxR (typ : ℕ) (T : ℕ → ℝ) (v : Mem) (gx gy gz : Mem) (d : Fin 3) : Mem :=
  fun a =>
    (if typ > 10 ∧ typ < 20 then
      gx a * T (3 * d) + gy a * T (3 * d + 1) + gz a * T (3 * d + 2)
    else ![gx a, gy a, gz a] d) * v a

/-- Column `i` of the result of `compute_mGGA_term_hamil` on process `p`,
mGGAhamiltonianTerm.c:69-103; `Hx` is the column of `Hx` before. -/
noncomputable def mggaR (L : Layout) (C : Coefs) (typ : ℕ) (T : ℕ → ℝ) (v : Proc → Mem)
    (ldx : Proc → ℤ) (x : Proc → Mem) (ex0 : ℕ → Mem) (Hx : Mem) (p : Proc) (i : ℕ) : Option Mem := do
  let gx ← everyone L (gradR L C ldx x ex0 i 0)
  let gy ← everyone L (gradR L C ldx x ex0 i 1)
  let gz ← everyone L (gradR L C ldx x ex0 i 2)
  let F := fun (d : Fin 3) (q : Proc) => fluxR typ T (v q) (gx q) (gy q) (gz q) d
  let Dx ← gradVectorsDir L C 0 0 (nd L) (F 0) p ex0 (fun _ _ => 0) 0
  let Dy ← gradVectorsDir L C 1 0 (nd L) (F 1) p ex0 (fun _ _ => 0) 0
  let Dz ← gradVectorsDir L C 2 0 (nd L) (F 2) p ex0 (fun _ _ => 0) 0
  pure fun a => Hx a - 1 / 2 * (Dx a + Dy a + Dz a)

/-! ### Complex functions -/

/-- One of the arrays `Dx_x_kpt`, ... or `Dvxc3Dx_x_kpt`, ...: all columns of
`Gradient_vectors_dir_kpt` with `ldo = DMnd`, mGGAhamiltonianTerm.c:141-143 and 163-165. -/
noncomputable def gradK (L : Layout) (C : Coefs) (q : KPoint) (ncol : ℕ) (ldx : Proc → ℤ)
    (x : Proc → MemK) (ex0 : ℕ → MemK) (d : Fin 3) (p : Proc) : Option MemK := do
  let cs ← (List.range ncol).mapM fun i =>
    gradVectorsDirK L C d q.len (q.k d) 0 ldx x p ex0 (fun _ _ => 0) i
  pure (stack L p fun i => cs.getD i 0)

/-- mGGAhamiltonianTerm.c:144-162. -/
noncomputable def fluxK (typ : ℕ) (T : ℕ → ℝ) (DMnd : ℤ) (v : Mem) (gx gy gz : MemK) (d : Fin 3) :
    MemK := fun a =>
  (if typ > 10 ∧ typ < 20 then
    gx a * T (3 * d) + gy a * T (3 * d + 1) + gz a * T (3 * d + 2)
  else ![gx a, gy a, gz a] d) * v (a % DMnd)

/-- Column `i` of the result of `compute_mGGA_term_hamil_kpt` on process `p`,
mGGAhamiltonianTerm.c:141-171. -/
noncomputable def mggaK (L : Layout) (C : Coefs) (q : KPoint) (typ : ℕ) (T : ℕ → ℝ) (v : Proc → Mem)
    (ncol : ℕ) (ldx : Proc → ℤ) (x : Proc → MemK) (ex0 : ℕ → MemK) (Hx : MemK) (p : Proc) (i : ℕ) :
    Option MemK := do
  let gx ← everyone L (gradK L C q ncol ldx x ex0 0)
  let gy ← everyone L (gradK L C q ncol ldx x ex0 1)
  let gz ← everyone L (gradK L C q ncol ldx x ex0 2)
  let F := fun (d : Fin 3) (r : Proc) => fluxK typ T (nd L r) (v r) (gx r) (gy r) (gz r) d
  let Dx ← gradK L C q ncol (nd L) (F 0) ex0 0 p
  let Dy ← gradK L C q ncol (nd L) (F 1) ex0 1 p
  let Dz ← gradK L C q ncol (nd L) (F 2) ex0 2 p
  pure fun a => Hx a - 1 / 2 * (Dx (a + i * nd L p) + Dy (a + i * nd L p) + Dz (a + i * nd L p))

/-- Arguments of `Hamiltonian_vectors_mult_kpt`. -/
structure Input where
  /-- `spin_typ == 2` -/
  noncol : Bool
  c : ℝ
  ncol : ℕ
  /-- `Veff_loc` -/
  veff : Proc → Mem
  ldi : Proc → ℤ
  x : Proc → MemK
  /-- `ixc[2] && countPotentialCalculate > 1` and the array of the potential for a spinor -/
  mgga : Option (ℕ → Proc → Mem)
  /-- previous contents of memory -/
  junk : MemK
  wt : ℕ → ℝ

/-- Arguments of the Laplacian for column `i` and one spinor, hamiltonianVecRoutines.c:152-161 and
169-178. -/
noncomputable def lapCall (L : Layout) (A : Input) (i s : ℕ) : CallK where
  a := -1 / 2
  b := 1
  c := A.c
  v := some fun p a => A.veff p ((if A.noncol then s * nd L p else 0) + a)
  ldi := A.ldi
  x := fun p a => A.x p (i * A.ldi p + s * nd L p + a)
  xd := fun _ _ => 0
  ex0 := A.junk
  Dx1 := A.junk
  Dx2 := A.junk
  y := A.junk
  wt := A.wt

/-- Column `i`, spinor `s` after the first loop, hamiltonianVecRoutines.c:151-179. -/
noncomputable def lapPart (L : Layout) (C : Coefs) (q : KPoint) (typ : ℕ) (A : Input) (p : Proc)
    (i s : ℕ) : Option MemK :=
  if typ = 0 then lapOrthK { L with ncol := 1 } q C (lapCall L A i s) p 0
  else lapNonorthK { L with ncol := 1 } q C typ (lapCall L A i s) p 0

/-- `off_diagonal_effective_potential`, hamiltonianVecRoutines.c:248-259, with
`Veff_loc+2*DMnd`; entries outside the column are kept. -/
noncomputable def offDiag (L : Layout) (A : Input) (p : Proc) (i s : ℕ) (y : MemK) : MemK :=
  let spinorfac : ℂ := if s = 0 then 1 else -1
  fun a => if 0 ≤ a ∧ a < nd L p then
    y a + (A.veff p (2 * nd L p + a) + Complex.I * spinorfac * A.veff p (2 * nd L p + (a + nd L p))) *
      A.x p (a + i * A.ldi p + (1 - s) * nd L p)
    else y a

/-- Column `i`, spinor `s` of the result of `Hamiltonian_vectors_mult_kpt` on process `p`,
hamiltonianVecRoutines.c:150-184 and 236-241. -/
noncomputable def hamK (L : Layout) (C : Coefs) (q : KPoint) (typ : ℕ) (T : ℕ → ℝ) (A : Input)
    (p : Proc) (i s : ℕ) : Option MemK := do
  let y ← lapPart L C q typ A p i s
  let y' := if A.noncol then offDiag L A p i s y else y
  A.mgga.elim (some y') fun v =>
    mggaK L C q typ T (v s) A.ncol A.ldi (fun r a => A.x r (s * nd L r + a)) (fun _ => A.junk) y' p i

end Sparc.Ham

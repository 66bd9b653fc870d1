import Verif.Tac
import Verif.Brent.Model
import Verif.Coord.Model
import Mathlib.Analysis.SpecialFunctions.Pow.Real

/-!
# Relaxation of the cell

Model of `Relax_Cell`, `volrelax_constraint` and `reinitialize_cell_mesh` (`/repo/src/relax.c`
923-971, 982-1079, 1093-1289).  The root search is `Sparc.Brent.volumeSearch`.

Simplifications: real arithmetic; cells that are not helical (`cell_typ <= 20`).  Of the quantities set
anew for a volume (relax.c 1124-1281) only lengths, spacings, volume element and positions are
modelled; stencils, cut-offs and k-points are functions of these.
-/

namespace Sparc.Cell
open Finset

/-- `range_x/y/z`, `delta_x/y/z`, `Jacbdet`, `dV`, and `atom_pos` in lattice coordinates. -/
structure Cell where
  L : Fin 3 → ℝ
  delta : Fin 3 → ℝ
  J : ℝ
  dV : ℝ
  atoms : List (Fin 3 → ℝ)

/-- `cellrelax_dims` (relax.c 934-937): the periodic directions (`BC` 0). -/
def dims (bc : Fin 3 → ℕ) (i : Fin 3) : Bool := 1 - (bc i : ℤ) == 1

/-- `cellrelax_ndim` (relax.c 944-946). -/
def ndim (d : Fin 3 → Bool) : ℕ := (if d 0 then 1 else 0) + (if d 1 then 1 else 0) + (if d 2 then 1 else 0)

/-- Volume (relax.c 955, 1115). -/
def Cell.vol (c : Cell) : ℝ := c.L 0 * c.L 1 * c.L 2 * c.J

/-- `V_lwbd`, `V_upbd` (relax.c 960-961). -/
noncomputable def bounds (m : ℝ) (n : ℕ) (V : ℝ) : ℝ × ℝ := (V / m ^ n, V * m ^ n)

/-- `scal` (relax.c 1121). -/
noncomputable def scal (d : Fin 3 → Bool) (v : ℝ) (c : Cell) : ℝ := (v / c.vol) ^ ((1 : ℝ) / ndim d)

/-- `reinitialize_cell_mesh` (relax.c 1105-1149); `none` is the exit for a volume that is not positive. -/
noncomputable def reinit (d : Fin 3 → Bool) (v : ℝ) (c : Cell) : Option Cell :=
  open Classical in
  if v ≤ 0 then none
  else
    let s := scal d v c
    let delta := fun i => if d i then c.delta i * s else c.delta i
    some { L := fun i => if d i then c.L i * s else c.L i
           delta := delta
           J := c.J
           dV := delta 0 * delta 1 * delta 2 * c.J
           atoms := c.atoms.map fun x i => if d i then x i * s else x i }

/-- `CONST_HA_BOHR3_GPA` (include/isddft.h 71). -/
noncomputable def gpa : ℝ := 29421.01569650548

/-- `stress_tmp` from the six entries `xx xy xz yy yz zz` (relax.c 1024-1026). -/
def full (s : Fin 6 → ℝ) (n : ℕ) : ℝ :=
  match n with
  | 0 => s 0 | 1 => s 1 | 2 => s 2
  | 3 => s 1 | 4 => s 3 | 5 => s 4
  | 6 => s 2 | 7 => s 4 | _ => s 5

/-- The diagonal of `stress_lc` (relax.c 1022-1042): entries 0, 3, 5. -/
noncomputable def diag (typ : ℕ) (U g : ℕ → ℝ) (s : Fin 6 → ℝ) (i : Fin 3) : ℝ :=
  if 10 < typ ∧ typ < 20 then
    ∑ k ∈ range 3, ∑ l ∈ range 3, U (3 * i + k) * full s (3 * k + l) * g (3 * i + l)
  else s (![0, 3, 5] i)

/-- `volrelax_constraint` after the calculation (relax.c 1046-1078); `bc2` is `BC == 2`. -/
noncomputable def residual (typ : ℕ) (U g : ℕ → ℝ) (s : Fin 6 → ℝ) (d : Fin 3 → Bool) (bc2 : Bool) (target : ℝ) : ℝ :=
  let sd := fun i => if bc2 then diag typ U g s i * gpa else diag typ U g s i
  let m := (if d 0 then sd 0 else 0) + (if d 1 then sd 1 else 0) + (if d 2 then sd 2 else 0)
  let mx := m / ndim d
  show ℝ from -mx - target

/-- `Relax_Cell` with the residual `f` as a function of the volume (relax.c 923-971, `BrentsFun` 1367-1465):
what the search returns and the cell left behind, that of the last volume tried; `none` is an exit. -/
noncomputable def relaxCell (f : ℝ → ℝ) (d : Fin 3 → Bool) (m tolf : ℝ) (niter : ℕ) (c : Cell) : Option (ℝ × Cell) :=
  let b := bounds m (ndim d) c.vol
  match Brent.volumeSearch f (1 / 10 ^ 4) tolf niter b.1 b.2 with
  | .found v ev => (ev.foldlM (fun c v => reinit d v c) c).map (v, ·)
  | .exceeded v ev => (ev.foldlM (fun c v => reinit d v c) c).map (v, ·)
  | _ => none

end Sparc.Cell

import Mathlib.Data.List.Basic
import Mathlib.Data.List.Range
import Mathlib.Data.Real.Basic
import Mathlib.Analysis.Real.Sqrt
import Verif.Tac

/-!
# Density files in Cube format

`printDens_cube` (printing.c:138-199), `readDens_cube` (readfiles.c:1250-1329), `check_lattice` and
`check_lattice_cell` (readfiles.c:1343-1413), `read_vec_cube` (readfiles.c:1423-1455), `read_cube`
(tools.c:2298-2338), the first guess read from files (orbitalElecDensInit.c:47-104 and 119-163) and the first
point of the mixing history (electronicGroundState.c:1254-1273).

A file is a sequence of words separated by blanks, with line ends; a word is an integer, a decimal number or
anything else.  Characters are not modelled: a printed number is the real number it denotes, and `%11.6f`,
`%.6E` are functions rounding to it.  Numbers are real, `fopen` succeeds, `malloc` succeeds.
-/

namespace Sparc.Cube

/-- A word of a file. -/
inductive Tok
  | word (s : String)
  | int (z : ℤ)
  | dec (x : ℝ)

/-- A file: words and line ends. -/
inductive Sym
  | tok (t : Tok)
  | nl

/-- The conversions of `printf`: `%f` with six decimals rounds to a nearest multiple of `10⁻⁶`, `%.6E` to seven
significant digits. -/
structure Fmt where
  f6 : ℝ → ℝ
  e6 : ℝ → ℝ
  f6_mul : ∀ x, ∃ n : ℤ, f6 x = n / 1000000
  f6_near : ∀ x, |f6 x - x| ≤ 1 / 2000000
  e6_near : ∀ x, |e6 x - x| ≤ |x| / 2000000

/-- What the file is written from: `Nx`, `Ny`, `Nz`; `delta_x`, ..; `range_x`, ..; `LatUVec` by rows; `Zatom`,
`Znucl` and Cartesian position of every atom in the order of the types. -/
structure Sys where
  N : Fin 3 → ℕ
  delta : Fin 3 → ℝ
  range : Fin 3 → ℝ
  BC : Fin 3 → ℕ
  U : Fin 3 → Fin 3 → ℝ
  atoms : List (ℤ × ℤ × (Fin 3 → ℝ))

/-! ## Writing -/

/-- printing.c:160-166: the two lines of text, the number of atoms and the origin, and per direction the number
of points and the step. -/
def header (F : Fmt) (S : Sys) (title : List String) : List Sym :=
  title.map (fun w => .tok (.word w)) ++ [.nl] ++
  [.tok (.word "Cell"), .tok (.word "length:"), .tok (.dec (F.f6 (S.range 0))), .tok (.dec (F.f6 (S.range 1))),
    .tok (.word "range_z,"), .tok (.word "boundary"), .tok (.word "condition:"),
    .tok (.word (if S.BC 0 = 0 then "P" else "D")), .tok (.word (if S.BC 1 = 0 then "P" else "D")),
    .tok (.word (if S.BC 2 = 0 then "P." else "D.")), .nl] ++
  [.tok (.int S.atoms.length), .tok (.dec (F.f6 0)), .tok (.dec (F.f6 0)), .tok (.dec (F.f6 0)), .nl] ++
  (List.finRange 3).flatMap fun d =>
    [.tok (.int (S.N d)), .tok (.dec (F.f6 (S.U d 0 * S.delta d))), .tok (.dec (F.f6 (S.U d 1 * S.delta d))),
      .tok (.dec (F.f6 (S.U d 2 * S.delta d))), .nl]

/-- printing.c:168-183: a line per atom. -/
def atomLines (F : Fmt) (S : Sys) : List Sym :=
  S.atoms.flatMap fun a =>
    [.tok (.int a.1), .tok (.dec (F.f6 a.2.1)), .tok (.dec (F.f6 (a.2.2 0))), .tok (.dec (F.f6 (a.2.2 1))),
      .tok (.dec (F.f6 (a.2.2 2))), .nl]

/-- The index `(i)+(j)*Nx+(k)*Nx*Ny`, printing.c:139. -/
def at3 (Nx Ny i j k : ℕ) : ℕ := i + j * Nx + k * Nx * Ny

/-- The values along one line of the grid, six in a line, printing.c:188-192; from `k` on, `m` of them. -/
def row (F : Fmt) (S : Sys) (rho : ℕ → ℝ) (i j k m : ℕ) : List Sym :=
  (List.range' k m).flatMap fun k =>
    .tok (.dec (F.e6 (rho (at3 (S.N 0) (S.N 1) i j k)))) :: (if k % 6 = 5 then [.nl] else [])

/-- The lines of a plane from `j` on, `m` of them, printing.c:187-194. -/
def plane (F : Fmt) (S : Sys) (rho : ℕ → ℝ) (i j m : ℕ) : List Sym :=
  (List.range' j m).flatMap fun j => row F S rho i j 0 (S.N 2) ++ [.nl]

/-- The planes from `i` on, `m` of them, printing.c:186-195. -/
def body (F : Fmt) (S : Sys) (rho : ℕ → ℝ) (i m : ℕ) : List Sym :=
  (List.range' i m).flatMap fun i => plane F S rho i 0 (S.N 1)

/-- `printDens_cube`. -/
def write (F : Fmt) (S : Sys) (title : List String) (rho : ℕ → ℝ) : List Sym :=
  header F S title ++ atomLines F S ++ body F S rho 0 (S.N 0)

/-! ## Reading -/

/-- White space before a conversion. -/
def ws : List Sym → List Sym
  | .nl :: l => ws l
  | l => l

/-- `%s`. -/
def scanStr (l : List Sym) : Option (List Sym) :=
  match ws l with
  | .tok _ :: r => some r
  | _ => none

/-- `%d`; `none` if there is no integer, when the variable stays undefined. -/
def scanInt (l : List Sym) : Option (ℤ × List Sym) :=
  match ws l with
  | .tok (.int z) :: r => some (z, r)
  | _ => none

/-- `%lf`. -/
def scanLf (l : List Sym) : Option (ℝ × List Sym) :=
  match ws l with
  | .tok (.int z) :: r => some ((z : ℝ), r)
  | .tok (.dec x) :: r => some (x, r)
  | _ => none

/-- The words up to the line end. -/
def dropLine : List Sym → List Sym
  | .tok _ :: l => dropLine l
  | l => l

/-- `%*[^\n]\n`: the rest of the line and the white space after it; if the line is at its end, the conversion
fails and nothing is taken. -/
def skipLine : List Sym → List Sym
  | .tok t :: l => ws (dropLine (.tok t :: l))
  | l => l

/-- `for (i = k; i < k + m; i++)`. -/
def loop {σ : Type} (f : ℕ → σ → Option σ) : ℕ → ℕ → σ → Option σ
  | _, 0, s => some s
  | k, m + 1, s => (f k s).bind (loop f (k + 1) m)

/-- One number along the way, readfiles.c:1310-1314. -/
def skipNum (l : List Sym) : Option (List Sym) := (scanLf l).map Prod.snd

/-- The three numbers and the count of a direction, readfiles.c:1278-1289. -/
def scanDir (l : List Sym) : Option ((ℤ × (Fin 3 → ℝ)) × List Sym) := do
  let (n, l) ← scanInt l
  let (a, l) ← scanLf l
  let (b, l) ← scanLf l
  let (c, l) ← scanLf l
  some ((n, ![a, b, c]), l)

/-- The lines of the atoms, readfiles.c:1309-1315. -/
def skipAtoms (n : ℕ) (l : List Sym) : Option (List Sym) :=
  loop (fun _ l => do
    let l ← skipNum l
    let l ← skipNum l
    let l ← skipNum l
    let l ← skipNum l
    skipNum l) 0 n l

/-- One value of the density, readfiles.c:1323; a value outside the array is an error. -/
def cell (n : Fin 3 → ℤ) (i j k : ℕ) (s : List Sym × (ℕ → ℝ)) : Option (List Sym × (ℕ → ℝ)) := do
  let (x, l) ← scanLf s.1
  let p := at3 (n 0).toNat (n 1).toNat i j k
  if p < (n 0 * n 1 * n 2).toNat then some (l, Function.update s.2 p x) else none

/-- The density, readfiles.c:1317-1326. -/
def scanBody (n : Fin 3 → ℤ) (s : List Sym × (ℕ → ℝ)) : Option (List Sym × (ℕ → ℝ)) :=
  loop (fun i => loop (fun j => loop (fun k => cell n i j k) 0 (n 2).toNat) 0 (n 1).toNat) 0 (n 0).toNat s

/-- `readDens_cube`: grid sizes, vectors of the cell, values (`junk` is the content of the new array). -/
def readDens (l : List Sym) (junk : ℕ → ℝ) : Option ((Fin 3 → ℤ) × (Fin 3 → Fin 3 → ℝ) × (ℕ → ℝ)) := do
  let l := skipLine l
  let l ← scanStr l
  let l ← scanStr l
  let l ← skipNum l
  let l := skipLine l
  let (na, l) ← scanInt l
  let l := skipLine l
  let (x, l) ← scanDir l
  let (y, l) ← scanDir l
  let (z, l) ← scanDir l
  let n : Fin 3 → ℤ := ![x.1, y.1, z.1]
  let lat : Fin 3 → Fin 3 → ℝ := ![fun c => x.1 * x.2 c, fun c => y.1 * y.2 c, fun c => z.1 * z.2 c]
  let l ← skipAtoms na.toNat l
  let (_, d) ← scanBody n (l, junk)
  some (n, lat, d)

/-- `check_lattice` and `check_lattice_cell`, readfiles.c:1343-1413: all right if no vector is more than `tol`
away. -/
noncomputable def latOK (vec : Fin 3 → Fin 3 → ℝ) (lat : Fin 3 → Fin 3 → ℝ) (scale : Fin 3 → ℝ) (tol : ℝ) : Prop :=
  ∀ d, √((vec d 0 - scale d * lat d 0) * (vec d 0 - scale d * lat d 0)
      + (vec d 1 - scale d * lat d 1) * (vec d 1 - scale d * lat d 1)
      + (vec d 2 - scale d * lat d 2) * (vec d 2 - scale d * lat d 2)) ≤ tol

/-- The system that reads: grid, `Flag_latvec_scale`, `LatVec`, `latvec_scale_x`, .., `LatUVec`, `range_x`, .. -/
structure Here where
  N : Fin 3 → ℕ
  scaled : Bool
  lat : Fin 3 → Fin 3 → ℝ
  scale : Fin 3 → ℝ
  U : Fin 3 → Fin 3 → ℝ
  range : Fin 3 → ℝ

open Classical in
/-- `read_vec_cube`, readfiles.c:1423-1455; `none` is the abort. -/
noncomputable def readVec (H : Here) (l : List Sym) (junk : ℕ → ℝ) : Option (ℕ → ℝ) := do
  let (n, vec, d) ← readDens l junk
  if (if H.scaled then latOK vec H.lat H.scale (1 / 10000) else latOK vec H.U H.range (1 / 10000)) then
    if n 0 = H.N 0 ∧ n 1 = H.N 1 ∧ n 2 = H.N 2 then some d else none
  else none

/-- One value of `read_cube`, tools.c:2329-2330. -/
def cell' (n : Fin 3 → ℤ) (i j k : ℕ) (s : List Sym × (ℕ → ℝ)) : Option (List Sym × (ℕ → ℝ)) := do
  let (x, l) ← scanLf s.1
  let l := if k % 6 = 5 then skipLine l else l
  some (l, Function.update s.2 (at3 (n 0).toNat (n 1).toNat i j k) x)

/-- `read_cube`, tools.c:2298-2338. -/
def readCube (N : Fin 3 → ℕ) (l : List Sym) (d : ℕ → ℝ) : Option (ℕ → ℝ) := do
  let l := skipLine l
  let l := skipLine l
  let (na, l) ← scanInt l
  let l := skipLine l
  let (nx, l) ← scanInt l
  let l := skipLine l
  let (ny, l) ← scanInt l
  let l := skipLine l
  let (nz, l) ← scanInt l
  let l := skipLine l
  if (N 0 : ℤ) ≠ nx ∨ (N 1 : ℤ) ≠ ny ∨ (N 2 : ℤ) ≠ nz then none else do
  let l ← loop (fun _ l => some (skipLine l)) 0 na.toNat l
  let (_, d) ← loop (fun i => loop (fun j s => (loop (fun k => cell' ![nx, ny, nz] i j k) 0 nz.toNat s).map
    fun s => (skipLine s.1, s.2)) 0 ny.toNat) 0 nx.toNat (l, d)
  some d

/-! ## First guess from files -/

/-- What the first guess is made from, on one process (`Nd_d = nd`): spin type, number of files. -/
structure Run where
  spin : ℕ
  files : ℕ
  nd : ℕ

/-- `Nspdentd`, initialization.c:1691: columns of `electronDens`. -/
def Run.cols (R : Run) : ℕ := if R.spin = 0 then 1 else 3

/-- The numbers of files let through: one or three (readfiles.c:975-984), and for a band structure
(`BandStructFlag = 1`) three with collinear spin and one without spin (initialization.c:1614-1622). -/
def accepts (band : Bool) (R : Run) : Prop :=
  (R.files = 1 ∨ R.files = 3) ∧
  (band = true → ¬ (R.files ≠ 3 ∧ R.spin = 1) ∧ ¬ (R.files ≠ 1 ∧ R.spin = 0))

/-- Memory: `electronDens`, `mag`, the first point of the mixing history; `none` is an undefined value. -/
structure Mem where
  dens : ℕ → Option ℝ
  mag : ℕ → Option ℝ
  xk : ℕ → Option ℝ

/-- `read_cube_and_dist_vec` into `electronDens`, orbitalElecDensInit.c:85-95 and 132-136: `v c` is this
process's part of file `c`; writing beyond the array is an error. -/
def readGuess (R : Run) (v : ℕ → ℕ → ℝ) (M : Mem) : Option Mem :=
  loop (fun c M => loop (fun i M =>
    if i + c * R.nd < R.nd * R.cols then
      some { M with dens := Function.update M.dens (i + c * R.nd) (some (v c i)) }
    else none) 0 R.nd M) 0 R.files M

/-- `Update_mixing_hist_xk` for density mixing without spin or with collinear spin,
electronicGroundState.c:1258-1264 and 1272. -/
def histXk (R : Run) (M : Mem) : Mem :=
  { M with xk := fun p => if p < R.nd then M.dens p
      else if R.spin = 1 ∧ p < 2 * R.nd then M.mag (p - R.nd) else M.xk p }

end Sparc.Cube

import Verif.Loop
import Verif.FD.Model
import Verif.Coord.Model

/-!
# The finite-difference Laplacian on one process (model)

`/repo/src/lapVecRoutines.c`, `Calc_DX` of `/repo/src/gradVecRoutines.c` and the stencil
coefficients of `SPARC_copy_input` (`/repo/src/initialization.c`).

Simplifications.  `double` becomes `ℝ`, `int` becomes `ℤ` or `ℕ`.  A memory is a total function
from indices to reals with arbitrary initial contents; the arrays of one call are assumed not to
overlap.  One column (`ncol = 1`); for several columns the program calls the same kernels on
shifted pointers.  The copies `*_radius6` of the kernels are the same loops with `radius = 6`.
The halo exchange that fills `x_ex` is modelled separately (`Verif.Halo`); here `x_ex` is an
input.  The cyclix cell types (above 20) are left out.  `order` is even, so `order = 2*FDn`.
-/

namespace Sparc.Lap

open Loop

/-- A C array of doubles. -/
abbrev Mem := ℤ → ℝ

/-! ### Stencil coefficients -/

/-- The coefficient arrays of `SPARC_OBJ`. -/
structure Coefs where
  D1x : ℕ → ℝ
  D1y : ℕ → ℝ
  D1z : ℕ → ℝ
  D2x : ℕ → ℝ
  D2y : ℕ → ℝ
  D2z : ℕ → ℝ
  D2xy : ℕ → ℝ
  D2xz : ℕ → ℝ
  D2yz : ℕ → ℝ
  D1xy : ℕ → ℝ
  D1yx : ℕ → ℝ
  D1xz : ℕ → ℝ
  D1zx : ℕ → ℝ
  D1yz : ℕ → ℝ
  D1zy : ℕ → ℝ

/-- Coefficients of an oblique cell, initialization.c:2124-2133 and 2164-2177.  (Entry 0 of
`D1_stencil_coeffs_x/y/z` is never written by the program; it is never read either.) -/
noncomputable def coefs (T : ℕ → ℝ) (n : ℕ) (dx dy dz : ℝ) : Coefs where
  D1x p := FD.fdD1 n p * (1 / dx)
  D1y p := FD.fdD1 n p * (1 / dy)
  D1z p := FD.fdD1 n p * (1 / dz)
  D2x p := T 0 * FD.fdD2 n p * (1 / (dx * dx))
  D2y p := T 4 * FD.fdD2 n p * (1 / (dy * dy))
  D2z p := T 8 * FD.fdD2 n p * (1 / (dz * dz))
  D2xy p := 2 * T 1 * FD.fdD1 n p * (1 / dx)
  D2xz p := 2 * T 2 * FD.fdD1 n p * (1 / dx)
  D2yz p := 2 * T 5 * FD.fdD1 n p * (1 / dy)
  D1xy p := 2 * T 1 * FD.fdD1 n p * (1 / dy)
  D1yx p := 2 * T 1 * FD.fdD1 n p * (1 / dx)
  D1xz p := 2 * T 2 * FD.fdD1 n p * (1 / dz)
  D1zx p := 2 * T 2 * FD.fdD1 n p * (1 / dx)
  D1yz p := 2 * T 5 * FD.fdD1 n p * (1 / dz)
  D1zy p := 2 * T 5 * FD.fdD1 n p * (1 / dy)

/-- Coefficients of an orthogonal cell, initialization.c:2136-2147; the mixed ones are not
allocated. -/
noncomputable def coefs0 (n : ℕ) (dx dy dz : ℝ) : Coefs where
  D1x p := FD.fdD1 n p * (1 / dx)
  D1y p := FD.fdD1 n p * (1 / dy)
  D1z p := FD.fdD1 n p * (1 / dz)
  D2x p := FD.fdD2 n p * (1 / (dx * dx))
  D2y p := FD.fdD2 n p * (1 / (dy * dy))
  D2z p := FD.fdD2 n p * (1 / (dz * dz))
  D2xy _ := 0
  D2xz _ := 0
  D2yz _ := 0
  D1xy _ := 0
  D1yx _ := 0
  D1xz _ := 0
  D1zx _ := 0
  D1yz _ := 0
  D1zy _ := 0

/-- One pass of a compaction loop: `*Lap_stencil++ = c[p] * a` for the listed arrays. -/
def packOne (cs : List (ℕ → ℝ)) (a : ℝ) (s : (ℕ → ℝ) × ℕ) (p : ℕ) : (ℕ → ℝ) × ℕ :=
  cs.foldl (fun s c => (Function.update s.1 s.2 (c p * a), s.2 + 1)) s

/-- A compaction loop over `p = first .. FDn` writing from position `pos`. -/
def pack (cs : List (ℕ → ℝ)) (first FDn pos : ℕ) (a : ℝ) (m : ℕ → ℝ) : ℕ → ℝ :=
  ((List.range' first (FDn + 1 - first)).foldl (packOne cs a) (m, pos)).1

/-- The arrays interleaved by `Lap_stencil_coef_compact` (lapVecRoutines.c:1337-1423) for the
oblique cell types. -/
def packList (C : Coefs) (typ : ℕ) : List (ℕ → ℝ) :=
  if typ = 11 then [C.D2x, C.D2y, C.D2z, C.D2xy]
  else if typ = 12 then [C.D2x, C.D2y, C.D2z, C.D2xz]
  else if typ = 13 then [C.D2x, C.D2y, C.D2z, C.D2yz]
  else if typ = 14 then [C.D2x, C.D2y, C.D2z, C.D1x]
  else if typ = 15 then [C.D2x, C.D2y, C.D2z, C.D1z]
  else if typ = 16 then [C.D2x, C.D2y, C.D2z, C.D1y]
  else if typ = 17 then [C.D2x, C.D2y, C.D2z, C.D1x, C.D2yz]
  else []

/-- `Lap_wt` of `Lap_plus_diag_vec_mult_nonorth`: the compacted coefficients start at entry 5
(lapVecRoutines.c:992-994); the first five entries are not initialised. -/
def lapWt (C : Coefs) (typ FDn : ℕ) (a : ℝ) (m : ℕ → ℝ) : ℕ → ℝ :=
  pack (packList C typ) 1 FDn 5 a m

/-- `Lap_weights` of `Lap_plus_diag_vec_mult_orth`, lapVecRoutines.c:359-367. -/
def lapWeights (C : Coefs) (FDn : ℕ) (a : ℝ) (m : ℕ → ℝ) : ℕ → ℝ :=
  pack [C.D2x, C.D2y, C.D2z] 0 FDn 0 a m

/-! ### Kernels -/

/-- `Calc_DX`, gradVecRoutines.c:318-360 (and its copy for radius 6). -/
def calcDX (X DX : Mem) (radius : ℕ) (sX syX syD szX szD : ℤ) (xs xe ys ye zs ze : ℤ)
    (xX yX zX : ℤ) (coef : ℕ → ℝ) (c : ℝ) : Mem :=
  fill (box (xe - xs).toNat (ye - ys).toNat (ze - zs).toNat)
    (fun t => (zs + t.2.2) * szD + (ys + t.2.1) * syD + t.1 + xs)
    (fun t =>
      let q : ℤ := (zX + t.2.2) * szX + (yX + t.2.1) * syX + t.1 + xX
      (List.range' 1 radius).foldl (fun acc (r : ℕ) => acc + (X (q + r * sX) - X (q - r * sX)) * coef r)
        (X q * c))
    DX

/-- `Calc_DX1_DX2`, lapVecRoutines.c:1429-1473. -/
def calcDX12 (X DX : Mem) (radius : ℕ) (s1 s2 syX syD szX szD : ℤ) (xs xe ys ye zs ze : ℤ)
    (xX yX zX : ℤ) (coef1 coef2 : ℕ → ℝ) : Mem :=
  fill (box (xe - xs).toNat (ye - ys).toNat (ze - zs).toNat)
    (fun t => (zs + t.2.2) * szD + (ys + t.2.1) * syD + t.1 + xs)
    (fun t =>
      let q : ℤ := (zX + t.2.2) * szX + (yX + t.2.1) * syX + t.1 + xX
      let temp1 := (List.range' 1 radius).foldl
        (fun acc (r : ℕ) => acc + (X (q + r * s1) - X (q - r * s1)) * coef1 r) 0
      let temp2 := (List.range' 1 radius).foldl
        (fun acc (r : ℕ) => acc + (X (q + r * s2) - X (q - r * s2)) * coef2 r) 0
      temp1 + temp2)
    DX

/-- `stencil_3axis_thread_variable_radius`, lapVecRoutines.c:140-182 (and its copy for
radius 6). -/
def stencil3 (x0 : Mem) (radius : ℕ) (sy syE sz szE : ℤ) (xs xe ys ye zs ze : ℤ)
    (xE yE zE : ℤ) (coef : ℕ → ℝ) (coef0 b : ℝ) (v0 y : Mem) : Mem :=
  fill (box (xe - xs).toNat (ye - ys).toNat (ze - zs).toNat)
    (fun t => (zs + t.2.2) * sz + (ys + t.2.1) * sy + (xs + t.1))
    (fun t =>
      let o : ℤ := (zs + t.2.2) * sz + (ys + t.2.1) * sy + (xs + t.1)
      let q : ℤ := (zE + t.2.2) * szE + (yE + t.2.1) * syE + (xs + t.1 + (xE - xs))
      let res := (List.range' 1 radius).foldl (fun acc (r : ℕ) =>
        acc + ((x0 (q - r) + x0 (q + r)) * coef (3 * r)
          + (x0 (q - r * syE) + x0 (q + r * syE)) * coef (3 * r + 1)
          + (x0 (q - r * szE) + x0 (q + r * szE)) * coef (3 * r + 2))) (coef0 * x0 q)
      res + b * (v0 o * x0 q))
    y

/-- `stencil_4comp`, lapVecRoutines.c:1481-1534. -/
def stencil4 (X DX : Mem) (radius : ℕ) (sD sy1 syX syD sz1 szX szD : ℤ)
    (xs xe ys ye zs ze : ℤ) (xX yX zX xD yD zD : ℤ) (coef : ℕ → ℝ) (coef0 b : ℝ)
    (v0 X1 : Mem) : Mem :=
  fill (box (xe - xs).toNat (ye - ys).toNat (ze - zs).toNat)
    (fun t => (zs + t.2.2) * sz1 + (ys + t.2.1) * sy1 + t.1 + xs)
    (fun t =>
      let o : ℤ := (zs + t.2.2) * sz1 + (ys + t.2.1) * sy1 + t.1 + xs
      let q : ℤ := (zX + t.2.2) * szX + (yX + t.2.1) * syX + t.1 + xX
      let d : ℤ := (zD + t.2.2) * szD + (yD + t.2.1) * syD + t.1 + xD
      let res := (List.range' 1 radius).foldl (fun acc (r : ℕ) =>
        acc + ((X (q - r) + X (q + r)) * coef (4 * r + 1)
          + (X (q - r * syX) + X (q + r * syX)) * coef (4 * r + 1 + 1)
          + (X (q - r * szX) + X (q + r * szX)) * coef (4 * r + 1 + 2)
          + (DX (d + r * sD) - DX (d - r * sD)) * coef (4 * r + 1 + 3))) (coef0 * X q)
      res + b * (v0 o * X q))
    X1

/-- `stencil_5comp`, lapVecRoutines.c:1540-1602. -/
def stencil5 (X DX1 DX2 : Mem) (radius : ℕ) (sD1 sD2 sy1 syX syD1 syD2 sz1 szX szD1 szD2 : ℤ)
    (xs xe ys ye zs ze : ℤ) (xX yX zX xD1 yD1 zD1 xD2 yD2 zD2 : ℤ) (coef : ℕ → ℝ)
    (coef0 b : ℝ) (v0 X1 : Mem) : Mem :=
  fill (box (xe - xs).toNat (ye - ys).toNat (ze - zs).toNat)
    (fun t => (zs + t.2.2) * sz1 + (ys + t.2.1) * sy1 + t.1 + xs)
    (fun t =>
      let o : ℤ := (zs + t.2.2) * sz1 + (ys + t.2.1) * sy1 + t.1 + xs
      let q : ℤ := (zX + t.2.2) * szX + (yX + t.2.1) * syX + t.1 + xX
      let d1 : ℤ := (zD1 + t.2.2) * szD1 + (yD1 + t.2.1) * syD1 + t.1 + xD1
      let d2 : ℤ := (zD2 + t.2.2) * szD2 + (yD2 + t.2.1) * syD2 + t.1 + xD2
      let res := (List.range' 1 radius).foldl (fun acc (r : ℕ) =>
        acc + ((X (q - r) + X (q + r)) * coef (5 * r)
          + (X (q - r * syX) + X (q + r * syX)) * coef (5 * r + 1)
          + (X (q - r * szX) + X (q + r * szX)) * coef (5 * r + 2)
          + (DX1 (d1 + r * sD1) - DX1 (d1 - r * sD1)) * coef (5 * r + 3)
          + (DX2 (d2 + r * sD2) - DX2 (d2 - r * sD2)) * coef (5 * r + 4))) (coef0 * X q)
      res + b * (v0 o * X q))
    X1

/-! ### The two drivers, after the halo exchange -/

/-- `_v`: the potential, or `x` when it is not used (lapVecRoutines.c:322, 953). -/
noncomputable def effV (b : ℝ) (v : Option Mem) (x : Mem) : Mem :=
  if |b| < 1 / 10 ^ 14 then x else v.getD x

/-- `_b` (same lines). -/
noncomputable def effB (b : ℝ) (v : Option Mem) : ℝ :=
  if |b| < 1 / 10 ^ 14 ∨ v = none then 0 else b

/-- Arrays of one call: the block, its extended copy, the potential, and the previous contents
of the arrays that are written. -/
structure Args where
  DMnx : ℕ
  DMny : ℕ
  DMnz : ℕ
  FDn : ℕ
  a : ℝ
  b : ℝ
  c : ℝ
  v : Option Mem
  x : Mem
  /-- `x_ex` after the exchange -/
  xex : Mem
  /-- previous contents of `Dx1`, `Dx2`, `y` -/
  Dx1 : Mem
  Dx2 : Mem
  y : Mem
  /-- previous contents of `Lap_wt` -/
  wt : ℕ → ℝ

/-- Kernel part of `Lap_plus_diag_vec_mult_orth`, lapVecRoutines.c:370-373 and 584-591. -/
noncomputable def orth (C : Coefs) (A : Args) : Mem :=
  let order : ℤ := 2 * A.FDn
  let nx : ℤ := A.DMnx
  let ny : ℤ := A.DMny
  let nz : ℤ := A.DMnz
  let nxE := nx + order
  let nyE := ny + order
  let w := lapWeights C A.FDn A.a A.wt
  let diag := w 0 + w 1 + w 2 + A.c
  stencil3 A.xex A.FDn nx nxE (nx * ny) (nxE * nyE) 0 nx 0 ny 0 nz A.FDn A.FDn A.FDn w diag
    (effB A.b A.v) (effV A.b A.v A.x) A.y

/-- Kernel part of `Lap_plus_diag_vec_mult_nonorth`, lapVecRoutines.c:985-994 and 1210-1297.
For any other cell type `y` is not written. -/
noncomputable def nonorth (C : Coefs) (typ : ℕ) (A : Args) : Mem :=
  let order : ℤ := 2 * A.FDn
  let n : ℤ := A.FDn
  let nx : ℤ := A.DMnx
  let ny : ℤ := A.DMny
  let nz : ℤ := A.DMnz
  let nxE := nx + order
  let nyE := ny + order
  let nzE := nz + order
  let nxny := nx * ny
  let nxnyE := nxE * nyE
  let nxEny := nxE * ny
  let nxnyEx := nx * nyE
  let diag := (C.D2x 0 + C.D2y 0 + C.D2z 0) * A.a + A.c
  let w := lapWt C typ A.FDn A.a A.wt
  let b := effB A.b A.v
  let v := effV A.b A.v A.x
  if typ = 11 then
    let D := calcDX A.xex A.Dx1 A.FDn nxE nxE nxE nxnyE nxEny 0 nxE 0 ny 0 nz 0 n n C.D1y 0
    stencil4 A.xex D A.FDn 1 nx nxE nxE nxny nxnyE nxEny 0 nx 0 ny 0 nz n n n n 0 0 w diag b v A.y
  else if typ = 12 then
    let D := calcDX A.xex A.Dx1 A.FDn nxnyE nxE nxE nxnyE nxEny 0 nxE 0 ny 0 nz 0 n n C.D1z 0
    stencil4 A.xex D A.FDn 1 nx nxE nxE nxny nxnyE nxEny 0 nx 0 ny 0 nz n n n n 0 0 w diag b v A.y
  else if typ = 13 then
    let D := calcDX A.xex A.Dx1 A.FDn nxnyE nxE nx nxnyE nxnyEx 0 nx 0 nyE 0 nz n 0 n C.D1z 0
    stencil4 A.xex D A.FDn nx nx nxE nx nxny nxnyE nxnyEx 0 nx 0 ny 0 nz n n n 0 n 0 w diag b v A.y
  else if typ = 14 then
    let D := calcDX12 A.xex A.Dx1 A.FDn nxE nxnyE nxE nxE nxnyE nxEny 0 nxE 0 ny 0 nz 0 n n
      C.D1xy C.D1xz
    stencil4 A.xex D A.FDn 1 nx nxE nxE nxny nxnyE nxEny 0 nx 0 ny 0 nz n n n n 0 0 w diag b v A.y
  else if typ = 15 then
    let D := calcDX12 A.xex A.Dx1 A.FDn 1 nxE nxE nx nxnyE nxny 0 nx 0 ny 0 nzE n n 0
      C.D1zx C.D1zy
    stencil4 A.xex D A.FDn nxny nx nxE nx nxny nxnyE nxny 0 nx 0 ny 0 nz n n n 0 0 n w diag b v A.y
  else if typ = 16 then
    let D := calcDX12 A.xex A.Dx1 A.FDn 1 nxnyE nxE nx nxnyE nxnyEx 0 nx 0 nyE 0 nz n 0 n
      C.D1yx C.D1yz
    stencil4 A.xex D A.FDn nx nx nxE nx nxny nxnyE nxnyEx 0 nx 0 ny 0 nz n n n 0 n 0 w diag b v A.y
  else if typ = 17 then
    let D1 := calcDX12 A.xex A.Dx1 A.FDn nxE nxnyE nxE nxE nxnyE nxEny 0 nxE 0 ny 0 nz 0 n n
      C.D1xy C.D1xz
    let D2 := calcDX A.xex A.Dx2 A.FDn nxnyE nxE nx nxnyE nxnyEx 0 nx 0 nyE 0 nz n 0 n C.D1z 0
    stencil5 A.xex D1 D2 A.FDn 1 nx nx nxE nxE nx nxny nxnyE nxEny nxnyEx 0 nx 0 ny 0 nz
      n n n n 0 0 0 n 0 w diag b v A.y
  else A.y

end Sparc.Lap

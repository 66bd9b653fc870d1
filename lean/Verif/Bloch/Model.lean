import Verif.Halo.Model
import Mathlib.Analysis.SpecialFunctions.Trigonometric.Basic
import Mathlib.Analysis.Complex.Trigonometric

/-!
# The distributed Laplacian for complex orbitals at a k-point (model)

`/repo/src/lapVecRoutinesKpt.c`, `Calc_DX_kpt` of `/repo/src/gradVecRoutinesKpt.c` and
`is_grid_outside`, `grid_outside_region` of `/repo/src/tools.c`.

The exchange of messages is that of the real routines, with the same tables (lines 252-257,
363-368, 274-313 and, for oblique cells, `snd_rcv_buffer` and 662-718), so `Verif.Halo` is used for
it; what differs is the unpacking, which multiplies values from beyond the cell by a Bloch phase.
`double _Complex` becomes `ℂ`; otherwise the simplifications are those of `Verif.Halo` and
`Verif.Lap`.  The cyclix cell types are left out.
-/

namespace Sparc.Bloch

open Loop Lap Halo

/-- A C array of `double _Complex`. -/
abbrev MemK := ℤ → ℂ

/-- A k-point: `k1_loc[kpt]`, `k2_loc[kpt]`, `k3_loc[kpt]`, and the cell lengths `range_x`,
`range_y`, `range_z`. -/
structure KPoint where
  k : Fin 3 → ℝ
  len : Fin 3 → ℝ

/-! ### Which values get a phase -/

/-- `is_grid_outside`, tools.c:1077-1088, with all origin shifts equal to `-FDn`;
`DMVerts[0]`, `[2]`, `[4]` are the first points of the block. -/
def isOutside (L : Layout) (p : Proc) (i j k : ℤ) : Bool :=
  let ig := i + -(L.FDn : ℤ) + L.start p 0
  let jg := j + -(L.FDn : ℤ) + L.start p 1
  let kg := k + -(L.FDn : ℤ) + L.start p 2
  decide (ig < 0) || decide (ig ≥ L.N 0) || decide (jg < 0) || decide (jg ≥ L.N 1) ||
    decide (kg < 0) || decide (kg ≥ L.N 2)

/-- `(0 <= i) - (i < n)`, tools.c:1116-1118. -/
def sideInd (i : ℤ) (n : ℕ) : ℤ := (if 0 ≤ i then 1 else 0) - (if i < n then 1 else 0)

/-- `grid_outside_region`, tools.c:1109-1123, with all origin shifts equal to `-FDn`. -/
def outsideRegion (L : Layout) (p : Proc) (i j k : ℤ) : ℤ :=
  let ii := sideInd (i + -(L.FDn : ℤ) + L.start p 0) (L.N 0)
  let ji := sideInd (j + -(L.FDn : ℤ) + L.start p 1) (L.N 1)
  let ki := sideInd (k + -(L.FDn : ℤ) + L.start p 2) (L.N 2)
  let r := (ki + 1) * 9 + (ji + 1) * 3 + (ii + 1)
  if r = 13 then -1 else if r < 13 then r else r - 1

/-- `phase_fac_l_x` etc., lapVecRoutinesKpt.c:370-372. -/
noncomputable def phaseL (q : KPoint) (d : Fin 3) : ℂ :=
  (Real.cos (q.k d * q.len d) : ℂ) - (Real.sin (q.k d * q.len d) : ℂ) * Complex.I

/-- `phase_factors` of the orthogonal routine, lapVecRoutinesKpt.c:373-382. -/
noncomputable def phases6 (q : KPoint) : List ℂ :=
  [phaseL q 0, (starRingEnd ℂ) (phaseL q 0), phaseL q 1, (starRingEnd ℂ) (phaseL q 1),
    phaseL q 2, (starRingEnd ℂ) (phaseL q 2)]

/-- `calculate_phase_factor`, lapVecRoutinesKpt.c:549-555. -/
noncomputable def phaseFactor (k t : Fin 3 → ℝ) : ℂ :=
  let θ := k 0 * t 0 + k 1 * t 1 + k 2 * t 2
  (Real.cos θ : ℂ) + (Real.sin θ : ℂ) * Complex.I

/-- `phase_factors` of the oblique routine, lapVecRoutinesKpt.c:647-660. -/
noncomputable def phases26 (q : KPoint) : List ℂ :=
  ([-1, 0, 1] : List ℤ).flatMap fun (k : ℤ) => ([-1, 0, 1] : List ℤ).flatMap fun (j : ℤ) =>
    ([-1, 0, 1] : List ℤ).flatMap fun (i : ℤ) =>
      if i = 0 ∧ j = 0 ∧ k = 0 then []
      else [phaseFactor q.k ![i * q.len 0, j * q.len 1, k * q.len 2]]

/-! ### Filling the halo -/

/-- The places of `x_ex` written from `x_in`, in order, with what is done to the value received
there; `f s i j k` is applied to the value of slot `s` stored at `(i, j, k)`. -/
def unpackPlaces (L : Layout) (E : Exch) (p : Proc) (f : ℕ → ℤ → ℤ → ℤ → ℂ → ℂ) :
    List (ℤ × (ℂ → ℂ)) :=
  (List.range E.offs.length).flatMap fun s => (List.range L.ncol).flatMap fun n =>
    let R := E.recv (L.isize p) s
    R.cells.map fun t =>
      (exIdx (L.isize p) L.FDn n (R.lo 0 + t.1) (R.lo 1 + t.2.1) (R.lo 2 + t.2.2),
        f s (R.lo 0 + t.1) (R.lo 1 + t.2.1) (R.lo 2 + t.2.2))

/-- Unpacking with several processes. -/
noncomputable def haloManyK (L : Layout) (E : Exch) (f : ℕ → ℤ → ℤ → ℤ → ℂ → ℂ) (ldi : Proc → ℤ)
    (xs : Proc → MemK) (p : Proc) (m : MemK) : Option MemK := do
  let b ← xIn L E ldi xs p
  let places := unpackPlaces L E p f
  if b.length < places.length then none
  else some (fill (places.zip b) (fun w => w.1.1) (fun w => w.1.2 w.2)
    (copyIn L (ldi p) p (xs p) m))

/-- One slot with one process. -/
def copySlotK (L : Layout) (ldi : ℤ) (p : Proc) (src dst : Region) (f : ℤ → ℤ → ℤ → ℂ → ℂ)
    (x : MemK) (m : MemK) : MemK :=
  let D := L.isize p
  fill ((List.range L.ncol).flatMap fun n => src.cells.map fun t => (n, t))
    (fun w => exIdx D L.FDn w.1 (dst.lo 0 + w.2.1) (dst.lo 1 + w.2.2.1) (dst.lo 2 + w.2.2.2))
    (fun w => f (dst.lo 0 + w.2.1) (dst.lo 1 + w.2.2.1) (dst.lo 2 + w.2.2.2)
      (x (xIdx D ldi w.1 (src.lo 0 + w.2.1) (src.lo 1 + w.2.2.1) (src.lo 2 + w.2.2.2)))) m

/-- What the orthogonal routine does to a value of slot `s`, lapVecRoutinesKpt.c:408-417 and
453-462. -/
noncomputable def scale6 (L : Layout) (q : KPoint) (p : Proc) (s : ℕ) (i j k : ℤ) (v : ℂ) : ℂ :=
  if isOutside L p i j k then v * (phases6 q).getD s 0 else v

/-- `x_ex` of `Lap_plus_diag_vec_mult_orth_kpt`, lapVecRoutinesKpt.c:384-479; `m` is its
uninitialised contents. -/
noncomputable def xex6K (L : Layout) (q : KPoint) (ldi : Proc → ℤ) (xs : Proc → MemK) (p : Proc)
    (m : MemK) : Option MemK :=
  if L.dims 0 * L.dims 1 * L.dims 2 > 1 then haloManyK L (exch6 L) (scale6 L q p) ldi xs p m
  else
    let D := L.isize p
    some ((List.range 6).foldl (fun m s =>
      if L.per (Fin.ofNat 3 (s / 2)) then
        copySlotK L (ldi p) p (send6 D L.FDn ((s : ℤ) + (1 - 2 * (s % 2 : ℕ))).toNat)
          (recv6 D L.FDn s) (scale6 L q p s) (xs p) m
      else zeroSlot L p (recv6 D L.FDn s) m) (copyIn L (ldi p) p (xs p) m))

/-- What the oblique routine does to a value of slot `s` with several processes: the region is
found from the first point of the slot, lapVecRoutinesKpt.c:812-826. -/
noncomputable def scale26 (L : Layout) (q : KPoint) (p : Proc) (s : ℕ) (_ _ _ : ℤ) (v : ℂ) : ℂ :=
  let R := recv26 (L.isize p) L.FDn s
  let r := outsideRegion L p (R.lo 0) (R.lo 1) (R.lo 2)
  v * (if r ≥ 0 then (phases26 q).getD r.toNat 0 else 1)

/-- The same with one process, lapVecRoutinesKpt.c:846-859. -/
noncomputable def scaleOne26 (L : Layout) (q : KPoint) (p : Proc) (s : ℕ) (i j k : ℤ) (v : ℂ) : ℂ :=
  if isOutside L p i j k then v * (phases26 q).getD s 0 else v

/-- `x_ex` of `Lap_plus_diag_vec_mult_nonorth_kpt`, lapVecRoutinesKpt.c:794-866; it is allocated
with zeros (733). -/
noncomputable def xex26K (L : Layout) (q : KPoint) (ldi : Proc → ℤ) (xs : Proc → MemK) (p : Proc) :
    Option MemK :=
  if L.dims 0 * L.dims 1 * L.dims 2 > 1 then
    haloManyK L (exch26 L) (scale26 L q p) ldi xs p (fun _ => 0)
  else
    let D := L.isize p
    some ((List.range 26).foldl (fun m s =>
      if (isnonzero26 L.per).getD s false then
        copySlotK L (ldi p) p (one26 D L.FDn s) (recv26 D L.FDn s) (scaleOne26 L q p s) (xs p) m
      else m) (copyIn L (ldi p) p (xs p) (fun _ => 0)))

/-! ### Kernels -/

/-- `Calc_DX_kpt`, gradVecRoutinesKpt.c:347-388. -/
noncomputable def calcDXK (X DX : MemK) (radius : ℕ) (sX syX syD szX szD : ℤ)
    (xs xe ys ye zs ze : ℤ) (xX yX zX : ℤ) (coef : ℕ → ℝ) (c : ℝ) : MemK :=
  fill (box (xe - xs).toNat (ye - ys).toNat (ze - zs).toNat)
    (fun t => (zs + t.2.2) * szD + (ys + t.2.1) * syD + t.1 + xs)
    (fun t =>
      let q : ℤ := (zX + t.2.2) * szX + (yX + t.2.1) * syX + t.1 + xX
      (List.range' 1 radius).foldl
        (fun acc (r : ℕ) => acc + (X (q + r * sX) - X (q - r * sX)) * (coef r : ℂ))
        (X q * (c : ℂ)))
    DX

/-- `Calc_DX1_DX2_kpt`, lapVecRoutinesKpt.c:998-1043. -/
noncomputable def calcDX12K (X DX : MemK) (radius : ℕ) (s1 s2 syX syD szX szD : ℤ)
    (xs xe ys ye zs ze : ℤ) (xX yX zX : ℤ) (coef1 coef2 : ℕ → ℝ) : MemK :=
  fill (box (xe - xs).toNat (ye - ys).toNat (ze - zs).toNat)
    (fun t => (zs + t.2.2) * szD + (ys + t.2.1) * syD + t.1 + xs)
    (fun t =>
      let q : ℤ := (zX + t.2.2) * szX + (yX + t.2.1) * syX + t.1 + xX
      let temp1 := (List.range' 1 radius).foldl
        (fun acc (r : ℕ) => acc + (X (q + r * s1) - X (q - r * s1)) * (coef1 r : ℂ)) 0
      let temp2 := (List.range' 1 radius).foldl
        (fun acc (r : ℕ) => acc + (X (q + r * s2) - X (q - r * s2)) * (coef2 r : ℂ)) 0
      temp1 + temp2)
    DX

/-- `stencil_3axis_thread_complex_v2`, lapVecRoutinesKpt.c:120-164. -/
noncomputable def stencil3K (x0 : MemK) (radius : ℕ) (sy syE sz szE : ℤ) (xs xe ys ye zs ze : ℤ)
    (xE yE zE : ℤ) (coef : ℕ → ℝ) (coef0 b : ℝ) (v0 : Mem) (y : MemK) : MemK :=
  fill (box (xe - xs).toNat (ye - ys).toNat (ze - zs).toNat)
    (fun t => (zs + t.2.2) * sz + (ys + t.2.1) * sy + (xs + t.1))
    (fun t =>
      let o : ℤ := (zs + t.2.2) * sz + (ys + t.2.1) * sy + (xs + t.1)
      let q : ℤ := (zE + t.2.2) * szE + (yE + t.2.1) * syE + (xs + t.1 + (xE - xs))
      let res := (List.range' 1 radius).foldl (fun acc (r : ℕ) =>
        acc + ((x0 (q - r) + x0 (q + r)) * (coef (3 * r) : ℂ)
          + (x0 (q - r * syE) + x0 (q + r * syE)) * (coef (3 * r + 1) : ℂ)
          + (x0 (q - r * szE) + x0 (q + r * szE)) * (coef (3 * r + 2) : ℂ))) ((coef0 : ℂ) * x0 q)
      res + (b : ℂ) * ((v0 o : ℂ) * x0 q))
    y

/-- `stencil_4comp_kpt`, lapVecRoutinesKpt.c:1050-1104. -/
noncomputable def stencil4K (X DX : MemK) (radius : ℕ) (sD sy1 syX syD sz1 szX szD : ℤ)
    (xs xe ys ye zs ze : ℤ) (xX yX zX xD yD zD : ℤ) (coef : ℕ → ℝ) (coef0 b : ℝ)
    (v0 : Mem) (X1 : MemK) : MemK :=
  fill (box (xe - xs).toNat (ye - ys).toNat (ze - zs).toNat)
    (fun t => (zs + t.2.2) * sz1 + (ys + t.2.1) * sy1 + t.1 + xs)
    (fun t =>
      let o : ℤ := (zs + t.2.2) * sz1 + (ys + t.2.1) * sy1 + t.1 + xs
      let q : ℤ := (zX + t.2.2) * szX + (yX + t.2.1) * syX + t.1 + xX
      let d : ℤ := (zD + t.2.2) * szD + (yD + t.2.1) * syD + t.1 + xD
      let res := (List.range' 1 radius).foldl (fun acc (r : ℕ) =>
        acc + ((X (q - r) + X (q + r)) * (coef (4 * r + 1) : ℂ)
          + (X (q - r * syX) + X (q + r * syX)) * (coef (4 * r + 1 + 1) : ℂ)
          + (X (q - r * szX) + X (q + r * szX)) * (coef (4 * r + 1 + 2) : ℂ)
          + (DX (d + r * sD) - DX (d - r * sD)) * (coef (4 * r + 1 + 3) : ℂ))) ((coef0 : ℂ) * X q)
      res + (b : ℂ) * ((v0 o : ℂ) * X q))
    X1

/-- `stencil_5comp_kpt`, lapVecRoutinesKpt.c:1111-1172. -/
noncomputable def stencil5K (X DX1 DX2 : MemK) (radius : ℕ)
    (sD1 sD2 sy1 syX syD1 syD2 sz1 szX szD1 szD2 : ℤ)
    (xs xe ys ye zs ze : ℤ) (xX yX zX xD1 yD1 zD1 xD2 yD2 zD2 : ℤ) (coef : ℕ → ℝ)
    (coef0 b : ℝ) (v0 : Mem) (X1 : MemK) : MemK :=
  fill (box (xe - xs).toNat (ye - ys).toNat (ze - zs).toNat)
    (fun t => (zs + t.2.2) * sz1 + (ys + t.2.1) * sy1 + t.1 + xs)
    (fun t =>
      let o : ℤ := (zs + t.2.2) * sz1 + (ys + t.2.1) * sy1 + t.1 + xs
      let q : ℤ := (zX + t.2.2) * szX + (yX + t.2.1) * syX + t.1 + xX
      let d1 : ℤ := (zD1 + t.2.2) * szD1 + (yD1 + t.2.1) * syD1 + t.1 + xD1
      let d2 : ℤ := (zD2 + t.2.2) * szD2 + (yD2 + t.2.1) * syD2 + t.1 + xD2
      let res := (List.range' 1 radius).foldl (fun acc (r : ℕ) =>
        acc + ((X (q - r) + X (q + r)) * (coef (5 * r) : ℂ)
          + (X (q - r * syX) + X (q + r * syX)) * (coef (5 * r + 1) : ℂ)
          + (X (q - r * szX) + X (q + r * szX)) * (coef (5 * r + 2) : ℂ)
          + (DX1 (d1 + r * sD1) - DX1 (d1 - r * sD1)) * (coef (5 * r + 3) : ℂ)
          + (DX2 (d2 + r * sD2) - DX2 (d2 - r * sD2)) * (coef (5 * r + 4) : ℂ)))
        ((coef0 : ℂ) * X q)
      res + (b : ℂ) * ((v0 o : ℂ) * X q))
    X1

/-! ### The two routines -/

/-- Arguments that are the same on every process, and the local arrays. -/
structure CallK where
  a : ℝ
  b : ℝ
  c : ℝ
  v : Option (Proc → Mem)
  /-- leading dimension of `x` -/
  ldi : Proc → ℤ
  x : Proc → MemK
  /-- `(double *)x`, the values used for `v` when there is no potential
  (lapVecRoutinesKpt.c:195, 580) -/
  xd : Proc → Mem
  /-- previous contents of `x_ex`, `Dx1`, `Dx2`, `y` of the column, `Lap_wt` -/
  ex0 : MemK
  Dx1 : MemK
  Dx2 : MemK
  y : MemK
  wt : ℕ → ℝ

/-- `x_ex+n*DMnd_ex`. -/
def column (L : Layout) (p : Proc) (n : ℕ) (xex : MemK) : MemK := fun q =>
  xex (n * ((L.isize p 0 + 2 * L.FDn) * (L.isize p 1 + 2 * L.FDn) * (L.isize p 2 + 2 * L.FDn)) + q)

/-- Kernel part of `Lap_plus_diag_vec_mult_orth_kpt`, lapVecRoutinesKpt.c:235-249 and
487-493. -/
noncomputable def orthK (L : Layout) (C : Coefs) (Q : CallK) (p : Proc) (xex : MemK) : MemK :=
  let order : ℤ := 2 * L.FDn
  let nx : ℤ := L.size p 0
  let ny : ℤ := L.size p 1
  let nz : ℤ := L.size p 2
  let nxE := nx + order
  let nyE := ny + order
  let w := lapWeights C L.FDn Q.a Q.wt
  let diag := w 0 + w 1 + w 2 + Q.c
  stencil3K xex L.FDn nx nxE (nx * ny) (nxE * nyE) 0 nx 0 ny 0 nz L.FDn L.FDn L.FDn w diag
    (effB Q.b (Q.v.map (· p))) (effV Q.b (Q.v.map (· p)) (Q.xd p)) Q.y

/-- Kernel part of `Lap_plus_diag_vec_mult_nonorth_kpt`, lapVecRoutinesKpt.c:622-632 and
872-960.  For any other cell type `y` is not written. -/
noncomputable def nonorthK (L : Layout) (C : Coefs) (typ : ℕ) (Q : CallK) (p : Proc) (xex : MemK) :
    MemK :=
  let order : ℤ := 2 * L.FDn
  let n : ℤ := L.FDn
  let nx : ℤ := L.size p 0
  let ny : ℤ := L.size p 1
  let nz : ℤ := L.size p 2
  let nxE := nx + order
  let nyE := ny + order
  let nzE := nz + order
  let nxny := nx * ny
  let nxnyE := nxE * nyE
  let nxEny := nxE * ny
  let nxnyEx := nx * nyE
  let diag := (C.D2x 0 + C.D2y 0 + C.D2z 0) * Q.a + Q.c
  let w := lapWt C typ L.FDn Q.a Q.wt
  let b := effB Q.b (Q.v.map (· p))
  let v := effV Q.b (Q.v.map (· p)) (Q.xd p)
  if typ = 11 then
    let D := calcDXK xex Q.Dx1 L.FDn nxE nxE nxE nxnyE nxEny 0 nxE 0 ny 0 nz 0 n n C.D1y 0
    stencil4K xex D L.FDn 1 nx nxE nxE nxny nxnyE nxEny 0 nx 0 ny 0 nz n n n n 0 0 w diag b v Q.y
  else if typ = 12 then
    let D := calcDXK xex Q.Dx1 L.FDn nxnyE nxE nxE nxnyE nxEny 0 nxE 0 ny 0 nz 0 n n C.D1z 0
    stencil4K xex D L.FDn 1 nx nxE nxE nxny nxnyE nxEny 0 nx 0 ny 0 nz n n n n 0 0 w diag b v Q.y
  else if typ = 13 then
    let D := calcDXK xex Q.Dx1 L.FDn nxnyE nxE nx nxnyE nxnyEx 0 nx 0 nyE 0 nz n 0 n C.D1z 0
    stencil4K xex D L.FDn nx nx nxE nx nxny nxnyE nxnyEx 0 nx 0 ny 0 nz n n n 0 n 0 w diag b v Q.y
  else if typ = 14 then
    let D := calcDX12K xex Q.Dx1 L.FDn nxE nxnyE nxE nxE nxnyE nxEny 0 nxE 0 ny 0 nz 0 n n
      C.D1xy C.D1xz
    stencil4K xex D L.FDn 1 nx nxE nxE nxny nxnyE nxEny 0 nx 0 ny 0 nz n n n n 0 0 w diag b v Q.y
  else if typ = 15 then
    let D := calcDX12K xex Q.Dx1 L.FDn 1 nxE nxE nx nxnyE nxny 0 nx 0 ny 0 nzE n n 0
      C.D1zx C.D1zy
    stencil4K xex D L.FDn nxny nx nxE nx nxny nxnyE nxny 0 nx 0 ny 0 nz n n n 0 0 n w diag b v Q.y
  else if typ = 16 then
    let D := calcDX12K xex Q.Dx1 L.FDn 1 nxnyE nxE nx nxnyE nxnyEx 0 nx 0 nyE 0 nz n 0 n
      C.D1yx C.D1yz
    stencil4K xex D L.FDn nx nx nxE nx nxny nxnyE nxnyEx 0 nx 0 ny 0 nz n n n 0 n 0 w diag b v Q.y
  else if typ = 17 then
    let D1 := calcDX12K xex Q.Dx1 L.FDn nxE nxnyE nxE nxE nxnyE nxEny 0 nxE 0 ny 0 nz 0 n n
      C.D1xy C.D1xz
    let D2 := calcDXK xex Q.Dx2 L.FDn nxnyE nxE nx nxnyE nxnyEx 0 nx 0 nyE 0 nz n 0 n C.D1z 0
    stencil5K xex D1 D2 L.FDn 1 nx nx nxE nxE nx nxny nxnyE nxEny nxnyEx 0 nx 0 ny 0 nz
      n n n n 0 0 0 n 0 w diag b v Q.y
  else Q.y

/-- Column `n` of the result of `Lap_plus_diag_vec_mult_orth_kpt` on process `p`. -/
noncomputable def lapOrthK (L : Layout) (q : KPoint) (C : Coefs) (Q : CallK) (p : Proc) (n : ℕ) :
    Option MemK :=
  (xex6K L q Q.ldi Q.x p Q.ex0).map fun xex => orthK L C Q p (column L p n xex)

/-- Column `n` of the result of `Lap_plus_diag_vec_mult_nonorth_kpt` on process `p`. -/
noncomputable def lapNonorthK (L : Layout) (q : KPoint) (C : Coefs) (typ : ℕ) (Q : CallK) (p : Proc)
    (n : ℕ) : Option MemK :=
  (xex26K L q Q.ldi Q.x p).map fun xex => nonorthK L C typ Q p (column L p n xex)

end Sparc.Bloch

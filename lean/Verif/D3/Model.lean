import Verif.Tac
import Mathlib.Analysis.SpecialFunctions.Pow.Real
import Mathlib.Analysis.SpecialFunctions.Sqrt

/-!
# The DFT-D3 dispersion correction

Model of `src/xc/vdW/d3/d3correction.c` (all of it), of the loop of `copyC6`
(`d3copyC6.c` 64819-64833) which fills the table of reference coefficients, and of `d3forceStress.c`.

Simplifications: `double` is `ℝ`; `pow` with an integral exponent is the natural power; the tables
(`find_r0ab`, `atomScaledR2R4`, `atomScaledRcov`, `c6ab`, `inputMaxci`) are parameters, looked up by
atom instead of by atomic number; nested loops are folds over the list of the index tuples in loop
order; `selfAtomC6` (257-265), which is never read, is left out; the change between lattice
coordinates and Cartesian ones (250-253, 612-615) is left out: positions here are Cartesian.
-/

namespace Sparc.D3

open Classical

/-- An image cell, `(imageX, imageY, imageZ)`. -/
abbrev Img := ℤ × ℤ × ℤ

/-- What the correction reads. -/
structure Inp where
  /-- `n_atom` -/
  natom : ℕ
  /-- `atom_pos`, in Cartesian coordinates -/
  pos : ℕ → Fin 3 → ℝ
  /-- `lattice[3*row + col]` -/
  lat : Fin 3 → Fin 3 → ℝ
  /-- `nImageEG` -/
  nEG : Fin 3 → ℤ
  /-- `nImageCN` -/
  nCN : Fin 3 → ℤ
  /-- `atomScaledRcov` -/
  rcov : ℕ → ℝ
  /-- `atomScaledR2R4` -/
  r2r4 : ℕ → ℝ
  /-- `find_r0ab(atomicNumbers[i], atomicNumbers[j])` -/
  r0 : ℕ → ℕ → ℝ
  /-- `atomMaxci` -/
  maxci : ℕ → ℕ
  /-- `c6ab[atomicNumbers[i]][atomicNumbers[j]][sampleI][sampleJ][0]` -/
  c6v : ℕ → ℕ → ℕ → ℕ → ℝ
  /-- `c6ab[…][1]` -/
  c6i : ℕ → ℕ → ℕ → ℕ → ℝ
  /-- `c6ab[…][2]` -/
  c6j : ℕ → ℕ → ℕ → ℕ → ℝ
  /-- `d3Cn_thr` -/
  cnThr : ℝ
  /-- `d3Rthr` -/
  rThr : ℝ
  /-- `d3S18` -/
  s8 : ℝ
  /-- `d3Rs6` -/
  rs6 : ℝ

/-- A row of the two tables of `copyC6`: the atomic numbers and sample numbers of the two atoms
(`index[row*2] % 100`, `/ 100`, d3copyC6.c 64821-64826), the coefficient and the two coordination numbers
(`data[row*3 + 0..2]`). -/
structure Row where
  iat : ℕ
  jat : ℕ
  iadr : ℕ
  jadr : ℕ
  c6 : ℝ
  cn1 : ℝ
  cn2 : ℝ

/-- `c6ab[a][b][s][u] = (v0, v1, v2)`. -/
def setC6 (t : ℕ → ℕ → ℕ → ℕ → ℝ × ℝ × ℝ) (a b s u : ℕ) (v : ℝ × ℝ × ℝ) : ℕ → ℕ → ℕ → ℕ → ℝ × ℝ × ℝ :=
  fun a' b' s' u' => if a' = a ∧ b' = b ∧ s' = s ∧ u' = u then v else t a' b' s' u'

/-- The loop of `copyC6`, d3copyC6.c 64819-64833, over the rows of the table, from the zeroed array. -/
noncomputable def copyC6 (rows : List Row) : ℕ → ℕ → ℕ → ℕ → ℝ × ℝ × ℝ :=
  rows.foldl (fun t r =>
    setC6 (setC6 t r.iat r.jat r.iadr r.jadr (r.c6, r.cn1, r.cn2)) r.jat r.iat r.jadr r.iadr (r.c6, r.cn2, r.cn1))
    (fun _ _ _ _ => (0, 0, 0))

/-- `solve_cos`, d3correction.c 46-54: the component of the first vector along the normal of the plane of the
other two. -/
noncomputable def solveCos (F S T : Fin 3 → ℝ) : ℝ :=
  let c0 := S 1 * T 2 - T 1 * S 2
  let c1 := S 2 * T 0 - T 2 * S 0
  let c2 := S 0 * T 1 - T 0 * S 1
  let norm := Real.sqrt (c0 ^ 2 + c1 ^ 2 + c2 ^ 2)
  (F 0 * c0 + F 1 * c1 + F 2 * c2) / norm

/-- `d3_set_criteria`, d3correction.c 30-44. -/
noncomputable def setCriteria (rLimit : ℝ) (periodic : Fin 3 → Bool) (lat : Fin 3 → Fin 3 → ℝ) : Fin 3 → ℤ :=
  fun row =>
    if periodic row then
      ⌊Real.sqrt rLimit /
        (match row with
          | 0 => solveCos (lat 0) (lat 1) (lat 2)
          | 1 => solveCos (lat 1) (lat 2) (lat 0)
          | 2 => solveCos (lat 2) (lat 0) (lat 1))⌋ + 1
    else 0

/-- The triple loop `for (x = lo0; x < hi0 + 1; x++) for (y …) for (z …)`, d3correction.c 61-63, 286-288, 363-365
and 406-408. -/
def imgs (lo hi : Fin 3 → ℤ) : List Img :=
  (List.range (hi 0 + 1 - lo 0).toNat).flatMap fun (x : ℕ) =>
    (List.range (hi 1 + 1 - lo 1).toNat).flatMap fun (y : ℕ) =>
      (List.range (hi 2 + 1 - lo 2).toNat).map fun (z : ℕ) =>
        (lo 0 + x, lo 1 + y, lo 2 + z)

/-- The cells `-n ≤ x ≤ n` in loop order. -/
def cells (n : Fin 3 → ℤ) : List Img := imgs (fun d => -n d) n

/-- `imageVec[imageIndex*3 + d]`, d3correction.c 64-66, 289-291, 366-368 and 409-411. -/
def Inp.imageVec (I : Inp) (T : Img) (d : Fin 3) : ℝ :=
  T.1 * I.lat 0 d + T.2.1 * I.lat 1 d + T.2.2 * I.lat 2 d

/-- `d3_count_image`, d3correction.c 642-645. -/
def countImage (T : Img) (n : Fin 3 → ℤ) : ℤ :=
  (T.1 + n 0) * (2 * n 1 + 1) * (2 * n 2 + 1) + (T.2.1 + n 1) * (2 * n 2 + 1) + (T.2.2 + n 2)

/-- The square of the distance in `d3_CN` (81-84) and in the pair loop (318-320). -/
def Inp.distA (I : Inp) (i j : ℕ) (T : Img) : ℝ :=
  (I.pos i 0 - I.pos j 0 - I.imageVec T 0) ^ 2 + (I.pos i 1 - I.pos j 1 - I.imageVec T 1) ^ 2
    + (I.pos i 2 - I.pos j 2 - I.imageVec T 2) ^ 2

/-- `ijVec + imageVec`, d3correction.c 384-386 with 389-391, and `ijImageVecs`, 557-561. -/
def Inp.ijVec (I : Inp) (i j : ℕ) (T : Img) (d : Fin 3) : ℝ :=
  I.pos j d - I.pos i d + I.imageVec T d

/-- `ijDist2`, `ikDist2` (389-391, 430-432) and `iDist2` of the last loop (563). -/
def Inp.distB (I : Inp) (i j : ℕ) (T : Img) : ℝ :=
  I.ijVec i j T 0 ^ 2 + I.ijVec i j T 1 ^ 2 + I.ijVec i j T 2 ^ 2

/-- `jkDist2`, d3correction.c 423-425 and 434-436. -/
def Inp.distJK (I : Inp) (j k : ℕ) (Tij Tik : Img) : ℝ :=
  (I.pos k 0 - I.pos j 0 - I.imageVec Tij 0 + I.imageVec Tik 0) ^ 2
    + (I.pos k 1 - I.pos j 1 - I.imageVec Tij 1 + I.imageVec Tik 1) ^ 2
    + (I.pos k 2 - I.pos j 2 - I.imageVec Tij 2 + I.imageVec Tik 2) ^ 2

/-- `K1`, d3correction.c 217. -/
def K1 : ℝ := 16

/-- `K3`, d3correction.c 218. -/
def K3 : ℝ := -4

/-- `atomCN[i]`, `d3_CN`, d3correction.c 56-93. -/
noncomputable def Inp.CN (I : Inp) (i : ℕ) : ℝ :=
  ((List.range I.natom).flatMap fun j => (cells I.nCN).map fun T => (j, T)).foldl
    (fun s (p : ℕ × Img) =>
      let dist := Real.sqrt (I.distA i p.1 p.2)
      if dist < Real.sqrt I.cnThr ∧ dist > 1e-10 then
        let rr := (I.rcov i + I.rcov p.1) / dist
        s + 1 / (1 + Real.exp (-K1 * (rr - 1)))
      else s) 0

/-- The running values of the loop of `d3_comp_dC6_dCNij`, d3correction.c 129-136. -/
structure C6Acc where
  c6mem : ℝ
  weightSum : ℝ
  c6termSum : ℝ
  rSave : ℝ
  dC6termSumI : ℝ
  dWeightSumI : ℝ
  dC6termSumJ : ℝ
  dWeightSumJ : ℝ

/-- Body of the loop of `d3_comp_dC6_dCNij`, d3correction.c 144-167, with `cni`, `cnj` for `CN[atomI]`,
`CN[atomJ]`. -/
noncomputable def Inp.c6Step (I : Inp) (cni cnj : ℝ) (i j : ℕ) (a : C6Acc) (s : ℕ × ℕ) : C6Acc :=
  let c6 := I.c6v i j s.1 s.2
  if c6 > 0 then
    let CNri := I.c6i i j s.1 s.2
    let CNrj := I.c6j i j s.1 s.2
    let r := (CNri - cni) ^ 2 + (CNrj - cnj) ^ 2
    let weight := Real.exp (K3 * r)
    let dWeightI := weight * 2 * K3 * (cni - CNri)
    let dWeightJ := weight * 2 * K3 * (cnj - CNrj)
    { c6mem := if r - a.rSave < 0 then c6 else a.c6mem
      rSave := if r - a.rSave < 0 then r else a.rSave
      weightSum := a.weightSum + weight
      c6termSum := a.c6termSum + weight * c6
      dC6termSumI := a.dC6termSumI + dWeightI * c6
      dWeightSumI := a.dWeightSumI + dWeightI
      dC6termSumJ := a.dC6termSumJ + dWeightJ * c6
      dWeightSumJ := a.dWeightSumJ + dWeightJ }
  else a

/-- The sums at the end of the double loop over the reference values, d3correction.c 141-169. -/
noncomputable def Inp.c6Acc (I : Inp) (cni cnj : ℝ) (i j : ℕ) : C6Acc :=
  ((List.range (I.maxci i)).flatMap fun (s : ℕ) => (List.range (I.maxci j)).map fun (u : ℕ) => (s, u)).foldl
    (I.c6Step cni cnj i j) ⟨-1e-20, 0, 0, 1e20, 0, 0, 0, 0⟩

/-- `C6dC6pairIJ`, d3correction.c 170-183. -/
noncomputable def Inp.c6At (I : Inp) (cni cnj : ℝ) (i j : ℕ) : ℝ × ℝ × ℝ :=
  let a := I.c6Acc cni cnj i j
  if a.weightSum > 1e-99 then
    (a.c6termSum / a.weightSum,
      (a.dC6termSumI * a.weightSum - a.dWeightSumI * a.c6termSum) / a.weightSum ^ 2,
      (a.dC6termSumJ * a.weightSum - a.dWeightSumJ * a.c6termSum) / a.weightSum ^ 2)
  else (a.c6mem, 0, 0)

/-- The call at d3correction.c 302. -/
noncomputable def Inp.pair (I : Inp) (i j : ℕ) : ℝ × ℝ × ℝ := I.c6At (I.CN i) (I.CN j) i j

/-- `sqrtC6matrix[i*natom + j]` as filled in d3correction.c 305-314. -/
noncomputable def Inp.sqrtC6 (I : Inp) (i j : ℕ) : ℝ :=
  if j ≤ i then Real.sqrt (I.pair i j).1 else Real.sqrt (I.pair j i).1

/-- `dC6ij[i*natom + j]` as filled in d3correction.c 305-314. -/
noncomputable def Inp.dC6ij (I : Inp) (i j : ℕ) : ℝ :=
  if i = j then (I.pair i i).2.1
  else if j < i then (I.pair i j).2.1 else (I.pair j i).2.2

/-- `drij[imageIndex][i][j]`; the first index is an integer as `d3_count_image` returns one. -/
abbrev Drij := ℤ → ℕ → ℕ → ℝ

/-- `drij[m][i][j] += x`. -/
def Drij.add (D : Drij) (m : ℤ) (i j : ℕ) (x : ℝ) : Drij :=
  fun a b c => if a = m ∧ b = i ∧ c = j then D a b c + x else D a b c

/-- `drij[m][j][i] = drij[m][i][j]`. -/
def Drij.mirror (D : Drij) (m : ℤ) (i j : ℕ) : Drij :=
  fun a b c => if a = m ∧ b = j ∧ c = i then D m i j else D a b c

/-- `F[i] += x`. -/
def addF (F : ℕ → ℝ) (i : ℕ) (x : ℝ) : ℕ → ℝ := fun a => if a = i then F a + x else F a

/-- What the two energy loops accumulate. -/
structure Acc where
  drij : Drij
  F : ℕ → ℝ
  e6 : ℝ
  e8 : ℝ
  e63 : ℝ

/-- The index tuples of the pair loop, d3correction.c 300-317, with the position of the cell in `imageVecEG`. -/
def Inp.slots2 (I : Inp) : List (ℕ × ℕ × Img × ℕ) :=
  (List.range I.natom).flatMap fun (i : ℕ) =>
    (List.range (i + 1)).flatMap fun (j : ℕ) =>
      (cells I.nEG).zipIdx.map fun (T, m) => (i, j, T, m)

/-- Body of the pair loop, d3correction.c 318-353. -/
noncomputable def Inp.step2 (I : Inp) (a : Acc) (s : ℕ × ℕ × Img × ℕ) : Acc :=
  let i := s.1
  let j := s.2.1
  let T := s.2.2.1
  let m : ℤ := s.2.2.2
  let c6 := (I.pair i j).1
  let mulR2R4 := I.r2r4 i * I.r2r4 j
  let iDist2 := I.distA i j T
  if iDist2 > I.rThr ∨ iDist2 < 1e-15 then a
  else
    let iDist := Real.sqrt iDist2
    let iDist6 := iDist2 ^ 3
    let iDist7 := iDist6 * iDist
    let iDist8 := iDist6 * iDist2
    let iDist9 := iDist8 * iDist
    let rr := I.r0 i j / iDist
    let t6 := (I.rs6 * rr) ^ 14
    let t8 := (1 * rr) ^ 16
    let damp6 := 1 / (1 + 6 * t6)
    let damp8 := 1 / (1 + 6 * t8)
    let de6dr := 1 * 6 * damp6 * c6 / iDist7
    let de8dr := I.s8 * 6 * c6 * mulR2R4 * damp8 / iDist9
    if i = j then
      let FdivR6 := (1 / iDist6 * damp6 + 3 * I.s8 * mulR2R4 / iDist8 * damp8) / 2
      { drij := (a.drij.add m i j (-((de6dr + 4 * de8dr) / 2))).add m i j
          ((de6dr * 14 * t6 * damp6 + 3 * de8dr * 16 * t8 * damp8) / 2)
        e6 := a.e6 - 1 / iDist6 * damp6 * c6 / 2
        e8 := a.e8 - 3 * I.s8 * mulR2R4 / iDist8 * damp8 * c6 / 2
        F := addF a.F i (FdivR6 * ((I.pair i j).2.1 + (I.pair i j).2.2))
        e63 := a.e63 }
    else
      let FdivR6 := 1 / iDist6 * damp6 + 3 * I.s8 * mulR2R4 / iDist8 * damp8
      { drij := ((a.drij.add m i j (-(de6dr + 4 * de8dr))).add m i j
          (de6dr * 14 * t6 * damp6 + 3 * de8dr * 16 * t8 * damp8)).mirror m i j
        e6 := a.e6 - 1 / iDist6 * damp6 * c6
        e8 := a.e8 - 3 * I.s8 * mulR2R4 / iDist8 * damp8 * c6
        F := addF (addF a.F i (FdivR6 * (I.pair i j).2.1)) j (FdivR6 * (I.pair i j).2.2)
        e63 := a.e63 }

/-- `scopeImageIK`, d3correction.c 395-400. -/
def scopeLo (n : Fin 3 → ℤ) (T : Img) : Fin 3 → ℤ :=
  ![max (-n 0) (T.1 - n 0), max (-n 1) (T.2.1 - n 1), max (-n 2) (T.2.2 - n 2)]

/-- `scopeImageIK`, d3correction.c 395-400. -/
def scopeHi (n : Fin 3 → ℤ) (T : Img) : Fin 3 → ℤ :=
  ![min (n 0) (T.1 + n 0), min (n 1) (T.2.1 + n 1), min (n 2) (T.2.2 + n 2)]

/-- The index tuples `(i, j, Tij, k, Tik)` of the loop over triples, d3correction.c 382-429. -/
def Inp.slots3 (I : Inp) : List (ℕ × ℕ × Img × ℕ × Img) :=
  (List.range I.natom).flatMap fun (i : ℕ) =>
    (List.range (i + 1)).flatMap fun (j : ℕ) =>
      (cells I.nCN).flatMap fun (T : Img) =>
        (List.range (j + 1)).flatMap fun (k : ℕ) =>
          (imgs (scopeLo I.nCN T) (scopeHi I.nCN T)).map fun (U : Img) => (i, j, T, k, U)

/-- `d3_dAng`, d3correction.c 634-640. -/
noncomputable def dAng (ab bc ac t : ℝ) : ℝ :=
  -0.375 * (ab * ab * ab + ab * ab * (bc + ac) + ab * (3 * bc * bc + 2 * bc * ac + 3 * ac * ac)
    - 5 * (bc - ac) * (bc - ac) * (bc + ac)) / (Real.sqrt ab * t ^ (2.5 : ℝ))

/-- Body of the loop over triples, d3correction.c 389-523; the factor `1/6`, `1/2` or `1` of the three branches
is `w`. -/
noncomputable def Inp.step3 (I : Inp) (a : Acc) (s : ℕ × ℕ × Img × ℕ × Img) : Acc :=
  let i := s.1
  let j := s.2.1
  let T := s.2.2.1
  let k := s.2.2.2.1
  let U := s.2.2.2.2
  let ijDist2 := I.distB i j T
  let ijDist := Real.sqrt ijDist2
  if ijDist2 > I.cnThr ∨ ijDist2 < 1e-15 then a
  else
    let rr0ij := ijDist / I.r0 i j
    let c9 := I.sqrtC6 i j * I.sqrtC6 i k * I.sqrtC6 j k
    let ikDist2 := I.distB i k U
    let ikDist := Real.sqrt ikDist2
    let jkDist2 := I.distJK j k T U
    let jkDist := Real.sqrt jkDist2
    if ikDist2 > I.cnThr ∨ ikDist2 < 1e-15 then a
    else if jkDist2 > I.cnThr ∨ jkDist2 < 1e-15 then a
    else
      let rr0ik := ikDist / I.r0 i k
      let rr0jk := jkDist / I.r0 j k
      let geoMean := (rr0ij * rr0ik * rr0jk) ^ ((1 : ℝ) / 3)
      let damp3 := 1 / (1 + 6 * (4 / 3 / geoMean) ^ 16)
      let t1 := ijDist2 + jkDist2 - ikDist2
      let t2 := ijDist2 + ikDist2 - jkDist2
      let t3 := ikDist2 + jkDist2 - ijDist2
      let tDenomin := ijDist2 * jkDist2 * ikDist2
      let ang := (0.375 * t1 * t2 * t3 / tDenomin + 1) / tDenomin ^ (1.5 : ℝ)
      let w : ℝ := if i = j ∧ i = k then 1 / 6 else if i = j ∨ j = k then 1 / 2 else 1
      let dFdamp := -2 * 16 * (4 / 3 / geoMean) ^ 16 * damp3 ^ 2
      let dAngIJ := dAng ijDist2 jkDist2 ikDist2 tDenomin
      let mIJ := countImage T I.nEG
      let dAngJK := dAng jkDist2 ikDist2 ijDist2 tDenomin
      let mJK := countImage (U.1 - T.1, U.2.1 - T.2.1, U.2.2 - T.2.2) I.nEG
      let dAngIK := dAng ikDist2 jkDist2 ijDist2 tDenomin
      let mIK := countImage U I.nEG
      let dC9i := -0.5 * c9 * (I.dC6ij i j / (I.sqrtC6 i j * I.sqrtC6 i j)
        + I.dC6ij i k / (I.sqrtC6 i k * I.sqrtC6 i k))
      let dC9j := -0.5 * c9 * (I.dC6ij j i / (I.sqrtC6 i j * I.sqrtC6 i j)
        + I.dC6ij j k / (I.sqrtC6 j k * I.sqrtC6 j k))
      let dC9k := -0.5 * c9 * (I.dC6ij k i / (I.sqrtC6 i k * I.sqrtC6 i k)
        + I.dC6ij k j / (I.sqrtC6 j k * I.sqrtC6 j k))
      let D1 := (a.drij.add mIJ i j (dFdamp / ijDist * c9 * ang * w)).add mIJ i j (-(dAngIJ * c9 * damp3 * w))
      let D1' := if i = j ∧ i = k then D1 else D1.mirror mIJ i j
      let D2 := (D1'.add mJK j k (dFdamp / jkDist * c9 * ang * w)).add mJK j k (-(dAngJK * c9 * damp3 * w))
      let D3 := (D2.add mIK i k (dFdamp / ikDist * c9 * ang * w)).add mIK i k (-(dAngIK * c9 * damp3 * w))
      let D3' := if i = j ∧ i = k then D3 else D3.mirror mIK i k
      let FdivR6 := ang * damp3 * w
      { drij := D3'
        F := addF (addF (addF a.F i (FdivR6 * dC9i)) j (FdivR6 * dC9j)) k (FdivR6 * dC9k)
        e6 := a.e6
        e8 := a.e8
        e63 := a.e63 - damp3 * c9 * ang * w }

/-- The two loops, d3correction.c 300-531. -/
noncomputable def Inp.acc (I : Inp) : Acc :=
  I.slots3.foldl I.step3 (I.slots2.foldl I.step2 ⟨fun _ _ _ => 0, fun _ => 0, 0, 0, 0⟩)

/-- `d3Energy[0]`, d3correction.c 532-533. -/
noncomputable def Inp.energy (I : Inp) : ℝ := I.acc.e6 + I.acc.e8 - I.acc.e63

/-- What the last loop accumulates: `d3Grads` and `d3Sigma`. -/
structure Out where
  grads : ℕ → Fin 3 → ℝ
  sigma : Fin 3 → Fin 3 → ℝ

/-- `dCN` of the last loop, d3correction.c 562-577. -/
noncomputable def Inp.dCN (I : Inp) (i j : ℕ) (T : Img) : ℝ :=
  let rcovij := I.rcov i + I.rcov j
  let iDist2 := I.distB i j T
  let iDist := Real.sqrt iDist2
  if iDist2 < I.cnThr ∧ iDist2 > 1e-15 then
    let expterm := Real.exp (-K1 * (rcovij / iDist - 1));
    -K1 * rcovij * expterm / (iDist * (expterm + 1)) ^ 2
  else 0

/-- `xi`, d3correction.c 579-584. -/
noncomputable def Inp.xi (I : Inp) (a : Acc) (i j : ℕ) (T : Img) (m : ℤ) : ℝ :=
  if i ≠ j then a.drij m i j + I.dCN i j T * (a.F i + a.F j)
  else a.drij m i j + I.dCN i j T * a.F i

/-- Body of the last loop, d3correction.c 559-597.  `gi` (553, 589, 599) is added to `d3Grads` as it grows: no
other statement of the inner loops reads or writes `d3Grads[i]` since `j < i` in line 590. -/
noncomputable def Inp.stepOut (I : Inp) (a : Acc) (o : Out) (s : ℕ × ℕ × Img × ℕ) : Out :=
  let i := s.1
  let j := s.2.1
  let T := s.2.2.1
  let m : ℤ := s.2.2.2
  let iDist2 := I.distB i j T
  if (i ≠ j ∧ (iDist2 > I.rThr ∨ iDist2 < 0.5)) ∨ (i = j ∧ iDist2 < 1e-15) then o
  else
    let iDist := Real.sqrt iDist2
    let vec : Fin 3 → ℝ := fun d => I.xi a i j T m * I.ijVec i j T d / iDist
    { grads :=
        if i ≠ j then (fun b d =>
          if b = i then o.grads b d + vec d else if b = j then o.grads b d - vec d else o.grads b d)
        else o.grads
      sigma := fun r c => o.sigma r c + vec r * I.ijVec i j T c }

/-- The last loop, d3correction.c 552-600. -/
noncomputable def Inp.out (I : Inp) : Out :=
  I.slots2.foldl (I.stepOut I.acc) ⟨fun _ _ => 0, fun _ _ => 0⟩

/-- `add_d3_forces`, d3forceStress.c 100-104. -/
noncomputable def Inp.addForces (I : Inp) (forces : ℕ → Fin 3 → ℝ) : ℕ → Fin 3 → ℝ :=
  fun b d => forces b d - I.out.grads b d

/-- `detLattice`, d3forceStress.c 25-34: the six permutations with their signs. -/
def Inp.detLattice (I : Inp) : ℝ :=
  I.lat 0 0 * I.lat 1 1 * I.lat 2 2 - I.lat 0 0 * I.lat 2 1 * I.lat 1 2
    - I.lat 1 0 * I.lat 0 1 * I.lat 2 2 + I.lat 1 0 * I.lat 2 1 * I.lat 0 2
    + I.lat 2 0 * I.lat 0 1 * I.lat 1 2 - I.lat 2 0 * I.lat 1 1 * I.lat 0 2

/-- `d3Stress`, d3forceStress.c 68-75. -/
noncomputable def Inp.stress (I : Inp) (r c : Fin 3) : ℝ := -I.out.sigma r c / I.detLattice

/-- The six entries added to `stress_xc`, d3forceStress.c 85-91, in the order of `stress_xc`. -/
noncomputable def Inp.stressXc (I : Inp) : Fin 6 → ℝ :=
  ![I.stress 0 0, I.stress 0 1, I.stress 0 2, I.stress 1 1, I.stress 1 2, I.stress 2 2]

/-- What is added to `pres_xc` when only the pressure is asked for, d3forceStress.c 94-96. -/
noncomputable def Inp.presXc (I : Inp) : ℝ := (I.stress 0 0 + I.stress 1 1 + I.stress 2 2) * I.detLattice

/-- The rows of the lattice from the unit vectors and the lengths, d3correction.c 226-230. -/
def latOf (U : Fin 3 → Fin 3 → ℝ) (cell : Fin 3 → ℝ) : Fin 3 → Fin 3 → ℝ := fun r c => U r c * cell r

/-- `Jacbdet`, initialization.c 3544-3552: the six permutations with their signs. -/
def jacbdet (U : Fin 3 → Fin 3 → ℝ) : ℝ :=
  U 0 0 * U 1 1 * U 2 2 - U 0 0 * U 2 1 * U 1 2 - U 1 0 * U 0 1 * U 2 2 + U 1 0 * U 2 1 * U 0 2
    + U 2 0 * U 0 1 * U 1 2 - U 2 0 * U 1 1 * U 0 2

/-- `cell_measure`, stress.c 585-591, by which every other part of the stress is divided. -/
def cellMeasure (U : Fin 3 → Fin 3 → ℝ) (cell : Fin 3 → ℝ) (periodic : Fin 3 → Bool) : ℝ :=
  let m0 := jacbdet U
  let m1 := if periodic 0 then m0 * cell 0 else m0
  let m2 := if periodic 1 then m1 * cell 1 else m1
  if periodic 2 then m2 * cell 2 else m2

end Sparc.D3

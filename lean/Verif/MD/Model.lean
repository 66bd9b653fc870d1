import Mathlib.Data.Fintype.BigOperators
import Mathlib.Analysis.Real.Sqrt
import Mathlib.Analysis.SpecialFunctions.Exp
import Mathlib.Analysis.SpecialFunctions.Log.Basic
import Mathlib.Analysis.Complex.Trigonometric

/-!
# Molecular dynamics (model)

`/repo/src/md.c`.  Atoms form a finite type `A`; `mass i` is `Mass[ityp]` of the type that atom
`i` belongs to (the loops over types and atoms of a type visit every atom once, in order).
`double` becomes `ℝ`.  Forces are an arbitrary function of the positions (or arbitrary inputs);
the wrapping of positions by `Check_atomlocation` is left out (see C17), which is harmless for
forces that are periodic.
-/

namespace Sparc.MD

variable {A : Type} [Fintype A]

/-- A three-component quantity per atom (`3 * count + d`). -/
abbrev V (A : Type) := A → Fin 3 → ℝ

/-- `atom_pos`, `ion_vel`, `ion_accel`. -/
structure St (A : Type) where
  pos : V A
  vel : V A
  acc : V A

/-! ### NVE -/

/-- `Leapfrog_part1`, md.c:660-684. -/
noncomputable def part1 (dt : ℝ) (s : St A) : St A :=
  let v : V A := fun i d => s.vel i d + 0.5 * dt * s.acc i d
  { pos := fun i d => s.pos i d + dt * v i d, vel := v, acc := s.acc }

/-- `Leapfrog_part2`, md.c:689-709. -/
noncomputable def part2 (dt : ℝ) (mass : A → ℝ) (f : V A) (s : St A) : St A :=
  let a : V A := fun i d => f i d / mass i
  { pos := s.pos, vel := fun i d => s.vel i d + 0.5 * dt * a i d, acc := a }

/-- `NVE`, md.c:642-655. -/
noncomputable def nve (dt : ℝ) (mass : A → ℝ) (F : V A → V A) (s : St A) : St A :=
  let s1 := part1 dt s
  part2 dt mass (F s1.pos) s1

/-- The kinetic energy `KE`, e.g. md.c:704. -/
noncomputable def ke (mass : A → ℝ) (v : V A) : ℝ :=
  ∑ i, 0.5 * mass i * (v i 0 ^ 2 + v i 1 ^ 2 + v i 2 ^ 2)

/-! ### NVK with a Gaussian thermostat -/

/-- `Σ u·v` over atoms and components. -/
def dot (u v : V A) : ℝ := ∑ i, (u i 0 * v i 0 + u i 1 * v i 1 + u i 2 * v i 2)

open Classical in
/-- The velocity update shared by `Calc_vel1_G` (md.c:738-788) and `Calc_vel2_G` (795-847);
`none` when a division by zero makes the velocities not a number. -/
noncomputable def gauss (dt : ℝ) (mass : A → ℝ) (f acc vel : V A) : Option (V A) :=
  let v2 := ∑ i, (vel i 0 * vel i 0 + vel i 1 * vel i 1 + vel i 2 * vel i 2) * mass i
  let a := dot f vel / v2
  let b := dot f acc / v2
  let sqb := √b
  let as0 := sqb * dt / 2
  let as := if as0 > 300 then 300 else as0
  let s1 := Real.cosh as
  let s2 := Real.sinh as
  let s := a * (s1 - 1) / b + s2 / sqb
  let scdot := a * s2 / sqb + s1
  if v2 = 0 ∨ b ≤ 0 ∨ scdot = 0 then none
  else some fun i d => (vel i d + acc i d * s) / scdot

/-- One `NVK_G` step, md.c:716-731: half-step velocities, positions, new forces, full-step
velocities. -/
noncomputable def nvk (dt : ℝ) (mass : A → ℝ) (F : V A → V A) (s : St A) (f : V A) :
    Option (St A × V A) :=
  match gauss dt mass f s.acc s.vel with
  | none => none
  | some v1 =>
    let pos : V A := fun i d => s.pos i d + v1 i d * dt
    let f' := F pos
    let acc : V A := fun i d => f' i d / mass i
    match gauss dt mass f' acc v1 with
    | none => none
    | some v2 => some ({ pos := pos, vel := v2, acc := acc }, f')

/-! ### NVT with a Nosé–Hoover thermostat -/

/-- Quantities of `VVerlet2` that do not change during its iteration: half-step velocities
`ion_vel`, accelerations, `xi_nose`, `qmass`, and `g = dof * kB * thermos_T`. -/
structure Nose (A : Type) where
  dt : ℝ
  mass : A → ℝ
  vel : V A
  acc : V A
  xi0 : ℝ
  q : ℝ
  g : ℝ

/-- `Σ m v²`. -/
noncomputable def v2 (mass : A → ℝ) (v : V A) : ℝ :=
  ∑ i, mass i * (v i 0 ^ 2 + v i 1 ^ 2 + v i 2 ^ 2)

/-- `hnose`, md.c:570-572. -/
noncomputable def hnose (N : Nose A) (v : V A) (xi : ℝ) : V A := fun i d =>
  -0.5 * N.dt * (N.acc i d - xi * v i d) - (N.vel i d - v i d)

/-- `delxi`, md.c:573-584, with `v2nose` as stored from the previous pass. -/
noncomputable def delxi (N : Nose A) (v : V A) (xi v2nose : ℝ) : ℝ :=
  let dnose := -1 * (0.5 * xi * N.dt + 1)
  let sum := ∑ i, ∑ d, hnose N v xi i d * (v i d * N.dt * N.mass i / N.q)
  (sum + -1 * dnose * ((-1 * v2nose + N.g) * 0.5 * N.dt / N.q - (N.xi0 - xi))) /
    (-0.5 * N.dt ^ 2 * v2nose / N.q + dnose)

/-- One pass of the iteration of `VVerlet2`, md.c:561-596: new velocities, new `xi`, new
`v2nose`. -/
noncomputable def nosePass (N : Nose A) (s : V A × ℝ × ℝ) : V A × ℝ × ℝ :=
  let v := s.1
  let xi := s.2.1
  let dnose := -1 * (0.5 * xi * N.dt + 1)
  let dx := delxi N v xi s.2.2
  let w : V A := fun i d => v i d + (hnose N v xi i d + 0.5 * N.dt * v i d * dx) / dnose
  (w, xi + dx, v2 N.mass w)

/-- `VVerlet1` and the thermostat update of `NVT_NH`, md.c:494-502 and 518-534: half-step
velocities, new positions and half-step `xi`; `g = dof * kB * thermos_T`. -/
noncomputable def nvtHalf (dt : ℝ) (mass : A → ℝ) (q g : ℝ) (pos vel acc : V A) (xi : ℝ) :
    V A × V A × ℝ :=
  let vh : V A := fun i d => vel i d + 0.5 * dt * (acc i d - xi * vel i d)
  let fs := (v2 mass vel - g) / q
  (fun i d => pos i d + dt * vh i d, vh, xi + 0.5 * dt * fs)

/-- State at the first pass, md.c:546-560. -/
noncomputable def noseInit (N : Nose A) : V A × ℝ × ℝ := (N.vel, N.xi0, v2 N.mass N.vel)

/-- The convergence scan, md.c:597-618, over an array of `3 n` flags "relative change above
the tolerance" and the flag of `xi`; `fuel` only bounds the recursion. -/
def scan (n : ℕ) (big : ℕ → Bool) (bigXi : Bool) : ℕ → ℕ → ℕ → Bool → Bool
  | 0, _, _, ready => ready
  | fuel + 1, kk, jj, ready =>
    -- `kk` already incremented
    let kk' := if kk ≥ n then 0 else kk
    let jj' := if kk ≥ n then jj + 1 else jj
    let ready' :=
      if kk' < n ∧ jj' < 3 then (if big (kk' + jj' * n) then false else ready)
      else (if bigXi then false else ready)
    if kk' < n ∧ jj' < 3 ∧ ready' = true then scan n big bigXi fuel (kk' + 1) jj' ready' else ready'

/-! ### Initial velocities -/

/-- Removal of the translation, md.c:433-443; the three sums were accumulated when the
velocities were drawn (md.c:407-409, 425-427). -/
noncomputable def removeDrift (mass : A → ℝ) (v : V A) : V A := fun i d =>
  v i d - (∑ j, mass j * v j d) / ∑ j, mass j

/-- Zeroing of the fixed components, md.c:445-456. -/
def fixAtoms (mv : A → Fin 3 → ℕ) (v : V A) : V A := fun i d => v i d * mv i d

open Classical in
/-- Rescaling to the target temperature, md.c:458-471; `none` when the kinetic energy is zero. -/
noncomputable def rescaleT (mass : A → ℝ) (dof kB T : ℝ) (v : V A) : Option (V A) :=
  if ke mass v = 0 then none
  else some fun i d => v i d * √(dof * kB * T / (2 * ke mass v))

/-- `dof`, md.c:217-228. -/
def dof (mv : A → Fin 3 → ℕ) : ℤ :=
  ∑ d, ((∑ i, (mv i d : ℤ)) - if (∑ i, mv i d) = Fintype.card A then 1 else 0)

/-- Initial velocities, md.c:377-472.  `v` are the velocities drawn, or (`dstr = 3`) those given
by the user, for which the sums `mvsum_x/y/z` stay zero and no drift is removed. -/
noncomputable def initVel (mass : A → ℝ) (mv : A → Fin 3 → ℕ) (kB T : ℝ) (dstr : ℕ) (v : V A) :
    Option (V A) :=
  rescaleT mass (dof mv) kB T (fixAtoms mv (if dstr = 3 then v else removeDrift mass v))

/-- State of the uniform draw between atoms: the variables `x`, `y`, `s` of md.c:392 and the
random pairs not yet used. -/
structure Draw where
  x : ℝ
  y : ℝ
  s : ℝ
  rest : List (ℝ × ℝ)

open Classical in
/-- `while(s > 1.0)`, md.c:398-402; `none` when the supplied random pairs run out. -/
noncomputable def redraw (x y s : ℝ) : List (ℝ × ℝ) → Option Draw
  | [] => if s > 1 then none else some ⟨x, y, s, []⟩
  | p :: l => if s > 1 then redraw p.1 p.2 (p.1 * p.1 + p.2 * p.2) l else some ⟨x, y, s, p :: l⟩

/-- One atom of the uniform distribution, md.c:398-406: velocity and the state left behind
(`s` is reused as a scale factor and *not* reset). -/
noncomputable def drawAtom (vcm : ℝ) (t : Draw) : Option ((Fin 3 → ℝ) × Draw) :=
  match redraw t.x t.y t.s t.rest with
  | none => none
  | some u =>
    let s := 2 * √(1 - u.s)
    some (![s * u.x * vcm, s * u.y * vcm, vcm * (1 - 2 * u.s)], { u with s := s })

/-! ### NPT, Nosé–Hoover chain -/

/-- Cell lengths after `PositionParticleCell`, md.c:1021-1026 and 1064-1069;
`NPTisotropicFlag` is 1 exactly when all three vectors are scaled (md.c:267, 287). -/
noncomputable def nhCell (dt vlogv : ℝ) (scaleVec : Fin 3 → Bool) (r : Fin 3 → ℝ) : Fin 3 → ℝ :=
  if (scaleVec 0 && scaleVec 1 && scaleVec 2) = true then fun d => r d * Real.exp (dt * vlogv)
  else
    let dim := (if scaleVec 0 then 1 else 0) + (if scaleVec 1 then 1 else 0) + (if scaleVec 2 then 1 else 0)
    let rescale : ℝ := 3 / dim
    fun d => if scaleVec d then r d * Real.exp (dt * vlogv * rescale) else r d

/-- Variables of `IsoPress`, md.c:920-997. -/
structure Iso where
  vlogs : ℕ → ℝ
  glogs : ℕ → ℝ
  xlogs : ℕ → ℝ
  vlogv : ℝ

/-- Constants of `IsoPress`; `press = volumeCell*((pres - pres_i) - prtarget)`. -/
structure IsoPar where
  dt : ℝ
  nnos : ℕ
  qmass : ℕ → ℝ
  bmass : ℝ
  dof : ℝ
  ktemp : ℝ
  press : ℝ

/-- `IsoPress`: returns the new variables, the kinetic energy it stores and the factor that
multiplies every velocity; `none` when an array is read before its beginning
(`NPT_NHqmass[nnos - 2]` with `nnos < 2`, md.c:976). -/
noncomputable def isoPress (P : IsoPar) (ke0 : ℝ) (s : Iso) : Option (Iso × ℝ × ℝ) :=
  let gn1kt := (P.dof + 1) * P.ktemp
  let modnf := 3 / P.dof
  let odnf := 1 + 3 / P.dof
  let gl0 := ((2 * ke0 + P.bmass * s.vlogv ^ 2 - gn1kt) - s.vlogs 1 * s.vlogs 0 * P.qmass 0) / P.qmass 0
  let glogs1 := Function.update s.glogs 0 gl0
  let glogv1 := (3 * P.press + modnf * 2 * ke0 - s.vlogs 0 * s.vlogv * P.bmass) / P.bmass
  let vlogs1 : ℕ → ℝ := fun i => if i < P.nnos then s.vlogs i + P.dt / 4 * glogs1 i else s.vlogs i
  let now1 := s.vlogv + P.dt / 4 * glogv1
  let alocal := Real.exp (-P.dt / 2 * (vlogs1 0 + odnf * now1))
  let ke1 := ke0 * alocal ^ 2
  let glogv2 := (3 * P.press + modnf * 2 * ke1 - vlogs1 0 * now1 * P.bmass) / P.bmass
  let xlogs1 : ℕ → ℝ := fun i => if i < P.nnos then s.xlogs i + vlogs1 i * P.dt / 2 else s.xlogs i
  let now2 := now1 + P.dt / 4 * glogv2
  let gl0' := ((2 * ke1 + P.bmass * s.vlogv ^ 2 - gn1kt) - vlogs1 1 * vlogs1 0 * P.qmass 0) / P.qmass 0
  let glogs2 := Function.update glogs1 0 gl0'
  let vlogs2 : ℕ → ℝ := fun i => if i < P.nnos then vlogs1 i + P.dt / 4 * glogs2 i else vlogs1 i
  let glogs3 : ℕ → ℝ := fun i => if 1 ≤ i ∧ i + 1 < P.nnos then
    (P.qmass (i - 1) * vlogs2 (i - 1) ^ 2 - P.ktemp - vlogs2 (i + 1) * vlogs2 i * P.qmass i) / P.qmass i
    else glogs2 i
  if P.nnos < 2 then none
  else
    let glogs4 := Function.update glogs3 (P.nnos - 1)
      ((P.qmass (P.nnos - 2) * vlogs2 (P.nnos - 2) ^ 2 - P.ktemp) / P.qmass (P.nnos - 1))
    some (⟨vlogs2, glogs4, xlogs1, now2⟩, ke1, alocal)

/-! ### NPT, Nosé–Poincaré -/

/-- Constants of the Nosé–Poincaré integrator. -/
structure NpPar where
  dt : ℝ
  /-- `NPT_NP_bmass` -/
  W : ℝ
  /-- `NPT_NP_qmass` -/
  q : ℝ
  prtarget : ℝ
  jac : ℝ
  /-- `NPTconstraintFlag` -/
  flag : ℕ
  /-- `NPTscaleVecs` -/
  sc : Fin 3 → Bool
  /-- `maxTimeIter` -/
  maxIter : ℕ
  /-- `dof * kB * thermos_T` -/
  gkt : ℝ

/-- Variables that live between steps. -/
structure Np where
  range : Fin 3 → ℝ
  velo : Fin 3 → ℝ
  G : Fin 3 → ℝ
  Pm : Fin 3 → ℝ
  S : ℝ
  Sv : ℝ
  vol : ℝ

/-- What the rest of the program supplies in one step: diagonal of the electronic stress,
`Etot`, kinetic energies before and after the momentum update (already divided by `S²`),
`init_Hamil_NPT_NP`. -/
structure NpIn where
  stress : Fin 3 → ℝ
  Etot : ℝ
  ke1 : ℝ
  ke2 : ℝ
  H0 : ℝ

/-- `innerControlStress`, md.c:1450-1471 and 1524-1545. -/
noncomputable def inner (flag : ℕ) (d : Fin 3 → ℝ) : Fin 3 → ℝ :=
  if flag = 1 then ![(d 0 + d 1) / 2, (d 0 + d 1) / 2, d 2]
  else if flag = 2 then ![(d 0 + d 2) / 2, d 1, (d 0 + d 2) / 2]
  else if flag = 3 then ![d 0, (d 1 + d 2) / 2, (d 1 + d 2) / 2]
  else if flag = 4 then ![(d 0 + d 1 + d 2) / 3, (d 0 + d 1 + d 2) / 3, (d 0 + d 1 + d 2) / 3]
  else d

/-- `Pm_NPT_NP` recomputed from the cell velocities, md.c:1369-1380. -/
noncomputable def npPm (P : NpPar) (s : Np) : Fin 3 → ℝ := fun i =>
  if P.sc i then P.W * s.vol ^ 2 / s.S * 2 * s.range i * s.velo i / s.G i ^ 2 else 0

/-- `Kbaro` of momenta `Pm`, md.c:1396-1400. -/
noncomputable def npKbaro (P : NpPar) (s : Np) (Pm : Fin 3 → ℝ) : ℝ :=
  0.5 * P.W * s.vol ^ 2 * ∑ i, (1 / (P.W * s.vol ^ 2) * Pm i * s.G i) ^ 2

/-- Barostat part of `updateMomentum_FirstHalf`, md.c:1473-1488. -/
noncomputable def npFirst (P : NpPar) (s : Np) (inn Pm : Fin 3 → ℝ) (Kbaro : ℝ) : Fin 3 → ℝ := fun i =>
  if P.sc i then
    Pm i - P.dt * s.S / 2 *
      (inn i * s.vol / 2 / s.G i + 1 / (P.W * s.vol ^ 2) * Pm i ^ 2 * s.G i +
        (P.prtarget * s.vol / 2 - Kbaro) / s.G i)
  else Pm i

/-- `KbaroTmp`, md.c:1549-1555, and `Kbaro`, md.c:1601-1607: only scaled directions. -/
noncomputable def npKbaroTmp (P : NpPar) (s : Np) (Pm : Fin 3 → ℝ) : ℝ :=
  ∑ i, if P.sc i then P.W * s.vol ^ 2 / 2 * (1 / (P.W * s.vol ^ 2) * Pm i * s.G i) ^ 2 else 0

/-- One pass of the fixed point iteration, md.c:1556-1564. -/
noncomputable def npPass (P : NpPar) (s : Np) (inn Pm tmp : Fin 3 → ℝ) : Fin 3 → ℝ := fun i =>
  if P.sc i then
    Pm i - P.dt / 2 * s.S *
      (inn i * s.vol / 2 / s.G i + 1 / (P.W * s.vol ^ 2) * tmp i * s.G i * tmp i +
        (P.prtarget * s.vol / 2 - npKbaroTmp P s tmp) / s.G i)
  else tmp i

open Classical in
/-- The `while (judge == 0)` loops, md.c:1547-1579 and 1665-1688: stop when no component moved by more than `1e-7` or after
`n + 1` passes. -/
noncomputable def npLoop (sc : Fin 3 → Bool) (pass : (Fin 3 → ℝ) → Fin 3 → ℝ) :
    ℕ → (Fin 3 → ℝ) → Fin 3 → ℝ
  | 0, tmp => pass tmp
  | n + 1, tmp =>
    let new := pass tmp
    if ∀ i, sc i = true → ¬ |new i - tmp i| > 1e-7 then new else npLoop sc pass n new

/-- `factor`, md.c:1610. -/
noncomputable def npFactor (P : NpPar) (s : Np) (x : NpIn) (Sv Kbaro Ubaro : ℝ) : ℝ :=
  P.dt / 2 * (P.gkt * (Real.log s.S + 1) - x.ke2 + x.Etot + Kbaro + Ubaro - x.H0) - P.q * Sv

open Classical in
/-- Thermostat velocity at the end of the step, md.c:1615-1620; `none` when the program exits
because the thermostat mass is too small. -/
noncomputable def npSv (P : NpPar) (factor : ℝ) : Option ℝ :=
  if 1 - factor * P.dt / P.q < 0 then none
  else some (-2 * factor / (P.q * (1 + √(1 - factor * P.dt / P.q))))

open Classical in
/-- Iteration for `S`, md.c:1635-1651; `n + 1` passes at most. -/
noncomputable def npS (dt S Sv : ℝ) : ℕ → ℝ → ℝ
  | 0, tmp => S + dt / 2 * (S + tmp) * Sv
  | n + 1, tmp =>
    let new := S + dt / 2 * (S + tmp) * Sv
    if |new - tmp| < 1e-7 then new else npS dt S Sv n new

/-- One pass of the iteration for `G`, md.c:1668-1673. -/
noncomputable def npGPass (P : NpPar) (s : Np) (Pm : Fin 3 → ℝ) (Stemp : ℝ) (tmp : Fin 3 → ℝ) :
    Fin 3 → ℝ := fun i =>
  if P.sc i then
    s.G i + P.dt / 2 * (s.S / (P.W * s.vol ^ 2) * (s.G i ^ 2 * Pm i) +
      Stemp / (P.W * s.vol ^ 2) * (tmp i ^ 2 * Pm i))
  else tmp i

/-- One `NPT_NP` step (cell, barostat and thermostat; atoms excluded): `initialize_Hamiltonian`,
the two momentum updates and `updatePosition`, md.c:1332-1344, 1364-1736. -/
noncomputable def npStep (P : NpPar) (x : NpIn) (s : Np) : Option Np :=
  let Pm0 := npPm P s
  let Kbaro := npKbaro P s Pm0
  let Ubaro := P.prtarget * s.vol
  let Kther := 0.5 * P.q * s.Sv ^ 2
  let Sa := (x.ke1 - x.Etot - P.gkt * (Real.log s.S + 1) - Kbaro - Ubaro - Kther + x.H0) / P.q
  let Sv1 := s.Sv + Sa * P.dt / 2
  let inn := inner P.flag x.stress
  let Pm1 := npFirst P s inn Pm0 Kbaro
  let Pm2 := npLoop P.sc (npPass P s inn Pm1) P.maxIter Pm1
  let Kbaro2 := npKbaroTmp P s Pm2
  match npSv P (npFactor P s x Sv1 Kbaro2 Ubaro) with
  | none => none
  | some Sv2 =>
    let S2 := npS P.dt s.S Sv2 P.maxIter s.S
    let G2 := npLoop P.sc (npGPass P s Pm2 S2) P.maxIter s.G
    let range2 : Fin 3 → ℝ := fun i => √(G2 i)
    let vol2 := P.jac * range2 0 * range2 1 * range2 2
    let velo2 : Fin 3 → ℝ := fun i =>
      if P.sc i then G2 i ^ 2 * Pm2 i * S2 / (2 * P.W * vol2 ^ 2) / range2 i else 0
    some { range := range2, velo := velo2, G := G2, Pm := Pm2, S := S2, Sv := Sv2, vol := vol2 }

end Sparc.MD

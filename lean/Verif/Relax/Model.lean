import Verif.Tac
import Mathlib.Analysis.SpecialFunctions.Pow.Real
import Mathlib.Data.Matrix.Mul

/-!
# Structural relaxation (model)

`/repo/src/relax.c`: `NLCG`, `LBFGS` and `FIRE`.  The arrays of length `3 * n_atom` are vectors
`Fin n → ℝ`; `double` is replaced by `ℝ`.  A division by zero gives `none`.  After each move the
positions may be folded back into the cell and the forces are computed anew
(`Check_atomlocation`, `Calculate_Properties`): the environment supplies both.  Left out: charge
extrapolation, files, output and the wall-time test.
-/

namespace Sparc.Relax

open Finset

abbrev V (n : ℕ) := Fin n → ℝ

/-- `dotproduct`, relax.c:702-709. -/
def dot {n : ℕ} (a b : V n) : ℝ := ∑ i, a i * b i

/-- `norm`, relax.c:692-700. -/
noncomputable def norm {n : ℕ} (v : V n) : ℝ := Real.sqrt (∑ i, v i ^ 2)

/-- `err`, relax.c:134-135, 362-363, 769-770; also `delta_d`, 187-188: running maximum of the
absolute values. -/
noncomputable def sup {n : ℕ} (v : V n) : ℝ :=
  (List.finRange n).foldl (fun e i => if |v i| > e then |v i| else e) 0

/-! ### FIRE -/

/-- User parameters; `dt` is `pSPARC->FIRE_dt` before the call. -/
structure FirePar where
  dt : ℝ
  fs2atu : ℝ
  mass : ℝ
  maxmov : ℝ

/-- `pSPARC->FIRE_dt` after relax.c:725.  The converted value is stored in the global structure. -/
def FirePar.dtAtu (P : FirePar) : ℝ := P.dt * P.fs2atu

/-- The parameters that a second call finds. -/
def FirePar.after (P : FirePar) : FirePar := { P with dt := P.dtAtu }

structure Fire (n : ℕ) where
  pos : V n
  vel : V n
  acc : V n
  forces : V n
  d : V n
  dtNow : ℝ
  alpha : ℝ
  resetIter : ℤ
  iter : ℤ

/-- Values before the loop without restart, relax.c:773-779, 810. -/
noncomputable def fireInit {n : ℕ} (P : FirePar) (pos forces junk : V n) (iter : ℤ) : Fire n where
  pos := pos
  vel := 0
  acc := fun i => forces i / P.mass
  forces := forces
  d := junk
  dtNow := P.dtAtu
  alpha := 0.1
  resetIter := 0
  iter := iter

/-- Clamping of one displacement, relax.c:833-836. -/
noncomputable def clamp (m x : ℝ) : ℝ := if x > m then m else if x < -m then -m else x

/-- First half of the Verlet step, relax.c:830-838. -/
noncomputable def fireMove {n : ℕ} (P : FirePar) (s : Fire n) : Fire n :=
  let vel : V n := fun i => s.vel i + 0.5 * s.dtNow * s.acc i
  let d : V n := fun i => clamp P.maxmov (vel i * s.dtNow)
  { s with vel := vel, d := d, pos := fun i => s.pos i + d i }

/-- Second half with the new forces, relax.c:846-868 and 903. -/
noncomputable def fireUpdate {n : ℕ} (P : FirePar) (s : Fire n) (pos forces : V n) :
    Option (Fire n) :=
  let acc : V n := fun i => forces i / P.mass
  let vel : V n := fun i => s.vel i + 0.5 * acc i * s.dtNow
  let Pw := dot forces vel
  let vel' : V n := if Pw < 0 then 0 else vel
  let dtNow := if Pw < 0 then s.dtNow * 0.5
    else if Pw ≥ 0 ∧ s.iter - s.resetIter > 5 then
      (if s.dtNow * 1.1 < 10 * P.dtAtu then s.dtNow * 1.1 else 10 * P.dtAtu)
    else s.dtNow
  let alpha := if Pw < 0 then 0.1
    else if Pw ≥ 0 ∧ s.iter - s.resetIter > 5 then s.alpha * 0.99 else s.alpha
  let fnorm := norm forces
  let vnorm := norm vel'
  if fnorm = 0 then none else
  some { s with
    pos := pos
    forces := forces
    acc := acc
    dtNow := dtNow
    alpha := alpha
    resetIter := if Pw < 0 then s.iter else s.resetIter
    vel := fun i => (1 - alpha) * vel' i + (alpha * vnorm) * (forces i / fnorm)
    iter := s.iter + 1 }

/-- One pass of the loop; `e` holds the folded positions and the new forces. -/
noncomputable def fireStep {n : ℕ} (P : FirePar) (s : Fire n) (e : V n × V n) : Option (Fire n) :=
  fireUpdate P (fireMove P s) e.1 e.2

/-- The loop, relax.c:813-905: stops when converged, when the passes are used up, or (end of the
list) when time is up or a stop file is found.  Also gives the number of force calculations. -/
noncomputable def fireLoop {n : ℕ} (P : FirePar) (imax : ℤ) (tol : ℝ) :
    List (V n × V n) → Fire n → Option (Fire n × ℕ)
  | [], s => some (s, 0)
  | e :: es, s =>
    if s.iter < imax ∧ sup s.forces > tol then do
      let s' ← fireStep P s e
      let (r, c) ← fireLoop P imax tol es s'
      pure (r, c + 1)
    else some (s, 0)

/-! ### NLCG -/

structure Cg (n : ℕ) where
  pos : V n
  /-- forces at `pos` -/
  forces : V n
  /-- residual of the previous pass -/
  s : V n
  d : V n
  deltaNew : ℝ

/-- Values before the loop, relax.c:128-136; `force` is the force field. -/
def cgInit {n : ℕ} (force : V n → V n) (pos : V n) : Cg n where
  pos := pos
  forces := force pos
  s := force pos
  d := force pos
  deltaNew := dot (force pos) (force pos)

/-- The secant iteration, relax.c:211-232; the first argument is `jmax - j`. -/
noncomputable def secant {n : ℕ} (force : V n → V n) (d : V n) (sectol : ℝ) :
    ℕ → V n → ℝ → ℝ → Option (V n)
  | 0, pos, _, _ => some pos
  | j + 1, pos, alpha, etaPrev =>
    let eta := -dot (force pos) d
    if etaPrev - eta = 0 then none
    else
      let alpha' := alpha * (eta / (etaPrev - eta))
      let pos' : V n := fun i => pos i + alpha' * d i
      if |alpha'| * sup d > sectol then secant force d sectol j pos' alpha' eta else some pos'

/-- One pass of the loop, relax.c:185-255. -/
noncomputable def cgStep {n : ℕ} (force : V n → V n) (sigma sectol : ℝ) (iter : ℕ) (c : Cg n) :
    Option (Cg n) := do
  let trial : V n := fun i => c.pos i + sigma * c.d i
  let etaPrev := -dot (force trial) c.d
  let pos ← secant force c.d sectol 6 c.pos (-sigma) etaPrev
  let r := force pos
  let deltaMid := dot r c.s
  let deltaNew := dot r r
  if c.deltaNew = 0 then none
  else
    let beta := (deltaNew - deltaMid) / c.deltaNew
    let d : V n := if iter % 30 = 0 ∨ beta ≤ 0 then r else fun i => r i + beta * c.d i
    pure { pos := pos, forces := r, s := r, d := d, deltaNew := deltaNew }

/-! ### L-BFGS -/

structure LbPar where
  /-- `L_history` -/
  m : ℕ
  /-- `L_finit_stp` -/
  finit : ℝ
  /-- `L_maxmov` -/
  maxmov : ℝ
  /-- `L_lineopt`, used without automatic scaling -/
  lineopt : Bool
  /-- `L_icurv`, used without automatic scaling -/
  icurv : ℝ

structure Lb (n : ℕ) where
  pos : V n
  forces : V n
  fold : V n
  xold : V n
  d : V n
  disp : V n
  hX : ℕ → V n
  hG : ℕ → V n
  iys : ℕ → ℝ
  step : ℕ
  isFD : Bool
  isReset : Bool

/-- Values before the loop, relax.c:320-332; `j` stands for the contents of the
uninitialised arrays. -/
def lbInit {n : ℕ} (pos forces : V n) (j : Fin 4 → V n) : Lb n where
  pos := pos
  forces := forces
  fold := j 0
  xold := j 1
  d := j 2
  disp := j 3
  hX _ := 0
  hG _ := 0
  iys _ := 0
  step := 0
  isFD := true
  isReset := true

/-- One array of the history: relax.c:444-450 when there is room, 451-464 otherwise. -/
def lbPush {α : Type} (m step : ℕ) (h : ℕ → α) (v : α) : ℕ → α :=
  if step < m then Function.update h step v
  else fun i => if i < m - 1 then h (i + 1) else if i = m - 1 then v else h i

/-- Storing of the last pair, relax.c:444-465, 538-559.  With `m = 0` the code writes before the
arrays. -/
noncomputable def lbRecord {n : ℕ} (m : ℕ) (s : Lb n) : Option (Lb n) :=
  let y : V n := fun i => s.fold i - s.forces i
  if m = 0 then none
  else if dot s.disp y = 0 then none
  else some { s with
    hX := lbPush m s.step s.hX s.disp
    hG := lbPush m s.step s.hG y
    iys := lbPush m s.step s.iys (1 / dot s.disp y)
    step := s.step + 1 }

/-- The two loops, relax.c:477-499, 572-592; `al` is the uninitialised `alpha`. -/
def twoLoop {n : ℕ} (bound : ℕ) (hX hG : ℕ → V n) (iys : ℕ → ℝ) (icurv : ℝ) (f : V n)
    (al : ℕ → ℝ) : V n :=
  let q := (List.range bound).foldl (fun (w : V n × (ℕ → ℝ)) i =>
    let j := bound - i - 1
    let a := dot (hX j) w.1 * iys j
    ((fun k => w.1 k - a * hG j k), Function.update w.2 j a)) ((fun k => -f k), al)
  let r : V n := fun k => icurv * q.1 k
  let r := (List.range bound).foldl (fun (w : V n) i =>
    let b := dot (hG i) w * iys i
    fun k => w k + hX i k * (q.2 i - b)) r
  fun k => -r k

/-- relax.c:467-470, 561-564. -/
def lbSave {n : ℕ} (s : Lb n) : Lb n := { s with xold := s.pos, fold := s.forces }

/-- `bound`, relax.c:471-474, 565-568. -/
def lbBound {n : ℕ} (m : ℕ) (s : Lb n) : ℕ := if s.step < m then s.step else m

/-- Normalised forces. -/
noncomputable def along {n : ℕ} (f : V n) : V n := fun i => f i / norm f

/-- One move with automatic scaling, relax.c:414-522.  A curvature of zero makes
`icurv` infinite. -/
noncomputable def lbAuto {n : ℕ} (P : LbPar) (al : ℕ → ℝ) (s : Lb n) : Option (Lb n) :=
  if s.isFD then
    if norm s.forces = 0 then none
    else
      let d := along s.forces
      some { lbSave s with d := d, pos := fun i => s.pos i + d i * P.finit, isFD := false }
  else
    let dnorm := norm s.disp
    if dnorm = 0 then none
    else
      let fp1 := dot s.fold s.disp / dnorm
      let fp2 := dot s.forces s.disp / dnorm
      let curv := (fp1 - fp2) / dnorm
      if curv = 0 then none
      else
        let icurv := 1 / (curv * 2)
        let flag := decide (icurv < 0)
        let s1 := if s.isReset || flag then some { s with step := 0, isReset := false }
          else lbRecord P.m s
        match s1 with
        | none => none
        | some s1 =>
          let s2 := lbSave s1
          let d := twoLoop (lbBound P.m s2) s2.hX s2.hG s2.iys icurv s2.forces al
          let clip := decide (norm d > P.maxmov)
          if (clip || flag) && decide (norm s.forces = 0) then none
          else
            let d : V n := if clip then fun i => P.maxmov * s.forces i / norm s.forces else d
            let isReset := clip || s2.isReset
            if flag then
              let d := along s.forces
              some { s2 with d := d, isReset := isReset, pos := fun i => s.pos i + P.maxmov * d i }
            else some { s2 with d := d, isReset := isReset, pos := fun i => s.pos i + d i }

/-- `SIGN(a,b)`, relax.c:30. -/
noncomputable def sign (a b : ℝ) : ℝ := if b ≥ 0 then |a| else -|a|

/-- The step of the line optimiser, relax.c:615-627.  With zero curvature the
quotient is infinite and is cut off, unless it is `0/0`. -/
noncomputable def lbLine {n : ℕ} (P : LbPar) (s : Lb n) : Option ℝ :=
  let fp1 := dot s.fold s.d
  let fp2 := dot s.forces s.d
  if P.finit = 0 then none
  else
    let curv := (fp1 - fp2) / P.finit
    if curv < 0 then some P.maxmov
    else if curv = 0 then
      let favg := 0.5 * (fp1 + fp2)
      if favg = 0 then none else some (sign P.maxmov favg - sign P.finit favg)
    else
      let favg := 0.5 * (fp1 + fp2)
      let stp := favg / curv
      if |stp| > P.maxmov then some (sign P.maxmov stp - sign P.finit stp)
      else some (stp - 0.5 * P.finit)

/-- The reset test, relax.c:526-533. -/
noncomputable def lbReset {n : ℕ} (P : LbPar) (s : Lb n) : Bool :=
  let a1 := |dot s.forces s.fold|
  let a2 := dot s.fold s.fold
  let r := decide (a1 > 0.5 * a2 ∨ a2 = 0) || s.isReset
  let r := if P.lineopt then r else false
  decide (a2 = 0) || r

/-- One move without automatic scaling, relax.c:524-631. -/
noncomputable def lbFixed {n : ℕ} (P : LbPar) (al : ℕ → ℝ) (s : Lb n) : Option (Lb n) :=
  if s.isFD then
    let s1 := if lbReset P s then some { s with step := 0, isReset := false }
      else lbRecord P.m { s with isReset := false }
    match s1 with
    | none => none
    | some s1 =>
      let s2 := lbSave s1
      let d := twoLoop (lbBound P.m s2) s2.hX s2.hG s2.iys P.icurv s2.forces al
      let dnorm := norm d
      if P.lineopt then
        if dnorm = 0 then none
        else
          let d : V n := fun i => d i / dnorm
          some { s2 with d := d, isFD := false, pos := fun i => s.pos i + d i * P.finit }
      else
        let d : V n := if dnorm > P.maxmov then fun i => P.maxmov * d i / dnorm else d
        some { s2 with d := d, isFD := true, pos := fun i => s.pos i + d i }
  else
    match lbLine P s with
    | none => none
    | some stp => some { s with isFD := true, pos := fun i => s.pos i + s.d i * stp }

/-- What happens after the move, relax.c:635-640: the displacement is stored, the positions are
folded back and the forces are computed. -/
def lbEval {n : ℕ} (s : Lb n) (e : V n × V n) : Lb n :=
  { s with disp := fun i => s.pos i - s.xold i, pos := e.1, forces := e.2 }

end Sparc.Relax

import Verif.Factor.Model

/-!
# Choice of spin / k-point / band / domain group counts (model)

`dims_divide_kbd`, `dims_divide_kbd_fock`, `dims_divide_skbd`
(`/repo/src/parallelization.c`).  The floating-point efficiency weights are an arbitrary
oracle: `eff` returns a weight, `better w best` is the comparison `w > best` (or `>=`),
and the threshold tests (`> 0.97`, `> 0.95`, `> 0.9`, `> 0.93`) are arbitrary predicates.
-/

namespace Sparc.Kbd
open Sparc.Factor

/-- Floating-point decisions left open. -/
structure Oracle (W : Type) where
  /-- `work_load_efficiency` / `work_load_efficiency_fock`, by number of processes and split -/
  eff : Nat → Nat → Nat → Nat → W
  /-- `weight > best_weight` -/
  gt : W → W → Bool
  /-- the early acceptance test on the naive split -/
  accept : W → Bool
  /-- the early exit of the search loop -/
  stop : W → Bool
  /-- `skbd_weighted_efficiency` -/
  seff : Nat → Nat → Nat → Nat → W
  /-- `weight_2 >= weight_cur` -/
  ge : W → W → Bool

/-- C integer division; division by zero is undefined. -/
def cdiv (a b : Nat) : Option Nat := if b = 0 then none else some (a / b)

/-- Candidate list, parallelization.c:1653-1670 (`len` = `LEN_NPDM` = 8) and 1803-1820
(`len` = `LEN_NPB` = 20). -/
def candidates (len np denom : Nat) : Option (List Nat) :=
  if np > denom then do
    let base ← cdiv np denom
    pure (((List.range len).map (fun i => base * (i + 1))).filter (fun c => c ≤ np))
  else pure ((List.range len).map (fun i => i + 1))

/-- Search loop of `dims_divide_kbd`, parallelization.c:1672-1692. -/
def kbdLoop {W : Type} (o : Oracle W) (Nk Ns np : Nat) :
    List Nat → (Nat × Nat × Nat) → W → Option (Nat × Nat × Nat)
  | [], cur, _ => some cur
  | npdm :: rest, cur, best => do
    let np2d ← cdiv np npdm
    if np2d < 1 then kbdLoop o Nk Ns np rest cur best
    else
      let (npkpt, npband) ← dimsDivide2d Nk Ns np2d
      let npdm' ← cdiv np (npkpt * npband)
      let w := o.eff np npkpt npband npdm'
      let cur' := if o.gt w best then (npkpt, npband, npdm') else cur
      let best' := if o.gt w best then w else best
      if o.stop w then some cur' else kbdLoop o Nk Ns np rest cur' best'

/-- `dims_divide_kbd`, parallelization.c:1634-1698. -/
def kbd {W : Type} (o : Oracle W) (Nk Ns np : Nat) : Option (Nat × Nat × Nat) := do
  let cur1 := min np Nk
  let q ← cdiv np cur1
  let cur2 := min q Ns
  let cur3 ← cdiv np (cur1 * cur2)
  let w := o.eff np cur1 cur2 cur3
  if o.accept w then some (cur1, cur2, cur3)
  else
    let l ← candidates 8 np (Nk * Ns)
    kbdLoop o Nk Ns np l (cur1, cur2, cur3) w

/-- Search loop of `dims_divide_kbd_fock`, parallelization.c:1822-1841. -/
def fockLoop {W : Type} (o : Oracle W) (Nk np : Nat) :
    List Nat → (Nat × Nat × Nat) → W → Option (Nat × Nat × Nat)
  | [], cur, _ => some cur
  | npb :: rest, cur, best => do
    let np2d ← cdiv np npb
    if np2d < 1 then fockLoop o Nk np rest cur best
    else
      let npkpt := min np2d Nk
      let npdm ← cdiv np2d npkpt
      let npband ← cdiv np (npkpt * npdm)
      let w := o.eff np npkpt npband npdm
      let cur' := if o.gt w best then (npkpt, npband, npdm) else cur
      let best' := if o.gt w best then w else best
      if o.stop w then some cur' else fockLoop o Nk np rest cur' best'

/-- `npd_max`, parallelization.c:1788-1791 and 1885-1888. -/
def npdMax (g : Nat × Nat × Nat) (minsize : Nat) : Option Nat := do
  let x ← cdiv g.1 minsize
  let y ← cdiv g.2.1 minsize
  let z ← cdiv g.2.2 minsize
  pure (x * y * z)

/-- `dims_divide_kbd_fock`, parallelization.c:1780-1847. -/
def kbdFock {W : Type} (o : Oracle W) (Nk Ns : Nat) (g : Nat × Nat × Nat) (np minsize : Nat) :
    Option (Nat × Nat × Nat) := do
  let cur1 := min np Nk
  let m ← npdMax g minsize
  let q ← cdiv np cur1
  let cur3 := min m q
  let r ← cdiv np (cur1 * cur3)
  let cur2 := min r Ns
  let w := o.eff np cur1 cur2 cur3
  if o.accept w then some (cur1, cur2, cur3)
  else
    let l ← candidates 20 np (Nk * m)
    fockLoop o Nk np l (cur1, cur2, cur3) w

/-- Naive split of `dims_divide_skbd`, parallelization.c:1877-1892. -/
def naive (Nspin Nk Ns : Nat) (g : Nat × Nat × Nat) (np minsize : Nat) (isfock : Bool) :
    Option (Nat × Nat × Nat × Nat) := do
  let nps := min Nspin np
  let q ← cdiv np nps
  let npk := min Nk q
  if isfock then
    let m ← npdMax g minsize
    let r ← cdiv np (nps * npk)
    let npd := min m r
    let npb ← cdiv np (nps * npk * npd)
    pure (nps, npk, npb, npd)
  else
    let r ← cdiv np (nps * npk)
    let npb := min Ns r
    let npd ← cdiv np (nps * npk * npb)
    pure (nps, npk, npb, npd)

/-- The `if (!isfock)` selection, parallelization.c:1899-1903 and 1918-1922. -/
def kbdAny {W : Type} (o : Oracle W) (Nk Ns : Nat) (g : Nat × Nat × Nat) (minsize : Nat)
    (isfock : Bool) (n : Nat) : Option (Nat × Nat × Nat) :=
  if isfock then kbdFock o Nk Ns g n minsize else kbd o Nk Ns n

/-- `dims_divide_skbd`, parallelization.c:1866-1938.  `none` is undefined behaviour or
`exit`. -/
def skbd {W : Type} (o : Oracle W) (Nspin Nk Ns : Nat) (g : Nat × Nat × Nat) (np minsize : Nat)
    (isfock : Bool) : Option (Nat × Nat × Nat × Nat) := do
  if Nspin ≠ 1 ∧ Nspin ≠ 2 then none
  else
    let c0 ← naive Nspin Nk Ns g np minsize isfock
    let w0 := o.seff c0.1 c0.2.1 c0.2.2.1 c0.2.2.2
    let k1 ← kbdAny o Nk Ns g minsize isfock (np / 1)
    let w1 := o.seff 1 k1.1 k1.2.1 k1.2.2
    let c1 := if o.gt w1 w0 then (1, k1.1, k1.2.1, k1.2.2) else c0
    let wc := if o.gt w1 w0 then w1 else w0
    if Nspin > 1 ∧ np > 1 then
      let k2 ← kbdAny o Nk Ns g minsize isfock (np / 2)
      let w2 := o.seff 2 k2.1 k2.2.1 k2.2.2
      pure (if o.ge w2 wc then (2, k2.1, k2.2.1, k2.2.2) else c1)
    else pure c1

end Sparc.Kbd

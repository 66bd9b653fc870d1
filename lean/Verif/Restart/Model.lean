import Mathlib.Data.Real.Basic
import Mathlib.Data.List.Basic
import Verif.Tac

/-!
# Restarting molecular dynamics and relaxations

`PrintMD`, `RestartMD`, `Rename_restart` (md.c:2261-2688), the part of `Initialize_MD` after a restart
(md.c:286-296 and 357-373), the counting of steps in `main_MD` (md.c:86, 96-105, 120-193), `PrintRelax`, `RestartRelax`
(relax.c:1504-1714), and the arrays the relaxations allocate before (relax.c:325-332, 741-742).

A file is a sequence of keywords, numbers, other words and line ends.  Characters are not modelled: a keyword is a symbol, a
printed number is the real number it denotes, and the conversions of `printf` are functions rounding to it
(so `%d` on a number with a point, of which it would take the digits before the point, takes nothing here).  `strcmpi` is
equality of keywords.  Numbers are real; a value that was never set is `none`; a write outside an array (or into one that is not
allocated) is an error, and so is a buffer too small for `MPI_Pack`.
-/

namespace Sparc.Restart

/-- `MDMeth`, `RelaxMeth`. -/
inductive Meth
  | nve | nvk | nvt | nph | npp | nlcg | lbfgs | fire
  deriving DecidableEq

/-- The keywords. -/
inductive H
  | stopcount | mdstep | R | V | snose | xinose | tel | tio | tthrmi
  | hQmass | hBmass | hVlogs | hVlogv | hXlogs | cell | latscale | pressure
  | pQmass | pBmass | pSv | pPm | pS | pVx | pVy | pVz | pHamil
  | relaxstep | E | D | isfd | isreset | step | DX | DG | iys | fold | rdisp | fAlpha | fDt | fReset | fV
  deriving DecidableEq

/-- The variables of type `double`; `range`, `rvelo`, `pm` are three each, `now` is local to the reader. -/
inductive K
  | pos | vel | snose | xi | telec | tion | tTi | tT
  | qmassH | bmassH | vlogs | vlogv | xlogs | range | scale | prt
  | qmassP | bmassP | sv | pm | s | rvelo | hamil
  | etot | d | dx | dg | iys | fold | disp | alpha | dt | fvel | now
  deriving DecidableEq

/-- The variables of type `int`. -/
inductive I
  | stop | count | nnos | isfd | isreset | step | freset
  deriving DecidableEq

/-- What a process holds. -/
structure St where
  n : I → ℕ
  x : K → ℕ → Option ℝ

/-- Input that does not change: the method, `RestartFlag`, `n_atom`, `Flag_latvec_scale`, lengths of the `LATVEC` rows,
`NPTscaleVecs`, `L_history`. -/
structure Cfg where
  meth : Meth
  flag : ℤ
  natom : ℕ
  latscale : Bool
  len : ℕ → ℝ
  scaleVecs : ℕ → ℕ
  hist : ℕ

/-- A file. -/
inductive Sym
  | hd (h : H)
  | int (z : ℕ)
  | num (x : ℝ)
  | txt
  | nl

/-- The conversions: `%.10E` (eleven significant digits), `%.15g` (fifteen), `%.15f` (fifteen decimals), `%.15E`. -/
structure Fmt where
  e10 : ℝ → ℝ
  g15 : ℝ → ℝ
  f15 : ℝ → ℝ
  e15 : ℝ → ℝ
  e10_near : ∀ x, |e10 x - x| ≤ 5 / 10 ^ 11 * |x|
  g15_near : ∀ x, |g15 x - x| ≤ 5 / 10 ^ 15 * |x|
  f15_near : ∀ x, |f15 x - x| ≤ 5 / 10 ^ 16

/-- `29421.02648438959`. -/
noncomputable def gpa : ℝ := 2942102648438959 / 100000000000

/-! ## Writing -/

/-- Numbers `i`, .., `i + m - 1` of an array, a line end before every `b`-th. -/
def nums (b : ℕ) (f : ℕ → ℝ) : ℕ → ℕ → List Sym
  | _, 0 => []
  | i, m + 1 => (if i % b = 0 then [.nl] else []) ++ .num (f i) :: nums b f (i + 1) m

/-- An array after its keyword. -/
def arr (h : H) (b m : ℕ) (f : ℕ → ℝ) : List Sym := .hd h :: nums b f 0 m ++ [.nl]

/-- A number after its keyword. -/
def one (h : H) (v : ℝ) : List Sym := [.hd h, .num v, .nl]

/-- An array with its length. -/
def carr (h : H) (m : ℕ) (f : ℕ → ℝ) : List Sym := .hd h :: .int m :: nums 5 f 0 m ++ [.nl]

/-- The cell, md.c:2333-2336 and 2350-2353. -/
noncomputable def cellLine (F : Fmt) (c : Cfg) (w : K → ℕ → ℝ) : List Sym :=
  if c.latscale then
    [.hd .latscale, .num (F.g15 (w .range 0 / c.len 0)), .num (F.g15 (w .range 1 / c.len 1)),
      .num (F.g15 (w .range 2 / c.len 2)), .nl]
  else [.hd .cell, .num (F.g15 (w .range 0)), .num (F.g15 (w .range 1)), .num (F.g15 (w .range 2)), .nl]

/-- `PrintMD` with `Flag = 1`, md.c:2284-2360: step, positions, velocities, what belongs to the method, temperatures. -/
noncomputable def writeMD (F : Fmt) (c : Cfg) (step nnos : ℕ) (w : K → ℕ → ℝ) : List Sym :=
  [.hd .mdstep, .int step, .nl] ++ arr .R 3 (3 * c.natom) (fun i => F.e10 (w .pos i)) ++
  arr .V 3 (3 * c.natom) (fun i => F.e10 (w .vel i)) ++
  (match c.meth with
  | .nvt => one .snose (F.g15 (w .snose 0)) ++ one .xinose (F.g15 (w .xi 0)) ++ one .tthrmi (F.g15 (w .tT 0))
  | .nph => carr .hQmass nnos (fun i => F.g15 (w .qmassH i)) ++ one .hBmass (F.g15 (w .bmassH 0)) ++
      carr .hVlogs nnos (fun i => F.g15 (w .vlogs i)) ++ one .hVlogv (F.g15 (w .vlogv 0)) ++
      carr .hXlogs nnos (fun i => F.g15 (w .xlogs i)) ++ cellLine F c w ++ one .tthrmi (F.g15 (w .tTi 0)) ++
      [.hd .pressure, .num (F.g15 (w .prt 0 * gpa)), .txt, .nl]
  | .npp => one .pQmass (F.g15 (w .qmassP 0)) ++ one .pBmass (F.g15 (w .bmassP 0)) ++ one .pSv (F.g15 (w .sv 0)) ++
      [.hd .pPm, .num (F.g15 (w .pm 0)), .num (F.g15 (w .pm 1)), .num (F.g15 (w .pm 2)), .nl] ++
      one .pS (F.g15 (w .s 0)) ++ one .pVx (F.g15 (w .rvelo 0)) ++ one .pVy (F.g15 (w .rvelo 1)) ++
      one .pVz (F.g15 (w .rvelo 2)) ++ cellLine F c w ++ one .tthrmi (F.g15 (w .tTi 0)) ++
      [.hd .pressure, .num (F.g15 (w .prt 0 * gpa)), .txt, .nl] ++ one .pHamil (F.g15 (w .hamil 0))
  | _ => []) ++
  one .tel (F.g15 (w .telec 0)) ++ one .tio (F.g15 (w .tion 0))

/-- `PrintRelax`, relax.c:1511-1561. -/
def writeRelax (F : Fmt) (c : Cfg) (n : I → ℕ) (w : K → ℕ → ℝ) : List Sym :=
  [.hd .relaxstep, .int (n .count), .nl] ++ one .E (F.e15 (w .etot 0)) ++
  arr .R 3 (3 * c.natom) (fun i => F.f15 (w .pos i)) ++
  (match c.meth with
  | .nlcg => arr .D 3 (3 * c.natom) (fun i => F.f15 (w .d i))
  | .lbfgs => [.hd .isfd, .int (n .isfd), .nl] ++ [.hd .isreset, .int (n .isreset), .nl] ++
      [.hd .step, .int (n .step), .nl] ++ arr .DX 1 (c.hist * (3 * c.natom)) (fun i => F.f15 (w .dx i)) ++
      arr .DG 1 (c.hist * (3 * c.natom)) (fun i => F.f15 (w .dg i)) ++ arr .iys 1 c.hist (fun i => F.f15 (w .iys i)) ++
      arr .fold 1 (3 * c.natom) (fun i => F.f15 (w .fold i)) ++ arr .rdisp 1 (3 * c.natom) (fun i => F.f15 (w .disp i))
  | .fire => one .fAlpha (F.f15 (w .alpha 0)) ++ one .fDt (F.f15 (w .dt 0)) ++ [.hd .fReset, .int (n .freset), .nl] ++
      arr .fV 1 (3 * c.natom) (fun i => F.f15 (w .fvel i))
  | _ => [])

/-! ## Reading -/

/-- `%lf`; when there is no number, nothing is taken. -/
def scanNum : List Sym → Option (ℝ × List Sym)
  | .nl :: l => scanNum l
  | .num x :: l => some (x, l)
  | .int z :: l => some ((z : ℝ), l)
  | _ => none

/-- `%d`. -/
def scanInt : List Sym → Option (ℕ × List Sym)
  | .nl :: l => scanInt l
  | .int z :: l => some (z, l)
  | _ => none

/-- `%s`. -/
def next : List Sym → Option (Sym × List Sym)
  | .nl :: l => next l
  | [] => none
  | t :: l => some (t, l)

/-- White space. -/
def ws : List Sym → List Sym
  | .nl :: l => ws l
  | l => l

/-- The words up to the line end. -/
def dropLine : List Sym → List Sym
  | .nl :: l => .nl :: l
  | [] => []
  | _ :: l => dropLine l

/-- `%*[^\n]\n`: the rest of the line and the white space after it; at the end of a line nothing is taken. -/
def skipLine : List Sym → List Sym
  | .nl :: l => .nl :: l
  | l => ws (dropLine l)

/-- Assignment to a variable. -/
def put (k : K) (i : ℕ) (v : ℝ) (s : St) : St :=
  { s with x := fun k' i' => if k' = k ∧ i' = i then some v else s.x k' i' }

/-- Assignment to an integer. -/
def putI (k : I) (v : ℕ) (s : St) : St := { s with n := fun k' => if k' = k then v else s.n k' }

/-- The rest of the file and the variables. -/
abbrev P := List Sym × St

/-- `fscanf(.., "%lf", &x)`. -/
def get (k : K) (i : ℕ) (p : P) : P :=
  match scanNum p.1 with
  | some (v, l) => (l, put k i v p.2)
  | none => p

/-- `fscanf(.., "%d", &x)`. -/
def getI (k : I) (p : P) : P :=
  match scanInt p.1 with
  | some (v, l) => (l, putI k v p.2)
  | none => p

/-- Numbers `i`, .., `i + m - 1` of an array. -/
def gets (k : K) : ℕ → ℕ → P → P
  | _, 0, p => p
  | i, m + 1, p => gets k (i + 1) m (get k i p)

/-- The keywords of every method, md.c:2423-2442. -/
def chain (c : Cfg) (h : H) (p : P) : P :=
  match h with
  | .stopcount => getI .stop p
  | .mdstep => getI .count p
  | .R => gets .pos 0 (3 * c.natom) p
  | .V => gets .vel 0 (3 * c.natom) p
  | .snose => if c.flag = 1 then get .snose 0 p else p
  | .xinose => if c.flag = 1 then get .xi 0 p else p
  | .tel => if c.flag = 1 then get .telec 0 p else p
  | .tio => if c.flag = 1 then get .tion 0 p else p
  | .tthrmi => if c.flag = 1 then get .tTi 0 p else p
  | _ => p

/-- An array with its length: arrays of `L_QMASS = 60`, md.c:2444-2464, isddft.h:34. -/
def getCarr (k : K) (p : P) : Option P :=
  let p := getI .nnos p
  if p.2.n .nnos ≤ 60 then
    let p := gets k 0 (p.2.n .nnos) p
    some (skipLine p.1, p.2)
  else none

/-- Three numbers into local variables, which are undefined before. -/
def getNow (p : P) : P :=
  let s : St := { p.2 with x := fun k i => if k = .now then none else p.2.x k i }
  let p := gets .now 0 3 (p.1, s)
  (skipLine p.1, p.2)

/-- `scale` from direction `d` and the new cell, md.c:2475-2481, 2496-2502, 2529-2533, 2547-2551. -/
noncomputable def setCell (d : ℕ) (now : ℕ → Option ℝ) (s : St) : St :=
  { s with x := fun k i =>
      if k = .scale ∧ i = 0 then (now d).bind fun a => (s.x .range d).map fun b => a / b
      else if k = .range ∧ i < 3 then now i else s.x k i }

/-- The direction from which NPT_NH takes `scale`. -/
def scaleDir (c : Cfg) : ℕ := if c.scaleVecs 0 = 1 then 0 else if c.scaleVecs 1 = 1 then 1 else 2

/-- The keywords of NPT_NH, md.c:2443-2508. -/
noncomputable def chainH (c : Cfg) (h : H) (p : P) : Option P :=
  match h with
  | .hQmass => getCarr .qmassH p
  | .hVlogs => getCarr .vlogs p
  | .hXlogs => getCarr .xlogs p
  | .hBmass => some (get .bmassH 0 p)
  | .hVlogv => some (get .vlogv 0 p)
  | .cell => let p := getNow p; some (p.1, setCell (scaleDir c) (p.2.x .now) p.2)
  | .latscale =>
      let p := getNow p
      some (p.1, setCell (scaleDir c) (fun d => (p.2.x .now d).map fun v => c.len d * v) p.2)
  | .tthrmi => some (get .tTi 0 p)
  | .pressure => some (get .prt 0 p)
  | _ => some p

/-- The keywords of NPT_NP, md.c:2509-2558. -/
noncomputable def chainP (c : Cfg) (h : H) (p : P) : P :=
  match h with
  | .pQmass => get .qmassP 0 p
  | .pSv => get .sv 0 p
  | .pS => get .s 0 p
  | .pBmass => get .bmassP 0 p
  | .pVx => get .rvelo 0 p
  | .pVy => get .rvelo 1 p
  | .pVz => get .rvelo 2 p
  | .cell => let p := getNow p; (p.1, setCell 0 (p.2.x .now) p.2)
  | .latscale => let p := getNow p; (p.1, setCell 0 (fun d => (p.2.x .now d).map fun v => c.len d * v) p.2)
  | .tthrmi => get .tTi 0 p
  | .pressure => get .prt 0 p
  | .pHamil => get .hamil 0 p
  | _ => p

/-- The keywords of `RestartRelax`, relax.c:1617-1654; arrays not allocated by the method must not be written. -/
def chainR (c : Cfg) (h : H) (p : P) : Option P :=
  match h with
  | .relaxstep => some (getI .count p)
  | .R => some (gets .pos 0 (3 * c.natom) p)
  | .D => some (gets .d 0 (3 * c.natom) p)
  | .isfd => some (getI .isfd p)
  | .isreset => some (getI .isreset p)
  | .step => some (getI .step p)
  | .DX => if c.meth = .lbfgs then some (gets .dx 0 (c.hist * (3 * c.natom)) p) else none
  | .DG => if c.meth = .lbfgs then some (gets .dg 0 (c.hist * (3 * c.natom)) p) else none
  | .iys => if c.meth = .lbfgs then some (gets .iys 0 c.hist p) else none
  | .fold => if c.meth = .lbfgs then some (gets .fold 0 (3 * c.natom) p) else none
  | .rdisp => if c.meth = .lbfgs then some (gets .disp 0 (3 * c.natom) p) else none
  | .fAlpha => some (get .alpha 0 p)
  | .fDt => some (get .dt 0 p)
  | .fReset => some (getI .freset p)
  | .fV => if c.meth = .fire then some (gets .fvel 0 (3 * c.natom) p) else none
  | _ => some p

/-- What one keyword does. -/
noncomputable def act (c : Cfg) (h : H) (p : P) : Option P :=
  match c.meth with
  | .nlcg => chainR c h p
  | .lbfgs => chainR c h p
  | .fire => chainR c h p
  | .nph => chainH c h (chain c h p)
  | .npp => some (chainP c h (chain c h p))
  | _ => some (chain c h p)

/-- `while (fscanf(rst_fp,"%s",str) != EOF)`, md.c:2422, relax.c:1616; every turn takes a word. -/
noncomputable def read (c : Cfg) : ℕ → List Sym → St → Option St
  | 0, _, s => some s
  | n + 1, l, s =>
    match next l with
    | none => some s
    | some (.hd h, l) => (act c h (l, s)).bind fun p => read c n p.1 p.2
    | some (_, l) => read c n l s

/-! ## Sending -/

/-- One `MPI_Pack`: an integer, `m` numbers, or `NPT_NHnnos` numbers. -/
inductive Item
  | int (k : I)
  | dbl (k : K) (m : ℕ)
  | nh (k : K)

/-- A packed value. -/
inductive Val
  | int (z : ℕ)
  | dbl (v : Option ℝ)

/-- Its size in bytes. -/
def Val.size : Val → ℕ
  | .int _ => 4
  | .dbl _ => 8

def packItem (s : St) : Item → List Val
  | .int k => [.int (s.n k)]
  | .dbl k m => (List.range m).map fun i => .dbl (s.x k i)
  | .nh k => (List.range (s.n .nnos)).map fun i => .dbl (s.x k i)

/-- `MPI_Unpack` of `m` numbers. -/
def takeD (k : K) : ℕ → ℕ → List Val → St → List Val × St
  | _, 0, b, s => (b, s)
  | i, m + 1, .dbl v :: b, s =>
    takeD k (i + 1) m b { s with x := fun k' i' => if k' = k ∧ i' = i then v else s.x k' i' }
  | _, _, b, s => (b, s)

def unpackItem : Item → List Val × St → List Val × St
  | .int k, (.int z :: b, s) => (b, putI k z s)
  | .int _, p => p
  | .dbl k m, p => takeD k 0 m p.1 p.2
  | .nh k, p => takeD k 0 (p.2.n .nnos) p.1 p.2

/-- The calls of `MPI_Pack`, md.c:2563-2608 and relax.c:1658-1678. -/
def packs (c : Cfg) : List Item :=
  match c.meth with
  | .nlcg => [.int .count, .dbl .pos (3 * c.natom), .dbl .d (3 * c.natom)]
  | .lbfgs => [.int .count, .dbl .pos (3 * c.natom), .int .isfd, .int .isreset, .int .step,
      .dbl .dx (c.hist * (3 * c.natom)), .dbl .dg (c.hist * (3 * c.natom)), .dbl .iys c.hist,
      .dbl .fold (3 * c.natom), .dbl .disp (3 * c.natom)]
  | .fire => [.int .count, .dbl .pos (3 * c.natom), .dbl .alpha 1, .dbl .dt 1, .int .freset,
      .dbl .fvel (3 * c.natom)]
  | m => [.int .stop, .int .count, .dbl .pos (3 * c.natom), .dbl .vel (3 * c.natom)] ++
    if c.flag = 1 then [.dbl .telec 1, .dbl .tion 1] ++
      match m with
      | .nvt => [.dbl .snose 1, .dbl .xi 1, .dbl .tTi 1]
      | .nph => [.int .nnos, .nh .qmassH, .nh .vlogs, .nh .xlogs, .dbl .bmassH 1, .dbl .vlogv 1, .dbl .scale 1,
          .dbl .range 3, .dbl .tTi 1, .dbl .prt 1]
      | .npp => [.dbl .qmassP 1, .dbl .sv 1, .dbl .s 1, .dbl .bmassP 1, .dbl .rvelo 3, .dbl .scale 1,
          .dbl .range 3, .dbl .tTi 1, .dbl .prt 1, .dbl .hamil 1]
      | _ => []
    else []

/-- The calls of `MPI_Unpack`, md.c:2622-2668 and relax.c:1691-1711. -/
def unpacks (c : Cfg) : List Item :=
  match c.meth with
  | .nlcg => [.int .count, .dbl .pos (3 * c.natom), .dbl .d (3 * c.natom)]
  | .lbfgs => [.int .count, .dbl .pos (3 * c.natom), .int .isfd, .int .isreset, .int .step,
      .dbl .dx (c.hist * (3 * c.natom)), .dbl .dg (c.hist * (3 * c.natom)), .dbl .iys c.hist,
      .dbl .fold (3 * c.natom), .dbl .disp (3 * c.natom)]
  | .fire => [.int .count, .dbl .pos (3 * c.natom), .dbl .alpha 1, .dbl .dt 1, .int .freset,
      .dbl .fvel (3 * c.natom)]
  | m => [.int .stop, .int .count, .dbl .pos (3 * c.natom), .dbl .vel (3 * c.natom)] ++
    if c.flag = 1 then [.dbl .telec 1, .dbl .tion 1] ++
      match m with
      | .nvt => [.dbl .snose 1, .dbl .xi 1, .dbl .tTi 1]
      | .nph => [.int .nnos, .nh .qmassH, .nh .vlogs, .nh .xlogs, .dbl .bmassH 1, .dbl .vlogv 1, .dbl .scale 1,
          .dbl .range 3, .dbl .tTi 1, .dbl .prt 1]
      | .npp => [.dbl .qmassP 1, .dbl .sv 1, .dbl .s 1, .dbl .bmassP 1, .dbl .rvelo 3, .dbl .scale 1,
          .dbl .range 3, .dbl .tTi 1, .dbl .prt 1, .dbl .hamil 1]
      | _ => []
    else []

/-- `l_buff`, computed before the file is read, md.c:2399-2412 and relax.c:1602-1607. -/
def bufLen (c : Cfg) (s : St) : ℕ :=
  match c.meth with
  | .nlcg => 1 * 4 + 2 * (3 * c.natom) * 8
  | .lbfgs => 4 * 4 + ((3 + 2 * c.hist) * (3 * c.natom) + c.hist) * 8
  | .fire => 2 * 4 + (2 + 2 * (3 * c.natom)) * 8
  | m => if c.flag = 1 then
      match m with
      | .nph => (2 + 1) * 4 + (6 * c.natom + (5 + 3 * s.n .nnos + 9)) * 8
      | .npp => 2 * 4 + (6 * c.natom + (5 + 14)) * 8
      | _ => 2 * 4 + (6 * c.natom + 5) * 8
    else if c.flag = -1 then 2 * 4 + (6 * c.natom + 3) * 8 else 0

/-- `RestartMD`, `RestartRelax`: the root reads the file and packs, another process unpacks.  Velocities are allocated
here, so undefined before. -/
noncomputable def restart (c : Cfg) (file : List Sym) (root other : St) : Option (St × St) :=
  let fresh (s : St) : St := { s with x := fun k i => if k = .vel then none else s.x k i }
  let cap := bufLen c root
  (read c file.length file (fresh root)).bind fun root =>
    let buf := (packs c).flatMap (packItem root)
    if (buf.map Val.size).sum ≤ cap then
      some (root, ((unpacks c).foldl (fun p i => unpackItem i p) (buf, fresh other)).2)
    else none

/-- What `Initialize_MD` does to the target pressure and the thermostat after a restart with `RestartFlag = 1`, md.c:286-296 and
357-373. -/
noncomputable def initMD (c : Cfg) (s : St) : St :=
  if c.meth = .nph ∨ c.meth = .npp then
    { s with x := fun k i => if k = .tT ∧ i = 0 then s.x .tTi 0
        else if k = .prt ∧ i = 0 then (s.x .prt 0).map fun v => v / gpa else s.x k i }
  else s

/-! ## The three files and the steps -/

/-- `.restart`, `.restart-0`, `.restart-1`. -/
structure Disk (α : Type) where
  last : Option α
  cur : Option α
  prev : Option α

/-- A file written now and then, md.c:2275-2280 and 2685-2688: the last one is renamed first. -/
def during {α : Type} (a : α) (d : Disk α) : Disk α :=
  { d with prev := if d.cur.isSome then d.cur else d.prev, cur := some a }

/-- The file written at the end, md.c:2282. -/
def final {α : Type} (a : α) (d : Disk α) : Disk α := { d with last := some a }

/-- The file that is read, md.c:2380-2385 (and 59-64). -/
def choose {α : Type} (d : Disk α) : Option α :=
  if d.last.isSome then d.last else if d.cur.isSome then d.cur else d.prev

/-- The loop of `main_MD` from step `count` on, md.c:128-188: `go n` is the condition on the time before step `n`,
`halt n` the presence of SPARC.stop after it.  Result: the steps done, each with the `MDCount` of the file written after it, and
`MDCount` at the end. -/
def stepLoop (go halt : ℕ → Bool) : ℕ → ℕ → ℕ → List (ℕ × ℕ) × ℕ
  | 0, _, md => ([], md)
  | k + 1, count, md =>
    if go count then
      if halt count then ([(count, md)], md + 1)
      else let r := stepLoop go halt k (count + 1) (md + 1); ((count, md) :: r.1, r.2)
    else ([], md)

/-- A run, md.c:86, 96-105, 120-193; `r` is `restartCount` (0 without restart), `N` is `MD_Nstep`.  Without restart the first
ground state is step 1.  Result: the steps done; the steps after which a file can be written, with the number in it
(md.c:2285); the number in the last file. -/
def steps (go halt : ℕ → Bool) (fresh : Bool) (r N : ℕ) : List ℕ × List (ℕ × ℕ) × ℕ :=
  let f := if fresh then 1 else 0
  let max := r + N
  let count := 1 + r + f
  let p := stepLoop go halt (max + 1 - count) count 1
  ((if fresh then [1] else []) ++ p.1.map Prod.fst, p.1.map (fun q => (q.1, q.2 + r + f)), p.2 - 1 + r + f)

end Sparc.Restart

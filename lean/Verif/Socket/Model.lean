import Mathlib.Data.Real.Basic
import Mathlib.Data.Fin.VecNotation

/-!
# Socket driver (model)

`/repo/src/socket/driver.c`: buffered reads, message headers, the main loop, the virial, the address
parser and the force reply.  Rank 0 talks to the server and broadcasts what it gets, so a single
sequence of events describes all ranks.  Logging is left out.
-/

namespace Sparc.Socket

/-! ## Reading a buffer -/

/-- What one call of `read(2)` does: deliver some bytes, report the end of the stream, or fail. -/
inductive Rd (β : Type) where
  | data (l : List β)
  | eof
  | err

/-- Return value of `read`. -/
def Rd.nr {β : Type} : Rd β → ℤ
  | .data l => l.length
  | .eof => 0
  | .err => -1

def Rd.bytes {β : Type} : Rd β → List β
  | .data l => l
  | .eof => []
  | .err => []

/-- driver.c:242-251. -/
def readRet (n : ℤ) : ℤ := if n = 0 then -1 else 0

/-- The loop driver.c:236-241.  `buf` is what has been stored so far; the store position `data + n` is
its end, because `n` only drops below the number of stored bytes when the loop ends.  `none`: the call
waits for more data. -/
def readLoop {β : Type} (len : ℕ) (buf : List β) (n nr : ℤ) : List (Rd β) → Option (ℤ × List β × List (Rd β))
  | [] => if nr > 0 ∧ n < len then none else some (readRet n, buf, [])
  | e :: r => if nr > 0 ∧ n < len then readLoop len (buf ++ e.bytes) (n + e.nr) e.nr r
      else some (readRet n, buf, e :: r)

/-- `readBuffer`, driver.c:230-252: return value, bytes stored, remaining events. -/
def readBuffer {β : Type} (len : ℕ) : List (Rd β) → Option (ℤ × List β × List (Rd β))
  | [] => none
  | e :: r => readLoop len e.bytes e.nr e.nr r

/-! ## Message headers -/

/-- Status codes, driver.h:57-71. -/
inductive Code where
  | needinit | status | posdata | getforce | other | setparam | exit
  deriving DecidableEq

/-- `strncasecmp(header, word, strlen(word)) == 0`. -/
def startsWith (header : List Char) (word : String) : Bool :=
  decide ((header.take word.toList.length).map Char.toLower = word.toList.map Char.toLower)

/-- Classification of a header that was read, driver.c:651-671. -/
def classify (header : List Char) : Code :=
  if startsWith header "STATUS" then .status
  else if startsWith header "POSDATA" then .posdata
  else if startsWith header "GETFORCE" then .getforce
  else if startsWith header "SETPARAM" then .setparam
  else .other

/-- `write_message_to_socket`, driver.c:900-926: the text padded with spaces to twelve bytes; a longer
text ends the program (`none`). -/
def message (m : List Char) : Option (List Char) :=
  if m.length > 12 then none else some (m ++ List.replicate (12 - m.length) ' ')

/-! ## Main loop -/

/-- One pass of the loop as seen from outside.  `closed`: reading the header failed.  `msg h p w`: the
header `h` was read; `p` is the position data that follows a POSDATA header (`none` if reading it fails);
`w` says whether a reply can be written. -/
inductive Ev (P : Type) where
  | closed
  | msg (header : List Char) (pos : Option P) (w : Bool)

/-- What the server receives in one pass. -/
inductive Reply (F : Type) where
  | nothing
  | text (m : Option (List Char))
  | forces (f : Option F)

inductive End where
  | waiting | limit | closed | error | failure
  deriving DecidableEq

/-- Loop variables: `SocketSCFCount`, `hasdata`, result of the last calculation (`none`: memory that was
never computed), and all positions for which `Calculate_Properties` was called. -/
structure St (P F : Type) where
  cnt : ℕ
  has : Bool
  frc : Option F
  calcs : List P

/-- Body of the loop, driver.c:1101-1191. -/
def step {P F : Type} (calcF : P → F) (s : St P F) : Ev P → (Reply F × St P F) ⊕ (St P F × End)
  | .closed => .inr (s, .closed)
  | .msg h p w =>
    match classify h with
    | .status =>
      if w then .inl (.text (message (if s.has then "HAVEDATA".toList else "READY".toList)), s)
      else .inr (s, .error)
    | .needinit => .inr (s, .failure)
    | .posdata =>
      let s := { s with cnt := s.cnt + 1 }
      match p with
      | none => .inr (s, .error)
      | some q => .inl (.nothing, { s with frc := some (calcF q), calcs := s.calcs ++ [q], has := true })
    | .getforce => if w then .inl (.forces s.frc, { s with has := false }) else .inr (s, .error)
    | .setparam => .inl (.nothing, s)
    | .other => .inr (s, .failure)
    | .exit => .inr (s, .closed)

/-- `main_Socket`, driver.c:1080-1196: the replies to the messages that were handled, the final state and
the reason for stopping. -/
def run {P F : Type} (calcF : P → F) (maxIter : ℕ) (s : St P F) : List (Ev P) → List (Reply F) × St P F × End
  | [] => ([], s, if s.cnt ≤ maxIter then .waiting else .limit)
  | e :: es =>
    if s.cnt ≤ maxIter then
      match step calcF s e with
      | .inl (r, s') => let t := run calcF maxIter s' es
                        (r :: t.1, t.2)
      | .inr (s', o) => ([], s', o)
    else ([], s, .limit)

def start {P F : Type} : St P F := ⟨0, false, none, []⟩

/-! ## Force reply -/

/-- `write_forces_to_socket`, driver.c:864-897.  `ws` are the return values of the six writes.  Each
`ret &= w + 1`; the final value is `ret - 1`.  A return value is at least `-1`, so `w + 1` is a natural
number. -/
def writeForces (ws : List ℤ) : ℤ := ((ws.foldl (fun ret w => ret &&& (w + 1).toNat) 1 : ℕ) : ℤ) - 1

/-! ## Virial -/

/-- Loop `for (int i; i < 9; i++) v[i] = f(v[i])`, driver.c:791-793 and the like.  The counter is not
initialised: `u` is the value it happens to have.  A negative value writes outside the array. -/
def loopFrom (u : ℤ) (f : ℝ → ℝ) (v : Fin 9 → ℝ) : Option (Fin 9 → ℝ) :=
  if u < 0 then none else some fun i => if u ≤ (i : ℤ) then f (v i) else v i

structure Cell where
  BC : ℤ
  bcx : ℤ
  bcy : ℤ
  bcz : ℤ
  lx : ℝ
  ly : ℝ
  lz : ℝ
  jac : ℝ
  calcStress : ℤ

/-- `stress_to_virial`, driver.c:772-862.  `area` is the cross-section of the cyclix cases. -/
noncomputable def virial (c : Cell) (area : ℝ) (u : ℤ) (s : Fin 6 → ℝ) : Option (Fin 9 → ℝ) :=
  let vol := c.jac * c.lx * c.ly * c.lz
  let v : Fin 9 → ℝ := ![-s 0 * vol, -s 1 * vol, -s 2 * vol, -s 1 * vol, -s 3 * vol, -s 4 * vol,
    -s 2 * vol, -s 4 * vol, -s 5 * vol]
  if c.calcStress = 0 then loopFrom u (fun _ => 0) v
  else if c.BC = 1 then loopFrom u (fun _ => 0) v
  else if c.BC = 3 then
    if c.bcx = 0 ∧ c.bcy = 0 then loopFrom u (fun x => x / c.lz) v
    else if c.bcx = 0 ∧ c.bcz = 0 then loopFrom u (fun x => x / c.ly) v
    else if c.bcy = 0 ∧ c.bcz = 0 then loopFrom u (fun x => x / c.lx) v
    else some v
  else if c.BC = 4 then
    if c.bcx = 0 then loopFrom u (fun x => x / (c.ly * c.lz)) v
    else if c.bcy = 0 then loopFrom u (fun x => x / (c.lx * c.lz)) v
    else if c.bcx = 0 then loopFrom u (fun x => x / (c.lx * c.ly)) v
    else some v
  else if c.BC ≥ 5 ∧ c.BC ≤ 7 then loopFrom u (fun x => x / area) v
  else some v

/-! ## Address -/

def isSpace (c : Char) : Bool := c = ' ' || c = '\t' || c = '\n' || c = '\x0b' || c = '\x0c' || c = '\r'

def digitVal (c : Char) : ℕ := c.toNat - '0'.toNat

/-- C `strtol` in base ten: skip white space, one optional sign, the longest run of digits; without
digits nothing is consumed.  The value is not limited here: every value outside the range of `long` is
outside `1 .. 65535` as well, before and after saturation. -/
def strtol (s : List Char) : ℤ × List Char :=
  let t := s.dropWhile isSpace
  let neg := t.head? = some '-'
  let t' := if t.head? = some '-' ∨ t.head? = some '+' then t.tail else t
  let ds := t'.takeWhile Char.isDigit
  if ds = [] then (0, s)
  else
    let v : ℤ := (ds.foldl (fun a c => 10 * a + digitVal c) 0 : ℕ)
    (if neg then -v else v, t'.dropWhile Char.isDigit)

/-- `split_socket_name`, driver.c:34-114: host, port, inet; `none` stands for the return value 1.
The capacity of the host buffer is not modelled. -/
def splitName (str : List Char) : Option (List Char × ℕ × Bool) :=
  let host := str.takeWhile (· ≠ ':')
  match str.dropWhile (· ≠ ':') with
  | [] => none
  | _ :: port =>
    if ':' ∈ port then none
    else
      let host := if host = [] then "localhost".toList else host
      let r := strtol port
      if r.2 = [] then
        if r.1 > 0 ∧ r.1 ≤ 65535 then some (host, r.1.toNat, true) else none
      else if port.map Char.toLower = "UNIX".toList.map Char.toLower then some (host, 0, false)
      else none

end Sparc.Socket

import Verif.Socket.Model
import Verif.Tac

/-!
# Socket driver: properties
-/

namespace Sparc.Socket

/-! ## C31: reading a buffer -/

/-- The operating system delivers between one and the requested number of bytes per call. -/
def Fits {β : Type} : ℕ → List (Rd β) → Prop
  | k, .data l :: r => 1 ≤ l.length ∧ l.length ≤ k ∧ (l.length < k → Fits (k - l.length) r)
  | _, _ => True

/-- All calls delivered data. -/
def AllData {β : Type} (u : List (Rd β)) : Prop := ∀ e ∈ u, ∃ l, e = .data l

theorem allData_nil {β : Type} : AllData ([] : List (Rd β)) := by intro e he; cases he

theorem readLoop_spec {β : Type} (len : ℕ) (evs : List (Rd β)) : ∀ (buf : List β) (nr : ℤ), 0 < nr →
    1 ≤ buf.length → buf.length ≤ len → (buf.length < len → Fits (len - buf.length) evs) →
    ∀ ret b rest, readLoop len buf buf.length nr evs = some (ret, b, rest) →
    ∃ used, evs = used ++ rest ∧ b = buf ++ used.flatMap Rd.bytes ∧
      ((b.length = len ∧ ret = 0 ∧ AllData used) ∨
       (b.length < len ∧ ∃ u e, used = u ++ [e] ∧ AllData u ∧
         (e = .eof ∧ ret = 0 ∨ e = .err ∧ ret = if b.length = 1 then -1 else 0))) := by
  induction evs with
  | nil =>
    intro buf nr hnr h1 h2 _ ret b rest h
    simp only [readLoop] at h
    split_ifs at h with hc
    simp only [Option.some.injEq, Prod.mk.injEq] at h
    obtain ⟨rfl, rfl, rfl⟩ := h
    refine ⟨[], rfl, by simp, Or.inl ⟨by omega, ?_, allData_nil⟩⟩
    unfold readRet; rw [if_neg (by omega)]
  | cons e r ih =>
    intro buf nr hnr h1 h2 hf ret b rest h
    simp only [readLoop] at h
    by_cases hc : nr > 0 ∧ (buf.length : ℤ) < len
    · rw [if_pos hc] at h
      have hlt : buf.length < len := by omega
      have hf := hf hlt
      cases e with
      | data l =>
        obtain ⟨f1, f2, f3⟩ := hf
        have e1 : ((buf.length : ℤ) + (Rd.data l).nr) = ((buf ++ l).length : ℤ) := by
          simp [Rd.nr]
        simp only [Rd.bytes] at h
        rw [e1] at h
        obtain ⟨used, g1, g2, g3⟩ := ih (buf ++ l) _ (by simp only [Rd.nr]; omega) (by simp; omega)
          (by simp; omega) (fun hh => by
            have : len - (buf ++ l).length = len - buf.length - l.length := by simp; omega
            rw [this]; exact f3 (by simp at hh; omega)) ret b rest h
        refine ⟨.data l :: used, by rw [g1]; rfl, by rw [g2]; simp [Rd.bytes], ?_⟩
        rcases g3 with ⟨a1, a2, a3⟩ | ⟨a1, u, e, a2, a3, a4⟩
        · refine Or.inl ⟨a1, a2, ?_⟩
          intro x hx
          rcases List.mem_cons.1 hx with rfl | hx
          · exact ⟨l, rfl⟩
          · exact a3 x hx
        · refine Or.inr ⟨a1, .data l :: u, e, by rw [a2]; rfl, ?_, a4⟩
          intro x hx
          rcases List.mem_cons.1 hx with rfl | hx
          · exact ⟨l, rfl⟩
          · exact a3 x hx
      | eof =>
        have : readLoop len (buf ++ (Rd.eof : Rd β).bytes) ((buf.length : ℤ) + (Rd.eof : Rd β).nr)
            (Rd.eof : Rd β).nr r = some (readRet buf.length, buf, r) := by
          simp only [Rd.bytes, Rd.nr, List.append_nil, add_zero]
          cases r <;> simp [readLoop]
        rw [this] at h
        simp only [Option.some.injEq, Prod.mk.injEq] at h
        obtain ⟨rfl, rfl, rfl⟩ := h
        refine ⟨[.eof], rfl, by simp [Rd.bytes], Or.inr ⟨hlt, [], .eof, rfl, allData_nil,
          Or.inl ⟨rfl, ?_⟩⟩⟩
        unfold readRet; rw [if_neg (by omega)]
      | err =>
        have : readLoop len (buf ++ (Rd.err : Rd β).bytes) ((buf.length : ℤ) + (Rd.err : Rd β).nr)
            (Rd.err : Rd β).nr r = some (readRet (buf.length + -1), buf, r) := by
          simp only [Rd.bytes, Rd.nr, List.append_nil]
          cases r <;> simp [readLoop]
        rw [this] at h
        simp only [Option.some.injEq, Prod.mk.injEq] at h
        obtain ⟨rfl, rfl, rfl⟩ := h
        refine ⟨[.err], rfl, by simp [Rd.bytes], Or.inr ⟨hlt, [], .err, rfl, allData_nil,
          Or.inr ⟨rfl, ?_⟩⟩⟩
        unfold readRet
        split_ifs <;> omega
    · rw [if_neg hc] at h
      simp only [Option.some.injEq, Prod.mk.injEq] at h
      obtain ⟨rfl, rfl, rfl⟩ := h
      refine ⟨[], rfl, by simp, Or.inl ⟨by omega, ?_, allData_nil⟩⟩
      unfold readRet; rw [if_neg (by omega)]

/-- **C31** (exact outcome).  The bytes stored are those delivered, in order.  Either the buffer is full
and the routine reports success; or the last call met the end of the stream or failed, and then failure
is reported only if the stream ended before the first byte, or failed after exactly one byte. -/
theorem read_outcome {β : Type} (len : ℕ) (hl : 1 ≤ len) (evs : List (Rd β)) (hf : Fits len evs) (ret : ℤ)
    (b : List β) (rest : List (Rd β)) (h : readBuffer len evs = some (ret, b, rest)) :
    ∃ used, evs = used ++ rest ∧ b = used.flatMap Rd.bytes ∧
      ((b.length = len ∧ ret = 0 ∧ AllData used) ∨
       (b.length < len ∧ ∃ u e, used = u ++ [e] ∧ AllData u ∧
         (e = .eof ∧ ret = (if b.length = 0 then -1 else 0) ∨
          e = .err ∧ ret = if b.length = 1 then -1 else 0))) := by
  cases evs with
  | nil => cases h
  | cons e r =>
    cases e with
    | data l =>
      obtain ⟨f1, f2, f3⟩ := hf
      obtain ⟨used, g1, g2, g3⟩ := readLoop_spec len r l l.length (by omega) f1 f2 f3 ret b rest h
      refine ⟨.data l :: used, by rw [g1]; rfl, by rw [g2]; simp [Rd.bytes], ?_⟩
      have hb : b.length ≠ 0 := by rw [g2]; simp; intro h; rw [h] at f1; simp at f1
      have hcons : ∀ u : List (Rd β), AllData u → AllData (.data l :: u) := by
        intro u hu x hx
        rcases List.mem_cons.1 hx with rfl | hx
        · exact ⟨l, rfl⟩
        · exact hu x hx
      rcases g3 with ⟨a1, a2, a3⟩ | ⟨a1, u, e, a2, a3, a4⟩
      · exact Or.inl ⟨a1, a2, hcons _ a3⟩
      · refine Or.inr ⟨a1, .data l :: u, e, by rw [a2]; rfl, hcons _ a3, ?_⟩
        rw [if_neg hb]; exact a4
    | eof =>
      have : readBuffer len ((Rd.eof : Rd β) :: r) = some (-1, [], r) := by
        unfold readBuffer; cases r <;> simp [readLoop, Rd.nr, Rd.bytes, readRet]
      rw [this] at h
      simp only [Option.some.injEq, Prod.mk.injEq] at h
      obtain ⟨rfl, rfl, rfl⟩ := h
      exact ⟨[.eof], rfl, by simp [Rd.bytes], Or.inr ⟨by simp only [List.length_nil]; omega, [], .eof, rfl,
        allData_nil, Or.inl ⟨rfl, by simp⟩⟩⟩
    | err =>
      have : readBuffer len ((Rd.err : Rd β) :: r) = some (0, [], r) := by
        unfold readBuffer; cases r <;> simp [readLoop, Rd.nr, Rd.bytes, readRet]
      rw [this] at h
      simp only [Option.some.injEq, Prod.mk.injEq] at h
      obtain ⟨rfl, rfl, rfl⟩ := h
      exact ⟨[.err], rfl, by simp [Rd.bytes], Or.inr ⟨by simp only [List.length_nil]; omega, [], .err, rfl,
        allData_nil, Or.inr ⟨rfl, by simp⟩⟩⟩

/-- **C31** (partial).  If the routine reports success and no call met the end of the stream or an
error, then the whole requested number of bytes was stored, in order.  Missing: that success implies this
without the second hypothesis; that is false, see `read_success_incomplete`. -/
theorem read_complete_partial {β : Type} (len : ℕ) (hl : 1 ≤ len) (evs : List (Rd β)) (hf : Fits len evs)
    (b : List β) (rest : List (Rd β)) (h : readBuffer len evs = some (0, b, rest))
    (hno : ∀ used, evs = used ++ rest → ∀ e ∈ used, e ≠ .eof ∧ e ≠ .err) :
    b.length = len ∧ ∃ used, evs = used ++ rest ∧ b = used.flatMap Rd.bytes := by
  obtain ⟨used, h1, h2, h3⟩ := read_outcome len hl evs hf 0 b rest h
  rcases h3 with ⟨a, _⟩ | ⟨_, u, e, a, _, c⟩
  · exact ⟨a, used, h1, h2⟩
  · exfalso
    have := hno used h1 e (by rw [a]; simp)
    rcases c with ⟨c, _⟩ | ⟨c, _⟩
    · exact this.1 c
    · exact this.2 c

/-- A reported failure is a real one: the buffer is incomplete. -/
theorem read_failure_incomplete {β : Type} (len : ℕ) (hl : 1 ≤ len) (evs : List (Rd β)) (hf : Fits len evs)
    (b : List β) (rest : List (Rd β)) (h : readBuffer len evs = some (-1, b, rest)) : b.length < len := by
  obtain ⟨used, h1, h2, h3⟩ := read_outcome len hl evs hf _ b rest h
  rcases h3 with ⟨_, a, _⟩ | ⟨a, _⟩
  · omega
  · exact a

/-- **C31 fails.**  Success is reported when the very first call fails and when the connection is lost in
the middle of the message. -/
theorem read_success_incomplete :
    readBuffer 12 [(.err : Rd ℕ)] = some (0, [], []) ∧
    readBuffer 12 [.data [1, 2, 3], (.eof : Rd ℕ)] = some (0, [1, 2, 3], []) ∧
    readBuffer 12 [.data [1, 2, 3], (.err : Rd ℕ)] = some (0, [1, 2, 3], []) := by
  refine ⟨rfl, rfl, rfl⟩

example : readBuffer 4 [.data [1], .data [2, 3], (.data [4] : Rd ℕ), .err] = some (0, [1, 2, 3, 4], [.err]) := rfl

example : Fits 4 [.data [1], .data [2, 3], (.data [4] : Rd ℕ), .err] := by simp [Fits]

/-! ## C30: the main loop -/

section main
variable {P F : Type} (calcF : P → F)

/-- The message begins with this word (given in lower case), in any case of letters. -/
def opens (h : List Char) (word : String) : Bool :=
  decide ((h.map Char.toLower).take word.toList.length = word.toList)

/-- The event carries a message that begins with this word. -/
def Ev.Is (e : Ev P) (word : String) : Prop := ∃ h p w, e = .msg h p w ∧ opens h word = true

/-- Positions were received after the last force request of the history. -/
def Fresh (h : List (Ev P)) : Prop :=
  ∃ a e b, h = a ++ e :: b ∧ e.Is "posdata" ∧ ∀ x ∈ b, ¬ x.Is "getforce"

/-- The last position message of the history. -/
def LastPos (h : List (Ev P)) (q : P) : Prop :=
  ∃ a t w b, h = a ++ .msg t (some q) w :: b ∧ opens t "posdata" = true ∧ ∀ x ∈ b, ¬ x.Is "posdata"

/-- Positions of all position messages of the history. -/
def positions (h : List (Ev P)) : List P := h.filterMap fun
  | .msg t (some q) _ => if opens t "posdata" then some q else none
  | _ => none

theorem startsWith_of {h : List Char} {w u : String} (hw : w.toList.map Char.toLower = u.toList) :
    startsWith h w = opens h u := by
  have hl : w.toList.length = u.toList.length := by rw [← hw, List.length_map]
  unfold startsWith opens
  rw [hw, List.map_take, hl]

theorem startsWith_eq (h : List Char) : startsWith h "STATUS" = opens h "status" ∧
    startsWith h "POSDATA" = opens h "posdata" ∧ startsWith h "GETFORCE" = opens h "getforce" ∧
    startsWith h "SETPARAM" = opens h "setparam" := by
  exact ⟨startsWith_of (by decide), startsWith_of (by decide), startsWith_of (by decide),
    startsWith_of (by decide)⟩

theorem says_head {h : List Char} {word : String} {c : Char} {r : List Char} (hw : word.toList = c :: r)
    (hs : opens h word = true) : ∃ a t, h = a :: t ∧ a.toLower = c := by
  unfold opens at hs
  rw [hw] at hs
  cases h with
  | nil => simp at hs
  | cons a t => exact ⟨a, t, rfl, by simp at hs; exact hs.1⟩

theorem says_ne {h : List Char} {u v : String} {c d : Char} {r t : List Char} (hu : u.toList = c :: r)
    (hv : v.toList = d :: t) (hcd : c ≠ d) (h1 : opens h u = true) : opens h v = false := by
  by_contra hc
  obtain ⟨a, x, rfl, ha⟩ := says_head hu h1
  obtain ⟨b, y, hb, hb'⟩ := says_head hv (by simpa using hc)
  simp only [List.cons.injEq] at hb
  rw [← hb.1, ha] at hb'
  exact hcd hb'

/-- The classification agrees with the words. -/
theorem classify_iff (h : List Char) : (classify h = .status ↔ opens h "status" = true) ∧
    (classify h = .posdata ↔ opens h "posdata" = true) ∧
    (classify h = .getforce ↔ opens h "getforce" = true) := by
  obtain ⟨e1, e2, e3, e4⟩ := startsWith_eq h
  unfold classify
  rw [e1, e2, e3, e4]
  have s : "status".toList = ['s', 't', 'a', 't', 'u', 's'] := rfl
  have p : "posdata".toList = ['p', 'o', 's', 'd', 'a', 't', 'a'] := rfl
  have g : "getforce".toList = ['g', 'e', 't', 'f', 'o', 'r', 'c', 'e'] := rfl
  by_cases h1 : opens h "status" = true
  · simp [h1, says_ne s p (by decide) h1, says_ne s g (by decide) h1]
  · by_cases h2 : opens h "posdata" = true
    · simp [h1, h2, says_ne p g (by decide) h2]
    · by_cases h3 : opens h "getforce" = true
      · simp [h1, h2, h3]
      · simp only [h1, h2, h3]
        split_ifs <;> simp_all

/-- The loop variables describe the history. -/
structure Inv (h : List (Ev P)) (s : St P F) : Prop where
  has : s.has = true ↔ Fresh h
  frc_some : ∀ q, LastPos h q → s.frc = some (calcF q)
  frc_none : (∀ q, ¬ LastPos h q) → s.frc = none
  calcs : s.calcs = positions h
  cnt : s.cnt = (positions h).length

theorem is_snoc_fresh {h : List (Ev P)} {e : Ev P} (hg : ¬ e.Is "getforce") (hp : ¬ e.Is "posdata") :
    Fresh (h ++ [e]) ↔ Fresh h := by
  constructor
  · rintro ⟨a, x, b, h1, h2, h3⟩
    rcases List.eq_nil_or_concat b with rfl | ⟨b', y, rfl⟩
    · rw [show a ++ [x] = a ++ [x] from rfl] at h1
      have := List.append_inj' h1 rfl
      simp only [List.cons.injEq, and_true] at this
      rw [← this.2] at h2
      exact absurd h2 hp
    · have h1' : h ++ [e] = (a ++ x :: b') ++ [y] := by simpa using h1
      have := List.append_inj' h1' rfl
      exact ⟨a, x, b', this.1, h2, fun z hz => h3 z (by simp [hz])⟩
  · rintro ⟨a, x, b, rfl, h2, h3⟩
    refine ⟨a, x, b ++ [e], by simp, h2, ?_⟩
    intro z hz
    rcases List.mem_append.1 hz with hz | hz
    · exact h3 z hz
    · rw [List.mem_singleton.1 hz]; exact hg

theorem snoc_lastPos {h : List (Ev P)} {e : Ev P} (hp : ¬ e.Is "posdata") (q : P) :
    LastPos (h ++ [e]) q ↔ LastPos h q := by
  constructor
  · rintro ⟨a, t, w, b, h1, h2, h3⟩
    rcases List.eq_nil_or_concat b with rfl | ⟨b', y, rfl⟩
    · have := List.append_inj' h1 rfl
      simp only [List.cons.injEq, and_true] at this
      exact absurd ⟨t, some q, w, this.2, h2⟩ hp
    · have h1' : h ++ [e] = (a ++ .msg t (some q) w :: b') ++ [y] := by simpa using h1
      have := List.append_inj' h1' rfl
      exact ⟨a, t, w, b', this.1, h2, fun z hz => h3 z (by simp [hz])⟩
  · rintro ⟨a, t, w, b, rfl, h2, h3⟩
    refine ⟨a, t, w, b ++ [e], by simp, h2, ?_⟩
    intro z hz
    rcases List.mem_append.1 hz with hz | hz
    · exact h3 z hz
    · rw [List.mem_singleton.1 hz]; exact hp

theorem positions_snoc {h : List (Ev P)} {e : Ev P} (hp : ¬ e.Is "posdata") :
    positions (h ++ [e]) = positions h := by
  unfold positions
  rw [List.filterMap_append]
  suffices hh : [e].filterMap (fun
      | .msg t (some q) _ => if opens t "posdata" then some q else none
      | _ => none : Ev P → Option P) = [] by rw [hh, List.append_nil]
  cases e with
  | closed => rfl
  | msg t p w =>
    cases p with
    | none => rfl
    | some q =>
      have : ¬ opens t "posdata" = true := fun hc => hp ⟨t, some q, w, rfl, hc⟩
      simp [this]

/-- One pass: the reply is the right one for the history, and the state keeps describing it. -/
theorem step_inv {h : List (Ev P)} {s : St P F} (hi : Inv calcF h s) {e : Ev P} {r : Reply F} {s' : St P F}
    (hs : step calcF s e = .inl (r, s')) :
    Inv calcF (h ++ [e]) s' ∧
    (e.Is "status" → (Fresh h → r = .text (some "HAVEDATA    ".toList)) ∧
      (¬ Fresh h → r = .text (some "READY       ".toList))) ∧
    (e.Is "getforce" → (∀ q, LastPos h q → r = .forces (some (calcF q))) ∧
      ((∀ q, ¬ LastPos h q) → r = .forces none)) := by
  cases e with
  | closed => cases hs
  | msg t p w =>
    have is_word : ∀ c, (Ev.msg t p w).Is c ↔ opens t c = true := fun c => by
      constructor
      · rintro ⟨a, b, d, he, hc⟩; cases he; exact hc
      · intro hc; exact ⟨t, p, w, rfl, hc⟩
    obtain ⟨ci1, ci2, ci3⟩ := classify_iff t
    have is1 : (Ev.msg t p w).Is "status" ↔ classify t = .status := by rw [is_word, ci1]
    have is2 : (Ev.msg t p w).Is "posdata" ↔ classify t = .posdata := by rw [is_word, ci2]
    have is3 : (Ev.msg t p w).Is "getforce" ↔ classify t = .getforce := by rw [is_word, ci3]
    have keep : classify t ≠ .posdata → classify t ≠ .getforce → Inv calcF (h ++ [.msg t p w]) s := by
      intro hp hg
      have hp' : ¬ (Ev.msg t p w).Is "posdata" := by rw [is2]; exact hp
      have hg' : ¬ (Ev.msg t p w).Is "getforce" := by rw [is3]; exact hg
      refine ⟨by rw [is_snoc_fresh hg' hp']; exact hi.has, ?_, ?_, ?_, ?_⟩
      · intro q hq; rw [snoc_lastPos hp'] at hq; exact hi.frc_some q hq
      · intro hq; exact hi.frc_none fun q hq' => hq q ((snoc_lastPos hp' q).2 hq')
      · rw [positions_snoc hp']; exact hi.calcs
      · rw [positions_snoc hp']; exact hi.cnt
    simp only [step] at hs
    simp only [is1, is3]
    cases hc : classify t with
    | needinit => rw [hc] at hs; cases hs
    | other => rw [hc] at hs; cases hs
    | exit => rw [hc] at hs; cases hs
    | setparam =>
      rw [hc] at hs
      simp only [Sum.inl.injEq, Prod.mk.injEq] at hs
      obtain ⟨rfl, rfl⟩ := hs
      exact ⟨keep (by simp [hc]) (by simp [hc]), by simp, by simp⟩
    | status =>
      rw [hc] at hs
      simp only at hs
      split_ifs at hs with hw
      all_goals try (cases hs)
      · refine ⟨keep (by simp [hc]) (by simp [hc]), fun _ => ⟨fun _ => by rfl, fun hn => ?_⟩, by simp⟩
        exact absurd (hi.has.1 (by assumption)) hn
      · refine ⟨keep (by simp [hc]) (by simp [hc]), fun _ => ⟨fun hn => ?_, fun _ => by rfl⟩, by simp⟩
        exact absurd (hi.has.2 hn) (by assumption)
    | getforce =>
      rw [hc] at hs
      simp only at hs
      split_ifs at hs with hw
      simp only [Sum.inl.injEq, Prod.mk.injEq] at hs
      obtain ⟨rfl, rfl⟩ := hs
      have hp' : ¬ (Ev.msg t p w).Is "posdata" := by rw [is2, hc]; simp
      refine ⟨⟨?_, ?_, ?_, ?_, ?_⟩, by simp, fun _ => ⟨?_, ?_⟩⟩
      · constructor
        · intro hh; cases hh
        · rintro ⟨a, x, b, h1, h2, h3⟩
          rcases List.eq_nil_or_concat b with rfl | ⟨b', y, rfl⟩
          · have := List.append_inj' h1 rfl
            simp only [List.cons.injEq, and_true] at this
            rw [← this.2] at h2
            exact absurd h2 hp'
          · have h1' : h ++ [.msg t p w] = (a ++ x :: b') ++ [y] := by simpa using h1
            have := List.append_inj' h1' rfl
            simp only [List.cons.injEq, and_true] at this
            exact absurd (this.2 ▸ is3.2 hc) (h3 y (by simp))
      · intro q hq; rw [snoc_lastPos hp'] at hq; exact hi.frc_some q hq
      · intro hq; exact hi.frc_none fun q hq' => hq q ((snoc_lastPos hp' q).2 hq')
      · rw [positions_snoc hp']; exact hi.calcs
      · rw [positions_snoc hp']; exact hi.cnt
      · intro q hq; rw [hi.frc_some q hq]
      · intro hq; rw [hi.frc_none hq]
    | posdata =>
      rw [hc] at hs
      cases p with
      | none => cases hs
      | some q =>
        simp only [Sum.inl.injEq, Prod.mk.injEq] at hs
        obtain ⟨rfl, rfl⟩ := hs
        have hpos : positions (h ++ [Ev.msg t (some q) w]) = positions h ++ [q] := by
          unfold positions
          rw [List.filterMap_append]
          simp [ci2.1 hc]
        have hlast : LastPos (h ++ [Ev.msg t (some q) w]) q := ⟨h, t, w, [], rfl, ci2.1 hc, by simp⟩
        refine ⟨⟨?_, ?_, ?_, ?_, ?_⟩, by simp, by simp⟩
        · refine ⟨fun _ => ⟨h, _, [], rfl, is2.2 hc, by simp⟩, fun _ => rfl⟩
        · rintro q' ⟨a, t', w', b, h1, h2, h3⟩
          rcases List.eq_nil_or_concat b with rfl | ⟨b', y, rfl⟩
          · have := List.append_inj' h1 rfl
            simp only [List.cons.injEq, and_true, Ev.msg.injEq, Option.some.injEq] at this
            rw [this.2.2.1]
          · have h1' : h ++ [Ev.msg t (some q) w] = (a ++ .msg t' (some q') w' :: b') ++ [y] := by
              simpa using h1
            have := List.append_inj' h1' rfl
            simp only [List.cons.injEq, and_true] at this
            exact absurd (this.2 ▸ is2.2 hc) (h3 y (by simp))
        · intro hq; exact absurd hlast (hq q)
        · simp only [hpos, hi.calcs]
        · simp only [hpos, hi.cnt, List.length_append, List.length_singleton]

theorem run_inv (N : ℕ) (es : List (Ev P)) : ∀ (h : List (Ev P)) (s : St P F), Inv calcF h s →
    (∀ i r, (run calcF N s es).1[i]? = some r → ∃ e, es[i]? = some e ∧
      (e.Is "status" → (Fresh (h ++ es.take i) → r = .text (some "HAVEDATA    ".toList)) ∧
        (¬ Fresh (h ++ es.take i) → r = .text (some "READY       ".toList))) ∧
      (e.Is "getforce" → (∀ q, LastPos (h ++ es.take i) q → r = .forces (some (calcF q))) ∧
        ((∀ q, ¬ LastPos (h ++ es.take i) q) → r = .forces none))) ∧
    (run calcF N s es).2.1.calcs = positions (h ++ es.take (run calcF N s es).1.length) ∧
    (s.cnt ≤ N + 1 → (run calcF N s es).2.1.calcs.length ≤ N + 1) := by
  induction es with
  | nil =>
    intro h s hi
    refine ⟨fun i r hr => by simp [run] at hr, by simpa [run] using hi.calcs, fun hc => ?_⟩
    have : (run calcF N s []).2.1 = s := rfl
    rw [this, hi.calcs, ← hi.cnt]; exact hc
  | cons e es ih =>
    intro h s hi
    by_cases hN : s.cnt ≤ N
    · cases hs : step calcF s e with
      | inr o =>
        have hrun : run calcF N s (e :: es) = ([], o.1, o.2) := by
          simp only [run]; rw [if_pos hN, hs]
        have hcalcs : o.1.calcs = s.calcs := by
          cases e with
          | closed => simp only [step, Sum.inr.injEq] at hs; rw [← hs]
          | msg t p w =>
            simp only [step] at hs
            cases hc : classify t <;> rw [hc] at hs <;> simp only at hs
            · simp only [Sum.inr.injEq] at hs; rw [← hs]
            · split_ifs at hs; all_goals (simp only [Sum.inr.injEq] at hs; rw [← hs])
            · cases p with
              | none => simp only [Sum.inr.injEq] at hs; rw [← hs]
              | some q => cases hs
            · split_ifs at hs; all_goals (simp only [Sum.inr.injEq] at hs; rw [← hs])
            · simp only [Sum.inr.injEq] at hs; rw [← hs]
            · cases hs
            · simp only [Sum.inr.injEq] at hs; rw [← hs]
        rw [hrun]
        refine ⟨fun i r hr => by simp at hr, ?_, fun _ => ?_⟩
        · simpa [hcalcs] using hi.calcs
        · simp only [hcalcs, hi.calcs]; rw [← hi.cnt]; omega
      | inl o =>
        obtain ⟨r0, s'⟩ := o
        obtain ⟨hi', h2, h3⟩ := step_inv calcF hi hs
        have hrun : run calcF N s (e :: es) = (r0 :: (run calcF N s' es).1, (run calcF N s' es).2) := by
          simp only [run]; rw [if_pos hN, hs]
        obtain ⟨i1, i2, i3⟩ := ih (h ++ [e]) s' hi'
        rw [hrun]
        refine ⟨?_, ?_, fun _ => ?_⟩
        · intro i r hr
          cases i with
          | zero =>
            simp only [List.getElem?_cons_zero, Option.some.injEq] at hr
            subst hr
            exact ⟨e, rfl, by simpa using h2, by simpa using h3⟩
          | succ i =>
            simp only [List.getElem?_cons_succ] at hr
            obtain ⟨x, x1, x2⟩ := i1 i r hr
            refine ⟨x, by simpa using x1, ?_⟩
            simpa [List.take_succ_cons, List.append_assoc] using x2
        · simpa [List.take_succ_cons, List.append_assoc] using i2
        · refine i3 ?_
          have hcnt := hi'.cnt
          have : (positions (h ++ [e])).length ≤ (positions h).length + 1 := by
            unfold positions
            rw [List.filterMap_append, List.length_append]
            have := List.length_filterMap_le (fun
              | .msg t (some q) _ => if opens t "posdata" then some q else none
              | _ => none : Ev P → Option P) [e]
            simp only [List.length_singleton] at this
            omega
          have := hi.cnt
          omega
    · have hrun : run calcF N s (e :: es) = ([], s, .limit) := by
        simp only [run]; rw [if_neg hN]
      rw [hrun]
      refine ⟨fun i r hr => by simp at hr, by simpa using hi.calcs, fun hc => ?_⟩
      rw [show (([] : List (Reply F)), s, End.limit).2.1 = s from rfl, hi.calcs, ← hi.cnt]; exact hc

theorem start_inv : Inv calcF ([] : List (Ev P)) start := by
  have hl : ∀ q, ¬ LastPos ([] : List (Ev P)) q := by
    rintro q ⟨a, t, w, b, h, _⟩; simp at h
  refine ⟨⟨fun h => (by cases h), ?_⟩, fun q hq => absurd hq (hl q), fun _ => rfl, rfl, rfl⟩
  rintro ⟨a, e, b, h, _⟩; simp at h

/-- **C30** (replies).  Whatever the server sends, the reply to each STATUS message that is handled is
HAVEDATA if positions were received since the last force request and READY otherwise. -/
theorem status_truthful (N : ℕ) (es : List (Ev P)) (i : ℕ) (r : Reply F)
    (hr : (run calcF N start es).1[i]? = some r) (e : Ev P) (he : es[i]? = some e) (hs : e.Is "status") :
    (Fresh (es.take i) → r = .text (some "HAVEDATA    ".toList)) ∧
    (¬ Fresh (es.take i) → r = .text (some "READY       ".toList)) := by
  obtain ⟨e', h1, h2, _⟩ := (run_inv calcF N es [] start (start_inv calcF)).1 i r hr
  rw [he, Option.some.injEq] at h1
  subst h1
  exact h2 hs

/-- **C30** (forces).  The reply to each force request that is handled is the result of the calculation
for the last positions received; if none were received, it is memory that was never computed. -/
theorem forces_are_of_last_positions (N : ℕ) (es : List (Ev P)) (i : ℕ) (r : Reply F)
    (hr : (run calcF N start es).1[i]? = some r) (e : Ev P) (he : es[i]? = some e) (hs : e.Is "getforce") :
    (∀ q, LastPos (es.take i) q → r = .forces (some (calcF q))) ∧
    ((∀ q, ¬ LastPos (es.take i) q) → r = .forces none) := by
  obtain ⟨e', h1, _, h2⟩ := (run_inv calcF N es [] start (start_inv calcF)).1 i r hr
  rw [he, Option.some.injEq] at h1
  subst h1
  exact h2 hs

/-- **C30** (calculations).  There is one calculation for each position message that is handled, in
order. -/
theorem one_calculation_per_position (N : ℕ) (es : List (Ev P)) :
    (run calcF N start es).2.1.calcs = positions (es.take (run calcF N start es).1.length) := by
  simpa using (run_inv calcF N es [] start (start_inv calcF)).2.1

/-- **C30** (number of calculations, partial).  At most one more than the configured maximum.  Missing:
the bound without the "one more"; that is false, see `one_calculation_too_many`. -/
theorem calculations_bounded_partial (N : ℕ) (es : List (Ev P)) :
    (run calcF N start es).2.1.calcs.length ≤ N + 1 :=
  (run_inv calcF N es [] start (start_inv calcF)).2.2 (by simp [start])

/-- The server's usual cycle: positions, then a force request. -/
def cycle (q : P) : List (Ev P) := [.msg "POSDATA     ".toList (some q) true, .msg "GETFORCE    ".toList none true]

theorem classify_pos : classify "POSDATA     ".toList = .posdata := by decide
theorem classify_get : classify "GETFORCE    ".toList = .getforce := by decide

theorem run_cycles (N : ℕ) (q : P) : ∀ (k : ℕ) (s : St P F), s.cnt + k = N → ∀ tail,
    ∃ s', s'.cnt = N ∧ s'.calcs = s.calcs ++ List.replicate k q ∧
      run calcF N s ((List.replicate k (cycle q)).flatten ++ tail) =
        ((List.replicate k [Reply.nothing, Reply.forces (some (calcF q))]).flatten ++ (run calcF N s' tail).1,
          (run calcF N s' tail).2) := by
  intro k
  induction k with
  | zero => intro s hs tail; exact ⟨s, by omega, by simp, by simp⟩
  | succ k ih =>
    intro s hs tail
    obtain ⟨s', h1, h2, h3⟩ := ih ⟨s.cnt + 1, false, some (calcF q), s.calcs ++ [q]⟩
      (by simp only; omega) tail
    refine ⟨s', h1, by rw [h2, List.replicate_succ]; simp, ?_⟩
    simp only [List.replicate_succ, List.flatten_cons, cycle, List.cons_append, List.nil_append, run]
    rw [if_pos (by omega)]
    simp only [step, classify_pos, classify_get, if_true]
    rw [if_pos (by omega), ← cycle, h3]

/-- **C30 fails** in two ways: for every configured maximum `N` the usual cycle performs `N + 1`
calculations, and the loop ends before the force request for the last one is handled, so its result is
never sent. -/
theorem one_calculation_too_many (N : ℕ) (q : P) :
    let t := run calcF N start ((List.replicate (N + 1) (cycle q)).flatten)
    t.2.1.calcs.length = N + 1 ∧ t.2.2 = .limit ∧
      t.1 = (List.replicate N [Reply.nothing, Reply.forces (some (calcF q))]).flatten ++ [Reply.nothing] := by
  obtain ⟨s', h1, h2, h3⟩ := run_cycles calcF N q N start (by simp [start]) (cycle q)
  have e : (List.replicate (N + 1) (cycle q)).flatten = (List.replicate N (cycle q)).flatten ++ cycle q := by
    rw [List.replicate_succ']; simp
  have hlast : run calcF N s' (cycle q) =
      ([Reply.nothing], ⟨s'.cnt + 1, true, some (calcF q), s'.calcs ++ [q]⟩, .limit) := by
    simp only [cycle, run]
    rw [if_pos (by omega)]
    simp only [step, classify_pos]
    rw [if_neg (by omega)]
  simp only
  rw [e, h3, hlast]
  refine ⟨?_, rfl, rfl⟩
  simp [h2, start]

/-- No header is understood as a request to exit: the program ends with an error when the server opens
so. -/
theorem exit_not_understood (h : List Char) : classify h ≠ .exit ∧ classify "EXIT        ".toList = .other := by
  refine ⟨?_, by decide⟩
  unfold classify
  split_ifs <;> simp

theorem exit_is_failure (N : ℕ) (s : St P F) (hs : s.cnt ≤ N) (p : Option P) (w : Bool) (es : List (Ev P)) :
    (run calcF N s (.msg "EXIT        ".toList p w :: es)).2.2 = .failure := by
  simp only [run]
  rw [if_pos hs]
  have : classify "EXIT        ".toList = .other := by decide
  simp only [step, this]

end main

/-- A session: two steps, status asked in between. -/
example : run (fun x : ℕ => x * 10) 5 start [.msg "STATUS      ".toList none true,
    .msg "posdata     ".toList (some 7) true, .msg "STATUS      ".toList none true,
    .msg "GETFORCE    ".toList none true, .msg "STATUS      ".toList none true, .closed] =
    ([.text (some "READY       ".toList), .nothing, .text (some "HAVEDATA    ".toList),
      .forces (some 70), .text (some "READY       ".toList)], ⟨1, false, some 70, [7]⟩, .closed) := by
  rfl

/-- Forces asked for before any positions were sent. -/
example : (run (fun x : ℕ => x * 10) 5 start [.msg "GETFORCE    ".toList none true]).1 = [.forces none] := rfl

/-! ## C51: the force reply -/

theorem land_fold (ws : List ℤ) : ∀ r : ℕ, r ≤ 1 →
    ws.foldl (fun ret w => ret &&& (w + 1).toNat) r =
      if r = 1 ∧ ∀ w ∈ ws, (w + 1).toNat % 2 = 1 then 1 else 0 := by
  induction ws with
  | nil => intro r hr; simp only [List.foldl_nil]; split_ifs with h <;> simp at h <;> omega
  | cons w ws ih =>
    intro r hr
    rw [List.foldl_cons]
    have e : r &&& (w + 1).toNat = if r = 1 ∧ (w + 1).toNat % 2 = 1 then 1 else 0 := by
      rcases Nat.le_one_iff_eq_zero_or_eq_one.1 hr with rfl | rfl
      · simp
      · rw [Nat.and_comm, Nat.and_one_is_mod]
        split_ifs with h <;> omega
    rw [e, ih _ (by split_ifs <;> omega)]
    by_cases h1 : r = 1 ∧ (w + 1).toNat % 2 = 1
    · rw [if_pos h1]
      simp [h1.1, h1.2]
    · rw [if_neg h1]
      rw [if_neg (by simp), if_neg]
      rintro ⟨a, b⟩
      exact h1 ⟨a, b w (by simp)⟩

/-- **C51** (exact outcome).  Success is reported exactly when every write returned an even number of
bytes. -/
theorem write_outcome (ws : List ℤ) (h : ∀ w ∈ ws, -1 ≤ w) :
    writeForces ws = if ∀ w ∈ ws, 0 ≤ w ∧ w % 2 = 0 then 0 else -1 := by
  unfold writeForces
  rw [land_fold ws 1 (le_refl _)]
  have : (1 = 1 ∧ ∀ w ∈ ws, (w + 1).toNat % 2 = 1) ↔ ∀ w ∈ ws, 0 ≤ w ∧ w % 2 = 0 := by
    constructor
    · intro hh w hw
      have := hh.2 w hw
      have := h w hw
      omega
    · intro hh
      refine ⟨rfl, fun w hw => ?_⟩
      have := hh w hw
      omega
  by_cases hc : ∀ w ∈ ws, 0 ≤ w ∧ w % 2 = 0
  · rw [if_pos (this.2 hc), if_pos hc]; rfl
  · rw [if_neg (fun h => hc (this.1 h)), if_neg hc]; rfl

/-- **C51** (partial).  A write that fails is always reported, and if all bytes of the reply for `n`
atoms are written then success is reported.  Missing: that success implies that all bytes were written;
that is false, see `write_short_unnoticed`. -/
theorem write_failure_reported_partial (ws : List ℤ) (h : ∀ w ∈ ws, -1 ≤ w) (n : ℕ) :
    ((∃ w ∈ ws, w < 0) → writeForces ws = -1) ∧
    (ws = [12, 8, 4, 24 * n, 72, 4] → writeForces ws = 0) := by
  rw [write_outcome ws h]
  constructor
  · rintro ⟨w, hw, hn⟩
    rw [if_neg]
    intro hh
    have := (hh w hw).1
    omega
  · rintro rfl
    have hh : ∀ w ∈ [(12 : ℤ), 8, 4, 24 * n, 72, 4], 0 ≤ w ∧ w % 2 = 0 := by
      intro w hw
      simp only [List.mem_cons, List.not_mem_nil, or_false] at hw
      omega
    exact if_pos hh

/-- **C51 fails.**  For two atoms, writing 16 of the 48 bytes of the forces is reported as success. -/
theorem write_short_unnoticed : writeForces [12, 8, 4, 16, 72, 4] = 0 := by decide

example : writeForces [12, 8, 4, 48, 72, -1] = -1 := by decide

/-! ## C32: the virial -/

/-- The stress array holds the symmetric tensor `σ`. -/
def Holds (σ : Fin 3 → Fin 3 → ℝ) (s : Fin 6 → ℝ) : Prop :=
  (∀ a b, σ a b = σ b a) ∧ s = ![σ 0 0, σ 0 1, σ 0 2, σ 1 1, σ 1 2, σ 2 2]

/-- The array of nine numbers is the tensor `τ`, row by row. -/
def Rows (τ : Fin 3 → Fin 3 → ℝ) : Fin 9 → ℝ :=
  ![τ 0 0, τ 0 1, τ 0 2, τ 1 0, τ 1 1, τ 1 2, τ 2 0, τ 2 1, τ 2 2]

theorem virial_base {σ : Fin 3 → Fin 3 → ℝ} {s : Fin 6 → ℝ} (h : Holds σ s) (vol : ℝ) :
    (![-s 0 * vol, -s 1 * vol, -s 2 * vol, -s 1 * vol, -s 3 * vol, -s 4 * vol,
      -s 2 * vol, -s 4 * vol, -s 5 * vol] : Fin 9 → ℝ) = Rows fun a b => -vol * σ a b := by
  obtain ⟨h1, rfl⟩ := h
  have a := h1 1 0
  have b := h1 2 0
  have c := h1 2 1
  unfold Rows
  funext i
  fin_cases i <;> simp [a, b, c] <;> ring

/-- **C32** (periodic cells).  With stress calculated and all three axes periodic the nine numbers are
`-volume * stress`, symmetric, whatever the uninitialised counter holds. -/
theorem virial_periodic (c : Cell) (area : ℝ) (u : ℤ) (σ : Fin 3 → Fin 3 → ℝ) (s : Fin 6 → ℝ) (h : Holds σ s)
    (hc : c.calcStress ≠ 0) (hb : c.BC = 2) :
    virial c area u s = some (Rows fun a b => -(c.jac * c.lx * c.ly * c.lz) * σ a b) := by
  unfold virial
  simp only [hc, hb, if_false]
  simp only [show ¬ ((2 : ℤ) = 1) by norm_num, show ¬ ((2 : ℤ) = 3) by norm_num,
    show ¬ ((2 : ℤ) = 4) by norm_num, show ¬ ((2 : ℤ) ≥ 5 ∧ (2 : ℤ) ≤ 7) by norm_num, if_false]
  rw [virial_base h]

/-- Length, area or volume by which the virial of a system with these periodic axes is divided. -/
noncomputable def nonPeriodic (c : Cell) : ℝ :=
  (if c.bcx = 0 then 1 else c.lx) * (if c.bcy = 0 then 1 else c.ly) * (if c.bcz = 0 then 1 else c.lz)

theorem loop_zero (f : ℝ → ℝ) (v : Fin 9 → ℝ) : loopFrom 0 f v = some fun i => f (v i) := by
  unfold loopFrom
  simp

theorem rows_map (τ : Fin 3 → Fin 3 → ℝ) (f : ℝ → ℝ) :
    (fun i => f (Rows τ i)) = Rows fun a b => f (τ a b) := by
  unfold Rows; funext i; fin_cases i <;> rfl

/-- **C32** (other cells, partial).  If the uninitialised counter happens to be zero: zero when stress is
not calculated or the system is isolated; divided by the non-periodic lengths for slabs, and for wires
along x or y.  Missing: the same without the hypothesis on the counter (`virial_uninitialised`) and for
wires along z (`virial_wire_z`); both are false. -/
theorem virial_other_partial (c : Cell) (area : ℝ) (σ : Fin 3 → Fin 3 → ℝ) (s : Fin 6 → ℝ) (h : Holds σ s) :
    ((c.calcStress = 0 ∨ c.BC = 1) → virial c area 0 s = some (Rows fun _ _ => 0)) ∧
    (c.calcStress ≠ 0 → (c.BC = 3 ∧ ((c.bcx = 0 ∧ c.bcy = 0 ∧ c.bcz ≠ 0) ∨ (c.bcx = 0 ∧ c.bcy ≠ 0 ∧ c.bcz = 0) ∨
        (c.bcx ≠ 0 ∧ c.bcy = 0 ∧ c.bcz = 0)) ∨
      c.BC = 4 ∧ ((c.bcx = 0 ∧ c.bcy ≠ 0 ∧ c.bcz ≠ 0) ∨ (c.bcx ≠ 0 ∧ c.bcy = 0 ∧ c.bcz ≠ 0))) →
      virial c area 0 s = some (Rows fun a b => -(c.jac * c.lx * c.ly * c.lz) * σ a b / nonPeriodic c)) := by
  constructor
  · intro hz
    have : (fun _ : Fin 9 => (0 : ℝ)) = Rows fun _ _ => 0 := by
      unfold Rows; funext i; fin_cases i <;> rfl
    unfold virial
    simp only [loop_zero]
    by_cases h0 : c.calcStress = 0
    · rw [if_pos h0, this]
    · rw [if_neg h0, if_pos (by tauto), this]
  · intro h0 hb
    unfold virial nonPeriodic
    simp only [loop_zero, virial_base h]
    rw [if_neg h0]
    rcases hb with ⟨hb, ⟨x, y, z⟩ | ⟨x, y, z⟩ | ⟨x, y, z⟩⟩ | ⟨hb, ⟨x, y, z⟩ | ⟨x, y, z⟩⟩ <;>
      simp only [hb, x, y, z, if_true, if_false, and_true, and_false, false_and, one_mul, mul_one] <;>
      simp only [show ¬ ((3 : ℤ) = 1) by norm_num, show ¬ ((4 : ℤ) = 1) by norm_num,
        show ¬ ((4 : ℤ) = 3) by norm_num, if_true, if_false] <;>
      exact congrArg some (rows_map _ (fun x => x / _))

/-- **C32 fails** (uninitialised counter): if it happens to be 9 or more, the virial of a system without
stress calculation is whatever the stress array holds instead of zero; if it is negative, memory outside
the array is written. -/
theorem virial_uninitialised :
    let c : Cell := ⟨1, 1, 1, 1, 1, 1, 1, 1, 0⟩
    virial c 1 9 (fun _ => 1) = some (fun _ => -1) ∧ virial c 1 (-1) (fun _ => 1) = none := by
  constructor
  · unfold virial loopFrom
    simp only [if_true]
    norm_num
    funext i; fin_cases i <;> rfl
  · unfold virial loopFrom
    simp

/-- **C32 fails** (wire along z): the branch repeats the test of the x axis, so the numbers are not
divided by the cross-section. -/
theorem virial_wire_z (c : Cell) (area : ℝ) (u : ℤ) (σ : Fin 3 → Fin 3 → ℝ) (s : Fin 6 → ℝ) (h : Holds σ s)
    (hc : c.calcStress ≠ 0) (hb : c.BC = 4) (hx : c.bcx ≠ 0) (hy : c.bcy ≠ 0) :
    virial c area u s = some (Rows fun a b => -(c.jac * c.lx * c.ly * c.lz) * σ a b) := by
  unfold virial
  simp only [hc, hb, hx, hy, if_false]
  simp only [show ¬ ((4 : ℤ) = 1) by norm_num, show ¬ ((4 : ℤ) = 3) by norm_num, if_true, if_false]
  rw [virial_base h]

example : virial ⟨2, 0, 0, 0, 2, 3, 4, 1, 1⟩ 1 5 ![1, 0, 0, 2, 0, 3] =
    some (Rows fun a b => -(1 * 2 * 3 * 4) * (![![1, 0, 0], ![0, 2, 0], ![0, 0, 3]] : Fin 3 → Fin 3 → ℝ) a b) := by
  refine virial_periodic _ _ _ _ _ ⟨fun a b => ?_, ?_⟩ (by norm_num) rfl
  · fin_cases a <;> fin_cases b <;> rfl
  · rfl

/-! ## C33: the address -/

/-- Value of a string of decimal digits. -/
def decimal (ds : List Char) : ℕ := ds.foldl (fun a c => 10 * a + (c.toNat - 48)) 0

/-- The white space of the C locale. -/
def Blank (c : Char) : Prop := c ∈ [' ', '\t', '\n', '\x0b', '\x0c', '\r']

theorem isSpace_iff (c : Char) : isSpace c = true ↔ Blank c := by
  simp [isSpace, Blank, or_assoc]

/-- The text is a decimal number `v` the way `strtol` reads it: white space, an optional plus sign,
digits. -/
def Number (p : List Char) (v : ℕ) : Prop :=
  ∃ ws sg ds, p = ws ++ sg ++ ds ∧ (∀ c ∈ ws, Blank c) ∧ (sg = [] ∨ sg = ['+']) ∧ ds ≠ [] ∧
    (∀ c ∈ ds, c.isDigit = true) ∧ v = decimal ds

theorem not_space_of_digit {c : Char} (h : c.isDigit = true) : isSpace c = false := by
  simp only [Char.isDigit, Bool.and_eq_true, decide_eq_true_eq] at h
  have h1 : '0'.val ≤ c.val := h.1
  unfold isSpace
  rw [Bool.eq_false_iff]
  intro hc
  simp only [Bool.or_eq_true, decide_eq_true_eq] at hc
  rcases hc with ((((rfl | rfl) | rfl) | rfl) | rfl) | rfl <;> revert h1 <;> decide

theorem takeWhile_all {p : Char → Bool} {l : List Char} (h : ∀ c ∈ l, p c = true) :
    l.takeWhile p = l ∧ l.dropWhile p = [] := by
  induction l with
  | nil => exact ⟨rfl, rfl⟩
  | cons a l ih =>
    have := ih fun c hc => h c (by simp [hc])
    rw [List.takeWhile_cons, List.dropWhile_cons, if_pos (h a (by simp)), if_pos (h a (by simp)), this.1]
    exact ⟨rfl, this.2⟩

theorem mem_takeWhile {p : Char → Bool} {l : List Char} {c : Char} (h : c ∈ l.takeWhile p) : p c = true := by
  induction l with
  | nil => cases h
  | cons a l ih =>
    rw [List.takeWhile_cons] at h
    split_ifs at h with ha
    · rcases List.mem_cons.1 h with rfl | h
      · exact ha
      · exact ih h
    · cases h

theorem all_of_dropWhile {p : Char → Bool} {l : List Char} (h : l.dropWhile p = []) : ∀ c ∈ l, p c = true := by
  induction l with
  | nil => intro c hc; cases hc
  | cons a l ih =>
    rw [List.dropWhile_cons] at h
    split_ifs at h with ha
    intro c hc
    rcases List.mem_cons.1 hc with rfl | hc
    · exact ha
    · exact ih h c hc

theorem dropWhile_append_all {p : Char → Bool} {ws t : List Char} (h : ∀ c ∈ ws, p c = true)
    (ht : t.dropWhile p = t) : (ws ++ t).dropWhile p = t := by
  induction ws with
  | nil => exact ht
  | cons a ws ih =>
    rw [List.cons_append, List.dropWhile_cons, if_pos (h a (by simp))]
    exact ih fun c hc => h c (by simp [hc])

/-- `strtol` consumes the whole text with a positive result exactly for numbers. -/
theorem strtol_iff (p : List Char) (v : ℕ) (hv : 1 ≤ v) : strtol p = ((v : ℤ), []) ↔ Number p v := by
  constructor
  · intro h
    unfold strtol at h
    simp only at h
    set t := p.dropWhile isSpace with ht
    set t' := if t.head? = some '-' ∨ t.head? = some '+' then t.tail else t with ht'
    split_ifs at h with h1 h2
    · simp only [Prod.mk.injEq] at h; omega
    · simp only [Prod.mk.injEq] at h; omega
    · simp only [Prod.mk.injEq] at h
      obtain ⟨hv', hd⟩ := h
      have hall := all_of_dropWhile hd
      have htk : t'.takeWhile Char.isDigit = t' := (takeWhile_all hall).1
      rw [htk] at hv' h1
      refine ⟨p.takeWhile isSpace, if t.head? = some '+' then ['+'] else [], t', ?_, ?_, ?_, h1, hall, ?_⟩
      · rw [ht']
        have : p = p.takeWhile isSpace ++ t := (List.takeWhile_append_dropWhile).symm
        conv_lhs => rw [this]
        rw [List.append_assoc]
        congr 1
        cases hh : t with
        | nil => simp
        | cons a r =>
          rw [hh] at h2
          simp only [List.head?_cons, Option.some.injEq] at h2
          by_cases ha : a = '+'
          · simp [ha]
          · simp [ha, h2]
      · intro c hc; exact (isSpace_iff c).1 (mem_takeWhile hc)
      · split_ifs <;> simp
      · unfold decimal
        have : (fun a c => 10 * a + digitVal c : ℕ → Char → ℕ) = fun a c => 10 * a + (c.toNat - 48) := rfl
        rw [← this]
        exact_mod_cast hv'.symm
  · rintro ⟨ws, sg, ds, rfl, hws, hsg, hds, hdig, rfl⟩
    have hws := fun c hc => (isSpace_iff c).2 (hws c hc)
    obtain ⟨d, r, rfl⟩ := List.exists_cons_of_ne_nil hds
    have hd : d.isDigit = true := hdig d (by simp)
    have hdm : d ≠ '-' := by rintro rfl; revert hd; decide
    have hdp : d ≠ '+' := by rintro rfl; revert hd; decide
    have hdrop : (ws ++ sg ++ d :: r).dropWhile isSpace = sg ++ d :: r := by
      rw [List.append_assoc]
      refine dropWhile_append_all hws ?_
      rcases hsg with rfl | rfl
      · simp [not_space_of_digit hd]
      · rw [List.cons_append, List.dropWhile_cons, if_neg (by decide)]
    have hta := takeWhile_all hdig
    unfold strtol
    simp only [hdrop]
    have e1 : (if (sg ++ d :: r).head? = some '-' ∨ (sg ++ d :: r).head? = some '+' then (sg ++ d :: r).tail
        else sg ++ d :: r) = d :: r := by
      rcases hsg with rfl | rfl
      · simp [hdm, hdp]
      · simp
    have e2 : (sg ++ d :: r).head? ≠ some '-' := by
      rcases hsg with rfl | rfl
      · simp [hdm]
      · simp
    rw [e1, hta.1, hta.2, if_neg (by simp), if_neg e2]
    rfl

theorem split_colon (s : List Char) : (∀ h p, s = h ++ ':' :: p → ':' ∉ h →
    s.takeWhile (· ≠ ':') = h ∧ s.dropWhile (· ≠ ':') = ':' :: p) := by
  rintro h p rfl hh
  induction h with
  | nil => simp
  | cons a h ih =>
    have ha : a ≠ ':' := fun e => hh (by simp [e])
    have := ih (fun e => hh (by simp [e]))
    simp only [List.cons_append]
    rw [List.takeWhile_cons, List.dropWhile_cons]
    simp only [ha, ne_eq, not_false_eq_true, decide_true, if_true]
    exact ⟨by rw [this.1], this.2⟩

/-- **C33.**  Parsing succeeds exactly for strings with one colon whose second part is a number in
`1 .. 65535` (as read by `strtol`) or the word UNIX in any case.  The host is the first part, or
`localhost` if that is empty; `inet` is set exactly for numeric ports. -/
theorem split_name_iff (s : List Char) (host : List Char) (port : ℕ) (inet : Bool) :
    splitName s = some (host, port, inet) ↔
      ∃ h p, s = h ++ ':' :: p ∧ ':' ∉ h ∧ ':' ∉ p ∧ host = (if h = [] then "localhost".toList else h) ∧
        ((Number p port ∧ 1 ≤ port ∧ port ≤ 65535 ∧ inet = true) ∨
         (p.map Char.toLower = ['u', 'n', 'i', 'x'] ∧ port = 0 ∧ inet = false)) := by
  have hunix : "UNIX".toList.map Char.toLower = ['u', 'n', 'i', 'x'] := by decide
  have unix_strtol : ∀ p : List Char, p.map Char.toLower = ['u', 'n', 'i', 'x'] → (strtol p).2 ≠ [] := by
    intro p hp
    rcases p with _ | ⟨a, p⟩
    · simp at hp
    simp only [List.map_cons, List.cons.injEq] at hp
    have ha : a = 'u' ∨ a = 'U' := by
      have h := hp.1
      by_cases h2 : a.isUpper
      · right
        simp only [Char.toLower, Char.isUpper] at h h2
        have h3 := of_decide_eq_true h2
        rw [dif_pos h3] at h
        have h4 := congrArg Char.val h
        simp only at h4
        apply Char.ext
        have : a.val + 32 = 117 := h4
        have : a.val = 117 - 32 := by rw [← this]; simp
        rw [this]; rfl
      · left
        simp only [Char.toLower, Char.isUpper] at h h2
        have h3 : ¬ (a.val ≥ 'A'.val ∧ a.val ≤ 'Z'.val) := fun h => h2 (decide_eq_true h)
        rw [dif_neg h3] at h
        exact h
    have : strtol (a :: p) = (0, a :: p) := by
      rcases ha with rfl | rfl <;> unfold strtol <;> simp [isSpace]
    rw [this]; simp
  constructor
  · intro hs
    unfold splitName at hs
    simp only at hs
    cases hd : s.dropWhile (· ≠ ':') with
    | nil => rw [hd] at hs; cases hs
    | cons c p =>
      have hc : c = ':' := by
        have := List.head?_dropWhile_not (fun c : Char => decide (c ≠ ':')) s
        rw [hd] at this
        simpa using this
      subst hc
      rw [hd] at hs
      simp only at hs
      have hsplit : s = s.takeWhile (· ≠ ':') ++ ':' :: p := by
        rw [← hd]; exact (List.takeWhile_append_dropWhile).symm
      have hnot : ':' ∉ s.takeWhile (· ≠ ':') := fun hm => by
        have := mem_takeWhile hm; simp at this
      by_cases h1 : ':' ∈ p
      · rw [if_pos h1] at hs; cases hs
      rw [if_neg h1] at hs
      refine ⟨_, p, hsplit, hnot, h1, ?_⟩
      by_cases h2 : (strtol p).2 = []
      · rw [if_pos h2] at hs
        by_cases h3 : (strtol p).1 > 0 ∧ (strtol p).1 ≤ 65535
        · rw [if_pos h3] at hs
          simp only [Option.some.injEq, Prod.mk.injEq] at hs
          obtain ⟨a, b, c⟩ := hs
          refine ⟨a.symm, Or.inl ⟨?_, by omega, by omega, c.symm⟩⟩
          rw [← strtol_iff p port (by omega)]
          exact Prod.ext (by simp only; omega) h2
        · rw [if_neg h3] at hs; cases hs
      · rw [if_neg h2] at hs
        rw [hunix] at hs
        by_cases h3 : p.map Char.toLower = ['u', 'n', 'i', 'x']
        · rw [if_pos h3] at hs
          simp only [Option.some.injEq, Prod.mk.injEq] at hs
          obtain ⟨a, b, c⟩ := hs
          exact ⟨a.symm, Or.inr ⟨h3, b.symm, c.symm⟩⟩
        · rw [if_neg h3] at hs; cases hs
  · rintro ⟨h, p, hsp, hh, hp, rfl, hcase⟩
    obtain ⟨e1, e2⟩ := split_colon s h p hsp hh
    unfold splitName
    simp only [e1, e2, if_neg hp]
    rcases hcase with ⟨hn, a, b, rfl⟩ | ⟨hu, rfl, rfl⟩
    · rw [← strtol_iff p port a] at hn
      rw [hn]
      rw [if_pos rfl, if_pos ⟨by simp only; omega, by simp only; omega⟩]
      simp only [Int.toNat_natCast]
    · rw [if_neg (unix_strtol p hu), hunix, if_pos hu]

example : splitName "localhost:1234".toList = some ("localhost".toList, 1234, true) := by decide
example : splitName ":31415".toList = some ("localhost".toList, 31415, true) := by decide
example : splitName "sparc_socket:unix".toList = some ("sparc_socket".toList, 0, false) := by decide
example : splitName "localhost:".toList = none := by decide
example : splitName "localhost:65536".toList = none := by decide
example : splitName "a:b:1".toList = none := by decide
example : splitName "h: +80".toList = some ("h".toList, 80, true) := by decide

end Sparc.Socket

import Verif.Tac
import Verif.Path.Model

/-!
# Path simplification (property C34)

The meaning of a path is fixed here without reference to the code: the list of components between
slashes is walked from the left; an empty component or `.` stays, `..` removes the last name, stays at
the root of an absolute path, and climbs one level otherwise.
-/

namespace Sparc.Path

/-- Components between slashes. -/
def comps : Str → List Str
  | [] => [[]]
  | c :: r => if c = '/' then [] :: comps r
    else match comps r with
      | [] => [[c]]
      | h :: t => (c :: h) :: t

/-- A place: absolute or relative, levels above the starting directory, names below. -/
structure Loc where
  abs : Bool
  ups : ℕ
  names : List Str

/-- Walk one component. -/
def Loc.step (l : Loc) (c : Str) : Loc :=
  if c = [] ∨ c = ['.'] then l
  else if c = ['.', '.'] then
    (if l.names = [] then (if l.abs then l else { l with ups := l.ups + 1 })
     else { l with names := l.names.dropLast })
  else { l with names := l.names ++ [c] }

/-- Meaning of a path. -/
def meaning (p : Str) : Loc :=
  (comps p).foldl Loc.step ⟨p.head? = some '/', 0, []⟩

/-- Names joined by slashes. -/
def join : List Str → Str
  | [] => []
  | [n] => n
  | n :: r => n ++ '/' :: join r

/-- `../` repeated. -/
def climb : ℕ → Str
  | 0 => []
  | k + 1 => '.' :: '.' :: '/' :: climb k

/-- The canonical spelling of a place. -/
def Loc.canon (l : Loc) : Str :=
  if l.abs then '/' :: join l.names
  else if l.ups = 0 ∧ l.names = [] then ['.']
  else climb l.ups ++ join l.names

/-! ## Lemmas -/

def W (l : Loc) (p : Str) : Loc := (comps p).foldl Loc.step l

theorem step_nil (l : Loc) : l.step [] = l := by simp [Loc.step]

theorem W_nil (l : Loc) : W l [] = l := by simp [W, comps, step_nil]

theorem W_slash (l : Loc) (r : Str) : W l ('/' :: r) = W l r := by simp [W, comps, step_nil]

theorem comps_ne (p : Str) : comps p ≠ [] := by
  induction p with
  | nil => simp [comps]
  | cons c r ih =>
    rw [comps]
    split_ifs
    · simp
    · split <;> simp

theorem comps_name (n : Str) (hn : '/' ∉ n) : comps n = [n] := by
  induction n with
  | nil => rfl
  | cons c r ih =>
    simp only [List.mem_cons, not_or] at hn
    rw [comps, if_neg (Ne.symm hn.1), ih hn.2]

theorem comps_name_slash (n r : Str) (hn : '/' ∉ n) : comps (n ++ '/' :: r) = n :: comps r := by
  induction n with
  | nil => simp [comps]
  | cons c t ih =>
    simp only [List.mem_cons, not_or] at hn
    rw [List.cons_append, comps, if_neg (Ne.symm hn.1), ih hn.2]

theorem W_name (l : Loc) (n r : Str) (hn : '/' ∉ n) (hr : r = [] ∨ ∃ t, r = '/' :: t) :
    W l (n ++ r) = W (l.step n) r := by
  obtain rfl | ⟨t, rfl⟩ := hr
  · rw [List.append_nil, W_nil]; simp [W, comps_name n hn]
  · rw [W_slash]; simp [W, comps_name_slash n t hn]

theorem mem_takeWhile_ne (l : Str) : '/' ∉ l.takeWhile (· ≠ '/') := by
  induction l with
  | nil => simp
  | cons a l ih =>
    rw [List.takeWhile_cons]
    split_ifs with h
    · simp only [ne_eq, decide_not, Bool.not_eq_eq_eq_not, Bool.not_true, decide_eq_false_iff_not] at h
      simp only [List.mem_cons, not_or]
      exact ⟨fun e => h e.symm, ih⟩
    · simp

theorem dropWhile_ne (l : Str) :
    l.dropWhile (· ≠ '/') = [] ∨ ∃ t, l.dropWhile (· ≠ '/') = '/' :: t := by
  induction l with
  | nil => simp
  | cons a l ih =>
    rw [List.dropWhile_cons]
    split_ifs with h
    · exact ih
    · right
      simp only [ne_eq, decide_not, Bool.not_eq_eq_eq_not, Bool.not_true, decide_eq_false_iff_not,
        not_not] at h
      exact ⟨l, by rw [h]⟩

theorem W_slashes (l : Loc) (r : Str) : W l (r.dropWhile (· = '/')) = W l r := by
  induction r with
  | nil => rfl
  | cons a r ih =>
    rw [List.dropWhile_cons]
    split_ifs with h
    · simp only [decide_eq_true_eq] at h
      rw [ih, h, W_slash]
    · rfl

/-- Names each preceded by a slash. -/
def slash : List Str → Str
  | [] => []
  | n :: r => '/' :: n ++ slash r

theorem slash_append (a b : List Str) : slash (a ++ b) = slash a ++ slash b := by
  induction a with
  | nil => rfl
  | cons n r ih => simp [slash, ih]

theorem join_eq (n : Str) (r : List Str) : join (n :: r) = n ++ slash r := by
  induction r generalizing n with
  | nil => simp [join, slash]
  | cons m r ih => rw [join, ih m]; simp [slash]; simp

theorem climb_length (k : ℕ) : (climb k).length = 3 * k := by
  induction k with
  | zero => rfl
  | succ k ih => simp [climb, ih]; omega

theorem climb_snoc (k : ℕ) : climb k ++ ['.', '.', '/'] = climb (k + 1) := by
  induction k with
  | zero => rfl
  | succ k ih => rw [climb, List.cons_append, List.cons_append, List.cons_append, ih]; rfl

def up (c : Str) : Str := (c.reverse.dropWhile (· ≠ '/')).tail.reverse

theorem dropWhile_name (n r : Str) (hn : '/' ∉ n) :
    (n ++ r).dropWhile (· ≠ '/') = r.dropWhile (· ≠ '/') := by
  induction n with
  | nil => rfl
  | cons c t ih =>
    simp only [List.mem_cons, not_or] at hn
    rw [List.cons_append, List.dropWhile_cons, if_pos (by simpa using Ne.symm hn.1), ih hn.2]

theorem up_slash (c n : Str) (hn : '/' ∉ n) : up (c ++ '/' :: n) = c := by
  unfold up
  rw [List.reverse_append, List.reverse_cons, List.append_assoc,
    dropWhile_name _ _ (by simpa using hn)]
  simp

theorem up_name (n : Str) (hn : '/' ∉ n) : up n = [] := by
  unfold up
  have := dropWhile_name n.reverse [] (by simpa using hn)
  rw [List.append_nil] at this
  rw [this]; simp

/-- What the work buffers hold for a place. -/
structure Inv (p0 : Str) (s : St) (l : Loc) : Prop where
  absolute : l.abs = true → s.pre = ['/'] ∧ l.ups = 0
  relative : l.abs = false → s.pre = p0 ++ climb l.ups ∧ (p0 = ['.', '/'] ∨ p0 = [] ∧ 0 < l.ups)
  names : ∀ n ∈ l.names, n ≠ [] ∧ '/' ∉ n
  copy : s.cpy = slash l.names ∨ ∃ n r, l.names = n :: r ∧ s.cpy = n ++ slash r

theorem Inv.pre_root {p0 s l} (h : Inv p0 s l) : s.pre = ['/'] ↔ l.abs = true := by
  constructor
  · intro e
    by_contra hc
    have hf : l.abs = false := by simpa using hc
    obtain ⟨h1, h2⟩ := h.relative hf
    rw [h1] at e
    rcases h2 with h2 | ⟨h2, h3⟩
    · rw [h2] at e; simp at e
    · obtain ⟨k, hk⟩ : ∃ k, l.ups = k + 1 := ⟨l.ups - 1, by omega⟩
      rw [h2, hk, climb] at e; simp at e
  · exact fun e => (h.absolute e).1

theorem Inv.cpy_nil {p0 s l} (h : Inv p0 s l) : s.cpy = [] ↔ l.names = [] := by
  constructor
  · intro e
    rcases h.copy with hc | ⟨n, r, hn, hc⟩
    · cases hl : l.names with
      | nil => rfl
      | cons a b => rw [hc, hl, slash] at e; simp at e
    · have := (h.names n (by rw [hn]; simp)).1
      rw [hc] at e; simp at e; exact absurd e.1 this
  · intro e
    rcases h.copy with hc | ⟨n, r, hn, hc⟩
    · rw [hc, e]; rfl
    · rw [e] at hn; simp at hn

theorem slash_up (r : List Str) (hr : ∀ n ∈ r, '/' ∉ n) : up (slash r) = slash r.dropLast := by
  rcases List.eq_nil_or_concat r with rfl | ⟨a, n, rfl⟩
  · rfl
  · rw [List.concat_eq_append, slash_append]
    simp only [slash, List.append_nil, List.dropLast_concat]
    exact up_slash _ _ (hr n (by simp))

/-- Length of the prefix that a place needs. -/
def need (p0 : Str) (l : Loc) : ℕ := if l.abs then 1 else p0.length + 3 * l.ups

theorem Inv.pre_length {p0 s l} (h : Inv p0 s l) : s.pre.length = need p0 l := by
  unfold need
  cases hb : l.abs with
  | true => rw [(h.absolute hb).1]; rfl
  | false => rw [(h.relative hb).1]; simp [climb_length]

theorem step_abs (l : Loc) (c : Str) : (l.step c).abs = l.abs := by
  unfold Loc.step; split_ifs <;> rfl

theorem step_ups (l : Loc) (c : Str) : l.ups ≤ (l.step c).ups := by
  unfold Loc.step; split_ifs <;> simp

theorem foldl_step (cs : List Str) (l : Loc) :
    (cs.foldl Loc.step l).abs = l.abs ∧ l.ups ≤ (cs.foldl Loc.step l).ups := by
  induction cs generalizing l with
  | nil => simp
  | cons c cs ih =>
    rw [List.foldl_cons]
    have := ih (l.step c)
    exact ⟨this.1.trans (step_abs l c), le_trans (step_ups l c) this.2⟩

theorem need_le (p0 : Str) (l : Loc) (p : Str) : need p0 l ≤ need p0 (W l p) := by
  have := foldl_step (comps p) l
  unfold need W
  rw [this.1]
  split_ifs
  · exact le_refl _
  · omega

theorem goUpper_spec {p0 s l} (len : ℕ) (h : Inv p0 s l) (hl : need p0 l + 1 ≤ len) :
    (need p0 (l.step ['.', '.']) + 1 ≤ len →
      ∃ s', goUpper len s = some s' ∧ Inv p0 s' (l.step ['.', '.']) ∧ s'.cpy.length ≤ s.cpy.length) ∧
    (¬ need p0 (l.step ['.', '.']) + 1 ≤ len → goUpper len s = none) := by
  have hr := h.pre_root
  have hn := h.cpy_nil
  have hlen := h.pre_length
  have hst : l.step ['.', '.'] =
      (if l.names = [] then (if l.abs then l else { l with ups := l.ups + 1 })
       else { l with names := l.names.dropLast }) := by
    unfold Loc.step; rw [if_neg (by simp), if_pos rfl]
  by_cases hm : l.names = []
  · rw [if_pos hm] at hst
    have hcpy : s.cpy = [] := hn.mpr hm
    by_cases hb : l.abs = true
    · rw [if_pos hb] at hst
      rw [hst]
      refine ⟨fun _ => ⟨⟨[], s.pre⟩, ?_, ?_, by simp⟩, fun hc => absurd hl hc⟩
      · unfold goUpper
        rw [if_neg (by simp [hr.mpr hb]), hcpy]
        rfl
      · exact ⟨h.absolute, h.relative, h.names, Or.inl (by rw [hm]; rfl)⟩
    · rw [if_neg hb] at hst
      have hf : l.abs = false := by simpa using hb
      have hpre : s.pre ≠ ['/'] := fun e => hb (hr.mp e)
      rw [hst]
      have hneed : need p0 { l with ups := l.ups + 1 } = (s.pre ++ ['.', '.', '/']).length := by
        rw [List.length_append, hlen]; unfold need; simp [hf]; omega
      rw [hneed]
      constructor
      · intro hle
        refine ⟨⟨[], s.pre ++ ['.', '.', '/']⟩, ?_, ?_, by simp⟩
        · unfold goUpper
          dsimp only
          rw [if_pos ⟨hcpy, hpre⟩, if_pos hle, hcpy]
          rfl
        · refine ⟨fun e => by simp [hf] at e, fun _ => ⟨?_, ?_⟩, by simpa [hm] using h.names, Or.inl ?_⟩
          · dsimp only
            rw [(h.relative hf).1, List.append_assoc, climb_snoc]
          · rcases (h.relative hf).2 with h2 | h2
            · exact Or.inl h2
            · exact Or.inr ⟨h2.1, by dsimp only; omega⟩
          · dsimp only; rw [hm]; rfl
      · intro hle
        unfold goUpper
        dsimp only
        rw [if_pos ⟨hcpy, hpre⟩, if_neg hle]
        rfl
  · rw [if_neg hm] at hst
    have hcpy : s.cpy ≠ [] := fun e => hm (hn.mp e)
    rw [hst]
    have hneed : need p0 { l with names := l.names.dropLast } = need p0 l := rfl
    rw [hneed]
    refine ⟨fun _ => ⟨⟨up s.cpy, s.pre⟩, ?_, ?_, ?_⟩, fun hc => absurd hl hc⟩
    · unfold goUpper
      rw [if_neg (fun e => hcpy e.1)]
      rfl
    · refine ⟨h.absolute, h.relative, fun n hn' => h.names n (List.mem_of_mem_dropLast hn'), ?_⟩
      dsimp only
      rcases h.copy with hc | ⟨n, r, hnr, hc⟩
      · left
        rw [hc, slash_up _ (fun n hn' => (h.names n hn').2)]
      · have hno : '/' ∉ n := (h.names n (by rw [hnr]; simp)).2
        rcases List.eq_nil_or_concat r with rfl | ⟨a, m, rfl⟩
        · left
          rw [hc, hnr]; simp [slash, up_name n hno]
        · right
          refine ⟨n, a, ?_, ?_⟩
          · rw [hnr, List.concat_eq_append, ← List.cons_append, List.dropLast_concat]
          · rw [hc, List.concat_eq_append, slash_append]
            simp only [slash, List.append_nil]
            rw [← List.append_assoc]
            exact up_slash _ _ (h.names m (by rw [hnr]; simp)).2
    · unfold up
      rw [List.length_reverse, List.length_tail]
      have := dropWhile_length (p := fun x => decide (x ≠ '/')) s.cpy.reverse
      rw [List.length_reverse] at this
      omega

theorem goLower_spec {p0 s l} (len hd : ℕ) (h : Inv p0 s l) (c : Str) (hc : '/' ∉ c) (h0 : c ≠ [])
    (h1 : c ≠ ['.']) (h2 : c ≠ ['.', '.']) (hl : hd + s.cpy.length + c.length + 2 ≤ len) :
    ∃ s', goLower len hd s ('/' :: c) = some s' ∧ Inv p0 s' (l.step c) ∧
      s'.cpy.length = s.cpy.length + c.length + 1 := by
  have hst : l.step c = { l with names := l.names ++ [c] } := by
    unfold Loc.step; rw [if_neg (by simp [h0, h1]), if_neg h2]
  rw [hst]
  refine ⟨{ s with cpy := s.cpy ++ '/' :: c }, ?_, ?_, ?_⟩
  · unfold goLower
    rw [if_pos (by simp; omega)]
  · refine ⟨h.absolute, h.relative, ?_, ?_⟩
    · intro n hn
      simp only [List.mem_append, List.mem_singleton] at hn
      rcases hn with hn | rfl
      · exact h.names n hn
      · exact ⟨h0, hc⟩
    · dsimp only
      rcases h.copy with he | ⟨n, r, hnr, he⟩
      · left; rw [he, slash_append]; simp [slash]
      · right
        refine ⟨n, r ++ [c], by rw [hnr]; rfl, ?_⟩
        rw [he, slash_append]; simp [slash]
  · simp; omega

theorem loop_spec (p0 : Str) (len hd : ℕ) (k : ℕ) : ∀ (path : Str) (s : St) (l : Loc), path.length ≤ k →
    (path = [] ∨ ∃ t, path = '/' :: t) → Inv p0 s l → need p0 l + 1 ≤ len →
    hd + s.cpy.length + path.length + 1 ≤ len →
    (need p0 (W l path) + 1 ≤ len → ∃ s', loop len hd s path = some s' ∧ Inv p0 s' (W l path)) ∧
    (¬ need p0 (W l path) + 1 ≤ len → loop len hd s path = none) := by
  induction k with
  | zero =>
    intro path s l hk _ hi hn hl
    have : path = [] := List.length_eq_zero_iff.mp (by omega)
    subst this
    rw [W_nil]
    exact ⟨fun _ => ⟨s, by rw [loop], hi⟩, fun hc => absurd hn hc⟩
  | succ k ih =>
    intro path s l hk hp hi hn hl
    obtain rfl | ⟨t, rfl⟩ := hp
    · rw [W_nil]
      exact ⟨fun _ => ⟨s, by rw [loop], hi⟩, fun hc => absurd hn hc⟩
    · rw [loop]
      set r := t.dropWhile (· = '/') with hr
      set c := r.takeWhile (· ≠ '/') with hcdef
      set rest := r.dropWhile (· ≠ '/') with hrest
      have hlv : nextLevel '/' t = ('/' :: c, rest) := rfl
      have hcr : c ++ rest = r := List.takeWhile_append_dropWhile
      have hcs : '/' ∉ c := mem_takeWhile_ne r
      have hrs := dropWhile_ne r
      rw [← hrest] at hrs
      have hW : W l ('/' :: t) = W (l.step c) rest := by
        rw [W_slash, ← W_slashes, ← hr, ← hcr, W_name l c rest hcs hrs]
      have hlen : c.length + rest.length ≤ t.length := by
        have := dropWhile_length (p := fun x => decide (x = '/')) t
        rw [← List.length_append, hcr]; exact this
      simp only [List.length_cons] at hk hl
      rw [hW]
      simp only [hlv]
      by_cases h1 : c = [] ∨ c = ['.']
      · have hcond : ('/' :: c = ['/', '.'] ∨ '/' :: c = ['/']) := by
          rcases h1 with h | h <;> rw [h] <;> simp
        rw [if_pos hcond]
        have hs : l.step c = l := by unfold Loc.step; rw [if_pos h1]
        rw [hs]
        exact ih rest s l (by omega) hrs hi hn (by omega)
      · push Not at h1
        rw [if_neg (by simp [h1])]
        by_cases h2 : c = ['.', '.']
        · rw [if_pos (by rw [h2])]
          have hg := goUpper_spec len hi hn
          rw [h2]
          constructor
          · intro hle
            obtain ⟨s', h3, h4, h5⟩ := hg.1 (le_trans (Nat.succ_le_succ (need_le p0 _ rest)) hle)
            rw [h3]
            exact (ih rest s' _ (by omega) hrs h4
              (le_trans (Nat.succ_le_succ (need_le p0 _ rest)) hle) (by omega)).1 hle
          · intro hle
            by_cases h3 : need p0 (l.step ['.', '.']) + 1 ≤ len
            · obtain ⟨s', h4, h5, h6⟩ := hg.1 h3
              rw [h4]
              exact (ih rest s' _ (by omega) hrs h5 h3 (by omega)).2 hle
            · rw [hg.2 h3]; rfl
        · rw [if_neg (by simp [h2])]
          obtain ⟨s', h3, h4, h5⟩ := goLower_spec len hd hi c hcs h1.1 h1.2 h2 (by omega)
          rw [h3]
          have hneed : need p0 (l.step c) + 1 ≤ len := by
            have : need p0 (l.step c) = need p0 l := by
              unfold Loc.step; rw [if_neg (by simp [h1]), if_neg h2]; rfl
            omega
          exact ih rest s' _ (by omega) hrs h4 hneed (by omega)

theorem skip_id (c : Str) (h : ∀ t, c ≠ '/' :: '/' :: t) : skipSlashes c = c := by
  match c, h with
  | [], _ => rfl
  | [a], _ => rw [skipSlashes]; intro r e; simp at e
  | a :: b :: r, h =>
    rw [skipSlashes]
    intro t e
    simp only [List.cons.injEq] at e
    exact h t (by rw [e.1, e.2.1, e.2.2])

theorem climb_last (k : ℕ) (hk : 0 < k) : (climb k).getLast? = some '/' := by
  obtain ⟨j, rfl⟩ : ∃ j, k = j + 1 := ⟨k - 1, by omega⟩
  rw [← climb_snoc]; simp

theorem finish_spec {p0 s l} (h : Inv p0 s l) : finish s = l.canon := by
  have hlast : s.pre ≠ [] ∧ s.pre.getLast? = some '/' := by
    cases hb : l.abs with
    | true => rw [(h.absolute hb).1]; simp
    | false =>
      obtain ⟨h1, h2⟩ := h.relative hb
      rw [h1]
      rcases h2 with h2 | ⟨h2, h3⟩
      · rw [h2]
        refine ⟨by simp, ?_⟩
        by_cases hk : l.ups = 0
        · rw [hk]; rfl
        · rw [List.getLast?_append, climb_last _ (by omega)]; rfl
      · rw [h2, List.nil_append]
        refine ⟨?_, climb_last _ h3⟩
        intro e
        have := climb_last _ h3
        rw [e] at this; simp at this
  have hc : (let c := skipSlashes s.cpy
      if s.pre ≠ [] ∧ s.pre.getLast? = some '/' ∧ c.head? = some '/' then c.tail else c) =
      join l.names := by
    dsimp only
    rcases h.copy with hc | ⟨n, r, hnr, hc⟩
    · cases hl : l.names with
      | nil => rw [hc, hl]; simp [slash, skipSlashes, join]
      | cons n r =>
        have hn := h.names n (by rw [hl]; simp)
        have hs : skipSlashes s.cpy = s.cpy := by
          apply skip_id
          intro t e
          rw [hc, hl, slash] at e
          simp only [List.cons_append, List.cons.injEq, true_and] at e
          obtain ⟨a, b, rfl⟩ := List.exists_cons_of_ne_nil hn.1
          simp only [List.cons_append, List.cons.injEq] at e
          exact hn.2 (by rw [e.1]; simp)
        rw [hs, hc, hl, slash]
        rw [if_pos ⟨hlast.1, hlast.2, rfl⟩, join_eq]
        rfl
    · have hn := h.names n (by rw [hnr]; simp)
      obtain ⟨a, b, hab⟩ := List.exists_cons_of_ne_nil hn.1
      have ha : a ≠ '/' := fun e => hn.2 (by rw [hab, e]; simp)
      have hs : skipSlashes s.cpy = s.cpy := by
        apply skip_id
        intro t e
        rw [hc, hab] at e
        simp only [List.cons_append, List.cons.injEq] at e
        exact ha e.1
      rw [hs, hc, hnr, join_eq, hab]
      rw [if_neg (by simp [ha])]
  have hp : (if s.pre.take 2 = ['.', '/'] then s.pre.drop 2 else s.pre) =
      if l.abs then ['/'] else climb l.ups := by
    cases hb : l.abs with
    | true => rw [(h.absolute hb).1]; simp
    | false =>
      obtain ⟨h1, h2⟩ := h.relative hb
      rw [h1]
      rcases h2 with h2 | ⟨h2, h3⟩
      · rw [h2]; simp
      · obtain ⟨k, hk⟩ : ∃ k, l.ups = k + 1 := ⟨l.ups - 1, by omega⟩
        rw [h2, hk, climb]; simp
  unfold finish
  dsimp only at hc ⊢
  rw [hc, hp]
  unfold Loc.canon
  have hj : join l.names = [] ↔ l.names = [] := by
    constructor
    · intro e
      cases hl : l.names with
      | nil => rfl
      | cons n r =>
        have hn := h.names n (by rw [hl]; simp)
        rw [hl, join_eq] at e
        exact absurd (List.append_eq_nil_iff.mp e).1 hn.1
    · intro e; rw [e]; rfl
  cases hb : l.abs with
  | true => simp
  | false =>
    have hk : climb l.ups = [] ↔ l.ups = 0 := by
      cases hu : l.ups with
      | zero => simp [climb]
      | succ k => simp [climb]
    simp only [Bool.false_eq_true, if_false]
    simp only [hk, hj]

/-- Where the walk starts after the first component. -/
theorem first_spec (p : Str) (hp : p ≠ []) :
    ∃ p0 l, Inv p0 (first p).1 l ∧ meaning p = W l (first p).2.2 ∧
      (first p).2.1 + (first p).1.cpy.length + (first p).2.2.length = p.length ∧
      ((first p).2.2 = [] ∨ ∃ t, (first p).2.2 = '/' :: t) ∧ need p0 l ≤ 3 ∧
      (l.abs = false → p0 = if p.takeWhile (· ≠ '/') = ['.', '.'] then [] else ['.', '/']) := by
  set w := p.takeWhile (· ≠ '/') with hw
  set rest := p.dropWhile (· ≠ '/') with hrest
  have hwr : w ++ rest = p := List.takeWhile_append_dropWhile
  have hlen : w.length + rest.length = p.length := by rw [← List.length_append, hwr]
  have hws : '/' ∉ w := mem_takeWhile_ne p
  have hrs := dropWhile_ne p
  rw [← hrest] at hrs
  have hm : meaning p = W (Loc.step ⟨p.head? = some '/', 0, []⟩ w) rest := by
    rw [← W_name _ w rest hws hrs, hwr]; rfl
  have hhead : p.head? = some '/' ↔ w = [] := by
    cases hpp : p with
    | nil => exact absurd hpp hp
    | cons a b =>
      rw [hw, hpp, List.takeWhile_cons]
      by_cases ha : a = '/'
      · simp [ha]
      · simp [ha]
  unfold first
  rw [← hw, ← hrest]
  dsimp only
  by_cases h0 : w = []
  · rw [if_pos h0]
    refine ⟨[], ⟨true, 0, []⟩, ⟨by simp, by simp, by simp, Or.inl rfl⟩, ?_, ?_, hrs, by simp [need], by simp⟩
    · rw [hm, h0, step_nil]
      have : decide (p.head? = some '/') = true := by simp [hhead, h0]
      rw [this]
    · rw [← hlen, h0]; simp
  · have hd : decide (p.head? = some '/') = false := by
      rw [decide_eq_false_iff_not]; exact fun e => h0 (hhead.mp e)
    rw [hd] at hm
    rw [if_neg h0]
    by_cases h1 : w = ['.', '.']
    · rw [if_pos h1]
      refine ⟨[], ⟨false, 1, []⟩, ⟨by simp, by simp [climb], by simp, Or.inl rfl⟩, ?_, ?_, hrs,
        by simp [need], by simp [h1]⟩
      · rw [hm, h1]; rfl
      · rw [← hlen, h1]; simp
    · rw [if_neg h1]
      by_cases h2 : w = ['.']
      · rw [if_pos h2]
        refine ⟨['.', '/'], ⟨false, 0, []⟩, ⟨by simp, by simp [climb], by simp, Or.inl rfl⟩, ?_, ?_, hrs,
          by simp [need], by simp [h1]⟩
        · rw [hm, h2]; rfl
        · rw [← hlen, h2]; simp
      · rw [if_neg h2]
        refine ⟨['.', '/'], ⟨false, 0, [w]⟩, ⟨by simp, by simp [climb], ?_, Or.inr ⟨w, [], rfl, by simp [slash]⟩⟩,
          ?_, ?_, hrs, by simp [need], by simp [h1]⟩
        · simpa using ⟨h0, hws⟩
        · rw [hm]
          unfold Loc.step
          rw [if_neg (by simp [h0, h2]), if_neg h1]
          rfl
        · dsimp only; omega

/-- Characters written to the prefix buffer for a path (terminator included): `../` for each level above
the start, after `./` unless the path begins with `..`. -/
def prefixBytes (p : Str) : ℕ :=
  if (meaning p).abs then 2
  else 3 * (meaning p).ups + 1 + if p.takeWhile (· ≠ '/') = ['.', '.'] then 0 else 2

theorem simplify_spec (p : Str) (hp : p.dropWhile (· = ' ') ≠ []) :
    simplify p = if prefixBytes (p.dropWhile (· = ' ')) ≤ max 8 (p.length + 1)
      then some (meaning (p.dropWhile (· = ' '))).canon else none := by
  set q := p.dropWhile (· = ' ') with hq
  obtain ⟨p0, l, hi, hm, hlen, hrs, hn, hp0⟩ := first_spec q hp
  have hql : q.length ≤ p.length := dropWhile_length p
  have hneed : need p0 (W l (first q).2.2) + 1 = prefixBytes q := by
    have hab := (foldl_step (comps (first q).2.2) l).1
    unfold need prefixBytes
    rw [hm]
    cases hb : (W l (first q).2.2).abs with
    | true => simp
    | false =>
      have hlb : l.abs = false := by rw [← hab]; exact hb
      simp only [Bool.false_eq_true, if_false]
      rw [hp0 hlb]
      split_ifs <;> simp; omega
  have hls := loop_spec p0 (bufLen p) (first q).2.1 _ (first q).2.2 (first q).1 l le_rfl hrs hi
    (by unfold bufLen; omega) (by unfold bufLen; omega)
  unfold simplify
  rw [← hq]
  dsimp only
  rw [hneed] at hls
  unfold bufLen at hls ⊢
  by_cases h : prefixBytes q ≤ max 8 (p.length + 1)
  · obtain ⟨s', h1, h2⟩ := hls.1 h
    rw [if_pos h, h1, Option.map_some, finish_spec h2, hm]
  · rw [if_neg h, hls.2 h]; rfl

/-! ## C34 -/

/-- The places that paths denote. -/
structure Loc.Proper (l : Loc) : Prop where
  root : l.abs = true → l.ups = 0
  names : ∀ n ∈ l.names, n ≠ [] ∧ '/' ∉ n ∧ n ≠ ['.'] ∧ n ≠ ['.', '.']

theorem comps_noslash (p : Str) : ∀ c ∈ comps p, '/' ∉ c := by
  induction p with
  | nil => simp [comps]
  | cons a r ih =>
    rw [comps]
    split_ifs with h
    · simpa using ih
    · cases hc : comps r with
      | nil => exact absurd hc (comps_ne r)
      | cons x y =>
        rw [hc] at ih
        dsimp only
        intro c hcm
        simp only [List.mem_cons] at hcm
        rcases hcm with rfl | hcm
        · simp only [List.mem_cons, not_or]
          exact ⟨fun e => h e.symm, ih x (by simp)⟩
        · exact ih c (by simp [hcm])

theorem step_proper (l : Loc) (c : Str) (hl : l.Proper) (hc : '/' ∉ c) : (l.step c).Proper := by
  unfold Loc.step
  split_ifs with h1 h2 h3 h4
  · exact hl
  · exact hl
  · exact ⟨fun e => absurd e h4, hl.names⟩
  · exact ⟨hl.root, fun n hn => hl.names n (List.mem_of_mem_dropLast hn)⟩
  · refine ⟨hl.root, fun n hn => ?_⟩
    simp only [List.mem_append, List.mem_singleton] at hn
    rcases hn with hn | rfl
    · exact hl.names n hn
    · push Not at h1
      exact ⟨h1.1, hc, h1.2, h2⟩

theorem meaning_proper (p : Str) : (meaning p).Proper := by
  have : ∀ (cs : List Str) (l : Loc), (∀ c ∈ cs, '/' ∉ c) → l.Proper → (cs.foldl Loc.step l).Proper := by
    intro cs
    induction cs with
    | nil => intro l _ h; exact h
    | cons c cs ih =>
      intro l hc hl
      exact ih _ (fun d hd => hc d (by simp [hd])) (step_proper l c hl (hc c (by simp)))
  exact this _ _ (comps_noslash p) ⟨fun _ => rfl, by simp⟩

theorem W_slash_names (l : Loc) (ns : List Str) (h : ∀ n ∈ ns, n ≠ [] ∧ '/' ∉ n ∧ n ≠ ['.'] ∧ n ≠ ['.', '.']) :
    W l (slash ns) = { l with names := l.names ++ ns } := by
  induction ns generalizing l with
  | nil => simp [slash, W_nil]
  | cons n r ih =>
    have hn := h n (by simp)
    rw [slash, List.cons_append, W_slash, W_name l n _ hn.2.1 (by cases r <;> simp [slash]),
      ih _ (fun m hm => h m (by simp [hm]))]
    unfold Loc.step
    rw [if_neg (by simp [hn]), if_neg hn.2.2.2]
    simp

theorem W_join (l : Loc) (ns : List Str) (h : ∀ n ∈ ns, n ≠ [] ∧ '/' ∉ n ∧ n ≠ ['.'] ∧ n ≠ ['.', '.']) :
    W l (join ns) = { l with names := l.names ++ ns } := by
  rw [← W_slash_names l ns h]
  cases ns with
  | nil => rfl
  | cons n r => rw [join_eq, slash, List.cons_append, W_slash]

theorem W_climb (k u : ℕ) (r : Str) : W ⟨false, u, []⟩ (climb k ++ r) = W ⟨false, u + k, []⟩ r := by
  induction k generalizing u with
  | zero => rfl
  | succ k ih =>
    have : climb (k + 1) ++ r = ['.', '.'] ++ '/' :: (climb k ++ r) := by simp [climb]
    rw [this, W_name _ _ _ (by decide) (Or.inr ⟨_, rfl⟩), W_slash]
    have h2 : Loc.step ⟨false, u, []⟩ ['.', '.'] = ⟨false, u + 1, []⟩ := rfl
    rw [h2, ih]
    congr 2; omega

theorem meaning_canon (l : Loc) (hl : l.Proper) : meaning l.canon = l := by
  unfold Loc.canon
  cases hb : l.abs with
  | true =>
    simp only [if_true]
    have : meaning ('/' :: join l.names) = W ⟨true, 0, []⟩ ('/' :: join l.names) := rfl
    rw [this, W_slash, W_join _ _ hl.names, List.nil_append]
    have h0 := hl.root hb
    cases l; simp_all
  | false =>
    simp only [Bool.false_eq_true, if_false]
    split_ifs with h
    · have : meaning ['.'] = ⟨false, 0, []⟩ := rfl
      rw [this]
      cases l; simp_all
    · have hh : (climb l.ups ++ join l.names).head? ≠ some '/' := by
        cases hu : l.ups with
        | zero =>
          cases hn : l.names with
          | nil => exact absurd ⟨hu, hn⟩ h
          | cons n r =>
            have hp := hl.names n (by rw [hn]; simp)
            obtain ⟨a, b, hab⟩ := List.exists_cons_of_ne_nil hp.1
            have ha : a ≠ '/' := fun e => hp.2.1 (by rw [hab, e]; simp)
            rw [join_eq, hab]; simpa [climb] using ha
        | succ k => simp [climb]
      have : meaning (climb l.ups ++ join l.names) = W ⟨false, 0, []⟩ (climb l.ups ++ join l.names) := by
        unfold meaning W; rw [decide_eq_false hh]
      rw [this, W_climb, W_join _ _ hl.names]
      cases l; simp_all

/-- **C34 (no overflow).** For every path with a character other than a space, unless the prefix buffer
overflows, the result is the canonical spelling of the place the path (without leading spaces) denotes. -/
theorem simplify_canonical_partial (p q : Str) (hp : p.dropWhile (· = ' ') ≠ []) (h : simplify p = some q) :
    q = (meaning (p.dropWhile (· = ' '))).canon := by
  rw [simplify_spec p hp] at h
  split_ifs at h
  exact (Option.some.inj h).symm

/-- **C34 (same place).** The result denotes the same place as the path. -/
theorem simplify_meaning_partial (p q : Str) (hp : p.dropWhile (· = ' ') ≠ []) (h : simplify p = some q) :
    meaning q = meaning (p.dropWhile (· = ' ')) := by
  rw [simplify_canonical_partial p q hp h, meaning_canon _ (meaning_proper _)]

/-- **C34 (one spelling).** Two paths denoting the same place get the same spelling. -/
theorem simplify_unique (p p' q q' : Str) (hp : p.dropWhile (· = ' ') ≠ [])
    (hp' : p'.dropWhile (· = ' ') ≠ []) (h : simplify p = some q) (h' : simplify p' = some q')
    (he : meaning (p.dropWhile (· = ' ')) = meaning (p'.dropWhile (· = ' '))) : q = q' := by
  rw [simplify_canonical_partial p q hp h, simplify_canonical_partial p' q' hp' h', he]

/-- **C34 (exact overflow condition).** The code writes beyond a buffer exactly if the prefix, `./` (unless
the path begins with `..`), one `../` for each level above the start and the terminator, exceeds
`max 8 (strlen + 1)` bytes. -/
theorem simplify_overflow_iff (p : Str) (hp : p.dropWhile (· = ' ') ≠ []) :
    simplify p = none ↔ max 8 (p.length + 1) < prefixBytes (p.dropWhile (· = ' ')) := by
  rw [simplify_spec p hp]
  split_ifs with h
  · simp; omega
  · simp; omega

/-- `/..` repeated. -/
def backs : ℕ → Str
  | 0 => []
  | k + 1 => '/' :: '.' :: '.' :: backs k

theorem backs_length (k : ℕ) : (backs k).length = 3 * k := by
  induction k with
  | zero => rfl
  | succ k ih => simp [backs, ih]; omega

theorem backs_start (k : ℕ) : backs k = [] ∨ ∃ t, backs k = '/' :: t := by
  cases k with
  | zero => exact Or.inl rfl
  | succ k => exact Or.inr ⟨_, rfl⟩

theorem W_backs (k u : ℕ) : W ⟨false, u, []⟩ (backs k) = ⟨false, u + k, []⟩ := by
  induction k generalizing u with
  | zero => exact W_nil _
  | succ k ih =>
    have : backs (k + 1) = '/' :: (['.', '.'] ++ backs k) := rfl
    rw [this, W_slash, W_name _ _ _ (by decide) (backs_start k)]
    have h2 : Loc.step ⟨false, u, []⟩ ['.', '.'] = ⟨false, u + 1, []⟩ := rfl
    rw [h2, ih]
    congr 1; omega

/-- Each level up costs three characters. -/
theorem ups_le (k : ℕ) : ∀ (path : Str) (l : Loc), path.length ≤ k →
    (path = [] ∨ ∃ t, path = '/' :: t) →
    3 * (W l path).ups ≤ 3 * l.ups + path.length ∧
    (3 * (W l path).ups = 3 * l.ups + path.length → ∃ j, path = backs j) := by
  induction k with
  | zero =>
    intro path l hk _
    have : path = [] := List.length_eq_zero_iff.mp (by omega)
    subst this
    rw [W_nil]
    exact ⟨by simp, fun _ => ⟨0, rfl⟩⟩
  | succ k ih =>
    intro path l hk hp
    obtain rfl | ⟨t, rfl⟩ := hp
    · rw [W_nil]
      exact ⟨by simp, fun _ => ⟨0, rfl⟩⟩
    · set r := t.dropWhile (· = '/') with hr
      set c := r.takeWhile (· ≠ '/') with hcdef
      set rest := r.dropWhile (· ≠ '/') with hrest
      have hcr : c ++ rest = r := List.takeWhile_append_dropWhile
      have hcs : '/' ∉ c := mem_takeWhile_ne r
      have hrs := dropWhile_ne r
      rw [← hrest] at hrs
      have hW : W l ('/' :: t) = W (l.step c) rest := by
        rw [W_slash, ← W_slashes, ← hr, ← hcr, W_name l c rest hcs hrs]
      have hrt : r.length ≤ t.length := dropWhile_length t
      have hlen : c.length + rest.length = r.length := by rw [← List.length_append, hcr]
      simp only [List.length_cons] at hk ⊢
      rw [hW]
      obtain ⟨h1, h2⟩ := ih rest (l.step c) (by omega) hrs
      by_cases hdd : c = ['.', '.']
      · have hst : (l.step c).ups ≤ l.ups + 1 := by
          rw [hdd]; unfold Loc.step
          rw [if_neg (by simp), if_pos rfl]
          split_ifs <;> simp
        have hc2 : c.length = 2 := by rw [hdd]; rfl
        refine ⟨by omega, fun he => ?_⟩
        obtain ⟨j, hj⟩ := h2 (by omega)
        have hrr : r = t := by
          apply List.Sublist.eq_of_length (List.dropWhile_sublist _)
          change r.length = t.length
          omega
        exact ⟨j + 1, by rw [← hrr, ← hcr, hdd, hj]; rfl⟩
      · have hst : (l.step c).ups = l.ups := by
          unfold Loc.step
          rw [if_neg hdd]
          split_ifs <;> rfl
        exact ⟨by omega, fun he => by omega⟩

theorem dropWhile_eq_of_length (p : Str) (h : p.length ≤ (p.dropWhile (· = ' ')).length) :
    p.dropWhile (· = ' ') = p := by
  apply List.Sublist.eq_of_length (List.dropWhile_sublist _)
  have := dropWhile_length (p := fun x => decide (x = ' ')) p
  omega

/-- **C34 (exactly which paths overflow).** The code writes beyond a buffer exactly for `..` or `.` followed
by at least two `/..` and nothing else. -/
theorem simplify_overflows_exactly (p : Str) (hp : p.dropWhile (· = ' ') ≠ []) :
    simplify p = none ↔ ∃ j, 2 ≤ j ∧ (p = ['.', '.'] ++ backs j ∨ p = ['.'] ++ backs j) := by
  rw [simplify_overflow_iff p hp]
  constructor
  · intro h
    set q := p.dropWhile (· = ' ') with hq
    have hql : q.length ≤ p.length := dropWhile_length p
    set w := q.takeWhile (· ≠ '/') with hw
    set rest := q.dropWhile (· ≠ '/') with hrest
    have hwr : w ++ rest = q := List.takeWhile_append_dropWhile
    have hlen : w.length + rest.length = q.length := by rw [← List.length_append, hwr]
    have hws : '/' ∉ w := mem_takeWhile_ne q
    have hrs := dropWhile_ne q
    rw [← hrest] at hrs
    have hm : meaning q = W (Loc.step ⟨q.head? = some '/', 0, []⟩ w) rest := by
      rw [← W_name _ w rest hws hrs, hwr]; rfl
    have habs : (meaning q).abs = decide (q.head? = some '/') := by
      rw [hm]; exact (foldl_step (comps rest) _).1.trans (step_abs _ _)
    unfold prefixBytes at h
    rw [← hw] at h
    cases hb : (meaning q).abs with
    | true => rw [hb] at h; simp at h
    | false =>
      rw [hb] at h habs
      rw [← habs] at hm
      simp only [Bool.false_eq_true, if_false] at h
      have h0 : w ≠ [] := by
        intro e
        rw [e, List.nil_append] at hwr
        rcases hrs with hr | ⟨t, hr⟩
        · exact hp (by rw [← hwr, hr])
        · rw [← hwr, hr] at habs; simp at habs
      by_cases h1 : w = ['.', '.']
      · rw [if_pos h1] at h
        have hs : Loc.step ⟨false, 0, []⟩ w = ⟨false, 1, []⟩ := by rw [h1]; rfl
        rw [hs] at hm
        obtain ⟨h2, h3⟩ := ups_le _ rest ⟨false, 1, []⟩ le_rfl hrs
        rw [← hm] at h2 h3
        dsimp only at h2 h3
        have hw2 : w.length = 2 := by rw [h1]; rfl
        obtain ⟨j, hj⟩ := h3 (by omega)
        have hpq : q = p := dropWhile_eq_of_length p (by rw [← hq]; omega)
        have hjl := backs_length j
        rw [← hj] at hjl
        exact ⟨j, by omega, Or.inl (by rw [← hpq, ← hwr, h1, hj])⟩
      · rw [if_neg h1] at h
        by_cases h4 : w = ['.']
        · have hs : Loc.step ⟨false, 0, []⟩ w = ⟨false, 0, []⟩ := by rw [h4]; rfl
          rw [hs] at hm
          obtain ⟨h2, h3⟩ := ups_le _ rest ⟨false, 0, []⟩ le_rfl hrs
          rw [← hm] at h2 h3
          dsimp only at h2 h3
          have hw2 : w.length = 1 := by rw [h4]; rfl
          obtain ⟨j, hj⟩ := h3 (by omega)
          have hpq : q = p := dropWhile_eq_of_length p (by rw [← hq]; omega)
          have hjl := backs_length j
          rw [← hj] at hjl
          exact ⟨j, by omega, Or.inr (by rw [← hpq, ← hwr, h4, hj])⟩
        · exfalso
          have hs : Loc.step ⟨false, 0, []⟩ w = ⟨false, 0, [w]⟩ := by
            unfold Loc.step; rw [if_neg (by simp [h0, h4]), if_neg h1]; rfl
          rw [hs] at hm
          obtain ⟨h2, h3⟩ := ups_le _ rest ⟨false, 0, [w]⟩ le_rfl hrs
          rw [← hm] at h2 h3
          dsimp only at h2 h3
          have hw1 : 0 < w.length := List.length_pos_iff.mpr h0
          obtain ⟨j, hj⟩ := h3 (by omega)
          have hjl := backs_length j
          rw [← hj] at hjl
          cases j with
          | zero => omega
          | succ j =>
            have : backs (j + 1) = '/' :: (['.', '.'] ++ backs j) := rfl
            rw [hj, this, W_slash, W_name _ _ _ (by decide) (backs_start j)] at hm
            have h5 : Loc.step ⟨false, 0, [w]⟩ ['.', '.'] = ⟨false, 0, []⟩ := by
              simp [Loc.step]
            rw [h5, W_backs] at hm
            rw [hm] at h2 h
            dsimp only at h2 h
            omega
  · rintro ⟨j, hj, rfl | rfl⟩
    · have hd : (['.', '.'] ++ backs j).dropWhile (· = ' ') = ['.', '.'] ++ backs j := by simp
      have hm : meaning (['.', '.'] ++ backs j) = ⟨false, 1 + j, []⟩ := by
        have : meaning (['.', '.'] ++ backs j) = W ⟨false, 0, []⟩ (['.', '.'] ++ backs j) := rfl
        rw [this, W_name _ _ _ (by decide) (backs_start j)]
        exact W_backs j 1
      have ht : (['.', '.'] ++ backs j).takeWhile (· ≠ '/') = ['.', '.'] := by
        obtain ⟨k, rfl⟩ : ∃ k, j = k + 1 := ⟨j - 1, by omega⟩
        simp [backs]
      unfold prefixBytes
      rw [hd, hm, ht, if_pos rfl]
      simp only [List.length_append, backs_length]
      simp; omega
    · have hd : (['.'] ++ backs j).dropWhile (· = ' ') = ['.'] ++ backs j := by simp
      have hm : meaning (['.'] ++ backs j) = ⟨false, 0 + j, []⟩ := by
        have : meaning (['.'] ++ backs j) = W ⟨false, 0, []⟩ (['.'] ++ backs j) := rfl
        rw [this, W_name _ _ _ (by decide) (backs_start j)]
        exact W_backs j 0
      have ht : (['.'] ++ backs j).takeWhile (· ≠ '/') = ['.'] := by
        obtain ⟨k, rfl⟩ : ∃ k, j = k + 1 := ⟨j - 1, by omega⟩
        simp [backs]
      unfold prefixBytes
      rw [hd, hm, ht, if_neg (by simp)]
      simp only [List.length_append, backs_length]
      simp; omega

/-- **C34 (stable).** Simplifying a simplified path changes nothing, unless its first name begins with a
space. -/
theorem simplify_stable_aux (p q : Str) (hp : p.dropWhile (· = ' ') ≠ []) (h : simplify p = some q)
    (hs : q.head? ≠ some ' ') (hq : simplify q ≠ none) : simplify q = some q := by
  have hc := simplify_canonical_partial p q hp h
  have hm := simplify_meaning_partial p q hp h
  have hqd : q.dropWhile (· = ' ') = q := by
    cases hqq : q with
    | nil => rfl
    | cons a b =>
      rw [hqq] at hs
      simp only [List.head?_cons, ne_eq, Option.some.injEq] at hs
      rw [List.dropWhile_cons, if_neg (by simpa using hs)]
  have hne : q ≠ [] := by
    intro e
    rw [hc] at e
    have hpr := meaning_proper (p.dropWhile (· = ' '))
    generalize meaning (p.dropWhile (· = ' ')) = l at e hpr
    unfold Loc.canon at e
    split_ifs at e with h1 h2
    rw [List.append_eq_nil_iff] at e
    apply h2
    constructor
    · cases hu : l.ups with
      | zero => rfl
      | succ k => rw [hu, climb] at e; simp at e
    · cases hn : l.names with
      | nil => rfl
      | cons n r =>
        rw [hn, join_eq, List.append_eq_nil_iff] at e
        exact absurd e.2.1 (hpr.names n (by rw [hn]; simp)).1
  obtain ⟨q', hq'⟩ := Option.ne_none_iff_exists'.mp hq
  have := simplify_canonical_partial q q' (by rw [hqd]; exact hne) hq'
  rw [hqd, hm, ← hc] at this
  rw [hq', this]

/-- The second simplification never overflows: a simplified path never ends in `..`. -/
theorem canon_no_overflow (l : Loc) (hl : l.Proper) : ¬ ∃ j, 2 ≤ j ∧
    (l.canon = ['.', '.'] ++ backs j ∨ l.canon = ['.'] ++ backs j) := by
  rintro ⟨j, hj, h⟩
  have hlast : l.canon.getLast? = some '.' ∧ ∃ u, meaning l.canon = ⟨false, u + 2, []⟩ := by
    have hb : ∀ j, 2 ≤ j → ∀ a : Str, (a ++ backs j).getLast? = some '.' := by
      intro j
      induction j with
      | zero => intro h; omega
      | succ j ih =>
        intro hj a
        by_cases h1 : j = 1
        · subst h1; simp [backs]
        · have := ih (by omega) (a ++ ['/', '.', '.'])
          simpa [backs] using this
    rcases h with h | h
    · refine ⟨by rw [h]; exact hb j hj _, j - 1, ?_⟩
      have : meaning (['.', '.'] ++ backs j) = W ⟨false, 0, []⟩ (['.', '.'] ++ backs j) := rfl
      rw [h, this, W_name _ _ _ (by decide) (backs_start j)]
      have h2 : Loc.step ⟨false, 0, []⟩ ['.', '.'] = ⟨false, 1, []⟩ := rfl
      rw [h2, W_backs]; congr 1; omega
    · refine ⟨by rw [h]; exact hb j hj _, j - 2, ?_⟩
      have : meaning (['.'] ++ backs j) = W ⟨false, 0, []⟩ (['.'] ++ backs j) := rfl
      rw [h, this, W_name _ _ _ (by decide) (backs_start j)]
      have h2 : Loc.step ⟨false, 0, []⟩ ['.'] = ⟨false, 0, []⟩ := rfl
      rw [h2, W_backs]; congr 1; omega
  obtain ⟨h1, u, h2⟩ := hlast
  rw [meaning_canon l hl] at h2
  rw [h2] at h1
  have : (⟨false, u + 2, []⟩ : Loc).canon = climb (u + 2) := by simp [Loc.canon, join]
  rw [this, climb_last _ (by omega)] at h1
  simp at h1

/-- **C34 (stable).** A simplified path that does not begin with a space is returned unchanged. -/
theorem simplify_stable (p q : Str) (hp : p.dropWhile (· = ' ') ≠ []) (h : simplify p = some q)
    (hs : q.head? ≠ some ' ') : simplify q = some q := by
  apply simplify_stable_aux p q hp h hs
  intro hn
  have hc := simplify_canonical_partial p q hp h
  by_cases hq : q.dropWhile (· = ' ') = []
  · cases hqq : q with
    | nil => rw [hqq] at hn; revert hn; simp [simplify, first, loop]
    | cons a b =>
      rw [hqq] at hs hq
      simp only [List.head?_cons, ne_eq, Option.some.injEq] at hs
      rw [List.dropWhile_cons, if_neg (by simpa using hs)] at hq
      simp at hq
  · rw [simplify_overflows_exactly q hq, hc] at hn
    exact canon_no_overflow _ (meaning_proper _) hn

/-- The code violates the claim: `../../..` overruns the prefix buffer. -/
theorem simplify_overflow_witness : simplify "../../..".toList = none := by decide +kernel

/-- The code violates the claim: a path of spaces only becomes the root directory. -/
theorem simplify_blank : simplify " ".toList = some "/".toList := by decide +kernel

/-- A name beginning with a space does not survive a second simplification. -/
theorem simplify_space_unstable :
    simplify "./ a".toList = some " a".toList ∧ simplify " a".toList = some "a".toList := by decide +kernel

/-! ## Concrete instances -/

example : simplify "a/./b//../c/".toList = some "a/c".toList ∧
    simplify "/../x/..".toList = some "/".toList ∧
    simplify "./p/../../q".toList = some "../q".toList ∧
    simplify "p/..".toList = some ".".toList := by decide +kernel
example : (meaning "p/../../q".toList).ups = 1 ∧ (meaning "p/../../q".toList).names = [['q']] := by
  decide +kernel

end Sparc.Path

import Verif.Tac
import Verif.Files.Model
import Mathlib.Data.Fin.VecNotation

/-!
# Output names, option lines and boundary conditions (properties C35, C44, C45, C52)
-/

namespace Sparc.Files

/-! ## C35 -/

theorem search_spec (exist : Str → Bool) (out : Str) (i : ℕ) (hi : i ≤ 101) :
    i ≤ search exist out i ∧ search exist out i ≤ 101 ∧
    (∀ j, i ≤ j → j < search exist out i → exist (tagged out j) = true) ∧
    (search exist out i ≤ 100 → exist (tagged out (search exist out i)) = false) := by
  obtain ⟨k, hk⟩ : ∃ k, k = 101 - i := ⟨_, rfl⟩
  induction k generalizing i with
  | zero =>
    have : i = 101 := by omega
    subst this
    rw [search, if_neg (by omega)]
    exact ⟨le_rfl, le_rfl, fun j h1 h2 => by omega, fun h => by omega⟩
  | succ k ih =>
    rw [search]
    by_cases h : exist (tagged out i) = true
    · rw [if_pos ⟨h, by omega⟩]
      obtain ⟨h1, h2, h3, h4⟩ := ih (i + 1) (by omega) (by omega)
      refine ⟨by omega, h2, fun j hj hj' => ?_, h4⟩
      by_cases hji : j = i
      · rw [hji]; exact h
      · exact h3 j (by omega) hj'
    · rw [if_neg (fun e => h e.1)]
      exact ⟨le_rfl, hi, fun j h1 h2 => by omega, fun _ => by simpa using h⟩

/-- The name of the `.out` file with number `i`: none for 0, else `_` and at least two decimal digits. -/
def numbered (base : Str) (i : ℕ) : Str :=
  if i = 0 then base ++ ['.', 'o', 'u', 't']
  else if i < 10 then base ++ ['.', 'o', 'u', 't', '_', '0'] ++ Nat.toDigits 10 i
  else base ++ ['.', 'o', 'u', 't', '_'] ++ Nat.toDigits 10 i

theorem numbered_eq (base : Str) (i : ℕ) : tagged (base ++ ".out".toList) i = numbered base i := by
  unfold tagged numbered pad2
  split_ifs <;> simp

/-- **C35 (`.out` file).** If one of the names without number or with number 1 to 100 is free, the `.out`
file of the run is the first free one; no existing `.out` file is touched. -/
theorem out_first_free_partial (exist : Str → Bool) (base : Str)
    (h : ∃ i, i ≤ 100 ∧ exist (numbered base i) = false) :
    ∃ i, i ≤ 100 ∧ (outputs exist base).head? = some (numbered base i) ∧
      exist (numbered base i) = false ∧ ∀ j, j < i → exist (numbered base j) = true := by
  obtain ⟨i, hi, hf⟩ := h
  obtain ⟨h1, h2, h3, h4⟩ := search_spec exist (base ++ ".out".toList) 0 (by omega)
  set s := search exist (base ++ ".out".toList) 0 with hs
  have hle : s ≤ i := by
    by_contra hc
    have := h3 i (by omega) (by omega)
    rw [numbered_eq, hf] at this
    simp at this
  have hsuf : suffix exist base = s := by
    unfold suffix; rw [← hs]; rw [if_neg (by omega)]
  refine ⟨s, by omega, ?_, ?_, fun j hj => ?_⟩
  · unfold outputs exts
    rw [hsuf, ← numbered_eq]; rfl
  · rw [← numbered_eq]; exact h4 (by omega)
  · rw [← numbered_eq]; exact h3 j (by omega) hj

/-- The code violates the claim: when all 101 names are taken, the `.out` file without number is
overwritten. -/
theorem out_overwritten (exist : Str → Bool) (base : Str)
    (h : ∀ i, i ≤ 100 → exist (numbered base i) = true) :
    (outputs exist base).head? = some (numbered base 0) ∧ exist (numbered base 0) = true := by
  obtain ⟨h1, h2, h3, h4⟩ := search_spec exist (base ++ ".out".toList) 0 (by omega)
  have hs : suffix exist base = 0 := by
    unfold suffix
    dsimp only
    by_cases hc : search exist (base ++ ".out".toList) 0 ≤ 100
    · have := h4 hc
      rw [numbered_eq, h _ hc] at this
      simp at this
    · rw [if_pos (by omega)]
  refine ⟨?_, h 0 (by omega)⟩
  unfold outputs exts
  rw [hs, ← numbered_eq]; rfl

/-- The code violates the claim: only the `.out` name is looked up, so an existing `.static` file is
overwritten when the `.out` file beside it is gone. -/
theorem static_overwritten :
    (outputs (fun n => n = "a.static".toList) "a".toList)[1]? = some "a.static".toList := by
  decide +kernel

/-- Value of a decimal numeral. -/
def value (s : Str) : ℕ := s.foldl (fun a c => 10 * a + (c.toNat - 48)) 0

theorem pad2_value : ∀ i ≤ 100, value (pad2 i) = i := by decide +kernel

theorem split_underscore (a b s t : Str) (ha : '_' ∉ a) (hb : '_' ∉ b)
    (h : a ++ '_' :: s = b ++ '_' :: t) : s = t := by
  induction a generalizing b with
  | nil =>
    cases b with
    | nil => simpa using h
    | cons c b =>
      simp only [List.nil_append, List.cons_append, List.cons.injEq] at h
      exact absurd (by rw [h.1]; simp) hb
  | cons c a ih =>
    cases b with
    | nil =>
      simp only [List.nil_append, List.cons_append, List.cons.injEq] at h
      exact absurd (by rw [h.1]; simp) ha
    | cons d b =>
      simp only [List.cons_append, List.cons.injEq] at h
      simp only [List.mem_cons, not_or] at ha hb
      exact ih b ha.2 hb.2 h.2

theorem exts_plain : ∀ e ∈ exts, '_' ∉ e := by decide +kernel

/-- **C35 (separate runs).** Two runs with the same base name and different numbers share no output file
other than the restart files. -/
theorem runs_disjoint (base : Str) (ex ex' : Str → Bool) (hne : suffix ex base ≠ suffix ex' base)
    (n : Str) (hn : n ∈ (outputs ex base).take 17) : n ∉ (outputs ex' base).take 17 := by
  have hle : ∀ ex : Str → Bool, suffix ex base ≤ 100 := by
    intro ex
    unfold suffix
    dsimp only
    split_ifs <;> omega
  have h17 : ∀ ex : Str → Bool, (outputs ex base).take 17 =
      exts.map (fun e => tagged (base ++ e) (suffix ex base)) := by
    intro ex
    unfold outputs
    rw [List.take_append_of_le_length (by simp [exts])]
    exact List.take_of_length_le (by simp [exts])
  rw [h17] at hn ⊢
  obtain ⟨e, he, rfl⟩ := List.mem_map.mp hn
  intro hc
  obtain ⟨e', he', heq⟩ := List.mem_map.mp hc
  have hi := hle ex
  have hj := hle ex'
  generalize suffix ex base = i at *
  generalize suffix ex' base = j at *
  have h1 := exts_plain e he
  have h2 := exts_plain e' he'
  unfold tagged at heq
  split_ifs at heq with a b b
  · exact hne (by omega)
  · rw [List.append_assoc, List.append_right_inj] at heq
    exact h2 (by rw [heq]; simp)
  · rw [List.append_assoc, List.append_right_inj] at heq
    exact h1 (by rw [← heq]; simp)
  · rw [List.append_assoc, List.append_assoc, List.append_right_inj] at heq
    have := split_underscore e' e _ _ h2 h1 heq
    have hv := congrArg value this
    rw [pad2_value j hj, pad2_value i hi] at hv
    exact hne hv.symm

/-- **C35 (separate files).** The files of one run are distinct. -/
theorem outputs_nodup (exist : Str → Bool) (base : Str) : (outputs exist base).Nodup := by
  have hr : ∀ r ∈ restartExts, ∀ e ∈ exts, ∀ t : Str, r ≠ e ++ t := by
    intro r hr e he t h
    have : ∀ r ∈ restartExts, ∀ e ∈ exts, r.take e.length ≠ e := by decide +kernel
    apply this r hr e he
    rw [h]; simp
  unfold outputs
  rw [List.nodup_append]
  refine ⟨?_, ?_, ?_⟩
  · apply List.Nodup.map
    · intro a b hab
      unfold tagged at hab
      dsimp only at hab
      split_ifs at hab
      · exact List.append_cancel_left hab
      · exact List.append_cancel_left (List.append_cancel_right hab)
    · decide +kernel
  · apply List.Nodup.map
    · intro a b hab; exact List.append_cancel_left hab
    · decide +kernel
  · intro a ha b hb hab
    obtain ⟨e, he, rfl⟩ := List.mem_map.mp ha
    obtain ⟨r, hr', rfl⟩ := List.mem_map.mp hb
    unfold tagged at hab
    split_ifs at hab
    · exact hr r hr' e he [] (by rw [List.append_nil]; exact (List.append_cancel_left hab).symm)
    · rw [List.append_assoc] at hab
      exact hr r hr' e he _ (List.append_cancel_left hab).symm

/-! ## C44 -/

/-- Pieces between spaces. -/
def pieces : Str → List Str
  | [] => [[]]
  | c :: r => if c = ' ' then [] :: pieces r
    else match pieces r with
      | [] => [[c]]
      | h :: t => (c :: h) :: t

/-- Space separated words. -/
def words (l : Str) : List Str := (pieces l).filter (· ≠ [])

theorem pieces_name (n : Str) (hn : ' ' ∉ n) : pieces n = [n] := by
  induction n with
  | nil => rfl
  | cons c r ih =>
    simp only [List.mem_cons, not_or] at hn
    rw [pieces, if_neg (Ne.symm hn.1), ih hn.2]

theorem pieces_name_space (n r : Str) (hn : ' ' ∉ n) : pieces (n ++ ' ' :: r) = n :: pieces r := by
  induction n with
  | nil => simp [pieces]
  | cons c t ih =>
    simp only [List.mem_cons, not_or] at hn
    rw [List.cons_append, pieces, if_neg (Ne.symm hn.1), ih hn.2]

theorem words_spaces (l : Str) : words (l.dropWhile (· = ' ')) = words l := by
  induction l with
  | nil => rfl
  | cons c r ih =>
    rw [List.dropWhile_cons]
    split_ifs with h
    · simp only [decide_eq_true_eq] at h
      rw [ih, h]; simp [words, pieces]
    · rfl

theorem takeWhile_nospace (l : Str) : ' ' ∉ l.takeWhile (· ≠ ' ') := by
  induction l with
  | nil => simp
  | cons a l ih =>
    rw [List.takeWhile_cons]
    split_ifs with h
    · simp only [ne_eq, decide_not, Bool.not_eq_eq_eq_not, Bool.not_true, decide_eq_false_iff_not] at h
      simp only [List.mem_cons, not_or]
      exact ⟨fun e => h e.symm, ih⟩
    · simp

theorem dropWhile_space (l : Str) :
    l.dropWhile (· ≠ ' ') = [] ∨ ∃ t, l.dropWhile (· ≠ ' ') = ' ' :: t := by
  induction l with
  | nil => simp
  | cons a l ih =>
    rw [List.dropWhile_cons]
    split_ifs with h
    · exact ih
    · right
      simp only [ne_eq, decide_not, Bool.not_eq_eq_eq_not, Bool.not_true, decide_eq_false_iff_not,
        not_not] at h
      exact ⟨l, by rw [h]⟩

theorem takeWhile_id (p : Char → Bool) (t : Str) (h : ∀ c ∈ t, p c = true) : t.takeWhile p = t := by
  induction t with
  | nil => rfl
  | cons a t ih =>
    rw [List.takeWhile_cons, if_pos (h a (by simp)), ih (fun c hc => h c (by simp [hc]))]

theorem nextToken_words (l : Str) :
    (nextToken l = none ∧ words l = [] ∧ ∀ c ∈ l, c = ' ') ∨
    ∃ t r, nextToken l = some (t, r) ∧ t ≠ [] ∧ words l = t :: words r ∧ (∀ c ∈ t, c ∈ l) ∧
      (∀ c ∈ r, c ∈ l) := by
  have hsub : (l.dropWhile (· = ' ')).Sublist l := List.dropWhile_sublist _
  have hw := words_spaces l
  unfold nextToken
  dsimp only
  by_cases h0 : l.dropWhile (· = ' ') = []
  · left
    rw [if_pos h0]
    refine ⟨rfl, ?_, ?_⟩
    · rw [← hw, h0]; rfl
    · clear hw hsub
      induction l with
      | nil => simp
      | cons a l ih =>
        rw [List.dropWhile_cons] at h0
        split_ifs at h0 with h
        intro c hc
        simp only [List.mem_cons] at hc
        rcases hc with rfl | hc
        · simpa using h
        · exact ih h0 c hc
  · right
    rw [if_neg h0]
    set r := l.dropWhile (· = ' ') with hr
    have hcr : r.takeWhile (· ≠ ' ') ++ r.dropWhile (· ≠ ' ') = r := List.takeWhile_append_dropWhile
    have hns := takeWhile_nospace r
    have hds := dropWhile_space r
    have hne : r.takeWhile (· ≠ ' ') ≠ [] := by
      intro e
      have hf : ∀ x, r.head? = some x → x ≠ ' ' := by
        intro x hx
        have := List.head?_dropWhile_not (fun x : Char => decide (x = ' ')) l
        rw [← hr, hx] at this
        simpa using this
      cases hrr : r with
      | nil => exact h0 hrr
      | cons a b =>
        rw [hrr] at e hf
        have ha := hf a rfl
        rw [List.takeWhile_cons, if_pos (by simpa using ha)] at e
        simp at e
    refine ⟨_, _, rfl, hne, ?_, ?_, ?_⟩
    · rw [← hw]
      rcases hds with hd | ⟨t, hd⟩
      · rw [hd] at hcr ⊢
        rw [List.append_nil] at hcr
        rw [List.tail_nil]
        conv_lhs => rw [← hcr]
        unfold words
        rw [pieces_name _ hns, List.filter_cons, if_pos (by simpa using hne)]
        rfl
      · rw [hd] at hcr ⊢
        rw [List.tail_cons]
        conv_lhs => rw [← hcr]
        unfold words
        rw [pieces_name_space _ _ hns, List.filter_cons, if_pos (by simpa using hne)]
    · intro c hc
      exact hsub.subset ((List.takeWhile_sublist _).subset hc)
    · intro c hc
      exact hsub.subset ((List.dropWhile_sublist _).subset (List.mem_of_mem_tail hc))

theorem words_mem (l : Str) (k : ℕ) (hk : l.length ≤ k) : ∀ w ∈ words l, w ≠ [] ∧ ∀ c ∈ w, c ∈ l := by
  induction k generalizing l with
  | zero =>
    have : l = [] := List.length_eq_zero_iff.mp (by omega)
    subst this; simp [words, pieces]
  | succ k ih =>
    rcases nextToken_words l with ⟨_, h, _⟩ | ⟨t, r, h1, h2, h3, h4, h5⟩
    · rw [h]; simp
    · have hl := nextToken_length l t r h1
      rw [h3]
      intro w hw
      simp only [List.mem_cons] at hw
      rcases hw with rfl | hw
      · exact ⟨h2, h4⟩
      · have := ih r (by omega) w hw
        exact ⟨this.1, fun c hc => h5 c (this.2 c hc)⟩

theorem readLoop_none (max count : ℕ) (l : Str) (h : nextToken l = none) :
    readLoop max count l = some [] := by
  rw [readLoop]
  split
  · rfl
  · rename_i h'; rw [h] at h'; simp at h'

theorem readLoop_some (max count : ℕ) (l t r : Str) (h : nextToken l = some (t, r)) :
    readLoop max count l =
      if (t.takeWhile (· ≠ '\n')).head? = some '#' ∨ t.takeWhile (· ≠ '\n') = [] then some []
      else if max ≤ count then none
      else (readLoop max (count + 1) r).map (t.takeWhile (· ≠ '\n') :: ·) := by
  conv_lhs => rw [readLoop]
  split
  · rename_i h'; rw [h] at h'; simp at h'
  · rename_i t' r' h'
    rw [h] at h'
    simp only [Option.some.injEq, Prod.mk.injEq] at h'
    obtain ⟨rfl, rfl⟩ := h'
    rfl

theorem readLoop_spec (k : ℕ) : ∀ (l : Str) (max count : ℕ), l.length ≤ k → '\n' ∉ l →
    readLoop max count l =
      if count ≤ max ∨ (words l).takeWhile (fun w => w.head? ≠ some '#') = [] then
        (if count + ((words l).takeWhile (fun w => w.head? ≠ some '#')).length ≤ max ∨
          (words l).takeWhile (fun w => w.head? ≠ some '#') = []
         then some ((words l).takeWhile (fun w => w.head? ≠ some '#')) else none)
      else none := by
  induction k with
  | zero =>
    intro l max count hk hn
    have : l = [] := List.length_eq_zero_iff.mp (by omega)
    subst this
    rw [readLoop]
    simp [nextToken, words, pieces]
  | succ k ih =>
    intro l max count hk hn
    rcases nextToken_words l with ⟨h1, h2, _⟩ | ⟨t, r, h1, h2, h3, h4, h5⟩
    · rw [readLoop_none _ _ _ h1, h2]; simp
    · have hl := nextToken_length l t r h1
      have hr : '\n' ∉ r := fun hc => hn (h5 _ hc)
      have ht : t.takeWhile (· ≠ '\n') = t :=
        takeWhile_id _ t (fun c hc => by
          simp only [ne_eq, decide_not, Bool.not_eq_eq_eq_not, Bool.not_true, decide_eq_false_iff_not]
          intro e; exact hn (e ▸ h4 c hc))
      rw [readLoop_some _ _ _ _ _ h1, ht, h3, List.takeWhile_cons]
      by_cases hh : t.head? = some '#'
      · have hd : decide (t.head? ≠ some '#') = false := by simp [hh]
        rw [if_pos (Or.inl hh)]; simp [hd]
      · have hd : decide (t.head? ≠ some '#') = true := by simpa using hh
        rw [if_neg (by rintro (h | h); exacts [hh h, h2 h])]
        simp only [hd, if_true]
        by_cases hm : max ≤ count
        · rw [if_pos hm]
          simp; omega
        · rw [if_neg hm, ih r max (count + 1) (by omega) hr]
          generalize (words r).takeWhile (fun w => decide (w.head? ≠ some '#')) = ws
          rw [if_pos (show count + 1 ≤ max ∨ ws = [] from Or.inl (by omega)),
            if_pos (show count ≤ max ∨ t :: ws = [] from Or.inl (by omega))]
          simp only [List.length_cons]
          by_cases hc : count + 1 + ws.length ≤ max
          · rw [if_pos (Or.inl hc), if_pos (Or.inl (by omega))]; rfl
          · have : ws ≠ [] := by rintro rfl; simp at hc; omega
            rw [if_neg (by simp [this]; omega), if_neg (by simp; omega)]; rfl

/-- **C44.** A line without newline gives the words before the first word that begins with `#`, in order,
if there are at most `max` of them, and the error value otherwise. -/
theorem readStrings_line (body : Str) (max : ℕ) (h : '\n' ∉ body) :
    readStrings body max =
      if ((words body).takeWhile (fun w => w.head? ≠ some '#')).length ≤ max
      then some ((words body).takeWhile (fun w => w.head? ≠ some '#')) else none := by
  unfold readStrings
  rw [readLoop_spec _ body max 0 le_rfl h, if_pos (Or.inl (Nat.zero_le _)), Nat.zero_add]
  generalize (words body).takeWhile (fun w => decide (w.head? ≠ some '#')) = ws
  by_cases hc : ws.length ≤ max
  · rw [if_pos (Or.inl hc), if_pos hc]
  · rw [if_neg, if_neg hc]
    rintro (h | h)
    · exact hc h
    · rw [h] at hc; simp at hc

/-- The newline at the end of a line makes no difference. -/
theorem readLoop_newline (k : ℕ) : ∀ (l : Str) (max count : ℕ), l.length ≤ k → '\n' ∉ l →
    readLoop max count (l ++ ['\n']) = readLoop max count l := by
  induction k with
  | zero =>
    intro l max count hk hn
    have : l = [] := List.length_eq_zero_iff.mp (by omega)
    subst this
    rw [readLoop, readLoop]
    simp [nextToken]
  | succ k ih =>
    intro l max count hk hn
    rcases nextToken_words l with ⟨h1, h2, h3⟩ | ⟨t, r, h1, h2, h3, h4, h5⟩
    · have hd : (l ++ ['\n']).dropWhile (· = ' ') = ['\n'] := by
        clear h1 h2 hn hk
        induction l with
        | nil => rfl
        | cons a l ih =>
          rw [List.cons_append, List.dropWhile_cons, if_pos (by simpa using h3 a (by simp))]
          exact ih (fun c hc => h3 c (by simp [hc]))
      have hn' : nextToken (l ++ ['\n']) = some (['\n'], []) := by
        unfold nextToken; dsimp only; rw [hd]; rfl
      rw [readLoop_some _ _ _ _ _ hn', readLoop_none _ _ _ h1]
      simp
    · have hl := nextToken_length l t r h1
      have hr : '\n' ∉ r := fun hc => hn (h5 _ hc)
      have ht : t.takeWhile (· ≠ '\n') = t :=
        takeWhile_id _ t (fun c hc => by
          simp only [ne_eq, decide_not, Bool.not_eq_eq_eq_not, Bool.not_true, decide_eq_false_iff_not]
          intro e; exact hn (e ▸ h4 c hc))
      have hn' : nextToken (l ++ ['\n']) = some (t, r ++ ['\n']) ∨
          nextToken (l ++ ['\n']) = some (t ++ ['\n'], r) ∧ r = [] := by
        unfold nextToken at h1 ⊢
        dsimp only at h1 ⊢
        split_ifs at h1 with h0
        simp only [Option.some.injEq, Prod.mk.injEq] at h1
        have hd : (l ++ ['\n']).dropWhile (· = ' ') = l.dropWhile (· = ' ') ++ ['\n'] := by
          clear h1 h2 h3 h4 h5 hn hk hl
          induction l with
          | nil => simp at h0
          | cons a l ih =>
            rw [List.cons_append, List.dropWhile_cons, List.dropWhile_cons]
            rw [List.dropWhile_cons] at h0
            split_ifs at h0 ⊢
            · exact ih h0
            · rfl
        rw [hd, if_neg (by simp)]
        obtain ⟨e1, e2⟩ := h1
        rcases dropWhile_space (l.dropWhile (· = ' ')) with hw | ⟨s, hw⟩
        · right
          have hta : (l.dropWhile (· = ' ')).takeWhile (· ≠ ' ') = l.dropWhile (· = ' ') := by
            have := List.takeWhile_append_dropWhile (p := fun c : Char => decide (c ≠ ' '))
              (l := l.dropWhile (· = ' '))
            rw [hw, List.append_nil] at this
            exact this
          rw [hta] at e1
          have hsp : ∀ c ∈ t ++ ['\n'], (decide (c ≠ ' ')) = true := by
            intro c hc
            have : ' ' ∉ t := by
              rw [← e1, ← hta]; exact takeWhile_nospace _
            simp only [List.mem_append, List.mem_singleton] at hc
            rcases hc with hc | rfl
            · simp only [ne_eq, decide_not, Bool.not_eq_eq_eq_not, Bool.not_true, decide_eq_false_iff_not]
              rintro rfl; exact this hc
            · decide
          have hr0 : r = [] := by rw [← e2, hw]; rfl
          refine ⟨?_, hr0⟩
          rw [e1, takeWhile_id _ _ hsp]
          have hdw : (t ++ ['\n']).dropWhile (fun c => decide (c ≠ ' ')) = [] := by
            have := List.takeWhile_append_dropWhile (p := fun c : Char => decide (c ≠ ' '))
              (l := t ++ ['\n'])
            rw [takeWhile_id _ _ hsp] at this
            simpa using this
          rw [hdw, hr0]; rfl
        · left
          have hsplit := List.takeWhile_append_dropWhile (p := fun c : Char => decide (c ≠ ' '))
              (l := l.dropWhile (· = ' '))
          rw [e1, hw] at hsplit
          rw [hw, List.tail_cons] at e2
          have hsp : ∀ c ∈ t, (decide (c ≠ ' ')) = true := by
            intro c hc
            have : ' ' ∉ t := by rw [← e1]; exact takeWhile_nospace _
            simp only [ne_eq, decide_not, Bool.not_eq_eq_eq_not, Bool.not_true, decide_eq_false_iff_not]
            rintro rfl; exact this hc
          have hx : ∀ u : Str, (t ++ ' ' :: u).takeWhile (fun c => decide (c ≠ ' ')) = t ∧
              (t ++ ' ' :: u).dropWhile (fun c => decide (c ≠ ' ')) = ' ' :: u := by
            intro u
            clear hsplit e1 h2 h3 h4 ht
            induction t with
            | nil => simp
            | cons a t ih =>
              have ha := hsp a (by simp)
              obtain ⟨i1, i2⟩ := ih (fun c hc => hsp c (by simp [hc]))
              rw [List.cons_append, List.takeWhile_cons, List.dropWhile_cons, if_pos ha, if_pos ha, i1, i2]
              exact ⟨rfl, rfl⟩
          rw [← hsplit, List.append_assoc, List.cons_append, (hx _).1, (hx _).2, List.tail_cons, e2]
      rw [readLoop_some _ _ _ _ _ h1]
      rcases hn' with hn' | ⟨hn', hr0⟩
      · rw [readLoop_some _ _ _ _ _ hn', ih r max (count + 1) (by omega) hr]
      · rw [readLoop_some _ _ _ _ _ hn']
        have : (t ++ ['\n']).takeWhile (fun c => decide (c ≠ '\n')) =
            t.takeWhile (fun c => decide (c ≠ '\n')) := by
          rw [ht]
          have hm : '\n' ∉ t := fun e => hn (h4 _ e)
          clear ht hn' h1 h2 h3 h4
          induction t with
          | nil => rfl
          | cons a t iht =>
            simp only [List.mem_cons, not_or] at hm
            rw [List.cons_append, List.takeWhile_cons, if_pos (by simpa using Ne.symm hm.1), iht hm.2]
        rw [this]

/-- **C44 (with newline).** The same holds for a line ended by a newline, as `fgets` delivers it. -/
theorem readStrings_newline (body : Str) (max : ℕ) (h : '\n' ∉ body) :
    readStrings (body ++ ['\n']) max =
      if ((words body).takeWhile (fun w => w.head? ≠ some '#')).length ≤ max
      then some ((words body).takeWhile (fun w => w.head? ≠ some '#')) else none := by
  rw [← readStrings_line body max h]
  exact readLoop_newline _ body max 0 le_rfl h

/-! ## C45 -/

/-- Code and flags agree: the code counts the Dirichlet axes. -/
def Agree (s : Bc) : Prop :=
  (s.x = 0 ∨ s.x = 1) ∧ (s.y = 0 ∨ s.y = 1) ∧ (s.z = 0 ∨ s.z = 1) ∧
  (s.bc = 1 ∧ s.x + s.y + s.z = 3 ∨ s.bc = 2 ∧ s.x + s.y + s.z = 0 ∨
   s.bc = 3 ∧ s.x + s.y + s.z = 1 ∨ s.bc = 4 ∧ s.x + s.y + s.z = 2 ∨
   s.bc = 5 ∧ s.x = 1 ∧ s.y = 0 ∧ s.z = 0 ∨ s.bc = 6 ∧ s.x = 1 ∧ s.y = 1 ∧ s.z = 0 ∨
   s.bc = 7 ∧ s.x = 1 ∧ s.y = 0 ∧ s.z = 0)

instance (s : Bc) : Decidable (Agree s) := by unfold Agree; infer_instance

/-- What the reader can deliver: the flags are all unset or all 0 or 1. -/
def Read (s : Bc) : Prop :=
  (s.x = -1 ∧ s.y = -1 ∧ s.z = -1) ∨
  ((s.x = 0 ∨ s.x = 1) ∧ (s.y = 0 ∨ s.y = 1) ∧ (s.z = 0 ∨ s.z = 1))

/-- **C45 (reader).** A `BC:` line that is accepted sets every flag to 0 or 1, 1 exactly for `D`. -/
theorem readBC_flags (s r : Bc) (w1 w2 w3 : Word) (h : readBC s w1 w2 w3 = some r) :
    (r.x = if w1 = .d then 1 else 0) ∧ (r.y = if w2 = .d then 1 else 0) ∧
    (r.z = if w3 = .d then 1 else 0) ∧ Read r := by
  unfold readBC at h
  unfold Read
  cases w1 <;> cases w2 <;> cases w3 <;> simp at h <;> subst h <;> simp

/-- **C45 (agreement).** After the translation code and flags agree, whatever code was given. -/
theorem translate_agree (s r : Bc) (hs : Read s) (h : translate s = some r) : Agree r := by
  obtain ⟨bc, x, y, z⟩ := s
  unfold translate at h
  dsimp only at h
  have hconst : Agree ⟨5, 1, 0, 0⟩ ∧ Agree ⟨6, 1, 1, 0⟩ ∧ Agree ⟨7, 1, 0, 0⟩ ∧ Agree ⟨1, 1, 1, 1⟩ ∧
      Agree ⟨2, 0, 0, 0⟩ ∧ Agree ⟨3, 0, 0, 1⟩ ∧ Agree ⟨4, 1, 1, 0⟩ := by
    decide
  obtain ⟨c5, c6, c7, c1, c2, c3, c4⟩ := hconst
  unfold Read at hs
  dsimp only at hs
  have hsum : x ≥ 0 ∧ y ≥ 0 ∧ z ≥ 0 → (x = 0 ∨ x = 1) ∧ (y = 0 ∨ y = 1) ∧ (z = 0 ∨ z = 1) := by omega
  split_ifs at h with h1 h2 h3 h4 h5 h6 h7 h8 h9 h10 h11 h12 h13
  all_goals (try (rw [Option.some.injEq] at h; subst h))
  all_goals (try assumption)
  all_goals
    obtain ⟨hx, hy, hz⟩ := hsum h9
    refine ⟨hx, hy, hz, ?_⟩
  · exact Or.inr (Or.inl ⟨rfl, h10⟩)
  · exact Or.inr (Or.inr (Or.inl ⟨rfl, h11⟩))
  · exact Or.inr (Or.inr (Or.inr (Or.inl ⟨rfl, h12⟩)))
  · exact Or.inl ⟨rfl, h13⟩
  · exfalso; omega

/-- **C45 (given flags are kept).** Without a legacy code the flags stay as given. -/
theorem translate_flags (s : Bc) (h0 : s.bc ≤ 0) (hx : s.x = 0 ∨ s.x = 1) (hy : s.y = 0 ∨ s.y = 1)
    (hz : s.z = 0 ∨ s.z = 1) : ∃ r, translate s = some r ∧ r.x = s.x ∧ r.y = s.y ∧ r.z = s.z := by
  obtain ⟨bc, x, y, z⟩ := s
  unfold translate
  dsimp only at *
  rw [if_neg (by omega), if_neg (by omega), if_pos (by omega)]
  split_ifs <;> simp

/-- **C45 (given code is kept).** A legacy code 1 to 7 is kept, a larger one is rejected, and none at all
means periodic in all directions. -/
theorem translate_code (s : Bc) :
    (1 ≤ s.bc → s.bc ≤ 7 → ∃ r, translate s = some r ∧ r.bc = s.bc) ∧
    (7 < s.bc → translate s = none) ∧
    (translate bcDefault = some ⟨2, 0, 0, 0⟩) := by
  obtain ⟨bc, x, y, z⟩ := s
  refine ⟨fun h1 h2 => ?_, fun h => ?_, by decide⟩
  · dsimp only at h1 h2
    obtain h | h | h | h | h | h | h : bc = 1 ∨ bc = 2 ∨ bc = 3 ∨ bc = 4 ∨ bc = 5 ∨ bc = 6 ∨ bc = 7 := by
      omega
    all_goals subst h; exact ⟨_, rfl, rfl⟩
  · unfold translate
    dsimp only at h ⊢
    rw [if_neg (by omega), if_pos (by omega), if_neg (by omega), if_neg (by omega), if_neg (by omega),
      if_neg (by omega)]

/-- **C45 (code to flags to code).** Translating the flags of a code 1 to 4 gives the code back. -/
theorem code_flags_code (s r : Bc) (h1 : 1 ≤ s.bc) (h4 : s.bc ≤ 4) (h : translate s = some r) :
    translate { r with bc := -1 } = some r := by
  obtain ⟨bc, x, y, z⟩ := s
  dsimp only at h1 h4
  obtain hb | hb | hb | hb : bc = 1 ∨ bc = 2 ∨ bc = 3 ∨ bc = 4 := by omega
  all_goals
    subst hb
    simp [translate] at h
    subst h
    decide

/-- **C45 (flags to code to flags).** The other way round only the number of Dirichlet axes is kept. -/
theorem flags_code_flags_partial (s r r' : Bc) (h0 : s.bc ≤ 0) (hx : s.x = 0 ∨ s.x = 1)
    (hy : s.y = 0 ∨ s.y = 1) (hz : s.z = 0 ∨ s.z = 1) (h : translate s = some r)
    (h' : translate { bcDefault with bc := r.bc } = some r') :
    r'.bc = r.bc ∧ r'.x + r'.y + r'.z = s.x + s.y + s.z := by
  obtain ⟨bc, x, y, z⟩ := s
  dsimp only at h0 hx hy hz ⊢
  have hb1 : ¬ (5 ≤ bc ∧ bc ≤ 7) := by omega
  have hb2 : ¬ bc > 0 := by omega
  unfold translate at h
  dsimp only at h
  rw [if_neg hb1, if_neg hb2, if_pos (by omega)] at h
  have hxyz : x + y + z = 0 ∨ x + y + z = 1 ∨ x + y + z = 2 ∨ x + y + z = 3 := by omega
  rcases hxyz with e | e | e | e <;> rw [e] at h ⊢ <;> simp at h <;> subst h <;>
    simp [translate, bcDefault] at h' <;> subst h' <;> simp

/-- The axis itself is lost: a slab with vacuum along x becomes one with vacuum along z. -/
theorem flags_code_flags_axis :
    translate ⟨-1, 1, 0, 0⟩ = some ⟨3, 1, 0, 0⟩ ∧ translate ⟨3, -1, -1, -1⟩ = some ⟨3, 0, 0, 1⟩ := by
  decide

/-- **C45 (grid sizes).** The number of grid points exceeds the number of intervals by one exactly on the
Dirichlet axes, and equals it on the others. -/
theorem nodes_spec (s r : Bc) (hs : Read s) (h : translate s = some r) (nx ny nz : ℤ) :
    ((nodes r nx ny nz).1 = if r.x = 1 then nx + 1 else nx) ∧
    ((nodes r nx ny nz).2.1 = if r.y = 1 then ny + 1 else ny) ∧
    ((nodes r nx ny nz).2.2 = if r.z = 1 then nz + 1 else nz) := by
  obtain ⟨hx, hy, hz, _⟩ := translate_agree s r hs h
  unfold nodes
  dsimp only
  refine ⟨?_, ?_, ?_⟩ <;> split_ifs <;> omega

/-- The code violates the claim: the check that isolated clusters have an orthogonal cell looks at the
legacy code only, so `BC: D D D` passes it while code 1 does not, though both mean the same. -/
theorem cluster_check_bypassed :
    (∃ r, readBC bcDefault .d .d .d = some r ∧ clusterCheck r false = true ∧
      translate r = some ⟨1, 1, 1, 1⟩) ∧
    clusterCheck { bcDefault with bc := 1 } false = false ∧
    translate { bcDefault with bc := 1 } = some ⟨1, 1, 1, 1⟩ := by
  refine ⟨⟨_, rfl, by decide, by decide⟩, by decide, by decide⟩

/-- If both options are given, the legacy code silently replaces the flags. -/
theorem legacy_overrides_flags :
    ∃ r, readBC { bcDefault with bc := 4 } .p .d .d = some r ∧ translate r = some ⟨4, 1, 1, 0⟩ :=
  ⟨_, rfl, by decide⟩

/-! ## C52 -/

/-- The two axes of a stress component. -/
def axes : Fin 6 → Fin 3 × Fin 3 := ![(0, 0), (0, 1), (0, 2), (1, 1), (1, 2), (2, 2)]

/-- Whether an axis is periodic. -/
def periodic (s : Bc) (a : Fin 3) : Prop := ![s.x, s.y, s.z] a = 0

/-- **C52.** In a slab or wire (codes 3 and 4) a stress component survives exactly if both its axes are
periodic, and is reported as zero otherwise; in a bulk system nothing is changed. -/
theorem maskStress_spec {R : Type} [Zero R] (s : Bc) (ha : Agree s) (σ : Fin 6 → R) (i : Fin 6) :
    (s.bc ≤ 4 → s.bc ≠ 1 → periodic s (axes i).1 → periodic s (axes i).2 → maskStress s σ i = σ i) ∧
    (s.bc ≤ 4 → s.bc ≠ 1 → ¬ (periodic s (axes i).1 ∧ periodic s (axes i).2) → maskStress s σ i = 0) := by
  obtain ⟨bc, x, y, z⟩ := s
  obtain ⟨hx, hy, hz, hc⟩ := ha
  dsimp only at hx hy hz hc
  unfold periodic axes maskStress
  by_cases hb : bc ≤ 4 ∧ bc ≠ 1
  swap
  · constructor <;> · intro h1 h2; exact absurd ⟨h1, h2⟩ hb
  have hbc : bc = 2 ∧ x + y + z = 0 ∨ bc = 3 ∧ x + y + z = 1 ∨ bc = 4 ∧ x + y + z = 2 := by omega
  clear hc hb
  rcases hbc with ⟨rfl, h⟩ | ⟨rfl, h⟩ | ⟨rfl, h⟩ <;>
  rcases hx with rfl | rfl <;> rcases hy with rfl | rfl <;> rcases hz with rfl | rfl <;>
    first
    | (exfalso; omega)
    | (fin_cases i <;> simp)

/-! ## Concrete instances -/

example : ∃ i, i ≤ 100 ∧ (fun n => decide (n = "a.out".toList)) (numbered "a".toList i) = false :=
  ⟨1, by omega, by decide +kernel⟩
example : suffix (fun n => decide (n = "a.out".toList)) "a".toList = 1 ∧
    suffix (fun _ => false) "a".toList = 0 ∧ (outputs (fun n => decide (n = "a.out".toList)) "a".toList)[1]?
      = some "a.static_01".toList := by decide +kernel
example : readStrings "  a.dens  b # c\n".toList 3 = some ["a.dens".toList, "b".toList] := by decide +kernel
example : readStrings "a b c d".toList 3 = none := by decide +kernel
example : Read ⟨-1, 0, 1, 1⟩ ∧ translate ⟨-1, 0, 1, 1⟩ = some ⟨4, 0, 1, 1⟩ := by
  constructor
  · unfold Read; decide
  · decide
example : Agree ⟨4, 0, 1, 1⟩ := by unfold Agree; decide
example : readBC bcDefault .p .d .d = some ⟨-1, 0, 1, 1⟩ := rfl

end Sparc.Files

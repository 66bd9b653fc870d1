import Verif.Tac
import Verif.DyArr.Model

/-!
# Growable integer array (property C37)
-/

namespace Sparc.DyArr

/-- The same operations on a list. -/
def runList : List ℤ → List Op → Option (List ℤ) × List ℤ
  | l, [] => (some l, [])
  | l, .append x :: r => runList (l ++ [x]) r
  | _, .clear :: r => runList [] r
  | _, .delete :: r => runList [] r
  | l, .pop :: r =>
    match l.getLast? with
    | none => (none, [])
    | some x => ((runList l.dropLast r).1, x :: (runList l.dropLast r).2)

/-- An array holds a list: its first `len` cells are the elements, and at most four times as many cells
(or the initial number) are allocated. -/
structure Holds (a : Arr) (l : List ℤ) : Prop where
  len : a.len = l.length
  cells : ∀ i (h : i < l.length), a.mem[i]? = some (some l[i])
  fits : l.length ≤ a.mem.length
  tight : a.mem.length ≤ max 4 (4 * l.length)

theorem realloc_length (a : Arr) (n : ℕ) : (realloc a n).mem.length = n := by
  simp [realloc]; omega

theorem realloc_get (a : Arr) (n i : ℕ) (h : i < n) (hi : i < a.mem.length) :
    (realloc a n).mem[i]? = a.mem[i]? := by
  unfold realloc
  dsimp only
  rw [List.getElem?_append_left (by simp; omega), List.getElem?_take, if_pos h]

theorem init_holds : Holds init [] := by
  refine ⟨rfl, by simp, by simp, ?_⟩
  simp [init, initCap]

theorem append_holds (a : Arr) (l : List ℤ) (x : ℤ) (h : Holds a l) :
    ∃ b, append a x = some b ∧ Holds b (l ++ [x]) := by
  -- array with room for one more element
  have key : ∀ b : Arr, b.len = l.length → (∀ i (h : i < l.length), b.mem[i]? = some (some l[i])) →
      l.length < b.mem.length → b.mem.length ≤ max 4 (4 * (l.length + 1)) →
      Holds ⟨b.mem.set b.len (some x), b.len + 1⟩ (l ++ [x]) := by
    intro b h1 h2 h3 h4
    refine ⟨by simp [h1], ?_, by simp; omega, by simpa using h4⟩
    intro i hi
    rw [List.length_append, List.length_singleton] at hi
    dsimp only
    by_cases hil : i = l.length
    · subst hil
      rw [h1, List.getElem?_set_self (by omega)]; simp
    · rw [h1, List.getElem?_set_ne (by omega), h2 i (by omega), List.getElem_append_left (by omega)]
  unfold append
  dsimp only
  by_cases hc : a.len = a.mem.length
  · rw [if_pos hc]
    have hcap : (double a).mem.length = max (if a.mem.length ≠ 0 then 2 * a.mem.length else initCap) initCap :=
      realloc_length _ _
    have hlen : (double a).len = a.len := rfl
    have hl := h.len
    have ht := h.tight
    have hbig : l.length < (double a).mem.length ∧ (double a).mem.length ≤ max 4 (4 * (l.length + 1)) := by
      rw [hcap]; unfold initCap
      split_ifs <;> omega
    rw [if_pos (by rw [hlen, hl]; exact hbig.1)]
    refine ⟨_, rfl, key _ (hlen.trans hl) ?_ hbig.1 hbig.2⟩
    intro i hi
    have : (double a).mem[i]? = a.mem[i]? := by
      unfold double
      apply realloc_get
      · rw [← hcap]; omega
      · omega
    rw [this]; exact h.cells i hi
  · rw [if_neg hc]
    have hl := h.len
    have hf := h.fits
    have ht := h.tight
    rw [if_pos (by omega)]
    exact ⟨_, rfl, key a hl h.cells (by omega) (by omega)⟩

theorem pop_holds (a : Arr) (l : List ℤ) (h : Holds a l) :
    match l.getLast? with
    | none => pop a = .exit
    | some x => ∃ b, pop a = .ok b x ∧ Holds b l.dropLast := by
  have hl := h.len
  have hf := h.fits
  have ht := h.tight
  rcases List.eq_nil_or_concat l with rfl | ⟨r, x, rfl⟩
  · rw [List.getLast?_nil]
    dsimp only
    unfold pop
    rw [if_pos (by simp at hl; omega)]
  · rw [List.concat_eq_append] at *
    rw [List.getLast?_append, List.getLast?_singleton, List.dropLast_concat]
    simp only [Option.some_or]
    rw [List.length_append, List.length_singleton] at hl hf ht
    unfold pop
    rw [if_neg (by omega)]
    dsimp only
    have hcells : ∀ i (hi : i < r.length), a.mem[i]? = some (some r[i]) := by
      intro i hi
      rw [h.cells i (by simp; omega), List.getElem_append_left hi]
    have hlast : a.mem[r.length]? = some (some x) := by
      rw [h.cells r.length (by simp)]; simp
    have hlen1 : a.len - 1 = r.length := by omega
    rw [hlen1]
    by_cases hc : 4 * r.length < a.mem.length
    · rw [if_pos hc]
      have hcap : (half ⟨a.mem, r.length⟩).mem.length = max (a.mem.length / 2) initCap := realloc_length _ _
      have hget : ∀ i, i ≤ r.length → (half ⟨a.mem, r.length⟩).mem[i]? = a.mem[i]? := by
        intro i hi
        unfold half
        apply realloc_get
        · dsimp only; unfold initCap; omega
        · dsimp only; omega
      have hhl : (half ⟨a.mem, r.length⟩).len = r.length := rfl
      rw [hhl, hget _ le_rfl, hlast]
      refine ⟨_, rfl, hhl, fun i hi => ?_, ?_, ?_⟩
      · rw [hget i (by omega)]; exact hcells i hi
      · rw [hcap]; unfold initCap; omega
      · rw [hcap]; unfold initCap; omega
    · rw [if_neg hc]
      dsimp only
      rw [hlast]
      exact ⟨_, rfl, rfl, hcells, by dsimp only; omega, by dsimp only; omega⟩

theorem clear_holds (a : Arr) : Holds (clear a) [] := by
  refine ⟨rfl, by simp, by simp, ?_⟩
  have : (clear a).mem.length = initCap := realloc_length a initCap
  rw [this]; simp [initCap]

theorem run_spec (ops : List Op) : ∀ (a : Arr) (l : List ℤ), Holds a l →
    ∃ b, run a ops = some (b, (runList l ops).2) ∧
      match (runList l ops).1, b with
      | some l', some b => Holds b l'
      | none, none => True
      | _, _ => False := by
  induction ops with
  | nil => intro a l h; exact ⟨some a, rfl, h⟩
  | cons op r ih =>
    intro a l h
    cases op with
    | append x =>
      obtain ⟨b, hb, hh⟩ := append_holds a l x h
      obtain ⟨c, hc⟩ := ih b _ hh
      exact ⟨c, by rw [run, hb]; exact hc.1, hc.2⟩
    | clear => exact ih (clear a) [] (clear_holds a)
    | delete => exact ih (delete a) [] ⟨rfl, by simp, by simp, by simp [delete]⟩
    | pop =>
      have hp := pop_holds a l h
      rw [run, runList]
      cases hx : l.getLast? with
      | none =>
        rw [hx] at hp
        dsimp only at hp ⊢
        rw [hp]
        exact ⟨none, rfl, trivial⟩
      | some x =>
        rw [hx] at hp
        dsimp only at hp ⊢
        obtain ⟨b, hb, hh⟩ := hp
        obtain ⟨c, hc⟩ := ih b _ hh
        rw [hb]
        dsimp only
        rw [hc.1]
        exact ⟨c, rfl, hc.2⟩

/-- **C37.** For every sequence of operations on a new array no access is invalid, the popped values are
those of the list, and the array ends with exactly the elements of the list (or exits exactly when the
list is popped empty). -/
theorem array_is_list (ops : List Op) :
    ∃ b, run init ops = some (b, (runList [] ops).2) ∧
      match (runList [] ops).1, b with
      | some l, some b => b.len = l.length ∧ (∀ i (h : i < l.length), b.mem[i]? = some (some l[i])) ∧
          l.length ≤ b.mem.length
      | none, none => True
      | _, _ => False := by
  obtain ⟨b, hb, hm⟩ := run_spec ops init [] init_holds
  refine ⟨b, hb, ?_⟩
  cases h1 : (runList [] ops).1 <;> cases b <;> simp only [h1] at hm ⊢
  exact ⟨hm.len, hm.cells, hm.fits⟩

/-- **C37 (memory).** At most four cells per element, or four in all, are allocated. -/
theorem array_tight (ops : List Op) (b : Arr) (vs : List ℤ) (h : run init ops = some (some b, vs)) :
    b.mem.length ≤ max 4 (4 * b.len) := by
  obtain ⟨c, hc, hm⟩ := run_spec ops init [] init_holds
  rw [h] at hc
  simp only [Option.some.injEq, Prod.mk.injEq] at hc
  obtain ⟨rfl, _⟩ := hc
  cases h1 : (runList [] ops).1 with
  | none => rw [h1] at hm; exact absurd hm (by simp)
  | some l =>
    rw [h1] at hm
    dsimp only at hm
    rw [hm.len]; exact hm.tight

/-! ## Concrete instances -/

example : (runList [] [.append 1, .append 2, .append 3, .append 4, .append 5, .pop, .pop, .append 6]).2 = [5, 4] ∧
    (runList [] [.append 1, .pop, .pop]).1 = none := by decide
example : (run init [.append 1, .append 2, .append 3, .append 4, .append 5, .pop]).map (·.2) = some [5] := by
  decide +kernel

end Sparc.DyArr

import Mathlib.Tactic.Ring
import Mathlib.Tactic.Linarith
import Mathlib.Data.List.Basic
import Verif.Factor.Model

/-! # Lemmas for divisor lists -/

namespace Sparc.Factor

/-- positive divisors of `num` below `d`, ascending -/
def small (num d : Nat) : List Nat := (List.range d).filter (fun k => decide (0 < k ∧ num % k = 0))

/-- the pair layout used by `factor` -/
def pairs (num : Nat) (l : List Nat) : List Nat := l.flatMap (fun k => [k, num / k])

theorem small_succ (num d : Nat) :
    small num (d + 1) = small num d ++ (if 0 < d ∧ num % d = 0 then [d] else []) := by
  unfold small
  rw [List.range_succ, List.filter_append]
  congr 1
  by_cases h : 0 < d ∧ num % d = 0 <;> simp [h]

theorem mem_small {num d k : Nat} : k ∈ small num d ↔ k < d ∧ 0 < k ∧ num % k = 0 := by
  simp [small]

theorem small_sorted (num d : Nat) : (small num d).Pairwise (· < ·) :=
  List.Pairwise.filter _ List.pairwise_lt_range

theorem pairs_append (num : Nat) (l m : List Nat) : pairs num (l ++ m) = pairs num l ++ pairs num m := by
  simp [pairs]

theorem pairs_length (num : Nat) (l : List Nat) : (pairs num l).length = 2 * l.length := by
  induction l with
  | nil => rfl
  | cons a l ih =>
    have : pairs num (a :: l) = a :: num / a :: pairs num l := rfl
    rw [this]; simp [ih]; ring

theorem pairs_even (num : Nat) (l : List Nat) (t : List Nat) (j : Nat) (h : j < l.length) :
    (pairs num l ++ t)[2 * j]? = l[j]? := by
  induction l generalizing j with
  | nil => simp at h
  | cons a l ih =>
    have : pairs num (a :: l) = a :: num / a :: pairs num l := rfl
    rw [this]
    cases j with
    | zero => simp
    | succ j =>
      have : 2 * (j + 1) = 2 * j + 1 + 1 := by ring
      rw [this]
      simp only [List.cons_append, List.getElem?_cons_succ]
      exact ih j (by simpa using h)

theorem pairs_odd (num : Nat) (l : List Nat) (t : List Nat) (j : Nat) (h : j < l.length) :
    (pairs num l ++ t)[2 * j + 1]? = l[j]?.map (num / ·) := by
  induction l generalizing j with
  | nil => simp at h
  | cons a l ih =>
    have : pairs num (a :: l) = a :: num / a :: pairs num l := rfl
    rw [this]
    cases j with
    | zero => simp
    | succ j =>
      have : 2 * (j + 1) + 1 = (2 * j + 1) + 1 + 1 := by ring
      rw [this]
      simp only [List.cons_append, List.getElem?_cons_succ]
      exact ih j (by simpa using h)

theorem factorLoop_spec (num d : Nat) (out buf : List Nat) (hd : 0 < d)
    (hlt : ∀ k, k < d → k * k < num)
    (hinv : out ++ buf = pairs num (small num d)) (heven : buf.length % 2 = 0)
    (hlen : buf.length ≤ 300) :
    ∃ d' out' buf', factorLoop num d out buf = some (d', out', buf') ∧ 0 < d' ∧
      num ≤ d' * d' ∧ (∀ k, k < d' → k * k < num) ∧
      out' ++ buf' = pairs num (small num d') ∧ buf'.length ≤ 300 := by
  rw [factorLoop]
  by_cases hc : d * d < num
  · have hle : d ≤ d * d := Nat.le_mul_of_pos_left d hd
    have hlt' : ∀ k, k < d + 1 → k * k < num := by
      intro k hk
      rcases Nat.lt_succ_iff_lt_or_eq.mp hk with h | h
      · exact hlt k h
      · subst h; exact hc
    rw [dif_pos hc]
    by_cases hm : num % d = 0
    · rw [if_neg (by simpa using hm)]
      dsimp only
      by_cases hb : buf.length = 300
      · simp only [hb, if_true, List.length_nil]
        rw [if_pos (by omega)]
        refine factorLoop_spec num (d + 1) _ _ (by omega) hlt' ?_ (by simp) (by simp)
        rw [small_succ, pairs_append, if_pos ⟨hd, hm⟩, ← hinv]; simp [pairs]
      · simp only [hb, if_false]
        rw [if_pos (by omega)]
        refine factorLoop_spec num (d + 1) _ _ (by omega) hlt' ?_ (by simp; omega) (by simp; omega)
        rw [small_succ, pairs_append, if_pos ⟨hd, hm⟩, ← hinv]; simp [pairs]
    · rw [if_pos hm]
      refine factorLoop_spec num (d + 1) _ _ (by omega) hlt' ?_ heven hlen
      rw [small_succ, if_neg (by tauto), List.append_nil]; exact hinv
  · rw [dif_neg hc]
    exact ⟨d, out, buf, rfl, hd, by omega, hlt, hinv, hlen⟩
termination_by num - d

/-- the central divisor if `num` is a square -/
def mid (num d : Nat) : List Nat := if d * d = num then [d] else []

theorem factor_closed (num : Nat) (hn : 0 < num) :
    ∃ d, 0 < d ∧ num ≤ d * d ∧ (∀ k, k < d → k * k < num) ∧
      factor num = some (pairs num (small num d) ++ mid num d) := by
  obtain ⟨d, out, buf, he, h1, h2, h3, h4, h5⟩ := factorLoop_spec num 1 [] [] (by omega)
    (by intro k hk; have : k = 0 := by omega
        subst this; simpa using hn) (by simp [small, pairs, List.range_succ]) (by simp) (by simp)
  refine ⟨d, h1, h2, h3, ?_⟩
  unfold factor
  rw [he]
  dsimp only
  by_cases hs : d * d = num
  · rw [if_pos hs, if_pos (by omega), ← h4]; simp [mid, hs]
  · rw [if_neg hs, ← h4]; simp [mid, hs]

theorem copyFirst_spec (lst : List Nat) (m i : Nat) (a : List (Option Nat))
    (hm : m ≤ a.length) (hl : ∀ j, j < m → 2 * j < lst.length) :
    ∃ a', copyFirst lst m i a = some a' ∧ a'.length = a.length ∧
      ∀ j, a'[j]? = if i ≤ j ∧ j < m then lst[2 * j]?.map some else a[j]? := by
  rw [copyFirst]
  by_cases h : i < m
  · rw [if_pos h]
    have hi := hl i h
    rw [List.getElem?_eq_getElem hi]
    dsimp only
    unfold write
    rw [if_pos (by omega)]
    dsimp only
    obtain ⟨a', h1, h2, h3⟩ := copyFirst_spec lst m (i + 1) (a.set i (some lst[2 * i])) (by simpa using hm) hl
    refine ⟨a', h1, by simpa using h2, ?_⟩
    intro j
    rw [h3 j]
    by_cases hj : j = i
    · subst hj
      rw [if_neg (by omega), if_pos (by omega), List.getElem?_eq_getElem hi]
      have : j < a.length := by omega
      simp [this]
    · rw [List.getElem?_set_ne (by omega)]
      by_cases hc : i + 1 ≤ j ∧ j < m
      · rw [if_pos hc, if_pos (by omega)]
      · rw [if_neg hc, if_neg (by omega)]
  · rw [if_neg h]
    exact ⟨a, rfl, rfl, fun j => by rw [if_neg (by omega)]⟩
termination_by m - i

theorem copySecond_spec (lst : List Nat) (len i ind : Nat) (a : List (Option Nat))
    (hlen : len = lst.length) (hi : i % 2 = 1) (hk : (len + 1 - i) / 2 ≤ ind + 1) (hind : i < len → ind < a.length) :
    ∃ a', copySecond lst len i ind a = some a' ∧ a'.length = a.length ∧
      ∀ j, a'[j]? = if j ≤ ind ∧ ind < j + (len + 1 - i) / 2 then lst[i + 2 * (ind - j)]?.map some else a[j]? := by
  rw [copySecond]
  by_cases h : i < len
  · rw [if_pos h]
    have hi' : i < lst.length := by omega
    rw [List.getElem?_eq_getElem hi']
    dsimp only
    unfold write
    rw [if_pos (hind h)]
    dsimp only
    obtain ⟨a', h1, h2, h3⟩ := copySecond_spec lst len (i + 2) (ind - 1) (a.set ind (some lst[i]))
      hlen (by omega) (by omega) (by intro _; have := hind h; simp; omega)
    refine ⟨a', h1, by simpa using h2, ?_⟩
    intro j
    rw [h3 j]
    by_cases hj : j = ind
    · subst hj
      have hlt := hind h
      rw [if_pos (by omega : j ≤ j ∧ j < j + (len + 1 - i) / 2)]
      rw [if_neg (by omega)]
      simp [hlt, hi']
    · rw [List.getElem?_set_ne (by omega)]
      by_cases hc : j ≤ ind ∧ ind < j + (len + 1 - i) / 2
      · rw [if_pos hc, if_pos (by omega)]
        have : i + 2 + 2 * (ind - 1 - j) = i + 2 * (ind - j) := by omega
        rw [this]
      · rw [if_neg hc, if_neg (by omega)]
  · rw [if_neg h]
    refine ⟨a, rfl, rfl, fun j => ?_⟩
    rw [if_neg]
    have : (len + 1 - i) / 2 = 0 := by omega
    omega
termination_by len - i

theorem mid_length (num d : Nat) : (mid num d).length = 0 ∨ (mid num d).length = 1 := by
  unfold mid; split <;> simp

theorem sortedFactor_closed (num : Nat) (hn : 0 < num) :
    ∃ d, 0 < d ∧ num ≤ d * d ∧ (∀ k, k < d → k * k < num) ∧
      sortedFactor num =
        some ((small num d ++ mid num d ++ ((small num d).map (num / ·)).reverse).map some) := by
  obtain ⟨d, h1, h2, h3, h4⟩ := factor_closed num hn
  refine ⟨d, h1, h2, h3, ?_⟩
  unfold sortedFactor
  rw [h4]
  dsimp only
  generalize hs : small num d = s
  generalize hq : mid num d = q
  have hqlen : q.length = 0 ∨ q.length = 1 := by rw [← hq]; exact mid_length num d
  have hlen : (pairs num s ++ q).length = 2 * s.length + q.length := by
    rw [List.length_append, pairs_length]
  have hmid : (pairs num s ++ q)[2 * s.length]? = q[0]? := by
    rw [List.getElem?_append_right (by rw [pairs_length]), pairs_length, Nat.sub_self]
  obtain ⟨a, ha1, ha2, ha3⟩ := copyFirst_spec (pairs num s ++ q) (((pairs num s ++ q).length + 1) / 2) 0
    (List.replicate (pairs num s ++ q).length none) (by simp; omega) (by intro j hj; omega)
  rw [ha1]
  dsimp only
  rw [List.length_replicate] at ha2
  obtain ⟨b, hb1, hb2, hb3⟩ := copySecond_spec (pairs num s ++ q) (pairs num s ++ q).length 1
    ((pairs num s ++ q).length - 1) a rfl (by omega) (by omega) (by rw [ha2]; omega)
  rw [hb1]
  congr 1
  apply List.ext_getElem?
  intro j
  rw [hb3 j, ha3 j]
  rw [List.getElem?_map]
  rw [hlen]
  by_cases hj1 : j < s.length
  · rw [if_neg (by omega), if_pos (by omega), pairs_even _ _ _ _ hj1, List.append_assoc,
      List.getElem?_append_left hj1]
  · by_cases hj2 : j < s.length + q.length
    · have hj : j = s.length := by omega
      subst hj
      rw [if_neg (by omega), if_pos (by omega), hmid, List.append_assoc,
        List.getElem?_append_right (by omega), Nat.sub_self, List.getElem?_append_left (by omega)]
    · by_cases hj3 : j < 2 * s.length + q.length
      · rw [if_pos (by omega)]
        rw [List.getElem?_append_right (l₁ := s ++ q) (by simp; omega)]
        have hx : 1 + 2 * (2 * s.length + q.length - 1 - j) = 2 * (2 * s.length + q.length - 1 - j) + 1 := by omega
        rw [hx, pairs_odd _ _ _ _ (by omega)]
        rw [List.getElem?_reverse (by simp; omega)]
        rw [List.getElem?_map]
        simp only [List.length_append, List.length_map]
        have : s.length - 1 - (j - (s.length + q.length)) = 2 * s.length + q.length - 1 - j := by omega
        rw [this]
      · rw [if_neg (by omega), if_neg (by omega)]
        rw [List.getElem?_eq_none (by simp; omega), List.getElem?_eq_none (by simp; omega)]
        rfl

theorem mod_zero_dvd {a b : Nat} : a % b = 0 ↔ b ∣ a := (Nat.dvd_iff_mod_eq_zero).symm

/-- a divisor is small, central, or the cofactor of a small one -/
theorem divisor_cases {num d k : Nat} (hn : 0 < num) (hle : num ≤ d * d)
    (hlt : ∀ k, k < d → k * k < num) :
    k ∈ small num d ++ mid num d ++ ((small num d).map (num / ·)).reverse ↔ k ∣ num := by
  simp only [List.mem_append, List.mem_reverse, List.mem_map, mem_small, mid]
  constructor
  · rintro ((⟨_, _, h⟩ | h) | ⟨a, ⟨_, _, h⟩, rfl⟩)
    · exact mod_zero_dvd.mp h
    · split at h
      · next hs => rw [List.mem_singleton] at h; subst h; exact ⟨k, hs.symm⟩
      · simp at h
    · exact Nat.div_dvd_of_dvd (mod_zero_dvd.mp h)
  · intro h
    have hk : 0 < k := Nat.pos_of_dvd_of_pos h hn
    obtain ⟨c, hc⟩ := h
    have hcpos : 0 < c := by rcases Nat.eq_zero_or_pos c with h0 | h0
                             · subst h0; omega
                             · exact h0
    by_cases h1 : k < d
    · exact Or.inl (Or.inl ⟨h1, hk, by rw [hc]; exact Nat.mul_mod_right k c⟩)
    · by_cases h2 : k = d ∧ d * d = num
      · left; right; rw [if_pos h2.2]; simp [h2.1]
      · right
        refine ⟨c, ⟨?_, hcpos, by rw [hc]; exact Nat.mul_mod_left k c⟩, by rw [hc]; exact Nat.mul_div_cancel k hcpos⟩
        by_contra hcd
        have h3 : d * d ≤ k * c := Nat.mul_le_mul (by omega) (by omega)
        have h4 : d * d = num := by omega
        have h5 : k ≠ d := fun h => h2 ⟨h, h4⟩
        have h6 : (d + 1) * d ≤ k * c := Nat.mul_le_mul (by omega) (by omega)
        have : 0 < d := by
          rcases Nat.eq_zero_or_pos d with h0 | h0
          · subst h0; omega
          · exact h0
        nlinarith

theorem sorted_all {num d : Nat} (_hle : num ≤ d * d)
    (hlt : ∀ k, k < d → k * k < num) :
    (small num d ++ mid num d ++ ((small num d).map (num / ·)).reverse).Pairwise (· < ·) := by
  have hcof : ∀ a ∈ small num d, num / a * a = num ∧ d ≤ num / a ∧ (d * d = num → d < num / a) := by
    intro a ha
    obtain ⟨h1, h2, h3⟩ := mem_small.mp ha
    have he : num / a * a = num := Nat.div_mul_cancel (mod_zero_dvd.mp h3)
    have key : d ≤ num / a := by
      by_contra hc
      have h4 : num / a * a ≤ (d - 1) * (d - 1) := Nat.mul_le_mul (by omega) (by omega)
      have := hlt (d - 1) (by omega)
      omega
    refine ⟨he, key, fun hs => ?_⟩
    rcases Nat.lt_or_ge d (num / a) with h | h
    · exact h
    · exfalso
      have h5 : num / a = d := by omega
      rw [h5] at he
      have : d * a < d * d := Nat.mul_lt_mul_of_pos_left h1 (by omega)
      omega
  rw [List.pairwise_append]
  refine ⟨?_, ?_, ?_⟩
  · rw [List.pairwise_append]
    refine ⟨small_sorted num d, ?_, ?_⟩
    · unfold mid; split <;> simp
    · intro a ha b hb
      have := (mem_small.mp ha).1
      unfold mid at hb
      split at hb
      · simp at hb; omega
      · simp at hb
  · rw [List.pairwise_reverse, List.pairwise_map]
    refine (small_sorted num d).imp_of_mem ?_
    intro a b ha hb hab
    obtain ⟨hb1, _, _⟩ := hcof b hb
    obtain ⟨ha1, _, _⟩ := hcof a ha
    have hbpos := (mem_small.mp hb).2.1
    have hapos := (mem_small.mp ha).2.1
    by_contra hc
    have h1 : num / a * a ≤ num / b * a := Nat.mul_le_mul_right a (by omega)
    have h2 : 0 < num / b := by
      rcases Nat.eq_zero_or_pos (num / b) with h0 | h0
      · rw [h0] at hb1
        have := hlt 0 (by have := (mem_small.mp hb).1; omega)
        omega
      · exact h0
    have h3 : num / b * a < num / b * b := Nat.mul_lt_mul_of_pos_left hab h2
    omega
  · intro a ha b hb
    simp only [List.mem_reverse, List.mem_map] at hb
    obtain ⟨c, hc, rfl⟩ := hb
    obtain ⟨_, h2, h3⟩ := hcof c hc
    rcases List.mem_append.mp ha with h | h
    · have := (mem_small.mp h).1; omega
    · unfold mid at h
      split at h
      · next hs => simp at h; have := h3 hs; omega
      · simp at h

end Sparc.Factor

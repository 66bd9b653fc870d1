import Mathlib.Tactic.FieldSimp
import Mathlib.Tactic.Positivity
import Verif.Factor.Lemmas

/-!
# C13, C10, C12: divisor lists and two-dimensional process grids
-/

namespace Sparc.Factor

/-! ## C13 -/

/-- **C13.** `factor` never overruns its buffer, and its list contains every divisor of a
positive number exactly once, nothing else, with consecutive entries multiplying to it. -/
theorem factor_divisors (num : Nat) (hn : 0 < num) :
    ∃ l, factor num = some l ∧ l.Nodup ∧ (∀ k, k ∈ l ↔ k ∣ num) ∧
      (∀ i a b, 2 * i + 1 < l.length → l[2 * i]? = some a → l[2 * i + 1]? = some b →
        a * b = num ∧ a < b) ∧
      (∀ a, l.length % 2 = 1 → l[l.length - 1]? = some a → a * a = num) := by
  obtain ⟨d, h1, h2, h3, h4⟩ := factor_closed num hn
  refine ⟨_, h4, ?_, ?_, ?_, ?_⟩
  · have hs := sorted_all h2 h3
    have hp : List.Perm (pairs num (small num d)) (small num d ++ (small num d).map (num / ·)) := by
      generalize small num d = s
      induction s with
      | nil => simp [pairs]
      | cons a s ih =>
        have : pairs num (a :: s) = a :: num / a :: pairs num s := rfl
        rw [this]
        simp only [List.cons_append, List.map_cons]
        refine List.Perm.cons a ?_
        exact (List.Perm.cons _ ih).trans List.perm_middle.symm
    have hp2 : List.Perm (pairs num (small num d) ++ mid num d)
        (small num d ++ mid num d ++ ((small num d).map (num / ·)).reverse) := by
      refine (hp.append_right _).trans ?_
      rw [List.append_assoc, List.append_assoc]
      exact List.Perm.append_left _ (List.perm_append_comm.trans
        (List.Perm.append_left _ (List.reverse_perm _).symm))
    exact hp2.nodup_iff.mpr (hs.imp (fun h => Nat.ne_of_lt h))
  · intro k
    rw [← divisor_cases hn h2 h3]
    simp only [List.mem_append, List.mem_reverse, List.mem_map, pairs, List.mem_flatMap]
    constructor
    · rintro (⟨a, ha, h⟩ | h)
      · simp at h
        rcases h with rfl | rfl
        · exact Or.inl (Or.inl ha)
        · exact Or.inr ⟨a, ha, rfl⟩
      · exact Or.inl (Or.inr h)
    · rintro ((h | h) | ⟨a, ha, rfl⟩)
      · exact Or.inl ⟨k, h, by simp⟩
      · exact Or.inr h
      · exact Or.inl ⟨a, ha, by simp⟩
  · intro i a b hi ha hb
    have hq := mid_length num d
    rw [List.length_append, pairs_length] at hi
    have hi' : i < (small num d).length := by omega
    rw [pairs_even _ _ _ _ hi'] at ha
    rw [pairs_odd _ _ _ _ hi', ha] at hb
    simp at hb
    have hm := mem_small.mp (List.mem_of_getElem? ha)
    have he : num / a * a = num := Nat.div_mul_cancel (mod_zero_dvd.mp hm.2.2)
    subst hb
    refine ⟨by rw [Nat.mul_comm]; exact he, ?_⟩
    by_contra hc
    have h5 : num / a * a ≤ a * a := Nat.mul_le_mul_right a (by omega)
    have := h3 a hm.1
    omega
  · intro a hodd ha
    have hq := mid_length num d
    rw [List.length_append, pairs_length] at hodd ha
    have hq1 : (mid num d).length = 1 := by omega
    rw [List.getElem?_append_right (by rw [pairs_length]; omega), pairs_length] at ha
    rw [show 2 * (small num d).length + (mid num d).length - 1 - 2 * (small num d).length = 0 by omega] at ha
    unfold mid at ha hq1
    split at ha
    · next hs => simp at ha; subst ha; exact hs
    · simp at ha

/-- **C13.** `sorted_factor` writes every entry of its fresh array, in bounds, and the
result is the strictly ascending list of exactly the divisors. -/
theorem sortedFactor_divisors (num : Nat) (hn : 0 < num) :
    ∃ l : List Nat, sortedFactor num = some (l.map some) ∧ l.Pairwise (· < ·) ∧
      ∀ k, k ∈ l ↔ k ∣ num := by
  obtain ⟨d, h1, h2, h3, h4⟩ := sortedFactor_closed num hn
  exact ⟨_, h4, sorted_all h2 h3, fun k => divisor_cases hn h2 h3⟩

example : (0 : Nat) < 36 := by decide
example : sortedFactor 12 = some ([1, 2, 3, 4, 6, 12].map some) := by
  simp [sortedFactor, factor, factorLoop, copyFirst, copySecond, write]

/-! ## C10 -/

/-- Number of items the busiest process gets when `n` items are dealt to `k` processes:
the least `m` with `m * k ≥ n`. -/
theorem ceilDiv_spec (n k : Nat) (hk : 0 < k) :
    n ≤ ceilDiv n k * k ∧ ∀ m, n ≤ m * k → ceilDiv n k ≤ m := by
  unfold ceilDiv
  have h1 := Nat.div_add_mod (n + k - 1) k
  have h2 := Nat.mod_lt (n + k - 1) hk
  constructor
  · rw [Nat.mul_comm k] at h1; omega
  · intro m hm
    have : (n + k - 1) / k < m + 1 := by
      rw [Nat.div_lt_iff_lt_mul hk, Nat.add_mul]; omega
    omega

theorem ceilDiv_dvd {n k : Nat} (hk : 0 < k) (h : n % k = 0) : ceilDiv n k * k = n := by
  obtain ⟨c, hc⟩ := mod_zero_dvd.mp h
  have h2 := (ceilDiv_spec n k hk).2 c (by rw [hc, Nat.mul_comm])
  have h1 := (ceilDiv_spec n k hk).1
  have h3 : ceilDiv n k * k ≤ c * k := Nat.mul_le_mul_right k h2
  rw [hc] at h1 h3 ⊢
  rw [Nat.mul_comm c k] at h3
  omega

theorem ceilDiv_pos {n k : Nat} (hn : 0 < n) (hk : 0 < k) : 0 < ceilDiv n k := by
  have h1 := (ceilDiv_spec n k hk).1
  rcases Nat.eq_zero_or_pos (ceilDiv n k) with h | h
  · rw [h] at h1; omega
  · exact h

theorem load_lower (N1 N2 x y : Nat) (hx : 0 < x) (hy : 0 < y) :
    N1 * N2 ≤ workloadAssigned N1 N2 x y * (x * y) := by
  unfold workloadAssigned
  have h1 := (ceilDiv_spec N1 x hx).1
  have h2 := (ceilDiv_spec N2 y hy).1
  calc N1 * N2 ≤ (ceilDiv N1 x * x) * (ceilDiv N2 y * y) := Nat.mul_le_mul h1 h2
    _ = _ := by ring

/-- State invariant of the search: the current pair is feasible, its load is `best`. -/
structure Good (N1 N2 np c1 c2 best : Nat) : Prop where
  p1 : 0 < c1
  p2 : 0 < c2
  le : c1 * c2 ≤ np
  eq : best = workloadAssigned N1 N2 c1 c2

/-- Feasible pairs with `lo < x*y` (up to `np`) are no better than `best`. -/
def Covers (N1 N2 np lo best : Nat) : Prop :=
  ∀ x y, 0 < x → 0 < y → lo < x * y → x * y ≤ np → best ≤ workloadAssigned N1 N2 x y

def Optimal (N1 N2 np a b : Nat) : Prop :=
  0 < a ∧ 0 < b ∧ a * b ≤ np ∧ ∀ x y, 0 < x → 0 < y → x * y ≤ np →
    workloadAssigned N1 N2 a b ≤ workloadAssigned N1 N2 x y

theorem scan_spec (N1 N2 np p : Nat) (hp : 0 < p) (hpn : p ≤ np) (fs done : List Nat)
    (hall : ∀ k, k ∈ done ++ fs ↔ k ∣ p) (c1 c2 best : Nat)
    (hg : Good N1 N2 np c1 c2 best) (hc : Covers N1 N2 np p best)
    (hd : ∀ x y, 0 < x → y ∈ done → x * y = p → best ≤ workloadAssigned N1 N2 x y) :
    (∃ a b, scanFactors N1 N2 p (fs.map some) c1 c2 best = .ret a b ∧ Optimal N1 N2 np a b) ∨
    (∃ a b best', scanFactors N1 N2 p (fs.map some) c1 c2 best = .cont a b best' ∧
      Good N1 N2 np a b best' ∧ Covers N1 N2 np (p - 1) best' ∧ (p = 1 → fs = [])) := by
  induction fs generalizing done c1 c2 best with
  | nil =>
    right
    refine ⟨c1, c2, best, rfl, hg, ?_, fun _ => rfl⟩
    intro x y hx hy hlo hle
    rcases Nat.lt_or_ge p (x * y) with h | h
    · exact hc x y hx hy h hle
    · have he : x * y = p := by omega
      refine hd x y hx ?_ he
      rw [List.append_nil] at hall
      exact (hall y).mpr ⟨x, by rw [← he, Nat.mul_comm]⟩
  | cons f fs ih =>
    have hf : f ∣ p := (hall f).mp (by simp)
    have hfpos : 0 < f := Nat.pos_of_dvd_of_pos hf hp
    have hfp : p / f * f = p := Nat.div_mul_cancel hf
    have hgpos : 0 < p / f := Nat.div_pos (Nat.le_of_dvd hp hf) hfpos
    simp only [List.map_cons, scanFactors]
    have hbest' : (if workloadAssigned N1 N2 (p / f) f < best then workloadAssigned N1 N2 (p / f) f else best)
        ≤ best := by split <;> omega
    have hbestf : (if workloadAssigned N1 N2 (p / f) f < best then workloadAssigned N1 N2 (p / f) f else best)
        ≤ workloadAssigned N1 N2 (p / f) f := by split <;> omega
    have hg' : Good N1 N2 np
        (if workloadAssigned N1 N2 (p / f) f < best then p / f else c1)
        (if workloadAssigned N1 N2 (p / f) f < best then f else c2)
        (if workloadAssigned N1 N2 (p / f) f < best then workloadAssigned N1 N2 (p / f) f else best) := by
      by_cases h : workloadAssigned N1 N2 (p / f) f < best
      · simp only [h, if_true]
        exact ⟨hgpos, hfpos, by rw [hfp]; exact hpn, rfl⟩
      · simp only [h, if_false]; exact hg
    generalize (if workloadAssigned N1 N2 (p / f) f < best then p / f else c1) = c1' at *
    generalize (if workloadAssigned N1 N2 (p / f) f < best then f else c2) = c2' at *
    generalize (if workloadAssigned N1 N2 (p / f) f < best then workloadAssigned N1 N2 (p / f) f else best) = best' at *
    by_cases hret : N1 % (p / f) = 0 ∧ N2 % f = 0
    · left
      rw [if_pos hret]
      refine ⟨c1', c2', rfl, hg'.p1, hg'.p2, hg'.le, ?_⟩
      intro x y hx hy hle
      rw [← hg'.eq]
      rcases Nat.lt_or_ge p (x * y) with h | h
      · exact Nat.le_trans hbest' (hc x y hx hy h hle)
      · refine Nat.le_trans hbestf ?_
        have e1 := ceilDiv_dvd hgpos hret.1
        have e2 := ceilDiv_dvd hfpos hret.2
        have e3 : workloadAssigned N1 N2 (p / f) f * p = N1 * N2 := by
          unfold workloadAssigned
          calc ceilDiv N1 (p / f) * ceilDiv N2 f * p
              = ceilDiv N1 (p / f) * ceilDiv N2 f * (p / f * f) := by rw [hfp]
            _ = (ceilDiv N1 (p / f) * (p / f)) * (ceilDiv N2 f * f) := by ring
            _ = N1 * N2 := by rw [e1, e2]
        have e4 := load_lower N1 N2 x y hx hy
        have e5 : 0 < x * y := Nat.mul_pos hx hy
        have e6 : workloadAssigned N1 N2 (p / f) f * (x * y) ≤ workloadAssigned N1 N2 x y * (x * y) :=
          calc _ ≤ workloadAssigned N1 N2 (p / f) f * p := Nat.mul_le_mul_left _ h
            _ = N1 * N2 := e3
            _ ≤ _ := e4
        exact Nat.le_of_mul_le_mul_right e6 e5
    · rw [if_neg hret]
      have hp1 : p ≠ 1 := by
        intro h1
        subst h1
        have : f = 1 := Nat.dvd_one.mp hf
        subst this
        exact hret ⟨Nat.mod_one _, Nat.mod_one _⟩
      rcases ih (done ++ [f]) (by intro k; rw [← hall k]; simp) c1' c2' best' hg'
        (fun x y hx hy h hle => Nat.le_trans hbest' (hc x y hx hy h hle))
        (by
          intro x y hx hy he
          rcases List.mem_append.mp hy with h | h
          · exact Nat.le_trans hbest' (hd x y hx h he)
          · rw [List.mem_singleton] at h
            subst h
            have : x = p / y := by rw [← he]; exact (Nat.mul_div_cancel x hfpos).symm
            rw [this]; exact hbestf) with h | ⟨a, b, be, h1, h2, h3, h4⟩
      · exact Or.inl h
      · exact Or.inr ⟨a, b, be, h1, h2, h3, fun h => absurd h hp1⟩

theorem loop_spec (N1 N2 np p : Nat) (hp : 0 < p) (hpn : p ≤ np) (c1 c2 best : Nat)
    (hg : Good N1 N2 np c1 c2 best) (hc : Covers N1 N2 np p best) :
    ∃ a b, dims2dLoop N1 N2 p c1 c2 best = some (a, b) ∧ Optimal N1 N2 np a b := by
  induction p generalizing c1 c2 best with
  | zero => omega
  | succ p ih =>
    obtain ⟨l, hl, _, hmem⟩ := sortedFactor_divisors (p + 1) (by omega)
    unfold dims2dLoop
    rw [hl]
    dsimp only
    rcases scan_spec N1 N2 np (p + 1) (by omega) hpn l [] (by simpa using hmem) c1 c2 best hg hc
      (by simp) with ⟨a, b, h1, h2⟩ | ⟨a, b, be, h1, h2, h3, h4⟩
    · rw [h1]; exact ⟨a, b, rfl, h2⟩
    · rw [h1]
      rcases Nat.eq_zero_or_pos p with h0 | h0
      · exfalso
        subst h0
        have : l = [] := h4 rfl
        have := (hmem 1).mpr (Nat.one_dvd _)
        simp_all
      · exact ih h0 (by omega) a b be h2 h3

/-- **C10.** For positive arguments `dims_divide_2d` terminates with a result, the result
uses at most `np` processes, and its maximal per-process work
`⌈N1/x⌉·⌈N2/y⌉` is the minimum over all splits using at most `np` processes. -/
theorem dims_divide_2d_optimal (N1 N2 np : Nat) (h1 : 0 < N1) (h2 : 0 < N2) (hp : 0 < np) :
    ∃ a b, dimsDivide2d N1 N2 np = some (a, b) ∧ 0 < a ∧ 0 < b ∧ a * b ≤ np ∧
      ∀ x y, 0 < x → 0 < y → x * y ≤ np →
        ceilDiv N1 a * ceilDiv N2 b ≤ ceilDiv N1 x * ceilDiv N2 y := by
  have hc1 : 0 < min np N1 := by omega
  have hle1 : min np N1 ≤ np := by omega
  have hdiv : 0 < np / min np N1 := Nat.div_pos hle1 hc1
  have hc2 : 0 < min (np / min np N1) N2 := by omega
  have hmul : min np N1 * min (np / min np N1) N2 ≤ np :=
    Nat.le_trans (Nat.mul_le_mul_left _ (Nat.min_le_left _ _)) (Nat.mul_div_le np _)
  have hN : 0 < N1 * N2 := Nat.mul_pos h1 h2
  unfold dimsDivide2d
  dsimp only
  rw [if_neg (by omega), if_neg (by omega)]
  have hgood : Good N1 N2 np (min np N1) (min (np / min np N1) N2)
      (workloadAssigned N1 N2 (min np N1) (min (np / min np N1) N2)) := ⟨hc1, hc2, hmul, rfl⟩
  obtain ⟨a, b, ha, hb⟩ := loop_spec N1 N2 np (if np > N1 * N2 then N1 * N2 else np)
    (by split <;> omega) (by split <;> omega) _ _ _ hgood (by
      intro x y hx hy hlo hle
      by_cases hgt : np > N1 * N2
      · have e1 : N1 ≤ N1 * N2 := Nat.le_mul_of_pos_right N1 h2
        have e2 : min np N1 = N1 := by omega
        rw [e2]
        have e3 : N2 ≤ np / N1 := (Nat.le_div_iff_mul_le h1).mpr (by rw [Nat.mul_comm]; omega)
        have e4 : min (np / N1) N2 = N2 := by omega
        rw [e4]
        have e5 : workloadAssigned N1 N2 N1 N2 ≤ 1 := by
          unfold workloadAssigned
          have a1 := (ceilDiv_spec N1 N1 h1).2 1 (by omega)
          have a2 := (ceilDiv_spec N2 N2 h2).2 1 (by omega)
          exact Nat.mul_le_mul a1 a2
        have : 0 < workloadAssigned N1 N2 x y := Nat.mul_pos (ceilDiv_pos h1 hx) (ceilDiv_pos h2 hy)
        omega
      · rw [if_neg hgt] at hlo; omega)
  exact ⟨a, b, ha, hb.1, hb.2.1, hb.2.2.1, hb.2.2.2⟩

example : ∃ a b, dimsDivide2d 10 7 12 = some (a, b) ∧ a * b ≤ 12 := by
  obtain ⟨a, b, h, _, _, h2, _⟩ := dims_divide_2d_optimal 10 7 12 (by decide) (by decide) (by decide)
  exact ⟨a, b, h, h2⟩

/-! ## C12 -/

/-- Indices left by the loop always name a factor pair. -/
theorem blcycLoop_pair {D : Type} (gt : D → D → Bool) (diff : Nat → D) (half i : Nat) (last : D)
    (ind1 ind2 : Nat) (hi : i ≤ half)
    (h0 : 0 < half → (0 < i → ∃ k, k < half ∧ ind1 = 2 * k ∧ ind2 = 2 * k + 1)) :
    0 < half → ∃ k, k < half ∧ (blcycLoop gt diff half i last ind1 ind2).2.1 = 2 * k ∧
      (blcycLoop gt diff half i last ind1 ind2).2.2.1 = 2 * k + 1 := by
  intro hh
  rw [blcycLoop]
  by_cases h : i < half
  · rw [if_pos h]
    by_cases hb : 0 < i ∧ gt (diff i) last = true
    · rw [if_pos hb]; exact ⟨i - 1, by omega, by dsimp only; omega, by dsimp only; omega⟩
    · rw [if_neg hb]
      exact blcycLoop_pair gt diff half (i + 1) _ _ _ (by omega)
        (fun _ _ => ⟨i, h, by omega, by omega⟩) hh
  · rw [if_neg h]; exact h0 hh (by omega)
termination_by half - i

/-- **C12.** Whatever the rounding of the floating-point comparisons, the block-cyclic
process grid is defined, uses every process, and puts at least as many processes along
the longer side of the matrix. -/
theorem blcyc_product {D : Type} (gt : D → D → Bool) (zero : D) (diff : Nat → Nat → D)
    (diffc : Nat → D) (g0 g1 nproc : Nat) (hn : 0 < nproc) :
    ∃ a b, blcycDims gt zero diff diffc g0 g1 nproc = some (a, b) ∧ a * b = nproc ∧
      (g0 > g1 → b ≤ a) ∧ (g0 ≤ g1 → a ≤ b) := by
  obtain ⟨l, hl, _, hmem, hpair, hmid⟩ := factor_divisors nproc hn
  have hl0 : 0 < l.length := List.length_pos_of_mem ((hmem 1).mpr (Nat.one_dvd _))
  unfold blcycDims
  rw [hl]
  dsimp only
  have hkey := blcycLoop_pair gt (fun i => diff (l.getD (2 * i) 0) (l.getD (2 * i + 1) 0))
    (l.length / 2) 0 zero 0 0 (by omega) (by omega)
  have hzero : l.length / 2 = 0 → blcycLoop gt (fun i => diff (l.getD (2 * i) 0) (l.getD (2 * i + 1) 0))
      (l.length / 2) 0 zero 0 0 = (0, 0, 0, zero) := by
    intro h; rw [blcycLoop, if_neg (by omega)]
  generalize blcycLoop gt (fun i => diff (l.getD (2 * i) 0) (l.getD (2 * i + 1) 0))
    (l.length / 2) 0 zero 0 0 = r at *
  have fin : ∀ (i1 i2 a b : Nat), l[i1]? = some a → l[i2]? = some b → a * b = nproc → a ≤ b →
      ∃ a' b', (match l[i1]?, l[i2]? with
        | some f1, some f2 => if g0 > g1 then some (f2, f1) else some (f1, f2)
        | _, _ => none) = some (a', b') ∧ a' * b' = nproc ∧
        (g0 > g1 → b' ≤ a') ∧ (g0 ≤ g1 → a' ≤ b') := by
    intro i1 i2 a b e1 e2 e3 e4
    rw [e1, e2]
    dsimp only
    by_cases hg : g0 > g1
    · rw [if_pos hg]; exact ⟨b, a, rfl, by rw [Nat.mul_comm]; exact e3, fun _ => e4, fun h => by omega⟩
    · rw [if_neg hg]; exact ⟨a, b, rfl, e3, fun h => absurd h hg, fun _ => e4⟩
  by_cases hc : l.length % 2 = 1 ∧ r.1 = l.length / 2 ∧ gt r.2.2.2 (diffc (l.getD (l.length - 1) 0)) = true
  · simp only [if_pos hc]
    have e : l[l.length - 1]? = some l[l.length - 1] := List.getElem?_eq_getElem (by omega)
    exact fin _ _ _ _ e e (hmid _ hc.1 e) (Nat.le_refl _)
  · simp only [if_neg hc]
    rcases Nat.eq_zero_or_pos (l.length / 2) with h0 | h0
    · have hlen : l.length = 1 := by omega
      rw [hzero h0]
      have e : l[0]? = some l[0] := List.getElem?_eq_getElem (by omega)
      exact fin _ _ _ _ e e (hmid _ (by omega) (by rw [hlen]; exact e)) (Nat.le_refl _)
    · obtain ⟨k, hk, k1, k2⟩ := hkey h0
      have e1 : l[2 * k]? = some l[2 * k] := List.getElem?_eq_getElem (by omega)
      have e2 : l[2 * k + 1]? = some l[2 * k + 1] := List.getElem?_eq_getElem (by omega)
      rw [k1, k2]
      have := hpair k _ _ (by omega) e1 e2
      exact fin _ _ _ _ e1 e2 this.1 (by omega)

/-- The loop stops at a minimum of the scanned sequence when the sequence, once it has
strictly increased, never decreases again. -/
theorem blcycLoop_min (F : Nat → Rat) (half : Nat)
    (hq : ∀ i j k, i < j → j < k → k < half → F i < F j → F j ≤ F k)
    (i : Nat) (last : Rat) (ind1 ind2 : Nat) (hi : i ≤ half)
    (h0 : 0 < i → ind1 = 2 * (i - 1) ∧ last = F (i - 1) ∧ ∀ j, j < i → F (i - 1) ≤ F j) :
    0 < half → ∃ r k, blcycLoop (fun a b => decide (b < a)) F half i last ind1 ind2 =
        (r, 2 * k, (blcycLoop (fun a b => decide (b < a)) F half i last ind1 ind2).2.2) ∧
      k < half ∧ (∀ j, j < half → F k ≤ F j) ∧
      ((r = half ∧ k = half - 1 ∧
          (blcycLoop (fun a b => decide (b < a)) F half i last ind1 ind2).2.2.2 = F k) ∨
        (r < half ∧ k < r ∧ F k < F r)) := by
  intro hh
  rw [blcycLoop]
  by_cases h : i < half
  · rw [if_pos h]
    by_cases hb : 0 < i ∧ decide (last < F i) = true
    · rw [if_pos hb]
      obtain ⟨_, h2, h3⟩ := h0 hb.1
      have hlt : F (i - 1) < F i := by rw [← h2]; simpa using hb.2
      refine ⟨i, i - 1, by rw [Nat.mul_comm], by omega, ?_, Or.inr ⟨h, by omega, hlt⟩⟩
      intro j hj
      rcases Nat.lt_or_ge j i with hji | hji
      · exact h3 j hji
      · rcases Nat.eq_or_lt_of_le hji with he | he
        · subst he; exact le_of_lt hlt
        · exact le_trans (le_of_lt hlt) (hq (i - 1) i j (by omega) he hj hlt)
    · rw [if_neg hb]
      refine blcycLoop_min F half hq (i + 1) _ _ _ (by omega) (fun _ => ⟨by simp; omega, rfl, ?_⟩) hh
      intro j hj
      have hj' : j ≤ i := by omega
      rcases Nat.eq_or_lt_of_le hj' with he | he
      · subst he; exact le_refl _
      · obtain ⟨_, h2, h3⟩ := h0 (by omega)
        have hle : F i ≤ F (i - 1) := by
          rw [← h2]
          by_contra hc
          exact hb ⟨by omega, by simpa using hc⟩
        exact le_trans hle (h3 j he)
  · rw [if_neg h]
    obtain ⟨h1, h2, h3⟩ := h0 (by omega)
    have : i = half := by omega
    subst this
    exact ⟨i, i - 1, by rw [h1], by omega, h3, Or.inl ⟨rfl, rfl, h2⟩⟩
termination_by half - i

/-- signed aspect difference for short side `lo`, long side `hi`, `a` processes on the short side -/
def asp (lo hi n : Rat) (a : Rat) : Rat := lo / a - hi * a / n

theorem asp_anti {lo hi n a b : Rat} (hlo : 0 ≤ lo) (hhi : 0 ≤ hi) (hn : 0 < n) (ha : 0 < a) (hab : a ≤ b) :
    asp lo hi n b ≤ asp lo hi n a := by
  unfold asp
  have h1 : lo / b ≤ lo / a := div_le_div_of_nonneg_left hlo ha hab
  have h2 : hi * a / n ≤ hi * b / n := by
    apply div_le_div_of_nonneg_right _ (le_of_lt hn)
    exact mul_le_mul_of_nonneg_left hab hhi
  linarith

theorem asp_quasi {lo hi n a b c : Rat} (hlo : 0 ≤ lo) (hhi : 0 ≤ hi) (hn : 0 < n) (ha : 0 < a)
    (hab : a ≤ b) (hbc : b ≤ c) (h : |asp lo hi n a| < |asp lo hi n b|) :
    |asp lo hi n b| ≤ |asp lo hi n c| := by
  have h1 := asp_anti hlo hhi hn ha hab
  have h2 := asp_anti hlo hhi hn (lt_of_lt_of_le ha hab) hbc
  rcases le_or_gt 0 (asp lo hi n b) with h3 | h3
  · rw [abs_of_nonneg h3, abs_of_nonneg (le_trans h3 h1)] at h; linarith
  · rw [abs_of_neg h3, abs_of_neg (by linarith)]; linarith

/-- exchanging the roles of the sides never helps on the short half -/
theorem asp_swap {lo hi a b : Rat} (hlo : 0 ≤ lo) (hle : lo ≤ hi) (ha : 0 < a) (hab : a ≤ b) :
    |lo / a - hi / b| ≤ |hi / a - lo / b| := by
  have hb : 0 < b := lt_of_lt_of_le ha hab
  have hhi : 0 ≤ hi := le_trans hlo hle
  have e1 : lo / b ≤ lo / a := div_le_div_of_nonneg_left hlo ha hab
  have e2 : hi / b ≤ hi / a := div_le_div_of_nonneg_left hhi ha hab
  have e3 : lo / a ≤ hi / a := div_le_div_of_nonneg_right hle (le_of_lt ha)
  have e4 : lo / b ≤ hi / b := div_le_div_of_nonneg_right hle (le_of_lt hb)
  rw [abs_of_nonneg (show 0 ≤ hi / a - lo / b by linarith), abs_le]
  constructor <;> linarith

theorem asp_eq {lo hi : Rat} {n a b : Nat} (hab : a * b = n) (ha : 0 < a) (hb : 0 < b) :
    lo / a - hi / b = asp lo hi n a := by
  unfold asp
  have ha' : (a : Rat) ≠ 0 := by positivity
  have hb' : (b : Rat) ≠ 0 := by positivity
  rw [← hab]; push_cast; field_simp

/-- the smaller of the two differences computed for a factor pair -/
theorem diff_eq (g0 g1 n a b : Nat) (hab : a * b = n) (ha : 0 < a) (hle : a ≤ b) :
    (if |(g1 : Rat) / a - (g0 : Rat) / b| < |(g0 : Rat) / a - (g1 : Rat) / b| then
      |(g1 : Rat) / a - (g0 : Rat) / b| else |(g0 : Rat) / a - (g1 : Rat) / b|) =
    |asp (min g0 g1 : Nat) (max g0 g1 : Nat) n a| := by
  have hb : 0 < b := by omega
  have hleq : (a : Rat) ≤ b := by exact_mod_cast hle
  have hapos : (0 : Rat) < a := by exact_mod_cast ha
  rcases Nat.le_total g0 g1 with h | h
  · have hq : (g0 : Rat) ≤ g1 := by exact_mod_cast h
    have hs := asp_swap (by positivity : (0 : Rat) ≤ g0) hq hapos hleq
    rw [Nat.min_eq_left h, Nat.max_eq_right h, ← asp_eq hab ha hb]
    rw [if_neg (not_lt.mpr hs)]
  · have hq : (g1 : Rat) ≤ g0 := by exact_mod_cast h
    have hs := asp_swap (by positivity : (0 : Rat) ≤ g1) hq hapos hleq
    rw [Nat.min_eq_right h, Nat.max_eq_left h, ← asp_eq hab ha hb]
    split
    · rfl
    · next h2 => exact le_antisymm (not_lt.mp h2) hs

/-- **C12.** In exact arithmetic the chosen grid makes the local blocks as square as
possible: no other factorisation `x·y` of the process count, in either orientation, has
local row and column extents `g0/x`, `g1/y` closer to each other. -/
theorem blcyc_optimal (g0 g1 nproc : Nat) (hn : 0 < nproc) :
    ∃ a b, blcycDimsQ g0 g1 nproc = some (a, b) ∧ a * b = nproc ∧
      ∀ x y, x * y = nproc →
        |(g0 : Rat) / a - (g1 : Rat) / b| ≤ |(g0 : Rat) / x - (g1 : Rat) / y| := by
  obtain ⟨d, hd, hd1, hd2, hl⟩ := factor_closed nproc hn
  set lo : Rat := ((min g0 g1 : Nat) : Rat) with hlo
  set hi : Rat := ((max g0 g1 : Nat) : Rat) with hhi
  have hlo0 : 0 ≤ lo := by rw [hlo]; positivity
  have hhi0 : 0 ≤ hi := by rw [hhi]; positivity
  have hlohi : lo ≤ hi := by rw [hlo, hhi]; exact_mod_cast (by omega : min g0 g1 ≤ max g0 g1)
  have hnq : (0 : Rat) < nproc := by exact_mod_cast hn
  -- it suffices to select a short-side divisor minimising `asp`
  have fin : ∀ a b : Nat, a * b = nproc → a ≤ b →
      (∀ c, c ∣ nproc → c * c ≤ nproc → |asp lo hi nproc a| ≤ |asp lo hi nproc c|) →
      ∃ a' b', (if g0 > g1 then some (b, a) else some (a, b)) = some (a', b') ∧ a' * b' = nproc ∧
        ∀ x y, x * y = nproc → |(g0 : Rat) / a' - (g1 : Rat) / b'| ≤ |(g0 : Rat) / x - (g1 : Rat) / y| := by
    intro a b hab hle hmin
    have hapos : 0 < a := by
      rcases Nat.eq_zero_or_pos a with h | h
      · subst h; omega
      · exact h
    have hbpos : 0 < b := by omega
    have hother : ∀ x y, x * y = nproc → |asp lo hi nproc a| ≤ |(g0 : Rat) / x - (g1 : Rat) / y| := by
      intro x y hxy
      have hx : 0 < x := by
        rcases Nat.eq_zero_or_pos x with h | h
        · subst h; omega
        · exact h
      have hy : 0 < y := by
        rcases Nat.eq_zero_or_pos y with h | h
        · subst h; omega
        · exact h
      have hxq : (0 : Rat) < x := by exact_mod_cast hx
      have hyq : (0 : Rat) < y := by exact_mod_cast hy
      rcases Nat.le_total x y with hle' | hle'
      · have h1 := hmin x ⟨y, hxy.symm⟩ (by rw [← hxy]; exact Nat.mul_le_mul_left x hle')
        rw [← asp_eq (lo := lo) (hi := hi) hxy hx hy] at h1
        refine le_trans h1 ?_
        have hq : (x : Rat) ≤ y := by exact_mod_cast hle'
        rcases Nat.le_total g0 g1 with hg | hg
        · rw [hlo, hhi, Nat.min_eq_left hg, Nat.max_eq_right hg]
        · rw [hlo, hhi, Nat.min_eq_right hg, Nat.max_eq_left hg] at *
          exact asp_swap hlo0 hlohi hxq hq
      · have hyx : y * x = nproc := by rw [Nat.mul_comm]; exact hxy
        have h1 := hmin y ⟨x, hyx.symm⟩ (by rw [← hyx]; exact Nat.mul_le_mul_left y hle')
        rw [← asp_eq (lo := lo) (hi := hi) hyx hy hx] at h1
        refine le_trans h1 ?_
        have hq : (y : Rat) ≤ x := by exact_mod_cast hle'
        rw [abs_sub_comm ((g0 : Rat) / x)]
        rcases Nat.le_total g0 g1 with hg | hg
        · rw [hlo, hhi, Nat.min_eq_left hg, Nat.max_eq_right hg] at *
          exact asp_swap hlo0 hlohi hyq hq
        · rw [hlo, hhi, Nat.min_eq_right hg, Nat.max_eq_left hg]
    by_cases hg : g0 > g1
    · rw [if_pos hg]
      refine ⟨b, a, rfl, by rw [Nat.mul_comm]; exact hab, fun x y hxy => ?_⟩
      refine le_trans (le_of_eq ?_) (hother x y hxy)
      rw [abs_sub_comm, ← asp_eq hab hapos hbpos, hlo, hhi, Nat.min_eq_right (by omega),
        Nat.max_eq_left (by omega)]
    · rw [if_neg hg]
      refine ⟨a, b, rfl, hab, fun x y hxy => ?_⟩
      refine le_trans (le_of_eq ?_) (hother x y hxy)
      rw [← asp_eq hab hapos hbpos, hlo, hhi, Nat.min_eq_left (by omega), Nat.max_eq_right (by omega)]
  -- short divisors are the stored small ones or the central one
  have hshort : ∀ c, c ∣ nproc → c * c ≤ nproc → c ∈ small nproc d ∨ (c = d ∧ d * d = nproc) := by
    intro c hc hcc
    have hcpos : 0 < c := Nat.pos_of_dvd_of_pos hc hn
    rcases Nat.lt_or_ge c d with h | h
    · exact Or.inl (mem_small.mpr ⟨h, hcpos, mod_zero_dvd.mpr hc⟩)
    · right
      have h1 : d * d ≤ c * c := Nat.mul_le_mul h h
      have h2 : d * d = nproc := by omega
      refine ⟨?_, h2⟩
      rcases Nat.eq_or_lt_of_le h with h3 | h3
      · exact h3.symm
      · have : d * d < c * c := Nat.mul_lt_mul_of_lt_of_le' h3 h hd
        omega
  have hmidabs : d * d = nproc → |(g1 : Rat) / d - (g0 : Rat) / d| = |asp lo hi nproc d| := by
    intro hs
    rw [← asp_eq hs hd hd, hlo, hhi]
    rcases Nat.le_total g0 g1 with hg | hg
    · rw [Nat.min_eq_left hg, Nat.max_eq_right hg, abs_sub_comm]
    · rw [Nat.min_eq_right hg, Nat.max_eq_left hg]
  unfold blcycDimsQ blcycDims
  rw [hl]
  dsimp only
  have hsmall : ∀ (i a : Nat), (small nproc d)[i]? = some a → a * (nproc / a) = nproc ∧ a < nproc / a ∧ 0 < a ∧ a < d := by
    intro i a ha
    have hm := mem_small.mp (List.mem_of_getElem? ha)
    have he : nproc / a * a = nproc := Nat.div_mul_cancel (mod_zero_dvd.mp hm.2.2)
    refine ⟨by rw [Nat.mul_comm]; exact he, ?_, hm.2.1, hm.1⟩
    by_contra hc
    have h5 : nproc / a * a ≤ a * a := Nat.mul_le_mul_right a (by omega)
    have := hd2 a hm.1
    omega
  have hsorted := small_sorted nproc d
  generalize small nproc d = s at *
  have hqlen := mid_length nproc d
  have hqd : ∀ (j a : Nat), (mid nproc d)[j]? = some a → a = d ∧ d * d = nproc := by
    intro j a h
    have := List.mem_of_getElem? h
    unfold mid at this
    split at this
    · next hs => simp at this; exact ⟨this, hs⟩
    · simp at this
  have hqd' : d * d = nproc → (mid nproc d).length = 1 := by intro h; simp [mid, h]
  generalize mid nproc d = q at *
  have hlen : (pairs nproc s ++ q).length = 2 * s.length + q.length := by
    rw [List.length_append, pairs_length]
  have hhalf : (pairs nproc s ++ q).length / 2 = s.length := by omega
  have hlast : q.length = 1 → (pairs nproc s ++ q)[(pairs nproc s ++ q).length - 1]? = some d ∧ d * d = nproc := by
    intro h
    have e : (pairs nproc s ++ q)[(pairs nproc s ++ q).length - 1]? = q[0]? := by
      rw [List.getElem?_append_right (by rw [pairs_length]; omega), hlen, pairs_length]
      congr 1; omega
    have e0 : q[0]? = some q[0] := List.getElem?_eq_getElem (by omega)
    obtain ⟨h1, h2⟩ := hqd 0 _ e0
    rw [e, e0, h1]; exact ⟨rfl, h2⟩
  have hF : ∀ (i : Nat) (hi' : i < s.length),
      (if |(g1 : Rat) / ((pairs nproc s ++ q).getD (2 * i) 0 : Nat) - (g0 : Rat) / ((pairs nproc s ++ q).getD (2 * i + 1) 0 : Nat)| <
        |(g0 : Rat) / ((pairs nproc s ++ q).getD (2 * i) 0 : Nat) - (g1 : Rat) / ((pairs nproc s ++ q).getD (2 * i + 1) 0 : Nat)| then
      |(g1 : Rat) / ((pairs nproc s ++ q).getD (2 * i) 0 : Nat) - (g0 : Rat) / ((pairs nproc s ++ q).getD (2 * i + 1) 0 : Nat)| else
      |(g0 : Rat) / ((pairs nproc s ++ q).getD (2 * i) 0 : Nat) - (g1 : Rat) / ((pairs nproc s ++ q).getD (2 * i + 1) 0 : Nat)|)
      = |asp lo hi nproc s[i]| := by
    intro i hi'
    have e0 : s[i]? = some s[i] := List.getElem?_eq_getElem hi'
    rw [List.getD_eq_getElem?_getD, List.getD_eq_getElem?_getD, pairs_even _ _ _ _ hi', pairs_odd _ _ _ _ hi', e0]
    simp only [Option.getD_some, Option.map_some]
    obtain ⟨h1, h2, h3, _⟩ := hsmall i _ e0
    exact diff_eq g0 g1 nproc _ _ h1 h3 (le_of_lt h2)
  have hanti : ∀ (i j : Nat) (hi' : i < s.length) (hj : j < s.length), i < j → s[i] < s[j] := by
    intro i j hi' hj hij
    exact List.pairwise_iff_getElem.mp hsorted i j hi' hj hij
  have hpos : ∀ (i : Nat) (hi' : i < s.length), 0 < s[i] ∧ s[i] < d := fun i hi' =>
    ⟨(hsmall i _ (List.getElem?_eq_getElem hi')).2.2.1, (hsmall i _ (List.getElem?_eq_getElem hi')).2.2.2⟩
  rw [hhalf]
  have hloop := blcycLoop_min (fun i =>
      (if |(g1 : Rat) / ((pairs nproc s ++ q).getD (2 * i) 0 : Nat) - (g0 : Rat) / ((pairs nproc s ++ q).getD (2 * i + 1) 0 : Nat)| <
        |(g0 : Rat) / ((pairs nproc s ++ q).getD (2 * i) 0 : Nat) - (g1 : Rat) / ((pairs nproc s ++ q).getD (2 * i + 1) 0 : Nat)| then
      |(g1 : Rat) / ((pairs nproc s ++ q).getD (2 * i) 0 : Nat) - (g0 : Rat) / ((pairs nproc s ++ q).getD (2 * i + 1) 0 : Nat)| else
      |(g0 : Rat) / ((pairs nproc s ++ q).getD (2 * i) 0 : Nat) - (g1 : Rat) / ((pairs nproc s ++ q).getD (2 * i + 1) 0 : Nat)|))
    s.length (by
      intro i j k hij hjk hk h
      rw [hF i (by omega), hF j (by omega)] at h
      rw [hF j (by omega), hF k hk]
      refine asp_quasi hlo0 hhi0 hnq (by exact_mod_cast (hpos i (by omega)).1) ?_ ?_ h
      · exact_mod_cast le_of_lt (hanti i j (by omega) (by omega) hij)
      · exact_mod_cast le_of_lt (hanti j k (by omega) (by omega) hjk))
    0 0 0 0 (by omega) (by omega)
  have hpairk := blcycLoop_pair (fun a b : Rat => decide (b < a)) (fun i =>
      (if |(g1 : Rat) / ((pairs nproc s ++ q).getD (2 * i) 0 : Nat) - (g0 : Rat) / ((pairs nproc s ++ q).getD (2 * i + 1) 0 : Nat)| <
        |(g0 : Rat) / ((pairs nproc s ++ q).getD (2 * i) 0 : Nat) - (g1 : Rat) / ((pairs nproc s ++ q).getD (2 * i + 1) 0 : Nat)| then
      |(g1 : Rat) / ((pairs nproc s ++ q).getD (2 * i) 0 : Nat) - (g0 : Rat) / ((pairs nproc s ++ q).getD (2 * i + 1) 0 : Nat)| else
      |(g0 : Rat) / ((pairs nproc s ++ q).getD (2 * i) 0 : Nat) - (g1 : Rat) / ((pairs nproc s ++ q).getD (2 * i + 1) 0 : Nat)|))
    s.length 0 0 0 0 (by omega) (by omega)
  have hz : s.length = 0 → blcycLoop (fun a b : Rat => decide (b < a)) (fun i =>
      (if |(g1 : Rat) / ((pairs nproc s ++ q).getD (2 * i) 0 : Nat) - (g0 : Rat) / ((pairs nproc s ++ q).getD (2 * i + 1) 0 : Nat)| <
        |(g0 : Rat) / ((pairs nproc s ++ q).getD (2 * i) 0 : Nat) - (g1 : Rat) / ((pairs nproc s ++ q).getD (2 * i + 1) 0 : Nat)| then
      |(g1 : Rat) / ((pairs nproc s ++ q).getD (2 * i) 0 : Nat) - (g0 : Rat) / ((pairs nproc s ++ q).getD (2 * i + 1) 0 : Nat)| else
      |(g0 : Rat) / ((pairs nproc s ++ q).getD (2 * i) 0 : Nat) - (g1 : Rat) / ((pairs nproc s ++ q).getD (2 * i + 1) 0 : Nat)|))
    s.length 0 0 0 0 = (0, 0, 0, 0) := by
    intro h; rw [blcycLoop, if_neg (by omega)]
  generalize blcycLoop (fun a b : Rat => decide (b < a)) (fun i =>
      (if |(g1 : Rat) / ((pairs nproc s ++ q).getD (2 * i) 0 : Nat) - (g0 : Rat) / ((pairs nproc s ++ q).getD (2 * i + 1) 0 : Nat)| <
        |(g0 : Rat) / ((pairs nproc s ++ q).getD (2 * i) 0 : Nat) - (g1 : Rat) / ((pairs nproc s ++ q).getD (2 * i + 1) 0 : Nat)| then
      |(g1 : Rat) / ((pairs nproc s ++ q).getD (2 * i) 0 : Nat) - (g0 : Rat) / ((pairs nproc s ++ q).getD (2 * i + 1) 0 : Nat)| else
      |(g0 : Rat) / ((pairs nproc s ++ q).getD (2 * i) 0 : Nat) - (g1 : Rat) / ((pairs nproc s ++ q).getD (2 * i + 1) 0 : Nat)|))
    s.length 0 0 0 0 = rr at *
  generalize hL : pairs nproc s ++ q = L at *
  by_cases hc : L.length % 2 = 1 ∧ rr.1 = s.length ∧
      decide (|(g1 : Rat) / (L.getD (L.length - 1) 0 : Nat) - (g0 : Rat) / (L.getD (L.length - 1) 0 : Nat)| < rr.2.2.2) = true
  · simp only [if_pos hc]
    obtain ⟨el, es⟩ := hlast (by omega)
    rw [el]
    dsimp only
    refine fin d d es (le_refl _) ?_
    intro c hcd hcc
    rcases hshort c hcd hcc with hm | ⟨rfl, _⟩
    · obtain ⟨j, hj, rfl⟩ := List.getElem_of_mem hm
      obtain ⟨r, k, e1, e2, e3, e4⟩ := hloop (by omega)
      have hlt := of_decide_eq_true hc.2.2
      rw [List.getD_eq_getElem?_getD, el, Option.getD_some, hmidabs es] at hlt
      rcases e4 with ⟨_, _, e5⟩ | ⟨e5, _, _⟩
      · rw [e5] at hlt
        have := e3 j hj
        rw [hF j hj] at this
        exact le_trans (le_of_lt hlt) this
      · exfalso
        have : rr.1 = r := by rw [e1]
        omega
    · exact le_refl _
  · simp only [if_neg hc]
    rcases Nat.eq_zero_or_pos s.length with h0 | h0
    · rw [hz h0]
      dsimp only
      have hnil : s = [] := List.length_eq_zero_iff.mp h0
      have h1 := hshort 1 (Nat.one_dvd _) (by omega)
      have hdd : d * d = nproc := by
        rcases h1 with h1 | h1
        · rw [hnil] at h1; simp at h1
        · exact h1.2
      have hq1 := hqd' hdd
      obtain ⟨el, es⟩ := hlast hq1
      rw [show L.length - 1 = 0 by omega] at el
      rw [el]
      dsimp only
      refine fin d d es (le_refl _) ?_
      intro c hcd hcc
      rcases hshort c hcd hcc with hm | ⟨rfl, _⟩
      · rw [hnil] at hm; simp at hm
      · exact le_refl _
    · obtain ⟨r, k, e1, e2, e3, e4⟩ := hloop h0
      obtain ⟨k', hk', f1, f2⟩ := hpairk h0
      have hrr1 : rr.2.1 = 2 * k := by rw [e1]
      have hrr0 : rr.1 = r := by rw [e1]
      have hkk : k' = k := by omega
      subst hkk
      have ek : s[k']? = some s[k'] := List.getElem?_eq_getElem hk'
      rw [f1, f2, ← hL, pairs_even _ _ _ _ hk', pairs_odd _ _ _ _ hk', ek]
      simp only [Option.map_some]
      obtain ⟨g1', g2', g3', g4'⟩ := hsmall k' _ ek
      refine fin _ _ g1' (le_of_lt g2') ?_
      intro c hcd hcc
      rcases hshort c hcd hcc with hm | ⟨rfl, hdd⟩
      · obtain ⟨j, hj, rfl⟩ := List.getElem_of_mem hm
        have := e3 j hj
        rw [hF j hj, hF k' hk'] at this
        exact this
      · obtain ⟨el, es⟩ := hlast (hqd' hdd)
        rcases e4 with ⟨e5, _, e6⟩ | ⟨e5, e6, e7⟩
        · by_contra hlt
          refine hc ⟨by have := hqd' hdd; omega, by omega, ?_⟩
          rw [List.getD_eq_getElem?_getD, el, Option.getD_some, hmidabs es, e6, hF k' hk']
          exact decide_eq_true (not_le.mp hlt)
        · rw [hF k' hk', hF r e5] at e7
          refine le_trans (le_of_lt e7) (asp_quasi hlo0 hhi0 hnq (by exact_mod_cast g3') ?_ ?_ e7)
          · exact_mod_cast le_of_lt (hanti k' r hk' e5 e6)
          · exact_mod_cast le_of_lt (hpos r e5).2

example : ∃ a b, blcycDimsQ 1000 400 12 = some (a, b) ∧ a * b = 12 := by
  obtain ⟨a, b, h, h2, _⟩ := blcyc_optimal 1000 400 12 (by decide)
  exact ⟨a, b, h, h2⟩

end Sparc.Factor

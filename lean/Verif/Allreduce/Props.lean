import Mathlib.Tactic.Ring
import Mathlib.Tactic.Linarith
import Verif.Allreduce.Model

/-! # C40: chunked reductions reduce every element exactly once -/

namespace Sparc.Allreduce

/-- Executing consecutive segments starting at `lo` and ending at `hi`. -/
inductive Chain : Nat → List (Nat × Nat) → Nat → Prop
  | nil (lo) : Chain lo [] lo
  | cons {lo c hi rest} : Chain (lo + c) rest hi → Chain lo ((lo, c) :: rest) hi

theorem Chain.le {lo segs hi} (h : Chain lo segs hi) : lo ≤ hi := by
  induction h with
  | nil => exact Nat.le_refl _
  | cons _ ih => omega

theorem chain_effect {α : Type} {P : Nat} (red : (Fin P → α) → α) {lo hi : Nat}
    {segs : List (Nat × Nat)} (h : Chain lo segs hi) (buf : Fin P → Nat → α) (r : Fin P) (j : Nat) :
    segs.foldl (fun b s => allreduceSeg red s b) buf r j =
      if lo ≤ j ∧ j < hi then red (fun s => buf s j) else buf r j := by
  induction h generalizing buf with
  | nil lo => rw [if_neg (by omega)]; rfl
  | @cons lo c hi rest hc ih =>
    have hle := hc.le
    rw [List.foldl_cons, ih]
    unfold allreduceSeg
    dsimp only
    by_cases h1 : lo ≤ j ∧ j < lo + c
    · rw [if_neg (by omega), if_pos h1, if_pos (by omega)]
    · by_cases h2 : lo + c ≤ j ∧ j < hi
      · rw [if_pos h2, if_pos (by omega)]
        congr 1; funext s; rw [if_neg h1]
      · rw [if_neg h2, if_neg h1, if_neg (by omega)]

theorem displ_closed (count batch i : Nat) :
    chunkDispl count batch i = i * batch + min i (count % batch) := by
  induction i with
  | zero => simp [chunkDispl]
  | succ i ih =>
    rw [chunkDispl, ih, chunkCount, Nat.add_mul]
    split <;> omega

theorem chain_map (f g : Nat → Nat) (hfg : ∀ i, f (i + 1) = f i + g i) (n k : Nat) :
    Chain (f k) ((List.range' k n).map (fun i => (f i, g i))) (f (k + n)) := by
  induction n generalizing k with
  | zero => exact Chain.nil _
  | succ n ih =>
    rw [List.range'_succ, List.map_cons]
    refine Chain.cons ?_
    rw [← hfg, show k + (n + 1) = k + 1 + n by omega]
    exact ih (k + 1)

theorem reps_closed (count unit : Nat) (hc : 0 < count) (hc2 : count < 2 ^ 31) (hu : 0 < unit)
    (hu2 : unit ≤ 16) : reps count unit = (((count * unit - 1) / 100000000 + 1 : Nat) : Int) := by
  unfold reps sizeT
  have h1 : count * unit ≤ 2 ^ 31 * 16 := Nat.mul_le_mul (by omega) hu2
  have h2 : 0 < count * unit := Nat.mul_pos hc hu
  dsimp only
  generalize count * unit = s at *
  have h3 : s % 2 ^ 64 = s := Nat.mod_eq_of_lt (by omega)
  rw [h3]
  have h4 : (s + 2 ^ 64 - 1) % 2 ^ 64 = s - 1 := by omega
  rw [h4]
  have h5 : max ((s - 1) / 100000000 + 1) 1 = (s - 1) / 100000000 + 1 := by omega
  rw [h5]
  have h6 : (s - 1) / 100000000 + 1 < 2 ^ 31 := by omega
  rw [Nat.mod_eq_of_lt (by omega), if_pos h6]

/-- Segments form a chain from 0 to `count` for every element count an `int` can hold and
every supported data type. -/
theorem segments_chain (count unit : Nat) (hc : 0 < count) (hc2 : count < 2 ^ 31)
    (hu : unit = 4 ∨ unit = 8 ∨ unit = 16) :
    ∃ segs, segments count unit = some segs ∧ Chain 0 segs count ∧
      ∀ s ∈ segs, 0 < s.2 ∧ s.2 * unit ≤ 100000000 := by
  have hr := reps_closed count unit hc hc2 (by omega) (by omega)
  unfold segments
  dsimp only
  rw [hr]
  set R := (count * unit - 1) / 100000000 + 1 with hR
  have hsz : 0 < count * unit := Nat.mul_pos hc (by omega)
  have hub : count * unit ≤ R * 100000000 := by omega
  have hlb : (R - 1) * 100000000 < count * unit := by omega
  have hRpos : 1 ≤ R := by omega
  by_cases h1 : ((R : Nat) : Int) = 1
  · rw [if_pos h1]
    have hR1 : R = 1 := by exact_mod_cast h1
    have hch := Chain.cons (lo := 0) (c := count) (Chain.nil (0 + count))
    rw [Nat.zero_add] at hch
    refine ⟨_, rfl, hch, ?_⟩
    intro s hs
    rw [List.mem_singleton] at hs
    subst hs
    exact ⟨hc, by rw [hR1] at hub; simpa using hub⟩
  · rw [if_neg h1]
    have hR2 : 2 ≤ R := by
      have : R ≠ 1 := fun h => h1 (by rw [h]; rfl)
      omega
    rw [if_neg (by omega), Int.toNat_natCast]
    have hRbound : R ≤ 400 := by
      have : count * unit ≤ 2 ^ 31 * 16 := Nat.mul_le_mul (by omega) (by omega)
      omega
    -- each batch is far longer than the number of batches
    have hbig : 400 < count / R := by
      have h3 : 401 * R ≤ count := by
        have : R * 100000000 ≤ count * unit + 100000000 := by
          have : R * 100000000 = (R - 1) * 100000000 + 100000000 := by
            conv_lhs => rw [show R = (R - 1) + 1 by omega]
            rw [Nat.add_mul, Nat.one_mul]
          omega
        rcases hu with h | h | h <;> subst h <;> omega
      have : 401 ≤ count / R := (Nat.le_div_iff_mul_le (by omega)).mpr h3
      omega
    have hmod : count % (count / R) = count % R := by
      have h4 := Nat.div_add_mod count R
      have h5 := Nat.mod_lt count (show 0 < R by omega)
      have h6 : count = count % R + (count / R) * R := by rw [Nat.mul_comm]; omega
      generalize hq : count / R = q at *
      conv_lhs => rw [h6]
      rw [Nat.add_mul_mod_self_left]
      exact Nat.mod_eq_of_lt (by omega)
    rw [if_neg (by omega)]
    have hch := chain_map (chunkDispl count (count / R)) (chunkCount count (count / R))
      (fun i => rfl) R 0
    have hend : chunkDispl count (count / R) (0 + R) = count := by
      rw [displ_closed, hmod, Nat.zero_add]
      have h5 := Nat.mod_lt count (show 0 < R by omega)
      rw [Nat.min_eq_right (by omega)]
      exact Nat.div_add_mod count R
    rw [hend, ← List.range_eq_range'] at hch
    refine ⟨_, rfl, hch, ?_⟩
    intro s hs
    simp only [List.mem_map, List.mem_range] at hs
    obtain ⟨i, hi, rfl⟩ := hs
    dsimp only
    have hcc : chunkCount count (count / R) i ≤ 100000000 / unit := by
      unfold chunkCount
      rw [hmod]
      have h4 := Nat.div_add_mod count R
      have hcap : count ≤ R * (100000000 / unit) := by
        rcases hu with h | h | h <;> subst h <;> omega
      have hle : count / R ≤ 100000000 / unit := by
        have := Nat.div_le_div_right (c := R) hcap
        rwa [Nat.mul_div_cancel_left _ (by omega)] at this
      split
      · next hlt =>
        rcases Nat.lt_or_ge (count / R) (100000000 / unit) with h | h
        · omega
        · exfalso
          have : R * (count / R) = R * (100000000 / unit) := by
            rw [Nat.le_antisymm hle h]
          omega
      · omega
    refine ⟨by unfold chunkCount; omega, ?_⟩
    calc chunkCount count (count / R) i * unit ≤ 100000000 / unit * unit := Nat.mul_le_mul_right _ hcc
      _ ≤ 100000000 := Nat.div_mul_le_self _ _

/-- **C40.** For every positive element count representable as `int` and every supported
element size, the chunked reduction is defined and leaves, on every rank, the reduction of
the original values in each of the `count` elements and everything beyond untouched;
no chunk exceeds the 100 MB limit. -/
theorem overload_reduces {α : Type} {P : Nat} (red : (Fin P → α) → α) (count unit : Nat)
    (hc : 0 < count) (hc2 : count < 2 ^ 31) (hu : unit = 4 ∨ unit = 8 ∨ unit = 16)
    (buf : Fin P → Nat → α) :
    ∃ out segs, overload red count unit buf = some out ∧ segments count unit = some segs ∧
      (∀ s ∈ segs, 0 < s.2 ∧ s.2 * unit ≤ 100000000) ∧
      ∀ r j, out r j = if j < count then red (fun s => buf s j) else buf r j := by
  obtain ⟨segs, h1, h2, h3⟩ := segments_chain count unit hc hc2 hu
  refine ⟨_, segs, by unfold overload; rw [h1]; rfl, h1, h3, ?_⟩
  intro r j
  show segs.foldl (fun b s => allreduceSeg red s b) buf r j = _
  rw [chain_effect red h2]
  simp

example : (0 < 40000000 ∧ 40000000 < 2 ^ 31 ∧ ((8 : Nat) = 4 ∨ (8 : Nat) = 8 ∨ (8 : Nat) = 16)) ∧
    segments 40000000 8 = some [(0, 10000000), (10000000, 10000000), (20000000, 10000000),
      (30000000, 10000000)] := by
  refine ⟨by decide, ?_⟩
  simp [segments, reps, sizeT, chunkDispl, chunkCount, List.range, List.range.loop]

/-- Count zero is outside the precondition for a reason: the unsigned subtraction wraps and
the number of chunks becomes negative. -/
theorem segments_zero : reps 0 8 < 0 ∧ segments 0 8 = none := by
  have h : reps 0 8 < 0 := by decide
  refine ⟨h, ?_⟩
  unfold segments
  dsimp only
  rw [if_neg (by omega), if_pos (by omega)]

end Sparc.Allreduce

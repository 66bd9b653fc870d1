import Verif.Block.Model
import Mathlib.Tactic.Ring
import Mathlib.Tactic.Linarith

namespace Sparc.Block

theorem nstart_zero (n p : Nat) : blockNstart n p 0 = 0 := by
  unfold blockNstart; split <;> omega

theorem nstart_succ (n p r : Nat) :
    blockNstart n p (r + 1) = blockNstart n p r + blockDecompose n p r := by
  unfold blockNstart blockDecompose
  rw [Nat.mul_add]
  split <;> split <;> omega

theorem nstart_last (n p : Nat) (hp : 0 < p) : blockNstart n p p = n := by
  unfold blockNstart
  have := Nat.mod_lt n hp
  rw [if_neg (by omega), Nat.mul_comm]
  exact Nat.div_add_mod n p

theorem nstart_mono (n p : Nat) {r s : Nat} (h : r ≤ s) :
    blockNstart n p r ≤ blockNstart n p s := by
  induction s, h using Nat.le_induction with
  | base => exact le_rfl
  | succ s _ ih => rw [nstart_succ]; omega

/-- Predecessor division: `(n-1)/p+1` is the large block size when it matters. -/
theorem pred_div (n p : Nat) (hp : 0 < p) (hm : 0 < n % p) : (n - 1) / p = n / p := by
  have h1 := Nat.div_add_mod n p
  have h2 := Nat.mod_lt n hp
  apply Nat.div_eq_of_lt_le
  · rw [Nat.mul_comm]; omega
  · rw [Nat.add_mul, Nat.mul_comm]; omega

theorem blockRank_spec (n p i : Nat) (hp : 0 < p) (hi : i < n) :
    ∃ r, blockRank n p i = some r ∧ r < p ∧
      blockNstart n p r ≤ i ∧ i < blockNstart n p r + blockDecompose n p r := by
  have h1 := Nat.div_add_mod n p
  have h2 := Nat.mod_lt n hp
  have h3 : 0 < n % p → (n - 1) / p = n / p := pred_div n p hp
  have h4 : n / p = 0 → (n - 1) / p = 0 := by
    intro h
    have hlt : n < p := by
      rcases Nat.lt_or_ge n p with h' | h'
      · exact h'
      · have := Nat.div_pos h' hp; omega
    exact Nat.div_eq_of_lt (by omega)
  unfold blockRank blockNstart blockDecompose
  rw [if_neg (by omega)]
  generalize n / p = q at *
  generalize n % p = m at *
  generalize (n - 1) / p = q' at *
  by_cases hlt : i < m * (q' + 1)
  · rw [if_pos hlt]
    refine ⟨_, rfl, ?_⟩
    have hm : 0 < m := by
      rcases Nat.eq_zero_or_pos m with h | h
      · subst h; simp at hlt
      · exact h
    have hq := h3 hm
    subst hq
    have hr : i / (q' + 1) < m := by
      rw [Nat.div_lt_iff_lt_mul (by omega)]; exact hlt
    have hd := Nat.div_add_mod i (q' + 1)
    have hm' := Nat.mod_lt i (show 0 < q' + 1 by omega)
    generalize i / (q' + 1) = r at *
    generalize i % (q' + 1) = t at *
    rw [if_pos hr, if_pos hr]
    rw [Nat.add_mul] at hd
    refine ⟨by omega, by omega, by omega⟩
  · rw [if_neg hlt]
    have hq : q ≠ 0 := by
      intro hq
      subst hq
      rw [h4 rfl] at hlt
      omega
    rw [if_neg hq]
    refine ⟨_, rfl, ?_⟩
    have hqpos : 0 < q := Nat.pos_of_ne_zero hq
    have hge : m * q + m ≤ i := by
      rcases Nat.eq_zero_or_pos m with h | h
      · subst h; omega
      · rw [h3 h, Nat.mul_add] at hlt; omega
    have hd := Nat.div_add_mod (i - m) q
    have hm' := Nat.mod_lt (i - m) hqpos
    have hrge : m ≤ (i - m) / q := by
      rw [Nat.le_div_iff_mul_le hqpos]; omega
    have hrlt : (i - m) / q < p := by
      rw [Nat.div_lt_iff_lt_mul hqpos]; omega
    generalize (i - m) / q = r at *
    rw [if_neg (by omega), if_neg (by omega)]
    refine ⟨hrlt, by omega, by omega⟩

theorem owner_unique (n p i r s : Nat)
    (hr : blockNstart n p r ≤ i ∧ i < blockNstart n p r + blockDecompose n p r)
    (hs : blockNstart n p s ≤ i ∧ i < blockNstart n p s + blockDecompose n p s) : r = s := by
  rw [← nstart_succ] at hr hs
  rcases Nat.lt_trichotomy r s with h | h | h
  · have := nstart_mono n p (show r + 1 ≤ s from h); omega
  · exact h
  · have := nstart_mono n p (show s + 1 ≤ r from h); omega

end Sparc.Block

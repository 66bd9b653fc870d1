import Verif.Block.Lemmas

/-!
# C01: the block distribution is an exact partition
-/

namespace Sparc.Block

/-- Specification, independent of the formulas: a family of index intervals
`[start r, start r + size r)`, `r < p`, is a *balanced consecutive partition* of
`0 .. n-1`. -/
structure IsBalancedPartition (n p : Nat) (start size : Nat → Nat) : Prop where
  /-- the first block starts at 0 -/
  first : start 0 = 0
  /-- blocks are consecutive -/
  next : ∀ r, r + 1 < p → start (r + 1) = start r + size r
  /-- the last block ends at `n` -/
  last : start (p - 1) + size (p - 1) = n
  /-- every index has exactly one owner -/
  owner : ∀ i, i < n → ∃! r, r < p ∧ start r ≤ i ∧ i < start r + size r
  /-- nothing outside `0..n-1` is owned -/
  inside : ∀ r i, r < p → start r ≤ i → i < start r + size r → i < n
  /-- sizes differ by at most one, larger blocks first -/
  balanced : ∀ r s, r ≤ s → s < p → size s ≤ size r ∧ size r ≤ size s + 1

/-- **C01**, first half: the counts and start indices handed to the processes form
a balanced partition, for every grid size and every number of processes. -/
theorem block_decompose_partition (n p : Nat) (hp : 0 < p) :
    IsBalancedPartition n p (blockNstart n p) (blockDecompose n p) where
  first := nstart_zero n p
  next r _ := nstart_succ n p r
  last := by rw [← nstart_succ, Nat.sub_add_cancel hp, nstart_last n p hp]
  owner i hi := by
    obtain ⟨r, _, hr, h1, h2⟩ := blockRank_spec n p i hp hi
    exact ⟨r, ⟨hr, h1, h2⟩, fun s hs => owner_unique n p i s r hs.2 ⟨h1, h2⟩⟩
  inside r i hr h1 h2 := by
    have := nstart_mono n p (show r + 1 ≤ p from hr)
    rw [nstart_last n p hp, nstart_succ] at this
    omega
  balanced r s hrs hs := by
    unfold blockDecompose
    split <;> split <;> omega

/-- **C01**, second half: for a node of the grid the owner lookup has no undefined
behaviour and returns process `r` exactly when `r` is a process whose range contains
the node. -/
theorem block_decompose_rank_iff (n p i r : Nat) (hp : 0 < p) (hi : i < n) :
    blockRank n p i = some r ↔
      r < p ∧ blockNstart n p r ≤ i ∧ i < blockNstart n p r + blockDecompose n p r := by
  obtain ⟨s, hs, hsp, h1, h2⟩ := blockRank_spec n p i hp hi
  constructor
  · intro h
    rw [hs] at h; cases h
    exact ⟨hsp, h1, h2⟩
  · intro h
    rw [hs, owner_unique n p i r s h.2 ⟨h1, h2⟩]

/-- The sizes add up to the number of grid points. -/
theorem block_decompose_sum (n p : Nat) (hp : 0 < p) :
    ((List.range p).map (blockDecompose n p)).sum = n := by
  have key : ∀ q, ((List.range q).map (blockDecompose n p)).sum = blockNstart n p q := by
    intro q
    induction q with
    | zero => simp [nstart_zero]
    | succ q ih => rw [List.range_succ, List.map_append, List.sum_append, ih, nstart_succ]; simp
  rw [key, nstart_last n p hp]

-- Non-vacuity: 10 points on 4 processes: blocks 3,3,2,2 starting at 0,3,6,8.
example : (List.range 4).map (blockDecompose 10 4) = [3, 3, 2, 2] ∧
    (List.range 4).map (blockNstart 10 4) = [0, 3, 6, 8] ∧
    (List.range 10).map (blockRank 10 4) =
      [0, 0, 0, 1, 1, 1, 2, 2, 3, 3].map some := by decide
-- More processes than points: the surplus processes get nothing.
example : (List.range 5).map (blockDecompose 3 5) = [1, 1, 1, 0, 0] ∧
    (List.range 3).map (blockRank 3 5) = [some 0, some 1, some 2] := by decide
example : IsBalancedPartition 10 4 (blockNstart 10 4) (blockDecompose 10 4) :=
  block_decompose_partition 10 4 (by decide)

end Sparc.Block

import Verif.Groups.Model
import Mathlib.Tactic.Ring
import Mathlib.Tactic.Linarith
import Mathlib.Logic.ExistsUnique

/-!
# C08: spins, k-points and bands are each owned by exactly one group
-/

namespace Sparc.Groups

/-- Specification: the intervals `[start g, start g + count g)`, `g < np`, cover
`0 .. N-1` exactly once and contain nothing else. -/
structure IsCover (N np : Nat) (start count : Nat → Nat) : Prop where
  owner : ∀ i, i < N → ∃! g, g < np ∧ start g ≤ i ∧ i < start g + count g
  inside : ∀ g i, g < np → start g ≤ i → i < start g + count g → i < N

/-- A family of consecutive intervals ending at `N` is a cover. -/
theorem cover_of_consecutive (N np : Nat) (start count : Nat → Nat)
    (h0 : 0 < np → start 0 = 0) (hs : ∀ g, g + 1 < np → start (g + 1) = start g + count g)
    (hN : 0 < np → start (np - 1) + count (np - 1) = N) (hnp : 0 < np) :
    IsCover N np start count := by
  have hstart : ∀ g, g < np → ∀ g', g' < g → start g' + count g' ≤ start g := by
    intro g hg
    induction g with
    | zero => intro g' h; omega
    | succ g ih =>
      intro g' hg'
      rw [hs g hg]
      rcases Nat.lt_or_ge g' g with h | h
      · have := ih (by omega) g' h; omega
      · have : g' = g := by omega
        subst this; exact le_rfl
  have hle : ∀ g, g < np → start g + count g ≤ N := by
    intro g hg
    rcases Nat.lt_or_ge g (np - 1) with h | h
    · have := hstart (np - 1) (by omega) g h
      have := hN hnp; omega
    · have : g = np - 1 := by omega
      subst this; exact (hN hnp).le
  have hex : ∀ k, k < np → ∀ i, i < start k + count k → ∃ g, g < np ∧ start g ≤ i ∧ i < start g + count g := by
    intro k
    induction k with
    | zero => intro hk i hi; exact ⟨0, hk, by rw [h0 hnp]; omega, hi⟩
    | succ k ih =>
      intro hk i hi
      rcases Nat.lt_or_ge i (start (k + 1)) with h | h
      · rw [hs k hk] at h; exact ih (by omega) i h
      · exact ⟨k + 1, hk, h, hi⟩
  refine ⟨?_, ?_⟩
  · intro i hi
    obtain ⟨g, hg, h1, h2⟩ := hex (np - 1) (by omega) i (by rw [hN hnp]; exact hi)
    refine ⟨g, ⟨hg, h1, h2⟩, ?_⟩
    rintro g' ⟨hg', h1', h2'⟩
    rcases Nat.lt_trichotomy g' g with h | h | h
    · have := hstart g hg g' h; omega
    · exact h
    · have := hstart g' hg' g h; omega
  · intro g i hg _ h2
    have := hle g hg; omega

/-- **C08** (k-points): any number of k-points, any number of groups. -/
theorem kpt_cover (Nk np : Nat) (hnp : 0 < np) :
    IsCover Nk np (kptStart Nk np) (kptCount Nk np) := by
  have h1 := Nat.div_add_mod Nk np
  have h2 := Nat.mod_lt Nk hnp
  refine cover_of_consecutive _ _ _ _ ?_ ?_ ?_ hnp
  · intro _
    unfold kptStart; split
    · simp
    · simp; omega
  · intro g _
    unfold kptStart kptCount
    generalize Nk / np = q at *
    generalize Nk % np = m at *
    by_cases hg : g + 1 < m
    · simp only [hg, show g < m by omega, if_true]; ring
    · by_cases hg' : g < m
      · have : m = g + 1 := by omega
        subst this
        simp only [lt_irrefl, if_false, hg', if_true]; ring
      · simp only [hg, hg', if_false]; ring
  · intro _
    unfold kptStart kptCount
    generalize Nk / np = q at *
    generalize Nk % np = m at *
    obtain ⟨k, rfl⟩ : ∃ k, np = k + 1 := ⟨np - 1, by omega⟩
    simp only [Nat.add_sub_cancel]
    rw [if_neg (by omega), if_neg (by omega)]
    rw [Nat.add_mul, Nat.one_mul, Nat.mul_comm k q] at *
    nlinarith

/-- **C08** (bands): any number of bands and band groups, including more groups
than bands (surplus groups own nothing). -/
theorem band_cover (Ns npband : Nat) (hNs : 0 < Ns) (hnp : 0 < npband) :
    IsCover Ns npband (bandStart Ns npband) (bandCount Ns npband) := by
  have hNB : 0 < bandNB Ns npband := Nat.succ_pos _
  have hceil : Ns ≤ npband * bandNB Ns npband := by
    unfold bandNB
    have h := Nat.div_add_mod (Ns - 1) npband
    have h' := Nat.mod_lt (Ns - 1) hnp
    rw [Nat.mul_add]; omega
  unfold bandStart bandCount
  dsimp only
  generalize bandNB Ns npband = NB at *
  have h1 := Nat.div_add_mod Ns NB
  have h2 := Nat.mod_lt Ns hNB
  have hq : Ns / NB ≤ npband := by
    have := Nat.div_le_div_right (c := NB) hceil
    rwa [Nat.mul_div_cancel _ hNB] at this
  have hq' : npband = Ns / NB → Ns % NB = 0 := by
    intro h
    rw [h, Nat.mul_comm] at hceil; omega
  generalize Ns / NB = q at *
  generalize Ns % NB = m at *
  refine cover_of_consecutive _ _ _ _ ?_ ?_ ?_ hnp
  · intro _; simp
  · intro g _
    rcases Nat.lt_trichotomy g q with h | h | h
    · rw [if_pos (show g + 1 ≤ q from h), if_pos h.le, if_pos h]; ring
    · subst h
      rw [if_neg (by omega), if_pos le_rfl, if_neg (lt_irrefl g), if_pos rfl, ← h1, Nat.mul_comm]
    · rw [if_neg (by omega), if_neg (by omega), if_neg (by omega), if_neg (by omega)]; omega
  · intro _
    obtain ⟨k, rfl⟩ : ∃ k, npband = k + 1 := ⟨npband - 1, by omega⟩
    simp only [Nat.add_sub_cancel]
    rcases Nat.lt_trichotomy k q with h | h | h
    · have hk : k + 1 = q := by omega
      have := hq' hk
      subst hk
      rw [if_pos (by omega), if_pos (by omega)]
      rw [← h1, this]; ring
    · subst h
      rw [if_pos le_rfl, if_neg (lt_irrefl k), if_pos rfl, ← h1, Nat.mul_comm]
    · rw [if_neg (by omega), if_neg (by omega), if_neg (by omega)]; omega

/-- **C08** (spins): the number of spin groups is clamped to `min nproc Nspin`, so
with `Nspin ∈ {1,2}` (the only values SPARC uses) it divides `Nspin` and the spins
are covered exactly once. -/
theorem spin_cover (user Nspin nproc : Nat) (hp : 0 < nproc) (hN : Nspin = 1 ∨ Nspin = 2) :
    let np := clampGroups user Nspin nproc
    0 < np ∧ IsCover Nspin np (spinStart Nspin np) (fun _ => spinCount Nspin np) := by
  intro np
  have hnp : 0 < np ∧ np ≤ Nspin := by
    simp only [np, clampGroups]
    split
    · rcases hN with h | h <;> subst h <;> omega
    · split
      · rcases hN with h | h <;> subst h <;> omega
      · omega
  refine ⟨hnp.1, ?_⟩
  obtain ⟨h1, h2⟩ := hnp
  generalize np = n at *
  have hdiv : n * (Nspin / n) = Nspin := by
    rcases hN with h | h <;> subst h
    · have : n = 1 := by omega
      subst this; rfl
    · rcases (show n = 1 ∨ n = 2 by omega) with h | h <;> subst h <;> rfl
  refine cover_of_consecutive _ _ _ _ ?_ ?_ ?_ h1
  · intro _; simp [spinStart]
  · intro g _; simp only [spinStart, spinCount]; ring
  · intro _
    obtain ⟨k, rfl⟩ : ∃ k, n = k + 1 := ⟨n - 1, by omega⟩
    simp only [spinStart, spinCount, Nat.add_sub_cancel]
    rw [← Nat.succ_mul]; exact hdiv

/-- The number of groups chosen is admissible: at least one, never more than the
items or the processes available. -/
theorem clampGroups_bounds (user items procs : Nat) (hi : 0 < items) (hp : 0 < procs) :
    0 < clampGroups user items procs ∧ clampGroups user items procs ≤ items ∧
      clampGroups user items procs ≤ procs := by
  unfold clampGroups
  split
  · omega
  · split <;> omega

/-- Every group has the same number `size / np` of member processes, idle processes are
exactly the `size % np` last ones, and every group is inhabited. -/
theorem groupIndex_members (size np : Nat) (hnp : 0 < np) (h : np ≤ size) (g : Nat) (hg : g < np)
    (rank : Nat) :
    groupIndex size np rank = some g ↔
      g * (size / np) ≤ rank ∧ rank < (g + 1) * (size / np) := by
  have hq : 0 < size / np := Nat.div_pos h hnp
  have h1 := Nat.div_add_mod size np
  have h3 : size - size % np = np * (size / np) := by omega
  unfold groupIndex
  rw [h3]
  generalize size / np = q at *
  constructor
  · intro h
    split at h
    · injection h with h
      subst h
      refine ⟨Nat.div_mul_le_self rank q, ?_⟩
      rw [Nat.add_mul, Nat.one_mul]
      have := Nat.div_add_mod rank q
      have := Nat.mod_lt rank hq
      rw [Nat.mul_comm]; omega
    · cases h
  · rintro ⟨ha, hb⟩
    have hlt : rank < np * q := lt_of_lt_of_le hb (Nat.mul_le_mul_right q hg)
    rw [if_pos hlt]
    congr 1
    exact Nat.div_eq_of_lt_le ha hb

-- Non-vacuity: 7 k-points on 3 groups; 10 bands on 4 groups; 3 bands on 5 groups.
example : (List.range 3).map (fun g => (kptStart 7 3 g, kptCount 7 3 g)) =
    [(0, 3), (3, 2), (5, 2)] := by decide
example : (List.range 4).map (fun g => (bandStart 10 4 g, bandCount 10 4 g)) =
    [(0, 3), (3, 3), (6, 3), (9, 1)] := by decide
example : (List.range 5).map (fun g => (bandStart 3 5 g, bandCount 3 5 g)) =
    [(0, 1), (1, 1), (2, 1), (3, 0), (3, 0)] := by decide
example : IsCover 10 4 (bandStart 10 4) (bandCount 10 4) := band_cover 10 4 (by decide) (by decide)
example : (List.range 8).map (groupIndex 8 3) =
    [some 0, some 0, some 1, some 1, some 2, some 2, none, none] := by decide

end Sparc.Groups

import Verif.Wire.Model
import Mathlib.Algebra.BigOperators.Fin
import Mathlib.Algebra.BigOperators.Field
import Mathlib.Order.Interval.Finset.Basic
import Mathlib.Algebra.Order.Ring.Int
import Mathlib.Order.Interval.Finset.Nat
import Mathlib.Data.Int.Interval

/-!
# Properties of the outer potential of wires (C114)
-/

namespace Sparc.Wire
open Finset

/-- The layers beyond a side: `fdn` layers in its own direction, the grid in the other. -/
def Beyond (P : Par) : Side → ℤ → ℤ → Prop
  | (false, false), i, j => -(P.fdn : ℤ) ≤ i ∧ i < 0 ∧ 0 ≤ j ∧ j < P.NY
  | (false, true), i, j => (P.NX : ℤ) ≤ i ∧ i < P.NX + P.fdn ∧ 0 ≤ j ∧ j < P.NY
  | (true, false), i, j => -(P.fdn : ℤ) ≤ j ∧ j < 0 ∧ 0 ≤ i ∧ i < P.NX
  | (true, true), i, j => (P.NY : ℤ) ≤ j ∧ j < P.NY + P.fdn ∧ 0 ≤ i ∧ i < P.NX

theorem beyond_iff (P : Par) (s : Side) (i j : ℤ) : Beyond P s i j ↔
    j ∈ Icc (P.phiLo s true) (P.phiHi s true) ∧ i ∈ Icc (P.phiLo s false) (P.phiHi s false) := by
  obtain ⟨a, b⟩ := s
  simp only [mem_Icc]
  cases a <;> cases b <;> simp [Beyond, Par.phiLo, Par.phiHi, Par.corLo, Par.corHi] <;> omega

/-- The number of columns and the first point of a block. -/
theorem shape (P : Par) (s : Side) : P.nX s = (if s.1 then (P.NX : ℤ) else P.fdn) ∧
    P.phiLo s false = (if s.1 then 0 else if s.2 then (P.NX : ℤ) else -P.fdn) ∧
    P.phiLo s true = (if s.1 then (if s.2 then (P.NY : ℤ) else -P.fdn) else 0) := by
  obtain ⟨a, b⟩ := s
  cases a <;> cases b <;> simp [Par.nX, Par.phiLo, Par.phiHi, Par.corLo, Par.corHi] <;> omega

/-- Row by row storage. -/
theorem rows {n u v u' v' : ℤ} (hu : 0 ≤ u ∧ u < n) (hu' : 0 ≤ u' ∧ u' < n) (h : v * n + u = v' * n + u') :
    u = u' ∧ v = v' := by
  have hv : v = v' := by
    rcases lt_trichotomy v v' with hlt | heq | hgt
    · nlinarith [hu.1, hu.2, hu'.1, hu'.2]
    · exact heq
    · nlinarith [hu.1, hu.2, hu'.1, hu'.2]
  subst hv
  exact ⟨by linarith, rfl⟩

/-- A place inside a block of `m` rows. -/
theorem block {n m u v : ℤ} (hu : 0 ≤ u ∧ u < n) (hv : 0 ≤ v ∧ v < m) : 0 ≤ v * n + u ∧ v * n + u < m * n := by
  constructor
  · nlinarith [mul_nonneg hv.1 (hu.1.trans hu.2.le)]
  · have : (v + 1) * n ≤ m * n := mul_le_mul_of_nonneg_right (by omega) (hu.1.trans hu.2.le)
    nlinarith

/-- The place relative to the block of the side. -/
theorem place {P : Par} {s : Side} {i j : ℤ} (h : Beyond P s i j) :
    P.off s ≤ P.idx s i j ∧ P.idx s i j < P.off s + P.fdn * (if s.1 then P.NX else P.NY : ℕ) := by
  obtain ⟨h1, h2, h3⟩ := shape P s
  unfold Par.idx
  rw [h1, h2, h3]
  obtain ⟨a, b⟩ := s
  cases a <;> cases b <;> simp only [Beyond] at h <;> simp only [Bool.false_eq_true, if_true, if_false]
  · have := block (n := P.fdn) (m := P.NY) (u := i - -P.fdn) (v := j - 0) (by omega) (by omega)
    constructor <;> nlinarith [this.1, this.2]
  · have := block (n := P.fdn) (m := P.NY) (u := i - P.NX) (v := j - 0) (by omega) (by omega)
    constructor <;> nlinarith [this.1, this.2]
  · have := block (n := P.NX) (m := P.fdn) (u := i - 0) (v := j - -P.fdn) (by omega) (by omega)
    constructor <;> nlinarith [this.1, this.2]
  · have := block (n := P.NX) (m := P.fdn) (u := i - 0) (v := j - P.NY) (by omega) (by omega)
    constructor <;> nlinarith [this.1, this.2]

/-- Two outer points of the layers share a place only if they are the same point of the same side. -/
theorem idx_inj {P : Par} {s s' : Side} {i j i' j' : ℤ} (h : Beyond P s i j) (h' : Beyond P s' i' j')
    (he : P.idx s i j = P.idx s' i' j') : s = s' ∧ i = i' ∧ j = j' := by
  have hp := place h
  have hp' := place h'
  rw [he] at hp
  have hs : s = s' := by
    obtain ⟨a, b⟩ := s
    obtain ⟨a', b'⟩ := s'
    have hx : (0 : ℤ) ≤ P.fdn * P.NX := by positivity
    have hy : (0 : ℤ) ≤ P.fdn * P.NY := by positivity
    cases a <;> cases b <;> cases a' <;> cases b' <;> first
      | rfl
      | (exfalso
         simp only [Par.off, Bool.false_eq_true, if_true, if_false] at hp hp'
         push_cast at hp hp'
         nlinarith [hp.1, hp.2, hp'.1, hp'.2])
  subst hs
  refine ⟨rfl, ?_⟩
  unfold Par.idx at he
  have hn : (0 ≤ i - P.phiLo s false ∧ i - P.phiLo s false < P.nX s) := by
    have := (beyond_iff P s i j).1 h
    simp only [mem_Icc] at this
    unfold Par.nX; omega
  have hn' : (0 ≤ i' - P.phiLo s false ∧ i' - P.phiLo s false < P.nX s) := by
    have := (beyond_iff P s i' j').1 h'
    simp only [mem_Icc] at this
    unfold Par.nX; omega
  have := rows hn hn' (v := j - P.phiLo s true) (v' := j' - P.phiLo s true) (by linarith)
  omega

/-- The outer potential of a wire: every read of the array of one of the layers beyond a side is in
bounds and gives minus twice the sum over the lines of averaged charge of the charge per length times
the logarithm of the distance. -/
theorem wire_potential (P : Par) {s : Side} {i j : ℤ} (h : Beyond P s i j) :
    P.phi s i j = some (-2 * ∑ jp ∈ range P.NY, ∑ ip ∈ range P.NX,
      ((∑ k ∈ range P.NZ, P.f ip jp k) / (4 * Real.pi) / P.NZ * (P.dX * P.dY)) *
        Real.log √(((i - ip) * P.dX) ^ 2 + ((j - jp) * P.dY) ^ 2)) := by
  have hp := place h
  have hlen : P.idx s i j < P.len := by
    have hx : (0 : ℤ) ≤ P.fdn * P.NX := by positivity
    have hy : (0 : ℤ) ≤ P.fdn * P.NY := by positivity
    unfold Par.len
    push_cast
    obtain ⟨a, b⟩ := s
    cases a <;> cases b <;> simp only [Par.off, Bool.false_eq_true, if_true, if_false] at hp <;> push_cast at hp <;>
      nlinarith [hp.1, hp.2]
  have h0 : 0 ≤ P.idx s i j := le_trans (Int.natCast_nonneg _) hp.1
  unfold Par.phi
  rw [if_pos ⟨h0, hlen⟩]
  congr 1
  unfold Par.vAv
  rw [mul_sum]
  refine sum_congr rfl fun jp _ => ?_
  rw [mul_sum]
  refine sum_congr rfl fun ip _ => ?_
  have hb := (beyond_iff P s i j).1 h
  rw [sum_eq_single s, sum_eq_single j, sum_eq_single i, if_pos rfl]
  · unfold Par.part Par.rhoAv
    dsimp only
    rw [Real.log_sqrt (by positivity)]
    have hr : ((i : ℝ) * P.dX - ip * P.dX) * (i * P.dX - ip * P.dX) + ((j : ℝ) * P.dY - jp * P.dY) * (j * P.dY - jp * P.dY) =
        ((i - ip) * P.dX) ^ 2 + ((j - jp) * P.dY) ^ 2 := by ring
    rw [hr, div_div, mul_assoc (P.NZ : ℝ), mul_comm (P.NZ : ℝ)]
    ring
  · intro i' hi' hne
    rw [if_neg]
    intro he
    exact hne (idx_inj ((beyond_iff P s i' j).2 ⟨hb.1, hi'⟩) h he).2.1
  · intro hn; exact absurd hb.2 hn
  · intro j' hj' hne
    refine sum_eq_zero fun i' hi' => ?_
    rw [if_neg]
    intro he
    exact hne (idx_inj ((beyond_iff P s i' j').2 ⟨hj', hi'⟩) h he).2.2
  · intro hn; exact absurd hb.1 hn
  · intro s' _ hne
    refine sum_eq_zero fun j' hj' => sum_eq_zero fun i' hi' => ?_
    rw [if_neg]
    intro he
    exact hne (idx_inj ((beyond_iff P s' i' j').2 ⟨hj', hi'⟩) h he).1
  · intro hn; exact absurd (mem_univ _) hn

/-- The four blocks fill the array: no element is left without a point. -/
theorem array_filled (P : Par) {n : ℤ} (h0 : 0 ≤ n) (h1 : n < P.len) :
    ∃ s i j, Beyond P s i j ∧ P.idx s i j = n := by
  have hx : (0 : ℤ) ≤ P.fdn * P.NX := by positivity
  have hy : (0 : ℤ) ≤ P.fdn * P.NY := by positivity
  unfold Par.len at h1
  push_cast at h1
  -- a place of a block with `w` columns and `m` rows
  have key : ∀ {w m r : ℤ}, 0 ≤ w → 0 ≤ r → r < m * w → ∃ u v, 0 ≤ u ∧ u < w ∧ 0 ≤ v ∧ v < m ∧ v * w + u = r := by
    intro w m r hw hr hlt
    have hw0 : 0 < w := by
      rcases hw.lt_or_eq with h | h
      · exact h
      · subst h; simp at hlt; omega
    refine ⟨r % w, r / w, Int.emod_nonneg _ hw0.ne', Int.emod_lt_of_pos _ hw0, Int.ediv_nonneg hr hw0.le,
      Int.ediv_lt_of_lt_mul hw0 hlt, ?_⟩
    have := Int.ediv_mul_add_emod r w
    linarith
  by_cases c1 : n < P.fdn * P.NY
  · obtain ⟨u, v, a, b, c, d, e⟩ := key (w := P.fdn) (m := P.NY) (r := n) (by positivity) h0 (by linarith)
    refine ⟨(false, false), u - P.fdn, v, ⟨by omega, by omega, c, d⟩, ?_⟩
    obtain ⟨s1, s2, s3⟩ := shape P (false, false)
    unfold Par.idx; rw [s1, s2, s3]; simp [Par.off]; linarith
  by_cases c2 : n < 2 * (P.fdn * P.NY)
  · obtain ⟨u, v, a, b, c, d, e⟩ := key (w := P.fdn) (m := P.NY) (r := n - P.fdn * P.NY) (by positivity) (by linarith) (by linarith)
    refine ⟨(false, true), u + P.NX, v, ⟨by omega, by omega, c, d⟩, ?_⟩
    obtain ⟨s1, s2, s3⟩ := shape P (false, true)
    unfold Par.idx; rw [s1, s2, s3]; simp [Par.off]; linarith
  by_cases c3 : n < 2 * (P.fdn * P.NY) + P.fdn * P.NX
  · obtain ⟨u, v, a, b, c, d, e⟩ := key (w := P.NX) (m := P.fdn) (r := n - 2 * (P.fdn * P.NY)) (by positivity) (by linarith) (by linarith)
    refine ⟨(true, false), u, v - P.fdn, ⟨by omega, by omega, a, b⟩, ?_⟩
    obtain ⟨s1, s2, s3⟩ := shape P (true, false)
    unfold Par.idx; rw [s1, s2, s3]; simp [Par.off]; linarith
  · obtain ⟨u, v, a, b, c, d, e⟩ := key (w := P.NX) (m := P.fdn) (r := n - 2 * (P.fdn * P.NY) - P.fdn * P.NX) (by positivity) (by linarith) (by linarith)
    refine ⟨(true, true), u, v + P.NY, ⟨by omega, by omega, a, b⟩, ?_⟩
    obtain ⟨s1, s2, s3⟩ := shape P (true, true)
    unfold Par.idx; rw [s1, s2, s3]; simp [Par.off]; linarith

/-- The unit of length is immaterial for a neutral wire: with all distances multiplied by `t`, the
potential is the same. -/
theorem wire_unit (P : Par) {t : ℝ} (ht : 0 < t) (hX : P.dX ≠ 0) (hY : P.dY ≠ 0) {s : Side} {i j : ℤ}
    (h : Beyond P s i j)
    (hq : ∑ jp ∈ range P.NY, ∑ ip ∈ range P.NX, ∑ k ∈ range P.NZ, P.f ip jp k = 0) :
    P.phi s i j = some (-2 * ∑ jp ∈ range P.NY, ∑ ip ∈ range P.NX,
      ((∑ k ∈ range P.NZ, P.f ip jp k) / (4 * Real.pi) / P.NZ * (P.dX * P.dY)) *
        Real.log (t * √(((i - ip) * P.dX) ^ 2 + ((j - jp) * P.dY) ^ 2))) := by
  have hne : ∀ ip < P.NX, ∀ jp < P.NY, √(((i - ip : ℝ) * P.dX) ^ 2 + ((j - jp : ℝ) * P.dY) ^ 2) ≠ 0 := by
    intro ip hi jp hj
    have hij : (i : ℤ) ≠ ip ∨ (j : ℤ) ≠ jp := by
      obtain ⟨a, b⟩ := s
      cases a <;> cases b <;> simp only [Beyond] at h <;> omega
    refine (Real.sqrt_pos.2 ?_).ne'
    rcases hij with hi | hj
    · have : (i - ip : ℝ) ≠ 0 := sub_ne_zero.2 (by exact_mod_cast hi)
      have := mul_ne_zero this hX
      positivity
    · have : (j - jp : ℝ) ≠ 0 := sub_ne_zero.2 (by exact_mod_cast hj)
      have := mul_ne_zero this hY
      positivity
  have hz : ∑ jp ∈ range P.NY, ∑ ip ∈ range P.NX,
      (∑ k ∈ range P.NZ, P.f ip jp k) / (4 * Real.pi) / P.NZ * (P.dX * P.dY) * Real.log t = 0 := by
    simp only [← sum_mul, ← sum_div]
    rw [hq]; simp
  rw [wire_potential P h]
  congr 2
  rw [← sub_eq_zero, ← neg_eq_zero, neg_sub, ← sum_sub_distrib, ← hz]
  refine sum_congr rfl fun jp hj => ?_
  rw [← sum_sub_distrib]
  refine sum_congr rfl fun ip hi => ?_
  rw [Real.log_mul ht.ne' (hne ip (mem_range.1 hi) jp (mem_range.1 hj))]
  ring

/-- What a process reads for the points of its part of the grid: the neighbour `p` layers beyond a side
lies in the layers of the side, whatever the other coordinate. -/
theorem reads_inside (P : Par) {x y p : ℤ} (hx : 0 ≤ x ∧ x < P.NX) (hy : 0 ≤ y ∧ y < P.NY) (hp : 1 ≤ p ∧ p ≤ P.fdn) :
    (x - p < 0 → Beyond P (false, false) (x - p) y) ∧ ((P.NX : ℤ) ≤ x + p → Beyond P (false, true) (x + p) y) ∧
    (y - p < 0 → Beyond P (true, false) x (y - p)) ∧ ((P.NY : ℤ) ≤ y + p → Beyond P (true, true) x (y + p)) := by
  simp only [Beyond]
  omega

/-- A wire of 5 by 7 lines, order 4: the point above the last line in Y. -/
example : Beyond ⟨5, 7, 4, 1, 1, 2, fun i j _ => if i = 2 ∧ j = 3 then 1 else 0⟩ (true, true) 4 8 := by
  simp [Beyond]

/-- A neutral wire and an outer point. -/
example : (∑ jp ∈ range 2, ∑ _ip ∈ range 1, ∑ _k ∈ range 3, (if jp = 0 then (1 : ℝ) else -1)) = 0 := by
  norm_num [sum_range_succ]

end Sparc.Wire

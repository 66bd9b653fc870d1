import Verif.Band.Model
import Mathlib.Tactic.FieldSimp
import Mathlib.Tactic.FinCases

/-! # C101, C102: band structures -/

namespace Sparc.Band
open Sparc.Cube (loop)
open Finset

theorem loop_from {σ : Type} (f : ℕ → σ → Option σ) (P : ℕ → σ → Prop) :
    ∀ n a s, (∀ k s, a ≤ k → k < a + n → P k s → ∃ s', f k s = some s' ∧ P (k + 1) s') → P a s →
      ∃ s', loop f a n s = some s' ∧ P (a + n) s' := by
  intro n
  induction n with
  | zero => intro a s _ h; exact ⟨s, rfl, h⟩
  | succ n ih =>
    intro a s hs h
    obtain ⟨s1, h1, h2⟩ := hs a s le_rfl (by omega) h
    obtain ⟨s2, h3, h4⟩ := ih (a + 1) s1 (fun k s hk hk' => hs k s (by omega) (by omega)) h2
    refine ⟨s2, ?_, ?_⟩
    · rw [loop, h1]; exact h3
    · rw [show a + (n + 1) = a + 1 + n by ring]; exact h4

theorem loop_some {σ : Type} (f : ℕ → σ → Option σ) :
    ∀ n a s s', loop f a n s = some s' → ∀ k, a ≤ k → k < a + n → ∃ s1 s2, f k s1 = some s2 := by
  intro n
  induction n with
  | zero => intro a s s' _ k h1 h2; omega
  | succ n ih =>
    intro a s s' h k h1 h2
    rw [loop, Option.bind_eq_some_iff] at h
    obtain ⟨t, ht, h⟩ := h
    by_cases e : k = a
    · subst e; exact ⟨s, t, ht⟩
    · exact ih (a + 1) t s' h k (by omega) (by omega)

theorem put_some (C : Cell) (nk i : ℕ) (r : V3) (A : Arr) (h : i < nk ∧ i < 512) :
    ∃ A', put C nk i r A = some A' ∧ A'.k i = some (kvec C r) ∧ A'.inpt i = some r ∧ A'.wt i = some 1 ∧
      ∀ p, p ≠ i → A'.k p = A.k p ∧ A'.inpt p = A.inpt p ∧ A'.wt p = A.wt p := by
  refine ⟨_, if_pos h, by simp, by simp, by simp, fun p hp => ?_⟩
  simp [Function.update_of_ne hp]

/-- The point `t` of the line from `a` to `b` in `n` points. -/
noncomputable def onLine (a b : V3) (n t : ℕ) : V3 := fun c => a c + (t : ℝ) / ((n : ℝ) - 1) * (b c - a c)

theorem line_spec (C : Cell) (nk kppl : ℕ) (kred : ℕ → V3) (i : ℕ) (A : Arr) (hk : 2 ≤ kppl)
    (h : (i + 1) * kppl ≤ nk) (h' : (i + 1) * kppl ≤ 512) :
    ∃ A', line C nk kppl kred i A = some A' ∧
      (∀ t, t < kppl → A'.k (i * kppl + t) = some (kvec C (onLine (kred (2 * i)) (kred (2 * i + 1)) kppl t)) ∧
        A'.inpt (i * kppl + t) = some (onLine (kred (2 * i)) (kred (2 * i + 1)) kppl t) ∧
        A'.wt (i * kppl + t) = some 1) ∧
      ∀ p, p < i * kppl → A'.k p = A.k p ∧ A'.inpt p = A.inpt p ∧ A'.wt p = A.wt p := by
  have e1 : (i + 1) * kppl = i * kppl + kppl := by ring
  have hk0 : (kppl : ℝ) - 1 ≠ 0 := by
    have : (2 : ℝ) ≤ kppl := by exact_mod_cast hk
    intro h0; linarith
  obtain ⟨A1, a1, a2, a3, a4, a5⟩ := put_some C nk (i * kppl) (kred (i * 2)) A ⟨by omega, by omega⟩
  obtain ⟨A2, b1, b2, b3, b4, b5⟩ := put_some C nk ((i + 1) * kppl - 1) (kred (i * 2 + 1)) A1 ⟨by omega, by omega⟩
  have f0 : onLine (kred (2 * i)) (kred (2 * i + 1)) kppl 0 = kred (i * 2) := by
    funext c; simp [onLine, mul_comm]
  have f1 : onLine (kred (2 * i)) (kred (2 * i + 1)) kppl (kppl - 1) = kred (i * 2 + 1) := by
    funext c
    simp only [onLine]
    rw [Nat.cast_sub (by omega), Nat.cast_one, div_self hk0, mul_comm 2 i]
    ring
  have fb : ∀ t, onLine (kred (2 * i)) (kred (2 * i + 1)) kppl t =
      between (kred (i * 2)) (kred (i * 2 + 1)) kppl t := by
    intro t; funext c
    simp only [onLine, between, mul_comm 2 i]
    ring
  obtain ⟨A3, c1, c2, c3, c4⟩ := loop_from
    (fun j => put C nk j (between (kred (i * 2)) (kred (i * 2 + 1)) kppl (j - i * kppl)))
    (fun j B => (∀ t, t < j - i * kppl →
        B.k (i * kppl + t) = some (kvec C (onLine (kred (2 * i)) (kred (2 * i + 1)) kppl t)) ∧
        B.inpt (i * kppl + t) = some (onLine (kred (2 * i)) (kred (2 * i + 1)) kppl t) ∧
        B.wt (i * kppl + t) = some 1) ∧
      (B.k ((i + 1) * kppl - 1) = some (kvec C (kred (i * 2 + 1))) ∧ B.inpt ((i + 1) * kppl - 1) = some (kred (i * 2 + 1)) ∧
        B.wt ((i + 1) * kppl - 1) = some 1) ∧
      ∀ p, p < i * kppl → B.k p = A.k p ∧ B.inpt p = A.inpt p ∧ B.wt p = A.wt p)
    ((i + 1) * kppl - 1 - (i * kppl + 1)) (i * kppl + 1) A2
    (by
      rintro j B hj hj' ⟨d1, d2, d3⟩
      obtain ⟨B', g1, g2, g3, g4, g5⟩ := put_some C nk j
        (between (kred (i * 2)) (kred (i * 2 + 1)) kppl (j - i * kppl)) B ⟨by omega, by omega⟩
      refine ⟨B', g1, ?_, ?_, ?_⟩
      · intro t ht
        by_cases e : i * kppl + t = j
        · have : t = j - i * kppl := by omega
          rw [e, fb, this]; exact ⟨g2, g3, g4⟩
        · rw [(g5 _ e).1, (g5 _ e).2.1, (g5 _ e).2.2]
          exact d1 t (by omega)
      · have : (i + 1) * kppl - 1 ≠ j := by omega
        rw [(g5 _ this).1, (g5 _ this).2.1, (g5 _ this).2.2]; exact d2
      · intro p hp
        have : p ≠ j := by omega
        rw [(g5 _ this).1, (g5 _ this).2.1, (g5 _ this).2.2]; exact d3 p hp)
    ⟨by
      intro t ht
      have : t = 0 := by omega
      subst this
      have ne : i * kppl + 0 ≠ (i + 1) * kppl - 1 := by omega
      rw [(b5 _ ne).1, (b5 _ ne).2.1, (b5 _ ne).2.2, f0, Nat.add_zero]
      exact ⟨a2, a3, a4⟩, ⟨b2, b3, b4⟩, by
      intro p hp
      have n1 : p ≠ i * kppl := by omega
      have n2 : p ≠ (i + 1) * kppl - 1 := by omega
      rw [(b5 _ n2).1, (b5 _ n2).2.1, (b5 _ n2).2.2]; exact a5 _ n1⟩
  refine ⟨A3, ?_, ?_, c4⟩
  · simp only [line, a1, Option.bind_some, b1]; exact c1
  · intro t ht
    by_cases e : t = kppl - 1
    · have e2 : i * kppl + t = (i + 1) * kppl - 1 := by omega
      rw [e2, e, f1]; exact c3
    · exact c2 t (by omega)

/-- The whole path. -/
theorem path_spec (C : Cell) (nline kppl : ℕ) (kred : ℕ → V3) (A : Arr) (hk : 2 ≤ kppl)
    (h : kppl * nline ≤ 512) :
    ∃ A', bandPoints C nline kppl kred A = some A' ∧
      ∀ i t, i < nline → t < kppl →
        A'.k (i * kppl + t) = some (kvec C (onLine (kred (2 * i)) (kred (2 * i + 1)) kppl t)) ∧
        A'.inpt (i * kppl + t) = some (onLine (kred (2 * i)) (kred (2 * i + 1)) kppl t) ∧
        A'.wt (i * kppl + t) = some 1 := by
  have h2 : nline * 2 ≤ kppl * nline := by rw [mul_comm kppl]; exact Nat.mul_le_mul_left _ hk
  obtain ⟨A1, a1, -⟩ := loop_from (fun i => put C (kppl * nline) i (kred i)) (fun _ _ => True) (nline * 2) 0 A
    (by
      intro i B _ hi _
      obtain ⟨B', g, -⟩ := put_some C (kppl * nline) i (kred i) B ⟨by omega, by omega⟩
      exact ⟨B', g, trivial⟩) trivial
  obtain ⟨A2, b1, b2⟩ := loop_from (fun i => line C (kppl * nline) kppl kred i)
    (fun i B => ∀ i' t, i' < i → t < kppl →
        B.k (i' * kppl + t) = some (kvec C (onLine (kred (2 * i')) (kred (2 * i' + 1)) kppl t)) ∧
        B.inpt (i' * kppl + t) = some (onLine (kred (2 * i')) (kred (2 * i' + 1)) kppl t) ∧
        B.wt (i' * kppl + t) = some 1) nline 0 A1
    (by
      intro i B _ hi hB
      have hle : (i + 1) * kppl ≤ kppl * nline := by rw [mul_comm kppl]; exact Nat.mul_le_mul_right _ (by omega)
      obtain ⟨B', g1, g2, g3⟩ := line_spec C (kppl * nline) kppl kred i B hk hle (hle.trans h)
      refine ⟨B', g1, fun i' t hi' ht => ?_⟩
      by_cases e : i' = i
      · subst e; exact g2 t ht
      · have : i' * kppl + t < i * kppl := by
          calc i' * kppl + t < i' * kppl + kppl := by omega
            _ = (i' + 1) * kppl := by ring
            _ ≤ i * kppl := Nat.mul_le_mul_right _ (by omega)
        rw [(g3 _ this).1, (g3 _ this).2.1, (g3 _ this).2.2]
        exact hB i' t (by omega) ht) (fun _ _ h => absurd h (by omega))
  refine ⟨A2, ?_, fun i t hi ht => b2 i t (by omega) ht⟩
  simp only [bandPoints, a1, Option.bind_some, b1]

theorem dual (C : Cell) (hV : volume C ≠ 0) (r : V3) (d : Fin 3) :
    ∑ c, kvec C r c * (C.scale d * C.lat d c) = 2 * Real.pi * r d := by
  have hv : volume C = cross (vecs C 1) (vecs C 2) 0 * vecs C 0 0 + cross (vecs C 1) (vecs C 2) 1 * vecs C 0 1 +
      cross (vecs C 1) (vecs C 2) 2 * vecs C 0 2 := rfl
  have hw : ∀ c, C.scale d * C.lat d c = vecs C d c := fun c => by unfold vecs; ring
  simp only [hw, Fin.sum_univ_three, kvec, recip, Matrix.cons_val_zero, Matrix.cons_val_one, Matrix.cons_val]
  set x := vecs C 0 with hx
  set y := vecs C 1 with hy
  set z := vecs C 2 with hz
  simp only [cross, Matrix.cons_val_zero, Matrix.cons_val_one, Matrix.cons_val] at hv ⊢
  field_simp
  rw [hv]
  fin_cases d
  · simp only [Fin.zero_eta, ← hx]; ring
  · simp only [Fin.mk_one, ← hy]; ring
  · have : vecs C ⟨2, by decide⟩ = z := rfl
    simp only [Fin.reduceFinMk, ← hz]; ring

/-- Inner product. -/
def dot (a b : V3) : ℝ := ∑ c, a c * b c

/-- **C101 (points of the path).** With at least two points per line and at most 512 in all, point `t` of line `i`
is recorded at `i * kppl + t` with weight 1; it divides the line from its first to its last point evenly, and its vector
has with the vectors of the cell (`LATVEC` rows times `LATVEC_SCALE`) the inner products `2π` times the reduced
coordinates. -/
theorem path_points (lat : Fin 3 → V3) (scale : V3) (nline kppl : ℕ) (kred : ℕ → V3) (A : Arr)
    (hk : 2 ≤ kppl) (h : kppl * nline ≤ 512)
    (hV : dot (fun c => scale 0 * lat 0 c) (cross (fun c => scale 1 * lat 1 c) (fun c => scale 2 * lat 2 c)) ≠ 0) :
    ∃ A', bandPoints (.scaled lat scale) nline kppl kred A = some A' ∧
      ∀ i t, i < nline → t < kppl → ∃ k r : V3,
        A'.k (i * kppl + t) = some k ∧ A'.inpt (i * kppl + t) = some r ∧ A'.wt (i * kppl + t) = some 1 ∧
        (∀ c, r c = kred (2 * i) c + (t : ℝ) / ((kppl : ℝ) - 1) * (kred (2 * i + 1) c - kred (2 * i) c)) ∧
        ∀ d, dot k (fun c => scale d * lat d c) = 2 * Real.pi * r d := by
  obtain ⟨A', h1, h2⟩ := path_spec (.scaled lat scale) nline kppl kred A hk h
  refine ⟨A', h1, fun i t hi ht => ?_⟩
  obtain ⟨a, b, c⟩ := h2 i t hi ht
  refine ⟨_, _, a, b, c, fun _ => rfl, fun d => ?_⟩
  refine dual (.scaled lat scale) ?_ _ d
  have e : volume (.scaled lat scale) =
      dot (fun c => scale 0 * lat 0 c) (cross (fun c => scale 1 * lat 1 c) (fun c => scale 2 * lat 2 c)) := by
    simp only [volume, dot, Fin.sum_univ_three, vecs, cross, Cell.lat, Cell.scale, Matrix.cons_val_zero,
      Matrix.cons_val_one, Matrix.cons_val]
    ring
  rw [e]; exact hV

/-- **C101 (phase), partial: cells given by `LATVEC_SCALE` with vectors along the axes.**  The phase by which a
wave function changes across the cell in direction `d` (lapVecRoutinesKpt.c:370-372: `k` times `range`) is `2π` times the reduced
coordinate. -/
theorem path_phase_partial (lat : Fin 3 → V3) (scale : V3) (nline kppl : ℕ) (kred : ℕ → V3) (A : Arr)
    (hk : 2 ≤ kppl) (h : kppl * nline ≤ 512) (hs : ∀ d, 0 < scale d) (hd : ∀ d, 0 < lat d d)
    (ho : ∀ d c, d ≠ c → lat d c = 0) :
    ∃ A', bandPoints (.scaled lat scale) nline kppl kred A = some A' ∧
      ∀ i t, i < nline → t < kppl → ∃ k : V3, A'.k (i * kppl + t) = some k ∧
        ∀ d, k d * (Cell.scaled lat scale).range d = 2 * Real.pi *
          (kred (2 * i) d + (t : ℝ) / ((kppl : ℝ) - 1) * (kred (2 * i + 1) d - kred (2 * i) d)) := by
  have o01 := ho 0 1 (by decide)
  have o02 := ho 0 2 (by decide)
  have o10 := ho 1 0 (by decide)
  have o12 := ho 1 2 (by decide)
  have o20 := ho 2 0 (by decide)
  have o21 := ho 2 1 (by decide)
  have hV : dot (fun c => scale 0 * lat 0 c) (cross (fun c => scale 1 * lat 1 c) (fun c => scale 2 * lat 2 c)) ≠ 0 := by
    have e : dot (fun c => scale 0 * lat 0 c) (cross (fun c => scale 1 * lat 1 c) (fun c => scale 2 * lat 2 c)) =
        (scale 0 * lat 0 0) * (scale 1 * lat 1 1) * (scale 2 * lat 2 2) := by
      simp only [dot, Fin.sum_univ_three, cross, Matrix.cons_val_zero, Matrix.cons_val_one, Matrix.cons_val,
        o01, o02, o10, o12, o20, o21]
      ring
    rw [e]
    have := mul_pos (mul_pos (mul_pos (hs 0) (hd 0)) (mul_pos (hs 1) (hd 1))) (mul_pos (hs 2) (hd 2))
    exact ne_of_gt this
  obtain ⟨A', h1, h2⟩ := path_points lat scale nline kppl kred A hk h hV
  refine ⟨A', h1, fun i t hi ht => ?_⟩
  obtain ⟨k, r, a, -, -, hr, hdot⟩ := h2 i t hi ht
  refine ⟨k, a, fun d => ?_⟩
  rw [← hr d, ← hdot d]
  have hrange : ∀ e, (Cell.scaled lat scale).range e = scale e * lat e e := by
    intro e
    have : lat e 0 * lat e 0 + lat e 1 * lat e 1 + lat e 2 * lat e 2 = lat e e ^ 2 := by
      fin_cases e
      · simp [o01, o02, sq]
      · simp [o10, o12, sq]
      · simp [o20, o21, sq]
    simp only [Cell.range, this]
    rw [Real.sqrt_sq (hd e).le]
  rw [hrange]
  fin_cases d
  · simp [dot, Fin.sum_univ_three, o01, o02]
  · simp [dot, Fin.sum_univ_three, o10, o12]
  · simp [dot, Fin.sum_univ_three, o20, o21]

/-- Unit vectors. -/
def unit : Fin 3 → V3 := fun a b => if a = b then 1 else 0

example : ∃ (lat : Fin 3 → V3) (scale : V3), (∀ d, 0 < scale d) ∧ (∀ d, 0 < lat d d) ∧ ∀ d c, d ≠ c → lat d c = 0 :=
  ⟨unit, ![5, 6, 7], fun d => by fin_cases d <;> norm_num, fun d => by simp [unit], fun d c h => by simp [unit, h]⟩

example : dot (fun c => (![5, 6, 7] : V3) 0 * unit 0 c) (cross (fun c => (![5, 6, 7] : V3) 1 * unit 1 c)
    (fun c => (![5, 6, 7] : V3) 2 * unit 2 c)) ≠ 0 := by
  have e : (2 : Fin 3) ≠ 0 := by decide
  have e' : (2 : Fin 3) ≠ 1 := by decide
  simp [dot, Fin.sum_univ_three, cross, unit]

/-- A path of one line from the centre to `r`. -/
def oneLine (r : V3) : ℕ → V3 := fun i => if i = 1 then r else 0

theorem end_point (C : Cell) (r : V3) (A : Arr) :
    ∃ A', bandPoints C 1 2 (oneLine r) A = some A' ∧ A'.k 1 = some (kvec C r) ∧ A'.inpt 1 = some r := by
  obtain ⟨A', h1, h2⟩ := path_spec C 1 2 (oneLine r) A le_rfl (by norm_num)
  obtain ⟨a, b, -⟩ := h2 0 1 (by norm_num) (by norm_num)
  have e : onLine (oneLine r (2 * 0)) (oneLine r (2 * 0 + 1)) 2 1 = r := by
    funext c; simp [onLine, oneLine]; norm_num
  rw [e] at a b
  exact ⟨A', h1, by simpa using a, by simpa using b⟩

/-- The code violates the claim: with the cell given by `CELL` the factors of `LATVEC_SCALE` keep their default -1,
and the vector of a point does not depend on the size of the cell.  In a cube of edge 6 the point (1/2, 0, 0) at the border
of the zone gets the phase of the centre. -/
theorem cell_phase_wrong (A : Arr) :
    ∃ A' k, bandPoints (.cell unit fun _ => 6) 1 2 (oneLine ![1 / 2, 0, 0]) A = some A' ∧ A'.k 1 = some k ∧
      A'.inpt 1 = some ![1 / 2, 0, 0] ∧
      Real.cos (k 0 * (Cell.cell unit fun _ => 6).range 0) = 1 ∧ Real.cos (2 * Real.pi * (1 / 2)) = -1 := by
  obtain ⟨A', h1, h2, h3⟩ := end_point (.cell unit fun _ => 6) ![1 / 2, 0, 0] A
  refine ⟨A', _, h1, h2, h3, ?_, ?_⟩
  · have e : kvec (.cell unit fun _ => 6) ![1 / 2, 0, 0] 0 * (Cell.cell unit fun _ => 6).range 0 = -(3 * (2 * Real.pi)) := by
      have a : (2 : Fin 3) ≠ 0 := by decide
      have b : (0 : Fin 3) ≠ 2 := by decide
      have c : (1 : Fin 3) ≠ 2 := by decide
      have d : (2 : Fin 3) ≠ 1 := by decide
      simp [kvec, recip, volume, vecs, cross, Cell.lat, Cell.scale, Cell.range, unit]
      ring
    rw [e, Real.cos_neg]
    have := Real.cos_nat_mul_two_pi 3
    push_cast at this
    exact this
  · rw [show 2 * Real.pi * (1 / 2) = Real.pi by ring]; exact Real.cos_pi

/-- An oblique cell with unit vectors as rows. -/
noncomputable def oblique : Fin 3 → V3 := ![![1, 0, 0], ![3 / 5, 4 / 5, 0], ![0, 0, 1]]

/-- The code violates the claim: `k1`, `k2`, `k3` are Cartesian components, but are used as components along the vectors
of the cell.  In an oblique cell the point (0, 1/2, 0) gets the phase `5π/4` in the second direction. -/
theorem oblique_phase_wrong (A : Arr) :
    ∃ A' k, bandPoints (.scaled oblique fun _ => 10) 1 2 (oneLine ![0, 1 / 2, 0]) A = some A' ∧ A'.k 1 = some k ∧
      A'.inpt 1 = some ![0, 1 / 2, 0] ∧
      Real.cos (k 1 * (Cell.scaled oblique fun _ => 10).range 1) ≠ Real.cos (2 * Real.pi * (1 / 2)) := by
  obtain ⟨A', h1, h2, h3⟩ := end_point (.scaled oblique fun _ => 10) ![0, 1 / 2, 0] A
  refine ⟨A', _, h1, h2, h3, ?_⟩
  have hr : (Cell.scaled oblique fun _ => 10).range 1 = 10 := by
    have : (3 / 5 : ℝ) * (3 / 5) + 4 / 5 * (4 / 5) + 0 * 0 = 1 := by norm_num
    simp only [Cell.range, oblique, Matrix.cons_val_zero, Matrix.cons_val_one, Matrix.cons_val]
    rw [this, Real.sqrt_one]; norm_num
  have hkk : kvec (.scaled oblique fun _ => 10) ![0, 1 / 2, 0] 1 = Real.pi / 8 := by
    simp [kvec, recip, volume, vecs, cross, Cell.lat, Cell.scale, oblique]
    ring
  rw [hr, hkk, show 2 * Real.pi * (1 / 2) = Real.pi by ring, Real.cos_pi,
    show Real.pi / 8 * 10 = Real.pi / 4 + Real.pi by ring, Real.cos_add_pi, Real.cos_pi_div_four]
  intro h
  have h2 : √2 = 2 := by linarith
  have := Real.sq_sqrt (show (0 : ℝ) ≤ 2 by norm_num)
  rw [h2] at this
  norm_num at this

/-- The code violates the claim: with one point per line, or more than 512 points in all, it writes beyond its
arrays. -/
theorem path_overrun (C : Cell) (nline kppl : ℕ) (kred : ℕ → V3) (A : Arr) (hn : 0 < nline)
    (h : kppl ≤ 1 ∨ 512 < kppl * nline) : bandPoints C nline kppl kred A = none := by
  by_contra hc
  obtain ⟨A', hA⟩ := Option.ne_none_iff_exists'.1 hc
  simp only [bandPoints, Option.bind_eq_some_iff] at hA
  obtain ⟨A1, h1, h2⟩ := hA
  have key : ∀ i r B B', put C (kppl * nline) i r B = some B' → i < kppl * nline ∧ i < 512 := by
    intro i r B B' hp
    by_contra hcon
    unfold put at hp
    rw [if_neg hcon] at hp
    cases hp
  rcases h with h | h
  · obtain ⟨s1, s2, hs⟩ := loop_some _ _ _ _ _ h1 (nline * 2 - 1) (by omega) (by omega)
    have := (key _ _ _ _ hs).1
    have h3 : kppl * nline ≤ 1 * nline := Nat.mul_le_mul_right _ h
    omega
  · obtain ⟨s1, s2, hs⟩ := loop_some _ _ _ _ _ h2 (nline - 1) (by omega) (by omega)
    simp only [line, Option.bind_eq_some_iff] at hs
    obtain ⟨B1, ⟨B0, -, hB⟩, -⟩ := hs
    have := (key _ _ _ _ hB).2
    rw [show nline - 1 + 1 = nline by omega, mul_comm nline] at this
    omega

example : 0 < 60 ∧ (10 ≤ 1 ∨ 512 < 10 * 60) := by norm_num

/-! ## C102: the file of eigenvalues -/

theorem displs_sum (cnt : ℕ → ℕ) (i : ℕ) : displs cnt i = ∑ j ∈ range i, cnt j := by
  induction i with
  | zero => rfl
  | succ i ih => rw [displs, ih, sum_range_succ]

theorem displs_mono (cnt : ℕ → ℕ) {i j : ℕ} (h : i ≤ j) : displs cnt i ≤ displs cnt j := by
  induction j with
  | zero => rw [Nat.le_zero.1 h]
  | succ j ih =>
    rcases Nat.lt_or_eq_of_le h with h | h
    · exact (ih (by omega)).trans (by rw [displs]; omega)
    · rw [h]

theorem gatherv_at {α : Type} (cnt : ℕ → ℕ) (buf : ℕ → ℕ → α) (junk : ℕ → α) (n i t : ℕ) (hi : i < n)
    (ht : t < cnt i) : gatherv cnt buf junk n (displs cnt i + t) = buf i t := by
  induction n with
  | zero => omega
  | succ n ih =>
    rw [gatherv]
    by_cases e : i = n
    · subst e
      rw [if_pos ⟨by omega, by omega⟩, Nat.add_sub_cancel_left]
    · have h1 := displs_mono cnt (show i + 1 ≤ n by omega)
      rw [displs] at h1
      rw [if_neg (by omega)]
      exact ih (by omega)

theorem overSpin_at (E : Eig) (x : ℕ → ℕ → ℕ → ℝ) (junk : ℕ → ℝ) (g s q k n : ℕ) (hs : s < E.npspin)
    (hq : q < E.nsl) (hk : k < E.Nk g) (hn : n < E.Ns) :
    overSpin E x junk g (((s * E.nsl + q) * E.Nk g + k) * E.Ns + n) = x s g ((q * E.Nk g + k) * E.Ns + n) := by
  unfold overSpin
  have hlt : (q * E.Nk g + k) * E.Ns + n < E.nsl * E.Nk g * E.Ns := by
    have h1 : q * E.Nk g + k + 1 ≤ E.nsl * E.Nk g := by
      calc q * E.Nk g + k + 1 ≤ q * E.Nk g + E.Nk g := by omega
        _ = (q + 1) * E.Nk g := by ring
        _ ≤ E.nsl * E.Nk g := Nat.mul_le_mul_right _ hq
    calc (q * E.Nk g + k) * E.Ns + n < (q * E.Nk g + k) * E.Ns + E.Ns := by omega
      _ = (q * E.Nk g + k + 1) * E.Ns := by ring
      _ ≤ _ := Nat.mul_le_mul_right _ h1
  by_cases h : 1 < E.npspin
  · rw [if_pos h]
    have := gatherv_at (fun _ => E.nsl * E.Nk g * E.Ns) (fun s => x s g) junk E.npspin s _ hs hlt
    rw [← this]
    congr 1
    rw [displs_sum, sum_const, card_range, smul_eq_mul]
    ring
  · rw [if_neg h]
    have : s = 0 := by omega
    subst this
    simp

/-- Number of k-points in the groups before `g`. -/
def before (E : Eig) (g : ℕ) : ℕ := ∑ g' ∈ range g, E.Nk g'

theorem all_at (E : Eig) (x : ℕ → ℕ → ℕ → ℝ) (junk : ℕ → ℝ) (hsp : E.Nspin = E.npspin * E.nsl) (K s q k n : ℕ)
    (hK : K < E.npkpt) (hs : s < E.npspin) (hq : q < E.nsl) (hk : k < E.Nk K) (hn : n < E.Ns) :
    all E x junk (displsAll E K + (((s * E.nsl + q) * E.Nk K + k) * E.Ns + n)) = x s K ((q * E.Nk K + k) * E.Ns + n) := by
  rw [← overSpin_at E x junk K s q k n hs hq hk hn]
  unfold all
  by_cases h : 1 < E.npkpt
  · rw [if_pos h]
    refine gatherv_at _ _ _ _ _ _ hK ?_
    have h1 : (s * E.nsl + q) + 1 ≤ E.Nspin := by
      rw [hsp]
      calc s * E.nsl + q + 1 ≤ s * E.nsl + E.nsl := by omega
        _ = (s + 1) * E.nsl := by ring
        _ ≤ _ := Nat.mul_le_mul_right _ hs
    have h2 : (s * E.nsl + q) * E.Nk K + k + 1 ≤ E.Nk K * E.Nspin := by
      calc (s * E.nsl + q) * E.Nk K + k + 1 ≤ (s * E.nsl + q) * E.Nk K + E.Nk K := by omega
        _ = E.Nk K * (s * E.nsl + q + 1) := by ring
        _ ≤ _ := Nat.mul_le_mul_left _ h1
    calc ((s * E.nsl + q) * E.Nk K + k) * E.Ns + n < ((s * E.nsl + q) * E.Nk K + k) * E.Ns + E.Ns := by omega
      _ = ((s * E.nsl + q) * E.Nk K + k + 1) * E.Ns := by ring
      _ ≤ _ := Nat.mul_le_mul_right _ h2
  · rw [if_neg h]
    have : K = 0 := by omega
    subst this
    simp [displsAll, displs]

theorem kpt_num (E : Eig) (K k : ℕ) : kptDispls E K / 3 + k + 1 = before E K + k + 1 := by
  rw [kptDispls, displs_sum, ← sum_mul, Nat.mul_div_cancel _ (by norm_num)]; rfl

/-- The distributed arrays hold `f` (by spin, k-point and state). -/
def Holds (E : Eig) (x : ℕ → ℕ → ℕ → ℝ) (f : ℕ → ℕ → ℕ → ℝ) : Prop :=
  ∀ s g q k n, s < E.npspin → g < E.npkpt → q < E.nsl → k < E.Nk g → n < E.Ns →
    x s g ((q * E.Nk g + k) * E.Ns + n) = f (s * E.nsl + q) (before E g + k) n

/-- **C102 (numbering).** The k-points are printed once each, numbered from 1 in their order. -/
theorem file_numbers (E : Eig) (junk : ℕ → ℝ) :
    (file E junk).map Entry.num = List.range' 1 (∑ g ∈ range E.npkpt, E.Nk g) := by
  have h : ∀ n, ((List.range n).flatMap fun K => (List.range (E.Nk K)).map fun k => entry E junk K k).map Entry.num =
      List.range' 1 (∑ g ∈ range n, E.Nk g) := by
    intro n
    induction n with
    | zero => rfl
    | succ n ih =>
      rw [List.range_succ, List.flatMap_append, List.map_append, ih, sum_range_succ, List.flatMap_singleton, ← List.range'_append_1]
      congr 1
      rw [List.map_map, List.range'_eq_map_range]
      refine List.map_congr_left fun k _ => ?_
      have : (entry E junk n k).num = kptDispls E n / 3 + k + 1 := rfl
      simp only [Function.comp, this]
      rw [kpt_num]
      unfold before
      ring
  exact h E.npkpt

/-- **C102 (contents).** However spins and k-points are divided among the processes, the entry of a k-point holds its
reduced coordinates, its weight, and its eigenvalues and occupations, spin up first. -/
theorem file_contents (E : Eig) (junk : ℕ → ℝ) (lam occ : ℕ → ℕ → ℕ → ℝ) (kp : ℕ → V3)
    (hsp : E.Nspin = E.npspin * E.nsl) (hN : E.Nspin = 1 ∨ E.Nspin = 2)
    (hl : Holds E E.lam lam) (ho : Holds E E.occ occ)
    (hkp : ∀ g k, g < E.npkpt → k < E.Nk g → E.kloc g k = kp (before E g + k))
    (K k : ℕ) (hK : K < E.npkpt) (hk : k < E.Nk K) :
    (entry E junk K k).num = before E K + k + 1 ∧
    (E.band = true → (entry E junk K k).kred = E.inpt (before E K + k)) ∧
    (E.band = false → E.BC ≠ 1 ∨ kp (before E K + k) = 0 →
      ∀ c, (entry E junk K k).kred c = kp (before E K + k) c * E.range c / (2 * Real.pi)) ∧
    (E.band = false → (entry E junk K k).wt = some (E.wts (before E K + k) / E.Nkpts)) ∧
    ∀ n, n < E.Ns → (entry E junk K k).row n =
      (List.range E.Nspin).map fun s => (lam s (before E K + k) n,
        2 / ((E.Nspin : ℝ) * E.Nspinor) * occ s (before E K + k) n) := by
  have hnum : (entry E junk K k).num = before E K + k + 1 := kpt_num E K k
  have hnum' : kptDispls E K / 3 + k + 1 - 1 = before E K + k := by rw [kpt_num]; omega
  have hpos : 0 < E.npspin ∧ 0 < E.nsl := by
    constructor
    · rcases Nat.eq_zero_or_pos E.npspin with h | h
      · rw [h, zero_mul] at hsp; omega
      · exact h
    · rcases Nat.eq_zero_or_pos E.nsl with h | h
      · rw [h, mul_zero] at hsp; omega
      · exact h
  have up : ∀ (x f : ℕ → ℕ → ℕ → ℝ), Holds E x f → ∀ n, n < E.Ns →
      all E x junk (displsAll E K + k * E.Ns + n) = f 0 (before E K + k) n := by
    intro x f hx n hn
    have a := all_at E x junk hsp K 0 0 k n hK hpos.1 hpos.2 hk hn
    rw [hx 0 K 0 k n hpos.1 hK hpos.2 hk hn] at a
    simpa [Nat.add_assoc] using a
  have dn : E.Nspin = 2 → ∀ (x f : ℕ → ℕ → ℕ → ℝ), Holds E x f → ∀ n, n < E.Ns →
      all E x junk (displsAll E K + (E.Nk K + k) * E.Ns + n) = f 1 (before E K + k) n := by
    intro h2 x f hx n hn
    rw [h2] at hsp
    have hd : E.npspin ∣ 2 := ⟨E.nsl, hsp⟩
    have hle := Nat.le_of_dvd (by norm_num) hd
    have hcases : E.npspin = 1 ∨ E.npspin = 2 := by omega
    rcases hcases with h | h
    · have hnl : E.nsl = 2 := by rw [h] at hsp; omega
      have a := all_at E x junk (by rw [h2]; exact hsp) K 0 1 k n hK (by omega) (by omega) hk hn
      rw [hx 0 K 1 k n (by omega) hK (by omega) hk hn] at a
      simpa [Nat.add_assoc] using a
    · have hnl : E.nsl = 1 := by rw [h] at hsp; omega
      have a := all_at E x junk (by rw [h2]; exact hsp) K 1 0 k n hK (by omega) (by omega) hk hn
      rw [hx 1 K 0 k n (by omega) hK (by omega) hk hn] at a
      simpa [Nat.add_assoc, hnl] using a
  refine ⟨hnum, ?_, ?_, ?_, ?_⟩
  · intro hb
    simp only [entry, hb, if_true, hnum']
  · intro hb hor c
    simp only [entry, hb, Bool.false_eq_true, if_false]
    have hc : (c : ℕ) < 3 := c.isLt
    have hs : ∀ g, sendbuf E g (3 * k + c) = E.kloc g k c * E.range c / (2 * Real.pi) := by
      intro g
      have a : (3 * k + (c : ℕ)) / 3 = k := by omega
      have b : (⟨(3 * k + (c : ℕ)) % 3, Nat.mod_lt _ (by decide)⟩ : Fin 3) = c := by
        apply Fin.ext; simp only; omega
      simp only [sendbuf, hb, Bool.false_eq_true, if_false, a, b]
    have e : kredAll E junk (kptDispls E K + 3 * k + c) = sendbuf E K (3 * k + c) := by
      unfold kredAll
      by_cases h1 : 1 < E.npkpt
      · rw [if_pos h1, Nat.add_assoc]
        exact gatherv_at _ _ _ _ _ _ hK (by omega)
      · have : K = 0 := by omega
        subst this
        rw [if_neg h1]
        by_cases hB : E.BC ≠ 1
        · rw [if_pos hB]; simp [kptDispls, displs]
        · rw [if_neg hB, hs, hkp 0 k hK hk, hor.resolve_left hB]; simp
    rw [e, hs, hkp K k hK hk]
  · intro hb
    simp only [entry, hb, Bool.false_eq_true, if_false, hnum']
  · intro n hn
    have u1 := up _ _ hl n hn
    have u2 := up _ _ ho n hn
    have hocc : (2 : ℝ) / E.Nspin / E.Nspinor = 2 / ((E.Nspin : ℝ) * E.Nspinor) := div_div _ _ _
    simp only [entry, u1, u2, hocc]
    rcases hN with h | h
    · have : ¬ (E.Nspin = 2) := by omega
      rw [if_neg this, h]
      simp [List.range_succ]
    · rw [if_pos h, dn h _ _ hl n hn, dn h _ _ ho n hn, h]
      simp [List.range_succ]

/-- Three k-points on two groups, two spins on two groups. -/
noncomputable def exEig : Eig where
  npspin := 2
  npkpt := 2
  Nspin := 2
  nsl := 1
  Nk g := if g = 0 then 2 else 1
  Ns := 4
  lam s g t := (s : ℝ) + 10 * (t % 4 : ℕ) + 100 * ((if g = 0 then 0 else 2) + t / 4 : ℕ)
  occ _ _ _ := 1
  kloc g k c := ((if g = 0 then 0 else 2) + k : ℕ)
  Nspinor := 1
  Nkpts := 5
  wts _ := 1
  range := ![5, 6, 7]
  BC := 2
  band := false
  inpt _ := 0

example : exEig.Nspin = exEig.npspin * exEig.nsl ∧
    Holds exEig exEig.lam (fun s m n => (s : ℝ) + 10 * n + 100 * m) := by
  refine ⟨rfl, ?_⟩
  intro s g q k n hs hg hq hk hn
  have hg : g < 2 := hg
  have hq : q < 1 := hq
  have hq0 : q = 0 := by omega
  have hn : n < 4 := hn
  subst hq0
  have a : ((0 * exEig.Nk g + k) * exEig.Ns + n) % 4 = n := by
    show ((0 * _ + k) * 4 + n) % 4 = n
    omega
  have b : ((0 * exEig.Nk g + k) * exEig.Ns + n) / 4 = k := by
    show ((0 * _ + k) * 4 + n) / 4 = k
    omega
  have c : before exEig g = if g = 0 then 0 else 2 := by
    have : g = 0 ∨ g = 1 := by omega
    rcases this with rfl | rfl
    · rfl
    · simp [before, exEig]
  show (s : ℝ) + 10 * (((0 * exEig.Nk g + k) * exEig.Ns + n) % 4 : ℕ) +
    100 * ((if g = 0 then 0 else 2) + ((0 * exEig.Nk g + k) * exEig.Ns + n) / 4 : ℕ) = _
  rw [a, b, c]
  have : exEig.nsl = 1 := rfl
  rw [this]
  norm_num

end Sparc.Band

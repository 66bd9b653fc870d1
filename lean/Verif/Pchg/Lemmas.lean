import Verif.Pchg.Model
import Verif.Lap.Props
import Verif.Infl.Props
import Verif.Coord.Props
import Verif.Tac

/-!
# Pseudocharge densities: lemmas

The geometry of the two kinds of cell, the arrays of one image, the effect of one image on the
grid functions.
-/

namespace Sparc.Pchg

open Loop Lap Finset

/-! ### Specification of the geometry -/

/-- Position of a node in lattice coordinates. -/
noncomputable def pt (G : Infl.Geo) (n : ℤ × ℤ × ℤ) : ℝ × ℝ × ℝ :=
  (n.1 * G.X.h, n.2.1 * G.Y.h, n.2.2 * G.Z.h)

/-- The cell of the calculation: the distance of two points given by their lattice coordinates,
and the finite-difference Laplacian, of an orthogonal cell or of an accepted oblique one. -/
inductive Cell (E : Env) (h : Fin 3 → ℝ) :
    (ℝ × ℝ × ℝ → ℝ × ℝ × ℝ → ℝ) → (Fun3 → Fun3) → Prop
  | orth (ht : E.typ = 0) (hC : E.C = coefs0 E.FDn (h 0) (h 1) (h 2)) :
      Cell E h (fun p q => Real.sqrt ((p.1 - q.1) ^ 2 + (p.2.1 - q.2.1) ^ 2 + (p.2.2 - q.2.2) ^ 2))
        (fun u i j k => DD E.FDn h 0 u i j k + DD E.FDn h 1 u i j k + DD E.FDn h 2 u i j k)
  | oblique (L : ℕ → ℝ) (Gm : Coord.Geom) (hL : Coord.transformMat L = some Gm)
      (h10 : 10 < Gm.cellTyp) (ht : E.typ = Gm.cellTyp) (hm : E.metric = Gm.metric)
      (hC : E.C = coefs Gm.lapc E.FDn (h 0) (h 1) (h 2)) :
      Cell E h (fun p q => Coord.euclid (Coord.position L p) (Coord.position L q))
        (lap E.FDn h (kept Gm))

/-! ### Translations -/

theorem applyD1_shift (n : ℕ) (w : ℕ → ℝ) (f : ℤ → ℝ) (a i : ℤ) :
    FD.applyD1 n w (fun s => f (s + a)) i = FD.applyD1 n w f (i + a) := by
  rw [applyD1_eq, applyD1_eq]
  unfold S1
  refine Finset.sum_congr rfl fun r _ => ?_
  beta_reduce
  rw [show i + ((r + 1 : ℕ) : ℤ) + a = i + a + ((r + 1 : ℕ) : ℤ) by ring,
    show i - ((r + 1 : ℕ) : ℤ) + a = i + a - ((r + 1 : ℕ) : ℤ) by ring]

theorem applyD2_shift (n : ℕ) (w : ℕ → ℝ) (f : ℤ → ℝ) (a i : ℤ) :
    FD.applyD2 n w (fun s => f (s + a)) i = FD.applyD2 n w f (i + a) := by
  rw [applyD2_eq, applyD2_eq]
  unfold S2
  congr 1
  refine Finset.sum_congr rfl fun r _ => ?_
  beta_reduce
  rw [show i + ((r + 1 : ℕ) : ℤ) + a = i + a + ((r + 1 : ℕ) : ℤ) by ring,
    show i - ((r + 1 : ℕ) : ℤ) + a = i + a - ((r + 1 : ℕ) : ℤ) by ring]

/-- A function moved by `(a, b, c)`. -/
def move (a b c : ℤ) (u : Fun3) : Fun3 := fun i j k => u (i + a) (j + b) (k + c)

theorem D_shift (n : ℕ) (h : Fin 3 → ℝ) (d : Fin 3) (u : Fun3) (a b c : ℤ) :
    D n h d (move a b c u) = move a b c (D n h d u) := by
  funext i j k
  unfold D move
  fin_cases d
  · exact applyD1_shift _ _ (fun s => u s (j + b) (k + c)) a i
  · exact applyD1_shift _ _ (fun s => u (i + a) s (k + c)) b j
  · exact applyD1_shift _ _ (fun s => u (i + a) (j + b) s) c k

theorem DD_shift (n : ℕ) (h : Fin 3 → ℝ) (d : Fin 3) (u : Fun3) (a b c : ℤ) :
    DD n h d (move a b c u) = move a b c (DD n h d u) := by
  funext i j k
  unfold DD move
  fin_cases d
  · exact applyD2_shift _ _ (fun s => u s (j + b) (k + c)) a i
  · exact applyD2_shift _ _ (fun s => u (i + a) s (k + c)) b j
  · exact applyD2_shift _ _ (fun s => u (i + a) (j + b) s) c k

theorem Cell.shift {E : Env} {h : Fin 3 → ℝ} {dist : ℝ × ℝ × ℝ → ℝ × ℝ × ℝ → ℝ} {op : Fun3 → Fun3}
    (hC : Cell E h dist op) (u : Fun3) (a b c : ℤ) : op (move a b c u) = move a b c (op u) := by
  cases hC with
  | orth ht hC =>
    funext i j k
    simp only [DD_shift]
    rfl
  | oblique L Gm hL h10 ht hm hC =>
    funext i j k
    unfold lap
    simp only [DD_shift, D_shift]
    rfl

/-! ### Arrays of one image -/

theorem Cell.len {E : Env} {h : Fin 3 → ℝ} {dist : ℝ × ℝ × ℝ → ℝ × ℝ × ℝ → ℝ} {op : Fun3 → Fun3}
    (hC : Cell E h dist op) : (E.typ = 0 ∨ 10 < E.typ ∧ E.typ < 20) ∧ ∀ p q : ℝ × ℝ × ℝ,
      (Pchg.len E.typ E.metric (p.1 - q.1) (p.2.1 - q.2.1) (p.2.2 - q.2.2)).getD 0 = dist p q := by
  cases hC with
  | orth ht hC =>
    refine ⟨Or.inl ht, fun p q => ?_⟩
    unfold Pchg.len
    rw [if_pos ht, Option.getD_some]
    congr 1
    ring
  | oblique L Gm hL h10 ht hm hC =>
    have key : ∀ p q, Coord.calcDist Gm p q = some (Coord.euclid (Coord.position L p)
        (Coord.position L q)) := fun p q => Coord.distance_oblique_partial L Gm hL h10 p q
    have hlt : E.typ < 20 := by
      by_contra hge
      have h0 := key (0, 0, 0) (0, 0, 0)
      unfold Coord.calcDist at h0
      rw [if_neg (by omega), if_neg (by omega)] at h0
      cases h0
    refine ⟨Or.inr ⟨by omega, hlt⟩, fun p q => ?_⟩
    have h0 := key p q
    unfold Coord.calcDist at h0
    rw [if_neg (by omega), if_pos (by omega)] at h0
    unfold Pchg.len
    rw [if_neg (by omega), if_pos (by omega), hm]
    have h1 := Option.some.inj h0
    simp only [Option.getD_some]
    exact h1

theorem tabulate_at (a b c : ℕ) (f : ℕ → ℕ → ℕ → ℝ) (junk : Mem) {i j k : ℕ} (hi : i < a)
    (hj : j < b) (hk : k < c) :
    tabulate a b c f junk ((k : ℤ) * ((a : ℤ) * b) + j * a + i) = f i j k := by
  unfold tabulate
  simp only [Int.toNat_natCast]
  have := fill_at (l := box a b c)
    (idx := fun t : ℕ × ℕ × ℕ => (t.2.2 : ℤ) * ((a : ℤ) * b) + t.2.1 * a + t.1)
    (val := fun t => f t.1 t.2.1 t.2.2) (m := junk) (t := (i, j, k)) (mem_box.2 ⟨hi, hj, hk⟩) ?_
  · exact this
  · rintro ⟨i', j', k'⟩ hs he
    rw [mem_box] at hs
    simp only at he hs
    have e : i' + j' * a + k' * (a * b) = i + j * a + k * (a * b) := by
      zify
      linarith
    obtain ⟨rfl, rfl, rfl⟩ := flat3_inj hs.1 hi hs.2.1 hj e
    rfl

/-- The table of a function of the distance around an image. -/
theorem table_at {E : Env} {G : Infl.Geo} {h : Fin 3 → ℝ} {dist : ℝ × ℝ × ℝ → ℝ × ℝ × ℝ → ℝ}
    {op : Fun3 → Fun3} (hC : Cell E h dist op) (R : Infl.Rec) (f : ℝ → ℝ) (a b c : ℕ) (J : Mem)
    {i j k : ℤ} (i0 : 0 ≤ i) (hi : i < a) (j0 : 0 ≤ j) (hj : j < b) (k0 : 0 ≤ k) (hk : k < c) :
    pointwise ((a : ℤ) * b * c) f (dists E G.X.h G.Y.h G.Z.h R a b c) J
      (k * ((a : ℤ) * b) + j * a + i) =
    f (dist (pt G (i + R.xs - E.FDn, j + R.ys - E.FDn, k + R.zs - E.FDn)) (R.x, R.y, R.z)) := by
  obtain ⟨i, rfl⟩ := Int.eq_ofNat_of_zero_le i0
  obtain ⟨j, rfl⟩ := Int.eq_ofNat_of_zero_le j0
  obtain ⟨k, rfl⟩ := Int.eq_ofNat_of_zero_le k0
  have hi : i < a := by exact_mod_cast hi
  have hj : j < b := by exact_mod_cast hj
  have hk : k < c := by exact_mod_cast hk
  obtain ⟨ht, hl⟩ := hC.len
  unfold pointwise
  have hb := flat3_lt hi hj hk
  have hb' : (0 : ℤ) ≤ (k : ℤ) * ((a : ℤ) * b) + j * a + i ∧
      (k : ℤ) * ((a : ℤ) * b) + j * a + i < (a : ℤ) * b * c := by
    constructor
    · positivity
    · have : ((i + j * a + k * (a * b) : ℕ) : ℤ) < ((a * b * c : ℕ) : ℤ) := by exact_mod_cast hb
      push_cast at this
      linarith
  rw [if_pos hb']
  congr 1
  unfold dists
  rw [if_pos ht, tabulate_at _ _ _ _ _ hi hj hk, ← hl]
  unfold pt
  congr 2 <;> push_cast <;> ring

/-- `Calc_lapV` computes `-1/(4π)` times the Laplacian. -/
theorem calcLapV_at {E : Env} {h : Fin 3 → ℝ} {dist : ℝ × ℝ × ℝ → ℝ × ℝ × ℝ → ℝ}
    {op : Fun3 → Fun3} (hC : Cell E h dist op) (V d1 d2 m0 : Mem) (u : Fun3) (a b c : ℕ)
    (hV : ∀ i j k : ℤ, -E.FDn ≤ i → i < a + E.FDn → -E.FDn ≤ j → j < b + E.FDn →
      -E.FDn ≤ k → k < c + E.FDn →
      V ((k + E.FDn) * (((a : ℤ) + 2 * E.FDn) * (b + 2 * E.FDn)) +
        (j + E.FDn) * (a + 2 * E.FDn) + (i + E.FDn)) = u i j k) :
    ∃ m, calcLapV E.C E.typ V E.FDn (a + 2 * E.FDn) (b + 2 * E.FDn) (c + 2 * E.FDn) a b c
        (weights E) (w2diag E) d1 d2 m0 = some m ∧
      ∀ i j k : ℕ, i < a → j < b → k < c →
        m ((k : ℤ) * ((a : ℤ) * b) + j * a + i) = -inv4pi * op u i j k := by
  set A : Args := ⟨a, b, c, E.FDn, -inv4pi, 0, 0, none, V, V, d1, d2, m0, E.Jw⟩ with hA
  have hB : effB A.b A.v = 0 := by simp [effB, hA]
  have hVv : effV A.b A.v A.x = V := by simp [effV, hA]
  cases hC with
  | orth ht hC =>
    refine ⟨Lap.orth E.C A, ?_, ?_⟩
    · unfold calcLapV Lap.orth
      simp only
      rw [if_pos ht, hB, hVv]
      have hw : weights E = lapWeights E.C A.FDn A.a A.wt := by
        unfold weights; rw [if_pos ht]
      have h3 : ∀ q, q < 3 → lapWeights E.C A.FDn A.a A.wt q =
          ([E.C.D2x, E.C.D2y, E.C.D2z].getD q (fun _ => 0)) 0 * A.a := by
        intro q hq
        have := pack_at [E.C.D2x, E.C.D2y, E.C.D2z] A.a 0 A.FDn 0 A.wt (p := 0) (q := q)
          (by omega) (by omega) (by simpa using hq)
        simpa [lapWeights, List.getD_eq_getElem?_getD, hq] using this
      have e : w2diag E = lapWeights E.C A.FDn A.a A.wt 0 + lapWeights E.C A.FDn A.a A.wt 1
          + lapWeights E.C A.FDn A.a A.wt 2 + A.c := by
        rw [h3 0 (by omega), h3 1 (by omega), h3 2 (by omega)]
        simp only [w2diag, hA, List.getD_cons_zero, List.getD_cons_succ]
        ring
      rw [hw, e]
    · intro i j k hi hj hk
      have hh : h = ![h 0, h 1, h 2] := by
        funext d; fin_cases d <;> rfl
      have := orth_point E.FDn (h 0) (h 1) (h 2) A rfl u
        (fun i j k a1 a2 a3 a4 a5 a6 _ => hV i j k a1 a2 a3 a4 a5 a6) hi hj hk
      rw [← hh, ← hC, hB] at this
      simp only [at3] at this
      rw [show (k : ℤ) * ((a : ℤ) * b) + j * a + i = (k : ℤ) * ((A.DMnx : ℤ) * A.DMny) + j * A.DMnx + i
        from rfl, this]
      simp [hA]
  | oblique L Gm hL h10 ht hm hC =>
    refine ⟨Lap.nonorth E.C E.typ A, ?_, ?_⟩
    · have hlt : (E.typ = 0 ∨ 10 < E.typ ∧ E.typ < 20) := (Cell.oblique (h := h) L Gm hL h10 ht hm hC).len.1
      have h17 : E.typ ≤ 17 := by
        rw [ht]
        rw [Coord.transformMat_some hL |>.2.2.2.2.2.2]
        unfold Coord.cellTyp1 Coord.cellTyp0
        dsimp only
        repeat' split
        all_goals omega
      have hw : weights E = lapWt E.C E.typ A.FDn A.a A.wt := by
        unfold weights; rw [if_neg (by omega)]
      have e : w2diag E = (E.C.D2x 0 + E.C.D2y 0 + E.C.D2z 0) * A.a + A.c := by
        simp [w2diag, hA]
      unfold calcLapV Lap.nonorth
      simp only
      rw [hB, hVv, ← hw, ← e]
      have : E.typ = 11 ∨ E.typ = 12 ∨ E.typ = 13 ∨ E.typ = 14 ∨ E.typ = 15 ∨ E.typ = 16 ∨
        E.typ = 17 := by omega
      rcases this with h | h | h | h | h | h | h <;> rw [h] <;> rfl
    · intro i j k hi hj hk
      have hh : h = ![h 0, h 1, h 2] := by
        funext d; fin_cases d <;> rfl
      have := nonorth_correct L Gm hL h10 (h 0) (h 1) (h 2) A u hV hi hj hk
      rw [← hh, hB, ← ht] at this
      rw [show (coefs Gm.lapc A.FDn (h 0) (h 1) (h 2)) = E.C from hC.symm] at this
      simp only [at3] at this
      rw [show (k : ℤ) * ((a : ℤ) * b) + j * a + i = (k : ℤ) * ((A.DMnx : ℤ) * A.DMny) + j * A.DMnx + i
        from rfl, this]
      simp [hA]

end Sparc.Pchg

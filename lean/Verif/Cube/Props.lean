import Verif.Cube.Lemmas
import Mathlib.Algebra.BigOperators.Group.Finset.Basic
import Mathlib.Algebra.Order.BigOperators.Group.Finset

/-! # C99, C100: density files -/

namespace Sparc.Cube
open Finset

theorem read_write (F : Fmt) (S : Sys) (title : List String) (rho junk : ℕ → ℝ) (ht : title ≠ [])
    (hN : 0 < S.N 2) :
    ∃ d, readDens (write F S title rho) junk =
        some (fun a => (S.N a : ℤ), fun a c => (S.N a : ℝ) * F.f6 (S.U a c * S.delta a), d) ∧
      Done F S rho d (fun i j k => i < S.N 0 ∧ j < S.N 1 ∧ k < S.N 2) := by
  have h3 : List.finRange 3 = [0, 1, 2] := by decide
  obtain ⟨l1, ha, hb⟩ := skipAtoms_ok F S.atoms (body F S rho 0 (S.N 0))
    (.nl :: (atomLines F S ++ body F S rho 0 (S.N 0))) (by rw [ws_nl]; rfl)
  obtain ⟨l2, d, hc, hd⟩ := body_read F S rho (fun i j k => cell (fun a => (S.N a : ℤ)) i j k) id
    (by
      intro i j k s r hi hj hk hs
      refine ⟨(if k % 6 = 5 then [.nl] else []) ++ r, ?_, ?_, ?_⟩
      · have e : scanLf s.1 = scanLf (.tok (.dec (F.e6 (rho (at3 (S.N 0) (S.N 1) i j k)))) ::
            ((if k % 6 = 5 then [.nl] else []) ++ r)) := scanLf_ws (by rw [hs]; rfl)
        have hlt : at3 (S.N 0) (S.N 1) i j k < ((S.N 0 : ℤ) * S.N 1 * S.N 2).toNat := by
          have := at3_lt hi hj hk
          have e2 : ((S.N 0 : ℤ) * S.N 1 * S.N 2).toNat = S.N 0 * S.N 1 * S.N 2 := by
            rw [← Nat.cast_mul, ← Nat.cast_mul, Int.toNat_natCast]
          rw [e2]; exact this
        simp only [cell, e, scanLf_dec, Option.bind_eq_bind, Option.bind_some, Int.toNat_natCast, hlt, if_true]
      · split_ifs <;> simp
      · split_ifs
        · right; rfl
        · left; rfl)
    (by
      rintro l d r (rfl | rfl)
      · exact ⟨by simp, rfl⟩
      · exact ⟨by simp, rfl⟩) l1 junk hN hb
  refine ⟨d, ?_, hd⟩
  have hbody : scanBody (fun a => (S.N a : ℤ)) (l1, junk) = some (l2, d) := by
    rw [← hc]
    simp [scanBody]
  have hw : write F S title rho = title.map (fun w => Sym.tok (.word w)) ++ .nl ::
      ((header F S []).tail ++ atomLines F S ++ body F S rho 0 (S.N 0)) := by
    simp [write, header]
  have hv : (![(S.N 0 : ℤ), S.N 1, S.N 2] : Fin 3 → ℤ) = fun a => (S.N a : ℤ) := by
    funext a; fin_cases a <;> rfl
  rw [readDens, hw]
  rw [skipLine_words ht]
  simp only [header, List.map_nil, List.nil_append, List.tail_cons, List.cons_append, h3, List.flatMap_cons,
    List.flatMap_nil, List.append_nil, List.append_assoc, ws_tok, scanStr_tok, skipNum, scanLf_dec, skipLine_tok,
    dropLine_tok, dropLine_nl, ws_nl, scanInt_int, scanInt_nl, scanDir, Option.bind_eq_bind, Option.bind_some,
    Option.map_some, Int.toNat_natCast, ha, hv, hbody]
  congr 2
  refine Prod.ext ?_ rfl
  funext a c
  fin_cases a <;> fin_cases c <;> simp

/-- **C99 (density file).** A density written to a file and read back has the same grid and at every grid point
the same value up to half a unit of the seventh significant digit, for every grid, cell and number of atoms. -/
theorem cube_roundtrip (F : Fmt) (S : Sys) (title : List String) (rho junk : ℕ → ℝ) (ht : title ≠ [])
    (hN : 0 < S.N 2) :
    ∃ n vec d, readDens (write F S title rho) junk = some (n, vec, d) ∧
      (∀ a, n a = S.N a) ∧
      (∀ a c, |vec a c - S.N a * (S.delta a * S.U a c)| ≤ S.N a * (1 / 2000000)) ∧
      ∀ i j k, i < S.N 0 → j < S.N 1 → k < S.N 2 →
        |d (i + j * S.N 0 + k * S.N 0 * S.N 1) - rho (i + j * S.N 0 + k * S.N 0 * S.N 1)| ≤
          |rho (i + j * S.N 0 + k * S.N 0 * S.N 1)| / 2000000 := by
  obtain ⟨d, h1, h2⟩ := read_write F S title rho junk ht hN
  refine ⟨_, _, d, h1, fun _ => rfl, ?_, ?_⟩
  · intro a c
    have := F.f6_near (S.U a c * S.delta a)
    rw [← mul_sub, abs_mul, Nat.abs_cast, mul_comm (S.delta a)]
    exact mul_le_mul_of_nonneg_left this (Nat.cast_nonneg _)
  · intro i j k hi hj hk
    have := h2 i j k ⟨hi, hj, hk⟩
    unfold at3 at this
    rw [this]
    exact F.e6_near _

/-- The rounding of the file: nearest multiples by `round`. -/
noncomputable def exFmt : Fmt where
  f6 x := round (x * 1000000) / 1000000
  e6 x := x
  f6_mul x := ⟨round (x * 1000000), rfl⟩
  f6_near x := by
    have := abs_sub_round (x * 1000000)
    rw [abs_le] at this ⊢
    constructor <;> linarith [this.1, this.2]
  e6_near x := by
    have := abs_nonneg x
    simp only [sub_self, abs_zero]
    linarith

/-- A cell with one atom. -/
noncomputable def exSys : Sys :=
  ⟨![10, 12, 14], ![1 / 2, 1 / 2, 1 / 2], ![5, 6, 7], fun _ => 0, fun a b => if a = b then 1 else 0,
    [(14, 4, ![1, 2, 3])]⟩

example : (["Electron", "density"] : List String) ≠ [] ∧ 0 < exSys.N 2 := ⟨by decide, by simp [exSys]⟩

/-- **C99 (charge).** Over any part of the grid the integral of the density read differs from the integral of
the density written by at most half a millionth of the integral of its absolute value. -/
theorem cube_charge (F : Fmt) (S : Sys) (title : List String) (rho junk : ℕ → ℝ) (ht : title ≠ [])
    (hN : 0 < S.N 2) (dV : ℝ) (hdV : 0 ≤ dV) (T : Finset (ℕ × ℕ × ℕ))
    (hT : ∀ t ∈ T, t.1 < S.N 0 ∧ t.2.1 < S.N 1 ∧ t.2.2 < S.N 2) :
    ∃ n vec d, readDens (write F S title rho) junk = some (n, vec, d) ∧
      |∑ t ∈ T, d (t.1 + t.2.1 * S.N 0 + t.2.2 * S.N 0 * S.N 1) * dV -
        ∑ t ∈ T, rho (t.1 + t.2.1 * S.N 0 + t.2.2 * S.N 0 * S.N 1) * dV| ≤
      (∑ t ∈ T, |rho (t.1 + t.2.1 * S.N 0 + t.2.2 * S.N 0 * S.N 1)| * dV) / 2000000 := by
  obtain ⟨n, vec, d, h1, -, -, h2⟩ := cube_roundtrip F S title rho junk ht hN
  refine ⟨n, vec, d, h1, ?_⟩
  rw [← sum_sub_distrib]
  refine (abs_sum_le_sum_abs _ _).trans ?_
  rw [div_eq_mul_inv, sum_mul]
  refine sum_le_sum fun t ht' => ?_
  obtain ⟨a, b, c⟩ := hT t ht'
  have := h2 t.1 t.2.1 t.2.2 a b c
  rw [← sub_mul, abs_mul, abs_of_nonneg hdV]
  calc _ ≤ (|rho (t.1 + t.2.1 * S.N 0 + t.2.2 * S.N 0 * S.N 1)| / 2000000) * dV :=
        mul_le_mul_of_nonneg_right this hdV
    _ = _ := by ring

example : ∃ T : Finset (ℕ × ℕ × ℕ), T.Nonempty ∧ ∀ t ∈ T, t.1 < exSys.N 0 ∧ t.2.1 < exSys.N 1 ∧ t.2.2 < exSys.N 2 :=
  ⟨{(1, 2, 3), (9, 11, 13)}, by simp, by simp [exSys]⟩

/-- **C99 (spin files).** If the density is the sum of its non-negative spin parts, the three densities read are so up to
half a millionth of twice the density. -/
theorem cube_spin (F : Fmt) (S : Sys) (t0 t1 t2 : List String) (rho up dn junk : ℕ → ℝ) (h0 : t0 ≠ [])
    (h1 : t1 ≠ []) (h2 : t2 ≠ []) (hN : 0 < S.N 2) (hup : ∀ p, 0 ≤ up p) (hdn : ∀ p, 0 ≤ dn p)
    (hsum : ∀ p, rho p = up p + dn p) :
    ∃ r u v, readDens (write F S t0 rho) junk = some r ∧ readDens (write F S t1 up) junk = some u ∧
      readDens (write F S t2 dn) junk = some v ∧
      ∀ i j k, i < S.N 0 → j < S.N 1 → k < S.N 2 →
        |r.2.2 (i + j * S.N 0 + k * S.N 0 * S.N 1) - (u.2.2 (i + j * S.N 0 + k * S.N 0 * S.N 1) +
          v.2.2 (i + j * S.N 0 + k * S.N 0 * S.N 1))| ≤ rho (i + j * S.N 0 + k * S.N 0 * S.N 1) / 1000000 := by
  obtain ⟨n, vec, d, a1, -, -, a2⟩ := cube_roundtrip F S t0 rho junk h0 hN
  obtain ⟨n', vec', d', b1, -, -, b2⟩ := cube_roundtrip F S t1 up junk h1 hN
  obtain ⟨n'', vec'', d'', c1, -, -, c2⟩ := cube_roundtrip F S t2 dn junk h2 hN
  refine ⟨_, _, _, a1, b1, c1, ?_⟩
  intro i j k hi hj hk
  have A := a2 i j k hi hj hk
  have B := b2 i j k hi hj hk
  have C := c2 i j k hi hj hk
  simp only
  generalize i + j * S.N 0 + k * S.N 0 * S.N 1 = p at *
  have hs := hsum p
  have hu := hup p
  have hd := hdn p
  rw [abs_of_nonneg hu] at B
  rw [abs_of_nonneg hd] at C
  have hr : 0 ≤ rho p := by rw [hs]; exact add_nonneg hu hd
  rw [abs_of_nonneg hr] at A
  rw [abs_le] at A B C ⊢
  obtain ⟨A1, A2⟩ := A
  obtain ⟨B1, B2⟩ := B
  obtain ⟨C1, C2⟩ := C
  constructor <;> linarith

example : ∃ up dn : ℕ → ℝ, (∀ p, 0 ≤ up p) ∧ (∀ p, 0 ≤ dn p) ∧ up ≠ dn :=
  ⟨fun p => p, fun _ => 1, fun p => Nat.cast_nonneg p, fun _ => zero_le_one, fun h => by
    have := congrFun h 0; simp at this⟩

/-- **C99 (the other reader).** `read_cube` puts the same values in place. -/
theorem cube_other_reader (F : Fmt) (S : Sys) (title : List String) (rho junk : ℕ → ℝ) (ht : title ≠ [])
    (hN : 0 < S.N 2) :
    ∃ d, readCube S.N (write F S title rho) junk = some d ∧
      ∀ i j k, i < S.N 0 → j < S.N 1 → k < S.N 2 →
        |d (i + j * S.N 0 + k * S.N 0 * S.N 1) - rho (i + j * S.N 0 + k * S.N 0 * S.N 1)| ≤
          |rho (i + j * S.N 0 + k * S.N 0 * S.N 1)| / 2000000 := by
  have h3 : List.finRange 3 = [0, 1, 2] := by decide
  have hat : ∀ (A : List (ℤ × ℤ × (Fin 3 → ℝ))) (rest l : List Sym) (k : ℕ),
      l = ws ((A.flatMap fun a =>
    [Sym.tok (.int a.1), .tok (.dec (F.f6 a.2.1)), .tok (.dec (F.f6 (a.2.2 0))), .tok (.dec (F.f6 (a.2.2 1))),
      .tok (.dec (F.f6 (a.2.2 2))), .nl]) ++ rest) →
      loop (fun _ l => some (skipLine l)) k A.length l = some (ws rest) := by
    intro A
    induction A with
    | nil => intro rest l k h; rw [h]; rfl
    | cons a t ih =>
      intro rest l k h
      rw [List.length_cons, loop, h]
      exact ih rest _ _ (by simp)
  obtain ⟨l2, d, hc, hd⟩ := body_read F S rho (fun i j k => cell' (fun a => (S.N a : ℤ)) i j k)
    (fun s => (skipLine s.1, s.2))
    (by
      intro i j k s r hi hj hk hs
      refine ⟨(if k % 6 = 5 then [.nl] else []) ++ r, ?_, ?_, ?_⟩
      · have e : scanLf s.1 = scanLf (.tok (.dec (F.e6 (rho (at3 (S.N 0) (S.N 1) i j k)))) ::
            ((if k % 6 = 5 then [.nl] else []) ++ r)) := scanLf_ws (by rw [hs]; rfl)
        simp only [cell', e, scanLf_dec, Option.bind_eq_bind, Option.bind_some, Int.toNat_natCast]
        split_ifs <;> rfl
      · split_ifs <;> simp
      · split_ifs
        · right; rfl
        · left; rfl)
    (by
      rintro l d r (rfl | rfl)
      · exact ⟨by simp, rfl⟩
      · exact ⟨by simp, rfl⟩) (ws (body F S rho 0 (S.N 0))) junk hN (ws_ws _)
  refine ⟨d, ?_, ?_⟩
  · have hw : write F S title rho = title.map (fun w => Sym.tok (.word w)) ++ .nl ::
        ((header F S []).tail ++ atomLines F S ++ body F S rho 0 (S.N 0)) := by
      simp [write, header]
    have hv : (![(S.N 0 : ℤ), S.N 1, S.N 2] : Fin 3 → ℤ) = fun a => (S.N a : ℤ) := by
      funext a; fin_cases a <;> rfl
    have ha := hat S.atoms (body F S rho 0 (S.N 0)) (ws (atomLines F S ++ body F S rho 0 (S.N 0))) 0 rfl
    rw [readCube, hw]
    rw [skipLine_words ht]
    simp only [header, List.map_nil, List.nil_append, List.tail_cons, List.cons_append, h3, List.flatMap_cons,
      List.flatMap_nil, List.append_nil, List.append_assoc, ws_tok, skipLine_tok,
      dropLine_tok, dropLine_nl, ws_nl, scanInt_int, scanInt_nl, Option.bind_eq_bind, Option.bind_some,
      Int.toNat_natCast, ha, hv, ne_eq, not_true_eq_false, or_self, if_false, hc]
  · intro i j k hi hj hk
    have := hd i j k ⟨hi, hj, hk⟩
    unfold at3 at this
    rw [this]
    exact F.e6_near _

/-! ## The check of the cell -/

/-- The reading system is the writing one: same grid, and the vectors it compares with are those of the cell. -/
def Same (S : Sys) (H : Here) : Prop :=
  H.N = S.N ∧ (H.scaled = true → ∀ d c, H.scale d * H.lat d c = S.range d * S.U d c) ∧
    (H.scaled = false → ∀ d c, H.range d * H.U d c = S.range d * S.U d c)

/-- The check passes. -/
def Passes (H : Here) (vec : Fin 3 → Fin 3 → ℝ) : Prop :=
  if H.scaled then latOK vec H.lat H.scale (1 / 10000) else latOK vec H.U H.range (1 / 10000)

theorem passes_iff (S : Sys) (H : Here) (hH : Same S H) (vec : Fin 3 → Fin 3 → ℝ) :
    Passes H vec ↔ ∀ d, √((vec d 0 - S.range d * S.U d 0) * (vec d 0 - S.range d * S.U d 0)
      + (vec d 1 - S.range d * S.U d 1) * (vec d 1 - S.range d * S.U d 1)
      + (vec d 2 - S.range d * S.U d 2) * (vec d 2 - S.range d * S.U d 2)) ≤ 1 / 10000 := by
  unfold Passes latOK
  obtain ⟨-, h1, h2⟩ := hH
  cases hs : H.scaled
  · simp only [h2 hs, Bool.false_eq_true, if_false]
  · simp only [h1 hs, if_true]

theorem readVec_eq (F : Fmt) (S : Sys) (H : Here) (hH : Same S H) (title : List String) (rho junk : ℕ → ℝ)
    (ht : title ≠ []) (hN : 0 < S.N 2) :
    (Passes H (fun a c => (S.N a : ℝ) * F.f6 (S.U a c * S.delta a)) →
      ∃ d, readVec H (write F S title rho) junk = some d ∧
        Done F S rho d (fun i j k => i < S.N 0 ∧ j < S.N 1 ∧ k < S.N 2)) ∧
    (¬ Passes H (fun a c => (S.N a : ℝ) * F.f6 (S.U a c * S.delta a)) →
      readVec H (write F S title rho) junk = none) := by
  obtain ⟨d, h1, h2⟩ := read_write F S title rho junk ht hN
  constructor
  · intro hp
    refine ⟨d, ?_, h2⟩
    unfold readVec
    rw [h1]
    simp only [Option.bind_eq_bind, Option.bind_some]
    unfold Passes at hp
    rw [if_pos hp, hH.1, if_pos ⟨rfl, rfl, rfl⟩]
  · intro hp
    unfold readVec
    rw [h1]
    simp only [Option.bind_eq_bind, Option.bind_some]
    unfold Passes at hp
    rw [if_neg hp]

/-- **C99 (acceptance), partial: periodic directions of at most 115 points.**  A file written by a run is accepted by the same
system. -/
theorem cube_accepted_partial (F : Fmt) (S : Sys) (H : Here) (hH : Same S H) (title : List String)
    (rho junk : ℕ → ℝ) (ht : title ≠ []) (hN : 0 < S.N 2)
    (hδ : ∀ d, S.range d = ((S.N d : ℝ) - S.BC d) * S.delta d) (hper : ∀ d, S.BC d = 0)
    (hsmall : ∀ d, S.N d ≤ 115) :
    ∃ d, readVec H (write F S title rho) junk = some d ∧
      ∀ i j k, i < S.N 0 → j < S.N 1 → k < S.N 2 →
        |d (i + j * S.N 0 + k * S.N 0 * S.N 1) - rho (i + j * S.N 0 + k * S.N 0 * S.N 1)| ≤
          |rho (i + j * S.N 0 + k * S.N 0 * S.N 1)| / 2000000 := by
  have hp : Passes H (fun a c => (S.N a : ℝ) * F.f6 (S.U a c * S.delta a)) := by
    rw [passes_iff S H hH]
    intro d
    apply Real.sqrt_le_iff.2
    refine ⟨by norm_num, ?_⟩
    have key : ∀ c, ((S.N d : ℝ) * F.f6 (S.U d c * S.delta d) - S.range d * S.U d c) *
        ((S.N d : ℝ) * F.f6 (S.U d c * S.delta d) - S.range d * S.U d c) ≤ (115 / 2000000) ^ 2 := by
      intro c
      have e : (S.N d : ℝ) * F.f6 (S.U d c * S.delta d) - S.range d * S.U d c =
          S.N d * (F.f6 (S.U d c * S.delta d) - S.U d c * S.delta d) := by
        rw [hδ d, hper d]; push_cast; ring
      have hb : |(S.N d : ℝ) * (F.f6 (S.U d c * S.delta d) - S.U d c * S.delta d)| ≤ 115 / 2000000 := by
        rw [abs_mul, Nat.abs_cast]
        have h1 : (S.N d : ℝ) ≤ 115 := by exact_mod_cast hsmall d
        have h2 := F.f6_near (S.U d c * S.delta d)
        calc (S.N d : ℝ) * |F.f6 (S.U d c * S.delta d) - S.U d c * S.delta d|
            ≤ 115 * (1 / 2000000) := mul_le_mul h1 h2 (abs_nonneg _) (by norm_num)
          _ = 115 / 2000000 := by norm_num
      rw [e, ← sq, ← sq_abs]
      exact pow_le_pow_left₀ (abs_nonneg _) hb 2
    have h0 := key 0
    have h1 := key 1
    have h2 := key 2
    norm_num at h0 h1 h2 ⊢
    linarith
  obtain ⟨d, h1, h2⟩ := (readVec_eq F S H hH title rho junk ht hN).1 hp
  refine ⟨d, h1, ?_⟩
  intro i j k hi hj hk
  have := h2 i j k ⟨hi, hj, hk⟩
  unfold at3 at this
  rw [this]
  exact F.e6_near _

/-- The system above, reading with `CELL` and with `LATVEC_SCALE`. -/
noncomputable def exHere (b : Bool) : Here :=
  ⟨exSys.N, b, fun a c => 2 * exSys.U a c, fun a => exSys.range a / 2, exSys.U, exSys.range⟩

example (b : Bool) : Same exSys (exHere b) ∧
    (∀ d, exSys.range d = ((exSys.N d : ℝ) - exSys.BC d) * exSys.delta d) ∧ (∀ d, exSys.BC d = 0) ∧
    ∀ d, exSys.N d ≤ 115 := by
  refine ⟨⟨rfl, fun _ d c => ?_, fun _ _ _ => rfl⟩, ?_, fun _ => rfl, ?_⟩
  · simp only [exHere]; ring
  · intro d; fin_cases d <;> norm_num [exSys]
  · intro d; fin_cases d <;> simp [exSys]

theorem cs3 (a b c x y z : ℝ) : (a * x + b * y + c * z) ^ 2 ≤ (a * a + b * b + c * c) * (x ^ 2 + y ^ 2 + z ^ 2) := by
  nlinarith [sq_nonneg (a * y - b * x), sq_nonneg (a * z - c * x), sq_nonneg (b * z - c * y)]

/-- The code violates the claim: with a bounded direction (`D`), whose grid has a point more than steps, the
vector read is longer than the cell by one step and the file is refused, for every cell and density. -/
theorem bounded_refused (F : Fmt) (S : Sys) (H : Here) (hH : Same S H) (title : List String)
    (rho junk : ℕ → ℝ) (ht : title ≠ []) (hN : 0 < S.N 2)
    (hδ : ∀ d, S.range d = ((S.N d : ℝ) - S.BC d) * S.delta d)
    (d : Fin 3) (hd : S.BC d = 1) (hU : S.U d 0 ^ 2 + S.U d 1 ^ 2 + S.U d 2 ^ 2 = 1)
    (hbig : 1 / 10000 + S.N d / 1000000 < S.delta d) :
    readVec H (write F S title rho) junk = none := by
  refine (readVec_eq F S H hH title rho junk ht hN).2 ?_
  rw [passes_iff S H hH]
  intro hp
  have hp := (Real.sqrt_le_iff.1 (hp d)).2
  have e : ∀ c, (S.N d : ℝ) * F.f6 (S.U d c * S.delta d) - S.range d * S.U d c =
      S.delta d * S.U d c + S.N d * (F.f6 (S.U d c * S.delta d) - S.U d c * S.delta d) := by
    intro c; rw [hδ d, hd]; push_cast; ring
  have hn : ∀ c, |F.f6 (S.U d c * S.delta d) - S.U d c * S.delta d| ≤ 1 / 2000000 := fun c => F.f6_near _
  simp only [e] at hp
  generalize hg : (fun c => F.f6 (S.U d c * S.delta d) - S.U d c * S.delta d) = g at *
  have hg' : ∀ c, F.f6 (S.U d c * S.delta d) - S.U d c * S.delta d = g c := fun c => congrFun hg c
  simp only [hg'] at hp hn
  set n : ℝ := (S.N d : ℝ) with hnn
  have hn0 : (0 : ℝ) ≤ n := Nat.cast_nonneg _
  set u := S.U d with hu
  set δ := S.delta d with hdd
  have h1 := cs3 (δ * u 0 + n * g 0) (δ * u 1 + n * g 1) (δ * u 2 + n * g 2) (u 0) (u 1) (u 2)
  rw [hU, mul_one] at h1
  have h2 : (δ + n * (g 0 * u 0 + g 1 * u 1 + g 2 * u 2)) ^ 2 ≤ (1 / 10000) ^ 2 := by
    refine le_trans (le_of_eq ?_) (h1.trans hp)
    have : δ + n * (g 0 * u 0 + g 1 * u 1 + g 2 * u 2) =
        (δ * u 0 + n * g 0) * u 0 + (δ * u 1 + n * g 1) * u 1 + (δ * u 2 + n * g 2) * u 2 := by
      calc _ = δ * 1 + n * (g 0 * u 0 + g 1 * u 1 + g 2 * u 2) := by ring
        _ = δ * (u 0 ^ 2 + u 1 ^ 2 + u 2 ^ 2) + n * (g 0 * u 0 + g 1 * u 1 + g 2 * u 2) := by rw [hU]
        _ = _ := by ring
    rw [this]
  have h3 : δ + n * (g 0 * u 0 + g 1 * u 1 + g 2 * u 2) ≤ 1 / 10000 := by
    nlinarith [abs_le_of_sq_le_sq' h2 (by norm_num : (0:ℝ) ≤ 1 / 10000)]
  have h4 : (g 0 * u 0 + g 1 * u 1 + g 2 * u 2) ^ 2 ≤ (1 / 1000000) ^ 2 := by
    have := cs3 (g 0) (g 1) (g 2) (u 0) (u 1) (u 2)
    rw [hU, mul_one] at this
    have q : ∀ c, g c * g c ≤ (1 / 2000000) ^ 2 := by
      intro c
      rw [← sq, ← sq_abs]
      exact pow_le_pow_left₀ (abs_nonneg _) (hn c) 2
    have q0 := q 0
    have q1 := q 1
    have q2 := q 2
    norm_num at q0 q1 q2 ⊢
    linarith
  have h5 := (abs_le_of_sq_le_sq' h4 (by norm_num)).1
  have h6 : n * (-(1 / 1000000)) ≤ n * (g 0 * u 0 + g 1 * u 1 + g 2 * u 2) := mul_le_mul_of_nonneg_left h5 hn0
  linarith

/-- A slab: third direction bounded. -/
noncomputable def slab : Sys :=
  ⟨![20, 20, 41], fun _ => 1 / 4, ![5, 5, 10], ![0, 0, 1], fun a b => if a = b then 1 else 0, []⟩

example : Same slab ⟨slab.N, false, slab.U, fun _ => 0, slab.U, slab.range⟩ ∧
    (∀ d, slab.range d = ((slab.N d : ℝ) - slab.BC d) * slab.delta d) ∧ slab.BC 2 = 1 ∧
    slab.U 2 0 ^ 2 + slab.U 2 1 ^ 2 + slab.U 2 2 ^ 2 = 1 ∧ 1 / 10000 + (slab.N 2 : ℝ) / 1000000 < slab.delta 2 := by
  refine ⟨⟨rfl, fun h => absurd h (by decide), fun _ _ _ => rfl⟩, ?_, rfl, ?_, ?_⟩
  · intro d; fin_cases d <;> norm_num [slab]
  · have a : (2 : Fin 3) ≠ 0 := by decide
    have b : (2 : Fin 3) ≠ 1 := by decide
    simp [slab, a, b]
  · have : slab.N 2 = 41 := rfl
    rw [this]; norm_num [slab]

/-- A periodic cube of edge 20 with 600 points in a direction. -/
noncomputable def fine : Sys :=
  ⟨fun _ => 600, fun _ => 1 / 30, fun _ => 20, fun _ => 0, fun a b => if a = b then 1 else 0, []⟩

/-- The code violates the claim: the steps are written with six decimals, and with 600 points in a direction the error
is multiplied beyond the tolerance: the file is refused by the run that wrote it. -/
theorem fine_refused (F : Fmt) (H : Here) (hH : Same fine H) (title : List String) (rho junk : ℕ → ℝ)
    (ht : title ≠ []) : readVec H (write F fine title rho) junk = none := by
  refine (readVec_eq F fine H hH title rho junk ht (by simp [fine])).2 ?_
  rw [passes_iff fine H hH]
  intro hp
  have hp := (Real.sqrt_le_iff.1 (hp 0)).2
  have h1 : F.f6 (1 / 30) = 33333 / 1000000 := by
    obtain ⟨n, hn⟩ := F.f6_mul (1 / 30)
    have := F.f6_near (1 / 30)
    rw [hn, abs_le] at this
    have a : ((33332 : ℤ) : ℝ) < n := by push_cast; linarith [this.1]
    have b : (n : ℝ) < ((33334 : ℤ) : ℝ) := by push_cast; linarith [this.2]
    have a' : 33332 < n := by exact_mod_cast a
    have b' : n < 33334 := by exact_mod_cast b
    have : n = 33333 := by omega
    rw [hn, this]; norm_num
  have e : F.f6 (fine.U 0 0 * fine.delta 0) = 33333 / 1000000 := by
    rw [← h1]; congr 1; simp [fine]
  rw [e] at hp
  have q1 := mul_self_nonneg ((fine.N 0 : ℝ) * F.f6 (fine.U 0 1 * fine.delta 0) - fine.range 0 * fine.U 0 1)
  have q2 := mul_self_nonneg ((fine.N 0 : ℝ) * F.f6 (fine.U 0 2 * fine.delta 0) - fine.range 0 * fine.U 0 2)
  have q0 : (1 / 10000 : ℝ) ^ 2 < ((fine.N 0 : ℝ) * (33333 / 1000000) - fine.range 0 * fine.U 0 0) *
      ((fine.N 0 : ℝ) * (33333 / 1000000) - fine.range 0 * fine.U 0 0) := by norm_num [fine]
  linarith

example : Same fine ⟨fine.N, true, fine.U, fine.range, fine.U, fine.range⟩ ∧
    ∀ d, fine.range d = ((fine.N d : ℝ) - fine.BC d) * fine.delta d :=
  ⟨⟨rfl, fun _ _ _ => rfl, fun h => absurd h (by decide)⟩, fun d => by norm_num [fine]⟩

/-! ## C100: the first guess from files -/

theorem readGuess_spec (R : Run) (v : ℕ → ℕ → ℝ) (M : Mem) (h : R.files ≤ R.cols) :
    ∃ M', readGuess R v M = some M' ∧ M'.mag = M.mag ∧ M'.xk = M.xk ∧
      (∀ c i, c < R.files → i < R.nd → M'.dens (i + c * R.nd) = some (v c i)) ∧
      ∀ p, R.files * R.nd ≤ p → M'.dens p = M.dens p := by
  have main := loop_bound (fun c M => loop (fun i M =>
    if i + c * R.nd < R.nd * R.cols then
      some { M with dens := Function.update M.dens (i + c * R.nd) (some (v c i)) }
    else none) 0 R.nd M)
    (fun c M' => M'.mag = M.mag ∧ M'.xk = M.xk ∧
      (∀ c' i, c' < c → i < R.nd → M'.dens (i + c' * R.nd) = some (v c' i)) ∧
      ∀ p, c * R.nd ≤ p → M'.dens p = M.dens p) R.files ?_ M
    ⟨rfl, rfl, fun _ _ h => absurd h (by omega), fun _ _ => rfl⟩
  · obtain ⟨M', h1, h2⟩ := main
    exact ⟨M', h1, h2⟩
  rintro c M1 hc ⟨a1, a2, a3, a4⟩
  obtain ⟨M', h1, b1, b2, b3, b4, b5⟩ := loop_bound (fun i M =>
    if i + c * R.nd < R.nd * R.cols then
      some { M with dens := Function.update M.dens (i + c * R.nd) (some (v c i)) }
    else none)
    (fun i M' => M'.mag = M.mag ∧ M'.xk = M.xk ∧
      (∀ c' i', c' < c → i' < R.nd → M'.dens (i' + c' * R.nd) = some (v c' i')) ∧
      (∀ i', i' < i → M'.dens (i' + c * R.nd) = some (v c i')) ∧
      ∀ p, c * R.nd + i ≤ p → M'.dens p = M.dens p) R.nd (by
      rintro i M2 hi ⟨c1, c2, c3, c4, c5⟩
      have hlt : i + c * R.nd < R.nd * R.cols := by
        calc i + c * R.nd < R.nd + c * R.nd := by omega
          _ = R.nd * (c + 1) := by ring
          _ ≤ R.nd * R.cols := Nat.mul_le_mul_left _ (by omega)
      refine ⟨_, if_pos hlt, c1, c2, ?_, ?_, ?_⟩
      · intro c' i' hc' hi'
        have : i' + c' * R.nd ≠ i + c * R.nd := by
          have : i' + c' * R.nd < c * R.nd := by
            calc i' + c' * R.nd < R.nd + c' * R.nd := by omega
              _ = (c' + 1) * R.nd := by ring
              _ ≤ c * R.nd := Nat.mul_le_mul_right _ hc'
          omega
        simp only [Function.update_of_ne this]
        exact c3 c' i' hc' hi'
      · intro i' hi'
        by_cases e : i' = i
        · subst e; simp
        · simp only [Function.update_of_ne (show i' + c * R.nd ≠ i + c * R.nd by omega)]
          exact c4 i' (by omega)
      · intro p hp
        simp only [Function.update_of_ne (show p ≠ i + c * R.nd by omega)]
        exact c5 p (by omega)) M1 ⟨a1, a2, a3, fun _ h => absurd h (by omega), fun p hp => a4 p (by simpa using hp)⟩
  refine ⟨M', h1, b1, b2, ?_, fun p hp => b5 p (by rw [add_mul, one_mul] at hp; exact hp)⟩
  intro c' i hc' hi
  by_cases e : c' = c
  · subst e; exact b4 i hi
  · exact b3 c' i (by omega) hi

/-- **C100 (no spin).** With one file and no spin the guess is the density of the file at every point, and so is
the first point of the mixing history. -/
theorem guess_from_file (R : Run) (v : ℕ → ℕ → ℝ) (M : Mem) (hs : R.spin = 0) (hf : R.files = 1) :
    ∃ M', readGuess R v M = some M' ∧
      ∀ i, i < R.nd → M'.dens i = some (v 0 i) ∧ (histXk R M').xk i = some (v 0 i) := by
  obtain ⟨M', h1, -, -, h2, -⟩ := readGuess_spec R v M (by simp [Run.cols, hs, hf])
  refine ⟨M', h1, fun i hi => ?_⟩
  have := h2 0 i (by omega) hi
  rw [zero_mul, add_zero] at this
  exact ⟨this, by simp only [histXk, hi, if_true, this]⟩

example : ∃ R : Run, R.spin = 0 ∧ R.files = 1 ∧ 0 < R.nd := ⟨⟨0, 1, 8⟩, rfl, rfl, by decide⟩

/-- **C100 (spin), partial: the history of the mixing is missing.**  With three files and spin all three columns of the
density are those of the files. -/
theorem guess_spin_partial (R : Run) (v : ℕ → ℕ → ℝ) (M : Mem) (hs : R.spin ≠ 0) (hf : R.files = 3) :
    ∃ M', readGuess R v M = some M' ∧
      ∀ c i, c < 3 → i < R.nd → M'.dens (i + c * R.nd) = some (v c i) := by
  obtain ⟨M', h1, -, -, h2, -⟩ := readGuess_spec R v M (by simp [Run.cols, hs, hf])
  exact ⟨M', h1, fun c i hc hi => h2 c i (by omega) hi⟩

example : ∃ R : Run, R.spin ≠ 0 ∧ R.files = 3 ∧ 0 < R.nd := ⟨⟨1, 3, 8⟩, by decide, rfl, by decide⟩

/-- **C100 (band structure).** The files asked for by a band structure without spin or with collinear spin fill the density:
nothing is written outside it and no value of it stays undefined. -/
theorem band_guess (R : Run) (v : ℕ → ℕ → ℝ) (M : Mem) (hs : R.spin = 0 ∨ R.spin = 1) (ha : accepts true R) :
    ∃ M', readGuess R v M = some M' ∧
      ∀ c i, c < (if R.spin = 0 then 1 else 3) → i < R.nd → M'.dens (i + c * R.nd) = some (v c i) := by
  obtain ⟨h1, h2⟩ := ha
  obtain ⟨h3, h4⟩ := h2 rfl
  have hf : R.files = if R.spin = 0 then 1 else 3 := by
    rcases hs with h | h
    · simp only [h, if_true]; by_contra hc; exact h4 ⟨hc, h⟩
    · rw [h]; simp only [one_ne_zero, if_false]; by_contra hc; exact h3 ⟨hc, h⟩
  obtain ⟨M', a1, -, -, a2, -⟩ := readGuess_spec R v M (by rw [hf]; exact le_refl _)
  exact ⟨M', a1, fun c i hc hi => a2 c i (by rw [hf]; exact hc) hi⟩

example : accepts true ⟨1, 3, 8⟩ ∧ accepts true ⟨0, 1, 8⟩ := by simp [accepts]

/-- The code violates the claim: with collinear spin and three files the magnetization is never set, so the first
point of the mixing history holds undefined values where the magnetization of the files belongs. -/
theorem guess_history_undefined (R : Run) (v : ℕ → ℕ → ℝ) (M : Mem) (hs : R.spin = 1) (hf : R.files = 3)
    (hM : ∀ p, M.mag p = none) :
    ∃ M', readGuess R v M = some M' ∧ ∀ i, i < R.nd → (histXk R M').xk (R.nd + i) = none := by
  obtain ⟨M', h1, h2, -⟩ := readGuess_spec R v M (by simp [Run.cols, hs, hf])
  refine ⟨M', h1, fun i hi => ?_⟩
  have a : ¬ (R.nd + i < R.nd) := by omega
  have b : R.spin = 1 ∧ R.nd + i < 2 * R.nd := ⟨hs, by omega⟩
  simp only [histXk]
  rw [if_neg a, if_pos b, h2, hM]

example : ∃ (R : Run) (M : Mem), R.spin = 1 ∧ R.files = 3 ∧ accepts false R ∧ ∀ p, M.mag p = none :=
  ⟨⟨1, 3, 8⟩, ⟨fun _ => none, fun _ => none, fun _ => none⟩, rfl, rfl, by simp [accepts], fun _ => rfl⟩

/-- The code violates the claim: outside band structures three files are let through without spin, and the second is written beyond
the density. -/
theorem guess_overrun (R : Run) (v : ℕ → ℕ → ℝ) (M : Mem) (hs : R.spin = 0) (hf : R.files = 3)
    (hn : 0 < R.nd) : accepts false R ∧ readGuess R v M = none := by
  refine ⟨by simp [accepts, hf], ?_⟩
  obtain ⟨nd, hnd⟩ : ∃ m, R.nd = m + 1 := ⟨R.nd - 1, by omega⟩
  have key : ∀ M : Mem, loop (fun i M =>
    if i + 1 * R.nd < R.nd * R.cols then
      some { M with dens := Function.update M.dens (i + 1 * R.nd) (some (v 1 i)) }
    else none) 0 R.nd M = none := by
    intro M
    have : ¬ (0 + 1 * R.nd < R.nd * R.cols) := by simp [Run.cols, hs]
    conv_lhs => rw [hnd, loop]
    rw [← hnd]
    rw [if_neg this]; rfl
  unfold readGuess
  rw [hf, loop]
  simp only [loop, zero_add]
  rw [Option.bind_eq_none_iff]
  intro M1 _
  rw [key M1]; rfl

example : ∃ R : Run, R.spin = 0 ∧ R.files = 3 ∧ 0 < R.nd := ⟨⟨0, 3, 8⟩, rfl, rfl, by decide⟩

/-- The code violates the claim: outside band structures one file is let through with spin, and the spin parts of the guess keep
whatever the memory held. -/
theorem guess_parts_missing (R : Run) (v : ℕ → ℕ → ℝ) (M : Mem) (hs : R.spin = 1) (hf : R.files = 1)
    (hM : ∀ p, M.dens p = none) :
    accepts false R ∧ ∃ M', readGuess R v M = some M' ∧ ∀ p, R.nd ≤ p → M'.dens p = none := by
  refine ⟨by simp [accepts, hf], ?_⟩
  obtain ⟨M', h1, -, -, -, h2⟩ := readGuess_spec R v M (by simp [Run.cols, hs, hf])
  exact ⟨M', h1, fun p hp => by rw [h2 p (by rw [hf, one_mul]; exact hp), hM]⟩

example : ∃ (R : Run) (M : Mem), R.spin = 1 ∧ R.files = 1 ∧ ∀ p, M.dens p = none :=
  ⟨⟨1, 1, 8⟩, ⟨fun _ => none, fun _ => none, fun _ => none⟩, rfl, rfl, fun _ => rfl⟩

end Sparc.Cube

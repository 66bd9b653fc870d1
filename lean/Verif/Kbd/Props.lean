import Verif.Factor.Props
import Verif.Kbd.Model

/-! # C11: group counts never oversubscribe the machine -/

namespace Sparc.Kbd
open Sparc.Factor

/-- What a caller needs of a triple of group counts. -/
def Fits3 (np : Nat) (t : Nat × Nat × Nat) : Prop :=
  0 < t.1 ∧ 0 < t.2.1 ∧ 0 < t.2.2 ∧ t.1 * t.2.1 * t.2.2 ≤ np

/-- What a caller needs of a quadruple of group counts. -/
def Fits4 (np : Nat) (t : Nat × Nat × Nat × Nat) : Prop :=
  0 < t.1 ∧ 0 < t.2.1 ∧ 0 < t.2.2.1 ∧ 0 < t.2.2.2 ∧ t.1 * t.2.1 * t.2.2.1 * t.2.2.2 ≤ np

theorem cdiv_pos {a b : Nat} (hb : 0 < b) : cdiv a b = some (a / b) := by
  unfold cdiv; rw [if_neg (by omega)]

theorem candidates_some (len np denom : Nat) (hd : 0 < denom) :
    ∃ l, candidates len np denom = some l ∧ ∀ c ∈ l, 0 < c := by
  unfold candidates
  by_cases h : np > denom
  · rw [if_pos h, cdiv_pos hd]
    refine ⟨_, rfl, ?_⟩
    intro c hc
    simp only [List.mem_filter, List.mem_map] at hc
    obtain ⟨⟨i, _, rfl⟩, _⟩ := hc
    have : 0 < np / denom := Nat.div_pos (by omega) hd
    exact Nat.mul_pos this (Nat.succ_pos i)
  · rw [if_neg h]
    refine ⟨_, rfl, ?_⟩
    intro c hc
    simp only [List.mem_map] at hc
    obtain ⟨i, _, rfl⟩ := hc
    omega

theorem fits3_of {np a b : Nat} (ha : 0 < a) (hb : 0 < b) (h : a * b ≤ np) :
    Fits3 np (a, b, np / (a * b)) :=
  ⟨ha, hb, Nat.div_pos h (Nat.mul_pos ha hb), Nat.mul_div_le np (a * b)⟩

theorem kbdLoop_fits {W : Type} (o : Oracle W) (Nk Ns np : Nat) (hk : 0 < Nk) (hs : 0 < Ns)
    (l : List Nat) (hl : ∀ c ∈ l, 0 < c) (cur : Nat × Nat × Nat) (best : W) (hc : Fits3 np cur) :
    ∃ t, kbdLoop o Nk Ns np l cur best = some t ∧ Fits3 np t := by
  induction l generalizing cur best with
  | nil => exact ⟨cur, rfl, hc⟩
  | cons c rest ih =>
    have hcpos : 0 < c := hl c (by simp)
    have hl' : ∀ c ∈ rest, 0 < c := fun x hx => hl x (by simp [hx])
    unfold kbdLoop
    simp only [cdiv_pos hcpos, Option.bind_eq_bind, Option.bind_some]
    by_cases h1 : np / c < 1
    · rw [if_pos h1]; exact ih hl' cur best hc
    · rw [if_neg h1]
      obtain ⟨a, b, he, ha, hb, hab, _⟩ := dims_divide_2d_optimal Nk Ns (np / c) hk hs (by omega)
      have hle : a * b ≤ np := Nat.le_trans hab (Nat.div_le_self np c)
      simp only [he, Option.bind_some, cdiv_pos (Nat.mul_pos ha hb)]
      have hcur : Fits3 np (if o.gt (o.eff np a b (np / (a * b))) best = true then (a, b, np / (a * b)) else cur) := by
        split
        · exact fits3_of ha hb hle
        · exact hc
      by_cases hst : o.stop (o.eff np a b (np / (a * b))) = true
      · rw [if_pos hst]; exact ⟨_, rfl, hcur⟩
      · rw [if_neg hst]; exact ih hl' _ _ hcur

/-- **C11** (k-point/band/domain). -/
theorem kbd_fits {W : Type} (o : Oracle W) (Nk Ns np : Nat) (hk : 0 < Nk) (hs : 0 < Ns)
    (hp : 0 < np) : ∃ t, kbd o Nk Ns np = some t ∧ Fits3 np t := by
  have h1 : 0 < min np Nk := by omega
  have h2 : 0 < np / min np Nk := Nat.div_pos (by omega) h1
  have h3 : 0 < min (np / min np Nk) Ns := by omega
  have hm : min np Nk * min (np / min np Nk) Ns ≤ np :=
    Nat.le_trans (Nat.mul_le_mul_left _ (Nat.min_le_left _ _)) (Nat.mul_div_le np _)
  have hf := fits3_of h1 h3 hm
  unfold kbd
  simp only [cdiv_pos h1, cdiv_pos (Nat.mul_pos h1 h3), Option.bind_eq_bind, Option.bind_some]
  split
  · exact ⟨_, rfl, hf⟩
  · obtain ⟨l, hl, hpos⟩ := candidates_some 8 np (Nk * Ns) (Nat.mul_pos hk hs)
    rw [hl, Option.bind_some]
    exact kbdLoop_fits o Nk Ns np hk hs l hpos _ _ hf

theorem fits3_swap {np a b c : Nat} (ha : 0 < a) (hb : 0 < b) (hc : 0 < c) (h : a * b * c ≤ np) :
    Fits3 np (a, c, b) := ⟨ha, hc, hb, by
      show a * c * b ≤ np
      rw [Nat.mul_right_comm]; exact h⟩

theorem fockLoop_fits {W : Type} (o : Oracle W) (Nk np : Nat) (hk : 0 < Nk)
    (l : List Nat) (hl : ∀ c ∈ l, 0 < c) (cur : Nat × Nat × Nat) (best : W) (hc : Fits3 np cur) :
    ∃ t, fockLoop o Nk np l cur best = some t ∧ Fits3 np t := by
  induction l generalizing cur best with
  | nil => exact ⟨cur, rfl, hc⟩
  | cons c rest ih =>
    have hcpos : 0 < c := hl c (by simp)
    have hl' : ∀ c ∈ rest, 0 < c := fun x hx => hl x (by simp [hx])
    unfold fockLoop
    simp only [cdiv_pos hcpos, Option.bind_eq_bind, Option.bind_some]
    by_cases h1 : np / c < 1
    · rw [if_pos h1]; exact ih hl' cur best hc
    · rw [if_neg h1]
      have hnp : np / c ≤ np := Nat.div_le_self np c
      generalize np / c = q at *
      have a1 : 0 < min q Nk := by omega
      have a2 : 0 < q / min q Nk := Nat.div_pos (by omega) a1
      have a3 : min q Nk * (q / min q Nk) ≤ np := Nat.le_trans (Nat.mul_div_le q _) hnp
      have a4 : 0 < min q Nk * (q / min q Nk) := Nat.mul_pos a1 a2
      simp only [cdiv_pos a1, cdiv_pos a4, Option.bind_some]
      generalize min q Nk = a at *
      generalize q / a = b at *
      have hf : Fits3 np (a, np / (a * b), b) :=
        fits3_swap a1 a2 (Nat.div_pos a3 a4) (Nat.mul_div_le np (a * b))
      have hcur : Fits3 np (if o.gt (o.eff np a (np / (a * b)) b) best = true then (a, np / (a * b), b) else cur) := by
        split
        · exact hf
        · exact hc
      by_cases hst : o.stop (o.eff np a (np / (a * b)) b) = true
      · rw [if_pos hst]; exact ⟨_, rfl, hcur⟩
      · rw [if_neg hst]; exact ih hl' _ _ hcur

theorem npdMax_pos (g : Nat × Nat × Nat) (ms : Nat) (hm : 0 < ms) (h1 : ms ≤ g.1) (h2 : ms ≤ g.2.1)
    (h3 : ms ≤ g.2.2) : ∃ m, npdMax g ms = some m ∧ 0 < m := by
  unfold npdMax
  simp only [cdiv_pos hm, Option.bind_eq_bind, Option.bind_some]
  exact ⟨_, rfl, Nat.mul_pos (Nat.mul_pos (Nat.div_pos h1 hm) (Nat.div_pos h2 hm)) (Nat.div_pos h3 hm)⟩

/-- **C11** (hybrid functionals); needs the grid to be at least `minsize` in every
direction, otherwise the C code divides by zero (`kbdFock_div_zero`). -/
theorem kbdFock_fits {W : Type} (o : Oracle W) (Nk Ns : Nat) (g : Nat × Nat × Nat) (np ms : Nat)
    (hk : 0 < Nk) (hs : 0 < Ns) (hp : 0 < np) (hm : 0 < ms) (h1 : ms ≤ g.1) (h2 : ms ≤ g.2.1)
    (h3 : ms ≤ g.2.2) : ∃ t, kbdFock o Nk Ns g np ms = some t ∧ Fits3 np t := by
  obtain ⟨m, hme, hmpos⟩ := npdMax_pos g ms hm h1 h2 h3
  have a1 : 0 < min np Nk := by omega
  have a2 : 0 < np / min np Nk := Nat.div_pos (by omega) a1
  have a3 : 0 < min m (np / min np Nk) := by omega
  have a4 : min np Nk * min m (np / min np Nk) ≤ np :=
    Nat.le_trans (Nat.mul_le_mul_left _ (Nat.min_le_right _ _)) (Nat.mul_div_le np _)
  have a5 := Nat.mul_pos a1 a3
  unfold kbdFock
  simp only [hme, cdiv_pos a1, cdiv_pos a5, Option.bind_eq_bind, Option.bind_some]
  generalize min m (np / min np Nk) = b at *
  generalize min np Nk = a at *
  have a6 : 0 < np / (a * b) := Nat.div_pos a4 a5
  have hf : Fits3 np (a, min (np / (a * b)) Ns, b) :=
    fits3_swap a1 a3 (by omega)
      (Nat.le_trans (Nat.mul_le_mul_left _ (Nat.min_le_left _ _)) (Nat.mul_div_le np (a * b)))
  split
  · exact ⟨_, rfl, hf⟩
  · obtain ⟨l, hl, hpos⟩ := candidates_some 20 np (Nk * m) (Nat.mul_pos hk hmpos)
    rw [hl, Option.bind_some]
    exact fockLoop_fits o Nk np hk l hpos _ _ hf

theorem naive_fits (Nspin Nk Ns : Nat) (g : Nat × Nat × Nat) (np ms : Nat) (isfock : Bool)
    (hsp : 0 < Nspin) (hk : 0 < Nk) (hs : 0 < Ns) (hp : 0 < np) (hm : 0 < ms)
    (h1 : ms ≤ g.1) (h2 : ms ≤ g.2.1) (h3 : ms ≤ g.2.2) :
    ∃ t, naive Nspin Nk Ns g np ms isfock = some t ∧ Fits4 np t := by
  have a1 : 0 < min Nspin np := by omega
  have a2 : 0 < np / min Nspin np := Nat.div_pos (by omega) a1
  have a3 : 0 < min Nk (np / min Nspin np) := by omega
  have a4 : min Nspin np * min Nk (np / min Nspin np) ≤ np :=
    Nat.le_trans (Nat.mul_le_mul_left _ (Nat.min_le_right _ _)) (Nat.mul_div_le np _)
  have a5 := Nat.mul_pos a1 a3
  unfold naive
  simp only [cdiv_pos a1, Option.bind_eq_bind, Option.bind_some]
  generalize min Nk (np / min Nspin np) = b at *
  generalize min Nspin np = a at *
  have a6 : 0 < np / (a * b) := Nat.div_pos a4 a5
  cases isfock with
  | false =>
    have c1 : 0 < min Ns (np / (a * b)) := by omega
    have c2 : a * b * min Ns (np / (a * b)) ≤ np :=
      Nat.le_trans (Nat.mul_le_mul_left _ (Nat.min_le_right _ _)) (Nat.mul_div_le np _)
    simp only [Bool.false_eq_true, if_false, cdiv_pos a5, Option.bind_some, cdiv_pos (Nat.mul_pos a5 c1)]
    exact ⟨_, rfl, a1, a3, c1, Nat.div_pos c2 (Nat.mul_pos a5 c1), Nat.mul_div_le np _⟩
  | true =>
    obtain ⟨m, hme, hmpos⟩ := npdMax_pos g ms hm h1 h2 h3
    have c1 : 0 < min m (np / (a * b)) := by omega
    have c2 : a * b * min m (np / (a * b)) ≤ np :=
      Nat.le_trans (Nat.mul_le_mul_left _ (Nat.min_le_right _ _)) (Nat.mul_div_le np _)
    simp only [if_true, hme, cdiv_pos a5, Option.bind_some, cdiv_pos (Nat.mul_pos a5 c1)]
    refine ⟨_, rfl, a1, a3, Nat.div_pos c2 (Nat.mul_pos a5 c1), c1, ?_⟩
    show a * b * (np / (a * b * min m (np / (a * b)))) * min m (np / (a * b)) ≤ np
    rw [Nat.mul_right_comm]
    exact Nat.mul_div_le np _

theorem fits4_of_fits3 {np n s : Nat} (hs : 0 < s) (h : n * s ≤ np) {t : Nat × Nat × Nat}
    (ht : Fits3 n t) : Fits4 np (s, t.1, t.2.1, t.2.2) := by
  refine ⟨hs, ht.1, ht.2.1, ht.2.2.1, ?_⟩
  have h4 := ht.2.2.2
  show s * t.1 * t.2.1 * t.2.2 ≤ np
  calc s * t.1 * t.2.1 * t.2.2 = s * (t.1 * t.2.1 * t.2.2) := by
        rw [Nat.mul_assoc, Nat.mul_assoc, Nat.mul_assoc]
    _ ≤ s * n := Nat.mul_le_mul_left s h4
    _ ≤ np := by rw [Nat.mul_comm]; exact h

/-- **C11.** For every problem size, process count and every possible outcome of the
floating-point efficiency comparisons, the automatic choice is well defined (no division
by zero), every group count is positive and their product is at most the number of
processes. -/
theorem skbd_fits {W : Type} (o : Oracle W) (Nspin Nk Ns : Nat) (g : Nat × Nat × Nat)
    (np ms : Nat) (isfock : Bool) (hsp : Nspin = 1 ∨ Nspin = 2) (hk : 0 < Nk) (hs : 0 < Ns)
    (hp : 0 < np) (hm : 0 < ms) (h1 : ms ≤ g.1) (h2 : ms ≤ g.2.1) (h3 : ms ≤ g.2.2) :
    ∃ t, skbd o Nspin Nk Ns g np ms isfock = some t ∧ Fits4 np t := by
  obtain ⟨c0, hc0, hf0⟩ := naive_fits Nspin Nk Ns g np ms isfock (by omega) hk hs hp hm h1 h2 h3
  have hk1 : ∀ n, 0 < n → ∃ t, kbdAny o Nk Ns g ms isfock n = some t ∧
      Fits3 n t := by
    intro n hn
    unfold kbdAny
    split
    · exact kbdFock_fits o Nk Ns g n ms hk hs hn hm h1 h2 h3
    · exact kbd_fits o Nk Ns n hk hs hn
  obtain ⟨k1, hk1e, hk1f⟩ := hk1 (np / 1) (by simpa using hp)
  unfold skbd
  rw [if_neg (by omega)]
  simp only [hc0, hk1e, Option.bind_eq_bind, Option.bind_some]
  have hc1 : Fits4 np (if o.gt (o.seff 1 k1.1 k1.2.1 k1.2.2) (o.seff c0.1 c0.2.1 c0.2.2.1 c0.2.2.2) = true
      then (1, k1.1, k1.2.1, k1.2.2) else c0) := by
    split
    · exact fits4_of_fits3 (by omega) (by simp) hk1f
    · exact hf0
  by_cases h : Nspin > 1 ∧ np > 1
  · rw [if_pos h]
    obtain ⟨k2, hk2e, hk2f⟩ := hk1 (np / 2) (by omega)
    simp only [hk2e, Option.bind_some]
    refine ⟨_, rfl, ?_⟩
    generalize (if o.gt (o.seff 1 k1.1 k1.2.1 k1.2.2) (o.seff c0.1 c0.2.1 c0.2.2.1 c0.2.2.2) = true
      then (1, k1.1, k1.2.1, k1.2.2) else c0) = c1 at *
    generalize (if o.gt (o.seff 1 k1.1 k1.2.1 k1.2.2) (o.seff c0.1 c0.2.1 c0.2.2.1 c0.2.2.2) = true
      then o.seff 1 k1.1 k1.2.1 k1.2.2 else o.seff c0.1 c0.2.1 c0.2.2.1 c0.2.2.2) = w1 at *
    split
    · exact fits4_of_fits3 (n := np / 2) (s := 2) (by omega) (by omega) hk2f
    · exact hc1
  · rw [if_neg h]; exact ⟨_, rfl, hc1⟩

/-- An oracle accepting nothing early, used for the non-vacuity example. -/
def demoOracle : Oracle Nat := ⟨fun _ a b c => a + b + c, fun a b => decide (a > b), fun _ => false,
  fun _ => false, fun a b c d => a + b + c + d, fun a b => decide (a ≥ b)⟩

example : ∃ t, skbd demoOracle 2 3 17 (30, 30, 30) 48 6 true = some t ∧ Fits4 48 t :=
  skbd_fits demoOracle 2 3 17 (30, 30, 30) 48 6 true (by decide) (by decide) (by decide) (by decide)
    (by decide) (by decide) (by decide) (by decide)

/-- The hypothesis on the grid is needed: with a direction shorter than `minsize` the
hybrid variant divides by zero. -/
theorem kbdFock_div_zero {W : Type} (o : Oracle W) :
    kbdFock o 1 10 (5, 30, 30) 4 6 = none := by
  simp [kbdFock, npdMax, cdiv]

end Sparc.Kbd

import Verif.Resid.Model
import Verif.Pred.Props

/-!
# Properties of the linear system of the training (C119)
-/

namespace Sparc.Resid
open Finset Sparc.Kern Sparc.Pred

variable {m : ℕ}

theorem energy_plain (T : Par) {S : Sys m} (hs : Split S) {j : ℕ} (hj : j < S.ncols) :
    (scaled T S).predict 0 0 j = (plain S).predict 0 0 j := by
  rw [energy_row (S := scaled T S) hs hj, energy_row (S := plain S) hs hj]
  rfl

theorem force_plain (T : Par) {S : Sys m} (hs : Split S) {p n j : ℕ} (hp : p < S.nproc) (hn : n < 3 * (S.dom p).length)
    (hj : j < S.ncols) :
    (scaled T S).predict p (if p = 0 then n + 1 + S.slen else n) j =
      T.sE / T.sF * T.relF * (plain S).predict p (if p = 0 then n + 1 + S.slen else n) j := by
  have hq : n / 3 < (S.dom p).length := by omega
  have ha : (S.dom p)[n / 3]! < S.natom := by
    have hmem : (S.dom p)[n / 3]! ∈ S.dom p := by
      rw [getElem!_pos (S.dom p) _ hq]; exact List.getElem_mem _
    have : (S.dom p)[n / 3]! ∈ (List.range S.nproc).flatMap S.dom :=
      List.mem_flatMap.2 ⟨p, List.mem_range.2 hp, hmem⟩
    exact List.mem_range.1 (hs.mem_iff.1 this)
  have hrow : ∀ R : Sys m, R.slen = S.slen → R.dom = S.dom →
      R.rowOf p (if p = 0 then n + 1 + S.slen else n) = 3 * (S.dom p)[n / 3]! + 1 + n % 3 := by
    intro R h1 h2
    unfold Sys.rowOf
    rw [h1, h2]
    by_cases h : p = 0
    · simp only [h, if_true]
      have e1 : n + 1 + S.slen - 1 - S.slen = n := by omega
      rw [if_neg (by omega), if_neg (by omega), e1]
    · simp only [h, if_false]
  unfold Sys.predict
  rw [hrow (scaled T S) rfl rfl, hrow (plain S) rfl rfl]
  have h1 := forces_place (S := scaled T S) hs (a := (S.dom p)[n / 3]!) (c := n % 3) (j := j) ha (Nat.mod_lt _ (by omega)) hj
  have h2 := forces_place (S := plain S) hs (a := (S.dom p)[n / 3]!) (c := n % 3) (j := j) ha (Nat.mod_lt _ (by omega)) hj
  rw [h1, h2]
  show T.sE / T.sF * T.relF * _ = T.sE / T.sF * T.relF * (1 * _)
  rw [one_mul]
  rfl

theorem stress_plain (T : Par) {S : Sys m} (hs : Split S) (hnl : ∀ i, ∀ b ∈ S.nl i, b < S.natom) (hlen : S.press = true → S.slen = 1)
    {s j : ℕ} (hsl : s < S.slen) (hj : j < S.ncols) :
    (scaled T S).predict 0 (1 + s) j = T.sE / T.sS s * T.relS s * (plain S).predict 0 (1 + s) j := by
  have hrow : ∀ R : Sys m, R.slen = S.slen → R.natom = S.natom → R.rowOf 0 (1 + s) = 3 * S.natom + 1 + s := by
    intro R h1 h2
    unfold Sys.rowOf
    rw [h1, h2, if_pos rfl, if_neg (by omega), if_pos (by omega)]
    omega
  unfold Sys.predict
  rw [hrow (scaled T S) rfl rfl, hrow (plain S) rfl rfl]
  show (scaled T S).assembled ((3 * S.natom + 1 + s) * S.ncols + j) =
    T.sE / T.sS s * T.relS s * (plain S).assembled ((3 * S.natom + 1 + s) * S.ncols + j)
  unfold Sys.assembled
  have e1 := all_atoms (S := scaled T S) hs fun i =>
    (scaled T S).addE i ((3 * S.natom + 1 + s) * S.ncols + j) + (scaled T S).addF i ((3 * S.natom + 1 + s) * S.ncols + j) +
      (scaled T S).addS i ((3 * S.natom + 1 + s) * S.ncols + j)
  have e2 := all_atoms (S := plain S) hs fun i =>
    (plain S).addE i ((3 * S.natom + 1 + s) * S.ncols + j) + (plain S).addF i ((3 * S.natom + 1 + s) * S.ncols + j) +
      (plain S).addS i ((3 * S.natom + 1 + s) * S.ncols + j)
  rw [e1, e2, mul_sum]
  refine sum_congr rfl fun i hi => ?_
  have hi' : i < S.natom := mem_range.1 hi
  have r1 : 3 * S.natom + 1 + s = 3 * S.natom + s + 1 := by ring
  have hE1 : (scaled T S).addE i ((3 * S.natom + 1 + s) * S.ncols + j) = 0 := by
    rw [r1]; exact energy_elsewhere (scaled T S) i _ hj
  have hE2 : (plain S).addE i ((3 * S.natom + 1 + s) * S.ncols + j) = 0 := by
    rw [r1]; exact energy_elsewhere (plain S) i _ hj
  have hF1 : (scaled T S).addF i ((3 * S.natom + 1 + s) * S.ncols + j) = 0 := force_elsewhere (scaled T S) hnl hi' s hj
  have hF2 : (plain S).addF i ((3 * S.natom + 1 + s) * S.ncols + j) = 0 := force_elsewhere (plain S) hnl hi' s hj
  rw [hE1, hE2, hF1, hF2, zero_add, zero_add]
  simp only [zero_add]
  unfold Sys.addS
  show (∑ j' ∈ range S.ncols, _) = _ * (∑ j' ∈ range S.ncols, _)
  rw [mul_sum]
  refine sum_congr rfl fun j' hj' => ?_
  show (if S.typ j' = S.el i then _ else _) = _ * (if S.typ j' = S.el i then _ else _)
  by_cases hel : S.typ j' = S.el i
  · rw [if_pos hel, if_pos hel]
    show (if S.press = true then _ else _) = _ * (if S.press = true then _ else _)
    by_cases hpr : S.press = true
    · have h0 : s = 0 := by have := hlen hpr; omega
      subst h0
      rw [if_pos hpr, if_pos hpr, mul_sum]
      refine sum_congr rfl fun q _ => ?_
      rw [mul_ite, mul_zero]
      refine if_congr Iff.rfl ?_ rfl
      show -(1 / 3 * (1 / S.vol) * (T.sE / T.sS 0 * T.relS 0) * S.xi * S.kernel i j' * dot (S.z i j') _) =
        T.sE / T.sS 0 * T.relS 0 * -(1 / 3 * (1 / S.vol) * 1 * S.xi * S.kernel i j' * dot (S.z i j') _)
      generalize T.sE / T.sS 0 * T.relS 0 = u
      have : ∀ a b : ℝ, a = b → -(1 / 3 * (1 / S.vol) * u * S.xi * S.kernel i j' * a) =
        u * -(1 / 3 * (1 / S.vol) * 1 * S.xi * S.kernel i j' * b) := fun a b h => by rw [h]; ring
      exact this _ _ rfl
    · rw [if_neg hpr, if_neg hpr, mul_sum]
      refine sum_congr rfl fun q _ => ?_
      rw [mul_ite, mul_zero]
      by_cases hpl : (3 * S.natom + 1 + q) * S.ncols + j' = (3 * S.natom + 1 + s) * S.ncols + j
      · have hqs : q = s := by
          have := (place_inj (mem_range.1 hj') hj hpl).1
          omega
        subst hqs
        rw [if_pos (show (3 * (scaled T S).natom + 1 + q) * (scaled T S).ncols + j' = _ from hpl),
          if_pos (show (3 * (plain S).natom + 1 + q) * (plain S).ncols + j' = _ from hpl)]
        show 1 / S.vol * (T.sE / T.sS q * T.relS q) * S.xi * S.kernel i j' * dot (S.z i j') (S.DF i q) =
          T.sE / T.sS q * T.relS q * (1 / S.vol * 1 * S.xi * S.kernel i j' * dot (S.z i j') (S.DF i q))
        ring
      · rw [if_neg (show ¬ (3 * (scaled T S).natom + 1 + q) * (scaled T S).ncols + j' = _ from hpl),
          if_neg (show ¬ (3 * (plain S).natom + 1 + q) * (plain S).ncols + j' = _ from hpl)]
  · rw [if_neg hel, if_neg hel, mul_zero]

/-- Structures with the same columns, distribution of atoms and components of the stress. -/
def Alike (str : ℕ → Sys m) : Prop := ∀ k, (str k).ncols = (str 0).ncols ∧ (str k).nproc = (str 0).nproc ∧
  (str k).slen = (str 0).slen ∧ (∀ p, (str k).dom p = (str 0).dom p)

/-- Row of the energy of structure `k`: the error of the predicted energy in units of the spread of the energies. -/
theorem energy_residual (T : Par) {str : ℕ → Sys m} (hal : Alike str) (b : ℕ → ℝ) (k : ℕ) (hs : Split (str k)) (hE : T.sE ≠ 0) :
    residual T str b 0 (k * (1 + (str 0).slen + 3 * ((str 0).dom 0).length)) =
      (energy T (str k) - b (k * (1 + (str 0).slen + 3 * ((str 0).dom 0).length))) / T.sE := by
  obtain ⟨h1, h2, h3, h4⟩ := hal k
  set B := 1 + (str 0).slen + 3 * ((str 0).dom 0).length with hB
  have hBp : 0 < B := by omega
  have hr : rows (str 0) 0 = B := by simp only [rows, if_true]; omega
  unfold residual aScaled bScaled scale kTrain energy bPredict
  simp only [if_true, ← hB, hr, Nat.mul_mod_left, Nat.mul_div_cancel _ hBp, one_mul]
  rw [h1]
  have : ∀ j ∈ range (str 0).ncols, (plain (str k)).predict 0 0 j * T.w j = (scaled T (str k)).predict 0 0 j * T.w j := by
    intro j hj
    rw [energy_plain T hs (by rw [h1]; exact mem_range.1 hj)]
  rw [sum_congr rfl this]
  field_simp
  ring

/-- Rows of the forces, on every process: the error of the predicted force component in units of its spread, times its relative weight. -/
theorem force_residual (T : Par) {str : ℕ → Sys m} (hal : Alike str) (b : ℕ → ℝ) (k : ℕ) (hs : Split (str k)) (hF : T.sF ≠ 0)
    (hR : T.relF ≠ 0) {p n : ℕ} (hp : p < (str 0).nproc) (hn : n < 3 * ((str 0).dom p).length) (i : ℕ)
    (hi : i = if p = 0 then k * (1 + (str 0).slen + 3 * ((str 0).dom 0).length) + (1 + (str 0).slen + n)
      else k * (3 * ((str 0).dom p).length) + n) :
    residual T str b p i = (localF T (str k) p n - b i) / T.sF * T.relF := by
  obtain ⟨h1, h2, h3, h4⟩ := hal k
  have key : residual T str b p i = ∑ j ∈ range (str 0).ncols,
        T.sE / T.sF * T.relF * (plain (str k)).predict p (if p = 0 then n + 1 + (str k).slen else n) j * T.w j -
      1 / T.sF * b i * T.relF := by
    by_cases h : p = 0
    · subst h
      simp only [if_true] at hi ⊢
      have hBp : 0 < 1 + (str 0).slen + 3 * ((str 0).dom 0).length := by omega
      have hr : rows (str 0) 0 = 1 + (str 0).slen + 3 * ((str 0).dom 0).length := by simp only [rows, if_true]; omega
      have hm : i % (1 + (str 0).slen + 3 * ((str 0).dom 0).length) = 1 + (str 0).slen + n := by
        rw [hi, Nat.mul_add_mod_self_right]; exact Nat.mod_eq_of_lt (by omega)
      have hdv : i / (1 + (str 0).slen + 3 * ((str 0).dom 0).length) = k := by
        rw [hi, mul_comm, Nat.mul_add_div hBp, Nat.div_eq_of_lt (by omega), add_zero]
      unfold residual aScaled bScaled scale kTrain
      simp only [if_true, hr, hm, hdv]
      rw [if_neg (by omega), if_neg (by omega), if_neg (by omega), if_neg (by omega), h3,
        show n + 1 + (str 0).slen = 1 + (str 0).slen + n by ring]
    · simp only [h, if_false] at hi ⊢
      have hBp : 0 < 3 * ((str 0).dom p).length := by omega
      have hr : rows (str 0) p = 3 * ((str 0).dom p).length := by simp only [rows, h, if_false]
      have hm : i % (3 * ((str 0).dom p).length) = n := by
        rw [hi, Nat.mul_add_mod_self_right]; exact Nat.mod_eq_of_lt hn
      have hdv : i / (3 * ((str 0).dom p).length) = k := by
        rw [hi, mul_comm, Nat.mul_add_div hBp, Nat.div_eq_of_lt hn, add_zero]
      unfold residual aScaled bScaled scale kTrain
      simp only [h, if_false, hr, hm, hdv]
  have hloc : localF T (str k) p n = (∑ j ∈ range (str 0).ncols,
      T.sE / T.sF * T.relF * (plain (str k)).predict p (if p = 0 then n + 1 + (str k).slen else n) j * T.w j) * T.sF * (1 / T.relF) := by
    have : localF T (str k) p n = bPredict T (str k) p (if p = 0 then n + 1 + (str k).slen else n) * T.sF * (1 / T.relF) := by
      unfold localF
      by_cases h : p = 0
      · rw [if_pos h, if_pos h]
      · rw [if_neg h, if_neg h]
    rw [this]
    unfold bPredict
    rw [h1]
    congr 2
    refine sum_congr rfl fun j hj => ?_
    rw [force_plain T hs (by rw [h2]; exact hp) (by rw [h4]; exact hn) (by rw [h1]; exact mem_range.1 hj)]
  rw [key, hloc]
  field_simp

/-- Rows of the stress or the pressure. -/
theorem stress_residual (T : Par) {str : ℕ → Sys m} (hal : Alike str) (b : ℕ → ℝ) (k : ℕ) (hs : Split (str k))
    (hnl : ∀ i, ∀ b ∈ (str k).nl i, b < (str k).natom) (hlen : (str k).press = true → (str k).slen = 1)
    {s : ℕ} (hsl : s < (str 0).slen) (hS : T.sS s ≠ 0) (hR : T.relS s ≠ 0) (i : ℕ)
    (hi : i = k * (1 + (str 0).slen + 3 * ((str 0).dom 0).length) + (1 + s)) :
    residual T str b 0 i = (stress T (str k) s - b i) / T.sS s * T.relS s := by
  obtain ⟨h1, h2, h3, h4⟩ := hal k
  have hBp : 0 < 1 + (str 0).slen + 3 * ((str 0).dom 0).length := by omega
  have hr : rows (str 0) 0 = 1 + (str 0).slen + 3 * ((str 0).dom 0).length := by simp only [rows, if_true]; omega
  have hm : i % (1 + (str 0).slen + 3 * ((str 0).dom 0).length) = 1 + s := by
    rw [hi, Nat.mul_add_mod_self_right]; exact Nat.mod_eq_of_lt (by omega)
  have hdv : i / (1 + (str 0).slen + 3 * ((str 0).dom 0).length) = k := by
    rw [hi, mul_comm, Nat.mul_add_div hBp, Nat.div_eq_of_lt (by omega), add_zero]
  have hst : stress T (str k) s = (∑ j ∈ range (str 0).ncols,
      T.sE / T.sS s * T.relS s * (plain (str k)).predict 0 (1 + s) j * T.w j) * T.sS s * (1 / T.relS s) := by
    unfold stress bPredict
    rw [h1]
    congr 2
    refine sum_congr rfl fun j hj => ?_
    rw [stress_plain T hs hnl hlen (by omega) (by rw [h1]; exact mem_range.1 hj)]
  rw [hst]
  unfold residual aScaled bScaled scale kTrain
  simp only [if_true, hr, hm, hdv]
  rw [if_neg (by omega), if_pos ⟨by omega, by omega⟩, if_neg (by omega), if_pos ⟨by omega, by omega⟩, Nat.add_sub_cancel_left]
  field_simp

/-- Not so after structures of another size (read from a file): if the first had fewer atoms on the first process than the present
system has, the energy row of the second is scaled as that of a force, and the mean energy is not subtracted. -/
theorem other_size (T : Par) {S R : Sys m} (b : ℕ → ℝ) (hlen : R.slen = S.slen) (h0 : 0 < (R.dom 0).length)
    (hlt : (R.dom 0).length < (S.dom 0).length) :
    scale T S 0 (rows R 0) = T.sE / T.sF * T.relF ∧ bScaled T S b 0 (rows R 0) = b (rows R 0) / T.sF * T.relF := by
  have hr : rows R 0 = 3 * (R.dom 0).length + 1 + S.slen := by simp only [rows, if_true, hlen]
  have hm : (3 * (R.dom 0).length + 1 + S.slen) % (1 + S.slen + 3 * (S.dom 0).length) = 3 * (R.dom 0).length + 1 + S.slen :=
    Nat.mod_eq_of_lt (by omega)
  unfold scale bScaled
  simp only [if_true, hr, hm]
  rw [if_neg (by omega), if_neg (by omega), if_neg (by omega), if_neg (by omega)]
  exact ⟨rfl, by ring⟩

example : Alike (fun _ => Pred.exS) ∧ Split Pred.exS ∧ Pred.exT.sE ≠ 0 :=
  ⟨fun _ => ⟨rfl, rfl, rfl, fun _ => rfl⟩, split_blocks (S := Pred.exS) Nat.one_pos rfl, one_ne_zero⟩

end Sparc.Resid

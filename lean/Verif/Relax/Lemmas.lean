import Verif.Relax.Model
import Mathlib.Algebra.Order.BigOperators.Ring.Finset
import Mathlib.Algebra.Order.Chebyshev

/-! # Structural relaxation: auxiliary facts -/

namespace Sparc.Relax

open Finset

variable {n : ℕ}

theorem dot_comm (a b : V n) : dot a b = dot b a := by
  unfold dot
  exact sum_congr rfl fun i _ => mul_comm _ _

theorem dot_add (a b c : V n) : dot a (b + c) = dot a b + dot a c := by
  unfold dot
  rw [← sum_add_distrib]
  exact sum_congr rfl fun i _ => mul_add _ _ _

theorem dot_smul (a b : V n) (t : ℝ) : dot a (t • b) = t * dot a b := by
  unfold dot
  rw [mul_sum]
  exact sum_congr rfl fun i _ => by simp only [Pi.smul_apply, smul_eq_mul]; ring

theorem dot_sub (a b c : V n) : dot a (b - c) = dot a b - dot a c := by
  unfold dot
  rw [← sum_sub_distrib]
  exact sum_congr rfl fun i _ => mul_sub _ _ _

theorem add_dot (a b c : V n) : dot (a + b) c = dot a c + dot b c := by
  rw [dot_comm, dot_add, dot_comm c, dot_comm c]

theorem smul_dot (a b : V n) (t : ℝ) : dot (t • a) b = t * dot a b := by
  rw [dot_comm, dot_smul, dot_comm b]

theorem sub_dot (a b c : V n) : dot (a - b) c = dot a c - dot b c := by
  rw [dot_comm, dot_sub, dot_comm c, dot_comm c]

theorem dot_zero (a : V n) : dot a 0 = 0 := by simp [dot]

theorem dot_self_nonneg (a : V n) : 0 ≤ dot a a := sum_nonneg fun i _ => mul_self_nonneg _

theorem dot_self_eq_zero {a : V n} : dot a a = 0 ↔ a = 0 := by
  unfold dot
  rw [sum_eq_zero_iff_of_nonneg fun i _ => mul_self_nonneg _]
  constructor
  · intro h
    funext i
    exact mul_self_eq_zero.1 (h i (mem_univ i))
  · rintro rfl i -
    simp

theorem dot_self_pos {a : V n} (h : a ≠ 0) : 0 < dot a a :=
  lt_of_le_of_ne (dot_self_nonneg a) fun h' => h (dot_self_eq_zero.1 h'.symm)

theorem norm_sq (a : V n) : norm a ^ 2 = dot a a := by
  unfold norm dot
  rw [Real.sq_sqrt (sum_nonneg fun i _ => sq_nonneg _)]
  exact sum_congr rfl fun i _ => sq _

theorem norm_nonneg (a : V n) : 0 ≤ norm a := Real.sqrt_nonneg _

theorem norm_eq_zero {a : V n} : norm a = 0 ↔ a = 0 := by
  rw [← dot_self_eq_zero, ← norm_sq]
  exact ⟨fun h => by rw [h]; norm_num, fun h => by simpa using h⟩

theorem norm_pos {a : V n} (h : a ≠ 0) : 0 < norm a :=
  lt_of_le_of_ne (norm_nonneg a) fun h' => h (norm_eq_zero.1 h'.symm)

theorem norm_smul (t : ℝ) (a : V n) : norm (t • a) = |t| * norm a := by
  have h : norm (t • a) ^ 2 = (|t| * norm a) ^ 2 := by
    rw [norm_sq, mul_pow, norm_sq, sq_abs, smul_dot, dot_smul]
    ring
  exact (pow_left_inj₀ (norm_nonneg _) (mul_nonneg (abs_nonneg _) (norm_nonneg _)) two_ne_zero).1 h

theorem cauchy (a b : V n) : |dot a b| ≤ norm a * norm b := by
  have h : dot a b ^ 2 ≤ (norm a * norm b) ^ 2 := by
    rw [mul_pow, norm_sq, norm_sq]
    have := sum_mul_sq_le_sq_mul_sq univ a b
    unfold dot
    simpa only [← sq] using this
  exact abs_le_of_sq_le_sq h (mul_nonneg (norm_nonneg _) (norm_nonneg _))

theorem norm_add_le (a b : V n) : norm (a + b) ≤ norm a + norm b := by
  refine abs_le_of_sq_le_sq' ?_ (add_nonneg (norm_nonneg _) (norm_nonneg _)) |>.2
  have := (abs_le.1 (cauchy a b)).2
  have e : norm (a + b) ^ 2 = norm a ^ 2 + 2 * dot a b + norm b ^ 2 := by
    rw [norm_sq, norm_sq, norm_sq, add_dot, dot_add, dot_add, dot_comm b a]
    ring
  rw [e]
  nlinarith

theorem along_norm {f : V n} (h : f ≠ 0) : norm (along f) = 1 := by
  have e : along f = (1 / norm f) • f := by
    funext i
    simp only [along, Pi.smul_apply, smul_eq_mul]
    ring
  have := norm_pos h
  rw [e, norm_smul, abs_of_pos (by positivity)]
  field_simp

theorem along_dot {f : V n} : dot f (along f) = norm f := by
  have e : along f = (1 / norm f) • f := by
    funext i
    simp only [along, Pi.smul_apply, smul_eq_mul]
    ring
  rw [e, dot_smul, ← norm_sq]
  by_cases h : norm f = 0
  · rw [h]; norm_num
  · field_simp

/-! ### `sup` -/

theorem sup_foldl (v : V n) (l : List (Fin n)) (e : ℝ) :
    e ≤ l.foldl (fun e i => if |v i| > e then |v i| else e) e ∧
    ∀ t, e ≤ t → (l.foldl (fun e i => if |v i| > e then |v i| else e) e ≤ t ↔ ∀ i ∈ l, |v i| ≤ t) := by
  induction l generalizing e with
  | nil => simp
  | cons a l ih =>
    rw [List.foldl_cons]
    obtain ⟨h1, h2⟩ := ih (if |v a| > e then |v a| else e)
    have he : e ≤ if |v a| > e then |v a| else e := by split_ifs with h <;> linarith
    refine ⟨he.trans h1, fun t ht => ?_⟩
    simp only [List.mem_cons, forall_eq_or_imp]
    by_cases h : (if |v a| > e then |v a| else e) ≤ t
    · rw [h2 t h]
      have : |v a| ≤ t := by
        split_ifs at h with h'
        · exact h
        · exact (not_lt.1 h').trans ht
      simp [this]
    · constructor
      · intro h'
        exact absurd (h1.trans h') h
      · rintro ⟨h', -⟩
        exfalso
        apply h
        split_ifs
        · exact h'
        · exact ht

theorem sup_le {v : V n} {t : ℝ} (ht : 0 ≤ t) : sup v ≤ t ↔ ∀ i, |v i| ≤ t := by
  unfold sup
  rw [(sup_foldl v _ 0).2 t ht]
  simp

theorem sup_nonneg (v : V n) : 0 ≤ sup v := (sup_foldl v _ 0).1

theorem ne_zero_of_sup {v : V n} {t : ℝ} (ht : 0 ≤ t) (h : sup v > t) : v ≠ 0 := by
  rintro rfl
  have := (sup_le ht).2 (fun i : Fin n => by simpa using ht : ∀ i, |(0 : V n) i| ≤ t)
  linarith

/-! ### Histories -/

/-- The last `m` entries. -/
def lastN {α : Type} (m : ℕ) (l : List α) : List α := l.drop (l.length - m)

/-- The array holds the last `m` values of the list, oldest first. -/
def IsHist {α : Type} (m : ℕ) (h : ℕ → α) (l : List α) : Prop :=
  ∀ k < min l.length m, (lastN m l)[k]? = some (h k)

theorem length_lastN {α : Type} (m : ℕ) (l : List α) : (lastN m l).length = min l.length m := by
  unfold lastN
  rw [List.length_drop]
  omega

theorem push_isHist {α : Type} {m : ℕ} {h : ℕ → α} {l : List α} (H : IsHist m h l)
    (v : α) : IsHist m (lbPush m l.length h v) (l ++ [v]) := by
  intro k hk
  unfold lastN
  rw [List.length_append, List.length_singleton] at hk ⊢
  rw [List.getElem?_drop]
  unfold lbPush
  split_ifs with h1
  · rw [show l.length + 1 - m = 0 by omega, zero_add]
    by_cases hkl : k = l.length
    · subst hkl
      simp
    · have hk' : k < l.length := by omega
      have := H k (by omega)
      unfold lastN at this
      rw [show l.length - m = 0 by omega, List.drop_zero] at this
      rw [List.getElem?_append_left hk', this, Function.update_of_ne hkl]
  · have hkm : k < m := by omega
    by_cases h2 : k < m - 1
    · dsimp only
      rw [if_pos h2]
      have := H (k + 1) (by omega)
      unfold lastN at this
      rw [List.getElem?_drop] at this
      rw [List.getElem?_append_left (by omega), ← this]
      congr 1
      omega
    · dsimp only
      rw [if_neg h2, if_pos (by omega)]
      rw [show l.length + 1 - m + k = l.length by omega]
      simp

theorem isHist_nil {α : Type} (m : ℕ) (h : ℕ → α) : IsHist m h [] := fun k hk => by simp at hk

/-! ### The two loops -/

/-- The recursion behind the two loops. -/
def rec2 (hX hG : ℕ → V n) (iys : ℕ → ℝ) (g : ℝ) : ℕ → V n → V n
  | 0, v => g • v
  | k + 1, v =>
    let a := dot (hX k) v * iys k
    let w := rec2 hX hG iys g k (v - a • hG k)
    w + (a - dot (hG k) w * iys k) • hX k

theorem twoLoop_rec (bound : ℕ) (hX hG : ℕ → V n) (iys : ℕ → ℝ) (g : ℝ) (f : V n) (al : ℕ → ℝ) :
    twoLoop bound hX hG iys g f al = -rec2 hX hG iys g bound (-f) := by
  have key : ∀ (b : ℕ) (v : V n) (al : ℕ → ℝ),
      let q := (List.range b).foldl (fun (w : V n × (ℕ → ℝ)) i =>
        ((fun k => w.1 k - (dot (hX (b - i - 1)) w.1 * iys (b - i - 1)) * hG (b - i - 1) k),
          Function.update w.2 (b - i - 1) (dot (hX (b - i - 1)) w.1 * iys (b - i - 1)))) (v, al)
      ((∀ j, b ≤ j → q.2 j = al j) ∧
      (List.range b).foldl (fun (w : V n) i => fun k => w k + hX i k * (q.2 i - dot (hG i) w * iys i))
        (fun k => g * q.1 k) = rec2 hX hG iys g b v) := by
    intro b
    induction b with
    | zero => intro v al; exact ⟨fun _ _ => rfl, rfl⟩
    | succ b ih =>
      intro v al
      dsimp only
      set a := dot (hX b) v * iys b with ha
      have e1 : (List.range (b + 1)).foldl (fun (w : V n × (ℕ → ℝ)) i =>
          ((fun k => w.1 k - (dot (hX (b + 1 - i - 1)) w.1 * iys (b + 1 - i - 1)) * hG (b + 1 - i - 1) k),
            Function.update w.2 (b + 1 - i - 1) (dot (hX (b + 1 - i - 1)) w.1 * iys (b + 1 - i - 1))))
            (v, al) =
          (List.range b).foldl (fun (w : V n × (ℕ → ℝ)) i =>
          ((fun k => w.1 k - (dot (hX (b - i - 1)) w.1 * iys (b - i - 1)) * hG (b - i - 1) k),
            Function.update w.2 (b - i - 1) (dot (hX (b - i - 1)) w.1 * iys (b - i - 1))))
            (v - a • hG b, Function.update al b a) := by
        rw [List.range_succ_eq_map, List.foldl_cons, List.foldl_map]
        have : ∀ i, b + 1 - (i + 1) - 1 = b - i - 1 := fun i => by omega
        simp only [Nat.succ_eq_add_one, this]
        rfl
      rw [e1]
      obtain ⟨h1, h2⟩ := ih (v - a • hG b) (Function.update al b a)
      refine ⟨fun j hj => ?_, ?_⟩
      · rw [h1 j (by omega), Function.update_of_ne (by omega)]
      · rw [List.range_succ, List.foldl_append, h2, List.foldl_cons, List.foldl_nil,
          h1 b le_rfl, Function.update_self]
        funext k
        simp only [rec2, Pi.add_apply, Pi.smul_apply, smul_eq_mul]
        ring
  unfold twoLoop
  dsimp only
  have := (key bound (-f) al).2
  funext k
  rw [Pi.neg_apply, ← this]
  rfl

end Sparc.Relax

import Verif.Sq.Model
import Verif.Tac

/-! # Spectral quadrature: the tridiagonal eigensolver -/

namespace Sparc.Sq

open Finset

/-- Bilinear form of a matrix on the first `n` entries. -/
def form (n : ℕ) (T : ℕ → ℕ → ℝ) (u v : ℕ → ℝ) : ℝ :=
  ∑ i ∈ range n, ∑ j ∈ range n, u i * T i j * v j

theorem form_congr {n : ℕ} {T : ℕ → ℕ → ℝ} {u u' v v' : ℕ → ℝ} (hu : ∀ k < n, u k = u' k)
    (hv : ∀ k < n, v k = v' k) : form n T u v = form n T u' v' := by
  unfold form
  refine sum_congr rfl fun i hi => sum_congr rfl fun j hj => ?_
  rw [hu i (mem_range.1 hi), hv j (mem_range.1 hj)]

theorem form_left (n : ℕ) (T : ℕ → ℕ → ℝ) (x y : ℝ) (u v w : ℕ → ℝ) :
    form n T (fun k => x * u k + y * v k) w = x * form n T u w + y * form n T v w := by
  unfold form
  simp only [mul_sum, ← sum_add_distrib]
  exact sum_congr rfl fun i _ => sum_congr rfl fun j _ => by ring

theorem form_right (n : ℕ) (T : ℕ → ℕ → ℝ) (x y : ℝ) (u v w : ℕ → ℝ) :
    form n T w (fun k => x * u k + y * v k) = x * form n T w u + y * form n T w v := by
  unfold form
  simp only [mul_sum, ← sum_add_distrib]
  exact sum_congr rfl fun i _ => sum_congr rfl fun j _ => by ring

theorem form_symm {n : ℕ} {T : ℕ → ℕ → ℝ} (hT : ∀ i j, T i j = T j i) (u v : ℕ → ℝ) :
    form n T u v = form n T v u := by
  unfold form
  rw [sum_comm]
  exact sum_congr rfl fun i _ => sum_congr rfl fun j _ => by rw [hT i j]; ring

/-- The form on columns of `z`. -/
def colForm (n : ℕ) (T : ℕ → ℕ → ℝ) (z : ℕ → ℕ → ℝ) (a b : ℕ) : ℝ :=
  form n T (fun k => z k a) (fun k => z k b)

/-- A rotation of columns `i` and `i+1`. -/
structure Rot (n i : ℕ) (s c : ℝ) (z z' : ℕ → ℕ → ℝ) : Prop where
  lo : ∀ k < n, z' k i = c * z k i + -s * z k (i + 1)
  hi : ∀ k < n, z' k (i + 1) = s * z k i + c * z k (i + 1)
  other : ∀ k < n, ∀ a, a ≠ i → a ≠ i + 1 → z' k a = z k a

section
variable {n i : ℕ} {s c : ℝ} {z z' : ℕ → ℕ → ℝ} (R : Rot n i s c z z') (T : ℕ → ℕ → ℝ)
include R

theorem Rot.lo_l (u : ℕ → ℝ) : form n T (fun k => z' k i) u
    = c * form n T (fun k => z k i) u + -s * form n T (fun k => z k (i + 1)) u := by
  rw [← form_left]; exact form_congr R.lo fun _ _ => rfl

theorem Rot.hi_l (u : ℕ → ℝ) : form n T (fun k => z' k (i + 1)) u
    = s * form n T (fun k => z k i) u + c * form n T (fun k => z k (i + 1)) u := by
  rw [← form_left]; exact form_congr R.hi fun _ _ => rfl

theorem Rot.lo_r (u : ℕ → ℝ) : form n T u (fun k => z' k i)
    = c * form n T u (fun k => z k i) + -s * form n T u (fun k => z k (i + 1)) := by
  rw [← form_right]; exact form_congr (fun _ _ => rfl) R.lo

theorem Rot.hi_r (u : ℕ → ℝ) : form n T u (fun k => z' k (i + 1))
    = s * form n T u (fun k => z k i) + c * form n T u (fun k => z k (i + 1)) := by
  rw [← form_right]; exact form_congr (fun _ _ => rfl) R.hi

theorem Rot.oth_l {a : ℕ} (h1 : a ≠ i) (h2 : a ≠ i + 1) (u : ℕ → ℝ) :
    form n T (fun k => z' k a) u = form n T (fun k => z k a) u :=
  form_congr (fun k hk => R.other k hk a h1 h2) fun _ _ => rfl

theorem Rot.oth_r {a : ℕ} (h1 : a ≠ i) (h2 : a ≠ i + 1) (u : ℕ → ℝ) :
    form n T u (fun k => z' k a) = form n T u (fun k => z k a) :=
  form_congr (fun _ _ => rfl) fun k hk => R.other k hk a h1 h2

theorem Rot.ll : colForm n T z' i i = c * (c * colForm n T z i i + -s * colForm n T z i (i + 1))
    + -s * (c * colForm n T z (i + 1) i + -s * colForm n T z (i + 1) (i + 1)) := by
  unfold colForm; rw [R.lo_l, R.lo_r, R.lo_r]

theorem Rot.lh : colForm n T z' i (i + 1)
    = c * (s * colForm n T z i i + c * colForm n T z i (i + 1))
    + -s * (s * colForm n T z (i + 1) i + c * colForm n T z (i + 1) (i + 1)) := by
  unfold colForm; rw [R.lo_l, R.hi_r, R.hi_r]

theorem Rot.hh : colForm n T z' (i + 1) (i + 1)
    = s * (s * colForm n T z i i + c * colForm n T z i (i + 1))
    + c * (s * colForm n T z (i + 1) i + c * colForm n T z (i + 1) (i + 1)) := by
  unfold colForm; rw [R.hi_l, R.hi_r, R.hi_r]

theorem Rot.lb {b : ℕ} (h1 : b ≠ i) (h2 : b ≠ i + 1) : colForm n T z' i b
    = c * colForm n T z i b + -s * colForm n T z (i + 1) b := by
  unfold colForm; rw [R.oth_r T h1 h2, R.lo_l]

theorem Rot.hb {b : ℕ} (h1 : b ≠ i) (h2 : b ≠ i + 1) : colForm n T z' (i + 1) b
    = s * colForm n T z i b + c * colForm n T z (i + 1) b := by
  unfold colForm; rw [R.oth_r T h1 h2, R.hi_l]

theorem Rot.al {a : ℕ} (h1 : a ≠ i) (h2 : a ≠ i + 1) : colForm n T z' a i
    = c * colForm n T z a i + -s * colForm n T z a (i + 1) := by
  unfold colForm; rw [R.oth_l T h1 h2, R.lo_r]

theorem Rot.ah {a : ℕ} (h1 : a ≠ i) (h2 : a ≠ i + 1) : colForm n T z' a (i + 1)
    = s * colForm n T z a i + c * colForm n T z a (i + 1) := by
  unfold colForm; rw [R.oth_l T h1 h2, R.hi_r]

theorem Rot.ab {a b : ℕ} (h1 : a ≠ i) (h2 : a ≠ i + 1) (h3 : b ≠ i) (h4 : b ≠ i + 1) :
    colForm n T z' a b = colForm n T z a b := by
  unfold colForm; rw [R.oth_l T h1 h2, R.oth_r T h3 h4]

end

/-- The columns of `z` are orthonormal. -/
def Ortho (n : ℕ) (z : ℕ → ℕ → ℝ) : Prop :=
  ∀ a < n, ∀ b < n, colForm n (fun i j => if i = j then 1 else 0) z a b = if a = b then 1 else 0

theorem Rot.ortho {n i : ℕ} {s c : ℝ} {z z' : ℕ → ℕ → ℝ} (R : Rot n i s c z z')
    (h1 : c * c + s * s = 1) (hi : i + 1 < n) (O : Ortho n z) : Ortho n z' := by
  intro a ha b hb
  have e : ∀ x < n, ∀ y < n, colForm n (fun i j => if i = j then 1 else 0) z x y
    = if x = y then 1 else 0 := O
  have hi' : i < n := by omega
  by_cases a1 : a = i
  · subst a1
    by_cases b1 : b = a
    · subst b1
      rw [R.ll, e _ hi' _ hi', e _ hi' _ hi, e _ hi _ hi', e _ hi _ hi]
      simp; linarith
    by_cases b2 : b = a + 1
    · subst b2
      rw [R.lh, e _ hi' _ hi', e _ hi' _ hi, e _ hi _ hi', e _ hi _ hi]
      simp; ring
    · rw [R.lb _ b1 b2, e _ hi' _ hb, e _ hi _ hb]
      simp [Ne.symm b1, Ne.symm b2]
  by_cases a2 : a = i + 1
  · subst a2
    by_cases b1 : b = i
    · subst b1
      rw [show colForm n (fun i j => if i = j then 1 else 0) z' (b + 1) b
          = colForm n (fun i j => if i = j then 1 else 0) z' b (b + 1) from
        form_symm (fun i j => by simp [eq_comm]) _ _]
      rw [R.lh, e _ hi' _ hi', e _ hi' _ hi, e _ hi _ hi', e _ hi _ hi]
      simp; ring
    by_cases b2 : b = i + 1
    · subst b2
      rw [R.hh, e _ hi' _ hi', e _ hi' _ hi, e _ hi _ hi', e _ hi _ hi]
      simp; linarith
    · rw [R.hb _ b1 b2, e _ hi' _ hb, e _ hi _ hb]
      simp [Ne.symm b1, Ne.symm b2]
  by_cases b1 : b = i
  · subst b1
    rw [R.al _ a1 a2, e _ ha _ hi', e _ ha _ hi]
    simp [a1, a2]
  by_cases b2 : b = i + 1
  · subst b2
    rw [R.ah _ a1 a2, e _ ha _ hi', e _ ha _ hi]
    simp [a1, a2]
  · rw [R.ab _ a1 a2 b1 b2, e _ ha _ hb]

/-! ### One sweep -/

/-- Entries above the diagonal while the bulge is at row `j`. -/
noncomputable def offv (m j : ℕ) (e : ℕ → ℝ) (g s c : ℝ) (a b : ℕ) : ℝ :=
  if b = a + 1 then
    if a + 1 = j then c * e a else if a = j ∧ j < m then g else if a = m then 0 else e a
  else if b = a + 2 ∧ a + 1 = j ∧ j < m then s * e a else 0

/-- Invariant of the inner loop before the pass `i = j - 1`. -/
structure Inv (n : ℕ) (T : ℕ → ℕ → ℝ) (l m j : ℕ) (st : SSt) : Prop where
  diag : ∀ k < n, colForm n T st.q.z k k = if k = j then st.q.d k - st.p else st.q.d k
  off : ∀ a b, a < b → b < n → colForm n T st.q.z a b = offv m j st.q.e st.g st.s st.c a b
  ne : ∀ k, l ≤ k → k < j → st.q.e k ≠ 0
  zero : ∀ k < l, st.q.e k = 0
  s0 : st.s ≠ 0
  brk : st.brk = false
  ortho : Ortho n st.q.z

theorem Inv.step {n : ℕ} {T : ℕ → ℕ → ℝ} (hT : ∀ i j, T i j = T j i) {l m i : ℕ} {st : SSt}
    (h : Inv n T l m (i + 1) st) (hl : l ≤ i) (hm : i + 1 ≤ m) (hn : m < n) :
    Inv n T l m i (qlStep n m st i) := by
  have he : st.q.e i ≠ 0 := h.ne i hl (by omega)
  have hf : st.s * st.q.e i ≠ 0 := mul_ne_zero h.s0 he
  have hpos : 0 < st.g * st.g + st.s * st.q.e i * (st.s * st.q.e i) := by
    have := mul_self_pos.2 hf
    have := mul_self_nonneg st.g
    linarith
  set r := √(st.g * st.g + st.s * st.q.e i * (st.s * st.q.e i)) with hr
  have hr0 : r ≠ 0 := (Real.sqrt_pos.2 hpos).ne'
  have hrr : r * r = st.g * st.g + st.s * st.q.e i * (st.s * st.q.e i) := Real.mul_self_sqrt hpos.le
  set s := st.s * st.q.e i / r with hs
  set c := st.g / r with hc
  have hcs : c * c + s * s = 1 := by
    rw [hs, hc]; field_simp; nlinarith [hrr]
  set G := st.q.d (i + 1) - st.p with hG
  set r' := (st.q.d i - G) * s + 2 * c * (st.c * st.q.e i) with hr'
  set z : ℕ → ℕ → ℝ := fun k =>
      if k < n then
        Function.update (Function.update (st.q.z k) (i + 1) (s * st.q.z k i + c * st.q.z k (i + 1))) i
          (c * Function.update (st.q.z k) (i + 1) (s * st.q.z k i + c * st.q.z k (i + 1)) i
            - s * st.q.z k (i + 1))
      else st.q.z k with hz
  have hstep : qlStep n m st i = ⟨⟨Function.update st.q.d (i + 1) (G + s * r'),
      Function.update st.q.e (i + 1) r, z⟩, c * r' - st.c * st.q.e i, s, c, s * r', false⟩ := by
    unfold qlStep
    rw [h.brk, if_neg (by simp)]
    simp only
    rw [if_neg hr0]
  have R : Rot n i s c st.q.z z := by
    refine ⟨fun k hk => ?_, fun k hk => ?_, fun k hk a h1 h2 => ?_⟩
    · rw [hz]; simp only [if_pos hk, Function.update_self]
      rw [Function.update_of_ne (by omega)]; ring
    · rw [hz]; simp only [if_pos hk]
      rw [Function.update_of_ne (by omega), Function.update_self]
    · rw [hz]; simp only [if_pos hk]
      rw [Function.update_of_ne h1, Function.update_of_ne h2]
  have hi1 : i + 1 < n := by omega
  have hin : i < n := by omega
  have sy : ∀ a b, colForm n T st.q.z a b = colForm n T st.q.z b a := fun a b => form_symm hT _ _
  have Fii : colForm n T st.q.z i i = st.q.d i := by
    rw [h.diag i hin, if_neg (by omega)]
  have Fjj : colForm n T st.q.z (i + 1) (i + 1) = G := by
    rw [h.diag _ hi1, if_pos rfl]
  have Fij : colForm n T st.q.z i (i + 1) = st.c * st.q.e i := by
    rw [h.off _ _ (by omega) hi1]; unfold offv; simp
  have Fji : colForm n T st.q.z (i + 1) i = st.c * st.q.e i := by rw [sy, Fij]
  rw [hstep]
  refine ⟨?_, ?_, ?_, ?_, ?_, rfl, R.ortho hcs hi1 h.ortho⟩
  · intro k hk
    simp only
    by_cases k1 : k = i
    · subst k1
      rw [R.ll, Fii, Fjj, Fij, Fji, if_pos rfl, Function.update_of_ne (by omega), hr']
      have : c * c = 1 - s * s := by linarith
      linear_combination st.q.d k * this
    by_cases k2 : k = i + 1
    · subst k2
      rw [R.hh, Fii, Fjj, Fij, Fji, if_neg k1, Function.update_self, hr']
      have : c * c = 1 - s * s := by linarith
      linear_combination G * this
    · rw [R.ab T k1 k2 k1 k2, if_neg k1, Function.update_of_ne k2, h.diag k hk, if_neg k2]
  · intro a b hab hb
    simp only
    by_cases a1 : a = i
    · subst a1
      by_cases b2 : b = a + 1
      · subst b2
        rw [R.lh, Fii, Fjj, Fij, Fji, hr']
        unfold offv
        rw [if_pos rfl, if_neg (by omega), if_pos ⟨rfl, by omega⟩]
        have : c * c + s * s = 1 := hcs
        linear_combination (-(st.c * st.q.e a)) * this
      · rw [R.lb T (by omega) b2, h.off _ _ hab hb, h.off _ _ (by omega) hb]
        unfold offv
        by_cases b3 : b = a + 2
        · subst b3
          by_cases jm : a + 1 < m
          · simp [jm]
            rw [hs, hc]; field_simp; ring
          · have : m = a + 1 := by omega
            simp [this]
        · rw [if_neg b2, if_neg (by omega), if_neg (by omega), if_neg (by omega), if_neg (by omega),
            if_neg (by omega)]
          ring
    by_cases a2 : a = i + 1
    · subst a2
      rw [R.hb T (by omega) (by omega), h.off _ _ (by omega) hb, h.off _ _ hab hb]
      unfold offv
      by_cases b3 : b = i + 2
      · subst b3
        by_cases jm : i + 1 < m
        · have hne : ¬ i + 1 = m := by omega
          have h1 : ¬ i + 2 = i + 1 := by omega
          have h2 : ¬ i + 1 + 1 = i + 1 := by omega
          have h3 : ¬ i + 1 + 1 = i := by omega
          have h4 : ¬ (i + 1 = i ∧ i < m) := by omega
          have key : s * (st.s * st.q.e i) + c * st.g = r := by
            rw [hs, hc]; field_simp; linarith [hrr]
          rw [if_neg h1, if_pos ⟨rfl, rfl, jm⟩, if_pos rfl, if_neg h2, if_pos ⟨rfl, jm⟩, if_pos rfl,
            if_neg h3, if_neg h4, if_neg hne, Function.update_self, key]
        · have hm' : i + 1 = m := by omega
          have h1 : ¬ i + 2 = i + 1 := by omega
          have h2 : ¬ i + 1 + 1 = i + 1 := by omega
          have h3 : ¬ i + 1 + 1 = i := by omega
          have h4 : ¬ (i + 1 = i ∧ i < m) := by omega
          rw [if_neg h1, if_neg (by omega), if_pos rfl, if_neg h2, if_neg (by omega), if_pos hm',
            if_pos rfl, if_neg h3, if_neg h4, if_pos hm']
          ring
      · rw [if_neg (by omega), if_neg (by omega), if_neg (by omega), if_neg (by omega), if_neg (by omega),
          if_neg (by omega)]
        ring
    by_cases b1 : b = i
    · subst b1
      rw [R.al T a1 a2, h.off _ _ hab hb, h.off _ _ (by omega) hi1]
      unfold offv
      by_cases a3 : b = a + 1
      · subst a3
        have h1 : ¬ a + 1 = a + 1 + 1 := by omega
        have h2 : ¬ (a = a + 1 + 1 ∧ a + 1 + 1 < m) := by omega
        have h3 : ¬ a = m := by omega
        have h4 : ¬ a + 1 + 1 = a + 1 := by omega
        have h5 : ¬ (a + 1 + 1 = a + 2 ∧ a + 1 = a + 1 + 1 ∧ a + 1 + 1 < m) := by omega
        rw [if_pos rfl, if_neg h1, if_neg h2, if_neg h3, if_neg h4, if_neg h5, if_pos rfl, if_pos rfl,
          Function.update_of_ne (by omega)]
        ring
      · rw [if_neg a3, if_neg (by omega), if_neg (by omega), if_neg (by omega), if_neg a3,
          if_neg (by omega)]
        ring
    by_cases b2 : b = i + 1
    · subst b2
      rw [R.ah T a1 a2, h.off _ _ (by omega) hin, h.off _ _ hab hb]
      unfold offv
      by_cases a3 : i = a + 1
      · subst a3
        have h1 : ¬ a + 1 = a + 1 + 1 := by omega
        have h2 : ¬ (a = a + 1 + 1 ∧ a + 1 + 1 < m) := by omega
        have h3 : ¬ a = m := by omega
        have h4 : ¬ a + 1 + 1 = a + 1 := by omega
        have h5 : ¬ (a + 1 + 1 = a + 2 ∧ a + 1 = a + 1 + 1 ∧ a + 1 + 1 < m) := by omega
        rw [if_pos rfl, if_neg h1, if_neg h2, if_neg h3, if_neg h4, if_neg h5, if_neg h4,
          if_pos ⟨rfl, rfl, by omega⟩, Function.update_of_ne (by omega)]
        ring
      · rw [if_neg a3, if_neg (by omega), if_neg (by omega), if_neg (by omega), if_neg (by omega),
          if_neg (by omega)]
        ring
    · rw [R.ab T a1 a2 b1 b2, h.off _ _ hab hb]
      unfold offv
      rw [Function.update_of_ne a2]
      by_cases b3 : b = a + 1
      · subst b3
        rw [if_pos rfl, if_pos rfl, if_neg b2, if_neg b1, if_neg (by omega : ¬ (a = i + 1 ∧ i + 1 < m)),
          if_neg (by omega : ¬ (a = i ∧ i < m))]
      · rw [if_neg b3, if_neg b3, if_neg (by omega), if_neg (by omega)]
  · intro k hk1 hk2
    simp only
    rw [Function.update_of_ne (by omega)]
    exact h.ne k hk1 (by omega)
  · intro k hk
    simp only
    rw [Function.update_of_ne (by omega)]
    exact h.zero k hk
  · exact div_ne_zero hf hr0

/-- Invariant between sweeps. -/
structure Mid (n : ℕ) (T : ℕ → ℕ → ℝ) (l : ℕ) (q : QSt) : Prop where
  diag : ∀ k < n, colForm n T q.z k k = q.d k
  off : ∀ a b, a < b → b < n → colForm n T q.z a b = if b = a + 1 then q.e a else 0
  zero : ∀ k < l, q.e k = 0
  ortho : Ortho n q.z

theorem findM_spec (n : ℕ) (d e : ℕ → ℝ) : ∀ f m, m < n → n ≤ f + m →
    m ≤ findM n d e f m ∧ findM n d e f m < n ∧ (∀ k, m ≤ k → k < findM n d e f m → e k ≠ 0) ∧
      (findM n d e f m + 1 < n → e (findM n d e f m) = 0) := by
  intro f
  induction f with
  | zero => intro m h1 h2; omega
  | succ f ih =>
    intro m h1 h2
    unfold findM
    by_cases hm : m + 2 ≤ n
    · rw [if_pos hm]
      by_cases h0 : |e m| + (|d m| + |d (m + 1)|) = |d m| + |d (m + 1)|
      · rw [if_pos h0]
        refine ⟨le_refl _, h1, fun k a b => by omega, fun _ => ?_⟩
        have : |e m| = 0 := by linarith
        exact abs_eq_zero.1 this
      · rw [if_neg h0]
        obtain ⟨a, b, c, d'⟩ := ih (m + 1) (by omega) (by omega)
        refine ⟨by omega, b, fun k hk1 hk2 => ?_, d'⟩
        rcases Nat.eq_or_lt_of_le hk1 with rfl | hk
        · intro h; apply h0; rw [h, abs_zero, zero_add]
        · exact c k hk hk2
    · rw [if_neg hm]
      exact ⟨le_refl _, h1, fun k a b => by omega, fun h => by omega⟩

theorem Inv.loop {n : ℕ} {T : ℕ → ℕ → ℝ} (hT : ∀ i j, T i j = T j i) {l m : ℕ} (hn : m < n)
    {st : SSt} (h : Inv n T l m m st) : ∀ t, t ≤ m - l → l ≤ m →
      Inv n T l m (m - t) (((List.range t).map fun t => m - 1 - t).foldl (qlStep n m) st) := by
  intro t
  induction t with
  | zero => intro _ _; exact h
  | succ t ih =>
    intro ht hlm
    have := ih (by omega) hlm
    rw [List.range_succ, List.map_append, List.foldl_append]
    have e : m - t = m - 1 - t + 1 := by omega
    rw [e] at this
    have e2 : m - (t + 1) = m - 1 - t := by omega
    rw [e2]
    exact this.step hT (by omega) (by omega) hn

theorem Mid.sweep {n : ℕ} {T : ℕ → ℕ → ℝ} (hT : ∀ i j, T i j = T j i) {l : ℕ} {q : QSt}
    (h : Mid n T l q) (hl : l < n) (hne : findM n q.d q.e n l ≠ l) :
    Mid n T l (sweep n l (findM n q.d q.e n l) q) := by
  obtain ⟨h1, h2, h3, h4⟩ := findM_spec n q.d q.e n l hl (by omega)
  set m := findM n q.d q.e n l with hm
  have hlm : l < m := by omega
  have I0 : ∀ g, Inv n T l m m ⟨q, g, 1, 1, 0, false⟩ := by
    intro g
    refine ⟨fun k hk => ?_, fun a b hab hb => ?_, h3, h.zero, one_ne_zero, rfl, h.ortho⟩
    · simp only [sub_zero, ite_self]; exact h.diag k hk
    · rw [h.off a b hab hb]
      unfold offv
      by_cases b1 : b = a + 1
      · subst b1
        rw [if_pos rfl, if_pos rfl]
        by_cases a1 : a + 1 = m
        · rw [if_pos a1]; ring
        · rw [if_neg a1, if_neg (by omega)]
          by_cases a2 : a = m
          · rw [if_pos a2, a2]; exact h4 (by omega)
          · rw [if_neg a2]
      · rw [if_neg b1, if_neg b1, if_neg (by omega)]
  unfold Sq.sweep
  simp only
  set g := q.d m - q.d l + q.e l / ((q.d (l + 1) - q.d l) / (2 * q.e l) +
    sign √((q.d (l + 1) - q.d l) / (2 * q.e l) * ((q.d (l + 1) - q.d l) / (2 * q.e l)) + 1)
      ((q.d (l + 1) - q.d l) / (2 * q.e l))) with hg
  have I := (I0 g).loop hT h2 (m - l) (le_refl _) hlm.le
  rw [show m - (m - l) = l by omega] at I
  set o := ((List.range (m - l)).map fun t => m - 1 - t).foldl (qlStep n m) ⟨q, g, 1, 1, 0, false⟩ with ho
  rw [I.brk, if_neg (by simp)]
  refine ⟨fun k hk => ?_, fun a b hab hb => ?_, fun k hk => ?_, I.ortho⟩
  · rw [I.diag k hk]
    simp only
    by_cases k1 : k = l
    · subst k1; rw [if_pos rfl, Function.update_self]
    · rw [if_neg k1, Function.update_of_ne k1]
  · rw [I.off a b hab hb]
    unfold offv
    simp only
    by_cases b1 : b = a + 1
    · subst b1
      rw [if_pos rfl, if_pos rfl]
      by_cases a1 : a + 1 = l
      · rw [if_pos a1, Function.update_of_ne (by omega), Function.update_of_ne (by omega)]
        rw [I.zero a (by omega), mul_zero]
      · rw [if_neg a1]
        by_cases a2 : a = l
        · subst a2
          rw [if_pos ⟨rfl, hlm⟩, Function.update_of_ne (by omega), Function.update_self]
        · rw [if_neg (by omega)]
          by_cases a3 : a = m
          · subst a3; rw [if_pos rfl, Function.update_self]
          · rw [if_neg a3, Function.update_of_ne a3, Function.update_of_ne a2]
    · rw [if_neg b1, if_neg b1]
      by_cases b2 : b = a + 2 ∧ a + 1 = l ∧ l < m
      · rw [if_pos b2, I.zero a (by omega), mul_zero]
      · rw [if_neg b2]
  · simp only
    rw [Function.update_of_ne (by omega), Function.update_of_ne (by omega)]
    exact I.zero k hk

theorem Mid.iter {n : ℕ} {T : ℕ → ℕ → ℝ} (hT : ∀ i j, T i j = T j i) {l : ℕ} (hl : l < n) :
    ∀ left q q', Mid n T l q → qlIter n l left q = some q' →
      Mid n T l q' ∧ (l + 1 < n → q'.e l = 0) := by
  intro left
  induction left with
  | zero =>
    intro q q' h e
    unfold qlIter at e
    simp only at e
    by_cases hm : findM n q.d q.e n l = l
    · rw [if_pos hm] at e
      cases e
      have := (findM_spec n q.d q.e n l hl (by omega)).2.2.2
      rw [hm] at this
      exact ⟨h, this⟩
    · rw [if_neg hm] at e; cases e
  | succ left ih =>
    intro q q' h e
    unfold qlIter at e
    simp only at e
    by_cases hm : findM n q.d q.e n l = l
    · rw [if_pos hm] at e
      cases e
      have := (findM_spec n q.d q.e n l hl (by omega)).2.2.2
      rw [hm] at this
      exact ⟨h, this⟩
    · rw [if_neg hm] at e
      exact ih _ _ (h.sweep hT hl hm) e

/-- The symmetric tridiagonal matrix with diagonal `d` and subdiagonal `e`. -/
def triT (d e : ℕ → ℝ) (i j : ℕ) : ℝ :=
  if i = j then d i else if j = i + 1 then e i else if i = j + 1 then e j else 0

theorem triT_symm (d e : ℕ → ℝ) (i j : ℕ) : triT d e i j = triT d e j i := by
  unfold triT
  by_cases h : i = j
  · subst h; rfl
  · rw [if_neg h, if_neg (Ne.symm h)]
    by_cases h1 : j = i + 1
    · rw [if_pos h1, if_neg (by omega), if_pos h1]
    · rw [if_neg h1]
      by_cases h2 : i = j + 1
      · rw [if_pos h2, if_pos h2]
      · rw [if_neg h2, if_neg h2, if_neg h1]

theorem colForm_id (n : ℕ) (T : ℕ → ℕ → ℝ) {a b : ℕ} (ha : a < n) (hb : b < n) :
    colForm n T (fun i j => if i = j then 1 else 0) a b = T a b := by
  unfold colForm form
  rw [sum_eq_single a]
  · rw [sum_eq_single b]
    · simp
    · intro j _ hj; simp [hj]
    · intro h; exact absurd (mem_range.2 hb) h
  · intro i _ hi; simp [hi]
  · intro h; exact absurd (mem_range.2 ha) h

/-- The eigensolver diagonalises: orthonormal columns, and the form is `diag d`. -/
theorem tridiag_form {n : ℕ} {dg sb : ℕ → ℝ} {q : QSt} (h : tridiag n dg sb = some q) :
    Ortho n q.z ∧ ∀ a < n, ∀ b < n,
      colForm n (triT dg sb) q.z a b = if a = b then q.d a else 0 := by
  have hT := triT_symm dg sb
  have key : ∀ t ≤ n, ∀ q, (List.range t).foldl (fun (o : Option QSt) l => o.bind (qlIter n l 200))
      (some ⟨dg, Function.update sb (n - 1) 0, fun i j => if i = j then 1 else 0⟩) = some q →
      Mid n (triT dg sb) t q ∨ (t = n ∧ Mid n (triT dg sb) (n - 1) q) := by
    intro t
    induction t with
    | zero =>
      intro _ q e
      left
      simp only [List.range_zero, List.foldl_nil, Option.some.injEq] at e
      subst e
      refine ⟨fun k hk => ?_, fun a b hab hb => ?_, fun k hk => by omega, fun a ha b hb => ?_⟩
      · rw [colForm_id n _ hk hk]; unfold triT; rw [if_pos rfl]
      · rw [colForm_id n _ (by omega) hb]
        unfold triT
        simp only
        rw [if_neg (by omega)]
        by_cases b1 : b = a + 1
        · rw [if_pos b1, if_pos b1, Function.update_of_ne (by omega)]
        · rw [if_neg b1, if_neg b1, if_neg (by omega)]
      · rw [colForm_id n _ ha hb]
    | succ t ih =>
      intro ht q e
      rw [List.range_succ, List.foldl_append] at e
      simp only [List.foldl_cons, List.foldl_nil] at e
      obtain ⟨q0, e0, e1⟩ := Option.bind_eq_some_iff.1 e
      rcases ih (by omega) q0 e0 with M | M
      · obtain ⟨M', z⟩ := M.iter hT (by omega) 200 q0 q e1
        by_cases hl : t + 1 < n
        · left
          refine ⟨M'.diag, M'.off, fun k hk => ?_, M'.ortho⟩
          rcases Nat.lt_succ_iff_lt_or_eq.1 hk with h | rfl
          · exact M'.zero k h
          · exact z hl
        · right
          refine ⟨by omega, M'.diag, M'.off, fun k hk => M'.zero k (by omega), M'.ortho⟩
      · omega
  have hM : Mid n (triT dg sb) (n - 1) q := by
    rcases key n (le_refl _) q h with M | M
    · exact ⟨M.diag, M.off, fun k hk => M.zero k (by omega), M.ortho⟩
    · exact M.2
  refine ⟨hM.ortho, fun a ha b hb => ?_⟩
  rcases lt_trichotomy a b with hab | rfl | hab
  · rw [hM.off a b hab hb, if_neg (by omega : ¬ a = b)]
    by_cases b1 : b = a + 1
    · rw [if_pos b1]; exact hM.zero a (by omega)
    · rw [if_neg b1]
  · rw [if_pos rfl]; exact hM.diag a ha
  · rw [show colForm n (triT dg sb) q.z a b = colForm n (triT dg sb) q.z b a from form_symm hT _ _,
      hM.off b a hab ha, if_neg (by omega : ¬ a = b)]
    by_cases b1 : a = b + 1
    · rw [if_pos b1]; exact hM.zero b (by omega)
    · rw [if_neg b1]

end Sparc.Sq

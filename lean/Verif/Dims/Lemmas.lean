import Verif.Dims.Model
import Verif.Tac

namespace Sparc.Dims

/-! ## The scan -/

theorem scan_spec {β : Type} (fixed : Bool) (n : ℕ) (npi : β → ℕ) (ok : β → Bool) (rn : β → ℚ)
    (P : β → Prop) (l : List (Option β)) (hP : ∀ c, some c ∈ l → P c) :
    (scan fixed n npi ok rn l = none → ∀ c, some c ∈ l → 0 < npi c → npi c ≤ n → ok c = false) ∧
    (∀ c, scan fixed n npi ok rn l = some c → some c ∈ l ∧ 0 < npi c ∧ npi c ≤ n ∧
      (∃ c', some c' ∈ l ∧ ok c' = true ∧ npi c' = npi c) ∧
      (∀ c', some c' ∈ l → ok c' = true → npi c' ≤ n → npi c' ≤ npi c) ∧
      ((∀ c c', P c → P c' → ok c' = true → npi c = npi c' → rn c < rn c' → (fixed = true → ok c = true) →
        ok c = true) → ok c = true)) := by
  unfold scan
  have key : ∀ st, st = l.foldl (scanStep fixed n npi ok rn) (none, 0, 10000) →
      (st.1 = none ∧ st.2.1 = 0 ∧ ∀ c, some c ∈ l → 0 < npi c → npi c ≤ n → ok c = false) ∨
      (∃ c, st.1 = some c ∧ st.2.1 = npi c ∧ st.2.2 = rn c ∧ some c ∈ l ∧ 0 < npi c ∧ npi c ≤ n ∧
        (∃ c', some c' ∈ l ∧ ok c' = true ∧ npi c' = npi c) ∧
        (∀ c', some c' ∈ l → ok c' = true → npi c' ≤ n → npi c' ≤ npi c) ∧
        ((∀ c c', P c → P c' → ok c' = true → npi c = npi c' → rn c < rn c' →
          (fixed = true → ok c = true) → ok c = true) → ok c = true)) := by
    induction l using List.reverseRecOn with
    | nil => intro st hst; left; subst hst; simp
    | append_singleton l a ih =>
      intro st hst
      rw [List.foldl_append] at hst
      simp only [List.foldl_cons, List.foldl_nil] at hst
      set s := l.foldl (scanStep fixed n npi ok rn) (none, 0, 10000) with hs
      have ih := ih (fun c hc => hP c (by simp [hc])) s rfl
      cases a with
      | none =>
        have : st = s := hst
        subst this
        simpa using ih
      | some b =>
        have hPb : P b := hP b (by simp)
        simp only [scanStep] at hst
        simp only [List.mem_append, List.mem_singleton, Option.some.injEq]
        by_cases h1 : npi b < s.2.1 ∨ n < npi b ∨ npi b = 0
        · rw [if_pos h1] at hst
          subst hst
          rcases ih with ⟨a1, a2, a3⟩ | ⟨c, a1, a2, a3, a4, a5, a6, a7, a8, a9⟩
          · left
            refine ⟨a1, a2, ?_⟩
            rintro c (hc | rfl) hp hn
            · exact a3 c hc hp hn
            · exfalso; omega
          · right
            obtain ⟨c', q1, q2, q3⟩ := a7
            refine ⟨c, a1, a2, a3, Or.inl a4, a5, a6, ⟨c', Or.inl q1, q2, q3⟩, ?_, a9⟩
            rintro d (hd | rfl) ho hn
            · exact a8 d hd ho hn
            · omega
        · rw [if_neg h1] at hst
          by_cases h2 : s.2.1 < npi b ∧ ok b = true
          · rw [if_pos h2] at hst
            subst hst
            right
            refine ⟨b, rfl, rfl, rfl, Or.inr rfl, by omega, by omega, ⟨b, Or.inr rfl, h2.2, rfl⟩, ?_,
              fun _ => h2.2⟩
            rintro d (hd | rfl) ho hn
            · rcases ih with ⟨a1, a2, a3⟩ | ⟨c, a1, a2, a3, a4, a5, a6, a7, a8, a9⟩
              · by_contra hlt
                have := a3 d hd (by omega) hn
                rw [this] at ho; cases ho
              · have := a8 d hd ho hn
                have := h2.1
                omega
            · exact le_refl _
          · rw [if_neg h2] at hst
            by_cases h3 : npi b = s.2.1 ∧ rn b < s.2.2 ∧ (fixed = true → ok b = true)
            · rw [if_pos h3] at hst
              subst hst
              rcases ih with ⟨a1, a2, a3⟩ | ⟨c, a1, a2, a3, a4, a5, a6, a7, a8, a9⟩
              · exfalso; omega
              · right
                obtain ⟨c', q1, q2, q3⟩ := a7
                refine ⟨b, rfl, h3.1.symm, rfl, Or.inr rfl, by omega, by omega,
                  ⟨c', Or.inl q1, q2, by omega⟩, ?_, ?_⟩
                · rintro d (hd | rfl) ho hn
                  · have := a8 d hd ho hn
                    omega
                  · exact le_refl _
                · intro hg
                  exact hg b c hPb (hP c (by simp [a4])) (a9 hg) (by omega) (a3 ▸ h3.2.1) h3.2.2
            · rw [if_neg h3] at hst
              subst hst
              rcases ih with ⟨a1, a2, a3⟩ | ⟨c, a1, a2, a3, a4, a5, a6, a7, a8, a9⟩
              · left
                refine ⟨a1, a2, ?_⟩
                rintro c (hc | rfl) hp hn
                · exact a3 c hc hp hn
                · by_contra ho
                  exact h2 ⟨by omega, by simpa using ho⟩
              · right
                obtain ⟨c', q1, q2, q3⟩ := a7
                refine ⟨c, a1, a2, a3, Or.inl a4, a5, a6, ⟨c', Or.inl q1, q2, q3⟩, ?_, a9⟩
                rintro d (hd | rfl) ho hn
                · exact a8 d hd ho hn
                · by_contra hlt
                  exact h2 ⟨by omega, ho⟩
  rcases key _ rfl with ⟨a1, a2, a3⟩ | ⟨c, a1, a2, a3, a4, a5, a6, a7, a8, a9⟩
  · refine ⟨fun _ => a3, fun c hc => ?_⟩
    rw [a1] at hc; cases hc
  · refine ⟨fun h => ?_, fun d hd => ?_⟩
    · rw [a1] at h; cases h
    · rw [a1] at hd; cases hd
      exact ⟨a4, a5, a6, a7, a8, a9⟩

/-! ## The candidates -/

def entryP {β : Type} (w : ℤ) (n : ℕ) (t : ℤ) (F : ℕ → β) : Option β :=
  if 0 < cand w n t ∧ cand w n t ≤ n then some (F (cand w n t).toNat) else none

theorem entries {β : Type} (K : ℕ) (w : ℤ) (n : ℕ) (d s : ℤ) (f : ℕ → Option β) (F : ℕ → β)
    (hf : ∀ x, f x = some (F x)) :
    ((List.range K).mapM fun (i : ℕ) => entry w n (d + i - s) f) =
      some ((List.range K).map fun (i : ℕ) => entryP w n (d + i - s) F) := by
  have h : ∀ i : ℕ, entry w n (d + i - s) f = some (entryP w n (d + i - s) F) := by
    intro i
    simp only [entry, entryP]
    split_ifs with h
    · simp [hf]
    · rfl
  generalize List.range K = l
  induction l with
  | nil => rfl
  | cons a l ih => rw [List.mapM_cons, ih, h]; rfl

theorem mem_entries {β : Type} {K : ℕ} {w : ℤ} {n : ℕ} {d s : ℤ} {F : ℕ → β} {c : β}
    (h : some c ∈ (List.range K).map fun (i : ℕ) => entryP w n (d + i - s) F) :
    ∃ x, 1 ≤ x ∧ x ≤ n ∧ c = F x := by
  simp only [List.mem_map, List.mem_range, entryP] at h
  obtain ⟨i, _, h⟩ := h
  split_ifs at h with hx
  simp only [Option.some.injEq] at h
  exact ⟨_, by omega, by omega, h.symm⟩

theorem entries_mem {β : Type} {K : ℕ} {w : ℤ} {n : ℕ} {d s : ℤ} (F : ℕ → β) (i x : ℕ) (hi : i < K)
    (hx : d + i - s = x) (h1 : 1 ≤ x) (h2 : x ≤ n) :
    some (F x) ∈ (List.range K).map fun (i : ℕ) => entryP w n (d + i - s) F := by
  simp only [List.mem_map, List.mem_range, entryP]
  refine ⟨i, hi, ?_⟩
  have : cand w n (d + i - s) = x := by
    unfold cand
    rw [if_pos (by omega), if_pos (by omega), hx]
  rw [this, if_pos (by omega)]
  simp

/-- Near an estimate `d ≤ n` with `(d-1) m ≤ g` there is an admissible value among the candidates. -/
theorem exists_cand {β : Type} {K : ℕ} {w : ℤ} {n : ℕ} {d : ℤ} {s : ℕ} (F : ℕ → β) {g m : ℕ}
    (hs : 1 ≤ s) (hK : s + 1 < K) (hn : 1 ≤ n) (hd0 : 0 ≤ d) (hdn : d ≤ n) (hdm : (d - 1) * m ≤ g)
    (hg : m ≤ g) :
    ∃ x, 1 ≤ x ∧ x ≤ n ∧ x * m ≤ g ∧
      some (F x) ∈ (List.range K).map fun (i : ℕ) => entryP w n (d + i - (s : ℤ)) F := by
  obtain ⟨d, rfl⟩ := Int.eq_ofNat_of_zero_le hd0
  rcases Nat.lt_or_ge d 2 with h | h
  · refine ⟨1, le_refl _, hn, by omega, ?_⟩
    exact entries_mem F (s + 1 - d) 1 (by omega) (by omega) (le_refl _) hn
  · refine ⟨d - 1, by omega, by omega, ?_, ?_⟩
    · zify [show 1 ≤ d by omega]; exact hdm
    · exact entries_mem F (s - 1) (d - 1) (by omega) (by omega) (by omega) (by omega)

theorem dims1_spec (n g m : ℕ) (hm : 1 ≤ m) :
    ∃ y, dims1 n g m = some y ∧ 1 ≤ y ∧ y ≤ max 1 n ∧ (m ≤ g → y * m ≤ g) := by
  refine ⟨max (min n (g / m)) 1, ?_, by omega, by omega, fun h => ?_⟩
  · unfold dims1; rw [if_neg (by omega)]
  · rcases Nat.le_total (min n (g / m)) 1 with h1 | h1
    · rw [Nat.max_eq_right h1]; omega
    · rw [Nat.max_eq_left h1]
      calc min n (g / m) * m ≤ g / m * m := Nat.mul_le_mul_right _ (min_le_right _ _)
        _ ≤ g := Nat.div_mul_le_self _ _

theorem share_le {n x y : ℕ} (hx : 1 ≤ x) (hxn : x ≤ n) (hy : y ≤ max 1 (n / x)) : x * y ≤ n := by
  have h1 : 1 ≤ n / x := (Nat.one_le_div_iff hx).2 hxn
  rw [Nat.max_eq_right h1] at hy
  calc x * y ≤ x * (n / x) := Nat.mul_le_mul_left _ hy
    _ ≤ n := Nat.mul_div_le _ _

theorem le_div_iff' {g x m : ℕ} (hx : 1 ≤ x) : g / x ≥ m ↔ x * m ≤ g := by
  rw [ge_iff_le, Nat.le_div_iff_mul_le hx, Nat.mul_comm]

theorem ok2_iff {g0 g1 m : ℕ} {c : ℕ × ℕ} (h1 : 1 ≤ c.1) (h2 : 1 ≤ c.2) :
    ok2 g0 g1 m c = true ↔ c.1 * m ≤ g0 ∧ c.2 * m ≤ g1 := by
  simp only [ok2, Bool.and_eq_true, decide_eq_true_eq]
  rw [le_div_iff' h1, le_div_iff' h2]

theorem ok3_iff {g0 g1 g2 m : ℕ} {c : ℕ × ℕ × ℕ} (h1 : 1 ≤ c.1) (h2 : 1 ≤ c.2.1) (h3 : 1 ≤ c.2.2) :
    ok3 g0 g1 g2 m c = true ↔ c.1 * m ≤ g0 ∧ c.2.1 * m ≤ g1 ∧ c.2.2 * m ≤ g2 := by
  simp only [ok3, Bool.and_eq_true, decide_eq_true_eq, and_assoc]
  rw [le_div_iff' h1, le_div_iff' h2, le_div_iff' h3]

/-- With a fixed product, a pair with a member below `m` is further apart than a pair above `m`. -/
theorem gap_lt {u v u' v' m : ℚ} (hu : 0 < u) (hum : u < m) (hu' : m ≤ u') (hv' : m ≤ v')
    (hp : u * v = u' * v') : (u' - v') * (u' - v') ≤ (u - v) * (u - v) := by
  have h1 : 0 ≤ (u' - u) * (v' - u) := mul_nonneg (by linarith) (by linarith)
  have h2 : u * (u' + v') ≤ u * (u + v) := by nlinarith
  have h3 : u' + v' ≤ u + v := le_of_mul_le_mul_left h2 hu
  have h4 : 0 < u' + v' := by linarith
  nlinarith

/-- In two dimensions the branch for equal numbers of processes never picks an inadmissible pair. -/
theorem tie2 {g0 g1 m : ℕ} (hg0 : 1 ≤ g0) (hg1 : 1 ≤ g1) {c c' : ℕ × ℕ} (h1 : 1 ≤ c.1)
    (h2 : 1 ≤ c.2) (h1' : 1 ≤ c'.1) (h2' : 1 ≤ c'.2) (hok : c'.1 * m ≤ g0 ∧ c'.2 * m ≤ g1)
    (hp : c.1 * c.2 = c'.1 * c'.2) (hr : rn2 g0 g1 c < rn2 g0 g1 c') :
    c.1 * m ≤ g0 ∧ c.2 * m ≤ g1 := by
  obtain ⟨x, y⟩ := c
  obtain ⟨x', y'⟩ := c'
  simp only at *
  have qx : (0 : ℚ) < x := by exact_mod_cast h1
  have qy : (0 : ℚ) < y := by exact_mod_cast h2
  have qx' : (0 : ℚ) < x' := by exact_mod_cast h1'
  have qy' : (0 : ℚ) < y' := by exact_mod_cast h2'
  have q0 : (0 : ℚ) < g0 := by exact_mod_cast hg0
  have q1 : (0 : ℚ) < g1 := by exact_mod_cast hg1
  have e1 : (m : ℚ) ≤ g0 / x' := by
    rw [le_div_iff₀ qx']; have := hok.1; rw [Nat.mul_comm] at this; exact_mod_cast this
  have e2 : (m : ℚ) ≤ g1 / y' := by
    rw [le_div_iff₀ qy']; have := hok.2; rw [Nat.mul_comm] at this; exact_mod_cast this
  have hpq : (x : ℚ) * y = x' * y' := by exact_mod_cast hp
  have ep : (g0 : ℚ) / x * (g1 / y) = g0 / x' * (g1 / y') := by
    rw [div_mul_div_comm, div_mul_div_comm, hpq]
  simp only [rn2] at hr
  constructor
  · by_contra hlt
    have : (g0 : ℚ) / x < m := by
      rw [div_lt_iff₀ qx]; push Not at hlt; rw [Nat.mul_comm] at hlt; exact_mod_cast hlt
    have := gap_lt (div_pos q0 qx) this e1 e2 ep
    linarith
  · by_contra hlt
    have : (g1 : ℚ) / y < m := by
      rw [div_lt_iff₀ qy]; push Not at hlt; rw [Nat.mul_comm] at hlt; exact_mod_cast hlt
    have := gap_lt (v := (g0 : ℚ) / x) (div_pos q1 qy) this e1 e2 (by rw [mul_comm]; exact ep)
    nlinarith

/-! ## The estimates -/

/-- What is used about the estimates. -/
structure Est2 (e : ℕ → ℕ × ℕ → ℕ → ℤ × ℤ) : Prop where
  nonneg : ∀ n g m, 0 ≤ (e n g m).1 ∧ 0 ≤ (e n g m).2
  size : ∀ n g m, 1 ≤ m → m ≤ g.1 → m ≤ g.2 → ((e n g m).1 - 1) * m ≤ g.1 ∧ ((e n g m).2 - 1) * m ≤ g.2
  some_le : ∀ n g m, 1 ≤ n → 1 ≤ g.1 → 1 ≤ g.2 → (e n g m).1 ≤ n ∨ (e n g m).2 ≤ n

structure Est3 (e : ℕ → ℕ × ℕ × ℕ → ℕ → ℤ × ℤ × ℤ) : Prop where
  nonneg : ∀ n g m, 0 ≤ (e n g m).1 ∧ 0 ≤ (e n g m).2.1 ∧ 0 ≤ (e n g m).2.2
  size : ∀ n g m, 1 ≤ m → m ≤ g.1 → m ≤ g.2.1 → m ≤ g.2.2 → ((e n g m).1 - 1) * m ≤ g.1 ∧
    ((e n g m).2.1 - 1) * m ≤ g.2.1 ∧ ((e n g m).2.2 - 1) * m ≤ g.2.2
  some_le : ∀ n g m, 1 ≤ n → 1 ≤ g.1 → 1 ≤ g.2.1 → 1 ≤ g.2.2 →
    (e n g m).1 ≤ n ∨ (e n g m).2.1 ≤ n ∨ (e n g m).2.2 ≤ n

theorem cround_nonneg {x : ℝ} (h : 0 ≤ x) : 0 ≤ cround x := by
  unfold cround; exact Int.floor_nonneg.2 (by linarith)

theorem le_cround {x : ℝ} {k : ℤ} : k ≤ cround x ↔ 2 * (k : ℝ) - 1 ≤ 2 * x := by
  unfold cround; rw [Int.le_floor]
  constructor <;> intro h <;> linarith

theorem r2_nonneg (n g m) : 0 ≤ r2 n g m := by unfold r2; positivity
theorem r3_nonneg (n g m) : 0 ≤ r3 n g m := by unfold r3; positivity
theorem r2_le (n g m) : r2 n g m ≤ 1 / m := min_le_right _ _
theorem r3_le (n g m) : r3 n g m ≤ 1 / m := min_le_right _ _

theorem size_of_le {r : ℝ} {g m : ℕ} (hm : 1 ≤ m) (hr : r ≤ 1 / m) : (cround (g * r) - 1) * m ≤ g := by
  have h : 2 * (cround (g * r) : ℝ) - 1 ≤ 2 * (g * r) := le_cround.1 (le_refl _)
  have qm : (0 : ℝ) < m := by exact_mod_cast hm
  have h1 : (g : ℝ) * r * m ≤ g := by
    calc (g : ℝ) * r * m ≤ g * (1 / m) * m := by gcongr
      _ = g := by field_simp
  have h2 : ((cround (g * r) : ℝ) - 1) * m ≤ g := by nlinarith
  exact_mod_cast h2

/-- If `k` is at most the estimate then the scaled size is at least `k - 1/2`. -/
theorem half_of_lt {g r : ℝ} {n : ℕ} (h : (n : ℤ) < cround (g * r)) : (n : ℝ) + 1 / 2 ≤ g * r := by
  have : ((n + 1 : ℤ)) ≤ cround (g * r) := by omega
  have := le_cround.1 this
  push_cast at this
  linarith

theorem est2_ok : Est2 est2 where
  nonneg n g m := ⟨cround_nonneg (mul_nonneg (Nat.cast_nonneg _) (r2_nonneg _ _ _)),
    cround_nonneg (mul_nonneg (Nat.cast_nonneg _) (r2_nonneg _ _ _))⟩
  size n g m hm _ _ := ⟨size_of_le hm (r2_le _ _ _), size_of_le hm (r2_le _ _ _)⟩
  some_le n g m hn h1 h2 := by
    by_contra hc
    push Not at hc
    have a1 := half_of_lt hc.1
    have a2 := half_of_lt hc.2
    have q1 : (0 : ℝ) < g.1 := by exact_mod_cast h1
    have q2 : (0 : ℝ) < g.2 := by exact_mod_cast h2
    have qn : (1 : ℝ) ≤ n := by exact_mod_cast hn
    have hr : r2 n g m ≤ Real.sqrt n / Real.sqrt ((g.1 : ℝ) * g.2) := min_le_left _ _
    have hsq : r2 n g m ^ 2 ≤ n / (g.1 * g.2) := by
      calc r2 n g m ^ 2 ≤ (Real.sqrt n / Real.sqrt ((g.1 : ℝ) * g.2)) ^ 2 :=
            pow_le_pow_left₀ (r2_nonneg _ _ _) hr 2
        _ = n / (g.1 * g.2) := by
            rw [div_pow, Real.sq_sqrt (by positivity), Real.sq_sqrt (by positivity)]
    rw [le_div_iff₀ (by positivity)] at hsq
    have r0 := r2_nonneg n g m
    have h3 : ((n : ℝ) + 1 / 2) * (n + 1 / 2) ≤ (g.1 * r2 n g m) * (g.2 * r2 n g m) := by gcongr
    nlinarith

theorem est3_ok : Est3 est3 where
  nonneg n g m := ⟨cround_nonneg (mul_nonneg (Nat.cast_nonneg _) (r3_nonneg _ _ _)),
    cround_nonneg (mul_nonneg (Nat.cast_nonneg _) (r3_nonneg _ _ _)),
    cround_nonneg (mul_nonneg (Nat.cast_nonneg _) (r3_nonneg _ _ _))⟩
  size n g m hm _ _ _ := ⟨size_of_le hm (r3_le _ _ _), size_of_le hm (r3_le _ _ _),
    size_of_le hm (r3_le _ _ _)⟩
  some_le n g m hn h1 h2 h3 := by
    by_contra hc
    push Not at hc
    have a1 := half_of_lt hc.1
    have a2 := half_of_lt hc.2.1
    have a3 := half_of_lt hc.2.2
    have q1 : (0 : ℝ) < g.1 := by exact_mod_cast h1
    have q2 : (0 : ℝ) < g.2.1 := by exact_mod_cast h2
    have q3 : (0 : ℝ) < g.2.2 := by exact_mod_cast h3
    have qn : (1 : ℝ) ≤ n := by exact_mod_cast hn
    have hr : r3 n g m ≤ (n : ℝ) ^ (1 / 3 : ℝ) / ((g.1 : ℝ) * g.2.1 * g.2.2) ^ (1 / 3 : ℝ) :=
      min_le_left _ _
    have cb : ∀ a : ℝ, 0 ≤ a → (a ^ (1 / 3 : ℝ)) ^ 3 = a := fun a ha => by
      rw [← Real.rpow_natCast, ← Real.rpow_mul ha]; norm_num
    have hsq : r3 n g m ^ 3 ≤ n / (g.1 * g.2.1 * g.2.2) := by
      calc r3 n g m ^ 3 ≤ ((n : ℝ) ^ (1 / 3 : ℝ) / ((g.1 : ℝ) * g.2.1 * g.2.2) ^ (1 / 3 : ℝ)) ^ 3 :=
            pow_le_pow_left₀ (r3_nonneg _ _ _) hr 3
        _ = n / (g.1 * g.2.1 * g.2.2) := by
            rw [div_pow, cb _ (by positivity), cb _ (by positivity)]
    rw [le_div_iff₀ (by positivity)] at hsq
    have r0 := r3_nonneg n g m
    have h4 : ((n : ℝ) + 1 / 2) * (n + 1 / 2) * (n + 1 / 2) ≤
        (g.1 * r3 n g m) * (g.2.1 * r3 n g m) * (g.2.2 * r3 n g m) := by gcongr
    have h5 : ((n : ℝ) + 1 / 2) * (n + 1 / 2) * (n + 1 / 2) > n := by
      have : (1 : ℝ) ≤ (n + 1 / 2) * (n + 1 / 2) := by nlinarith
      nlinarith
    nlinarith

/-! ### Integer form of the estimates -/

/-- Greatest `k` with `k = 0` or `(2k-1) r' ≤ 2 g`-type bounds, in integers. -/
def est2c (n : ℕ) (g : ℕ × ℕ) (m : ℕ) : ℤ × ℤ :=
  let f := fun a : ℕ => (Nat.findGreatest (fun k =>
    (2 * k - 1) ^ 2 * (g.1 * g.2) ≤ 4 * a ^ 2 * n ∧ (2 * k - 1) * m ≤ 2 * a) (a + 1) : ℤ)
  (f g.1, f g.2)

def est3c (n : ℕ) (g : ℕ × ℕ × ℕ) (m : ℕ) : ℤ × ℤ × ℤ :=
  let f := fun a : ℕ => (Nat.findGreatest (fun k =>
    (2 * k - 1) ^ 3 * (g.1 * g.2.1 * g.2.2) ≤ 8 * a ^ 3 * n ∧ (2 * k - 1) * m ≤ 2 * a) (a + 1) : ℤ)
  (f g.1, f g.2.1, f g.2.2)

theorem cround_eq {r : ℝ} {a m : ℕ} (hm : 1 ≤ m) (hr0 : 0 ≤ r) (hrm : r ≤ 1 / m) (Q : ℕ → Prop)
    [DecidablePred Q] (hQ0 : Q 0)
    (hQ : ∀ k, 1 ≤ k → (Q k ↔ 2 * (k : ℝ) - 1 ≤ 2 * (a * r))) :
    cround (a * r) = (Nat.findGreatest Q (a + 1) : ℤ) := by
  have h0 : 0 ≤ cround (a * r) := cround_nonneg (by positivity)
  obtain ⟨d, hd⟩ := Int.eq_ofNat_of_zero_le h0
  rw [hd]
  congr 1
  have hle : ∀ k : ℕ, k ≤ d ↔ 2 * (k : ℝ) - 1 ≤ 2 * (a * r) := fun k => by
    have : ((k : ℤ) ≤ cround (a * r)) ↔ _ := le_cround (x := a * r) (k := k)
    rw [hd] at this
    push_cast at this
    rw [← this]; norm_cast
  symm
  rw [Nat.findGreatest_eq_iff]
  refine ⟨?_, fun hd0 => (hQ d (by omega)).2 ((hle d).1 (le_refl _)), fun k hk _ hq => ?_⟩
  · have h1 := (hle d).1 (le_refl _)
    have h2 : (a : ℝ) * r ≤ a := by
      have : (1 : ℝ) / m ≤ 1 := by
        have : (1 : ℝ) ≤ m := by exact_mod_cast hm
        rw [div_le_one (by linarith)]; exact this
      have : r ≤ 1 := by linarith
      nlinarith [(Nat.cast_nonneg a : (0 : ℝ) ≤ a)]
    have : (d : ℝ) < a + 1 := by linarith
    have : d < a + 1 := by exact_mod_cast this
    omega
  · have := (hle k).2 ((hQ k (by omega)).1 hq)
    omega

theorem bound_m {a m k : ℕ} (hm : 1 ≤ m) (hk : 1 ≤ k) :
    (2 * k - 1) * m ≤ 2 * a ↔ 2 * (k : ℝ) - 1 ≤ 2 * (a * (1 / (m : ℝ))) := by
  have qm : (0 : ℝ) < m := by exact_mod_cast hm
  have e : ((2 * k - 1 : ℕ) : ℝ) = 2 * k - 1 := by rw [Nat.cast_sub (by omega)]; push_cast; ring
  rw [← Nat.cast_le (α := ℝ)]
  push_cast [e]
  rw [mul_one_div, ← mul_div_assoc, le_div_iff₀ qm]

theorem min_iff {a x y u : ℝ} (ha : 0 ≤ a) : u ≤ 2 * (a * min x y) ↔ u ≤ 2 * (a * x) ∧ u ≤ 2 * (a * y) := by
  rw [mul_min_of_nonneg _ _ ha, mul_min_of_nonneg _ _ (by norm_num : (0:ℝ) ≤ 2), le_min_iff]

theorem est2_eq {n : ℕ} {g : ℕ × ℕ} {m : ℕ} (hm : 1 ≤ m) (h1 : 1 ≤ g.1) (h2 : 1 ≤ g.2) :
    est2 n g m = est2c n g m := by
  have q1 : (0 : ℝ) < g.1 := by exact_mod_cast h1
  have q2 : (0 : ℝ) < g.2 := by exact_mod_cast h2
  have key : ∀ a : ℕ, cround (a * r2 n g m) = (Nat.findGreatest (fun k =>
      (2 * k - 1) ^ 2 * (g.1 * g.2) ≤ 4 * a ^ 2 * n ∧ (2 * k - 1) * m ≤ 2 * a) (a + 1) : ℤ) := by
    intro a
    refine cround_eq hm (r2_nonneg _ _ _) (r2_le _ _ _) _ (by simp) fun k hk => ?_
    rw [r2, min_iff (Nat.cast_nonneg a), bound_m hm hk]
    refine and_congr_left fun _ => ?_
    have e : ((2 * k - 1 : ℕ) : ℝ) = 2 * k - 1 := by rw [Nat.cast_sub (by omega)]; push_cast; ring
    have k0 : (0 : ℝ) ≤ 2 * k - 1 := by rw [← e]; positivity
    rw [← Nat.cast_le (α := ℝ), ← Real.sqrt_div' _ (by positivity)]
    push_cast [e]
    have e2 : 2 * ((a : ℝ) * Real.sqrt (n / (g.1 * g.2))) = Real.sqrt (4 * a ^ 2 * n / (g.1 * g.2)) := by
      rw [show (4 : ℝ) * a ^ 2 * n / (g.1 * g.2) = (2 * a) ^ 2 * (n / (g.1 * g.2)) by ring,
        Real.sqrt_mul (by positivity), Real.sqrt_sq (by positivity)]
      ring
    rw [e2, Real.le_sqrt k0 (by positivity), le_div_iff₀ (by positivity)]
  unfold est2 est2c
  simp only [key]

theorem est3_eq {n : ℕ} {g : ℕ × ℕ × ℕ} {m : ℕ} (hm : 1 ≤ m) (h1 : 1 ≤ g.1) (h2 : 1 ≤ g.2.1)
    (h3 : 1 ≤ g.2.2) : est3 n g m = est3c n g m := by
  have q1 : (0 : ℝ) < g.1 := by exact_mod_cast h1
  have q2 : (0 : ℝ) < g.2.1 := by exact_mod_cast h2
  have q3 : (0 : ℝ) < g.2.2 := by exact_mod_cast h3
  have cb : ∀ a : ℝ, 0 ≤ a → (a ^ (1 / 3 : ℝ)) ^ 3 = a := fun a ha => by
    rw [← Real.rpow_natCast, ← Real.rpow_mul ha]; norm_num
  have key : ∀ a : ℕ, cround (a * r3 n g m) = (Nat.findGreatest (fun k =>
      (2 * k - 1) ^ 3 * (g.1 * g.2.1 * g.2.2) ≤ 8 * a ^ 3 * n ∧ (2 * k - 1) * m ≤ 2 * a) (a + 1) : ℤ) := by
    intro a
    refine cround_eq hm (r3_nonneg _ _ _) (r3_le _ _ _) _ (by simp) fun k hk => ?_
    rw [r3, min_iff (Nat.cast_nonneg a), bound_m hm hk]
    refine and_congr_left fun _ => ?_
    have e : ((2 * k - 1 : ℕ) : ℝ) = 2 * k - 1 := by rw [Nat.cast_sub (by omega)]; push_cast; ring
    have k0 : (0 : ℝ) ≤ 2 * k - 1 := by rw [← e]; positivity
    rw [← Nat.cast_le (α := ℝ)]
    push_cast [e]
    have hpos : (0 : ℝ) < (g.1 : ℝ) * g.2.1 * g.2.2 := by positivity
    rw [← pow_le_pow_iff_left₀ (n := 3) k0 (by positivity) (by norm_num)]
    rw [mul_pow, mul_pow, div_pow, cb _ (by positivity), cb _ hpos.le]
    rw [show (2 : ℝ) ^ 3 * ((a : ℝ) ^ 3 * (n / (g.1 * g.2.1 * g.2.2))) =
      8 * a ^ 3 * n / (g.1 * g.2.1 * g.2.2) by ring, le_div_iff₀ hpos]
  unfold est3 est3c
  simp only [key]

end Sparc.Dims

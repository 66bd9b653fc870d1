import Verif.Ace.Model
import Verif.Groups.Props
import Verif.Density.Lemmas

/-! # Lemmas on lists, batches, bands and rotations -/

open Finset

namespace Sparc.Ace

/-! ## Lists -/

theorem sum_range_list (n : ℕ) (f : ℕ → ℝ) : ((List.range n).map f).sum = ∑ i ∈ range n, f i := by
  induction n with
  | zero => simp
  | succ n ih => simp [List.range_succ, ih, sum_range_succ]

theorem sum_range'_list (s n : ℕ) (f : ℕ → ℝ) :
    ((List.range' s n).map f).sum = ∑ i ∈ range n, f (s + i) := by
  rw [← sum_range_list, List.range'_eq_map_range, List.map_map]; rfl

theorem sum_flatMap {α β : Type} (l : List α) (g : α → List β) (f : β → ℝ) :
    ((l.flatMap g).map f).sum = (l.map fun x => ((g x).map f).sum).sum := by
  induction l with
  | nil => simp
  | cons a l ih => simp [List.flatMap_cons, ih]

theorem foldlM_congr {α S : Type} (l : List α) (f g : S → α → Option S)
    (h : ∀ x, ∀ p ∈ l, f x p = g x p) (x : S) : l.foldlM f x = l.foldlM g x := by
  induction l generalizing x with
  | nil => rfl
  | cons a l ih =>
    rw [List.foldlM_cons, List.foldlM_cons, h x a (by simp)]
    cases g x a with
    | none => rfl
    | some y => exact ih (fun x p hp => h x p (by simp [hp])) y

theorem foldlM_map {α β S : Type} (l : List α) (e : α → β) (f : S → β → Option S) (x : S) :
    (l.map e).foldlM f x = l.foldlM (fun x a => f x (e a)) x := by
  induction l generalizing x with
  | nil => rfl
  | cons a l ih =>
    rw [List.map_cons, List.foldlM_cons, List.foldlM_cons]
    cases f x (e a) with
    | none => rfl
    | some y => exact ih y

theorem chunk_eq {α : Type} (l : List α) (d : α) (base cnt bs : ℕ) (hb : base ≤ l.length)
    (hc : cnt = min (base + bs) l.length - base) :
    (List.range cnt).map (fun c => l.getD (base + c) d) = (l.drop base).take bs := by
  apply List.ext_getElem
  · simp; omega
  · intro i h1 h2
    simp only [List.length_map, List.length_range] at h1
    have h3 : base + i < l.length := by omega
    simp [List.getD_eq_getElem?_getD, List.getElem?_eq_getElem h3]

theorem foldlM_chunks {α S : Type} (l : List α) (d : α) (bs : ℕ) (f : S → α → Option S) (n : ℕ)
    (hn : bs * n < l.length + bs) (x : S) :
    (List.range n).foldlM (fun x loop =>
      (List.range (min (bs * (loop + 1)) l.length - bs * loop)).foldlM
        (fun x c => f x (l.getD (bs * loop + c) d)) x) x = (l.take (bs * n)).foldlM f x := by
  induction n with
  | zero => simp
  | succ n ih =>
    have h1 : bs * (n + 1) = bs * n + bs := by ring
    rw [List.range_succ, List.foldlM_append, ih (by omega), h1, List.take_add,
      List.foldlM_append]
    have h2 : bs * n ≤ l.length := by omega
    cases (l.take (bs * n)).foldlM f x with
    | none => rfl
    | some y =>
      simp only [Option.bind_eq_bind, Option.bind_some, List.foldlM_cons, List.foldlM_nil]
      rw [show bs * (n + 1) = bs * n + bs from h1, ← chunk_eq l d (bs * n) _ bs h2 rfl, foldlM_map]
      cases List.foldlM (fun x a => f x (l.getD (bs * n + a) d)) y
          (List.range (min (bs * n + bs) l.length - bs * n)) <;> rfl

/-- A positive batch size, as the input demands. -/
def Inp.BatchOk (I : Inp) : Prop := I.memBatch = 0 ∨ 0 < I.memBatch * I.npNd

/-- Whatever the batch size, the right-hand sides are treated one after the other. -/
theorem batches_eq {S : Type} (I : Inp) (hI : I.BatchOk) (pairs : List (ℕ × ℕ)) (rhs : ℕ × ℕ → Col)
    (app : S → ℕ × ℕ → Col → Option S) (x : S) :
    I.batches pairs rhs app x = pairs.foldlM (fun x p => app x p (I.pois (rhs p))) x := by
  unfold Inp.batches
  by_cases h0 : pairs.length = 0
  · have : pairs = [] := List.length_eq_zero_iff.1 h0
    subst this; simp
  simp only [h0, if_false]
  set bs := if I.memBatch = 0 then pairs.length else I.memBatch * I.npNd with hbs
  have hpos : 0 < bs := by
    rw [hbs]; unfold Inp.BatchOk at hI
    split_ifs with h
    · omega
    · tauto
  set n := (pairs.length - 1) / bs + 1 with hn
  have hdm := Nat.div_add_mod (pairs.length - 1) bs
  have hlt := Nat.mod_lt (pairs.length - 1) hpos
  have hbn : bs * n = bs * ((pairs.length - 1) / bs) + bs := by rw [hn]; ring
  have key := foldlM_chunks pairs (0, 0) bs (fun x p => app x p (I.pois (rhs p))) n
    (by rw [hbn]; generalize bs * ((pairs.length - 1) / bs) = q at *; omega) x
  rw [List.take_of_length_le
    (by rw [hbn]; generalize bs * ((pairs.length - 1) / bs) = q at *; omega)] at key
  rw [← key]
  refine foldlM_congr _ _ _ (fun x loop _ => ?_) _
  refine foldlM_congr _ _ _ (fun x c hc => ?_) _
  have hc := List.mem_range.1 hc
  simp only [Inp.poissonSolve, hc, if_true]

/-- A loop of steps each of which succeeds and adds something. -/
theorem foldlM_add {α : Type} (l : List α) (f : (ℕ → Col) → α → Option (ℕ → Col))
    (C : α → ℕ → Col)
    (h : ∀ p ∈ l, ∀ X, ∃ X', f X p = some X' ∧ ∀ a k, X' a k = X a k + C p a k) (X : ℕ → Col) :
    ∃ X', l.foldlM f X = some X' ∧ ∀ a k, X' a k = X a k + (l.map fun p => C p a k).sum := by
  induction l generalizing X with
  | nil => exact ⟨X, rfl, by simp⟩
  | cons p l ih =>
    obtain ⟨Y, hY, hY'⟩ := h p (by simp) X
    obtain ⟨Z, hZ, hZ'⟩ := ih (fun p hp => h p (by simp [hp])) Y
    refine ⟨Z, ?_, fun a k => ?_⟩
    · rw [List.foldlM_cons, hY]; exact hZ
    · rw [hZ', hY', List.map_cons, List.sum_cons]; ring

theorem each_ok (I : Inp) (f : ℕ → Option (ℕ → Col)) (Q : ℕ → (ℕ → Col) → Prop)
    (h : ∀ r < I.P, ∃ x, f r = some x ∧ Q r x) :
    ∃ X, I.each f = some X ∧ ∀ r < I.P, Q r (X r) := by
  unfold Inp.each
  suffices H : ∀ n ≤ I.P, ∃ X, (List.range n).foldlM
      (fun (X : ℕ → ℕ → Col) r => (f r).map fun x => Function.update X r x) (fun _ _ _ => 0) = some X ∧
      ∀ r < n, Q r (X r) from H I.P le_rfl
  intro n hn
  induction n with
  | zero => exact ⟨_, rfl, by simp⟩
  | succ n ih =>
    obtain ⟨X, hX, hQ⟩ := ih (by omega)
    obtain ⟨x, hx, hq⟩ := h n (by omega)
    refine ⟨Function.update X n x, ?_, fun r hr => ?_⟩
    · rw [List.range_succ, List.foldlM_append, hX]
      simp [hx]
    · by_cases hrn : r = n
      · subst hrn; simpa using hq
      · simpa [Function.update_of_ne hrn] using hQ r (by omega)

/-! ## Bands -/

variable (I : Inp)

theorem cover (hNs : 0 < I.Ns) (hP : 0 < I.P) : Groups.IsCover I.Ns I.P I.start I.nb :=
  Groups.band_cover I.Ns I.P hNs hP

theorem startSrc_eq {q : ℕ} (h : 0 < I.nb q) : I.startSrc q = I.start q := by
  unfold Inp.nb Groups.bandCount at h
  unfold Inp.startSrc Inp.start Groups.bandStart
  dsimp only at h ⊢
  split_ifs at h ⊢ <;> first | rfl | omega

theorem nbM_le (r : ℕ) : I.nbM r ≤ I.nb r := by
  unfold Inp.nbM; split_ifs <;> omega

/-- The columns of `Xi` that process `r` owns. -/
theorem lt_nbM {r i : ℕ} : i < I.nbM r ↔ i < I.nb r ∧ I.start r + i < I.Nocc := by
  unfold Inp.nbM; split_ifs <;> omega

/-- Process `r` owns band `a`. -/
def Inp.Owns (r a : ℕ) : Prop := I.start r ≤ a ∧ a < I.start r + I.nb r

instance (r a : ℕ) : Decidable (I.Owns r a) := by unfold Inp.Owns; infer_instance

theorem owner (hNs : 0 < I.Ns) (hP : 0 < I.P) {a : ℕ} (ha : a < I.Ns) :
    ∃ r < I.P, I.Owns r a ∧ ∀ q < I.P, I.Owns q a → q = r := by
  obtain ⟨g, hg, hu⟩ := (cover I hNs hP).owner a ha
  exact ⟨g, hg.1, hg.2, fun q hq h => hu q ⟨hq, h⟩⟩

/-! ## Rotations -/

theorem source_lt (hP : 0 < I.P) (r s : ℕ) : I.source r s < I.P := Nat.mod_lt _ hP

theorem reps_eq (hP : 0 < I.P) : I.reps = I.P / 2 := by
  unfold Inp.reps; split_ifs <;> omega

theorem mod_cases {n P : ℕ} (h : n < 2 * P) : n % P = if n < P then n else n - P := by
  split_ifs with h1
  · exact Nat.mod_eq_of_lt h1
  · rw [Nat.mod_eq_sub_mod (by omega), Nat.mod_eq_of_lt (by omega)]

/-- The distance from `q` up to `r`. -/
theorem source_eq_iff {r q s : ℕ} (hr : r < I.P) (hq : q < I.P) (hs : s < I.P) :
    I.source r s = q ↔ s = if q ≤ r then r - q else r + I.P - q := by
  unfold Inp.source
  rw [mod_cases (by omega)]
  split_ifs <;> omega

/-- The skipped pass. -/
def Inp.Skip (r s : ℕ) : Prop := I.P % 2 = 0 ∧ I.P / 2 ≤ r ∧ s = (I.P - 2) / 2 + 1

instance (r s : ℕ) : Decidable (I.Skip r s) := by unfold Inp.Skip; infer_instance

theorem sum_ite_index (n d : ℕ) (p : ℕ → Prop) [DecidablePred p] (v : ℝ) :
    ∑ t ∈ range n, (if t + 1 = d ∧ p (t + 1) then v else 0) =
      if 1 ≤ d ∧ d ≤ n ∧ p d then v else 0 := by
  by_cases h : 1 ≤ d ∧ d ≤ n
  · rw [sum_eq_single (d - 1)]
    · have : d - 1 + 1 = d := by omega
      simp [this, h]
    · intro t _ ht
      rw [if_neg]; omega
    · intro hn; exact absurd (mem_range.2 (by omega)) hn
  · rw [if_neg (by tauto)]
    refine sum_eq_zero fun t ht => ?_
    have := mem_range.1 ht
    rw [if_neg]; omega

/-- Each pair of different processes meets exactly once. -/
theorem meet_once (hP : 0 < I.P) (S : ℕ → ℝ) {ra : ℕ} (hra : ra < I.P) :
    ∑ r ∈ range I.P, ∑ t ∈ range I.reps, (if I.Skip r (t + 1) then 0 else
        (if r = ra then S (I.source r (t + 1)) else 0) +
        (if I.source r (t + 1) = ra then S r else 0)) =
      ∑ q ∈ range I.P, if q = ra then 0 else S q := by
  have hreps := reps_eq I hP
  have hst : ∀ t ∈ range I.reps, t + 1 < I.P ∨ I.P = 1 := by
    intro t ht; have := mem_range.1 ht; omega
  have e1 : ∀ r ∈ range I.P, ∀ t ∈ range I.reps, (if I.Skip r (t + 1) then 0 else
        (if r = ra then S (I.source r (t + 1)) else 0) +
        (if I.source r (t + 1) = ra then S r else 0)) =
      (if r = ra then ∑ q ∈ range I.P, (if I.source ra (t + 1) = q ∧ ¬ I.Skip ra (t + 1) then S q else 0)
        else 0) + (if I.source r (t + 1) = ra ∧ ¬ I.Skip r (t + 1) then S r else 0) := by
    intro r _ t _
    have e : ∑ q ∈ range I.P, (if I.source ra (t + 1) = q ∧ ¬ I.Skip ra (t + 1) then S q else 0) =
        if ¬ I.Skip ra (t + 1) then S (I.source ra (t + 1)) else 0 := by
      rw [sum_eq_single (I.source ra (t + 1))]
      · simp
      · intro q _ hq; rw [if_neg]; tauto
      · intro h; exact absurd (mem_range.2 (source_lt I hP _ _)) h
    rw [e]
    by_cases h1 : I.Skip r (t + 1) <;> by_cases h2 : r = ra
    · subst h2; simp [h1]
    · simp [h1, h2]
    · subst h2; simp [h1]
    · simp [h1, h2]
  rw [sum_congr rfl fun r hr => sum_congr rfl (e1 r hr)]
  simp only [sum_add_distrib]
  have e2 : ∑ r ∈ range I.P, ∑ t ∈ range I.reps,
      (if r = ra then ∑ q ∈ range I.P, (if I.source ra (t + 1) = q ∧ ¬ I.Skip ra (t + 1) then S q else 0)
        else 0) =
      ∑ q ∈ range I.P, ∑ t ∈ range I.reps,
        (if I.source ra (t + 1) = q ∧ ¬ I.Skip ra (t + 1) then S q else 0) := by
    rw [sum_eq_single ra]
    · simp only [if_true]; exact sum_comm
    · intro r _ hr; simp [hr]
    · intro h; exact absurd (mem_range.2 hra) h
  rw [e2, ← sum_add_distrib]
  refine sum_congr rfl fun q hq => ?_
  have hq := mem_range.1 hq
  have f1 : ∑ t ∈ range I.reps, (if I.source ra (t + 1) = q ∧ ¬ I.Skip ra (t + 1) then S q else 0) =
      ∑ t ∈ range I.reps, (if t + 1 = (if q ≤ ra then ra - q else ra + I.P - q) ∧
        ¬ I.Skip ra (t + 1) then S q else 0) := by
    refine sum_congr rfl fun t ht => ?_
    have := mem_range.1 ht
    simp only [source_eq_iff I hra hq (show t + 1 < I.P by omega)]
  have f2 : ∑ t ∈ range I.reps, (if I.source q (t + 1) = ra ∧ ¬ I.Skip q (t + 1) then S q else 0) =
      ∑ t ∈ range I.reps, (if t + 1 = (if ra ≤ q then q - ra else q + I.P - ra) ∧
        ¬ I.Skip q (t + 1) then S q else 0) := by
    refine sum_congr rfl fun t ht => ?_
    have := mem_range.1 ht
    simp only [source_eq_iff I hq hra (show t + 1 < I.P by omega)]
  rw [f1, f2, sum_ite_index I.reps _ (fun s => ¬ I.Skip ra s), sum_ite_index I.reps _ (fun s => ¬ I.Skip q s)]
  by_cases hqr : q = ra
  · subst hqr
    simp
  · rw [if_neg hqr]
    unfold Inp.Skip
    generalize hd1 : (if q ≤ ra then ra - q else ra + I.P - q) = d1
    generalize hd2 : (if ra ≤ q then q - ra else q + I.P - ra) = d2
    have hs : d1 + d2 = I.P ∧ 1 ≤ d1 ∧ 1 ≤ d2 := by
      rw [← hd1, ← hd2]; split_ifs <;> omega
    by_cases hc : d1 = d2
    · have hv : d1 = I.P / 2 ∧ I.P % 2 = 0 := by omega
      have hx : (ra < I.P / 2 ∧ ¬ q < I.P / 2) ∨ (¬ ra < I.P / 2 ∧ q < I.P / 2) := by
        rw [← hd1] at hv; split_ifs at hv <;> omega
      rcases hx with hx | hx
      · rw [if_pos (by omega), if_neg (by omega), add_zero]
      · rw [if_neg (by omega), if_pos (by omega), zero_add]
    · by_cases hl : d1 < d2
      · rw [if_pos (by omega), if_neg (by omega), add_zero]
      · rw [if_neg (by omega), if_pos (by omega), zero_add]

end Sparc.Ace

import Verif.Tac
import Verif.Infl.Model
import Mathlib.Data.List.Nodup
import Mathlib.Algebra.BigOperators.Finprod
import Mathlib.Algebra.BigOperators.Group.List.Basic
import Mathlib.Algebra.BigOperators.Intervals

/-! # Influencing atoms: lemmas about the sweeps -/

namespace Sparc.Infl

open Finset

theorem mem_irange {a b i : ℤ} : i ∈ irange a b ↔ a ≤ i ∧ i ≤ b := by
  unfold irange
  simp only [List.mem_map, List.mem_range]
  constructor
  · rintro ⟨n, hn, rfl⟩
    omega
  · rintro ⟨h1, h2⟩
    exact ⟨(i - a).toNat, by omega, by omega⟩

theorem nodup_irange (a b : ℤ) : (irange a b).Nodup := by
  unfold irange
  refine List.Nodup.map (fun x y h => ?_) List.nodup_range
  simpa using h

open Classical in
/-- The images visited by a sweep, in order. -/
noncomputable def keys (zs ys xs : List ℤ) (sz sy sx : ℤ → Prop) : List (ℤ × ℤ × ℤ) :=
  (zs.filter fun r => ¬ sz r).flatMap fun r =>
    (ys.filter fun q => ¬ sy q).flatMap fun q =>
      (xs.filter fun p => ¬ sx p).map fun p => (p, q, r)

theorem foldl_continue {α σ : Type} (l : List α) (c : α → Prop) [DecidablePred c] (f : σ → α → σ)
    (s : σ) :
    l.foldl (fun s a => if c a then s else f s a) s = (l.filter fun a => ¬ c a).foldl f s := by
  induction l generalizing s with
  | nil => rfl
  | cons a l ih =>
    by_cases h : c a <;> simp [h, ih]

theorem foldl_flat {α β σ : Type} (l : List α) (g : α → List β) (f : σ → β → σ) (s : σ) :
    (l.flatMap g).foldl f s = l.foldl (fun s a => (g a).foldl f s) s := by
  induction l generalizing s with
  | nil => rfl
  | cons a l ih => simp [ih]

theorem sweep_eq {σ : Type} (zs ys xs : List ℤ) (sz sy sx : ℤ → Prop)
    (body : σ → ℤ → ℤ → ℤ → σ) (s : σ) :
    sweep zs ys xs sz sy sx body s
      = (keys zs ys xs sz sy sx).foldl (fun s k => body s k.1 k.2.1 k.2.2) s := by
  unfold sweep keys
  rw [foldl_flat, foldl_continue]
  congr 1
  funext s r
  rw [foldl_flat, foldl_continue]
  congr 1
  funext s q
  rw [foldl_continue, List.foldl_map]

theorem mem_keys {zs ys xs : List ℤ} {sz sy sx : ℤ → Prop} {v : ℤ × ℤ × ℤ} :
    v ∈ keys zs ys xs sz sy sx ↔
      (v.1 ∈ xs ∧ ¬ sx v.1) ∧ (v.2.1 ∈ ys ∧ ¬ sy v.2.1) ∧ (v.2.2 ∈ zs ∧ ¬ sz v.2.2) := by
  obtain ⟨p, q, r⟩ := v
  simp only [keys, List.mem_flatMap, List.mem_filter, List.mem_map, decide_eq_true_eq,
    Prod.mk.injEq]
  constructor
  · rintro ⟨r', hr, q', hq, p', hp, rfl, rfl, rfl⟩
    exact ⟨hp, hq, hr⟩
  · rintro ⟨hp, hq, hr⟩
    exact ⟨r, hr, q, hq, p, hp, rfl, rfl, rfl⟩

theorem nodup_keys {zs ys xs : List ℤ} {sz sy sx : ℤ → Prop} (hz : zs.Nodup) (hy : ys.Nodup)
    (hx : xs.Nodup) : (keys zs ys xs sz sy sx).Nodup := by
  classical
  unfold keys
  rw [List.nodup_flatMap]
  refine ⟨fun r _ => ?_, ?_⟩
  · rw [List.nodup_flatMap]
    refine ⟨fun q _ => ?_, ?_⟩
    · exact (hx.filter _).map (fun a b h => by simpa using h)
    · refine (hy.filter _).imp (fun {a b} hab => ?_)
      simp only [Function.onFun, List.disjoint_left, List.mem_map]
      rintro v ⟨p, _, rfl⟩ ⟨p', _, h⟩
      simp only [Prod.mk.injEq] at h
      exact hab h.2.1.symm
  · refine (hz.filter _).imp (fun {a b} hab => ?_)
    simp only [Function.onFun, List.disjoint_left, List.mem_map, List.mem_flatMap]
    rintro v ⟨q, _, p, _, rfl⟩ ⟨q', _, p', _, h⟩
    simp only [Prod.mk.injEq] at h
    exact hab h.2.2.symm

theorem foldl_count {α : Type} (l : List α) (n : ℕ) :
    l.foldl (fun c _ => c + 1) n = n + l.length := by
  induction l generalizing n with
  | nil => rfl
  | cons a l ih => rw [List.foldl_cons, ih, List.length_cons]; omega

theorem foldl_push {α β τ : Type} (l : List α) (g : α → β) (u : τ → α → τ) (s : List β × τ) :
    (l.foldl (fun (s : List β × τ) a => (s.1 ++ [g a], u s.2 a)) s)
      = (s.1 ++ l.map g, l.foldl u s.2) := by
  induction l generalizing s with
  | nil => simp
  | cons a l ih => rw [List.foldl_cons, ih]; simp

/-- The loop over the atoms of one type, with a running atom number. -/
theorem foldl_run {σ : Type} (n : ℕ) (f : ℕ → σ → σ) (a : ℕ) (s : σ) :
    (List.range n).foldl (fun (c : ℕ × σ) _ => (c.1 + 1, f c.1 c.2)) (a, s)
      = (a + n, (List.range' a n).foldl (fun s J => f J s) s) := by
  induction n with
  | zero => simp
  | succ n ih =>
    rw [List.range_succ, List.foldl_append, ih, List.range'_concat, List.foldl_append]
    simp [Nat.add_assoc]

/-- The images of atom `J` of type `T` that the process keeps. -/
noncomputable def keysA (G : Geo) (T : Typ) (pos : ℕ → ℝ) (J : ℕ) : List (ℤ × ℤ × ℤ) :=
  keys (irange (imgMin G.Z T.rbz (pos (3 * J + 2))) (imgMax G.Z T.rbz (pos (3 * J + 2))))
    (irange (imgMin G.Y T.rby (pos (3 * J + 1))) (imgMax G.Y T.rby (pos (3 * J + 1))))
    (irange (imgMin G.X T.rbx (pos (3 * J))) (imgMax G.X T.rbx (pos (3 * J))))
    (fun r => skip (dms G.Z) (dme G.Z) T.rbz (pos (3 * J + 2) + G.Z.L * r))
    (fun q => skip (dms G.Y) (dme G.Y) T.rby (pos (3 * J + 1) + G.Y.L * q))
    (fun p => skip (dms G.X) (dme G.X) T.rbx (pos (3 * J) + G.X.L * p))

theorem countAtom_eq (G : Geo) (T : Typ) (pos : ℕ → ℝ) (J n : ℕ) :
    countAtom G T pos J n = n + (keysA G T pos J).length := by
  unfold countAtom keysA
  dsimp only
  rw [sweep_eq, foldl_count]

theorem fillAtom_fst (G : Geo) (T : Typ) (pos spin : ℕ → ℝ) (J : ℕ)
    (s : List Rec × Bool × Bool × Bool) :
    (fillAtom G T pos spin J s).1
      = s.1 ++ (keysA G T pos J).map fun v => mkRec G T pos spin J v.1 v.2.1 v.2.2 := by
  unfold fillAtom keysA
  dsimp only
  rw [sweep_eq]
  have := foldl_push (τ := Bool × Bool × Bool) (keysA G T pos J)
    (fun v => mkRec G T pos spin J v.1 v.2.1 v.2.2)
    (fun f v => (outNow G.X (pos (3 * J) + G.X.L * v.1) T.rbx f.1,
      outNow G.Y (pos (3 * J + 1) + G.Y.L * v.2.1) T.rby f.2.1,
      outNow G.Z (pos (3 * J + 2) + G.Z.L * v.2.2) T.rbz f.2.2)) s
  unfold keysA at this
  rw [this]

theorem countLoop (G : Geo) (T : Typ) (pos : ℕ → ℝ) (l : List ℕ) (n : ℕ) :
    l.foldl (fun s J => countAtom G T pos J s) n
      = n + (l.flatMap fun J => keysA G T pos J).length := by
  induction l generalizing n with
  | nil => rfl
  | cons a l ih => rw [List.foldl_cons, ih, countAtom_eq]; simp; omega

theorem fillLoop (G : Geo) (T : Typ) (pos spin : ℕ → ℝ) (l : List ℕ)
    (s : List Rec × Bool × Bool × Bool) :
    (l.foldl (fun s J => fillAtom G T pos spin J s) s).1
      = s.1 ++ l.flatMap fun J =>
        (keysA G T pos J).map fun v => mkRec G T pos spin J v.1 v.2.1 v.2.2 := by
  induction l generalizing s with
  | nil => simp
  | cons a l ih => rw [List.foldl_cons, ih, fillAtom_fst]; simp

/-- The records of one type whose first atom has number `a`. -/
noncomputable def recsOf (G : Geo) (pos spin : ℕ → ℝ) (a : ℕ) (T : Typ) : List Rec :=
  (List.range' a T.n).flatMap fun J =>
    (keysA G T pos J).map fun v => mkRec G T pos spin J v.1 v.2.1 v.2.2

theorem recsOf_length (G : Geo) (pos spin : ℕ → ℝ) (a : ℕ) (T : Typ) :
    (recsOf G pos spin a T).length
      = ((List.range' a T.n).flatMap fun J => keysA G T pos J).length := by
  unfold recsOf
  simp [List.length_flatMap]

theorem typeStep_eq (G : Geo) (pos spin : ℕ → ℝ) (s : St) (T : Typ) (h : s.atm = s.atm2) :
    (typeStep G pos spin s T).atm = s.atm + T.n ∧ (typeStep G pos spin s T).atm2 = s.atm + T.n ∧
    (typeStep G pos spin s T).out
      = s.out ++ [((recsOf G pos spin s.atm T).length, recsOf G pos spin s.atm T)] := by
  unfold typeStep
  dsimp only
  rw [foldl_run T.n (fun J c => countAtom G T pos J c), countLoop,
    foldl_run T.n (fun J c => fillAtom G T pos spin J c)]
  have hl := recsOf_length G pos spin s.atm T
  split
  · rename_i h0
    simp only [Nat.zero_add] at h0
    rw [h0] at hl
    have : recsOf G pos spin s.atm T = [] := List.length_eq_zero_iff.1 hl
    simp [this]
  · refine ⟨rfl, by simp [h], ?_⟩
    simp only [Nat.zero_add, ← hl]
    rw [fillLoop, ← h]
    simp [recsOf]

/-- The results for a list of types whose first atom has number `a`. -/
noncomputable def outs (G : Geo) (pos spin : ℕ → ℝ) : ℕ → List Typ → List (ℕ × List Rec)
  | _, [] => []
  | a, T :: ts => ((recsOf G pos spin a T).length, recsOf G pos spin a T)
      :: outs G pos spin (a + T.n) ts

theorem influence_run (G : Geo) (pos spin : ℕ → ℝ) (ts : List Typ) (s : St)
    (h : s.atm = s.atm2) :
    (ts.foldl (typeStep G pos spin) s).out = s.out ++ outs G pos spin s.atm ts := by
  induction ts generalizing s with
  | nil => simp [outs]
  | cons T ts ih =>
    obtain ⟨h1, h2, h3⟩ := typeStep_eq G pos spin s T h
    rw [List.foldl_cons, ih _ (by rw [h1, h2]), h1, h3]
    simp [outs]

theorem outs_get (G : Geo) (pos spin : ℕ → ℝ) (a : ℕ) (ts : List Typ) (t : ℕ) (T : Typ)
    (h : ts[t]? = some T) :
    (outs G pos spin a ts)[t]?
      = some ((recsOf G pos spin (a + ((ts.take t).map Typ.n).sum) T).length,
          recsOf G pos spin (a + ((ts.take t).map Typ.n).sum) T) := by
  induction ts generalizing a t with
  | nil => simp at h
  | cons T' ts ih =>
    cases t with
    | zero => simp at h; subst h; simp [outs]
    | succ t =>
      rw [List.getElem?_cons_succ] at h
      rw [outs, List.getElem?_cons_succ, ih _ _ h]
      simp [Nat.add_assoc]

/-! ## One direction -/

theorem tol_pos : 0 < tol := by unfold tol; positivity

theorem img_iff (a : Axis) (hL : 0 < a.L) (rb x0 : ℝ) (p : ℤ)
    (hin : a.bc = 0 → a.org = 0 ∧ 0 ≤ a.lo ∧ (a.hi + 1) * a.h ≤ a.L) (hh : 0 < a.h) :
    (p ∈ irange (imgMin a rb x0) (imgMax a rb x0) ∧ ¬ skip (dms a) (dme a) rb (x0 + a.L * p)) ↔
      ((a.bc ≠ 0 → p = 0) ∧ ¬ skip (dms a) (dme a) rb (x0 + a.L * p)) := by
  rw [mem_irange]
  refine and_congr_left fun hs => ?_
  unfold skip dms dme at hs
  push Not at hs
  unfold imgMin imgMax
  by_cases hb : a.bc = 0
  · obtain ⟨ho, hl, hu⟩ := hin hb
    simp only [hb, if_true, ne_eq, not_true_eq_false, false_implies, iff_true]
    rw [ho] at hs
    have h0 : (0 : ℝ) ≤ a.lo * a.h := mul_nonneg (by exact_mod_cast hl) hh.le
    have htol := tol_pos
    constructor
    · have : -p ≤ ⌊(rb + x0) / a.L + tol⌋ := by
        rw [Int.le_floor]
        have : ((-p : ℤ) : ℝ) ≤ (rb + x0) / a.L := by
          rw [le_div_iff₀ hL]
          push_cast
          nlinarith [hs.1]
        linarith
      omega
    · rw [Int.le_floor]
      have : ((p : ℤ) : ℝ) ≤ (rb + a.L - x0) / a.L := by
        rw [le_div_iff₀ hL]
        nlinarith [hs.2]
      linarith
  · simp only [hb, if_false, ne_eq, not_false_eq_true, forall_const]
    omega

theorem box_iff (a : Axis) (hh : 0 < a.h) (rb x : ℝ) (i : ℤ) (hi : a.lo ≤ i ∧ i ≤ a.hi) :
    (¬ skip (dms a) (dme a) rb x ∧ max a.lo (rbl a x rb) ≤ i ∧ i ≤ min a.hi (rbr a x rb)) ↔
      |a.org + i * a.h - x| ≤ rb := by
  have h1 : rbl a x rb ≤ i ↔ x - a.org - rb ≤ i * a.h := by
    unfold rbl; rw [Int.ceil_le, div_le_iff₀ hh]
  have h2 : i ≤ rbr a x rb ↔ i * a.h ≤ x - a.org + rb := by
    unfold rbr; rw [Int.le_floor, le_div_iff₀ hh]
  rw [max_le_iff, le_min_iff, h1, h2, abs_le]
  have l1 : (a.lo : ℝ) ≤ i := by exact_mod_cast hi.1
  have l2 : (i : ℝ) ≤ a.hi := by exact_mod_cast hi.2
  unfold skip dms dme
  push Not
  constructor
  · rintro ⟨_, ⟨_, h⟩, _, h'⟩
    constructor <;> linarith
  · rintro ⟨h, h'⟩
    refine ⟨⟨?_, ?_⟩, ⟨hi.1, ?_⟩, hi.2, ?_⟩
    · nlinarith
    · nlinarith
    · linarith
    · linarith

theorem list_sum_flatMap {α M : Type} [AddCommMonoid M] (l : List α) (g : α → List M) :
    (l.flatMap g).sum = (l.map fun a => (g a).sum).sum := by
  induction l with
  | nil => simp
  | cons a l ih => simp [ih]

theorem sum_range'_eq {M : Type} [AddCommMonoid M] (a n : ℕ) (f : ℕ → M) :
    ((List.range' a n).map f).sum = ∑ J ∈ Ico a (a + n), f J := by
  induction n with
  | zero => simp
  | succ n ih =>
    rw [List.range'_concat, List.map_append, List.sum_append, ih, ← Nat.add_assoc,
      Finset.sum_Ico_succ_top (by omega)]
    simp

open Classical in
/-- A sum over a list without repetition is a finite sum over its members. -/
theorem list_sum_finsum {α M : Type} [AddCommMonoid M] (l : List α) (hl : l.Nodup) (f : α → M) :
    (l.map f).sum = ∑ᶠ a, if a ∈ l then f a else 0 := by
  rw [finsum_eq_sum_of_support_subset (s := l.toFinset), List.sum_toFinset _ hl]
  · congr 1
    refine List.map_congr_left fun a ha => ?_
    simp [ha]
  · intro a ha
    simp only [Function.mem_support, ne_eq, ite_eq_right_iff, not_forall] at ha
    simpa using ha.1

/-! ## The nonlocal routine -/

/-- The images of atom `J` of type `T` visited by the nonlocal routine. -/
noncomputable def keysN (G : Geo) (T : NTyp) (pos : ℕ → ℝ) (J : ℕ) : List (ℤ × ℤ × ℤ) :=
  keys (irange (imgMinN G.Z (rcbox T).2.2 (pos (3 * J + 2)))
      (imgMaxN G.Z (rcbox T).2.2 (pos (3 * J + 2))))
    (irange (imgMinN G.Y (rcbox T).2.1 (pos (3 * J + 1)))
      (imgMaxN G.Y (rcbox T).2.1 (pos (3 * J + 1))))
    (irange (imgMinN G.X (rcbox T).1 (pos (3 * J))) (imgMaxN G.X (rcbox T).1 (pos (3 * J))))
    (fun r => skip (dms G.Z) (dmeN G.Z) (rcbox T).2.2 (pos (3 * J + 2) + G.Z.L * r))
    (fun q => skip (dms G.Y) (dmeN G.Y) (rcbox T).2.1 (pos (3 * J + 1) + G.Y.L * q))
    (fun p => skip (dms G.X) (dmeN G.X) (rcbox T).1 (pos (3 * J) + G.X.L * p))

theorem countAtomN_eq (G : Geo) (T : NTyp) (pos : ℕ → ℝ) (J n : ℕ) :
    countAtomN G T pos J n = n + (keysN G T pos J).length := by
  unfold countAtomN keysN
  dsimp only
  rw [sweep_eq, foldl_count]

section

variable (G : Geo) (dist : ℝ × ℝ × ℝ → ℝ × ℝ × ℝ → ℝ) (pos : ℕ → ℝ)

theorem foldl_push_if {α β : Type} (l : List α) (g : α → β) (c : α → Prop) [DecidablePred c]
    (s : List β) :
    l.foldl (fun acc a => if c a then acc ++ [g a] else acc) s
      = s ++ (l.filter fun a => c a).map g := by
  induction l generalizing s with
  | nil => simp
  | cons a l ih => by_cases h : c a <;> simp [h, ih]

theorem foldl_count_if {α : Type} (l : List α) (c : α → Prop) [DecidablePred c] (n : ℕ) :
    l.foldl (fun n a => if c a then n + 1 else n) n = n + (l.filter fun a => c a).length := by
  induction l generalizing n with
  | nil => simp
  | cons a l ih =>
    by_cases h : c a
    · simp [h, ih]; omega
    · simp [h, ih]

theorem fillAtomN_eq (T : NTyp) (J : ℕ) (s : List NRec × ℕ) :
    fillAtomN G dist T pos J s
      = (s.1 ++ (keysN G T pos J).map fun v => mkNRec G dist T pos J v.1 v.2.1 v.2.2,
         s.2 + (((keysN G T pos J).map fun v => mkNRec G dist T pos J v.1 v.2.1 v.2.2).filter
           fun R => R.gpos.length > 0).length) := by
  unfold fillAtomN keysN
  dsimp only
  rw [sweep_eq]
  have := foldl_push (τ := ℕ) (keysN G T pos J)
    (fun v => mkNRec G dist T pos J v.1 v.2.1 v.2.2)
    (fun c v => if (mkNRec G dist T pos J v.1 v.2.1 v.2.2).gpos.length > 0 then c + 1 else c) s
  unfold keysN at this
  rw [this, foldl_count_if, List.filter_map, List.length_map]
  rfl

/-- All records of one type whose first atom has number `a`, before the empty ones go. -/
noncomputable def rawN (a : ℕ) (T : NTyp) : List NRec :=
  (List.range' a T.n).flatMap fun J =>
    (keysN G T pos J).map fun v => mkNRec G dist T pos J v.1 v.2.1 v.2.2

theorem countLoopN (T : NTyp) (l : List ℕ) (n : ℕ) :
    l.foldl (fun s J => countAtomN G T pos J s) n
      = n + (l.flatMap fun J => keysN G T pos J).length := by
  induction l generalizing n with
  | nil => rfl
  | cons a l ih => rw [List.foldl_cons, ih, countAtomN_eq]; simp; omega

theorem fillLoopN (T : NTyp) (l : List ℕ) (s : List NRec × ℕ) :
    (l.foldl (fun s J => fillAtomN G dist T pos J s) s)
      = (s.1 ++ (l.flatMap fun J =>
          (keysN G T pos J).map fun v => mkNRec G dist T pos J v.1 v.2.1 v.2.2),
         s.2 + ((l.flatMap fun J =>
          (keysN G T pos J).map fun v => mkNRec G dist T pos J v.1 v.2.1 v.2.2).filter
            fun R => R.gpos.length > 0).length) := by
  induction l generalizing s with
  | nil => simp
  | cons a l ih =>
    rw [List.foldl_cons, ih, fillAtomN_eq]
    simp only [List.flatMap_cons, List.filter_append, List.length_append, List.append_assoc,
      Nat.add_assoc]

theorem rawN_length (a : ℕ) (T : NTyp) :
    (rawN G dist pos a T).length
      = ((List.range' a T.n).flatMap fun J => keysN G T pos J).length := by
  unfold rawN
  simp [List.length_flatMap]

/-- The records kept for one type. -/
noncomputable def keptN (a : ℕ) (T : NTyp) : List NRec :=
  (rawN G dist pos a T).filter fun R => R.gpos.length > 0

theorem typeStepN_eq (s : NSt) (T : NTyp) (h : s.atm = s.atm2) :
    (typeStepN G dist pos s T).atm = s.atm + T.n ∧
    (typeStepN G dist pos s T).atm2 = s.atm + T.n ∧
    (typeStepN G dist pos s T).out
      = s.out ++ [⟨(rawN G dist pos s.atm T).length, (rawN G dist pos s.atm T).length,
        (keptN G dist pos s.atm T).length, keptN G dist pos s.atm T⟩] := by
  unfold typeStepN
  dsimp only
  rw [foldl_run T.n (fun J c => countAtomN G T pos J c), countLoopN,
    foldl_run T.n (fun J c => fillAtomN G dist T pos J c), fillLoopN]
  have hl := rawN_length G dist pos s.atm T
  simp only [Nat.zero_add, List.nil_append, ← hl, ← h]
  have hr : ((List.range' s.atm T.n).flatMap fun J =>
      (keysN G T pos J).map fun v => mkNRec G dist T pos J v.1 v.2.1 v.2.2)
      = rawN G dist pos s.atm T := rfl
  have hk : ((rawN G dist pos s.atm T).filter fun R => R.gpos.length > 0)
      = keptN G dist pos s.atm T := rfl
  rw [hr, hk]
  split
  · rename_i h0
    have h1 : rawN G dist pos s.atm T = [] := List.length_eq_zero_iff.1 h0
    have h2 : keptN G dist pos s.atm T = [] := by rw [← hk, h1]; rfl
    simp [h1, h2]
  · split
    · rename_i h0
      have h2 : keptN G dist pos s.atm T = [] := List.length_eq_zero_iff.1 h0
      simp [h2]
    · refine ⟨rfl, rfl, ?_⟩
      have := foldl_push_if (rawN G dist pos s.atm T) id (fun R => R.gpos.length > 0) []
      simp only [id, List.nil_append, List.map_id_fun, List.map_id] at this
      simp only [this, hk]

/-- The results for a list of types whose first atom has number `a`. -/
noncomputable def outsN : ℕ → List NTyp → List NOut
  | _, [] => []
  | a, T :: ts => ⟨(rawN G dist pos a T).length, (rawN G dist pos a T).length,
        (keptN G dist pos a T).length, keptN G dist pos a T⟩ :: outsN (a + T.n) ts

theorem influenceN_run (ts : List NTyp) (s : NSt) (h : s.atm = s.atm2) :
    (ts.foldl (typeStepN G dist pos) s).out = s.out ++ outsN G dist pos s.atm ts := by
  induction ts generalizing s with
  | nil => simp [outsN]
  | cons T ts ih =>
    obtain ⟨h1, h2, h3⟩ := typeStepN_eq G dist pos s T h
    rw [List.foldl_cons, ih _ (by rw [h1, h2]), h1, h3]
    simp [outsN]

theorem outsN_get (a : ℕ) (ts : List NTyp) (t : ℕ) (T : NTyp) (h : ts[t]? = some T) :
    (outsN G dist pos a ts)[t]?
      = some ⟨(rawN G dist pos (a + ((ts.take t).map NTyp.n).sum) T).length,
          (rawN G dist pos (a + ((ts.take t).map NTyp.n).sum) T).length,
          (keptN G dist pos (a + ((ts.take t).map NTyp.n).sum) T).length,
          keptN G dist pos (a + ((ts.take t).map NTyp.n).sum) T⟩ := by
  induction ts generalizing a t with
  | nil => simp at h
  | cons T' ts ih =>
    cases t with
    | zero => simp at h; subst h; simp [outsN]
    | succ t =>
      rw [List.getElem?_cons_succ] at h
      rw [outsN, List.getElem?_cons_succ, ih _ _ h]
      simp [Nat.add_assoc]

/-- Position of a node in the local array. -/
def loc (v : ℤ × ℤ × ℤ) : ℤ :=
  (v.2.2 - G.Z.lo) * ((G.X.hi - G.X.lo + 1) * (G.Y.hi - G.Y.lo + 1))
    + (v.2.1 - G.Y.lo) * (G.X.hi - G.X.lo + 1) + (v.1 - G.X.lo)

/-- The nodes of a box, x fastest. -/
noncomputable def nodes (xs xe ys ye zs ze : ℤ) : List (ℤ × ℤ × ℤ) :=
  keys (irange zs ze) (irange ys ye) (irange xs xe) (fun _ => False) (fun _ => False)
    (fun _ => False)

theorem mem_nodes {xs xe ys ye zs ze : ℤ} {v : ℤ × ℤ × ℤ} :
    v ∈ nodes xs xe ys ye zs ze ↔
      (xs ≤ v.1 ∧ v.1 ≤ xe) ∧ (ys ≤ v.2.1 ∧ v.2.1 ≤ ye) ∧ (zs ≤ v.2.2 ∧ v.2.2 ≤ ze) := by
  unfold nodes
  rw [mem_keys, mem_irange, mem_irange, mem_irange]
  simp

theorem nodup_nodes (xs xe ys ye zs ze : ℤ) : (nodes xs xe ys ye zs ze).Nodup :=
  nodup_keys (nodup_irange _ _) (nodup_irange _ _) (nodup_irange _ _)

/-- Coordinates of a node. -/
noncomputable def pt (v : ℤ × ℤ × ℤ) : ℝ × ℝ × ℝ :=
  (G.X.org + v.1 * G.X.h, v.2.1 * G.Y.h, v.2.2 * G.Z.h)

open Classical in
theorem sphere_eq (rc : ℝ) (c : ℝ × ℝ × ℝ) (xs xe ys ye zs ze : ℤ) :
    sphere G dist rc c xs xe ys ye zs ze
      = ((nodes xs xe ys ye zs ze).filter fun v =>
          dist (pt G v) c * dist (pt G v) c ≤ rc * rc).map (loc G) := by
  have h := sweep_eq (irange zs ze) (irange ys ye) (irange xs xe) (fun _ => False)
    (fun _ => False) (fun _ => False)
    (fun (acc : List ℤ) i j k =>
      if dist (pt G (i, j, k)) c * dist (pt G (i, j, k)) c ≤ rc * rc
      then acc ++ [loc G (i, j, k)] else acc) []
  rw [show keys (irange zs ze) (irange ys ye) (irange xs xe) (fun _ => False)
    (fun _ => False) (fun _ => False) = nodes xs xe ys ye zs ze from rfl] at h
  have h2 := foldl_push_if (nodes xs xe ys ye zs ze) (loc G)
    (fun v => dist (pt G v) c * dist (pt G v) c ≤ rc * rc) []
  rw [List.nil_append] at h2
  rw [← h2]
  simp only [Prod.mk.eta] at h
  rw [← h]
  unfold sweep sphere
  simp only [if_false]
  rfl

theorem decode_loc {v : ℤ × ℤ × ℤ} (hx : G.X.lo ≤ v.1 ∧ v.1 ≤ G.X.hi)
    (hy : G.Y.lo ≤ v.2.1 ∧ v.2.1 ≤ G.Y.hi) (hz : G.Z.lo ≤ v.2.2) :
    decode G (loc G v) = v ∧ 0 ≤ loc G v := by
  obtain ⟨i, j, k⟩ := v
  simp only at hx hy hz
  unfold decode loc
  dsimp only
  obtain ⟨a, ha⟩ : ∃ a, a = i - G.X.lo := ⟨_, rfl⟩
  obtain ⟨b, hb⟩ : ∃ b, b = j - G.Y.lo := ⟨_, rfl⟩
  obtain ⟨c, hc⟩ : ∃ c, c = k - G.Z.lo := ⟨_, rfl⟩
  obtain ⟨n, hn⟩ : ∃ n, n = G.X.hi - G.X.lo + 1 := ⟨_, rfl⟩
  obtain ⟨m, hm⟩ : ∃ m, m = G.Y.hi - G.Y.lo + 1 := ⟨_, rfl⟩
  rw [← ha, ← hb, ← hc, ← hn, ← hm]
  have a0 : 0 ≤ a := by omega
  have a1 : a < n := by omega
  have b0 : 0 ≤ b := by omega
  have b1 : b < m := by omega
  have c0 : 0 ≤ c := by omega
  have hn0 : 0 < n := by omega
  have hm0 : 0 < m := by omega
  have hba : b * n + a < n * m := by nlinarith
  have hba0 : 0 ≤ b * n + a := by positivity
  have e1 : (c * (n * m) + b * n + a) / (n * m) = c := by
    rw [show c * (n * m) + b * n + a = (b * n + a) + c * (n * m) by ring,
      Int.add_mul_ediv_right _ _ (by positivity), Int.ediv_eq_zero_of_lt hba0 hba, zero_add]
  have e2 : (c * (n * m) + b * n + a) % n = a := by
    rw [show c * (n * m) + b * n + a = a + n * (c * m + b) by ring, Int.add_mul_emod_self_left,
      Int.emod_eq_of_lt a0 a1]
  have e3 : (c * (n * m) + b * n + a - c * (n * m)) / n = b := by
    rw [show c * (n * m) + b * n + a - c * (n * m) = a + b * n by ring,
      Int.add_mul_ediv_right _ _ (by omega), Int.ediv_eq_zero_of_lt a0 a1, zero_add]
  rw [e1, e2, e3]
  refine ⟨?_, by positivity⟩
  ext <;> simp only <;> omega

end

theorem imgN_iff (a : Axis) (hL : 0 < a.L) (rb x0 : ℝ) (p : ℤ)
    (hin : a.bc = 0 → a.org = 0 ∧ -(if a.sq then a.rcut else 0) ≤ a.lo * a.h ∧
      a.hi * a.h ≤ a.L + (if a.sq then a.rcut else 0)) :
    (p ∈ irange (imgMinN a rb x0) (imgMaxN a rb x0) ∧
        ¬ skip (dms a) (dmeN a) rb (x0 + a.L * p)) ↔
      ((a.bc ≠ 0 → p = 0) ∧ ¬ skip (dms a) (dmeN a) rb (x0 + a.L * p)) := by
  rw [mem_irange]
  refine and_congr_left fun hs => ?_
  unfold skip dms dmeN at hs
  push Not at hs
  unfold imgMinN imgMaxN
  by_cases hb : a.bc = 0
  · obtain ⟨ho, hl, hu⟩ := hin hb
    simp only [hb, if_true, ne_eq, not_true_eq_false, false_implies, iff_true]
    rw [ho] at hs
    have htol := tol_pos
    by_cases hq : a.sq = true
    · simp only [hq, if_true] at hl hu ⊢
      constructor
      · have : -p ≤ ⌊(rb + x0 + a.rcut) / a.L + tol⌋ := by
          rw [Int.le_floor]
          have : ((-p : ℤ) : ℝ) ≤ (rb + x0 + a.rcut) / a.L := by
            rw [le_div_iff₀ hL]
            push_cast
            nlinarith [hs.1]
          linarith
        omega
      · rw [Int.le_floor]
        have : ((p : ℤ) : ℝ) ≤ (rb + a.L - x0 + a.rcut) / a.L := by
          rw [le_div_iff₀ hL]
          nlinarith [hs.2]
        linarith
    · simp only [hq] at hl hu ⊢
      simp only [Bool.false_eq_true, if_false] at hl hu ⊢
      constructor
      · have : -p ≤ ⌊(rb + x0) / a.L + tol⌋ := by
          rw [Int.le_floor]
          have : ((-p : ℤ) : ℝ) ≤ (rb + x0) / a.L := by
            rw [le_div_iff₀ hL]
            push_cast
            nlinarith [hs.1]
          linarith
        omega
      · rw [Int.le_floor]
        have : ((p : ℤ) : ℝ) ≤ (rb + a.L - x0) / a.L := by
          rw [le_div_iff₀ hL]
          nlinarith [hs.2]
        linarith
  · simp only [hb, if_false, ne_eq, not_false_eq_true, forall_const]
    omega

/-- A node strictly closer than the box radius is in the range recorded. -/
theorem boxN_of_lt (a : Axis) (hh : 0 < a.h) (rb x : ℝ) (i : ℤ) (hi : a.lo ≤ i ∧ i ≤ a.hi)
    (h : |a.org + i * a.h - x| < rb) :
    ¬ skip (dms a) (dmeN a) rb x ∧ max a.lo ⌈(x - a.org - rb) / a.h⌉ ≤ i ∧
      i ≤ min a.hi ⌊(x - a.org + rb) / a.h⌋ := by
  have l1 : (a.lo : ℝ) ≤ i := by exact_mod_cast hi.1
  have l2 : (i : ℝ) ≤ a.hi := by exact_mod_cast hi.2
  rw [abs_lt] at h
  rw [max_le_iff, le_min_iff, Int.ceil_le, div_le_iff₀ hh, Int.le_floor, le_div_iff₀ hh]
  unfold skip dms dmeN
  push Not
  refine ⟨⟨?_, ?_⟩, ⟨hi.1, ?_⟩, hi.2, ?_⟩
  · nlinarith
  · nlinarith
  · linarith
  · linarith

end Sparc.Infl

import Verif.Halo.Model
import Verif.Block.Lemmas
import Verif.Tac

/-!
# Halo exchange: lemmas
-/

namespace Sparc.Halo

open Loop

variable {V : Type} [Zero V]

/-! ### Lists -/

theorem flatMap_drop_take {α : Type} (f : ℕ → List α) (S s : ℕ) (hs : s < S) :
    (((List.range S).flatMap f).drop ((List.range s).map fun t => (f t).length).sum).take
      (f s).length = f s := by
  obtain ⟨r, rfl⟩ : ∃ r, S = s + (r + 1) := ⟨S - s - 1, by omega⟩
  rw [List.range_add, List.flatMap_append, List.drop_append_of_le_length
    (by rw [List.length_flatMap]), List.drop_eq_nil_of_le (by rw [List.length_flatMap]),
    List.nil_append, List.range_succ_eq_map]
  simp

theorem zip_flatMap {α β γ : Type} (l : List α) (f : α → List β) (g : α → List γ)
    (h : ∀ a ∈ l, (f a).length = (g a).length) :
    (l.flatMap f).zip (l.flatMap g) = l.flatMap fun a => (f a).zip (g a) := by
  induction l with
  | nil => rfl
  | cons a l ih =>
    simp only [List.flatMap_cons]
    rw [List.zip_append (h a List.mem_cons_self), ih fun b hb => h b (List.mem_cons_of_mem _ hb)]

theorem mapM_some {α β : Type} (l : List α) (f : α → Option β) (g : α → β)
    (h : ∀ a ∈ l, f a = some (g a)) : l.mapM f = some (l.map g) := by
  induction l with
  | nil => rfl
  | cons a l ih =>
    rw [List.mapM_cons, h a List.mem_cons_self, ih fun b hb => h b (List.mem_cons_of_mem _ hb)]
    rfl

theorem fill_map {τ σ α V : Type} [DecidableEq α] (l : List σ) (φ : σ → τ) (idx : τ → α)
    (val : τ → V) (m : α → V) :
    fill (l.map φ) idx val m = fill l (fun a => idx (φ a)) (fun a => val (φ a)) m := by
  unfold fill
  rw [List.foldl_map]

/-! ### Places of the extended block -/

theorem int_flat_inj {A i i' a b : ℤ} (hi : 0 ≤ i) (hiA : i < A) (hi' : 0 ≤ i') (hiA' : i' < A)
    (h : a * A + i = b * A + i') : i = i' ∧ a = b := by
  have h1 : (a * A + i) % A = i := by
    rw [add_comm, Int.add_mul_emod_self_right, Int.emod_eq_of_lt hi hiA]
  have h2 : (b * A + i') % A = i' := by
    rw [add_comm, Int.add_mul_emod_self_right, Int.emod_eq_of_lt hi' hiA']
  have h3 : i = i' := by rw [← h1, ← h2, h]
  subst h3
  have : a * A = b * A := by linarith
  exact ⟨rfl, Int.eq_of_mul_eq_mul_right (by omega) this⟩

/-- A column and a point relative to the block. -/
structure Pt where
  n : ℕ
  i : ℤ
  j : ℤ
  k : ℤ

/-- The point lies in the block or its halo. -/
def Pt.In (P : Pt) (D : Fin 3 → ℤ) (F : ℤ) : Prop :=
  (-F ≤ P.i ∧ P.i < D 0 + F) ∧ (-F ≤ P.j ∧ P.j < D 1 + F) ∧ (-F ≤ P.k ∧ P.k < D 2 + F)

/-- Its place in `x_ex`. -/
def Pt.place (P : Pt) (D : Fin 3 → ℤ) (F : ℤ) : ℤ := exIdx D F P.n (F + P.i) (F + P.j) (F + P.k)

theorem place_inj {D : Fin 3 → ℤ} {F : ℤ} {P Q : Pt} (hP : P.In D F) (hQ : Q.In D F)
    (h : P.place D F = Q.place D F) : P = Q := by
  obtain ⟨n, i, j, k⟩ := P
  obtain ⟨n', i', j', k'⟩ := Q
  obtain ⟨⟨a1, a2⟩, ⟨a3, a4⟩, a5, a6⟩ := hP
  obtain ⟨⟨b1, b2⟩, ⟨b3, b4⟩, b5, b6⟩ := hQ
  dsimp only at *
  unfold Pt.place exIdx at h
  dsimp only at h
  have h1 : (((n : ℤ) * (D 2 + 2 * F) + (F + k)) * (D 1 + 2 * F) + (F + j)) * (D 0 + 2 * F) + (F + i)
      = (((n' : ℤ) * (D 2 + 2 * F) + (F + k')) * (D 1 + 2 * F) + (F + j')) * (D 0 + 2 * F) + (F + i') := by
    linear_combination h
  obtain ⟨e1, h2⟩ := int_flat_inj (by omega) (by omega) (by omega) (by omega) h1
  obtain ⟨e2, h3⟩ := int_flat_inj (by omega) (by omega) (by omega) (by omega) h2
  obtain ⟨e3, h4⟩ := int_flat_inj (by omega) (by omega) (by omega) (by omega) h3
  have := Int.ofNat_inj.1 h4
  subst this
  have e1' : i = i' := by omega
  have e2' : j = j' := by omega
  have e3' : k = k' := by omega
  rw [e1', e2', e3']

/-- The memory holds `G` at the points of `C`. -/
def Holds (D : Fin 3 → ℤ) (F : ℤ) (G : Pt → V) (C : Pt → Prop) (m : ℤ → V) : Prop :=
  ∀ P : Pt, P.In D F → C P → m (P.place D F) = G P

theorem Holds.fill {D : Fin 3 → ℤ} {F : ℤ} {G : Pt → V} {C : Pt → Prop} {m : ℤ → V}
    (h : Holds D F G C m) {τ : Type} (l : List τ) (idx : τ → ℤ) (val : τ → V) (pt : τ → Pt)
    (hw : ∀ t ∈ l, (pt t).In D F ∧ idx t = (pt t).place D F ∧ val t = G (pt t)) :
    Holds D F G (fun P => C P ∨ ∃ t ∈ l, pt t = P) (Loop.fill l idx val m) := by
  intro P hP hC
  by_cases hc : ∃ t ∈ l, idx t = P.place D F
  · obtain ⟨t, ht, e⟩ := hc
    have key : ∀ s ∈ l, idx s = idx t → val s = val t := by
      intro s hs es
      have e1 : pt s = pt t := place_inj (hw s hs).1 (hw t ht).1 (by
        rw [← (hw s hs).2.1, es, (hw t ht).2.1])
      rw [(hw s hs).2.2, (hw t ht).2.2, e1]
    rw [← e, fill_at ht key, (hw t ht).2.2]
    congr 1
    exact place_inj (hw t ht).1 hP (by rw [← (hw t ht).2.1, e])
  · push Not at hc
    rw [fill_other hc]
    rcases hC with hC | ⟨t, ht, e⟩
    · exact h P hP hC
    · exact absurd ((hw t ht).2.1.trans (by rw [e])) (hc t ht)

theorem Holds.mono {D : Fin 3 → ℤ} {F : ℤ} {G : Pt → V} {C C' : Pt → Prop} {m : ℤ → V}
    (h : Holds D F G C m) (hC : ∀ P, P.In D F → C' P → C P) : Holds D F G C' m :=
  fun P hP hc => h P hP (hC P hP hc)

/-! ### One axis -/

/-- Start of the receive range along an axis with offset `e`. -/
def rlo (D F e : ℤ) : ℤ := if e = -1 then 0 else if e = 0 then F else D + F

/-- Points along an axis. -/
def wid (D F e : ℤ) : ℤ := if e = 0 then D else F

/-- Start of the source range along an axis. -/
def slo (D F e : ℤ) : ℤ := if e = -1 then D - F else 0

/-- The neighbours in the two directions coincide. -/
def amb (L : Layout) (d : Fin 3) : Bool := L.per d && decide (L.dims d < 3)

/-- A step of a slot. -/
def IsStep (e : ℤ) : Prop := e = -1 ∨ e = 0 ∨ e = 1

/-- Specification of the boundary condition along an axis: the grid point whose value stands for
position `I`, if any. -/
def image (N : ℕ) (per : Bool) (I : ℤ) : Option ℕ :=
  if per then some (I % N).toNat else if 0 ≤ I ∧ I < N then some I.toNat else none

theorem axisStep_lt {dim : ℕ} {per : Bool} {c c' : ℕ} {e : ℤ} (hc : c < dim) (he : IsStep e)
    (h : axisStep dim per c e = some c') : c' < dim := by
  unfold axisStep at h
  dsimp only at h
  rcases he with rfl | rfl | rfl <;> split_ifs at h <;> cases h <;> omega

/-- The source of a halo point along one axis. -/
theorem axis_source {N dim : ℕ} {per : Bool} {F : ℕ} {c : ℕ} {e : ℤ} (hc : c < dim)
    (hF : ∀ r < dim, F ≤ Block.blockDecompose N dim r) (he : IsStep e) {t : ℤ} (ht : 0 ≤ t)
    (htw : t < wid (Block.blockDecompose N dim c) F e) :
    match axisStep dim per c e with
    | none => image N per
        (Block.blockNstart N dim c + (rlo (Block.blockDecompose N dim c) F e - F + t)) = none
    | some c' =>
        wid (Block.blockDecompose N dim c') F e = wid (Block.blockDecompose N dim c) F e ∧
        0 ≤ slo (Block.blockDecompose N dim c') F e + t ∧
        slo (Block.blockDecompose N dim c') F e + t < Block.blockDecompose N dim c' ∧
        image N per (Block.blockNstart N dim c +
            (rlo (Block.blockDecompose N dim c) F e - F + t)) =
          some (Block.blockNstart N dim c' +
            (slo (Block.blockDecompose N dim c') F e + t).toNat) := by
  have hp : 0 < dim := by omega
  have hF0 := hF c hc
  have hs : ∀ r, Block.blockNstart N dim (r + 1) =
    Block.blockNstart N dim r + Block.blockDecompose N dim r := Block.nstart_succ N dim
  have hlast := Block.nstart_last N dim hp
  have hz := Block.nstart_zero N dim
  have hend : Block.blockNstart N dim c + Block.blockDecompose N dim c ≤ N := by
    have := Block.nstart_mono N dim (show c + 1 ≤ dim from hc)
    rw [hs, hlast] at this
    exact this
  rcases he with rfl | rfl | rfl
  · -- left
    have e1 : ∀ D : ℤ, rlo D F (-1) = 0 := fun _ => rfl
    have e2 : ∀ D : ℤ, wid D F (-1) = F := fun _ => rfl
    have e3 : ∀ D : ℤ, slo D F (-1) = D - F := fun _ => rfl
    simp only [e1, e2, e3] at *
    rcases Nat.eq_zero_or_pos c with rfl | hpos
    · cases per with
      | true =>
        have e : axisStep dim true 0 (-1) = some (dim - 1) := by simp [axisStep]; omega
        rw [e]
        dsimp only
        have hl := hF (dim - 1) (by omega)
        have h1 := hs (dim - 1)
        rw [show dim - 1 + 1 = dim by omega, hlast] at h1
        refine ⟨trivial, by omega, by omega, ?_⟩
        simp only [image, if_true, Option.some.injEq]
        rw [hz]
        have : ((0 : ℕ) + (0 - (F : ℤ) + t)) % N = N - F + t := by
          rw [← Int.add_emod_right, Int.emod_eq_of_lt (by push_cast; omega) (by push_cast; omega)]
          push_cast; ring
        rw [this]
        omega
      | false =>
        have e : axisStep dim false 0 (-1) = none := by simp [axisStep]
        rw [e]
        dsimp only
        simp only [image]
        rw [if_neg (by simp), if_neg (by rw [hz]; push_cast; omega)]
    · have e : axisStep dim per c (-1) = some (c - 1) := by
        unfold axisStep
        dsimp only
        cases per
        · rw [if_neg (by simp), if_neg (by omega)]; congr 1; omega
        · rw [if_pos rfl, if_neg (by omega), if_neg (by omega)]; congr 1; omega
      rw [e]
      dsimp only
      have hl := hF (c - 1) (by omega)
      have h1 := hs (c - 1)
      rw [show c - 1 + 1 = c by omega] at h1
      refine ⟨trivial, by omega, by omega, ?_⟩
      unfold image
      cases per
      · rw [if_neg (by simp), if_pos (by omega)]; congr 1; omega
      · rw [if_pos rfl, Int.emod_eq_of_lt (by omega) (by omega)]; congr 1; omega
  · have e1 : ∀ D : ℤ, rlo D F 0 = F := fun _ => rfl
    have e2 : ∀ D : ℤ, wid D F 0 = D := fun _ => rfl
    have e3 : ∀ D : ℤ, slo D F 0 = 0 := fun _ => rfl
    simp only [e1, e2, e3] at *
    have e : axisStep dim per c 0 = some c := by
      unfold axisStep
      dsimp only
      cases per
      · rw [if_neg (by simp), if_neg (by omega)]; congr 1
      · rw [if_pos rfl, if_neg (by omega), if_neg (by omega)]; congr 1
    rw [e]
    dsimp only
    refine ⟨rfl, by omega, by omega, ?_⟩
    unfold image
    cases per
    · rw [if_neg (by simp), if_pos (by omega)]; congr 1; omega
    · rw [if_pos rfl, Int.emod_eq_of_lt (by omega) (by omega)]; congr 1; omega
  · have e1 : ∀ D : ℤ, rlo D F 1 = D + F := fun _ => rfl
    have e2 : ∀ D : ℤ, wid D F 1 = F := fun _ => rfl
    have e3 : ∀ D : ℤ, slo D F 1 = 0 := fun _ => rfl
    simp only [e1, e2, e3] at *
    by_cases hcl : c + 1 = dim
    · have hN : Block.blockNstart N dim c + Block.blockDecompose N dim c = N := by
        rw [← hs, hcl, hlast]
      cases per with
      | true =>
        have e : axisStep dim true c 1 = some 0 := by
          unfold axisStep
          dsimp only
          rw [if_pos rfl, if_neg (by omega), if_pos (by omega)]; congr 1; omega
        rw [e]
        dsimp only
        have hl := hF 0 (by omega)
        have h0N : Block.blockDecompose N dim 0 ≤ N := by
          have := hs 0
          rw [hz] at this
          have h2 := Block.nstart_mono N dim (show 0 + 1 ≤ dim by omega)
          rw [hlast] at h2
          omega
        refine ⟨trivial, by omega, by omega, ?_⟩
        simp only [image, if_true, Option.some.injEq]
        rw [hz]
        have : ((Block.blockNstart N dim c : ℤ) +
            ((Block.blockDecompose N dim c : ℤ) + F - F + t)) % N = t := by
          rw [show (Block.blockNstart N dim c : ℤ) + ((Block.blockDecompose N dim c : ℤ) + F - F + t) =
            t + N by omega, Int.add_emod_right, Int.emod_eq_of_lt ht (by omega)]
        rw [this]
        omega
      | false =>
        have e : axisStep dim false c 1 = none := by
          unfold axisStep
          dsimp only
          rw [if_neg (by simp), if_pos (by omega)]
        rw [e]
        dsimp only
        simp only [image]
        rw [if_neg (by simp), if_neg (by omega)]
    · have e : axisStep dim per c 1 = some (c + 1) := by
        unfold axisStep
        dsimp only
        cases per
        · rw [if_neg (by simp), if_neg (by omega)]; congr 1
        · rw [if_pos rfl, if_neg (by omega), if_neg (by omega)]; congr 1
      rw [e]
      dsimp only
      have hl := hF (c + 1) (by omega)
      have h1 := hs c
      have hend' : Block.blockNstart N dim (c + 1) + Block.blockDecompose N dim (c + 1) ≤ N := by
        have := Block.nstart_mono N dim (show c + 1 + 1 ≤ dim by omega)
        rw [hs (c + 1), hlast] at this
        exact this
      refine ⟨trivial, by omega, by omega, ?_⟩
      unfold image
      cases per
      · rw [if_neg (by simp), if_pos (by omega)]; congr 1; omega
      · rw [if_pos rfl, Int.emod_eq_of_lt (by omega) (by omega)]; congr 1; omega

/-! ### Matching of messages -/

/-- What steps lead from one coordinate to another along an axis. -/
inductive Kind
  | left | stay | right | ambStay | ambBoth | ambAll
  deriving DecidableEq

/-- Steps from `c` to `c'`. -/
def Kind.mem : Kind → ℤ → Bool
  | left, e => e == -1
  | stay, e => e == 0
  | right, e => e == 1
  | ambStay, e => e == 0
  | ambBoth, e => e == -1 || e == 1
  | ambAll, e => e == -1 || e == 0 || e == 1

/-- Steps from `c'` to `c`. -/
def Kind.back : Kind → ℤ → Bool
  | left, e => e == 1
  | stay, e => e == 0
  | right, e => e == -1
  | ambStay, e => e == 0
  | ambBoth, e => e == -1 || e == 1
  | ambAll, e => e == -1 || e == 0 || e == 1

def Kind.amb : Kind → Bool
  | left | stay | right => false
  | _ => true

/-- The step of the sender that goes with a step of the receiver. -/
def flip (a : Bool) (e : ℤ) : ℤ := if a then e else -e

theorem axis_kind {dim : ℕ} {per : Bool} {c c' : ℕ} {e0 : ℤ} (hc : c < dim) (he0 : IsStep e0)
    (h : axisStep dim per c e0 = some c') :
    ∃ K : Kind, K.amb = (per && decide (dim < 3)) ∧ ∀ e, IsStep e →
      (axisStep dim per c e = some c' ↔ K.mem e = true) ∧
      (axisStep dim per c' e = some c ↔ K.back e = true) := by
  have hc' := axisStep_lt hc he0 h
  have key : ∀ a b : ℕ, a < dim → b < dim → ∀ e, IsStep e → (axisStep dim per a e = some b ↔
      (if per then (a + e = b ∨ a + e + dim = b ∨ a + e - dim = (b : ℤ)) else a + e = (b : ℤ))) := by
    intro a b ha hb e he
    unfold axisStep
    dsimp only
    rcases he with rfl | rfl | rfl <;> cases per <;> simp only [if_true, Bool.false_eq_true, if_false] <;>
      split_ifs <;> simp only [Option.some.injEq, reduceCtorEq, false_iff] <;> omega
  rw [key c c' hc hc' e0 he0] at h
  have fin : ∀ K : Kind, K.amb = (per && decide (dim < 3)) →
      (∀ e, IsStep e → ((if per then (c + e = c' ∨ c + e + dim = c' ∨ c + e - dim = (c' : ℤ))
        else c + e = (c' : ℤ)) ↔ K.mem e = true)) →
      (∀ e, IsStep e → ((if per then (c' + e = c ∨ c' + e + dim = c ∨ c' + e - dim = (c : ℤ))
        else c' + e = (c : ℤ)) ↔ K.back e = true)) →
      ∃ K : Kind, K.amb = (per && decide (dim < 3)) ∧ ∀ e, IsStep e →
      (axisStep dim per c e = some c' ↔ K.mem e = true) ∧
      (axisStep dim per c' e = some c ↔ K.back e = true) := by
    intro K h1 h2 h3
    refine ⟨K, h1, fun e he => ⟨(key c c' hc hc' e he).trans (h2 e he),
      (key c' c hc' hc e he).trans (h3 e he)⟩⟩
  cases per with
  | false =>
    simp only [Bool.false_eq_true, if_false, Bool.false_and] at h fin
    rcases he0 with rfl | rfl | rfl
    · refine fin .left rfl ?_ ?_ <;> rintro e (rfl | rfl | rfl) <;> simp [Kind.mem, Kind.back] <;> omega
    · refine fin .stay rfl ?_ ?_ <;> rintro e (rfl | rfl | rfl) <;> simp [Kind.mem, Kind.back] <;> omega
    · refine fin .right rfl ?_ ?_ <;> rintro e (rfl | rfl | rfl) <;> simp [Kind.mem, Kind.back] <;> omega
  | true =>
    simp only [if_true, Bool.true_and] at h fin
    by_cases h3 : dim < 3
    · simp only [h3, decide_true] at fin
      have : dim = 1 ∨ dim = 2 := by omega
      rcases this with rfl | rfl
      · obtain rfl : c = 0 := by omega
        obtain rfl : c' = 0 := by omega
        refine fin .ambAll rfl ?_ ?_ <;> rintro e (rfl | rfl | rfl) <;> simp [Kind.mem, Kind.back]
      · by_cases hcc : c' = c
        · subst hcc
          refine fin .ambStay rfl ?_ ?_ <;> rintro e (rfl | rfl | rfl) <;> simp [Kind.mem, Kind.back] <;> omega
        · refine fin .ambBoth rfl ?_ ?_ <;> rintro e (rfl | rfl | rfl) <;> simp [Kind.mem, Kind.back] <;> omega
    · simp only [h3, decide_false] at fin ⊢
      simp only [Bool.true_and]
      rcases he0 with rfl | rfl | rfl
      · refine fin .left rfl ?_ ?_ <;> rintro e (rfl | rfl | rfl) <;> simp [Kind.mem, Kind.back] <;> omega
      · refine fin .stay rfl ?_ ?_ <;> rintro e (rfl | rfl | rfl) <;> simp [Kind.mem, Kind.back] <;> omega
      · refine fin .right rfl ?_ ?_ <;> rintro e (rfl | rfl | rfl) <;> simp [Kind.mem, Kind.back] <;> omega

/-- All kinds. -/
def kinds : List Kind := [.left, .stay, .right, .ambStay, .ambBoth, .ambAll]

theorem mem_kinds (K : Kind) : K ∈ kinds := by cases K <;> decide

/-- The slots of a list of offsets selected by a condition on each axis. -/
def sel (offs : List (Fin 3 → ℤ)) (f g h : ℤ → Bool) : List ℕ :=
  (List.range offs.length).filter fun s =>
    f (offs.getD s 0 0) && g (offs.getD s 0 1) && h (offs.getD s 0 2)

/-- The offsets are listed in an order for which the messages between two processes match. -/
def Ordered (offs : List (Fin 3 → ℤ)) : Prop :=
  ∀ a ∈ kinds, ∀ b ∈ kinds, ∀ c ∈ kinds,
    (sel offs a.back b.back c.back).map (fun s => offs.getD s 0) =
      (sel offs a.mem b.mem c.mem).map fun s =>
        ![flip a.amb (offs.getD s 0 0), flip b.amb (offs.getD s 0 1), flip c.amb (offs.getD s 0 2)]

instance (offs : List (Fin 3 → ℤ)) : Decidable (Ordered offs) := by unfold Ordered; infer_instance

theorem ordered6 : Ordered offs6 := by decide +kernel

theorem ordered26 : Ordered offs26 := by decide +kernel

/-- What the proofs use about the two sets of tables. -/
structure Exch.Good (L : Layout) (E : Exch) : Prop where
  step : ∀ s < E.offs.length, ∀ d, IsStep (E.offs.getD s 0 d)
  ordered : Ordered E.offs
  nodup : ∀ s < E.offs.length, ∀ s' < E.offs.length, E.offs.getD s 0 = E.offs.getD s' 0 → s = s'
  recv_lo : ∀ D, ∀ s < E.offs.length, ∀ d,
    (E.recv D s).lo d = rlo (D d) L.FDn (E.offs.getD s 0 d)
  recv_hi : ∀ D, ∀ s < E.offs.length, ∀ d,
    (E.recv D s).hi d = rlo (D d) L.FDn (E.offs.getD s 0 d) + wid (D d) L.FDn (E.offs.getD s 0 d)
  send_lo : ∀ D, ∀ s < E.offs.length, ∀ d,
    (E.send D s).lo d = slo (D d) L.FDn (flip (amb L d) (E.offs.getD s 0 d))
  send_hi : ∀ D, ∀ s < E.offs.length, ∀ d,
    (E.send D s).hi d = slo (D d) L.FDn (flip (amb L d) (E.offs.getD s 0 d)) +
      wid (D d) L.FDn (E.offs.getD s 0 d)
  count : ∀ D, ∀ s < E.offs.length, E.count D s = L.ncol * (wid (D 0) L.FDn (E.offs.getD s 0 0) *
    wid (D 1) L.FDn (E.offs.getD s 0 1) * wid (D 2) L.FDn (E.offs.getD s 0 2))

theorem getD_map {α β : Type} (l : List α) (f : α → β) (x : β) (y : α) {s : ℕ} (hs : s < l.length) :
    (l.map f).getD s x = f (l.getD s y) := by
  simp [List.getD_eq_getElem?_getD, hs]

theorem amb_swap6 (L : Layout) (d : ℕ) : swap6 L d = amb L (Fin.ofNat 3 d) := by
  simp [swap6, amb, Bool.and_comm]

/-- End of the source range along an axis. -/
def shi (D F e : ℤ) : ℤ := if e = 1 then F else D

/-- End of the receive range along an axis. -/
def rhi (D F e : ℤ) : ℤ := if e = -1 then F else if e = 0 then D + F else D + F + F

theorem rhi_eq (D F : ℤ) {e : ℤ} (he : IsStep e) : rhi D F e = rlo D F e + wid D F e := by
  rcases he with rfl | rfl | rfl <;> simp [rhi, rlo, wid, add_comm]

theorem shi_eq (D F : ℤ) {e : ℤ} (he : IsStep e) : shi D F e = slo D F e + wid D F e := by
  rcases he with rfl | rfl | rfl <;> simp [shi, slo, wid]

theorem isStep_flip {b : Bool} {e : ℤ} (he : IsStep e) : IsStep (flip b e) := by
  rcases he with rfl | rfl | rfl <;> cases b <;> simp [flip, IsStep]

theorem wid_flip (D F : ℤ) (b : Bool) (e : ℤ) : wid D F (flip b e) = wid D F e := by
  cases b <;> simp [flip, wid]

/-- Products of widths, the shape of the message sizes. -/
def vol (D : Fin 3 → ℤ) (F : ℤ) (e : Fin 3 → ℤ) : ℤ :=
  wid (D 0) F (e 0) * wid (D 1) F (e 1) * wid (D 2) F (e 2)

theorem step6 : ∀ s < 6, ∀ d, IsStep (offs6.getD s 0 d) := by
  have : ∀ s < 6, ∀ d, offs6.getD s 0 d = -1 ∨ offs6.getD s 0 d = 0 ∨ offs6.getD s 0 d = 1 := by
    decide +kernel
  exact this

theorem step26 : ∀ s < 26, ∀ d, IsStep (offs26.getD s 0 d) := by
  have : ∀ s < 26, ∀ d, offs26.getD s 0 d = -1 ∨ offs26.getD s 0 d = 0 ∨ offs26.getD s 0 d = 1 := by
    decide +kernel
  exact this

theorem nodup6 : ∀ s < 6, ∀ s' < 6, offs6.getD s 0 = offs6.getD s' 0 → s = s' := by
  decide +kernel

theorem nodup26 : ∀ s < 26, ∀ s' < 26, offs26.getD s 0 = offs26.getD s' 0 → s = s' := by
  decide +kernel

theorem recv6_eq (D : Fin 3 → ℤ) (F : ℤ) : ∀ s < 6, ∀ d,
    (recv6 D F s).lo d = rlo (D d) F (offs6.getD s 0 d) ∧
    (recv6 D F s).hi d = rhi (D d) F (offs6.getD s 0 d) := by
  intro s hs d
  interval_cases s <;> fin_cases d <;> simp [offs6, recv6, mkRegion, rlo, rhi] <;> ring

theorem send6_eq (D : Fin 3 → ℤ) (F : ℤ) : ∀ s < 6, ∀ d,
    (send6 D F s).lo d = slo (D d) F (-(offs6.getD s 0 d)) ∧
    (send6 D F s).hi d = shi (D d) F (-(offs6.getD s 0 d)) := by
  intro s hs d
  interval_cases s <;> fin_cases d <;> simp [offs6, send6, mkRegion, slo, shi]

/-- The opposite slot. -/
theorem offs6_opp : ∀ s : ℕ, s < 6 → ∀ d, (((s : ℤ) + (1 - 2 * (s % 2 : ℕ))).toNat < 6) ∧
    offs6.getD ((s : ℤ) + (1 - 2 * (s % 2 : ℕ))).toNat 0 d = - offs6.getD s 0 d := by
  decide +kernel

theorem offs6_axis : ∀ s < 6, ∀ d : Fin 3, d ≠ Fin.ofNat 3 (s / 2) → offs6.getD s 0 d = 0 := by
  decide +kernel

theorem good6 (L : Layout) : (exch6 L).Good L := by
  have sendEq : ∀ D, ∀ s < 6, ∀ d,
      (send6 D L.FDn (nbrcount6 L s)).lo d = slo (D d) L.FDn (flip (amb L d) (offs6.getD s 0 d)) ∧
      (send6 D L.FDn (nbrcount6 L s)).hi d = shi (D d) L.FDn (flip (amb L d) (offs6.getD s 0 d)) := by
    intro D s hs d
    unfold nbrcount6
    rw [amb_swap6]
    have hflip : flip (amb L d) (offs6.getD s 0 d) =
        flip (amb L (Fin.ofNat 3 (s / 2))) (offs6.getD s 0 d) := by
      by_cases h : d = Fin.ofNat 3 (s / 2)
      · rw [h]
      · rw [offs6_axis s hs d h]; simp [flip]
    rw [hflip]
    cases amb L (Fin.ofNat 3 (s / 2)) with
    | false =>
      have e : ((s : ℤ) + (1 - 2 * (s % 2 : ℕ)) * (if false = true then 1 else 0)).toNat = s := by
        simp
      rw [e]
      exact send6_eq D L.FDn s hs d
    | true =>
      have e : ((s : ℤ) + (1 - 2 * (s % 2 : ℕ)) * (if true = true then 1 else 0)).toNat =
          ((s : ℤ) + (1 - 2 * (s % 2 : ℕ))).toNat := by simp
      rw [e]
      obtain ⟨h1, h2⟩ := offs6_opp s hs d
      have h3 := send6_eq D L.FDn _ h1 d
      rw [h2, neg_neg] at h3
      exact h3
  have hc : ∀ (D : Fin 3 → ℤ), ∀ s < 6, count6 D L.FDn L.ncol s = L.ncol * vol D L.FDn (offs6.getD s 0) := by
    intro D s hs
    interval_cases s <;> simp [offs6, count6, vol, wid] <;> ring
  exact ⟨step6, ordered6, nodup6, fun D s hs d => (recv6_eq D L.FDn s hs d).1,
    fun D s hs d => (recv6_eq D L.FDn s hs d).2.trans (rhi_eq _ _ (step6 s hs d)),
    fun D s hs d => (sendEq D s hs d).1,
    fun D s hs d => (sendEq D s hs d).2.trans (by
      rw [shi_eq _ _ (isStep_flip (step6 s hs d)), wid_flip]; rfl),
    hc⟩

/-! The 26-slot tables, entry by entry. -/

theorem is26A (D F : ℤ) : istart26A D F = offs26.map fun e => slo D F (flip false (e 0)) := rfl
theorem is26B (D F : ℤ) : istart26B D F = offs26.map fun e => slo D F (flip true (e 0)) := rfl
theorem ie26A (D F : ℤ) : iend26A D F = offs26.map fun e => shi D F (flip false (e 0)) := rfl
theorem ie26B (D F : ℤ) : iend26B D F = offs26.map fun e => shi D F (flip true (e 0)) := rfl
theorem js26A (D F : ℤ) : jstart26A D F = offs26.map fun e => slo D F (flip false (e 1)) := rfl
theorem js26B (D F : ℤ) : jstart26B D F = offs26.map fun e => slo D F (flip true (e 1)) := rfl
theorem je26A (D F : ℤ) : jend26A D F = offs26.map fun e => shi D F (flip false (e 1)) := rfl
theorem je26B (D F : ℤ) : jend26B D F = offs26.map fun e => shi D F (flip true (e 1)) := rfl
theorem ks26A (D F : ℤ) : kstart26A D F = offs26.map fun e => slo D F (flip false (e 2)) := rfl
theorem ks26B (D F : ℤ) : kstart26B D F = offs26.map fun e => slo D F (flip true (e 2)) := rfl
theorem ke26A (D F : ℤ) : kend26A D F = offs26.map fun e => shi D F (flip false (e 2)) := rfl
theorem ke26B (D F : ℤ) : kend26B D F = offs26.map fun e => shi D F (flip true (e 2)) := rfl
theorem is26in (D F : ℤ) : istart26in D F = offs26.map fun e => rlo D F (e 0) := rfl
theorem ie26in (D F : ℤ) : iend26in D F = offs26.map fun e => rhi D F (e 0) := rfl
theorem js26in (D F : ℤ) : jstart26in D F = offs26.map fun e => rlo D F (e 1) := rfl
theorem je26in (D F : ℤ) : jend26in D F = offs26.map fun e => rhi D F (e 1) := rfl
theorem ks26in (D F : ℤ) : kstart26in D F = offs26.map fun e => rlo D F (e 2) := rfl
theorem ke26in (D F : ℤ) : kend26in D F = offs26.map fun e => rhi D F (e 2) := rfl
theorem is26one (D F : ℤ) : istart26one D F = offs26.map fun e => slo D F (e 0) := rfl
theorem ie26one (D F : ℤ) : iend26one D F = offs26.map fun e => shi D F (e 0) := rfl
theorem js26one (D F : ℤ) : jstart26one D F = offs26.map fun e => slo D F (e 1) := rfl
theorem je26one (D F : ℤ) : jend26one D F = offs26.map fun e => shi D F (e 1) := rfl
theorem ks26one (D F : ℤ) : kstart26one D F = offs26.map fun e => slo D F (e 2) := rfl
theorem ke26one (D F : ℤ) : kend26one D F = offs26.map fun e => shi D F (e 2) := rfl

theorem ite_map {b : Bool} {l : List ℤ} {l' : List ℤ} {o : List (Fin 3 → ℤ)} {f : Bool → (Fin 3 → ℤ) → ℤ}
    (h : l = o.map (f false)) (h' : l' = o.map (f true)) :
    (if (!b) = true then l else l') = o.map (f b) := by
  cases b
  · simpa using h
  · simpa using h'

theorem region26 {is ie js je ks ke : List ℤ} {a b c a' b' c' : (Fin 3 → ℤ) → ℤ}
    (h1 : is = offs26.map a) (h2 : ie = offs26.map a') (h3 : js = offs26.map b)
    (h4 : je = offs26.map b') (h5 : ks = offs26.map c) (h6 : ke = offs26.map c') {s : ℕ}
    (hs : s < 26) :
    mkRegion is ie js je ks ke s = ⟨![a (offs26.getD s 0), b (offs26.getD s 0), c (offs26.getD s 0)],
      ![a' (offs26.getD s 0), b' (offs26.getD s 0), c' (offs26.getD s 0)]⟩ := by
  have hl : s < offs26.length := hs
  unfold mkRegion
  rw [h1, h2, h3, h4, h5, h6]
  simp only [getD_map offs26 _ _ 0 hl]

theorem fin3 {P : Fin 3 → Prop} (h0 : P 0) (h1 : P 1) (h2 : P 2) : ∀ d, P d := by
  intro d
  fin_cases d
  · exact h0
  · exact h1
  · exact h2

theorem recv26_eq (D : Fin 3 → ℤ) (F : ℤ) {s : ℕ} (hs : s < 26) (d : Fin 3) :
    (recv26 D F s).lo d = rlo (D d) F (offs26.getD s 0 d) ∧
    (recv26 D F s).hi d = rhi (D d) F (offs26.getD s 0 d) := by
  unfold recv26
  rw [region26 (is26in _ _) (ie26in _ _) (js26in _ _) (je26in _ _) (ks26in _ _) (ke26in _ _) hs]
  revert d
  exact fin3 ⟨rfl, rfl⟩ ⟨rfl, rfl⟩ ⟨rfl, rfl⟩

theorem one26_eq (D : Fin 3 → ℤ) (F : ℤ) {s : ℕ} (hs : s < 26) (d : Fin 3) :
    (one26 D F s).lo d = slo (D d) F (offs26.getD s 0 d) ∧
    (one26 D F s).hi d = shi (D d) F (offs26.getD s 0 d) := by
  unfold one26
  rw [region26 (is26one _ _) (ie26one _ _) (js26one _ _) (je26one _ _) (ks26one _ _) (ke26one _ _) hs]
  revert d
  exact fin3 ⟨rfl, rfl⟩ ⟨rfl, rfl⟩ ⟨rfl, rfl⟩

theorem plain_amb (L : Layout) (d : Fin 3) : plain26 L d = !amb L d := by
  unfold plain26 amb
  cases L.per d <;> by_cases h : L.dims d < 3 <;> simp [h] <;> omega

theorem send26_eq (L : Layout) (D : Fin 3 → ℤ) (F : ℤ) {s : ℕ} (hs : s < 26) (d : Fin 3) :
    (send26 L D F s).lo d = slo (D d) F (flip (amb L d) (offs26.getD s 0 d)) ∧
    (send26 L D F s).hi d = shi (D d) F (flip (amb L d) (offs26.getD s 0 d)) := by
  unfold send26
  simp only [plain_amb]
  rw [region26
    (ite_map (f := fun b e => slo (D 0) F (flip b (e 0))) (is26A _ _) (is26B _ _))
    (ite_map (f := fun b e => shi (D 0) F (flip b (e 0))) (ie26A _ _) (ie26B _ _))
    (ite_map (f := fun b e => slo (D 1) F (flip b (e 1))) (js26A _ _) (js26B _ _))
    (ite_map (f := fun b e => shi (D 1) F (flip b (e 1))) (je26A _ _) (je26B _ _))
    (ite_map (f := fun b e => slo (D 2) F (flip b (e 2))) (ks26A _ _) (ks26B _ _))
    (ite_map (f := fun b e => shi (D 2) F (flip b (e 2))) (ke26A _ _) (ke26B _ _)) hs]
  revert d
  exact fin3 ⟨rfl, rfl⟩ ⟨rfl, rfl⟩ ⟨rfl, rfl⟩

theorem count26_eq (D : Fin 3 → ℤ) (F : ℤ) (ncol : ℕ) : ∀ s < 26,
    count26 D F ncol s = ncol * vol D F (offs26.getD s 0) := by
  have h1 : (List.range 26).map (fun s => vol D F (offs26.getD s 0)) =
      [F * F * F, D 0 * F * F, F * F * F, F * D 1 * F, D 0 * D 1 * F, F * D 1 * F, F * F * F,
       D 0 * F * F, F * F * F, F * F * D 2, D 0 * F * D 2, F * F * D 2, F * D 1 * D 2,
       F * D 1 * D 2, F * F * D 2, D 0 * F * D 2, F * F * D 2, F * F * F, D 0 * F * F, F * F * F,
       F * D 1 * F, D 0 * D 1 * F, F * D 1 * F, F * F * F, D 0 * F * F, F * F * F] := rfl
  intro s hs
  have h2 : vol D F (offs26.getD s 0) =
      ((List.range 26).map (fun s => vol D F (offs26.getD s 0))).getD s 0 := by
    rw [getD_map (List.range 26) _ 0 0 (by simpa using hs)]
    simp [List.getD_eq_getElem?_getD, hs]
  rw [h2, h1]
  unfold count26
  interval_cases s <;> simp <;> ring

theorem good26 (L : Layout) : (exch26 L).Good L :=
  ⟨step26, ordered26, nodup26, fun D _ hs d => (recv26_eq D L.FDn hs d).1,
    fun D s hs d => (recv26_eq D L.FDn hs d).2.trans (rhi_eq _ _ (step26 s hs d)),
    fun D _ hs d => (send26_eq L D L.FDn hs d).1,
    fun D s hs d => (send26_eq L D L.FDn hs d).2.trans (by
      rw [shi_eq _ _ (isStep_flip (step26 s hs d)), wid_flip]; rfl),
    fun D => count26_eq D L.FDn L.ncol⟩

/-! ### The exchange as a whole -/

theorem nbr_some {L : Layout} {p q : Proc} {e : Fin 3 → ℤ} :
    nbr L p e = some q ↔ ∀ d, axisStep (L.dims d) (L.per d) (p d) (e d) = some (q d) := by
  unfold nbr
  cases h0 : axisStep (L.dims 0) (L.per 0) (p 0) (e 0) with
  | none => exact ⟨fun h => (by cases h), fun h => (by have := h 0; rw [h0] at this; cases this)⟩
  | some a =>
    cases h1 : axisStep (L.dims 1) (L.per 1) (p 1) (e 1) with
    | none => exact ⟨fun h => (by cases h), fun h => (by have := h 1; rw [h1] at this; cases this)⟩
    | some b =>
      cases h2 : axisStep (L.dims 2) (L.per 2) (p 2) (e 2) with
      | none =>
        exact ⟨fun h => (by cases h), fun h => (by have := h 2; rw [h2] at this; cases this)⟩
      | some c =>
        constructor
        · intro h
          cases h
          exact fin3 h0 h1 h2
        · intro h
          have e0 := h 0
          have e1 := h 1
          have e2 := h 2
          rw [h0] at e0
          rw [h1] at e1
          rw [h2] at e2
          cases e0
          cases e1
          cases e2
          change some ![q 0, q 1, q 2] = some q
          congr 1
          funext d
          exact fin3 (P := fun d => ![q 0, q 1, q 2] d = q d) rfl rfl rfl d

theorem nbr_none {L : Layout} {p : Proc} {e : Fin 3 → ℤ} (h : nbr L p e = none) :
    ∃ d, axisStep (L.dims d) (L.per d) (p d) (e d) = none := by
  by_contra hn
  push Not at hn
  have : ∀ d, ∃ c, axisStep (L.dims d) (L.per d) (p d) (e d) = some c := by
    intro d
    exact Option.ne_none_iff_exists'.1 (hn d)
  choose q hq using this
  rw [nbr_some.2 hq] at h
  cases h

/-- A process of the grid. -/
def Layout.Valid (L : Layout) (p : Proc) : Prop := ∀ d, p d < L.dims d

theorem nbr_valid {L : Layout} {p q : Proc} {e : Fin 3 → ℤ} (hp : L.Valid p)
    (he : ∀ d, IsStep (e d)) (h : nbr L p e = some q) : L.Valid q :=
  fun d => axisStep_lt (hp d) (he d) (nbr_some.1 h d)

theorem partner_eq {L : Layout} {E : Exch} (hE : E.Good L) {p q : Proc} (hp : L.Valid p) {s : ℕ}
    (hs : s < E.offs.length) (h : slotNbr L E p s = some q) :
    ∃ s', partner L E p q s = some s' ∧ s' < E.offs.length ∧
      ∀ d, E.offs.getD s' 0 d = flip (amb L d) (E.offs.getD s 0 d) := by
  have h' := nbr_some.1 h
  have hk : ∀ d, ∃ K : Kind, K.amb = amb L d ∧ ∀ e, IsStep e →
      (axisStep (L.dims d) (L.per d) (p d) e = some (q d) ↔ K.mem e = true) ∧
      (axisStep (L.dims d) (L.per d) (q d) e = some (p d) ↔ K.back e = true) :=
    fun d => axis_kind (hp d) (hE.step s hs d) (h' d)
  choose K hKa hK using hk
  have e1 : slotsTo L E p q = sel E.offs (K 0).mem (K 1).mem (K 2).mem := by
    unfold slotsTo sel
    apply List.filter_congr
    intro t ht
    have ht' := List.mem_range.1 ht
    rw [← Bool.decide_coe (_ && _)]
    congr 1
    rw [Bool.and_eq_true, Bool.and_eq_true]
    unfold slotNbr
    rw [nbr_some]
    apply propext
    constructor
    · intro hh
      exact ⟨⟨((hK 0 _ (hE.step t ht' 0)).1).1 (hh 0), ((hK 1 _ (hE.step t ht' 1)).1).1 (hh 1)⟩,
        ((hK 2 _ (hE.step t ht' 2)).1).1 (hh 2)⟩
    · rintro ⟨⟨a, b⟩, c⟩
      exact fin3 (((hK 0 _ (hE.step t ht' 0)).1).2 a) (((hK 1 _ (hE.step t ht' 1)).1).2 b)
        (((hK 2 _ (hE.step t ht' 2)).1).2 c)
  have e2 : slotsTo L E q p = sel E.offs (K 0).back (K 1).back (K 2).back := by
    unfold slotsTo sel
    apply List.filter_congr
    intro t ht
    have ht' := List.mem_range.1 ht
    rw [← Bool.decide_coe (_ && _)]
    congr 1
    rw [Bool.and_eq_true, Bool.and_eq_true]
    unfold slotNbr
    rw [nbr_some]
    apply propext
    constructor
    · intro hh
      exact ⟨⟨((hK 0 _ (hE.step t ht' 0)).2).1 (hh 0), ((hK 1 _ (hE.step t ht' 1)).2).1 (hh 1)⟩,
        ((hK 2 _ (hE.step t ht' 2)).2).1 (hh 2)⟩
    · rintro ⟨⟨a, b⟩, c⟩
      exact fin3 (((hK 0 _ (hE.step t ht' 0)).2).2 a) (((hK 1 _ (hE.step t ht' 1)).2).2 b)
        (((hK 2 _ (hE.step t ht' 2)).2).2 c)
  have hord := hE.ordered (K 0) (mem_kinds _) (K 1) (mem_kinds _) (K 2) (mem_kinds _)
  rw [← e1, ← e2] at hord
  have hmem : s ∈ slotsTo L E p q := by
    unfold slotsTo
    rw [List.mem_filter]
    exact ⟨List.mem_range.2 hs, by simpa using h⟩
  have hidx : (slotsTo L E p q)[(slotsTo L E p q).idxOf s]? = some s := by
    rw [List.getElem?_eq_getElem (List.idxOf_lt_length_of_mem hmem)]
    rw [List.getElem_idxOf]
  have h3 := congrArg (fun l => l[(slotsTo L E p q).idxOf s]?) hord
  rw [List.getElem?_map, List.getElem?_map, hidx] at h3
  unfold partner
  cases hx : (slotsTo L E q p)[(slotsTo L E p q).idxOf s]? with
  | none => rw [hx] at h3; cases h3
  | some s' =>
    rw [hx] at h3
    simp only [Option.map_some, Option.some.injEq] at h3
    refine ⟨s', rfl, ?_, ?_⟩
    · have := List.mem_of_getElem? hx
      unfold slotsTo at this
      exact List.mem_range.1 (List.mem_filter.1 this).1
    · intro d
      rw [h3]
      exact fin3 (P := fun d => ![flip (K 0).amb (E.offs.getD s 0 0), flip (K 1).amb (E.offs.getD s 0 1),
        flip (K 2).amb (E.offs.getD s 0 2)] d = flip (amb L d) (E.offs.getD s 0 d))
        (by rw [← hKa 0]; rfl) (by rw [← hKa 1]; rfl) (by rw [← hKa 2]; rfl) d

theorem length_packSlot (D : Fin 3 → ℤ) (ldi : ℤ) (ncol : ℕ) (R : Region) (x : ℤ → V) :
    (packSlot D ldi ncol R x).length = ncol * (R.width 0 * R.width 1 * R.width 2) := by
  simp [packSlot, List.length_flatMap, Region.cells, length_box]

theorem wid_nonneg {D F : ℤ} (hD : 0 ≤ D) (hF : 0 ≤ F) (e : ℤ) : 0 ≤ wid D F e := by
  unfold wid
  split <;> assumption

/-- The declared message length is the number of packed values. -/
theorem Exch.Good.count_nat {L : Layout} {E : Exch} (hE : E.Good L) {D : Fin 3 → ℤ}
    (hD : ∀ d, 0 ≤ D d) {s : ℕ} (hs : s < E.offs.length) (ldi : ℤ) (x : ℤ → V) :
    E.count D s = (packSlot D ldi L.ncol (E.send D s) x).length := by
  rw [length_packSlot, hE.count D s hs]
  have h : ∀ d, ((E.send D s).width d : ℤ) = wid (D d) L.FDn (E.offs.getD s 0 d) := by
    intro d
    unfold Region.width
    rw [hE.send_lo D s hs d, hE.send_hi D s hs d, add_sub_cancel_left,
      Int.toNat_of_nonneg (wid_nonneg (hD d) (by omega) _)]
  push_cast
  rw [h 0, h 1, h 2]

theorem message_eq {L : Layout} {E : Exch} (hE : E.Good L) {D : Fin 3 → ℤ}
    (hD : ∀ d, 0 ≤ D d) {s : ℕ} (hs : s < E.offs.length) (ldi : ℤ) (x : ℤ → V) :
    message E D ldi L.ncol x s = packSlot D ldi L.ncol (E.send D s) x := by
  unfold message xOut
  have h1 : (displ E D s).toNat =
      ((List.range s).map fun t => (packSlot D ldi L.ncol (E.send D t) x).length).sum := by
    unfold displ
    have : (List.range s).map (E.count D) =
        (List.range s).map fun t => (((packSlot D ldi L.ncol (E.send D t) x).length : ℕ) : ℤ) := by
      apply List.map_congr_left
      intro t ht
      exact hE.count_nat hD (lt_trans (List.mem_range.1 ht) hs) ldi x
    rw [this, ← Int.toNat_natCast (List.sum _), Nat.cast_list_sum, List.map_map]
    rfl
  rw [h1, hE.count_nat hD hs ldi x, Int.toNat_natCast]
  exact flatMap_drop_take (fun s => packSlot D ldi L.ncol (E.send D s) x) _ _ hs

/-- Value received for pass `t` of slot `s`. -/
noncomputable def recvVal (L : Layout) (E : Exch) (ldi : Proc → ℤ) (xs : Proc → ℤ → V) (p : Proc) (s n : ℕ)
    (t : ℕ × ℕ × ℕ) : V :=
  match slotNbr L E p s with
  | none => 0
  | some q =>
    let e := E.offs.getD s 0
    let D := L.isize q
    xs q (xIdx D (ldi q) n (slo (D 0) L.FDn (e 0) + t.1) (slo (D 1) L.FDn (e 1) + t.2.1)
      (slo (D 2) L.FDn (e 2) + t.2.2))

theorem flip_flip (b : Bool) (e : ℤ) : flip b (flip b e) = e := by cases b <;> simp [flip]

/-- Same number of points on both sides. -/
theorem wid_nbr {L : Layout} {p q : Proc} (hp : L.Valid p) {e : Fin 3 → ℤ} (he : ∀ d, IsStep (e d))
    (h : nbr L p e = some q) (d : Fin 3) :
    wid (L.isize q d) L.FDn (e d) = wid (L.isize p d) L.FDn (e d) := by
  have h1 := nbr_some.1 h d
  rcases he d with h2 | h2 | h2 <;> rw [h2] at h1 ⊢
  · rfl
  · have : q d = p d := by
      unfold axisStep at h1
      have := hp d
      dsimp only at h1
      split_ifs at h1 <;> first | cases h1 | (simp only [Option.some.injEq] at h1; omega)
    simp only [Layout.isize, Layout.size, this]
  · rfl

theorem recvSlot_eq {L : Layout} {E : Exch} (hE : E.Good L) (ldi : Proc → ℤ) (xs : Proc → ℤ → V) {p : Proc}
    (hp : L.Valid p) {s : ℕ}
    (hs : s < E.offs.length) :
    recvSlot L E ldi xs p s = some ((List.range L.ncol).flatMap fun n =>
      (E.recv (L.isize p) s).cells.map fun t => recvVal L E ldi xs p s n t) := by
  have hD : ∀ r d, 0 ≤ L.isize r d := fun r d => by unfold Layout.isize; omega
  have hw : ∀ d, ((E.recv (L.isize p) s).width d : ℤ) =
      wid (L.isize p d) L.FDn (E.offs.getD s 0 d) := by
    intro d
    unfold Region.width
    rw [hE.recv_lo _ s hs d, hE.recv_hi _ s hs d, add_sub_cancel_left,
      Int.toNat_of_nonneg (wid_nonneg (hD p d) (by omega) _)]
  have hcnt : (E.count (L.isize p) s).toNat = L.ncol * ((E.recv (L.isize p) s).width 0 *
      (E.recv (L.isize p) s).width 1 * (E.recv (L.isize p) s).width 2) := by
    rw [hE.count _ s hs, ← hw 0, ← hw 1, ← hw 2]
    exact_mod_cast Int.toNat_natCast _
  unfold recvSlot recvVal
  cases h : slotNbr L E p s with
  | none =>
    dsimp only
    rw [hcnt]
    congr 1
    symm
    rw [List.eq_replicate_iff]
    constructor
    · simp [List.length_flatMap, Region.cells, length_box]
    · intro b hb
      simp only [List.mem_flatMap, List.mem_map] at hb
      obtain ⟨_, _, _, _, rfl⟩ := hb
      rfl
  | some q =>
    dsimp only
    obtain ⟨s', h1, h2, h3⟩ := partner_eq hE hp hs h
    have hlen := length_packSlot (L.isize q) (ldi q) L.ncol (E.send (L.isize q) s') (xs q)
    have hw' : ∀ d, (E.send (L.isize q) s').width d = (E.recv (L.isize p) s).width d := by
      intro d
      have : ((E.send (L.isize q) s').width d : ℤ) = (E.recv (L.isize p) s).width d := by
        rw [hw d]
        unfold Region.width
        rw [hE.send_lo _ s' h2 d, hE.send_hi _ s' h2 d, add_sub_cancel_left, h3 d, wid_flip,
          Int.toNat_of_nonneg (wid_nonneg (hD q d) (by omega) _)]
        exact wid_nbr hp (hE.step s hs) h d
      exact_mod_cast this
    rw [h1]
    simp only [Option.bind_eq_bind, Option.bind_some]
    rw [message_eq hE (hD q) h2, if_pos (by rw [hlen, hcnt, hw' 0, hw' 1, hw' 2])]
    congr 1
    unfold packSlot Region.cells
    rw [hw' 0, hw' 1, hw' 2, hE.send_lo _ s' h2 0, hE.send_lo _ s' h2 1, hE.send_lo _ s' h2 2,
      h3 0, h3 1, h3 2, flip_flip, flip_flip, flip_flip]

/-- The passes of the loops over slots, columns and points. -/
def passes (L : Layout) (E : Exch) (p : Proc) : List (ℕ × ℕ × (ℕ × ℕ × ℕ)) :=
  (List.range E.offs.length).flatMap fun s => (List.range L.ncol).flatMap fun n =>
    (E.recv (L.isize p) s).cells.map fun t => (s, n, t)

theorem haloMany_eq {L : Layout} {E : Exch} (hE : E.Good L) (ldi : Proc → ℤ) (xs : Proc → ℤ → V) {p : Proc}
    (hp : L.Valid p) (m : ℤ → V) :
    haloMany L E ldi xs p m = some (fill (passes L E p)
      (fun w => exIdx (L.isize p) L.FDn w.2.1 ((E.recv (L.isize p) w.1).lo 0 + w.2.2.1)
        ((E.recv (L.isize p) w.1).lo 1 + w.2.2.2.1) ((E.recv (L.isize p) w.1).lo 2 + w.2.2.2.2))
      (fun w => recvVal L E ldi xs p w.1 w.2.1 w.2.2)
      (copyIn L (ldi p) p (xs p) m)) := by
  have h1 : xIn L E ldi xs p = some ((List.range E.offs.length).flatMap fun s =>
      (List.range L.ncol).flatMap fun n => (E.recv (L.isize p) s).cells.map fun t =>
        recvVal L E ldi xs p s n t) := by
    unfold xIn
    rw [mapM_some _ _ _ fun s hs => recvSlot_eq hE ldi xs hp (List.mem_range.1 hs)]
    simp [List.flatMap]
  have hz : (inPlaces L E p).zip ((List.range E.offs.length).flatMap fun s =>
      (List.range L.ncol).flatMap fun n => (E.recv (L.isize p) s).cells.map fun t =>
        recvVal L E ldi xs p s n t) =
      (passes L E p).map fun w => (exIdx (L.isize p) L.FDn w.2.1
        ((E.recv (L.isize p) w.1).lo 0 + w.2.2.1) ((E.recv (L.isize p) w.1).lo 1 + w.2.2.2.1)
        ((E.recv (L.isize p) w.1).lo 2 + w.2.2.2.2), recvVal L E ldi xs p w.1 w.2.1 w.2.2) := by
    unfold inPlaces passes
    rw [zip_flatMap _ _ _ (fun s _ => by simp [List.length_flatMap])]
    simp only [List.map_flatMap, List.map_map]
    congr 1
    funext s
    rw [zip_flatMap _ _ _ (fun n _ => by simp)]
    congr 1
    funext n
    rw [List.zip_map']
    rfl
  unfold haloMany
  rw [h1]
  simp only [Option.bind_eq_bind, Option.bind_some]
  rw [if_neg (by unfold inPlaces; simp [List.length_flatMap]), hz, fill_map]

/-! ### Values -/

/-- The program's precondition: every block is at least as wide as the stencil radius. -/
def Layout.Fits (L : Layout) : Prop := ∀ r, L.Valid r → ∀ d, L.FDn ≤ L.size r d

/-- Specification of the storage order: `i` fastest, then `j`, then `k`; columns `ldi` apart. -/
def addr (D : Fin 3 → ℤ) (ldi : ℤ) (n : ℕ) (i j k : ℤ) : ℤ := n * ldi + ((k * D 1 + j) * D 0 + i)

theorem xIdx_eq_addr : xIdx = addr := by
  funext D ldi n i j k
  unfold xIdx addr
  ring

/-- The processes hold the parts of the grid function `g` (first argument: the column). -/
def Distributed (L : Layout) (ldi : Proc → ℤ) (ncol : ℕ) (g : ℕ → ℕ → ℕ → ℕ → V)
    (xs : Proc → ℤ → V) : Prop :=
  ∀ p, L.Valid p → ∀ n < ncol, ∀ i < L.size p 0, ∀ j < L.size p 1, ∀ k < L.size p 2,
    xs p (addr (L.isize p) (ldi p) n i j k) =
      g n (L.start p 0 + i) (L.start p 1 + j) (L.start p 2 + k)

/-- The grid function extended beyond the domain: periodic images, zero outside a non-periodic
boundary. -/
noncomputable def ext (L : Layout) (g : ℕ → ℕ → ℕ → V) (I J K : ℤ) : V :=
  match image (L.N 0) (L.per 0) I, image (L.N 1) (L.per 1) J, image (L.N 2) (L.per 2) K with
  | some i, some j, some k => g i j k
  | _, _, _ => 0

theorem ext_none {L : Layout} {g : ℕ → ℕ → ℕ → V} {I : Fin 3 → ℤ} {d : Fin 3}
    (h : image (L.N d) (L.per d) (I d) = none) : ext L g (I 0) (I 1) (I 2) = 0 := by
  have key : ∀ d, image (L.N d) (L.per d) (I d) = none → ext L g (I 0) (I 1) (I 2) = 0 := by
    unfold ext
    refine fin3 ?_ ?_ ?_ <;> intro h <;> rw [h]
    · rcases image (L.N 0) (L.per 0) (I 0) with _ | a <;> rfl
    · rcases image (L.N 0) (L.per 0) (I 0) with _ | a <;>
      rcases image (L.N 1) (L.per 1) (I 1) with _ | b <;> rfl
  exact key d h

/-- Value at a point relative to the block of `p`. -/
noncomputable def target (L : Layout) (g : ℕ → ℕ → ℕ → ℕ → V) (p : Proc) (P : Pt) : V :=
  ext L (g P.n) (L.start p 0 + P.i) (L.start p 1 + P.j) (L.start p 2 + P.k)

/-- The point of pass `t` of slot `s`. -/
def slotPt (L : Layout) (E : Exch) (p : Proc) (s n : ℕ) (t : ℕ × ℕ × ℕ) : Pt where
  n := n
  i := rlo (L.isize p 0) L.FDn (E.offs.getD s 0 0) - L.FDn + t.1
  j := rlo (L.isize p 1) L.FDn (E.offs.getD s 0 1) - L.FDn + t.2.1
  k := rlo (L.isize p 2) L.FDn (E.offs.getD s 0 2) - L.FDn + t.2.2

theorem recv_width {L : Layout} {E : Exch} (hE : E.Good L) (p : Proc) {s : ℕ}
    (hs : s < E.offs.length) (d : Fin 3) : ((E.recv (L.isize p) s).width d : ℤ) =
      wid (L.isize p d) L.FDn (E.offs.getD s 0 d) := by
  unfold Region.width
  rw [hE.recv_lo _ s hs d, hE.recv_hi _ s hs d, add_sub_cancel_left,
    Int.toNat_of_nonneg (wid_nonneg (by unfold Layout.isize; omega) (by omega) _)]

theorem mem_cells {R : Region} {t : ℕ × ℕ × ℕ} :
    t ∈ R.cells ↔ t.1 < R.width 0 ∧ t.2.1 < R.width 1 ∧ t.2.2 < R.width 2 := mem_box

theorem recvVal_eq {L : Layout} {E : Exch} (hE : E.Good L) (hF : L.Fits) {ldi : Proc → ℤ}
    {g : ℕ → ℕ → ℕ → ℕ → V} {xs : Proc → ℤ → V} (hx : Distributed L ldi L.ncol g xs) {p : Proc}
    (hp : L.Valid p) {s n : ℕ} (hs : s < E.offs.length) (hn : n < L.ncol) {t : ℕ × ℕ × ℕ}
    (ht : t ∈ (E.recv (L.isize p) s).cells) :
    recvVal L E ldi xs p s n t = target L g p (slotPt L E p s n t) := by
  obtain ⟨h0, h1, h2⟩ := mem_cells.1 ht
  have hw := recv_width hE p hs
  have hF' : ∀ d, ∀ r < L.dims d, L.FDn ≤ Block.blockDecompose (L.N d) (L.dims d) r := by
    intro d r hr
    have := hF (Function.update p d r) (by
      intro d'
      by_cases h : d' = d
      · subst h; rwa [Function.update_self]
      · rw [Function.update_of_ne h]; exact hp d') d
    unfold Layout.size at this
    rwa [Function.update_self] at this
  have h0' : (t.1 : ℤ) < wid (L.isize p 0) L.FDn (E.offs.getD s 0 0) := by
    rw [← hw 0]; exact_mod_cast h0
  have h1' : (t.2.1 : ℤ) < wid (L.isize p 1) L.FDn (E.offs.getD s 0 1) := by
    rw [← hw 1]; exact_mod_cast h1
  have h2' : (t.2.2 : ℤ) < wid (L.isize p 2) L.FDn (E.offs.getD s 0 2) := by
    rw [← hw 2]; exact_mod_cast h2
  have a0 := axis_source (per := L.per 0) (hp 0) (hF' 0) (hE.step s hs 0) (by omega) h0'
  have a1 := axis_source (per := L.per 1) (hp 1) (hF' 1) (hE.step s hs 1) (by omega) h1'
  have a2 := axis_source (per := L.per 2) (hp 2) (hF' 2) (hE.step s hs 2) (by omega) h2'
  unfold recvVal
  cases h : slotNbr L E p s with
  | none =>
    dsimp only
    obtain ⟨d, hd⟩ := nbr_none h
    have key : ∀ d, axisStep (L.dims d) (L.per d) (p d) (E.offs.getD s 0 d) = none →
        image (L.N d) (L.per d) (![(L.start p 0 : ℤ) + (slotPt L E p s n t).i,
          (L.start p 1 : ℤ) + (slotPt L E p s n t).j, (L.start p 2 : ℤ) + (slotPt L E p s n t).k] d)
          = none := by
      refine fin3 ?_ ?_ ?_ <;> intro hh
      · rw [hh] at a0; exact a0
      · rw [hh] at a1; exact a1
      · rw [hh] at a2; exact a2
    exact (ext_none (I := ![_, _, _]) (key d hd)).symm
  | some q =>
    dsimp only
    have hq := nbr_valid hp (hE.step s hs) h
    have hst := nbr_some.1 h
    rw [hst 0] at a0
    rw [hst 1] at a1
    rw [hst 2] at a2
    dsimp only at a0 a1 a2
    obtain ⟨-, b1, b2, b3⟩ := a0
    obtain ⟨-, c1, c2, c3⟩ := a1
    obtain ⟨-, d1, d2, d3⟩ := a2
    change 0 ≤ slo (L.isize q 0) L.FDn (E.offs.getD s 0 0) + t.1 at b1
    change slo (L.isize q 0) L.FDn (E.offs.getD s 0 0) + t.1 < L.isize q 0 at b2
    change 0 ≤ slo (L.isize q 1) L.FDn (E.offs.getD s 0 1) + t.2.1 at c1
    change slo (L.isize q 1) L.FDn (E.offs.getD s 0 1) + t.2.1 < L.isize q 1 at c2
    change 0 ≤ slo (L.isize q 2) L.FDn (E.offs.getD s 0 2) + t.2.2 at d1
    change slo (L.isize q 2) L.FDn (E.offs.getD s 0 2) + t.2.2 < L.isize q 2 at d2
    rw [xIdx_eq_addr]
    have hg := hx q hq n hn (slo (L.isize q 0) L.FDn (E.offs.getD s 0 0) + t.1).toNat
      (by zify; rw [Int.toNat_of_nonneg b1]; exact b2)
      (slo (L.isize q 1) L.FDn (E.offs.getD s 0 1) + t.2.1).toNat
      (by zify; rw [Int.toNat_of_nonneg c1]; exact c2)
      (slo (L.isize q 2) L.FDn (E.offs.getD s 0 2) + t.2.2).toNat
      (by zify; rw [Int.toNat_of_nonneg d1]; exact d2)
    rw [Int.toNat_of_nonneg b1, Int.toNat_of_nonneg c1, Int.toNat_of_nonneg d1] at hg
    rw [hg]
    unfold target ext
    have b3' : image (L.N 0) (L.per 0) ((L.start p 0 : ℤ) + (slotPt L E p s n t).i) =
      some (L.start q 0 + (slo (L.isize q 0) L.FDn (E.offs.getD s 0 0) + t.1).toNat) := b3
    have c3' : image (L.N 1) (L.per 1) ((L.start p 1 : ℤ) + (slotPt L E p s n t).j) =
      some (L.start q 1 + (slo (L.isize q 1) L.FDn (E.offs.getD s 0 1) + t.2.1).toNat) := c3
    have d3' : image (L.N 2) (L.per 2) ((L.start p 2 : ℤ) + (slotPt L E p s n t).k) =
      some (L.start q 2 + (slo (L.isize q 2) L.FDn (E.offs.getD s 0 2) + t.2.2).toNat) := d3
    rw [b3', c3', d3']
    rfl

/-- The points of a slot. -/
def Reg (L : Layout) (E : Exch) (p : Proc) (s : ℕ) (P : Pt) : Prop :=
  P.n < L.ncol ∧ ∃ t ∈ (E.recv (L.isize p) s).cells, slotPt L E p s P.n t = P

theorem slotPt_in {L : Layout} {E : Exch} (hE : E.Good L) (p : Proc) {s n : ℕ}
    (hs : s < E.offs.length) {t : ℕ × ℕ × ℕ} (ht : t ∈ (E.recv (L.isize p) s).cells) :
    (slotPt L E p s n t).In (L.isize p) L.FDn := by
  obtain ⟨h0, h1, h2⟩ := mem_cells.1 ht
  have hw := recv_width hE p hs
  have hD : ∀ d, 0 ≤ L.isize p d := fun d => by unfold Layout.isize; omega
  have key : ∀ d, ∀ x : ℕ, x < (E.recv (L.isize p) s).width d →
      -(L.FDn : ℤ) ≤ rlo (L.isize p d) L.FDn (E.offs.getD s 0 d) - L.FDn + x ∧
      rlo (L.isize p d) L.FDn (E.offs.getD s 0 d) - L.FDn + x < L.isize p d + L.FDn := by
    intro d x hx
    have hx' : (x : ℤ) < wid (L.isize p d) L.FDn (E.offs.getD s 0 d) := by
      rw [← hw d]; exact_mod_cast hx
    have := hD d
    generalize E.offs.getD s 0 d = e at *
    generalize L.isize p d = D at *
    rcases hE.step s hs d with _ | _
    all_goals
      unfold rlo
      unfold wid at hx'
      split_ifs at hx' ⊢ <;> omega
  exact ⟨key 0 _ h0, key 1 _ h1, key 2 _ h2⟩

theorem slotPt_place {L : Layout} {E : Exch} (hE : E.Good L) (p : Proc) {s n : ℕ}
    (hs : s < E.offs.length) (t : ℕ × ℕ × ℕ) :
    exIdx (L.isize p) L.FDn n ((E.recv (L.isize p) s).lo 0 + t.1)
      ((E.recv (L.isize p) s).lo 1 + t.2.1) ((E.recv (L.isize p) s).lo 2 + t.2.2) =
    (slotPt L E p s n t).place (L.isize p) L.FDn := by
  unfold Pt.place slotPt
  rw [hE.recv_lo _ s hs 0, hE.recv_lo _ s hs 1, hE.recv_lo _ s hs 2]
  dsimp only
  congr 1 <;> ring

/-- The points of the block. -/
def Inner (L : Layout) (p : Proc) (P : Pt) : Prop :=
  P.n < L.ncol ∧ (0 ≤ P.i ∧ P.i < L.isize p 0) ∧ (0 ≤ P.j ∧ P.j < L.isize p 1) ∧
    (0 ≤ P.k ∧ P.k < L.isize p 2)

theorem target_inner {L : Layout} (g : ℕ → ℕ → ℕ → ℕ → V) {p : Proc} (hp : L.Valid p) {n i j k : ℕ}
    (hi : i < L.size p 0) (hj : j < L.size p 1) (hk : k < L.size p 2) :
    target L g p ⟨n, i, j, k⟩ = g n (L.start p 0 + i) (L.start p 1 + j) (L.start p 2 + k) := by
  have key : ∀ d, ∀ x < L.size p d, image (L.N d) (L.per d) ((L.start p d : ℤ) + x) =
      some (L.start p d + x) := by
    intro d x hx
    have h0 : 0 < L.dims d := lt_of_le_of_lt (Nat.zero_le _) (hp d)
    have hle : L.start p d + L.size p d ≤ L.N d := by
      have := Block.nstart_mono (L.N d) (L.dims d) (show p d + 1 ≤ L.dims d from hp d)
      rw [Block.nstart_succ, Block.nstart_last _ _ h0] at this
      exact this
    unfold image
    cases L.per d
    · rw [if_neg (by simp), if_pos (by omega)]; congr 1
    · rw [if_pos rfl, Int.emod_eq_of_lt (by omega) (by omega)]; congr 1
  unfold target ext
  dsimp only
  rw [key 0 i hi, key 1 j hj, key 2 k hk]

theorem copyIn_holds {L : Layout} {ldi : Proc → ℤ} {g : ℕ → ℕ → ℕ → ℕ → V} {xs : Proc → ℤ → V}
    (hx : Distributed L ldi L.ncol g xs) {p : Proc} (hp : L.Valid p) {C : Pt → Prop} {m : ℤ → V}
    (h : Holds (L.isize p) L.FDn (target L g p) C m) :
    Holds (L.isize p) L.FDn (target L g p) (fun P => C P ∨ Inner L p P)
      (copyIn L (ldi p) p (xs p) m) := by
  unfold copyIn
  refine (h.fill _ _ _ (fun w => ⟨w.1, w.2.1, w.2.2.1, w.2.2.2⟩) ?_).mono ?_
  · rintro ⟨n, i, j, k⟩ hw
    simp only [List.mem_flatMap, List.mem_range, List.mem_map, mem_box, Prod.mk.injEq] at hw
    obtain ⟨n', hn, t, ⟨h0, h1, h2⟩, rfl, rfl⟩ := hw
    dsimp only at h0 h1 h2 ⊢
    refine ⟨?_, rfl, ?_⟩
    · unfold Pt.In Layout.isize
      dsimp only
      omega
    · rw [target_inner g hp h0 h1 h2]
      rw [xIdx_eq_addr]
      exact hx p hp n' hn i h0 j h1 k h2
  · rintro ⟨n, i, j, k⟩ - (hc | ⟨hn, ⟨a1, a2⟩, ⟨a3, a4⟩, a5, a6⟩)
    · exact Or.inl hc
    · right
      unfold Layout.isize at a2 a4 a6
      dsimp only at *
      refine ⟨(n, i.toNat, j.toNat, k.toNat), ?_, ?_⟩
      · simp only [List.mem_flatMap, List.mem_range, List.mem_map, mem_box]
        exact ⟨n, hn, (i.toNat, j.toNat, k.toNat), by dsimp only; omega, rfl⟩
      · dsimp only
        rw [Int.toNat_of_nonneg a1, Int.toNat_of_nonneg a3, Int.toNat_of_nonneg a5]

/-- Several processes. -/
theorem haloMany_holds {L : Layout} {E : Exch} (hE : E.Good L) (hF : L.Fits) {ldi : Proc → ℤ}
    {g : ℕ → ℕ → ℕ → ℕ → V} {xs : Proc → ℤ → V} (hx : Distributed L ldi L.ncol g xs) {p : Proc}
    (hp : L.Valid p) (m : ℤ → V) :
    ∃ m', haloMany L E ldi xs p m = some m' ∧ Holds (L.isize p) L.FDn (target L g p)
      (fun P => Inner L p P ∨ ∃ s < E.offs.length, Reg L E p s P) m' := by
  refine ⟨_, haloMany_eq hE ldi xs hp m, ?_⟩
  have h0 := copyIn_holds hx hp (C := fun _ => False) (m := m) (fun P _ h => h.elim)
  refine (h0.fill _ _ _ (fun w => slotPt L E p w.1 w.2.1 w.2.2) ?_).mono ?_
  · rintro ⟨s, n, t⟩ hw
    unfold passes at hw
    simp only [List.mem_flatMap, List.mem_range, List.mem_map, Prod.mk.injEq] at hw
    obtain ⟨s', hs, n', hn, t', ht, rfl, rfl, rfl⟩ := hw
    exact ⟨slotPt_in hE p hs ht, slotPt_place hE p hs t', recvVal_eq hE hF hx hp hs hn ht⟩
  · rintro P - (hc | ⟨s, hs, hn, t, ht, e⟩)
    · exact Or.inl (Or.inr hc)
    · refine Or.inr ⟨(s, P.n, t), ?_, e⟩
      unfold passes
      simp only [List.mem_flatMap, List.mem_range, List.mem_map]
      exact ⟨s, hs, P.n, hn, t, ht, rfl⟩

/-- One process: a sequence of slots. -/
theorem fold_holds {L : Layout} {E : Exch} {G : Pt → V} {p : Proc} (f : (ℤ → V) → ℕ → ℤ → V) (Z : Pt → Prop)
    (S : ℕ) (hstep : ∀ s < S, ∀ C m, (∀ P, Z P → C P) → Holds (L.isize p) L.FDn G C m →
      Holds (L.isize p) L.FDn G (fun P => C P ∨ Reg L E p s P) (f m s)) {C : Pt → Prop} {m : ℤ → V}
    (hZ : ∀ P, Z P → C P) (h : Holds (L.isize p) L.FDn G C m) : ∀ k ≤ S,
      Holds (L.isize p) L.FDn G (fun P => C P ∨ ∃ s < k, Reg L E p s P)
        ((List.range k).foldl f m) := by
  intro k
  induction k with
  | zero =>
    intro _
    refine Holds.mono h ?_
    rintro P - (hc | ⟨s, hs, -⟩)
    · exact hc
    · omega
  | succ k ih =>
    intro hk
    rw [List.range_succ, List.foldl_append]
    refine (hstep k (by omega) _ _ (fun P hP => Or.inl (hZ P hP)) (ih (by omega))).mono ?_
    rintro P - (hc | ⟨s, hs, hr⟩)
    · exact Or.inl (Or.inl hc)
    · rcases Nat.lt_succ_iff_lt_or_eq.1 hs with h' | rfl
      · exact Or.inl (Or.inr ⟨s, h', hr⟩)
      · exact Or.inr hr

/-- Copying the values of a slot with one process. -/
theorem copySlot_holds {L : Layout} {E : Exch} (hE : E.Good L) (hF : L.Fits) {ldi : Proc → ℤ}
    {g : ℕ → ℕ → ℕ → ℕ → V} {xs : Proc → ℤ → V} (hx : Distributed L ldi L.ncol g xs) {p : Proc}
    (hp : L.Valid p) {s : ℕ} (hs : s < E.offs.length) (hnb : slotNbr L E p s = some p)
    {src : Region} (hlo : ∀ d, src.lo d = slo (L.isize p d) L.FDn (E.offs.getD s 0 d))
    (hhi : ∀ d, src.hi d = shi (L.isize p d) L.FDn (E.offs.getD s 0 d)) {C : Pt → Prop} {m : ℤ → V}
    (h : Holds (L.isize p) L.FDn (target L g p) C m) :
    Holds (L.isize p) L.FDn (target L g p) (fun P => C P ∨ Reg L E p s P)
      (copySlot L (ldi p) p src (E.recv (L.isize p) s) (xs p) m) := by
  have hw : src.cells = (E.recv (L.isize p) s).cells := by
    have : ∀ d, src.width d = (E.recv (L.isize p) s).width d := by
      intro d
      zify
      rw [recv_width hE p hs d]
      unfold Region.width
      rw [hlo d, hhi d, shi_eq _ _ (hE.step s hs d), add_sub_cancel_left,
        Int.toNat_of_nonneg (wid_nonneg (by unfold Layout.isize; omega) (by omega) _)]
    unfold Region.cells
    rw [this 0, this 1, this 2]
  unfold copySlot
  rw [hw]
  refine (h.fill _ _ _ (fun w => slotPt L E p s w.1 w.2) ?_).mono ?_
  · rintro ⟨n, t⟩ hm
    simp only [List.mem_flatMap, List.mem_range, List.mem_map, Prod.mk.injEq] at hm
    obtain ⟨n', hn, t', ht, rfl, rfl⟩ := hm
    refine ⟨slotPt_in hE p hs ht, slotPt_place hE p hs t', ?_⟩
    rw [← recvVal_eq hE hF hx hp hs hn ht]
    unfold recvVal
    rw [hnb]
    dsimp only
    rw [hlo 0, hlo 1, hlo 2]
  · rintro P - (hc | ⟨hn, t, ht, e⟩)
    · exact Or.inl hc
    · refine Or.inr ⟨(P.n, t), ?_, e⟩
      simp only [List.mem_flatMap, List.mem_range, List.mem_map]
      exact ⟨P.n, hn, t, ht, rfl⟩

theorem target_none {L : Layout} {E : Exch} (hE : E.Good L) (hF : L.Fits) {ldi : Proc → ℤ}
    {g : ℕ → ℕ → ℕ → ℕ → V} {xs : Proc → ℤ → V} (hx : Distributed L ldi L.ncol g xs) {p : Proc}
    (hp : L.Valid p) {s : ℕ} (hs : s < E.offs.length) (hnb : slotNbr L E p s = none) {P : Pt}
    (hP : Reg L E p s P) : target L g p P = 0 := by
  obtain ⟨hn, t, ht, e⟩ := hP
  rw [← e, ← recvVal_eq hE hF hx hp hs hn ht]
  unfold recvVal
  rw [hnb]

theorem zeroSlot_holds {L : Layout} {E : Exch} (hE : E.Good L) (hF : L.Fits) {ldi : Proc → ℤ}
    {g : ℕ → ℕ → ℕ → ℕ → V} {xs : Proc → ℤ → V} (hx : Distributed L ldi L.ncol g xs) {p : Proc}
    (hp : L.Valid p) {s : ℕ} (hs : s < E.offs.length) (hnb : slotNbr L E p s = none)
    {C : Pt → Prop} {m : ℤ → V} (h : Holds (L.isize p) L.FDn (target L g p) C m) :
    Holds (L.isize p) L.FDn (target L g p) (fun P => C P ∨ Reg L E p s P)
      (zeroSlot L p (E.recv (L.isize p) s) m) := by
  unfold zeroSlot
  refine (h.fill _ _ _ (fun w => slotPt L E p s w.1 w.2) ?_).mono ?_
  · rintro ⟨n, t⟩ hm
    simp only [List.mem_flatMap, List.mem_range, List.mem_map, Prod.mk.injEq] at hm
    obtain ⟨n', hn, t', ht, rfl, rfl⟩ := hm
    refine ⟨slotPt_in hE p hs ht, slotPt_place hE p hs t', ?_⟩
    exact (target_none hE hF hx hp hs hnb ⟨hn, t', ht, rfl⟩).symm
  · rintro P - (hc | ⟨hn, t, ht, e⟩)
    · exact Or.inl hc
    · refine Or.inr ⟨(P.n, t), ?_, e⟩
      simp only [List.mem_flatMap, List.mem_range, List.mem_map]
      exact ⟨P.n, hn, t, ht, rfl⟩

/-! ### Coverage -/

/-- Which side of the block a coordinate lies on. -/
def side (D i : ℤ) : ℤ := if i < 0 then -1 else if i < D then 0 else 1

theorem reg_of_side {L : Layout} {E : Exch} (hE : E.Good L) {p : Proc} {P : Pt}
    (hP : P.In (L.isize p) L.FDn) (hn : P.n < L.ncol) {s : ℕ} (hs : s < E.offs.length)
    (h0 : E.offs.getD s 0 0 = side (L.isize p 0) P.i)
    (h1 : E.offs.getD s 0 1 = side (L.isize p 1) P.j)
    (h2 : E.offs.getD s 0 2 = side (L.isize p 2) P.k) : Reg L E p s P := by
  obtain ⟨n, i, j, k⟩ := P
  obtain ⟨⟨a1, a2⟩, ⟨a3, a4⟩, a5, a6⟩ := hP
  dsimp only at *
  have key : ∀ (D x : ℤ), -(L.FDn : ℤ) ≤ x → x < D + L.FDn →
      0 ≤ x + L.FDn - rlo D L.FDn (side D x) ∧
      x + L.FDn - rlo D L.FDn (side D x) < wid D L.FDn (side D x) := by
    intro D x hx1 hx2
    rcases lt_or_ge x 0 with h | h
    · have e : side D x = -1 := if_pos h
      rw [e]; simp [rlo, wid]; omega
    · rcases lt_or_ge x D with h' | h'
      · have e : side D x = 0 := by unfold side; rw [if_neg (by omega), if_pos h']
        rw [e]; simp [rlo, wid]; omega
      · have e : side D x = 1 := by unfold side; rw [if_neg (by omega), if_neg (by omega)]
        rw [e]; simp [rlo, wid]; omega
  have k0 := key _ _ a1 a2
  have k1 := key _ _ a3 a4
  have k2 := key _ _ a5 a6
  have hw := recv_width hE p hs
  refine ⟨hn, ((i + L.FDn - rlo (L.isize p 0) L.FDn (side (L.isize p 0) i)).toNat,
    (j + L.FDn - rlo (L.isize p 1) L.FDn (side (L.isize p 1) j)).toNat,
    (k + L.FDn - rlo (L.isize p 2) L.FDn (side (L.isize p 2) k)).toNat), ?_, ?_⟩
  · rw [mem_cells]
    zify
    rw [hw 0, hw 1, hw 2, h0, h1, h2, Int.toNat_of_nonneg k0.1, Int.toNat_of_nonneg k1.1,
      Int.toNat_of_nonneg k2.1]
    exact ⟨k0.2, k1.2, k2.2⟩
  · unfold slotPt
    dsimp only
    rw [h0, h1, h2, Int.toNat_of_nonneg k0.1, Int.toNat_of_nonneg k1.1, Int.toNat_of_nonneg k2.1]
    congr 1 <;> ring

theorem side_mem (D i : ℤ) : side D i ∈ [-1, 0, 1] := by
  unfold side
  split_ifs <;> simp

theorem slot26 : ∀ a ∈ ([-1, 0, 1] : List ℤ), ∀ b ∈ ([-1, 0, 1] : List ℤ), ∀ c ∈ ([-1, 0, 1] : List ℤ),
    a = 0 ∧ b = 0 ∧ c = 0 ∨ ∃ s < 26, offs26.getD s 0 0 = a ∧ offs26.getD s 0 1 = b ∧
      offs26.getD s 0 2 = c := by
  decide +kernel

theorem slot6 : ∀ a ∈ ([-1, 0, 1] : List ℤ), ∀ b ∈ ([-1, 0, 1] : List ℤ), ∀ c ∈ ([-1, 0, 1] : List ℤ),
    (a = 0 ∧ b = 0 ∨ a = 0 ∧ c = 0 ∨ b = 0 ∧ c = 0) →
    a = 0 ∧ b = 0 ∧ c = 0 ∨ ∃ s < 6, offs6.getD s 0 0 = a ∧ offs6.getD s 0 1 = b ∧
      offs6.getD s 0 2 = c := by
  decide +kernel

theorem side_zero {D i : ℤ} : side D i = 0 ↔ 0 ≤ i ∧ i < D := by
  unfold side
  split_ifs <;> simp <;> omega

theorem cover26 (L : Layout) (p : Proc) {P : Pt} (hP : P.In (L.isize p) L.FDn) (hn : P.n < L.ncol) :
    Inner L p P ∨ ∃ s < 26, Reg L (exch26 L) p s P := by
  rcases slot26 _ (side_mem (L.isize p 0) P.i) _ (side_mem (L.isize p 1) P.j) _
    (side_mem (L.isize p 2) P.k) with ⟨h0, h1, h2⟩ | ⟨s, hs, h0, h1, h2⟩
  · exact Or.inl ⟨hn, side_zero.1 h0, side_zero.1 h1, side_zero.1 h2⟩
  · exact Or.inr ⟨s, hs, reg_of_side (good26 L) hP hn hs h0 h1 h2⟩

theorem cover6 (L : Layout) (p : Proc) {P : Pt} (hP : P.In (L.isize p) L.FDn) (hn : P.n < L.ncol)
    (h : (0 ≤ P.i ∧ P.i < L.isize p 0) ∧ (0 ≤ P.j ∧ P.j < L.isize p 1) ∨
      (0 ≤ P.i ∧ P.i < L.isize p 0) ∧ (0 ≤ P.k ∧ P.k < L.isize p 2) ∨
      (0 ≤ P.j ∧ P.j < L.isize p 1) ∧ (0 ≤ P.k ∧ P.k < L.isize p 2)) :
    Inner L p P ∨ ∃ s < 6, Reg L (exch6 L) p s P := by
  simp only [← side_zero] at h
  rcases slot6 _ (side_mem (L.isize p 0) P.i) _ (side_mem (L.isize p 1) P.j) _
    (side_mem (L.isize p 2) P.k) h with ⟨h0, h1, h2⟩ | ⟨s, hs, h0, h1, h2⟩
  · exact Or.inl ⟨hn, side_zero.1 h0, side_zero.1 h1, side_zero.1 h2⟩
  · exact Or.inr ⟨s, hs, reg_of_side (good6 L) hP hn hs h0 h1 h2⟩

/-- The neighbour of a slot when there is one process. -/
theorem nbr_one {L : Layout} (h1 : ∀ d, L.dims d = 1) {p : Proc} (hp : L.Valid p) {e : Fin 3 → ℤ}
    (he : ∀ d, IsStep (e d)) :
    nbr L p e = if (∀ d, e d = 0 ∨ L.per d = true) then some p else none := by
  have key : ∀ d, axisStep (L.dims d) (L.per d) (p d) (e d) =
      if e d = 0 ∨ L.per d = true then some (p d) else none := by
    intro d
    have h2 : p d = 0 := by have := hp d; rw [h1 d] at this; omega
    rw [h1 d, h2]
    rcases he d with h | h | h <;> rw [h] <;> cases L.per d <;> simp [axisStep]
  split_ifs with h
  · rw [nbr_some]
    intro d
    rw [key d, if_pos (h d)]
  · by_contra hc
    obtain ⟨q, hq⟩ := Option.ne_none_iff_exists'.1 hc
    apply h
    intro d
    have := nbr_some.1 hq d
    rw [key d] at this
    by_contra hd
    rw [if_neg hd] at this
    cases this

end Sparc.Halo

import Mathlib.Logic.Function.Basic
import Mathlib.Data.List.Basic
import Mathlib.Data.List.Nodup
import Mathlib.Tactic.Ring
import Mathlib.Tactic.Linarith
import Mathlib.Algebra.BigOperators.Group.List.Basic

/-!
# Nested loops over a block of a three-dimensional grid

Shared by the models of the stencil kernels, the halo exchange and the redistribution of grid
functions: the iteration order of `for k { for j { for i { .. } } }` as a list, and the effect of
assignments made along such a list.
-/

namespace Sparc.Loop

/-- The triples `(i, j, k)` visited by `for k < nz { for j < ny { for i < nx } }`, in order. -/
def box (nx ny nz : ℕ) : List (ℕ × ℕ × ℕ) :=
  (List.range nz).flatMap fun k => (List.range ny).flatMap fun j =>
    (List.range nx).map fun i => (i, j, k)

/-- The assignments `m[idx t] = val t` for `t` along the list. -/
def fill {τ α : Type} {V : Type} [DecidableEq α] (l : List τ) (idx : τ → α) (val : τ → V)
    (m : α → V) : α → V :=
  l.foldl (fun m t => Function.update m (idx t) (val t)) m

@[simp] theorem mem_box {nx ny nz : ℕ} {t : ℕ × ℕ × ℕ} :
    t ∈ box nx ny nz ↔ t.1 < nx ∧ t.2.1 < ny ∧ t.2.2 < nz := by
  obtain ⟨i, j, k⟩ := t
  simp only [box, List.mem_flatMap, List.mem_range, List.mem_map, Prod.mk.injEq]
  constructor
  · rintro ⟨k', hk, j', hj, i', hi, rfl, rfl, rfl⟩
    exact ⟨hi, hj, hk⟩
  · rintro ⟨hi, hj, hk⟩
    exact ⟨k, hk, j, hj, i, hi, rfl, rfl, rfl⟩

theorem fill_other {τ α V : Type} [DecidableEq α] {l : List τ} {idx : τ → α} {val : τ → V}
    {m : α → V} {x : α} (h : ∀ t ∈ l, idx t ≠ x) : fill l idx val m x = m x := by
  unfold fill
  induction l generalizing m with
  | nil => rfl
  | cons a l ih =>
    rw [List.foldl_cons, ih fun t ht => h t (List.mem_cons_of_mem _ ht),
      Function.update_of_ne (h a List.mem_cons_self).symm]

/-- If every assignment to the place of `t` stores the same value, that value is there at the
end. -/
theorem fill_at {τ α V : Type} [DecidableEq α] {l : List τ} {idx : τ → α} {val : τ → V}
    {m : α → V} {t : τ} (ht : t ∈ l) (h : ∀ s ∈ l, idx s = idx t → val s = val t) :
    fill l idx val m (idx t) = val t := by
  have aux : ∀ (l : List τ) (m : α → V), (∃ s ∈ l, idx s = idx t) →
      (∀ s ∈ l, idx s = idx t → val s = val t) → fill l idx val m (idx t) = val t := by
    intro l
    induction l with
    | nil => rintro m ⟨s, hs, -⟩; cases hs
    | cons b l ihl =>
      intro m hex hall
      have e : fill (b :: l) idx val m = fill l idx val (Function.update m (idx b) (val b)) := rfl
      rw [e]
      by_cases h' : ∃ s ∈ l, idx s = idx t
      · exact ihl _ h' fun s hs => hall s (List.mem_cons_of_mem _ hs)
      · push Not at h'
        rw [fill_other h']
        obtain ⟨s, hs, he⟩ := hex
        rcases List.mem_cons.1 hs with rfl | hs
        · rw [he, Function.update_self, hall s List.mem_cons_self he]
        · exact absurd he (h' s hs)
  exact aux l m ⟨t, ht, rfl⟩ h

theorem length_box (nx ny nz : ℕ) : (box nx ny nz).length = nx * ny * nz := by
  simp [box, List.length_flatMap]
  ring

/-- Splitting a flat index. -/
theorem flat_inj {n i i' a b : ℕ} (hi : i < n) (hi' : i' < n) (h : i + a * n = i' + b * n) :
    i = i' ∧ a = b := by
  have h1 : (i + a * n) % n = i := by rw [Nat.add_mul_mod_self_right, Nat.mod_eq_of_lt hi]
  have h2 : (i' + b * n) % n = i' := by rw [Nat.add_mul_mod_self_right, Nat.mod_eq_of_lt hi']
  have h3 : i = i' := by rw [← h1, ← h2, h]
  subst h3
  have : a * n = b * n := by omega
  exact ⟨rfl, Nat.eq_of_mul_eq_mul_right (by omega) this⟩

/-- The flat index `i + j*nx + k*nx*ny` determines the triple. -/
theorem flat3_inj {nx ny i j k i' j' k' : ℕ} (hi : i < nx) (hi' : i' < nx) (hj : j < ny)
    (hj' : j' < ny) (h : i + j * nx + k * (nx * ny) = i' + j' * nx + k' * (nx * ny)) :
    i = i' ∧ j = j' ∧ k = k' := by
  have h1 : i + (j + k * ny) * nx = i' + (j' + k' * ny) * nx := by
    calc i + (j + k * ny) * nx = i + j * nx + k * (nx * ny) := by ring
      _ = i' + j' * nx + k' * (nx * ny) := h
      _ = i' + (j' + k' * ny) * nx := by ring
  obtain ⟨rfl, h2⟩ := flat_inj hi hi' h1
  obtain ⟨rfl, rfl⟩ := flat_inj hj hj' h2
  exact ⟨rfl, rfl, rfl⟩

theorem flat3_lt {nx ny nz i j k : ℕ} (hi : i < nx) (hj : j < ny) (hk : k < nz) :
    i + j * nx + k * (nx * ny) < nx * ny * nz := by
  have h1 : i + j * nx < nx * ny := by
    calc i + j * nx < nx + j * nx := by omega
      _ = (j + 1) * nx := by ring
      _ ≤ ny * nx := Nat.mul_le_mul_right _ hj
      _ = nx * ny := by ring
  calc i + j * nx + k * (nx * ny) < nx * ny + k * (nx * ny) := by omega
    _ = (k + 1) * (nx * ny) := by ring
    _ ≤ nz * (nx * ny) := Nat.mul_le_mul_right _ hk
    _ = nx * ny * nz := by ring

theorem getElem?_flatMap_range {α : Type} (f : ℕ → List α) (L n : ℕ) (hL : ∀ k, (f k).length = L)
    {a k : ℕ} (ha : a < L) (hk : k < n) :
    ((List.range n).flatMap f)[a + k * L]? = (f k)[a]? := by
  induction n with
  | zero => omega
  | succ n ih =>
    rw [List.range_succ, List.flatMap_append]
    have hlen : ((List.range n).flatMap f).length = n * L := by
      simp [List.length_flatMap, hL]
    rcases Nat.lt_succ_iff_lt_or_eq.1 hk with h | rfl
    · rw [List.getElem?_append_left, ih h]
      rw [hlen]
      calc a + k * L < (k + 1) * L := by rw [Nat.add_mul]; omega
        _ ≤ n * L := Nat.mul_le_mul_right _ h
    · rw [List.getElem?_append_right (by rw [hlen]; omega), hlen]
      simp

/-- The `(i + j*nx + k*nx*ny)`-th visited triple is `(i, j, k)`. -/
theorem getElem?_box {nx ny nz i j k : ℕ} (hi : i < nx) (hj : j < ny) (hk : k < nz) :
    (box nx ny nz)[i + j * nx + k * (nx * ny)]? = some (i, j, k) := by
  unfold box
  rw [getElem?_flatMap_range _ (nx * ny) nz (fun k => by
    simp [List.length_flatMap]; ring) (by
      calc i + j * nx < nx + j * nx := by omega
        _ = (j + 1) * nx := by ring
        _ ≤ ny * nx := Nat.mul_le_mul_right _ hj
        _ = nx * ny := by ring) hk]
  rw [getElem?_flatMap_range _ nx ny (fun j => by simp) hi hj]
  simp [hi]

end Sparc.Loop

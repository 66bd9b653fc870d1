import Verif.Tac
import Verif.Density.Model
import Verif.Groups.Props
import Mathlib.Algebra.BigOperators.Ring.Finset
import Mathlib.Algebra.BigOperators.Group.Finset.Sigma

/-! # Electron density: lemmas about the loops and the reductions -/

namespace Sparc.Density

open Finset

/-- Sums over the members of the groups of a partition are sums over all items. -/
theorem sum_cover {M : Type} [AddCommMonoid M] {N np : ℕ} {start count : ℕ → ℕ}
    (h : Groups.IsCover N np start count) (f : ℕ → M) :
    ∑ g ∈ range np, ∑ j ∈ range (count g), f (start g + j) = ∑ i ∈ range N, f i := by
  rw [Finset.sum_sigma']
  refine Finset.sum_bij (fun x _ => start x.1 + x.2) ?_ ?_ ?_ ?_
  · intro x hx
    simp only [mem_sigma, mem_range] at hx ⊢
    exact h.inside x.1 _ hx.1 (by omega) (by omega)
  · intro x hx y hy he
    simp only [mem_sigma, mem_range] at hx hy he
    obtain ⟨g, -, hu⟩ := h.owner (start x.1 + x.2) (h.inside x.1 _ hx.1 (by omega) (by omega))
    have h1 := hu x.1 ⟨hx.1, by omega, by omega⟩
    have h2 := hu y.1 ⟨hy.1, by omega, by omega⟩
    obtain ⟨x1, x2⟩ := x
    obtain ⟨y1, y2⟩ := y
    simp only at *
    subst h1; subst h2
    have : x2 = y2 := by omega
    subst this; rfl
  · intro i hi
    obtain ⟨g, ⟨h1, h2, h3⟩, -⟩ := h.owner i (by simpa using hi)
    exact ⟨⟨g, i - start g⟩, by simp only [mem_sigma, mem_range]; omega, by
      simp only; omega⟩
  · intro x _; rfl

/-- A counted loop whose body adds `A i count` to the memory and advances `count` by `L`. -/
theorem loop_sum (body : St → ℕ → St) (A : ℕ → ℕ → ℕ → ℝ) (L m : ℕ)
    (h : ∀ s i, body s i = (fun j => s.1 j + A i s.2 j, s.2 + L)) (s : St) :
    (List.range m).foldl body s =
      (fun j => s.1 j + ∑ i ∈ range m, A i (s.2 + i * L) j, s.2 + m * L) := by
  induction m with
  | zero => simp
  | succ m ih =>
    rw [List.range_succ, List.foldl_append, ih, List.foldl_cons, List.foldl_nil, h]
    refine Prod.ext ?_ ?_
    · funext j
      simp only [sum_range_succ]
      ring
    · simp only; ring

theorem loop_sum' (body : St → ℕ → St) (A : ℕ → ℕ → ℕ → ℝ) (L a m : ℕ)
    (h : ∀ s i, body s i = (fun j => s.1 j + A i s.2 j, s.2 + L)) (s : St) :
    (List.range' a m).foldl body s =
      (fun j => s.1 j + ∑ i ∈ range m, A (a + i) (s.2 + i * L) j, s.2 + m * L) := by
  rw [List.range'_eq_map_range, List.foldl_map]
  exact loop_sum _ (fun i => A (a + i)) L m (fun s i => h s _) s

/-- Squared modulus of the orbital entry at `c`. -/
noncomputable def sq (p : Proc) (c : ℕ) : ℝ :=
  if p.gamma then p.Xorb c * p.Xorb c
  else (p.XorbKpt c).re * (p.XorbKpt c).re + (p.XorbKpt c).im * (p.XorbKpt c).im

theorem addAt_eq (a : ℕ → ℝ) (j : ℕ) (v : ℝ) :
    addAt a j v = fun i => a i + if i = j then v else 0 := by
  funext i
  unfold addAt
  by_cases h : i = j
  · subst h; simp
  · simp [Function.update_of_ne h, h]

theorem rhoI_eq (p : Proc) (D sg : ℕ) (g : ℝ) (s : St) :
    rhoI p D sg g s =
      (fun j => s.1 j + ∑ i ∈ range D, (if j = i + sg * D then g * sq p (s.2 + i) else 0), s.2 + D) := by
  have := loop_sum (fun s i =>
    (addAt s.1 (i + sg * D)
      (if p.gamma then g * p.Xorb s.2 * p.Xorb s.2
       else g * ((p.XorbKpt s.2).re * (p.XorbKpt s.2).re + (p.XorbKpt s.2).im * (p.XorbKpt s.2).im)),
     s.2 + 1)) (fun i c j => if j = i + sg * D then g * sq p c else 0) 1 D
    (fun s i => by
      rw [addAt_eq]
      refine Prod.ext ?_ rfl
      funext j
      simp only [sq]
      congr 2
      split
      · ring
      · rfl) s
  unfold rhoI
  rw [this]
  simp

/-- The weight `g_nk` used for local spinor `sp`, local k-point `k`, band `n`. -/
noncomputable def gnk (p : Proc) (sp k n : ℕ) : ℝ :=
  p.occfac * (p.wts k / p.Nk) * p.occ (k * p.Ns + (if p.spinTyp = 1 then sp * p.Ns * p.nk else 0) + n)

theorem rhoSp_eq (p : Proc) (D k n : ℕ) (s : St) :
    rhoSp p D k n s =
      (fun j => s.1 j + ∑ sp ∈ range p.nsp, ∑ i ∈ range D,
        (if j = i + (sp + p.spStart) * D then gnk p sp k n * sq p (s.2 + sp * D + i) else 0),
       s.2 + p.nsp * D) := by
  unfold rhoSp
  rw [loop_sum _ (fun sp c j => ∑ i ∈ range D,
    (if j = i + (sp + p.spStart) * D then gnk p sp k n * sq p (c + i) else 0)) D p.nsp
    (fun s sp => by
      dsimp only
      rw [rhoI_eq]; rfl) s]

theorem rhoLocal_eq (p : Proc) (D j : ℕ) :
    rhoLocal p D j = ∑ k ∈ range p.nk, ∑ n ∈ range p.nb, ∑ sp ∈ range p.nsp, ∑ i ∈ range D,
      (if j = i + (sp + p.spStart) * D then
        gnk p sp k (p.nstart + n) * sq p (((k * p.nb + n) * p.nsp + sp) * D + i) else 0) := by
  unfold rhoLocal
  rw [loop_sum _ (fun k c j => ∑ n ∈ range p.nb, ∑ sp ∈ range p.nsp, ∑ i ∈ range D,
    (if j = i + (sp + p.spStart) * D then
        gnk p sp k (p.nstart + n) * sq p (c + n * (p.nsp * D) + sp * D + i) else 0))
    (p.nb * (p.nsp * D)) p.nk (fun s k => by
      rw [loop_sum' _ (fun n c j => ∑ sp ∈ range p.nsp, ∑ i ∈ range D,
        (if j = i + (sp + p.spStart) * D then gnk p sp k n * sq p (c + sp * D + i) else 0))
        (p.nsp * D) p.nstart p.nb (fun s n => rhoSp_eq p D k n s) s])]
  simp only [zero_add]
  refine sum_congr rfl fun k _ => sum_congr rfl fun n _ => sum_congr rfl fun sp _ =>
    sum_congr rfl fun i _ => ?_
  rw [show k * (p.nb * (p.nsp * D)) + n * (p.nsp * D) + sp * D + i =
    ((k * p.nb + n) * p.nsp + sp) * D + i by ring]

theorem index_inj {D i i' a b : ℕ} (hi : i < D) (hi' : i' < D) :
    i + a * D = i' + b * D ↔ i = i' ∧ a = b := by
  constructor
  · intro h
    have h1 : (i + a * D) % D = i := by rw [Nat.add_mul_mod_self_right, Nat.mod_eq_of_lt hi]
    have h2 : (i' + b * D) % D = i' := by rw [Nat.add_mul_mod_self_right, Nat.mod_eq_of_lt hi']
    have h3 : i = i' := by rw [← h1, ← h2, h]
    subst h3
    have : a * D = b * D := by omega
    exact ⟨rfl, Nat.eq_of_mul_eq_mul_right (by omega) this⟩
  · rintro ⟨rfl, rfl⟩; rfl

/-- Value of the local density at point `i` of spinor `sg`. -/
theorem rhoLocal_at (p : Proc) {D i : ℕ} (hi : i < D) (sg : ℕ) :
    rhoLocal p D (i + sg * D) = ∑ sp ∈ range p.nsp, (if p.spStart + sp = sg then
      ∑ k ∈ range p.nk, ∑ n ∈ range p.nb,
        gnk p sp k (p.nstart + n) * sq p (((k * p.nb + n) * p.nsp + sp) * D + i) else 0) := by
  rw [rhoLocal_eq]
  have : ∀ k n, ∑ sp ∈ range p.nsp, ∑ i' ∈ range D,
      (if i + sg * D = i' + (sp + p.spStart) * D then
        gnk p sp k (p.nstart + n) * sq p (((k * p.nb + n) * p.nsp + sp) * D + i') else 0) =
      ∑ sp ∈ range p.nsp, if p.spStart + sp = sg then
        gnk p sp k (p.nstart + n) * sq p (((k * p.nb + n) * p.nsp + sp) * D + i) else 0 := by
    intro k n
    refine sum_congr rfl fun sp _ => ?_
    rw [sum_eq_single i]
    · have : (i + sg * D = i + (sp + p.spStart) * D) ↔ p.spStart + sp = sg := by
        rw [index_inj hi hi]; omega
      simp only [this]
    · intro i' hi' hne
      rw [if_neg]
      rw [index_inj hi (by simpa using hi')]
      exact fun h => hne h.1.symm
    · intro h; exact absurd (mem_range.2 hi) h
  simp only [this]
  have h2 : ∀ k, ∑ n ∈ range p.nb, ∑ sp ∈ range p.nsp, (if p.spStart + sp = sg then
        gnk p sp k (p.nstart + n) * sq p (((k * p.nb + n) * p.nsp + sp) * D + i) else 0) =
      ∑ sp ∈ range p.nsp, ∑ n ∈ range p.nb, (if p.spStart + sp = sg then
        gnk p sp k (p.nstart + n) * sq p (((k * p.nb + n) * p.nsp + sp) * D + i) else 0) :=
    fun k => sum_comm
  simp only [h2]
  rw [sum_comm]
  refine sum_congr rfl fun sp _ => ?_
  split
  · rfl
  · simp

theorem magI_eq (p : Proc) (D : ℕ) (g : ℝ) (s : St) :
    magI p D g s =
      (fun j => s.1 j + ∑ i ∈ range D,
        ((if j = i then 2 * g * (p.XorbKpt (s.2 + i) * (starRingEnd ℂ) (p.XorbKpt (s.2 + i + D))).re else 0) +
         (if j = i + D then -(2 * g * (p.XorbKpt (s.2 + i) * (starRingEnd ℂ) (p.XorbKpt (s.2 + i + D))).im) else 0)),
       s.2 + 2 * D) := by
  unfold magI
  dsimp only
  rw [loop_sum _ (fun i c j =>
    (if j = i then 2 * g * (p.XorbKpt c * (starRingEnd ℂ) (p.XorbKpt (c + D))).re else 0) +
    (if j = i + D then -(2 * g * (p.XorbKpt c * (starRingEnd ℂ) (p.XorbKpt (c + D))).im) else 0)) 1 D
    (fun s i => by
      rw [addAt_eq, addAt_eq]
      refine Prod.ext ?_ rfl
      funext j
      simp only
      ring) s]
  refine Prod.ext ?_ ?_
  · simp
  · simp only; ring

/-- The weight used by `Calculate_Magx_Magy_psi`. -/
noncomputable def gmag (p : Proc) (k n : ℕ) : ℝ := p.occfac * (p.wts k / p.Nk) * p.occ (n + k * p.Ns)

theorem magLocal_eq (p : Proc) (D j : ℕ) :
    magLocal p D j = ∑ k ∈ range p.nk, ∑ n ∈ range p.nb, ∑ i ∈ range D,
      ((if j = i then 2 * gmag p k (p.nstart + n) *
          (p.XorbKpt ((k * p.nb + n) * 2 * D + i) * (starRingEnd ℂ) (p.XorbKpt (((k * p.nb + n) * 2 + 1) * D + i))).re else 0) +
       (if j = i + D then -(2 * gmag p k (p.nstart + n) *
          (p.XorbKpt ((k * p.nb + n) * 2 * D + i) * (starRingEnd ℂ) (p.XorbKpt (((k * p.nb + n) * 2 + 1) * D + i))).im) else 0)) := by
  unfold magLocal
  rw [loop_sum _ (fun k c j => ∑ n ∈ range p.nb, ∑ i ∈ range D,
      ((if j = i then 2 * gmag p k (p.nstart + n) *
          (p.XorbKpt (c + n * (2 * D) + i) * (starRingEnd ℂ) (p.XorbKpt (c + n * (2 * D) + i + D))).re else 0) +
       (if j = i + D then -(2 * gmag p k (p.nstart + n) *
          (p.XorbKpt (c + n * (2 * D) + i) * (starRingEnd ℂ) (p.XorbKpt (c + n * (2 * D) + i + D))).im) else 0)))
    (p.nb * (2 * D)) p.nk (fun s k => by
      rw [loop_sum' _ (fun n c j => ∑ i ∈ range D,
      ((if j = i then 2 * gmag p k n *
          (p.XorbKpt (c + i) * (starRingEnd ℂ) (p.XorbKpt (c + i + D))).re else 0) +
       (if j = i + D then -(2 * gmag p k n *
          (p.XorbKpt (c + i) * (starRingEnd ℂ) (p.XorbKpt (c + i + D))).im) else 0)))
        (2 * D) p.nstart p.nb (fun s n => by dsimp only; rw [magI_eq]; rfl) s])]
  simp only [zero_add]
  refine sum_congr rfl fun k _ => sum_congr rfl fun n _ => sum_congr rfl fun i _ => ?_
  rw [show k * (p.nb * (2 * D)) + n * (2 * D) + i = (k * p.nb + n) * 2 * D + i by ring,
    show (k * p.nb + n) * 2 * D + i + D = ((k * p.nb + n) * 2 + 1) * D + i by ring]

theorem magLocal_x (p : Proc) {D i : ℕ} (hi : i < D) :
    magLocal p D i = ∑ k ∈ range p.nk, ∑ n ∈ range p.nb, 2 * gmag p k (p.nstart + n) *
      (p.XorbKpt ((k * p.nb + n) * 2 * D + i) * (starRingEnd ℂ) (p.XorbKpt (((k * p.nb + n) * 2 + 1) * D + i))).re := by
  rw [magLocal_eq]
  refine sum_congr rfl fun k _ => sum_congr rfl fun n _ => ?_
  rw [sum_eq_single i]
  · rw [if_pos rfl, if_neg (by omega), add_zero]
  · intro i' _ hne
    rw [if_neg (fun h => hne h.symm), if_neg (by omega), add_zero]
  · intro h; exact absurd (mem_range.2 hi) h

theorem magLocal_y (p : Proc) {D i : ℕ} (hi : i < D) :
    magLocal p D (i + D) = ∑ k ∈ range p.nk, ∑ n ∈ range p.nb, -(2 * gmag p k (p.nstart + n) *
      (p.XorbKpt ((k * p.nb + n) * 2 * D + i) * (starRingEnd ℂ) (p.XorbKpt (((k * p.nb + n) * 2 + 1) * D + i))).im) := by
  rw [magLocal_eq]
  refine sum_congr rfl fun k _ => sum_congr rfl fun n _ => ?_
  rw [sum_eq_single i]
  · rw [if_neg (by omega), if_pos rfl, zero_add]
  · intro i' hi' hne
    have := mem_range.1 hi'
    rw [if_neg (by omega), if_neg (by omega), add_zero]
  · intro h; exact absurd (mem_range.2 hi) h

/-- The three reductions leave the sum over all groups on every process. -/
theorem reduce_eq (npspin npkpt npband : ℕ) (h1 : 0 < npspin) (h2 : 0 < npkpt) (h3 : 0 < npband)
    (loc : ℕ → ℕ → ℕ → ℕ → ℝ) {a b c : ℕ} (ha : a < npspin) (hb : b < npkpt) (j : ℕ) :
    reduce npspin npkpt npband loc a b c j =
      ∑ a ∈ range npspin, ∑ b ∈ range npkpt, ∑ c ∈ range npband, loc a b c j := by
  unfold reduce
  dsimp only
  rw [if_pos h3.ne']
  have e1 : ∀ b c, (if npspin > 1 then ∑ a' ∈ range npspin, loc a' b c j else loc a b c j) =
      ∑ a' ∈ range npspin, loc a' b c j := by
    intro b c
    split
    · rfl
    · have : npspin = 1 := by omega
      subst this
      have : a = 0 := by omega
      subst this; simp
  simp only [e1]
  have e2 : ∀ c, (if npkpt > 1 then ∑ b' ∈ range npkpt, ∑ a' ∈ range npspin, loc a' b' c j
      else ∑ a' ∈ range npspin, loc a' b c j) = ∑ b' ∈ range npkpt, ∑ a' ∈ range npspin, loc a' b' c j := by
    intro c
    split
    · rfl
    · have : npkpt = 1 := by omega
      subst this
      have : b = 0 := by omega
      subst this; simp
  simp only [e2]
  rw [sum_comm]
  have : ∀ b, ∑ c ∈ range npband, ∑ a ∈ range npspin, loc a b c j =
    ∑ a ∈ range npspin, ∑ c ∈ range npband, loc a b c j := fun b => sum_comm
  simp only [this]
  rw [sum_comm]

/-- Cover of spinors by spin groups. -/
theorem spinor_cover {N np : ℕ} (hnp : 0 < np) (hd : np ∣ N) :
    Groups.IsCover N np (Groups.spinStart N np) (fun _ => Groups.spinCount N np) := by
  obtain ⟨q, rfl⟩ := hd
  have hq : Groups.spinCount (np * q) np = q := Nat.mul_div_cancel_left q hnp
  refine Groups.cover_of_consecutive _ _ _ _ ?_ ?_ ?_ hnp
  · intro _; simp [Groups.spinStart]
  · intro g _; unfold Groups.spinStart; ring
  · intro _
    unfold Groups.spinStart
    rw [hq]
    obtain ⟨m, rfl⟩ : ∃ m, np = m + 1 := ⟨np - 1, by omega⟩
    simp only [Nat.add_sub_cancel]; ring

end Sparc.Density

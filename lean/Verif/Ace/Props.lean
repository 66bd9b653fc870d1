import Verif.Ace.Comp
import Mathlib.Algebra.BigOperators.Field
import Mathlib.Analysis.SpecialFunctions.Sqrt

/-! # C65, C66: the compressed exchange operator -/

open Finset

namespace Sparc.Ace

variable {I : Inp} {Psi : ℕ → Col}

/-! ## C65: the vectors before compression -/

/-- **C65 (vectors).** For every number of processes and bands, every batch size and every content of
the storages: each process ends up with `Xi[a] = - Σ_b occ_b ψ_b (V ψ_b ψ_a) / dV` over all occupied
bands `b`. In particular no message is too long and no column outside the array is written. -/
theorem xi_exact (h : I.Ok Psi) :
    ∃ Xi, I.solvingForXi = some Xi ∧ ∀ a < I.Nocc, ∀ k,
      Xi a k = - ∑ b ∈ (range I.Ns).filter (fun b => tol < I.occ b),
        I.occ b * Psi b k * I.pois (fun k => Psi b k * Psi a k) k / I.dV := by
  obtain ⟨Xi, e, hv⟩ := solvingForXi_ok h
  refine ⟨Xi, e, fun a ha k => ?_⟩
  rw [hv a ha k, sum_filter, ← sum_neg_distrib]
  refine sum_congr rfl fun b _ => ?_
  unfold Inp.G
  split_ifs <;> simp

/-- **C65 (distribution).** Two runs that differ in the number of processes, the batch size and the
contents of the storages give the same vectors. -/
theorem xi_same {J : Inp} (h : I.Ok Psi) (h' : J.Ok Psi) (hN : I.Ns = J.Ns) (hO : I.Nocc = J.Nocc)
    (ho : I.occ = J.occ) (hp : I.pois = J.pois) (hd : I.dV = J.dV) :
    ∃ X Y, I.solvingForXi = some X ∧ J.solvingForXi = some Y ∧ ∀ a < I.Nocc, X a = Y a := by
  obtain ⟨X, e, hv⟩ := xi_exact h
  obtain ⟨Y, e', hv'⟩ := xi_exact h'
  refine ⟨X, Y, e, e', fun a ha => ?_⟩
  funext k
  rw [hv a ha k, hv' a (hO ▸ ha) k, hN, ho, hp, hd]

theorem count_eq (n : ℕ) (occ : ℕ → ℝ) (m : ℕ) :
    (List.range n).foldl (fun n i => if tol < occ i then n + 1 else n) m =
      m + ((range n).filter fun i => tol < occ i).card := by
  induction n with
  | zero => simp
  | succ n ih =>
    rw [List.range_succ, List.foldl_append, ih, range_add_one, filter_insert]
    simp only [List.foldl_cons, List.foldl_nil]
    split_ifs
    · rw [card_insert_of_notMem (by simp)]; omega
    · rfl

/-- **C65 (columns).** The number of columns computed in `allocate_ACE` has room for every occupied
band and is at most the number of bands. -/
theorem nstatesOcc_room (Ns : ℕ) (occ : ℕ → ℝ) (extra : ℕ)
    (desc : ∀ i j, i ≤ j → j < Ns → occ j ≤ occ i) :
    nstatesOcc Ns occ extra ≤ Ns ∧ ∀ i < Ns, tol < occ i → i < nstatesOcc Ns occ extra := by
  unfold nstatesOcc
  rw [count_eq]
  refine ⟨min_le_right _ _, fun i hi ho => ?_⟩
  have hsub : range (i + 1) ⊆ (range Ns).filter fun i => tol < occ i := by
    intro j hj
    have hj := mem_range.1 hj
    exact mem_filter.2 ⟨mem_range.2 (by omega), lt_of_lt_of_le ho (desc j i (by omega) hi)⟩
  have := card_le_card hsub
  rw [card_range] at this
  dsimp only
  omega

/-! ## C66: the compression -/

/-- The Poisson solver is self-adjoint on the grid. -/
def Inp.SelfAdj (I : Inp) : Prop := ∀ u v : Col,
  ∑ k ∈ range I.Nd, u k * I.pois v k = ∑ k ∈ range I.Nd, v k * I.pois u k

/-- `-(a, b)` entry of the exchange matrix. -/
noncomputable def Inp.K (I : Inp) (Psi : ℕ → Col) (a b : ℕ) : ℝ :=
  ∑ c ∈ (range I.Ns).filter (fun c => tol < I.occ c), I.occ c / I.dV *
    ∑ k ∈ range I.Nd, Psi c k * Psi b k * I.pois (fun k => Psi c k * Psi a k) k

theorem K_symm (hs : I.SelfAdj) (a b : ℕ) : I.K Psi a b = I.K Psi b a := by
  unfold Inp.K
  refine sum_congr rfl fun c _ => ?_
  rw [hs (fun k => Psi c k * Psi b k) (fun k => Psi c k * Psi a k)]

theorem K_eq {W : ℕ → Col} {a : ℕ} (hW : ∀ k,
      W a k = - ∑ b ∈ (range I.Ns).filter (fun b => tol < I.occ b),
        I.occ b * Psi b k * I.pois (fun k => Psi b k * Psi a k) k / I.dV) (b : ℕ) :
    - ∑ k ∈ range I.Nd, W a k * Psi b k = I.K Psi a b := by
  unfold Inp.K
  simp only [hW, neg_mul, sum_neg_distrib, neg_neg, sum_mul, mul_sum]
  rw [sum_comm]
  exact sum_congr rfl fun c _ => sum_congr rfl fun k _ => by ring

/-- A symmetric positive definite block of order `n`. -/
structure PosDef (n : ℕ) (A : ℕ → Col) : Prop where
  symm : ∀ a b, a < n → b < n → A a b = A b a
  pos : ∀ x : ℕ → ℝ, (∃ a < n, x a ≠ 0) → 0 < ∑ a ∈ range n, ∑ b ∈ range n, x a * A a b * x b

/-- The facts about the result of `ACE_operator` that the theorems below use. -/
theorem ace_facts (h : I.Ok Psi) (hs : I.SelfAdj) (potrf : (ℕ → Col) → ℕ → Col)
    (hc : ∀ A, PosDef I.Nocc A → IsChol I.Nocc A (potrf A)) (hpd : PosDef I.Nocc (I.K Psi)) :
    ∃ V U : ℕ → Col, I.aceOperator potrf = some V ∧
      (∀ a < I.Nocc, ∀ c < I.Nocc, ∑ k ∈ range I.Nd, V c k * Psi a k = if c ≤ a then - U a c else 0) ∧
      (∀ a < I.Nocc, ∑ c ∈ range (a + 1), U a c * U a c = I.K Psi a a) ∧
      ∀ a < I.Nocc, ∀ k, ∑ c ∈ range (a + 1), V c k * U a c =
        - ∑ b ∈ (range I.Ns).filter (fun b => tol < I.occ b),
          I.occ b * Psi b k * I.pois (fun k => Psi b k * Psi a k) k / I.dV := by
  obtain ⟨W, e, hW⟩ := xi_exact h
  set A : ℕ → Col := fun b a => -1 * I.matM W b a with hA
  have hA' : ∀ a b, a < I.Nocc → b < I.Nocc → A b a = I.K Psi a b := by
    intro a b ha hb
    rw [hA]; dsimp only
    rw [matM_at h W hb a, ← K_eq (hW a ha) b]; ring
  have hU := hc A ⟨fun a b ha hb => by rw [hA' b a hb ha, hA' a b ha hb, hpd.symm a b ha hb],
    fun x hx => by
      have := hpd.pos x hx
      rw [sum_comm] at this
      rw [show ∑ a ∈ range I.Nocc, ∑ b ∈ range I.Nocc, x a * A a b * x b =
        ∑ a ∈ range I.Nocc, ∑ b ∈ range I.Nocc, x b * I.K Psi b a * x a from
        sum_congr rfl fun a ha => sum_congr rfl fun b hb => by
          rw [hA' b a (mem_range.1 hb) (mem_range.1 ha)]; ring]
      exact this⟩
  have hV := trsm_ok I.Nocc (potrf A) W hU.ne
  refine ⟨trsm I.Nocc (potrf A) W, potrf A, ?_, ?_, ?_, ?_⟩
  · unfold Inp.aceOperator Inp.calculateACE; rw [e]; rfl
  · intro a ha
    exact comp_coeff (n := I.Nocc) (Nd := I.Nd) (W := W) (A := A) Psi
      (fun a b ha hb => by rw [hA' a b ha hb, K_eq (hW a ha) b])
      (fun a b ha hb => by rw [hA' a b ha hb, hA' b a hb ha, K_symm hs]) hU hV ha
  · intro a ha
    rw [hU.prod a a le_rfl ha, hA' a a ha ha]
  · intro a ha k
    rw [hV a ha k, hW a ha k]

theorem applyACE_eq (frac : ℝ) (V : ℕ → Col) (X Hx : Col) (k : ℕ) :
    I.applyACE frac V X Hx k =
      Hx k - frac * ∑ a ∈ range I.Nocc, V a k * ∑ k' ∈ range I.Nd, V a k' * X k' := by
  unfold Inp.applyACE
  dsimp only
  rw [sum_range_list]
  simp only [dot_eq]
  ring

/-- **C66 (direct operator).** The exchange operator applied directly to a block of any number of
columns, in batches of any size: `Hx_i ← Hx_i - α Σ_j occ_j ψ_j V(ψ_j X_i) / dV`. -/
theorem exx_exact (hb : I.BatchOk) (frac : ℝ) (outer : ℕ → Col) (ncol : ℕ) (X Hx : ℕ → Col) :
    ∃ H, I.applyExx frac outer ncol X Hx = some H ∧ (∀ i < ncol, ∀ k, H i k = Hx i k -
      frac * ∑ b ∈ (range I.Ns).filter (fun b => tol < I.occ b),
        I.occ b * outer b k * I.pois (fun k => outer b k * X i k) k / I.dV) ∧
      ∀ i, ncol ≤ i → H i = Hx i := by
  unfold Inp.applyExx
  dsimp only
  rw [batches_eq I hb]
  obtain ⟨H, e, hv⟩ := foldlM_add ((List.range ncol).flatMap fun i => (List.range I.Ns).flatMap fun j =>
    if tol < I.occ j then [(i, j)] else []) (fun Hx p =>
      some (Function.update Hx p.1 fun k => Hx p.1 k - I.occ p.2 * frac * outer p.2 k *
        I.pois (fun k => outer p.2 k * X p.1 k) k / I.dV))
      (fun p a k => if a = p.1 then -(I.occ p.2 * frac * outer p.2 k *
        I.pois (fun k => outer p.2 k * X p.1 k) k / I.dV) else 0)
      (by
        intro p _ Y
        refine ⟨_, rfl, fun a k => ?_⟩
        by_cases ha : a = p.1
        · subst ha; simp; ring
        · simp [ha]) Hx
  have key : ∀ a k, H a k = Hx a k + ∑ i ∈ range ncol, if a = i then
      ∑ b ∈ range I.Ns, (if tol < I.occ b then -(I.occ b * frac * outer b k *
        I.pois (fun k => outer b k * X i k) k / I.dV) else 0) else 0 := by
    intro a k
    rw [hv, sum_flatMap, sum_range_list]
    congr 1
    refine sum_congr rfl fun i _ => ?_
    rw [sum_flatMap, sum_range_list]
    by_cases ha : a = i
    · rw [if_pos ha]
      refine sum_congr rfl fun b _ => ?_
      split_ifs <;> simp [ha]
    · rw [if_neg ha]
      refine sum_eq_zero fun b _ => ?_
      split_ifs <;> simp [ha]
  refine ⟨H, e, fun i hi k => ?_, fun i hi => ?_⟩
  · rw [key, sum_ite_eq, if_pos (mem_range.2 hi), sum_filter, sub_eq_add_neg, mul_sum, ← sum_neg_distrib]
    congr 1
    refine sum_congr rfl fun b _ => ?_
    split_ifs
    · ring
    · simp
  · funext k
    rw [key, sum_ite_eq, if_neg (by simpa using hi), add_zero]

/-- **C66 (exactness).** On every orbital it was built from, the compressed operator acts as the exact
exchange operator does. -/
theorem ace_eq_exx (h : I.Ok Psi) (hs : I.SelfAdj) (potrf : (ℕ → Col) → ℕ → Col)
    (hc : ∀ A, PosDef I.Nocc A → IsChol I.Nocc A (potrf A)) (hpd : PosDef I.Nocc (I.K Psi))
    (frac : ℝ) (Hx : ℕ → Col) :
    ∃ V H, I.aceOperator potrf = some V ∧ I.applyExx frac I.psiOuter I.Nocc Psi Hx = some H ∧
      ∀ a < I.Nocc, I.applyACE frac V (Psi a) (Hx a) = H a := by
  obtain ⟨V, U, e, h1, -, h3⟩ := ace_facts h hs potrf hc hpd
  obtain ⟨H, e', hH, -⟩ := exx_exact h.batch frac I.psiOuter I.Nocc Psi Hx
  refine ⟨V, H, e, e', fun a ha => ?_⟩
  funext k
  rw [applyACE_eq, hH a ha k]
  have e1 : ∑ c ∈ range I.Nocc, V c k * ∑ k' ∈ range I.Nd, V c k' * Psi a k' =
      - ∑ c ∈ range (a + 1), V c k * U a c := by
    obtain ⟨m, hm⟩ : ∃ m, I.Nocc = (a + 1) + m := ⟨I.Nocc - (a + 1), by omega⟩
    rw [sum_congr rfl fun c hc => by rw [h1 a ha c (mem_range.1 hc)], hm, sum_range_add,
      sum_eq_zero (s := range m) (fun c _ => by rw [if_neg (by omega), mul_zero]), add_zero,
      ← sum_neg_distrib]
    refine sum_congr rfl fun c hc => ?_
    rw [if_pos (by have := mem_range.1 hc; omega)]; ring
  rw [e1, h3 a ha k, neg_neg]
  congr 2
  refine sum_congr rfl fun b hb => ?_
  rw [psiOuter_at h (mem_range.1 (mem_filter.1 hb).1)]

theorem ace_form (frac : ℝ) (V : ℕ → Col) (X Y : Col) :
    ∑ k ∈ range I.Nd, Y k * I.applyACE frac V X (fun _ => 0) k =
      - frac * ∑ a ∈ range I.Nocc, (∑ k ∈ range I.Nd, V a k * Y k) * ∑ k ∈ range I.Nd, V a k * X k := by
  simp only [applyACE_eq, zero_sub]
  generalize hc : (fun a => ∑ k ∈ range I.Nd, V a k * X k) = c
  have hc' : ∀ a, ∑ k ∈ range I.Nd, V a k * X k = c a := fun a => congrFun hc a
  simp only [hc', mul_sum, sum_mul, mul_neg, ← sum_neg_distrib]
  rw [sum_comm]
  exact sum_congr rfl fun a _ => sum_congr rfl fun k _ => by ring

/-- **C66 (symmetry).** The compressed operator is symmetric, for any vectors `Xi`. -/
theorem ace_symm (frac : ℝ) (V : ℕ → Col) (X Y : Col) :
    ∑ k ∈ range I.Nd, Y k * I.applyACE frac V X (fun _ => 0) k =
      ∑ k ∈ range I.Nd, X k * I.applyACE frac V Y (fun _ => 0) k := by
  rw [ace_form, ace_form]
  congr 1
  exact sum_congr rfl fun a _ => mul_comm _ _

/-- **C66 (sign).** With a fraction `≥ 0` the compressed operator is negative semidefinite. -/
theorem ace_nonpos (frac : ℝ) (hf : 0 ≤ frac) (V : ℕ → Col) (X : Col) :
    ∑ k ∈ range I.Nd, X k * I.applyACE frac V X (fun _ => 0) k ≤ 0 := by
  rw [ace_form]
  have : 0 ≤ ∑ a ∈ range I.Nocc, (∑ k ∈ range I.Nd, V a k * X k) * ∑ k ∈ range I.Nd, V a k * X k :=
    sum_nonneg fun a _ => mul_self_nonneg _
  nlinarith

/-! ## The energy -/

theorem foldlM_sum {α : Type} (l : List α) (f : α → ℝ) (E : ℝ) :
    l.foldlM (fun E p => some (E + f p)) E = some (E + (l.map f).sum) := by
  induction l generalizing E with
  | nil => simp
  | cons a l ih =>
    rw [List.foldlM_cons]
    show List.foldlM _ _ l = _
    rw [ih, List.map_cons, List.sum_cons, add_assoc]

/-- Occupations are zero or above the threshold. -/
def Inp.Sharp (I : Inp) : Prop := ∀ i < I.Ns, I.occ i = 0 ∨ tol < I.occ i

theorem tol_pos : 0 < tol := by unfold tol; norm_num

theorem energyRank_eq (h : I.Ok Psi) (hsh : I.Sharp) {r : ℕ} (hr : r < I.P) :
    I.energyRank r = some (∑ i ∈ range (I.nb r), I.occ (I.start r + i) *
      I.K Psi (I.start r + i) (I.start r + i)) := by
  unfold Inp.energyRank
  dsimp only
  rw [batches_eq I h.batch, foldlM_sum, Option.map_some, zero_add]
  congr 1
  rw [sum_flatMap, sum_range_list, sum_div]
  refine sum_congr rfl fun i hi => ?_
  have hi := mem_range.1 hi
  have hin := inside h hr hi
  have hiN : i < I.Ns := by omega
  rw [sum_flatMap, sum_range_list]
  unfold Inp.K
  rw [sum_filter, mul_sum, sum_div]
  refine sum_congr rfl fun b hb => ?_
  have hb := mem_range.1 hb
  have hp := tol_pos
  have e : I.psi r i = Psi (I.start r + i) := h.psi' r hr i hi
  by_cases ho : tol < I.occ b
  · have h0 : 0 ≤ I.occ i := by
      rcases hsh i hiN with hx | hx <;> linarith
    rw [if_pos ho, if_pos (by linarith)]
    simp only [List.map_cons, List.map_nil, List.sum_cons, List.sum_nil, add_zero]
    rw [psiOuter_at h hb, e, dot_eq, add_comm i]
    ring
  · have hz : I.occ b = 0 := (hsh b hb).resolve_right ho
    rw [if_neg ho]
    split_ifs <;> simp [hz]

theorem mapM_some {f : ℕ → Option ℝ} {g : ℕ → ℝ} (l : List ℕ) (h : ∀ r ∈ l, f r = some (g r)) :
    l.mapM f = some (l.map g) := by
  induction l with
  | nil => rfl
  | cons a l ih =>
    rw [List.mapM_cons, h a (by simp), ih fun r hr => h r (by simp [hr])]
    rfl

/-- **C66 (direct energy).** Whatever the distribution, the energy without compression is
`- α / Nspin · Σ_a Σ_b occ_a occ_b (ψ_a ψ_b | V | ψ_a ψ_b) / dV`. -/
theorem energy_exact (h : I.Ok Psi) (hsh : I.Sharp) (Nspin : ℕ) (frac : ℝ) :
    I.energy Nspin frac = some (-frac / Nspin * ∑ a ∈ range I.Ns, ∑ b ∈ range I.Ns,
      I.occ a * I.occ b *
        (∑ k ∈ range I.Nd, Psi b k * Psi a k * I.pois (fun k => Psi b k * Psi a k) k) / I.dV) := by
  unfold Inp.energy
  rw [mapM_some (g := fun r => ∑ i ∈ range (I.nb r), I.occ (I.start r + i) *
      I.K Psi (I.start r + i) (I.start r + i)) _
      (fun r hr => energyRank_eq h hsh (List.mem_range.1 hr))]
  show some _ = _
  congr 1
  rw [sum_range_list, Density.sum_cover (cover I h.Ns h.P) (fun a => I.occ a * I.K Psi a a)]
  have e : ∀ a ∈ range I.Ns, I.occ a * I.K Psi a a = ∑ b ∈ range I.Ns, I.occ a * I.occ b *
        (∑ k ∈ range I.Nd, Psi b k * Psi a k * I.pois (fun k => Psi b k * Psi a k) k) / I.dV := by
    intro a _
    unfold Inp.K
    rw [sum_filter, mul_sum]
    refine sum_congr rfl fun b hb => ?_
    split_ifs with ho
    · ring
    · rw [(hsh b (mem_range.1 hb)).resolve_right ho]; simp
  rw [sum_congr rfl e]
  ring

/-- **C66 (energy).** The energy computed from the compressed operator is the energy computed directly. -/
theorem energy_ace_eq (h : I.Ok Psi) (hsh : I.Sharp) (hs : I.SelfAdj) (potrf : (ℕ → Col) → ℕ → Col)
    (hc : ∀ A, PosDef I.Nocc A → IsChol I.Nocc A (potrf A)) (hpd : PosDef I.Nocc (I.K Psi))
    (Nspin : ℕ) (frac : ℝ) :
    ∃ V, I.aceOperator potrf = some V ∧ I.energy Nspin frac = some (I.energyACE V Nspin frac) := by
  obtain ⟨V, U, e, h1, h2, -⟩ := ace_facts h hs potrf hc hpd
  refine ⟨V, e, ?_⟩
  have hrank : ∀ r ∈ range I.P, I.energyRankACE V r = ∑ i ∈ range (I.nb r),
      I.occ (I.start r + i) * I.K Psi (I.start r + i) (I.start r + i) := by
    intro r hr
    have hr := mem_range.1 hr
    have hf : ∀ n E, (List.range n).foldl (fun E i =>
        E + ((List.range I.Nocc).map fun j => I.dot (I.psi r i) (V j) * I.dot (I.psi r i) (V j)).sum *
          I.occ (i + I.start r)) E = E + ∑ i ∈ range n,
        ((List.range I.Nocc).map fun j => I.dot (I.psi r i) (V j) * I.dot (I.psi r i) (V j)).sum *
          I.occ (i + I.start r) := by
      intro n E
      induction n with
      | zero => simp
      | succ n ih => rw [List.range_succ, List.foldl_append, ih, sum_range_succ]; simp [add_assoc]
    unfold Inp.energyRankACE
    dsimp only
    rw [hf, zero_add]
    have hb := nbM_le I r
    obtain ⟨m, hm⟩ : ∃ m, I.nb r = I.nbM r + m := ⟨I.nb r - I.nbM r, by omega⟩
    rw [hm, sum_range_add, sum_eq_zero (s := range m), add_zero]
    · refine sum_congr rfl fun i hi => ?_
      obtain ⟨hi, hiO⟩ := (lt_nbM I).1 (mem_range.1 hi)
      rw [h.psi' r hr i hi, sum_range_list, add_comm i, mul_comm, ← h2 _ hiO]
      congr 1
      generalize I.start r + i = a at *
      obtain ⟨m', hm'⟩ : ∃ m', I.Nocc = (a + 1) + m' := ⟨I.Nocc - (a + 1), by omega⟩
      have hd : ∀ c < I.Nocc, I.dot (Psi a) (V c) = if c ≤ a then - U a c else 0 := by
        intro c hc
        rw [← h1 a hiO c hc, dot_eq]
        exact sum_congr rfl fun k _ => mul_comm _ _
      rw [sum_congr rfl fun c hc => by rw [hd c (mem_range.1 hc)]]
      rw [hm', sum_range_add, sum_eq_zero (s := range m') (fun c _ => by
        rw [if_neg (by omega), mul_zero]), add_zero]
      refine sum_congr rfl fun c hc => ?_
      rw [if_pos (by have := mem_range.1 hc; omega)]; ring
    · intro i hi
      have hi := mem_range.1 hi
      have hin := inside h hr (show I.nbM r + i < I.nb r by omega)
      have : ¬ tol < I.occ (I.start r + (I.nbM r + i)) := by
        intro hx
        have := (lt_nbM I (r := r) (i := I.nbM r + i)).2 ⟨by omega, h.room _ hin hx⟩
        omega
      rw [(hsh _ hin).resolve_right this, zero_mul]
  unfold Inp.energy Inp.energyACE
  rw [mapM_some (g := fun r => ∑ i ∈ range (I.nb r), I.occ (I.start r + i) *
      I.K Psi (I.start r + i) (I.start r + i)) _
      (fun r hr => energyRank_eq h hsh (List.mem_range.1 hr))]
  show some _ = _
  rw [sum_range_list, sum_range_list, sum_congr rfl hrank]

/-! ## Examples -/

/-- Two bands on two processes, a grid of two points. -/
noncomputable def exI : Inp where
  Ns := 2
  P := 2
  Nocc := 2
  Nd := 2
  occ := fun i => if i = 0 then 1 else 1 / 2
  psi := fun r _ k => if r = k then 1 else 0
  pois := fun u k => 2 * u k + u (1 - k)
  dV := 1
  memBatch := 0
  npNd := 1
  junk := fun _ _ _ => 7

noncomputable def exPsi : ℕ → Col := fun b k => if b = k then 1 else 0

theorem exI_ok : exI.Ok exPsi where
  Ns := by decide
  P := by decide
  Nocc := le_rfl
  batch := Or.inl rfl
  desc := by
    intro i j hij hj
    change j < 2 at hj
    simp only [exI]
    interval_cases j <;> interval_cases i <;> norm_num
  ne := by
    intro i hi
    change i < 2 at hi
    simp only [exI, tol]
    interval_cases i <;> norm_num
  room := fun i hi _ => hi
  psi := by
    intro r hr j hj
    change r < 2 at hr
    have : j = 0 := by
      change j < Groups.bandCount 2 2 r at hj
      interval_cases r <;> simp [Groups.bandCount, Groups.bandNB] at hj <;> exact hj
    subst this
    funext k
    show (if r = k then (1 : ℝ) else 0) = if Groups.bandStart 2 2 r + 0 = k then 1 else 0
    have : Groups.bandStart 2 2 r + 0 = r := by
      interval_cases r <;> rfl
    rw [this]

theorem exI_sharp : exI.Sharp := by
  intro i hi
  change i < 2 at hi
  right
  simp only [exI, tol]
  interval_cases i <;> norm_num

theorem exI_selfAdj : exI.SelfAdj := by
  intro u v
  simp only [exI, sum_range_succ, range_zero, sum_empty]
  norm_num
  ring

example : ∃ Xi, exI.solvingForXi = some Xi ∧ ∀ a < 2, ∀ k,
    Xi a k = - ∑ b ∈ (range 2).filter (fun b => tol < exI.occ b),
      exI.occ b * exPsi b k * exI.pois (fun k => exPsi b k * exPsi a k) k / exI.dV := xi_exact exI_ok

theorem exI_K (a b : ℕ) (ha : a < 2) (hb : b < 2) :
    exI.K exPsi a b = if a = b then (if a = 0 then 2 else 1) else 0 := by
  have hf : (range exI.Ns).filter (fun c => tol < exI.occ c) = range 2 := by
    ext c
    simp only [mem_filter, mem_range]
    refine ⟨fun h => h.1, fun h => ⟨h, ?_⟩⟩
    simp only [exI, tol]
    interval_cases c <;> norm_num
  unfold Inp.K
  rw [hf]
  simp only [exI, exPsi, sum_range_succ, range_zero, sum_empty]
  interval_cases a <;> interval_cases b <;> norm_num

theorem exI_posDef : PosDef exI.Nocc (exI.K exPsi) where
  symm := by
    intro a b ha hb
    change a < 2 at ha; change b < 2 at hb
    rw [exI_K a b ha hb, exI_K b a hb ha]
    interval_cases a <;> interval_cases b <;> simp
  pos := by
    rintro x ⟨a, ha, hx⟩
    change a < 2 at ha
    have e : ∑ a ∈ range exI.Nocc, ∑ b ∈ range exI.Nocc, x a * exI.K exPsi a b * x b =
        2 * x 0 ^ 2 + x 1 ^ 2 := by
      show ∑ a ∈ range 2, ∑ b ∈ range 2, x a * exI.K exPsi a b * x b = _
      simp only [sum_range_succ, range_zero, sum_empty]
      rw [exI_K 0 0 (by decide) (by decide), exI_K 0 1 (by decide) (by decide),
        exI_K 1 0 (by decide) (by decide), exI_K 1 1 (by decide) (by decide)]
      norm_num
      ring
    rw [e]
    interval_cases a
    · have := sq_nonneg (x 1); have := sq_pos_of_ne_zero hx; linarith
    · have := sq_nonneg (x 0); have := sq_pos_of_ne_zero hx; linarith

/-- The factorisation of order two. -/
noncomputable def chol2 (A : ℕ → Col) : ℕ → Col := fun b a =>
  if b = 0 then Real.sqrt (A 0 0)
  else if a = 0 then A 1 0 / Real.sqrt (A 0 0)
  else Real.sqrt (A 1 1 - A 1 0 * A 1 0 / A 0 0)

theorem chol2_ok (A : ℕ → Col) (h : PosDef 2 A) : IsChol 2 A (chol2 A) := by
  have h00 : 0 < A 0 0 := by
    have := h.pos (fun a => if a = 0 then 1 else 0) ⟨0, by decide, by simp⟩
    simpa [sum_range_succ] using this
  have hs : A 0 1 = A 1 0 := h.symm 0 1 (by decide) (by decide)
  have hdet : 0 < A 1 1 - A 1 0 * A 1 0 / A 0 0 := by
    have := h.pos (fun a => if a = 0 then - A 1 0 / A 0 0 else 1) ⟨1, by decide, by simp⟩
    simp only [sum_range_succ, range_zero, sum_empty, hs, if_true, one_ne_zero, if_false] at this
    have e : 0 + (0 + - A 1 0 / A 0 0 * A 0 0 * (- A 1 0 / A 0 0) + - A 1 0 / A 0 0 * A 1 0 * 1) +
        (0 + 1 * A 1 0 * (- A 1 0 / A 0 0) + 1 * A 1 1 * 1) = A 1 1 - A 1 0 * A 1 0 / A 0 0 := by
      field_simp; ring
    rw [e] at this
    exact this
  have hq := Real.mul_self_sqrt h00.le
  have hr := (Real.sqrt_pos.2 h00).ne'
  refine ⟨fun b hb => ?_, fun a b hab hb => ?_⟩
  · interval_cases b
    · simpa [chol2] using hr
    · simpa [chol2] using (Real.sqrt_pos.2 hdet).ne'
  · interval_cases b <;> interval_cases a
    · simp [chol2, hq]
    · simp only [chol2, sum_range_succ, range_zero, sum_empty]
      simp; field_simp
    · have := Real.mul_self_sqrt hdet.le
      simp only [chol2, sum_range_succ, range_zero, sum_empty]
      simp only [if_true, if_false, one_ne_zero, zero_add]
      rw [this, div_mul_div_comm, hq]; ring

example (Hx : ℕ → Col) : ∃ V H, exI.aceOperator chol2 = some V ∧
    exI.applyExx (1 / 4) exI.psiOuter 2 exPsi Hx = some H ∧
    ∀ a < 2, exI.applyACE (1 / 4) V (exPsi a) (Hx a) = H a :=
  ace_eq_exx exI_ok exI_selfAdj chol2 chol2_ok exI_posDef (1 / 4) Hx

example : ∃ V, exI.aceOperator chol2 = some V ∧
    exI.energy 1 (1 / 4) = some (exI.energyACE V 1 (1 / 4)) :=
  energy_ace_eq exI_ok exI_sharp exI_selfAdj chol2 chol2_ok exI_posDef 1 (1 / 4)

/-! ## The threshold itself -/

/-- **Finding.** If an occupation equals the threshold, the tests `< 1e-6` and `> 1e-6` both fail for
it: `allocate_ACE` gives it no column, but the pair with an occupied band of another process is not
skipped, and the solution is added to a column outside `Xi`. -/
theorem threshold_overrun :
    let I : Inp := { exI with occ := fun i => if i = 0 then 1 else tol,
                              Nocc := nstatesOcc 2 (fun i => if i = 0 then 1 else tol) 0 }
    I.solvingForXi = none := by
  have htol : tol < 1 := by unfold tol; norm_num
  have hN : nstatesOcc 2 (fun i => if i = 0 then 1 else tol) 0 = 1 := by
    unfold nstatesOcc
    simp [List.range_succ, htol]
  intro I
  have hNocc : I.Nocc = 1 := hN
  have hnb : ∀ r, r < 2 → I.nb r = 1 := by
    intro r hr
    show Groups.bandCount 2 2 r = 1
    interval_cases r <;> rfl
  have hst : I.start 0 = 0 := by
    show Groups.bandStart 2 2 0 = 0
    simp [Groups.bandStart]
  have hss : I.startSrc 1 = 1 := by
    show 1 * Groups.bandNB 2 2 = 1
    simp [Groups.bandNB]
  have hsrc : I.source 0 1 = 1 := rfl
  have hM : I.nbM 0 = 1 := by unfold Inp.nbM; rw [hst, hnb 0 (by decide), hNocc]; rfl
  have ho0 : I.occ 0 = 1 := rfl
  have ho1 : I.occ 1 = tol := rfl
  have hall : ∀ sto Xi, I.allPair 0 1 sto Xi = none := by
    intro sto Xi
    have hp : I.remotePairs 0 1 = [(0, 0)] := by
      unfold Inp.remotePairs
      rw [hnb 1 (by decide), hM]
      simp [List.range_succ, hss, ho1]
    unfold Inp.allPair
    rw [if_neg (by rintro ⟨-, hx, -⟩; exact absurd hx (by decide)), if_neg (by omega)]
    dsimp only
    rw [hsrc, hp, batches_eq I (Or.inl rfl), List.foldlM_cons]
    simp [hss, hst, ho1, ho0, htol, Inp.sub, hNocc]
  have hrot : ∀ s, I.rotation s 1 = none := by
    intro s
    have he : I.each (fun r => I.allPair r 1 (s.st1 r) (s.xi r)) = none := by
      unfold Inp.each
      show (List.range 2).foldlM _ _ = none
      simp [List.range_succ, hall]
    unfold Inp.rotation
    rw [if_neg (by decide)]
    simp only [show 1 % 2 = 1 from rfl, if_true]
    rw [he]
    cases (if 1 ≠ I.reps then I.transfer 1 s.st1 s.st2 else some s.st2) <;> rfl
  unfold Inp.solvingForXi
  have : (List.range (I.reps + 1)).foldlM I.rotation ⟨I.junk, I.junk, fun _ _ _ => 0⟩ = none := by
    have hr : I.reps = 1 := by
      rw [reps_eq I (show 0 < 2 by decide)]
      show 2 / 2 = 1
      norm_num
    rw [hr, show List.range (1 + 1) = [0, 1] from rfl, List.foldlM_cons]
    cases I.rotation ⟨I.junk, I.junk, fun _ _ _ => 0⟩ 0 with
    | none => rfl
    | some s =>
      show ([1] : List ℕ).foldlM I.rotation s = none
      rw [List.foldlM_cons, hrot]; rfl
  rw [this]; rfl

end Sparc.Ace

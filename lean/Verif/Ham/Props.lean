import Verif.Ham.Model
import Verif.Grad.Props

/-!
# C62: the Hamiltonian at a k-point and the meta-GGA term

On every process grid `Hamiltonian_vectors_mult_kpt` applies
`-½ ∇² + V + c`, the off-diagonal potential of noncollinear spin and `-½ ∇·(v_τ ∇)` to the Bloch
continuation of the orbitals; the operator is Hermitian, and the meta-GGA term is nonnegative where
`v_τ ≥ 0`.
-/

namespace Sparc.Ham

open Loop Lap Halo Bloch Grad

/-! ### Specification -/

/-- `-½ Σ_d D_d (V Σ_e T_de D_e u)` at a k-point. -/
noncomputable def mggaOp (L : Layout) (q : KPoint) (h : Fin 3 → ℝ) (T : ℕ → ℝ)
    (V : ℕ → ℕ → ℕ → ℝ) (u : ℕ → ℕ → ℕ → ℂ) (I J K : ℕ) : ℂ :=
  -(1 / 2) * ∑ d : Fin 3, Dc L.FDn h d (bloch L q fun I J K =>
    (V I J K : ℂ) * ∑ e : Fin 3, (T (3 * d + e) : ℂ) * Dc L.FDn h e (bloch L q u) I J K) I J K

/-- The same for real functions. -/
noncomputable def mggaOpR (L : Layout) (h : Fin 3 → ℝ) (T : ℕ → ℝ) (V u : ℕ → ℕ → ℕ → ℝ)
    (I J K : ℕ) : ℝ :=
  -(1 / 2) * ∑ d : Fin 3, D L.FDn h d (ext L fun I J K =>
    V I J K * ∑ e : Fin 3, T (3 * d + e) * D L.FDn h e (ext L u) I J K) I J K

/-- What the Hamiltonian is made of: with `noncol` the potential has the components `V 0`, `V 1`
(diagonal) and `V 2`, `V 3` (real and imaginary part of the off-diagonal one), otherwise only
`V 0`; `M s` is the meta-GGA potential of spinor `s`. -/
structure Spec where
  noncol : Bool
  c : ℝ
  V : ℕ → ℕ → ℕ → ℕ → ℝ
  M : Option (ℕ → ℕ → ℕ → ℕ → ℝ)

/-- Spinor `s` of the Hamiltonian applied to the spinors `u`; `Tk`, `Tm` are the couplings of the
Laplacian and of the meta-GGA term. -/
noncomputable def hamOp (L : Layout) (q : KPoint) (h : Fin 3 → ℝ) (Tk Tm : ℕ → ℝ) (S : Spec)
    (u : ℕ → ℕ → ℕ → ℕ → ℂ) (s I J K : ℕ) : ℂ :=
  -(1 / 2) * lapc L.FDn h Tk (bloch L q (u s)) I J K +
    ((S.V (if S.noncol then s else 0) I J K + S.c : ℝ) : ℂ) * u s I J K +
    (if S.noncol then
      (S.V 2 I J K + (if s = 0 then Complex.I else -Complex.I) * S.V 3 I J K) * u (1 - s) I J K
    else 0) +
    (match S.M with
      | none => 0
      | some M => mggaOp L q h Tm (M s) (u s) I J K)

/-- The couplings of the gradient: all of `lapcT` for an oblique cell. -/
noncomputable def gradT (typ : ℕ) (T : ℕ → ℝ) : ℕ → ℝ := if typ > 10 ∧ typ < 20 then T else orthT

/-! ### Storage -/

theorem addr_bounds {L : Layout} {p : Proc} {i j k : ℕ} (hi : i < L.size p 0) (hj : j < L.size p 1)
    (hk : k < L.size p 2) : 0 ≤ addr (L.isize p) 0 0 i j k ∧ addr (L.isize p) 0 0 i j k < nd L p := by
  unfold addr nd Layout.isize
  have a1 : (i : ℤ) + 1 ≤ L.size p 0 := by exact_mod_cast hi
  have a2 : (j : ℤ) + 1 ≤ L.size p 1 := by exact_mod_cast hj
  have a3 : (k : ℤ) + 1 ≤ L.size p 2 := by exact_mod_cast hk
  have b0 : (0 : ℤ) ≤ i := by positivity
  have b1 : (0 : ℤ) ≤ j := by positivity
  have b2 : (0 : ℤ) ≤ k := by positivity
  generalize (L.size p 0 : ℤ) = A at *
  generalize (L.size p 1 : ℤ) = B at *
  generalize (L.size p 2 : ℤ) = C at *
  have c0 : (0 : ℤ) ≤ A := by omega
  have c1 : (0 : ℤ) ≤ B := by omega
  refine ⟨by simp only [mul_zero, zero_add]; positivity, ?_⟩
  have h1 : (k : ℤ) * B + j + 1 ≤ C * B := by nlinarith
  have h2 : ((k : ℤ) * B + j + 1) * A ≤ C * B * A := mul_le_mul_of_nonneg_right h1 (by omega)
  nlinarith

theorem addr_split (D : Fin 3 → ℤ) (l : ℤ) (n : ℕ) (i j k : ℤ) :
    addr D l n i j k = addr D 0 0 i j k + n * l := by
  unfold addr
  push_cast
  ring

theorem stack_at {V : Type} {L : Layout} {p : Proc} (cols : ℕ → ℤ → V) {n i j k : ℕ}
    (hi : i < L.size p 0) (hj : j < L.size p 1) (hk : k < L.size p 2) :
    stack L p cols (addr (L.isize p) (nd L p) n i j k) = cols n (addr (L.isize p) 0 0 i j k) := by
  obtain ⟨h0, h1⟩ := addr_bounds hi hj hk
  unfold stack
  rw [addr_split]
  generalize addr (L.isize p) 0 0 i j k = a at *
  have hn : nd L p ≠ 0 := by omega
  rw [Int.add_mul_ediv_right _ _ hn, Int.add_mul_emod_self_right, Int.ediv_eq_zero_of_lt h0 h1,
    Int.emod_eq_of_lt h0 h1]
  simp

theorem everyone_some {V : Type} [Zero V] {L : Layout} {m : Proc → Option (ℤ → V)}
    {P : Proc → (ℤ → V) → Prop} (h : ∀ p, L.Valid p → ∃ y, m p = some y ∧ P p y) :
    ∃ Y, everyone L m = some Y ∧ ∀ p, L.Valid p → P p (Y p) := by
  unfold everyone
  rw [if_pos fun p hp => by obtain ⟨y, hy, -⟩ := h p hp; rw [hy]; rfl]
  refine ⟨_, rfl, fun p hp => ?_⟩
  obtain ⟨y, hy, hP⟩ := h p hp
  rw [hy]
  exact hP

theorem mapM_some {A B : Type} (f : A → Option B) (g : A → B) (l : List A)
    (h : ∀ a ∈ l, f a = some (g a)) : l.mapM f = some (l.map g) := by
  induction l with
  | nil => rfl
  | cons a l ih =>
    rw [List.mapM_cons, h a (by simp), ih fun b hb => h b (by simp [hb])]
    rfl

/-! ### The meta-GGA term at a k-point -/

theorem gradK_correct {L : Layout} (hF : L.Fits) (q : KPoint) {C : Coefs} {h : Fin 3 → ℝ}
    (hC : D1Coefs C L.FDn h) (d : Fin 3) {ldx : Proc → ℤ} {ncol : ℕ} {g : ℕ → ℕ → ℕ → ℕ → ℂ}
    {x : Proc → MemK} (hx : Distributed L ldx ncol g x) (ex0 : ℕ → MemK) {p : Proc}
    (hp : L.Valid p) :
    ∃ y, gradK L C q ncol ldx x ex0 d p = some y ∧
      ∀ n < ncol, ∀ i < L.size p 0, ∀ j < L.size p 1, ∀ k < L.size p 2,
        y (addr (L.isize p) (nd L p) n i j k) = Dc L.FDn h d (bloch L q (g n))
          (L.start p 0 + i : ℕ) (L.start p 1 + j : ℕ) (L.start p 2 + k : ℕ) := by
  have key : ∀ n, ∃ y, n < ncol →
      (gradVectorsDirK L C d q.len (q.k d) 0 ldx x p ex0 (fun _ _ => 0) n = some y ∧
      ∀ i < L.size p 0, ∀ j < L.size p 1, ∀ k < L.size p 2, y (addr (L.isize p) 0 0 i j k) =
        Dc L.FDn h d (bloch L q (g n))
          (L.start p 0 + i : ℕ) (L.start p 1 + j : ℕ) (L.start p 2 + k : ℕ)) := by
    intro n
    by_cases hn : n < ncol
    · obtain ⟨y, h1, h2⟩ := gradVectorsDirK_correct hF q hC d 0 hx (fun _ => ex0)
        (fun _ _ _ => 0) hn p hp
      refine ⟨y, fun _ => ⟨h1, fun i hi j hj k hk => ?_⟩⟩
      rw [h2 i hi j hj k hk]
      unfold opC
      simp
    · exact ⟨0, fun h => absurd h hn⟩
  choose Y hY using key
  have hm := mapM_some (fun n => gradVectorsDirK L C d q.len (q.k d) 0 ldx x p ex0 (fun _ _ => 0) n)
    Y (List.range ncol) fun n hn => (hY n (List.mem_range.1 hn)).1
  refine ⟨_, by unfold gradK; rw [hm]; rfl, fun n hn i hi j hj k hk => ?_⟩
  rw [stack_at _ hi hj hk, ← (hY n hn).2 i hi j hj k hk]
  have e : ((List.range ncol).map Y).getD n 0 = Y n := by
    rw [List.getD_eq_getElem?_getD, List.getElem?_map, List.getElem?_range hn]
    rfl
  rw [e]

theorem flux_spec (typ : ℕ) (T : ℕ → ℝ) (g : Fin 3 → ℂ) (d : Fin 3) :
    (if typ > 10 ∧ typ < 20 then
      g 0 * T (3 * d) + g 1 * T (3 * d + 1) + g 2 * T (3 * d + 2)
    else ![g 0, g 1, g 2] d) = ∑ e : Fin 3, (gradT typ T (3 * d + e) : ℂ) * g e := by
  unfold gradT
  rw [Fin.sum_univ_three]
  split
  · simp only [Fin.val_zero, Fin.val_one, Fin.val_two, add_zero]
    ring
  · revert d
    refine fin3 ?_ ?_ ?_ <;> simp [orthT]

/-- **C62.** The meta-GGA term at a k-point: every process gets its block of
`Hx - ½ Σ_d D_d (v Σ_e T_de D_e u)` for every column, whatever the work arrays contained. -/
theorem mggaK_correct {L : Layout} (hF : L.Fits) (q : KPoint) {C : Coefs} {h : Fin 3 → ℝ}
    (hC : D1Coefs C L.FDn h) (typ : ℕ) (T : ℕ → ℝ) {V : ℕ → ℕ → ℕ → ℝ} {v : Proc → Mem}
    (hv : Distributed L (fun _ => 0) 1 (fun _ => V) v) {ldx : Proc → ℤ} {ncol : ℕ}
    {g : ℕ → ℕ → ℕ → ℕ → ℂ} {x : Proc → MemK} (hx : Distributed L ldx ncol g x) (ex0 : ℕ → MemK)
    (Hx : MemK) {p : Proc} (hp : L.Valid p) {n : ℕ} (hn : n < ncol) :
    ∃ y, mggaK L C q typ T v ncol ldx x ex0 Hx p n = some y ∧
      ∀ i < L.size p 0, ∀ j < L.size p 1, ∀ k < L.size p 2, y (addr (L.isize p) 0 0 i j k) =
        Hx (addr (L.isize p) 0 0 i j k) + mggaOp L q h (gradT typ T) V (g n)
          (L.start p 0 + i) (L.start p 1 + j) (L.start p 2 + k) := by
  have hg : ∀ d, _ := fun d => everyone_some fun p hp => gradK_correct hF q hC d hx ex0 hp
  choose G hG hG' using hg
  have hF' : ∀ d : Fin 3, Distributed L (nd L) ncol (fun n I J K =>
      (V I J K : ℂ) * ∑ e : Fin 3, (gradT typ T (3 * d + e) : ℂ) * Dc L.FDn h e (bloch L q (g n)) I J K)
      (fun r => fluxK typ T (nd L r) (v r) (G 0 r) (G 1 r) (G 2 r) d) := by
    intro d r hr n hn i hi j hj k hk
    obtain ⟨h0, h1⟩ := addr_bounds hi hj hk
    unfold fluxK
    dsimp only
    rw [flux_spec typ T (fun e => G e r (addr (L.isize r) (nd L r) n i j k)) d]
    simp only [hG' _ r hr n hn i hi j hj k hk]
    have e : addr (L.isize r) (nd L r) n i j k % nd L r = addr (L.isize r) 0 0 i j k := by
      rw [addr_split, Int.add_mul_emod_self_right, Int.emod_eq_of_lt h0 h1]
    rw [e, hv r hr 0 Nat.one_pos i hi j hj k hk, mul_comm]
  have h2 : ∀ d, _ := fun d => gradK_correct hF q hC d (hF' d) ex0 hp
  choose W hW hW' using h2
  refine ⟨_, by
    unfold mggaK
    rw [show everyone L (gradK L C q ncol ldx x ex0 0) = some (G 0) from hG 0,
      show everyone L (gradK L C q ncol ldx x ex0 1) = some (G 1) from hG 1,
      show everyone L (gradK L C q ncol ldx x ex0 2) = some (G 2) from hG 2]
    simp only [Option.bind_eq_bind, Option.bind_some, hW]
    rfl, fun i hi j hj k hk => ?_⟩
  simp only [← addr_split, hW' _ n hn i hi j hj k hk]
  unfold mggaOp
  rw [Fin.sum_univ_three]
  ring

/-! ### The Hamiltonian -/

/-- The processes hold the potentials of `S`. -/
structure Holds (L : Layout) (A : Input) (S : Spec) (ns : ℕ) : Prop where
  noncol : A.noncol = S.noncol
  c : A.c = S.c
  veff : Distributed L (nd L) (if S.noncol then 4 else 1) S.V A.veff
  none : S.M = none → A.mgga = none
  some : ∀ M, S.M = some M → ∃ v, A.mgga = some v ∧
    ∀ s < ns, Distributed L (fun _ => 0) 1 (fun _ => M s) (v s)
  two : S.noncol = true → ns = 2

/-- The processes hold the orbitals: column `i` consists of `ns` spinors one after the other. -/
def Orbitals (L : Layout) (A : Input) (ns : ℕ) (g : ℕ → ℕ → ℕ → ℕ → ℕ → ℂ) : Prop :=
  ∀ s < ns, Distributed L A.ldi A.ncol (fun i => g i s) (fun p a => A.x p (s * nd L p + a))

theorem lapCall_dist {L : Layout} {A : Input} {ns : ℕ} {g : ℕ → ℕ → ℕ → ℕ → ℕ → ℂ}
    (hx : Orbitals L A ns g) {n s : ℕ} (hn : n < A.ncol) (hs : s < ns) :
    Distributed { L with ncol := 1 } (lapCall L A n s).ldi 1 (fun _ => g n s) (lapCall L A n s).x := by
  have := one_column (hx s hs) hn
  intro r hr m hm i hi j hj k hk
  refine Eq.trans ?_ (this r hr m hm i hi j hj k hk)
  unfold lapCall
  dsimp only
  congr 1
  ring

theorem lapCall_pot {L : Layout} {A : Input} {S : Spec} {ns : ℕ} (hA : Holds L A S ns) (n : ℕ)
    {s : ℕ} (hs : s < ns) :
    PotentialOfK { L with ncol := 1 } (lapCall L A n s) (S.V (if S.noncol then s else 0)) := by
  intro v hv r hr m hm i hi j hj k hk
  cases hv
  have key : (if S.noncol then s else 0) < (if S.noncol then 4 else 1) := by
    by_cases h : S.noncol = true
    · have := hA.two h
      simp only [h, if_true]
      omega
    · simp [h]
  have := hA.veff r hr _ key i hi j hj k hk
  refine Eq.trans ?_ this
  congr 1
  rw [addr_split _ (nd L r), addr_split _ 0, hA.noncol, add_comm]
  dsimp only [Layout.isize, Layout.size]
  split <;> simp [add_comm] <;> rfl

theorem off_correct {L : Layout} {A : Input} {S : Spec} {ns : ℕ} (hA : Holds L A S ns)
    {g : ℕ → ℕ → ℕ → ℕ → ℕ → ℂ} (hx : Orbitals L A ns g) {p : Proc} (hp : L.Valid p) {n s : ℕ}
    (hn : n < A.ncol) (hs : s < ns) (hS : S.noncol = true) (y : MemK) {i j k : ℕ}
    (hi : i < L.size p 0) (hj : j < L.size p 1) (hk : k < L.size p 2) :
    offDiag L A p n s y (addr (L.isize p) 0 0 i j k) = y (addr (L.isize p) 0 0 i j k) +
      (S.V 2 (L.start p 0 + i) (L.start p 1 + j) (L.start p 2 + k) +
        (if s = 0 then Complex.I else -Complex.I) *
          S.V 3 (L.start p 0 + i) (L.start p 1 + j) (L.start p 2 + k)) *
      g n (1 - s) (L.start p 0 + i) (L.start p 1 + j) (L.start p 2 + k) := by
  have h2 := hA.two hS
  have hV := hA.veff
  rw [if_pos hS] at hV
  have e2 := hV p hp 2 (by omega) i hi j hj k hk
  have e3 := hV p hp 3 (by omega) i hi j hj k hk
  have ex := hx (1 - s) (by omega) p hp n hn i hi j hj k hk
  have c1 : ((1 - s : ℕ) : ℤ) = 1 - (s : ℤ) := by omega
  rw [addr_split] at e2 e3 ex
  dsimp only at ex
  rw [c1] at ex
  unfold offDiag
  rw [if_pos (addr_bounds hi hj hk), ← e2, ← e3, ← ex]
  congr 2
  · congr 1
    · push_cast
      rw [add_comm]
    · have : addr (L.isize p) 0 0 i j k + ((3 : ℕ) : ℤ) * nd L p =
          2 * nd L p + (addr (L.isize p) 0 0 i j k + nd L p) := by push_cast; ring
      rw [this]
      split <;> ring
  · congr 1
    ring

theorem hamOp_lap {L : Layout} {A : Input} {S : Spec} {ns : ℕ} (hA : Holds L A S ns) (q : KPoint)
    (h : Fin 3 → ℝ) (Tk : ℕ → ℝ) (n s : ℕ) (u : ℕ → ℕ → ℕ → ℂ) (I J K : ℕ) :
    opK { L with ncol := 1 } q h Tk (lapCall L A n s) (S.V (if S.noncol then s else 0)) u I J K =
      -(1 / 2) * lapc L.FDn h Tk (bloch L q u) I J K +
        ((S.V (if S.noncol then s else 0) I J K + S.c : ℝ) : ℂ) * u I J K := by
  have hb : bloch { L with ncol := 1 } q u = bloch L q u := rfl
  unfold opK potentialK lapCall
  dsimp only
  have hn : ¬((some fun (p : Proc) (a : ℤ) => A.veff p ((if A.noncol then s * nd L p else 0) + a)) = none ∨
      |(1 : ℝ)| < 1 / 10 ^ 14) := by
    rintro (h | h)
    · exact absurd h (Option.some_ne_none _)
    · norm_num at h
  rw [hb, if_neg hn, hA.c]
  push_cast
  ring

theorem hamK_of_lap {L : Layout} (hF : L.Fits) (q : KPoint) {C : Coefs} {h : Fin 3 → ℝ}
    (hC : D1Coefs C L.FDn h) {typ : ℕ} (T Tk : ℕ → ℝ) {A : Input} {S : Spec} {ns : ℕ}
    (hA : Holds L A S ns) {g : ℕ → ℕ → ℕ → ℕ → ℕ → ℂ} (hx : Orbitals L A ns g) {n s : ℕ}
    (hn : n < A.ncol) (hs : s < ns)
    (hl : Computes L (fun p _ => lapPart L C q typ A p n s) 0
      (opK { L with ncol := 1 } q h Tk (lapCall L A n s) (S.V (if S.noncol then s else 0)) (g n s))) :
    Computes L (fun p n => hamK L C q typ T A p n s) n
      (hamOp L q h Tk (gradT typ T) S (g n) s) := by
  intro p hp
  obtain ⟨y, h1, h2⟩ := hl p hp
  simp only [hamOp_lap hA] at h2
  have h3 : ∀ i < L.size p 0, ∀ j < L.size p 1, ∀ k < L.size p 2,
      (if A.noncol then offDiag L A p n s y else y) (addr (L.isize p) 0 0 i j k) =
      hamOp L q h Tk (gradT typ T) { S with M := none } (g n) s
        (L.start p 0 + i) (L.start p 1 + j) (L.start p 2 + k) := by
    intro i hi j hj k hk
    unfold hamOp
    dsimp only
    rw [hA.noncol]
    by_cases hS : S.noncol = true
    · rw [if_pos hS, if_pos hS, off_correct hA hx hp hn hs hS y hi hj hk, h2 i hi j hj k hk, if_pos hS, if_pos hS]
      ring
    · rw [if_neg hS, if_neg hS, h2 i hi j hj k hk, if_neg hS, if_neg hS]
      ring
  rcases hM : S.M with _ | M
  · refine ⟨_, by
      have h1' : lapPart L C q typ A p n s = some y := h1
      unfold hamK
      dsimp only
      rw [h1', hA.none hM]
      rfl, fun i hi j hj k hk => ?_⟩
    rw [h3 i hi j hj k hk]
    unfold hamOp
    rw [hM]
  · obtain ⟨v, hv, hv'⟩ := hA.some M hM
    obtain ⟨z, hz, hz'⟩ := mggaK_correct hF q hC typ T (hv' s hs) (hx s hs) (fun _ => A.junk)
      (if A.noncol then offDiag L A p n s y else y) hp hn
    refine ⟨z, by
      have h1' : lapPart L C q typ A p n s = some y := h1
      unfold hamK
      dsimp only
      rw [h1', hv]
      exact hz, fun i hi j hj k hk => ?_⟩
    rw [hz' i hi j hj k hk, h3 i hi j hj k hk]
    unfold hamOp
    rw [hM]
    dsimp only
    ring

/-- **C62.** `Hamiltonian_vectors_mult_kpt` in an orthogonal cell: on every process grid, for every
column and spinor. -/
theorem hamK_correct {L : Layout} (hF : L.Fits) (q : KPoint) (dx dy dz : ℝ) (T : ℕ → ℝ) {A : Input}
    {S : Spec} {ns : ℕ} (hA : Holds L A S ns) {g : ℕ → ℕ → ℕ → ℕ → ℕ → ℂ} (hx : Orbitals L A ns g)
    {n s : ℕ} (hn : n < A.ncol) (hs : s < ns) :
    Computes L (fun p n => hamK L (coefs0 L.FDn dx dy dz) q 0 T A p n s) n
      (hamOp L q ![dx, dy, dz] orthT orthT S (g n) s) := by
  have := hamK_of_lap hF q (coefs0_d1 L.FDn dx dy dz) (typ := 0) T orthT hA hx hn hs
    (fun p hp => by
      have e : ∀ p, lapPart L (coefs0 L.FDn dx dy dz) q 0 A p n s = lapOrthK { L with ncol := 1 } q
          (coefs0 L.FDn dx dy dz) (lapCall L A n s) p 0 := fun p => if_pos rfl
      simp only [e]
      exact lapK_computes (L := { L with ncol := 1 }) hF q dx dy dz (lapCall L A n s)
        (lapCall_dist hx hn hs) (lapCall_pot hA n hs) Nat.one_pos p hp)
  have e : gradT 0 T = orthT := if_neg (by omega)
  rw [e] at this
  exact this

theorem cellTyp_lt {LV : ℕ → ℝ} {G : Coord.Geom} (hG : Coord.transformMat LV = some G) :
    G.cellTyp < 20 := by
  obtain ⟨-, -, -, -, -, -, h⟩ := Coord.transformMat_some hG
  rw [h]
  have h0 : Coord.cellTyp0 LV < 20 := by
    unfold Coord.cellTyp0
    dsimp only
    split_ifs <;> omega
  unfold Coord.cellTyp1
  split_ifs <;> omega

/-- **C62.** The same for an oblique cell; the Laplacian has the couplings that the program keeps,
the meta-GGA term has all of them. -/
theorem hamK_correct_oblique {L : Layout} (hF : L.Fits) (q : KPoint) (LV : ℕ → ℝ) (G : Coord.Geom)
    (hG : Coord.transformMat LV = some G) (h10 : 10 < G.cellTyp) (dx dy dz : ℝ) {A : Input}
    {S : Spec} {ns : ℕ} (hA : Holds L A S ns) {g : ℕ → ℕ → ℕ → ℕ → ℕ → ℂ} (hx : Orbitals L A ns g)
    {n s : ℕ} (hn : n < A.ncol) (hs : s < ns) :
    Computes L (fun p n => hamK L (coefs G.lapc L.FDn dx dy dz) q G.cellTyp G.lapc A p n s) n
      (hamOp L q ![dx, dy, dz] (kept G) G.lapc S (g n) s) := by
  have := hamK_of_lap hF q (coefs_d1 G.lapc L.FDn dx dy dz) (typ := G.cellTyp) G.lapc (kept G) hA hx
    hn hs (fun p hp => by
      have e : ∀ p, lapPart L (coefs G.lapc L.FDn dx dy dz) q G.cellTyp A p n s =
          lapNonorthK { L with ncol := 1 } q (coefs G.lapc L.FDn dx dy dz) G.cellTyp
            (lapCall L A n s) p 0 := fun p => if_neg (by omega)
      simp only [e]
      exact lapK_computes_oblique (L := { L with ncol := 1 }) hF q LV G hG h10 dx dy dz
        (lapCall L A n s) (lapCall_dist hx hn hs) (lapCall_pot hA n hs) Nat.one_pos p hp)
  have e : gradT G.cellTyp G.lapc = G.lapc := if_pos ⟨h10, cellTyp_lt hG⟩
  rw [e] at this
  exact this

/-! ### Integration by parts in the meta-GGA term -/

theorem inner3_sum_right (L : Layout) (f : ℕ → ℕ → ℕ → ℂ) {ι : Type} (s : Finset ι)
    (g : ι → ℕ → ℕ → ℕ → ℂ) :
    inner3 L f (fun I J K => ∑ i ∈ s, g i I J K) = ∑ i ∈ s, inner3 L f (g i) := by
  classical
  induction s using Finset.induction_on with
  | empty => simp [inner3]
  | insert a s ha ih =>
    simp only [Finset.sum_insert ha]
    rw [inner3_add_right L f (g a), ih]

/-- `⟨f, H_τ g⟩ = ½ Σ_de T_de ⟨D_d f, V D_e g⟩`. -/
theorem mgga_form (L : Layout) (q : KPoint) (h : Fin 3 → ℝ) (T : ℕ → ℝ) (V : ℕ → ℕ → ℕ → ℝ)
    (f g : ℕ → ℕ → ℕ → ℂ) :
    inner3 L f (mggaOp L q h T V g) = (1 / 2) * ∑ d : Fin 3, ∑ e : Fin 3, (T (3 * d + e) : ℂ) *
      inner3 L (fun I J K => Dc L.FDn h d (bloch L q f) I J K)
        (fun I J K => (V I J K : ℂ) * Dc L.FDn h e (bloch L q g) I J K) := by
  have e1 : mggaOp L q h T V g = fun I J K => (-(1 / 2) : ℂ) * ∑ d : Fin 3,
      (fun d I J K => Dc L.FDn h d (bloch L q fun (I J K : ℕ) => (V I J K : ℂ) *
        ∑ e : Fin 3, (T (3 * d + e) : ℂ) * Dc L.FDn h e (bloch L q g) I J K) I J K :
        Fin 3 → ℕ → ℕ → ℕ → ℂ) d I J K := rfl
  rw [e1, inner3_mul_right L f (fun I J K => ∑ d : Fin 3, _), inner3_sum_right L f, Finset.mul_sum,
    Finset.mul_sum]
  refine Finset.sum_congr rfl fun d _ => ?_
  have h1 := adj_Dc L q L.FDn h d f (fun (I J K : ℕ) => (V I J K : ℂ) *
        ∑ e : Fin 3, (T (3 * d + e) : ℂ) * Dc L.FDn h e (bloch L q g) I J K)
  rw [h1, inner3_mul_left L (fun I J K => Dc L.FDn h d (bloch L q f) I J K)]
  have e2 : (fun (I J K : ℕ) => (V I J K : ℂ) *
        ∑ e : Fin 3, (T (3 * d + e) : ℂ) * Dc L.FDn h e (bloch L q g) I J K) =
      fun (I J K : ℕ) => ∑ e : Fin 3, (fun (e : Fin 3) (I J K : ℕ) => (T (3 * d + e) : ℂ) *
        ((V I J K : ℂ) * Dc L.FDn h e (bloch L q g) I J K)) e I J K := by
    funext I J K
    rw [Finset.mul_sum]
    exact Finset.sum_congr rfl fun e _ => by ring
  rw [e2, inner3_sum_right]
  have e3 : ∀ e : Fin 3, inner3 L (fun (I J K : ℕ) => Dc L.FDn h d (bloch L q f) I J K)
      ((fun (e : Fin 3) (I J K : ℕ) => (T (3 * d + e) : ℂ) *
        ((V I J K : ℂ) * Dc L.FDn h e (bloch L q g) I J K)) e) =
      (T (3 * d + e) : ℂ) * inner3 L (fun I J K => Dc L.FDn h d (bloch L q f) I J K)
        (fun I J K => (V I J K : ℂ) * Dc L.FDn h e (bloch L q g) I J K) := fun e =>
    inner3_mul_right L _ (fun I J K => (V I J K : ℂ) * Dc L.FDn h e (bloch L q g) I J K) _
  simp only [e3]
  push_cast
  ring

theorem inner3_conj (L : Layout) (f g : ℕ → ℕ → ℕ → ℂ) :
    (starRingEnd ℂ) (inner3 L f g) = inner3 L g f := by
  unfold inner3
  simp only [map_sum, map_mul, Complex.conj_conj]
  exact Finset.sum_congr rfl fun I _ => Finset.sum_congr rfl fun J _ =>
    Finset.sum_congr rfl fun K _ => mul_comm _ _

theorem inner3_weight (L : Layout) (V : ℕ → ℕ → ℕ → ℝ) (f g : ℕ → ℕ → ℕ → ℂ) :
    inner3 L f (fun I J K => (V I J K : ℂ) * g I J K) =
      inner3 L (fun I J K => (V I J K : ℂ) * f I J K) g := by
  refine Finset.sum_congr rfl fun I _ => Finset.sum_congr rfl fun J _ =>
    Finset.sum_congr rfl fun K _ => ?_
  rw [map_mul, Complex.conj_ofReal]
  ring

/-- **C62.** The meta-GGA term is Hermitian. -/
theorem mgga_hermitian (L : Layout) (q : KPoint) (h : Fin 3 → ℝ) {T : ℕ → ℝ}
    (hT : ∀ d e : Fin 3, T (3 * d + e) = T (3 * e + d)) (V : ℕ → ℕ → ℕ → ℝ)
    (f g : ℕ → ℕ → ℕ → ℂ) :
    inner3 L f (mggaOp L q h T V g) = inner3 L (mggaOp L q h T V f) g := by
  rw [← inner3_conj L g, mgga_form, mgga_form]
  simp only [map_mul, map_sum, Complex.conj_ofReal]
  rw [Finset.sum_comm]
  have : (starRingEnd ℂ) (1 / 2) = 1 / 2 := by
    rw [map_div₀, map_one, show (2 : ℂ) = ((2 : ℝ) : ℂ) by norm_num, Complex.conj_ofReal]
  rw [this]
  refine congrArg (1 / 2 * ·) (Finset.sum_congr rfl fun d _ => Finset.sum_congr rfl fun e _ => ?_)
  rw [hT e d, inner3_conj, ← inner3_weight]

/-- The couplings are positive semidefinite. -/
def Psd (T : ℕ → ℝ) : Prop := ∀ a : Fin 3 → ℂ,
  0 ≤ (∑ d : Fin 3, ∑ e : Fin 3, (T (3 * d + e) : ℂ) * ((starRingEnd ℂ) (a d) * a e)).re

theorem psd_orth : Psd orthT := by
  intro a
  simp only [Fin.sum_univ_three]
  simp [orthT]
  nlinarith [mul_self_nonneg (a 0).re, mul_self_nonneg (a 0).im, mul_self_nonneg (a 1).re,
    mul_self_nonneg (a 1).im, mul_self_nonneg (a 2).re, mul_self_nonneg (a 2).im]

theorem lapc_gram {LV : ℕ → ℝ} {G : Coord.Geom} (hG : Coord.transformMat LV = some G)
    (d e : Fin 3) : G.lapc (3 * d + e) = ∑ k : Fin 3, G.grad (3 * d + k) * G.grad (3 * e + k) := by
  obtain ⟨-, -, -, -, -, hl, -⟩ := Coord.transformMat_some hG
  rw [hl]
  have h1 : (3 * (d : ℕ) + e) / 3 = d := by omega
  have h2 : (3 * (d : ℕ) + e) % 3 = e := by omega
  have r3 : List.range 3 = [0, 1, 2] := rfl
  simp only [Coord.lapcT, r3, List.foldl_cons, List.foldl_nil, h1, h2, Fin.sum_univ_three]
  simp

theorem psd_lapc {LV : ℕ → ℝ} {G : Coord.Geom} (hG : Coord.transformMat LV = some G) :
    Psd G.lapc := by
  intro a
  have e : ∑ d : Fin 3, ∑ e : Fin 3, (G.lapc (3 * d + e) : ℂ) * ((starRingEnd ℂ) (a d) * a e) =
      ∑ k : Fin 3, (starRingEnd ℂ) (∑ d : Fin 3, (G.grad (3 * d + k) : ℂ) * a d) *
        (∑ d : Fin 3, (G.grad (3 * d + k) : ℂ) * a d) := by
    simp only [lapc_gram hG, Fin.sum_univ_three, map_add, map_mul, Complex.conj_ofReal]
    push_cast
    ring
  rw [e, Complex.re_sum]
  refine Finset.sum_nonneg fun k _ => ?_
  rw [← Complex.normSq_eq_conj_mul_self, Complex.ofReal_re]
  exact Complex.normSq_nonneg _

theorem lapc_symm' {LV : ℕ → ℝ} {G : Coord.Geom} (hG : Coord.transformMat LV = some G)
    (d e : Fin 3) : G.lapc (3 * d + e) = G.lapc (3 * e + d) := by
  rw [lapc_gram hG, lapc_gram hG]
  exact Finset.sum_congr rfl fun k _ => mul_comm _ _

theorem orth_symm (d e : Fin 3) : orthT (3 * d + e) = orthT (3 * e + d) := by
  revert d e
  refine fin3 (fin3 ?_ ?_ ?_) (fin3 ?_ ?_ ?_) (fin3 ?_ ?_ ?_) <;> simp [orthT]

/-- **C62.** The meta-GGA term has no negative energy where its potential is not negative. -/
theorem mgga_nonneg (L : Layout) (q : KPoint) (h : Fin 3 → ℝ) {T : ℕ → ℝ} (hT : Psd T)
    {V : ℕ → ℕ → ℕ → ℝ} (hV : ∀ I J K, I < L.N 0 → J < L.N 1 → K < L.N 2 → 0 ≤ V I J K)
    (f : ℕ → ℕ → ℕ → ℂ) : 0 ≤ (inner3 L f (mggaOp L q h T V f)).re := by
  rw [mgga_form]
  have e : ∑ d : Fin 3, ∑ e : Fin 3, (T (3 * d + e) : ℂ) *
      inner3 L (fun I J K => Dc L.FDn h d (bloch L q f) I J K)
        (fun I J K => (V I J K : ℂ) * Dc L.FDn h e (bloch L q f) I J K) =
      ∑ I ∈ Finset.range (L.N 0), ∑ J ∈ Finset.range (L.N 1), ∑ K ∈ Finset.range (L.N 2),
        (V I J K : ℂ) * ∑ d : Fin 3, ∑ e : Fin 3, (T (3 * d + e) : ℂ) *
          ((starRingEnd ℂ) (Dc L.FDn h d (bloch L q f) I J K) *
            Dc L.FDn h e (bloch L q f) I J K) := by
    unfold inner3
    simp only [Finset.mul_sum, Fin.sum_univ_three, ← Finset.sum_add_distrib]
    refine Finset.sum_congr rfl fun I _ => Finset.sum_congr rfl fun J _ =>
      Finset.sum_congr rfl fun K _ => ?_
    ring
  have h2 : ((1 / 2 : ℂ)) = ((1 / 2 : ℝ) : ℂ) := by push_cast; ring
  rw [e, h2, Complex.re_ofReal_mul]
  refine mul_nonneg (by norm_num) ?_
  simp only [Complex.re_sum]
  refine Finset.sum_nonneg fun I hI => Finset.sum_nonneg fun J hJ => Finset.sum_nonneg fun K hK => ?_
  rw [Complex.re_ofReal_mul]
  have := hT fun d => Dc L.FDn h d (bloch L q f) I J K
  rw [Complex.re_sum] at this
  simp only [Complex.re_sum] at this
  exact mul_nonneg (hV I J K (Finset.mem_range.1 hI) (Finset.mem_range.1 hJ) (Finset.mem_range.1 hK))
    this

/-! ### The Hamiltonian is Hermitian -/

/-- Inner product of two spinor functions. -/
noncomputable def innerS (L : Layout) (ns : ℕ) (f g : ℕ → ℕ → ℕ → ℕ → ℂ) : ℂ :=
  ∑ s ∈ Finset.range ns, inner3 L (f s) (g s)

theorem innerS_add_right (L : Layout) (ns : ℕ) (f g g' : ℕ → ℕ → ℕ → ℕ → ℂ) :
    innerS L ns f (fun s I J K => g s I J K + g' s I J K) = innerS L ns f g + innerS L ns f g' := by
  unfold innerS
  rw [← Finset.sum_add_distrib]
  exact Finset.sum_congr rfl fun s _ => inner3_add_right L _ _ _

theorem innerS_add_left (L : Layout) (ns : ℕ) (f f' g : ℕ → ℕ → ℕ → ℕ → ℂ) :
    innerS L ns (fun s I J K => f s I J K + f' s I J K) g = innerS L ns f g + innerS L ns f' g := by
  unfold innerS
  rw [← Finset.sum_add_distrib]
  exact Finset.sum_congr rfl fun s _ => inner3_add_left L _ _ _

/-- **C62.** The Hamiltonian is Hermitian on the space of spinors. -/
theorem ham_hermitian (L : Layout) (q : KPoint) (h : Fin 3 → ℝ) (Tk : ℕ → ℝ) {Tm : ℕ → ℝ}
    (hT : ∀ d e : Fin 3, Tm (3 * d + e) = Tm (3 * e + d)) (S : Spec) {ns : ℕ}
    (hns : S.noncol = true → ns = 2) (f g : ℕ → ℕ → ℕ → ℕ → ℂ) :
    innerS L ns f (hamOp L q h Tk Tm S g) = innerS L ns (hamOp L q h Tk Tm S f) g := by
  unfold hamOp
  rw [innerS_add_right L ns f (fun s I J K => _ + _ + _), innerS_add_left L ns (fun s I J K => _ + _ + _),
    innerS_add_right L ns f (fun s I J K => _ + _), innerS_add_left L ns (fun s I J K => _ + _),
    innerS_add_right L ns f, innerS_add_left L ns]
  congr 1
  · congr 1
    · congr 1
      · refine Finset.sum_congr rfl fun s _ => ?_
        have := (adj_lapc L q L.FDn h Tk).smul (-(1 / 2)) (f s) (g s)
        push_cast at this
        exact this
      · exact Finset.sum_congr rfl fun s _ => inner3_weight L
          (fun I J K => S.V (if S.noncol then s else 0) I J K + S.c) _ _
    · by_cases hS : S.noncol = true
      · obtain rfl := hns hS
        simp only [hS, if_true]
        unfold innerS
        simp only [Finset.sum_range_succ, Finset.sum_range_zero, zero_add]
        unfold inner3
        simp only [← Finset.sum_add_distrib]
        refine Finset.sum_congr rfl fun I _ => Finset.sum_congr rfl fun J _ =>
          Finset.sum_congr rfl fun K _ => ?_
        simp only [map_mul, map_add, map_neg, Complex.conj_ofReal, Complex.conj_I, if_true,
          one_ne_zero, if_false, Nat.sub_zero, Nat.sub_self]
        ring
      · simp [hS, innerS, inner3]
  · rcases hM : S.M with _ | M
    · simp [innerS, inner3]
    · exact Finset.sum_congr rfl fun s _ => mgga_hermitian L q h hT (M s) (f s) (g s)

/-- **C62.** What the processes compute for two orbitals satisfies `⟨f, H g⟩ = ⟨H f, g⟩`. -/
theorem hamK_hermitian {L : Layout} (hF : L.Fits) (hd : ∀ d, 0 < L.dims d) (q : KPoint)
    (dx dy dz : ℝ) (T : ℕ → ℝ) {A A' : Input} {S : Spec} {ns : ℕ} (hA : Holds L A S ns)
    (hA' : Holds L A' S ns) {g g' : ℕ → ℕ → ℕ → ℕ → ℕ → ℂ} (hx : Orbitals L A ns g)
    (hx' : Orbitals L A' ns g') {n n' : ℕ} (hn : n < A.ncol) (hn' : n' < A'.ncol)
    {F F' : ℕ → ℕ → ℕ → ℕ → ℂ}
    (hY : ∀ s < ns, Computes L (fun p n => hamK L (coefs0 L.FDn dx dy dz) q 0 T A p n s) n (F s))
    (hY' : ∀ s < ns,
      Computes L (fun p n => hamK L (coefs0 L.FDn dx dy dz) q 0 T A' p n s) n' (F' s)) :
    innerS L ns (g' n') F = innerS L ns F' (g n) := by
  have key : ∀ {A : Input} (_ : Holds L A S ns) {g : ℕ → ℕ → ℕ → ℕ → ℕ → ℂ} (_ : Orbitals L A ns g)
      {n : ℕ} (_ : n < A.ncol) {F : ℕ → ℕ → ℕ → ℕ → ℂ} (_ : ∀ s < ns,
        Computes L (fun p n => hamK L (coefs0 L.FDn dx dy dz) q 0 T A p n s) n (F s)),
      ∀ s < ns, ∀ I J K, I < L.N 0 → J < L.N 1 → K < L.N 2 →
        F s I J K = hamOp L q ![dx, dy, dz] orthT orthT S (g n) s I J K := by
    intro A hA g hx n hn F hY s hs I J K hI hJ hK
    refine computes_unique hd (hY s hs) (fun p hp i hi j hj k hk => ?_) hI hJ hK
    obtain ⟨y, h1, h2⟩ := hamK_correct hF q dx dy dz T hA hx hn hs p hp
    exact ⟨y, h1, h2 i hi j hj k hk⟩
  have h1 : innerS L ns (g' n') F = innerS L ns (g' n') (hamOp L q ![dx, dy, dz] orthT orthT S (g n)) :=
    Finset.sum_congr rfl fun s hs => inner3_congr L (fun _ _ _ _ _ _ => rfl)
      (key hA hx hn hY s (Finset.mem_range.1 hs))
  have h2 : innerS L ns F' (g n) = innerS L ns (hamOp L q ![dx, dy, dz] orthT orthT S (g' n')) (g n) :=
    Finset.sum_congr rfl fun s hs => inner3_congr L
      (key hA' hx' hn' hY' s (Finset.mem_range.1 hs)) (fun _ _ _ _ _ _ => rfl)
  rw [h1, h2, ham_hermitian L q _ orthT orth_symm S hA.two]

/-- **C62.** The same for an oblique cell. -/
theorem hamK_hermitian_oblique {L : Layout} (hF : L.Fits) (hd : ∀ d, 0 < L.dims d) (q : KPoint)
    (LV : ℕ → ℝ) (G : Coord.Geom) (hG : Coord.transformMat LV = some G) (h10 : 10 < G.cellTyp)
    (dx dy dz : ℝ) {A A' : Input} {S : Spec} {ns : ℕ} (hA : Holds L A S ns)
    (hA' : Holds L A' S ns) {g g' : ℕ → ℕ → ℕ → ℕ → ℕ → ℂ} (hx : Orbitals L A ns g)
    (hx' : Orbitals L A' ns g') {n n' : ℕ} (hn : n < A.ncol) (hn' : n' < A'.ncol)
    {F F' : ℕ → ℕ → ℕ → ℕ → ℂ}
    (hY : ∀ s < ns, Computes L (fun p n =>
      hamK L (coefs G.lapc L.FDn dx dy dz) q G.cellTyp G.lapc A p n s) n (F s))
    (hY' : ∀ s < ns, Computes L (fun p n =>
      hamK L (coefs G.lapc L.FDn dx dy dz) q G.cellTyp G.lapc A' p n s) n' (F' s)) :
    innerS L ns (g' n') F = innerS L ns F' (g n) := by
  have key : ∀ {A : Input} (_ : Holds L A S ns) {g : ℕ → ℕ → ℕ → ℕ → ℕ → ℂ} (_ : Orbitals L A ns g)
      {n : ℕ} (_ : n < A.ncol) {F : ℕ → ℕ → ℕ → ℕ → ℂ} (_ : ∀ s < ns, Computes L (fun p n =>
        hamK L (coefs G.lapc L.FDn dx dy dz) q G.cellTyp G.lapc A p n s) n (F s)),
      ∀ s < ns, ∀ I J K, I < L.N 0 → J < L.N 1 → K < L.N 2 →
        F s I J K = hamOp L q ![dx, dy, dz] (kept G) G.lapc S (g n) s I J K := by
    intro A hA g hx n hn F hY s hs I J K hI hJ hK
    refine computes_unique hd (hY s hs) (fun p hp i hi j hj k hk => ?_) hI hJ hK
    obtain ⟨y, h1, h2⟩ := hamK_correct_oblique hF q LV G hG h10 dx dy dz hA hx hn hs p hp
    exact ⟨y, h1, h2 i hi j hj k hk⟩
  have h1 : innerS L ns (g' n') F =
      innerS L ns (g' n') (hamOp L q ![dx, dy, dz] (kept G) G.lapc S (g n)) :=
    Finset.sum_congr rfl fun s hs => inner3_congr L (fun _ _ _ _ _ _ => rfl)
      (key hA hx hn hY s (Finset.mem_range.1 hs))
  have h2 : innerS L ns F' (g n) =
      innerS L ns (hamOp L q ![dx, dy, dz] (kept G) G.lapc S (g' n')) (g n) :=
    Finset.sum_congr rfl fun s hs => inner3_congr L
      (key hA' hx' hn' hY' s (Finset.mem_range.1 hs)) (fun _ _ _ _ _ _ => rfl)
  rw [h1, h2, ham_hermitian L q _ (kept G) (lapc_symm' hG) S hA.two]

/-- **C62.** The Hamiltonian does not depend on the process grid. -/
theorem hamOp_grid {L L' : Layout} (hN : L'.N = L.N) (hper : L'.per = L.per)
    (hFD : L'.FDn = L.FDn) : hamOp L' = hamOp L := by
  have hb : bloch L' = bloch L := by
    funext q u I J K
    unfold bloch
    rw [hN, ext_congr hN hper]
  have hm : mggaOp L' = mggaOp L := by
    funext q h T V u I J K
    unfold mggaOp
    rw [hb, hFD]
  funext q h Tk Tm S u s I J K
  unfold hamOp
  rw [hb, hFD, hm]

/-! ### Real functions -/

theorem gradR_correct {L : Layout} (hF : L.Fits) {C : Coefs} {h : Fin 3 → ℝ}
    (hC : D1Coefs C L.FDn h) (d : Fin 3) {ldx : Proc → ℤ} {u : ℕ → ℕ → ℕ → ℝ}
    {x : Proc → Mem} (hx : Distributed L ldx 1 (fun _ => u) x) (ex0 : ℕ → Mem) {p : Proc}
    (hp : L.Valid p) :
    ∃ y, gradVectorsDir L C d 0 ldx x p ex0 (fun _ _ => 0) 0 = some y ∧
      ∀ i < L.size p 0, ∀ j < L.size p 1, ∀ k < L.size p 2,
        y (addr (L.isize p) 0 0 i j k) = D L.FDn h d (ext L u)
          (L.start p 0 + i : ℕ) (L.start p 1 + j : ℕ) (L.start p 2 + k : ℕ) := by
  obtain ⟨y, h1, h2⟩ := gradVectorsDir_correct hF hC d 0 hx hp ex0 (fun _ _ => 0) Nat.one_pos
  refine ⟨y, h1, fun i hi j hj k hk => ?_⟩
  rw [h2 i hi j hj k hk]
  unfold opR
  simp

theorem fluxR_spec (typ : ℕ) (T : ℕ → ℝ) (g : Fin 3 → ℝ) (d : Fin 3) :
    (if typ > 10 ∧ typ < 20 then
      g 0 * T (3 * d) + g 1 * T (3 * d + 1) + g 2 * T (3 * d + 2)
    else ![g 0, g 1, g 2] d) = ∑ e : Fin 3, gradT typ T (3 * d + e) * g e := by
  unfold gradT
  rw [Fin.sum_univ_three]
  split
  · simp only [Fin.val_zero, Fin.val_one, Fin.val_two, add_zero]
    ring
  · revert d
    refine fin3 ?_ ?_ ?_ <;> simp [orthT]

/-- **C62.** The meta-GGA term for real orbitals. -/
theorem mggaR_correct {L : Layout} (hF : L.Fits) {C : Coefs} {h : Fin 3 → ℝ}
    (hC : D1Coefs C L.FDn h) (typ : ℕ) (T : ℕ → ℝ) {V : ℕ → ℕ → ℕ → ℝ} {v : Proc → Mem}
    (hv : Distributed L (fun _ => 0) 1 (fun _ => V) v) {ldx : Proc → ℤ} {ncol : ℕ}
    {g : ℕ → ℕ → ℕ → ℕ → ℝ} {x : Proc → Mem} (hx : Distributed L ldx ncol g x) (ex0 : ℕ → Mem)
    (Hx : Mem) {p : Proc} (hp : L.Valid p) {n : ℕ} (hn : n < ncol) :
    ∃ y, mggaR L C typ T v ldx x ex0 Hx p n = some y ∧
      ∀ i < L.size p 0, ∀ j < L.size p 1, ∀ k < L.size p 2, y (addr (L.isize p) 0 0 i j k) =
        Hx (addr (L.isize p) 0 0 i j k) + mggaOpR L h (gradT typ T) V (g n)
          (L.start p 0 + i) (L.start p 1 + j) (L.start p 2 + k) := by
  have hx1 : Distributed L ldx 1 (fun _ => g n) (fun q a => x q (n * ldx q + a)) := one_column hx hn
  have hg : ∀ d, _ := fun d => everyone_some fun p hp => gradR_correct hF hC d hx1 ex0 hp
  choose G hG hG' using hg
  have hF' : ∀ d : Fin 3, Distributed L (nd L) 1 (fun _ I J K =>
      V I J K * ∑ e : Fin 3, gradT typ T (3 * d + e) * D L.FDn h e (ext L (g n)) I J K)
      (fun r => fluxR typ T (v r) (G 0 r) (G 1 r) (G 2 r) d) := by
    intro d r hr m hm i hi j hj k hk
    obtain rfl : m = 0 := by omega
    have e : addr (L.isize r) (nd L r) 0 i j k = addr (L.isize r) 0 0 i j k := by
      rw [addr_split]; simp
    rw [e]
    unfold fluxR
    dsimp only
    rw [fluxR_spec typ T (fun e => G e r (addr (L.isize r) 0 0 i j k)) d]
    simp only [hG' _ r hr i hi j hj k hk]
    rw [hv r hr 0 Nat.one_pos i hi j hj k hk, mul_comm]
  have h2 : ∀ d, _ := fun d => gradR_correct hF hC d (hF' d) ex0 hp
  choose W hW hW' using h2
  refine ⟨_, by
    unfold mggaR
    rw [show everyone L (gradR L C ldx x ex0 n 0) = some (G 0) from hG 0,
      show everyone L (gradR L C ldx x ex0 n 1) = some (G 1) from hG 1,
      show everyone L (gradR L C ldx x ex0 n 2) = some (G 2) from hG 2]
    simp only [Option.bind_eq_bind, Option.bind_some, hW]
    rfl, fun i hi j hj k hk => ?_⟩
  simp only [hW' _ i hi j hj k hk]
  unfold mggaOpR
  rw [Fin.sum_univ_three]
  ring

/-- **C62.** `⟨f, H_τ g⟩ = ½ Σ_de T_de Σ V (D_d f) (D_e g)` for real functions. -/
theorem mggaR_form (L : Layout) (h : Fin 3 → ℝ) (T : ℕ → ℝ) (V f g : ℕ → ℕ → ℕ → ℝ) :
    dot3 L f (mggaOpR L h T V g) = 1 / 2 * ∑ I ∈ Finset.range (L.N 0), ∑ J ∈ Finset.range (L.N 1),
      ∑ K ∈ Finset.range (L.N 2), V I J K * ∑ d : Fin 3, ∑ e : Fin 3, T (3 * d + e) *
        (D L.FDn h d (ext L f) I J K * D L.FDn h e (ext L g) I J K) := by
  have h0 : ∀ (d : Fin 3) (u : ℕ → ℕ → ℕ → ℝ), opR L h d 0 u =
      fun (I J K : ℕ) => D L.FDn h d (ext L u) I J K := by
    intro d u
    funext I J K
    unfold opR
    ring
  have h1 : ∀ (d : Fin 3) (w : ℕ → ℕ → ℕ → ℝ), dot3 L f (fun I J K => D L.FDn h d (ext L w) I J K) =
      -dot3 L (fun I J K => D L.FDn h d (ext L f) I J K) w := by
    intro d w
    have := grad_skew L h d f w
    rwa [h0, h0] at this
  have h2 : dot3 L f (mggaOpR L h T V g) = -(1 / 2) * ∑ d : Fin 3, dot3 L f (fun I J K =>
      D L.FDn h d (ext L fun I J K =>
        V I J K * ∑ e : Fin 3, T (3 * d + e) * D L.FDn h e (ext L g) I J K) I J K) := by
    unfold mggaOpR dot3
    simp only [Fin.sum_univ_three, ← Finset.sum_add_distrib, Finset.mul_sum]
    refine Finset.sum_congr rfl fun I _ => Finset.sum_congr rfl fun J _ =>
      Finset.sum_congr rfl fun K _ => ?_
    ring
  rw [h2]
  simp only [h1]
  unfold dot3
  simp only [Fin.sum_univ_three, ← Finset.sum_add_distrib, ← Finset.sum_neg_distrib, Finset.mul_sum]
  refine Finset.sum_congr rfl fun I _ => Finset.sum_congr rfl fun J _ =>
    Finset.sum_congr rfl fun K _ => ?_
  ring

/-- **C62.** The term is symmetric on real functions. -/
theorem mggaR_symm (L : Layout) (h : Fin 3 → ℝ) {T : ℕ → ℝ}
    (hT : ∀ d e : Fin 3, T (3 * d + e) = T (3 * e + d)) (V f g : ℕ → ℕ → ℕ → ℝ) :
    dot3 L f (mggaOpR L h T V g) = dot3 L g (mggaOpR L h T V f) := by
  rw [mggaR_form, mggaR_form]
  congr 1
  refine Finset.sum_congr rfl fun I _ => Finset.sum_congr rfl fun J _ =>
    Finset.sum_congr rfl fun K _ => ?_
  rw [Finset.sum_comm]
  congr 1
  refine Finset.sum_congr rfl fun d _ => Finset.sum_congr rfl fun e _ => ?_
  rw [hT e d]
  ring

/-! ### The hypotheses can be met -/

/-- Two spinors of noncollinear spin on three by two processes, with a meta-GGA potential. -/
example (g : ℕ → ℕ → ℕ → ℕ → ℂ) (V : ℕ → ℕ → ℕ → ℕ → ℝ) (M : ℕ → ℕ → ℕ → ℕ → ℝ) (junk : MemK) :
    ∃ A : Input, A.ncol = 1 ∧ Holds exLayout A ⟨true, 3, V, some M⟩ 2 ∧
      Orbitals exLayout A 2 (fun _ => g) ∧
      innerS exLayout 2 g (hamOp exLayout exK ![1, 1, 1] orthT orthT ⟨true, 3, V, some M⟩ g) =
        innerS exLayout 2 (hamOp exLayout exK ![1, 1, 1] orthT orthT ⟨true, 3, V, some M⟩ g) g := by
  obtain ⟨x, hx⟩ := distributed_exists exLayout 2 g
  obtain ⟨v, hv⟩ := distributed_exists exLayout 4 V
  obtain ⟨m, hm⟩ := distributed_exists exLayout 2 M
  let A : Input := ⟨true, 3, 1, v, fun p => 2 * nd exLayout p, x,
    some fun s p a => m p (s * nd exLayout p + a), junk, fun _ => 0⟩
  have hA : Holds exLayout A ⟨true, 3, V, some M⟩ 2 := by
    refine ⟨rfl, rfl, hv, (fun h => nomatch h), fun M' h => ⟨_, rfl, fun s hs => ?_⟩, fun _ => rfl⟩
    cases h
    intro p hp n hn i hi j hj k hk
    refine Eq.trans ?_ (hm p hp s hs i hi j hj k hk)
    dsimp only
    congr 1
    rw [addr_split _ 0, addr_split _ (_ * _)]
    unfold nd
    simp [add_comm]
  have hX : Orbitals exLayout A 2 (fun _ => g) := by
    intro s hs p hp n hn i hi j hj k hk
    refine Eq.trans ?_ (hx p hp s hs i hi j hj k hk)
    have : n = 0 := Nat.lt_one_iff.1 hn
    subst this
    dsimp only [A]
    congr 1
    rw [addr_split _ (_ * _), addr_split _ (_ * _)]
    unfold nd
    simp [add_comm]
  refine ⟨A, rfl, hA, hX, ?_⟩
  have h0 := fun s (hs : s < 2) => hamK_correct exLayout_fits exK 1 1 1 (fun _ => 0) hA hX
    (n := 0) Nat.one_pos hs
  exact hamK_hermitian exLayout_fits (fin3 (by decide) (by decide) (by decide)) exK 1 1 1 (fun _ => 0)
    hA hA hX hX (n := 0) (n' := 0) Nat.one_pos Nat.one_pos h0 h0

/-- The term is not zero: a function with a slope somewhere has positive energy. -/
example (L : Layout) (h : Fin 3 → ℝ) (f : ℕ → ℕ → ℕ → ℝ) {I J K : ℕ} (hI : I < L.N 0)
    (hJ : J < L.N 1) (hK : K < L.N 2) (hf : D L.FDn h 0 (ext L f) I J K ≠ 0) :
    0 < dot3 L f (mggaOpR L h orthT (fun _ _ _ => 1) f) := by
  rw [mggaR_form]
  have key : ∀ I J K, 0 ≤ (1 : ℝ) * ∑ d : Fin 3, ∑ e : Fin 3, orthT (3 * d + e) *
      (D L.FDn h d (ext L f) I J K * D L.FDn h e (ext L f) I J K) := by
    intro I J K
    simp only [Fin.sum_univ_three]
    simp [orthT]
    nlinarith [mul_self_nonneg (D L.FDn h 0 (ext L f) I J K),
      mul_self_nonneg (D L.FDn h 1 (ext L f) I J K), mul_self_nonneg (D L.FDn h 2 (ext L f) I J K)]
  refine mul_pos (by norm_num) ?_
  refine Finset.sum_pos' (fun I _ => Finset.sum_nonneg fun J _ => Finset.sum_nonneg fun K _ => key _ _ _)
    ⟨I, Finset.mem_range.2 hI, ?_⟩
  refine Finset.sum_pos' (fun J _ => Finset.sum_nonneg fun K _ => key _ _ _) ⟨J, Finset.mem_range.2 hJ, ?_⟩
  refine Finset.sum_pos' (fun K _ => key _ _ _) ⟨K, Finset.mem_range.2 hK, ?_⟩
  have h2 := mul_self_pos.2 hf
  simp only [Fin.sum_univ_three]
  simp [orthT]
  nlinarith [mul_self_nonneg (D L.FDn h 1 (ext L f) I J K),
    mul_self_nonneg (D L.FDn h 2 (ext L f) I J K)]

end Sparc.Ham

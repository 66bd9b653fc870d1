import Verif.Extrap.Lemmas
import Mathlib.Data.Matrix.Mul
import Mathlib.LinearAlgebra.Matrix.ToLin
import Mathlib.Analysis.Normed.Field.Lemmas

/-!
# C97 (charge extrapolation) and C98 (density to start the ground state from)
-/

namespace Sparc.Extrap

open Finset

variable {D : Type}

/-- What is assumed of `LAPACKE_dgelsd`: it solves a solvable system. -/
def Solves (gelsd : ℝ → ℝ → ℝ → ℝ → ℝ → ℝ × ℝ) : Prop :=
  ∀ A B E p q, (∃ a b, A * a + B * b = p ∧ B * a + E * b = q) →
    A * (gelsd A B E p q).1 + B * (gelsd A B E p q).2 = p ∧
    B * (gelsd A B E p q).1 + E * (gelsd A B E p q).2 = q

/-! ### C97 -/

/-- **C97 (positions).** In a cell of fixed shape, whatever the moves, the positions the
extrapolation works with follow the atoms through the boundaries: after step `k` they are the
Cartesian start plus all moves made, while `atom_pos` differs from that by whole cells in the
periodic directions and not at all in the others. -/
theorem trajectory_unwrapped (C : Cell) (hC : C.Inv) (hr : ∀ d, 0 < C.range d) (n : ℕ) (md : Bool)
    (gelsd : ℝ → ℝ → ℝ → ℝ → ℝ → ℝ × ℝ) (disp : ℕ → Pos) (rho rhoAt : ℕ → D → ℝ) (x0 : Pos)
    (H : Hist D) (k : ℕ) (hk : 1 ≤ k) (s : St D)
    (hs : run C n md gelsd disp rho rhoAt x0 H k = some s) :
    (∀ a d, s.H.nm a d = unconv C x0 a d + ∑ i ∈ range k, disp (i + 1) a d) ∧
    ∀ a d, ∃ j : ℤ, (C.per d = false → j = 0) ∧
      conv C s.H.nm a d = conv C s.pos a d + j * C.range d := by
  obtain ⟨h, -, h1, -⟩ := run_inv hC hr k s hs
  obtain ⟨-, hn, -⟩ := h1 hk
  rw [hn]
  refine ⟨fun a d => rfl, fun a d => ?_⟩
  cases hp : C.per d with
  | true =>
    obtain ⟨j, hj⟩ := (h a d).1 hp
    exact ⟨j, by simp, hj⟩
  | false => exact ⟨0, by simp, by rw [(h a d).2 hp]; simp⟩

/-- The residual of the fit at step `k`: the move of the step less `a` times the move before and
`b` times the one before that. -/
def resid (n : ℕ) (T : ℕ → Pos) (k : ℕ) (a b : ℝ) : ℝ :=
  ∑ i ∈ range n, ∑ d, ((T k i d - T (k - 1) i d) - a * (T (k - 1) i d - T (k - 2) i d) -
    b * (T (k - 2) i d - T (k - 3) i d)) ^ 2

theorem stored_eq {C : Cell} {x0 : Pos} {disp : ℕ → Pos} {j : ℕ} (h : C.nonorth = false ∨ j ≠ 0) :
    stored C x0 disp j = traj C x0 disp j := by
  unfold stored
  split
  · rename_i hj
    subst hj
    rcases h with h | h
    · funext a d
      simp [traj, unconv, h]
    · exact absurd rfl h
  · rfl

/-- **C97 (extrapolation).** From the third step on (the fourth one in a cell that is not
orthogonal) the difference to the superposed density that is used is the one of the step before
plus `α` times the last change of it plus `β` times the change before, each belonging to the step
of the positions used, and `α`, `β` fit the move of the atoms best, through the boundaries. -/
theorem extrapolation_partial (C : Cell) (hC : C.Inv) (hr : ∀ d, 0 < C.range d) (n : ℕ) (md : Bool)
    (gelsd : ℝ → ℝ → ℝ → ℝ → ℝ → ℝ × ℝ) (hg : Solves gelsd) (disp : ℕ → Pos)
    (rho rhoAt : ℕ → D → ℝ) (x0 : Pos) (H : Hist D) (k : ℕ) (hk : 3 ≤ k)
    (hk' : C.nonorth = false ∨ 4 ≤ k) (s : St D)
    (hs : run C n md gelsd disp rho rhoAt x0 H k = some s) :
    ∃ α β : ℝ,
      (∀ a b, resid n (fun k i d => unconv C x0 i d + ∑ j ∈ range k, disp (j + 1) i d) k α β ≤
        resid n (fun k i d => unconv C x0 i d + ∑ j ∈ range k, disp (j + 1) i d) k a b) ∧
      ∀ i, s.H.d i = (rho (k - 1) i - rhoAt (k - 1) i) +
        α * ((rho (k - 1) i - rhoAt (k - 1) i) - (rho (k - 2) i - rhoAt (k - 2) i)) +
        β * ((rho (k - 2) i - rhoAt (k - 2) i) - (rho (k - 3) i - rhoAt (k - 3) i)) := by
  obtain ⟨-, -, -, -, h3⟩ := run_inv hC hr k s hs
  obtain ⟨c, hc, hd⟩ := h3 hk
  rw [stored_eq (j := k - 1) (Or.inr (by omega)), stored_eq (j := k - 2) (Or.inr (by omega)),
    stored_eq (j := k - 3) (hk'.imp id (by omega))] at hc
  refine ⟨c.1, c.2, ?_, fun i => by rw [hd]; ring⟩
  set T := traj C x0 disp with hT
  have hprod : ∀ f : ℕ → Fin 3 → ℝ, ∑ a ∈ range n, ∑ d, f a d =
      ∑ x ∈ range n ×ˢ (univ : Finset (Fin 3)), f x.1 x.2 := fun f => by
    rw [sum_product]
  simp only [hprod] at hc
  obtain ⟨h1, h2⟩ := hg _ _ _ _ _ (normal_solvable (range n ×ˢ (univ : Finset (Fin 3)))
    (fun x => T (k - 1) x.1 x.2 - T (k - 2) x.1 x.2)
    (fun x => T (k - 2) x.1 x.2 - T (k - 3) x.1 x.2)
    (fun x => T k x.1 x.2 - T (k - 1) x.1 x.2))
  rw [← hc] at h1 h2
  intro a b
  have := normal_minimal _ _ _ _ c.1 c.2 h1 h2 a b
  simp only [resid, hprod]
  exact this

/-- **C97 (exactness).** If the difference to the superposed density depends affinely on the
positions and the move of the step is a combination of the two moves before, the extrapolated
difference is the true one. -/
theorem extrapolation_exact (C : Cell) (hC : C.Inv) (hr : ∀ d, 0 < C.range d) (n : ℕ) (md : Bool)
    (gelsd : ℝ → ℝ → ℝ → ℝ → ℝ → ℝ × ℝ) (hg : Solves gelsd) (disp : ℕ → Pos)
    (rho rhoAt : ℕ → D → ℝ) (x0 : Pos) (H : Hist D) (k : ℕ) (hk : 3 ≤ k)
    (hk' : C.nonorth = false ∨ 4 ≤ k) (s : St D)
    (hs : run C n md gelsd disp rho rhoAt x0 H k = some s)
    (g : D → ℕ → Fin 3 → ℝ) (g0 : D → ℝ)
    (haff : ∀ j i, rho j i - rhoAt j i = g0 i + ∑ a ∈ range n, ∑ d,
      g i a d * (unconv C x0 a d + ∑ l ∈ range j, disp (l + 1) a d))
    (a b : ℝ) (hmove : ∀ i < n, ∀ d, disp k i d = a * disp (k - 1) i d + b * disp (k - 2) i d)
    (i : D) : s.H.d i = rho k i - rhoAt k i := by
  obtain ⟨α, β, hmin, hd⟩ := extrapolation_partial C hC hr n md gelsd hg disp rho rhoAt x0 H k hk hk'
    s hs
  obtain ⟨m, rfl⟩ : ∃ m, k = m + 3 := ⟨k - 3, by omega⟩
  simp only [Nat.add_sub_cancel, show m + 3 - 1 = m + 2 from rfl, show m + 3 - 2 = m + 1 from rfl]
    at hmin hd hmove
  have hz : resid n (fun k i d => unconv C x0 i d + ∑ j ∈ range k, disp (j + 1) i d) (m + 3) a b =
      0 := by
    refine sum_eq_zero fun i hi => sum_eq_zero fun d _ => ?_
    have := hmove i (mem_range.1 hi) d
    simp only [show m + 3 - 1 = m + 2 from rfl, show m + 3 - 2 = m + 1 from rfl,
      Nat.add_sub_cancel, sum_range_succ]
    rw [show m + 2 + 1 = m + 3 from rfl, show m + 1 + 1 = m + 2 from rfl, this]
    ring
  have hz' : resid n (fun k i d => unconv C x0 i d + ∑ j ∈ range k, disp (j + 1) i d) (m + 3) α β =
      0 := le_antisymm ((hmin a b).trans hz.le)
    (sum_nonneg fun i _ => sum_nonneg fun d _ => sq_nonneg _)
  have hmv : ∀ i ∈ range n, ∀ d, disp (m + 3) i d = α * disp (m + 2) i d + β * disp (m + 1) i d := by
    intro i hi d
    have h1 := (sum_eq_zero_iff_of_nonneg (fun i _ => sum_nonneg fun d _ => sq_nonneg _)).1 hz' i hi
    have h2 := (sum_eq_zero_iff_of_nonneg (fun d _ => sq_nonneg _)).1 h1 d (mem_univ d)
    have h3 := pow_eq_zero_iff (two_ne_zero) |>.1 h2
    simp only [show m + 3 - 1 = m + 2 from rfl, show m + 3 - 2 = m + 1 from rfl,
      Nat.add_sub_cancel, sum_range_succ] at h3
    rw [show m + 2 + 1 = m + 3 from rfl, show m + 1 + 1 = m + 2 from rfl] at h3
    linarith
  rw [hd, haff, haff, haff, haff]
  have e : ∀ j l : ℕ, ∑ a ∈ range n, ∑ d, g i a d *
      (unconv C x0 a d + ∑ l ∈ range (j + 1), disp (l + 1) a d) =
      ∑ a ∈ range n, ∑ d, g i a d * (unconv C x0 a d + ∑ l ∈ range j, disp (l + 1) a d) +
      ∑ a ∈ range n, ∑ d, g i a d * disp (j + 1) a d := by
    intro j _
    simp only [← sum_add_distrib]
    refine sum_congr rfl fun a _ => sum_congr rfl fun d _ => ?_
    rw [sum_range_succ]
    ring
  have e3 : ∑ a ∈ range n, ∑ d, g i a d * disp (m + 3) a d =
      α * ∑ a ∈ range n, ∑ d, g i a d * disp (m + 2) a d +
      β * ∑ a ∈ range n, ∑ d, g i a d * disp (m + 1) a d := by
    simp only [mul_sum, ← sum_add_distrib]
    refine sum_congr rfl fun a ha => sum_congr rfl fun d _ => ?_
    rw [hmv a ha d]
    ring
  rw [e (m + 2) 0, e (m + 1) 0, e m 0, e3]
  ring

/-- A solver as assumed exists. -/
noncomputable def exGelsd (A B E p q : ℝ) : ℝ × ℝ := by
  classical exact
    if h : ∃ c : ℝ × ℝ, A * c.1 + B * c.2 = p ∧ B * c.1 + E * c.2 = q then h.choose else (0, 0)

theorem exGelsd_solves : Solves exGelsd := by
  intro A B E p q ⟨a, b, h1, h2⟩
  have h : ∃ c : ℝ × ℝ, A * c.1 + B * c.2 = p ∧ B * c.1 + E * c.2 = q := ⟨(a, b), h1, h2⟩
  unfold exGelsd
  rw [dif_pos h]
  exact h.choose_spec

/-- A periodic cell with edges 10 along the axes. -/
def exC : Cell := ⟨fun _ => true, fun _ => 10, false, LinearMap.id, LinearMap.id⟩

/-- Empty arrays. -/
def exH : Hist Unit := ⟨0, 0, 0, 0, 0, 0, 0, 0⟩

/-- One atom that moves by 4 along x in each step and leaves the cell in the second one; the density
difference is the distance travelled, and so is the extrapolated one at step 3. -/
example : ∃ s, run exC 1 true exGelsd (fun _ _ d => if d = 0 then 4 else 0)
      (fun j (_ : Unit) => 3 + 4 * (j : ℝ)) (fun _ _ => 0) (fun _ _ => 3) exH 3 = some s ∧
    s.H.nm 0 0 = 15 ∧ s.H.d () = 15 := by
  obtain ⟨s, hs⟩ := run_some (C := exC) (fun _ => rfl) (n := 1) (md := true) (gelsd := exGelsd)
    (disp := fun _ _ d => if d = 0 then 4 else 0) (rho := fun j (_ : Unit) => 3 + 4 * (j : ℝ))
    (rhoAt := fun _ _ => 0) (x0 := fun _ _ => 3) (H := exH) 3
  have hC : exC.Inv := ⟨fun _ => rfl, fun _ => rfl⟩
  have hr : ∀ d, 0 < exC.range d := fun d => by simp [exC]
  refine ⟨s, hs, ?_, ?_⟩
  · rw [(trajectory_unwrapped exC hC hr 1 true exGelsd _ _ _ _ exH 3 (by norm_num) s hs).1]
    simp [unconv, exC]
    norm_num
  · rw [extrapolation_exact exC hC hr 1 true exGelsd exGelsd_solves _ _ _ _ exH 3 le_rfl
      (Or.inl rfl) s hs (fun _ _ d => if d = 0 then 1 else 0) (fun _ => 0) (fun j i => by
        simp [unconv, exC]; ring) 1 0 (fun i _ d => by simp) ()]
    norm_num

/-- A cell with the unit vectors `(1,0,0)`, `(3/5,4/5,0)`, `(0,0,1)`. -/
noncomputable def skC : Cell :=
  ⟨fun _ => true, fun _ => 10, true,
    Matrix.mulVecLin !![1, -3/4, 0; 0, 5/4, 0; 0, 0, 1],
    Matrix.mulVecLin !![1, 3/5, 0; 0, 4/5, 0; 0, 0, 1]⟩

theorem skC_inv : skC.Inv := by
  constructor <;>
  · intro v
    simp only [skC, Matrix.mulVecLin_apply, Matrix.mulVec_mulVec]
    funext d
    fin_cases d <;> simp [Matrix.mulVec, dotProduct, Fin.sum_univ_three, Matrix.mul_apply] <;> ring_nf <;> simp

/-- Moves along x, y and again x. -/
def skDisp (k : ℕ) (_ : ℕ) (d : Fin 3) : ℝ :=
  if k = 2 then (if d = 1 then 1 else 0) else (if d = 0 then 1 else 0)

/-- **C97 (first extrapolation in a cell that is not orthogonal).** There the positions of the first
ground state are kept in cell coordinates and all later ones in Cartesian coordinates, so the
differences of the first extrapolation mix the two: the atom starts at `(3,4,0)` and moves along x, y
and x, the density difference is its x coordinate, the third move repeats the first, and still the
extrapolated difference is `17/4` and not the true `5`. -/
theorem first_extrapolation_mixes_coordinates : ∃ s,
    run skC 1 true exGelsd skDisp (fun j (_ : Unit) => if j = 0 then 3 else if j ≤ 2 then 4 else 5)
      (fun _ _ => 0) (fun _ => ![0, 5, 0]) exH 3 = some s ∧
    (∀ j ≤ 3, (if j = 0 then (3 : ℝ) else if j ≤ 2 then 4 else 5) =
      unconv skC (fun _ => ![0, 5, 0]) 0 0 + ∑ l ∈ range j, skDisp (l + 1) 0 0) ∧
    (∀ d, skDisp 3 0 d = skDisp 1 0 d) ∧ s.H.d () = 17 / 4 := by
  have hr : ∀ d, 0 < skC.range d := fun d => by simp [skC]
  obtain ⟨s, hs⟩ := run_some (C := skC) (fun _ => rfl) (n := 1) (md := true) (gelsd := exGelsd)
    (disp := skDisp) (rho := fun j (_ : Unit) => if j = 0 then (3 : ℝ) else if j ≤ 2 then 4 else 5)
    (rhoAt := fun _ _ => 0) (x0 := fun _ => ![0, 5, 0]) (H := exH) 3
  have hx : ∀ a, unconv skC (fun _ => ![0, 5, 0]) a = ![3, 4, 0] := by
    intro a
    simp only [unconv, skC, if_true, Matrix.mulVecLin_apply]
    funext d
    fin_cases d <;> simp [Matrix.mulVec, dotProduct, Fin.sum_univ_three] <;> norm_num
  refine ⟨s, hs, ?_, fun d => by simp [skDisp], ?_⟩
  · intro j hj
    rw [hx]
    interval_cases j <;> simp [sum_range_succ, skDisp] <;> norm_num
  · obtain ⟨-, -, -, -, h3⟩ := run_inv skC_inv hr 3 s hs
    obtain ⟨c, hc, hd⟩ := h3 le_rfl
    have t1 : ∀ d, stored skC (fun _ => ![0, 5, 0]) skDisp 1 0 d = ![4, 4, 0] d := by
      intro d
      simp only [stored, one_ne_zero, if_false, traj, hx, sum_range_succ, range_zero, sum_empty]
      fin_cases d <;> simp [skDisp] <;> norm_num
    have t2 : ∀ d, stored skC (fun _ => ![0, 5, 0]) skDisp 2 0 d = ![4, 5, 0] d := by
      intro d
      simp only [stored, OfNat.ofNat_ne_zero, if_false, traj, hx, sum_range_succ, range_zero,
        sum_empty]
      fin_cases d <;> simp [skDisp] <;> norm_num
    have t3 : ∀ d, traj skC (fun _ => ![0, 5, 0]) skDisp 3 0 d = ![5, 5, 0] d := by
      intro d
      simp only [traj, hx, sum_range_succ, range_zero, sum_empty]
      fin_cases d <;> simp [skDisp] <;> norm_num
    have t0 : ∀ d, stored skC (fun _ => ![0, 5, 0]) skDisp 0 0 d = ![0, 5, 0] d := fun d => rfl
    simp only [show 3 - 1 = 2 from rfl, show 3 - 2 = 1 from rfl, show 3 - 3 = 0 from rfl,
      sum_range_one, t0, t1, t2, t3, Fin.sum_univ_three] at hc
    simp at hc
    norm_num at hc
    obtain ⟨h1, h2⟩ := exGelsd_solves 1 (-1) 17 0 4 ⟨1 / 4, 1 / 4, by norm_num, by norm_num⟩
    rw [← hc] at h1 h2
    have hb : c.2 = 1 / 4 := by linarith
    have ha : c.1 = 1 / 4 := by linarith
    rw [hd, ha, hb]
    norm_num

/-- **C97 (conjugate gradients).** In that relaxation the trial position `y + σ d` is given to the
extrapolation and wrapped, and the next call gets `y + α d`, counted from the unwrapped `y`.  A
coordinate whose trial position was in the next cell then jumps by a whole cell in the stored
positions: they become `y + α d + range` where the others get `y + α d`. -/
theorem nlcg_history_jump (C : Cell) (ho : C.nonorth = false) (hp : ∀ d, C.per d = true) (n gs : ℕ)
    (hgs : 2 ≤ gs) (gelsd : ℝ → ℝ → ℝ → ℝ → ℝ → ℝ × ℝ) (rho rhoAt rho' rhoAt' : D → ℝ)
    (y dir : Pos) (σ α : ℝ) (H H1 H2 : Hist D) (hH : H.nm = y)
    (hy : ∀ a d, 0 ≤ y a d ∧ y a d < C.range d)
    (h1 : extrap C n false 0 gs gelsd (fun a d => y a d + σ * dir a d) rho rhoAt H = some H1)
    (h2 : extrap C n false 0 (gs + 1) gelsd (fun a d => y a d + α * dir a d) rho' rhoAt' H1 =
      some H2) (a : ℕ) (d : Fin 3) :
    (0 ≤ y a d + σ * dir a d ∧ y a d + σ * dir a d < C.range d → H2.nm a d = y a d + α * dir a d) ∧
    (C.range d ≤ y a d + σ * dir a d ∧ y a d + σ * dir a d < 2 * C.range d →
      H2.nm a d = y a d + α * dir a d + C.range d) := by
  have hr : ∀ d, 0 < C.range d := fun d => lt_of_le_of_lt (hy 0 d).1 (hy 0 d).2
  have hcv : ∀ x, conv C x = x := fun x => by simp [conv, ho]
  have hun : ∀ x, unconv C x = x := fun x => by simp [unconv, ho]
  have hw : ∀ x, wrapDyn C n x = some fun a d => Wrap.wrap (C.range d) (x a d) := by
    intro x
    unfold wrapDyn
    dsimp only
    rw [if_neg]
    · simp only [hp, if_true, hcv]
    · rintro ⟨a, -, d, hp', -⟩
      rw [hp d] at hp'
      exact absurd hp' (by simp)
  have hnm : ∀ (g : ℕ) (hg : 2 ≤ g) (K K' : Hist D) (pos : Pos) (r r' : D → ℝ),
      extrap C n false 0 g gelsd pos r r' K = some K' →
      K'.nm = fun a d => K.nm a d + (pos a d - Wrap.wrap (C.range d) (K.nm a d)) := by
    intro g hg K K' pos r r' h
    have e : newPos C n false 0 g K.nm pos =
        some fun a d => K.nm a d + (pos a d - Wrap.wrap (C.range d) (K.nm a d)) := by
      unfold newPos
      have hne : ¬ (if (false : Bool) = true then 0 else g) = 1 := by simp; omega
      rw [if_neg hne]
      unfold unwrap
      rw [hw]
      simp only [Option.bind_eq_bind, Option.bind_some, hcv, hun]
    unfold extrap at h
    rw [e] at h
    simp only [Option.bind_eq_bind, Option.bind_some, Option.some.injEq] at h
    rw [← h]
  have e1 := hnm gs hgs H H1 _ rho rhoAt h1
  have e2 := hnm (gs + 1) (by omega) H1 H2 _ rho' rhoAt' h2
  have v1 : H1.nm a d = y a d + σ * dir a d := by
    rw [e1, hH]
    dsimp only
    rw [Wrap.wrap_id (hy a d).1 (hy a d).2]
    ring
  rw [e2]
  dsimp only
  rw [v1]
  constructor
  · rintro ⟨p, q⟩
    rw [Wrap.wrap_id p q]
    ring
  · rintro ⟨p, q⟩
    rw [wrap_congr (y := y a d + σ * dir a d - C.range d) (hr d) ⟨1, by push_cast; ring⟩ (by linarith)
      (by linarith)]
    ring

/-- An atom at 9.5 in a cell of 10, trial step 1, then step 1/2: stored at 20 instead of 10. -/
example : ∃ H1 H2 : Hist Unit,
    extrap exC 1 false 0 2 exGelsd (fun _ _ => 9.5 + 1 * 1) 0 0 { exH with nm := fun _ _ => 9.5 } =
      some H1 ∧
    extrap exC 1 false 0 3 exGelsd (fun _ _ => 9.5 + 0.5 * 1) 0 0 H1 = some H2 ∧
    H2.nm 0 0 = 20 := by
  have hex : ∀ (g : ℕ) (pos : Pos) (K : Hist Unit), 2 ≤ g →
      ∃ K', extrap exC 1 false 0 g exGelsd pos 0 0 K = some K' := by
    intro g pos K hg
    unfold extrap newPos unwrap wrapDyn
    have hne : ¬ (if (false : Bool) = true then 0 else g) = 1 := by simp; omega
    rw [if_neg hne]
    simp [exC]
  obtain ⟨H1, h1⟩ := hex 2 (fun _ _ => 9.5 + 1 * 1) { exH with nm := fun _ _ => 9.5 } le_rfl
  obtain ⟨H2, h2⟩ := hex 3 (fun _ _ => 9.5 + 0.5 * 1) H1 (by norm_num)
  refine ⟨H1, H2, h1, h2, ?_⟩
  rw [(nlcg_history_jump exC rfl (fun _ => rfl) 1 2 le_rfl exGelsd 0 0 0 0 (fun _ _ => 9.5)
    (fun _ _ => 1) 1 0.5 _ H1 H2 rfl (fun a d => by simp [exC]; norm_num) h1 h2 0 0).2
    (by simp [exC]; norm_num)]
  simp [exC]
  norm_num

/-! ### C98 -/

/-- The integral over the grid points of all processes. -/
noncomputable def integral (P : Par) (f : ℕ → ℕ → ℝ) : ℝ :=
  ∑ p ∈ range P.np, ∑ i ∈ range (P.nd p), f p i * (if P.cyclix then P.wt p i else P.dV)

theorem intRho_eq (P : Par) (f : ℕ → ℕ → ℝ) : intRho P f = integral P f := by
  unfold intRho integral
  split
  · rfl
  · simp only [sum_mul]

theorem integral_mul (P : Par) (f : ℕ → ℕ → ℝ) (c : ℝ) :
    integral P (fun p i => f p i * c) = integral P f * c := by
  unfold integral
  rw [sum_mul]
  refine sum_congr rfl fun p _ => ?_
  rw [sum_mul]
  exact sum_congr rfl fun i _ => by ring

/-- **C98 (charge).** From the second ground state on, the density to start from integrates to the
charge of the pseudocharges, whatever was extrapolated (it must not integrate to zero). -/
theorem guess_charge_partial (P : Par) (gs : ℕ) (hgs : 1 ≤ gs) (rhoAt delta rho : ℕ → ℕ → ℝ)
    (h0 : integral P (rawDens P gs rhoAt delta rho) ≠ 0) :
    integral P (initDens P gs rhoAt delta rho) = P.PosCharge := by
  have hne : gs ≠ 0 := by omega
  unfold initDens
  rw [if_neg hne]
  set r := rawDens P gs rhoAt delta rho with hr
  rw [intRho_eq]
  rw [integral_mul, mul_div_cancel₀ _ h0]

/-- **C98 (first guess).** The superposed density of the first ground state integrates to the charge
of the pseudocharges less the net charge: the number of electrons. -/
theorem first_guess_charge (P : Par) (NetCharge : ℝ) (f : ℕ → ℕ → ℝ) (h0 : integral P f ≠ 0)
    (delta rho : ℕ → ℕ → ℝ) :
    integral P (initDens P 0 (atScale NetCharge P.PosCharge (-integral P f) f) delta rho) =
      P.PosCharge - NetCharge := by
  unfold initDens
  rw [if_pos rfl]
  unfold atScale
  rw [integral_mul]
  field_simp
  ring

/-- **C98 (charged systems).** With a net charge the later guesses therefore do not have the number
of electrons `Nelectron = PosCharge - NetCharge`: they are off by the net charge in every step. -/
theorem charged_guess_wrong (P : Par) (NetCharge Nelectron : ℝ) (hc : NetCharge ≠ 0)
    (hN : Nelectron = P.PosCharge - NetCharge) (gs : ℕ) (hgs : 1 ≤ gs)
    (rhoAt delta rho : ℕ → ℕ → ℝ) (h0 : integral P (rawDens P gs rhoAt delta rho) ≠ 0) :
    integral P (initDens P gs rhoAt delta rho) - Nelectron = NetCharge ∧
    integral P (initDens P gs rhoAt delta rho) ≠ Nelectron := by
  rw [guess_charge_partial P gs hgs rhoAt delta rho h0, hN]
  refine ⟨by ring, fun h => hc (by linarith)⟩

/-- **C98 (sign).** An extrapolated guess is nowhere negative, however large the extrapolated difference is. -/
theorem guess_nonneg (P : Par) (hw : ∀ p i, 0 ≤ P.wt p i) (hV : 0 ≤ P.dV) (hQ : 0 ≤ P.PosCharge)
    (ht : 0 ≤ P.rhotol) (hm : P.moving = true) (gs : ℕ) (hgs : 3 ≤ gs)
    (rhoAt delta rho : ℕ → ℕ → ℝ) (p i : ℕ) :
    0 ≤ initDens P gs rhoAt delta rho p i := by
  have hne : gs ≠ 0 := by omega
  have hraw : ∀ p i, 0 ≤ rawDens P gs rhoAt delta rho p i := by
    intro p i
    unfold rawDens
    rw [if_pos ⟨hgs, hm⟩]
    dsimp only
    split
    · exact ht
    · rename_i h
      exact not_lt.mp h
  unfold initDens
  rw [if_neg hne, intRho_eq]
  refine mul_nonneg (hraw p i) (div_nonneg hQ ?_)
  refine sum_nonneg fun p _ => sum_nonneg fun i _ => mul_nonneg (hraw p i) ?_
  split
  · exact hw p i
  · exact hV

/-- **C98 (what is extrapolated).** Where superposed density plus extrapolated difference is not
negative anywhere and already has the right charge, it is used unchanged. -/
theorem guess_is_extrapolation (P : Par) (hm : P.moving = true) (gs : ℕ) (hgs : 3 ≤ gs)
    (rhoAt delta rho : ℕ → ℕ → ℝ) (hpos : ∀ p i, 0 ≤ rhoAt p i + delta p i) (hQ : P.PosCharge ≠ 0)
    (hint : integral P (fun p i => rhoAt p i + delta p i) = P.PosCharge) :
    initDens P gs rhoAt delta rho = fun p i => rhoAt p i + delta p i := by
  have hraw : rawDens P gs rhoAt delta rho = fun p i => rhoAt p i + delta p i := by
    funext p i
    unfold rawDens
    rw [if_pos ⟨hgs, hm⟩]
    dsimp only
    rw [if_neg (not_lt.mpr (hpos p i))]
  have hne : gs ≠ 0 := by omega
  unfold initDens
  rw [if_neg hne, hraw, intRho_eq, hint, div_self hQ]
  simp

/-- **C98 (before the third step).** The first two moves start from the density of the ground state
before, scaled. -/
theorem guess_early (P : Par) (gs : ℕ) (h1 : 1 ≤ gs) (h2 : gs ≤ 2) (rhoAt delta rho : ℕ → ℕ → ℝ)
    (hQ : P.PosCharge ≠ 0) (hint : integral P rho = P.PosCharge) :
    initDens P gs rhoAt delta rho = rho := by
  have hraw : rawDens P gs rhoAt delta rho = rho := by
    funext p i
    unfold rawDens
    have hn : ¬ (gs ≥ 3 ∧ P.moving = true) := by omega
    rw [if_neg hn]
  have hne : gs ≠ 0 := by omega
  unfold initDens
  rw [if_neg hne, hraw, intRho_eq, hint, div_self hQ]
  simp

/-- **C98 (spin).** The two diagonal densities add up to the guess and differ by the magnetisation
of the step before. -/
theorem guess_spin (P : Par) (gs : ℕ) (rhoAt delta rho mag : ℕ → ℕ → ℝ) (p i : ℕ) :
    let c := initSpin P gs rhoAt delta rho mag
    c.1 p i + c.2 p i = initDens P gs rhoAt delta rho p i ∧ c.1 p i - c.2 p i = mag p i := by
  simp only [initSpin]
  constructor <;> ring

/-- One process, two points. -/
def exP : Par := ⟨1, fun _ => 2, false, fun _ _ => 1, 1, 4, 1e-14, true⟩

/-- **C98 (negative spin density).** The magnetisation is not limited by the extrapolated density: a
guess that is nowhere negative can have a negative minority density. -/
theorem guess_spin_negative : ∃ rhoAt delta rho mag : ℕ → ℕ → ℝ,
    (∀ p i, |mag p i| ≤ rho p i) ∧
    (∀ p i, 0 ≤ initDens exP 3 rhoAt delta rho p i) ∧
    (initSpin exP 3 rhoAt delta rho mag).2 0 0 < 0 := by
  refine ⟨fun _ i => if i = 0 then 1 else 3, fun _ _ => 0, fun _ _ => 2, fun _ _ => 2, ?_, ?_, ?_⟩
  · intro p i
    simp
  · intro p i
    exact guess_nonneg exP (fun _ _ => by simp [exP]) (by simp [exP]) (by simp [exP]) (by norm_num [exP])
      rfl 3 le_rfl _ _ _ p i
  · have h := guess_is_extrapolation exP rfl 3 le_rfl (fun _ i => if i = 0 then 1 else 3)
      (fun _ _ => 0) (fun _ _ => 2) (fun p i => by split <;> norm_num)
      (by simp [exP]) (by simp [integral, exP, sum_range_succ]; norm_num)
    simp only [initSpin, h]
    norm_num

/-- The guess of that witness has charge 4. -/
example : integral exP (initDens exP 3 (fun _ i => if i = 0 then 1 else -3) (fun _ _ => 0)
    (fun _ _ => 2)) = 4 :=
  guess_charge_partial exP 3 (by norm_num) _ _ _ (by
    simp [integral, rawDens, exP, sum_range_succ]; norm_num)

/-- Net charge 1: one electron too many. -/
example : integral exP (initDens exP 1 (fun _ _ => 0) (fun _ _ => 0) (fun _ _ => 1.5)) - 3 = 1 :=
  (charged_guess_wrong exP 1 3 one_ne_zero (by norm_num [exP]) 1 le_rfl _ _ _ (by
    simp [integral, rawDens, exP]; norm_num)).1

/-- First guess with net charge 1. -/
example : integral exP (initDens exP 0 (atScale 1 exP.PosCharge
    (-integral exP fun _ _ => 1) fun _ _ => 1) (fun _ _ => 0) (fun _ _ => 0)) = 3 := by
  rw [first_guess_charge exP 1 (fun _ _ => 1) (by simp [integral, exP])]
  norm_num [exP]

/-- The density of the step before. -/
example : initDens exP 2 (fun _ _ => 7) (fun _ _ => 1) (fun _ _ => 2) = fun _ _ => 2 :=
  guess_early exP 2 (by norm_num) le_rfl _ _ _ (by simp [exP])
    (by simp [integral, exP]; norm_num)

end Sparc.Extrap

import Verif.Pchg.Ref
import Verif.Pchg.Grid

/-!
# Pseudocharge densities: properties

* C77: the reference potential is the potential of a smooth unit charge inside the cutoff (the
  theorems in `Verif.Pchg.Ref`, the example here).
* C78: after the loops every node holds, for `b`, `b_ref`, `V_c`, the atomic density, the core
  density and the magnetisation, the sum over all atoms and all their images whose box contains
  the node, whatever the division of the grid.
* C79: total charges, energy correction, scaled density, right hand side of Poisson's equation
  and shift of the potential, over all the processes.
-/

namespace Sparc.Pchg

open Loop Lap Finset

/-- At three quarters of a cutoff of 1 the reference potential of a unit charge is below the
Coulomb value `4/3`. -/
example : 1 < vref 1 1 (3 / 4) ∧ vref 1 1 (3 / 4) < 4 / 3 := by
  unfold vref
  rw [if_pos (by norm_num)]
  norm_num

/-! ### The functions of the distance -/

/-- **C78 (potential of an atom).**  The local pseudopotential is the tabulated `r V(r)` divided
by `r`, the stored value at the nucleus and the Coulomb potential of the ion outside the radial
grid. -/
theorem vj_spec (S : Spec) (r : ℝ) :
    (|r| < 1 / 10 ^ 12 → vj S r = S.Vloc0) ∧
    (1 / 10 ^ 12 ≤ |r| → r ≤ S.rchrg → vj S r = S.rV r / r) ∧
    (1 / 10 ^ 12 ≤ |r| → S.rchrg < r → vj S r = -S.Z / r) := by
  unfold vj Infl.tol
  refine ⟨fun h => if_pos h, fun h h' => ?_, fun h h' => ?_⟩
  · rw [if_neg (not_lt.2 h), if_neg (not_lt.2 h')]
  · rw [if_neg (not_lt.2 h), if_pos h']

/-- **C78 (densities of an atom).**  Tabulated inside the radial grid, zero outside. -/
theorem rhoj_spec (S : Spec) (r : ℝ) :
    (r ≤ S.rchrg → rhoj S r = S.rho r ∧ rhocj S r = S.rhoc r) ∧
    (S.rchrg < r → rhoj S r = 0 ∧ rhocj S r = 0) := by
  unfold rhoj rhocj
  refine ⟨fun h => ?_, fun h => ?_⟩
  · rw [if_neg (not_lt.2 h), if_neg (not_lt.2 h)]
    exact ⟨rfl, rfl⟩
  · rw [if_pos h, if_pos h]
    exact ⟨rfl, rfl⟩

/-- **C78 (no correction outside).**  Where both the radial grid and the reference cutoff have
ended, the potential and the reference potential agree. -/
theorem vc_support (S : Spec) (rc r : ℝ) (hr : 1 / 10 ^ 12 ≤ r) (h1 : S.rchrg < r) (h2 : rc < r) :
    vref rc (-S.Z) r - vj S r = 0 := by
  rw [vref_tail _ _ _ h2, (vj_spec S r).2.2 (hr.trans (le_abs_self r)) h1, sub_self]

/-! ### Grid functions -/

/-- The charge `-∇²V/4π` at the node `n` of the potentials `v S` placed at all the images. -/
noncomputable def charge (B : Infl.Geo) (Ts : List (Spec × Infl.Typ)) (pos : ℕ → ℝ)
    (dist : ℝ × ℝ × ℝ → ℝ × ℝ × ℝ → ℝ) (op : Fun3 → Fun3) (v : Spec → ℝ → ℝ) (n : ℤ × ℤ × ℤ) : ℝ :=
  overImages B Ts pos n fun S _ c =>
    -(1 / (4 * Real.pi)) * op (field B dist (v S) c) n.1 n.2.1 n.2.2

/-- The sum at the node `n` of functions of the atom and the distance over all the images. -/
noncomputable def superpose (B : Infl.Geo) (Ts : List (Spec × Infl.Typ)) (pos : ℕ → ℝ)
    (dist : ℝ × ℝ × ℝ → ℝ × ℝ × ℝ → ℝ) (f : Spec → ℕ → ℝ → ℝ) (n : ℤ × ℤ × ℤ) : ℝ :=
  overImages B Ts pos n fun S J c => f S J (dist (pt B n) c)

/-- The self energy density at the node `n`: reference charge times reference potential of each
image by itself. -/
noncomputable def selfE (B : Infl.Geo) (Ts : List (Spec × Infl.Typ)) (pos : ℕ → ℝ)
    (dist : ℝ × ℝ × ℝ → ℝ × ℝ × ℝ → ℝ) (op : Fun3 → Fun3) (v : Spec → ℝ → ℝ) (n : ℤ × ℤ × ℤ) : ℝ :=
  overImages B Ts pos n fun S _ c =>
    -(1 / (4 * Real.pi)) * op (field B dist (v S) c) n.1 n.2.1 n.2.2 * v S (dist (pt B n) c)

theorem inv4pi_eq : -inv4pi = -(1 / (4 * Real.pi)) := by
  unfold inv4pi
  have := Real.pi_pos.ne'
  field_simp
  norm_num

/-- What the process with the share `g` of the grid `B` holds after the loops. -/
structure Holds (E : Env) (B : Infl.Geo) (Ts : List (Spec × Infl.Typ)) (pos spin : ℕ → ℝ)
    (dist : ℝ × ℝ × ℝ → ℝ × ℝ × ℝ → ℝ) (op : Fun3 → Fun3) (g : Infl.Geo) (s : St) : Prop where
  b : ∀ n ∈ Infl.domain g, s.b (place g n) = charge B Ts pos dist op vj n
  bref : ∀ n ∈ Infl.domain g, s.bref (place g n) =
    charge B Ts pos dist op (fun S => vref E.rcut (-S.Z)) n
  Vc : ∀ n ∈ Infl.domain g, s.Vc (place g n) =
    superpose B Ts pos dist (fun S _ r => vref E.rcut (-S.Z) r - vj S r) n
  rho : ∀ n ∈ Infl.domain g, s.at_ (place g n) = superpose B Ts pos dist (fun S _ => rhoj S) n
  core : ∀ n ∈ Infl.domain g, s.core (place g n) = superpose B Ts pos dist (fun S _ => rhocj S) n
  magx : ∀ n ∈ Infl.domain g, s.magx (place g n) = superpose B Ts pos dist
    (fun S J r => if E.spin = 2 then spin (3 * J) / S.Z * rhoj S r else 0) n
  magy : ∀ n ∈ Infl.domain g, s.magy (place g n) = superpose B Ts pos dist
    (fun S J r => if E.spin = 2 then spin (3 * J + 1) / S.Z * rhoj S r else 0) n
  magz : ∀ n ∈ Infl.domain g, s.magz (place g n) = superpose B Ts pos dist
    (fun S J r => if E.spin = 1 ∨ E.spin = 2 then spin (3 * J + 2) / S.Z * rhoj S r else 0) n
  Esc : s.Esc = -∑ n ∈ Infl.domain g, selfE B Ts pos dist op (fun S => vref E.rcut (-S.Z)) n

/-- **C78.**  In every accepted cell, for every division `gs` of the grid `B`, every process
ends the loops over types and images with, at each of its nodes, the sum over all images (of all
atoms, infinitely many cells in periodic directions) whose box contains the node: the charges
`-∇²V/4π` with the finite-difference Laplacian of the cell, the correction potential, and the
atomic, core and magnetisation densities. -/
theorem pseudocharge_node {E : Env} {B : Infl.Geo} {dist : ℝ × ℝ × ℝ → ℝ × ℝ × ℝ → ℝ}
    {op : Fun3 → Fun3} (hC : Cell E (spacing B) dist op) {gs : List Infl.Geo} (hS : Split B gs)
    (hP : ∀ g ∈ gs, Proc g) (Ts : List (Spec × Infl.Typ)) (hT : Wide Ts) (pos spin : ℕ → ℝ)
    (g : Infl.Geo) (hg : g ∈ gs) :
    ∃ s, accumulate E g (Ts.map Prod.fst) (lists g Ts pos spin) = some s ∧
      Holds E B Ts pos spin dist op g s := by
  obtain ⟨e1, e2, e3⟩ := hS.spacing hg
  obtain ⟨s, h, h1, h2⟩ := accumulate_spec (E := E) (G := g) (dist := dist) (op := op)
    (by rw [e1]; exact hC) (hP g hg) Ts hT pos spin
  simp only [hS.images hg, e2, e3, inv4pi_eq] at h1 h2
  exact ⟨s, h, fun n hn => (h1 n hn).1, fun n hn => (h1 n hn).2.1, fun n hn => (h1 n hn).2.2.1,
    fun n hn => (h1 n hn).2.2.2.1, fun n hn => (h1 n hn).2.2.2.2.1,
    fun n hn => (h1 n hn).2.2.2.2.2.1, fun n hn => (h1 n hn).2.2.2.2.2.2.1,
    fun n hn => (h1 n hn).2.2.2.2.2.2.2, h2⟩

/-- A cell of two nodes along a periodic direction, one node on each of two processes. -/
example : Split ⟨⟨0, 1, 0, 1 / 2, 2, 0, 1, false, 0⟩, ⟨0, 1, 0, 1, 1, 0, 0, false, 0⟩,
      ⟨1, 1, 0, 1, 1, 0, 0, false, 0⟩⟩
    [⟨⟨0, 1, 0, 1 / 2, 2, 0, 0, false, 0⟩, ⟨0, 1, 0, 1, 1, 0, 0, false, 0⟩,
      ⟨1, 1, 0, 1, 1, 0, 0, false, 0⟩⟩,
     ⟨⟨0, 1, 0, 1 / 2, 2, 1, 1, false, 0⟩, ⟨0, 1, 0, 1, 1, 0, 0, false, 0⟩,
      ⟨1, 1, 0, 1, 1, 0, 0, false, 0⟩⟩] := by
  refine ⟨?_, ?_, ?_⟩
  · simp only [List.mem_cons, List.not_mem_nil, or_false, forall_eq_or_imp, forall_eq]
    exact ⟨⟨0, 0, 0, 0, 0, 0, rfl⟩, ⟨1, 1, 0, 0, 0, 0, rfl⟩⟩
  · simp only [List.mem_cons, List.not_mem_nil, or_false, forall_eq_or_imp, forall_eq]
    constructor <;> intro n hn <;> simp only [Infl.domain, mem_product, mem_Icc] at hn ⊢ <;> omega
  · intro n hn
    simp only [Infl.domain, mem_product, mem_Icc] at hn
    by_cases h : n.1 = 0
    · refine ⟨0, ?_, fun i hi => ?_⟩
      · change n ∈ Infl.domain ⟨⟨0, 1, 0, 1 / 2, 2, 0, 0, false, 0⟩,
          ⟨0, 1, 0, 1, 1, 0, 0, false, 0⟩, ⟨1, 1, 0, 1, 1, 0, 0, false, 0⟩⟩
        simp only [Infl.domain, mem_product, mem_Icc]
        omega
      · fin_cases i
        · rfl
        · exfalso
          change n ∈ Infl.domain ⟨⟨0, 1, 0, 1 / 2, 2, 1, 1, false, 0⟩,
          ⟨0, 1, 0, 1, 1, 0, 0, false, 0⟩, ⟨1, 1, 0, 1, 1, 0, 0, false, 0⟩⟩ at hi
          simp only [Infl.domain, mem_product, mem_Icc] at hi
          omega
    · refine ⟨1, ?_, fun i hi => ?_⟩
      · change n ∈ Infl.domain ⟨⟨0, 1, 0, 1 / 2, 2, 1, 1, false, 0⟩,
          ⟨0, 1, 0, 1, 1, 0, 0, false, 0⟩, ⟨1, 1, 0, 1, 1, 0, 0, false, 0⟩⟩
        simp only [Infl.domain, mem_product, mem_Icc]
        omega
      · fin_cases i
        · exfalso
          change n ∈ Infl.domain ⟨⟨0, 1, 0, 1 / 2, 2, 0, 0, false, 0⟩,
          ⟨0, 1, 0, 1, 1, 0, 0, false, 0⟩, ⟨1, 1, 0, 1, 1, 0, 0, false, 0⟩⟩ at hi
          simp only [Infl.domain, mem_product, mem_Icc] at hi
          omega
        · rfl

/-- A process of that cell and an orthogonal environment of second order. -/
example : Proc ⟨⟨0, 1, 0, 1 / 2, 2, 1, 1, false, 0⟩, ⟨0, 1, 0, 1, 1, 0, 0, false, 0⟩,
    ⟨1, 1, 0, 1, 1, 0, 0, false, 0⟩⟩ :=
  ⟨⟨by norm_num, by norm_num, fun _ => by norm_num⟩, ⟨by norm_num, by norm_num, fun _ => by norm_num⟩,
    ⟨by norm_num, by norm_num, fun h => by simp at h⟩, le_rfl, le_rfl, le_rfl⟩

example : ∃ dist op, Cell ⟨0, fun _ => 0, coefs0 1 (1 / 2) 1 1, 1, 1 / 2, 2, fun _ => 7, fun _ => 7⟩
    ![1 / 2, 1, 1] dist op := ⟨_, _, Cell.orth rfl rfl⟩

/-- The same in a monoclinic cell. -/
example : ∃ E dist op, 10 < E.typ ∧ Cell E ![1 / 2, 1, 1] dist op := by
  obtain ⟨Gm, h, h10⟩ := Coord.exL_oblique
  exact ⟨⟨Gm.cellTyp, Gm.metric, coefs Gm.lapc 1 (1 / 2) 1 1, 1, 1 / 2, 2, fun _ => 7, fun _ => 7⟩,
    _, _, h10, Cell.oblique Coord.exL Gm h h10 rfl rfl rfl⟩

/-! ### Totals -/

theorem total_scale {G : Infl.Geo} (hG : Proc G) (f : ℤ → ℝ) (a : ℝ) :
    total G f 0 * a = ∑ n ∈ Infl.domain G, f (place G n) * a := by
  rw [total_eq hG.x hG.y hG.z, zero_add, Finset.sum_mul]

/-- What the processes hold, all together. -/
structure All (E : Env) (B : Infl.Geo) (Ts : List (Spec × Infl.Typ)) (pos spin : ℕ → ℝ)
    (dist : ℝ × ℝ × ℝ → ℝ × ℝ × ℝ → ℝ) (op : Fun3 → Fun3) (gs : List Infl.Geo)
    (ps : List (Infl.Geo × St)) : Prop where
  fst : ps.map Prod.fst = gs
  holds : ∀ p ∈ ps, Holds E B Ts pos spin dist op p.1 p.2

theorem mapM_all {α β : Type} (P : α → β → Prop) (f : α → Option β) (l : List α)
    (h : ∀ a ∈ l, ∃ b, f a = some b ∧ P a b) : ∃ r, l.mapM f = some r ∧ List.Forall₂ P l r := by
  induction l with
  | nil => exact ⟨[], rfl, .nil⟩
  | cons a l ih =>
    obtain ⟨b, h1, h2⟩ := h a List.mem_cons_self
    obtain ⟨r, h3, h4⟩ := ih fun a' h' => h a' (List.mem_cons_of_mem _ h')
    exact ⟨b :: r, by rw [List.mapM_cons, h1, h3]; rfl, .cons h2 h4⟩

theorem forall₂_fst {γ α β : Type} (H : γ × β → Prop) (l : List (γ × α)) (r : List (γ × β))
    (h : List.Forall₂ (fun q p => p.1 = q.1 ∧ H p) l r) :
    r.map Prod.fst = l.map Prod.fst ∧ ∀ p ∈ r, H p := by
  induction h with
  | nil => exact ⟨rfl, by simp⟩
  | cons h _ ih =>
    refine ⟨by rw [List.map_cons, List.map_cons, ih.1, h.1], fun p hp => ?_⟩
    rcases List.mem_cons.1 hp with rfl | hp
    · exact h.2
    · exact ih.2 p hp

theorem grid_total {B : Infl.Geo} {gs : List Infl.Geo} (hS : Split B gs) (hP : ∀ g ∈ gs, Proc g)
    {ps : List (Infl.Geo × St)} (hf : ps.map Prod.fst = gs) (get : St → Mem) (F : ℤ × ℤ × ℤ → ℝ)
    (h : ∀ p ∈ ps, ∀ n ∈ Infl.domain p.1, get p.2 (place p.1 n) = F n) (a : ℝ) :
    (ps.map fun p => total p.1 (get p.2) 0 * a).sum = a * ∑ n ∈ Infl.domain B, F n := by
  have hm : ∀ p ∈ ps, p.1 ∈ gs := fun p hp => hf ▸ List.mem_map_of_mem hp
  rw [← hS.sum F, ← hf, List.map_map, ← List.sum_map_mul_left]
  congr 1
  refine List.map_congr_left fun p hp => ?_
  rw [total_scale (hP _ (hm p hp)), ← Finset.sum_mul, mul_comm]
  congr 1
  exact Finset.sum_congr rfl fun n hn => h p hp n hn

/-- **C79 (charges, energy, density).**  `generate` ends; with `b`, `b_ref`, `V_c` and `ρ` the
grid functions of C78: the positive charge is minus the integral of `b` over the whole grid; the
energy correction is half the integral of `(b + b_ref) V_c` less the self energies of the
reference charges; every process holds the density multiplied by the one factor
`(PosCharge - NetCharge) / ∫ρ`; and, unless the density integrates to zero, positive and
negative charge add up to the net charge. -/
theorem generate_totals {E : Env} {B : Infl.Geo} {dist : ℝ × ℝ × ℝ → ℝ × ℝ × ℝ → ℝ}
    {op : Fun3 → Fun3} (hC : Cell E (spacing B) dist op) {gs : List Infl.Geo} (hS : Split B gs)
    (hP : ∀ g ∈ gs, Proc g) (Ts : List (Spec × Infl.Typ)) (hT : Wide Ts) (pos spin : ℕ → ℝ)
    (dV net : ℝ) :
    let b := charge B Ts pos dist op vj
    let bref := charge B Ts pos dist op (fun S => vref E.rcut (-S.Z))
    let Vc := superpose B Ts pos dist (fun S _ r => vref E.rcut (-S.Z) r - vj S r)
    let rho := superpose B Ts pos dist (fun S _ => rhoj S)
    let self := selfE B Ts pos dist op (fun S => vref E.rcut (-S.Z))
    ∃ out, generate E dV net (Ts.map Prod.fst) (gs.map fun g => (g, lists g Ts pos spin)) = some out ∧
      out.pos = -(dV * ∑ n ∈ Infl.domain B, b n) ∧
      out.Esc = dV / 2 * ∑ n ∈ Infl.domain B, ((b n + bref n) * Vc n - self n) ∧
      out.st.length = gs.length ∧
      (∀ (i : ℕ) (g : Infl.Geo) (s : St), gs[i]? = some g → out.st[i]? = some s → ∀ n ∈ Infl.domain g,
        s.at_ (place g n) = (out.pos - net) / (dV * ∑ n ∈ Infl.domain B, rho n) * rho n ∧
        s.b (place g n) = b n ∧ s.bref (place g n) = bref n ∧ s.Vc (place g n) = Vc n ∧
        s.core (place g n) = superpose B Ts pos dist (fun S _ => rhocj S) n) ∧
      (dV * ∑ n ∈ Infl.domain B, rho n ≠ 0 → out.pos + out.neg = net) := by
  intro b bref Vc rho self
  obtain ⟨ps, h1, h2⟩ := mapM_all
    (fun q p => p.1 = q.1 ∧ Holds E B Ts pos spin dist op p.1 p.2)
    (fun p => (accumulate E p.1 (Ts.map Prod.fst) p.2).map fun s => (p.1, s))
    (gs.map fun g => (g, lists g Ts pos spin)) (by
      intro q hq
      rw [List.mem_map] at hq
      obtain ⟨g, hg, rfl⟩ := hq
      obtain ⟨s, e, h⟩ := pseudocharge_node hC hS hP Ts hT pos spin g hg
      exact ⟨(g, s), by dsimp only; rw [e]; rfl, rfl, h⟩)
  obtain ⟨hf, hh⟩ := forall₂_fst (fun p : Infl.Geo × St => Holds E B Ts pos spin dist op p.1 p.2) _ _ h2
  rw [List.map_map, show (Prod.fst ∘ fun g => (g, lists g Ts pos spin)) = id from rfl,
    List.map_id] at hf
  have hm : ∀ p ∈ ps, p.1 ∈ gs := fun p hp => hf ▸ List.mem_map_of_mem hp
  unfold generate
  rw [h1]
  refine ⟨finish dV net ps, rfl, ?_⟩
  have tb : (ps.map fun p => total p.1 p.2.b 0 * dV).sum = dV * ∑ n ∈ Infl.domain B, b n :=
    grid_total hS hP hf St.b b (fun p hp => (hh p hp).b) dV
  have tr : (ps.map fun p => total p.1 p.2.at_ 0 * dV).sum = dV * ∑ n ∈ Infl.domain B, rho n :=
    grid_total hS hP hf St.at_ rho (fun p hp => (hh p hp).rho) dV
  have hpos : (finish dV net ps).pos = -(dV * ∑ n ∈ Infl.domain B, b n) := by
    unfold finish integrals
    simp only [List.map_map]
    exact congrArg Neg.neg tb
  have hneg : -((ps.map fun p => integrals p.1 dV p.2).map fun t => t.2.1).sum =
      -(dV * ∑ n ∈ Infl.domain B, rho n) := by
    unfold integrals
    simp only [List.map_map]
    exact congrArg Neg.neg tr
  have hfac : (net - (finish dV net ps).pos) /
      -((ps.map fun p => integrals p.1 dV p.2).map fun t => t.2.1).sum =
      ((finish dV net ps).pos - net) / (dV * ∑ n ∈ Infl.domain B, rho n) := by
    rw [hneg, div_neg, ← neg_div, neg_sub]
  have hst : (finish dV net ps).st = ps.map fun p => (scale p.1 dV
      (((finish dV net ps).pos - net) / (dV * ∑ n ∈ Infl.domain B, rho n)) p.2).1 := by
    rw [← hfac]
    unfold finish
    simp only [List.map_map]
    rfl
  have hsc : ∀ fac, ∀ p ∈ ps, ∀ n ∈ Infl.domain p.1,
      (scale p.1 dV fac p.2).1.at_ (place p.1 n) = fac * rho n := by
    intro fac p hp n hn
    unfold scale
    dsimp only
    rw [if_pos (place_bounds hn), (hh p hp).rho n hn, mul_comm]
  refine ⟨hpos, ?_, ?_, ?_, ?_⟩
  · have : (finish dV net ps).Esc = (ps.map fun p => ∑ n ∈ Infl.domain p.1,
        ((b n + bref n) * Vc n - self n)).sum * (dV / 2) := by
      unfold finish integrals
      simp only [List.map_map]
      rw [← List.sum_map_mul_right]
      congr 1
      refine List.map_congr_left fun p hp => ?_
      have g := hP _ (hm p hp)
      rw [Function.comp_apply]
      dsimp only
      rw [total_eq g.x g.y g.z (fun i => (p.2.b i + p.2.bref i) * p.2.Vc i), (hh p hp).Esc,
        Finset.sum_sub_distrib, neg_add_eq_sub, show dV * 0.5 = dV / 2 by norm_num; ring]
      congr 2
      refine Finset.sum_congr rfl fun n hn => ?_
      rw [(hh p hp).b n hn, (hh p hp).bref n hn, (hh p hp).Vc n hn]
    rw [this, mul_comm]
    congr 1
    have h4 := hS.sum fun n => (b n + bref n) * Vc n - self n
    rw [← hf, List.map_map] at h4
    exact h4
  · rw [hst, List.length_map, ← hf, List.length_map]
  · intro i g s hi hs n hn
    rw [hst, List.getElem?_map] at hs
    rw [← hf, List.getElem?_map] at hi
    cases hp : ps[i]? with
    | none => rw [hp] at hi; cases hi
    | some p =>
      rw [hp] at hi hs
      simp only [Option.map_some, Option.some.injEq] at hi hs
      have hp' := List.mem_of_getElem? hp
      subst hi
      subst hs
      exact ⟨hsc _ p hp' n hn, (hh p hp').b n hn, (hh p hp').bref n hn, (hh p hp').Vc n hn,
        (hh p hp').core n hn⟩
  · intro h0
    have hn : (finish dV net ps).neg = -((finish dV net ps).pos - net) := by
      have e : (finish dV net ps).neg = (ps.map fun p => total p.1 (scale p.1 dV
          (((finish dV net ps).pos - net) / (dV * ∑ n ∈ Infl.domain B, rho n)) p.2).1.at_ 0
            * dV).sum * -1 := by
        rw [← hfac]
        unfold finish scale
        simp only [List.map_map]
        rfl
      rw [e]
      set fac := ((finish dV net ps).pos - net) / (dV * ∑ n ∈ Infl.domain B, rho n) with hfac'
      have e2 : (ps.map fun p => total p.1 (scale p.1 dV fac p.2).1.at_ 0 * dV).sum =
          dV * ∑ n ∈ Infl.domain B, fac * rho n := by
        have := grid_total hS hP
          (ps := ps.map fun p => (p.1, (scale p.1 dV fac p.2).1))
          (by rw [List.map_map]; exact hf) St.at_ (fun n => fac * rho n) (by
            intro q hq
            rw [List.mem_map] at hq
            obtain ⟨p, hp, rfl⟩ := hq
            exact hsc fac p hp) dV
        rw [List.map_map] at this
        exact this
      rw [e2, ← Finset.mul_sum, show dV * (fac * ∑ n ∈ Infl.domain B, rho n) =
        fac * (dV * ∑ n ∈ Infl.domain B, rho n) by ring, hfac', div_mul_cancel₀ _ h0]
      ring
    rw [hn]
    ring

/-- **C79 (magnetisation).**  The totals of the starting magnetisation are the integrals of the
superposed atomic magnetisations. -/
theorem netM_totals {E : Env} {B : Infl.Geo} {dist : ℝ × ℝ × ℝ → ℝ × ℝ × ℝ → ℝ}
    {op : Fun3 → Fun3} {gs : List Infl.Geo} (hS : Split B gs)
    (hP : ∀ g ∈ gs, Proc g) (Ts : List (Spec × Infl.Typ)) (pos spin : ℕ → ℝ)
    (dV : ℝ) (ps : List (Infl.Geo × St)) (hA : All E B Ts pos spin dist op gs ps) :
    (E.spin = 1 → (netM dV ps).2.2 = dV * ∑ n ∈ Infl.domain B,
      superpose B Ts pos dist (fun S J r => spin (3 * J + 2) / S.Z * rhoj S r) n) ∧
    (E.spin = 2 →
      (netM dV ps).1 = dV * ∑ n ∈ Infl.domain B,
        superpose B Ts pos dist (fun S J r => spin (3 * J) / S.Z * rhoj S r) n ∧
      (netM dV ps).2.1 = dV * ∑ n ∈ Infl.domain B,
        superpose B Ts pos dist (fun S J r => spin (3 * J + 1) / S.Z * rhoj S r) n ∧
      (netM dV ps).2.2 = dV * ∑ n ∈ Infl.domain B,
        superpose B Ts pos dist (fun S J r => spin (3 * J + 2) / S.Z * rhoj S r) n) := by
  have hx := grid_total hS hP hA.fst St.magx _ (fun p hp => (hA.holds p hp).magx) dV
  have hy := grid_total hS hP hA.fst St.magy _ (fun p hp => (hA.holds p hp).magy) dV
  have hz := grid_total hS hP hA.fst St.magz _ (fun p hp => (hA.holds p hp).magz) dV
  constructor
  · intro h
    simp only [if_pos (show E.spin = 1 ∨ E.spin = 2 from Or.inl h)] at hz
    exact hz
  · intro h
    simp only [if_pos h, if_pos (show E.spin = 1 ∨ E.spin = 2 from Or.inr h)] at hx hy hz
    exact ⟨hx, hy, hz⟩

/-! ### The Poisson problem -/

/-- **C79 (right hand side).**  In a cell periodic in all directions, if the volume elements add
up to the volume of the cell and the density integrates to positive less net charge, the right
hand side is `4π(b + ρ)` plus a uniform background and adds up to zero over the grid when the net
charge is above the threshold, to `-4π NetCharge / dV` when it is not. -/
theorem poisson_compatible {B : Infl.Geo} {gs : List Infl.Geo} (hS : Split B gs)
    (hP : ∀ g ∈ gs, Proc g) (net Lx Ly Lz det dV : ℝ) (hdV : 0 < dV)
    (hV : 0 < Lx * Ly * Lz * det)
    (vol : ((Infl.domain B).card : ℝ) * dV = Lx * Ly * Lz * det) (b rho : ℤ × ℤ × ℤ → ℝ)
    (ps : List (Infl.Geo × Mem × Mem)) (hf : ps.map Prod.fst = gs)
    (hb : ∀ p ∈ ps, ∀ n ∈ Infl.domain p.1, p.2.1 (place p.1 n) = b n)
    (hr : ∀ p ∈ ps, ∀ n ∈ Infl.domain p.1, p.2.2 (place p.1 n) = rho n)
    (hq : dV * ∑ n ∈ Infl.domain B, rho n = -(dV * ∑ n ∈ Infl.domain B, b n) - net)
    (dcor : Mem → Mem) :
    (∀ p ∈ ps, ∀ n ∈ Infl.domain p.1,
      poissonRHS net Lx Ly Lz det 0 0 0 p.2.1 p.2.2 dcor (place p.1 n) =
        4 * Real.pi * (b n + rho n + if 1 / 10 ^ 12 < |net| then net / (Lx * Ly * Lz * det) else 0)) ∧
    (ps.map fun p => total p.1 (poissonRHS net Lx Ly Lz det 0 0 0 p.2.1 p.2.2 dcor) 0).sum =
      if 1 / 10 ^ 12 < |net| then 0 else -(4 * Real.pi * net / dV) := by
  have pt : ∀ p ∈ ps, ∀ n ∈ Infl.domain p.1,
      poissonRHS net Lx Ly Lz det 0 0 0 p.2.1 p.2.2 dcor (place p.1 n) =
        4 * Real.pi * (b n + rho n + if 1 / 10 ^ 12 < |net| then net / (Lx * Ly * Lz * det) else 0) := by
    intro p hp n hn
    unfold poissonRHS Infl.tol
    dsimp only
    rw [if_neg (by norm_num)]
    split_ifs
    · beta_reduce
      rw [hb p hp n hn, hr p hp n hn, show (4.0 : ℝ) = 4 by norm_num]; ring
    · beta_reduce
      rw [hb p hp n hn, hr p hp n hn, show (4.0 : ℝ) = 4 by norm_num]; ring
  refine ⟨pt, ?_⟩
  have hm : ∀ p ∈ ps, p.1 ∈ gs := fun p hp => hf ▸ List.mem_map_of_mem hp
  have e : (ps.map fun p => total p.1 (poissonRHS net Lx Ly Lz det 0 0 0 p.2.1 p.2.2 dcor) 0).sum =
      ∑ n ∈ Infl.domain B, 4 * Real.pi * (b n + rho n +
        if 1 / 10 ^ 12 < |net| then net / (Lx * Ly * Lz * det) else 0) := by
    rw [← hS.sum, ← hf, List.map_map]
    congr 1
    refine List.map_congr_left fun p hp => ?_
    have g := hP _ (hm p hp)
    rw [total_eq g.x g.y g.z, zero_add, Function.comp_apply]
    exact Finset.sum_congr rfl (pt p hp)
  have hq' : ∑ n ∈ Infl.domain B, b n + ∑ n ∈ Infl.domain B, rho n = -net / dV := by
    field_simp
    linarith
  rw [e, ← Finset.mul_sum, Finset.sum_add_distrib, Finset.sum_add_distrib, Finset.sum_const,
    nsmul_eq_mul, hq']
  split_ifs
  · rw [← vol]
    have : ((Infl.domain B).card : ℝ) ≠ 0 := by
      intro h
      rw [h, zero_mul] at vol
      exact hV.ne vol
    field_simp
    ring
  · ring

/-- **C79 (shift of the potential).**  In a periodic cell the stored potential has zero mean over
the grid and differs from the solution by a constant; otherwise it is the solution. -/
theorem phiShift_mean {B : Infl.Geo} {gs : List Infl.Geo} (hS : Split B gs)
    (hP : ∀ g ∈ gs, Proc g) (hne : gs ≠ []) (phi : ℤ × ℤ × ℤ → ℝ) (ps : List (Infl.Geo × Mem))
    (hf : ps.map Prod.fst = gs)
    (h : ∀ p ∈ ps, ∀ n ∈ Infl.domain p.1, p.2 (place p.1 n) = phi n) :
    (∀ bc : ℤ, bc ≠ 2 → phiShift bc (Infl.domain B).card ps = ps.map Prod.snd) ∧
    ∃ c, ∑ n ∈ Infl.domain B, (phi n - c) = 0 ∧
      (phiShift 2 (Infl.domain B).card ps).length = gs.length ∧
      ∀ (i : ℕ) (g : Infl.Geo) (m : Mem), gs[i]? = some g → (phiShift 2 (Infl.domain B).card ps)[i]? = some m →
        ∀ n ∈ Infl.domain g, m (place g n) = phi n - c := by
  have hm : ∀ p ∈ ps, p.1 ∈ gs := fun p hp => hf ▸ List.mem_map_of_mem hp
  refine ⟨fun bc hbc => by unfold phiShift; rw [if_neg hbc], ?_⟩
  have e : (ps.map fun p => total p.1 p.2 0).sum = ∑ n ∈ Infl.domain B, phi n := by
    rw [← hS.sum, ← hf, List.map_map]
    congr 1
    refine List.map_congr_left fun p hp => ?_
    have g := hP _ (hm p hp)
    rw [total_eq g.x g.y g.z, zero_add, Function.comp_apply]
    exact Finset.sum_congr rfl (h p hp)
  have hc : ((Infl.domain B).card : ℝ) ≠ 0 := by
    obtain ⟨g, hg⟩ := List.exists_mem_of_ne_nil gs hne
    have p := hP g hg
    have : (g.X.lo, g.Y.lo, g.Z.lo) ∈ Infl.domain g := by
      simp only [Infl.domain, mem_product, mem_Icc]
      exact ⟨⟨le_rfl, p.x⟩, ⟨le_rfl, p.y⟩, le_rfl, p.z⟩
    exact Nat.cast_ne_zero.2 (Finset.card_ne_zero_of_mem (hS.inside g hg this))
  refine ⟨(∑ n ∈ Infl.domain B, phi n) / (Infl.domain B).card, ?_, ?_, ?_⟩
  · rw [Finset.sum_sub_distrib, Finset.sum_const, nsmul_eq_mul, mul_div_cancel₀ _ hc, sub_self]
  · unfold phiShift
    rw [if_pos rfl]
    dsimp only
    rw [List.length_map, ← hf, List.length_map]
  · intro i g m hi hm' n hn
    unfold phiShift at hm'
    rw [if_pos rfl] at hm'
    dsimp only at hm'
    rw [List.getElem?_map] at hm'
    rw [← hf, List.getElem?_map] at hi
    cases hp : ps[i]? with
    | none => rw [hp] at hi; cases hi
    | some p =>
      rw [hp] at hi hm'
      simp only [Option.map_some, Option.some.injEq] at hi hm'
      have hp' := List.mem_of_getElem? hp
      subst hi
      subst hm'
      dsimp only
      rw [if_pos (place_bounds hn), h p hp' n hn, e]
      ring

end Sparc.Pchg

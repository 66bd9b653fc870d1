import Verif.Bdry.Model
import Mathlib.Algebra.BigOperators.Fin
import Mathlib.Algebra.BigOperators.Field

/-!
# Properties of the boundary values of the electrostatic potential (C112, C113)
-/

namespace Sparc.Bdry
open Finset

/-! ## C112: the correction -/

/-- The process' part of the grid is not empty and lies inside the grid. -/
structure Inside (G : Geo) (x : Pt) : Prop where
  lo : ∀ a, 0 ≤ G.lo a
  hi : ∀ a, G.hi a ≤ G.N a - 1
  ge : ∀ a, G.lo a ≤ x a
  le : ∀ a, x a ≤ G.hi a

theorem read_eq (G : Geo) (f : Side) (out : Pt → ℝ) (q : Pt) (h0 : ∀ a, 0 ≤ q a) (h1 : ∀ a, q a < G.phiN f a) :
    G.read f out q = some (out fun a => q a + G.phiLo f a) := by
  obtain ⟨i, hi⟩ := Int.eq_ofNat_of_zero_le (h0 0)
  obtain ⟨j, hj⟩ := Int.eq_ofNat_of_zero_le (h0 1)
  obtain ⟨k, hk⟩ := Int.eq_ofNat_of_zero_le (h0 2)
  have hx := h1 0
  have hy := h1 1
  have hz := h1 2
  obtain ⟨nx, hnx⟩ := Int.eq_ofNat_of_zero_le (a := G.phiN f 0) (by linarith [h0 0])
  obtain ⟨ny, hny⟩ := Int.eq_ofNat_of_zero_le (a := G.phiN f 1) (by linarith [h0 1])
  obtain ⟨nz, hnz⟩ := Int.eq_ofNat_of_zero_le (a := G.phiN f 2) (by linarith [h0 2])
  rw [hi, hnx] at hx
  rw [hj, hny] at hy
  rw [hk, hnz] at hz
  have hidx : q 2 * G.phiN f 0 * G.phiN f 1 + q 1 * G.phiN f 0 + q 0 = ((i + j * nx + k * (nx * ny) : ℕ) : ℤ) := by
    rw [hi, hj, hk, hnx, hny]; push_cast; ring
  unfold Geo.read Geo.phiArr
  dsimp only
  rw [hidx, if_pos (Int.natCast_nonneg _), Int.toNat_natCast, hnx, hny, hnz]
  simp only [Int.toNat_natCast]
  rw [List.getElem?_map, Loop.getElem?_box (by exact_mod_cast hx) (by exact_mod_cast hy) (by exact_mod_cast hz)]
  simp only [Option.map_some, Option.some.injEq]
  congr 1
  funext a
  fin_cases a
  · simp [hi]
  · simp [hj]
  · simp [hk]

/-- The part of the stencil of one side that lies outside the grid. -/
def beyond (G : Geo) (f : Side) (out : Pt → ℝ) (x : Pt) (p : ℕ) : ℝ :=
  if f.2 then (if G.N f.1 ≤ x f.1 + p then G.c f.1 p * out (Function.update x f.1 (x f.1 + p)) else 0)
  else (if x f.1 - p < 0 then G.c f.1 p * out (Function.update x f.1 (x f.1 - p)) else 0)

theorem term_eq {G : Geo} {f : Side} {out : Pt → ℝ} {x : Pt} (hr : ∀ a, G.s f a ≤ x a ∧ x a ≤ G.e f a)
    {p : ℕ} (hp : p ≤ G.fdn) : G.term f out x p = some (beyond G f out x p) := by
  have hp' : (p : ℤ) ≤ G.fdn := by exact_mod_cast hp
  unfold Geo.term beyond
  dsimp only
  obtain ⟨b, up⟩ := f
  cases up
  · simp only [Bool.false_eq_true, if_false]
    split
    · rename_i hc
      rw [read_eq]
      · simp only [Option.map_some, Option.some.injEq]
        congr 2
        funext a
        by_cases ha : a = b
        · subst ha; simp; ring
        · simp [Function.update_of_ne ha]
      · intro a
        by_cases ha : a = b
        · subst ha
          simp only [Function.update_self, Geo.phiLo, if_true, Bool.false_eq_true, if_false]
          have := (hr a).1; omega
        · simp only [Function.update_of_ne ha, Geo.phiLo, if_neg ha]
          have := (hr a).1; omega
      · intro a
        by_cases ha : a = b
        · subst ha
          simp only [Function.update_self, Geo.phiN, Geo.phiLo, Geo.phiHi, if_true, Bool.false_eq_true, if_false]
          omega
        · simp only [Function.update_of_ne ha, Geo.phiN, Geo.phiLo, Geo.phiHi, if_neg ha]
          have := (hr a).2; omega
    · rfl
  · simp only [if_true, ge_iff_le]
    split
    · rename_i hc
      rw [read_eq]
      · simp only [Option.map_some, Option.some.injEq]
        congr 2
        funext a
        by_cases ha : a = b
        · subst ha; simp; ring
        · simp [Function.update_of_ne ha]
      · intro a
        by_cases ha : a = b
        · subst ha
          simp only [Function.update_self, Geo.phiLo, if_true]
          omega
        · simp only [Function.update_of_ne ha, Geo.phiLo, if_neg ha]
          have := (hr a).1; omega
      · intro a
        by_cases ha : a = b
        · subst ha
          simp only [Function.update_self, Geo.phiN, Geo.phiLo, Geo.phiHi, if_true]
          have := (hr a).2; omega
        · simp only [Function.update_of_ne ha, Geo.phiN, Geo.phiLo, Geo.phiHi, if_neg ha]
          have := (hr a).2; omega
    · rfl

theorem inner_fold {g : ℕ → Option ℝ} {v : ℕ → ℝ} : ∀ (l : List ℕ) (d : ℝ), (∀ p ∈ l, g p = some (v p)) →
    l.foldlM (fun d p => (g p).map (d - ·)) d = some (d - (l.map v).sum)
  | [], d, _ => by simp
  | p :: l, d, h => by
    rw [List.foldlM_cons, h p List.mem_cons_self]
    simp only [Option.map_some, List.map_cons, List.sum_cons]
    show List.foldlM _ (d - v p) l = _
    rw [inner_fold l _ fun q hq => h q (List.mem_cons_of_mem _ hq)]
    congr 1; ring

/-- One side: what is outside the grid is subtracted, whether or not the point is in the region the
side looks at. -/
theorem side_eq {G : Geo} {x : Pt} (hx : Inside G x) (bc : Fin 3 → Bool) (out : Pt → ℝ) (f : Side) (d : ℝ) :
    (if bc f.1 ∧ G.Visits f x then
      (List.range G.fdn).foldlM (fun d p => (G.term f out x (p + 1)).map (d - ·)) d
    else some d) = some (d - if bc f.1 then ∑ p ∈ range G.fdn, beyond G f out x (p + 1) else 0) := by
  by_cases hb : bc f.1
  · by_cases hr : ∀ a, G.s f a ≤ x a ∧ x a ≤ G.e f a
    · have hn : 0 < G.ndCor f := by
        unfold Geo.ndCor
        have h0 := hr 0
        have h1 := hr 1
        have h2 := hr 2
        exact mul_pos (mul_pos (by omega) (by omega)) (by omega)
      rw [if_pos ⟨hb, hn, hr⟩, if_pos hb,
        inner_fold (v := fun p => beyond G f out x (p + 1)) _ _ fun p hp => term_eq hr (by
          have := List.mem_range.1 hp; omega)]
      congr 2
    · rw [if_neg fun h => hr h.2.2, if_pos hb, Finset.sum_eq_zero, sub_zero]
      intro p hp
      have hp' : ((p + 1 : ℕ) : ℤ) ≤ G.fdn := by have := Finset.mem_range.1 hp; omega
      unfold beyond
      have hout : ∀ a ≠ f.1, G.s f a ≤ x a ∧ x a ≤ G.e f a := by
        intro a ha
        have h1 := hx.lo a
        have h2 := hx.hi a
        have h3 := hx.ge a
        have h4 := hx.le a
        simp only [Geo.s, Geo.e, Geo.corLo, Geo.corHi, ha, false_and, if_false]
        omega
      have hf : ¬ (G.s f f.1 ≤ x f.1 ∧ x f.1 ≤ G.e f f.1) := by
        intro h
        apply hr
        intro a
        by_cases ha : a = f.1
        · rw [ha]; exact h
        · exact hout a ha
      have h1 := hx.lo f.1
      have h2 := hx.hi f.1
      have h3 := hx.ge f.1
      have h4 := hx.le f.1
      obtain ⟨b, up⟩ := f
      dsimp only at h1 h2 h3 h4
      cases up
      · simp only [Geo.s, Geo.e, Geo.corLo, Geo.corHi, Bool.false_eq_true, and_false, if_false, Bool.not_false,
          and_self, if_true] at hf ⊢
        rw [if_neg]
        omega
      · simp only [Geo.s, Geo.e, Geo.corLo, Geo.corHi, and_self, if_true, Bool.not_true, Bool.false_eq_true,
          and_false, if_false] at hf ⊢
        rw [if_neg]
        omega
  · rw [if_neg fun h => hb h.1, if_neg hb, sub_zero]

/-- The correction reads the array of outer potentials inside its bounds and is minus the sum of the
stencil coefficients times the potential over all neighbours that lie beyond a Dirichlet face,
whatever part of the grid the process has. -/
theorem correction {G : Geo} {x : Pt} (hx : Inside G x) (bc : Fin 3 → Bool) (out : Pt → ℝ) :
    G.corr bc out x = some (-∑ a, if bc a then ∑ p ∈ range G.fdn,
      ((if x a - (p + 1 : ℕ) < 0 then G.c a (p + 1) * out (Function.update x a (x a - (p + 1 : ℕ))) else 0) +
        if G.N a ≤ x a + (p + 1 : ℕ) then G.c a (p + 1) * out (Function.update x a (x a + (p + 1 : ℕ))) else 0) else 0) := by
  have key : ∀ (l : List Side) (d : ℝ), l.foldlM (fun d f =>
      if bc f.1 ∧ G.Visits f x then
        (List.range G.fdn).foldlM (fun d p => (G.term f out x (p + 1)).map (d - ·)) d
      else some d) d = some (d - (l.map fun f => if bc f.1 then ∑ p ∈ range G.fdn, beyond G f out x (p + 1) else 0).sum) := by
    intro l
    induction l with
    | nil => intro d; simp
    | cons f l ih =>
      intro d
      rw [List.foldlM_cons, side_eq hx]
      show List.foldlM _ (d - _) l = _
      rw [ih, List.map_cons, List.sum_cons]
      congr 1; ring
  unfold Geo.corr
  rw [key]
  congr 1
  simp only [sides, List.map_cons, List.map_nil, List.sum_cons, List.sum_nil, Fin.sum_univ_three]
  simp only [beyond, if_true, Bool.false_eq_true, if_false, sum_add_distrib]
  split <;> split <;> split <;> ring

/-- Writes to the correction: the loops of every side visit points of the process only, which have places
inside the array, different points different places. -/
theorem writes_inside {G : Geo} {f : Side} {x : Pt} (h : G.Visits f x) :
    (∀ a, G.lo a ≤ x a ∧ x a ≤ G.hi a) ∧ 0 ≤ G.dIdx x ∧
      G.dIdx x < (G.hi 0 - G.lo 0 + 1) * (G.hi 1 - G.lo 1 + 1) * (G.hi 2 - G.lo 2 + 1) ∧
      ∀ f' y, G.Visits f' y → G.dIdx y = G.dIdx x → y = x := by
  have hin : ∀ {f x}, G.Visits f x → ∀ a, G.lo a ≤ x a ∧ x a ≤ G.hi a := by
    intro f x h a
    have := h.2 a
    simp only [Geo.s, Geo.e] at this
    omega
  have rows : ∀ {n u v u' v' : ℤ}, 0 ≤ u ∧ u < n → 0 ≤ u' ∧ u' < n → v * n + u = v' * n + u' → u = u' ∧ v = v' := by
    intro n u v u' v' hu hu' he
    have hv : v = v' := by
      rcases lt_trichotomy v v' with hlt | heq | hgt
      · nlinarith [hu.1, hu.2, hu'.1, hu'.2]
      · exact heq
      · nlinarith [hu.1, hu.2, hu'.1, hu'.2]
    subst hv
    exact ⟨by linarith, rfl⟩
  have block : ∀ {n m u v : ℤ}, 0 ≤ u ∧ u < n → 0 ≤ v ∧ v < m → 0 ≤ v * n + u ∧ v * n + u < m * n := by
    intro n m u v hu hv
    constructor
    · nlinarith [mul_nonneg hv.1 (hu.1.trans hu.2.le)]
    · have : (v + 1) * n ≤ m * n := mul_le_mul_of_nonneg_right (by omega) (hu.1.trans hu.2.le)
      nlinarith
  have hform : ∀ y, G.dIdx y = ((y 2 - G.lo 2) * (G.hi 1 - G.lo 1 + 1) + (y 1 - G.lo 1)) * (G.hi 0 - G.lo 0 + 1) + (y 0 - G.lo 0) := by
    intro y; unfold Geo.dIdx; ring
  have hx := hin h
  have h0 := hx 0
  have h1 := hx 1
  have h2 := hx 2
  have b1 := block (n := G.hi 1 - G.lo 1 + 1) (m := G.hi 2 - G.lo 2 + 1) (u := x 1 - G.lo 1) (v := x 2 - G.lo 2) (by omega) (by omega)
  have b2 := block (n := G.hi 0 - G.lo 0 + 1) (u := x 0 - G.lo 0) (by omega) b1
  refine ⟨hx, ?_, ?_, ?_⟩
  · rw [hform]; exact b2.1
  · rw [hform]; exact lt_of_lt_of_eq b2.2 (by ring)
  · intro f' y hy he
    have hy' := hin hy
    have y0 := hy' 0
    have y1 := hy' 1
    have y2 := hy' 2
    rw [hform, hform] at he
    obtain ⟨e0, e⟩ := rows (by omega) (by omega) he
    obtain ⟨e1, e2⟩ := rows (by omega) (by omega) e
    funext a
    fin_cases a
    · show y 0 = x 0; omega
    · show y 1 = x 1; omega
    · show y 2 = x 2; omega

/-- A side visited. -/
example : Geo.Visits ⟨fun _ => 8, 2, fun _ => 0, fun _ => 3, fun _ _ => 1⟩ (1, false) (fun _ => 1) := by
  refine ⟨?_, fun a => ?_⟩
  · simp [Geo.ndCor, Geo.s, Geo.e, Geo.corLo, Geo.corHi]
  · fin_cases a <;> simp [Geo.s, Geo.e, Geo.corLo, Geo.corHi]

/-- The discrete Laplacian of a function of all grid points, also those outside. -/
def stencil (c0 : ℝ) (c : Fin 3 → ℕ → ℝ) (fdn : ℕ) (v : Pt → ℝ) (x : Pt) : ℝ :=
  c0 * v x + ∑ a, ∑ p ∈ range fdn,
    c a (p + 1) * (v (Function.update x a (x a - (p + 1 : ℕ))) + v (Function.update x a (x a + (p + 1 : ℕ))))

/-- A function on the grid continued by `out` beyond the Dirichlet faces. -/
noncomputable def continued (N : Pt) (bc : Fin 3 → Bool) (v out : Pt → ℝ) (x : Pt) : ℝ :=
  open Classical in if ∀ a, bc a = true → 0 ≤ x a ∧ x a < N a then v x else out x

/-- Solving with zero outside and the corrected right-hand side is solving with the outer potential:
`-Δ₀ v = f - d` at a point exactly if `-Δ v = f` for `v` continued by the outer potential. -/
theorem dirichlet_equation {G : Geo} {x : Pt} (hx : Inside G x) (bc : Fin 3 → Bool) (out v : Pt → ℝ) (c0 f : ℝ) :
    ∃ d, G.corr bc out x = some d ∧
      (-stencil c0 G.c G.fdn (continued G.N bc v fun _ => 0) x = f - d ↔
        -stencil c0 G.c G.fdn (continued G.N bc v out) x = f) := by
  refine ⟨_, correction hx bc out, ?_⟩
  have hin : ∀ a, 0 ≤ x a ∧ x a < G.N a := fun a => by
    have h1 := hx.lo a
    have h2 := hx.hi a
    have h3 := hx.ge a
    have h4 := hx.le a
    omega
  have hself : ∀ w, continued G.N bc v w x = v x := fun w => by
    unfold continued; exact if_pos fun a _ => hin a
  have hnb : ∀ (a : Fin 3) (y : ℤ) (w : Pt → ℝ), continued G.N bc v w (Function.update x a y) =
      if bc a = true ∧ ¬ (0 ≤ y ∧ y < G.N a) then w (Function.update x a y) else v (Function.update x a y) := by
    intro a y w
    unfold continued
    by_cases h : bc a = true ∧ ¬ (0 ≤ y ∧ y < G.N a)
    · rw [if_pos h, if_neg]
      intro hall
      have := hall a h.1
      rw [Function.update_self] at this
      exact h.2 this
    · rw [if_neg h, if_pos]
      intro b hb
      by_cases hba : b = a
      · subst hba
        rw [Function.update_self]
        by_contra hc; exact h ⟨hb, hc⟩
      · rw [Function.update_of_ne hba]; exact hin b
  have hst : stencil c0 G.c G.fdn (continued G.N bc v out) x =
      stencil c0 G.c G.fdn (continued G.N bc v fun _ => 0) x + ∑ a, if bc a then ∑ p ∈ range G.fdn,
      ((if x a - (p + 1 : ℕ) < 0 then G.c a (p + 1) * out (Function.update x a (x a - (p + 1 : ℕ))) else 0) +
        if G.N a ≤ x a + (p + 1 : ℕ) then G.c a (p + 1) * out (Function.update x a (x a + (p + 1 : ℕ))) else 0) else 0 := by
    unfold stencil
    rw [hself, hself, add_assoc, ← sum_add_distrib]
    congr 1
    refine sum_congr rfl fun a _ => ?_
    by_cases hb : bc a = true
    · rw [if_pos hb, ← sum_add_distrib]
      refine sum_congr rfl fun p _ => ?_
      rw [hnb, hnb, hnb, hnb]
      have h1 : (bc a = true ∧ ¬ (0 ≤ x a - (p + 1 : ℕ) ∧ x a - (p + 1 : ℕ) < G.N a)) ↔ x a - (p + 1 : ℕ) < 0 := by
        have := hin a
        constructor
        · rintro ⟨-, h⟩; omega
        · intro h; exact ⟨hb, by omega⟩
      have h2 : (bc a = true ∧ ¬ (0 ≤ x a + (p + 1 : ℕ) ∧ x a + (p + 1 : ℕ) < G.N a)) ↔ G.N a ≤ x a + (p + 1 : ℕ) := by
        have := hin a
        constructor
        · rintro ⟨-, h⟩; omega
        · intro h; exact ⟨hb, by omega⟩
      simp only [h1, h2]
      split <;> split <;> ring
    · rw [if_neg hb, add_zero]
      refine sum_congr rfl fun p _ => ?_
      rw [hnb, hnb, hnb, hnb, if_neg fun h => hb h.1, if_neg fun h => hb h.1, if_neg fun h => hb h.1,
        if_neg fun h => hb h.1]
  rw [hst]
  constructor <;> intro h <;> linarith

/-- A process with a corner of a grid of 8³ points, order 4. -/
example : Inside ⟨fun _ => 8, 2, fun _ => 0, fun _ => 3, fun _ _ => 1⟩ (fun _ => 1) :=
  ⟨fun _ => by norm_num, fun _ => by norm_num, fun _ => by norm_num, fun _ => by norm_num⟩

/-! ## C113: the outer potential -/

/-- Any two points: if the harmonics satisfy the addition theorem with polynomials `P l` of the cosine `g`
of the angle, the outer potential is the Coulomb potential of the charges `f/4π dV`, expanded to the
sixth order. -/
theorem multipole_coulomb {n : ℕ} (dV : ℝ) (f r g : Fin n → ℝ) (Y : ℕ → ℕ → Fin n → ℝ) (R : ℝ)
    (Z : ℕ → ℕ → ℝ) (P : ℕ → ℝ → ℝ)
    (hadd : ∀ l < 7, ∀ i, ∑ m ∈ range (2 * l + 1), Z l m * Y l m i = (2 * l + 1) / (4 * Real.pi) * P l (g i)) :
    multipole (moment dV f r Y) R Z =
      ∑ i, f i / (4 * Real.pi) * dV * ∑ l ∈ range 7, r i ^ l / R ^ (l + 1) * P l (g i) := by
  unfold multipole moment
  have h1 : ∀ l ∈ range 7, ∑ m ∈ range (2 * l + 1), 1 / ((2 * (l : ℝ) + 1) * R ^ (l + 1)) * Z l m *
      ((∑ i, r i ^ l * f i * Y l m i) * dV) =
      ∑ i, f i / (4 * Real.pi) * dV * (r i ^ l / R ^ (l + 1) * P l (g i)) := by
    intro l hl
    have : ∀ m, 1 / ((2 * (l : ℝ) + 1) * R ^ (l + 1)) * Z l m * ((∑ i, r i ^ l * f i * Y l m i) * dV) =
        ∑ i, 1 / ((2 * (l : ℝ) + 1) * R ^ (l + 1)) * r i ^ l * f i * dV * (Z l m * Y l m i) := by
      intro m
      rw [sum_mul, mul_sum]
      exact sum_congr rfl fun i _ => by ring
    rw [sum_congr rfl fun m _ => this m, sum_comm]
    refine sum_congr rfl fun i _ => ?_
    rw [← mul_sum, hadd l (mem_range.1 hl) i]
    have hl0 : (2 * (l : ℝ) + 1) ≠ 0 := by positivity
    have hpi := Real.pi_ne_zero
    by_cases hR : R = 0
    · subst hR; simp
    · field_simp
  rw [sum_congr rfl h1, sum_comm]
  exact sum_congr rfl fun i _ => by rw [mul_sum]

/-- The addition theorem for points of one half-line, where the polynomials are 1. -/
example : ∀ l < 7, ∀ i : Fin 3, ∑ m ∈ range (2 * l + 1),
    (if m = l then √((2 * l + 1) / (4 * Real.pi)) else 0) * (if m = l then √((2 * l + 1) / (4 * Real.pi)) else 0) =
    (2 * l + 1) / (4 * Real.pi) * (fun (_ : ℕ) (_ : ℝ) => (1 : ℝ)) l ((fun _ : Fin 3 => (1 : ℝ)) i) := by
  intro l _ i
  rw [Finset.sum_eq_single l]
  · simp only [if_true, mul_one]
    exact Real.mul_self_sqrt (by positivity)
  · intro m _ hm; simp [hm]
  · intro h; exact absurd (mem_range.2 (by omega)) h

/-- The sum of the right-hand side: zero in a neutral system; in a charged one the uniform background
adds `4π NetCharge` times the ratio of the grid's volume to the cell's. -/
theorem total_charge {n : ℕ} (b rho : Fin n → ℝ) (q : ℤ) {V dV : ℝ}
    (h : (∑ i, (b i + rho i)) * dV = -q) :
    (∑ i, rhs (b i) (rho i) q V) * dV = 4 * Real.pi * q * (n * dV / V - 1) := by
  have : ∀ i, rhs (b i) (rho i) q V = 4 * Real.pi * (b i + rho i) + 4 * Real.pi * (q / V) := by
    intro i
    unfold rhs
    dsimp only
    split
    · rfl
    · rename_i hq; push Not at hq; rw [hq]; simp
  rw [sum_congr rfl fun i _ => this i, sum_add_distrib, ← mul_sum, add_mul, mul_assoc, h]
  simp only [sum_const, card_univ, Fintype.card_fin, nsmul_eq_mul]
  ring

/-- The potential of planes of charge (`ρ k` times `dZ` per area, at `k dZ`). -/
noncomputable def planes {nz : ℕ} (rho : Fin nz → ℝ) (dZ Z : ℝ) : ℝ :=
  -2 * Real.pi * ∑ k, rho k * |Z - (k : ℝ) * dZ| * dZ

/-- The outer potential of a slab against that of the planes of averaged charge, above the grid and
below it: they differ by `-2π |Z|` times `NetCharge/A` minus the charge per area that is in the
right-hand side. -/
theorem slab_difference {nz nxy : ℕ} (f : Fin nz → Fin nxy → ℝ) {dZ A Z : ℝ} (q : ℝ) (hd : 0 ≤ dZ)
    (hZ : Z ≤ 0 ∨ (0 < Z ∧ ((nz : ℝ) - 1) * dZ ≤ Z)) :
    slab f dZ q A Z - planes (fun k => (∑ i, f k i) / (4 * Real.pi) / nxy) dZ Z =
      -2 * Real.pi * |Z| * (q / A - ∑ k, (∑ i, f k i) / (4 * Real.pi) / nxy * dZ) := by
  have hav : ∀ k, rhoAv f k = (∑ i, f k i) / (4 * Real.pi) / nxy := by
    intro k; unfold rhoAv; rw [div_div, mul_assoc, mul_comm (nxy : ℝ)]
  unfold slab planes p0
  simp only [hav]
  set ρ : Fin nz → ℝ := fun k => (∑ i, f k i) / (4 * Real.pi) / nxy with hρ
  have hk : ∀ k : Fin nz, 0 ≤ (k : ℝ) * dZ ∧ (k : ℝ) * dZ ≤ ((nz : ℝ) - 1) * dZ := fun k => by
    have h1 : ((k : ℕ) : ℝ) + 1 ≤ nz := by exact_mod_cast k.2
    exact ⟨mul_nonneg (Nat.cast_nonneg _) hd, mul_le_mul_of_nonneg_right (by linarith) hd⟩
  rcases hZ with h | ⟨h0, h⟩
  · have h1 : ∑ k, ρ k * |Z - (k : ℝ) * dZ| * dZ = ∑ k, ρ k * ((k : ℝ) * dZ) * dZ - Z * ∑ k, ρ k * dZ := by
      rw [mul_sum, ← sum_sub_distrib]
      refine sum_congr rfl fun k _ => ?_
      rw [abs_of_nonpos (by linarith [(hk k).1])]; ring
    rw [if_pos h, abs_of_nonpos h, h1]
    ring
  · have h1 : ∑ k, ρ k * |Z - (k : ℝ) * dZ| * dZ = Z * (∑ k, ρ k * dZ) - ∑ k, ρ k * ((k : ℝ) * dZ) * dZ := by
      rw [mul_sum, ← sum_sub_distrib]
      refine sum_congr rfl fun k _ => ?_
      rw [abs_of_nonneg (by linarith [(hk k).2])]; ring
    rw [if_neg (not_le.2 h0), abs_of_pos h0, h1]
    ring

/-- In a neutral system the outer potential of a slab is that of its planes of averaged charge. -/
theorem slab_neutral {nz nxy : ℕ} (b rho : Fin nz → Fin nxy → ℝ) {dZ A Z V : ℝ} (hd : 0 ≤ dZ)
    (hZ : Z ≤ 0 ∨ (0 < Z ∧ ((nz : ℝ) - 1) * dZ ≤ Z)) (hneutral : ∑ k, ∑ i, (b k i + rho k i) = 0) :
    slab (fun k i => rhs (b k i) (rho k i) 0 V) dZ 0 A Z =
      planes (fun k => (∑ i, (b k i + rho k i)) / nxy) dZ Z := by
  have hf : ∀ k, (∑ i, rhs (b k i) (rho k i) 0 V) / (4 * Real.pi) / nxy = (∑ i, (b k i + rho k i)) / nxy := by
    intro k
    have hpi := Real.pi_ne_zero
    simp only [rhs, ne_eq, not_true_eq_false, if_false, ← mul_sum]
    rw [mul_div_cancel_left₀ _ (by positivity)]
  have h := slab_difference (A := A) (fun k i => rhs (b k i) (rho k i) 0 V) 0 hd hZ
  simp only [hf] at h
  rw [← sum_mul, ← sum_div, hneutral] at h
  simp only [zero_div, zero_mul, sub_zero, mul_zero] at h
  linarith

/-- In a charged slab it is not: against the potential of the charge in the right-hand side, which
has the uniform background, it has `-2π |Z| NetCharge/A` times `2 - κ` too much (`κ` the ratio of the
grid's to the cell's volume, nearly 1 for fine grids). -/
theorem slab_charged {nz nxy : ℕ} (b rho : Fin nz → Fin nxy → ℝ) (q : ℤ) {dZ dA Z V : ℝ} (hd : 0 ≤ dZ)
    (hn : 0 < nxy) (hdA : 0 < dA)
    (hZ : Z ≤ 0 ∨ (0 < Z ∧ ((nz : ℝ) - 1) * dZ ≤ Z))
    (h : (∑ k, ∑ i, (b k i + rho k i)) * (dA * dZ) = -q) :
    slab (fun k i => rhs (b k i) (rho k i) q V) dZ q (nxy * dA) Z -
        planes (fun k => (∑ i, rhs (b k i) (rho k i) q V) / (4 * Real.pi) / nxy) dZ Z =
      -2 * Real.pi * |Z| * (q / (nxy * dA)) * (2 - nz * nxy * (dA * dZ) / V) := by
  rw [slab_difference _ _ hd hZ]
  have hr : ∀ k i, rhs (b k i) (rho k i) q V = 4 * Real.pi * ((b k i + rho k i) + q / V) := by
    intro k i
    unfold rhs
    dsimp only
    split
    · ring
    · rename_i hq; push Not at hq; rw [hq]; simp
  have hnx : (nxy : ℝ) ≠ 0 := by positivity
  have hA : dA ≠ 0 := hdA.ne'
  have hs : ∑ k, (∑ i, rhs (b k i) (rho k i) q V) / (4 * Real.pi) / nxy * dZ =
      (∑ k, ∑ i, (b k i + rho k i)) * (dA * dZ) / (nxy * dA) + nz * (q / V) * dZ := by
    have : ∀ k, (∑ i, rhs (b k i) (rho k i) q V) / (4 * Real.pi) / nxy * dZ =
        (∑ i, (b k i + rho k i)) * (dA * dZ) / (nxy * dA) + (q / V) * dZ := by
      intro k
      have hpi := Real.pi_ne_zero
      simp only [hr, ← mul_sum]
      rw [mul_div_cancel_left₀ _ (by positivity), sum_add_distrib]
      simp only [sum_const, card_univ, Fintype.card_fin, nsmul_eq_mul]
      field_simp
    rw [sum_congr rfl fun k _ => this k, sum_add_distrib, ← sum_div, ← sum_mul]
    simp only [sum_const, card_univ, Fintype.card_fin, nsmul_eq_mul]
    ring
  rw [hs, h]
  by_cases hV : V = 0
  · subst hV; simp; ring
  · field_simp
    ring

/-- A dipole of two planes, seen from both sides. -/
example : slab (fun k _ => rhs (![1, -1] k) 0 0 7 : Fin 2 → Fin 1 → ℝ) 1 0 1 5 =
    planes (fun k => (∑ _i : Fin 1, (![1, -1] k + 0)) / ((1 : ℕ) : ℝ)) 1 5 :=
  slab_neutral (fun k _ => ![1, -1] k) (fun _ _ => 0) (by norm_num) (Or.inr ⟨by norm_num, by norm_num⟩) (by simp)

/-- The hypotheses of `slab_charged` and `total_charge`: one electron missing, on a single plane. -/
example : (∑ k, ∑ i, ((fun _ _ => 1 : Fin 1 → Fin 2 → ℝ) k i + (fun _ _ => -2 : Fin 1 → Fin 2 → ℝ) k i)) *
    ((1 / 2) * (1 : ℝ)) = -((1 : ℤ) : ℝ) := by norm_num

/-- The leading term at the boundary of a charged cluster: the background has removed the charge, so
that `-NetCharge / R` is missing but for the part by which the grid is larger than the cell. -/
theorem cluster_monopole {n : ℕ} (b rho r : Fin n → ℝ) (q : ℤ) {V dV R : ℝ} (Y : ℕ → ℕ → Fin n → ℝ)
    (Z : ℕ → ℕ → ℝ) (hY : ∀ i, Z 0 0 * Y 0 0 i = 1 / (4 * Real.pi))
    (h : (∑ i, (b i + rho i)) * dV = -q) :
    1 / ((2 * ((0 : ℕ) : ℝ) + 1) * R ^ (0 + 1)) * Z 0 0 * moment dV (fun i => rhs (b i) (rho i) q V) r Y 0 0 =
      -q / R * (1 - n * dV / V) := by
  have hpi := Real.pi_ne_zero
  have ht := total_charge (V := V) b rho q h
  have h1 : Z 0 0 * moment dV (fun i => rhs (b i) (rho i) q V) r Y 0 0 =
      1 / (4 * Real.pi) * ((∑ i, rhs (b i) (rho i) q V) * dV) := by
    unfold moment
    rw [← mul_assoc, ← mul_assoc, mul_sum, mul_sum]
    congr 1
    refine sum_congr rfl fun i _ => ?_
    rw [pow_zero, ← hY i]; ring
  rw [mul_assoc, h1, ht]
  by_cases hR : R = 0
  · subst hR; simp
  · field_simp
    simp
    ring

end Sparc.Bdry

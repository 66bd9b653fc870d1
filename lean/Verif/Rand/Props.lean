import Verif.Tac
import Verif.Rand.Model

/-!
# Seeded random vectors (property C43)
-/

namespace Sparc.Rand

open Loop

/-- **C43 (vector).** The entry of the vector for the grid point with global coordinates `(X, Y, Z)` of the
block is the number drawn from the seed `X + gx (Y + gy Z) + 1 + offset`, whatever the block. -/
theorem seeded_value (gen : ℕ → ℝ) (v : Vert) (gx gy : ℕ) (rmin rmax : ℝ) (offset : ℕ) (vec : ℕ → ℝ)
    (X Y Z : ℕ) (hx : v.x0 ≤ X ∧ X ≤ v.x1) (hy : v.y0 ≤ Y ∧ Y ≤ v.y1) (hz : v.z0 ≤ Z ∧ Z ≤ v.z1) :
    seededRandVec gen v gx gy rmin rmax offset vec
      ((X - v.x0) + (v.x1 + 1 - v.x0) * ((Y - v.y0) + (v.y1 + 1 - v.y0) * (Z - v.z0))) =
      rmin + (rmax - rmin) * gen (X + gx * (Y + gy * Z) + 1 + offset) := by
  have hi : index v (X - v.x0, Y - v.y0, Z - v.z0) =
      (X - v.x0) + (v.x1 + 1 - v.x0) * ((Y - v.y0) + (v.y1 + 1 - v.y0) * (Z - v.z0)) := by
    unfold index Vert.nx Vert.ny; ring
  have hg : indexG v gx gy (X - v.x0, Y - v.y0, Z - v.z0) = X + gx * (Y + gy * Z) := by
    unfold indexG
    dsimp only
    rw [Nat.add_sub_cancel' hx.1, Nat.add_sub_cancel' hy.1, Nat.add_sub_cancel' hz.1]; ring
  unfold seededRandVec
  rw [← hi, fill_at]
  · unfold draw; rw [hg]
  · simp only [mem_box, Vert.nx, Vert.ny, Vert.nz]; omega
  · rintro ⟨i, j, k⟩ hs he
    simp only [mem_box, Vert.nx, Vert.ny, Vert.nz] at hs
    have : (i, j, k) = (X - v.x0, Y - v.y0, Z - v.z0) := by
      unfold index at he
      dsimp only at he
      obtain ⟨a, b, c⟩ := flat3_inj (nx := v.nx) (ny := v.ny) (i := i) (j := j) (k := k) (i' := X - v.x0)
        (j' := Y - v.y0) (k' := Z - v.z0) (by unfold Vert.nx; omega) (by unfold Vert.nx; omega)
        (by unfold Vert.ny; omega) (by unfold Vert.ny; omega) (by linarith)
      rw [a, b, c]
    rw [this]

/-- **C43 (vector).** Two processes that hold the same grid point store the same number. -/
theorem seeded_layout_independent (gen : ℕ → ℝ) (v v' : Vert) (gx gy : ℕ) (rmin rmax : ℝ) (offset : ℕ)
    (vec vec' : ℕ → ℝ) (X Y Z : ℕ)
    (hx : v.x0 ≤ X ∧ X ≤ v.x1) (hy : v.y0 ≤ Y ∧ Y ≤ v.y1) (hz : v.z0 ≤ Z ∧ Z ≤ v.z1)
    (hx' : v'.x0 ≤ X ∧ X ≤ v'.x1) (hy' : v'.y0 ≤ Y ∧ Y ≤ v'.y1) (hz' : v'.z0 ≤ Z ∧ Z ≤ v'.z1) :
    seededRandVec gen v gx gy rmin rmax offset vec
      ((X - v.x0) + (v.x1 + 1 - v.x0) * ((Y - v.y0) + (v.y1 + 1 - v.y0) * (Z - v.z0))) =
    seededRandVec gen v' gx gy rmin rmax offset vec'
      ((X - v'.x0) + (v'.x1 + 1 - v'.x0) * ((Y - v'.y0) + (v'.y1 + 1 - v'.y0) * (Z - v'.z0))) := by
  rw [seeded_value gen v gx gy rmin rmax offset vec X Y Z hx hy hz,
    seeded_value gen v' gx gy rmin rmax offset vec' X Y Z hx' hy' hz']

/-- **C43 (range).** All entries lie between the two bounds if the generator delivers numbers from 0 to 1. -/
theorem seeded_range (gen : ℕ → ℝ) (hg : ∀ s, 0 ≤ gen s ∧ gen s ≤ 1) (v : Vert) (gx gy : ℕ) (rmin rmax : ℝ)
    (hr : rmin ≤ rmax) (offset : ℕ) (vec : ℕ → ℝ) (n : ℕ)
    (hn : n < (v.x1 + 1 - v.x0) * (v.y1 + 1 - v.y0) * (v.z1 + 1 - v.z0)) :
    rmin ≤ seededRandVec gen v gx gy rmin rmax offset vec n ∧
      seededRandVec gen v gx gy rmin rmax offset vec n ≤ rmax := by
  set a := v.x1 + 1 - v.x0 with ha
  set b := v.y1 + 1 - v.y0 with hb
  set c := v.z1 + 1 - v.z0 with hc
  have ha0 : 0 < a := by
    rcases Nat.eq_zero_or_pos a with h | h
    · rw [h] at hn; simp at hn
    · exact h
  have hb0 : 0 < b := by
    rcases Nat.eq_zero_or_pos b with h | h
    · rw [h] at hn; simp at hn
    · exact h
  have h1 : n % a < a := Nat.mod_lt _ ha0
  have h2 : n / a % b < b := Nat.mod_lt _ hb0
  have h3 : n / a / b < c := by
    rw [Nat.div_div_eq_div_mul]
    exact Nat.div_lt_of_lt_mul hn
  have e : n = (v.x0 + n % a - v.x0) + (v.x1 + 1 - v.x0) * ((v.y0 + n / a % b - v.y0) +
      (v.y1 + 1 - v.y0) * (v.z0 + n / a / b - v.z0)) := by
    rw [Nat.add_sub_cancel_left, Nat.add_sub_cancel_left, Nat.add_sub_cancel_left, ← ha, ← hb,
      Nat.mod_add_div, Nat.mod_add_div]
  have q1 : v.x0 ≤ v.x0 + n % a ∧ v.x0 + n % a ≤ v.x1 := by
    clear hn e h2 h3; generalize n % a = r at *; omega
  have q2 : v.y0 ≤ v.y0 + n / a % b ∧ v.y0 + n / a % b ≤ v.y1 := by
    clear hn e h1 h3; generalize n / a % b = r at *; omega
  have q3 : v.z0 ≤ v.z0 + n / a / b ∧ v.z0 + n / a / b ≤ v.z1 := by
    clear hn e h1 h2; generalize n / a / b = r at *; omega
  rw [e, seeded_value gen v gx gy rmin rmax offset vec _ _ _ q1 q2 q3]
  generalize v.x0 + n % a + gx * (v.y0 + n / a % b + gy * (v.z0 + n / a / b)) + 1 + offset = s
  have := hg s
  constructor <;> nlinarith

theorem mem_visits {p : Proc} {o t : ℕ × ℕ × ℕ} :
    (o, t) ∈ visits p ↔ (o.1 < p.ns ∧ o.2.1 < p.nb ∧ o.2.2 < p.nk) ∧
      t.1 < p.v.nx ∧ t.2.1 < p.v.ny ∧ t.2.2 < p.v.nz := by
  unfold visits
  simp only [List.mem_flatMap, List.mem_map, mem_box, Prod.mk.injEq]
  constructor
  · rintro ⟨o', ho, t', ht, rfl, rfl⟩; exact ⟨ho, ht⟩
  · rintro ⟨ho, ht⟩; exact ⟨o, ho, t, ht, rfl, rfl⟩

/-- The seed of an orbital entry: running number of k-point, band, spinor and grid point, plus one. -/
def seed (g : Sizes) (K B S X Y Z : ℕ) : ℕ :=
  X + g.gx * (Y + g.gy * (Z + g.gz * (S + g.nspinor * (B + g.nstates * K)))) + 1

/-- **C43 (orbitals).** The initial value of band `B`, spinor `S`, k-point `K` at the grid point `(X, Y, Z)`
depends only on these global numbers, whatever block, bands, spinors and k-points the process holds. -/
theorem orbital_value (gen : ℕ → ℝ) (g : Sizes) (p : Proc) (vec : ℕ → ℝ) (K B S X Y Z : ℕ)
    (hk : p.k0 ≤ K ∧ K < p.k0 + p.nk) (hb : p.b0 ≤ B ∧ B < p.b0 + p.nb) (hs : p.s0 ≤ S ∧ S < p.s0 + p.ns)
    (hx : p.v.x0 ≤ X ∧ X ≤ p.v.x1) (hy : p.v.y0 ≤ Y ∧ Y ≤ p.v.y1) (hz : p.v.z0 ≤ Z ∧ Z ≤ p.v.z1) :
    initOrbitals gen g p vec
      ((X - p.v.x0) + (p.v.x1 + 1 - p.v.x0) * ((Y - p.v.y0) + (p.v.y1 + 1 - p.v.y0) * ((Z - p.v.z0) +
        (p.v.z1 + 1 - p.v.z0) * ((S - p.s0) + p.ns * ((B - p.b0) + p.nb * (K - p.k0)))))) =
      -1 / 2 + gen (seed g K B S X Y Z) := by
  set o : ℕ × ℕ × ℕ := (S - p.s0, B - p.b0, K - p.k0) with ho
  set t : ℕ × ℕ × ℕ := (X - p.v.x0, Y - p.v.y0, Z - p.v.z0) with ht
  have hi : shift p o + index p.v t =
      (X - p.v.x0) + (p.v.x1 + 1 - p.v.x0) * ((Y - p.v.y0) + (p.v.y1 + 1 - p.v.y0) * ((Z - p.v.z0) +
        (p.v.z1 + 1 - p.v.z0) * ((S - p.s0) + p.ns * ((B - p.b0) + p.nb * (K - p.k0))))) := by
    unfold shift index Vert.nx Vert.ny Vert.nz; ring
  have hg : indexG p.v g.gx g.gy t + 1 + shiftG g p o = seed g K B S X Y Z := by
    unfold indexG shiftG seed Sizes.nd
    rw [ho, ht]
    dsimp only
    rw [Nat.add_sub_cancel' hx.1, Nat.add_sub_cancel' hy.1, Nat.add_sub_cancel' hz.1,
      Nat.add_sub_cancel' hk.1, Nat.add_sub_cancel' hb.1, Nat.add_sub_cancel' hs.1]
    ring
  have hmem : (o, t) ∈ visits p := by
    rw [mem_visits, ho, ht]
    simp only [Vert.nx, Vert.ny, Vert.nz]
    omega
  unfold initOrbitals
  rw [← hi]
  have := fill_at (l := visits p) (idx := fun q => shift p q.1 + index p.v q.2)
    (val := fun q => draw gen (-1 / 2) (1 / 2) (indexG p.v g.gx g.gy q.2 + 1 + shiftG g p q.1))
    (m := vec) (t := (o, t)) hmem ?_
  · refine this.trans ?_
    dsimp only
    rw [hg]; unfold draw; ring
  · rintro ⟨⟨s, b, k⟩, ⟨i, j, l⟩⟩ hq he
    rw [mem_visits] at hq hmem
    have : (((s, b, k), (i, j, l)) : (ℕ × ℕ × ℕ) × (ℕ × ℕ × ℕ)) = (o, t) := by
      have hlt : index p.v (i, j, l) < p.v.nx * p.v.ny * p.v.nz := by
        have := flat3_lt hq.2.1 hq.2.2.1 hq.2.2.2
        unfold index; dsimp only at this ⊢; linarith
      have hlt' : index p.v t < p.v.nx * p.v.ny * p.v.nz := by
        have := flat3_lt hmem.2.1 hmem.2.2.1 hmem.2.2.2
        unfold index; linarith
      have e : index p.v (i, j, l) + (s + (b + k * p.nb) * p.ns) * (p.v.nx * p.v.ny * p.v.nz) =
          index p.v t + (o.1 + (o.2.1 + o.2.2 * p.nb) * p.ns) * (p.v.nx * p.v.ny * p.v.nz) := by
        unfold shift at he
        dsimp only at he
        linarith
      obtain ⟨e1, e2⟩ := flat_inj hlt hlt' e
      obtain ⟨e3, e4⟩ := flat_inj hq.1.1 hmem.1.1 e2
      obtain ⟨e5, e6⟩ := flat_inj hq.1.2.1 hmem.1.2.1 e4
      unfold index at e1
      dsimp only at e1
      obtain ⟨a, b', c⟩ := flat3_inj (nx := p.v.nx) (ny := p.v.ny) hq.2.1 hmem.2.1 hq.2.2.1 hmem.2.2.1
        (k := l) (k' := t.2.2) (by dsimp only; linarith)
      simp only [Prod.ext_iff]
      exact ⟨⟨e3, e5, e6⟩, a, b', c⟩
    rw [this]

/-- **C43 (distinct seeds).** Entries with different global numbers use different seeds. -/
theorem seeds_distinct (g : Sizes) (K B S X Y Z K' B' S' X' Y' Z' : ℕ)
    (hx : X < g.gx) (hx' : X' < g.gx) (hy : Y < g.gy) (hy' : Y' < g.gy) (hz : Z < g.gz) (hz' : Z' < g.gz)
    (hs : S < g.nspinor) (hs' : S' < g.nspinor) (hb : B < g.nstates) (hb' : B' < g.nstates)
    (h : seed g K B S X Y Z = seed g K' B' S' X' Y' Z') :
    K = K' ∧ B = B' ∧ S = S' ∧ X = X' ∧ Y = Y' ∧ Z = Z' := by
  unfold seed at h
  obtain ⟨e1, h1⟩ := flat_inj hx hx' (a := Y + g.gy * (Z + g.gz * (S + g.nspinor * (B + g.nstates * K))))
    (b := Y' + g.gy * (Z' + g.gz * (S' + g.nspinor * (B' + g.nstates * K')))) (by linarith)
  obtain ⟨e2, h2⟩ := flat_inj hy hy' (a := Z + g.gz * (S + g.nspinor * (B + g.nstates * K)))
    (b := Z' + g.gz * (S' + g.nspinor * (B' + g.nstates * K'))) (by linarith)
  obtain ⟨e3, h3⟩ := flat_inj hz hz' (a := S + g.nspinor * (B + g.nstates * K))
    (b := S' + g.nspinor * (B' + g.nstates * K')) (by linarith)
  obtain ⟨e4, h4⟩ := flat_inj hs hs' (a := B + g.nstates * K) (b := B' + g.nstates * K') (by linarith)
  obtain ⟨e5, h5⟩ := flat_inj hb hb' (a := K) (b := K') (by linarith)
  exact ⟨h5, e5, e4, e1, e2, e3⟩

/-- The code computes the seed in `int`: for a grid of 100³ points the seeds of the bands from number 2148 on
do not fit, so the claim only holds for smaller systems. -/
theorem seed_overflow : ∀ B, 2148 ≤ B → 2 ^ 31 ≤ seed ⟨100, 100, 100, 1, 5000⟩ 0 B 0 0 0 0 := by
  intro B hB
  unfold seed
  dsimp only
  omega

/-! ## Concrete instances -/

example : seed ⟨4, 3, 2, 1, 5⟩ 0 2 0 1 2 1 = 70 := by decide
example : (⟨2, 3, 0, 2, 1, 1⟩ : Vert).x0 ≤ 3 ∧ 3 ≤ (⟨2, 3, 0, 2, 1, 1⟩ : Vert).x1 := by decide

end Sparc.Rand

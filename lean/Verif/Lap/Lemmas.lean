import Verif.Tac
import Verif.FD.Lemmas
import Verif.Lap.Model

/-! # The finite-difference Laplacian on one process: lemmas -/

open Finset

namespace Sparc.Lap

open Loop

/-- Antisymmetric stencil with weights `w`. -/
def S1 (n : ℕ) (w : ℕ → ℝ) (f : ℤ → ℝ) (i : ℤ) : ℝ :=
  ∑ r ∈ range n, (f (i + ((r + 1 : ℕ) : ℤ)) - f (i - ((r + 1 : ℕ) : ℤ))) * w (r + 1)

/-- Symmetric stencil with weights `w`, without the central point. -/
def S2 (n : ℕ) (w : ℕ → ℝ) (f : ℤ → ℝ) (i : ℤ) : ℝ :=
  ∑ r ∈ range n, (f (i - ((r + 1 : ℕ) : ℤ)) + f (i + ((r + 1 : ℕ) : ℤ))) * w (r + 1)

theorem applyD1_eq (n : ℕ) (w : ℕ → ℝ) (f : ℤ → ℝ) (i : ℤ) : FD.applyD1 n w f i = S1 n w f i := by
  unfold FD.applyD1 S1
  rw [FD.foldl_add_sum (fun p : ℕ => (f (i + p) - f (i - p)) * w p), zero_add]

theorem applyD2_eq (n : ℕ) (w : ℕ → ℝ) (f : ℤ → ℝ) (i : ℤ) :
    FD.applyD2 n w f i = f i * w 0 + S2 n w f i := by
  unfold FD.applyD2 S2
  rw [FD.foldl_add_sum (fun p : ℕ => (f (i - p) + f (i + p)) * w p)]

theorem S1_smul (n : ℕ) (w : ℕ → ℝ) (c : ℝ) (f : ℤ → ℝ) (i : ℤ) :
    S1 n (fun p => c * w p) f i = c * S1 n w f i := by
  unfold S1; rw [mul_sum]; exact sum_congr rfl fun _ _ => by ring

theorem S2_smul (n : ℕ) (w : ℕ → ℝ) (c : ℝ) (f : ℤ → ℝ) (i : ℤ) :
    S2 n (fun p => c * w p) f i = c * S2 n w f i := by
  unfold S2; rw [mul_sum]; exact sum_congr rfl fun _ _ => by ring

theorem S1_add (n : ℕ) (w : ℕ → ℝ) (f g : ℤ → ℝ) (i : ℤ) :
    S1 n w (fun j => f j + g j) i = S1 n w f i + S1 n w g i := by
  unfold S1; rw [← sum_add_distrib]; exact sum_congr rfl fun _ _ => by ring

theorem S1_mul (n : ℕ) (w : ℕ → ℝ) (c : ℝ) (f : ℤ → ℝ) (i : ℤ) :
    S1 n w (fun j => c * f j) i = c * S1 n w f i := by
  unfold S1; rw [mul_sum]; exact sum_congr rfl fun _ _ => by ring

/-- First-derivative stencils in two directions commute. -/
theorem S1_comm (n : ℕ) (w w' : ℕ → ℝ) (f : ℤ → ℤ → ℝ) (i j : ℤ) :
    S1 n w (fun s => S1 n w' (fun t => f s t) j) i = S1 n w' (fun t => S1 n w (fun s => f s t) i) j := by
  unfold S1
  simp only [sum_mul, ← sum_sub_distrib]
  rw [sum_comm]
  exact sum_congr rfl fun _ _ => sum_congr rfl fun _ _ => by ring

/-! ### Coefficient compaction -/

theorem packOne_spec (cs : List (ℕ → ℝ)) (a : ℝ) (s : (ℕ → ℝ) × ℕ) (p : ℕ) :
    (packOne cs a s p).2 = s.2 + cs.length ∧
    (∀ x, x < s.2 → (packOne cs a s p).1 x = s.1 x) ∧
    (∀ q (h : q < cs.length), (packOne cs a s p).1 (s.2 + q) = cs[q] p * a) := by
  unfold packOne
  induction cs generalizing s with
  | nil => simp
  | cons c cs ih =>
    obtain ⟨h1, h2, h3⟩ := ih (Function.update s.1 s.2 (c p * a), s.2 + 1)
    rw [List.foldl_cons]
    refine ⟨by rw [h1]; simp; ring, fun x hx => ?_, fun q hq => ?_⟩
    · rw [h2 x (by simp; omega)]
      exact Function.update_of_ne (by simp; omega) _ _
    · rcases q with _ | q
      · rw [h2 _ (by simp)]
        simp
      · have := h3 q (by simpa using hq)
        rw [show s.2 + (q + 1) = s.2 + 1 + q by ring]
        exact this

theorem pack_loop (cs : List (ℕ → ℝ)) (a : ℝ) (first : ℕ) (s : (ℕ → ℝ) × ℕ) (k : ℕ) :
    ((List.range' first k).foldl (packOne cs a) s).2 = s.2 + k * cs.length ∧
    (∀ x, x < s.2 → ((List.range' first k).foldl (packOne cs a) s).1 x = s.1 x) ∧
    (∀ r q (h : q < cs.length), r < k →
      ((List.range' first k).foldl (packOne cs a) s).1 (s.2 + r * cs.length + q) =
        cs[q] (first + r) * a) := by
  induction k with
  | zero => simp
  | succ k ih =>
    obtain ⟨h1, h2, h3⟩ := ih
    rw [List.range'_concat, List.foldl_append]
    simp only [List.foldl_cons, List.foldl_nil, Nat.one_mul]
    obtain ⟨g1, g2, g3⟩ := packOne_spec cs a ((List.range' first k).foldl (packOne cs a) s) (first + k)
    refine ⟨by rw [g1, h1]; ring, fun x hx => ?_, fun r q hq hr => ?_⟩
    · rw [g2 x (by rw [h1]; omega), h2 x hx]
    · rcases Nat.lt_succ_iff_lt_or_eq.1 hr with h | rfl
      · rw [g2 _ ?_, h3 r q hq h]
        rw [h1]
        calc s.2 + r * cs.length + q < s.2 + (r + 1) * cs.length := by rw [Nat.add_mul]; omega
          _ ≤ s.2 + k * cs.length := by gcongr; exact h
      · have := g3 q hq
        rw [h1] at this
        exact this

theorem pack_at (cs : List (ℕ → ℝ)) (a : ℝ) (first FDn pos : ℕ) (m : ℕ → ℝ) {p q : ℕ}
    (hp : first ≤ p) (hp' : p ≤ FDn) (hq : q < cs.length) :
    pack cs first FDn pos a m (pos + (p - first) * cs.length + q) = cs[q] p * a := by
  have := (pack_loop cs a first (m, pos) (FDn + 1 - first)).2.2 (p - first) q hq (by omega)
  unfold pack
  rw [this, Nat.add_sub_cancel' hp]

/-! ### Kernels at one point -/

/-- The value stored by a kernel at a point of the box it covers. -/
theorem fill_box {wx wy wz : ℕ} (val : ℕ × ℕ × ℕ → ℝ) (m : Mem) {i j k : ℕ} (hi : i < wx)
    (hj : j < wy) (hk : k < wz) (idx : ℕ × ℕ × ℕ → ℤ)
    (hidx : ∀ t, idx t = (t.2.2 : ℤ) * (wx * wy) + t.2.1 * wx + t.1) :
    fill (box wx wy wz) idx val m ((k : ℤ) * (wx * wy) + j * wx + i) = val (i, j, k) := by
  have h := hidx (i, j, k)
  rw [show (k : ℤ) * (wx * wy) + j * wx + i = idx (i, j, k) by rw [h]]
  refine fill_at (by simp [hi, hj, hk]) fun s hs he => ?_
  rw [mem_box] at hs
  rw [hidx, h] at he
  have he' : s.1 + s.2.1 * wx + s.2.2 * (wx * wy) = i + j * wx + k * (wx * wy) := by
    have : ((s.1 + s.2.1 * wx + s.2.2 * (wx * wy) : ℕ) : ℤ) = (i + j * wx + k * (wx * wy) : ℕ) := by
      push_cast; linarith
    exact_mod_cast this
  obtain ⟨h1, h2, h3⟩ := flat3_inj hs.1 hi hs.2.1 hj he'
  obtain ⟨s1, s2, s3⟩ := s
  simp only at h1 h2 h3
  subst h1 h2 h3
  rfl

/-- A kernel writes nowhere outside the block. -/
theorem fill_box_other {wx wy wz : ℕ} (val : ℕ × ℕ × ℕ → ℝ) (m : Mem) (idx : ℕ × ℕ × ℕ → ℤ)
    (hidx : ∀ t, idx t = (t.2.2 : ℤ) * (wx * wy) + t.2.1 * wx + t.1) {x : ℤ}
    (hx : x < 0 ∨ (wx * wy * wz : ℕ) ≤ x) : fill (box wx wy wz) idx val m x = m x := by
  refine fill_other fun t ht => ?_
  rw [mem_box] at ht
  have := flat3_lt ht.1 ht.2.1 ht.2.2
  have e : idx t = ((t.1 + t.2.1 * wx + t.2.2 * (wx * wy) : ℕ) : ℤ) := by
    rw [hidx]; push_cast; ring
  omega

theorem calcDX_at (X DX : Mem) (n : ℕ) (sX syX szX xX yX zX : ℤ) (w : ℕ → ℝ)
    {wx wy wz i j k : ℕ} (hi : i < wx) (hj : j < wy) (hk : k < wz) (f : ℤ → ℝ) (p : ℤ)
    (hX : ∀ s : ℤ, -n ≤ s → s ≤ n → X ((zX + k) * szX + (yX + j) * syX + i + xX + s * sX) = f (p + s)) :
    calcDX X DX n sX syX wx szX (wx * wy) 0 wx 0 wy 0 wz xX yX zX w 0
      ((k : ℤ) * (wx * wy) + j * wx + i) = S1 n w f p := by
  unfold calcDX
  simp only [sub_zero, Int.toNat_natCast, zero_add, add_zero]
  rw [fill_box _ _ hi hj hk _ fun t => by ring]
  simp only
  rw [FD.foldl_add_sum (fun r : ℕ => (X ((zX + k) * szX + (yX + j) * syX + i + xX + r * sX) -
    X ((zX + k) * szX + (yX + j) * syX + i + xX - r * sX)) * w r), mul_zero, zero_add]
  unfold S1
  refine sum_congr rfl fun r hr => ?_
  have hr := mem_range.1 hr
  have h1 := hX ((r + 1 : ℕ) : ℤ) (by omega) (by omega)
  have h2 := hX (-((r + 1 : ℕ) : ℤ)) (by omega) (by omega)
  rw [h1]
  rw [neg_mul, ← sub_eq_add_neg, ← sub_eq_add_neg] at h2
  rw [h2]

theorem calcDX12_at (X DX : Mem) (n : ℕ) (s1 s2 syX szX xX yX zX : ℤ) (w1 w2 : ℕ → ℝ)
    {wx wy wz i j k : ℕ} (hi : i < wx) (hj : j < wy) (hk : k < wz) (f g : ℤ → ℝ) (p p' : ℤ)
    (hX : ∀ s : ℤ, -n ≤ s → s ≤ n → X ((zX + k) * szX + (yX + j) * syX + i + xX + s * s1) = f (p + s))
    (hX' : ∀ s : ℤ, -n ≤ s → s ≤ n →
      X ((zX + k) * szX + (yX + j) * syX + i + xX + s * s2) = g (p' + s)) :
    calcDX12 X DX n s1 s2 syX wx szX (wx * wy) 0 wx 0 wy 0 wz xX yX zX w1 w2
      ((k : ℤ) * (wx * wy) + j * wx + i) = S1 n w1 f p + S1 n w2 g p' := by
  unfold calcDX12
  simp only [sub_zero, Int.toNat_natCast, zero_add, add_zero]
  rw [fill_box _ _ hi hj hk _ fun t => by ring]
  simp only
  rw [FD.foldl_add_sum (fun r : ℕ => (X ((zX + k) * szX + (yX + j) * syX + i + xX + r * s1) -
    X ((zX + k) * szX + (yX + j) * syX + i + xX - r * s1)) * w1 r), zero_add,
    FD.foldl_add_sum (fun r : ℕ => (X ((zX + k) * szX + (yX + j) * syX + i + xX + r * s2) -
    X ((zX + k) * szX + (yX + j) * syX + i + xX - r * s2)) * w2 r), zero_add]
  unfold S1
  congr 1
  all_goals
    refine sum_congr rfl fun r hr => ?_
    have hr := mem_range.1 hr
  · have h1 := hX ((r + 1 : ℕ) : ℤ) (by omega) (by omega)
    have h2 := hX (-((r + 1 : ℕ) : ℤ)) (by omega) (by omega)
    rw [h1]
    rw [neg_mul, ← sub_eq_add_neg, ← sub_eq_add_neg] at h2
    rw [h2]
  · have h1 := hX' ((r + 1 : ℕ) : ℤ) (by omega) (by omega)
    have h2 := hX' (-((r + 1 : ℕ) : ℤ)) (by omega) (by omega)
    rw [h1]
    rw [neg_mul, ← sub_eq_add_neg, ← sub_eq_add_neg] at h2
    rw [h2]

theorem sub_of_add {X : Mem} {q : ℤ} {f : ℤ → ℝ} {p st : ℤ} {n : ℕ}
    (h : ∀ s : ℤ, -n ≤ s → s ≤ n → X (q + s * st) = f (p + s)) {r : ℕ} (hr : r ≤ n) :
    X (q + r * st) = f (p + r) ∧ X (q - r * st) = f (p - r) := by
  refine ⟨h r (by omega) (by omega), ?_⟩
  have := h (-r) (by omega) (by omega)
  rwa [neg_mul, ← sub_eq_add_neg, ← sub_eq_add_neg] at this

theorem stencil3_at (X v0 y : Mem) (n : ℕ) (syE szE : ℤ) (w : ℕ → ℝ) (c0 b : ℝ)
    {nx ny nz i j k : ℕ} (hi : i < nx) (hj : j < ny) (hk : k < nz) (fx fy fz : ℤ → ℝ) (px py pz : ℤ)
    (q : ℤ) (hq : q = ((n : ℤ) + k) * szE + (n + j) * syE + (i + n)) (ctr : ℝ) (hc : X q = ctr)
    (hx : ∀ s : ℤ, -n ≤ s → s ≤ n → X (q + s * 1) = fx (px + s))
    (hy : ∀ s : ℤ, -n ≤ s → s ≤ n → X (q + s * syE) = fy (py + s))
    (hz : ∀ s : ℤ, -n ≤ s → s ≤ n → X (q + s * szE) = fz (pz + s)) :
    stencil3 X n nx syE (nx * ny) szE 0 nx 0 ny 0 nz n n n w c0 b v0 y
      ((k : ℤ) * (nx * ny) + j * nx + i) =
    c0 * ctr + S2 n (fun p => w (3 * p)) fx px + S2 n (fun p => w (3 * p + 1)) fy py +
      S2 n (fun p => w (3 * p + 2)) fz pz + b * (v0 ((k : ℤ) * (nx * ny) + j * nx + i) * ctr) := by
  unfold stencil3
  simp only [sub_zero, Int.toNat_natCast, zero_add]
  rw [fill_box _ _ hi hj hk _ fun t => by ring]
  simp only
  rw [← hq, hc]
  rw [FD.foldl_add_sum (fun r : ℕ => ((X (q - r) + X (q + r)) * w (3 * r)
          + (X (q - r * syE) + X (q + r * syE)) * w (3 * r + 1)
          + (X (q - r * szE) + X (q + r * szE)) * w (3 * r + 2)))]
  rw [sum_add_distrib, sum_add_distrib]
  have e : ∀ (f : ℤ → ℝ) (p st : ℤ) (w : ℕ → ℝ)
      (_ : ∀ s : ℤ, -n ≤ s → s ≤ n → X (q + s * st) = f (p + s)),
      ∑ r ∈ range n, (X (q - ((r + 1 : ℕ) : ℤ) * st) + X (q + ((r + 1 : ℕ) : ℤ) * st)) * w (r + 1) =
        S2 n w f p := by
    intro f p st w h
    unfold S2
    refine sum_congr rfl fun r hr => ?_
    have := sub_of_add h (r := r + 1) (by have := mem_range.1 hr; omega)
    rw [this.1, this.2]
  have ex := e fx px 1 (fun p => w (3 * p)) hx
  simp only [mul_one] at ex
  rw [ex, e fy py syE (fun p => w (3 * p + 1)) hy, e fz pz szE (fun p => w (3 * p + 2)) hz]
  ring

theorem stencil4_at (X DX v0 y : Mem) (n : ℕ) (sD syE syD szE szD xD yD zD : ℤ) (w : ℕ → ℝ)
    (c0 b : ℝ)
    {nx ny nz i j k : ℕ} (hi : i < nx) (hj : j < ny) (hk : k < nz) (fx fy fz fd : ℤ → ℝ)
    (px py pz pd : ℤ)
    (q : ℤ) (hq : q = ((n : ℤ) + k) * szE + (n + j) * syE + i + n) (ctr : ℝ) (hc : X q = ctr)
    (d : ℤ) (hd : d = (zD + k) * szD + (yD + j) * syD + i + xD)
    (hx : ∀ s : ℤ, -n ≤ s → s ≤ n → X (q + s * 1) = fx (px + s))
    (hy : ∀ s : ℤ, -n ≤ s → s ≤ n → X (q + s * syE) = fy (py + s))
    (hz : ∀ s : ℤ, -n ≤ s → s ≤ n → X (q + s * szE) = fz (pz + s))
    (hD : ∀ s : ℤ, -n ≤ s → s ≤ n → DX (d + s * sD) = fd (pd + s)) :
    stencil4 X DX n sD nx syE syD (nx * ny) szE szD 0 nx 0 ny 0 nz n n n xD yD zD w c0 b v0 y
      ((k : ℤ) * (nx * ny) + j * nx + i) =
    c0 * ctr + S2 n (fun p => w (4 * p + 1)) fx px + S2 n (fun p => w (4 * p + 1 + 1)) fy py +
      S2 n (fun p => w (4 * p + 1 + 2)) fz pz + S1 n (fun p => w (4 * p + 1 + 3)) fd pd +
      b * (v0 ((k : ℤ) * (nx * ny) + j * nx + i) * ctr) := by
  unfold stencil4
  simp only [sub_zero, Int.toNat_natCast, zero_add, add_zero]
  rw [fill_box _ _ hi hj hk _ fun t => by ring]
  simp only
  rw [← hq, ← hd, hc]
  rw [FD.foldl_add_sum (fun r : ℕ => ((X (q - r) + X (q + r)) * w (4 * r + 1)
          + (X (q - r * syE) + X (q + r * syE)) * w (4 * r + 1 + 1)
          + (X (q - r * szE) + X (q + r * szE)) * w (4 * r + 1 + 2)
          + (DX (d + r * sD) - DX (d - r * sD)) * w (4 * r + 1 + 3)))]
  rw [sum_add_distrib, sum_add_distrib, sum_add_distrib]
  have e : ∀ (f : ℤ → ℝ) (p st : ℤ) (w : ℕ → ℝ)
      (_ : ∀ s : ℤ, -n ≤ s → s ≤ n → X (q + s * st) = f (p + s)),
      ∑ r ∈ range n, (X (q - ((r + 1 : ℕ) : ℤ) * st) + X (q + ((r + 1 : ℕ) : ℤ) * st)) * w (r + 1) =
        S2 n w f p := by
    intro f p st w h
    unfold S2
    refine sum_congr rfl fun r hr => ?_
    have := sub_of_add h (r := r + 1) (by have := mem_range.1 hr; omega)
    rw [this.1, this.2]
  have ex := e fx px 1 (fun p => w (4 * p + 1)) hx
  simp only [mul_one] at ex
  have ed : ∑ r ∈ range n, (DX (d + ((r + 1 : ℕ) : ℤ) * sD) - DX (d - ((r + 1 : ℕ) : ℤ) * sD)) *
      w (4 * (r + 1) + 1 + 3) = S1 n (fun p => w (4 * p + 1 + 3)) fd pd := by
    unfold S1
    refine sum_congr rfl fun r hr => ?_
    have := sub_of_add hD (r := r + 1) (by have := mem_range.1 hr; omega)
    rw [this.1, this.2]
  rw [ex, e fy py syE (fun p => w (4 * p + 1 + 1)) hy, e fz pz szE (fun p => w (4 * p + 1 + 2)) hz, ed]
  ring

theorem stencil5_at (X DX1 DX2 v0 y : Mem) (n : ℕ)
    (sD1 sD2 syE syD1 syD2 szE szD1 szD2 xD1 yD1 zD1 xD2 yD2 zD2 : ℤ) (w : ℕ → ℝ) (c0 b : ℝ)
    {nx ny nz i j k : ℕ} (hi : i < nx) (hj : j < ny) (hk : k < nz) (fx fy fz fd fe : ℤ → ℝ)
    (px py pz pd pe : ℤ)
    (q : ℤ) (hq : q = ((n : ℤ) + k) * szE + (n + j) * syE + i + n) (ctr : ℝ) (hc : X q = ctr)
    (d : ℤ) (hd : d = (zD1 + k) * szD1 + (yD1 + j) * syD1 + i + xD1)
    (e : ℤ) (he : e = (zD2 + k) * szD2 + (yD2 + j) * syD2 + i + xD2)
    (hx : ∀ s : ℤ, -n ≤ s → s ≤ n → X (q + s * 1) = fx (px + s))
    (hy : ∀ s : ℤ, -n ≤ s → s ≤ n → X (q + s * syE) = fy (py + s))
    (hz : ∀ s : ℤ, -n ≤ s → s ≤ n → X (q + s * szE) = fz (pz + s))
    (hD : ∀ s : ℤ, -n ≤ s → s ≤ n → DX1 (d + s * sD1) = fd (pd + s))
    (hE : ∀ s : ℤ, -n ≤ s → s ≤ n → DX2 (e + s * sD2) = fe (pe + s)) :
    stencil5 X DX1 DX2 n sD1 sD2 nx syE syD1 syD2 (nx * ny) szE szD1 szD2 0 nx 0 ny 0 nz n n n
      xD1 yD1 zD1 xD2 yD2 zD2 w c0 b v0 y ((k : ℤ) * (nx * ny) + j * nx + i) =
    c0 * ctr + S2 n (fun p => w (5 * p)) fx px + S2 n (fun p => w (5 * p + 1)) fy py +
      S2 n (fun p => w (5 * p + 2)) fz pz + S1 n (fun p => w (5 * p + 3)) fd pd +
      S1 n (fun p => w (5 * p + 4)) fe pe +
      b * (v0 ((k : ℤ) * (nx * ny) + j * nx + i) * ctr) := by
  unfold stencil5
  simp only [sub_zero, Int.toNat_natCast, zero_add, add_zero]
  rw [fill_box _ _ hi hj hk _ fun t => by ring]
  simp only
  rw [← hq, ← hd, ← he, hc]
  rw [FD.foldl_add_sum (fun r : ℕ => ((X (q - r) + X (q + r)) * w (5 * r)
          + (X (q - r * syE) + X (q + r * syE)) * w (5 * r + 1)
          + (X (q - r * szE) + X (q + r * szE)) * w (5 * r + 2)
          + (DX1 (d + r * sD1) - DX1 (d - r * sD1)) * w (5 * r + 3)
          + (DX2 (e + r * sD2) - DX2 (e - r * sD2)) * w (5 * r + 4)))]
  rw [sum_add_distrib, sum_add_distrib, sum_add_distrib, sum_add_distrib]
  have e2 : ∀ (f : ℤ → ℝ) (p st : ℤ) (w : ℕ → ℝ)
      (_ : ∀ s : ℤ, -n ≤ s → s ≤ n → X (q + s * st) = f (p + s)),
      ∑ r ∈ range n, (X (q - ((r + 1 : ℕ) : ℤ) * st) + X (q + ((r + 1 : ℕ) : ℤ) * st)) * w (r + 1) =
        S2 n w f p := by
    intro f p st w h
    unfold S2
    refine sum_congr rfl fun r hr => ?_
    have := sub_of_add h (r := r + 1) (by have := mem_range.1 hr; omega)
    rw [this.1, this.2]
  have ex := e2 fx px 1 (fun p => w (5 * p)) hx
  simp only [mul_one] at ex
  have ed : ∀ (DX : Mem) (d sD : ℤ) (fd : ℤ → ℝ) (pd : ℤ) (w : ℕ → ℝ)
      (_ : ∀ s : ℤ, -n ≤ s → s ≤ n → DX (d + s * sD) = fd (pd + s)),
      ∑ r ∈ range n, (DX (d + ((r + 1 : ℕ) : ℤ) * sD) - DX (d - ((r + 1 : ℕ) : ℤ) * sD)) *
      w (r + 1) = S1 n w fd pd := by
    intro DX d sD fd pd w h
    unfold S1
    refine sum_congr rfl fun r hr => ?_
    have := sub_of_add h (r := r + 1) (by have := mem_range.1 hr; omega)
    rw [this.1, this.2]
  rw [ex, e2 fy py syE (fun p => w (5 * p + 1)) hy, e2 fz pz szE (fun p => w (5 * p + 2)) hz,
    ed DX1 d sD1 fd pd (fun p => w (5 * p + 3)) hD, ed DX2 e sD2 fe pe (fun p => w (5 * p + 4)) hE]
  ring

end Sparc.Lap

import Verif.Extrap.Model
import Verif.Wrap.Props
import Mathlib.Algebra.BigOperators.Ring.Finset
import Mathlib.Algebra.Order.BigOperators.Ring.Finset

/-!
# Lemmas on the extrapolation
-/

namespace Sparc.Extrap

open Finset

/-- The two coordinate changes are inverse to each other (C16). -/
def Cell.Inv (C : Cell) : Prop := (∀ v, C.lat (C.cart v) = v) ∧ ∀ v, C.cart (C.lat v) = v

theorem conv_unconv {C : Cell} (h : C.Inv) (x : Pos) : conv C (unconv C x) = x := by
  unfold conv unconv
  split
  · funext a; exact h.1 _
  · rfl

theorem unconv_conv {C : Cell} (h : C.Inv) (x : Pos) : unconv C (conv C x) = x := by
  unfold conv unconv
  split
  · funext a; exact h.2 _
  · rfl

theorem conv_add (C : Cell) (x y : Pos) :
    conv C (fun a d => x a d + y a d) = fun a d => conv C x a d + conv C y a d := by
  unfold conv
  split
  · funext a d
    have : (fun d => x a d + y a d) = x a + y a := rfl
    change C.lat (fun d => x a d + y a d) d = C.lat (x a) d + C.lat (y a) d
    rw [this, map_add]; rfl
  · rfl

/-- Points that differ by whole cells have the same wrapped image. -/
theorem wrap_congr {len : ℝ} (hl : 0 < len) {x y : ℝ} (h : ∃ j : ℤ, x = y + j * len)
    (h0 : 0 ≤ y) (h1 : y < len) : Wrap.wrap len x = y := by
  obtain ⟨j, hj⟩ := h
  obtain ⟨a0, a1, k, hk⟩ := Wrap.wrap_spec hl x
  have e : Wrap.wrap len x = y + (j + k : ℤ) * len := by rw [hk, hj]; push_cast; ring
  have hjk : j + k = 0 := by
    have h2 : ((j + k : ℤ) : ℝ) < 1 := by
      by_contra hc
      have := mul_le_mul_of_nonneg_right (not_lt.mp hc) hl.le
      linarith
    have h3 : (-1 : ℝ) < ((j + k : ℤ) : ℝ) := by
      by_contra hc
      have := mul_le_mul_of_nonneg_right (not_lt.mp hc) hl.le
      linarith
    have h2' : j + k < 1 := by exact_mod_cast h2
    have h3' : -1 < j + k := by exact_mod_cast h3
    omega
  rw [e, hjk]; simp

/-- The positions without wraparound: start (Cartesian) and the moves made. -/
def traj (C : Cell) (x0 : Pos) (disp : ℕ → Pos) (k : ℕ) : Pos :=
  fun a d => unconv C x0 a d + ∑ i ∈ range k, disp (i + 1) a d

theorem traj_succ (C : Cell) (x0 : Pos) (disp : ℕ → Pos) (k : ℕ) :
    traj C x0 disp (k + 1) = fun a d => traj C x0 disp k a d + disp (k + 1) a d := by
  funext a d
  simp only [traj, sum_range_succ]
  ring

/-- What is stored for step `j`: the positions, for the first one in cell coordinates. -/
def stored (C : Cell) (x0 : Pos) (disp : ℕ → Pos) (j : ℕ) : Pos :=
  if j = 0 then x0 else traj C x0 disp j

/-- `pos` is `x` up to whole cells in the periodic directions. -/
def Same (C : Cell) (x pos : Pos) : Prop :=
  ∀ a d, (C.per d = true → ∃ j : ℤ, conv C x a d = conv C pos a d + j * C.range d) ∧
    (C.per d = false → conv C x a d = conv C pos a d)

/-- The positions were wrapped. -/
def Inside (C : Cell) (n : ℕ) (pos : Pos) : Prop :=
  (∀ a d, C.per d = true → 0 ≤ conv C pos a d ∧ conv C pos a d < C.range d) ∧
  ∀ a < n, ∀ d, C.per d = false → 0 ≤ conv C pos a d ∧ conv C pos a d < C.range d

theorem wrapDyn_same {C : Cell} (hr : ∀ d, 0 < C.range d) {n : ℕ} {x pos : Pos}
    (hs : Same C x pos) (hi : Inside C n pos) : wrapDyn C n x = some (conv C pos) := by
  unfold wrapDyn
  dsimp only
  rw [if_neg]
  · congr 1
    funext a d
    split
    · rename_i hp
      exact wrap_congr (hr d) ((hs a d).1 hp) (hi.1 a d hp).1 (hi.1 a d hp).2
    · rename_i hp
      exact (hs a d).2 (by simpa using hp)
  · rintro ⟨a, ha, d, hp, h⟩
    rw [(hs a d).2 hp] at h
    have := hi.2 a ha d hp
    rcases h with h | h <;> linarith [this.1, this.2]

theorem wrapDyn_some {C : Cell} (hC : C.Inv) (hr : ∀ d, 0 < C.range d) {n : ℕ} {x w : Pos}
    (h : wrapDyn C n x = some w) : Same C x (unconv C w) ∧ Inside C n (unconv C w) := by
  unfold wrapDyn at h
  dsimp only at h
  split at h
  · exact absurd h (by simp)
  rename_i hn
  rw [Option.some.injEq] at h
  unfold Same Inside
  rw [conv_unconv hC]
  subst h
  refine ⟨fun a d => ⟨fun hp => ?_, fun hp => ?_⟩, fun a d hp => ?_, fun a ha d hp => ?_⟩
  · dsimp only
    rw [if_pos hp]
    obtain ⟨-, -, k, hk⟩ := Wrap.wrap_spec (hr d) (conv C x a d)
    exact ⟨-k, by rw [hk]; push_cast; ring⟩
  · dsimp only
    rw [if_neg (by simp [hp])]
  · dsimp only
    rw [if_pos hp]
    obtain ⟨h0, h1, -⟩ := Wrap.wrap_spec (hr d) (conv C x a d)
    exact ⟨h0, h1⟩
  · dsimp only
    rw [if_neg (by simp [hp])]
    constructor
    · by_contra hc
      exact hn ⟨a, ha, d, hp, Or.inr (not_le.mp hc)⟩
    · by_contra hc
      exact hn ⟨a, ha, d, hp, Or.inl (not_lt.mp hc)⟩

theorem same_move {C : Cell} {x pos : Pos} (h : Same C x pos) (m : Pos) :
    Same C (fun a d => x a d + m a d) (fun a d => pos a d + m a d) := by
  intro a d
  rw [conv_add, conv_add]
  dsimp only
  refine ⟨fun hp => ?_, fun hp => by rw [(h a d).2 hp]⟩
  obtain ⟨j, hj⟩ := (h a d).1 hp
  exact ⟨j, by rw [hj]; ring⟩

theorem same_trans {C : Cell} {x y z : Pos} (h : Same C x y) (h' : Same C y z) : Same C x z := by
  intro a d
  refine ⟨fun hp => ?_, fun hp => by rw [(h a d).2 hp, (h' a d).2 hp]⟩
  obtain ⟨j, hj⟩ := (h a d).1 hp
  obtain ⟨l, hl⟩ := (h' a d).1 hp
  exact ⟨j + l, by rw [hj, hl]; push_cast; ring⟩

theorem unwrap_eq {C : Cell} (hC : C.Inv) (hr : ∀ d, 0 < C.range d) {n : ℕ} {x pos : Pos}
    (hs : Same C x pos) (hi : Inside C n pos) (m : Pos) :
    unwrap C n x (fun a d => pos a d + m a d) = some fun a d => x a d + m a d := by
  unfold unwrap
  rw [wrapDyn_same hr hs hi]
  simp only [Option.bind_eq_bind, Option.bind_some]
  rw [Option.some.injEq, conv_add]
  have : (fun a d => conv C x a d + (conv C pos a d + conv C m a d - conv C pos a d)) =
      conv C fun a d => x a d + m a d := by
    rw [conv_add]
    funext a d
    ring
  rw [this, unconv_conv hC]

variable {D : Type}

/-- What a call leaves, given the positions without wraparound it finds. -/
theorem extrap_eq {C : Cell} {n : ℕ} {md : Bool} {k : ℕ} {gelsd : ℝ → ℝ → ℝ → ℝ → ℝ → ℝ × ℝ}
    {pos : Pos} {rho rhoAt : D → ℝ} {H : Hist D} {nm : Pos}
    (hnm : (k = 1 ∧ nm = pos) ∨ (k ≠ 1 ∧ unwrap C n H.nm pos = some nm)) :
    ∃ dd, extrap C n md k k gelsd pos rho rhoAt H =
        some ⟨nm, nm, H.p0, H.p1, dd, fun i => rho i - rhoAt i, H.d0, H.d1⟩ ∧
      (3 ≤ k → ∃ s, s = gelsd
          (∑ a ∈ range n, ∑ d, (H.p0 a d - H.p1 a d) * (H.p0 a d - H.p1 a d))
          (∑ a ∈ range n, ∑ d, (H.p0 a d - H.p1 a d) * (H.p1 a d - H.p2 a d))
          (∑ a ∈ range n, ∑ d, (H.p1 a d - H.p2 a d) * (H.p1 a d - H.p2 a d))
          (∑ a ∈ range n, ∑ d, (H.p0 a d - H.p1 a d) * (nm a d - H.p0 a d))
          (∑ a ∈ range n, ∑ d, (H.p1 a d - H.p2 a d) * (nm a d - H.p0 a d)) ∧
        ∀ i, dd i = (1 + s.1) * (rho i - rhoAt i) + (s.2 - s.1) * H.d0 i - s.2 * H.d1 i) := by
  have e : newPos C n md k k H.nm pos = some nm := by
    unfold newPos
    rw [ite_self]
    rcases hnm with ⟨h1, h2⟩ | ⟨h1, h2⟩
    · rw [if_pos h1, h2]
    · rw [if_neg h1, h2]
  unfold extrap
  rw [e]
  simp only [Option.bind_eq_bind, Option.bind_some]
  refine ⟨_, rfl, fun hk => ⟨_, rfl, fun i => ?_⟩⟩
  rw [if_pos hk]

/-- The stored arrays after step `k`. -/
theorem run_inv {C : Cell} (hC : C.Inv) (hr : ∀ d, 0 < C.range d) {n : ℕ} {md : Bool}
    {gelsd : ℝ → ℝ → ℝ → ℝ → ℝ → ℝ × ℝ} {disp : ℕ → Pos} {rho rhoAt : ℕ → D → ℝ} {x0 : Pos}
    {H : Hist D} (k : ℕ) : ∀ s, run C n md gelsd disp rho rhoAt x0 H k = some s →
    Same C (traj C x0 disp k) s.pos ∧
    s.H.p0 = stored C x0 disp k ∧
    (1 ≤ k → Inside C n s.pos ∧ s.H.nm = traj C x0 disp k ∧ s.H.p1 = stored C x0 disp (k - 1) ∧
      s.H.d0 = fun i => rho (k - 1) i - rhoAt (k - 1) i) ∧
    (2 ≤ k → s.H.p2 = stored C x0 disp (k - 2) ∧
      s.H.d1 = fun i => rho (k - 2) i - rhoAt (k - 2) i) ∧
    (3 ≤ k → ∃ c, c = gelsd
        (∑ a ∈ range n, ∑ d, (stored C x0 disp (k - 1) a d - stored C x0 disp (k - 2) a d) *
          (stored C x0 disp (k - 1) a d - stored C x0 disp (k - 2) a d))
        (∑ a ∈ range n, ∑ d, (stored C x0 disp (k - 1) a d - stored C x0 disp (k - 2) a d) *
          (stored C x0 disp (k - 2) a d - stored C x0 disp (k - 3) a d))
        (∑ a ∈ range n, ∑ d, (stored C x0 disp (k - 2) a d - stored C x0 disp (k - 3) a d) *
          (stored C x0 disp (k - 2) a d - stored C x0 disp (k - 3) a d))
        (∑ a ∈ range n, ∑ d, (stored C x0 disp (k - 1) a d - stored C x0 disp (k - 2) a d) *
          (traj C x0 disp k a d - stored C x0 disp (k - 1) a d))
        (∑ a ∈ range n, ∑ d, (stored C x0 disp (k - 2) a d - stored C x0 disp (k - 3) a d) *
          (traj C x0 disp k a d - stored C x0 disp (k - 1) a d)) ∧
      ∀ i, s.H.d i = (1 + c.1) * (rho (k - 1) i - rhoAt (k - 1) i) +
        (c.2 - c.1) * (rho (k - 2) i - rhoAt (k - 2) i) - c.2 * (rho (k - 3) i - rhoAt (k - 3) i)) := by
  induction k with
  | zero =>
    intro s hs
    simp only [run, Option.some.injEq] at hs
    subst hs
    refine ⟨?_, by simp [start, stored], by omega, by omega, by omega⟩
    intro a d
    have : traj C x0 disp 0 = unconv C x0 := by funext a d; simp [traj]
    rw [this]
    exact ⟨fun _ => ⟨0, by simp [start]⟩, fun _ => rfl⟩
  | succ k ih =>
    intro s hs
    simp only [run, Option.bind_eq_some_iff] at hs
    obtain ⟨t, ht, hstep⟩ := hs
    obtain ⟨hsame, hp0, h1, h2, -⟩ := ih t ht
    unfold step at hstep
    simp only [Option.bind_eq_bind, Option.bind_eq_some_iff, Option.some.injEq,
      Nat.add_sub_cancel] at hstep
    obtain ⟨H', hH', w, hw, rfl⟩ := hstep
    have hnm : ((k + 1 = 1) ∧ traj C x0 disp (k + 1) = fun a d => t.pos a d + disp (k + 1) a d) ∨
        (k + 1 ≠ 1 ∧ unwrap C n t.H.nm (fun a d => t.pos a d + disp (k + 1) a d) =
          some (traj C x0 disp (k + 1))) := by
      rcases Nat.eq_zero_or_pos k with rfl | hk
      · left
        refine ⟨rfl, ?_⟩
        simp only [run, Option.some.injEq] at ht
        subst ht
        funext a d
        simp [traj, start]
      · right
        refine ⟨by omega, ?_⟩
        obtain ⟨hi, hn, -, -⟩ := h1 hk
        rw [hn, unwrap_eq hC hr hsame hi, traj_succ]
    obtain ⟨dd, he, hd⟩ := extrap_eq (md := md) (gelsd := gelsd) (rho := rho k) (rhoAt := rhoAt k) hnm
    rw [he, Option.some.injEq] at hH'
    subst hH'
    obtain ⟨hs1, hi1⟩ := wrapDyn_some hC hr hw
    have hst : stored C x0 disp (k + 1) = traj C x0 disp (k + 1) := by simp [stored]
    refine ⟨?_, hst.symm, fun _ => ⟨hi1, rfl, hp0, rfl⟩, fun hk => ?_, fun hk => ?_⟩
    · rw [traj_succ]
      exact same_trans (same_move hsame _) hs1
    · obtain ⟨-, -, hp1, hd0⟩ := h1 (by omega)
      exact ⟨hp1, hd0⟩
    · obtain ⟨c, hc, hdd⟩ := hd hk
      obtain ⟨-, -, hp1, hd0⟩ := h1 (by omega)
      obtain ⟨hp2, hd1⟩ := h2 (by omega)
      rw [hp0, hp1, hp2] at hc
      rw [hd0, hd1] at hdd
      exact ⟨c, hc, hdd⟩

/-- No exit when all directions are periodic. -/
theorem run_some {C : Cell} (hper : ∀ d, C.per d = true) {n : ℕ} {md : Bool}
    {gelsd : ℝ → ℝ → ℝ → ℝ → ℝ → ℝ × ℝ} {disp : ℕ → Pos} {rho rhoAt : ℕ → D → ℝ} {x0 : Pos}
    {H : Hist D} (k : ℕ) : ∃ s, run C n md gelsd disp rho rhoAt x0 H k = some s := by
  have hw : ∀ x, ∃ w, wrapDyn C n x = some w := by
    intro x
    unfold wrapDyn
    dsimp only
    rw [if_neg]
    · exact ⟨_, rfl⟩
    · rintro ⟨a, -, d, hp, -⟩
      rw [hper d] at hp
      exact absurd hp (by simp)
  induction k with
  | zero => exact ⟨_, rfl⟩
  | succ k ih =>
    obtain ⟨t, ht⟩ := ih
    have hu : ∀ x y, ∃ z, unwrap C n x y = some z := by
      intro x y
      obtain ⟨w, h⟩ := hw x
      unfold unwrap
      rw [h]
      exact ⟨_, rfl⟩
    have : ∃ nm, ((k + 1 = 1) ∧ nm = fun a d => t.pos a d + disp (k + 1) a d) ∨
        (k + 1 ≠ 1 ∧ unwrap C n t.H.nm (fun a d => t.pos a d + disp (k + 1) a d) = some nm) := by
      by_cases h : k + 1 = 1
      · exact ⟨_, Or.inl ⟨h, rfl⟩⟩
      · obtain ⟨z, hz⟩ := hu t.H.nm (fun a d => t.pos a d + disp (k + 1) a d)
        exact ⟨z, Or.inr ⟨h, hz⟩⟩
    obtain ⟨nm, hnm⟩ := this
    obtain ⟨dd, he, -⟩ := extrap_eq (md := md) (gelsd := gelsd) (rho := rho k) (rhoAt := rhoAt k) hnm
    obtain ⟨w, hw'⟩ := hw (fun a d => t.pos a d + disp (k + 1) a d)
    simp only [run, ht, Option.bind_some]
    unfold step
    simp only [Option.bind_eq_bind, Nat.add_sub_cancel]
    rw [he]
    simp only [Option.bind_some]
    rw [hw']
    exact ⟨_, rfl⟩

/-! ### Least squares -/

/-- The normal equations of two vectors always have a solution. -/
theorem normal_solvable {ι : Type} (S : Finset ι) (u v w : ι → ℝ) : ∃ a b : ℝ,
    (∑ i ∈ S, u i * u i) * a + (∑ i ∈ S, u i * v i) * b = ∑ i ∈ S, u i * w i ∧
    (∑ i ∈ S, u i * v i) * a + (∑ i ∈ S, v i * v i) * b = ∑ i ∈ S, v i * w i := by
  have hzero : ∀ f : ι → ℝ, ∑ i ∈ S, f i * f i = 0 → ∀ i ∈ S, f i = 0 := by
    intro f h i hi
    have := (sum_eq_zero_iff_of_nonneg (fun i _ => mul_self_nonneg (f i))).1 h i hi
    exact mul_self_eq_zero.1 this
  by_cases hA : ∑ i ∈ S, u i * u i = 0
  · have hu := hzero u hA
    have hB : ∑ i ∈ S, u i * v i = 0 := sum_eq_zero fun i hi => by rw [hu i hi, zero_mul]
    have hp : ∑ i ∈ S, u i * w i = 0 := sum_eq_zero fun i hi => by rw [hu i hi, zero_mul]
    rw [hA, hB, hp]
    by_cases hD : ∑ i ∈ S, v i * v i = 0
    · have hv := hzero v hD
      have hq : ∑ i ∈ S, v i * w i = 0 := sum_eq_zero fun i hi => by rw [hv i hi, zero_mul]
      exact ⟨0, 0, by simp, by simp [hq]⟩
    · exact ⟨0, (∑ i ∈ S, v i * w i) / ∑ i ∈ S, v i * v i, by simp, by rw [zero_mul, zero_add, mul_div_cancel₀ _ hD]⟩
  · set A := ∑ i ∈ S, u i * u i with hAd
    set B := ∑ i ∈ S, u i * v i with hBd
    set Dd := ∑ i ∈ S, v i * v i with hDd
    set p := ∑ i ∈ S, u i * w i with hpd
    set q := ∑ i ∈ S, v i * w i with hqd
    have hsq : ∑ i ∈ S, (v i - B / A * u i) * (v i - B / A * u i) = Dd - B * B / A := by
      have : ∀ i ∈ S, (v i - B / A * u i) * (v i - B / A * u i) =
          v i * v i - 2 * (B / A) * (u i * v i) + B / A * (B / A) * (u i * u i) := fun i _ => by ring
      rw [sum_congr rfl this, sum_add_distrib, sum_sub_distrib, ← mul_sum, ← mul_sum, ← hAd, ← hBd,
        ← hDd]
      field_simp
      ring
    by_cases hd : Dd - B * B / A = 0
    · rw [hd] at hsq
      have hv := hzero _ hsq
      have hq : q = B / A * p := by
        rw [hqd, hpd, mul_sum]
        refine sum_congr rfl fun i hi => ?_
        rw [show v i = B / A * u i by linarith [hv i hi]]
        ring
      exact ⟨p / A, 0, by field_simp; simp, by rw [hq]; field_simp; simp⟩
    · refine ⟨(p - B * ((q - B * p / A) / (Dd - B * B / A))) / A,
        (q - B * p / A) / (Dd - B * B / A), by field_simp; ring, ?_⟩
      set b := (q - B * p / A) / (Dd - B * B / A) with hb
      have : b * (Dd - B * B / A) = q - B * p / A := div_mul_cancel₀ _ hd
      have e : B * ((p - B * b) / A) + Dd * b = B * p / A + b * (Dd - B * B / A) := by
        field_simp; ring
      rw [e, this]; ring

/-- A solution of the normal equations is a best fit. -/
theorem normal_minimal {ι : Type} (S : Finset ι) (u v w : ι → ℝ) (α β : ℝ)
    (h1 : (∑ i ∈ S, u i * u i) * α + (∑ i ∈ S, u i * v i) * β = ∑ i ∈ S, u i * w i)
    (h2 : (∑ i ∈ S, u i * v i) * α + (∑ i ∈ S, v i * v i) * β = ∑ i ∈ S, v i * w i) (a b : ℝ) :
    ∑ i ∈ S, (w i - α * u i - β * v i) ^ 2 ≤ ∑ i ∈ S, (w i - a * u i - b * v i) ^ 2 := by
  have key : ∑ i ∈ S, (w i - a * u i - b * v i) ^ 2 = ∑ i ∈ S, (w i - α * u i - β * v i) ^ 2 +
      ∑ i ∈ S, ((α - a) * u i + (β - b) * v i) ^ 2 := by
    have e : ∀ i ∈ S, (w i - a * u i - b * v i) ^ 2 = (w i - α * u i - β * v i) ^ 2 +
        ((α - a) * u i + (β - b) * v i) ^ 2 +
        (2 * (α - a) * (u i * w i - α * (u i * u i) - β * (u i * v i)) +
          2 * (β - b) * (v i * w i - α * (u i * v i) - β * (v i * v i))) := fun i _ => by ring
    rw [sum_congr rfl e, sum_add_distrib, sum_add_distrib, sum_add_distrib, ← mul_sum, ← mul_sum,
      sum_sub_distrib, sum_sub_distrib, sum_sub_distrib, sum_sub_distrib, ← mul_sum, ← mul_sum,
      ← mul_sum, ← mul_sum, ← h1, ← h2]
    ring
  rw [key]
  have : 0 ≤ ∑ i ∈ S, ((α - a) * u i + (β - b) * v i) ^ 2 := sum_nonneg fun i _ => sq_nonneg _
  linarith

end Sparc.Extrap

import Verif.Scf.Model
import Verif.Density.Lemmas
import Mathlib.Algebra.BigOperators.Field

/-! # Free energy and self-consistent iteration: integrals and sums -/

namespace Sparc.Scf

open Finset

/-- Integration weight of a grid point. -/
noncomputable def W (P : Par) (p i : ℕ) : ℝ := if P.cyclix then P.wt p i else P.dV

/-- The integral of the product of two functions on the grid. -/
noncomputable def integ (P : Par) (f g : ℕ → ℕ → ℝ) : ℝ :=
  ∑ p ∈ range P.np, ∑ i ∈ range (P.nd p), W P p i * (f p i * g p i)

/-- Sum over the spin channels of the integral of density times potential: the density array has
the total in its first column and the channels behind it when there is spin. -/
noncomputable def spinInt (P : Par) (rho v : ℕ → ℕ → ℝ) : ℝ :=
  if P.spin = 0 then integ P rho v
  else integ P (fun p i => rho p (P.nd p + i)) v +
    integ P (fun p i => rho p (2 * P.nd p + i)) (fun p i => v p (P.nd p + i))

theorem dot_nd (P : Par) (hc : P.cyclix = false) (f g : Arr) :
    dot P f g P.nd * P.dV = integ P f g := by
  unfold dot integ W
  rw [hc, sum_mul]
  refine sum_congr rfl fun p _ => ?_
  rw [sum_mul]
  exact sum_congr rfl fun i _ => by simp; ring

theorem dot_two (P : Par) (f g : Arr) :
    dot P f g (fun p => 2 * P.nd p) =
      dot P f g P.nd + dot P (col P f 1) (col P g 1) P.nd := by
  unfold dot col
  rw [← sum_add_distrib]
  refine sum_congr rfl fun p _ => ?_
  dsimp only
  rw [two_mul, sum_range_add]
  simp

theorem dotWt_eq (P : Par) (hc : P.cyclix = true) (f g : Arr) : dotWt P f g = integ P f g := by
  unfold dotWt integ W
  rw [hc]
  refine sum_congr rfl fun p _ => sum_congr rfl fun i _ => by simp; ring

theorem eHalf_eq (P : Par) (f phi : Arr) : eHalf P f phi = integ P f phi / 2 := by
  unfold eHalf
  cases h : P.cyclix with
  | true => simp only [if_true]; rw [dotWt_eq P h]; norm_num; ring
  | false => 
    have := dot_nd P h f phi
    simp only [Bool.false_eq_true, if_false]
    rw [← this]; norm_num; ring

theorem spinPair (P : Par) (hc : P.cyclix = false) (rho v : Arr) :
    (if P.spin = 0 then dot P rho v P.nd
      else dot P (col P rho 1) v (fun p => 2 * P.nd p)) * P.dV = spinInt P rho v := by
  unfold spinInt
  split
  · exact dot_nd P hc rho v
  · rw [dot_two, add_mul, dot_nd P hc, dot_nd P hc]
    congr 1
    · unfold col; simp
    · congr 1 
      · funext p i; simp only [col]; congr 1; ring
      · funext p i; simp only [col]; congr 1; ring

/-- The meta-GGA term is part of the energy only without cyclix symmetry. -/
theorem e3_eq (P : Par) (rho xc tau v3 : Arr) :
    e3 P rho xc tau v3 = spinInt P rho xc +
      (if P.mgga = true ∧ P.cyclix = false then spinInt P tau v3 else 0) := by
  unfold e3
  cases h : P.cyclix with
  | true =>
    simp only [if_true, Bool.true_eq_false, and_false, if_false, add_zero]
    unfold spinInt
    split
    · exact dotWt_eq P h _ _
    · rw [dotWt_eq P h, dotWt_eq P h]
      unfold col; simp
  | false =>
    simp only [Bool.false_eq_true, if_false, and_true]
    rw [spinPair P h]
    congr 1
    cases hm : P.mgga with
    | true => simp only [if_true]; exact spinPair P h tau v3
    | false => simp

theorem excE_eq (P : Par) (rho exd : Arr) :
    excE P rho exd = integ P (fun p i => rho p i + P.core p i) exd := by
  unfold excE integ W
  cases P.cyclix with
  | true =>
    simp only [if_true]
    refine sum_congr rfl fun p _ => sum_congr rfl fun i _ => by ring
  | false =>
    simp only [Bool.false_eq_true, if_false]
    refine sum_congr rfl fun p _ => ?_
    rw [sum_mul]
    exact sum_congr rfl fun i _ => by ring

/-- The self-consistency correction is the integral of the output density times the change of the
potential, summed over the channels. -/
theorem escc_eq (P : Par) (vout vin rho : Arr) :
    escc P (if P.spin = 0 then 1 else 2) vout vin (if P.spin > 0 then col P rho 1 else rho) =
      spinInt P rho vout - spinInt P rho vin := by
  unfold escc
  by_cases hs : P.spin = 0
  · have hs' : ¬ P.spin > 0 := by omega
    rw [if_pos hs, if_neg hs']
    unfold spinInt
    rw [if_pos hs, if_pos hs]
    cases h : P.cyclix with
    | true =>
      simp only [if_true, sum_range_one]
      rw [dotWt_eq P h, dotWt_eq P h]
      unfold col; simp
    | false =>
      simp only [Bool.false_eq_true, if_false, mul_one]
      rw [sub_mul, dot_nd P h, dot_nd P h]
  · have hs' : P.spin > 0 := by omega
    rw [if_neg hs, if_pos hs']
    cases h : P.cyclix with
    | true =>
      simp only [if_true, sum_range_succ, sum_range_zero, zero_add]
      unfold spinInt
      rw [if_neg hs, if_neg hs]
      simp only [dotWt_eq P h]
      unfold col
      simp only [zero_mul, zero_add, one_mul, two_mul, add_assoc]
    | false =>
      simp only [Bool.false_eq_true, if_false]
      have e : (fun p => P.nd p * 2) = fun p => 2 * P.nd p := by funext p; ring
      rw [e, sub_mul]
      have h1 := spinPair P h rho vout
      have h2 := spinPair P h rho vin
      rw [if_neg hs] at h1 h2
      rw [h1, h2]

/-! ### The potential the Hamiltonian uses -/

theorem veffLoc_0 (P : Par) (h2 : P.spin ≠ 2) (xc nc phi : Arr) {p i : ℕ} (hi : i < P.nd p) :
    veffLoc P xc nc phi p i = xc p i + phi p i := by
  unfold veffLoc
  have h1 : i / P.nd p = 0 := Nat.div_eq_of_lt hi
  have h3 : i % P.nd p = i := Nat.mod_eq_of_lt hi
  simp only [h1, h3, h2, if_false]
  simp

theorem veffLoc_1 (P : Par) (h2 : P.spin ≠ 2) (xc nc phi : Arr) {p i : ℕ} (hi : i < P.nd p) :
    veffLoc P xc nc phi p (P.nd p + i) = xc p (P.nd p + i) + phi p i := by
  unfold veffLoc
  have h1 : (P.nd p + i) / P.nd p = 1 := by
    rw [Nat.add_div_left _ (by omega), Nat.div_eq_of_lt hi]
  have h3 : (P.nd p + i) % P.nd p = i := by
    rw [Nat.add_mod_left, Nat.mod_eq_of_lt hi]
  simp only [h1, h3, h2, if_false]
  simp

theorem veffDia_0 (P : Par) (xc phi : Arr) {p i : ℕ} (hi : i < P.nd p) :
    veffDia P xc phi p i = xc p i + phi p i := by
  unfold veffDia
  have h1 : i / P.nd p = 0 := Nat.div_eq_of_lt hi
  have h3 : i % P.nd p = i := Nat.mod_eq_of_lt hi
  simp only [h1, h3]
  simp

theorem veffDia_1 (P : Par) (xc phi : Arr) {p i : ℕ} (hi : i < P.nd p) :
    veffDia P xc phi p (P.nd p + i) = xc p (P.nd p + i) + phi p i := by
  unfold veffDia
  have h1 : (P.nd p + i) / P.nd p = 1 := by
    rw [Nat.add_div_left _ (by omega), Nat.div_eq_of_lt hi]
  have h3 : (P.nd p + i) % P.nd p = i := by
    rw [Nat.add_mod_left, Nat.mod_eq_of_lt hi]
  simp only [h1, h3]
  rw [one_mul, add_comm i]

/-- Integrals of products are additive in the second factor on the grid. -/
theorem integ_add_right (P : Par) (f g h : Arr) :
    integ P f (fun p i => g p i + h p i) = integ P f g + integ P f h := by
  unfold integ
  rw [← sum_add_distrib]
  refine sum_congr rfl fun p _ => ?_
  rw [← sum_add_distrib]
  exact sum_congr rfl fun i _ => by ring

theorem integ_add_left (P : Par) (f g h : Arr) :
    integ P (fun p i => f p i + g p i) h = integ P f h + integ P g h := by
  unfold integ
  rw [← sum_add_distrib]
  refine sum_congr rfl fun p _ => ?_
  rw [← sum_add_distrib]
  exact sum_congr rfl fun i _ => by ring

theorem integ_sub_left (P : Par) (f g h : Arr) :
    integ P (fun p i => f p i - g p i) h = integ P f h - integ P g h := by
  unfold integ
  rw [← sum_sub_distrib]
  refine sum_congr rfl fun p _ => ?_
  rw [← sum_sub_distrib]
  exact sum_congr rfl fun i _ => by ring

theorem integ_sub_right (P : Par) (f g h : Arr) :
    integ P f (fun p i => g p i - h p i) = integ P f g - integ P f h := by
  unfold integ
  rw [← sum_sub_distrib]
  refine sum_congr rfl fun p _ => ?_
  rw [← sum_sub_distrib]
  exact sum_congr rfl fun i _ => by ring

theorem integ_congr (P : Par) {f g f' g' : Arr}
    (hf : ∀ p < P.np, ∀ i < P.nd p, f p i = f' p i) (hg : ∀ p < P.np, ∀ i < P.nd p, g p i = g' p i) :
    integ P f g = integ P f' g' := by
  unfold integ
  refine sum_congr rfl fun p hp => sum_congr rfl fun i hi => ?_
  rw [hf p (mem_range.1 hp) i (mem_range.1 hi), hg p (mem_range.1 hp) i (mem_range.1 hi)]

/-- The total density is the sum of the channels. -/
def TotalDens (P : Par) (rho : ℕ → ℕ → ℝ) : Prop :=
  P.spin ≠ 0 → ∀ p < P.np, ∀ i < P.nd p, rho p i = rho p (P.nd p + i) + rho p (2 * P.nd p + i)

/-- Density times a potential that is `xc + phi` in each channel. -/
theorem spinInt_split (P : Par) (rho xc phi v : Arr) (ht : TotalDens P rho)
    (h0 : ∀ p < P.np, ∀ i < P.nd p, v p i = xc p i + phi p i)
    (h1 : P.spin ≠ 0 → ∀ p < P.np, ∀ i < P.nd p, v p (P.nd p + i) = xc p (P.nd p + i) + phi p i) :
    spinInt P rho v = spinInt P rho xc + integ P rho phi := by
  unfold spinInt
  by_cases hs : P.spin = 0
  · rw [if_pos hs, if_pos hs, ← integ_add_right]
    exact integ_congr P (fun _ _ _ _ => rfl) h0
  · rw [if_neg hs, if_neg hs]
    have e1 : integ P (fun p i => rho p (P.nd p + i)) v =
        integ P (fun p i => rho p (P.nd p + i)) (fun p i => xc p i + phi p i) :=
      integ_congr P (fun _ _ _ _ => rfl) h0
    have e2 : integ P (fun p i => rho p (2 * P.nd p + i)) (fun p i => v p (P.nd p + i)) =
        integ P (fun p i => rho p (2 * P.nd p + i)) (fun p i => xc p (P.nd p + i) + phi p i) :=
      integ_congr P (fun _ _ _ _ => rfl) (h1 hs)
    have e3 : integ P rho phi =
        integ P (fun p i => rho p (P.nd p + i) + rho p (2 * P.nd p + i)) phi :=
      integ_congr P (ht hs) (fun _ _ _ _ => rfl)
    rw [e1, e2, e3, integ_add_right, integ_add_right P _ (fun p i => xc p (P.nd p + i)),
      integ_add_left P (fun p i => rho p (P.nd p + i)) (fun p i => rho p (2 * P.nd p + i))]
    ring

/-! ### Band sums -/

theorem foldl_add {α : Type} (l : List α) (f : α → ℝ) (e : ℝ) :
    l.foldl (fun e x => e + f x) e = e + (l.map f).sum := by
  induction l generalizing e with
  | nil => simp
  | cons a l ih => rw [List.foldl_cons, ih, List.map_cons, List.sum_cons]; ring

theorem list_sum_range (n : ℕ) (f : ℕ → ℝ) : ((List.range n).map f).sum = ∑ i ∈ range n, f i := by
  induction n with
  | zero => simp
  | succ n ih => rw [List.range_succ, List.map_append, List.sum_append, ih, sum_range_succ]; simp

theorem ebandLocal_eq (occfac : ℝ) (p : BProc) :
    ebandLocal occfac p = ∑ s ∈ range p.ns, ∑ k ∈ range p.nk, ∑ n ∈ range p.Ns,
      occfac * p.wts k * p.occ (n + k * p.Ns + s * p.nk * p.Ns) *
        p.lam (n + k * p.Ns + s * p.nk * p.Ns) := by
  unfold ebandLocal
  have h1 : ∀ (e : ℝ) (s k : ℕ), (List.range p.Ns).foldl (fun e n =>
        e + occfac * p.wts k * p.occ (n + k * p.Ns + s * p.nk * p.Ns) *
          p.lam (n + k * p.Ns + s * p.nk * p.Ns)) e =
      e + ∑ n ∈ range p.Ns, occfac * p.wts k * p.occ (n + k * p.Ns + s * p.nk * p.Ns) *
          p.lam (n + k * p.Ns + s * p.nk * p.Ns) := by
    intro e s k
    rw [← list_sum_range, ← foldl_add]
  simp only [h1]
  have h2 : ∀ (e : ℝ) (s : ℕ), (List.range p.nk).foldl (fun e k =>
        e + ∑ n ∈ range p.Ns, occfac * p.wts k * p.occ (n + k * p.Ns + s * p.nk * p.Ns) *
          p.lam (n + k * p.Ns + s * p.nk * p.Ns)) e =
      e + ∑ k ∈ range p.nk, ∑ n ∈ range p.Ns,
        occfac * p.wts k * p.occ (n + k * p.Ns + s * p.nk * p.Ns) *
          p.lam (n + k * p.Ns + s * p.nk * p.Ns) := by
    intro e s
    rw [← list_sum_range, ← foldl_add]
  simp only [h2]
  rw [foldl_add, list_sum_range, zero_add]

/-- The processes hold their share of the occupations, weights and eigenvalues. -/
structure Holds (Nspin Nkpts Ns npspin npkpt : ℕ) (w : ℕ → ℝ) (occ lam : ℕ → ℕ → ℕ → ℝ)
    (procs : ℕ → ℕ → BProc) : Prop where
  hspin : 0 < npspin
  hkpt : 0 < npkpt
  hdvd : npspin ∣ Nspin
  hns : ∀ a < npspin, ∀ b < npkpt, (procs a b).ns = Groups.spinCount Nspin npspin
  hnk : ∀ a < npspin, ∀ b < npkpt, (procs a b).nk = Groups.kptCount Nkpts npkpt b
  hNs : ∀ a < npspin, ∀ b < npkpt, (procs a b).Ns = Ns
  hw : ∀ a < npspin, ∀ b < npkpt, ∀ k < Groups.kptCount Nkpts npkpt b,
    (procs a b).wts k = w (Groups.kptStart Nkpts npkpt b + k)
  hocc : ∀ a < npspin, ∀ b < npkpt, ∀ s < Groups.spinCount Nspin npspin,
    ∀ k < Groups.kptCount Nkpts npkpt b, ∀ n < Ns,
    (procs a b).occ ((s * Groups.kptCount Nkpts npkpt b + k) * Ns + n) =
      occ (Groups.spinStart Nspin npspin a + s) (Groups.kptStart Nkpts npkpt b + k) n
  hlam : ∀ a < npspin, ∀ b < npkpt, ∀ s < Groups.spinCount Nspin npspin,
    ∀ k < Groups.kptCount Nkpts npkpt b, ∀ n < Ns,
    (procs a b).lam ((s * Groups.kptCount Nkpts npkpt b + k) * Ns + n) =
      lam (Groups.spinStart Nspin npspin a + s) (Groups.kptStart Nkpts npkpt b + k) n

theorem eband_eq {Nspin Nkpts Ns npspin npkpt : ℕ} {w : ℕ → ℝ} {occ lam : ℕ → ℕ → ℕ → ℝ}
    {procs : ℕ → ℕ → BProc} (H : Holds Nspin Nkpts Ns npspin npkpt w occ lam procs) (occfac : ℝ)
    {a b : ℕ} (ha : a < npspin) (hb : b < npkpt) :
    eband occfac Nkpts npspin npkpt procs a b =
      ∑ s ∈ range Nspin, ∑ k ∈ range Nkpts, ∑ n ∈ range Ns,
        occfac * (w k / Nkpts) * occ s k n * lam s k n := by
  have hsum : eband occfac Nkpts npspin npkpt procs a b =
      ∑ b' ∈ range npkpt, ∑ a' ∈ range npspin, ebandLocal occfac (procs a' b') / Nkpts := by
    unfold eband
    have e1 : ∀ b', (if npspin ≠ 1 then ∑ a' ∈ range npspin, ebandLocal occfac (procs a' b') / Nkpts
        else ebandLocal occfac (procs a b') / Nkpts) =
        ∑ a' ∈ range npspin, ebandLocal occfac (procs a' b') / (Nkpts : ℝ) := by
      intro b'
      split
      · rfl
      · have : npspin = 1 := by omega
        subst this
        have : a = 0 := by omega
        subst this
        simp
    simp only [e1]
    split
    · rfl
    · have : npkpt = 1 := by omega
      subst this
      have : b = 0 := by omega
      subst this
      simp
  rw [hsum]
  have hloc : ∀ b' ∈ range npkpt, ∀ a' ∈ range npspin, ebandLocal occfac (procs a' b') / (Nkpts : ℝ) =
      ∑ s ∈ range (Groups.spinCount Nspin npspin), ∑ k ∈ range (Groups.kptCount Nkpts npkpt b'),
        ∑ n ∈ range Ns, occfac * (w (Groups.kptStart Nkpts npkpt b' + k) / Nkpts) *
          occ (Groups.spinStart Nspin npspin a' + s) (Groups.kptStart Nkpts npkpt b' + k) n *
          lam (Groups.spinStart Nspin npspin a' + s) (Groups.kptStart Nkpts npkpt b' + k) n := by
    intro b' hb' a' ha'
    have ha'' := mem_range.1 ha'
    have hb'' := mem_range.1 hb'
    rw [ebandLocal_eq, H.hns a' ha'' b' hb'', H.hnk a' ha'' b' hb'', H.hNs a' ha'' b' hb'', sum_div]
    refine sum_congr rfl fun s hs => ?_
    rw [sum_div]
    refine sum_congr rfl fun k hk => ?_
    rw [sum_div]
    refine sum_congr rfl fun n hn => ?_
    have hs' := mem_range.1 hs
    have hk' := mem_range.1 hk
    have hn' := mem_range.1 hn
    have e : n + k * Ns + s * Groups.kptCount Nkpts npkpt b' * Ns =
        (s * Groups.kptCount Nkpts npkpt b' + k) * Ns + n := by ring
    rw [e, H.hw a' ha'' b' hb'' k hk', H.hocc a' ha'' b' hb'' s hs' k hk' n hn',
      H.hlam a' ha'' b' hb'' s hs' k hk' n hn']
    ring
  rw [sum_congr rfl fun b' hb' => sum_congr rfl fun a' ha' => hloc b' hb' a' ha', sum_comm]
  have hs := Density.sum_cover (Density.spinor_cover H.hspin H.hdvd)
    (fun s => ∑ k ∈ range Nkpts, ∑ n ∈ range Ns,
        occfac * (w k / Nkpts) * occ s k n * lam s k n)
  rw [← hs]
  refine sum_congr rfl fun a' _ => ?_
  rw [sum_comm]
  refine sum_congr rfl fun s _ => ?_
  exact Density.sum_cover (Groups.kpt_cover Nkpts npkpt H.hkpt)
    (fun k => ∑ n ∈ range Ns, occfac * (w k / Nkpts) *
      occ (Groups.spinStart Nspin npspin a' + s) k n * lam (Groups.spinStart Nspin npspin a' + s) k n)

/-! ### The loop -/

/-- Every report comes from an iteration started in a state that satisfies any invariant. -/
theorem mem_loop {S : Type} (step : ℕ → S → Rec × S) (minit : ℕ) (I : S → Prop)
    (hstep : ∀ k s, I s → I (step k s).2) (fuel cnt : ℕ) (s : S) (hs : I s) (r : Rec)
    (hr : r ∈ scfLoop step minit fuel cnt s) : ∃ k s', I s' ∧ r = (step k s').1 := by
  induction fuel generalizing cnt s with
  | zero => simp [scfLoop] at hr
  | succ fuel ih =>
    unfold scfLoop at hr
    dsimp only at hr
    split at hr
    · rw [List.mem_singleton] at hr
      exact ⟨cnt, s, hs, hr⟩
    · rw [List.mem_cons] at hr
      rcases hr with h | h
      · exact ⟨cnt, s, hs, h⟩
      · exact ih (cnt + 1) _ (hstep cnt s hs) h

end Sparc.Scf

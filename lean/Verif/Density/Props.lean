import Verif.Density.Lemmas
import Mathlib.Algebra.Order.BigOperators.Group.Finset

/-!
# C22: the electron density; C23: the non-collinear magnetisation
-/

namespace Sparc.Density

open Finset

/-- All processes of a run hold their share of the data `d`. -/
structure Setup (d : Data) (gamma : Bool) (spinTyp Nspinor Nk Ns npspin npkpt npband D : ℕ)
    (occfac : ℝ) (procs : ℕ → ℕ → ℕ → Proc) : Prop where
  hspin : 0 < npspin
  hkpt : 0 < npkpt
  hband : 0 < npband
  hNs : 0 < Ns
  hdvd : npspin ∣ Nspinor
  holds : ∀ a < npspin, ∀ b < npkpt, ∀ c < npband,
    Holds d gamma spinTyp Nspinor Nk Ns npspin npkpt npband D occfac a b c (procs a b c)

variable {d : Data} {gamma : Bool} {spinTyp Nspinor Nk Ns npspin npkpt npband D : ℕ}
  {occfac : ℝ} {procs : ℕ → ℕ → ℕ → Proc}

theorem sq_psi {p : Proc} {a b c : ℕ}
    (H : Holds d gamma spinTyp Nspinor Nk Ns npspin npkpt npband D occfac a b c p)
    {k n sp i : ℕ} (hk : k < p.nk) (hn : n < p.nb) (hs : sp < p.nsp) (hi : i < D) :
    sq p (((k * p.nb + n) * p.nsp + sp) * D + i) =
      Complex.normSq (d.psi (p.spStart + sp) (Groups.kptStart Nk npkpt b + k) (p.nstart + n) i) := by
  have h := H.hpsi k hk n hn sp hs i hi
  unfold sq
  rw [H.hgamma, ← h]
  cases gamma with
  | true => simp [Complex.normSq_apply]
  | false => simp [Complex.normSq_apply]

/-- Sum over groups of terms that depend on the global spinor, k-point and band. -/
theorem sum_groups (T : ℕ → ℕ → ℕ → ℝ) (hspin : 0 < npspin) (hkpt : 0 < npkpt)
    (hband : 0 < npband) (hNs : 0 < Ns) (hdvd : npspin ∣ Nspinor) {sg : ℕ} (hsg : sg < Nspinor) :
    ∑ a ∈ range npspin, ∑ b ∈ range npkpt, ∑ c ∈ range npband,
      ∑ sp ∈ range (Groups.spinCount Nspinor npspin),
        (if Groups.spinStart Nspinor npspin a + sp = sg then
          ∑ k ∈ range (Groups.kptCount Nk npkpt b), ∑ n ∈ range (Groups.bandCount Ns npband c),
            T (Groups.spinStart Nspinor npspin a + sp) (Groups.kptStart Nk npkpt b + k)
              (Groups.bandStart Ns npband c + n) else 0) =
      ∑ k ∈ range Nk, ∑ n ∈ range Ns, T sg k n := by
  have hU := sum_cover (spinor_cover hspin hdvd) (fun s => ∑ b ∈ range npkpt, ∑ c ∈ range npband,
    (if s = sg then ∑ k ∈ range (Groups.kptCount Nk npkpt b),
      ∑ n ∈ range (Groups.bandCount Ns npband c),
        T s (Groups.kptStart Nk npkpt b + k) (Groups.bandStart Ns npband c + n) else 0))
  have e1 : ∀ a b, ∑ c ∈ range npband, ∑ sp ∈ range (Groups.spinCount Nspinor npspin),
        (if Groups.spinStart Nspinor npspin a + sp = sg then
          ∑ k ∈ range (Groups.kptCount Nk npkpt b), ∑ n ∈ range (Groups.bandCount Ns npband c),
            T (Groups.spinStart Nspinor npspin a + sp) (Groups.kptStart Nk npkpt b + k)
              (Groups.bandStart Ns npband c + n) else 0) =
      ∑ sp ∈ range (Groups.spinCount Nspinor npspin), ∑ c ∈ range npband,
        (if Groups.spinStart Nspinor npspin a + sp = sg then
          ∑ k ∈ range (Groups.kptCount Nk npkpt b), ∑ n ∈ range (Groups.bandCount Ns npband c),
            T (Groups.spinStart Nspinor npspin a + sp) (Groups.kptStart Nk npkpt b + k)
              (Groups.bandStart Ns npband c + n) else 0) := fun a b => sum_comm
  simp only [e1]
  have e2 : ∀ a, ∑ b ∈ range npkpt, ∑ sp ∈ range (Groups.spinCount Nspinor npspin),
        ∑ c ∈ range npband,
        (if Groups.spinStart Nspinor npspin a + sp = sg then
          ∑ k ∈ range (Groups.kptCount Nk npkpt b), ∑ n ∈ range (Groups.bandCount Ns npband c),
            T (Groups.spinStart Nspinor npspin a + sp) (Groups.kptStart Nk npkpt b + k)
              (Groups.bandStart Ns npband c + n) else 0) =
      ∑ sp ∈ range (Groups.spinCount Nspinor npspin), ∑ b ∈ range npkpt, ∑ c ∈ range npband,
        (if Groups.spinStart Nspinor npspin a + sp = sg then
          ∑ k ∈ range (Groups.kptCount Nk npkpt b), ∑ n ∈ range (Groups.bandCount Ns npband c),
            T (Groups.spinStart Nspinor npspin a + sp) (Groups.kptStart Nk npkpt b + k)
              (Groups.bandStart Ns npband c + n) else 0) := fun a => sum_comm
  simp only [e2]
  rw [hU, sum_eq_single sg]
  · simp only [if_true]
    have e3 : ∀ b, ∑ c ∈ range npband, ∑ k ∈ range (Groups.kptCount Nk npkpt b),
        ∑ n ∈ range (Groups.bandCount Ns npband c),
          T sg (Groups.kptStart Nk npkpt b + k) (Groups.bandStart Ns npband c + n) =
        ∑ k ∈ range (Groups.kptCount Nk npkpt b), ∑ n ∈ range Ns,
          T sg (Groups.kptStart Nk npkpt b + k) n := by
      intro b
      rw [sum_comm]
      exact sum_congr rfl fun k _ => sum_cover (Groups.band_cover Ns npband hNs hband)
        (fun n => T sg (Groups.kptStart Nk npkpt b + k) n)
    simp only [e3]
    exact sum_cover (Groups.kpt_cover Nk npkpt hkpt) (fun k => ∑ n ∈ range Ns, T sg k n)
  · intro s _ hne; simp [hne]
  · intro h; exact absurd (mem_range.2 hsg) h

/-- **C22 (formula).** Whatever the numbers of spin, k-point and band groups, every process
ends up with `rho_s(i) = 1/dV · Σ_k Σ_n occfac · w_k/Nk · occ_{s,k,n} · |psi_{s,k,n}(i)|²`,
the sums running over all k-points and all bands. -/
theorem density_formula
    (S : Setup d gamma spinTyp Nspinor Nk Ns npspin npkpt npband D occfac procs) (dV : ℝ)
    {a b c : ℕ} (ha : a < npspin) (hb : b < npkpt) {sg i : ℕ} (hsg : sg < Nspinor) (hi : i < D) :
    rhoPsi npspin npkpt npband procs D dV a b c (i + sg * D) =
      (∑ k ∈ range Nk, ∑ n ∈ range Ns,
        occfac * (d.w k / Nk) * d.occ sg k n * Complex.normSq (d.psi sg k n i)) * (1 / dV) := by
  unfold rhoPsi
  rw [reduce_eq npspin npkpt npband S.hspin S.hkpt S.hband _ ha hb,
    ← sum_groups (fun s k n => occfac * (d.w k / Nk) * d.occ s k n * Complex.normSq (d.psi s k n i))
      S.hspin S.hkpt S.hband S.hNs S.hdvd hsg]
  congr 1
  refine sum_congr rfl fun a ha => sum_congr rfl fun b hb => sum_congr rfl fun c hc => ?_
  have H := S.holds a (by simpa using ha) b (by simpa using hb) c (by simpa using hc)
  rw [rhoLocal_at _ hi, H.hnsp, H.hspStart]
  refine sum_congr rfl fun sp hsp => ?_
  congr 1
  rw [H.hnk, H.hnb]
  refine sum_congr rfl fun k hk => sum_congr rfl fun n hn => ?_
  have hk' : k < (procs a b c).nk := by rw [H.hnk]; simpa using hk
  have hn' : n < (procs a b c).nb := by rw [H.hnb]; simpa using hn
  have hsp' : sp < (procs a b c).nsp := by rw [H.hnsp]; simpa using hsp
  have hlt : Groups.bandStart Ns npband c + n < Ns := by
    refine (Groups.band_cover Ns npband S.hNs S.hband).inside c _ (by simpa using hc) (by omega) ?_
    have := mem_range.1 hn; omega
  have h1 := sq_psi H hk' hn' hsp' hi
  rw [H.hnb, H.hnsp, H.hspStart, H.hnstart] at h1
  rw [h1]
  congr 1
  unfold gnk
  rw [H.hoccfac, H.hwts k hk', H.hNk, H.hspin, H.hNs, H.hnstart, H.hocc k hk' _ hlt sp hsp', H.hspStart]

/-- **C22 (layout).** Two runs with the same data but different numbers of groups produce the
same density. -/
theorem density_layout_independent {npspin' npkpt' npband' : ℕ} {procs' : ℕ → ℕ → ℕ → Proc}
    (S : Setup d gamma spinTyp Nspinor Nk Ns npspin npkpt npband D occfac procs)
    (S' : Setup d gamma spinTyp Nspinor Nk Ns npspin' npkpt' npband' D occfac procs') (dV : ℝ)
    {a b c a' b' c' : ℕ} (ha : a < npspin) (hb : b < npkpt) (ha' : a' < npspin') (hb' : b' < npkpt')
    {sg i : ℕ} (hsg : sg < Nspinor) (hi : i < D) :
    rhoPsi npspin npkpt npband procs D dV a b c (i + sg * D) =
      rhoPsi npspin' npkpt' npband' procs' D dV a' b' c' (i + sg * D) := by
  rw [density_formula S dV ha hb hsg hi, density_formula S' dV ha' hb' hsg hi]

/-- **C22 (sign).** With non-negative occupations, weights and prefactor the density is
non-negative at every point. -/
theorem density_nonneg
    (S : Setup d gamma spinTyp Nspinor Nk Ns npspin npkpt npband D occfac procs) {dV : ℝ}
    (hdV : 0 < dV) (hf : 0 ≤ occfac) (hw : ∀ k, 0 ≤ d.w k) (ho : ∀ s k n, 0 ≤ d.occ s k n)
    {a b c : ℕ} (ha : a < npspin) (hb : b < npkpt) {sg i : ℕ} (hsg : sg < Nspinor) (hi : i < D) :
    0 ≤ rhoPsi npspin npkpt npband procs D dV a b c (i + sg * D) := by
  rw [density_formula S dV ha hb hsg hi]
  refine mul_nonneg (sum_nonneg fun k _ => sum_nonneg fun n _ => ?_) (by positivity)
  exact mul_nonneg (mul_nonneg (mul_nonneg hf (div_nonneg (hw k) (Nat.cast_nonneg _))) (ho _ _ _))
    (Complex.normSq_nonneg _)

/-- **C22 (normalisation).** The grid is split into domains `q ∈ Q`, all with the same
occupations and weights.  Summing the densities over spinors, domains and points gives
`Σ_k Σ_n Σ_s occfac · w_k/Nk · occ_{s,k,n} · ‖psi_{s,k,n}‖²`. -/
theorem density_integral {ι : Type} (Q : Finset ι) (d : ι → Data) (Dq : ι → ℕ)
    (procs : ι → ℕ → ℕ → ℕ → Proc) (occ : ℕ → ℕ → ℕ → ℝ) (w : ℕ → ℝ)
    (hocc : ∀ q, (d q).occ = occ) (hw : ∀ q, (d q).w = w)
    (S : ∀ q ∈ Q, Setup (d q) gamma spinTyp Nspinor Nk Ns npspin npkpt npband (Dq q) occfac (procs q))
    {dV : ℝ} (hdV : dV ≠ 0) {a b c : ℕ} (ha : a < npspin) (hb : b < npkpt) :
    ∑ q ∈ Q, ∑ sg ∈ range Nspinor, ∑ i ∈ range (Dq q),
        rhoPsi npspin npkpt npband (procs q) (Dq q) dV a b c (i + sg * Dq q) * dV =
      ∑ k ∈ range Nk, ∑ n ∈ range Ns, ∑ s ∈ range Nspinor, occfac * (w k / Nk) * occ s k n *
        ∑ q ∈ Q, ∑ i ∈ range (Dq q), Complex.normSq ((d q).psi s k n i) := by
  have e : ∀ q ∈ Q, ∑ sg ∈ range Nspinor, ∑ i ∈ range (Dq q),
        rhoPsi npspin npkpt npband (procs q) (Dq q) dV a b c (i + sg * Dq q) * dV =
      ∑ k ∈ range Nk, ∑ n ∈ range Ns, ∑ s ∈ range Nspinor, occfac * (w k / Nk) * occ s k n *
        ∑ i ∈ range (Dq q), Complex.normSq ((d q).psi s k n i) := by
    intro q hq
    have e1 : ∀ sg ∈ range Nspinor, ∑ i ∈ range (Dq q),
        rhoPsi npspin npkpt npband (procs q) (Dq q) dV a b c (i + sg * Dq q) * dV =
        ∑ k ∈ range Nk, ∑ n ∈ range Ns, occfac * (w k / Nk) * occ sg k n *
          ∑ i ∈ range (Dq q), Complex.normSq ((d q).psi sg k n i) := by
      intro sg hsg
      have : ∀ i ∈ range (Dq q),
          rhoPsi npspin npkpt npband (procs q) (Dq q) dV a b c (i + sg * Dq q) * dV =
          ∑ k ∈ range Nk, ∑ n ∈ range Ns,
            occfac * (w k / Nk) * occ sg k n * Complex.normSq ((d q).psi sg k n i) := by
        intro i hi
        rw [density_formula (S q hq) dV ha hb (by simpa using hsg) (by simpa using hi), hocc, hw,
          mul_assoc, one_div, inv_mul_cancel₀ hdV, mul_one]
      rw [sum_congr rfl this, sum_comm]
      refine sum_congr rfl fun k _ => ?_
      rw [sum_comm]
      exact sum_congr rfl fun n _ => (mul_sum _ _ _).symm
    rw [sum_congr rfl e1, sum_comm]
    exact sum_congr rfl fun k _ => sum_comm
  rw [sum_congr rfl e, sum_comm]
  refine sum_congr rfl fun k _ => ?_
  rw [sum_comm]
  refine sum_congr rfl fun n _ => ?_
  rw [sum_comm]
  exact sum_congr rfl fun s _ => (mul_sum _ _ _).symm

/-- **C22 (electron count, collinear).** Normalised orbitals: the density integrates to
`occfac/Nk · Σ w_k occ_{s,k,n}`. -/
theorem density_count {ι : Type} (Q : Finset ι) (d : ι → Data) (Dq : ι → ℕ)
    (procs : ι → ℕ → ℕ → ℕ → Proc) (occ : ℕ → ℕ → ℕ → ℝ) (w : ℕ → ℝ)
    (hocc : ∀ q, (d q).occ = occ) (hw : ∀ q, (d q).w = w)
    (S : ∀ q ∈ Q, Setup (d q) gamma spinTyp Nspinor Nk Ns npspin npkpt npband (Dq q) occfac (procs q))
    {dV : ℝ} (hdV : dV ≠ 0) {a b c : ℕ} (ha : a < npspin) (hb : b < npkpt)
    (hnorm : ∀ s < Nspinor, ∀ k < Nk, ∀ n < Ns,
      ∑ q ∈ Q, ∑ i ∈ range (Dq q), Complex.normSq ((d q).psi s k n i) = 1) :
    ∑ q ∈ Q, ∑ sg ∈ range Nspinor, ∑ i ∈ range (Dq q),
        rhoPsi npspin npkpt npband (procs q) (Dq q) dV a b c (i + sg * Dq q) * dV =
      ∑ k ∈ range Nk, ∑ n ∈ range Ns, ∑ s ∈ range Nspinor, occfac * (w k / Nk) * occ s k n := by
  rw [density_integral Q d Dq procs occ w hocc hw S hdV ha hb]
  refine sum_congr rfl fun k hk => sum_congr rfl fun n hn => sum_congr rfl fun s hs => ?_
  rw [hnorm s (by simpa using hs) k (by simpa using hk) n (by simpa using hn), mul_one]

/-- **C22 (electron count, spinors).** Two-component orbitals normalised as a whole, one
occupation per orbital: the density integrates to `occfac/Nk · Σ w_k occ_{k,n}`. -/
theorem density_count_spinor {ι : Type} (Q : Finset ι) (d : ι → Data) (Dq : ι → ℕ)
    (procs : ι → ℕ → ℕ → ℕ → Proc) (occ : ℕ → ℕ → ℝ) (w : ℕ → ℝ)
    (hocc : ∀ q, (d q).occ = fun _ => occ) (hw : ∀ q, (d q).w = w)
    (S : ∀ q ∈ Q, Setup (d q) gamma spinTyp Nspinor Nk Ns npspin npkpt npband (Dq q) occfac (procs q))
    {dV : ℝ} (hdV : dV ≠ 0) {a b c : ℕ} (ha : a < npspin) (hb : b < npkpt)
    (hnorm : ∀ k < Nk, ∀ n < Ns, ∑ s ∈ range Nspinor,
      ∑ q ∈ Q, ∑ i ∈ range (Dq q), Complex.normSq ((d q).psi s k n i) = 1) :
    ∑ q ∈ Q, ∑ sg ∈ range Nspinor, ∑ i ∈ range (Dq q),
        rhoPsi npspin npkpt npband (procs q) (Dq q) dV a b c (i + sg * Dq q) * dV =
      ∑ k ∈ range Nk, ∑ n ∈ range Ns, occfac * (w k / Nk) * occ k n := by
  rw [density_integral Q d Dq procs (fun _ => occ) w hocc hw S hdV ha hb]
  refine sum_congr rfl fun k hk => sum_congr rfl fun n hn => ?_
  rw [← mul_sum, hnorm k (by simpa using hk) n (by simpa using hn), mul_one]

/-! ### C23 -/

/-- **C23 (formula).** With non-collinear spin (`npspin = 1`, two spinor components) every
process ends up with `magx = 1/dV Σ 2 g Re(psi↑ conj psi↓)` and
`magy = -1/dV Σ 2 g Im(psi↑ conj psi↓)`. -/
theorem mag_formula
    (S : Setup d false 2 2 Nk Ns 1 npkpt npband D occfac procs) (dV : ℝ)
    {b c : ℕ} (hb : b < npkpt) {i : ℕ} (hi : i < D) :
    magPsi 1 npkpt npband procs D dV 0 b c i =
      (∑ k ∈ range Nk, ∑ n ∈ range Ns, 2 * (occfac * (d.w k / Nk) * d.occ 0 k n) *
        (d.psi 0 k n i * (starRingEnd ℂ) (d.psi 1 k n i)).re) * (1 / dV) ∧
    magPsi 1 npkpt npband procs D dV 0 b c (i + D) =
      (∑ k ∈ range Nk, ∑ n ∈ range Ns, -(2 * (occfac * (d.w k / Nk) * d.occ 0 k n) *
        (d.psi 0 k n i * (starRingEnd ℂ) (d.psi 1 k n i)).im)) * (1 / dV) := by
  have hsc : Groups.spinCount 2 1 = 2 := rfl
  have hst : Groups.spinStart 2 1 0 = 0 := rfl
  have key : ∀ (f : ℂ → ℝ) (b : ℕ), b < npkpt → ∀ c, c < npband → ∀ k < (procs 0 b c).nk,
      ∀ n < (procs 0 b c).nb,
      2 * gmag (procs 0 b c) k ((procs 0 b c).nstart + n) *
        f ((procs 0 b c).XorbKpt ((k * (procs 0 b c).nb + n) * 2 * D + i) *
          (starRingEnd ℂ) ((procs 0 b c).XorbKpt (((k * (procs 0 b c).nb + n) * 2 + 1) * D + i))) =
      2 * (occfac * (d.w (Groups.kptStart Nk npkpt b + k) / Nk) *
          d.occ 0 (Groups.kptStart Nk npkpt b + k) (Groups.bandStart Ns npband c + n)) *
        f (d.psi 0 (Groups.kptStart Nk npkpt b + k) (Groups.bandStart Ns npband c + n) i *
          (starRingEnd ℂ) (d.psi 1 (Groups.kptStart Nk npkpt b + k) (Groups.bandStart Ns npband c + n) i)) := by
    intro f b hb c hc k hk n hn
    have H := S.holds 0 one_pos b hb c hc
    have hlt : Groups.bandStart Ns npband c + n < Ns := by
      refine (Groups.band_cover Ns npband S.hNs S.hband).inside c _ hc (by omega) ?_
      have := hn; rw [H.hnb] at this; omega
    have h0 := H.hpsi k hk n hn 0 (by rw [H.hnsp, hsc]; omega) i hi
    have h1 := H.hpsi k hk n hn 1 (by rw [H.hnsp, hsc]; omega) i hi
    have ho := H.hocc k hk _ hlt 0 (by rw [H.hnsp, hsc]; omega)
    rw [H.hnsp, hsc, H.hspStart, hst, H.hnstart] at h0 h1
    rw [H.hspStart, hst] at ho
    simp only [Bool.false_eq_true, if_false, add_zero, zero_add] at h0 h1
    simp only [show (2 : ℕ) ≠ 1 by omega, if_false, add_zero] at ho
    rw [h0, h1]
    unfold gmag
    rw [H.hoccfac, H.hwts k hk, H.hNk, H.hNs, H.hnstart,
      Nat.add_comm (Groups.bandStart Ns npband c + n), ho]
  have grp : ∀ T : ℕ → ℕ → ℝ, ∑ a ∈ range 1, ∑ b ∈ range npkpt, ∑ c ∈ range npband,
      ∑ k ∈ range (Groups.kptCount Nk npkpt b), ∑ n ∈ range (Groups.bandCount Ns npband c),
        T (Groups.kptStart Nk npkpt b + k) (Groups.bandStart Ns npband c + n) =
      ∑ k ∈ range Nk, ∑ n ∈ range Ns, T k n := by
    intro T
    have := sum_groups (Nspinor := 1) (npspin := 1) (Nk := Nk) (fun _ => T) one_pos S.hkpt S.hband S.hNs
      (dvd_refl 1) (sg := 0) one_pos
    rw [← this]
    simp [Groups.spinCount, Groups.spinStart]
  have hcnt : ∀ b < npkpt, ∀ c < npband, (procs 0 b c).nk = Groups.kptCount Nk npkpt b ∧
      (procs 0 b c).nb = Groups.bandCount Ns npband c := fun b hb c hc =>
    ⟨(S.holds 0 one_pos b hb c hc).hnk, (S.holds 0 one_pos b hb c hc).hnb⟩
  constructor
  · unfold magPsi
    rw [reduce_eq 1 npkpt npband one_pos S.hkpt S.hband _ one_pos hb,
      ← grp (fun k n => 2 * (occfac * (d.w k / Nk) * d.occ 0 k n) *
        (d.psi 0 k n i * (starRingEnd ℂ) (d.psi 1 k n i)).re)]
    congr 1
    refine sum_congr rfl fun a ha => sum_congr rfl fun b hb => sum_congr rfl fun c hc => ?_
    have : a = 0 := by simpa using ha
    subst this
    rw [mem_range] at hb hc
    rw [magLocal_x _ hi, ← (hcnt b hb c hc).1, ← (hcnt b hb c hc).2]
    exact sum_congr rfl fun k hk => sum_congr rfl fun n hn =>
      key Complex.re b hb c hc k (mem_range.1 hk) n (mem_range.1 hn)
  · unfold magPsi
    rw [reduce_eq 1 npkpt npband one_pos S.hkpt S.hband _ one_pos hb,
      ← grp (fun k n => -(2 * (occfac * (d.w k / Nk) * d.occ 0 k n) *
        (d.psi 0 k n i * (starRingEnd ℂ) (d.psi 1 k n i)).im))]
    congr 1
    refine sum_congr rfl fun a ha => sum_congr rfl fun b hb => sum_congr rfl fun c hc => ?_
    have : a = 0 := by simpa using ha
    subst this
    rw [mem_range] at hb hc
    rw [magLocal_y _ hi, ← (hcnt b hb c hc).1, ← (hcnt b hb c hc).2]
    exact sum_congr rfl fun k hk => sum_congr rfl fun n hn =>
      congrArg Neg.neg (key Complex.im b hb c hc k (mem_range.1 hk) n (mem_range.1 hn))

/-- A vector bounded by a non-negative number. -/
def Bdd (x y z r : ℝ) : Prop := 0 ≤ r ∧ x * x + y * y + z * z ≤ r * r

theorem Bdd.add {x y z r x' y' z' r' : ℝ} (h : Bdd x y z r) (h' : Bdd x' y' z' r') :
    Bdd (x + x') (y + y') (z + z') (r + r') := by
  obtain ⟨h1, h2⟩ := h
  obtain ⟨i1, i2⟩ := h'
  refine ⟨add_nonneg h1 i1, ?_⟩
  have hc : (x * x' + y * y' + z * z') ^ 2 ≤ (r * r') ^ 2 := by
    have : (x * x' + y * y' + z * z') ^ 2 ≤
        (x * x + y * y + z * z) * (x' * x' + y' * y' + z' * z') := by
      nlinarith [sq_nonneg (x * y' - y * x'), sq_nonneg (x * z' - z * x'),
        sq_nonneg (y * z' - z * y')]
    have h3 : (x * x + y * y + z * z) * (x' * x' + y' * y' + z' * z') ≤ (r * r) * (r' * r') :=
      mul_le_mul h2 i2 (add_nonneg (add_nonneg (mul_self_nonneg _) (mul_self_nonneg _))
        (mul_self_nonneg _)) (mul_self_nonneg _)
    nlinarith
  have := abs_le_of_sq_le_sq' hc (mul_nonneg h1 i1)
  nlinarith [this.2]

theorem Bdd.zero : Bdd 0 0 0 0 := ⟨le_refl _, by simp⟩

theorem Bdd.sum {ι : Type} (s : Finset ι) (x y z r : ι → ℝ) (h : ∀ i ∈ s, Bdd (x i) (y i) (z i) (r i)) :
    Bdd (∑ i ∈ s, x i) (∑ i ∈ s, y i) (∑ i ∈ s, z i) (∑ i ∈ s, r i) := by
  classical
  induction s using Finset.induction_on with
  | empty => simpa using Bdd.zero
  | insert a s ha ih =>
    rw [sum_insert ha, sum_insert ha, sum_insert ha, sum_insert ha]
    exact (h a (mem_insert_self _ _)).add (ih fun i hi => h i (mem_insert_of_mem hi))

theorem Bdd.smul {x y z r : ℝ} (t : ℝ) (ht : 0 ≤ t) (h : Bdd x y z r) :
    Bdd (x * t) (y * t) (z * t) (r * t) := by
  refine ⟨mul_nonneg h.1 ht, ?_⟩
  nlinarith [mul_le_mul_of_nonneg_left h.2 (mul_nonneg ht ht)]

/-- Contribution of one orbital. -/
theorem Bdd.orbital (g : ℝ) (hg : 0 ≤ g) (u v : ℂ) :
    Bdd (2 * g * (u * (starRingEnd ℂ) v).re) (-(2 * g * (u * (starRingEnd ℂ) v).im))
      (g * Complex.normSq u - g * Complex.normSq v) (g * Complex.normSq u + g * Complex.normSq v) := by
  refine ⟨add_nonneg (mul_nonneg hg (Complex.normSq_nonneg _)) (mul_nonneg hg (Complex.normSq_nonneg _)), ?_⟩
  apply le_of_eq
  simp only [Complex.mul_re, Complex.mul_im, Complex.conj_re, Complex.conj_im, Complex.normSq_apply]
  ring

/-- **C23.** At every grid point the norm of the magnetisation computed by
`Calculate_Magx_Magy_psi`, `Calculate_Magz`, `Calculate_Magnorm` is at most the total density;
the two diagonal densities are non-negative, add up to the density and differ by the norm. -/
theorem magnetisation_bounded
    (S : Setup d false 2 2 Nk Ns 1 npkpt npband D occfac procs) {dV : ℝ} (hdV : 0 < dV)
    (hf : 0 ≤ occfac) (hw : ∀ k, 0 ≤ d.w k) (ho : ∀ k n, 0 ≤ d.occ 0 k n)
    (hoo : ∀ k n, d.occ 1 k n = d.occ 0 k n)
    {b c : ℕ} (hb : b < npkpt) {i : ℕ} (hi : i < D) :
    let up := rhoPsi 1 npkpt npband procs D dV 0 b c i
    let dw := rhoPsi 1 npkpt npband procs D dV 0 b c (i + D)
    let m := magNorm (magPsi 1 npkpt npband procs D dV 0 b c i)
      (magPsi 1 npkpt npband procs D dV 0 b c (i + D)) (up - dw)
    let rho := up + dw
    0 ≤ m ∧ m ≤ rho ∧
    0 ≤ (diagonal rho m).1 ∧ 0 ≤ (diagonal rho m).2 ∧
    (diagonal rho m).1 + (diagonal rho m).2 = rho ∧ (diagonal rho m).1 - (diagonal rho m).2 = m := by
  intro up dw m rho
  have hup := density_formula S dV (c := c) one_pos hb (sg := 0) (by omega) hi
  have hdw := density_formula S dV (c := c) one_pos hb (sg := 1) (by omega) hi
  rw [zero_mul, add_zero] at hup
  rw [one_mul] at hdw
  obtain ⟨hx, hy⟩ := mag_formula S dV (c := c) hb hi
  have hB : Bdd (magPsi 1 npkpt npband procs D dV 0 b c i)
      (magPsi 1 npkpt npband procs D dV 0 b c (i + D)) (up - dw) (up + dw) := by
    simp only [up, dw]
    rw [hx, hy, hup, hdw, ← sub_mul, ← add_mul, ← sum_sub_distrib, ← sum_add_distrib]
    refine Bdd.smul _ (by positivity) (Bdd.sum _ _ _ _ _ fun k _ => ?_)
    rw [← sum_sub_distrib, ← sum_add_distrib]
    refine Bdd.sum _ _ _ _ _ fun n _ => ?_
    simp only [hoo]
    exact Bdd.orbital _ (mul_nonneg (mul_nonneg hf (div_nonneg (hw k) (Nat.cast_nonneg _))) (ho _ _)) _ _
  have hm0 : 0 ≤ m := Real.sqrt_nonneg _
  have hm : m ≤ rho := by
    simp only [m, magNorm, rho]
    rw [Real.sqrt_le_left hB.1, _root_.sq]
    exact hB.2
  refine ⟨hm0, hm, ?_, ?_, ?_, ?_⟩ <;> simp only [diagonal]
  · linarith
  · linarith
  · ring
  · ring

/-! ### Non-vacuity -/

/-- Every data set can be laid out on a single process, for spinor calculations … -/
noncomputable def oneProc (d : Data) (Nk Ns D : ℕ) (occfac : ℝ) : Proc where
  gamma := false
  spinTyp := 2
  Ns := Ns
  nk := Nk
  nstart := 0
  nb := Ns
  nsp := 2
  spStart := 0
  occfac := occfac
  wts := d.w
  Nk := Nk
  occ := fun j => d.occ 0 (j / Ns) (j % Ns)
  Xorb := fun _ => 0
  XorbKpt := fun j => d.psi (j / D % 2) (j / D / 2 / Ns) (j / D / 2 % Ns) (j % D)

/-- … so that the hypotheses of all theorems above can be met by any data. -/
example (d : Data) (Nk Ns D : ℕ) (hNs : 0 < Ns) (occfac : ℝ)
    (hoo : ∀ k n, d.occ 1 k n = d.occ 0 k n) :
    Setup d false 2 2 Nk Ns 1 1 1 D occfac (fun _ _ _ => oneProc d Nk Ns D occfac) := by
  have hbc : Groups.bandCount Ns 1 0 = Ns := by
    unfold Groups.bandCount Groups.bandNB
    rw [Nat.div_one, Nat.sub_add_cancel hNs]
    dsimp only
    rw [Nat.div_self hNs]; simp
  refine ⟨one_pos, one_pos, one_pos, hNs, one_dvd _, ?_⟩
  intro a ha b hb c hc
  have : a = 0 := by omega
  subst this
  have : b = 0 := by omega
  subst this
  have : c = 0 := by omega
  subst this
  refine ⟨rfl, rfl, rfl, ?_, ?_, hbc.symm, rfl, rfl, rfl, rfl, ?_, ?_, ?_⟩
  · simp [oneProc, Groups.kptCount, Nat.mod_one]
  · simp [oneProc, Groups.bandStart]
  · intro k _; simp [oneProc, Groups.kptStart, Nat.mod_one]
  · intro k _ n hn sp hsp
    have h1 : (k * Ns + n) / Ns = k := by
      rw [Nat.add_comm, Nat.add_mul_div_right _ _ hNs, Nat.div_eq_of_lt hn, zero_add]
    have h2 : (k * Ns + n) % Ns = n := by
      rw [Nat.add_comm, Nat.add_mul_mod_self_right, Nat.mod_eq_of_lt hn]
    simp only [oneProc] at hsp ⊢
    simp only [show (2 : ℕ) ≠ 1 by omega, if_false, add_zero, h1, h2, zero_add, Groups.kptStart,
      Nat.mod_one, zero_mul, Nat.not_lt_zero]
    have : sp = 0 ∨ sp = 1 := by omega
    rcases this with h | h
    · rw [h]
    · rw [h, hoo]
  · intro k _ n hn sp hsp i hi
    simp only [oneProc] at hn hsp ⊢
    have h1 : (((k * Ns + n) * 2 + sp) * D + i) / D = (k * Ns + n) * 2 + sp := by
      rw [Nat.add_comm, Nat.add_mul_div_right _ _ (by omega), Nat.div_eq_of_lt hi, zero_add]
    have h2 : (((k * Ns + n) * 2 + sp) * D + i) % D = i := by
      rw [Nat.add_comm, Nat.add_mul_mod_self_right, Nat.mod_eq_of_lt hi]
    have h3 : ((k * Ns + n) * 2 + sp) % 2 = sp := by omega
    have h4 : ((k * Ns + n) * 2 + sp) / 2 = k * Ns + n := by omega
    have h5 : (k * Ns + n) / Ns = k := by
      rw [Nat.add_comm, Nat.add_mul_div_right _ _ hNs, Nat.div_eq_of_lt hn, zero_add]
    have h6 : (k * Ns + n) % Ns = n := by
      rw [Nat.add_comm, Nat.add_mul_mod_self_right, Nat.mod_eq_of_lt hn]
    simp only [h1, h2, h3, h4, h5, h6, zero_add, Groups.kptStart, Nat.mod_one, zero_mul,
      Nat.not_lt_zero, if_false, add_zero, Bool.false_eq_true]

end Sparc.Density

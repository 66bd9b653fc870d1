import Verif.Occ.Lemmas
import Verif.Brent.Props

/-!
# C18: occupations, Fermi level and entropy
-/

namespace Sparc.Occ

open Real Filter Topology

/-- Number of electrons held by the states at Fermi level `lf`, written out independently of the
loops: `occfac` times the weighted average over k-points of the occupations; `lam s k n` is the
eigenvalue of state `n` at k-point `k` with spin `s`. -/
noncomputable def electrons (S : Sys) (lam : ℕ → ℕ → ℕ → ℝ) (lf : ℝ) : ℝ :=
  S.occfac * (∑ s ∈ Finset.range S.nspin, ∑ k ∈ Finset.range S.nkSym, S.kptWts k *
    ∑ n ∈ Finset.range S.ns, smearing S.beta (lam s k n) lf S.type) / S.nk

/-- Physical assumptions: positive temperature, at least one state, spin and k-point,
nonnegative weights that sum to the number of k-points. -/
structure Ok (S : Sys) : Prop where
  beta : 0 < S.beta
  occfac : 0 < S.occfac
  nspin : 0 < S.nspin
  ns : 0 < S.ns
  nk : 0 < S.nk
  wnn : ∀ k, 0 ≤ S.kptWts k
  wsum : ∑ k ∈ Finset.range S.nkSym, S.kptWts k = S.nk

/-- Flat eigenvalue array `[spin][k][state]` of the code. -/
def Flat (S : Sys) (lam : ℕ → ℕ → ℕ → ℝ) (arr : ℕ → ℝ) : Prop :=
  ∀ (s k n : ℕ), s < S.nspin → k < S.nkSym → n < S.ns → arr ((s * S.nkSym + k) * S.ns + n) = lam s k n

/-- **C18 (occupations).** Every occupation lies strictly between 0 and 1, does not grow with
the eigenvalue and does not fall with the Fermi level. -/
theorem occupation_admissible (beta : ℝ) (hb : 0 ≤ beta) (type : ℕ) :
    (∀ l f : ℝ, 0 < smearing beta l f type ∧ smearing beta l f type < 1) ∧
    (∀ l l' f : ℝ, l ≤ l' → smearing beta l' f type ≤ smearing beta l f type) ∧
    (∀ l f f' : ℝ, f ≤ f' → smearing beta l f type ≤ smearing beta l f' type) ∧
    (∀ l : ℝ, smearing beta l l type = 1 / 2) := by
  have mono : ∀ l f l' f' : ℝ, l - f ≤ l' - f' → smearing beta l' f' type ≤ smearing beta l f type := by
    intro l f l' f' h
    rcases eq_or_lt_of_le (mul_le_mul_of_nonneg_left h hb) with h1 | h1
    · have : smearing beta l' f' type = smearing beta l f type := by unfold smearing; rw [h1]
      exact this.le
    · exact (smearing_arg beta l f l' f' type h1).le
  refine ⟨fun l f => ⟨smearing_pos _ _ _ _, smearing_lt_one _ _ _ _⟩, ?_, ?_, ?_⟩
  · intro l l' f h; exact mono _ _ _ _ (by linarith)
  · intro l f f' h; exact mono _ _ _ _ (by linarith)
  · intro l
    unfold smearing
    rw [sub_self, mul_zero]
    split
    · have : erf 0 = 0 := by unfold erf; simp
      rw [this]; norm_num
    · rw [exp_zero]; norm_num

/-- The code's constraint is the electron count minus the number of electrons wanted. -/
theorem constraint_is_count (S : Sys) (lam : ℕ → ℕ → ℕ → ℝ) (arr : ℕ → ℝ) (h : Flat S lam arr)
    (lf : ℝ) : constraint S arr lf = electrons S lam lf + S.negCharge := by
  rw [constraint_eq, electrons]
  congr 1
  rw [mul_one_div, Finset.mul_sum]
  congr 1
  refine Finset.sum_congr rfl fun s hs => ?_
  rw [Finset.mul_sum]
  refine Finset.sum_congr rfl fun k hk => ?_
  rw [Finset.mul_sum, Finset.mul_sum]
  refine Finset.sum_congr rfl fun n hn => ?_
  have := h s k n (Finset.mem_range.mp hs) (Finset.mem_range.mp hk) (Finset.mem_range.mp hn)
  rw [← this]
  have e : (s * S.nkSym + k) * S.ns + n = s * (S.nkSym * S.ns) + k * S.ns + n := by ring
  rw [e]; ring

theorem electrons_lipschitz (S : Sys) (hS : Ok S) (lam : ℕ → ℕ → ℕ → ℝ) (f f' : ℝ) :
    |electrons S lam f' - electrons S lam f| ≤ S.occfac * S.nspin * S.ns * S.beta * |f' - f| := by
  have hk : (0:ℝ) < S.nk := by exact_mod_cast hS.nk
  have e : electrons S lam f' - electrons S lam f = S.occfac / S.nk *
      ∑ s ∈ Finset.range S.nspin, ∑ k ∈ Finset.range S.nkSym, S.kptWts k *
        ∑ n ∈ Finset.range S.ns, (smearing S.beta (lam s k n) f' S.type - smearing S.beta (lam s k n) f S.type) := by
    unfold electrons
    simp only [Finset.sum_sub_distrib, mul_sub]
    ring
  rw [e, abs_mul, abs_of_pos (div_pos hS.occfac hk)]
  have h1 : |∑ s ∈ Finset.range S.nspin, ∑ k ∈ Finset.range S.nkSym, S.kptWts k *
        ∑ n ∈ Finset.range S.ns, (smearing S.beta (lam s k n) f' S.type - smearing S.beta (lam s k n) f S.type)|
      ≤ ∑ s ∈ Finset.range S.nspin, ∑ k ∈ Finset.range S.nkSym, S.kptWts k * (S.ns * (S.beta * |f' - f|)) := by
    refine le_trans (Finset.abs_sum_le_sum_abs _ _) (Finset.sum_le_sum fun s _ => ?_)
    refine le_trans (Finset.abs_sum_le_sum_abs _ _) (Finset.sum_le_sum fun k _ => ?_)
    rw [abs_mul, abs_of_nonneg (hS.wnn k)]
    refine mul_le_mul_of_nonneg_left ?_ (hS.wnn k)
    refine le_trans (Finset.abs_sum_le_sum_abs _ _) ?_
    refine le_trans (Finset.sum_le_sum fun n _ => smearing_lipschitz S.beta (lam s k n) f f' hS.beta.le S.type) ?_
    rw [Finset.sum_const, Finset.card_range, nsmul_eq_mul]
  simp only [← Finset.sum_mul, hS.wsum, Finset.sum_const, Finset.card_range, nsmul_eq_mul] at h1
  refine le_trans (mul_le_mul_of_nonneg_left h1 (div_pos hS.occfac hk).le) (le_of_eq ?_)
  field_simp

theorem electrons_continuous (S : Sys) (hS : Ok S) (lam : ℕ → ℕ → ℕ → ℝ) :
    Continuous (electrons S lam) := by
  unfold electrons
  refine Continuous.div_const (Continuous.mul continuous_const ?_) _
  refine continuous_finsetSum _ fun s _ => continuous_finsetSum _ fun k _ =>
    continuous_const.mul (continuous_finsetSum _ fun n _ => ?_)
  exact smearing_continuous _ _ hS.beta.le _

theorem exists_wt_pos (S : Sys) (hS : Ok S) : ∃ k ∈ Finset.range S.nkSym, 0 < S.kptWts k := by
  by_contra h
  push Not at h
  have : ∑ k ∈ Finset.range S.nkSym, S.kptWts k ≤ 0 := Finset.sum_nonpos h
  rw [hS.wsum] at this
  have hk : (0:ℝ) < S.nk := by exact_mod_cast hS.nk
  linarith

/-- **C18 (monotone count).** The electron count rises strictly with the Fermi level. -/
theorem electrons_strictMono (S : Sys) (hS : Ok S) (lam : ℕ → ℕ → ℕ → ℝ) :
    StrictMono (electrons S lam) := by
  intro f f' h
  have hk : (0:ℝ) < S.nk := by exact_mod_cast hS.nk
  unfold electrons
  refine div_lt_div_of_pos_right (mul_lt_mul_of_pos_left ?_ hS.occfac) hk
  have hlt : ∀ (s k n : ℕ), smearing S.beta (lam s k n) f S.type < smearing S.beta (lam s k n) f' S.type :=
    fun s k n => smearing_arg _ _ _ _ _ _ (mul_lt_mul_of_pos_left (by linarith) hS.beta)
  have hn : ∀ (s k : ℕ), ∑ n ∈ Finset.range S.ns, smearing S.beta (lam s k n) f S.type <
      ∑ n ∈ Finset.range S.ns, smearing S.beta (lam s k n) f' S.type := fun s k =>
    Finset.sum_lt_sum_of_nonempty (by simpa using hS.ns.ne') fun n _ => hlt s k n
  refine Finset.sum_lt_sum_of_nonempty (by simpa using hS.nspin.ne') fun s _ => ?_
  obtain ⟨k0, hk0, hw⟩ := exists_wt_pos S hS
  exact Finset.sum_lt_sum (fun k _ => mul_le_mul_of_nonneg_left (hn s k).le (hS.wnn k))
    ⟨k0, hk0, mul_lt_mul_of_pos_left (hn s k0) hw⟩

/-- Capacity: all states filled. -/
noncomputable def capacity (S : Sys) : ℝ := S.occfac * S.nspin * S.ns

theorem electrons_tendsto_top (S : Sys) (hS : Ok S) (lam : ℕ → ℕ → ℕ → ℝ) :
    Tendsto (electrons S lam) atTop (𝓝 (capacity S)) := by
  have hk : (S.nk : ℝ) ≠ 0 := by exact_mod_cast hS.nk.ne'
  have h : Tendsto (electrons S lam) atTop (𝓝 (S.occfac * (∑ s ∈ Finset.range S.nspin,
      ∑ k ∈ Finset.range S.nkSym, S.kptWts k * ∑ n ∈ Finset.range S.ns, (1:ℝ)) / S.nk)) := by
    unfold electrons
    refine Tendsto.div_const (Tendsto.const_mul _ ?_) _
    refine tendsto_finsetSum _ fun s _ => tendsto_finsetSum _ fun k _ =>
      Tendsto.const_mul _ (tendsto_finsetSum _ fun n _ => ?_)
    exact smearing_tendsto_top _ _ hS.beta _
  have e : S.occfac * (∑ s ∈ Finset.range S.nspin,
      ∑ k ∈ Finset.range S.nkSym, S.kptWts k * ∑ n ∈ Finset.range S.ns, (1:ℝ)) / S.nk = capacity S := by
    simp only [← Finset.sum_mul, hS.wsum, Finset.sum_const, Finset.card_range, nsmul_eq_mul, mul_one]
    unfold capacity
    field_simp
  rwa [e] at h

theorem electrons_tendsto_bot (S : Sys) (hS : Ok S) (lam : ℕ → ℕ → ℕ → ℝ) :
    Tendsto (electrons S lam) atBot (𝓝 0) := by
  have h : Tendsto (electrons S lam) atBot (𝓝 (S.occfac * (∑ s ∈ Finset.range S.nspin,
      ∑ k ∈ Finset.range S.nkSym, S.kptWts k * ∑ n ∈ Finset.range S.ns, (0:ℝ)) / S.nk)) := by
    unfold electrons
    refine Tendsto.div_const (Tendsto.const_mul _ ?_) _
    refine tendsto_finsetSum _ fun s _ => tendsto_finsetSum _ fun k _ =>
      Tendsto.const_mul _ (tendsto_finsetSum _ fun n _ => ?_)
    exact smearing_tendsto_bot _ _ hS.beta _
  simpa using h

/-- **C18 (exact level).** A Fermi level that holds exactly the wanted number of electrons
exists if and only if that number is strictly between zero and the capacity of the states, and
it is then unique. -/
theorem fermi_level_exists_unique (S : Sys) (hS : Ok S) (lam : ℕ → ℕ → ℕ → ℝ) (N : ℝ) :
    (∃! z, electrons S lam z = N) ↔ 0 < N ∧ N < capacity S := by
  have hm := electrons_strictMono S hS lam
  constructor
  · rintro ⟨z, rfl, -⟩
    constructor
    · have h1 := hm (show z - 1 < z by linarith)
      have h2 := hm.monotone.le_of_tendsto (electrons_tendsto_bot S hS lam) (z - 1)
      linarith
    · have h1 := hm (show z < z + 1 by linarith)
      have h2 := hm.monotone.ge_of_tendsto (electrons_tendsto_top S hS lam) (z + 1)
      linarith
  · rintro ⟨h0, h1⟩
    refine existsUnique_of_exists_of_unique ?_ fun y y' h h' => hm.injective (h.trans h'.symm)
    exact mem_range_of_exists_le_of_exists_ge (electrons_continuous S hS lam)
      (((electrons_tendsto_bot S hS lam).eventually (gt_mem_nhds h0)).exists.imp fun _ h => h.le)
      (((electrons_tendsto_top S hS lam).eventually (lt_mem_nhds h1)).exists.imp fun _ h => h.le)

/-- **C18 (the search conserves electrons).** The level the search returns holds the wanted
number of electrons up to `1e-16` or up to capacity times the inverse temperature times the
position tolerance. -/
theorem fermi_level_count (S : Sys) (hS : Ok S) (lam : ℕ → ℕ → ℕ → ℝ) (arr : ℕ → ℝ)
    (hf : Flat S lam arr) (tol : ℝ) (ht : 0 ≤ tol) (maxIter : ℕ) (x1 x2 r : ℝ) (ev : List ℝ)
    (h : fermiLevel S arr tol maxIter x1 x2 = .found r ev) :
    |electrons S lam r - (-S.negCharge)| < 1 / 10 ^ 16 ∨
    |electrons S lam r - (-S.negCharge)| ≤
      capacity S * S.beta * (tol + 4 * (1 / 10 ^ 16) * |r|) := by
  have hc : constraint S arr = fun lf => electrons S lam lf + S.negCharge :=
    funext fun lf => constraint_is_count S lam arr hf lf
  have hcont : Continuous (constraint S arr) := by
    rw [hc]; exact (electrons_continuous S hS lam).add continuous_const
  have hr := Brent.root_near (constraint S arr) hcont ⟨tol, Brent.eps, false⟩ 10 maxIter
    (min x1 x2) (max x1 x2) r ev Brent.eps_pos ht h
  rw [hc] at hr
  dsimp only at hr
  rcases hr with hr | ⟨z, hz, hzr⟩
  · left
    rw [sub_neg_eq_add]; exact hr
  · right
    have hz' : -S.negCharge = electrons S lam z := by linarith
    rw [hz']
    refine le_trans (electrons_lipschitz S hS lam z r) ?_
    rw [abs_sub_comm] at hzr
    refine mul_le_mul_of_nonneg_left hzr ?_
    have := hS.beta; have := hS.occfac
    positivity

/-- **C18 (the search succeeds).** If the count passes the wanted number inside the starting
interval, the search returns a level for every large enough iteration limit; it reports failure
only if none of its ten enlargements brackets the wanted number. -/
theorem fermi_level_found (S : Sys) (lam : ℕ → ℕ → ℕ → ℝ) (arr : ℕ → ℝ)
    (hf : Flat S lam arr) (tol : ℝ) (ht : 0 < tol) (x1 x2 : ℝ) (hx : x1 ≤ x2)
    (h1 : electrons S lam x1 ≤ -S.negCharge) (h2 : -S.negCharge ≤ electrons S lam x2) :
    ∃ M, ∀ maxIter ≥ M, ∃ r ev, fermiLevel S arr tol maxIter x1 x2 = .found r ev := by
  refine Brent.search_converges _ _ _ _ _ Brent.eps_pos ht ⟨0, by norm_num, ?_⟩
  unfold Brent.sameSign
  rw [min_eq_left hx, max_eq_right hx]
  have e1 : (x1 + x2) / 2 - 2 ^ 0 * (x2 - x1) / 2 = x1 := by ring
  have e2 : (x1 + x2) / 2 + 2 ^ 0 * (x2 - x1) / 2 = x2 := by ring
  rw [e1, e2, constraint_is_count S lam arr hf, constraint_is_count S lam arr hf]
  exact not_lt.mpr (mul_nonpos_of_nonpos_of_nonneg (by linarith) (by linarith))

/-- **C18 (gathered eigenvalues, separate spin groups).** Every process ends up with the same
array, holding at position `[spin][k][state]` the eigenvalue owned by the k-point group that
was assigned `k`. -/
theorem collect_separate_spins (Nk np Ns npspin : ℕ)
    (lambda : ℕ → ℕ → ℕ → ℝ) (mySpin : ℕ) (old : ℕ → ℝ) (s i kl n : ℕ) (hs : s < npspin)
    (hi : i < np) (hk : kl < Groups.kptCount Nk np i) (hkk : Groups.kptStart Nk np i + kl < Nk)
    (hn : n < Ns) :
    collect Nk np Ns npspin 1 lambda mySpin old
      ((s * Nk + (Groups.kptStart Nk np i + kl)) * Ns + n) = lambda s i (kl * Ns + n) := by
  unfold collect
  rw [if_pos rfl]
  have h1 : (Groups.kptStart Nk np i + kl) * Ns + n < Ns * Nk := by
    calc (Groups.kptStart Nk np i + kl) * Ns + n < (Groups.kptStart Nk np i + kl) * Ns + Ns := by omega
      _ = Ns * (Groups.kptStart Nk np i + kl + 1) := by ring
      _ ≤ Ns * Nk := Nat.mul_le_mul_left _ hkk
  have h2 : kl * Ns + n < bridgeCount Nk np Ns i := by
    rw [bridgeCount_eq]
    calc kl * Ns + n < kl * Ns + Ns := by omega
      _ = (kl + 1) * Ns := by ring
      _ ≤ _ := Nat.mul_le_mul_right _ hk
  have e : (s * Nk + (Groups.kptStart Nk np i + kl)) * Ns + n
      = s * (Ns * Nk) + ((Groups.kptStart Nk np i + kl) * Ns + n) := by ring
  rw [e]
  unfold allgather
  rw [allgatherv_spec npspin _ _ _ _ (fun i _ => by ring) s hs _ h1]
  have e2 : (Groups.kptStart Nk np i + kl) * Ns + n = bridgeDispl Nk np Ns i + (kl * Ns + n) := by
    rw [bridgeDispl_eq]; ring
  rw [e2]
  exact allgatherv_spec np _ _ _ _ (fun i _ => rfl) i hi _ h2

/-- An `Allgatherv` leaves everything below its first segment alone. -/
theorem allgatherv_below (np : ℕ) (count displ : ℕ → ℕ) (send : ℕ → ℕ → ℝ) (old : ℕ → ℝ) (x : ℕ)
    (h : ∀ i < np, x < displ i) : allgatherv np count displ send old x = old x := by
  unfold allgatherv
  revert h
  induction np with
  | zero => intro _; rfl
  | succ m ih =>
    intro h
    rw [List.range_succ, List.foldl_append]
    simp only [List.foldl_cons, List.foldl_nil]
    rw [if_neg (by have := h m (by omega); omega)]
    exact ih fun i hi => h i (by omega)

/-- **C18 (gathered eigenvalues, both spins in one group).** -/
theorem collect_joint_spins (Nk np Ns npspin : ℕ)
    (lambda : ℕ → ℕ → ℕ → ℝ) (mySpin : ℕ) (old : ℕ → ℝ) (s i kl n : ℕ) (hs : s < 2)
    (hi : i < np) (hk : kl < Groups.kptCount Nk np i) (hkk : Groups.kptStart Nk np i + kl < Nk)
    (hn : n < Ns) :
    collect Nk np Ns npspin 2 lambda mySpin old
      ((s * Nk + (Groups.kptStart Nk np i + kl)) * Ns + n)
      = lambda mySpin i (n + kl * Ns + s * Groups.kptCount Nk np i * Ns) := by
  unfold collect
  rw [if_neg (by norm_num), if_pos rfl]
  have h1 : (Groups.kptStart Nk np i + kl) * Ns + n < Ns * Nk := by
    calc (Groups.kptStart Nk np i + kl) * Ns + n < (Groups.kptStart Nk np i + kl) * Ns + Ns := by omega
      _ = Ns * (Groups.kptStart Nk np i + kl + 1) := by ring
      _ ≤ Ns * Nk := Nat.mul_le_mul_left _ hkk
  have h2 : kl * Ns + n < bridgeCount Nk np Ns i := by
    rw [bridgeCount_eq]
    calc kl * Ns + n < kl * Ns + Ns := by omega
      _ = (kl + 1) * Ns := by ring
      _ ≤ _ := Nat.mul_le_mul_right _ hk
  have e : (s * Nk + (Groups.kptStart Nk np i + kl)) * Ns + n
      = s * (Ns * Nk) + bridgeDispl Nk np Ns i + (kl * Ns + n) := by
    rw [bridgeDispl_eq]; ring
  have hlt : bridgeDispl Nk np Ns i + (kl * Ns + n) < Ns * Nk := by
    rw [bridgeDispl_eq]; linarith [h1, add_mul (Groups.kptStart Nk np i) kl Ns]
  have hidx : s * (Ns * Groups.kptCount Nk np i) + (kl * Ns + n)
      = n + kl * Ns + s * Groups.kptCount Nk np i * Ns := by ring
  rw [e, ← hidx]
  simp only [show List.range 2 = [0, 1] from rfl, List.foldl_cons, List.foldl_nil]
  obtain rfl | rfl : s = 0 ∨ s = 1 := by omega
  · rw [allgatherv_below _ _ _ _ _ _ (fun j _ => by simp only [zero_mul, one_mul, zero_add]; omega)]
    exact allgatherv_spec np _ _ _ _ (fun i _ => by simp only [bridgeDispl]; ring) i hi _ h2
  · exact allgatherv_spec np (bridgeCount Nk np Ns) (fun i => 1 * (Ns * Nk) + bridgeDispl Nk np Ns i)
      _ _ (fun i _ => by simp only [bridgeDispl]; ring) i hi _ h2

/-- **C18 (entropy).** The electronic entropy contribution is never positive and at most
`ln 2` per state, whatever the occupations. -/
theorem entropy_bounds (nspin nkLoc ns nk : ℕ) (beta occfac : ℝ) (type : ℕ) (wts : ℕ → ℝ)
    (lambda occ : ℕ → ℝ) (lf : ℝ) (hb : 0 < beta) (ho : 0 ≤ occfac) (hw : ∀ k, 0 ≤ wts k) :
    entropyLocal nspin nkLoc ns nk beta occfac type wts lambda occ lf ≤ 0 ∧
    -(occfac * nspin * (∑ k ∈ Finset.range nkLoc, wts k) / nk * (ns * log 2) / beta) ≤
      entropyLocal nspin nkLoc ns nk beta occfac type wts lambda occ lf := by
  rw [entropyLocal_eq]
  set T := ∑ s ∈ Finset.range nspin, ∑ k ∈ Finset.range nkLoc,
        entropyTerm ns beta type (fun n => lambda (n + k * ns + s * nkLoc * ns))
        (fun n => occ (n + k * ns + s * nkLoc * ns)) lf * wts k with hT
  have h0 : 0 ≤ T := Finset.sum_nonneg fun s _ => Finset.sum_nonneg fun k _ =>
    mul_nonneg (entropyTerm_bounds _ _ _ _ _ _).1 (hw k)
  have h1 : T ≤ nspin * ((ns * log 2) * ∑ k ∈ Finset.range nkLoc, wts k) := by
    have : T ≤ ∑ s ∈ Finset.range nspin, ∑ k ∈ Finset.range nkLoc, (ns * log 2) * wts k :=
      Finset.sum_le_sum fun s _ => Finset.sum_le_sum fun k _ =>
        mul_le_mul_of_nonneg_right (entropyTerm_bounds _ _ _ _ _ _).2 (hw k)
    simpa [← Finset.mul_sum] using this
  have hc : 0 ≤ occfac / (nk * beta) := by positivity
  have e : T * (-occfac / (nk * beta)) = -(T * (occfac / (nk * beta))) := by ring
  rw [e]
  refine ⟨by have := mul_nonneg h0 hc; linarith, neg_le_neg ?_⟩
  refine le_trans (mul_le_mul_of_nonneg_right h1 hc) (le_of_eq ?_)
  rcases eq_or_ne (nk : ℝ) 0 with hz | hz
  · rw [hz]; simp
  · field_simp

/-- A spin-polarised system with two k-points of weights 1/2 and 3/2, three states and two
electrons satisfies the assumptions, for either smearing. -/
noncomputable def sample (type : ℕ) : Sys where
  beta := 10
  type := type
  nspin := 2
  nkSym := 2
  nk := 2
  ns := 3
  occfac := 1
  kptWts := fun k => if k = 0 then 1 / 2 else 3 / 2
  negCharge := -2

theorem sample_ok (type : ℕ) : Ok (sample type) where
  beta := by norm_num [sample]
  occfac := by norm_num [sample]
  nspin := by norm_num [sample]
  ns := by norm_num [sample]
  nk := by norm_num [sample]
  wnn := by intro k; simp only [sample]; split <;> norm_num
  wsum := by norm_num [sample, Finset.sum_range_succ]

example (type : ℕ) (lam : ℕ → ℕ → ℕ → ℝ) : ∃! z, electrons (sample type) lam z = 2 :=
  (fermi_level_exists_unique _ (sample_ok type) lam 2).mpr (by norm_num [capacity, sample])

/-- Four k-points over three groups, two states. -/
example (lambda : ℕ → ℕ → ℕ → ℝ) :
    collect 4 3 2 2 1 lambda 0 (fun _ => 0) ((1 * 4 + 3) * 2 + 1) = lambda 1 2 (0 * 2 + 1) :=
  collect_separate_spins 4 3 2 2 lambda 0 _ 1 2 0 1 (by norm_num) (by norm_num)
    (by decide) (by decide) (by norm_num)

end Sparc.Occ

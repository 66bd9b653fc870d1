import Verif.Occ.Model
import Verif.Tac
import Mathlib.Analysis.SpecialFunctions.BinaryEntropy

/-! Facts about the smearing function and closed forms of the loops. -/

namespace Sparc.Occ

open Real Filter Topology

theorem fd_lipschitz (a b : ℝ) : |1 / (1 + exp a) - 1 / (1 + exp b)| ≤ |a - b| := by
  wlog h : a ≤ b generalizing a b
  · rw [abs_sub_comm, abs_sub_comm a b]; exact this b a (le_of_not_ge h)
  have ha := exp_pos a
  have hb := exp_pos b
  have hle : exp a ≤ exp b := exp_le_exp.mpr h
  have e1 : 1 / (1 + exp a) - 1 / (1 + exp b) = (exp b - exp a) / ((1 + exp a) * (1 + exp b)) := by
    field_simp; ring
  rw [e1, abs_of_nonneg (div_nonneg (by linarith) (by positivity)), abs_of_nonpos (by linarith),
    div_le_iff₀ (by positivity)]
  have h1 : 1 - (b - a) ≤ exp (a - b) := by
    have := add_one_le_exp (a - b); linarith
  have h2 : exp a = exp b * exp (a - b) := by rw [← exp_add]; congr 1; ring
  have h3 : exp b - exp a ≤ exp b * (b - a) := by rw [h2]; nlinarith
  have h4 : 0 ≤ b - a := by linarith
  have h5 : exp b ≤ (1 + exp a) * (1 + exp b) := by nlinarith
  nlinarith [mul_le_mul_of_nonneg_left h5 h4]

theorem smearing_lipschitz (beta lam lf lf' : ℝ) (hb : 0 ≤ beta) (type : ℕ) :
    |smearing beta lam lf' type - smearing beta lam lf type| ≤ beta * |lf' - lf| := by
  have e : ∀ u v : ℝ, beta * (lam - u) - beta * (lam - v) = beta * (v - u) := by intros; ring
  unfold smearing
  split
  · have h := erf_lipschitz (beta * (lam - lf)) (beta * (lam - lf'))
    rw [e, abs_mul, abs_of_nonneg hb, abs_sub_comm lf lf'] at h
    have h2 : 1 / 2 * (1 - erf (beta * (lam - lf'))) - 1 / 2 * (1 - erf (beta * (lam - lf)))
        = -(1 / 2) * (erf (beta * (lam - lf')) - erf (beta * (lam - lf))) := by ring
    rw [h2, abs_mul]
    norm_num
    linarith
  · have h := fd_lipschitz (beta * (lam - lf')) (beta * (lam - lf))
    rwa [e, abs_mul, abs_of_nonneg hb, abs_sub_comm lf lf'] at h

/-- The smearing function is a strictly decreasing function of `beta * (λ - λf)`. -/
theorem smearing_arg (beta l f l' f' : ℝ) (type : ℕ) (h : beta * (l - f) < beta * (l' - f')) :
    smearing beta l' f' type < smearing beta l f type := by
  unfold smearing
  split
  · have := erf_strictMono h; linarith
  · have h1 := exp_lt_exp.mpr h
    have := exp_pos (beta * (l - f))
    exact one_div_lt_one_div_of_lt (by linarith) (by linarith)

theorem smearing_pos (beta l f : ℝ) (type : ℕ) : 0 < smearing beta l f type := by
  unfold smearing
  split
  · have := erf_lt_one (beta * (l - f)); linarith
  · have := exp_pos (beta * (l - f)); positivity

theorem smearing_lt_one (beta l f : ℝ) (type : ℕ) : smearing beta l f type < 1 := by
  unfold smearing
  split
  · have := neg_one_lt_erf (beta * (l - f)); linarith
  · have := exp_pos (beta * (l - f))
    rw [div_lt_one (by linarith)]; linarith

theorem arg_tendsto_bot (beta lam : ℝ) (hb : 0 < beta) :
    Tendsto (fun lf => beta * (lam - lf)) atTop atBot := by
  refine Tendsto.const_mul_atBot hb ?_
  exact tendsto_atBot_add_const_left _ lam tendsto_neg_atTop_atBot

theorem arg_tendsto_top (beta lam : ℝ) (hb : 0 < beta) :
    Tendsto (fun lf => beta * (lam - lf)) atBot atTop := by
  refine Tendsto.const_mul_atTop hb ?_
  exact tendsto_atTop_add_const_left _ lam tendsto_neg_atBot_atTop

theorem smearing_tendsto_top (beta lam : ℝ) (hb : 0 < beta) (type : ℕ) :
    Tendsto (fun lf => smearing beta lam lf type) atTop (𝓝 1) := by
  have h0 := arg_tendsto_bot beta lam hb
  unfold smearing
  split
  · have h := erf_tendsto_bot.comp h0
    have h2 := (h.const_sub 1).const_mul (1 / 2)
    norm_num at h2
    simpa [Function.comp_def] using h2
  · have h := tendsto_exp_atBot.comp h0
    have h2 := (h.const_add 1).inv₀ (by norm_num)
    norm_num at h2
    simpa [Function.comp_def] using h2

theorem smearing_tendsto_bot (beta lam : ℝ) (hb : 0 < beta) (type : ℕ) :
    Tendsto (fun lf => smearing beta lam lf type) atBot (𝓝 0) := by
  have h0 := arg_tendsto_top beta lam hb
  unfold smearing
  split
  · have h := erf_tendsto_top.comp h0
    have h2 := (h.const_sub 1).const_mul (1 / 2)
    norm_num at h2
    simpa [Function.comp_def] using h2
  · have h := tendsto_exp_atTop.comp h0
    have h2 := (tendsto_atTop_add_const_left atBot 1 h).inv_tendsto_atTop
    simpa [Function.comp_def, Pi.inv_def] using h2

theorem smearing_continuous (beta lam : ℝ) (hb : 0 ≤ beta) (type : ℕ) :
    Continuous fun lf => smearing beta lam lf type := by
  rw [Metric.continuous_iff]
  intro b ε hε
  refine ⟨ε / (beta + 1), by positivity, fun a ha => ?_⟩
  rw [Real.dist_eq] at ha ⊢
  have h := smearing_lipschitz beta lam b a hb type
  rw [lt_div_iff₀ (by positivity)] at ha
  have := abs_nonneg (a - b)
  nlinarith

/-! ### Loops -/

/-- A loop whose body adds `u c` and advances the counter. -/
theorem foldl_count (u : ℕ → ℝ) (m : ℕ) (st : ℝ × ℕ) :
    (List.range m).foldl (fun (p : ℝ × ℕ) _ => (p.1 + u p.2, p.2 + 1)) st
      = (st.1 + ∑ n ∈ Finset.range m, u (st.2 + n), st.2 + m) := by
  induction m with
  | zero => simp
  | succ m ih =>
    rw [List.range_succ, List.foldl_append, ih]
    simp only [List.foldl_cons, List.foldl_nil]
    rw [Finset.sum_range_succ, add_assoc, add_assoc]

theorem bandLoop_eq (S : Sys) (lam : ℕ → ℝ) (lf w : ℝ) (st : ℝ × ℕ) :
    bandLoop S lam lf w st = (st.1 + ∑ n ∈ Finset.range S.ns,
      w * smearing S.beta (lam (st.2 + n)) lf S.type, st.2 + S.ns) :=
  foldl_count (fun c => w * smearing S.beta (lam c) lf S.type) S.ns st

theorem kptLoop_eq (S : Sys) (lam : ℕ → ℝ) (lf : ℝ) (st : ℝ × ℕ) :
    kptLoop S lam lf st = (st.1 + ∑ k ∈ Finset.range S.nkSym, ∑ n ∈ Finset.range S.ns,
      S.occfac * S.kptWts k * smearing S.beta (lam (st.2 + k * S.ns + n)) lf S.type,
      st.2 + S.nkSym * S.ns) := by
  unfold kptLoop
  generalize S.nkSym = m
  induction m with
  | zero => simp
  | succ m ih =>
    rw [List.range_succ, List.foldl_append, ih]
    simp only [List.foldl_cons, List.foldl_nil]
    rw [bandLoop_eq, Finset.sum_range_succ]
    ext
    · dsimp only; ring
    · dsimp only; ring

theorem constraint_eq (S : Sys) (lam : ℕ → ℝ) (lf : ℝ) :
    constraint S lam lf = (∑ s ∈ Finset.range S.nspin, ∑ k ∈ Finset.range S.nkSym,
      ∑ n ∈ Finset.range S.ns, S.occfac * S.kptWts k *
        smearing S.beta (lam (s * (S.nkSym * S.ns) + k * S.ns + n)) lf S.type) * (1 / S.nk)
      + S.negCharge := by
  unfold constraint
  have : ∀ m : ℕ, (List.range m).foldl (fun (p : ℝ × ℕ) _ => kptLoop S lam lf p) ((0 : ℝ), 0)
      = (∑ s ∈ Finset.range m, ∑ k ∈ Finset.range S.nkSym,
      ∑ n ∈ Finset.range S.ns, S.occfac * S.kptWts k *
        smearing S.beta (lam (s * (S.nkSym * S.ns) + k * S.ns + n)) lf S.type, m * (S.nkSym * S.ns)) := by
    intro m
    induction m with
    | zero => simp
    | succ m ih =>
      rw [List.range_succ, List.foldl_append, ih]
      simp only [List.foldl_cons, List.foldl_nil]
      rw [kptLoop_eq, Finset.sum_range_succ]
      ext
      · rfl
      · dsimp only; ring
  rw [this]

theorem foldl_sum_if (m : ℕ) (u : ℕ → ℝ) (a : ℝ) :
    (List.range m).foldl (fun (acc : ℝ) n => acc + u n) a = a + ∑ n ∈ Finset.range m, u n := by
  induction m with
  | zero => simp
  | succ m ih =>
    rw [List.range_succ, List.foldl_append, ih]
    simp only [List.foldl_cons, List.foldl_nil]
    rw [Finset.sum_range_succ, add_assoc]

/-- Bounds per state of the entropy term. -/
theorem entropyTerm_bounds (ns : ℕ) (beta : ℝ) (type : ℕ) (lambda occ : ℕ → ℝ) (lf : ℝ)
    : 0 ≤ entropyTerm ns beta type lambda occ lf ∧
      entropyTerm ns beta type lambda occ lf ≤ ns * log 2 := by
  have hl2 : 0 ≤ log 2 := log_nonneg (by norm_num)
  match type with
  | 0 =>
    unfold entropyTerm
    simp only [if_true]
    induction ns with
    | zero => simp
    | succ n ih =>
      rw [List.range_succ, List.foldl_append]
      simp only [List.foldl_cons, List.foldl_nil]
      push_cast
      split
      · rename_i hc
        have ht : (0:ℝ) < tempTol := by unfold tempTol; positivity
        have e : -(occ n * log (occ n) + (1 - occ n) * log (1 - occ n)) = binEntropy (occ n) := by
          unfold binEntropy; rw [log_inv, log_inv]; ring
        rw [e]
        have h1 := binEntropy_nonneg (p := occ n) (by linarith [hc.1]) (by linarith [hc.2])
        have h2 := binEntropy_le_log_two (p := occ n)
        constructor <;> linarith [ih.1, ih.2]
      · constructor <;> linarith [ih.1, ih.2]
  | 1 =>
    unfold entropyTerm
    rw [if_neg one_ne_zero, if_pos rfl, foldl_sum_if]
    have hc : (1:ℝ) / 2 / √π ≤ log 2 := by
      have h1 : (1:ℝ) / 2 / √π ≤ 1 / 2 := by
        rw [div_le_iff₀ sqrt_pi_pos]
        have : 1 ≤ √π := by rw [Real.one_le_sqrt]; linarith [Real.two_le_pi]
        linarith
      have h2 : (1:ℝ) / 2 ≤ log 2 := by
        have := Real.one_sub_inv_le_log_of_pos (by norm_num : (0:ℝ) < 2)
        norm_num at this ⊢; linarith
      linarith
    have hp : (0:ℝ) < 1 / 2 / √π := div_pos (by norm_num) sqrt_pi_pos
    have hx : ∀ n, 0 ≤ 1 / 2 / √π * exp (-(beta * (lambda n - lf)) * (beta * (lambda n - lf))) ∧
        1 / 2 / √π * exp (-(beta * (lambda n - lf)) * (beta * (lambda n - lf))) ≤ log 2 := by
      intro n
      have h1 : exp (-(beta * (lambda n - lf)) * (beta * (lambda n - lf))) ≤ 1 := by
        rw [exp_le_one_iff]; nlinarith [mul_self_nonneg (beta * (lambda n - lf))]
      have h2 := exp_pos (-(beta * (lambda n - lf)) * (beta * (lambda n - lf)))
      exact ⟨by positivity, by nlinarith⟩
    constructor
    · have := Finset.sum_nonneg (s := Finset.range ns) (fun n _ => (hx n).1)
      linarith
    · have := Finset.sum_le_sum (s := Finset.range ns) (fun n _ => (hx n).2)
      rw [Finset.sum_const, Finset.card_range, nsmul_eq_mul] at this
      linarith
  | n + 2 =>
    unfold entropyTerm
    rw [if_neg (by omega), if_neg (by omega)]
    exact ⟨le_refl _, by positivity⟩

theorem entropyLocal_eq (nspin nkLoc ns nk : ℕ) (beta occfac : ℝ) (type : ℕ) (wts : ℕ → ℝ)
    (lambda occ : ℕ → ℝ) (lf : ℝ) :
    entropyLocal nspin nkLoc ns nk beta occfac type wts lambda occ lf =
      (∑ s ∈ Finset.range nspin, ∑ k ∈ Finset.range nkLoc,
        entropyTerm ns beta type (fun n => lambda (n + k * ns + s * nkLoc * ns))
        (fun n => occ (n + k * ns + s * nkLoc * ns)) lf * wts k) * (-occfac / (nk * beta)) := by
  unfold entropyLocal
  simp only [foldl_sum_if, zero_add]

/-! ### Gathering -/

theorem allgatherv_spec (np : ℕ) (count displ : ℕ → ℕ) (send : ℕ → ℕ → ℝ) (old : ℕ → ℝ)
    (hd : ∀ i, i + 1 < np → displ (i + 1) = displ i + count i) (i : ℕ) (hi : i < np) (j : ℕ)
    (hj : j < count i) : allgatherv np count displ send old (displ i + j) = send i j := by
  have mono : ∀ b, b < np → ∀ a, a < b → displ a + count a ≤ displ b := by
    intro b
    induction b with
    | zero => intro _ a ha; omega
    | succ b ih =>
      intro hb a ha
      rw [hd b hb]
      rcases Nat.lt_or_ge a b with h | h
      · have := ih (by omega) a h; omega
      · have : a = b := by omega
        subst this; omega
  unfold allgatherv
  have key : ∀ m, m ≤ np → ∀ acc : ℕ → ℝ,
      ((List.range m).foldl (fun (acc : ℕ → ℝ) i => fun x =>
        if displ i ≤ x ∧ x < displ i + count i then send i (x - displ i) else acc x) acc) (displ i + j)
      = if i < m then send i j else acc (displ i + j) := by
    intro m
    induction m with
    | zero => intro _ acc; simp
    | succ m ih =>
      intro hm acc
      rw [List.range_succ, List.foldl_append]
      simp only [List.foldl_cons, List.foldl_nil]
      rw [ih (by omega)]
      by_cases him : i = m
      · subst him
        rw [if_pos ⟨by omega, by omega⟩, if_pos (by omega)]
        congr 1; omega
      · have hno : ¬ (displ m ≤ displ i + j ∧ displ i + j < displ m + count m) := by
          rcases Nat.lt_or_ge i m with h | h
          · have := mono m (by omega) i h; omega
          · have := mono i hi m (by omega); omega
        rw [if_neg hno]
        by_cases h : i < m
        · rw [if_pos h, if_pos (by omega)]
        · rw [if_neg h, if_neg (by omega)]
  rw [key np le_rfl, if_pos hi]

theorem bridgeCount_eq (Nk np Ns i : ℕ) : bridgeCount Nk np Ns i = Groups.kptCount Nk np i * Ns := rfl

theorem bridgeDispl_eq (Nk np Ns i : ℕ) :
    bridgeDispl Nk np Ns i = Groups.kptStart Nk np i * Ns := by
  have hs : ∀ j, Groups.kptStart Nk np (j + 1) = Groups.kptStart Nk np j + Groups.kptCount Nk np j := by
    intro j
    unfold Groups.kptStart Groups.kptCount
    generalize Nk / np = a
    generalize Nk % np = b
    split_ifs <;> first | (exfalso; omega) | (ring_nf; try omega)
  induction i with
  | zero =>
    have : Groups.kptStart Nk np 0 = 0 := by
      unfold Groups.kptStart Groups.kptCount; simp
    rw [this]; simp [bridgeDispl]
  | succ i ih => rw [bridgeDispl, ih, hs, bridgeCount_eq]; ring

end Sparc.Occ

import Verif.Pred.Model
import Verif.Kern.Props

/-!
# Properties of the predictions of the machine-learned force field (C118)
-/

namespace Sparc.Pred
open Finset Sparc.Kern

variable {m : ℕ}

theorem count_below (r : ℕ) (a : ℕ) : ∀ n, ∑ i ∈ range n, (if i < r then a + 1 else a) = n * a + min n r := by
  intro n
  induction n with
  | zero => simp
  | succ n ih =>
    rw [sum_range_succ, ih]
    split
    · rw [Nat.succ_mul, min_eq_left (by omega), min_eq_left (by omega)]; omega
    · rw [Nat.succ_mul, min_eq_right (by omega), min_eq_right (by omega)]; omega

/-- The blocks of the processes follow one another and make up all atoms. -/
theorem blocks_all (N : ℕ) {P : ℕ} (hP : 0 < P) : (List.range P).flatMap (domain N P) = List.range N := by
  have h : ∀ n, (List.range n).flatMap (domain N P) = List.range (strt N P n) := by
    intro n
    induction n with
    | zero => rfl
    | succ n ih =>
      rw [List.range_succ, List.flatMap_append, ih]
      have : strt N P (n + 1) = strt N P n + procs N P n := sum_range_succ _ _
      rw [this, List.range_add]
      simp [domain]
  rw [h]
  congr 1
  unfold strt procs
  rw [count_below, min_eq_right (Nat.mod_lt _ hP).le]
  exact Nat.div_add_mod N P

/-- Loads of any two processes differ by one atom at most. -/
theorem blocks_even (N P p q : ℕ) : (domain N P p).length ≤ (domain N P q).length + 1 := by
  simp only [domain, List.length_map, List.length_range, procs]
  split <;> split <;> omega

theorem split_blocks {S : Sys m} (hP : 0 < S.nproc) (hd : S.dom = domain S.natom S.nproc) : Split S := by
  unfold Split
  rw [hd, blocks_all _ hP]

theorem displs_eq {S : Sys m} (hd : S.dom = domain S.natom S.nproc) (p : ℕ) :
    displs S p = 3 * strt S.natom S.nproc p := by
  induction p with
  | zero => rfl
  | succ p ih =>
    have : strt S.natom S.nproc (p + 1) = strt S.natom S.nproc p + procs S.natom S.nproc p := sum_range_succ _ _
    rw [displs, ih, this, hd]
    simp only [domain, List.length_map, List.length_range]
    ring

theorem strt_mono (N P : ℕ) {p q : ℕ} (h : p < q) : strt N P p + procs N P p ≤ strt N P q := by
  have : strt N P (p + 1) ≤ strt N P q := by
    unfold strt
    exact sum_le_sum_of_subset (range_mono h)
  have e : strt N P (p + 1) = strt N P p + procs N P p := sum_range_succ _ _
  omega

/-- Every component is received at the place of its atom. -/
theorem gathered_at (T : Par) {S : Sys m} (hd : S.dom = domain S.natom S.nproc) {p q c : ℕ} (hp : p < S.nproc)
    (hq : q < procs S.natom S.nproc p) (hc : c < 3) :
    gathered T S (3 * (strt S.natom S.nproc p + q) + c) = localF T S p (3 * q + c) := by
  have hl : ∀ p, (S.dom p).length = procs S.natom S.nproc p := fun p => by rw [hd]; simp [domain]
  unfold gathered
  rw [sum_eq_single p]
  · rw [displs_eq hd, hl, if_pos (by omega)]
    congr 1
    omega
  · intro p' _ hne
    rw [displs_eq hd, hl]
    refine if_neg fun h => ?_
    rcases Nat.lt_or_gt_of_ne hne with hlt | hgt
    · have := strt_mono S.natom S.nproc hlt
      omega
    · have := strt_mono S.natom S.nproc hgt
      omega
  · intro h; exact absurd (mem_range.2 hp) h

/-- The process and the place in its block of every atom. -/
theorem owner {S : Sys m} (hP : 0 < S.nproc) (hd : S.dom = domain S.natom S.nproc) {a : ℕ} (ha : a < S.natom) :
    ∃ p < S.nproc, ∃ q < procs S.natom S.nproc p, a = strt S.natom S.nproc p + q := by
  have : a ∈ (List.range S.nproc).flatMap (domain S.natom S.nproc) := by
    rw [blocks_all _ hP]; exact List.mem_range.2 ha
  obtain ⟨p, hp, h⟩ := List.mem_flatMap.1 this
  obtain ⟨q, hq, rfl⟩ := List.mem_map.1 h
  exact ⟨p, List.mem_range.1 hp, q, List.mem_range.1 hq, rfl⟩

/-- Total energy: spread of the energies times the weighted sum of the kernels of all atoms with all columns, plus the number of atoms
times the mean. -/
theorem energy_total (T : Par) {S : Sys m} (hP : 0 < S.nproc) (hN : 0 < S.natom) (hd : S.dom = domain S.natom S.nproc) (old : Out) :
    (onTheFly T S old).etot =
      T.sE * ∑ j ∈ range S.ncols, T.w j * ∑ i ∈ range S.natom, (if S.el i = S.typ j then
        ((∑ k, S.X i k * S.T j k) / (√(∑ k, S.X i k ^ 2) * √(∑ k, S.T j k ^ 2))) ^ S.xi else 0) +
      S.natom * T.muE := by
  have hs : Split (scaled T S) := split_blocks (S := scaled T S) hP hd
  have h1 : bPredict T S 0 0 = ∑ j ∈ range S.ncols, (∑ i ∈ range S.natom, S.kernel i j) / S.natom * T.w j := by
    unfold bPredict
    refine sum_congr rfl fun j hj => ?_
    rw [energy_row hs (j := j) (mem_range.1 hj)]
    rfl
  have hN' : (S.natom : ℝ) ≠ 0 := by positivity
  simp only [onTheFly, energy]
  rw [h1, add_mul, sum_mul, sum_mul, mul_sum, mul_comm T.muE]
  congr 1
  refine sum_congr rfl fun j _ => ?_
  simp only [← kernel_spec]
  field_simp

/-- The forces the program goes on with are minus the gradient of the energy it goes on with, for every atom and component, number of
processes and weights. -/
theorem forces_gradient (T : Par) {S : Sys m} (old : Out) (hP : 0 < S.nproc) (hd : S.dom = domain S.natom S.nproc)
    (hsF : T.sF ≠ 0) (hrF : T.relF ≠ 0) {a c : ℕ} (ha : a < S.natom) (hc : c < 3)
    (hpos : ∀ i < S.natom, ∀ j < S.ncols, S.el i = S.typ j → 0 < ∑ k, S.X i k * S.T j k)
    (x : ℝ → ℕ → Fin m → ℝ) (h0 : ∀ i, x 0 i = S.X i)
    (hx : ∀ i k, HasDerivAt (fun t => x t i k)
      ((if i = a then S.D i 0 c k else 0) +
        ∑ s ∈ range (S.nl i).length, if (S.nl i)[s]! = a then S.D i (1 + s) c k else 0) 0) :
    HasDerivAt (fun t => (onTheFly T { S with X := x t } old).etot) (-(onTheFly T S old).forces (3 * a + c)) 0 := by
  obtain ⟨p, hp, q, hq, rfl⟩ := owner hP hd ha
  have hs : Split (scaled T S) := split_blocks (S := scaled T S) hP hd
  have hq' : q < ((scaled T S).dom p).length := by
    show q < (S.dom p).length
    rw [hd]; simpa [domain] using hq
  have hdq : ((scaled T S).dom p)[q]! = strt S.natom S.nproc p + q := by
    rw [getElem!_pos _ q hq']
    have : ∀ (l : List ℕ) (h : q < l.length), l = domain S.natom S.nproc p → l[q] = strt S.natom S.nproc p + q := by
      rintro l h rfl
      simp [domain]
    exact this _ _ (by show S.dom p = _; rw [hd])
  have hrow : ∀ j ∈ range S.ncols, ∃ g, HasDerivAt (fun t => ∑ i ∈ range S.natom, if S.el i = S.typ j then
        ((∑ k, x t i k * S.T j k) / (√(∑ k, x t i k ^ 2) * √(∑ k, S.T j k ^ 2))) ^ S.xi else 0) g 0 ∧
      (scaled T S).predict p (if p = 0 then 1 + S.slen + (3 * q + c) else 3 * q + c) j = T.sE / T.sF * T.relF * g := by
    intro j hj
    refine force_row (S := scaled T S) hs hp hq' hc (mem_range.1 hj) (fun i hi => hpos i hi j (mem_range.1 hj)) x h0 ?_
    rw [hdq]
    exact hx
  choose! g hg using hrow
  have hN : 0 < S.natom := by omega
  have hE : ∀ t, (onTheFly T { S with X := x t } old).etot =
      T.sE * ∑ j ∈ range S.ncols, T.w j * ∑ i ∈ range S.natom, (if S.el i = S.typ j then
        ((∑ k, x t i k * S.T j k) / (√(∑ k, x t i k ^ 2) * √(∑ k, S.T j k ^ 2))) ^ S.xi else 0) +
      S.natom * T.muE := fun t => energy_total T (S := { S with X := x t }) hP hN hd old
  simp only [hE]
  have hder := ((HasDerivAt.fun_sum fun j hj => ((hg j hj).1.const_mul (T.w j))).const_mul T.sE).add_const (S.natom * T.muE)
  refine hder.congr_deriv ?_
  simp only [onTheFly]
  rw [gathered_at T hd hp hq hc]
  have hloc : localF T S p (3 * q + c) =
      bPredict T S p (if p = 0 then 1 + S.slen + (3 * q + c) else 3 * q + c) * T.sF * (1 / T.relF) := by
    unfold localF
    by_cases h : p = 0
    · rw [if_pos h, if_pos h, show 3 * q + c + 1 + S.slen = 1 + S.slen + (3 * q + c) by ring]
    · rw [if_neg h, if_neg h]
  rw [hloc]
  unfold bPredict
  rw [neg_one_mul, neg_neg, sum_mul, sum_mul, mul_sum]
  refine sum_congr rfl fun j hj => ?_
  rw [(hg j hj).2]
  field_simp

/-- In the on-the-fly mode the entries of the stress are the derivatives of the energy under strain over the volume, if the
stress is trained, and the pressure is minus the mean of the diagonal. -/
theorem stress_strain (T : Par) {S : Sys m} (old : Out) (hP : 0 < S.nproc) (hN : 0 < S.natom) (hd : S.dom = domain S.natom S.nproc)
    (hpress : S.press = false) (hlen : S.slen = 6) {s : ℕ} (hs6 : s < 6) (hsS : T.sS s ≠ 0) (hrS : T.relS s ≠ 0) (hvol : S.vol ≠ 0)
    (hpos : ∀ i < S.natom, ∀ j < S.ncols, S.el i = S.typ j → 0 < ∑ k, S.X i k * S.T j k)
    (hnl : ∀ i, ∀ b ∈ S.nl i, b < S.natom)
    (x : ℝ → ℕ → Fin m → ℝ) (h0 : ∀ i, x 0 i = S.X i) (hx : ∀ i k, HasDerivAt (fun t => x t i k) (S.DF i s k) 0) :
    HasDerivAt (fun t => (onTheFly T { S with X := x t } old).etot) (S.vol * (onTheFly T S old).stress s) 0 ∧
    (onTheFly T S old).pres =
      -((onTheFly T S old).stress 0 + (onTheFly T S old).stress 3 + (onTheFly T S old).stress 5) / 3 := by
  constructor
  swap
  · simp only [onTheFly, hpress, if_true]
    ring
  have hsp : Split (scaled T S) := split_blocks (S := scaled T S) hP hd
  have hrow : ∀ j ∈ range S.ncols, ∃ g, HasDerivAt (fun t => ∑ i ∈ range S.natom, if S.el i = S.typ j then
        ((∑ k, x t i k * S.T j k) / (√(∑ k, x t i k ^ 2) * √(∑ k, S.T j k ^ 2))) ^ S.xi else 0) g 0 ∧
      (scaled T S).predict 0 (1 + s) j = T.sE / T.sS s * T.relS s / S.vol * g := fun j hj =>
    stress_row (S := scaled T S) hsp hpress (show s < S.slen by omega) (mem_range.1 hj)
      (fun i hi => hpos i hi j (mem_range.1 hj)) hnl x h0 hx
  choose! g hg using hrow
  have hE : ∀ t, (onTheFly T { S with X := x t } old).etot =
      T.sE * ∑ j ∈ range S.ncols, T.w j * ∑ i ∈ range S.natom, (if S.el i = S.typ j then
        ((∑ k, x t i k * S.T j k) / (√(∑ k, x t i k ^ 2) * √(∑ k, S.T j k ^ 2))) ^ S.xi else 0) +
      S.natom * T.muE := fun t => energy_total T (S := { S with X := x t }) hP hN hd old
  simp only [hE]
  have hder := ((HasDerivAt.fun_sum fun j hj => ((hg j hj).1.const_mul (T.w j))).const_mul T.sE).add_const (S.natom * T.muE)
  refine hder.congr_deriv ?_
  simp only [onTheFly, hpress, if_true, hlen, if_pos hs6]
  unfold stress bPredict
  rw [sum_mul, sum_mul, mul_sum, mul_sum]
  refine sum_congr rfl fun j hj => ?_
  rw [(hg j hj).2]
  field_simp

/-- If the pressure is trained, it is minus a third of the derivatives under the diagonal strains over the volume. -/
theorem pressure_strain (T : Par) {S : Sys m} (old : Out) (hP : 0 < S.nproc) (hN : 0 < S.natom) (hd : S.dom = domain S.natom S.nproc)
    (hpress : S.press = true) (hlen : S.slen = 1) (hsS : T.sS 0 ≠ 0) (hrS : T.relS 0 ≠ 0) (hvol : S.vol ≠ 0)
    (hpos : ∀ i < S.natom, ∀ j < S.ncols, S.el i = S.typ j → 0 < ∑ k, S.X i k * S.T j k)
    (hnl : ∀ i, ∀ b ∈ S.nl i, b < S.natom)
    (x : Fin 3 → ℝ → ℕ → Fin m → ℝ) (h0 : ∀ d i, x d 0 i = S.X i)
    (hx : ∀ d i k, HasDerivAt (fun t => x d t i k) (S.DF i (![0, 3, 5] d) k) 0) :
    ∃ G : Fin 3 → ℝ, (∀ d, HasDerivAt (fun t => (onTheFly T { S with X := x d t } old).etot) (G d) 0) ∧
      (onTheFly T S old).pres = -(G 0 + G 1 + G 2) / (3 * S.vol) := by
  have hsp : Split (scaled T S) := split_blocks (S := scaled T S) hP hd
  have hrow : ∀ j ∈ range S.ncols, ∃ g : Fin 3 → ℝ, (∀ d, HasDerivAt (fun t => ∑ i ∈ range S.natom, if S.el i = S.typ j then
        ((∑ k, x d t i k * S.T j k) / (√(∑ k, x d t i k ^ 2) * √(∑ k, S.T j k ^ 2))) ^ S.xi else 0) (g d) 0) ∧
      (scaled T S).predict 0 1 j = -(T.sE / T.sS 0 * T.relS 0 / (3 * S.vol) * (g 0 + g 1 + g 2)) := fun j hj =>
    pressure_row (S := scaled T S) hsp hpress (show 1 ≤ S.slen by omega) (mem_range.1 hj)
      (fun i hi => hpos i hi j (mem_range.1 hj)) hnl x h0 hx
  choose! g hg using hrow
  have hE : ∀ d t, (onTheFly T { S with X := x d t } old).etot =
      T.sE * ∑ j ∈ range S.ncols, T.w j * ∑ i ∈ range S.natom, (if S.el i = S.typ j then
        ((∑ k, x d t i k * S.T j k) / (√(∑ k, x d t i k ^ 2) * √(∑ k, S.T j k ^ 2))) ^ S.xi else 0) +
      S.natom * T.muE := fun d t => energy_total T (S := { S with X := x d t }) hP hN hd old
  refine ⟨fun d => T.sE * ∑ j ∈ range S.ncols, T.w j * g j d, ?_, ?_⟩
  · intro d
    simp only [hE]
    exact ((HasDerivAt.fun_sum fun j hj => (((hg j hj).1 d).const_mul (T.w j))).const_mul T.sE).add_const (S.natom * T.muE)
  · simp only [onTheFly, hpress, if_false, Bool.true_eq_false]
    unfold stress bPredict
    simp only [add_zero]
    rw [← mul_add, ← mul_add, ← sum_add_distrib, ← sum_add_distrib, mul_sum, sum_mul, sum_mul, ← sum_neg_distrib, sum_div]
    refine sum_congr rfl fun j hj => ?_
    rw [(hg j hj).2]
    field_simp

/-- `MLFF_only_predict` hands on the same energy and forces. -/
theorem only_same (T : Par) (S : Sys m) (old : Out) : (onlyPredict T S old).etot = (onTheFly T S old).etot ∧
    ∀ n, (onlyPredict T S old).forces n = (onTheFly T S old).forces n := ⟨rfl, fun _ => rfl⟩

/-- But with the stress trained (the default) it sets the pressure to the first entry of the predicted stress, and leaves
the stress of the step before. -/
theorem only_pressure (T : Par) (S : Sys m) (old : Out) (hpress : S.press = false) (hlen : S.slen = 6) :
    (onlyPredict T S old).pres = (onTheFly T S old).stress 0 ∧ ∀ s, (onlyPredict T S old).stress s = old.stress s := by
  simp [onlyPredict, onTheFly, hpress, hlen]

/-- The entropy of an on-the-fly step without a model of the internal energy (the default) is never written. -/
theorem entropy_unset (T : Par) (S : Sys m) (old : Out) : (onTheFly T S old).entropy = none ↔ T.internal = none := by
  simp [onTheFly]

/-- One atom with one column and one process. -/
def exS : Sys 2 where
  natom := 1
  ncols := 1
  slen := 6
  nproc := 1
  dom := domain 1 1
  el _ := 0
  typ _ := 0
  X _ := ![1, 0]
  T _ := ![1, 1]
  xi := 2
  nl _ := []
  D _ _ _ := ![1, 0]
  DF _ s := if s = 0 then ![0, 1] else ![0, 0]
  Fs := 1
  Ss _ := 1
  vol := 1
  press := false

def exT : Par := ⟨fun _ => 1, 0, 1, 1, fun _ => 1, 1, fun _ => 1, none⟩

theorem exS_stress (s : ℕ) (hs : s < 6) : stress exT exS s = if s = 0 then 1 else 0 := by
  have hsp : Split (scaled exT exS) := split_blocks (S := scaled exT exS) Nat.one_pos rfl
  have hpos : ∀ i < 1, exS.el i = exS.typ 0 → 0 < ∑ k, exS.X i k * exS.T 0 k := by
    intro i _ _; simp [exS, Fin.sum_univ_two]
  obtain ⟨g, hg, he⟩ := stress_row (S := scaled exT exS) hsp rfl (show s < 6 from hs) (show 0 < 1 by omega) hpos
    (by intro i b hb; simp [scaled, exS] at hb)
    (fun t _ k => exS.X 0 k + t * exS.DF 0 s k) (by intro i; funext k; simp [scaled, exS])
    (by
      intro i k
      have := ((hasDerivAt_id (0 : ℝ)).mul_const (exS.DF 0 s k)).const_add (exS.X 0 k)
      refine this.congr_deriv ?_
      simp [scaled, exS])
  have hk := kernel_derivative (scaled exT exS) (i := 0) (j := 0) rfl (hpos 0 (by omega) rfl)
    (fun t k => exS.X 0 k + t * exS.DF 0 s k) (exS.DF 0 s) (by funext k; simp [scaled, exS])
    (by
      intro k
      have := ((hasDerivAt_id (0 : ℝ)).mul_const (exS.DF 0 s k)).const_add (exS.X 0 k)
      refine this.congr_deriv ?_
      simp)
  have hgk : g = (scaled exT exS).xi * (scaled exT exS).kernel 0 0 * dot ((scaled exT exS).z 0 0) (exS.DF 0 s) := by
    refine hg.unique ?_
    have e1 : (scaled exT exS).natom = 1 := rfl
    have e2 : ∀ i, (scaled exT exS).el i = (scaled exT exS).typ 0 := fun _ => rfl
    simp only [e1, sum_range_one, if_pos (e2 0)]
    exact hk
  have hker : (scaled exT exS).kernel 0 0 = 1 / 2 := by
    rw [kernel_spec, if_pos (show (scaled exT exS).el 0 = (scaled exT exS).typ 0 from rfl)]
    simp only [scaled, exS, Fin.sum_univ_two]
    norm_num [Real.rpow_two]
  have hval : stress exT exS s = g := by
    unfold stress bPredict
    have e1 : exS.ncols = 1 := rfl
    rw [e1, sum_range_one, he]
    simp [scaled, exT, exS]
  have hz : (scaled exT exS).z 0 0 1 = 1 := by
    unfold Sys.z
    rw [if_pos (show (scaled exT exS).el 0 = (scaled exT exS).typ 0 from rfl)]
    simp [scaled, exS, dot, Fin.sum_univ_two]
  have hxi : (scaled exT exS).xi = 2 := rfl
  rw [hval, hgk, hker, hxi]
  unfold dot
  rw [Fin.sum_univ_two, hz]
  by_cases h : s = 0
  · simp [exS, h]
  · simp [exS, h]

/-- So its pressure differs from that of the on-the-fly mode for the same prediction. -/
theorem only_pressure_differs : ∃ (T : Par) (S : Sys 2) (old : Out),
    (onTheFly T S old).pres = -1 / 3 ∧ (onlyPredict T S old).pres = 1 := by
  refine ⟨exT, exS, ⟨0, fun _ => 0, fun _ => 0, 0, none⟩, ?_, ?_⟩
  · have e : exS.press = false := rfl
    have e6 : exS.slen = 6 := rfl
    simp [onTheFly, e, e6, exS_stress]
  · have e : exS.press = false := rfl
    simp [onlyPredict, e, exS_stress]

example : 0 < exS.nproc ∧ exS.dom = domain exS.natom exS.nproc ∧ domain 7 3 1 = [3, 4] ∧ exT.sF ≠ 0 := by
  refine ⟨Nat.one_pos, rfl, rfl, one_ne_zero⟩

end Sparc.Pred

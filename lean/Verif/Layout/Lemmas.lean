import Verif.Tac
import Verif.Block.Props
import Verif.Groups.Props
import Verif.Grid.Props
import Verif.D2D.Props
import Verif.Layout.Model

/-!
# Conversions of data layouts (lemmas)
-/

namespace Sparc.Layout

open Loop

/-! ### Blocks of an array -/

theorem memcpyIn_block {α : Type} {m : ℕ → α} {nrow d s : ℕ} (h : d ≠ s) :
    ∃ m', memcpyIn m (d * nrow) (s * nrow) nrow = some m' ∧
      ∀ b i, i < nrow → m' (b * nrow + i) = if b = d then m (s * nrow + i) else m (b * nrow + i) := by
  unfold memcpyIn
  have hno : nrow = 0 ∨ s * nrow + nrow ≤ d * nrow ∨ d * nrow + nrow ≤ s * nrow := by
    rcases Nat.lt_or_gt_of_ne h with h' | h'
    · right; right
      have := Nat.mul_le_mul_right nrow (show d + 1 ≤ s by omega)
      rw [Nat.add_mul, Nat.one_mul] at this
      exact this
    · right; left
      have := Nat.mul_le_mul_right nrow (show s + 1 ≤ d by omega)
      rw [Nat.add_mul, Nat.one_mul] at this
      exact this
  rw [if_pos hno]
  refine ⟨_, rfl, ?_⟩
  intro b i hi
  by_cases hb : b = d
  · subst hb
    rw [if_pos ⟨by omega, by omega⟩, if_pos rfl, Nat.add_sub_cancel_left]
  · rw [if_neg hb, if_neg]
    rintro ⟨h1, h2⟩
    rcases Nat.lt_or_gt_of_ne hb with h' | h'
    · have := Nat.mul_le_mul_right nrow (show b + 1 ≤ d by omega)
      rw [Nat.add_mul, Nat.one_mul] at this
      omega
    · have := Nat.mul_le_mul_right nrow (show d + 1 ≤ b by omega)
      rw [Nat.add_mul, Nat.one_mul] at this
      omega

theorem memcpyFrom_block {α : Type} (m b : ℕ → α) (nrow d s : ℕ) (c i : ℕ) (hi : i < nrow) :
    memcpyFrom m (d * nrow) b (s * nrow) nrow (c * nrow + i) =
      if c = d then b (s * nrow + i) else m (c * nrow + i) := by
  unfold memcpyFrom
  by_cases hb : c = d
  · subst hb
    rw [if_pos ⟨by omega, by omega⟩, if_pos rfl, Nat.add_sub_cancel_left]
  · rw [if_neg hb, if_neg]
    rintro ⟨h1, h2⟩
    rcases Nat.lt_or_gt_of_ne hb with h' | h'
    · have := Nat.mul_le_mul_right nrow (show c + 1 ≤ d by omega)
      rw [Nat.add_mul, Nat.one_mul] at this
      omega
    · have := Nat.mul_le_mul_right nrow (show d + 1 ≤ c by omega)
      rw [Nat.add_mul, Nat.one_mul] at this
      omega

/-- A loop of block copies inside an array: `src b` is the block that ends up at `b` after `n` steps. -/
theorem foldlM_blocks {α : Type} (nrow : ℕ) (a : ℕ → α) (d s : ℕ → ℕ) (src : ℕ → ℕ → ℕ) (n : ℕ)
    (h0 : ∀ b, src 0 b = b) (hne : ∀ t < n, d t ≠ s t)
    (hs : ∀ t < n, ∀ b, src (t + 1) b = if b = d t then src t (s t) else src t b) :
    ∃ m, (List.range n).foldlM (fun m t => memcpyIn m (d t * nrow) (s t * nrow) nrow) a = some m ∧
      ∀ b i, i < nrow → m (b * nrow + i) = a (src n b * nrow + i) := by
  induction n with
  | zero =>
    refine ⟨a, rfl, ?_⟩
    intro b i _
    rw [h0]
  | succ n ih =>
    obtain ⟨m, hm, hv⟩ := ih (fun t ht => hne t (by omega)) (fun t ht => hs t (by omega))
    obtain ⟨m', hm', hv'⟩ := memcpyIn_block (m := m) (nrow := nrow) (hne n (by omega))
    refine ⟨m', ?_, ?_⟩
    · rw [List.range_succ, List.foldlM_append, hm]
      simp only [bind, Option.bind, List.foldlM_cons, List.foldlM_nil, pure]
      rw [hm']
    · intro b i hi
      rw [hv' b i hi, hs n (by omega), hv _ i hi, hv _ i hi]
      split_ifs <;> rfl

theorem foldl_blocks {α : Type} (nrow : ℕ) (m b : ℕ → α) (d : ℕ → ℕ) (n : ℕ)
    (hd : ∀ t < n, ∀ t' < n, d t = d t' → t = t') :
    (∀ t < n, ∀ i < nrow, ((List.range n).foldl (fun m t => memcpyFrom m (d t * nrow) b (t * nrow) nrow) m)
        (d t * nrow + i) = b (t * nrow + i)) ∧
    ∀ c, (∀ t < n, d t ≠ c) → ∀ i < nrow,
      ((List.range n).foldl (fun m t => memcpyFrom m (d t * nrow) b (t * nrow) nrow) m) (c * nrow + i) =
        m (c * nrow + i) := by
  induction n with
  | zero => exact ⟨fun t ht => absurd ht (by omega), fun c _ i _ => rfl⟩
  | succ n ih =>
    obtain ⟨h1, h2⟩ := ih fun t ht t' ht' => hd t (by omega) t' (by omega)
    rw [List.range_succ, List.foldl_append]
    simp only [List.foldl_cons, List.foldl_nil]
    constructor
    · intro t ht i hi
      rw [memcpyFrom_block _ _ _ _ _ _ _ hi]
      split_ifs with he
      · rw [hd t ht n (by omega) he]
      · have : t ≠ n := by rintro rfl; exact he rfl
        exact h1 t (by omega) i hi
    · intro c hc i hi
      rw [memcpyFrom_block _ _ _ _ _ _ _ hi, if_neg fun h => hc n (by omega) h.symm]
      exact h2 c (fun t ht => hc t (by omega)) i hi

/-! ### Cumulative tables -/

theorem cum_mono {c : ℕ → ℕ} {i j : ℕ} (h : i ≤ j) : cum c i ≤ cum c j := by
  induction j with
  | zero => rw [Nat.le_zero.1 h]
  | succ j ih =>
    rcases Nat.lt_or_ge i (j + 1) with h' | h'
    · have := ih (by omega)
      rw [cum]
      omega
    · rw [show i = j + 1 by omega]

theorem cum_inj {c : ℕ → ℕ} {i i' j j' : ℕ} (hj : j < c i) (hj' : j' < c i')
    (h : cum c i + j = cum c i' + j') : i = i' ∧ j = j' := by
  have hii : i = i' := by
    rcases Nat.lt_trichotomy i i' with h1 | h1 | h1
    · have := cum_mono (c := c) (show i + 1 ≤ i' from h1)
      rw [cum] at this
      omega
    · exact h1
    · have := cum_mono (c := c) (show i' + 1 ≤ i from h1)
      rw [cum] at this
      omega
  subst hii
  exact ⟨rfl, by omega⟩

theorem cum_lt {c : ℕ → ℕ} {i j n : ℕ} (hi : i < n) (hj : j < c i) : cum c i + j < cum c n := by
  have := cum_mono (c := c) (show i + 1 ≤ n from hi)
  rw [cum] at this
  omega

theorem cum_of_steps {c S : ℕ → ℕ} {k n : ℕ} (h0 : S 0 = 0) (h : ∀ i < n, c i = k * (S (i + 1) - S i) ∧
    S i ≤ S (i + 1)) : ∀ i ≤ n, cum c i = k * S i := by
  intro i
  induction i with
  | zero => intro _; rw [cum, h0]; simp
  | succ i ih =>
    intro hi
    obtain ⟨h1, h2⟩ := h i (by omega)
    rw [cum, ih (by omega), h1, ← Nat.mul_add, Nat.add_sub_cancel' h2]

/-! ### Exchange -/

theorem alltoallv_spec {α : Type} {P : ℕ} {scnt sdis rcnt : ℕ → ℕ → ℕ} (send recv : ℕ → ℕ → α)
    (h : ∀ p < P, ∀ i < P, scnt i p = rcnt p i) :
    ∃ out, alltoallv P scnt sdis rcnt (fun p => cum (rcnt p)) send recv = some out ∧
      (∀ p < P, ∀ i < P, ∀ j < rcnt p i, out p (cum (rcnt p) i + j) = send i (sdis i p + j)) ∧
      ∀ p < P, ∀ x, cum (rcnt p) P ≤ x → out p x = recv p x := by
  unfold alltoallv
  rw [if_pos h]
  refine ⟨_, rfl, ?_, ?_⟩
  · intro p _ i hi j hj
    refine fill_at (idx := fun t : ℕ × ℕ => cum (rcnt p) t.1 + t.2)
      (val := fun t => send t.1 (sdis t.1 p + t.2)) (t := (i, j)) ?_ ?_
    · rw [List.mem_flatMap]
      exact ⟨i, List.mem_range.2 hi, List.mem_map.2 ⟨j, List.mem_range.2 hj, rfl⟩⟩
    · rintro ⟨i', j'⟩ hs he
      rw [List.mem_flatMap] at hs
      obtain ⟨i'', -, hs⟩ := hs
      obtain ⟨j'', hj'', e⟩ := List.mem_map.1 hs
      cases e
      obtain ⟨rfl, rfl⟩ := cum_inj (List.mem_range.1 hj'') hj he
      rfl
  · intro p _ x hx
    refine fill_other ?_
    rintro ⟨i', j'⟩ hs he
    rw [List.mem_flatMap] at hs
    obtain ⟨i'', hi'', hs⟩ := hs
    obtain ⟨j'', hj'', e⟩ := List.mem_map.1 hs
    cases e
    have := cum_lt (c := rcnt p) (List.mem_range.1 hi'') (List.mem_range.1 hj'')
    dsimp only at he
    omega

/-- A loop of loops of assignments. -/
theorem foldl_fill {ι τ α V : Type} [DecidableEq α] (l : List ι) (f : ι → List τ) (idx : ι → τ → α)
    (val : ι → τ → V) (m : α → V) :
    l.foldl (fun m i => fill (f i) (idx i) (val i) m) m =
      fill (l.flatMap fun i => (f i).map fun t => (i, t)) (fun s => idx s.1 s.2) (fun s => val s.1 s.2) m := by
  induction l generalizing m with
  | nil => rfl
  | cons a l ih =>
    rw [List.foldl_cons, ih, List.flatMap_cons]
    conv_rhs => rw [fill, List.foldl_append]
    unfold fill
    rw [List.foldl_map]

theorem mem_copy {ncol nrow : ℕ} {t : ℕ × ℕ} :
    (t ∈ (List.range ncol).flatMap fun c => (List.range nrow).map fun r => (c, r)) ↔
      t.1 < ncol ∧ t.2 < nrow := by
  obtain ⟨c, r⟩ := t
  simp only [List.mem_flatMap, List.mem_range, List.mem_map, Prod.mk.injEq]
  constructor
  · rintro ⟨c', hc, r', hr, rfl, rfl⟩
    exact ⟨hc, hr⟩
  · rintro ⟨hc, hr⟩
    exact ⟨c, hc, r, hr, rfl, rfl⟩

/-- A sequence of matrix copies to places that do not clash. -/
theorem copies_spec {α : Type} {P ncol : ℕ} {nrow so d0 lds ldd : ℕ → ℕ} (src m : ℕ → α)
    (hinj : ∀ i < P, ∀ c < ncol, ∀ r < nrow i, ∀ i' < P, ∀ c' < ncol, ∀ r' < nrow i',
      d0 i + c * ldd i + r = d0 i' + c' * ldd i' + r' → i = i' ∧ c = c' ∧ r = r') :
    (∀ i < P, ∀ c < ncol, ∀ r < nrow i,
      ((List.range P).foldl (fun m i => copyMatBlk src (so i) (lds i) (nrow i) ncol m (d0 i) (ldd i)) m)
        (d0 i + c * ldd i + r) = src (so i + c * lds i + r)) ∧
    ∀ x, (∀ i < P, ∀ c < ncol, ∀ r < nrow i, d0 i + c * ldd i + r ≠ x) →
      ((List.range P).foldl (fun m i => copyMatBlk src (so i) (lds i) (nrow i) ncol m (d0 i) (ldd i)) m) x =
        m x := by
  unfold copyMatBlk
  rw [foldl_fill (List.range P) (fun i => (List.range ncol).flatMap fun c =>
    (List.range (nrow i)).map fun r => (c, r)) (fun i t => d0 i + t.1 * ldd i + t.2)
    (fun i t => src (so i + t.1 * lds i + t.2)) m]
  have hmem : ∀ s : ℕ × ℕ × ℕ, (s ∈ (List.range P).flatMap fun i => ((List.range ncol).flatMap fun c =>
      (List.range (nrow i)).map fun r => (c, r)).map fun t => (i, t)) ↔
      s.1 < P ∧ s.2.1 < ncol ∧ s.2.2 < nrow s.1 := by
    rintro ⟨i, c, r⟩
    rw [List.mem_flatMap]
    constructor
    · rintro ⟨i', hi', h⟩
      obtain ⟨t, ht, e⟩ := List.mem_map.1 h
      cases e
      exact ⟨List.mem_range.1 hi', mem_copy.1 ht⟩
    · rintro ⟨h1, h2⟩
      exact ⟨i, List.mem_range.2 h1, List.mem_map.2 ⟨(c, r), mem_copy.2 h2, rfl⟩⟩
  constructor
  · intro i hi c hc r hr
    refine fill_at (idx := fun s : ℕ × ℕ × ℕ => d0 s.1 + s.2.1 * ldd s.1 + s.2.2)
      (val := fun s => src (so s.1 + s.2.1 * lds s.1 + s.2.2)) (t := (i, c, r))
      ((hmem _).2 ⟨hi, hc, hr⟩) ?_
    rintro ⟨i', c', r'⟩ hs he
    obtain ⟨h1, h2, h3⟩ := (hmem _).1 hs
    obtain ⟨rfl, rfl, rfl⟩ := hinj _ h1 _ h2 _ h3 _ hi _ hc _ hr he
    rfl
  · intro x hx
    refine fill_other ?_
    rintro ⟨i', c', r'⟩ hs
    obtain ⟨h1, h2, h3⟩ := (hmem _).1 hs
    exact hx _ h1 _ h2 _ h3

/-! ### Tables of `init_DP_CheFSI` -/

theorem spos_eq (n p i : ℕ) : spos n p i = Block.blockNstart n p i := by
  unfold spos Block.blockNstart
  split_ifs <;> ring

theorem BD.ndDispls_succ (B : BD) (i : ℕ) :
    B.ndDispls (i + 1) = B.ndDispls i + Block.blockDecompose B.Nd B.P i := by
  unfold BD.ndDispls
  rw [spos_eq, spos_eq, Block.nstart_succ]

theorem BD.nd_eq (B : BD) (p : ℕ) : B.nd p = Block.blockDecompose B.Nd B.P p := by
  unfold BD.nd
  rw [B.ndDispls_succ]
  omega

theorem BD.ndDispls_zero (B : BD) : B.ndDispls 0 = 0 := by
  unfold BD.ndDispls
  rw [spos_eq]
  exact Block.nstart_zero _ _

theorem BD.nsDispls_zero {B : BD} (hP : 0 < B.P) : B.nsDispls 0 = 0 := by
  unfold BD.nsDispls
  rw [if_neg (by omega)]
  unfold Groups.bandStart
  simp

theorem band_last {Ns P : ℕ} (hNs : 0 < Ns) (hP : 0 < P) :
    Groups.bandStart Ns P (P - 1) + Groups.bandCount Ns P (P - 1) = Ns := by
  have hNB : 0 < Groups.bandNB Ns P := Nat.succ_pos _
  have hceil : Ns ≤ P * Groups.bandNB Ns P := by
    unfold Groups.bandNB
    have h := Nat.div_add_mod (Ns - 1) P
    have h' := Nat.mod_lt (Ns - 1) hP
    rw [Nat.mul_add, Nat.mul_one]
    generalize P * ((Ns - 1) / P) = X at *
    omega
  have h := Nat.div_add_mod Ns (Groups.bandNB Ns P)
  have h' := Nat.mod_lt Ns hNB
  have hq : Ns / Groups.bandNB Ns P ≤ P := Nat.div_le_of_le_mul (by rw [Nat.mul_comm]; exact hceil)
  unfold Groups.bandStart Groups.bandCount
  dsimp only
  generalize Groups.bandNB Ns P = NB at *
  generalize hqd : Ns / NB = q at *
  generalize Ns % NB = r at *
  rcases Nat.lt_trichotomy (P - 1) q with h1 | h1 | h1
  · have hqP : P = q := by omega
    rw [if_pos (by omega), if_pos h1]
    have : (P - 1) * NB + NB = P * NB := by
      conv_rhs => rw [show P = P - 1 + 1 by omega]
      ring
    rw [this]
    have h2 : NB * q = P * NB := by rw [hqP, Nat.mul_comm]
    omega
  · rw [if_pos (by omega), if_neg (by omega), if_pos h1, h1, Nat.mul_comm]
    exact h
  · rw [if_neg (by omega), if_neg (by omega), if_neg (by omega)]
    rfl

theorem band_succ {Ns P : ℕ} (i : ℕ) :
    Groups.bandStart Ns P (i + 1) = Groups.bandStart Ns P i + Groups.bandCount Ns P i := by
  have hNB : 0 < Groups.bandNB Ns P := Nat.succ_pos _
  have h := Nat.div_add_mod Ns (Groups.bandNB Ns P)
  unfold Groups.bandStart Groups.bandCount
  dsimp only
  generalize Groups.bandNB Ns P = NB at *
  generalize hqd : Ns / NB = q at *
  generalize Ns % NB = r at *
  rcases Nat.lt_trichotomy i q with h1 | h1 | h1
  · rw [if_pos (by omega), if_pos (by omega), if_pos h1]
    ring
  · rw [if_neg (by omega), if_pos (by omega), if_neg (by omega), if_pos h1, h1, Nat.mul_comm]
    exact h.symm
  · rw [if_neg (by omega), if_neg (by omega), if_neg (by omega), if_neg (by omega)]
    rfl

theorem BD.nsDispls_succ {B : BD} (hNs : 0 < B.Ns) (hP : 0 < B.P) {i : ℕ} (hi : i < B.P) :
    B.nsDispls (i + 1) = B.nsDispls i + B.ns i := by
  unfold BD.nsDispls BD.ns
  rw [if_neg (show i ≠ B.P by omega)]
  split_ifs with h
  · have := band_last hNs hP
    rw [show B.P - 1 = i by omega] at this
    exact this.symm
  · exact band_succ i

theorem BD.bpCnt_eq (B : BD) (p i : ℕ) : B.bpCnt p i = B.ns p * Block.blockDecompose B.Nd B.P i := by
  unfold BD.bpCnt
  split_ifs with h
  · subst h
    rw [B.ndDispls_succ, B.ndDispls_zero, Nat.zero_add]
  · rw [B.ndDispls_succ]
    congr 1
    omega

theorem BD.dpCnt_eq {B : BD} (hNs : 0 < B.Ns) (hP : 0 < B.P) (p : ℕ) {i : ℕ} (hi : i < B.P) :
    B.dpCnt p i = B.ns i * Block.blockDecompose B.Nd B.P p := by
  unfold BD.dpCnt
  rw [B.nd_eq, Nat.mul_comm (B.ns i)]
  split_ifs with h
  · subst h
    rw [BD.nsDispls_succ hNs hP hi, BD.nsDispls_zero hP, Nat.zero_add]
  · rw [BD.nsDispls_succ hNs hP hi]
    congr 1
    omega

theorem BD.cum_bp (B : BD) (p i : ℕ) : cum (B.bpCnt p) i = B.ns p * B.ndDispls i := by
  refine cum_of_steps (n := i) B.ndDispls_zero ?_ i le_rfl
  intro j _
  rw [B.bpCnt_eq, B.ndDispls_succ]
  refine ⟨?_, by omega⟩
  congr 1
  omega

theorem BD.cum_dp {B : BD} (hNs : 0 < B.Ns) (hP : 0 < B.P) (p : ℕ) {i : ℕ} (hi : i ≤ B.P) :
    cum (B.dpCnt p) i = B.nd p * B.nsDispls i := by
  refine cum_of_steps (n := B.P) (BD.nsDispls_zero hP) ?_ i hi
  intro j hj
  rw [BD.dpCnt_eq hNs hP p hj, BD.nsDispls_succ hNs hP hj, B.nd_eq]
  refine ⟨?_, by omega⟩
  rw [Nat.mul_comm]
  congr 1
  omega

theorem flat_lt {c n r w : ℕ} (hc : c < n) (hr : r < w) : c * w + r < n * w := by
  have := Nat.mul_le_mul_right w (show c + 1 ≤ n from hc)
  rw [Nat.add_mul, Nat.one_mul] at this
  omega

end Sparc.Layout

import Verif.Layout.Lemmas

/-!
# Conversions of data layouts (C14, C15, C50)
-/

namespace Sparc.Layout

open Loop

/-- The blocks along an axis cover it. -/
theorem block_cover (n : ℕ) {P : ℕ} (hP : 0 < P) :
    Groups.IsCover n P (Block.blockNstart n P) (Block.blockDecompose n P) := by
  refine Groups.cover_of_consecutive _ _ _ _ ?_ ?_ ?_ hP
  · intro _; exact Block.nstart_zero _ _
  · intro g _; exact Block.nstart_succ _ _ _
  · intro _
    rw [← Block.nstart_succ, show P - 1 + 1 = P by omega]
    exact Block.nstart_last _ _ hP

/-! ### Row2Col and Col2Row -/

/-- C15: `Row2Col` interleaves the columns of two matrices stored one after the other: column `j` of the
first goes to column `2j`, column `j` of the second to column `2j+1`; nothing behind them changes. -/
theorem row2col_spec {α : Type} (nrow ncol : ℕ) (hc : 0 < ncol) (a : ℕ → α) :
    ∃ out, row2col nrow ncol a = some out ∧
      (∀ j < ncol, ∀ i < nrow, out (2 * j * nrow + i) = a (j * nrow + i)) ∧
      (∀ j < ncol, ∀ i < nrow, out ((2 * j + 1) * nrow + i) = a ((ncol + j) * nrow + i)) ∧
      ∀ b, 2 * ncol ≤ b → ∀ i < nrow, out (b * nrow + i) = a (b * nrow + i) := by
  unfold row2col
  rw [if_neg (by omega)]
  set src : ℕ → ℕ → ℕ := fun t b => if b % 2 = 0 ∧ ncol - 1 - t < b / 2 ∧ b / 2 ≤ ncol - 1 then b / 2 else b
    with hsrc
  obtain ⟨m, hm, hv⟩ := foldlM_blocks nrow a (fun t => 2 * (ncol - 1 - t)) (fun t => ncol - 1 - t) src
    (ncol - 1) (by
      intro b
      simp only [hsrc]
      rw [if_neg (by omega)])
    (by intro t ht; omega)
    (by
      intro t ht b
      simp only [hsrc]
      by_cases hb : b = 2 * (ncol - 1 - t)
      · rw [if_pos hb, if_pos (by omega), if_neg (by omega)]
        omega
      · rw [if_neg hb]
        by_cases h2 : b % 2 = 0 ∧ ncol - 1 - t < b / 2 ∧ b / 2 ≤ ncol - 1
        · rw [if_pos h2, if_pos (by omega)]
        · rw [if_neg h2, if_neg (by omega)])
  dsimp only
  rw [hm]
  refine ⟨_, rfl, ?_⟩
  obtain ⟨h1, h2⟩ := foldl_blocks nrow m (fun x => a (nrow * ncol + x)) (fun t => 2 * t + 1) (ncol - 1)
    (by intro t _ t' _ h; omega)
  refine ⟨?_, ?_, ?_⟩
  · intro j hj i hi
    rw [h2 (2 * j) (by intro t _; omega) i hi, hv _ _ hi]
    congr 3
    simp only [hsrc]
    by_cases h0 : j = 0
    · subst h0
      rw [if_neg (by omega)]
    · rw [if_pos (by omega)]
      omega
  · intro j hj i hi
    by_cases hl : j < ncol - 1
    · rw [h1 j hl i hi]
      congr 1
      ring
    · rw [h2 (2 * j + 1) (by intro t _; omega) i hi, hv _ _ hi]
      congr 3
      simp only [hsrc]
      rw [if_neg (by omega)]
      omega
  · intro b hb i hi
    rw [h2 b (by intro t _; omega) i hi, hv _ _ hi]
    congr 3
    simp only [hsrc]
    rw [if_neg (by omega)]

/-- C15: `Col2Row` separates interleaved columns. -/
theorem col2row_spec {α : Type} (nrow ncol : ℕ) (hc : 0 < ncol) (a : ℕ → α) :
    ∃ out, col2row nrow ncol a = some out ∧
      (∀ j < ncol, ∀ i < nrow, out (j * nrow + i) = a (2 * j * nrow + i)) ∧
      (∀ j < ncol, ∀ i < nrow, out ((ncol + j) * nrow + i) = a ((2 * j + 1) * nrow + i)) ∧
      ∀ b, 2 * ncol ≤ b → ∀ i < nrow, out (b * nrow + i) = a (b * nrow + i) := by
  unfold col2row
  rw [if_neg (by omega)]
  -- block that is at `b` after `t` steps
  set src : ℕ → ℕ → ℕ := fun t b =>
    if b < ncol then (if 2 * b ≤ t ∧ 0 < b then 2 * b else b)
    else (if 2 * (b - ncol) + 1 ≤ t ∧ b < 2 * ncol then 2 * (b - ncol) + 1 else b) with hsrc
  have hd : ∀ i, i / 2 * nrow + i % 2 * (nrow * ncol) = (i / 2 + i % 2 * ncol) * nrow := by
    intro i; ring
  obtain ⟨m, hm, hv⟩ := foldlM_blocks nrow a (fun t => (t + 1) / 2 + (t + 1) % 2 * ncol) (fun t => t + 1) src
    (ncol - 1) (by
      intro b
      simp only [hsrc]
      split_ifs <;> omega)
    (by
      intro t ht
      rcases Nat.mod_two_eq_zero_or_one (t + 1) with h | h <;> rw [h] <;> omega)
    (by
      intro t ht b
      simp only [hsrc]
      rcases Nat.mod_two_eq_zero_or_one (t + 1) with h | h <;> rw [h] <;> simp only [Nat.zero_mul, Nat.one_mul] <;>
        split_ifs <;> omega)
  dsimp only
  simp only [hd]
  rw [hm]
  refine ⟨_, rfl, ?_⟩
  obtain ⟨h1, h2⟩ := foldl_blocks nrow m (fun x => a (nrow * ncol + x))
    (fun t => (t + ncol) / 2 + (t + ncol) % 2 * ncol) (ncol - 1) (by
      intro t ht t' ht' h
      rcases Nat.mod_two_eq_zero_or_one (t + ncol) with e | e <;>
        rcases Nat.mod_two_eq_zero_or_one (t' + ncol) with e' | e' <;> rw [e, e'] at h <;> omega)
  refine ⟨?_, ?_, ?_⟩
  · intro j hj i hi
    by_cases hl : 2 * j < ncol
    · rw [h2 j (by
        intro t ht h
        rcases Nat.mod_two_eq_zero_or_one (t + ncol) with e | e <;> rw [e] at h <;> omega) i hi, hv _ _ hi]
      congr 3
      simp only [hsrc]
      split_ifs <;> omega
    · have h := h1 (2 * j - ncol) (by omega) i hi
      rw [show (2 * j - ncol + ncol) / 2 + (2 * j - ncol + ncol) % 2 * ncol = j by
        rw [show 2 * j - ncol + ncol = 2 * j by omega, show 2 * j % 2 = 0 by omega]
        omega] at h
      rw [h]
      congr 1
      rw [show 2 * j = ncol + (2 * j - ncol) by omega]
      generalize 2 * j - ncol = s
      rw [show ncol + s - ncol = s by omega]
      ring
  · intro j hj i hi
    by_cases hl : 2 * j + 1 < ncol
    · rw [h2 (ncol + j) (by
        intro t ht h
        rcases Nat.mod_two_eq_zero_or_one (t + ncol) with e | e <;> rw [e] at h <;> omega) i hi, hv _ _ hi]
      congr 3
      simp only [hsrc]
      split_ifs <;> omega
    · by_cases hl2 : j = ncol - 1
      · rw [h2 (ncol + j) (by
          intro t ht h
          rcases Nat.mod_two_eq_zero_or_one (t + ncol) with e | e <;> rw [e] at h <;> omega) i hi, hv _ _ hi]
        congr 3
        simp only [hsrc]
        split_ifs <;> omega
      have h := h1 (2 * j + 1 - ncol) (by omega) i hi
      rw [show (2 * j + 1 - ncol + ncol) / 2 + (2 * j + 1 - ncol + ncol) % 2 * ncol = ncol + j by
        rw [show 2 * j + 1 - ncol + ncol = 2 * j + 1 by omega, show (2 * j + 1) % 2 = 1 by omega]
        omega] at h
      rw [h]
      congr 1
      rw [show 2 * j + 1 = ncol + (2 * j + 1 - ncol) by omega]
      generalize 2 * j + 1 - ncol = s
      rw [show ncol + s - ncol = s by omega]
      ring
  · intro b hb i hi
    rw [h2 b (by
        intro t ht h
        rcases Nat.mod_two_eq_zero_or_one (t + ncol) with e | e <;> rw [e] at h <;> omega) i hi, hv _ _ hi]
    congr 3
    simp only [hsrc]
    split_ifs <;> omega

/-- C15: the two conversions undo each other, in both orders, on the whole array. -/
theorem row_col_inverse {α : Type} (nrow ncol : ℕ) (hr : 0 < nrow) (hc : 0 < ncol) (a : ℕ → α) :
    (row2col nrow ncol a >>= col2row nrow ncol) = some a ∧
    (col2row nrow ncol a >>= row2col nrow ncol) = some a := by
  have split : ∀ x, ∃ b i, i < nrow ∧ x = b * nrow + i := fun x =>
    ⟨x / nrow, x % nrow, Nat.mod_lt _ hr, by rw [Nat.mul_comm]; exact (Nat.div_add_mod x nrow).symm⟩
  constructor
  · obtain ⟨m, hm, m1, m2, m3⟩ := row2col_spec nrow ncol hc a
    obtain ⟨out, ho, o1, o2, o3⟩ := col2row_spec nrow ncol hc m
    rw [hm]
    simp only [bind, Option.bind]
    rw [ho]
    congr 1
    funext x
    obtain ⟨b, i, hi, rfl⟩ := split x
    by_cases h1 : b < ncol
    · rw [o1 b h1 i hi, m1 b h1 i hi]
    by_cases h2 : b < 2 * ncol
    · obtain ⟨j, rfl⟩ : ∃ j, b = ncol + j := ⟨b - ncol, by omega⟩
      rw [o2 j (by omega) i hi, m2 j (by omega) i hi]
    · rw [o3 b (by omega) i hi, m3 b (by omega) i hi]
  · obtain ⟨m, hm, m1, m2, m3⟩ := col2row_spec nrow ncol hc a
    obtain ⟨out, ho, o1, o2, o3⟩ := row2col_spec nrow ncol hc m
    rw [hm]
    simp only [bind, Option.bind]
    rw [ho]
    congr 1
    funext x
    obtain ⟨b, i, hi, rfl⟩ := split x
    by_cases h2 : b < 2 * ncol
    · rcases Nat.mod_two_eq_zero_or_one b with e | e
      · obtain ⟨j, rfl⟩ : ∃ j, b = 2 * j := ⟨b / 2, by omega⟩
        rw [o1 j (by omega) i hi, m1 j (by omega) i hi]
      · obtain ⟨j, rfl⟩ : ∃ j, b = 2 * j + 1 := ⟨b / 2, by omega⟩
        rw [o2 j (by omega) i hi, m2 j (by omega) i hi]
    · rw [o3 b (by omega) i hi, m3 b (by omega) i hi]

example : (row2col 2 3 (fun x => x)).map (fun m => (List.range 12).map m) =
    some [0, 1, 6, 7, 2, 3, 8, 9, 4, 5, 10, 11] := by decide +kernel

/-! ### Band parallelisation and domain parallelisation -/

/-- C14: `BP2DP`.  Process `q` holds the bands of its group as columns with leading dimension `lds`;
afterwards process `p` holds all bands, as columns of the rows of its part, in order of bands.  The counts of
the exchange match and no other element of the target changes. -/
theorem bp2dp_spec {α : Type} (B : BD) (hP : 0 < B.P) (hNs : 0 < B.Ns) (Y : ℕ → ℕ → α)
    (bp pack dp : ℕ → ℕ → α)
    (hbp : ∀ q < B.P, ∀ c < Groups.bandCount B.Ns B.P q, ∀ r < B.Nd,
      bp q (r + c * B.lds) = Y r (Groups.bandStart B.Ns B.P q + c)) :
    ∃ out, bp2dp B bp pack dp = some out ∧
      ∀ p < B.P,
        (∀ r < Block.blockDecompose B.Nd B.P p, ∀ b < B.Ns,
          out p (r + b * Block.blockDecompose B.Nd B.P p) = Y (Block.blockNstart B.Nd B.P p + r) b) ∧
        ∀ x, B.Ns * Block.blockDecompose B.Nd B.P p ≤ x → out p x = dp p x := by
  unfold bp2dp
  dsimp only
  obtain ⟨out, ho, h1, h2⟩ := alltoallv_spec (P := B.P) (scnt := B.bpCnt) (rcnt := B.dpCnt)
    (sdis := fun p => cum (B.bpCnt p)) (fun p => (List.range B.P).foldl (fun m i =>
      copyMatBlk (bp p) (B.ndDispls i) B.lds (B.ndDispls (i + 1) - B.ndDispls i) (B.ns p) m
        (cum (B.bpCnt p) i) (B.ndDispls (i + 1) - B.ndDispls i)) (pack p)) dp
    (by
      intro p hp i hi
      rw [B.bpCnt_eq, BD.dpCnt_eq hNs hP p hi])
  refine ⟨out, ho, ?_⟩
  intro p hp
  constructor
  · intro r hr b hb
    obtain ⟨q, ⟨hq, hq1, hq2⟩, -⟩ := (Groups.band_cover B.Ns B.P hNs hP).owner b hb
    obtain ⟨c, rfl⟩ : ∃ c, b = Groups.bandStart B.Ns B.P q + c := ⟨b - Groups.bandStart B.Ns B.P q, by omega⟩
    have hc : c < B.ns q := by unfold BD.ns; omega
    have e := h1 p hp q hq (c * B.nd p + r) (by
      rw [BD.dpCnt_eq hNs hP p hq, ← B.nd_eq]
      exact flat_lt hc (by rw [B.nd_eq]; exact hr))
    rw [BD.cum_dp hNs hP p (by omega)] at e
    have hsd : B.nsDispls q = Groups.bandStart B.Ns B.P q := by
      unfold BD.nsDispls; rw [if_neg (by omega)]
    rw [hsd] at e
    have hx : r + (Groups.bandStart B.Ns B.P q + c) * Block.blockDecompose B.Nd B.P p =
        B.nd p * Groups.bandStart B.Ns B.P q + (c * B.nd p + r) := by
      rw [B.nd_eq]; ring
    rw [hx, e]
    have hw : ∀ i, B.ndDispls (i + 1) - B.ndDispls i = Block.blockDecompose B.Nd B.P i := by
      intro i; rw [B.ndDispls_succ]; omega
    have hcp := (copies_spec (P := B.P) (ncol := B.ns q)
      (nrow := fun i => B.ndDispls (i + 1) - B.ndDispls i)
      (so := B.ndDispls) (d0 := fun i => cum (B.bpCnt q) i) (lds := fun _ => B.lds)
      (ldd := fun i => B.ndDispls (i + 1) - B.ndDispls i) (bp q) (pack q) (by
        intro i _ c hc r hr i' _ c' hc' r' hr' he
        rw [hw] at hr hr' 
        rw [hw, hw, Nat.add_assoc, Nat.add_assoc] at he
        obtain ⟨rfl, he⟩ := cum_inj (by rw [B.bpCnt_eq]; exact flat_lt hc hr)
          (by rw [B.bpCnt_eq]; exact flat_lt hc' hr') he
        rw [Nat.add_comm _ r, Nat.add_comm _ r'] at he
        obtain ⟨rfl, rfl⟩ := flat_inj hr hr' he
        exact ⟨rfl, rfl, rfl⟩)).1 p hp c hc r (by rw [hw]; exact hr)
    rw [hw, Nat.add_assoc] at hcp
    simp only [hw] at hcp ⊢
    rw [B.nd_eq, hcp]
    have hrow : B.ndDispls p + r < B.Nd := by
      have := D2D.block_end_le (n := B.Nd) hp
      unfold BD.ndDispls
      rw [spos_eq]
      omega
    have := hbp q hq c hc _ hrow
    rw [← (show B.ndDispls p = Block.blockNstart B.Nd B.P p from spos_eq ..), ← this]
    congr 1
    ring
  · intro x hx
    refine h2 p hp x ?_
    rw [BD.cum_dp hNs hP p le_rfl, B.nd_eq]
    unfold BD.nsDispls
    rw [if_pos rfl, Nat.mul_comm]
    exact hx

/-- C14: `DP2BP`. -/
theorem dp2bp_spec {α : Type} (B : BD) (hP : 0 < B.P) (hNs : 0 < B.Ns) (hl : B.Nd ≤ B.lds) (Y : ℕ → ℕ → α)
    (dp pack bp : ℕ → ℕ → α)
    (hdp : ∀ p < B.P, ∀ r < Block.blockDecompose B.Nd B.P p, ∀ b < B.Ns,
      dp p (r + b * Block.blockDecompose B.Nd B.P p) = Y (Block.blockNstart B.Nd B.P p + r) b) :
    ∃ out, dp2bp B dp pack bp = some out ∧
      ∀ q < B.P,
        (∀ c < Groups.bandCount B.Ns B.P q, ∀ r < B.Nd,
          out q (r + c * B.lds) = Y r (Groups.bandStart B.Ns B.P q + c)) ∧
        ∀ x, (∀ c < Groups.bandCount B.Ns B.P q, ∀ r < B.Nd, r + c * B.lds ≠ x) → out q x = bp q x := by
  unfold dp2bp
  have hnd : ∀ i, B.ndDispls i = Block.blockNstart B.Nd B.P i := fun i => spos_eq ..
  have hw : ∀ i, B.ndDispls (i + 1) - B.ndDispls i = Block.blockDecompose B.Nd B.P i := by
    intro i; rw [B.ndDispls_succ]; omega
  obtain ⟨buf, hb, h1, -⟩ := alltoallv_spec (P := B.P) (scnt := B.dpCnt) (rcnt := B.bpCnt)
    (sdis := fun p => cum (B.dpCnt p)) dp pack (by
      intro p hp i hi
      rw [B.bpCnt_eq, BD.dpCnt_eq hNs hP i hp])
  rw [hb]
  refine ⟨_, rfl, ?_⟩
  intro q hq
  have hcp := copies_spec (P := B.P) (ncol := B.ns q)
      (nrow := fun i => B.ndDispls (i + 1) - B.ndDispls i)
      (d0 := B.ndDispls) (so := fun i => cum (B.bpCnt q) i) (ldd := fun _ => B.lds)
      (lds := fun i => B.ndDispls (i + 1) - B.ndDispls i) (buf q) (bp q) (by
        intro i hi c hc r hr i' hi' c' hc' r' hr' he
        rw [hw] at hr hr'
        have e1 := D2D.block_end_le (n := B.Nd) hi
        have e2 := D2D.block_end_le (n := B.Nd) hi'
        rw [← hnd] at e1 e2
        have he : (B.ndDispls i + r) + c * B.lds = (B.ndDispls i' + r') + c' * B.lds := by omega
        obtain ⟨h3, rfl⟩ := flat_inj (by omega) (by omega) he
        have : i = i' := Block.owner_unique B.Nd B.P (B.ndDispls i + r) i i'
          (by rw [← hnd]; omega) (by rw [← hnd]; omega)
        subst this
        exact ⟨rfl, rfl, by omega⟩)
  dsimp only at hcp ⊢
  constructor
  · intro c hc r hr
    obtain ⟨p, hp, hp1, hp2⟩ : ∃ p, p < B.P ∧ Block.blockNstart B.Nd B.P p ≤ r ∧
        r < Block.blockNstart B.Nd B.P p + Block.blockDecompose B.Nd B.P p := by
      obtain ⟨p, ⟨hp, h⟩, -⟩ := (block_cover B.Nd hP).owner r hr
      exact ⟨p, hp, h⟩
    have e := hcp.1 p hp c hc (r - B.ndDispls p) (by rw [hw, hnd]; omega)
    rw [show B.ndDispls p + c * B.lds + (r - B.ndDispls p) = r + c * B.lds by rw [hnd]; omega] at e
    rw [e, hw, Nat.add_assoc, h1 q hq p hp _ (by
      rw [B.bpCnt_eq]
      exact flat_lt hc (by rw [hnd]; omega)), BD.cum_dp hNs hP p (by omega)]
    have hsd : B.nsDispls q = Groups.bandStart B.Ns B.P q := by
      unfold BD.nsDispls; rw [if_neg (by omega)]
    rw [hsd, B.nd_eq, hnd]
    have := hdp p hp (r - Block.blockNstart B.Nd B.P p) (by omega) (Groups.bandStart B.Ns B.P q + c)
      ((Groups.band_cover B.Ns B.P hNs hP).inside q _ hq (by omega) (by omega))
    rw [show Block.blockNstart B.Nd B.P p + (r - Block.blockNstart B.Nd B.P p) = r by omega] at this
    rw [← this]
    congr 1
    ring
  · intro x hx
    refine hcp.2 x ?_
    intro i hi c hc r hr he
    rw [hw] at hr
    have e1 := D2D.block_end_le (n := B.Nd) hi
    rw [← hnd] at e1
    exact hx c hc (B.ndDispls i + r) (by omega) (by omega)

/-- C14: there and back again restores the orbitals of every process, for any target array and buffers. -/
theorem bp_roundtrip {α : Type} (B : BD) (hP : 0 < B.P) (hNs : 0 < B.Ns) (hl : B.Nd ≤ B.lds)
    (bp pack dp pack' bp' : ℕ → ℕ → α) :
    ∃ mid out, bp2dp B bp pack dp = some mid ∧ dp2bp B mid pack' bp' = some out ∧
      ∀ q < B.P, ∀ c < Groups.bandCount B.Ns B.P q, ∀ r < B.Nd,
        out q (r + c * B.lds) = bp q (r + c * B.lds) := by
  classical
  have hcov := Groups.band_cover B.Ns B.P hNs hP
  set Y : ℕ → ℕ → α := fun r b =>
    if h : ∃ q, q < B.P ∧ Groups.bandStart B.Ns B.P q ≤ b ∧
        b < Groups.bandStart B.Ns B.P q + Groups.bandCount B.Ns B.P q
    then bp h.choose (r + (b - Groups.bandStart B.Ns B.P h.choose) * B.lds) else bp 0 0 with hY
  have hval : ∀ q < B.P, ∀ c < Groups.bandCount B.Ns B.P q, ∀ r < B.Nd,
      bp q (r + c * B.lds) = Y r (Groups.bandStart B.Ns B.P q + c) := by
    intro q hq c hc r _
    have h : ∃ q', q' < B.P ∧ Groups.bandStart B.Ns B.P q' ≤ Groups.bandStart B.Ns B.P q + c ∧
        Groups.bandStart B.Ns B.P q + c < Groups.bandStart B.Ns B.P q' + Groups.bandCount B.Ns B.P q' :=
      ⟨q, hq, by omega, by omega⟩
    simp only [hY]
    rw [dif_pos h]
    have hu := (hcov.owner _ (hcov.inside q _ hq (Nat.le_add_right _ c) (by omega))).unique
      h.choose_spec ⟨hq, by omega, by omega⟩
    rw [hu, Nat.add_sub_cancel_left]
  obtain ⟨mid, hm, h1⟩ := bp2dp_spec B hP hNs Y bp pack dp hval
  obtain ⟨out, ho, h2⟩ := dp2bp_spec B hP hNs hl Y mid pack' bp' fun p hp => (h1 p hp).1
  refine ⟨mid, out, hm, ho, ?_⟩
  intro q hq c hc r hr
  rw [(h2 q hq).1 c hc r hr, hval q hq c hc r hr]

/-- Three processes, five bands (2, 2 and 1 of them), four rows (2, 1 and 1) stored with leading
dimension six. -/
example : ((bp2dp ⟨3, 4, 6, 5⟩ (fun q x => 100 * (x % 6) + (2 * q + x / 6)) (fun _ _ => 7)
    (fun _ _ => 9)).map fun m => (List.range 3).map fun p => (List.range 11).map (m p)) =
    some [[0, 100, 1, 101, 2, 102, 3, 103, 4, 104, 9], [200, 201, 202, 203, 204, 9, 9, 9, 9, 9, 9],
      [300, 301, 302, 303, 304, 9, 9, 9, 9, 9, 9]] := by decide +kernel

/-! ### Block order and Cartesian order -/

/-- The point belongs to the block. -/
def Vert.In (v : Vert) (x y z : ℕ) : Prop :=
  (v.x ≤ x ∧ x < v.x + v.nx) ∧ (v.y ≤ y ∧ y < v.y + v.ny) ∧ v.z ≤ z ∧ z < v.z + v.nz

/-- Position of the point within the block, x fastest. -/
def Vert.pos (v : Vert) (x y z : ℕ) : ℕ := (x - v.x) + v.nx * ((y - v.y) + v.ny * (z - v.z))

/-- The blocks tile the grid. -/
structure Tiles (V : ℕ → Vert) (P Nx Ny Nz : ℕ) : Prop where
  fits : ∀ t < P, ∀ x y z, (V t).In x y z → x < Nx ∧ y < Ny ∧ z < Nz
  disj : ∀ t < P, ∀ t' < P, ∀ x y z, (V t).In x y z → (V t').In x y z → t = t'
  cover : ∀ x < Nx, ∀ y < Ny, ∀ z < Nz, ∃ t < P, (V t).In x y z

theorem Vert.pos_lt {v : Vert} {x y z : ℕ} (h : v.In x y z) : v.pos x y z < v.seg := by
  obtain ⟨h1, h2, h3⟩ := h
  have := flat3_lt (nx := v.nx) (ny := v.ny) (nz := v.nz) (i := x - v.x) (j := y - v.y) (k := z - v.z)
    (by omega) (by omega) (by omega)
  unfold Vert.pos Vert.seg
  calc _ = (x - v.x) + (y - v.y) * v.nx + (z - v.z) * (v.nx * v.ny) := by ring
    _ < _ := this

theorem cum_eq_sum (c : ℕ → ℕ) (n : ℕ) : cum c n = ((List.range n).map c).sum := by
  induction n with
  | zero => rfl
  | succ n ih => rw [cum, ih, List.range_succ, List.map_append, List.sum_append]; simp

/-- C15: `cart_to_block_dp` puts column `l` of block `t`, behind the columns of the blocks before it, in the
order of the points of the block; nothing behind the last block is written. -/
theorem cart_to_block_spec {α : Type} (cart bdp : ℕ → α) (ncol : ℕ) (V : ℕ → Vert) (P Nx Ny Nd : ℕ) :
    (∀ t < P, ∀ l < ncol, ∀ x y z, (V t).In x y z →
      cartToBlock cart ncol V P Nx Ny Nd bdp
          (cum (fun t => ncol * (V t).seg) t + l * (V t).seg + (V t).pos x y z) =
        cart (x + Nx * (y + Ny * z) + l * Nd)) ∧
    ∀ a, cum (fun t => ncol * (V t).seg) P ≤ a → cartToBlock cart ncol V P Nx Ny Nd bdp a = bdp a := by
  unfold cartToBlock
  by_cases h0 : ncol = 0
  · subst h0
    refine ⟨fun t _ l hl => absurd hl (by omega), fun a _ => ?_⟩
    rw [if_pos rfl]
  rw [if_neg h0]
  set g : ℕ → List α := fun t => (List.range ncol).flatMap fun l =>
        (box (V t).nx (V t).ny (V t).nz).map fun c =>
          cart (((V t).x + c.1) + ((V t).y + c.2.1) * Nx + ((V t).z + c.2.2) * Nx * Ny + l * Nd) with hg
  have hlen : ∀ t, (g t).length = ncol * (V t).seg := by
    intro t
    simp only [hg, List.length_flatMap, List.length_map, length_box, Vert.seg]
    simp
  constructor
  · intro t ht l hl x y z hin
    have hp := Vert.pos_lt hin
    obtain ⟨h1, h2, h3⟩ := hin
    have hq : l * (V t).seg + (V t).pos x y z < (g t).length := by
      rw [hlen]; exact flat_lt hl hp
    have e := D2D.flatMap_get g ht hq
    have hsum : ((List.range t).map fun t => (g t).length).sum = cum (fun t => ncol * (V t).seg) t := by
      rw [cum_eq_sum]
      simp only [hlen]
    rw [hsum, ← Nat.add_assoc] at e
    rw [← Nat.zero_add (cum _ t + _ + _)]
    refine Grid.writeSeq_in ?_
    rw [e]
    simp only [hg]
    rw [Nat.add_comm, getElem?_flatMap_range _ (V t).seg ncol (fun k => by
      rw [List.length_map, length_box]; rfl) hp hl, List.getElem?_map]
    have hbox := getElem?_box (nx := (V t).nx) (ny := (V t).ny) (nz := (V t).nz)
      (i := x - (V t).x) (j := y - (V t).y) (k := z - (V t).z) (by omega) (by omega) (by omega)
    rw [show (V t).pos x y z =
      (x - (V t).x) + (y - (V t).y) * (V t).nx + (z - (V t).z) * ((V t).nx * (V t).ny) by
        unfold Vert.pos; ring, hbox, Option.map_some]
    congr 2
    dsimp only
    rw [show (V t).x + (x - (V t).x) = x by omega, show (V t).y + (y - (V t).y) = y by omega,
      show (V t).z + (z - (V t).z) = z by omega]
    ring
  · intro a ha
    refine Grid.writeSeq_out (Or.inr ?_)
    rw [List.length_flatMap, Nat.zero_add]
    refine le_trans (le_of_eq ?_) ha
    rw [cum_eq_sum]
    simp only [← hlen]

/-- C15: `block_dp_to_cart` puts the value of every point to its place on the grid, column by column, and
touches no element behind the last column. -/
theorem block_to_cart_spec {α : Type} (bdp cart : ℕ → α) (ncol : ℕ) (V : ℕ → Vert) (displs : ℕ → ℕ)
    (P Nx Ny Nz : ℕ) (hT : Tiles V P Nx Ny Nz) :
    (∀ t < P, ∀ l < ncol, ∀ x y z, (V t).In x y z →
      blockToCart bdp ncol V displs P Nx Ny (Nx * Ny * Nz) cart (x + Nx * (y + Ny * z) + l * (Nx * Ny * Nz)) =
        bdp (displs t + l * (V t).seg + (V t).pos x y z)) ∧
    ∀ a, ncol * (Nx * Ny * Nz) ≤ a → blockToCart bdp ncol V displs P Nx Ny (Nx * Ny * Nz) cart a = cart a := by
  unfold blockToCart
  by_cases h0 : ncol = 0
  · subst h0
    refine ⟨fun t _ l hl => absurd hl (by omega), fun a _ => ?_⟩
    rw [if_pos rfl]
  rw [if_neg h0]
  -- the element written for a point
  have dec : ∀ (v : Vert) (p : ℕ), p < v.seg → ∃ x y z, v.In x y z ∧ v.pos x y z = p ∧
      x = v.x + p % v.nx ∧ y = v.y + (p - p % v.nx) / v.nx % v.ny ∧
      z = v.z + ((p - p % v.nx) / v.nx - (p - p % v.nx) / v.nx % v.ny) / v.ny := by
    intro v p hp
    unfold Vert.seg at hp
    have hnx : 0 < v.nx := Nat.pos_of_ne_zero fun h => by rw [h] at hp; simp at hp
    have hny : 0 < v.ny := Nat.pos_of_ne_zero fun h => by rw [h] at hp; simp at hp
    have cut : ∀ (q n : ℕ), 0 < n → (q - q % n) / n = q / n := by
      intro q n hn
      have := Nat.div_add_mod q n
      rw [show q - q % n = n * (q / n) by omega, Nat.mul_div_cancel_left _ hn]
    rw [cut _ _ hnx, cut _ _ hny]
    have hz : p / v.nx / v.ny < v.nz := by
      rw [Nat.div_div_eq_div_mul]
      exact Nat.div_lt_of_lt_mul hp
    have hx := Nat.mod_lt p hnx
    have hy := Nat.mod_lt (p / v.nx) hny
    refine ⟨_, _, _, ⟨⟨by omega, by omega⟩, ⟨by omega, by omega⟩, Nat.le_add_right _ _,
      Nat.add_lt_add_left hz _⟩, ?_, rfl, rfl, rfl⟩
    unfold Vert.pos
    rw [Nat.add_sub_cancel_left, Nat.add_sub_cancel_left, Nat.add_sub_cancel_left, Nat.mod_add_div,
      Nat.mod_add_div]
  have hmem : ∀ s : ℕ × ℕ × ℕ, (s ∈ (List.range P).flatMap fun t => (List.range (V t).seg).flatMap fun p =>
        (List.range ncol).map fun l => (t, p, l)) ↔ s.1 < P ∧ s.2.1 < (V s.1).seg ∧ s.2.2 < ncol := by
    rintro ⟨t, p, l⟩
    simp only [List.mem_flatMap, List.mem_range, List.mem_map, Prod.mk.injEq]
    constructor
    · rintro ⟨t', ht, p', hp, l', hl, rfl, rfl, rfl⟩
      exact ⟨ht, hp, hl⟩
    · rintro ⟨ht, hp, hl⟩
      exact ⟨t, ht, p, hp, l, hl, rfl, rfl, rfl⟩
  have hlin : ∀ {x y z : ℕ}, x < Nx → y < Ny → z < Nz → x + Nx * (y + Ny * z) < Nx * Ny * Nz := by
    intro x y z hx hy hz
    have := flat3_lt hx hy hz
    calc _ = x + y * Nx + z * (Nx * Ny) := by ring
      _ < _ := this
  constructor
  · intro t ht l hl x y z hin
    have hp := Vert.pos_lt hin
    obtain ⟨x', y', z', hin', e1, e2, e3, e4⟩ := dec (V t) _ hp
    have hxyz : x' = x ∧ y' = y ∧ z' = z := by
      have h1 := hin
      have h2 := hin'
      unfold Vert.In at h1 h2
      unfold Vert.pos at e1
      obtain ⟨a1, a2, a3⟩ := flat3_inj (nx := (V t).nx) (ny := (V t).ny)
        (i := x' - (V t).x) (i' := x - (V t).x) (j := y' - (V t).y) (j' := y - (V t).y)
        (k := z' - (V t).z) (k' := z - (V t).z) (by omega) (by omega) (by omega) (by omega)
        (by linarith)
      omega
    obtain ⟨rfl, rfl, rfl⟩ := hxyz
    have hf := hT.fits t ht _ _ _ hin
    refine Eq.trans (congrArg _ ?_) ((fill_at (t := (t, (V t).pos x' y' z', l)) ((hmem _).2 ⟨ht, hp, hl⟩) ?_).trans
      ?_)
    · dsimp only
      rw [← e2, ← e3, ← e4]
      ring
    · rintro ⟨t2, p2, l2⟩ hs he
      obtain ⟨h1, h2, h3⟩ := (hmem _).1 hs
      dsimp only at h1 h2 h3 he ⊢
      obtain ⟨x2, y2, z2, in2, f1, f2, f3, f4⟩ := dec (V t2) _ h2
      rw [← e2, ← e3, ← e4, ← f2, ← f3, ← f4] at he
      have hf2 := hT.fits t2 h1 _ _ _ in2
      have he' : (x2 + Nx * (y2 + Ny * z2)) + l2 * (Nx * Ny * Nz) =
          (x' + Nx * (y' + Ny * z')) + l * (Nx * Ny * Nz) := by linarith
      obtain ⟨he1, rfl⟩ := flat_inj (hlin hf2.1 hf2.2.1 hf2.2.2) (hlin hf.1 hf.2.1 hf.2.2) he'
      obtain ⟨rfl, rfl, rfl⟩ := flat3_inj (k := z2) (k' := z') hf2.1 hf.1 hf2.2.1 hf.2.1 (by linarith)
      have : t2 = t := hT.disj _ h1 _ ht _ _ _ in2 hin
      subst this
      rw [f1]
    · dsimp only
      congr 1
      ring
  · intro a ha
    refine fill_other ?_
    rintro ⟨t2, p2, l2⟩ hs he
    obtain ⟨h1, h2, h3⟩ := (hmem _).1 hs
    dsimp only at h1 h2 h3 he
    obtain ⟨x2, y2, z2, in2, f1, f2, f3, f4⟩ := dec (V t2) _ h2
    rw [← f2, ← f3, ← f4] at he
    have hf2 := hT.fits t2 h1 _ _ _ in2
    have := flat_lt h3 (hlin hf2.1 hf2.2.1 hf2.2.2)
    have : x2 + y2 * Nx + z2 * Nx * Ny + l2 * (Nx * Ny * Nz) =
        l2 * (Nx * Ny * Nz) + (x2 + Nx * (y2 + Ny * z2)) := by ring
    omega

/-- C15: converting to block order and back to Cartesian order, into any arrays, restores all columns. -/
theorem cart_block_cart {α : Type} (cart bdp cart' : ℕ → α) (ncol : ℕ) (V : ℕ → Vert) (P Nx Ny Nz : ℕ)
    (hT : Tiles V P Nx Ny Nz) (a : ℕ) (ha : a < ncol * (Nx * Ny * Nz)) :
    blockToCart (cartToBlock cart ncol V P Nx Ny (Nx * Ny * Nz) bdp) ncol V
      (cum fun t => ncol * (V t).seg) P Nx Ny (Nx * Ny * Nz) cart' a = cart a := by
  have h0 : 0 < Nx * Ny * Nz := Nat.pos_of_ne_zero fun h => by rw [h] at ha; simp at ha
  have hNx : 0 < Nx := Nat.pos_of_ne_zero fun h => by rw [h] at h0; simp at h0
  have hNy : 0 < Ny := Nat.pos_of_ne_zero fun h => by rw [h] at h0; simp at h0
  set w := a % (Nx * Ny * Nz) with hw
  have hwl : w < Nx * Ny * Nz := Nat.mod_lt _ h0
  have hl : a / (Nx * Ny * Nz) < ncol := (Nat.div_lt_iff_lt_mul h0).2 ha
  have hea : a = (w % Nx + Nx * (w / Nx % Ny + Ny * (w / Nx / Ny))) + a / (Nx * Ny * Nz) * (Nx * Ny * Nz) := by
    rw [Nat.mod_add_div, Nat.mod_add_div, hw, Nat.mul_comm (a / _), Nat.mod_add_div]
  obtain ⟨t, ht, hin⟩ := hT.cover (w % Nx) (Nat.mod_lt _ hNx) (w / Nx % Ny) (Nat.mod_lt _ hNy) (w / Nx / Ny)
    (by rw [Nat.div_div_eq_div_mul]; exact Nat.div_lt_of_lt_mul hwl)
  rw [hea, (block_to_cart_spec _ _ _ _ _ _ _ _ _ hT).1 t ht _ hl _ _ _ hin,
    (cart_to_block_spec _ _ _ _ _ _ _ _).1 t ht _ hl _ _ _ hin]

/-- C15: converting to Cartesian order and back to block order, into any arrays, restores all blocks. -/
theorem block_cart_block {α : Type} (cart bdp bdp' : ℕ → α) (ncol : ℕ) (V : ℕ → Vert) (P Nx Ny Nz : ℕ)
    (hT : Tiles V P Nx Ny Nz) (t : ℕ) (ht : t < P) (l : ℕ) (hl : l < ncol) (x y z : ℕ) (hin : (V t).In x y z) :
    cartToBlock (blockToCart bdp ncol V (cum fun t => ncol * (V t).seg) P Nx Ny (Nx * Ny * Nz) cart) ncol V
      P Nx Ny (Nx * Ny * Nz) bdp' (cum (fun t => ncol * (V t).seg) t + l * (V t).seg + (V t).pos x y z) =
    bdp (cum (fun t => ncol * (V t).seg) t + l * (V t).seg + (V t).pos x y z) := by
  rw [(cart_to_block_spec _ _ _ _ _ _ _ _).1 t ht l hl _ _ _ hin,
    (block_to_cart_spec _ _ _ _ _ _ _ _ _ hT).1 t ht l hl _ _ _ hin]

/-! ### The distributed Poisson solver -/

theorem Pois.in_iff (S : Pois) (t : ℕ) (p : Fin 3 → ℕ) :
    (S.V t).In (p 0) (p 1) (p 2) ↔ D2D.Owns S.N S.dims (D2D.cartCoords S.dims t) p := by
  unfold Vert.In Pois.V D2D.Owns
  dsimp only
  constructor
  · rintro ⟨h0, h1, h2⟩ a
    match a with
    | 0 => exact h0
    | 1 => exact h1
    | 2 => exact h2
  · intro h
    exact ⟨h 0, h 1, h 2⟩

/-- C15: the blocks of a process grid, as set up by `parallel_info_dp2bp`, tile the grid. -/
theorem pois_tiles (S : Pois) (hd : ∀ a, 0 < S.dims a) :
    Tiles S.V S.P (S.N 0) (S.N 1) (S.N 2) where
  fits := by
    intro t ht x y z h
    have h := (S.in_iff t ![x, y, z]).1 h
    have := fun a => D2D.owns_lt (fun a => D2D.coords_lt ht a) h a
    exact ⟨this 0, this 1, this 2⟩
  disj := by
    intro t ht t' ht' x y z h h'
    have h := (S.in_iff t ![x, y, z]).1 h
    have h' := (S.in_iff t' ![x, y, z]).1 h'
    refine D2D.coords_inj (dims := S.dims) ?_
    funext a
    exact Block.owner_unique _ _ _ _ _ (h a) (h' a)
  cover := by
    intro x hx y hy z hz
    have : ∀ a, ∃ r, r < S.dims a ∧ Block.blockNstart (S.N a) (S.dims a) r ≤ (![x, y, z] : Fin 3 → ℕ) a ∧
        (![x, y, z] : Fin 3 → ℕ) a < Block.blockNstart (S.N a) (S.dims a) r +
          Block.blockDecompose (S.N a) (S.dims a) r := by
      intro a
      obtain ⟨r, ⟨h1, h2⟩, -⟩ := (block_cover (S.N a) (hd a)).owner ((![x, y, z] : Fin 3 → ℕ) a) (by
        match a with
        | 0 => exact hx
        | 1 => exact hy
        | 2 => exact hz)
      exact ⟨r, h1, h2⟩
    choose c hc using this
    obtain ⟨h1, h2⟩ := D2D.rowMajor_spec (dims := S.dims) (c := c) fun a => (hc a).1
    refine ⟨D2D.rowMajor S.dims c, h1, (S.in_iff _ ![x, y, z]).2 ?_⟩
    rw [h2]
    exact fun a => (hc a).2

/-- Number of points of the block of the process at `c`. -/
def npts (N dims c : Fin 3 → ℕ) : ℕ :=
  Block.blockDecompose (N 0) (dims 0) (c 0) * Block.blockDecompose (N 1) (dims 1) (c 1) *
    Block.blockDecompose (N 2) (dims 2) (c 2)

/-- Position of `p` in the block of the process at `c`, x fastest. -/
def loc (N dims c p : Fin 3 → ℕ) : ℕ :=
  (p 0 - Block.blockNstart (N 0) (dims 0) (c 0)) + Block.blockDecompose (N 0) (dims 0) (c 0) *
    ((p 1 - Block.blockNstart (N 1) (dims 1) (c 1)) + Block.blockDecompose (N 1) (dims 1) (c 1) *
      (p 2 - Block.blockNstart (N 2) (dims 2) (c 2)))

/-- Position of `p` on the whole grid, x fastest. -/
def glob (N p : Fin 3 → ℕ) : ℕ := p 0 + N 0 * (p 1 + N 1 * p 2)

theorem glob_lt {N p : Fin 3 → ℕ} (h : ∀ a, p a < N a) : glob N p < N 0 * N 1 * N 2 := by
  have := flat3_lt (h 0) (h 1) (h 2)
  unfold glob
  calc _ = p 0 + p 1 * N 0 + p 2 * (N 0 * N 1) := by ring
    _ < _ := this

/-- C50: the distributed Poisson solve of the exact exchange code is the serial one.  Every process holds the
right-hand sides `F col` on its block, column after column.  If the solver maps the Cartesian array
of every column it is given to the solution `G col` of that column, then afterwards every process
holds the solutions of all columns on its block, for every grid, every process grid (blocks may be
empty), every number of columns (also fewer than processes), and all counts of the exchanges match. -/
theorem poisson_distributed {α : Type} (S : Pois) (hd : ∀ a, 0 < S.dims a)
    (F : ℕ → (Fin 3 → ℕ) → α) (G : ℕ → ((Fin 3 → ℕ) → α) → (Fin 3 → ℕ) → α)
    (solve : ℕ → (ℕ → α) → ℕ → α)
    (hsolve : ∀ p < S.P, ∀ m, ∀ l < Block.blockDecompose S.ncol S.P p, ∀ f,
      (∀ x, (∀ a, x a < S.N a) → m (glob S.N x + l * (S.N 0 * S.N 1 * S.N 2)) = f x) →
      ∀ x, (∀ a, x a < S.N a) → solve p m (glob S.N x + l * (S.N 0 * S.N 1 * S.N 2)) =
        G (Block.blockNstart S.ncol S.P p + l) f x)
    (junk rhs sol : ℕ → ℕ → α)
    (hrhs : ∀ c, (∀ a, c a < S.dims a) → ∀ col < S.ncol, ∀ x, D2D.Owns S.N S.dims c x →
      rhs (D2D.rowMajor S.dims c) (loc S.N S.dims c x + col * npts S.N S.dims c) = F col x) :
    ∃ out, poissonSolve S solve junk rhs sol = some out ∧
      ∀ c, (∀ a, c a < S.dims a) → ∀ col < S.ncol, ∀ x, D2D.Owns S.N S.dims c x →
        out (D2D.rowMajor S.dims c) (loc S.N S.dims c x + col * npts S.N S.dims c) = G col (F col) x := by
  have hP : 0 < S.P := by
    unfold Pois.P D2D.procs
    exact Nat.mul_pos (Nat.mul_pos (hd 0) (hd 1)) (hd 2)
  have hT := pois_tiles S hd
  have hseg : ∀ c, (∀ a, c a < S.dims a) → (S.V (D2D.rowMajor S.dims c)).seg = npts S.N S.dims c := by
    intro c hc
    unfold Vert.seg Pois.V npts
    dsimp only
    rw [(D2D.rowMajor_spec hc).2]
  have hpos : ∀ c, (∀ a, c a < S.dims a) → ∀ x : Fin 3 → ℕ,
      (S.V (D2D.rowMajor S.dims c)).pos (x 0) (x 1) (x 2) = loc S.N S.dims c x := by
    intro c hc x
    unfold Vert.pos Pois.V loc
    dsimp only
    rw [(D2D.rowMajor_spec hc).2]
  have hin : ∀ c, (∀ a, c a < S.dims a) → ∀ x, D2D.Owns S.N S.dims c x →
      (S.V (D2D.rowMajor S.dims c)).In (x 0) (x 1) (x 2) := by
    intro c hc x hx
    rw [S.in_iff, (D2D.rowMajor_spec hc).2]
    exact hx
  have hrank : ∀ t < S.P, ∃ c, (∀ a, c a < S.dims a) ∧ D2D.rowMajor S.dims c = t := by
    intro t ht
    have h1 : ∀ a, D2D.cartCoords S.dims t a < S.dims a := fun a => D2D.coords_lt ht a
    exact ⟨_, h1, D2D.coords_inj (dims := S.dims) (D2D.rowMajor_spec h1).2⟩
  have hncolp : ∀ p, S.ncolp p = Block.blockDecompose S.ncol S.P p := fun p => rfl
  have hrcnt : ∀ p i, S.rcnt p i = S.ncolp p * (S.V i).seg := by
    intro p i
    unfold Pois.rcnt Vert.seg
    ring
  have hcum : ∀ p i, cum (S.scnt p) i = (S.V p).seg * Block.blockNstart S.ncol S.P i := by
    intro p i
    refine cum_of_steps (n := i) (Block.nstart_zero _ _) ?_ i le_rfl
    intro j _
    rw [Block.nstart_succ]
    refine ⟨?_, by omega⟩
    unfold Pois.scnt
    rw [hncolp, Nat.mul_comm]
    congr 1
    omega
  have hcumr : ∀ p i, cum (S.rcnt p) i = cum (fun t => S.ncolp p * (S.V t).seg) i := by
    intro p i
    congr 1
    funext j
    exact hrcnt p j
  unfold poissonSolve
  dsimp only
  by_cases h1 : 1 < S.P
  · rw [if_pos h1]
    obtain ⟨lc, hlc, l1, -⟩ := alltoallv_spec (P := S.P) (scnt := S.scnt) (rcnt := S.rcnt)
      (sdis := fun p => cum (S.scnt p)) rhs junk (by
        intro p _ i _
        rw [hrcnt]
        rfl)
    rw [hlc]
    simp only [bind, Option.bind]
    set order : ℕ → ℕ → α := fun p =>
      blockToCart (lc p) (S.ncolp p) S.V (cum (S.rcnt p)) S.P (S.N 0) (S.N 1) (S.N 0 * S.N 1 * S.N 2) (junk p)
      with horder
    -- the right-hand sides of process `p` in Cartesian order
    have hord : ∀ p < S.P, ∀ l < S.ncolp p, ∀ x, (∀ a, x a < S.N a) →
        order p (glob S.N x + l * (S.N 0 * S.N 1 * S.N 2)) = F (Block.blockNstart S.ncol S.P p + l) x := by
      intro p hp l hl x hx
      obtain ⟨t, ht, hti⟩ := hT.cover (x 0) (hx 0) (x 1) (hx 1) (x 2) (hx 2)
      obtain ⟨c, hc, rfl⟩ := hrank t ht
      have hown : D2D.Owns S.N S.dims c x := by
        rw [S.in_iff, (D2D.rowMajor_spec hc).2] at hti
        exact hti
      simp only [horder]
      unfold glob
      rw [(block_to_cart_spec _ _ _ _ _ _ _ _ _ hT).1 _ ht l hl _ _ _ hti, Nat.add_assoc,
        l1 p hp _ ht _ (by rw [hrcnt]; exact flat_lt hl (Vert.pos_lt hti)), hcum, hpos c hc, hseg c hc]
      have hcol : Block.blockNstart S.ncol S.P p + l < S.ncol := by
        have := D2D.block_end_le (n := S.ncol) hp
        rw [hncolp] at hl
        omega
      rw [← hrhs c hc _ hcol x hown]
      congr 1
      ring
    have hsol : ∀ p < S.P, ∀ l < S.ncolp p, ∀ x, (∀ a, x a < S.N a) →
        solve p (order p) (glob S.N x + l * (S.N 0 * S.N 1 * S.N 2)) =
          G (Block.blockNstart S.ncol S.P p + l) (F (Block.blockNstart S.ncol S.P p + l)) x := by
      intro p hp l hl x hx
      exact hsolve p hp (order p) l hl _ (hord p hp l hl) x hx
    obtain ⟨out, ho, o1, -⟩ := alltoallv_spec (P := S.P) (scnt := S.rcnt) (rcnt := S.scnt)
      (sdis := fun p => cum (S.rcnt p)) (fun p => cartToBlock (solve p (order p)) (S.ncolp p) S.V S.P (S.N 0)
        (S.N 1) (S.N 0 * S.N 1 * S.N 2) (junk p)) sol (by
        intro p _ i _
        rw [hrcnt]
        rfl)
    refine ⟨out, ho, ?_⟩
    intro c hc col hcol x hx
    obtain ⟨p, ⟨hp, hp1, hp2⟩, -⟩ := (block_cover S.ncol hP).owner col hcol
    obtain ⟨l, rfl⟩ : ∃ l, col = Block.blockNstart S.ncol S.P p + l :=
      ⟨col - Block.blockNstart S.ncol S.P p, by omega⟩
    have hl : l < S.ncolp p := by rw [hncolp]; omega
    have ht : D2D.rowMajor S.dims c < S.P := (D2D.rowMajor_spec hc).1
    have hti := hin c hc x hx
    have e := o1 _ ht p hp (l * (S.V (D2D.rowMajor S.dims c)).seg +
      (S.V (D2D.rowMajor S.dims c)).pos (x 0) (x 1) (x 2)) (by
        exact flat_lt hl (Vert.pos_lt hti))
    rw [← Nat.add_assoc] at e
    simp only [hcumr] at e
    rw [← Nat.add_assoc, (cart_to_block_spec _ _ _ _ _ _ _ _).1 _ ht l hl _ _ _ hti] at e
    have hs := hsol p hp l hl x (D2D.owns_lt hc hx)
    unfold glob at hs
    rw [hs, hcum, hpos c hc, hseg c hc] at e
    rw [← e]
    congr 1
    ring
  · rw [if_neg h1]
    refine ⟨_, rfl, ?_⟩
    have hP1 : S.P = 1 := by omega
    have hd1 : ∀ a, S.dims a = 1 := by
      have h : S.dims 0 * S.dims 1 * S.dims 2 = 1 := hP1
      have h2 := mul_eq_one.1 h
      have h3 := mul_eq_one.1 h2.1
      intro a
      match a with
      | 0 => exact h3.1
      | 1 => exact h3.2
      | 2 => exact h2.2
    have hb1 : ∀ n, Block.blockNstart n 1 0 = 0 ∧ Block.blockDecompose n 1 0 = n := by
      intro n
      simp [Block.blockNstart, Block.blockDecompose, Nat.mod_one]
    have hc0 : ∀ c : Fin 3 → ℕ, (∀ a, c a < S.dims a) → ∀ a, c a = 0 := by
      intro c hc a
      have := hc a
      rw [hd1] at this
      omega
    have hloc : ∀ c : Fin 3 → ℕ, (∀ a, c a < S.dims a) → ∀ x, loc S.N S.dims c x = glob S.N x ∧
        npts S.N S.dims c = S.N 0 * S.N 1 * S.N 2 := by
      intro c hc x
      unfold loc npts glob
      simp only [hd1, hc0 c hc, (hb1 _).1, (hb1 _).2, Nat.sub_zero]
      exact ⟨trivial, trivial⟩
    have hown : ∀ c : Fin 3 → ℕ, (∀ a, c a < S.dims a) → ∀ x, (∀ a, x a < S.N a) → D2D.Owns S.N S.dims c x := by
      intro c hc x hx a
      rw [hd1, hc0 c hc, (hb1 _).1, (hb1 _).2]
      exact ⟨Nat.zero_le _, by rw [Nat.zero_add]; exact hx a⟩
    intro c hc col hcol x hx
    have hr := (D2D.rowMajor_spec hc).1
    have hr0 : D2D.rowMajor S.dims c = 0 := by
      have : D2D.rowMajor S.dims c < 1 := by rw [← hP1]; exact hr
      omega
    rw [(hloc c hc x).1, (hloc c hc x).2]
    have := hsolve (D2D.rowMajor S.dims c) hr (rhs (D2D.rowMajor S.dims c)) col
      (by rw [hP1, hr0, (hb1 _).2]; exact hcol) (F col) (by
        intro y hy
        have := hrhs c hc col hcol y (hown c hc y hy)
        rw [(hloc c hc y).1, (hloc c hc y).2] at this
        exact this) x (D2D.owns_lt hc hx)
    rw [this, hP1, hr0, (hb1 _).1, Nat.zero_add]

/-! ### Examples -/

/-- Two processes along x on a 3 × 1 × 1 grid with three columns; the solver adds the column number
times 100. -/
def demo : Pois := ⟨![3, 1, 1], ![2, 1, 1], 3⟩

def demoSolve (p : ℕ) (m : ℕ → ℕ) (a : ℕ) : ℕ := m a + 100 * (if p = 0 then a / 3 else 2 + a / 3)

example : ((poissonSolve demo demoSolve (fun _ _ => 999)
    (fun p a => if p = 0 then 10 * (a / 2) + a % 2 else 10 * a + 2) (fun _ _ => 555)).map fun m =>
    (List.range 2).map fun p => (List.range 7).map (m p)) =
    some [[0, 1, 110, 111, 220, 221, 555], [2, 112, 222, 555, 555, 555, 555]] := by decide +kernel

/-- The solver of the example meets the hypothesis of `poisson_distributed`. -/
example : ∀ p < demo.P, ∀ m, ∀ l < Block.blockDecompose demo.ncol demo.P p, ∀ f : (Fin 3 → ℕ) → ℕ,
      (∀ x, (∀ a, x a < demo.N a) → m (glob demo.N x + l * (demo.N 0 * demo.N 1 * demo.N 2)) = f x) →
      ∀ x, (∀ a, x a < demo.N a) → demoSolve p m (glob demo.N x + l * (demo.N 0 * demo.N 1 * demo.N 2)) =
        (fun (col : ℕ) (g : (Fin 3 → ℕ) → ℕ) y => g y + 100 * col) (Block.blockNstart demo.ncol demo.P p + l) f x := by
  intro p hp m l hl f hf x hx
  have hN : demo.N 0 * demo.N 1 * demo.N 2 = 3 := rfl
  have hg : glob demo.N x < 3 := glob_lt hx
  have h := hf x hx
  rw [hN] at h ⊢
  unfold demoSolve
  dsimp only
  rw [h]
  have hp' : p < 2 := hp
  rcases (show p = 0 ∨ p = 1 by omega) with rfl | rfl
  · rw [if_pos rfl, show Block.blockNstart demo.ncol demo.P 0 = 0 from rfl]
    omega
  · rw [if_neg (by omega), show Block.blockNstart demo.ncol demo.P 1 = 2 from rfl]
    omega

end Sparc.Layout

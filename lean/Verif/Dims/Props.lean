import Verif.Dims.Lemmas

/-!
# Automatic process grids: properties

Vocabulary: `n` processes, grid sizes `g`, minimum number `m` of grid points per process.
-/

namespace Sparc.Dims

/-- **C09** (one dimension).  At least one process, at most `n`, and at least `m` points per process
whenever the grid has `m` points. -/
theorem dims_create_1d (n g m : ℕ) (hn : 1 ≤ n) (hm : 1 ≤ m) :
    ∃ y, dims1 n g m = some y ∧ 1 ≤ y ∧ y ≤ n ∧ (m ≤ g → m ≤ g / y) := by
  obtain ⟨y, h1, h2, h3, h4⟩ := dims1_spec n g m hm
  exact ⟨y, h1, h2, by omega, fun h => (le_div_iff' h2).2 (h4 h)⟩

example : dims1 7 20 6 = some 3 := by decide

/-- Two dimensions, for either version of the scan and any estimates with the stated properties. -/
theorem dims2_spec (fixed : Bool) {e} (he : Est2 e) (n : ℕ) (g : ℕ × ℕ) (m : ℕ) (hn : 1 ≤ n) (hm : 1 ≤ m) :
    ∃ x y ierr, dims2 fixed e n g m = some ((x, y), ierr) ∧ 1 ≤ x ∧ 1 ≤ y ∧ x * y ≤ n ∧
      (m ≤ g.1 → m ≤ g.2 → x * m ≤ g.1 ∧ y * m ≤ g.2) ∧ (ierr = 0 ↔ m ≤ g.1 ∧ m ≤ g.2) := by
  set F0 : ℕ → ℕ × ℕ := fun x => (x, (dims1 (max 1 (n / x)) g.2 m).getD 0) with hF0
  set F1 : ℕ → ℕ × ℕ := fun y => ((dims1 (max 1 (n / y)) g.1 m).getD 0, y) with hF1
  have f0 : ∀ x, ((dims1 (max 1 (n / x)) g.2 m).map fun y => (x, y)) = some (F0 x) := fun x => by
    obtain ⟨y, h, _⟩ := dims1_spec (max 1 (n / x)) g.2 m hm
    rw [hF0]; simp [h]
  have f1 : ∀ y, ((dims1 (max 1 (n / y)) g.1 m).map fun x => (x, y)) = some (F1 y) := fun y => by
    obtain ⟨x, h, _⟩ := dims1_spec (max 1 (n / y)) g.1 m hm
    rw [hF1]; simp [h]
  have p0 : ∀ x, 1 ≤ x → x ≤ n → 1 ≤ (F0 x).2 ∧ (F0 x).1 * (F0 x).2 ≤ n ∧
      (m ≤ g.2 → (F0 x).2 * m ≤ g.2) := fun x h1 h2 => by
    obtain ⟨y, a, b, c, d⟩ := dims1_spec (max 1 (n / x)) g.2 m hm
    simp only [hF0, a, Option.getD_some]
    exact ⟨b, share_le h1 h2 (by omega), d⟩
  have p1 : ∀ y, 1 ≤ y → y ≤ n → 1 ≤ (F1 y).1 ∧ (F1 y).1 * (F1 y).2 ≤ n ∧
      (m ≤ g.1 → (F1 y).1 * m ≤ g.1) := fun y h1 h2 => by
    obtain ⟨x, a, b, c, d⟩ := dims1_spec (max 1 (n / y)) g.1 m hm
    simp only [hF1, a, Option.getD_some]
    exact ⟨b, by rw [Nat.mul_comm]; exact share_le h1 h2 (by omega), d⟩
  set l0 := (List.range 11).map fun (i : ℕ) => entryP 11 n ((e n g m).1 + i - 5) F0 with hl0
  set l1 := (List.range 11).map fun (i : ℕ) => entryP 11 n ((e n g m).2 + i - 5) F1 with hl1
  have hP : ∀ c, some c ∈ l0 ++ l1 → 1 ≤ c.1 ∧ 1 ≤ c.2 := by
    intro c hc
    rcases List.mem_append.1 hc with hc | hc
    · obtain ⟨x, h1, h2, rfl⟩ := mem_entries hc
      exact ⟨h1, (p0 x h1 h2).1⟩
    · obtain ⟨y, h1, h2, rfl⟩ := mem_entries hc
      exact ⟨(p1 y h1 h2).1, h1⟩
  obtain ⟨hnone, hsome⟩ := scan_spec fixed n (fun c : ℕ × ℕ => c.1 * c.2) (ok2 g.1 g.2 m)
    (rn2 g.1 g.2) (fun c => 1 ≤ c.1 ∧ 1 ≤ c.2) (l0 ++ l1) hP
  have hd : dims2 fixed e n g m = some (match scan fixed n (fun c : ℕ × ℕ => c.1 * c.2)
      (ok2 g.1 g.2 m) (rn2 g.1 g.2) (l0 ++ l1) with
      | some c => (c, 0)
      | none => ((n, 1), 1)) := by
    unfold dims2
    simp only []
    rw [entries 11 11 n (e n g m).1 5 _ F0 f0, entries 11 11 n (e n g m).2 5 _ F1 f1]
    rfl
  cases hs : scan fixed n (fun c : ℕ × ℕ => c.1 * c.2) (ok2 g.1 g.2 m) (rn2 g.1 g.2) (l0 ++ l1) with
  | none =>
    rw [hs] at hd
    have hno : ¬ (m ≤ g.1 ∧ m ≤ g.2) := by
      rintro ⟨hg1, hg2⟩
      have hnn := he.nonneg n g m
      have hsz := he.size n g m hm hg1 hg2
      rcases he.some_le n g m hn (by omega) (by omega) with hle | hle
      · obtain ⟨x, a, b, c, d⟩ := exists_cand (K := 11) (w := 11) (s := 5) F0 (by norm_num) (by norm_num)
          hn hnn.1 hle hsz.1 hg1
        obtain ⟨q1, q2, q3⟩ := p0 x a b
        have := hnone hs _ (List.mem_append_left _ d) (Nat.mul_pos a q1) q2
        rw [← Bool.not_eq_true, ok2_iff a q1] at this
        exact this ⟨c, q3 hg2⟩
      · obtain ⟨y, a, b, c, d⟩ := exists_cand (K := 11) (w := 11) (s := 5) F1 (by norm_num) (by norm_num)
          hn hnn.2 hle hsz.2 hg2
        obtain ⟨q1, q2, q3⟩ := p1 y a b
        have := hnone hs _ (List.mem_append_right _ d) (Nat.mul_pos q1 a) q2
        rw [← Bool.not_eq_true, ok2_iff q1 a] at this
        exact this ⟨q3 hg1, c⟩
    exact ⟨n, 1, 1, hd, hn, le_refl _, by omega, fun h1 h2 => absurd ⟨h1, h2⟩ hno,
      ⟨fun h => by omega, fun h => absurd h hno⟩⟩
  | some c =>
    rw [hs] at hd
    obtain ⟨a1, a2, a3, ⟨c', b1, b2, b3⟩, -, a5⟩ := hsome c hs
    have hc := hP c a1
    have hc' := hP c' b1
    rw [ok2_iff hc'.1 hc'.2] at b2
    have hm1 : m ≤ g.1 := le_trans (Nat.le_mul_of_pos_left m hc'.1) b2.1
    have hm2 : m ≤ g.2 := le_trans (Nat.le_mul_of_pos_left m hc'.2) b2.2
    refine ⟨c.1, c.2, 0, hd, hc.1, hc.2, a3, fun _ _ => ?_, by simp [hm1, hm2]⟩
    rw [← ok2_iff hc.1 hc.2]
    refine a5 fun u v hu hv hok hp hr _ => ?_
    rw [ok2_iff hv.1 hv.2] at hok
    rw [ok2_iff hu.1 hu.2]
    exact tie2 (by omega) (by omega) hu.1 hu.2 hv.1 hv.2 hok hp hr

/-- **C09** (two dimensions).  The grid has at least one process in each direction and at most `n` in
total.  Whenever the domain has `m` points in each direction, every process gets at least `m` points in
each direction.  The error flag is raised exactly when the domain is too small. -/
theorem dims_create_2d (n : ℕ) (g : ℕ × ℕ) (m : ℕ) (hn : 1 ≤ n) (hm : 1 ≤ m) :
    ∃ x y ierr, dimsCreate2 n g m = some ((x, y), ierr) ∧ 1 ≤ x ∧ 1 ≤ y ∧ x * y ≤ n ∧
      (m ≤ g.1 → m ≤ g.2 → m ≤ g.1 / x ∧ m ≤ g.2 / y) ∧ (ierr = 0 ↔ m ≤ g.1 ∧ m ≤ g.2) := by
  obtain ⟨x, y, i, h1, h2, h3, h4, h5, h6⟩ := dims2_spec false est2_ok n g m hn hm
  refine ⟨x, y, i, h1, h2, h3, h4, fun a b => ?_, h6⟩
  have := h5 a b
  exact ⟨(le_div_iff' h2).2 this.1, (le_div_iff' h3).2 this.2⟩

/-- Three dimensions, for either version of the scan. -/
theorem dims3_spec (fixed : Bool) {e2 e3} (he2 : Est2 e2) (he3 : Est3 e3) (n : ℕ) (g : ℕ × ℕ × ℕ) (m : ℕ)
    (hn : 1 ≤ n) (hm : 1 ≤ m) :
    ∃ x y z ierr, dims3 fixed e2 e3 n g m = some ((x, y, z), ierr) ∧ 1 ≤ x ∧ 1 ≤ y ∧ 1 ≤ z ∧
      x * y * z ≤ n ∧ (ierr = 0 ↔ m ≤ g.1 ∧ m ≤ g.2.1 ∧ m ≤ g.2.2) ∧
      (m ≤ g.1 → m ≤ g.2.1 → m ≤ g.2.2 →
        (∃ x' y' z', x' * y' * z' = x * y * z ∧ 1 ≤ x' ∧ 1 ≤ y' ∧ 1 ≤ z' ∧
          x' * m ≤ g.1 ∧ y' * m ≤ g.2.1 ∧ z' * m ≤ g.2.2) ∧
        (fixed = true → x * m ≤ g.1 ∧ y * m ≤ g.2.1 ∧ z * m ≤ g.2.2)) := by
  choose A0 B0 E0 H0 using fun x : ℕ => dims2_spec fixed he2 (max 1 (n / x)) (g.2.1, g.2.2) m (by omega) hm
  choose A1 B1 E1 H1 using fun x : ℕ => dims2_spec fixed he2 (max 1 (n / x)) (g.1, g.2.2) m (by omega) hm
  choose A2 B2 E2 H2 using fun x : ℕ => dims2_spec fixed he2 (max 1 (n / x)) (g.1, g.2.1) m (by omega) hm
  set F0 : ℕ → (ℕ × ℕ × ℕ) × ℕ := fun x => ((x, A0 x, B0 x), E0 x) with hF0
  set F1 : ℕ → (ℕ × ℕ × ℕ) × ℕ := fun x => ((A1 x, x, B1 x), E1 x) with hF1
  set F2 : ℕ → (ℕ × ℕ × ℕ) × ℕ := fun x => ((A2 x, B2 x, x), E2 x) with hF2
  have f0 : ∀ x, ((dims2 fixed e2 (max 1 (n / x)) (g.2.1, g.2.2) m).map fun c =>
      ((x, c.1.1, c.1.2), c.2)) = some (F0 x) := fun x => by rw [(H0 x).1]; rfl
  have f1 : ∀ x, ((dims2 fixed e2 (max 1 (n / x)) (g.1, g.2.2) m).map fun c =>
      ((c.1.1, x, c.1.2), c.2)) = some (F1 x) := fun x => by rw [(H1 x).1]; rfl
  have f2 : ∀ x, ((dims2 fixed e2 (max 1 (n / x)) (g.1, g.2.1) m).map fun c =>
      ((c.1.1, c.1.2, x), c.2)) = some (F2 x) := fun x => by rw [(H2 x).1]; rfl
  set l0 := (List.range 5).map fun (i : ℕ) => entryP 5 n ((e3 n g m).1 + i - 2) F0 with hl0
  set l1 := (List.range 5).map fun (i : ℕ) => entryP 5 n ((e3 n g m).2.1 + i - 2) F1 with hl1
  set l2 := (List.range 5).map fun (i : ℕ) => entryP 5 n ((e3 n g m).2.2 + i - 2) F2 with hl2
  have hP : ∀ c, some c ∈ l0 ++ l1 ++ l2 → (1 ≤ c.1.1 ∧ 1 ≤ c.1.2.1 ∧ 1 ≤ c.1.2.2) ∧
      (m ≤ g.1 → m ≤ g.2.1 → m ≤ g.2.2 → c.2 = 0) := by
    intro c hc
    rcases List.mem_append.1 hc with hc | hc
    · rcases List.mem_append.1 hc with hc | hc
      · obtain ⟨x, h1, h2, rfl⟩ := mem_entries hc
        obtain ⟨_, a, b, _, _, d⟩ := H0 x
        exact ⟨⟨h1, a, b⟩, fun _ u v => d.2 ⟨u, v⟩⟩
      · obtain ⟨x, h1, h2, rfl⟩ := mem_entries hc
        obtain ⟨_, a, b, _, _, d⟩ := H1 x
        exact ⟨⟨a, h1, b⟩, fun u _ v => d.2 ⟨u, v⟩⟩
    · obtain ⟨x, h1, h2, rfl⟩ := mem_entries hc
      obtain ⟨_, a, b, _, _, d⟩ := H2 x
      exact ⟨⟨a, b, h1⟩, fun u v _ => d.2 ⟨u, v⟩⟩
  obtain ⟨hnone, hsome⟩ := scan_spec fixed n
    (fun c : (ℕ × ℕ × ℕ) × ℕ => c.1.1 * c.1.2.1 * c.1.2.2) (fun c => ok3 g.1 g.2.1 g.2.2 m c.1)
    (fun c => rn3 g.1 g.2.1 g.2.2 c.1) (fun _ => True) (l0 ++ l1 ++ l2) (fun _ _ => trivial)
  have hd : dims3 fixed e2 e3 n g m = some (match scan fixed n
      (fun c : (ℕ × ℕ × ℕ) × ℕ => c.1.1 * c.1.2.1 * c.1.2.2) (fun c => ok3 g.1 g.2.1 g.2.2 m c.1)
      (fun c => rn3 g.1 g.2.1 g.2.2 c.1) (l0 ++ l1 ++ l2) with
      | some c => (c.1, lastErr (l0 ++ l1 ++ l2))
      | none => ((n, 1, 1), 1)) := by
    unfold dims3
    simp only []
    rw [entries 5 5 n (e3 n g m).1 2 _ F0 f0, entries 5 5 n (e3 n g m).2.1 2 _ F1 f1,
      entries 5 5 n (e3 n g m).2.2 2 _ F2 f2]
    rfl
  cases hs : scan fixed n (fun c : (ℕ × ℕ × ℕ) × ℕ => c.1.1 * c.1.2.1 * c.1.2.2)
      (fun c => ok3 g.1 g.2.1 g.2.2 m c.1) (fun c => rn3 g.1 g.2.1 g.2.2 c.1) (l0 ++ l1 ++ l2) with
  | none =>
    rw [hs] at hd
    have hno : ¬ (m ≤ g.1 ∧ m ≤ g.2.1 ∧ m ≤ g.2.2) := by
      rintro ⟨hg1, hg2, hg3⟩
      have hnn := he3.nonneg n g m
      have hsz := he3.size n g m hm hg1 hg2 hg3
      rcases he3.some_le n g m hn (by omega) (by omega) (by omega) with hle | hle | hle
      · obtain ⟨x, a, b, c, d⟩ := exists_cand (K := 5) (w := 5) (s := 2) F0 (by norm_num) (by norm_num)
          hn hnn.1 hle hsz.1 hg1
        obtain ⟨_, q1, q2, q3, q4, _⟩ := H0 x
        have hle : x * (A0 x * B0 x) ≤ n := share_le a b q3
        have := hnone hs _ (List.mem_append_left _ (List.mem_append_left _ d))
          (Nat.mul_pos (Nat.mul_pos a q1) q2) (by simpa [hF0, Nat.mul_assoc] using hle)
        rw [← Bool.not_eq_true, ok3_iff a q1 q2] at this
        exact this ⟨c, q4 hg2 hg3⟩
      · obtain ⟨x, a, b, c, d⟩ := exists_cand (K := 5) (w := 5) (s := 2) F1 (by norm_num) (by norm_num)
          hn hnn.2.1 hle hsz.2.1 hg2
        obtain ⟨_, q1, q2, q3, q4, _⟩ := H1 x
        have hle : x * (A1 x * B1 x) ≤ n := share_le a b q3
        have := hnone hs _ (List.mem_append_left _ (List.mem_append_right _ d))
          (Nat.mul_pos (Nat.mul_pos q1 a) q2)
          (by simpa only [hF1, Nat.mul_comm, Nat.mul_left_comm, Nat.mul_assoc] using hle)
        rw [← Bool.not_eq_true, ok3_iff q1 a q2] at this
        have q4 := q4 hg1 hg3
        exact this ⟨q4.1, c, q4.2⟩
      · obtain ⟨x, a, b, c, d⟩ := exists_cand (K := 5) (w := 5) (s := 2) F2 (by norm_num) (by norm_num)
          hn hnn.2.2 hle hsz.2.2 hg3
        obtain ⟨_, q1, q2, q3, q4, _⟩ := H2 x
        have hle : x * (A2 x * B2 x) ≤ n := share_le a b q3
        have := hnone hs _ (List.mem_append_right _ d)
          (Nat.mul_pos (Nat.mul_pos q1 q2) a)
          (by simpa only [hF2, Nat.mul_comm, Nat.mul_left_comm, Nat.mul_assoc] using hle)
        rw [← Bool.not_eq_true, ok3_iff q1 q2 a] at this
        have q4 := q4 hg1 hg2
        exact this ⟨q4.1, q4.2, c⟩
    exact ⟨n, 1, 1, 1, hd, hn, le_refl _, le_refl _, by omega, ⟨fun h => by omega, fun h => absurd h hno⟩,
      fun h1 h2 h3 => absurd ⟨h1, h2, h3⟩ hno⟩
  | some c =>
    rw [hs] at hd
    obtain ⟨a1, a2, a3, ⟨c', b1, b2, b3⟩, -, a5⟩ := hsome c hs
    obtain ⟨hc, hce⟩ := hP c a1
    obtain ⟨hc', -⟩ := hP c' b1
    rw [ok3_iff hc'.1 hc'.2.1 hc'.2.2] at b2
    have hm1 : m ≤ g.1 := le_trans (Nat.le_mul_of_pos_left m hc'.1) b2.1
    have hm2 : m ≤ g.2.1 := le_trans (Nat.le_mul_of_pos_left m hc'.2.1) b2.2.1
    have hm3 : m ≤ g.2.2 := le_trans (Nat.le_mul_of_pos_left m hc'.2.2) b2.2.2
    have herr : lastErr (l0 ++ l1 ++ l2) = 0 := by
      unfold lastErr
      cases hg : ((l0 ++ l1 ++ l2).filterMap id).getLast? with
      | none => rfl
      | some d =>
        have := List.mem_of_getLast? hg
        simp only [List.mem_filterMap, id] at this
        obtain ⟨o, ho, rfl⟩ := this
        exact (hP d ho).2 hm1 hm2 hm3
    refine ⟨c.1.1, c.1.2.1, c.1.2.2, _, hd, hc.1, hc.2.1, hc.2.2, a3, ?_, fun _ _ _ => ⟨?_, ?_⟩⟩
    · exact ⟨fun _ => ⟨hm1, hm2, hm3⟩, fun _ => herr⟩
    · exact ⟨_, _, _, b3, hc'.1, hc'.2.1, hc'.2.2, b2⟩
    · rintro rfl
      rw [← ok3_iff hc.1 hc.2.1 hc.2.2]
      exact a5 fun u v _ _ _ _ _ h => h rfl

/-- **C09** (three dimensions, partial).  The grid has at least one process in each direction and at
most `n` in total, and the error flag is raised exactly when the domain has fewer than `m` points in some
direction.  If the domain is large enough, then as many processes as the result uses can be arranged with
at least `m` points per process in every direction.  Missing: that the returned arrangement itself does
so; that is false, see `dims_create_minsize_fails`. -/
theorem dims_create_3d_partial (n : ℕ) (g : ℕ × ℕ × ℕ) (m : ℕ) (hn : 1 ≤ n) (hm : 1 ≤ m) :
    ∃ x y z ierr, dimsCreate3 n g m = some ((x, y, z), ierr) ∧ 1 ≤ x ∧ 1 ≤ y ∧ 1 ≤ z ∧
      x * y * z ≤ n ∧ (ierr = 0 ↔ m ≤ g.1 ∧ m ≤ g.2.1 ∧ m ≤ g.2.2) ∧
      (m ≤ g.1 → m ≤ g.2.1 → m ≤ g.2.2 →
        ∃ x' y' z', x' * y' * z' = x * y * z ∧ 1 ≤ x' ∧ 1 ≤ y' ∧ 1 ≤ z' ∧
          m ≤ g.1 / x' ∧ m ≤ g.2.1 / y' ∧ m ≤ g.2.2 / z') := by
  obtain ⟨x, y, z, i, h1, h2, h3, h4, h5, h6, h7⟩ := dims3_spec false est2_ok est3_ok n g m hn hm
  refine ⟨x, y, z, i, h1, h2, h3, h4, h5, h6, fun a b c => ?_⟩
  obtain ⟨⟨x', y', z', p, p1, p2, p3, q1, q2, q3⟩, _⟩ := h7 a b c
  exact ⟨x', y', z', p, p1, p2, p3, (le_div_iff' p1).2 q1, (le_div_iff' p2).2 q2, (le_div_iff' p3).2 q3⟩

/-- With the minimum size also checked in the branch for equal numbers of processes, the full property
holds. -/
theorem dims_create_3d_fixed (n : ℕ) (g : ℕ × ℕ × ℕ) (m : ℕ) (hn : 1 ≤ n) (hm : 1 ≤ m) (h1 : m ≤ g.1)
    (h2 : m ≤ g.2.1) (h3 : m ≤ g.2.2) :
    ∃ x y z, dims3 true est2 est3 n g m = some ((x, y, z), 0) ∧ 1 ≤ x ∧ 1 ≤ y ∧ 1 ≤ z ∧
      x * y * z ≤ n ∧ m ≤ g.1 / x ∧ m ≤ g.2.1 / y ∧ m ≤ g.2.2 / z := by
  obtain ⟨x, y, z, i, a1, a2, a3, a4, a5, a6, a7⟩ := dims3_spec true est2_ok est3_ok n g m hn hm
  obtain ⟨-, q⟩ := a7 h1 h2 h3
  obtain ⟨q1, q2, q3⟩ := q rfl
  rw [a6.2 ⟨h1, h2, h3⟩] at a1
  exact ⟨x, y, z, a1, a2, a3, a4, a5, (le_div_iff' a2).2 q1, (le_div_iff' a3).2 q2, (le_div_iff' a4).2 q3⟩

/-! ## The minimum size can be violated -/

theorem dims2_congr (fixed : Bool) {n : ℕ} {g : ℕ × ℕ} {m : ℕ} (hm : 1 ≤ m) (h1 : 1 ≤ g.1) (h2 : 1 ≤ g.2) :
    dims2 fixed est2 n g m = dims2 fixed est2c n g m := by
  unfold dims2; rw [est2_eq hm h1 h2]

theorem dims3_congr (fixed : Bool) {n : ℕ} {g : ℕ × ℕ × ℕ} {m : ℕ} (hm : 1 ≤ m) (h1 : 1 ≤ g.1)
    (h2 : 1 ≤ g.2.1) (h3 : 1 ≤ g.2.2) :
    dims3 fixed est2 est3 n g m = dims3 fixed est2c est3c n g m := by
  unfold dims3
  rw [est3_eq hm h1 h2 h3]
  have a0 : ∀ k, dims2 fixed est2 k (g.2.1, g.2.2) m = dims2 fixed est2c k (g.2.1, g.2.2) m :=
    fun k => dims2_congr fixed hm h2 h3
  have a1 : ∀ k, dims2 fixed est2 k (g.1, g.2.2) m = dims2 fixed est2c k (g.1, g.2.2) m :=
    fun k => dims2_congr fixed hm h1 h3
  have a2 : ∀ k, dims2 fixed est2 k (g.1, g.2.1) m = dims2 fixed est2c k (g.1, g.2.1) m :=
    fun k => dims2_congr fixed hm h1 h2
  simp only [a0, a1, a2]

/-- **C09 fails in three dimensions.**  A 20 x 28 x 56 grid with a finite-difference order of 12 (minimum
size 6) on 60 processes is split 2 x 5 x 6, without an error: processes get `28 / 5 = 5 < 6` points in the
second direction, although 3 x 4 x 5 keeps 6 points everywhere. -/
theorem dims_create_minsize_fails :
    dimsCreate3 60 (20, 28, 56) 6 = some ((2, 5, 6), 0) ∧ 28 / 5 < 6 ∧
      3 * 4 * 5 = 60 ∧ 6 ≤ 20 / 3 ∧ 6 ≤ 28 / 4 ∧ 6 ≤ 56 / 5 := by
  refine ⟨?_, by norm_num, by norm_num, by norm_num, by norm_num, by norm_num⟩
  unfold dimsCreate3
  rw [dims3_congr false (by norm_num) (by norm_num) (by norm_num) (by norm_num)]
  decide +kernel

/-- On the same input the corrected scan keeps the minimum size. -/
example : dims3 true est2 est3 60 (20, 28, 56) 6 = some ((3, 4, 5), 0) := by
  rw [dims3_congr true (by norm_num) (by norm_num) (by norm_num) (by norm_num)]
  decide +kernel

/-- Non-trivial instances. -/
example : dimsCreate2 12 (30, 40) 6 = some ((3, 4), 0) := by
  unfold dimsCreate2; rw [dims2_congr false (by norm_num) (by norm_num) (by norm_num)]; decide +kernel

example : dimsCreate3 24 (48, 60, 30) 6 = some ((3, 4, 2), 0) := by
  unfold dimsCreate3
  rw [dims3_congr false (by norm_num) (by norm_num) (by norm_num) (by norm_num)]; decide +kernel

/-- Domain too small: everything is put on one axis and the error flag is raised. -/
example : dimsCreate3 8 (4, 30, 30) 6 = some ((8, 1, 1), 1) := by
  unfold dimsCreate3
  rw [dims3_congr false (by norm_num) (by norm_num) (by norm_num) (by norm_num)]; decide +kernel

end Sparc.Dims

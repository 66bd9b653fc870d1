import Verif.Restart.Model
import Mathlib.Algebra.Order.Field.Basic

/-!
# What a restarted calculation continues from
-/

namespace Sparc.Restart

/-! ## Reading what was written -/

/-- An array set. -/
private def fill (k : K) (i m : ℕ) (f : ℕ → ℝ) (s : St) : St :=
  { s with x := fun k' j => if k' = k ∧ i ≤ j ∧ j < i + m then some (f j) else s.x k' j }

private theorem gets_nums (k : K) (b : ℕ) (f : ℕ → ℝ) (rest : List Sym) :
    ∀ m i s, gets k i m (nums b f i m ++ rest, s) = (rest, fill k i m f s) := by
  intro m
  induction m with
  | zero =>
    intro i s
    simp only [gets, nums, List.nil_append, fill]
    congr 1
    cases s
    congr 1
    funext k' j
    rw [if_neg (by omega)]
  | succ m ih =>
    intro i s
    have hg : get k i (nums b f i (m + 1) ++ rest, s) = (nums b f (i + 1) m ++ rest, put k i (f i) s) := by
      by_cases h : i % b = 0 <;> simp [get, nums, h, scanNum]
    simp only [gets]
    rw [hg, ih]
    congr 1
    simp only [fill, put]
    congr 1
    funext k' j
    by_cases hk : k' = k
    · subst hk
      by_cases h1 : j = i
      · subst h1
        rw [if_neg (by omega), if_pos (by simp), if_pos (by simp)]
      · by_cases h2 : i + 1 ≤ j ∧ j < i + 1 + m
        · rw [if_pos (by simp; omega), if_pos (by simp; omega)]
        · rw [if_neg (by simp; omega), if_neg (by simp [h1]), if_neg (by simp; omega)]
    · simp [hk]

private theorem read_nl (c : Cfg) (n : ℕ) (l : List Sym) (s : St) : read c n (.nl :: l) s = read c n l s := by
  cases n <;> simp [read, next]

private theorem read_txt (c : Cfg) (n : ℕ) (l : List Sym) (s : St) :
    read c (n + 1) (.txt :: l) s = read c n l s := by
  simp [read, next]

private theorem read_nil (c : Cfg) (n : ℕ) (s : St) : read c n [] s = some s := by
  cases n <;> simp [read, next]

private theorem read_hd (c : Cfg) (n : ℕ) (h : H) (l : List Sym) (s : St) :
    read c (n + 1) (.hd h :: l) s = (act c h (l, s)).bind fun p => read c n p.1 p.2 := by
  simp [read, next]

private theorem read_arr {c : Cfg} {h : H} {k : K} {m : ℕ} (ha : ∀ p, act c h p = some (gets k 0 m p))
    (n b : ℕ) (f : ℕ → ℝ) (rest : List Sym) (s : St) :
    read c (n + 1) (arr h b m f ++ rest) s = read c n rest (fill k 0 m f s) := by
  simp only [arr, List.cons_append, List.append_assoc]
  rw [read_hd, ha, gets_nums]
  simp [read_nl]

private theorem read_one {c : Cfg} {h : H} {k : K} (ha : ∀ p, act c h p = some (get k 0 p))
    (n : ℕ) (v : ℝ) (rest : List Sym) (s : St) :
    read c (n + 1) (one h v ++ rest) s = read c n rest (put k 0 v s) := by
  simp only [one, List.cons_append, List.nil_append]
  rw [read_hd, ha]
  simp [get, scanNum, read_nl]

private theorem read_oneI {c : Cfg} {h : H} {k : I} (ha : ∀ p, act c h p = some (getI k p))
    (n v : ℕ) (rest : List Sym) (s : St) :
    read c (n + 1) ([.hd h, .int v, .nl] ++ rest) s = read c n rest (putI k v s) := by
  simp only [List.cons_append, List.nil_append]
  rw [read_hd, ha]
  simp [getI, scanInt, read_nl]

/-- A number whose keyword is handled twice. -/
private theorem read_two {c : Cfg} {h h' : H} {k : K} (ha : ∀ p, act c h p = some (get k 0 (get k 0 p)))
    (n : ℕ) (v : ℝ) (rest : List Sym) (s : St) :
    read c (n + 1) (one h v ++ .hd h' :: rest) s = read c n (.hd h' :: rest) (put k 0 v s) := by
  simp only [one, List.cons_append, List.nil_append]
  rw [read_hd, ha]
  simp [get, scanNum, read_nl]

private theorem read_none {c : Cfg} {h : H} (ha : ∀ p, act c h p = some p)
    (n : ℕ) (v : ℝ) (rest : List Sym) (s : St) :
    read c (n + 2) (one h v ++ rest) s = read c n rest s := by
  simp only [one, List.cons_append, List.nil_append]
  rw [read_hd, ha]
  simp [read, next, read_nl]

private theorem read_carr {c : Cfg} {h : H} {k : K} (ha : ∀ p, act c h p = getCarr k p) {m : ℕ} (hm : m ≤ 60)
    (n : ℕ) (f : ℕ → ℝ) (rest : List Sym) (s : St) :
    read c (n + 1) (carr h m f ++ rest) s = read c n rest (fill k 0 m f (putI .nnos m s)) := by
  simp only [carr, List.cons_append, List.append_assoc]
  rw [read_hd, ha]
  have h1 : (putI .nnos m s).n .nnos = m := by simp [putI]
  simp only [getCarr, getI, scanInt, h1, if_pos hm, Option.bind_some]
  rw [gets_nums]
  simp [skipLine, read_nl]

/-! ## Sending -/

/-- A part of an array copied. -/
private def copy (k : K) (i m : ℕ) (r s : St) : St :=
  { s with x := fun k' j => if k' = k ∧ i ≤ j ∧ j < i + m then r.x k j else s.x k' j }

private theorem takeD_map (k : K) (r : St) (b : List Val) :
    ∀ m i s, takeD k i m ((List.range' i m).map (fun j => .dbl (r.x k j)) ++ b) s = (b, copy k i m r s) := by
  intro m
  induction m with
  | zero =>
    intro i s
    simp only [takeD, List.range'_zero, List.map_nil, List.nil_append, copy]
    congr 1
    cases s
    congr 1
    funext k' j
    rw [if_neg (by omega)]
  | succ m ih =>
    intro i s
    simp only [List.range'_succ, List.map_cons, List.cons_append, takeD]
    rw [ih]
    congr 1
    simp only [copy]
    congr 1
    funext k' j
    by_cases hk : k' = k
    · subst hk
      by_cases h1 : j = i
      · subst h1
        rw [if_neg (by omega), if_pos (by simp), if_pos (by simp)]
      · by_cases h2 : i + 1 ≤ j ∧ j < i + 1 + m
        · rw [if_pos (by simp; omega), if_pos (by simp; omega)]
        · rw [if_neg (by simp; omega), if_neg (by simp [h1]), if_neg (by simp; omega)]
    · simp [hk]

private theorem un_int (k : I) (r : St) (b : List Val) (s : St) :
    unpackItem (.int k) (packItem r (.int k) ++ b, s) = (b, putI k (r.n k) s) := rfl

private theorem un_dbl (k : K) (m : ℕ) (r : St) (b : List Val) (s : St) :
    unpackItem (.dbl k m) (packItem r (.dbl k m) ++ b, s) = (b, copy k 0 m r s) := by
  simp only [unpackItem, packItem, List.range_eq_range']
  exact takeD_map k r b m 0 s

private theorem un_nh (k : K) (r : St) (b : List Val) (s : St) (h : s.n .nnos = r.n .nnos) :
    unpackItem (.nh k) (packItem r (.nh k) ++ b, s) = (b, copy k 0 (r.n .nnos) r s) := by
  simp only [unpackItem, packItem, List.range_eq_range', h]
  exact takeD_map k r b _ 0 s

private theorem size_int (k : I) (r : St) : ((packItem r (.int k)).map Val.size).sum = 4 := rfl

private theorem size_dbl (k : K) (m : ℕ) (r : St) : ((packItem r (.dbl k m)).map Val.size).sum = m * 8 := by
  simp only [packItem, List.map_map]
  have : (Val.size ∘ fun i => Val.dbl (r.x k i)) = fun _ => 8 := rfl
  rw [this]
  simp

private theorem size_nh (k : K) (r : St) : ((packItem r (.nh k)).map Val.size).sum = r.n .nnos * 8 := by
  simp only [packItem, List.map_map]
  have : (Val.size ∘ fun i => Val.dbl (r.x k i)) = fun _ => 8 := rfl
  rw [this]
  simp

private theorem restart_of {c : Cfg} {file : List Sym} {root other R : St}
    (hr : read c file.length file { root with x := fun k i => if k = .vel then none else root.x k i } = some R)
    (hs : (((packs c).flatMap (packItem R)).map Val.size).sum ≤ bufLen c root) :
    restart c file root other = some (R, ((unpacks c).foldl (fun p i => unpackItem i p)
      ((packs c).flatMap (packItem R), { other with x := fun k i => if k = .vel then none else other.x k i })).2) := by
  simp only [restart]
  rw [hr]
  simp only [Option.bind_some]
  rw [if_pos hs]

/-! ## The cell -/

private noncomputable def cellSt (d : ℕ) (r raw : ℕ → ℝ) (s : St) : St :=
  { s with x := fun k i =>
      if k = .scale ∧ i = 0 then (s.x .range d).map fun b => r d / b
      else if k = .range ∧ i < 3 then some (r i)
      else if k = .now then (if i < 3 then some (raw i) else none) else s.x k i }

private noncomputable def rng (F : Fmt) (c : Cfg) (w : K → ℕ → ℝ) (d : ℕ) : ℝ :=
  if c.latscale then c.len d * F.g15 (w .range d / c.len d) else F.g15 (w .range d)

private noncomputable def raw (F : Fmt) (c : Cfg) (w : K → ℕ → ℝ) (d : ℕ) : ℝ :=
  if c.latscale then F.g15 (w .range d / c.len d) else F.g15 (w .range d)

private theorem now_eq (a b e : ℝ) (s : St) (l : List Sym) :
    getNow (.num a :: .num b :: .num e :: .nl :: l, s) =
      (.nl :: l, { s with x := fun k i => if k = .now then (if i = 2 then some e else if i = 1 then some b
        else if i = 0 then some a else none) else s.x k i }) := by
  simp only [getNow, gets, get, scanNum, skipLine, put]
  congr 2
  funext k i
  by_cases hk : k = .now <;> simp [hk]

private theorem set_now {d : ℕ} (hd : d < 3) (q r : ℕ → ℝ) (f : ℕ → ℝ → ℝ) (hf : ∀ i < 3, f i (q i) = r i) (s : St) :
    setCell d (fun i => (if i = 2 then some (q 2) else if i = 1 then some (q 1)
        else if i = 0 then some (q 0) else none : Option ℝ).map (f i))
      { s with x := fun k i => if k = .now then (if i = 2 then some (q 2) else if i = 1 then some (q 1)
        else if i = 0 then some (q 0) else none) else s.x k i } = cellSt d r q s := by
  have h0 := hf 0 (by omega)
  have h1 := hf 1 (by omega)
  have h2 := hf 2 (by omega)
  simp only [setCell, cellSt]
  congr 1
  funext k i
  by_cases hs : k = .scale ∧ i = 0
  · rw [if_pos hs, if_pos hs]
    have : d = 0 ∨ d = 1 ∨ d = 2 := by omega
    rcases this with rfl | rfl | rfl <;> simp [h0, h1, h2]
  · rw [if_neg hs, if_neg hs]
    by_cases hr : k = .range ∧ i < 3
    · rw [if_pos hr, if_pos hr]
      have : i = 0 ∨ i = 1 ∨ i = 2 := by omega
      rcases this with rfl | rfl | rfl <;> simp [h0, h1, h2]
    · rw [if_neg hr, if_neg hr]
      by_cases hk : k = .now
      · rw [if_pos hk, if_pos hk]
        by_cases hi : i < 3
        · have : i = 0 ∨ i = 1 ∨ i = 2 := by omega
          rcases this with rfl | rfl | rfl <;> simp
        · rw [if_neg (by omega), if_neg (by omega), if_neg (by omega), if_neg hi]
      · rw [if_neg hk, if_neg hk]

private theorem read_cell (F : Fmt) {c : Cfg} (w : K → ℕ → ℝ) {d : ℕ} (hd : d < 3)
    (h1 : ∀ p, act c .cell p = some ((getNow p).1, setCell d ((getNow p).2.x .now) (getNow p).2))
    (h2 : ∀ p, act c .latscale p = some ((getNow p).1,
      setCell d (fun d => ((getNow p).2.x .now d).map fun v => c.len d * v) (getNow p).2))
    (n : ℕ) (rest : List Sym) (s : St) :
    read c (n + 1) (cellLine F c w ++ rest) s = read c n rest (cellSt d (rng F c w) (raw F c w) s) := by
  by_cases hl : c.latscale = true
  · have hq : ∀ i, raw F c w i = F.g15 (w .range i / c.len i) := fun i => by simp [raw, hl]
    simp only [cellLine, hl, if_true, List.cons_append, List.nil_append]
    rw [read_hd, h2, ← hq 0, ← hq 1, ← hq 2, now_eq]
    simp only [Option.bind_some, if_true]
    rw [read_nl, set_now hd (raw F c w) (rng F c w) (fun i v => c.len i * v)
      (fun i _ => by simp [rng, raw, hl])]
  · have hq : ∀ i, raw F c w i = F.g15 (w .range i) := fun i => by simp [raw, hl]
    simp only [cellLine, hl, if_false, Bool.false_eq_true, List.cons_append, List.nil_append]
    rw [read_hd, h1, ← hq 0, ← hq 1, ← hq 2, now_eq]
    simp only [Option.bind_some, if_true]
    have := set_now hd (raw F c w) (rng F c w) (fun _ v => v) (fun i _ => by simp [rng, raw, hl]) s
    simp only [Option.map_id'] at this
    rw [read_nl, this]

/-! ## What the claims say -/

/-- A variable has the value up to a relative error. -/
def Close (e : ℝ) (a : Option ℝ) (v : ℝ) : Prop := ∃ u, a = some u ∧ |u - v| ≤ e * |v|

/-- A variable has the value up to an error. -/
def Near (e : ℝ) (a : Option ℝ) (v : ℝ) : Prop := ∃ u, a = some u ∧ |u - v| ≤ e

private theorem close_e (F : Fmt) (v : ℝ) : Close (5 / 10 ^ 11) (some (F.e10 v)) v := ⟨_, rfl, F.e10_near v⟩

private theorem close_g (F : Fmt) (v : ℝ) : Close (5 / 10 ^ 15) (some (F.g15 v)) v := ⟨_, rfl, F.g15_near v⟩

private theorem near_f (F : Fmt) (v : ℝ) : Near (5 / 10 ^ 16) (some (F.f15 v)) v := ⟨_, rfl, F.f15_near v⟩

private theorem close_rng (F : Fmt) (c : Cfg) (w : K → ℕ → ℝ) (d : ℕ) (h : c.len d ≠ 0) :
    Close (5 / 10 ^ 15) (some (rng F c w d)) (w .range d) := by
  refine ⟨_, rfl, ?_⟩
  simp only [rng]
  split_ifs
  · have h1 := F.g15_near (w .range d / c.len d)
    have h2 : c.len d * F.g15 (w .range d / c.len d) - w .range d =
        c.len d * (F.g15 (w .range d / c.len d) - w .range d / c.len d) := by
      field_simp
    rw [h2, abs_mul]
    calc |c.len d| * |F.g15 (w .range d / c.len d) - w .range d / c.len d|
        ≤ |c.len d| * (5 / 10 ^ 15 * |w .range d / c.len d|) := mul_le_mul_of_nonneg_left h1 (abs_nonneg _)
      _ = 5 / 10 ^ 15 * |w .range d| := by
        rw [abs_div]
        have : |c.len d| ≠ 0 := abs_ne_zero.mpr h
        field_simp
  · exact F.g15_near _

private theorem close_prt (F : Fmt) (v : ℝ) : Close (5 / 10 ^ 15) (some (F.g15 (v * gpa) / gpa)) v := by
  refine ⟨_, rfl, ?_⟩
  have hg : (0 : ℝ) < gpa := by norm_num [gpa]
  have h1 := F.g15_near (v * gpa)
  have h2 : F.g15 (v * gpa) / gpa - v = (F.g15 (v * gpa) - v * gpa) / gpa := by field_simp
  rw [h2, abs_div, abs_of_pos hg, div_le_iff₀ hg]
  rwa [abs_mul, abs_of_pos hg, ← mul_assoc] at h1

/-! ## One method after another -/

private theorem put_x (k : K) (i : ℕ) (v : ℝ) (s : St) (k' : K) (j : ℕ) :
    (put k i v s).x k' j = if k' = k ∧ j = i then some v else s.x k' j := rfl

private theorem put_n (k : K) (i : ℕ) (v : ℝ) (s : St) : (put k i v s).n = s.n := rfl

private theorem fill_x (k : K) (i m : ℕ) (f : ℕ → ℝ) (s : St) (k' : K) (j : ℕ) :
    (fill k i m f s).x k' j = if k' = k ∧ i ≤ j ∧ j < i + m then some (f j) else s.x k' j := rfl

private theorem fill_n (k : K) (i m : ℕ) (f : ℕ → ℝ) (s : St) : (fill k i m f s).n = s.n := rfl

private theorem putI_x (k : I) (v : ℕ) (s : St) : (putI k v s).x = s.x := rfl

private theorem putI_n (k : I) (v : ℕ) (s : St) (k' : I) : (putI k v s).n k' = if k' = k then v else s.n k' := rfl

private theorem copy_x (k : K) (i m : ℕ) (r s : St) (k' : K) (j : ℕ) :
    (copy k i m r s).x k' j = if k' = k ∧ i ≤ j ∧ j < i + m then r.x k j else s.x k' j := rfl

private theorem copy_n (k : K) (i m : ℕ) (r s : St) : (copy k i m r s).n = s.n := rfl

private theorem cellSt_x (d : ℕ) (r raw : ℕ → ℝ) (s : St) (k : K) (i : ℕ) : (cellSt d r raw s).x k i =
    if k = .scale ∧ i = 0 then (s.x .range d).map fun b => r d / b
    else if k = .range ∧ i < 3 then some (r i)
    else if k = .now then (if i < 3 then some (raw i) else none) else s.x k i := rfl

private theorem cellSt_n (d : ℕ) (r raw : ℕ → ℝ) (s : St) : (cellSt d r raw s).n = s.n := rfl

/-- Read from the file, up to rounding: step, positions, velocities. -/
private def Core (F : Fmt) (c : Cfg) (step : ℕ) (w : K → ℕ → ℝ) (p : St) : Prop :=
  p.n .count = step ∧ (∀ i < 3 * c.natom, p.x .pos i = some (F.e10 (w .pos i))) ∧
    ∀ i < 3 * c.natom, p.x .vel i = some (F.e10 (w .vel i))

private def Temps (F : Fmt) (w : K → ℕ → ℝ) (p : St) : Prop :=
  p.x .telec 0 = some (F.g15 (w .telec 0)) ∧ p.x .tion 0 = some (F.g15 (w .tion 0))

private theorem front {c : Cfg}
    (hm : c.meth = .nve ∨ c.meth = .nvk ∨ c.meth = .nvt ∨ c.meth = .nph ∨ c.meth = .npp) :
    (∀ p, act c .mdstep p = some (getI .count p)) ∧ (∀ p, act c .R p = some (gets .pos 0 (3 * c.natom) p)) ∧
    (∀ p, act c .V p = some (gets .vel 0 (3 * c.natom) p)) := by
  refine ⟨fun p => ?_, fun p => ?_, fun p => ?_⟩ <;>
  rcases hm with h | h | h | h | h <;> simp [act, h, chain, chainH, chainP]

private theorem back {c : Cfg} (hf : c.flag = 1)
    (hm : c.meth = .nve ∨ c.meth = .nvk ∨ c.meth = .nvt ∨ c.meth = .nph ∨ c.meth = .npp) :
    (∀ p, act c .tel p = some (get .telec 0 p)) ∧ (∀ p, act c .tio p = some (get .tion 0 p)) := by
  refine ⟨fun p => ?_, fun p => ?_⟩ <;>
  rcases hm with h | h | h | h | h <;> simp [act, h, chain, chainH, chainP, hf]

private theorem back' {c : Cfg} (hf : c.flag = -1)
    (hm : c.meth = .nve ∨ c.meth = .nvk ∨ c.meth = .nvt ∨ c.meth = .nph ∨ c.meth = .npp) :
    (∀ p, act c .tel p = some p) ∧ (∀ p, act c .tio p = some p) := by
  refine ⟨fun p => ?_, fun p => ?_⟩ <;>
  rcases hm with h | h | h | h | h <;> simp [act, h, chain, chainH, chainP, hf]

private theorem read_end {c : Cfg} {h : H} {k : K} (ha : ∀ p, act c h p = some (get k 0 p))
    (n : ℕ) (v : ℝ) (s : St) : read c (n + 1) (one h v) s = some (put k 0 v s) := by
  have := read_one ha n v [] s
  rwa [List.append_nil, read_nil] at this

private theorem read_end' {c : Cfg} {h : H} (ha : ∀ p, act c h p = some p)
    (n : ℕ) (v : ℝ) (s : St) : read c (n + 2) (one h v) s = some s := by
  have := read_none ha n v [] s
  rwa [List.append_nil, read_nil] at this

private theorem plain_read (F : Fmt) {c : Cfg} (hf : c.flag = 1) (hm : c.meth = .nve ∨ c.meth = .nvk)
    (step nnos : ℕ) (w : K → ℕ → ℝ) (s : St) :
    ∃ R, read c (writeMD F c step nnos w).length (writeMD F c step nnos w) s = some R ∧
      Core F c step w R ∧ Temps F w R := by
  have hM : c.meth = .nve ∨ c.meth = .nvk ∨ c.meth = .nvt ∨ c.meth = .nph ∨ c.meth = .npp := by tauto
  obtain ⟨a1, a2, a3⟩ := front hM
  obtain ⟨b1, b2⟩ := back hf hM
  obtain ⟨m, hl⟩ : ∃ m, (writeMD F c step nnos w).length = m + 5 := by
    refine ⟨_, (Nat.sub_add_cancel ?_).symm⟩
    rcases hm with h | h <;> simp [writeMD, h, arr, one] <;> omega
  rw [hl]
  have hw : writeMD F c step nnos w = [.hd .mdstep, .int step, .nl] ++ (arr .R 3 (3 * c.natom) (fun i => F.e10 (w .pos i)) ++
      (arr .V 3 (3 * c.natom) (fun i => F.e10 (w .vel i)) ++
      (one .tel (F.g15 (w .telec 0)) ++ one .tio (F.g15 (w .tion 0))))) := by
    rcases hm with h | h <;> simp [writeMD, h]
  rw [hw, read_oneI a1, read_arr a2, read_arr a3, read_one b1, read_end b2]
  refine ⟨_, rfl, ⟨?_, fun i hi => ?_, fun i hi => ?_⟩, ?_, ?_⟩ <;>
    simp [put_x, put_n, fill_x, fill_n, putI_x, putI_n] <;> intros <;> omega

private theorem nvt_read (F : Fmt) {c : Cfg} (hf : c.flag = 1) (hm : c.meth = .nvt)
    (step nnos : ℕ) (w : K → ℕ → ℝ) (s : St) :
    ∃ R, read c (writeMD F c step nnos w).length (writeMD F c step nnos w) s = some R ∧
      Core F c step w R ∧ Temps F w R ∧ R.x .snose 0 = some (F.g15 (w .snose 0)) ∧
      R.x .xi 0 = some (F.g15 (w .xi 0)) ∧ R.x .tTi 0 = some (F.g15 (w .tT 0)) := by
  have hM : c.meth = .nve ∨ c.meth = .nvk ∨ c.meth = .nvt ∨ c.meth = .nph ∨ c.meth = .npp := by tauto
  obtain ⟨a1, a2, a3⟩ := front hM
  obtain ⟨b1, b2⟩ := back hf hM
  have c1 : ∀ p, act c .snose p = some (get .snose 0 p) := fun p => by simp [act, hm, chain, hf]
  have c2 : ∀ p, act c .xinose p = some (get .xi 0 p) := fun p => by simp [act, hm, chain, hf]
  have c3 : ∀ p, act c .tthrmi p = some (get .tTi 0 p) := fun p => by simp [act, hm, chain, hf]
  obtain ⟨m, hl⟩ : ∃ m, (writeMD F c step nnos w).length = m + 8 := by
    refine ⟨_, (Nat.sub_add_cancel ?_).symm⟩
    simp [writeMD, hm, arr, one]
    omega
  rw [hl]
  simp only [writeMD, hm, List.append_assoc]
  rw [read_oneI a1, read_arr a2, read_arr a3, read_one c1, read_one c2, read_one c3, read_one b1, read_end b2]
  refine ⟨_, rfl, ⟨?_, fun i hi => ?_, fun i hi => ?_⟩, ⟨?_, ?_⟩, ?_, ?_, ?_⟩ <;>
    simp [put_x, put_n, fill_x, fill_n, putI_x, putI_n] <;> intros <;> omega

/-- What belongs to NPT_NH. -/
private def ExtH (F : Fmt) (c : Cfg) (nnos : ℕ) (w : K → ℕ → ℝ) (b : Option ℝ) (p : St) : Prop :=
  p.n .nnos = nnos ∧ (∀ i < nnos, p.x .qmassH i = some (F.g15 (w .qmassH i))) ∧
  (∀ i < nnos, p.x .vlogs i = some (F.g15 (w .vlogs i))) ∧
  (∀ i < nnos, p.x .xlogs i = some (F.g15 (w .xlogs i))) ∧
  p.x .bmassH 0 = some (F.g15 (w .bmassH 0)) ∧ p.x .vlogv 0 = some (F.g15 (w .vlogv 0)) ∧
  (∀ i < 3, p.x .range i = some (rng F c w i)) ∧
  p.x .scale 0 = (b.map fun b => rng F c w (scaleDir c) / b) ∧
  p.x .tTi 0 = some (F.g15 (w .tTi 0)) ∧ p.x .prt 0 = some (F.g15 (w .prt 0 * gpa))

private theorem nph_acts {c : Cfg} (hm : c.meth = .nph) :
    (∀ p, act c .hQmass p = getCarr .qmassH p) ∧ (∀ p, act c .hVlogs p = getCarr .vlogs p) ∧
    (∀ p, act c .hXlogs p = getCarr .xlogs p) ∧ (∀ p, act c .hBmass p = some (get .bmassH 0 p)) ∧
    (∀ p, act c .hVlogv p = some (get .vlogv 0 p)) ∧ (∀ p, act c .pressure p = some (get .prt 0 p)) ∧
    (∀ p, act c .cell p = some ((getNow p).1, setCell (scaleDir c) ((getNow p).2.x .now) (getNow p).2)) ∧
    (∀ p, act c .latscale p = some ((getNow p).1,
      setCell (scaleDir c) (fun d => ((getNow p).2.x .now d).map fun v => c.len d * v) (getNow p).2)) := by
  refine ⟨fun p => ?_, fun p => ?_, fun p => ?_, fun p => ?_, fun p => ?_, fun p => ?_, fun p => ?_, fun p => ?_⟩ <;>
    simp [act, hm, chain, chainH]

private theorem dir_lt (c : Cfg) : scaleDir c < 3 := by
  simp only [scaleDir]
  split_ifs <;> omega

private theorem read_prt {c : Cfg} (ha : ∀ p, act c .pressure p = some (get .prt 0 p)) (n : ℕ) (v : ℝ)
    (rest : List Sym) (s : St) :
    read c (n + 2) ([.hd .pressure, .num v, .txt, .nl] ++ rest) s = read c n rest (put .prt 0 v s) := by
  simp only [List.cons_append, List.nil_append]
  rw [read_hd, ha]
  simp only [get, scanNum, Option.bind_some]
  rw [read_txt, read_nl]

private theorem nph_read (F : Fmt) {c : Cfg} (hf : c.flag = 1) (hm : c.meth = .nph)
    (step nnos : ℕ) (hn : nnos ≤ 60) (w : K → ℕ → ℝ) (s : St) :
    ∃ R, read c (writeMD F c step nnos w).length (writeMD F c step nnos w) s = some R ∧
      Core F c step w R ∧ Temps F w R ∧ ExtH F c nnos w (s.x .range (scaleDir c)) R := by
  have hM : c.meth = .nve ∨ c.meth = .nvk ∨ c.meth = .nvt ∨ c.meth = .nph ∨ c.meth = .npp := by tauto
  obtain ⟨a1, a2, a3⟩ := front hM
  obtain ⟨b1, b2⟩ := back hf hM
  obtain ⟨c1, c2, c3, c4, c5, c6, c7, c8⟩ := nph_acts hm
  have c9 : ∀ p, act c .tthrmi p = some (get .tTi 0 (get .tTi 0 p)) := fun p => by
    simp [act, hm, chain, chainH, hf]
  obtain ⟨m, hl⟩ : ∃ m, (writeMD F c step nnos w).length = m + 14 := by
    refine ⟨_, (Nat.sub_add_cancel ?_).symm⟩
    simp [writeMD, hm, arr, one, carr]
    omega
  rw [hl]
  simp only [writeMD, hm, List.append_assoc]
  rw [read_oneI a1, read_arr a2, read_arr a3, read_carr c1 hn, read_one c4, read_carr c2 hn, read_one c5,
    read_carr c3 hn, read_cell F w (dir_lt c) c7 c8]
  have hp : ∀ l, ([.hd .pressure, .num (F.g15 (w .prt 0 * gpa)), .txt, .nl] ++ l : List Sym) =
    .hd .pressure :: ([.num (F.g15 (w .prt 0 * gpa)), .txt, .nl] ++ l) := fun _ => rfl
  rw [hp, read_two c9, ← hp, read_prt c6, read_one b1, read_end b2]
  refine ⟨_, rfl, ⟨?_, fun i hi => ?_, fun i hi => ?_⟩, ⟨?_, ?_⟩, ?_, fun i hi => ?_, fun i hi => ?_, fun i hi => ?_,
    ?_, ?_, fun i hi => ?_, ?_, ?_, ?_⟩ <;>
    simp [put_x, put_n, fill_x, fill_n, putI_x, putI_n, cellSt_x, cellSt_n] <;> intros <;> omega

/-- What belongs to NPT_NP. -/
private def ExtP (F : Fmt) (c : Cfg) (w : K → ℕ → ℝ) (b : Option ℝ) (p : St) : Prop :=
  p.x .qmassP 0 = some (F.g15 (w .qmassP 0)) ∧ p.x .bmassP 0 = some (F.g15 (w .bmassP 0)) ∧
  p.x .sv 0 = some (F.g15 (w .sv 0)) ∧ p.x .s 0 = some (F.g15 (w .s 0)) ∧
  (∀ i < 3, p.x .rvelo i = some (F.g15 (w .rvelo i))) ∧
  (∀ i < 3, p.x .range i = some (rng F c w i)) ∧ p.x .scale 0 = (b.map fun b => rng F c w 0 / b) ∧
  p.x .tTi 0 = some (F.g15 (w .tTi 0)) ∧ p.x .prt 0 = some (F.g15 (w .prt 0 * gpa)) ∧
  p.x .hamil 0 = some (F.g15 (w .hamil 0))

private theorem read_at {c : Cfg} {h : H} {k : K} {i : ℕ} (ha : ∀ p, act c h p = some (get k i p))
    (n : ℕ) (v : ℝ) (rest : List Sym) (s : St) :
    read c (n + 1) (one h v ++ rest) s = read c n rest (put k i v s) := by
  simp only [one, List.cons_append, List.nil_append]
  rw [read_hd, ha]
  simp [get, scanNum, read_nl]

private theorem npp_acts {c : Cfg} (hm : c.meth = .npp) :
    (∀ p, act c .pQmass p = some (get .qmassP 0 p)) ∧ (∀ p, act c .pBmass p = some (get .bmassP 0 p)) ∧
    (∀ p, act c .pSv p = some (get .sv 0 p)) ∧ (∀ p, act c .pPm p = some p) ∧ (∀ p, act c .pS p = some (get .s 0 p)) ∧
    (∀ p, act c .pVx p = some (get .rvelo 0 p)) ∧ (∀ p, act c .pVy p = some (get .rvelo 1 p)) ∧
    (∀ p, act c .pVz p = some (get .rvelo 2 p)) ∧ (∀ p, act c .pressure p = some (get .prt 0 p)) ∧
    (∀ p, act c .pHamil p = some (get .hamil 0 p)) ∧
    (∀ p, act c .cell p = some ((getNow p).1, setCell 0 ((getNow p).2.x .now) (getNow p).2)) ∧
    (∀ p, act c .latscale p = some ((getNow p).1,
      setCell 0 (fun d => ((getNow p).2.x .now d).map fun v => c.len d * v) (getNow p).2)) := by
  refine ⟨fun p => ?_, fun p => ?_, fun p => ?_, fun p => ?_, fun p => ?_, fun p => ?_, fun p => ?_, fun p => ?_,
    fun p => ?_, fun p => ?_, fun p => ?_, fun p => ?_⟩ <;>
    simp [act, hm, chain, chainP]

private theorem read_pm {c : Cfg} (ha : ∀ p, act c .pPm p = some p) (n : ℕ) (u v t : ℝ)
    (rest : List Sym) (s : St) :
    read c (n + 4) ([.hd .pPm, .num u, .num v, .num t, .nl] ++ rest) s = read c n rest s := by
  simp only [List.cons_append, List.nil_append]
  rw [read_hd, ha]
  simp [read, next, read_nl]

private theorem npp_read (F : Fmt) {c : Cfg} (hf : c.flag = 1) (hm : c.meth = .npp)
    (step nnos : ℕ) (w : K → ℕ → ℝ) (s : St) :
    ∃ R, read c (writeMD F c step nnos w).length (writeMD F c step nnos w) s = some R ∧
      Core F c step w R ∧ Temps F w R ∧ ExtP F c w (s.x .range 0) R := by
  have hM : c.meth = .nve ∨ c.meth = .nvk ∨ c.meth = .nvt ∨ c.meth = .nph ∨ c.meth = .npp := by tauto
  obtain ⟨a1, a2, a3⟩ := front hM
  obtain ⟨b1, b2⟩ := back hf hM
  obtain ⟨c1, c2, c3, c4, c5, c6, c7, c8, c9, c10, c11, c12⟩ := npp_acts hm
  have c13 : ∀ p, act c .tthrmi p = some (get .tTi 0 (get .tTi 0 p)) := fun p => by
    simp [act, hm, chain, chainP, hf]
  obtain ⟨m, hl⟩ : ∃ m, (writeMD F c step nnos w).length = m + 21 := by
    refine ⟨_, (Nat.sub_add_cancel ?_).symm⟩
    simp [writeMD, hm, arr, one]
    omega
  rw [hl]
  simp only [writeMD, hm, List.append_assoc]
  rw [read_oneI a1, read_arr a2, read_arr a3, read_one c1, read_one c2, read_one c3, read_pm c4, read_one c5,
    read_at c6, read_at c7, read_at c8, read_cell F w (by omega) c11 c12]
  have hp : ∀ l, ([.hd .pressure, .num (F.g15 (w .prt 0 * gpa)), .txt, .nl] ++ l : List Sym) =
    .hd .pressure :: ([.num (F.g15 (w .prt 0 * gpa)), .txt, .nl] ++ l) := fun _ => rfl
  rw [hp, read_two c13, ← hp, read_prt c9, read_one c10, read_one b1, read_end b2]
  refine ⟨_, rfl, ⟨?_, fun i hi => ?_, fun i hi => ?_⟩, ⟨?_, ?_⟩, ?_, ?_, ?_, ?_, fun i hi => ?_, fun i hi => ?_, ?_, ?_, ?_, ?_⟩
  case refine_10 =>
    have : i = 0 ∨ i = 1 ∨ i = 2 := by omega
    rcases this with rfl | rfl | rfl <;>
      simp [put_x, put_n, fill_x, fill_n, putI_x, putI_n, cellSt_x, cellSt_n]
  all_goals simp [put_x, put_n, fill_x, fill_n, putI_x, putI_n, cellSt_x, cellSt_n] <;> intros <;> omega

/-! ## The other processes -/

/-- What another process has after the broadcast. -/
private def sent (c : Cfg) (R o : St) : St :=
  ((unpacks c).foldl (fun p i => unpackItem i p) ((packs c).flatMap (packItem R), o)).2

private theorem sent_plain {c : Cfg} (hf : c.flag = 1) (hm : c.meth = .nve ∨ c.meth = .nvk) (R o : St) :
    (sent c R o).n .count = R.n .count ∧ (∀ i < 3 * c.natom, (sent c R o).x .pos i = R.x .pos i) ∧
    (∀ i < 3 * c.natom, (sent c R o).x .vel i = R.x .vel i) ∧ (sent c R o).x .telec 0 = R.x .telec 0 ∧
    (sent c R o).x .tion 0 = R.x .tion 0 := by
  rcases hm with hm | hm <;>
  · simp only [sent, unpacks, packs, hm, hf, if_true, List.append_nil, List.cons_append, List.nil_append,
      List.flatMap_cons, List.foldl_cons, un_int, un_dbl, List.foldl_nil]
    refine ⟨?_, fun i hi => ?_, fun i hi => ?_, ?_, ?_⟩ <;> simp [putI_x, putI_n, copy_x, copy_n] <;> intros <;> omega

private theorem sent_nvt {c : Cfg} (hf : c.flag = 1) (hm : c.meth = .nvt) (R o : St) :
    (sent c R o).n .count = R.n .count ∧ (∀ i < 3 * c.natom, (sent c R o).x .pos i = R.x .pos i) ∧
    (∀ i < 3 * c.natom, (sent c R o).x .vel i = R.x .vel i) ∧ (sent c R o).x .telec 0 = R.x .telec 0 ∧
    (sent c R o).x .tion 0 = R.x .tion 0 ∧ (sent c R o).x .snose 0 = R.x .snose 0 ∧
    (sent c R o).x .xi 0 = R.x .xi 0 ∧ (sent c R o).x .tTi 0 = R.x .tTi 0 := by
  simp only [sent, unpacks, packs, hm, hf, if_true, List.cons_append, List.nil_append,
    List.flatMap_cons, List.foldl_cons, un_int, un_dbl, List.foldl_nil]
  refine ⟨?_, fun i hi => ?_, fun i hi => ?_, ?_, ?_, ?_, ?_, ?_⟩ <;> simp [putI_x, putI_n, copy_x, copy_n] <;>
    intros <;> omega

private theorem sent_nph {c : Cfg} (hf : c.flag = 1) (hm : c.meth = .nph) (R o : St) :
    (sent c R o).n .count = R.n .count ∧ (∀ i < 3 * c.natom, (sent c R o).x .pos i = R.x .pos i) ∧
    (∀ i < 3 * c.natom, (sent c R o).x .vel i = R.x .vel i) ∧ (sent c R o).x .telec 0 = R.x .telec 0 ∧
    (sent c R o).x .tion 0 = R.x .tion 0 ∧ (sent c R o).n .nnos = R.n .nnos ∧
    (∀ i < R.n .nnos, (sent c R o).x .qmassH i = R.x .qmassH i) ∧
    (∀ i < R.n .nnos, (sent c R o).x .vlogs i = R.x .vlogs i) ∧
    (∀ i < R.n .nnos, (sent c R o).x .xlogs i = R.x .xlogs i) ∧
    (sent c R o).x .bmassH 0 = R.x .bmassH 0 ∧ (sent c R o).x .vlogv 0 = R.x .vlogv 0 ∧
    (∀ i < 3, (sent c R o).x .range i = R.x .range i) ∧ (sent c R o).x .scale 0 = R.x .scale 0 ∧
    (sent c R o).x .tTi 0 = R.x .tTi 0 ∧ (sent c R o).x .prt 0 = R.x .prt 0 := by
  simp only [sent, unpacks, packs, hm, hf, if_true, List.cons_append, List.nil_append,
    List.flatMap_cons, List.foldl_cons, un_int, un_dbl]
  rw [un_nh _ _ _ _ (by simp [putI_n]), un_nh _ _ _ _ (by simp [putI_n, copy_n]), un_nh _ _ _ _ (by simp [putI_n, copy_n])]
  simp only [un_dbl, List.foldl_nil]
  refine ⟨?_, fun i hi => ?_, fun i hi => ?_, ?_, ?_, ?_, fun i hi => ?_, fun i hi => ?_, fun i hi => ?_, ?_, ?_,
    fun i hi => ?_, ?_, ?_, ?_⟩ <;>
    simp [putI_x, putI_n, copy_x, copy_n] <;> intros <;> omega

private theorem sent_npp {c : Cfg} (hf : c.flag = 1) (hm : c.meth = .npp) (R o : St) :
    (sent c R o).n .count = R.n .count ∧ (∀ i < 3 * c.natom, (sent c R o).x .pos i = R.x .pos i) ∧
    (∀ i < 3 * c.natom, (sent c R o).x .vel i = R.x .vel i) ∧ (sent c R o).x .telec 0 = R.x .telec 0 ∧
    (sent c R o).x .tion 0 = R.x .tion 0 ∧ (sent c R o).x .qmassP 0 = R.x .qmassP 0 ∧
    (sent c R o).x .bmassP 0 = R.x .bmassP 0 ∧ (sent c R o).x .sv 0 = R.x .sv 0 ∧ (sent c R o).x .s 0 = R.x .s 0 ∧
    (∀ i < 3, (sent c R o).x .rvelo i = R.x .rvelo i) ∧
    (∀ i < 3, (sent c R o).x .range i = R.x .range i) ∧ (sent c R o).x .scale 0 = R.x .scale 0 ∧
    (sent c R o).x .tTi 0 = R.x .tTi 0 ∧ (sent c R o).x .prt 0 = R.x .prt 0 ∧
    (sent c R o).x .hamil 0 = R.x .hamil 0 := by
  simp only [sent, unpacks, packs, hm, hf, if_true, List.cons_append, List.nil_append,
    List.flatMap_cons, List.foldl_cons, un_int, un_dbl, List.foldl_nil]
  refine ⟨?_, fun i hi => ?_, fun i hi => ?_, ?_, ?_, ?_, ?_, ?_, ?_, fun i hi => ?_,
    fun i hi => ?_, ?_, ?_, ?_, ?_⟩ <;>
    simp [putI_x, putI_n, copy_x, copy_n] <;> intros <;> omega

private theorem sent_back {c : Cfg} (hf : c.flag = -1)
    (hm : c.meth = .nve ∨ c.meth = .nvk ∨ c.meth = .nvt ∨ c.meth = .nph ∨ c.meth = .npp) (R o : St) :
    (sent c R o).n .count = R.n .count ∧ (∀ i < 3 * c.natom, (sent c R o).x .pos i = R.x .pos i) ∧
    (∀ i < 3 * c.natom, (sent c R o).x .vel i = R.x .vel i) ∧
    ∀ k i, k ≠ .pos → k ≠ .vel → (sent c R o).x k i = o.x k i := by
  rcases hm with hm | hm | hm | hm | hm <;>
  · simp only [sent, unpacks, packs, hm, hf, List.append_nil, show ¬ ((-1 : ℤ) = 1) by norm_num, if_false,
      List.flatMap_cons, List.foldl_cons, un_int, un_dbl, List.foldl_nil]
    refine ⟨?_, fun i hi => ?_, fun i hi => ?_, fun k i h1 h2 => ?_⟩ <;> simp [putI_x, putI_n, copy_x, copy_n, *]
    all_goals intros; omega

private theorem fits {c : Cfg} (hf : c.flag = 1 ∨ c.flag = -1)
    (hm : c.meth = .nve ∨ c.meth = .nvk ∨ c.meth = .nvt ∨ c.meth = .nph ∨ c.meth = .npp) (R root : St)
    (hn : c.flag = 1 → c.meth = .nph → R.n .nnos ≤ root.n .nnos + 1) :
    (((packs c).flatMap (packItem R)).map Val.size).sum ≤ bufLen c root := by
  rcases hf with hf | hf <;> rcases hm with hm | hm | hm | hm | hm <;>
    simp only [packs, bufLen, hm, hf, if_true, List.cons_append, List.nil_append, List.append_nil,
      show ¬ ((-1 : ℤ) = 1) by norm_num, if_false, List.flatMap_cons, List.flatMap_nil, List.map_append, List.sum_append,
      size_int, size_dbl, size_nh, List.map_nil, List.sum_nil] <;>
    first | omega | (have := hn hf hm; omega)

private theorem restart_eq {c : Cfg} {file : List Sym} {root R : St} (other : St)
    (hr : read c file.length file { root with x := fun k i => if k = .vel then none else root.x k i } = some R)
    (hs : (((packs c).flatMap (packItem R)).map Val.size).sum ≤ bufLen c root) :
    ∃ o', restart c file root other = some (R, sent c R o') ∧
      ∀ k i, k ≠ .vel → o'.x k i = other.x k i :=
  ⟨_, restart_of hr hs, fun k i hk => by simp [hk]⟩

/-! ## Molecular dynamics goes on from what was written -/

/-- With RESTART_FLAG 1 every process has the step, the positions and velocities (eleven digits), and the temperatures
(fifteen digits) that were written. -/
theorem md_continues (F : Fmt) (c : Cfg) (hf : c.flag = 1)
    (hm : c.meth = .nve ∨ c.meth = .nvk ∨ c.meth = .nvt ∨ c.meth = .nph ∨ c.meth = .npp)
    (step nnos : ℕ) (w : K → ℕ → ℝ) (root other : St)
    (hn : c.meth = .nph → nnos ≤ 60 ∧ nnos ≤ root.n .nnos + 1) :
    ∃ r o, restart c (writeMD F c step nnos w) root other = some (r, o) ∧ ∀ p, p = r ∨ p = o →
      p.n .count = step ∧
      (∀ i < 3 * c.natom, Close (5 / 10 ^ 11) (p.x .pos i) (w .pos i)) ∧
      (∀ i < 3 * c.natom, Close (5 / 10 ^ 11) (p.x .vel i) (w .vel i)) ∧
      Close (5 / 10 ^ 15) (p.x .telec 0) (w .telec 0) ∧ Close (5 / 10 ^ 15) (p.x .tion 0) (w .tion 0) := by
  have key : ∃ R, read c (writeMD F c step nnos w).length (writeMD F c step nnos w)
        { root with x := fun k i => if k = .vel then none else root.x k i } = some R ∧
      Core F c step w R ∧ Temps F w R ∧ (c.meth = .nph → R.n .nnos = nnos) := by
    rcases hm with h | h | h | h | h
    · obtain ⟨R, h1, h2, h3⟩ := plain_read F hf (Or.inl h) step nnos w
        { root with x := fun k i => if k = .vel then none else root.x k i }
      exact ⟨R, h1, h2, h3, by simp [h]⟩
    · obtain ⟨R, h1, h2, h3⟩ := plain_read F hf (Or.inr h) step nnos w
        { root with x := fun k i => if k = .vel then none else root.x k i }
      exact ⟨R, h1, h2, h3, by simp [h]⟩
    · obtain ⟨R, h1, h2, h3, _⟩ := nvt_read F hf h step nnos w
        { root with x := fun k i => if k = .vel then none else root.x k i }
      exact ⟨R, h1, h2, h3, by simp [h]⟩
    · obtain ⟨R, h1, h2, h3, h4⟩ := nph_read F hf h step nnos (hn h).1 w
        { root with x := fun k i => if k = .vel then none else root.x k i }
      exact ⟨R, h1, h2, h3, fun _ => h4.1⟩
    · obtain ⟨R, h1, h2, h3, _⟩ := npp_read F hf h step nnos w
        { root with x := fun k i => if k = .vel then none else root.x k i }
      exact ⟨R, h1, h2, h3, by simp [h]⟩
  obtain ⟨R, h1, ⟨h2, h3, h4⟩, ⟨h5, h6⟩, h7⟩ := key
  obtain ⟨o', h8, _⟩ := restart_eq other h1
    (fits (Or.inl hf) hm R root fun _ h => by rw [h7 h]; exact (hn h).2)
  have hs : (sent c R o').n .count = R.n .count ∧ (∀ i < 3 * c.natom, (sent c R o').x .pos i = R.x .pos i) ∧
      (∀ i < 3 * c.natom, (sent c R o').x .vel i = R.x .vel i) ∧ (sent c R o').x .telec 0 = R.x .telec 0 ∧
      (sent c R o').x .tion 0 = R.x .tion 0 := by
    rcases hm with h | h | h | h | h
    · exact sent_plain hf (Or.inl h) R o'
    · exact sent_plain hf (Or.inr h) R o'
    · obtain ⟨q1, q2, q3, q4, q5, _⟩ := sent_nvt hf h R o'
      exact ⟨q1, q2, q3, q4, q5⟩
    · obtain ⟨q1, q2, q3, q4, q5, _⟩ := sent_nph hf h R o'
      exact ⟨q1, q2, q3, q4, q5⟩
    · obtain ⟨q1, q2, q3, q4, q5, _⟩ := sent_npp hf h R o'
      exact ⟨q1, q2, q3, q4, q5⟩
  obtain ⟨q1, q2, q3, q4, q5⟩ := hs
  refine ⟨R, _, h8, ?_⟩
  rintro p (rfl | rfl)
  · refine ⟨h2, fun i hi => ?_, fun i hi => ?_, ?_, ?_⟩
    · rw [h3 i hi]; exact close_e F _
    · rw [h4 i hi]; exact close_e F _
    · rw [h5]; exact close_g F _
    · rw [h6]; exact close_g F _
  · refine ⟨q1.trans h2, fun i hi => ?_, fun i hi => ?_, ?_, ?_⟩
    · rw [q2 i hi, h3 i hi]; exact close_e F _
    · rw [q3 i hi, h4 i hi]; exact close_e F _
    · rw [q4, h5]; exact close_g F _
    · rw [q5, h6]; exact close_g F _

/-- NVT_NH: every process has the thermostat variables; the temperature it had reached is the one it starts from. -/
theorem nvt_continues (F : Fmt) (c : Cfg) (hf : c.flag = 1) (hm : c.meth = .nvt)
    (step nnos : ℕ) (w : K → ℕ → ℝ) (root other : St) :
    ∃ r o, restart c (writeMD F c step nnos w) root other = some (r, o) ∧ ∀ p, p = r ∨ p = o →
      Close (5 / 10 ^ 15) (p.x .snose 0) (w .snose 0) ∧ Close (5 / 10 ^ 15) (p.x .xi 0) (w .xi 0) ∧
      Close (5 / 10 ^ 15) (p.x .tTi 0) (w .tT 0) := by
  obtain ⟨R, h1, _, _, h5, h6, h7⟩ := nvt_read F hf hm step nnos w
    { root with x := fun k i => if k = .vel then none else root.x k i }
  obtain ⟨o', h8, _⟩ := restart_eq other h1 (fits (Or.inl hf) (by tauto) R root (by simp [hm]))
  obtain ⟨_, _, _, _, _, q6, q7, q8⟩ := sent_nvt hf hm R o'
  refine ⟨R, _, h8, ?_⟩
  rintro p (rfl | rfl)
  · rw [h5, h6, h7]
    exact ⟨close_g F _, close_g F _, close_g F _⟩
  · rw [q6, q7, q8, h5, h6, h7]
    exact ⟨close_g F _, close_g F _, close_g F _⟩

/-- NPT_NH: every process has the chain, the barostat, the cell and (after the conversion in `Initialize_MD`) the target
pressure and temperature; `scale` is the ratio of the new cell to the cell of the input file along the first scaled vector. -/
theorem nph_continues (F : Fmt) (c : Cfg) (hf : c.flag = 1) (hm : c.meth = .nph)
    (step nnos : ℕ) (w : K → ℕ → ℝ) (root other : St) (hn : nnos ≤ 60 ∧ nnos ≤ root.n .nnos + 1)
    (hl : ∀ i < 3, c.len i ≠ 0) :
    ∃ r o, restart c (writeMD F c step nnos w) root other = some (r, o) ∧ ∀ p, p = r ∨ p = o →
      p.n .nnos = nnos ∧ (∀ i < nnos, Close (5 / 10 ^ 15) (p.x .qmassH i) (w .qmassH i)) ∧
      (∀ i < nnos, Close (5 / 10 ^ 15) (p.x .vlogs i) (w .vlogs i)) ∧
      (∀ i < nnos, Close (5 / 10 ^ 15) (p.x .xlogs i) (w .xlogs i)) ∧
      Close (5 / 10 ^ 15) (p.x .bmassH 0) (w .bmassH 0) ∧ Close (5 / 10 ^ 15) (p.x .vlogv 0) (w .vlogv 0) ∧
      (∀ i < 3, Close (5 / 10 ^ 15) (p.x .range i) (w .range i)) ∧
      Close (5 / 10 ^ 15) ((initMD c p).x .tT 0) (w .tTi 0) ∧ Close (5 / 10 ^ 15) ((initMD c p).x .prt 0) (w .prt 0) ∧
      (∀ d < 3, c.scaleVecs d = 1 → (∀ e < d, c.scaleVecs e ≠ 1) → ∀ b, root.x .range d = some b →
        ∃ a, p.x .range d = some a ∧ p.x .scale 0 = some (a / b)) := by
  obtain ⟨R, h1, _, _, e1, e2, e3, e4, e5, e6, e7, e8, e9, e10⟩ := nph_read F hf hm step nnos hn.1 w
    { root with x := fun k i => if k = .vel then none else root.x k i }
  obtain ⟨o', h8, _⟩ := restart_eq other h1
    (fits (Or.inl hf) (by tauto) R root fun _ _ => by rw [e1]; exact hn.2)
  obtain ⟨_, _, _, _, _, q1, q2, q3, q4, q5, q6, q7, q8, q9, q10⟩ := sent_nph hf hm R o'
  have fin : ∀ p : St, p.n .nnos = nnos → (∀ i < nnos, p.x .qmassH i = some (F.g15 (w .qmassH i))) →
      (∀ i < nnos, p.x .vlogs i = some (F.g15 (w .vlogs i))) →
      (∀ i < nnos, p.x .xlogs i = some (F.g15 (w .xlogs i))) →
      p.x .bmassH 0 = some (F.g15 (w .bmassH 0)) → p.x .vlogv 0 = some (F.g15 (w .vlogv 0)) →
      (∀ i < 3, p.x .range i = some (rng F c w i)) →
      p.x .scale 0 = ((root.x .range (scaleDir c)).map fun b => rng F c w (scaleDir c) / b) →
      p.x .tTi 0 = some (F.g15 (w .tTi 0)) → p.x .prt 0 = some (F.g15 (w .prt 0 * gpa)) →
      p.n .nnos = nnos ∧ (∀ i < nnos, Close (5 / 10 ^ 15) (p.x .qmassH i) (w .qmassH i)) ∧
      (∀ i < nnos, Close (5 / 10 ^ 15) (p.x .vlogs i) (w .vlogs i)) ∧
      (∀ i < nnos, Close (5 / 10 ^ 15) (p.x .xlogs i) (w .xlogs i)) ∧
      Close (5 / 10 ^ 15) (p.x .bmassH 0) (w .bmassH 0) ∧ Close (5 / 10 ^ 15) (p.x .vlogv 0) (w .vlogv 0) ∧
      (∀ i < 3, Close (5 / 10 ^ 15) (p.x .range i) (w .range i)) ∧
      Close (5 / 10 ^ 15) ((initMD c p).x .tT 0) (w .tTi 0) ∧ Close (5 / 10 ^ 15) ((initMD c p).x .prt 0) (w .prt 0) ∧
      (∀ d < 3, c.scaleVecs d = 1 → (∀ e < d, c.scaleVecs e ≠ 1) → ∀ b, root.x .range d = some b →
        ∃ a, p.x .range d = some a ∧ p.x .scale 0 = some (a / b)) := by
    intro p f1 f2 f3 f4 f5 f6 f7 f8 f9 f10
    refine ⟨f1, fun i hi => ?_, fun i hi => ?_, fun i hi => ?_, ?_, ?_, fun i hi => ?_, ?_, ?_, ?_⟩
    · rw [f2 i hi]; exact close_g F _
    · rw [f3 i hi]; exact close_g F _
    · rw [f4 i hi]; exact close_g F _
    · rw [f5]; exact close_g F _
    · rw [f6]; exact close_g F _
    · rw [f7 i hi]; exact close_rng F c w i (hl i hi)
    · have : (initMD c p).x .tT 0 = p.x .tTi 0 := by simp [initMD, hm]
      rw [this, f9]; exact close_g F _
    · have : (initMD c p).x .prt 0 = (p.x .prt 0).map fun v => v / gpa := by simp [initMD, hm]
      rw [this, f10]; exact close_prt F _
    · intro d hd s1 s2 b hb
      have hdir : scaleDir c = d := by
        have : d = 0 ∨ d = 1 ∨ d = 2 := by omega
        rcases this with rfl | rfl | rfl
        · simp [scaleDir, s1]
        · have := s2 0 (by omega)
          simp [scaleDir, s1, this]
        · have h0 := s2 0 (by omega)
          have h1 := s2 1 (by omega)
          simp [scaleDir, h0, h1]
      rw [hdir, hb] at f8
      exact ⟨_, f7 d hd, f8⟩
  refine ⟨R, _, h8, ?_⟩
  have e8' : R.x .scale 0 = ((root.x .range (scaleDir c)).map fun b => rng F c w (scaleDir c) / b) := by
    rw [e8]; simp
  rw [e1] at q1 q2 q3 q4
  rintro p (rfl | rfl)
  · exact fin _ e1 e2 e3 e4 e5 e6 e7 e8' e9 e10
  · exact fin _ q1 (fun i hi => (q2 i hi).trans (e2 i hi)) (fun i hi => (q3 i hi).trans (e3 i hi))
      (fun i hi => (q4 i hi).trans (e4 i hi)) (q5.trans e5) (q6.trans e6) (fun i hi => (q7 i hi).trans (e7 i hi))
      (q8.trans e8') (q9.trans e9) (q10.trans e10)

/-- NPT_NP: likewise; the momenta `Pm` that are in the file are not read. -/
theorem npp_continues (F : Fmt) (c : Cfg) (hf : c.flag = 1) (hm : c.meth = .npp)
    (step nnos : ℕ) (w : K → ℕ → ℝ) (root other : St) (hl : ∀ i < 3, c.len i ≠ 0) :
    ∃ r o, restart c (writeMD F c step nnos w) root other = some (r, o) ∧ ∀ p, p = r ∨ p = o →
      Close (5 / 10 ^ 15) (p.x .qmassP 0) (w .qmassP 0) ∧ Close (5 / 10 ^ 15) (p.x .bmassP 0) (w .bmassP 0) ∧
      Close (5 / 10 ^ 15) (p.x .sv 0) (w .sv 0) ∧ Close (5 / 10 ^ 15) (p.x .s 0) (w .s 0) ∧
      (∀ i < 3, Close (5 / 10 ^ 15) (p.x .rvelo i) (w .rvelo i)) ∧
      (∀ i < 3, Close (5 / 10 ^ 15) (p.x .range i) (w .range i)) ∧
      Close (5 / 10 ^ 15) ((initMD c p).x .tT 0) (w .tTi 0) ∧ Close (5 / 10 ^ 15) ((initMD c p).x .prt 0) (w .prt 0) ∧
      Close (5 / 10 ^ 15) (p.x .hamil 0) (w .hamil 0) ∧
      (∀ b, root.x .range 0 = some b → ∃ a, p.x .range 0 = some a ∧ p.x .scale 0 = some (a / b)) := by
  obtain ⟨R, h1, _, _, e1, e2, e3, e4, e5, e6, e7, e8, e9, e10⟩ := npp_read F hf hm step nnos w
    { root with x := fun k i => if k = .vel then none else root.x k i }
  obtain ⟨o', h8, _⟩ := restart_eq other h1 (fits (Or.inl hf) (by tauto) R root (by simp [hm]))
  obtain ⟨_, _, _, _, _, q1, q2, q3, q4, q5, q6, q7, q8, q9, q10⟩ := sent_npp hf hm R o'
  have fin : ∀ p : St, p.x .qmassP 0 = some (F.g15 (w .qmassP 0)) → p.x .bmassP 0 = some (F.g15 (w .bmassP 0)) →
      p.x .sv 0 = some (F.g15 (w .sv 0)) → p.x .s 0 = some (F.g15 (w .s 0)) →
      (∀ i < 3, p.x .rvelo i = some (F.g15 (w .rvelo i))) → (∀ i < 3, p.x .range i = some (rng F c w i)) →
      p.x .scale 0 = ((root.x .range 0).map fun b => rng F c w 0 / b) →
      p.x .tTi 0 = some (F.g15 (w .tTi 0)) → p.x .prt 0 = some (F.g15 (w .prt 0 * gpa)) →
      p.x .hamil 0 = some (F.g15 (w .hamil 0)) →
      Close (5 / 10 ^ 15) (p.x .qmassP 0) (w .qmassP 0) ∧ Close (5 / 10 ^ 15) (p.x .bmassP 0) (w .bmassP 0) ∧
      Close (5 / 10 ^ 15) (p.x .sv 0) (w .sv 0) ∧ Close (5 / 10 ^ 15) (p.x .s 0) (w .s 0) ∧
      (∀ i < 3, Close (5 / 10 ^ 15) (p.x .rvelo i) (w .rvelo i)) ∧
      (∀ i < 3, Close (5 / 10 ^ 15) (p.x .range i) (w .range i)) ∧
      Close (5 / 10 ^ 15) ((initMD c p).x .tT 0) (w .tTi 0) ∧ Close (5 / 10 ^ 15) ((initMD c p).x .prt 0) (w .prt 0) ∧
      Close (5 / 10 ^ 15) (p.x .hamil 0) (w .hamil 0) ∧
      (∀ b, root.x .range 0 = some b → ∃ a, p.x .range 0 = some a ∧ p.x .scale 0 = some (a / b)) := by
    intro p f1 f2 f3 f4 f5 f6 f7 f8 f9 f10
    refine ⟨?_, ?_, ?_, ?_, fun i hi => ?_, fun i hi => ?_, ?_, ?_, ?_, ?_⟩
    · rw [f1]; exact close_g F _
    · rw [f2]; exact close_g F _
    · rw [f3]; exact close_g F _
    · rw [f4]; exact close_g F _
    · rw [f5 i hi]; exact close_g F _
    · rw [f6 i hi]; exact close_rng F c w i (hl i hi)
    · have : (initMD c p).x .tT 0 = p.x .tTi 0 := by simp [initMD, hm]
      rw [this, f8]; exact close_g F _
    · have : (initMD c p).x .prt 0 = (p.x .prt 0).map fun v => v / gpa := by simp [initMD, hm]
      rw [this, f9]; exact close_prt F _
    · rw [f10]; exact close_g F _
    · intro b hb
      rw [hb] at f7
      exact ⟨_, f6 0 (by omega), f7⟩
  refine ⟨R, _, h8, ?_⟩
  have e7' : R.x .scale 0 = ((root.x .range 0).map fun b => rng F c w 0 / b) := by
    rw [e7]; simp
  rintro p (rfl | rfl)
  · exact fin _ e1 e2 e3 e4 e5 e6 e7' e8 e9 e10
  · exact fin _ (q1.trans e1) (q2.trans e2) (q3.trans e3) (q4.trans e4) (fun i hi => (q5 i hi).trans (e5 i hi))
      (fun i hi => (q6 i hi).trans (e6 i hi)) (q7.trans e7') (q8.trans e8) (q9.trans e9) (q10.trans e10)

/-! ## RESTART_FLAG -1 -/

private theorem back_read (F : Fmt) {c : Cfg} (hf : c.flag = -1)
    (hm : c.meth = .nve ∨ c.meth = .nvk ∨ c.meth = .nvt ∨ c.meth = .nph ∨ c.meth = .npp)
    (step nnos : ℕ) (hn : c.meth = .nph → nnos ≤ 60) (w : K → ℕ → ℝ) (s : St) :
    ∃ R, read c (writeMD F c step nnos w).length (writeMD F c step nnos w) s = some R ∧
      Core F c step w R ∧ (c.meth = .nph → R.n .nnos = nnos) ∧
      (c.meth = .nph ∨ c.meth = .npp → (∀ i < 3, R.x .range i = some (rng F c w i)) ∧
        R.x .prt 0 = some (F.g15 (w .prt 0 * gpa))) := by
  obtain ⟨a1, a2, a3⟩ := front hm
  obtain ⟨b1, b2⟩ := back' hf hm
  have hf' : ¬ c.flag = 1 := by omega
  rcases hm with hm | hm | hm | hm | hm
  · obtain ⟨m, hl⟩ : ∃ m, (writeMD F c step nnos w).length = m + 7 := by
      refine ⟨_, (Nat.sub_add_cancel ?_).symm⟩
      simp [writeMD, hm, arr, one]; omega
    rw [hl]
    simp only [writeMD, hm, List.append_assoc, List.nil_append]
    rw [read_oneI a1, read_arr a2, read_arr a3, read_none b1, read_end' b2]
    refine ⟨_, rfl, ⟨?_, fun i hi => ?_, fun i hi => ?_⟩, by simp, by simp⟩ <;>
      simp [put_x, put_n, fill_x, fill_n, putI_x, putI_n] <;> intros <;> omega
  · obtain ⟨m, hl⟩ : ∃ m, (writeMD F c step nnos w).length = m + 7 := by
      refine ⟨_, (Nat.sub_add_cancel ?_).symm⟩
      simp [writeMD, hm, arr, one]; omega
    rw [hl]
    simp only [writeMD, hm, List.append_assoc, List.nil_append]
    rw [read_oneI a1, read_arr a2, read_arr a3, read_none b1, read_end' b2]
    refine ⟨_, rfl, ⟨?_, fun i hi => ?_, fun i hi => ?_⟩, by simp, by simp⟩ <;>
      simp [put_x, put_n, fill_x, fill_n, putI_x, putI_n] <;> intros <;> omega
  · have c1 : ∀ p, act c .snose p = some p := fun p => by simp [act, hm, chain, hf']
    have c2 : ∀ p, act c .xinose p = some p := fun p => by simp [act, hm, chain, hf']
    have c3 : ∀ p, act c .tthrmi p = some p := fun p => by simp [act, hm, chain, hf']
    obtain ⟨m, hl⟩ : ∃ m, (writeMD F c step nnos w).length = m + 13 := by
      refine ⟨_, (Nat.sub_add_cancel ?_).symm⟩
      simp [writeMD, hm, arr, one]; omega
    rw [hl]
    simp only [writeMD, hm, List.append_assoc]
    rw [read_oneI a1, read_arr a2, read_arr a3, read_none c1, read_none c2, read_none c3, read_none b1, read_end' b2]
    refine ⟨_, rfl, ⟨?_, fun i hi => ?_, fun i hi => ?_⟩, by simp, by simp⟩ <;>
      simp [put_x, put_n, fill_x, fill_n, putI_x, putI_n] <;> intros <;> omega
  · have hn := hn hm
    obtain ⟨c1, c2, c3, c4, c5, c6, c7, c8⟩ := nph_acts hm
    have c9 : ∀ p, act c .tthrmi p = some (get .tTi 0 p) := fun p => by
      simp [act, hm, chain, chainH, hf']
    obtain ⟨m, hl⟩ : ∃ m, (writeMD F c step nnos w).length = m + 16 := by
      refine ⟨_, (Nat.sub_add_cancel ?_).symm⟩
      simp [writeMD, hm, arr, one, carr]
      omega
    rw [hl]
    simp only [writeMD, hm, List.append_assoc]
    rw [read_oneI a1, read_arr a2, read_arr a3, read_carr c1 hn, read_one c4, read_carr c2 hn, read_one c5,
      read_carr c3 hn, read_cell F w (dir_lt c) c7 c8, read_one c9, read_prt c6, read_none b1, read_end' b2]
    refine ⟨_, rfl, ⟨?_, fun i hi => ?_, fun i hi => ?_⟩, fun _ => ?_, fun _ => ⟨fun i hi => ?_, ?_⟩⟩ <;>
      simp [put_x, put_n, fill_x, fill_n, putI_x, putI_n, cellSt_x, cellSt_n] <;> intros <;> omega
  · obtain ⟨c1, c2, c3, c4, c5, c6, c7, c8, c9, c10, c11, c12⟩ := npp_acts hm
    have c13 : ∀ p, act c .tthrmi p = some (get .tTi 0 p) := fun p => by
      simp [act, hm, chain, chainP, hf']
    obtain ⟨m, hl⟩ : ∃ m, (writeMD F c step nnos w).length = m + 23 := by
      refine ⟨_, (Nat.sub_add_cancel ?_).symm⟩
      simp [writeMD, hm, arr, one]
      omega
    rw [hl]
    simp only [writeMD, hm, List.append_assoc]
    rw [read_oneI a1, read_arr a2, read_arr a3, read_one c1, read_one c2, read_one c3, read_pm c4, read_one c5,
      read_at c6, read_at c7, read_at c8, read_cell F w (by omega) c11 c12, read_one c13, read_prt c9, read_one c10,
      read_none b1, read_end' b2]
    refine ⟨_, rfl, ⟨?_, fun i hi => ?_, fun i hi => ?_⟩, by simp, fun _ => ⟨fun i hi => ?_, ?_⟩⟩ <;>
      simp [put_x, put_n, fill_x, fill_n, putI_x, putI_n, cellSt_x, cellSt_n] <;> intros <;> omega

/-- With RESTART_FLAG -1 every process has the step, the positions and the velocities. -/
theorem velocities_continue (F : Fmt) (c : Cfg) (hf : c.flag = -1)
    (hm : c.meth = .nve ∨ c.meth = .nvk ∨ c.meth = .nvt ∨ c.meth = .nph ∨ c.meth = .npp)
    (step nnos : ℕ) (w : K → ℕ → ℝ) (root other : St)
    (hn : c.meth = .nph → nnos ≤ 60) :
    ∃ r o, restart c (writeMD F c step nnos w) root other = some (r, o) ∧ ∀ p, p = r ∨ p = o →
      p.n .count = step ∧
      (∀ i < 3 * c.natom, Close (5 / 10 ^ 11) (p.x .pos i) (w .pos i)) ∧
      (∀ i < 3 * c.natom, Close (5 / 10 ^ 11) (p.x .vel i) (w .vel i)) := by
  obtain ⟨R, h1, ⟨h2, h3, h4⟩, _, _⟩ := back_read F hf hm step nnos hn w
    { root with x := fun k i => if k = .vel then none else root.x k i }
  obtain ⟨o', h8, _⟩ := restart_eq other h1 (fits (Or.inr hf) hm R root fun h => by omega)
  obtain ⟨q1, q2, q3, _⟩ := sent_back hf hm R o'
  refine ⟨R, _, h8, ?_⟩
  rintro p (rfl | rfl)
  · refine ⟨h2, fun i hi => ?_, fun i hi => ?_⟩
    · rw [h3 i hi]; exact close_e F _
    · rw [h4 i hi]; exact close_e F _
  · refine ⟨q1.trans h2, fun i hi => ?_, fun i hi => ?_⟩
    · rw [q2 i hi, h3 i hi]; exact close_e F _
    · rw [q3 i hi, h4 i hi]; exact close_e F _

/-- But at constant pressure the root also takes the cell and the target pressure from the file, and no other process does. -/
theorem npt_root_alone (F : Fmt) (c : Cfg) (hf : c.flag = -1) (hm : c.meth = .nph ∨ c.meth = .npp)
    (step nnos : ℕ) (w : K → ℕ → ℝ) (root other : St) (hl : ∀ i < 3, c.len i ≠ 0)
    (hn : c.meth = .nph → nnos ≤ 60) :
    ∃ r o, restart c (writeMD F c step nnos w) root other = some (r, o) ∧
      (∀ i < 3, Close (5 / 10 ^ 15) (r.x .range i) (w .range i)) ∧
      Close (5 / 10 ^ 15) (r.x .prt 0) (w .prt 0 * gpa) ∧
      o.x .range = other.x .range ∧ o.x .prt = other.x .prt := by
  have hM : c.meth = .nve ∨ c.meth = .nvk ∨ c.meth = .nvt ∨ c.meth = .nph ∨ c.meth = .npp := by tauto
  obtain ⟨R, h1, _, _, h6⟩ := back_read F hf hM step nnos hn w
    { root with x := fun k i => if k = .vel then none else root.x k i }
  obtain ⟨o', h8, h9⟩ := restart_eq other h1 (fits (Or.inr hf) hM R root fun h => by omega)
  obtain ⟨_, _, _, q4⟩ := sent_back hf hM R o'
  obtain ⟨h10, h11⟩ := h6 hm
  refine ⟨R, _, h8, fun i hi => ?_, ?_, ?_, ?_⟩
  · rw [h10 i hi]; exact close_rng F c w i (hl i hi)
  · rw [h11]; exact close_g F _
  · funext i
    rw [q4 _ _ (by decide) (by decide), h9 _ _ (by decide)]
  · funext i
    rw [q4 _ _ (by decide) (by decide), h9 _ _ (by decide)]

/-- So the processes can differ in the cell though they started alike. -/
theorem npt_processes_differ (F : Fmt) : ∃ (c : Cfg) (w : K → ℕ → ℝ) (s r o : St),
    c.meth = .nph ∧ c.flag = -1 ∧ restart c (writeMD F c 7 2 w) s s = some (r, o) ∧ r.x .range 0 ≠ o.x .range 0 := by
  obtain ⟨r, o, h1, h2, _, h4, _⟩ := npt_root_alone F ⟨.nph, -1, 1, false, fun _ => 10, fun _ => 1, 0⟩ rfl (Or.inl rfl)
    7 2 (fun _ _ => 20) ⟨fun _ => 2, fun _ _ => some 10⟩ ⟨fun _ => 2, fun _ _ => some 10⟩ (by simp) (by simp)
  refine ⟨_, _, _, r, o, rfl, rfl, h1, ?_⟩
  obtain ⟨u, hu, hv⟩ := h2 0 (by omega)
  rw [hu, h4]
  intro h
  have : u = 10 := by simpa using h
  rw [this] at hv
  norm_num [abs_le] at hv

/-! ## A longer chain than in the input -/

private theorem read_carr_none {c : Cfg} {h : H} {k : K} (ha : ∀ p, act c h p = getCarr k p) {m : ℕ} (hm : ¬ m ≤ 60)
    (n : ℕ) (f : ℕ → ℝ) (rest : List Sym) (s : St) : read c (n + 1) (carr h m f ++ rest) s = none := by
  simp only [carr, List.cons_append, List.append_assoc]
  rw [read_hd, ha]
  have h1 : (putI .nnos m s).n .nnos = m := by simp [putI]
  simp only [getCarr, getI, scanInt, h1, if_neg hm, Option.bind_none]

/-- NPT_NH: the buffer has room for the chain of the input, and one more; a longer one in the file overruns it. -/
theorem chain_overrun (F : Fmt) (c : Cfg) (hf : c.flag = 1) (hm : c.meth = .nph)
    (step nnos : ℕ) (w : K → ℕ → ℝ) (root other : St) (hn : root.n .nnos + 2 ≤ nnos) :
    restart c (writeMD F c step nnos w) root other = none := by
  by_cases h60 : nnos ≤ 60
  · obtain ⟨R, h1, _, _, e1, _⟩ := nph_read F hf hm step nnos h60 w
      { root with x := fun k i => if k = .vel then none else root.x k i }
    simp only [restart]
    rw [h1]
    simp only [Option.bind_some]
    rw [if_neg]
    simp only [packs, bufLen, hm, hf, if_true, List.cons_append, List.nil_append,
      List.flatMap_cons, List.flatMap_nil, List.map_append, List.sum_append,
      size_int, size_dbl, size_nh, List.map_nil, List.sum_nil, e1]
    omega
  · have hM : c.meth = .nve ∨ c.meth = .nvk ∨ c.meth = .nvt ∨ c.meth = .nph ∨ c.meth = .npp := by tauto
    obtain ⟨a1, a2, a3⟩ := front hM
    obtain ⟨c1, _⟩ := nph_acts hm
    obtain ⟨m, hl⟩ : ∃ m, (writeMD F c step nnos w).length = m + 4 := by
      refine ⟨_, (Nat.sub_add_cancel ?_).symm⟩
      simp [writeMD, hm, arr, one, carr]
    simp only [restart, hl]
    simp only [writeMD, hm, List.append_assoc]
    rw [read_oneI a1, read_arr a2, read_arr a3, read_carr_none c1 h60]
    rfl

/-! ## Relaxations -/

private theorem nlcg_read (F : Fmt) {c : Cfg} (hm : c.meth = .nlcg) (n : I → ℕ) (w : K → ℕ → ℝ) (s : St) :
    ∃ R, read c (writeRelax F c n w).length (writeRelax F c n w) s = some R ∧ R.n .count = n .count ∧
      (∀ i < 3 * c.natom, R.x .pos i = some (F.f15 (w .pos i))) ∧
      (∀ i < 3 * c.natom, R.x .d i = some (F.f15 (w .d i))) := by
  have a1 : ∀ p, act c .relaxstep p = some (getI .count p) := fun p => by simp [act, hm, chainR]
  have a2 : ∀ p, act c .E p = some p := fun p => by simp [act, hm, chainR]
  have a3 : ∀ p, act c .R p = some (gets .pos 0 (3 * c.natom) p) := fun p => by simp [act, hm, chainR]
  have a4 : ∀ p, act c .D p = some (gets .d 0 (3 * c.natom) p) := fun p => by simp [act, hm, chainR]
  obtain ⟨m, hl⟩ : ∃ m, (writeRelax F c n w).length = m + 5 := by
    refine ⟨_, (Nat.sub_add_cancel ?_).symm⟩
    simp [writeRelax, hm, arr, one]
  rw [hl, ← List.append_nil (writeRelax F c n w)]
  simp only [writeRelax, hm, List.append_assoc]
  rw [read_oneI a1, read_none a2, read_arr a3, read_arr a4, read_nil]
  refine ⟨_, rfl, ?_, fun i hi => ?_, fun i hi => ?_⟩ <;>
    simp [fill_x, fill_n, putI_x, putI_n] <;> intros <;> omega

private theorem lbfgs_read (F : Fmt) {c : Cfg} (hm : c.meth = .lbfgs) (n : I → ℕ) (w : K → ℕ → ℝ) (s : St) :
    ∃ R, read c (writeRelax F c n w).length (writeRelax F c n w) s = some R ∧ R.n .count = n .count ∧
      R.n .isfd = n .isfd ∧ R.n .isreset = n .isreset ∧ R.n .step = n .step ∧
      (∀ i < 3 * c.natom, R.x .pos i = some (F.f15 (w .pos i))) ∧
      (∀ i < c.hist * (3 * c.natom), R.x .dx i = some (F.f15 (w .dx i))) ∧
      (∀ i < c.hist * (3 * c.natom), R.x .dg i = some (F.f15 (w .dg i))) ∧
      (∀ i < c.hist, R.x .iys i = some (F.f15 (w .iys i))) ∧
      (∀ i < 3 * c.natom, R.x .fold i = some (F.f15 (w .fold i))) ∧
      (∀ i < 3 * c.natom, R.x .disp i = some (F.f15 (w .disp i))) := by
  have a1 : ∀ p, act c .relaxstep p = some (getI .count p) := fun p => by simp [act, hm, chainR]
  have a2 : ∀ p, act c .E p = some p := fun p => by simp [act, hm, chainR]
  have a3 : ∀ p, act c .R p = some (gets .pos 0 (3 * c.natom) p) := fun p => by simp [act, hm, chainR]
  have a4 : ∀ p, act c .isfd p = some (getI .isfd p) := fun p => by simp [act, hm, chainR]
  have a5 : ∀ p, act c .isreset p = some (getI .isreset p) := fun p => by simp [act, hm, chainR]
  have a6 : ∀ p, act c .step p = some (getI .step p) := fun p => by simp [act, hm, chainR]
  have a7 : ∀ p, act c .DX p = some (gets .dx 0 (c.hist * (3 * c.natom)) p) := fun p => by simp [act, hm, chainR]
  have a8 : ∀ p, act c .DG p = some (gets .dg 0 (c.hist * (3 * c.natom)) p) := fun p => by simp [act, hm, chainR]
  have a9 : ∀ p, act c .iys p = some (gets .iys 0 c.hist p) := fun p => by simp [act, hm, chainR]
  have a10 : ∀ p, act c .fold p = some (gets .fold 0 (3 * c.natom) p) := fun p => by simp [act, hm, chainR]
  have a11 : ∀ p, act c .rdisp p = some (gets .disp 0 (3 * c.natom) p) := fun p => by simp [act, hm, chainR]
  obtain ⟨m, hl⟩ : ∃ m, (writeRelax F c n w).length = m + 12 := by
    refine ⟨_, (Nat.sub_add_cancel ?_).symm⟩
    simp [writeRelax, hm, arr, one]; omega
  rw [hl, ← List.append_nil (writeRelax F c n w)]
  simp only [writeRelax, hm, List.append_assoc]
  rw [read_oneI a1, read_none a2, read_arr a3, read_oneI a4, read_oneI a5, read_oneI a6, read_arr a7, read_arr a8,
    read_arr a9, read_arr a10, read_arr a11, read_nil]
  refine ⟨_, rfl, ?_, ?_, ?_, ?_, fun i hi => ?_, fun i hi => ?_, fun i hi => ?_, fun i hi => ?_, fun i hi => ?_,
    fun i hi => ?_⟩ <;>
    simp [fill_x, fill_n, putI_x, putI_n] <;> intros <;> omega

private theorem fire_read (F : Fmt) {c : Cfg} (hm : c.meth = .fire) (n : I → ℕ) (w : K → ℕ → ℝ) (s : St) :
    ∃ R, read c (writeRelax F c n w).length (writeRelax F c n w) s = some R ∧ R.n .count = n .count ∧
      R.n .freset = n .freset ∧ (∀ i < 3 * c.natom, R.x .pos i = some (F.f15 (w .pos i))) ∧
      R.x .alpha 0 = some (F.f15 (w .alpha 0)) ∧ R.x .dt 0 = some (F.f15 (w .dt 0)) ∧
      (∀ i < 3 * c.natom, R.x .fvel i = some (F.f15 (w .fvel i))) := by
  have a1 : ∀ p, act c .relaxstep p = some (getI .count p) := fun p => by simp [act, hm, chainR]
  have a2 : ∀ p, act c .E p = some p := fun p => by simp [act, hm, chainR]
  have a3 : ∀ p, act c .R p = some (gets .pos 0 (3 * c.natom) p) := fun p => by simp [act, hm, chainR]
  have a4 : ∀ p, act c .fAlpha p = some (get .alpha 0 p) := fun p => by simp [act, hm, chainR]
  have a5 : ∀ p, act c .fDt p = some (get .dt 0 p) := fun p => by simp [act, hm, chainR]
  have a6 : ∀ p, act c .fReset p = some (getI .freset p) := fun p => by simp [act, hm, chainR]
  have a7 : ∀ p, act c .fV p = some (gets .fvel 0 (3 * c.natom) p) := fun p => by simp [act, hm, chainR]
  obtain ⟨m, hl⟩ : ∃ m, (writeRelax F c n w).length = m + 8 := by
    refine ⟨_, (Nat.sub_add_cancel ?_).symm⟩
    simp [writeRelax, hm, arr, one]; omega
  rw [hl, ← List.append_nil (writeRelax F c n w)]
  simp only [writeRelax, hm, List.append_assoc]
  rw [read_oneI a1, read_none a2, read_arr a3, read_one a4, read_one a5, read_oneI a6, read_arr a7, read_nil]
  refine ⟨_, rfl, ?_, ?_, fun i hi => ?_, ?_, ?_, fun i hi => ?_⟩ <;>
    simp [put_x, put_n, fill_x, fill_n, putI_x, putI_n] <;> intros <;> omega

private theorem fits_relax {c : Cfg} (hm : c.meth = .nlcg ∨ c.meth = .lbfgs ∨ c.meth = .fire) (R root : St) :
    (((packs c).flatMap (packItem R)).map Val.size).sum ≤ bufLen c root := by
  rcases hm with hm | hm | hm <;>
    simp only [packs, bufLen, hm, List.flatMap_cons, List.flatMap_nil, List.map_append, List.sum_append,
      size_int, size_dbl, List.map_nil, List.sum_nil]
  · omega
  · nlinarith
  · omega

/-- NLCG: every process has the step, the positions and the search direction, to fifteen decimals. -/
theorem nlcg_continues (F : Fmt) (c : Cfg) (hm : c.meth = .nlcg) (n : I → ℕ) (w : K → ℕ → ℝ) (root other : St) :
    ∃ r o, restart c (writeRelax F c n w) root other = some (r, o) ∧ ∀ p, p = r ∨ p = o → p.n .count = n .count ∧
      (∀ i < 3 * c.natom, Near (5 / 10 ^ 16) (p.x .pos i) (w .pos i)) ∧
      (∀ i < 3 * c.natom, Near (5 / 10 ^ 16) (p.x .d i) (w .d i)) := by
  obtain ⟨R, h1, e1, e2, e3⟩ := nlcg_read F hm n w { root with x := fun k i => if k = .vel then none else root.x k i }
  obtain ⟨o', h8, _⟩ := restart_eq other h1 (fits_relax (Or.inl hm) R root)
  have hs : (sent c R o').n .count = R.n .count ∧ (∀ i < 3 * c.natom, (sent c R o').x .pos i = R.x .pos i) ∧
      (∀ i < 3 * c.natom, (sent c R o').x .d i = R.x .d i) := by
    simp only [sent, unpacks, packs, hm, List.flatMap_cons, List.foldl_cons, un_int, un_dbl, List.foldl_nil]
    refine ⟨?_, fun i hi => ?_, fun i hi => ?_⟩ <;> simp [putI_x, putI_n, copy_x, copy_n] <;> intros <;> omega
  obtain ⟨q1, q2, q3⟩ := hs
  refine ⟨R, _, h8, ?_⟩
  rintro p (rfl | rfl)
  · refine ⟨e1, fun i hi => ?_, fun i hi => ?_⟩
    · rw [e2 i hi]; exact near_f F _
    · rw [e3 i hi]; exact near_f F _
  · refine ⟨q1.trans e1, fun i hi => ?_, fun i hi => ?_⟩
    · rw [q2 i hi, e2 i hi]; exact near_f F _
    · rw [q3 i hi, e3 i hi]; exact near_f F _

/-- LBFGS: every process has the step, the flags, the positions and the history. -/
theorem lbfgs_continues (F : Fmt) (c : Cfg) (hm : c.meth = .lbfgs) (n : I → ℕ) (w : K → ℕ → ℝ) (root other : St) :
    ∃ r o, restart c (writeRelax F c n w) root other = some (r, o) ∧ ∀ p, p = r ∨ p = o → p.n .count = n .count ∧
      p.n .isfd = n .isfd ∧ p.n .isreset = n .isreset ∧ p.n .step = n .step ∧
      (∀ i < 3 * c.natom, Near (5 / 10 ^ 16) (p.x .pos i) (w .pos i)) ∧
      (∀ i < c.hist * (3 * c.natom), Near (5 / 10 ^ 16) (p.x .dx i) (w .dx i)) ∧
      (∀ i < c.hist * (3 * c.natom), Near (5 / 10 ^ 16) (p.x .dg i) (w .dg i)) ∧
      (∀ i < c.hist, Near (5 / 10 ^ 16) (p.x .iys i) (w .iys i)) ∧
      (∀ i < 3 * c.natom, Near (5 / 10 ^ 16) (p.x .fold i) (w .fold i)) ∧
      (∀ i < 3 * c.natom, Near (5 / 10 ^ 16) (p.x .disp i) (w .disp i)) := by
  obtain ⟨R, h1, e1, e2, e3, e4, e5, e6, e7, e8, e9, e10⟩ :=
    lbfgs_read F hm n w { root with x := fun k i => if k = .vel then none else root.x k i }
  obtain ⟨o', h8, _⟩ := restart_eq other h1 (fits_relax (Or.inr (Or.inl hm)) R root)
  have hs : (sent c R o').n .count = R.n .count ∧ (sent c R o').n .isfd = R.n .isfd ∧
      (sent c R o').n .isreset = R.n .isreset ∧ (sent c R o').n .step = R.n .step ∧
      (∀ i < 3 * c.natom, (sent c R o').x .pos i = R.x .pos i) ∧
      (∀ i < c.hist * (3 * c.natom), (sent c R o').x .dx i = R.x .dx i) ∧
      (∀ i < c.hist * (3 * c.natom), (sent c R o').x .dg i = R.x .dg i) ∧
      (∀ i < c.hist, (sent c R o').x .iys i = R.x .iys i) ∧
      (∀ i < 3 * c.natom, (sent c R o').x .fold i = R.x .fold i) ∧
      (∀ i < 3 * c.natom, (sent c R o').x .disp i = R.x .disp i) := by
    simp only [sent, unpacks, packs, hm, List.flatMap_cons, List.foldl_cons, un_int, un_dbl, List.foldl_nil]
    refine ⟨?_, ?_, ?_, ?_, fun i hi => ?_, fun i hi => ?_, fun i hi => ?_, fun i hi => ?_, fun i hi => ?_,
      fun i hi => ?_⟩ <;> simp [putI_x, putI_n, copy_x, copy_n] <;> intros <;> omega
  obtain ⟨q1, q2, q3, q4, q5, q6, q7, q8, q9, q10⟩ := hs
  refine ⟨R, _, h8, ?_⟩
  rintro p (rfl | rfl)
  · refine ⟨e1, e2, e3, e4, fun i hi => ?_, fun i hi => ?_, fun i hi => ?_, fun i hi => ?_, fun i hi => ?_,
      fun i hi => ?_⟩
    · rw [e5 i hi]; exact near_f F _
    · rw [e6 i hi]; exact near_f F _
    · rw [e7 i hi]; exact near_f F _
    · rw [e8 i hi]; exact near_f F _
    · rw [e9 i hi]; exact near_f F _
    · rw [e10 i hi]; exact near_f F _
  · refine ⟨q1.trans e1, q2.trans e2, q3.trans e3, q4.trans e4, fun i hi => ?_, fun i hi => ?_, fun i hi => ?_,
      fun i hi => ?_, fun i hi => ?_, fun i hi => ?_⟩
    · rw [q5 i hi, e5 i hi]; exact near_f F _
    · rw [q6 i hi, e6 i hi]; exact near_f F _
    · rw [q7 i hi, e7 i hi]; exact near_f F _
    · rw [q8 i hi, e8 i hi]; exact near_f F _
    · rw [q9 i hi, e9 i hi]; exact near_f F _
    · rw [q10 i hi, e10 i hi]; exact near_f F _

/-- FIRE: every process has the step, the positions, the mixing factor, the time step, the counter and the velocities. -/
theorem fire_continues (F : Fmt) (c : Cfg) (hm : c.meth = .fire) (n : I → ℕ) (w : K → ℕ → ℝ) (root other : St) :
    ∃ r o, restart c (writeRelax F c n w) root other = some (r, o) ∧ ∀ p, p = r ∨ p = o → p.n .count = n .count ∧
      p.n .freset = n .freset ∧
      (∀ i < 3 * c.natom, Near (5 / 10 ^ 16) (p.x .pos i) (w .pos i)) ∧
      Near (5 / 10 ^ 16) (p.x .alpha 0) (w .alpha 0) ∧ Near (5 / 10 ^ 16) (p.x .dt 0) (w .dt 0) ∧
      (∀ i < 3 * c.natom, Near (5 / 10 ^ 16) (p.x .fvel i) (w .fvel i)) := by
  obtain ⟨R, h1, e1, e2, e3, e4, e5, e6⟩ :=
    fire_read F hm n w { root with x := fun k i => if k = .vel then none else root.x k i }
  obtain ⟨o', h8, _⟩ := restart_eq other h1 (fits_relax (Or.inr (Or.inr hm)) R root)
  have hs : (sent c R o').n .count = R.n .count ∧ (sent c R o').n .freset = R.n .freset ∧
      (∀ i < 3 * c.natom, (sent c R o').x .pos i = R.x .pos i) ∧
      (sent c R o').x .alpha 0 = R.x .alpha 0 ∧ (sent c R o').x .dt 0 = R.x .dt 0 ∧
      (∀ i < 3 * c.natom, (sent c R o').x .fvel i = R.x .fvel i) := by
    simp only [sent, unpacks, packs, hm, List.flatMap_cons, List.foldl_cons, un_int, un_dbl, List.foldl_nil]
    refine ⟨?_, ?_, fun i hi => ?_, ?_, ?_, fun i hi => ?_⟩ <;> simp [putI_x, putI_n, copy_x, copy_n] <;> intros <;> omega
  obtain ⟨q1, q2, q3, q4, q5, q6⟩ := hs
  refine ⟨R, _, h8, ?_⟩
  rintro p (rfl | rfl)
  · refine ⟨e1, e2, fun i hi => ?_, ?_, ?_, fun i hi => ?_⟩
    · rw [e3 i hi]; exact near_f F _
    · rw [e4]; exact near_f F _
    · rw [e5]; exact near_f F _
    · rw [e6 i hi]; exact near_f F _
  · refine ⟨q1.trans e1, q2.trans e2, fun i hi => ?_, ?_, ?_, fun i hi => ?_⟩
    · rw [q3 i hi, e3 i hi]; exact near_f F _
    · rw [q4, e4]; exact near_f F _
    · rw [q5, e5]; exact near_f F _
    · rw [q6 i hi, e6 i hi]; exact near_f F _

/-- A file of LBFGS or FIRE read by another relaxation method goes into arrays that this method has not allocated. -/
theorem other_method (F : Fmt) (c : Cfg) (m' : Meth) (hm : (c.meth = .lbfgs ∧ (m' = .nlcg ∨ m' = .fire)) ∨
      (c.meth = .fire ∧ (m' = .nlcg ∨ m' = .lbfgs))) (n : I → ℕ) (w : K → ℕ → ℝ) (root other : St) :
    restart { c with meth := m' } (writeRelax F c n w) root other = none := by
  have hm' : m' = .nlcg ∨ m' = .lbfgs ∨ m' = .fire := by tauto
  have ha : ∀ h p, act { c with meth := m' } h p = chainR { c with meth := m' } h p := by
    intro h p
    rcases hm' with rfl | rfl | rfl <;> rfl
  have a1 : ∀ p, act { c with meth := m' } .relaxstep p = some (getI .count p) := fun p => by rw [ha]; rfl
  have a2 : ∀ p, act { c with meth := m' } .E p = some p := fun p => by rw [ha]; rfl
  have a3 : ∀ p, act { c with meth := m' } .R p = some (gets .pos 0 (3 * c.natom) p) := fun p => by rw [ha]; rfl
  have a4 : ∀ p, act { c with meth := m' } .isfd p = some (getI .isfd p) := fun p => by rw [ha]; rfl
  have a5 : ∀ p, act { c with meth := m' } .isreset p = some (getI .isreset p) := fun p => by rw [ha]; rfl
  have a6 : ∀ p, act { c with meth := m' } .step p = some (getI .step p) := fun p => by rw [ha]; rfl
  have a7 : ∀ p, act { c with meth := m' } .fAlpha p = some (get .alpha 0 p) := fun p => by rw [ha]; rfl
  have a8 : ∀ p, act { c with meth := m' } .fDt p = some (get .dt 0 p) := fun p => by rw [ha]; rfl
  have a9 : ∀ p, act { c with meth := m' } .fReset p = some (getI .freset p) := fun p => by rw [ha]; rfl
  rcases hm with ⟨hm, h⟩ | ⟨hm, h⟩
  · have hn : ¬ m' = .lbfgs := by rcases h with rfl | rfl <;> decide
    obtain ⟨m, hl⟩ : ∃ m, (writeRelax F c n w).length = m + 8 := by
      refine ⟨_, (Nat.sub_add_cancel ?_).symm⟩
      simp [writeRelax, hm, arr, one]; omega
    simp only [restart, hl]
    simp only [writeRelax, hm, List.append_assoc]
    rw [read_oneI a1, read_none a2, read_arr a3, read_oneI a4, read_oneI a5, read_oneI a6]
    simp only [arr, List.cons_append]
    rw [read_hd, ha]
    simp [chainR, hn]
  · have hn : ¬ m' = .fire := by rcases h with rfl | rfl <;> decide
    obtain ⟨m, hl⟩ : ∃ m, (writeRelax F c n w).length = m + 8 := by
      refine ⟨_, (Nat.sub_add_cancel ?_).symm⟩
      simp [writeRelax, hm, arr, one]; omega
    simp only [restart, hl]
    simp only [writeRelax, hm, List.append_assoc]
    rw [read_oneI a1, read_none a2, read_arr a3, read_one a7, read_one a8, read_oneI a9]
    simp only [arr, List.cons_append]
    rw [read_hd, ha]
    simp [chainR, hn]

/-! ## Which file, which step -/

/-- The file written at the end is the one read; and when there is no such file from before, the last one written while running
is, and the one before it is kept. -/
theorem newest_file_partial {α : Type} (d : Disk α) (a : α) :
    choose (final a d) = some a ∧
    (d.last = none → choose (during a d) = some a ∧ (during a d).last = none ∧
      ∀ b, (during b (during a d)).prev = some a) := by
  refine ⟨by simp [choose, final], fun h => ⟨by simp [choose, during, h], by simp [during, h], fun b => by simp [during]⟩⟩

/-- But the file of the end of an earlier run goes before all that a later run writes until its own end: continued after being
killed, the calculation goes back. -/
theorem stale_file {α : Type} (d : Disk α) (a : α) (l : List α) :
    choose (l.foldl (fun d b => during b d) (final a d)) = some a := by
  have : ∀ (l : List α) (d : Disk α), d.last = some a → choose (l.foldl (fun d b => during b d) d) = some a := by
    intro l
    induction l with
    | nil => intro d h; simp [choose, h]
    | cons b l ih => intro d h; exact ih _ (by simpa [during] using h)
  exact this l _ rfl

/-- And a file left empty, as by a calculation killed when it had just opened it, goes before the complete one it replaces; read
without complaint, it leaves the velocities undefined. -/
theorem torn_file (d : Disk (List Sym)) (file : List Sym) (hl : d.last = none) (hc : d.cur = some file)
    (c : Cfg) (hf : c.flag = 1 ∨ c.flag = -1) (hm : c.meth = .nve ∨ c.meth = .nvk ∨ c.meth = .nvt) (root other : St) :
    (during [] d).prev = some file ∧ ∃ t r o, choose (during [] d) = some t ∧
      restart c t root other = some (r, o) ∧ (∀ i, r.x .vel i = none) ∧
      (∀ i < 3 * c.natom, o.x .vel i = none) ∧ r.n .count = root.n .count := by
  have h1 : read c ([] : List Sym).length [] { root with x := fun k i => if k = .vel then none else root.x k i } = some
      { root with x := fun k i => if k = .vel then none else root.x k i } := rfl
  have hM : c.meth = .nve ∨ c.meth = .nvk ∨ c.meth = .nvt ∨ c.meth = .nph ∨ c.meth = .npp := by tauto
  obtain ⟨o', h8, _⟩ := restart_eq other h1 (fits hf hM _ root (by rcases hm with h | h | h <;> simp [h]))
  refine ⟨by simp [during, hc], [], _, _, by simp [choose, during, hl], h8, fun i => by simp, fun i hi => ?_, rfl⟩
  have : (sent c { root with x := fun k i => if k = .vel then none else root.x k i } o').x .vel i =
      (none : Option ℝ) := by
    rcases hf with hf | hf
    · rcases hm with h | h | h
      · rw [(sent_plain hf (Or.inl h) _ o').2.2.1 i hi]; simp
      · rw [(sent_plain hf (Or.inr h) _ o').2.2.1 i hi]; simp
      · rw [(sent_nvt hf h _ o').2.2.1 i hi]; simp
    · rw [(sent_back hf hM _ o').2.2.1 i hi]; simp
  exact this

private theorem loop_spec (go halt : ℕ → Bool) : ∀ n count md, ∃ k, k ≤ n ∧
    (stepLoop go halt n count md).1 = (List.range k).map (fun i => (count + i, md + i)) ∧
    (stepLoop go halt n count md).2 = md + k ∧
    ((∀ n, go n = true) → (∀ n, halt n = false) → k = n) := by
  intro n
  induction n with
  | zero => intro count md; exact ⟨0, le_refl _, by simp [stepLoop], by simp [stepLoop], fun _ _ => rfl⟩
  | succ n ih =>
    intro count md
    by_cases hg : go count = true
    · by_cases hh : halt count = true
      · refine ⟨1, by omega, by simp [stepLoop, hg, hh], by simp [stepLoop, hg, hh], fun _ h => ?_⟩
        rw [h] at hh
        exact absurd hh (by simp)
      · obtain ⟨k, h1, h2, h3, h4⟩ := ih (count + 1) (md + 1)
        refine ⟨k + 1, by omega, ?_, ?_, fun h h' => by rw [h4 h h']⟩
        · simp only [stepLoop, hg, hh, if_true, if_false, Bool.false_eq_true]
          rw [h2, List.range_succ_eq_map]
          simp only [List.map_cons, List.map_map, Nat.add_zero]
          congr 1
          apply List.map_congr_left
          intro i _
          simp only [Function.comp, Prod.mk.injEq]
          omega
        · simp only [stepLoop, hg, hh, if_true, if_false, Bool.false_eq_true]
          rw [h3]
          omega
    · refine ⟨0, by omega, by simp [stepLoop, hg], by simp [stepLoop, hg], fun h _ => absurd (h count) hg⟩

/-- The steps of a run are numbered on from the step in the file it starts from, whatever ends it; the last file has the number of the
last step, and a file written after a step has its number.  If nothing ends the run before, it does `MD_Nstep` steps. -/
theorem step_numbers (go halt : ℕ → Bool) (fresh : Bool) (r N : ℕ) (hr : fresh = true → r = 0) :
    ∃ k, (steps go halt fresh r N).1 = List.range' (r + 1) k ∧ (steps go halt fresh r N).2.2 = r + k ∧
      (∀ q ∈ (steps go halt fresh r N).2.1, q.2 = q.1) ∧ k ≤ max N (if fresh then 1 else 0) ∧
      ((∀ n, go n = true) → (∀ n, halt n = false) → (fresh = true → 1 ≤ N) →
        k = N ∧ (steps go halt fresh r N).2.1.map Prod.fst = List.range' (r + 1 + (if fresh then 1 else 0))
          (N - (if fresh then 1 else 0))) := by
  cases fresh with
  | false =>
    obtain ⟨k, h1, h2, h3, h4⟩ := loop_spec go halt (r + N + 1 - (1 + r + 0)) (1 + r + 0) 1
    simp only [steps, Bool.false_eq_true, if_false, List.nil_append]
    rw [h2, h3]
    refine ⟨k, ?_, by omega, ?_, by simp; omega, fun a b _ => ⟨by have := h4 a b; omega, ?_⟩⟩
    · rw [List.range'_eq_map_range, List.map_map]
      apply List.map_congr_left
      intro i _
      simp only [Function.comp]
      omega
    · intro q hq
      simp only [List.map_map, List.mem_map, Function.comp] at hq
      obtain ⟨i, _, rfl⟩ := hq
      dsimp only
      omega
    · have hk : N - 0 = k := by have := h4 a b; omega
      rw [hk, List.range'_eq_map_range, List.map_map, List.map_map]
      apply List.map_congr_left
      intro i _
      simp only [Function.comp]
      omega
  | true =>
    have := hr rfl
    subst this
    obtain ⟨k, h1, h2, h3, h4⟩ := loop_spec go halt (0 + N + 1 - (1 + 0 + 1)) (1 + 0 + 1) 1
    simp only [steps, if_true]
    rw [h2, h3]
    refine ⟨k + 1, ?_, by omega, ?_, ?_, fun a b c => ⟨?_, ?_⟩⟩
    · rw [List.range'_succ, List.range'_eq_map_range, List.map_map]
      simp only [List.cons_append, List.nil_append]
      congr 1
    · intro q hq
      simp only [List.map_map, List.mem_map, Function.comp] at hq
      obtain ⟨i, _, rfl⟩ := hq
      dsimp only
      omega
    · omega
    · have := h4 a b
      have h1N := c trivial
      omega
    · have hk : N - 1 = k := by have := h4 a b; omega
      rw [hk, List.range'_eq_map_range, List.map_map, List.map_map]
      apply List.map_congr_left
      intro i _
      simp only [Function.comp]

/-- Two runs, the second from the last file of the first: no step is left out or repeated. -/
theorem two_runs (go halt go' halt' : ℕ → Bool) (N N' : ℕ) :
    ∃ k, (steps go halt true 0 N).1 ++ (steps go' halt' false (steps go halt true 0 N).2.2 N').1 = List.range' 1 k := by
  obtain ⟨k, h1, h2, _⟩ := step_numbers go halt true 0 N (fun _ => rfl)
  obtain ⟨k', h3, _⟩ := step_numbers go' halt' false (steps go halt true 0 N).2.2 N' (by simp)
  refine ⟨k + k', ?_⟩
  rw [h1, h3, h2, show 0 + k + 1 = 0 + 1 + k by omega, List.range'_append_1]

/-! ## Examples -/

/-- Formats that keep the numbers. -/
private def exact : Fmt := ⟨id, id, id, id, fun x => by simp, fun x => by simp,
  fun x => by simp; norm_num⟩

/-- One atom at constant pressure, read where the input has another cell. -/
example := md_continues exact ⟨.nph, 1, 1, false, fun _ => 10, fun _ => 1, 0⟩ rfl (by simp) 12 2 (fun _ i => 7 + i)
  ⟨fun _ => 2, fun _ _ => some 1⟩ ⟨fun _ => 2, fun _ _ => some 1⟩ (by simp)

example := nvt_continues exact ⟨.nvt, 1, 1, false, fun _ => 10, fun _ => 1, 0⟩ rfl rfl 12 0 (fun _ i => 7 + i)
  ⟨fun _ => 0, fun _ _ => some 1⟩ ⟨fun _ => 0, fun _ _ => none⟩

example := nph_continues exact ⟨.nph, 1, 1, true, fun _ => 10, fun i => i, 0⟩ rfl rfl 12 3 (fun _ i => 7 + i)
  ⟨fun _ => 2, fun _ _ => some 1⟩ ⟨fun _ => 2, fun _ _ => some 1⟩ (by simp) (by simp)

example := npp_continues exact ⟨.npp, 1, 1, true, fun _ => 10, fun i => i, 0⟩ rfl rfl 12 3 (fun _ i => 7 + i)
  ⟨fun _ => 2, fun _ _ => some 1⟩ ⟨fun _ => 2, fun _ _ => some 1⟩ (by simp)

example := velocities_continue exact ⟨.nvt, -1, 2, false, fun _ => 10, fun _ => 1, 0⟩ rfl (by simp) 12 0 (fun _ i => 7 + i)
  ⟨fun _ => 0, fun _ _ => some 1⟩ ⟨fun _ => 0, fun _ _ => none⟩ (by simp)

example := npt_root_alone exact ⟨.npp, -1, 2, false, fun _ => 10, fun _ => 1, 0⟩ rfl (by simp) 12 0 (fun _ i => 7 + i)
  ⟨fun _ => 0, fun _ _ => some 1⟩ ⟨fun _ => 0, fun _ _ => none⟩ (by simp) (by simp)

/-- A chain of four thermostats, where the input has two. -/
example : restart ⟨.nph, 1, 1, false, fun _ => 10, fun _ => 1, 0⟩
    (writeMD exact ⟨.nph, 1, 1, false, fun _ => 10, fun _ => 1, 0⟩ 12 4 (fun _ i => 7 + i))
    ⟨fun _ => 2, fun _ _ => some 1⟩ ⟨fun _ => 2, fun _ _ => some 1⟩ = none :=
  chain_overrun exact _ rfl rfl 12 4 _ _ _ (by simp)

example := nlcg_continues exact ⟨.nlcg, 1, 2, false, fun _ => 10, fun _ => 1, 0⟩ rfl (fun _ => 3) (fun _ i => 7 + i)
  ⟨fun _ => 0, fun _ _ => some 1⟩ ⟨fun _ => 0, fun _ _ => none⟩

example := lbfgs_continues exact ⟨.lbfgs, 1, 2, false, fun _ => 10, fun _ => 1, 20⟩ rfl (fun _ => 3) (fun _ i => 7 + i)
  ⟨fun _ => 0, fun _ _ => some 1⟩ ⟨fun _ => 0, fun _ _ => none⟩

example := fire_continues exact ⟨.fire, 1, 2, false, fun _ => 10, fun _ => 1, 20⟩ rfl (fun _ => 3) (fun _ i => 7 + i)
  ⟨fun _ => 0, fun _ _ => some 1⟩ ⟨fun _ => 0, fun _ _ => none⟩

example := other_method exact ⟨.lbfgs, 1, 2, false, fun _ => 10, fun _ => 1, 20⟩ .nlcg (by simp) (fun _ => 3)
  (fun _ i => 7 + i) ⟨fun _ => 0, fun _ _ => some 1⟩ ⟨fun _ => 0, fun _ _ => none⟩

example : choose (during 30 (during 20 (⟨none, none, none⟩ : Disk ℕ))) = some 30 :=
  ((newest_file_partial (during 20 (⟨none, none, none⟩ : Disk ℕ)) 30).2 rfl).1

/-- A run that ended at step 50, then one killed after the file of step 90: the next goes on from 50. -/
example : choose ([70, 80, 90].foldl (fun d b => during b d) (final 50 (⟨none, some 40, some 30⟩ : Disk ℕ))) = some 50 :=
  stale_file _ _ _

example := torn_file ⟨none, some [.hd .mdstep, .int 40, .nl], none⟩ _ rfl rfl
  ⟨.nve, 1, 2, false, fun _ => 10, fun _ => 1, 20⟩ (by simp) (by simp)
  ⟨fun _ => 0, fun _ _ => some 1⟩ ⟨fun _ => 0, fun _ _ => none⟩

/-- Five steps, the stop file found after the third; then two more from there. -/
example : steps (fun _ => true) (fun n => n == 3) true 0 5 = ([1, 2, 3], [(2, 2), (3, 3)], 3) ∧
    steps (fun _ => true) (fun _ => false) false 3 2 = ([4, 5], [(4, 4), (5, 5)], 5) := by
  decide

end Sparc.Restart

import Verif.Tac
import Verif.Neigh.Model
import Mathlib.Algebra.BigOperators.Fin
import Mathlib.Data.Fin.VecNotation

/-!
# Neighbour lists of the machine-learned force field (properties, C38)
-/

namespace Sparc.Neigh

theorem mem_irange {n p m : ℤ} : m ∈ irange n p ↔ -n ≤ m ∧ m ≤ p := by
  unfold irange
  rw [List.mem_map]
  constructor
  · rintro ⟨t, ht, rfl⟩
    rw [List.mem_range] at ht
    omega
  · rintro ⟨h1, h2⟩
    exact ⟨(m + n).toNat, by rw [List.mem_range]; omega, by omega⟩

theorem nodup_irange (n p : ℤ) : (irange n p).Nodup := by
  unfold irange
  exact List.nodup_range.map fun a b h => by
    have h : -n + (a : ℤ) = -n + (b : ℤ) := h
    omega

theorem mem_images {nx px ny py nz pz : ℤ} {m : ℤ × ℤ × ℤ} : m ∈ images nx px ny py nz pz ↔
    (-nx ≤ m.1 ∧ m.1 ≤ px) ∧ (-ny ≤ m.2.1 ∧ m.2.1 ≤ py) ∧ (-nz ≤ m.2.2 ∧ m.2.2 ≤ pz) := by
  obtain ⟨a, b, c⟩ := m
  simp only [images, List.mem_flatMap, List.mem_map, mem_irange, Prod.mk.injEq]
  constructor
  · rintro ⟨a', ha, b', hb, c', hc, rfl, rfl, rfl⟩
    exact ⟨ha, hb, hc⟩
  · rintro ⟨ha, hb, hc⟩
    exact ⟨a, ha, b, hb, c, hc, rfl, rfl, rfl⟩

theorem nodup_images (nx px ny py nz pz : ℤ) : (images nx px ny py nz pz).Nodup := by
  unfold images
  rw [List.nodup_flatMap]
  refine ⟨fun a _ => ?_, ?_⟩
  · rw [List.nodup_flatMap]
    refine ⟨fun b _ => (nodup_irange _ _).map fun c c' h => by simpa using h, ?_⟩
    refine (nodup_irange ny py).imp fun {b b'} hbb => ?_
    intro m h1 h2
    obtain ⟨c, -, rfl⟩ := List.mem_map.1 h1
    obtain ⟨c', -, h⟩ := List.mem_map.1 h2
    simp only [Prod.mk.injEq] at h
    exact hbb h.2.1.symm
  · refine (nodup_irange nx px).imp fun {a a'} haa => ?_
    intro m h1 h2
    obtain ⟨b, -, h1⟩ := List.mem_flatMap.1 h1
    obtain ⟨c, -, rfl⟩ := List.mem_map.1 h1
    obtain ⟨b', -, h2⟩ := List.mem_flatMap.1 h2
    obtain ⟨c', -, h⟩ := List.mem_map.1 h2
    simp only [Prod.mk.injEq] at h
    exact haa h.1.symm

/-- Result of the image loops for one atom. -/
theorem visit_fold (S : Struc) (rcut : ℝ) (i j : ℕ) : ∀ (ims : List (ℤ × ℤ × ℤ)) (l : Lists) (c : ℕ),
    let r := (ims.foldl (visit S rcut i j) (l, c)).1
    let acc := ims.filter (accept S rcut i j)
    r.nl = l.nl ++ acc.map (fun m => (j, m)) ∧
    (∀ e, r.nlE e = l.nlE e ++ if S.typ j = e then acc.map (fun m => (j, m)) else []) ∧
    r.ul = l.ul ++ (if c = 0 ∧ j ≠ i ∧ acc ≠ [] then [j] else []) ∧
    (∀ e, r.ulE e = l.ulE e ++ if S.typ j = e ∧ c = 0 ∧ j ≠ i ∧ acc ≠ [] then [j] else []) ∧
    (r.self = true ↔ l.self = true ∨ (j = i ∧ acc ≠ []))
  | [], l, c => by simp
  | m :: ims, l, c => by
    dsimp only
    rw [List.foldl_cons]
    by_cases ha : accept S rcut i j m = true
    · rw [List.filter_cons_of_pos ha]
      have hv : visit S rcut i j (l, c) m =
          (({ nl := l.nl ++ [(j, m)], nlE := push l.nlE (S.typ j) (j, m),
              ul := if c = 0 ∧ j ≠ i then l.ul ++ [j] else l.ul,
              ulE := if c = 0 ∧ j ≠ i then push l.ulE (S.typ j) j else l.ulE,
              self := if j = i then true else l.self } : Lists), c + 1) := by
        unfold visit
        rw [if_pos ha]
        by_cases hji : j = i
        · simp [hji]
        · by_cases hc : c = 0 <;> simp [hji, hc]
      rw [hv]
      obtain ⟨h1, h2, h3, h4, h5⟩ := visit_fold S rcut i j ims _ (c + 1)
      rw [h1, h3, h5]
      refine ⟨by simp, fun e => ?_, ?_, fun e => ?_, ?_⟩
      · rw [h2 e]
        by_cases he : S.typ j = e
        · simp [push, he]
        · simp [push, he, Ne.symm he]
      · by_cases hc : c = 0 ∧ j ≠ i
        · simp [hc.1, hc.2]
        · have n1 : ¬(c + 1 = 0 ∧ j ≠ i ∧ ims.filter (accept S rcut i j) ≠ []) := by omega
          have n2 : ¬(c = 0 ∧ j ≠ i ∧ m :: ims.filter (accept S rcut i j) ≠ []) := fun h => hc ⟨h.1, h.2.1⟩
          dsimp only
          rw [if_neg hc, if_neg n1, if_neg n2]
      · rw [h4 e]
        by_cases hc : c = 0 ∧ j ≠ i
        · by_cases he : S.typ j = e
          · simp [push, hc.1, hc.2, he]
          · simp [push, hc.1, hc.2, he, Ne.symm he]
        · have n1 : ¬(S.typ j = e ∧ c + 1 = 0 ∧ j ≠ i ∧ ims.filter (accept S rcut i j) ≠ []) := by omega
          have n2 : ¬(S.typ j = e ∧ c = 0 ∧ j ≠ i ∧ m :: ims.filter (accept S rcut i j) ≠ []) :=
            fun h => hc ⟨h.2.1, h.2.2.1⟩
          dsimp only
          rw [if_neg hc, if_neg n1, if_neg n2]
      · by_cases hji : j = i <;> simp [hji]
    · rw [List.filter_cons_of_neg ha]
      have hv : visit S rcut i j (l, c) m = (l, c) := by
        unfold visit
        rw [if_neg ha]
      rw [hv]
      exact visit_fold S rcut i j ims l c

/-- Result of the loop over the atoms. -/
theorem outer_fold (S : Struc) (rcut : ℝ) (i : ℕ) (ims : List (ℤ × ℤ × ℤ)) : ∀ (n : ℕ),
    let r := (List.range n).foldl (fun l j => (ims.foldl (visit S rcut i j) (l, 0)).1)
      (⟨[], fun _ => [], [], fun _ => [], false⟩ : Lists)
    r.nl = (List.range n).flatMap (fun j => (ims.filter (accept S rcut i j)).map fun m => (j, m)) ∧
    (∀ e, r.nlE e = r.nl.filter fun t => S.typ t.1 = e) ∧
    r.ul = (List.range n).filter (fun j => j ≠ i ∧ ims.filter (accept S rcut i j) ≠ []) ∧
    (∀ e, r.ulE e = r.ul.filter fun j => S.typ j = e) ∧
    (r.self = true ↔ i < n ∧ ims.filter (accept S rcut i i) ≠ [])
  | 0 => by simp
  | n + 1 => by
    dsimp only
    rw [List.range_succ, List.foldl_append, List.foldl_cons, List.foldl_nil]
    obtain ⟨h1, h2, h3, h4, h5⟩ := outer_fold S rcut i ims n
    obtain ⟨g1, g2, g3, g4, g5⟩ := visit_fold S rcut i n ims
      ((List.range n).foldl (fun l j => (ims.foldl (visit S rcut i j) (l, 0)).1)
      (⟨[], fun _ => [], [], fun _ => [], false⟩ : Lists)) 0
    rw [g1, g3, h1]
    refine ⟨by simp, fun e => ?_, ?_, fun e => ?_, ?_⟩
    · rw [g2 e, h2 e, h1]
      rw [List.filter_append]
      congr 1
      by_cases he : S.typ n = e
      · rw [if_pos he]
        symm
        rw [List.filter_eq_self]
        intro t ht
        obtain ⟨m, -, rfl⟩ := List.mem_map.1 ht
        simp [he]
      · rw [if_neg he]
        symm
        rw [List.filter_eq_nil_iff]
        intro t ht
        obtain ⟨m, -, rfl⟩ := List.mem_map.1 ht
        simp [he]
    · rw [h3, List.filter_append]
      congr 1
      by_cases hc : n ≠ i ∧ ims.filter (accept S rcut i n) ≠ []
      · rw [if_pos ⟨rfl, hc⟩, List.filter_cons_of_pos (by simpa using hc)]
        rfl
      · rw [if_neg (by tauto), List.filter_cons_of_neg (by simpa using hc)]
        rfl
    · rw [g4 e, h4 e, List.filter_append]
      congr 1
      by_cases hc : n ≠ i ∧ ims.filter (accept S rcut i n) ≠ []
      · have p1 : (0 = 0 ∧ n ≠ i ∧ ims.filter (accept S rcut i n) ≠ []) := ⟨rfl, hc⟩
        rw [if_pos p1]
        by_cases he : S.typ n = e
        · rw [if_pos ⟨he, p1⟩, List.filter_cons_of_pos (by simpa using he)]
          rfl
        · rw [if_neg fun h => he h.1, List.filter_cons_of_neg (by simpa using he)]
          rfl
      · have n1 : ¬(S.typ n = e ∧ 0 = 0 ∧ n ≠ i ∧ ims.filter (accept S rcut i n) ≠ []) := fun h => hc h.2.2
        have n2 : ¬(0 = 0 ∧ n ≠ i ∧ ims.filter (accept S rcut i n) ≠ []) := fun h => hc h.2
        rw [if_neg n1, if_neg n2]
        rfl
    · rw [g5, h5]
      constructor
      · rintro (h | ⟨rfl, h⟩)
        · exact ⟨by omega, h.2⟩
        · exact ⟨by omega, h⟩
      · rintro ⟨h1, h2⟩
        by_cases hn : n = i
        · subst hn; exact .inr ⟨rfl, h2⟩
        · exact .inl ⟨by omega, h2⟩

/-- Displacement from atom `i` to the image `m` of atom `j` along the lattice directions. -/
def disp (S : Struc) (i j : ℕ) (m : ℤ × ℤ × ℤ) : ℝ × ℝ × ℝ :=
  (S.x j + m.1 * S.L1 - S.x i, S.y j + m.2.1 * S.L2 - S.y i, S.z j + m.2.2 * S.L3 - S.z i)

/-- Cartesian vector of a displacement: the lattice directions are the rows of `U`. -/
def cart (g : Geometry) (d : ℝ × ℝ × ℝ) : Fin 3 → ℝ :=
  match g with
  | .orth => ![d.1, d.2.1, d.2.2]
  | .skew U => fun k => d.1 * U ⟨k, by omega⟩ + d.2.1 * U ⟨3 + k, by omega⟩ + d.2.2 * U ⟨6 + k, by omega⟩

/-- Image `m` of atom `j` is a neighbour of atom `i`: it is not the atom itself, it is translated along
periodic axes only, and its distance is positive and below the cutoff. -/
structure IsNeighbour (S : Struc) (rcut : ℝ) (i j : ℕ) (m : ℤ × ℤ × ℤ) : Prop where
  atom : j < S.natom
  px : S.perx = false → m.1 = 0
  py : S.pery = false → m.2.1 = 0
  pz : S.perz = false → m.2.2 = 0
  other : ¬(j = i ∧ m = (0, 0, 0))
  pos : 0 < ∑ k, cart S.geo (disp S i j m) k ^ 2
  near : ∑ k, cart S.geo (disp S i j m) k ^ 2 < rcut ^ 2

theorem dist2_eq (S : Struc) (i j : ℕ) (m : ℤ × ℤ × ℤ) :
    dist2 S.geo (S.x j + m.1 * S.L1 - S.x i) (S.y j + m.2.1 * S.L2 - S.y i) (S.z j + m.2.2 * S.L3 - S.z i) =
      ∑ k, cart S.geo (disp S i j m) k ^ 2 := by
  cases h : S.geo with
  | orth =>
    simp [dist2, cart, disp, Fin.sum_univ_three]
    ring
  | skew U =>
    simp only [dist2, cart, disp, Fin.sum_univ_three]
    have e0 : (⟨((0 : Fin 3) : ℕ), by omega⟩ : Fin 9) = 0 := rfl
    have e1 : (⟨3 + ((0 : Fin 3) : ℕ), by omega⟩ : Fin 9) = 3 := rfl
    have e2 : (⟨6 + ((0 : Fin 3) : ℕ), by omega⟩ : Fin 9) = 6 := rfl
    have e3 : (⟨((1 : Fin 3) : ℕ), by omega⟩ : Fin 9) = 1 := rfl
    have e4 : (⟨3 + ((1 : Fin 3) : ℕ), by omega⟩ : Fin 9) = 4 := rfl
    have e5 : (⟨6 + ((1 : Fin 3) : ℕ), by omega⟩ : Fin 9) = 7 := rfl
    have e6 : (⟨((2 : Fin 3) : ℕ), by omega⟩ : Fin 9) = 2 := rfl
    have e7 : (⟨3 + ((2 : Fin 3) : ℕ), by omega⟩ : Fin 9) = 5 := rfl
    have e8 : (⟨6 + ((2 : Fin 3) : ℕ), by omega⟩ : Fin 9) = 8 := rfl
    rw [e0, e1, e2, e3, e4, e5, e6, e7, e8]
    ring

theorem accept_iff (S : Struc) {rcut : ℝ} (hr : 0 < rcut) (i j : ℕ) (m : ℤ × ℤ × ℤ) :
    accept S rcut i j m = true ↔ ¬(j = i ∧ m = (0, 0, 0)) ∧ 0 < ∑ k, cart S.geo (disp S i j m) k ^ 2 ∧
      ∑ k, cart S.geo (disp S i j m) k ^ 2 < rcut ^ 2 := by
  obtain ⟨a, b, c⟩ := m
  have hD : 0 ≤ ∑ k, cart S.geo (disp S i j (a, b, c)) k ^ 2 := Finset.sum_nonneg fun k _ => sq_nonneg _
  have key := dist2_eq S i j (a, b, c)
  unfold accept
  dsimp only at key ⊢
  rw [key]
  generalize ∑ k, cart S.geo (disp S i j (a, b, c)) k ^ 2 = D at *
  by_cases h0 : j = i ∧ a = 0 ∧ b = 0 ∧ c = 0
  · rw [if_pos h0]
    simp [h0.1, h0.2.1, h0.2.2.1, h0.2.2.2]
  · rw [if_neg h0]
    have e : ¬(j = i ∧ (a, b, c) = (0, 0, 0)) := by simpa using h0
    by_cases hd : Real.sqrt D ≥ rcut ∨ Real.sqrt D = 0
    · rw [if_pos hd]
      simp only [Bool.false_eq_true, false_iff]
      rintro ⟨-, g1, g2⟩
      rcases hd with h | h
      · have := (Real.sqrt_lt' hr).2 g2
        linarith
      · rw [Real.sqrt_eq_zero hD] at h
        linarith
    · rw [if_neg hd]
      push Not at hd
      simp only [true_iff]
      refine ⟨e, lt_of_le_of_ne hD fun h => hd.2 (by rw [← h, Real.sqrt_zero]), ?_⟩
      exact (Real.sqrt_lt' hr).1 hd.1

/-- The image range of an axis contains every image within the search distance. -/
theorem axis_range {per : Bool} {rc L a b : ℝ} {m : ℤ} (hL : per = true → 0 < L)
    (ha : per = true → 0 ≤ a ∧ a ≤ L) (hb : per = true → 0 ≤ b ∧ b ≤ L)
    (hm : per = false → m = 0) (hd : |b + m * L - a| < rc) : -imgN per rc L a ≤ m ∧ m ≤ imgP per rc L a := by
  cases per with
  | false => simp [imgN, imgP, hm rfl]
  | true =>
    have hL := hL rfl
    obtain ⟨a0, a1⟩ := ha rfl
    obtain ⟨b0, b1⟩ := hb rfl
    obtain ⟨d0, d1⟩ := abs_lt.1 hd
    simp only [imgN, imgP, if_true]
    constructor
    · have h1 : -m < ⌈(rc - a) / L⌉ + 1 := by
        rw [← Int.cast_lt (R := ℝ)]
        push_cast
        have h2 : (-(m : ℝ)) < (rc - a) / L + 1 := by
          rw [div_add_one hL.ne', lt_div_iff₀ hL]
          linarith
        have := Int.le_ceil ((rc - a) / L)
        linarith
      have := le_max_right 0 ⌈(rc - a) / L⌉
      omega
    · have h1 : m < ⌈(rc - L + a) / L⌉ + 1 := by
        rw [← Int.cast_lt (R := ℝ)]
        push_cast
        have h2 : (m : ℝ) < (rc - L + a) / L + 1 := by
          rw [div_add_one hL.ne', lt_div_iff₀ hL]
          linarith
        have := Int.le_ceil ((rc - L + a) / L)
        linarith
      have := le_max_right 0 ⌈(rc - L + a) / L⌉
      omega

theorem range_nonperiodic {per : Bool} {rc L a : ℝ} {m : ℤ} (h : -imgN per rc L a ≤ m ∧ m ≤ imgP per rc L a) :
    per = false → m = 0 := by
  rintro rfl
  simp [imgN, imgP] at h
  omega

/-- Atom `j` lies in the cell along the periodic axes. -/
structure Inside (S : Struc) (j : ℕ) : Prop where
  x : S.perx = true → 0 ≤ S.x j ∧ S.x j ≤ S.L1
  y : S.pery = true → 0 ≤ S.y j ∧ S.y j ≤ S.L2
  z : S.perz = true → 0 ≤ S.z j ∧ S.z j ≤ S.L3

/-- Every displacement shorter than the cutoff has components below the three search distances. -/
def Covers (g : Geometry) (rcut gy gz : ℝ) : Prop :=
  ∀ d : ℝ × ℝ × ℝ, ∑ k, cart g d k ^ 2 < rcut ^ 2 → |d.1| < rcut ∧ |d.2.1| < rcut * gy ∧ |d.2.2| < rcut * gz

/-- **C38.**  If the search distances cover the cutoff, the neighbour list holds exactly the neighbours of
the atom, each once. -/
theorem nlist_complete_partial (S : Struc) {rcut gy gz : ℝ} (hr : 0 < rcut) (hc : Covers S.geo rcut gy gz)
    (hLx : S.perx = true → 0 < S.L1) (hLy : S.pery = true → 0 < S.L2) (hLz : S.perz = true → 0 < S.L3)
    (hin : ∀ j < S.natom, Inside S j) (i : ℕ) (hi : i < S.natom) :
    (nlist S rcut gy gz i).nl.Nodup ∧
    ∀ j m, (j, m) ∈ (nlist S rcut gy gz i).nl ↔ IsNeighbour S rcut i j m := by
  unfold nlist
  dsimp only
  obtain ⟨h1, -⟩ := outer_fold S rcut i (images (imgN S.perx rcut S.L1 (S.x i)) (imgP S.perx rcut S.L1 (S.x i))
    (imgN S.pery (rcut * gy) S.L2 (S.y i)) (imgP S.pery (rcut * gy) S.L2 (S.y i))
    (imgN S.perz (rcut * gz) S.L3 (S.z i)) (imgP S.perz (rcut * gz) S.L3 (S.z i))) S.natom
  rw [h1]
  constructor
  · rw [List.nodup_flatMap]
    refine ⟨fun j _ => ((nodup_images _ _ _ _ _ _).filter _).map fun m m' h => by simpa using h, ?_⟩
    refine List.nodup_range.imp fun {j j'} hjj => ?_
    intro t t1 t2
    obtain ⟨m, -, rfl⟩ := List.mem_map.1 t1
    obtain ⟨m', -, h⟩ := List.mem_map.1 t2
    simp only [Prod.mk.injEq] at h
    exact hjj h.1.symm
  · intro j m
    rw [List.mem_flatMap]
    constructor
    · rintro ⟨j', hj', hm⟩
      obtain ⟨m', hm', he⟩ := List.mem_map.1 hm
      simp only [Prod.mk.injEq] at he
      obtain ⟨rfl, rfl⟩ := he
      obtain ⟨g1, g2⟩ := List.mem_filter.1 hm'
      obtain ⟨rx, ry, rz⟩ := mem_images.1 g1
      obtain ⟨q1, q2, q3⟩ := (accept_iff S hr i j' m').1 g2
      exact ⟨List.mem_range.1 hj', range_nonperiodic rx, range_nonperiodic ry, range_nonperiodic rz, q1, q2, q3⟩
    · intro H
      obtain ⟨cx, cy, cz⟩ := hc (disp S i j m) H.near
      have ii := hin i hi
      have ij := hin j H.atom
      refine ⟨j, List.mem_range.2 H.atom, List.mem_map.2 ⟨m, List.mem_filter.2 ⟨mem_images.2 ⟨?_, ?_, ?_⟩, ?_⟩, rfl⟩⟩
      · exact axis_range hLx ii.x ij.x H.px cx
      · exact axis_range hLy ii.y ij.y H.py cy
      · exact axis_range hLz ii.z ij.z H.pz cz
      · exact (accept_iff S hr i j m).2 ⟨H.other, H.pos, H.near⟩

/-- In an orthogonal cell ratios of at least one cover the cutoff. -/
theorem covers_orth {rcut gy gz : ℝ} (hr : 0 < rcut) (hy : 1 ≤ gy) (hz : 1 ≤ gz) : Covers .orth rcut gy gz := by
  rintro ⟨a, b, c⟩ h
  simp only [cart, Fin.sum_univ_three, Matrix.cons_val] at h
  have key : ∀ u : ℝ, u ^ 2 < rcut ^ 2 → |u| < rcut := fun u hu => abs_lt_of_sq_lt_sq hu hr.le
  refine ⟨key a (by nlinarith [sq_nonneg b, sq_nonneg c]), ?_, ?_⟩
  · have := key b (by nlinarith [sq_nonneg a, sq_nonneg c])
    show |b| < rcut * gy
    nlinarith
  · have := key c (by nlinarith [sq_nonneg a, sq_nonneg b])
    show |c| < rcut * gz
    nlinarith

/-- The element-wise lists are the parts of the list belonging to the element; the list of distinct
neighbours names every other atom with an image in the list once, in increasing order, and the self-image
flag tells whether the list holds an image of the atom itself. -/
theorem lists_consistent (S : Struc) (rcut gy gz : ℝ) (i : ℕ) (hi : i < S.natom) :
    (∀ e, (nlist S rcut gy gz i).nlE e = (nlist S rcut gy gz i).nl.filter fun t => S.typ t.1 = e) ∧
    (∀ e, (nlist S rcut gy gz i).ulE e = (nlist S rcut gy gz i).ul.filter fun j => S.typ j = e) ∧
    (nlist S rcut gy gz i).ul.Pairwise (· < ·) ∧
    (∀ j, j ∈ (nlist S rcut gy gz i).ul ↔ j ≠ i ∧ ∃ m, (j, m) ∈ (nlist S rcut gy gz i).nl) ∧
    ((nlist S rcut gy gz i).self = true ↔ ∃ m, (i, m) ∈ (nlist S rcut gy gz i).nl) := by
  unfold nlist
  dsimp only
  obtain ⟨h1, h2, h3, h4, h5⟩ := outer_fold S rcut i (images (imgN S.perx rcut S.L1 (S.x i)) (imgP S.perx rcut S.L1 (S.x i))
    (imgN S.pery (rcut * gy) S.L2 (S.y i)) (imgP S.pery (rcut * gy) S.L2 (S.y i))
    (imgN S.perz (rcut * gz) S.L3 (S.z i)) (imgP S.perz (rcut * gz) S.L3 (S.z i))) S.natom
  refine ⟨h2, h4, ?_, ?_, ?_⟩
  · rw [h3]
    exact List.pairwise_lt_range.filter _
  · intro j
    rw [h3, h1]
    simp only [List.mem_filter, List.mem_range, List.mem_flatMap, List.mem_map, Prod.mk.injEq, decide_eq_true_eq]
    constructor
    · rintro ⟨hj, hji, hne⟩
      obtain ⟨m, hm⟩ := List.exists_mem_of_ne_nil _ hne
      obtain ⟨m1, m2⟩ := List.mem_filter.1 hm
      exact ⟨hji, m, j, hj, m, ⟨m1, m2⟩, rfl, rfl⟩
    · rintro ⟨hji, m, j', hj', m', ⟨m1, m2⟩, rfl, rfl⟩
      exact ⟨hj', hji, List.ne_nil_of_mem (List.mem_filter.2 ⟨m1, m2⟩)⟩
  · rw [h5, h1]
    simp only [List.mem_flatMap, List.mem_map, List.mem_range, Prod.mk.injEq]
    constructor
    · rintro ⟨hi, hne⟩
      obtain ⟨m, hm⟩ := List.exists_mem_of_ne_nil _ hne
      exact ⟨m, i, hi, m, hm, rfl, rfl⟩
    · rintro ⟨m, j, hj, m', hm, rfl, rfl⟩
      exact ⟨hi, List.ne_nil_of_mem hm⟩

theorem linSearch_spec : ∀ (l : List ℕ) (x : ℕ),
    (x ∈ l → ∃ k : ℕ, linSearch l x = k ∧ l[k]? = some x) ∧ (x ∉ l → linSearch l x = -1)
  | [], x => by simp [linSearch]
  | a :: l, x => by
    obtain ⟨h1, h2⟩ := linSearch_spec l x
    unfold linSearch
    by_cases ha : a = x
    · rw [if_pos ha]
      exact ⟨fun _ => ⟨0, rfl, by simp [ha]⟩, fun h => absurd (by simp [ha]) h⟩
    · rw [if_neg ha]
      dsimp only
      constructor
      · intro hx
        obtain ⟨k, hk, hg⟩ := h1 (by simpa [Ne.symm ha] using hx)
        refine ⟨k + 1, ?_, by simpa using hg⟩
        rw [hk, if_neg (by omega)]
        push_cast; rfl
      · intro hx
        rw [h2 (by simp at hx; exact hx.2), if_pos rfl]

/-- The local number of a neighbour is its place in the list of distinct neighbours of its element; images
of the atom itself get `-1`. -/
theorem local_ids (S : Struc) (rcut gy gz : ℝ) (i : ℕ) (hi : i < S.natom) (e : ℕ) :
    List.Forall₂ (fun (t : ℕ × ℤ × ℤ × ℤ) (id : ℤ) => if t.1 = i then id = -1 else
      ∃ k : ℕ, id = k ∧ ((nlist S rcut gy gz i).ulE e)[k]? = some t.1)
      ((nlist S rcut gy gz i).nlE e) (localId (nlist S rcut gy gz i) e) := by
  obtain ⟨h1, h2, h3, h4, -⟩ := lists_consistent S rcut gy gz i hi
  unfold localId
  rw [List.forall₂_map_right_iff, List.forall₂_same]
  intro t ht
  rw [h1 e, List.mem_filter] at ht
  obtain ⟨ht, hte⟩ := ht
  simp only [decide_eq_true_eq] at hte
  obtain ⟨g1, g2⟩ := linSearch_spec ((nlist S rcut gy gz i).ulE e) t.1
  by_cases hti : t.1 = i
  · rw [if_pos hti]
    refine g2 fun hm => ?_
    rw [h2 e, List.mem_filter, h4] at hm
    exact hm.1.1 hti
  · rw [if_neg hti]
    refine g1 ?_
    rw [h2 e, List.mem_filter, h4]
    exact ⟨⟨hti, t.2, ht⟩, by simpa using hte⟩

/-! ## What is missed -/

/-- One atom at the corner of an orthogonal cell of lengths `8`, `5`, `8`. -/
def oneAtom : Struc :=
  ⟨.orth, 8, 5, 8, true, true, true, 1, fun _ => 0, fun _ => 0, fun _ => 0, fun _ => 0⟩

/-- The search distances in `y` and `z` are the cutoff times a ratio of pseudocharge radii.  With mesh
spacings `0.4` and `0.5` a radius of `3` becomes `3.2` and `3.0`; with the ratio `3.0/3.2` and a cutoff of
`5.2` the atom's own image one cell up in `y`, at distance `5`, is missing from the list. -/
theorem ratio_misses_image : IsNeighbour oneAtom 5.2 0 0 (0, 1, 0) ∧
    (0, ((0, 1, 0) : ℤ × ℤ × ℤ)) ∉ (nlist oneAtom 5.2 (3 / 3.2) 1 0).nl := by
  constructor
  · refine ⟨by norm_num [oneAtom], by simp [oneAtom], by simp [oneAtom], by simp [oneAtom], by simp, ?_, ?_⟩ <;>
    · rw [← dist2_eq]
      norm_num [oneAtom, dist2]
  · unfold nlist
    dsimp only
    rw [(outer_fold oneAtom 5.2 0 _ _).1]
    rw [List.mem_flatMap]
    rintro ⟨j, -, hm⟩
    obtain ⟨m, hm, he⟩ := List.mem_map.1 hm
    simp only [Prod.mk.injEq] at he
    obtain ⟨rfl, rfl⟩ := he
    have := (mem_images.1 (List.mem_filter.1 hm).1).2.1.2
    simp only [imgP, oneAtom, if_true] at this
    have e : ⌈((5.2 : ℝ) * (3 / 3.2) - 5 + 0) / 5⌉ = 0 := by
      rw [Int.ceil_eq_iff]; norm_num
    rw [e] at this
    norm_num at this

/-- One atom in a cell with lattice directions `(1, 0, 0)`, `(4/5, 3/5, 0)`, `(0, 0, 1)`. -/
noncomputable def skewAtom : Struc :=
  ⟨.skew fun k => if k = 0 then 1 else if k = 3 then 4 / 5 else if k = 4 then 3 / 5 else if k = 8 then 1 else 0,
    3 / 2, 6 / 5, 3, true, true, true, 1, fun _ => 0, fun _ => 0, fun _ => 0, fun _ => 0⟩

/-- In a skewed cell the search distance along the first direction is not widened: whatever the ratios, the
image `(1, -1, 0)` at distance `0.9` is missing for a cutoff of `1`. -/
theorem skew_misses_image (gy gz : ℝ) : IsNeighbour skewAtom 1 0 0 (1, -1, 0) ∧
    (0, ((1, -1, 0) : ℤ × ℤ × ℤ)) ∉ (nlist skewAtom 1 gy gz 0).nl := by
  constructor
  · refine ⟨by norm_num [skewAtom], by simp [skewAtom], by simp [skewAtom], by simp [skewAtom], by simp, ?_, ?_⟩ <;>
    · rw [← dist2_eq]
      norm_num [skewAtom, dist2]
      try simp only [Fin.reduceEq, if_false]
      try norm_num
  · unfold nlist
    dsimp only
    rw [(outer_fold skewAtom 1 0 _ _).1]
    rw [List.mem_flatMap]
    rintro ⟨j, -, hm⟩
    obtain ⟨m, hm, he⟩ := List.mem_map.1 hm
    simp only [Prod.mk.injEq] at he
    obtain ⟨rfl, rfl⟩ := he
    have := (mem_images.1 (List.mem_filter.1 hm).1).1.2
    simp only [imgP, skewAtom, if_true] at this
    have e : ⌈((1 : ℝ) - 3 / 2 + 0) / (3 / 2)⌉ = 0 := by
      rw [Int.ceil_eq_iff]; norm_num
    rw [e] at this
    norm_num at this

/-- With ratio one the same image is found. -/
example : (0, ((0, 1, 0) : ℤ × ℤ × ℤ)) ∈ (nlist oneAtom 5.2 1 1 0).nl := by
  have hin : ∀ j < oneAtom.natom, Inside oneAtom j := fun j _ =>
    ⟨fun _ => by norm_num [oneAtom], fun _ => by norm_num [oneAtom], fun _ => by norm_num [oneAtom]⟩
  exact ((nlist_complete_partial oneAtom (by norm_num) (covers_orth (by norm_num) le_rfl le_rfl)
    (fun _ => by norm_num [oneAtom]) (fun _ => by norm_num [oneAtom]) (fun _ => by norm_num [oneAtom]) hin 0
    (by norm_num [oneAtom])).2 0 (0, 1, 0)).2 ratio_misses_image.1

end Sparc.Neigh

import Verif.Sq.Restrict
import Verif.Sq.Gauss
import Verif.Occ.Lemmas
import Mathlib.Analysis.Real.Pi.Bounds
import Mathlib.Analysis.Complex.ExponentialBounds

/-!
# Spectral quadrature: properties

C72: the Hamiltonian of one node.  C73: Gauss quadrature.  C74: density and density matrix.
C75: projectors of one node.  C76: electron count and entropy.
-/

namespace Sparc.Sq

open Finset Matrix Lap Loop

/-! ## C72: the Hamiltonian of one node -/

/-- The operator at offset `(i,j,k)` of the box of node `(I,J,K)`: minus half the finite-difference
Laplacian of the vector continued by zero outside the box, plus the effective potential of that
grid point times the vector, plus the projectors of all images of all types. -/
theorem hsub_formula (E : Ham) (x : Mem) (hp : Padded E.S E.xex) {I J K : ℕ} (hI : I < E.S.DMnx)
    (hJ : J < E.S.DMny) {i j k : ℕ} (hi : i < E.S.nx) (hj : j < E.S.ny) (hk : k < E.S.nz) :
    hsub E (I + J * E.S.DMnx + K * (E.S.DMnx * E.S.DMny)) x
      ((k : ℤ) * (E.S.nx * E.S.ny) + j * E.S.nx + i) =
    -(1 / 2) * (D2 E.S.FDn E.C.D2x (fun t => grid E.S x t j k) i
      + D2 E.S.FDn E.C.D2y (fun t => grid E.S x i t k) j
      + D2 E.S.FDn E.C.D2z (fun t => grid E.S x i j t) k)
    + E.Veff (((k : ℤ) + K) * (E.S.px * E.S.py) + (j + J) * E.S.px + (i + I))
        * x ((k : ℤ) * (E.S.nx * E.S.ny) + j * E.S.nx + i)
    + ((E.types (I + J * E.S.DMnx + K * (E.S.DMnx * E.S.DMny))).map fun To => (To.2.map fun Im =>
        ∑ c ∈ range (Nloc.nproj To.1), gam To.1 c
          * chiAt Im c ((k : ℤ) * (E.S.nx * E.S.ny) + j * E.S.nx + i)
          * (E.dV * ∑ p ∈ range Im.gpos.length,
              Im.chi (c * Im.gpos.length + p) * x (Im.gpos.getD p 0))).sum).sum := by
  rw [hsub_at E x hp hI hJ hi hj hk]
  have : grid E.S x i j k = x ((k : ℤ) * (E.S.nx * E.S.ny) + j * E.S.nx + i) := by
    unfold grid; rw [if_pos (by omega)]
  rw [this]
  rfl

/-- The operator is linear and symmetric on the box. -/
theorem hsub_symmetric (E : Ham) (hp : Padded E.S E.xex) {I J K : ℕ}
    (hb : InBox E.S (E.types (I + J * E.S.DMnx + K * (E.S.DMnx * E.S.DMny))))
    (hI : I < E.S.DMnx) (hJ : J < E.S.DMny) :
    ∃ M : Matrix (Fin E.S.nd) (Fin E.S.nd) ℝ, Mᵀ = M ∧ ∀ (x : Mem) (q : Fin E.S.nd),
      hsub E (I + J * E.S.DMnx + K * (E.S.DMnx * E.S.DMny)) x ((q : ℕ) : ℤ)
        = ∑ q' : Fin E.S.nd, M q q' * x ((q' : ℕ) : ℤ) :=
  ⟨_, hsub_symm E hp hI hJ, fun x q => congrFun (hsub_acts E hp hb hI hJ x) q⟩

/-- The zeros around the box in `x_ex` survive a call, so that they can be set once. -/
theorem padding_kept (S : Sizes) (x xex : Mem) (hp : Padded S xex) :
    Padded S (Grid.restrictSub
      ⟨S.nx + 2 * S.FDn, S.nx, (S.nx + 2 * S.FDn) * (S.ny + 2 * S.FDn), S.nx * S.ny, S.FDn,
        S.nx + S.FDn - 1, S.FDn, S.ny + S.FDn - 1, S.FDn, S.nz + S.FDn - 1, 0, 0, 0⟩ x xex) :=
  padded_keep S x xex hp

/-- `x_ex` after `calloc`. -/
theorem padding_calloc (S : Sizes) : Padded S (fun _ => 0) := by
  intro i j k _ _ _ _ _ _ _; rfl

/-! ## C75: projectors of one node -/

/-- Projectors of a node, when `max (nloc δ) < (nloc_d + 1) δ_d` for the three axes (for instance
equal spacings): all positions lie in the box, and the projector at each point of the box is the
one of the image, cut off at distance `max (nloc δ)` from the node.  Missing: other spacings, for
which it fails, see `restrict_fails`. -/
theorem restrict_partial (S : Sizes) {dx dy dz : ℝ} (hE : Even S dx dy dz) (nproj : ℕ) (gpos : List ℕ)
    (chi : ℕ → ℝ) {I J K : ℕ} (hI : I < S.DMnx) (hJ : J < S.DMny) :
    match restrictImg S dx dy dz nproj (I + J * S.DMnx + K * (S.DMnx * S.DMny)) gpos chi with
    | some Im => (∀ q ∈ Im.gpos, 0 ≤ q ∧ q < S.nd) ∧ ∀ c < nproj, ∀ i < S.nx, ∀ j < S.ny, ∀ k < S.nz,
        chiAt Im c ((k : ℤ) * (S.nx * S.ny) + j * S.nx + i) = cutChi S dx dy dz gpos chi I J K c i j k
    | none => ∀ c < nproj, ∀ i < S.nx, ∀ j < S.ny, ∀ k < S.nz,
        cutChi S dx dy dz gpos chi I J K c i j k = 0 := by
  classical
  unfold restrictImg
  simp only
  have hfe : (List.range gpos.length).filter (fun ip =>
      @decide (keep S dx dy dz (I + J * S.DMnx + K * (S.DMnx * S.DMny)) (gpos.getD ip 0))
        (Classical.propDecidable _)) = (List.range gpos.length).filter (fun ip =>
      decide (keep S dx dy dz (I + J * S.DMnx + K * (S.DMnx * S.DMny)) (gpos.getD ip 0))) := by
    refine List.filter_congr fun p _ => ?_
    simp
  set ipos := (List.range gpos.length).filter fun ip =>
    @decide (keep S dx dy dz (I + J * S.DMnx + K * (S.DMnx * S.DMny)) (gpos.getD ip 0))
      (Classical.propDecidable _) with hip
  by_cases h0 : ipos.length = 0
  · rw [if_pos h0]
    simp only
    intro c _ i hi j hj k hk
    rw [← kept_sum S hE gpos chi hI hJ c hi hj hk ipos (by convert hip), h0]
    simp
  · rw [if_neg h0]
    simp only
    constructor
    · intro q hq
      rw [List.mem_map] at hq
      obtain ⟨p, hp, rfl⟩ := hq
      have := (List.mem_filter.1 hp).2
      exact inbox_pos S hE hI hJ _ (by simpa using this)
    · intro c hc i hi j hj k hk
      rw [← kept_sum S hE gpos chi hI hJ c hi hj hk ipos (by convert hip)]
      unfold chiAt
      simp only [List.length_map]
      refine sum_congr rfl fun r hr => ?_
      have hr' := mem_range.1 hr
      have e1 : (ipos.map fun ip => nodePos S (I + J * S.DMnx + K * (S.DMnx * S.DMny)) (gpos.getD ip 0)).getD
          r 0 = nodePos S (I + J * S.DMnx + K * (S.DMnx * S.DMny)) (gpos.getD (ipos.getD r 0) 0) := by
        rw [List.getD_eq_getElem?_getD, List.getElem?_map, List.getElem?_eq_getElem hr',
          List.getD_eq_getElem?_getD (l := ipos), List.getElem?_eq_getElem hr']
        rfl
      have e2 : c * ipos.length + r < ipos.length * nproj := by
        calc c * ipos.length + r < c * ipos.length + ipos.length := by omega
          _ = ipos.length * (c + 1) := by ring
          _ ≤ ipos.length * nproj := Nat.mul_le_mul_left _ hc
      rw [e1, if_pos e2, Nat.mul_add_mod', Nat.mod_eq_of_lt hr', Nat.mul_comm c, Nat.mul_add_div (by omega),
        Nat.div_eq_of_lt hr', Nat.add_zero]

/-- With spacings 0.4 and 0.2 and `SQ_RCUT` 4.1 a kept point lies outside the box of the node: it is
stored at the position of another grid point, more than 30 mesh points away along `y`. -/
theorem restrict_fails : ∃ (S : Sizes) (dx dy dz : ℝ) (g : ℕ),
    0 < dx ∧ 0 < dy ∧ 0 < dz ∧ S.nloc0 = ⌈(4.1 : ℝ) / dx⌉₊ ∧ S.nloc1 = ⌈(4.1 : ℝ) / dy⌉₊ ∧
    S.nloc2 = ⌈(4.1 : ℝ) / dz⌉₊ ∧ g < S.px * S.py * (S.DMnz + 2 * S.nloc2) ∧
    keep S dx dy dz 0 g ∧
    -- the stored position is the one of the point `g'` of the box
    ∃ g' : ℕ, nodePos S 0 g = nodePos S 0 g' ∧ keep S dx dy dz 0 g ∧
      (decodePR S g').1 < S.nx ∧ (decodePR S g').2.1 < S.ny ∧ (decodePR S g').2.2 < S.nz ∧
      (decodePR S g').2.1 + 30 < (decodePR S g).2.1 := by
  have hk : keep ⟨11, 21, 11, 4, 4, 4, 6⟩ 0.4 0.2 0.4 0
      (11 + 43 * (Sizes.px ⟨11, 21, 11, 4, 4, 4, 6⟩)
        + 11 * (Sizes.px ⟨11, 21, 11, 4, 4, 4, 6⟩ * Sizes.py ⟨11, 21, 11, 4, 4, 4, 6⟩)) := by
    have := (keep_iff ⟨11, 21, 11, 4, 4, 4, 6⟩ 0.4 0.2 0.4 (I := 0) (J := 0) (K := 0) (a := 11) (b := 43)
      (c := 11) (by norm_num) (by norm_num) (by norm_num [Sizes.px]) (by norm_num [Sizes.py])).2 (by
        unfold rc
        have : (4.4 : ℝ) ≤ max (max (((11 : ℕ) : ℝ) * 0.4) (((21 : ℕ) : ℝ) * 0.2)) (((11 : ℕ) : ℝ) * 0.4) :=
          le_max_of_le_left (le_max_of_le_left (by norm_num))
        push_cast at this ⊢
        nlinarith)
    simpa using this
  refine ⟨⟨11, 21, 11, 4, 4, 4, 6⟩, 0.4, 0.2, 0.4,
    11 + 43 * (Sizes.px ⟨11, 21, 11, 4, 4, 4, 6⟩)
      + 11 * (Sizes.px ⟨11, 21, 11, 4, 4, 4, 6⟩ * Sizes.py ⟨11, 21, 11, 4, 4, 4, 6⟩),
    by norm_num, by norm_num, by norm_num, ?_, ?_, ?_, by norm_num [Sizes.px, Sizes.py], hk,
    11 + 0 * (Sizes.px ⟨11, 21, 11, 4, 4, 4, 6⟩)
      + 12 * (Sizes.px ⟨11, 21, 11, 4, 4, 4, 6⟩ * Sizes.py ⟨11, 21, 11, 4, 4, 4, 6⟩), ?_, hk, ?_, ?_, ?_, ?_⟩
  · symm; rw [Nat.ceil_eq_iff (by norm_num)]; norm_num
  · symm; rw [Nat.ceil_eq_iff (by norm_num)]; norm_num
  · symm; rw [Nat.ceil_eq_iff (by norm_num)]; norm_num
  · norm_num [nodePos, decodePR, decodeDM, Sizes.px, Sizes.py, Sizes.nx, Sizes.ny]
  all_goals norm_num [decodePR, Sizes.px, Sizes.py, Sizes.nx, Sizes.ny, Sizes.nz]

/-! ## C73: Gauss quadrature -/

/-- The eigensolver, when it returns: orthonormal columns of eigenvectors of the tridiagonal matrix
with diagonal `dg` and off-diagonal `sb`. -/
theorem tridiag_eigen {n : ℕ} {dg sb : ℕ → ℝ} {q : QSt} (h : tridiag n dg sb = some q) {j : ℕ} (hj : j < n) :
    (∀ j' < n, ∑ i ∈ range n, q.z i j * q.z i j' = if j = j' then 1 else 0) ∧
    ∀ i < n, (if 0 < i then sb (i - 1) * q.z (i - 1) j else 0) + dg i * q.z i j
      + (if i + 1 < n then sb i * q.z (i + 1) j else 0) = q.d j * q.z i j := by
  obtain ⟨h1, h2, h3⟩ := tridiag_matrix h
  constructor
  · intro j' hj'
    have := congrFun (congrFun h1 ⟨j, hj⟩) ⟨j', hj'⟩
    rw [mul_apply, Matrix.one_apply] at this
    simp only [transpose_apply, zM, Fin.mk.injEq] at this
    rw [Fin.sum_univ_eq_sum_range (fun i => q.z i j * q.z i j')] at this
    exact this
  · intro i hi
    have e : triM n dg sb * zM n q.z = zM n q.z * diagonal (fun i : Fin n => q.d i) := by
      rw [h3, Matrix.mul_assoc, h1, Matrix.mul_one]
    have := congrFun (congrFun e ⟨i, hi⟩) ⟨j, hj⟩
    rw [mul_apply, mul_diagonal] at this
    simp only [triM, zM] at this
    rw [Fin.sum_univ_eq_sum_range (fun k => triT dg sb i k * q.z k j)] at this
    rw [mul_comm (q.d j), ← this]
    have tT : ∀ k, triT dg sb i k = if i = k then dg i else if i + 1 = k then sb i
        else if k + 1 = i then sb k else 0 := by
      intro k
      unfold triT
      simp only [eq_comm (a := k) (b := i + 1), eq_comm (a := i) (b := k + 1)]
    have sp : ∀ k, triT dg sb i k * q.z k j = (if k = i then dg i * q.z i j else 0)
        + (if k = i + 1 then sb i * q.z (i + 1) j else 0)
        + (if k + 1 = i then sb (i - 1) * q.z (i - 1) j else 0) := by
      intro k
      rw [tT]
      by_cases c1 : k = i
      · subst c1; rw [if_pos rfl, if_pos rfl, if_neg (by omega), if_neg (by omega)]; ring
      · rw [if_neg (Ne.symm c1), if_neg c1]
        by_cases c2 : k = i + 1
        · subst c2; rw [if_pos rfl, if_pos rfl, if_neg (by omega)]; ring
        · rw [if_neg (Ne.symm c2), if_neg c2]
          by_cases c3 : k + 1 = i
          · subst c3; rw [if_pos rfl, if_pos rfl, Nat.add_sub_cancel]; ring
          · rw [if_neg c3, if_neg c3]; ring
    rw [sum_congr rfl fun k _ => sp k, sum_add_distrib, sum_add_distrib, sum_ite_eq', sum_ite_eq',
      if_pos (mem_range.2 hi)]
    simp only [mem_range]
    have last : ∑ k ∈ range n, (if k + 1 = i then sb (i - 1) * q.z (i - 1) j else 0)
        = if 0 < i then sb (i - 1) * q.z (i - 1) j else 0 := by
      by_cases hi0 : 0 < i
      · rw [if_pos hi0, sum_eq_single (i - 1)]
        · rw [if_pos (by omega)]
        · intro k _ hk; rw [if_neg (by omega)]
        · intro hh; exact absurd (mem_range.2 (by omega)) hh
      · rw [if_neg hi0]
        exact sum_eq_zero fun k _ => by rw [if_neg (by omega)]
    rw [last]
    ring

/-- For two rows one sweep is enough, whatever the matrix. -/
theorem tridiag_two (dg sb : ℕ → ℝ) : ∃ q, tridiag 2 dg sb = some q := by
  have fin1 : ∀ q : QSt, qlIter 2 1 200 q = some q := by
    intro q; unfold qlIter findM; simp
  have fin0 : ∀ (l : ℕ) (q : QSt), q.e 0 = 0 → qlIter 2 0 l q = some q := by
    intro l q h; unfold qlIter findM; simp [h]
  have key : ∀ q : QSt, ∃ q', qlIter 2 0 200 q = some q' := by
    intro q
    by_cases h0 : q.e 0 = 0
    · exact ⟨q, fin0 200 q h0⟩
    · have hm : findM 2 q.d q.e 2 0 = 1 := by
        simp [findM, h0]
      refine ⟨sweep 2 0 1 q, ?_⟩
      rw [show (200 : ℕ) = 199 + 1 from rfl]
      unfold qlIter
      rw [hm]
      simp only [one_ne_zero, if_false]
      refine fin0 199 _ ?_
      set e := q.e 0 with he
      set D := q.d 1 - q.d 0 with hD
      set g0 := D / (2 * e) with hg0
      set r0 := √(g0 * g0 + 1) with hr0
      have hr0s : r0 * r0 = g0 * g0 + 1 := Real.mul_self_sqrt (by nlinarith [mul_self_nonneg g0])
      have hr0p : 0 < r0 := Real.sqrt_pos.2 (by nlinarith [mul_self_nonneg g0])
      set t := g0 + sign r0 g0 with ht
      have ht2 : 1 + 2 * g0 * t - t * t = 0 := by
        rw [ht]; unfold sign
        split_ifs
        · rw [abs_of_pos hr0p]; nlinarith
        · rw [abs_of_pos hr0p]; nlinarith
      have htne : t ≠ 0 := by
        intro h; rw [h] at ht2; norm_num at ht2
      set g := D + e / t with hg
      have hDe : D = 2 * e * g0 := by rw [hg0]; field_simp
      have hquad : g * g - g * D - e * e = 0 := by
        have : g * g - g * D - e * e = e * e * (1 + 2 * g0 * t - t * t) / (t * t) := by
          rw [hg, hDe]; field_simp; ring
        rw [this, ht2, mul_zero, zero_div]
      have hrr : 0 < g * g + e * e := by
        have := mul_self_pos.2 h0; nlinarith [mul_self_nonneg g]
      set r := √(g * g + e * e) with hr
      have hrs : r * r = g * g + e * e := Real.mul_self_sqrt hrr.le
      have hrp : 0 < r := Real.sqrt_pos.2 hrr
      have hgf : g / r * ((q.d 0 - q.d 1) * (e / r) + 2 * (g / r) * e) - e = 0 := by
        have : g / r * ((q.d 0 - q.d 1) * (e / r) + 2 * (g / r) * e) - e
            = e * (2 * g * g - g * D - r * r) / (r * r) := by
          rw [hD]; field_simp; ring
        rw [this, hrs]
        have : 2 * g * g - g * D - (g * g + e * e) = 0 := by linarith
        rw [this, mul_zero, zero_div]
      have hrne : ¬ (√(g * g + 1 * e * (1 * e)) = 0) := by
        rw [one_mul, ← hr]; exact hrp.ne'
      have hlist : ((List.range (1 - 0)).map fun t => 1 - 1 - t) = [0] := rfl
      unfold sweep
      simp only [hlist, List.foldl_cons, List.foldl_nil]
      unfold qlStep
      simp only [Bool.false_eq_true, if_false]
      rw [← he, ← hD, ← hg0, ← hr0, ← ht, ← hg, if_neg hrne]
      simp only [Bool.false_eq_true, if_false]
      rw [Function.update_of_ne (by norm_num), Function.update_self]
      simp only [one_mul, sub_zero]
      rw [← hr]
      linarith [hgf]
  unfold tridiag
  obtain ⟨q', hq'⟩ := key ⟨dg, Function.update sb (2 - 1) 0, fun i j => if i = j then 1 else 0⟩
  refine ⟨q', ?_⟩
  show ((some _).bind (qlIter 2 0 200)).bind (qlIter 2 1 200) = _
  rw [Option.bind_some, hq', Option.bind_some, fin1]

theorem center_lt (S : Sizes) : center S < S.nd := by
  unfold center
  have := flat3_lt (nx := S.nx) (ny := S.ny) (nz := S.nz) (i := S.nloc0) (j := S.nloc1) (k := S.nloc2)
    (by unfold Sizes.nx; omega) (by unfold Sizes.ny; omega) (by unfold Sizes.nz; omega)
  unfold Sizes.nd
  rw [Nat.mul_assoc S.nloc2]
  exact this

/-- Position of the node in its box. -/
def ctr (S : Sizes) : Fin S.nd := ⟨center S, center_lt S⟩

/-- The setting of the theorems on the quadrature: node `(I,J,K)`, its operator given by the matrix
`M`, the number of quadrature points at least one and at most the dimension of the Krylov space of
the node (no nonzero polynomial of smaller degree annihilates the unit vector of the node). -/
structure Setting (E : Ham) (npl I J K : ℕ) (M : Matrix (Fin E.S.nd) (Fin E.S.nd) ℝ) : Prop where
  pad : Padded E.S E.xex
  box : InBox E.S (E.types (I + J * E.S.DMnx + K * (E.S.DMnx * E.S.DMny)))
  hI : I < E.S.DMnx
  hJ : J < E.S.DMny
  mat : ∀ (x : Mem) (q : Fin E.S.nd), hsub E (I + J * E.S.DMnx + K * (E.S.DMnx * E.S.DMny)) x ((q : ℕ) : ℤ)
        = ∑ q' : Fin E.S.nd, M q q' * x ((q' : ℕ) : ℤ)
  pos : 1 ≤ npl
  krylov : ∀ p : Polynomial ℝ, p.natDegree < npl →
    (Polynomial.aeval M p) *ᵥ (Pi.single (ctr E.S) 1) = 0 → p = 0

theorem setting_out {E : Ham} {npl I J K : ℕ} {M : Matrix (Fin E.S.nd) (Fin E.S.nd) ℝ}
    (s : Setting E npl I J K M) {lv aa bb : ℕ → ℝ} {o : Node}
    (h : gaussNode E npl (I + J * E.S.DMnx + K * (E.S.DMnx * E.S.DMny)) lv aa bb = some o) :
    ∃ n, npl = n + 1 ∧ ∃ V A B Z, Out M n V A B Z o ∧ (∀ t < n, B t ≠ 0) ∧
      V 0 = Pi.single (ctr E.S) 1 := by
  obtain ⟨n, rfl⟩ : ∃ n, npl = n + 1 := ⟨npl - 1, by have := s.pos; omega⟩
  have hM : M = opM E.S.nd (hsub E (I + J * E.S.DMnx + K * (E.S.DMnx * E.S.DMny))) := by
    ext q q'
    unfold opM
    rw [s.mat]
    have : ∀ r : Fin E.S.nd, unit q' ((r : ℕ) : ℤ) = Pi.single (M := fun _ => ℝ) q' 1 r := fun r =>
      congrFun (vec_unit E.S.nd q') r
    rw [sum_congr rfl fun r _ => by rw [this r], sum_eq_single q']
    · rw [Pi.single_eq_same, mul_one]
    · intro b _ hb; rw [Pi.single_eq_of_ne hb, mul_zero]
    · intro h; exact absurd (mem_univ _) h
  have hs : Mᵀ = M := by rw [hM]; exact hsub_symm E s.pad s.hI s.hJ
  have ha : Acts E.S.nd (hsub E (I + J * E.S.DMnx + K * (E.S.DMnx * E.S.DMny))) M := by
    intro x; funext q; exact s.mat x q
  obtain ⟨Z, O⟩ := out_of_run ha hs n _ lv aa bb (by
    have := norm2_unit (ctr E.S)
    unfold ctr at this
    rw [this]; exact one_ne_zero) h
  have v0 := V_zero_unit (hsub E (I + J * E.S.DMnx + K * (E.S.DMnx * E.S.DMny))) (n + 1) (ctr E.S) lv aa bb
  refine ⟨n, rfl, _, _, _, Z, O, ?_, v0⟩
  refine O.lz.no_breakdown n fun p hp hz => s.krylov p (by omega) ?_
  rw [← v0]; exact hz

/-- Weights are nonnegative and sum to one, and the quadrature is exact for polynomials of degree
below twice the number of points. -/
theorem quadrature_exact {E : Ham} {npl I J K : ℕ} {M : Matrix (Fin E.S.nd) (Fin E.S.nd) ℝ}
    (s : Setting E npl I J K M) {lv aa bb : ℕ → ℝ} {o : Node}
    (h : gaussNode E npl (I + J * E.S.DMnx + K * (E.S.DMnx * E.S.DMny)) lv aa bb = some o) :
    (∀ j < npl, 0 ≤ o.gwt j) ∧ ∑ j ∈ range npl, o.gwt j = 1 ∧
    ∀ p : Polynomial ℝ, p.natDegree < 2 * npl →
      ∑ j ∈ range npl, o.gwt j * p.eval (o.gnd j) = (Polynomial.aeval M p) (ctr E.S) (ctr E.S) := by
  obtain ⟨n, rfl, V, A, B, Z, O, hB, v0⟩ := setting_out s h
  refine ⟨fun j hj => O.wt_nonneg ⟨j, hj⟩, ?_, fun p hp => ?_⟩
  · rw [← Fin.sum_univ_eq_sum_range]; exact O.wt_sum
  · rw [← Fin.sum_univ_eq_sum_range (fun j => o.gwt j * p.eval (o.gnd j)), O.exact hB p (by omega), v0,
      single_one_dotProduct, mulVec_single_one]
    rfl

/-- The nodes lie between the bounds of the operator, `lambda_min` and `lambda_max` are the
extreme nodes, and the stored vectors are orthonormal. -/
theorem quadrature_nodes {E : Ham} {npl I J K : ℕ} {M : Matrix (Fin E.S.nd) (Fin E.S.nd) ℝ}
    (s : Setting E npl I J K M) {lv aa bb : ℕ → ℝ} {o : Node}
    (h : gaussNode E npl (I + J * E.S.DMnx + K * (E.S.DMnx * E.S.DMny)) lv aa bb = some o) :
    (∀ lo hi : ℝ, (∀ x : Fin E.S.nd → ℝ, lo * (x ⬝ᵥ x) ≤ x ⬝ᵥ (M *ᵥ x) ∧ x ⬝ᵥ (M *ᵥ x) ≤ hi * (x ⬝ᵥ x)) →
      ∀ j < npl, lo ≤ o.gnd j ∧ o.gnd j ≤ hi) ∧
    ((∀ j < npl, o.lmin ≤ o.gnd j ∧ o.gnd j ≤ o.lmax) ∧ (∃ j < npl, o.lmin = o.gnd j) ∧
      ∃ j < npl, o.lmax = o.gnd j) ∧
    ∀ r < npl, ∀ t < npl, ∑ i ∈ range E.S.nd, o.lv (r * E.S.nd + i) * o.lv (t * E.S.nd + i)
      = if r = t then 1 else 0 := by
  have hex : ∃ q, o.gnd = q ∧ o.lmin = (extremes npl q).1 ∧ o.lmax = (extremes npl q).2 := by
    unfold gaussNode lanczosGauss at h
    simp only [Option.map_eq_some_iff] at h
    obtain ⟨q, _, rfl⟩ := h
    exact ⟨q.d, rfl, rfl, rfl⟩
  obtain ⟨q, e1, e2, e3⟩ := hex
  obtain ⟨n, rfl, V, A, B, Z, O, hB, v0⟩ := setting_out s h
  refine ⟨?_, ?_, ?_⟩
  · intro lo hi hb j hj
    obtain ⟨x, hx, e⟩ := O.node hB ⟨j, hj⟩
    have := hb x
    rw [hx, mul_one, mul_one] at this
    simp only at e
    rw [e]; exact this
  · rw [e1, e2, e3]; exact extremes_spec n q
  · intro r hr t ht
    rw [← Fin.sum_univ_eq_sum_range (fun i => o.lv (r * E.S.nd + i) * o.lv (t * E.S.nd + i))]
    have := O.lz.orthonormal n hB r (by omega) t (by omega)
    rw [← this]
    unfold dotProduct
    exact sum_congr rfl fun i _ => by rw [← O.lv ⟨r, hr⟩ i, ← O.lv ⟨t, ht⟩ i]

/-- `M = U diag(lam) Uᵀ` with `U` orthogonal. -/
structure Diag {N : ℕ} (M U : Matrix (Fin N) (Fin N) ℝ) (lam : Fin N → ℝ) : Prop where
  l : Uᵀ * U = 1
  r : U * Uᵀ = 1
  eq : M = U * diagonal lam * Uᵀ

theorem Diag.form {N : ℕ} {M U : Matrix (Fin N) (Fin N) ℝ} {lam : Fin N → ℝ} (d : Diag M U lam)
    {lo hi : ℝ} (hl : ∀ k, lo ≤ lam k ∧ lam k ≤ hi) (x : Fin N → ℝ) :
    lo * (x ⬝ᵥ x) ≤ x ⬝ᵥ (M *ᵥ x) ∧ x ⬝ᵥ (M *ᵥ x) ≤ hi * (x ⬝ᵥ x) := by
  set y := Uᵀ *ᵥ x with hy
  have e1 : x ⬝ᵥ x = ∑ k, y k * y k := by
    have : x ⬝ᵥ x = y ⬝ᵥ y := by
      rw [hy, dotProduct_mulVec, ← mulVec_transpose, transpose_transpose, mulVec_mulVec, d.r, one_mulVec]
    rw [this]; rfl
  have e2 : x ⬝ᵥ (M *ᵥ x) = ∑ k, lam k * (y k * y k) := by
    have : x ⬝ᵥ (M *ᵥ x) = y ⬝ᵥ (diagonal lam *ᵥ y) := by
      rw [d.eq, ← mulVec_mulVec, ← mulVec_mulVec, ← hy, dotProduct_mulVec x U, ← mulVec_transpose, ← hy]
    rw [this]
    unfold dotProduct
    exact sum_congr rfl fun k _ => by rw [mulVec_diagonal]; ring
  rw [e1, e2, mul_sum, mul_sum]
  exact ⟨sum_le_sum fun k _ => mul_le_mul_of_nonneg_right (hl k).1 (mul_self_nonneg _),
    sum_le_sum fun k _ => mul_le_mul_of_nonneg_right (hl k).2 (mul_self_nonneg _)⟩

theorem Diag.poly {N : ℕ} {M U : Matrix (Fin N) (Fin N) ℝ} {lam : Fin N → ℝ} (d : Diag M U lam)
    (p : Polynomial ℝ) (a b : Fin N) :
    (Polynomial.aeval M p) a b = ∑ k, U a k * p.eval (lam k) * U b k :=
  conj_aeval d.l d.r d.eq p a b

/-- Error of the quadrature for any function: twice the distance of the function, on an interval
containing the spectrum, from the polynomials of degree below twice the number of points. -/
theorem quadrature_error {E : Ham} {npl I J K : ℕ} {M : Matrix (Fin E.S.nd) (Fin E.S.nd) ℝ}
    (s : Setting E npl I J K M) {lv aa bb : ℕ → ℝ} {o : Node}
    (h : gaussNode E npl (I + J * E.S.DMnx + K * (E.S.DMnx * E.S.DMny)) lv aa bb = some o)
    {U : Matrix (Fin E.S.nd) (Fin E.S.nd) ℝ} {lam : Fin E.S.nd → ℝ} (d : Diag M U lam) {lo hi : ℝ}
    (hl : ∀ k, lo ≤ lam k ∧ lam k ≤ hi) (f : ℝ → ℝ) (p : Polynomial ℝ) (hp : p.natDegree < 2 * npl) {ε : ℝ}
    (hε : ∀ t, lo ≤ t → t ≤ hi → |f t - p.eval t| ≤ ε) :
    |∑ j ∈ range npl, o.gwt j * f (o.gnd j) - ∑ k, U (ctr E.S) k ^ 2 * f (lam k)| ≤ 2 * ε := by
  obtain ⟨w0, w1, ex⟩ := quadrature_exact s h
  have nb := (quadrature_nodes s h).1 lo hi (d.form hl)
  have e := ex p hp
  rw [d.poly] at e
  have h1 : |∑ j ∈ range npl, o.gwt j * (f (o.gnd j) - p.eval (o.gnd j))| ≤ ε := by
    calc |∑ j ∈ range npl, o.gwt j * (f (o.gnd j) - p.eval (o.gnd j))|
        ≤ ∑ j ∈ range npl, |o.gwt j * (f (o.gnd j) - p.eval (o.gnd j))| := abs_sum_le_sum_abs _ _
      _ ≤ ∑ j ∈ range npl, o.gwt j * ε := by
          refine sum_le_sum fun j hj => ?_
          have hj' := mem_range.1 hj
          rw [abs_mul, abs_of_nonneg (w0 j hj')]
          exact mul_le_mul_of_nonneg_left (hε _ (nb j hj').1 (nb j hj').2) (w0 j hj')
      _ = ε := by rw [← sum_mul, w1, one_mul]
  have h2 := fun_bound d.r (fun t => f t - p.eval t) (fun k => hε _ (hl k).1 (hl k).2) (ctr E.S) (ctr E.S)
  have e1 : ∑ j ∈ range npl, o.gwt j * (f (o.gnd j) - p.eval (o.gnd j))
      = ∑ j ∈ range npl, o.gwt j * f (o.gnd j) - ∑ j ∈ range npl, o.gwt j * p.eval (o.gnd j) := by
    rw [← sum_sub_distrib]; exact sum_congr rfl fun _ _ => by ring
  have e2 : ∑ k, U (ctr E.S) k * (f (lam k) - p.eval (lam k)) * U (ctr E.S) k
      = ∑ k, U (ctr E.S) k ^ 2 * f (lam k) - ∑ k, U (ctr E.S) k * p.eval (lam k) * U (ctr E.S) k := by
    rw [← sum_sub_distrib]; exact sum_congr rfl fun _ _ => by ring
  rw [e1] at h1
  rw [e2] at h2
  rw [e] at h1
  obtain ⟨a1, a2⟩ := abs_le.1 h1
  obtain ⟨b1, b2⟩ := abs_le.1 h2
  exact abs_le.2 ⟨by linarith, by linarith⟩

/-- With one quadrature point two vectors are stored in a buffer for one. -/
theorem one_point_overflow (H : Mem → Mem) (N : ℕ) (t0 : Mem) (lv aa bb : ℕ → ℝ) (hN : 0 < N) :
    N * 1 < (lanczos H N 1 t0 lv aa bb).le ∧
    ∀ i : ℕ, i < N → (lanczos H N 1 t0 lv aa bb).lv (N + i)
      = (lanczos H N 1 t0 lv aa bb).vk (i : ℤ) := by
  constructor
  · show N * 1 < N + N
    omega
  · intro i hi
    unfold lanczos lanczosInit
    simp only [Nat.sub_self, List.range_zero, List.foldl_nil]
    unfold store
    rw [if_pos ⟨by omega, by omega⟩, Nat.add_sub_cancel_left]

/-! ## C74: density and density matrix -/

theorem rhoPc_eq (npl : ℕ) (beta ef : ℝ) (type : ℕ) (gnd gwt : ℕ → ℝ) :
    rhoPc npl beta ef type gnd gwt = ∑ j ∈ range npl, gwt j * Occ.smearing beta (gnd j) ef type := by
  unfold rhoPc
  induction npl with
  | zero => rfl
  | succ n ih => rw [List.range_succ, List.foldl_append, sum_range_succ, ih]; rfl

theorem rhoPc_bounds {npl : ℕ} {beta ef : ℝ} {type : ℕ} {gnd gwt : ℕ → ℝ} (h0 : ∀ j < npl, 0 ≤ gwt j)
    (h1 : ∑ j ∈ range npl, gwt j = 1) :
    0 < rhoPc npl beta ef type gnd gwt ∧ rhoPc npl beta ef type gnd gwt < 1 := by
  rw [rhoPc_eq]
  obtain ⟨j, hj, hne⟩ : ∃ j ∈ range npl, 0 < gwt j := by
    by_contra hc
    push Not at hc
    have : ∑ j ∈ range npl, gwt j ≤ 0 := sum_nonpos hc
    linarith
  constructor
  · refine sum_pos' (fun i hi => mul_nonneg (h0 i (mem_range.1 hi)) (Occ.smearing_pos _ _ _ _).le)
      ⟨j, hj, mul_pos hne (Occ.smearing_pos _ _ _ _)⟩
  · rw [← h1]
    refine sum_lt_sum (fun i hi => ?_) ⟨j, hj, ?_⟩
    · exact mul_le_of_le_one_right (h0 i (mem_range.1 hi)) (Occ.smearing_lt_one _ _ _ _).le
    · exact mul_lt_of_lt_one_right hne (Occ.smearing_lt_one _ _ _ _)

/-- The density of a node lies strictly between 0 and `occfac/dV`, and differs from `occfac/dV`
times the diagonal entry of the smearing function of the operator by at most twice the error of
polynomial approximation of degree below `2 npl`. -/
theorem density_node {E : Ham} {npl I J K : ℕ} {M : Matrix (Fin E.S.nd) (Fin E.S.nd) ℝ}
    (s : Setting E npl I J K M) {lv aa bb : ℕ → ℝ} {o : Node}
    (h : gaussNode E npl (I + J * E.S.DMnx + K * (E.S.DMnx * E.S.DMny)) lv aa bb = some o) (beta ef : ℝ)
    (type : ℕ) :
    (0 < rhoPc npl beta ef type o.gnd o.gwt ∧ rhoPc npl beta ef type o.gnd o.gwt < 1) ∧
    ∀ (U : Matrix (Fin E.S.nd) (Fin E.S.nd) ℝ) (lam : Fin E.S.nd → ℝ), Diag M U lam →
      ∀ lo hi : ℝ, (∀ k, lo ≤ lam k ∧ lam k ≤ hi) → ∀ p : Polynomial ℝ, p.natDegree < 2 * npl → ∀ ε : ℝ,
        (∀ t, lo ≤ t → t ≤ hi → |Occ.smearing beta t ef type - p.eval t| ≤ ε) →
        |rhoPc npl beta ef type o.gnd o.gwt - ∑ k, U (ctr E.S) k ^ 2 * Occ.smearing beta (lam k) ef type|
          ≤ 2 * ε := by
  obtain ⟨w0, w1, _⟩ := quadrature_exact s h
  refine ⟨rhoPc_bounds w0 w1, fun U lam d lo hi hl p hp ε hε => ?_⟩
  rw [rhoPc_eq]
  exact quadrature_error s h d hl (fun t => Occ.smearing beta t ef type) p hp hε

/-- Column of the density matrix of a node: the entry of the node itself is `rho_pc/dV`, and every
entry differs from that of the smearing function of the operator, over `dV`, by at most twice the
error of polynomial approximation of degree below `npl`. -/
theorem density_column {E : Ham} {npl I J K : ℕ} {M : Matrix (Fin E.S.nd) (Fin E.S.nd) ℝ}
    (s : Setting E npl I J K M) {lv aa bb : ℕ → ℝ} {o : Node}
    (h : gaussNode E npl (I + J * E.S.DMnx + K * (E.S.DMnx * E.S.DMny)) lv aa bb = some o) (beta ef dV : ℝ)
    (hV : 0 < dV) (type : ℕ) :
    dmCol E.S.nd npl beta ef dV type o.lv o.w o.gnd (center E.S)
      = rhoPc npl beta ef type o.gnd o.gwt / dV ∧
    ∀ (U : Matrix (Fin E.S.nd) (Fin E.S.nd) ℝ) (lam : Fin E.S.nd → ℝ), Diag M U lam →
      ∀ lo hi : ℝ, (∀ k, lo ≤ lam k ∧ lam k ≤ hi) → ∀ p : Polynomial ℝ, p.natDegree < npl → ∀ ε : ℝ,
        (∀ t, lo ≤ t → t ≤ hi → |Occ.smearing beta t ef type - p.eval t| ≤ ε) →
        ∀ x : Fin E.S.nd, |dV * dmCol E.S.nd npl beta ef dV type o.lv o.w o.gnd x
          - ∑ k, U x k * Occ.smearing beta (lam k) ef type * U (ctr E.S) k| ≤ 2 * ε := by
  have nodes := quadrature_nodes s h
  obtain ⟨n, rfl, V, A, B, Z, O, hB, v0⟩ := setting_out s h
  have orth := O.lz.orthonormal n hB
  have col : ∀ x : Fin E.S.nd, dmCol E.S.nd (n + 1) beta ef dV type o.lv o.w o.gnd x
      = 1 / dV * ∑ r : Fin (n + 1), V r x * ∑ j : Fin (n + 1),
          Z r j * (Z 0 j * Occ.smearing beta (o.gnd j) ef type) := by
    intro x
    unfold dmCol
    simp only
    rw [list_sum_range', ← Fin.sum_univ_eq_sum_range (fun r => o.lv (r * E.S.nd + x) *
      ((List.range (n + 1)).map fun j => o.w (j * (n + 1) + r) *
        (o.w (j * (n + 1)) * Occ.smearing beta (o.gnd j) ef type)).sum)]
    congr 1
    refine sum_congr rfl fun r _ => ?_
    rw [O.lv r x, list_sum_range', ← Fin.sum_univ_eq_sum_range (fun j => o.w (j * (n + 1) + r) *
        (o.w (j * (n + 1)) * Occ.smearing beta (o.gnd j) ef type))]
    congr 1
    refine sum_congr rfl fun j _ => ?_
    have := O.w 0 j
    rw [Fin.val_zero, Nat.add_zero] at this
    rw [O.w r j, this]
  constructor
  · have := col (ctr E.S)
    have hc : ((ctr E.S : Fin E.S.nd) : ℕ) = center E.S := rfl
    rw [hc] at this
    rw [this, rhoPc_eq, ← Fin.sum_univ_eq_sum_range (fun j => o.gwt j * Occ.smearing beta (o.gnd j) ef type)]
    have hV0 : ∀ r : Fin (n + 1), V r (ctr E.S) = if (r : ℕ) = 0 then 1 else 0 := by
      intro r
      rw [← orth r (by omega) 0 (by omega), v0, dotProduct_single_one]
    rw [sum_eq_single (0 : Fin (n + 1))]
    · rw [hV0, Fin.val_zero, if_pos rfl, one_mul, one_div, inv_mul_eq_div]
      congr 1
      exact sum_congr rfl fun j _ => by rw [O.wt]; ring
    · intro r _ hr
      rw [hV0, if_neg (fun hh => hr (Fin.ext (by simpa using hh))), zero_mul]
    · intro hh; exact absurd (mem_univ _) hh
  · intro U lam d lo hi hl p hp ε hε x
    have nb := nodes.1 lo hi (d.form hl)
    rw [col x, ← mul_assoc, mul_one_div_cancel hV.ne', one_mul]
    have c1 := O.col_bound hB (fun t => Occ.smearing beta t ef type - p.eval t) ε
      (fun j => hε _ (nb j j.2).1 (nb j j.2).2) x
    have c2 := O.col_exact p (by omega) x
    have c3 := fun_bound d.r (fun t => Occ.smearing beta t ef type - p.eval t)
      (fun k => hε _ (hl k).1 (hl k).2) x (ctr E.S)
    have c4 : ((Polynomial.aeval M p) *ᵥ V 0) x = ∑ k, U x k * p.eval (lam k) * U (ctr E.S) k := by
      rw [v0, mulVec_single_one]
      exact d.poly p x (ctr E.S)
    have s1 : ∑ r : Fin (n + 1), V r x * ∑ j : Fin (n + 1),
          Z r j * (Z 0 j * (Occ.smearing beta (o.gnd j) ef type - p.eval (o.gnd j)))
        = ∑ r : Fin (n + 1), V r x * ∑ j : Fin (n + 1), Z r j * (Z 0 j * Occ.smearing beta (o.gnd j) ef type)
          - ∑ r : Fin (n + 1), V r x * ∑ j : Fin (n + 1), Z r j * (Z 0 j * p.eval (o.gnd j)) := by
      rw [← sum_sub_distrib]
      refine sum_congr rfl fun r _ => ?_
      rw [← mul_sub, ← sum_sub_distrib]
      congr 1
      exact sum_congr rfl fun j _ => by ring
    have s2 : ∑ k, U x k * (Occ.smearing beta (lam k) ef type - p.eval (lam k)) * U (ctr E.S) k
        = ∑ k, U x k * Occ.smearing beta (lam k) ef type * U (ctr E.S) k
          - ∑ k, U x k * p.eval (lam k) * U (ctr E.S) k := by
      rw [← sum_sub_distrib]; exact sum_congr rfl fun k _ => by ring
    rw [s1, c2, c4] at c1
    rw [s2] at c3
    obtain ⟨a1, a2⟩ := abs_le.1 c1
    obtain ⟨b1, b2⟩ := abs_le.1 c3
    exact abs_le.2 ⟨by linarith, by linarith⟩

theorem fill_spin (DMnd nsLoc off : ℕ) (val : ℕ × ℕ → ℝ) {sp i : ℕ} (hs : sp < nsLoc) (hi : i < DMnd)
    (base : ℕ) :
    fill ((List.range nsLoc).flatMap fun (sp : ℕ) => (List.range DMnd).map fun (i : ℕ) => (sp, i))
      (fun t : ℕ × ℕ => base * DMnd + (t.2 + (t.1 + off) * DMnd)) val (fun _ => 0)
      ((base + sp + off) * DMnd + i) = val (sp, i) := by
  have mem : ∀ t : ℕ × ℕ, t ∈ ((List.range nsLoc).flatMap fun (sp : ℕ) =>
      (List.range DMnd).map fun (i : ℕ) => (sp, i)) ↔ t.1 < nsLoc ∧ t.2 < DMnd := by
    rintro ⟨a, b⟩; simp
  have e : (base + sp + off) * DMnd + i = (fun t : ℕ × ℕ => base * DMnd + (t.2 + (t.1 + off) * DMnd)) (sp, i) := by
    simp only; ring
  rw [e]
  refine fill_at ((mem _).2 ⟨hs, hi⟩) fun t ht he => ?_
  obtain ⟨h1, h2⟩ := (mem t).1 ht
  simp only at he
  have := flat_inj h2 hi (Nat.add_left_cancel he)
  have : t = (sp, i) := Prod.ext (by simp only; omega) this.1
  rw [this]

theorem fill_spin_other (DMnd nsLoc off : ℕ) (val : ℕ × ℕ → ℝ) {i : ℕ} (hi : i < DMnd) (base b : ℕ)
    (hb : b < base + off ∨ base + off + nsLoc ≤ b) :
    fill ((List.range nsLoc).flatMap fun (sp : ℕ) => (List.range DMnd).map fun (i : ℕ) => (sp, i))
      (fun t : ℕ × ℕ => base * DMnd + (t.2 + (t.1 + off) * DMnd)) val (fun _ => 0)
      (b * DMnd + i) = 0 := by
  refine fill_other fun t ht he => ?_
  obtain ⟨a, c⟩ := t
  simp only [List.mem_flatMap, List.mem_range, List.mem_map, Prod.mk.injEq, exists_eq_right_right] at ht
  have h1 : a < nsLoc := by obtain ⟨x, hx⟩ := ht; omega
  have h2 : c < DMnd := by obtain ⟨x, hx⟩ := ht; omega
  simp only at he
  have := flat_inj (a := base + a + off) (b := b) h2 hi (by rw [← Nat.add_comm (b * DMnd), ← he]; ring)
  omega

/-- Density array without spin: entry `i` is `occfac/dV` times the quadrature of the node. -/
theorem density_plain (DMnd npl nspdentd : ℕ) (beta ef occfac dV : ℝ) (type : ℕ) (gnd gwt : ℕ → ℕ → ℕ → ℝ)
    (start : ℕ → ℕ) (hs : start 0 = 0) {i : ℕ} (hi : i < DMnd) :
    elecDens DMnd npl 1 nspdentd 1 1 start beta ef occfac dV type gnd gwt 0 i
      = occfac * (∑ j ∈ range npl, gwt 0 i j * Occ.smearing beta (gnd 0 i j) ef type) / dV := by
  unfold elecDens
  simp only [gt_iff_lt, lt_self_iff_false, if_false, Nat.sub_self, hs]
  have := fill_spin DMnd 1 0 (fun t => occfac * rhoPc npl beta ef type (gnd 0 (t.2 + t.1 * DMnd))
    (gwt 0 (t.2 + t.1 * DMnd)) / dV) (sp := 0) (by omega) hi 0
  simp only [Nat.zero_add, Nat.zero_mul, Nat.add_zero] at this ⊢
  rw [this, rhoPc_eq]

/-- Density array with spin, however the spins are distributed: entries `[DMnd, 2 DMnd)` are the
density of spin 0, `[2 DMnd, 3 DMnd)` that of spin 1, and `[0, DMnd)` the sum. -/
theorem density_spin (DMnd npl : ℕ) (beta ef occfac dV : ℝ) (type : ℕ) (gnd gwt : ℕ → ℕ → ℕ → ℝ)
    (start : ℕ → ℕ) (G W : ℕ → ℕ → ℕ → ℝ) {nsLoc np me : ℕ} (hme : me < np)
    (hd : (np = 1 ∧ nsLoc = 2 ∧ start 0 = 0 ∧ ∀ s < 2, ∀ i < DMnd, gnd 0 (i + s * DMnd) = G s i ∧
        gwt 0 (i + s * DMnd) = W s i) ∨
      (np = 2 ∧ nsLoc = 1 ∧ (∀ s < 2, start s = s) ∧ ∀ s < 2, ∀ i < DMnd, gnd s i = G s i ∧ gwt s i = W s i))
    {i : ℕ} (hi : i < DMnd) :
    (∀ s < 2, elecDens DMnd npl 2 3 nsLoc np start beta ef occfac dV type gnd gwt me ((1 + s) * DMnd + i)
      = occfac * (∑ j ∈ range npl, W s i j * Occ.smearing beta (G s i j) ef type) / dV) ∧
    elecDens DMnd npl 2 3 nsLoc np start beta ef occfac dV type gnd gwt me i
      = occfac * (∑ j ∈ range npl, W 0 i j * Occ.smearing beta (G 0 i j) ef type) / dV
        + occfac * (∑ j ∈ range npl, W 1 i j * Occ.smearing beta (G 1 i j) ef type) / dV := by
  have key : ∃ rho : ℕ → ℝ, elecDens DMnd npl 2 3 nsLoc np start beta ef occfac dV type gnd gwt me
      = fill (List.range DMnd) id (fun i => rho (DMnd + i) + rho (DMnd * 2 + i)) rho ∧
      ∀ s < 2, rho ((1 + s) * DMnd + i)
        = occfac * (∑ j ∈ range npl, W s i j * Occ.smearing beta (G s i j) ef type) / dV := by
    refine ⟨_, by unfold elecDens; simp only [gt_iff_lt, Nat.one_lt_two, if_true]; rfl, fun s hs => ?_⟩
    rcases hd with ⟨rfl, rfl, h0, hg⟩ | ⟨rfl, rfl, h0, hg⟩
    · have : me = 0 := by omega
      subst this
      rw [if_neg (lt_irrefl 1), h0]
      have := fill_spin DMnd 2 0 (fun t => occfac * rhoPc npl beta ef type (gnd 0 (t.2 + t.1 * DMnd))
        (gwt 0 (t.2 + t.1 * DMnd)) / dV) (sp := s) hs hi (2 - 1)
      rw [Nat.add_zero] at this
      rw [show (1 + s) * DMnd + i = (2 - 1 + s) * DMnd + i from rfl, this]
      simp only [(hg s hs i hi).1, (hg s hs i hi).2, rhoPc_eq]
    · have hlt : (1 + s) * DMnd + i < 3 * DMnd := by
        calc (1 + s) * DMnd + i < (1 + s) * DMnd + DMnd := by omega
          _ = (1 + s + 1) * DMnd := by ring
          _ ≤ 3 * DMnd := Nat.mul_le_mul_right _ (by omega)
      rw [if_pos Nat.one_lt_two, if_pos hlt]
      have l2 : ∀ f : ℕ → ℝ, ((List.range 2).map f).sum = f 0 + f 1 := by intro f; simp [List.range_succ]
      rw [l2]
      have at1 : ∀ s' < 2, s' = s → fill ((List.range 1).flatMap fun (sp : ℕ) =>
          (List.range DMnd).map fun (i : ℕ) => (sp, i))
          (fun t : ℕ × ℕ => (2 - 1) * DMnd + (t.2 + (t.1 + start s') * DMnd))
          (fun t => occfac * rhoPc npl beta ef type (gnd s' (t.2 + t.1 * DMnd))
            (gwt s' (t.2 + t.1 * DMnd)) / dV) (fun _ => 0) ((1 + s) * DMnd + i)
          = occfac * (∑ j ∈ range npl, W s i j * Occ.smearing beta (G s i j) ef type) / dV := by
        rintro s' hs' rfl
        rw [h0 s' hs]
        have := fill_spin DMnd 1 s' (fun t => occfac * rhoPc npl beta ef type (gnd s' (t.2 + t.1 * DMnd))
          (gwt s' (t.2 + t.1 * DMnd)) / dV) (sp := 0) (by omega) hi (2 - 1)
        rw [Nat.add_zero] at this
        rw [show (1 + s') * DMnd + i = (2 - 1 + s') * DMnd + i from rfl, this]
        simp only [Nat.zero_mul, Nat.add_zero, (hg s' hs i hi).1, (hg s' hs i hi).2, rhoPc_eq]
      have at0 : ∀ s' < 2, s' ≠ s → fill ((List.range 1).flatMap fun (sp : ℕ) =>
          (List.range DMnd).map fun (i : ℕ) => (sp, i))
          (fun t : ℕ × ℕ => (2 - 1) * DMnd + (t.2 + (t.1 + start s') * DMnd))
          (fun t => occfac * rhoPc npl beta ef type (gnd s' (t.2 + t.1 * DMnd))
            (gwt s' (t.2 + t.1 * DMnd)) / dV) (fun _ => 0) ((1 + s) * DMnd + i) = 0 := by
        intro s' hs' hne
        rw [h0 s' hs']
        exact fill_spin_other DMnd 1 s' _ hi (2 - 1) (1 + s) (by omega)
      interval_cases s
      · rw [at1 0 (by omega) rfl, at0 1 (by omega) (by omega), add_zero]
      · rw [at1 1 (by omega) rfl, at0 0 (by omega) (by omega), zero_add]
  obtain ⟨rho, e, hr⟩ := key
  rw [e]
  constructor
  · intro s hs
    rw [fill_other, hr s hs]
    intro t ht he
    have := List.mem_range.1 ht
    simp only [id_eq] at he
    have : DMnd ≤ (1 + s) * DMnd + i := by
      calc DMnd = 1 * DMnd := (one_mul _).symm
        _ ≤ (1 + s) * DMnd := Nat.mul_le_mul_right _ (by omega)
        _ ≤ _ := Nat.le_add_right _ _
    omega
  · have := fill_at (l := List.range DMnd) (idx := id) (val := fun i => rho (DMnd + i) + rho (DMnd * 2 + i))
      (m := rho) (t := i) (List.mem_range.2 hi) (fun s _ hs => by simp only [id_eq] at hs; rw [hs])
    simp only [id_eq] at this
    rw [this]
    have h0 := hr 0 (by omega)
    have h1 := hr 1 (by omega)
    rw [Nat.add_zero, one_mul] at h0
    rw [show (1 + 1) * DMnd + i = DMnd * 2 + i by ring] at h1
    rw [h0, h1]

/-! ## C76: electron count and entropy -/

/-- Electrons held by all nodes at level `lf`. -/
noncomputable def electrons (P np K npl : ℕ) (beta occfac : ℝ) (type : ℕ) (gnd gwt : ℕ → ℕ → ℕ → ℕ → ℝ)
    (lf : ℝ) : ℝ :=
  ∑ s ∈ range np, ∑ p ∈ range P, ∑ k ∈ range K, occfac * ∑ j ∈ range npl,
    gwt s p k j * Occ.smearing beta (gnd s p k j) lf type

theorem occLocal_eq (K npl : ℕ) (beta lf occfac : ℝ) (type : ℕ) (gnd gwt : ℕ → ℕ → ℝ) :
    occLocal K npl beta lf occfac type gnd gwt = ∑ k ∈ range K, occfac * ∑ j ∈ range npl,
      gwt k j * Occ.smearing beta (gnd k j) lf type := by
  have inner : ∀ (k : ℕ) (n : ℕ) (g : ℝ), (List.range n).foldl (fun g j =>
      g + occfac * gwt k j * Occ.smearing beta (gnd k j) lf type) g = g + occfac * ∑ j ∈ range n,
        gwt k j * Occ.smearing beta (gnd k j) lf type := by
    intro k n g
    induction n with
    | zero => simp
    | succ n ih => rw [List.range_succ, List.foldl_append, ih, sum_range_succ]; simp only [List.foldl_cons,
        List.foldl_nil]; ring
  unfold occLocal
  simp only [inner]
  induction K with
  | zero => rfl
  | succ K ih => rw [List.range_succ, List.foldl_append, ih, sum_range_succ]; rfl

/-- The function whose root is sought: relative deviation of the number of electrons from
`PosCharge`. -/
theorem constraint_count (P np K npl : ℕ) (beta occfac pos : ℝ) (type : ℕ)
    (gnd gwt : ℕ → ℕ → ℕ → ℕ → ℝ) {me : ℕ} (hme : me < np) (lf : ℝ) :
    occConstraint P np K npl beta occfac pos type gnd gwt me lf
      = (electrons P np K npl beta occfac type gnd gwt lf - pos) / pos := by
  unfold occConstraint electrons
  simp only
  have g : ∀ s, ((List.range P).map fun p => occLocal K npl beta lf occfac type (gnd s p) (gwt s p)).sum
      = ∑ p ∈ range P, ∑ k ∈ range K, occfac * ∑ j ∈ range npl,
        gwt s p k j * Occ.smearing beta (gnd s p k j) lf type := by
    intro s
    rw [list_sum_range']
    exact sum_congr rfl fun p _ => occLocal_eq _ _ _ _ _ _ _ _
  simp only [g]
  split_ifs with h
  · rw [list_sum_range']
  · have e1 : np = 1 := by omega
    have e2 : me = 0 := by omega
    subst e1 e2
    rw [sum_range_one]

/-- The level with a given number of electrons exists and is unique. -/
theorem fermi_unique (P np K npl : ℕ) (beta occfac N : ℝ) (hb : 0 < beta) (ho : 0 < occfac) (type : ℕ)
    (gnd gwt : ℕ → ℕ → ℕ → ℕ → ℝ) (h0 : ∀ s < np, ∀ p < P, ∀ k < K, ∀ j < npl, 0 ≤ gwt s p k j)
    (h1 : ∀ s < np, ∀ p < P, ∀ k < K, ∑ j ∈ range npl, gwt s p k j = 1) (hN : 0 < N)
    (hN' : N < occfac * (np * P * K)) :
    ∃! lf, electrons P np K npl beta occfac type gnd gwt lf = N := by
  have mono : StrictMono (electrons P np K npl beta occfac type gnd gwt) := by
    intro a b hab
    unfold electrons
    have hpos : 0 < np ∧ 0 < P ∧ 0 < K := by
      refine ⟨?_, ?_, ?_⟩ <;> (by_contra hc; have : _ = 0 := Nat.eq_zero_of_not_pos hc; rw [this] at hN'; norm_num at hN'; linarith)
    have nodeLt : ∀ s < np, ∀ p < P, ∀ k < K, occfac * ∑ j ∈ range npl,
        gwt s p k j * Occ.smearing beta (gnd s p k j) a type < occfac * ∑ j ∈ range npl,
        gwt s p k j * Occ.smearing beta (gnd s p k j) b type := by
      intro s hs p hp k hk
      refine mul_lt_mul_of_pos_left ?_ ho
      have lt : ∀ j, Occ.smearing beta (gnd s p k j) a type < Occ.smearing beta (gnd s p k j) b type :=
        fun j => Occ.smearing_arg _ _ _ _ _ _ (by nlinarith)
      obtain ⟨j, hj, hne⟩ : ∃ j ∈ range npl, 0 < gwt s p k j := by
        by_contra hc
        push Not at hc
        have : ∑ j ∈ range npl, gwt s p k j ≤ 0 := sum_nonpos hc
        linarith [h1 s hs p hp k hk]
      exact sum_lt_sum (fun i hi => mul_le_mul_of_nonneg_left (lt i).le (h0 s hs p hp k hk i (mem_range.1 hi)))
        ⟨j, hj, mul_lt_mul_of_pos_left (lt j) hne⟩
    refine sum_lt_sum_of_nonempty ⟨0, mem_range.2 hpos.1⟩ fun s hs => ?_
    refine sum_lt_sum_of_nonempty ⟨0, mem_range.2 hpos.2.1⟩ fun p hp => ?_
    exact sum_lt_sum_of_nonempty ⟨0, mem_range.2 hpos.2.2⟩ fun k hk =>
      nodeLt s (mem_range.1 hs) p (mem_range.1 hp) k (mem_range.1 hk)
  have cont : Continuous (electrons P np K npl beta occfac type gnd gwt) := by
    unfold electrons
    refine continuous_finsetSum _ fun s _ => continuous_finsetSum _ fun p _ => continuous_finsetSum _ fun k _ => ?_
    refine continuous_const.mul (continuous_finsetSum _ fun j _ => continuous_const.mul ?_)
    exact Occ.smearing_continuous beta _ hb.le type
  have top : Filter.Tendsto (electrons P np K npl beta occfac type gnd gwt) Filter.atTop
      (nhds (occfac * (np * P * K))) := by
    have : occfac * (np * P * K) = ∑ s ∈ range np, ∑ p ∈ range P, ∑ k ∈ range K, occfac * ∑ j ∈ range npl,
        gwt s p k j * 1 := by
      have : ∀ s ∈ range np, ∀ p ∈ range P, ∀ k ∈ range K, occfac * ∑ j ∈ range npl, gwt s p k j * 1 = occfac := by
        intro s hs p hp k hk
        simp only [mul_one]
        rw [h1 s (mem_range.1 hs) p (mem_range.1 hp) k (mem_range.1 hk), mul_one]
      rw [sum_congr rfl fun s hs => sum_congr rfl fun p hp => sum_congr rfl fun k hk => this s hs p hp k hk]
      simp only [sum_const, card_range, nsmul_eq_mul]
      ring
    rw [this]
    unfold electrons
    refine tendsto_finsetSum _ fun s _ => tendsto_finsetSum _ fun p _ => tendsto_finsetSum _ fun k _ => ?_
    refine Filter.Tendsto.const_mul _ (tendsto_finsetSum _ fun j _ => Filter.Tendsto.const_mul _ ?_)
    exact Occ.smearing_tendsto_top beta _ hb type
  have bot : Filter.Tendsto (electrons P np K npl beta occfac type gnd gwt) Filter.atBot (nhds 0) := by
    have : (0 : ℝ) = ∑ s ∈ range np, ∑ p ∈ range P, ∑ k ∈ range K, occfac * ∑ j ∈ range npl,
        gwt s p k j * 0 := by simp
    rw [this]
    unfold electrons
    refine tendsto_finsetSum _ fun s _ => tendsto_finsetSum _ fun p _ => tendsto_finsetSum _ fun k _ => ?_
    refine Filter.Tendsto.const_mul _ (tendsto_finsetSum _ fun j _ => Filter.Tendsto.const_mul _ ?_)
    exact Occ.smearing_tendsto_bot beta _ hb type
  obtain ⟨a, ha⟩ := (bot.eventually (gt_mem_nhds hN)).exists
  obtain ⟨b, hb'⟩ := (top.eventually (lt_mem_nhds hN')).exists
  have hab : a ≤ b := by
    by_contra hc
    push Not at hc
    have := mono hc
    linarith
  obtain ⟨c, _, hc⟩ := intermediate_value_Icc hab cont.continuousOn ⟨ha.le, hb'.le⟩
  exact ⟨c, hc, fun y hy => mono.injective (hy.trans hc.symm)⟩

/-- At a root of the constraint the density of all nodes integrates to `PosCharge`. -/
theorem density_integral (P np K npl : ℕ) (beta occfac pos dV : ℝ) (hp : 0 < pos) (hV : dV ≠ 0) (type : ℕ)
    (gnd gwt : ℕ → ℕ → ℕ → ℕ → ℝ) {me : ℕ} (hme : me < np) (lf : ℝ) :
    occConstraint P np K npl beta occfac pos type gnd gwt me lf = 0 ↔
      dV * ∑ s ∈ range np, ∑ p ∈ range P, ∑ k ∈ range K,
        occfac * (∑ j ∈ range npl, gwt s p k j * Occ.smearing beta (gnd s p k j) lf type) / dV = pos := by
  rw [constraint_count P np K npl beta occfac pos type gnd gwt hme, div_eq_zero_iff, or_iff_left hp.ne',
    sub_eq_zero]
  have : dV * ∑ s ∈ range np, ∑ p ∈ range P, ∑ k ∈ range K,
      occfac * (∑ j ∈ range npl, gwt s p k j * Occ.smearing beta (gnd s p k j) lf type) / dV
      = electrons P np K npl beta occfac type gnd gwt lf := by
    unfold electrons
    simp only [mul_sum]
    refine sum_congr rfl fun s _ => sum_congr rfl fun p _ => sum_congr rfl fun k _ => ?_
    rw [mul_div_cancel₀ _ hV]
  rw [this]

/-- In a charged cell the number of electrons has to be `PosCharge - NetCharge`; a root of the
constraint never has it. -/
theorem charged_fails (P np K npl : ℕ) (beta occfac pos net : ℝ) (hp : 0 < pos) (hn : net ≠ 0) (type : ℕ)
    (gnd gwt : ℕ → ℕ → ℕ → ℕ → ℝ) {me : ℕ} (hme : me < np) (lf : ℝ)
    (h : occConstraint P np K npl beta occfac pos type gnd gwt me lf = 0) :
    electrons P np K npl beta occfac type gnd gwt lf ≠ pos - net := by
  rw [constraint_count P np K npl beta occfac pos type gnd gwt hme, div_eq_zero_iff, or_iff_left hp.ne',
    sub_eq_zero] at h
  rw [h]
  intro he
  exact hn (by linarith)

/-- Fermi-Dirac smearing: where the entropy function is not cut off, band energy relative to the
level and entropy give the grand potential of a level, `-log (1 + exp (-β(t-μ)))/β`. -/
theorem grand_potential_partial (t mu beta : ℝ) (hb : 0 < beta)
    (hc : ¬ (|Occ.smearing beta t mu 0| < 1 / 100 * Occ.tempTol ∨
      |Occ.smearing beta t mu 0 - 1| < 1 / 100 * Occ.tempTol)) :
    uband t mu beta 0 - mu * Occ.smearing beta t mu 0 + eent t mu beta 0 / beta
      = -Real.log (1 + Real.exp (-(beta * (t - mu)))) / beta := by
  unfold uband eent
  simp only
  rw [if_neg hc]
  have hs : Occ.smearing beta t mu 0 = 1 / (1 + Real.exp (beta * (t - mu))) := by
    unfold Occ.smearing; simp
  rw [hs]
  set x := beta * (t - mu) with hx
  have e0 := Real.exp_pos x
  have e1 : Real.exp (-x) = 1 / Real.exp x := by rw [Real.exp_neg, one_div]
  have h1 : 1 - 1 / (1 + Real.exp x) = Real.exp x / (1 + Real.exp x) := by field_simp; ring
  have h2 : (1 + Real.exp (-x)) = (1 + Real.exp x) / Real.exp x := by rw [e1]; field_simp; ring
  rw [h1, h2, one_div, Real.log_inv, Real.log_div e0.ne' (by positivity),
    Real.log_div (by positivity) e0.ne', Real.log_exp]
  have ht : t - mu = x / beta := by rw [hx]; field_simp
  have : t * (1 + Real.exp x)⁻¹ - mu * (1 + Real.exp x)⁻¹ = (x / beta) * (1 + Real.exp x)⁻¹ := by
    rw [← ht]; ring
  rw [this]
  field_simp
  ring

theorem foldl_add_sum (n : ℕ) (f : ℕ → ℝ) (a : ℝ) :
    (List.range n).foldl (fun (s : ℝ) (i : ℕ) => s + f i) a = a + ∑ i ∈ range n, f i := by
  induction n with
  | zero => simp
  | succ n ih =>
    rw [List.range_succ, List.foldl_append, ih, sum_range_succ]
    simp only [List.foldl_cons, List.foldl_nil]
    ring

theorem ebandLocal_eq (nsLoc DMnd npl : ℕ) (beta ef occfac : ℝ) (type : ℕ) (gnd gwt : ℕ → ℕ → ℝ) :
    ebandLocal nsLoc DMnd npl beta ef occfac type gnd gwt = ∑ sp ∈ range nsLoc, ∑ i ∈ range DMnd,
      occfac * ∑ j ∈ range npl, uband (gnd (i + sp * DMnd) j) ef beta type * gwt (i + sp * DMnd) j := by
  unfold ebandLocal
  simp only [foldl_add_sum, zero_add]

theorem entropyLocal_eq (nsLoc DMnd npl : ℕ) (beta ef occfac : ℝ) (type : ℕ) (gnd gwt : ℕ → ℕ → ℝ) :
    entropyLocal nsLoc DMnd npl beta ef occfac type gnd gwt = ∑ sp ∈ range nsLoc, ∑ i ∈ range DMnd,
      occfac * (∑ j ∈ range npl, eent (gnd (i + sp * DMnd) j) ef beta type * gwt (i + sp * DMnd) j)
        / beta := by
  unfold entropyLocal
  simp only [foldl_add_sum, zero_add]

/-- The band energy of a process is the sum over its spins, nodes and quadrature points of occupied
levels. -/
theorem band_energy (nsLoc DMnd npl : ℕ) (beta ef occfac : ℝ) (type : ℕ) (gnd gwt : ℕ → ℕ → ℝ) :
    ebandLocal nsLoc DMnd npl beta ef occfac type gnd gwt = ∑ sp ∈ range nsLoc, ∑ i ∈ range DMnd,
      ∑ j ∈ range npl, occfac * gwt (i + sp * DMnd) j * gnd (i + sp * DMnd) j
        * Occ.smearing beta (gnd (i + sp * DMnd) j) ef type := by
  rw [ebandLocal_eq]
  refine sum_congr rfl fun sp _ => sum_congr rfl fun i _ => ?_
  rw [mul_sum]
  exact sum_congr rfl fun j _ => by unfold uband; ring

/-- Fermi-Dirac smearing, no level cut off: band energy less `mu` times the electrons of the process
plus the entropy term is the grand potential of its levels. -/
theorem grand_potential_sum_partial (nsLoc DMnd npl : ℕ) (beta mu occfac : ℝ) (hb : 0 < beta)
    (gnd gwt : ℕ → ℕ → ℝ)
    (hc : ∀ k < nsLoc * DMnd, ∀ j < npl, ¬ (|Occ.smearing beta (gnd k j) mu 0| < 1 / 100 * Occ.tempTol ∨
      |Occ.smearing beta (gnd k j) mu 0 - 1| < 1 / 100 * Occ.tempTol)) :
    ebandLocal nsLoc DMnd npl beta mu occfac 0 gnd gwt
      - mu * (∑ sp ∈ range nsLoc, ∑ i ∈ range DMnd, occfac * ∑ j ∈ range npl,
          gwt (i + sp * DMnd) j * Occ.smearing beta (gnd (i + sp * DMnd) j) mu 0)
      + entropyLocal nsLoc DMnd npl beta mu occfac 0 gnd gwt
    = ∑ sp ∈ range nsLoc, ∑ i ∈ range DMnd, occfac * ∑ j ∈ range npl, gwt (i + sp * DMnd) j
        * (-Real.log (1 + Real.exp (-(beta * (gnd (i + sp * DMnd) j - mu)))) / beta) := by
  rw [ebandLocal_eq, entropyLocal_eq, mul_sum, ← sum_sub_distrib, ← sum_add_distrib]
  refine sum_congr rfl fun sp hsp => ?_
  rw [mul_sum, ← sum_sub_distrib, ← sum_add_distrib]
  refine sum_congr rfl fun i hi => ?_
  have hk : i + sp * DMnd < nsLoc * DMnd := by
    have h1 := mem_range.1 hsp
    have h2 := mem_range.1 hi
    calc i + sp * DMnd < (sp + 1) * DMnd := by rw [add_mul, one_mul]; omega
      _ ≤ nsLoc * DMnd := Nat.mul_le_mul_right _ h1
  have key : ∀ j ∈ range npl, gwt (i + sp * DMnd) j
        * (-Real.log (1 + Real.exp (-(beta * (gnd (i + sp * DMnd) j - mu)))) / beta)
      = uband (gnd (i + sp * DMnd) j) mu beta 0 * gwt (i + sp * DMnd) j
        - mu * (gwt (i + sp * DMnd) j * Occ.smearing beta (gnd (i + sp * DMnd) j) mu 0)
        + eent (gnd (i + sp * DMnd) j) mu beta 0 * gwt (i + sp * DMnd) j / beta := by
    intro j hj
    rw [← grand_potential_partial _ mu beta hb (hc _ hk j (mem_range.1 hj))]
    ring
  rw [sum_congr rfl key, sum_add_distrib, sum_sub_distrib, ← mul_sum, ← sum_div]
  ring

/-- The entropy function is never positive and at least `-log 2`. -/
theorem eent_bounds (t mu beta : ℝ) (type : ℕ) : -Real.log 2 ≤ eent t mu beta type ∧ eent t mu beta type ≤ 0 := by
  unfold eent
  simp only
  have l2 := Real.log_pos (by norm_num : (1 : ℝ) < 2)
  split_ifs
  · exact ⟨by linarith, le_rfl⟩
  · set f := Occ.smearing beta t mu type with hf
    have p0 : 0 < f := Occ.smearing_pos _ _ _ _
    have p1 : f < 1 := Occ.smearing_lt_one _ _ _ _
    have a1 : Real.log f ≤ 0 := Real.log_nonpos p0.le p1.le
    have a2 : Real.log (1 - f) ≤ 0 := Real.log_nonpos (by linarith) (by linarith)
    constructor
    · have b1 := Real.add_one_le_exp (-(Real.log (2 * f)))
      have c1 : -(Real.log (2 * f)) ≤ 1 / (2 * f) - 1 := by
        rw [Real.exp_neg, Real.exp_log (by positivity)] at b1
        rw [one_div]; linarith
      have b2 := Real.add_one_le_exp (-(Real.log (2 * (1 - f))))
      have c2 : -(Real.log (2 * (1 - f))) ≤ 1 / (2 * (1 - f)) - 1 := by
        rw [Real.exp_neg, Real.exp_log (by linarith)] at b2
        rw [one_div]; linarith
      rw [Real.log_mul (by norm_num) p0.ne'] at c1
      rw [Real.log_mul (by norm_num) (by linarith)] at c2
      have d1 := mul_le_mul_of_nonneg_left c1 p0.le
      have d2 := mul_le_mul_of_nonneg_left c2 (by linarith : 0 ≤ 1 - f)
      have e1 : f * (1 / (2 * f) - 1) = 1 / 2 - f := by field_simp
      have e2 : (1 - f) * (1 / (2 * (1 - f)) - 1) = 1 / 2 - (1 - f) := by
        have : 1 - f ≠ 0 := by linarith
        field_simp
      rw [e1] at d1
      rw [e2] at d2
      nlinarith
    · nlinarith [mul_nonneg p0.le (neg_nonneg.2 a1), mul_nonneg (by linarith : 0 ≤ 1 - f) (neg_nonneg.2 a2)]

/-- With Gaussian smearing the entropy of a level at the Fermi level, `-1/(2√π)` in the other
solvers (`Calculate_entropy_term`, up to sign), is `-log 2` here. -/
theorem gaussian_entropy_fails (mu beta : ℝ) :
    eent mu mu beta 1 = -Real.log 2 ∧
    -Occ.entropyTerm 1 beta 1 (fun _ => mu) (fun _ => Occ.smearing beta mu mu 1) mu = -(1 / 2 / √Real.pi) ∧
    eent mu mu beta 1 < -Occ.entropyTerm 1 beta 1 (fun _ => mu) (fun _ => Occ.smearing beta mu mu 1) mu := by
  have hs : Occ.smearing beta mu mu 1 = 1 / 2 := by
    unfold Occ.smearing
    rw [if_pos (by norm_num), sub_self, mul_zero, show Occ.erf 0 = 0 by simp [Occ.erf]]
    norm_num
  have h1 : eent mu mu beta 1 = -Real.log 2 := by
    unfold eent
    simp only [hs]
    rw [if_neg]
    · rw [show (1 : ℝ) - 1 / 2 = 1 / 2 by norm_num, one_div, Real.log_inv]; ring
    · unfold Occ.tempTol
      push Not
      constructor
      · rw [abs_of_pos (by norm_num)]; norm_num
      · rw [abs_of_neg (by norm_num)]; norm_num
  have h2 : -Occ.entropyTerm 1 beta 1 (fun _ => mu) (fun _ => Occ.smearing beta mu mu 1) mu
      = -(1 / 2 / √Real.pi) := by
    unfold Occ.entropyTerm
    simp
  refine ⟨h1, h2, ?_⟩
  rw [h1, h2, neg_lt_neg_iff]
  have hpi : (1 : ℝ) ≤ √Real.pi := by
    rw [show (1 : ℝ) = √1 from Real.sqrt_one.symm]
    exact Real.sqrt_le_sqrt (by linarith [Real.pi_gt_three])
  have : 1 / 2 / √Real.pi ≤ 1 / 2 := div_le_self (by norm_num) hpi
  have := Real.log_two_gt_d9
  linarith

/-! ## Examples -/

/-- Stencil weight `-2` for the neighbours along `x`, nothing else. -/
def demoC : Coefs :=
  ⟨0, 0, 0, fun p => if p = 1 then -2 else 0, 0, 0, 0, 0, 0, 0, 0, 0, 0, 0, 0⟩

/-- A box of 27 points around each node of a process with 8 nodes; neighbours along `x` are coupled
with strength one. -/
def demo : Ham := ⟨demoC, ⟨1, 1, 1, 2, 2, 2, 1⟩, fun _ => 0, fun _ => 0, 0, fun _ => [], 1, fun _ => 0⟩

theorem demo_value : hsub demo (1 + 1 * demo.S.DMnx + 1 * (demo.S.DMnx * demo.S.DMny))
    (unit (center demo.S)) 12 = 1 := by
  have h := hsub_at demo (unit (center demo.S)) (padding_calloc _) (I := 1) (J := 1) (K := 1)
    (by decide) (by decide) (i := 0) (j := 1) (k := 1) (by decide) (by decide) (by decide)
  have e : (((1 : ℕ) : ℤ) * (demo.S.nx * demo.S.ny) + ((1 : ℕ) : ℤ) * demo.S.nx + ((0 : ℕ) : ℤ)) = 12 := by decide
  rw [e] at h
  rw [h]
  simp only [grid_unit demo.S (i' := 1) (j' := 1) (k' := 1) (by decide) (by decide) (by decide)
    (show ((center demo.S : ℕ) : ℤ) = ((1 : ℕ) : ℤ) * (demo.S.nx * demo.S.ny) + ((1 : ℕ) : ℤ) * demo.S.nx
      + ((1 : ℕ) : ℤ) by decide)]
  have hF : demo.S.FDn = 1 := rfl
  have hx : demo.C.D2x = fun p => if p = 1 then -2 else 0 := rfl
  have hy : demo.C.D2y = 0 := rfl
  have hz : demo.C.D2z = 0 := rfl
  have hn : ∀ nd, demo.types nd = [] := fun _ => rfl
  simp only [hF, hx, hy, hz, hn, nonloc, D2]
  norm_num [demo]

theorem demo_setting : Setting demo 2 1 1 1
    (opM demo.S.nd (hsub demo (1 + 1 * demo.S.DMnx + 1 * (demo.S.DMnx * demo.S.DMny)))) := by
  have hb : InBox demo.S (demo.types (1 + 1 * demo.S.DMnx + 1 * (demo.S.DMnx * demo.S.DMny))) := by
    intro To h; exact absurd h List.not_mem_nil
  refine ⟨padding_calloc _, hb, by decide, by decide,
    fun x q => congrFun (hsub_acts demo (padding_calloc _) hb (by decide) (by decide) x) q, by omega, ?_⟩
  intro p hp hz
  rw [Polynomial.aeval_eq_sum_range' hp, Matrix.sum_mulVec, sum_range_succ, sum_range_one, pow_zero, pow_one,
    smul_mulVec, smul_mulVec, one_mulVec] at hz
  have h12 : (12 : ℕ) < demo.S.nd := by decide
  have ne : (⟨12, h12⟩ : Fin demo.S.nd) ≠ ctr demo.S := by
    intro h
    have : (12 : ℕ) = center demo.S := congrArg Fin.val h
    exact absurd this (by decide)
  have a1 := congrFun hz ⟨12, h12⟩
  have m1 : (opM demo.S.nd (hsub demo (1 + 1 * demo.S.DMnx + 1 * (demo.S.DMnx * demo.S.DMny)))
      *ᵥ Pi.single (ctr demo.S) 1) ⟨12, h12⟩ = 1 := by
    rw [mulVec_single_one]
    exact demo_value
  rw [Pi.add_apply, Pi.smul_apply, Pi.smul_apply, m1, Pi.single_eq_of_ne ne] at a1
  have c1 : p.coeff 1 = 0 := by simpa using a1
  rw [c1, zero_smul, add_zero] at hz
  have a0 := congrFun hz (ctr demo.S)
  rw [Pi.smul_apply, Pi.single_eq_same] at a0
  have c0 : p.coeff 0 = 0 := by simpa using a0
  ext n
  rw [Polynomial.coeff_zero]
  rcases Nat.lt_or_ge n 2 with h | h
  · interval_cases n
    · exact c0
    · exact c1
  · exact Polynomial.coeff_eq_zero_of_natDegree_lt (by omega)

theorem demo_node (lv aa bb : ℕ → ℝ) : ∃ o, gaussNode demo 2
    (1 + 1 * demo.S.DMnx + 1 * (demo.S.DMnx * demo.S.DMny)) lv aa bb = some o := by
  unfold gaussNode lanczosGauss
  obtain ⟨q, hq⟩ := tridiag_two
    (lanczos (hsub demo (1 + 1 * demo.S.DMnx + 1 * (demo.S.DMnx * demo.S.DMny))) demo.S.nd 2
      (Function.update (fun _ => 0) (center demo.S : ℤ) 1) lv aa bb).aa
    (lanczos (hsub demo (1 + 1 * demo.S.DMnx + 1 * (demo.S.DMnx * demo.S.DMny))) demo.S.nd 2
      (Function.update (fun _ => 0) (center demo.S : ℤ) 1) lv aa bb).bb
  simp only [hq, Option.map_some]
  exact ⟨_, rfl⟩

/-- C72: the operator is not zero and not diagonal. -/
example : hsub demo (1 + 1 * demo.S.DMnx + 1 * (demo.S.DMnx * demo.S.DMny)) (unit (center demo.S)) 12 = 1 ∧
    unit (center demo.S) 12 = 0 :=
  ⟨demo_value, by unfold unit; rw [Function.update_of_ne (by decide)]⟩

/-- C75: equal spacings meet the hypothesis of `restrict_partial`. -/
example (S : Sizes) (h : S.nloc0 = S.nloc1 ∧ S.nloc1 = S.nloc2) (d : ℝ) (hd : 0 < d) : Even S d d d := by
  obtain ⟨h1, h2⟩ := h
  unfold Even rc
  rw [h1, h2, max_self, max_self]
  refine ⟨hd, hd, hd, ?_, ?_, ?_⟩ <;> nlinarith

/-- C73: two points integrate cubics of the operator of `demo` exactly. -/
example (lv aa bb : ℕ → ℝ) : ∃ o, gaussNode demo 2
    (1 + 1 * demo.S.DMnx + 1 * (demo.S.DMnx * demo.S.DMny)) lv aa bb = some o ∧
    ∑ j ∈ range 2, o.gwt j * (o.gnd j) ^ 3 =
      ((opM demo.S.nd (hsub demo (1 + 1 * demo.S.DMnx + 1 * (demo.S.DMnx * demo.S.DMny)))) ^ 3)
        (ctr demo.S) (ctr demo.S) := by
  obtain ⟨o, ho⟩ := demo_node lv aa bb
  refine ⟨o, ho, ?_⟩
  have := (quadrature_exact demo_setting ho).2.2 (Polynomial.X ^ 3) (by
    rw [Polynomial.natDegree_X_pow]; norm_num)
  simpa using this

/-- C73: a matrix with a nonzero off-diagonal entry. -/
example : ∃ q, tridiag 2 (fun _ => 0) (fun _ => 1) = some q ∧
    ∀ j < 2, q.d j * q.z 0 j = q.z 1 j := by
  obtain ⟨q, hq⟩ := tridiag_two (fun _ => 0) (fun _ => 1)
  refine ⟨q, hq, fun j hj => ?_⟩
  have := (tridiag_eigen hq hj).2 0 (by omega)
  simp at this
  exact this.symm

/-- C74: density of the node of `demo`. -/
example (lv aa bb : ℕ → ℝ) (beta ef : ℝ) : ∃ o, gaussNode demo 2
    (1 + 1 * demo.S.DMnx + 1 * (demo.S.DMnx * demo.S.DMny)) lv aa bb = some o ∧
    0 < rhoPc 2 beta ef 0 o.gnd o.gwt ∧ rhoPc 2 beta ef 0 o.gnd o.gwt < 1 ∧
    dmCol demo.S.nd 2 beta ef 1 0 o.lv o.w o.gnd (center demo.S) = rhoPc 2 beta ef 0 o.gnd o.gwt := by
  obtain ⟨o, ho⟩ := demo_node lv aa bb
  have h := (density_node demo_setting ho beta ef 0).1
  have h' := (density_column demo_setting ho beta ef 1 one_pos 0).1
  rw [div_one] at h'
  exact ⟨o, ho, h.1, h.2, h'⟩

/-- C76: one node, one point at 0, one electron of two: the level is 0. -/
example : electrons 1 1 1 1 1 2 0 (fun _ _ _ _ => 0) (fun _ _ _ _ => 1) 0 = 1 ∧
    ∃! lf, electrons 1 1 1 1 1 2 0 (fun _ _ _ _ => 0) (fun _ _ _ _ => 1) lf = 1 :=
  ⟨by norm_num [electrons, Occ.smearing], fermi_unique 1 1 1 1 1 2 1 one_pos two_pos 0 _ _
    (fun _ _ _ _ _ _ _ _ => zero_le_one) (fun _ _ _ _ _ _ => by simp) one_pos (by norm_num)⟩

/-- C76: at the level the entropy function is not cut off. -/
example : ¬ (|Occ.smearing 1 0 0 0| < 1 / 100 * Occ.tempTol ∨ |Occ.smearing 1 0 0 0 - 1| < 1 / 100 * Occ.tempTol) := by
  have : Occ.smearing 1 0 0 0 = 1 / 2 := by norm_num [Occ.smearing]
  rw [this]
  unfold Occ.tempTol
  push Not
  constructor
  · rw [abs_of_pos (by norm_num)]; norm_num
  · rw [abs_of_neg (by norm_num)]; norm_num

/-- C76: two nodes with one level each at the Fermi level meet the hypothesis of
`grand_potential_sum_partial`; the grand potential is `-4 log 2`. -/
example : ebandLocal 1 2 1 1 0 2 0 (fun _ _ => 0) (fun _ _ => 1)
    + entropyLocal 1 2 1 1 0 2 0 (fun _ _ => 0) (fun _ _ => 1) = -(4 * Real.log 2) := by
  have h := grand_potential_sum_partial 1 2 1 1 0 2 one_pos (fun _ _ => 0) (fun _ _ => 1) (by
    intro k _ j _
    have : Occ.smearing 1 0 0 0 = 1 / 2 := by norm_num [Occ.smearing]
    rw [this]
    unfold Occ.tempTol
    push Not
    constructor
    · rw [abs_of_pos (by norm_num)]; norm_num
    · rw [abs_of_neg (by norm_num)]; norm_num)
  rw [zero_mul, sub_zero] at h
  rw [h]
  norm_num
  ring

end Sparc.Sq

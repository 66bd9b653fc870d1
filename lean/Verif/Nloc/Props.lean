import Verif.Nloc.Lemmas

/-!
# Nonlocal pseudopotential: the operator applied

The processes of a band hold boxes of nodes that together make up the grid, each node once.
What `Vnl_vec_mult` adds to `Hx` is compared with the textbook formula
`Σ_J Σ_lm Γ χ_J (χ_J, x)`, the projectors being summed over all periodic images.
-/

namespace Sparc.Nloc

open Infl
open Finset hiding image

variable {𝕜 : Type} [RCLike 𝕜]

/-- Two directions with the same spacing, length, origin and boundary condition. -/
def SameAxis (a b : Axis) : Prop := a.bc = b.bc ∧ a.L = b.L ∧ a.org = b.org ∧ a.h = b.h

/-- The node lies within the radius of the image `v` of atom `J`. -/
def Near (E : Env) (B : Geo) (T : Psd) (J : ℕ) (n v : ℤ × ℤ × ℤ) : Prop :=
  Allowed B v ∧ E.dist (nodePt B n) (image B E.pos J v) < rcMax (T.toN E.orth)

/-- Number of atoms of the types before `t`. -/
def off (E : Env) (t : ℕ) : ℕ := ((E.types.take t).map Psd.n).sum

/-- A run on `P` processes: the boxes make up `grid`, each node in one box; the distance and
the half-widths of the boxes fit together; the projectors vanish at the radius. -/
structure Setup (E : Env) (P : ℕ) (G : ℕ → Geo) (B : Geo) (grid : Finset (ℤ × ℤ × ℤ)) :
    Prop where
  same : ∀ p < P, SameAxis (G p).X B.X ∧ SameAxis (G p).Y B.Y ∧ SameAxis (G p).Z B.Z
  held : ∀ p < P, HeldN (G p).X ∧ HeldN (G p).Y ∧ HeldN (G p).Z
  org : B.X.org = 0 ∧ B.Y.org = 0 ∧ B.Z.org = 0
  sub : ∀ p < P, domain (G p) ⊆ grid
  once : ∀ n ∈ grid, ∃! p, p < P ∧ n ∈ domain (G p)
  nonneg : ∀ p c, 0 ≤ E.dist p c
  box : ∀ T ∈ E.types, ∀ p c, E.dist p c < rcMax (T.toN E.orth) →
    |p.1 - c.1| < (rcbox (T.toN E.orth)).1 ∧ |p.2.1 - c.2.1| < (rcbox (T.toN E.orth)).2.1 ∧
      |p.2.2 - c.2.2| < (rcbox (T.toN E.orth)).2.2
  rim : ∀ T ∈ E.types, ∀ l np m p c, E.dist p c = rcMax (T.toN E.orth) →
    proj E T l np m (E.cart (p - c)) = 0

theorem off_mono (E : Env) (t t' : Fin E.types.length) (h : t < t') :
    off E t + (E.types.get t).n ≤ off E t' := by
  have h1 : off E (t + 1) = off E t + (E.types.get t).n := by
    unfold off
    rw [List.take_add_one, List.map_append, List.sum_append]
    simp
  rw [← h1]
  clear h1
  unfold off
  obtain ⟨d, hd⟩ := Nat.exists_eq_add_of_le (show (t : ℕ) + 1 ≤ t' from h)
  rw [hd, List.take_add (i := (t : ℕ) + 1), List.map_append, List.sum_append]
  omega

theorem off_toN (E : Env) (t : ℕ) :
    (((E.types.map (Psd.toN E.orth)).take t).map NTyp.n).sum = off E t := by
  unfold off
  rw [← List.map_take, List.map_map]
  rfl

theorem block_iff (types : List Psd) {J J' n c ncol : ℕ} {T T' : Psd}
    (hJ : (atoms types)[J]? = some T) (hJ' : (atoms types)[J']? = some T') (hn : n < ncol)
    (hc : c < nproj T) :
    (dsp types J' * ncol ≤ dsp types J * ncol + n * nproj T + c ∧
      dsp types J * ncol + n * nproj T + c < dsp types J' * ncol + nproj T' * ncol) ↔ J' = J := by
  have hin : n * nproj T + c < nproj T * ncol := by
    calc n * nproj T + c < n * nproj T + nproj T := by omega
      _ = (n + 1) * nproj T := by ring
      _ ≤ ncol * nproj T := Nat.mul_le_mul_right _ hn
      _ = _ := Nat.mul_comm _ _
  have s1 := dsp_succ types J T hJ
  have s2 := dsp_succ types J' T' hJ'
  constructor
  · rintro ⟨h1, h2⟩
    rcases Nat.lt_trichotomy J' J with h | h | h
    · have := Nat.mul_le_mul_right ncol (dsp_mono types (show J' + 1 ≤ J from h))
      rw [s2, Nat.add_mul] at this
      omega
    · exact h
    · have := Nat.mul_le_mul_right ncol (dsp_mono types (show J + 1 ≤ J' from h))
      rw [s1, Nat.add_mul] at this
      omega
  · rintro rfl
    rw [hJ] at hJ'
    cases hJ'
    omega

theorem rel_eq (G : Geo) (h : G.X.org = 0) (cart : ℝ × ℝ × ℝ → ℝ × ℝ × ℝ) (R : NRec)
    (g : ℤ) : rel G cart R g = cart (nodePt G (decode G g) - (R.x, R.y, R.z)) := by
  unfold rel nodePt
  rw [h, zero_add]
  rfl

theorem getD_cols (E : Env) (T : Psd) (c : ℕ) (k : ℕ × ℕ × ℤ) (hk : (chan T)[c]? = some k) :
    (E.cols T).getD c (fun _ => 0) = proj E T k.1 k.2.1 k.2.2 := by
  rw [cols_eq, List.getD_eq_getElem?_getD, List.getElem?_map, hk]
  rfl

theorem idx_atoms (E : Env) (t : Fin E.types.length) (J : ℕ) (h1 : off E t ≤ J)
    (h2 : J < off E t + (E.types.get t).n) :
    (atoms E.types)[J]? = some (E.types.get t) ∧ (ipDispl E.types).getD J 0 = dsp E.types J := by
  have := atoms_get E.types t J h1 h2
  exact ⟨this, ipDispl_eq _ _ (List.getElem?_eq_some_iff.1 this).1.le⟩

open Classical in
theorem gather_at (E : Env) (G : Geo) (hX : HeldN G.X) (hY : HeldN G.Y) (hZ : HeldN G.Z)
    (oX : G.X.org = 0) (oY : G.Y.org = 0) (oZ : G.Z.org = 0)
    (h0 : ∀ p c, 0 ≤ E.dist p c)
    (hbox : ∀ T ∈ E.types, ∀ p c, E.dist p c < rcMax (T.toN E.orth) →
      |p.1 - c.1| < (rcbox (T.toN E.orth)).1 ∧ |p.2.1 - c.2.1| < (rcbox (T.toN E.orth)).2.1 ∧
        |p.2.2 - c.2.2| < (rcbox (T.toN E.orth)).2.2)
    (rim : ∀ T ∈ E.types, ∀ l np m p c, E.dist p c = rcMax (T.toN E.orth) →
      proj E T l np m (E.cart (p - c)) = 0)
    (ncol ldi : ℕ) (a : ℝ × ℝ × ℝ → 𝕜) (x : ℤ → 𝕜) (t : Fin E.types.length) (J : ℕ)
    (hJ1 : off E t ≤ J) (hJ2 : J < off E t + (E.types.get t).n) (n : ℕ) (hn : n < ncol) (c : ℕ)
    (k : ℕ × ℕ × ℤ) (hk : (chan (E.types.get t))[c]? = some k) :
    gather G E.cart E.cols E.types (E.out G) (ipDispl E.types) ncol ldi a x
        (dsp E.types J * ncol + n * nproj (E.types.get t) + c)
      = ∑ nd ∈ domain G, ∑ᶠ v, if Near E G (E.types.get t) J nd v then
          a (image G E.pos J v) * (((proj E (E.types.get t) k.1 k.2.1 k.2.2
            (E.cart (nodePt G nd - image G E.pos J v)) : ℝ) : 𝕜) * x (n * ldi + nodeIdx G nd))
          else 0 := by
  have hc : c < nproj (E.types.get t) := by
    rw [nproj_eq]; exact (List.getElem?_eq_some_iff.1 hk).1
  obtain ⟨aJ, dJ⟩ := idx_atoms E t J hJ1 hJ2
  rw [gather_sum]
  refine (zip_sum E.types _ _ (fun t' => if t' = t then _ else 0) fun t' => ?_).trans
    (by rw [Finset.sum_ite_eq' univ t (fun _ => _), if_pos (mem_univ t)])
  have hty : (E.types.map (Psd.toN E.orth))[t'.1]? = some ((E.types.get t').toN E.orth) := by
    simp
  obtain ⟨m, recs, hout, hrec⟩ := nloc_record (G := G) E.dist hX hY hZ _ E.pos t' _ hty
  obtain ⟨m', recs', hout', hsum⟩ := nloc_sum hX hY hZ oY oZ E.dist h0 _ E.pos t' _ hty
    (hbox _ (List.get_mem _ _))
  rw [hout] at hout'
  simp only [Option.some.injEq, NOut.mk.injEq] at hout'
  obtain ⟨_, _, _, rfl⟩ := hout'
  rw [off_toN] at hsum
  simp only [off_toN] at hrec
  refine ⟨_, hout, ?_⟩
  dsimp only
  by_cases htt : t' = t
  · subst htt
    rw [if_pos rfl, if_neg (by omega)]
    have key := hsum 𝕜 (fun J' c' nd g => if J' = J ∧ E.dist (nodePt G nd) c'
        < rcMax ((E.types.get t').toN E.orth) then
        a c' * (((proj E (E.types.get t') k.1 k.2.1 k.2.2 (E.cart (nodePt G nd - c')) : ℝ) : 𝕜)
          * x (n * ldi + g)) else 0) (by
      intro J' c' nd g h
      rw [if_neg (by rintro ⟨-, h'⟩; linarith)])
    refine Eq.trans ?_ (key.trans ?_)
    · congr 1
      refine List.map_congr_left fun R hR => ?_
      obtain ⟨-, -, hidx, -, hg⟩ := hrec R hR
      obtain ⟨aR, dR⟩ := idx_atoms E t' R.idx hidx.1 hidx.2
      rw [dR]
      by_cases hRJ : R.idx = J
      · rw [if_pos ((block_iff _ aJ aR hn hc).2 hRJ), hRJ, Nat.add_assoc, Nat.add_sub_cancel_left,
          Nat.mul_comm n, Nat.mul_add_mod, Nat.mod_eq_of_lt hc, Nat.mul_add_div (by omega),
          Nat.div_eq_of_lt hc, Nat.add_zero, getD_cols E _ c k hk, ← List.sum_map_mul_left]
        congr 1
        refine List.map_congr_left fun g hgm => ?_
        obtain ⟨nd, -, -, hdec, -, -, hd⟩ := hg g hgm
        rw [rel_eq G oX, hdec]
        rcases hd.lt_or_eq with hd | hd
        · rw [if_pos ⟨rfl, hd⟩]
        · rw [if_neg (by rintro ⟨-, h⟩; linarith), rim _ (List.get_mem _ _) _ _ _ _ _ hd]
          simp
      · rw [if_neg (fun h => hRJ ((block_iff _ aJ aR hn hc).1 h))]
        refine (List.sum_eq_zero ?_).symm
        intro z hz
        obtain ⟨g, -, rfl⟩ := List.mem_map.1 hz
        rw [if_neg (fun h => hRJ h.1)]
    · rw [Finset.sum_eq_single J]
      · refine Finset.sum_congr rfl fun nd _ => finsum_congr fun v => ?_
        unfold Near
        by_cases hA : Allowed G v
        · rw [if_pos hA]
          by_cases hd : E.dist (nodePt G nd) (image G E.pos J v)
            < rcMax ((E.types.get t').toN E.orth)
          · rw [if_pos ⟨rfl, hd⟩, if_pos ⟨hA, hd⟩]
          · rw [if_neg (fun h => hd h.2), if_neg (fun h => hd h.2)]
        · rw [if_neg hA, if_neg (fun h => hA h.1)]
      · intro J' _ hne
        refine Finset.sum_eq_zero fun nd _ => ?_
        refine (finsum_congr fun v => ?_).trans finsum_zero
        rw [if_neg (fun h : J' = J ∧ _ => hne h.1), ite_self]
      · intro h
        exact absurd (Finset.mem_Ico.2 ⟨hJ1, hJ2⟩) h
  · rw [if_neg htt]
    split_ifs with hz
    · rfl
    refine List.sum_eq_zero ?_
    intro z hz
    obtain ⟨R, hR, rfl⟩ := List.mem_map.1 hz
    obtain ⟨-, -, hidx, -, -⟩ := hrec R hR
    obtain ⟨aR, dR⟩ := idx_atoms E t' R.idx hidx.1 hidx.2
    rw [dR, if_neg]
    intro h
    have hh := (block_iff _ aJ aR hn hc).1 h
    rw [hh] at hidx
    have h1 := hidx.1
    have h2 := hidx.2
    change J < off E t' + (E.types.get t').n at h2
    rcases lt_trichotomy t' t with h | h | h
    · have := off_mono E t' t h; omega
    · exact htt h
    · have := off_mono E t t' h; omega

theorem nodeIdx_bounds (G : Geo) (nd : ℤ × ℤ × ℤ) (h : nd ∈ domain G) :
    decode G (nodeIdx G nd) = nd ∧ 0 ≤ nodeIdx G nd ∧ nodeIdx G nd
      < (G.X.hi - G.X.lo + 1) * ((G.Y.hi - G.Y.lo + 1) * (G.Z.hi - G.Z.lo + 1)) := by
  simp only [domain, mem_product, mem_Icc] at h
  obtain ⟨d1, d2⟩ := decode_loc G h.1 h.2.1 h.2.2.1
  rw [loc_eq] at d1 d2
  refine ⟨d1, d2, ?_⟩
  unfold nodeIdx
  obtain ⟨⟨a1, a2⟩, ⟨b1, b2⟩, c1, c2⟩ := h
  obtain ⟨x, hx⟩ : ∃ x, x = nd.1 - G.X.lo := ⟨_, rfl⟩
  obtain ⟨y, hy⟩ : ∃ x, x = nd.2.1 - G.Y.lo := ⟨_, rfl⟩
  obtain ⟨z, hz⟩ : ∃ x, x = nd.2.2 - G.Z.lo := ⟨_, rfl⟩
  obtain ⟨p, hp⟩ : ∃ x, x = G.X.hi - G.X.lo + 1 := ⟨_, rfl⟩
  obtain ⟨q, hq⟩ : ∃ x, x = G.Y.hi - G.Y.lo + 1 := ⟨_, rfl⟩
  obtain ⟨r, hr⟩ : ∃ x, x = G.Z.hi - G.Z.lo + 1 := ⟨_, rfl⟩
  rw [← hx, ← hy, ← hz, ← hp, ← hq, ← hr]
  have h1 : y + q * z + 1 ≤ q * r := by
    nlinarith [show z + 1 ≤ r by omega, show y + 1 ≤ q by omega, show 0 ≤ y by omega]
  nlinarith [show x + 1 ≤ p by omega, show 0 ≤ x by omega]

theorem flat_inj {n n0 : ℕ} {g g0 ld : ℤ} (h1 : 0 ≤ g) (h2 : g < ld) (h3 : 0 ≤ g0) (h4 : g0 < ld) :
    (n0 : ℤ) * ld + g0 = n * ld + g ↔ n = n0 ∧ g = g0 := by
  constructor
  · intro h
    have : n = n0 := by
      rcases Nat.lt_trichotomy n n0 with hl | hl | hl
      · exfalso; have : (n : ℤ) + 1 ≤ n0 := by omega
        nlinarith
      · exact hl
      · exfalso; have : (n0 : ℤ) + 1 ≤ n := by omega
        nlinarith
    subst this
    exact ⟨rfl, by linarith⟩
  · rintro ⟨rfl, rfl⟩; rfl

theorem list_range_sum {M : Type} [AddCommMonoid M] (n : ℕ) (f : ℕ → M) :
    ((List.range n).map f).sum = ∑ i ∈ range n, f i := by
  induction n with
  | zero => simp
  | succ n ih => rw [List.range_succ, List.map_append, List.sum_append, ih, Finset.sum_range_succ]; simp

open Classical in
theorem scatter_at (E : Env) (G : Geo) (hX : HeldN G.X) (hY : HeldN G.Y) (hZ : HeldN G.Z)
    (oX : G.X.org = 0) (oY : G.Y.org = 0) (oZ : G.Z.org = 0)
    (h0 : ∀ p c, 0 ≤ E.dist p c)
    (hbox : ∀ T ∈ E.types, ∀ p c, E.dist p c < rcMax (T.toN E.orth) →
      |p.1 - c.1| < (rcbox (T.toN E.orth)).1 ∧ |p.2.1 - c.2.1| < (rcbox (T.toN E.orth)).2.1 ∧
        |p.2.2 - c.2.2| < (rcbox (T.toN E.orth)).2.2)
    (rim : ∀ T ∈ E.types, ∀ l np m p c, E.dist p c = rcMax (T.toN E.orth) →
      proj E T l np m (E.cart (p - c)) = 0)
    (ncol ldo : ℕ)
    (hld : (G.X.hi - G.X.lo + 1) * ((G.Y.hi - G.Y.lo + 1) * (G.Z.hi - G.Z.lo + 1)) ≤ ldo)
    (b : ℝ × ℝ × ℝ → 𝕜) (alpha : ℕ → 𝕜) (Hx : ℤ → 𝕜) (n : ℕ) (hn : n < ncol)
    (nd : ℤ × ℤ × ℤ) (hnd : nd ∈ domain G) :
    scatter G E.cart E.cols E.types (E.out G) (ipDispl E.types) ncol ldo b alpha Hx
        (n * ldo + nodeIdx G nd)
      = Hx (n * ldo + nodeIdx G nd) + ∑ t : Fin E.types.length,
          ∑ J ∈ Ico (off E t) (off E t + (E.types.get t).n),
            ∑ᶠ v, if Near E G (E.types.get t) J nd v then
              b (image G E.pos J v) * ∑ c ∈ range (nproj (E.types.get t)),
                (((E.cols (E.types.get t)).getD c (fun _ => 0)
                  (E.cart (nodePt G nd - image G E.pos J v)) : ℝ) : 𝕜)
                * alpha (dsp E.types J * ncol + n * nproj (E.types.get t) + c)
            else 0 := by
  rw [scatter_sum]
  congr 1
  refine zip_sum E.types _ _ _ fun t => ?_
  have hty : (E.types.map (Psd.toN E.orth))[t.1]? = some ((E.types.get t).toN E.orth) := by
    simp
  obtain ⟨m, recs, hout, hrec⟩ := nloc_record (G := G) E.dist hX hY hZ _ E.pos t _ hty
  obtain ⟨m', recs', hout', hsum⟩ := nloc_sum hX hY hZ oY oZ E.dist h0 _ E.pos t _ hty
    (hbox _ (List.get_mem _ _))
  rw [hout] at hout'
  simp only [Option.some.injEq, NOut.mk.injEq] at hout'
  obtain ⟨_, _, _, rfl⟩ := hout'
  rw [off_toN] at hsum
  simp only [off_toN] at hrec
  refine ⟨_, hout, ?_⟩
  dsimp only
  by_cases hz : nproj (E.types.get t) = 0
  · rw [if_pos hz]
    refine (Finset.sum_eq_zero fun J _ => ?_).symm
    refine (finsum_congr fun v => ?_).trans finsum_zero
    rw [hz]
    simp
  rw [if_neg hz]
  obtain ⟨dnd, b0, b1⟩ := nodeIdx_bounds G nd hnd
  have key := hsum 𝕜 (fun J' c' nd' g => if g = nodeIdx G nd ∧ E.dist (nodePt G nd') c'
      < rcMax ((E.types.get t).toN E.orth) then
      b c' * ∑ c ∈ range (nproj (E.types.get t)),
        (((E.cols (E.types.get t)).getD c (fun _ => 0) (E.cart (nodePt G nd' - c')) : ℝ) : 𝕜)
        * alpha (dsp E.types J' * ncol + n * nproj (E.types.get t) + c) else 0) (by
    intro J' c' nd g h
    rw [if_neg (by rintro ⟨-, h'⟩; linarith)])
  refine Eq.trans ?_ (key.trans ?_)
  · congr 1
    refine List.map_congr_left fun R hR => ?_
    obtain ⟨-, -, hidx, -, hg⟩ := hrec R hR
    obtain ⟨aR, dR⟩ := idx_atoms E t R.idx hidx.1 hidx.2
    rw [dR, list_range_sum, Finset.sum_eq_single n]
    · congr 1
      refine List.map_congr_left fun g hgm => ?_
      obtain ⟨nd', -, -, hdec, g0, g1, hd⟩ := hg g hgm
      rw [rel_eq G oX, hdec, list_range_sum]
      by_cases hgg : g = nodeIdx G nd
      · rw [if_pos (by rw [hgg])]
        rcases hd.lt_or_eq with hd | hd
        · rw [if_pos ⟨hgg, hd⟩]
        · rw [if_neg (by rintro ⟨-, h⟩; linarith)]
          rw [Finset.sum_eq_zero, mul_zero]
          intro c hc
          have hcl : c < (chan (E.types.get t)).length := by
            rw [← nproj_eq]; exact Finset.mem_range.1 hc
          rw [getD_cols E _ c _ (List.getElem?_eq_getElem hcl), rim _ (List.get_mem _ _) _ _ _ _ _ hd]
          simp
      · rw [if_neg (fun h => hgg (by linarith)), if_neg (fun h => hgg h.1)]
    · intro n' _ hne
      refine List.sum_eq_zero ?_
      intro z hz
      obtain ⟨g, hgm, rfl⟩ := List.mem_map.1 hz
      obtain ⟨nd', -, -, hdec, g0, g1, hd⟩ := hg g hgm
      rw [if_neg]
      intro h
      exact hne ((flat_inj g0 (by omega) b0 (by omega)).1 h).1
    · intro h
      exact absurd (Finset.mem_range.2 hn) h
  · refine Finset.sum_congr rfl fun J _ => ?_
    rw [Finset.sum_eq_single nd]
    · refine finsum_congr fun v => ?_
      unfold Near
      by_cases hA : Allowed G v
      · rw [if_pos hA]
        by_cases hd : E.dist (nodePt G nd) (image G E.pos J v)
          < rcMax ((E.types.get t).toN E.orth)
        · rw [if_pos ⟨rfl, hd⟩, if_pos ⟨hA, hd⟩]
        · rw [if_neg (fun h => hd h.2), if_neg (fun h => hd h.2)]
      · rw [if_neg hA, if_neg (fun h => hA h.1)]
    · intro nd' hnd' hne
      refine (finsum_congr fun v => ?_).trans finsum_zero
      have hn' : nodeIdx G nd' ≠ nodeIdx G nd := fun h => hne (by
        rw [← (nodeIdx_bounds G nd' hnd').1, h, dnd])
      rw [if_neg (fun h : nodeIdx G nd' = nodeIdx G nd ∧ _ => hn' h.1), ite_self]
    · intro h
      exact absurd hnd h

theorem fin_axis (x p L r : ℝ) (hL : 0 < L) : {v : ℤ | |x - (p + L * v)| < r}.Finite := by
  refine (Set.finite_Icc ⌊(x - p - r) / L⌋ ⌈(x - p + r) / L⌉).subset ?_
  intro v hv
  rw [Set.mem_ofPred_eq, abs_lt] at hv
  constructor
  · have : (x - p - r) / L < v := by rw [div_lt_iff₀ hL]; linarith [mul_comm L (v : ℝ)]
    exact_mod_cast (Int.floor_le _).trans this.le
  · have : (v : ℝ) < (x - p + r) / L := by rw [lt_div_iff₀ hL]; linarith [mul_comm L (v : ℝ)]
    exact_mod_cast this.le.trans (Int.le_ceil _)

theorem near_finite (E : Env) (B : Geo) (T : Psd) (hL : 0 < B.X.L ∧ 0 < B.Y.L ∧ 0 < B.Z.L)
    (hbox : ∀ p c, E.dist p c < rcMax (T.toN E.orth) →
      |p.1 - c.1| < (rcbox (T.toN E.orth)).1 ∧ |p.2.1 - c.2.1| < (rcbox (T.toN E.orth)).2.1 ∧
        |p.2.2 - c.2.2| < (rcbox (T.toN E.orth)).2.2) (J : ℕ) (n : ℤ × ℤ × ℤ) :
    {v | Near E B T J n v}.Finite := by
  have h := ((fin_axis (nodePt B n).1 (E.pos (3 * J)) B.X.L (rcbox (T.toN E.orth)).1 hL.1).prod
    ((fin_axis (nodePt B n).2.1 (E.pos (3 * J + 1)) B.Y.L (rcbox (T.toN E.orth)).2.1 hL.2.1).prod
      (fin_axis (nodePt B n).2.2 (E.pos (3 * J + 2)) B.Z.L (rcbox (T.toN E.orth)).2.2 hL.2.2)))
  refine h.subset ?_
  intro v hv
  exact hbox _ _ hv.2

theorem chan_sum {M : Type} [AddCommMonoid M] (T : Psd) (f : ℕ × ℕ × ℤ → M) :
    ((chan T).map f).sum = ∑ l ∈ (range (T.lmax + 1)).filter (fun l : ℕ => (l : ℤ) ≠ T.lloc),
      ∑ np ∈ range (T.ppl l), ∑ m ∈ Icc (-(l : ℤ)) l, f (l, np, m) := by
  unfold chan
  rw [List.map_flatMap, list_sum_flatMap, list_range_sum, Finset.sum_filter]
  refine Finset.sum_congr rfl fun l _ => ?_
  by_cases hl : (l : ℤ) = T.lloc
  · rw [if_pos hl, if_neg (fun h => h hl)]; rfl
  · rw [if_neg hl, if_pos hl, List.map_flatMap, list_sum_flatMap, list_range_sum]
    refine Finset.sum_congr rfl fun np _ => ?_
    rw [List.map_map]
    have : (Icc (-(l : ℤ)) l) = (irange (-(l : ℤ)) l).toFinset := by
      ext m; simp [mem_irange]
    rw [this, List.sum_toFinset _ (nodup_irange _ _)]
    rfl

theorem range_chan {M : Type} [AddCommMonoid M] (T : Psd) (g : ℕ → M) (f : ℕ × ℕ × ℤ → M)
    (h : ∀ c k, (chan T)[c]? = some k → g c = f k) :
    ∑ c ∈ range (nproj T), g c = ((chan T).map f).sum := by
  rw [nproj_eq, ← list_range_sum]
  congr 1
  refine List.ext_getElem (by simp) fun c h1 h2 => ?_
  simp only [List.getElem_map, List.getElem_range]
  exact h c _ (List.getElem?_eq_getElem (by simpa using h2))

open Classical in
/-- The projector of an atom summed over the images within its radius, each image weighted
with `u`. -/
noncomputable def xi (E : Env) (B : Geo) (u : ℝ × ℝ × ℝ → 𝕜) (T : Psd) (J l np : ℕ) (m : ℤ)
    (n : ℤ × ℤ × ℤ) : 𝕜 :=
  ∑ᶠ v, if Near E B T J n v then
    u (image B E.pos J v) *
      ((proj E T l np m (E.cart (nodePt B n - image B E.pos J v)) : ℝ) : 𝕜) else 0

open Classical in
theorem grid_sum {P : ℕ} {G : ℕ → Geo} {grid : Finset (ℤ × ℤ × ℤ)}
    (sub : ∀ p < P, domain (G p) ⊆ grid) (once : ∀ n ∈ grid, ∃! p, p < P ∧ n ∈ domain (G p))
    {M : Type} [AddCommMonoid M] (f : ℤ × ℤ × ℤ → M) :
    ∑ p ∈ range P, ∑ n ∈ domain (G p), f n = ∑ n ∈ grid, f n := by
  have h1 : ∀ p ∈ range P, ∑ n ∈ domain (G p), f n
      = ∑ n ∈ grid, if n ∈ domain (G p) then f n else 0 := by
    intro p hp
    rw [← Finset.sum_filter]
    congr 1
    ext n
    simp only [Finset.mem_filter]
    exact ⟨fun h => ⟨sub p (Finset.mem_range.1 hp) h, h⟩, fun h => h.2⟩
  rw [Finset.sum_congr rfl h1, Finset.sum_comm]
  refine Finset.sum_congr rfl fun n hn => ?_
  obtain ⟨p, ⟨hp, hpn⟩, hu⟩ := once n hn
  rw [Finset.sum_eq_single p]
  · rw [if_pos hpn]
  · intro q hq hne
    rw [if_neg]
    intro h
    exact hne (hu q ⟨Finset.mem_range.1 hq, h⟩)
  · intro h
    exact absurd (Finset.mem_range.2 hp) h

section
variable {E : Env} {P : ℕ} {G : ℕ → Geo} {B : Geo} {grid : Finset (ℤ × ℤ × ℤ)}

theorem Setup.geo (S : Setup E P G B grid) {p : ℕ} (hp : p < P) :
    (∀ n, nodePt (G p) n = nodePt B n) ∧ (∀ J v, image (G p) E.pos J v = image B E.pos J v) ∧
    (∀ T J n v, Near E (G p) T J n v ↔ Near E B T J n v) := by
  obtain ⟨⟨a1, a2, a3, a4⟩, ⟨b1, b2, b3, b4⟩, c1, c2, c3, c4⟩ := S.same p hp
  have h1 : ∀ n, nodePt (G p) n = nodePt B n := by
    intro n; unfold nodePt; rw [a3, a4, b4, c4]
  have h2 : ∀ J v, image (G p) E.pos J v = image B E.pos J v := by
    intro J v; unfold image; rw [a2, b2, c2]
  refine ⟨h1, h2, fun T J n v => ?_⟩
  unfold Near Allowed
  rw [h1, h2, a1, b1, c1]

open Classical in
/-- The reduced inner products. -/
theorem alpha_at (S : Setup E P G B grid) (ncol ldi : ℕ) (w : ℝ × ℝ × ℝ → 𝕜) (dV : ℝ)
    (x : ℕ → ℤ → 𝕜) (X : ℕ → ℤ × ℤ × ℤ → 𝕜)
    (hx : ∀ p < P, ∀ n < ncol, ∀ nd ∈ domain (G p), x p (n * ldi + nodeIdx (G p) nd) = X n nd)
    (t : Fin E.types.length) (J : ℕ) (hJ1 : off E t ≤ J)
    (hJ2 : J < off E t + (E.types.get t).n) (n : ℕ) (hn : n < ncol) (c : ℕ)
    (k : ℕ × ℕ × ℤ) (hk : (chan (E.types.get t))[c]? = some k) (hP : 0 < P) :
    ∑ p ∈ range P, gather (G p) E.cart E.cols E.types (E.out (G p)) (ipDispl E.types) ncol ldi
        (fun c => w c * (dV : 𝕜)) (x p) (dsp E.types J * ncol + n * nproj (E.types.get t) + c)
      = dV * ∑ nd ∈ grid, star (xi E B (fun c => star (w c)) (E.types.get t) J k.1 k.2.1 k.2.2 nd)
          * X n nd := by
  have hL : 0 < B.X.L ∧ 0 < B.Y.L ∧ 0 < B.Z.L := by
    obtain ⟨s1, s2, s3⟩ := S.same 0 hP
    obtain ⟨h1, h2, h3⟩ := S.held 0 hP
    exact ⟨s1.2.1 ▸ h1.L_pos, s2.2.1 ▸ h2.L_pos, s3.2.1 ▸ h3.L_pos⟩
  rw [← grid_sum S.sub S.once, Finset.mul_sum]
  refine Finset.sum_congr rfl fun p hp => ?_
  rw [Finset.mem_range] at hp
  obtain ⟨g1, g2, g3⟩ := S.geo hp
  obtain ⟨⟨_, _, a3, _⟩, ⟨_, _, b3, _⟩, _, _, c3, _⟩ := S.same p hp
  rw [gather_at E (G p) (S.held p hp).1 (S.held p hp).2.1 (S.held p hp).2.2
    (a3.trans S.org.1) (b3.trans S.org.2.1) (c3.trans S.org.2.2) S.nonneg S.box S.rim ncol ldi
    _ (x p) t J hJ1 hJ2 n hn c k hk, Finset.mul_sum]
  refine Finset.sum_congr rfl fun nd hnd => ?_
  rw [hx p hp n hn nd hnd]
  have hfin := near_finite E B (E.types.get t) hL (S.box _ (List.get_mem _ _)) J nd
  have hs : star (xi E B (fun c => star (w c)) (E.types.get t) J k.1 k.2.1 k.2.2 nd)
      = ∑ᶠ v, if Near E B (E.types.get t) J nd v then
          w (image B E.pos J v) * ((proj E (E.types.get t) k.1 k.2.1 k.2.2
            (E.cart (nodePt B nd - image B E.pos J v)) : ℝ) : 𝕜) else 0 := by
    unfold xi
    rw [← starAddEquiv_apply, AddEquiv.map_finsum]
    refine finsum_congr fun v => ?_
    rw [starAddEquiv_apply, apply_ite star, star_zero]
    simp
  rw [hs, finsum_mul, mul_finsum]
  refine finsum_congr fun v => ?_
  rw [g1, g2]
  by_cases h : Near E B (E.types.get t) J nd v
  · rw [if_pos ((g3 _ _ _ _).2 h), if_pos h]; ring
  · rw [if_neg (fun h' => h ((g3 _ _ _ _).1 h')), if_neg h]; ring

open Classical in
/-- The operator with any weights `w` and their conjugates. -/
theorem vnl_apply (S : Setup E P G B grid) (ncol ldi ldo : ℕ) (w : ℝ × ℝ × ℝ → 𝕜) (dV : ℝ)
    (x Hx : ℕ → ℤ → 𝕜) (X : ℕ → ℤ × ℤ × ℤ → 𝕜)
    (hx : ∀ p < P, ∀ n < ncol, ∀ nd ∈ domain (G p), x p (n * ldi + nodeIdx (G p) nd) = X n nd)
    (p : ℕ) (hp : p < P)
    (hld : ((G p).X.hi - (G p).X.lo + 1) * (((G p).Y.hi - (G p).Y.lo + 1)
      * ((G p).Z.hi - (G p).Z.lo + 1)) ≤ ldo)
    (n : ℕ) (hn : n < ncol) (nd : ℤ × ℤ × ℤ) (hnd : nd ∈ domain (G p)) :
    vnl E P G ncol ldi ldo (fun c => w c * (dV : 𝕜)) (fun c => star (w c)) x Hx p
        (n * ldo + nodeIdx (G p) nd)
      = Hx p (n * ldo + nodeIdx (G p) nd) + ∑ t : Fin E.types.length,
          ∑ J ∈ Ico (off E t) (off E t + (E.types.get t).n),
            ∑ l ∈ (range ((E.types.get t).lmax + 1)).filter
              (fun l : ℕ => (l : ℤ) ≠ (E.types.get t).lloc),
              ∑ np ∈ range ((E.types.get t).ppl l), ∑ m ∈ Icc (-(l : ℤ)) l,
                (((E.types.get t).gamma (∑ i ∈ range l, (E.types.get t).ppl i + np) : ℝ) : 𝕜)
                * xi E B (fun c => star (w c)) (E.types.get t) J l np m nd
                * (dV * ∑ nd' ∈ grid,
                  star (xi E B (fun c => star (w c)) (E.types.get t) J l np m nd') * X n nd') := by
  have hP : 0 < P := by omega
  have hL : 0 < B.X.L ∧ 0 < B.Y.L ∧ 0 < B.Z.L := by
    obtain ⟨s1, s2, s3⟩ := S.same 0 hP
    obtain ⟨h1, h2, h3⟩ := S.held 0 hP
    exact ⟨s1.2.1 ▸ h1.L_pos, s2.2.1 ▸ h2.L_pos, s3.2.1 ▸ h3.L_pos⟩
  obtain ⟨g1, g2, g3⟩ := S.geo hp
  obtain ⟨⟨_, _, a3, _⟩, ⟨_, _, b3, _⟩, _, _, c3, _⟩ := S.same p hp
  unfold vnl
  dsimp only
  rw [scatter_at E (G p) (S.held p hp).1 (S.held p hp).2.1 (S.held p hp).2.2
    (a3.trans S.org.1) (b3.trans S.org.2.1) (c3.trans S.org.2.2) S.nonneg S.box S.rim ncol ldo
    hld _ _ _ n hn nd hnd]
  congr 1
  refine Finset.sum_congr rfl fun t _ => Finset.sum_congr rfl fun J hJ => ?_
  rw [Finset.mem_Ico] at hJ
  obtain ⟨aJ, dJ⟩ := idx_atoms E t J hJ.1 hJ.2
  have hfin := near_finite E B (E.types.get t) hL (S.box _ (List.get_mem _ _)) J nd
  rw [← chan_sum (E.types.get t) (fun k =>
    (((E.types.get t).gamma (∑ i ∈ range k.1, (E.types.get t).ppl i + k.2.1) : ℝ) : 𝕜)
                * xi E B (fun c => star (w c)) (E.types.get t) J k.1 k.2.1 k.2.2 nd
                * (dV * ∑ nd' ∈ grid,
                  star (xi E B (fun c => star (w c)) (E.types.get t) J k.1 k.2.1 k.2.2 nd')
                    * X n nd'))]
  have hscale : ∀ c k, (chan (E.types.get t))[c]? = some k →
      scale E.types ncol (if P > 1 then fun q => ((List.range P).map fun p =>
        gather (G p) E.cart E.cols E.types (E.out (G p)) (ipDispl E.types) ncol ldi
          (fun c => w c * (dV : 𝕜)) (x p) q).sum else
        gather (G p) E.cart E.cols E.types (E.out (G p)) (ipDispl E.types) ncol ldi
          (fun c => w c * (dV : 𝕜)) (x p)) (dsp E.types J * ncol + n * nproj (E.types.get t) + c)
      = (dV * ∑ nd' ∈ grid,
          star (xi E B (fun c => star (w c)) (E.types.get t) J k.1 k.2.1 k.2.2 nd') * X n nd')
        * (((E.types.get t).gamma (∑ i ∈ range k.1, (E.types.get t).ppl i + k.2.1) : ℝ) : 𝕜) := by
    intro c k hk
    rw [scale_at E.types ncol _ J n c (E.types.get t) k aJ hn hk,
      ← alpha_at S ncol ldi w dV x X hx t J hJ.1 hJ.2 n hn c k hk hP]
    congr 1
    by_cases h1 : P > 1
    · rw [if_pos h1, list_range_sum]
    · have : P = 1 := by omega
      subst this
      have : p = 0 := by omega
      subst this
      rw [if_neg h1, Finset.sum_range_one]
  rw [← range_chan (E.types.get t) (fun c =>
    (∑ᶠ v, if Near E (G p) (E.types.get t) J nd v then
      star (w (image (G p) E.pos J v)) * (((E.cols (E.types.get t)).getD c (fun _ => 0)
        (E.cart (nodePt (G p) nd - image (G p) E.pos J v)) : ℝ) : 𝕜) else 0)
      * scale E.types ncol (if P > 1 then fun q => ((List.range P).map fun p =>
        gather (G p) E.cart E.cols E.types (E.out (G p)) (ipDispl E.types) ncol ldi
          (fun c => w c * (dV : 𝕜)) (x p) q).sum else
        gather (G p) E.cart E.cols E.types (E.out (G p)) (ipDispl E.types) ncol ldi
          (fun c => w c * (dV : 𝕜)) (x p)) (dsp E.types J * ncol + n * nproj (E.types.get t) + c))
    _ ?_]
  · have hsub : ∀ f : ℤ × ℤ × ℤ → 𝕜, (Function.support fun v =>
        if Near E (G p) (E.types.get t) J nd v then f v else 0).Finite := by
      intro f
      refine hfin.subset fun v hv => ?_
      by_contra h
      exact hv (by
        simp only [Set.mem_ofPred_eq] at h
        dsimp only
        rw [if_neg (fun h' => h ((g3 _ _ _ _).1 h'))])
    rw [Finset.sum_congr rfl fun c _ => finsum_mul _ _]
    rw [← finsum_sum_comm]
    · refine finsum_congr fun v => ?_
      by_cases hN : Near E (G p) (E.types.get t) J nd v
      · rw [if_pos hN, Finset.mul_sum]
        refine Finset.sum_congr rfl fun c _ => ?_
        rw [if_pos hN, mul_assoc]
      · rw [if_neg hN]
        refine (Finset.sum_eq_zero fun c _ => ?_).symm
        rw [if_neg hN, zero_mul]
    · intro c _
      refine (hsub _).subset (Function.support_mul_subset_left _ _)
  · intro c k hk
    rw [hscale c k hk, getD_cols E _ c k hk]
    have : (∑ᶠ v, if Near E (G p) (E.types.get t) J nd v then
        star (w (image (G p) E.pos J v)) * ((proj E (E.types.get t) k.1 k.2.1 k.2.2
          (E.cart (nodePt (G p) nd - image (G p) E.pos J v)) : ℝ) : 𝕜) else 0)
        = xi E B (fun c => star (w c)) (E.types.get t) J k.1 k.2.1 k.2.2 nd := by
      unfold xi
      refine finsum_congr fun v => ?_
      rw [g1, g2]
      by_cases h : Near E B (E.types.get t) J nd v
      · rw [if_pos ((g3 _ _ _ _).2 h), if_pos h]
      · rw [if_neg (fun h' => h ((g3 _ _ _ _).1 h')), if_neg h]
    rw [this]
    ring

/-- The same without what is common to all atoms: `f t J l np m` summed over all projectors of
all atoms. -/
noncomputable def allProj (E : Env) (f : Psd → ℕ → ℕ → ℕ → ℤ → 𝕜) : 𝕜 :=
  ∑ t : Fin E.types.length, ∑ J ∈ Ico (off E t) (off E t + (E.types.get t).n),
    ∑ l ∈ (range ((E.types.get t).lmax + 1)).filter (fun l : ℕ => (l : ℤ) ≠ (E.types.get t).lloc),
      ∑ np ∈ range ((E.types.get t).ppl l), ∑ m ∈ Icc (-(l : ℤ)) l, f (E.types.get t) J l np m

/-- `Γ` of a projector. -/
noncomputable def gam (T : Psd) (l np : ℕ) : ℝ := T.gamma (∑ i ∈ range l, T.ppl i + np)

open Classical in
/-- The projector of atom `J` summed over its images. -/
noncomputable def chi (E : Env) (B : Geo) (T : Psd) (J l np : ℕ) (m : ℤ) (n : ℤ × ℤ × ℤ) : ℝ :=
  ∑ᶠ v, if Near E B T J n v then
    proj E T l np m (E.cart (nodePt B n - image B E.pos J v)) else 0

open Classical in
/-- The projector of atom `J` summed over its images with the Bloch phases of the cells. -/
noncomputable def chiK (E : Env) (B : Geo) (k : ℝ × ℝ × ℝ) (T : Psd) (J l np : ℕ) (m : ℤ)
    (n : ℤ × ℤ × ℤ) : ℂ :=
  ∑ᶠ v, if Near E B T J n v then
    Complex.exp (((k.1 * (B.X.L * v.1) + k.2.1 * (B.Y.L * v.2.1) + k.2.2 * (B.Z.L * v.2.2) : ℝ) : ℂ)
      * Complex.I) * (proj E T l np m (E.cart (nodePt B n - image B E.pos J v)) : ℝ) else 0

/-- **The nonlocal operator.**  At every node of every process and for every column,
`Vnl_vec_mult` adds `Σ_J Σ_lm Γ χ_J (χ_J, x)`, whatever the boxes of the processes. -/
theorem vnl_real (S : Setup E P G B grid) (ncol ldi ldo : ℕ) (dV : ℝ)
    (x Hx : ℕ → ℤ → ℝ) (X : ℕ → ℤ × ℤ × ℤ → ℝ)
    (hx : ∀ p < P, ∀ n < ncol, ∀ nd ∈ domain (G p), x p (n * ldi + nodeIdx (G p) nd) = X n nd)
    (p : ℕ) (hp : p < P)
    (hld : ((G p).X.hi - (G p).X.lo + 1) * (((G p).Y.hi - (G p).Y.lo + 1)
      * ((G p).Z.hi - (G p).Z.lo + 1)) ≤ ldo)
    (n : ℕ) (hn : n < ncol) (nd : ℤ × ℤ × ℤ) (hnd : nd ∈ domain (G p)) :
    vnlReal E P G ncol ldi ldo dV x Hx p (n * ldo + nodeIdx (G p) nd)
      = Hx p (n * ldo + nodeIdx (G p) nd) + allProj E fun T J l np m =>
          gam T l np * chi E B T J l np m nd
            * (dV * ∑ nd' ∈ grid, chi E B T J l np m nd' * X n nd') := by
  have h := vnl_apply (𝕜 := ℝ) S ncol ldi ldo (fun _ => 1) dV x Hx X hx p hp hld n hn nd hnd
  have e : ∀ T J l np m n, xi (𝕜 := ℝ) E B (fun _ => star 1) T J l np m n
      = chi E B T J l np m n := by
    intro T J l np m n
    unfold xi chi
    refine finsum_congr fun v => ?_
    simp
  simp only [e] at h
  unfold vnlReal allProj gam
  simpa using h

theorem theta_image (B : Geo) (hL : 0 < B.X.L ∧ 0 < B.Y.L ∧ 0 < B.Z.L) (pos : ℕ → ℝ)
    (k : ℝ × ℝ × ℝ) (J : ℕ) (v : ℤ × ℤ × ℤ) :
    theta (B.X.L, B.Y.L, B.Z.L) k (image B pos J v)
      = theta (B.X.L, B.Y.L, B.Z.L) k (pos (3 * J), pos (3 * J + 1), pos (3 * J + 2))
        - (k.1 * (B.X.L * v.1) + k.2.1 * (B.Y.L * v.2.1) + k.2.2 * (B.Z.L * v.2.2)) := by
  have h : ∀ (x L : ℝ) (m : ℤ), 0 < L → ⌊(x + L * m) / L⌋ = ⌊x / L⌋ + m := by
    intro x L m hL
    rw [add_div, mul_div_cancel_left₀ _ hL.ne', Int.floor_add_intCast]
  unfold theta image
  dsimp only
  rw [h _ _ _ hL.1, h _ _ _ hL.2.1, h _ _ _ hL.2.2]
  push_cast
  ring

theorem phase_eq (t : ℝ) : (Real.cos t : ℂ) + Real.sin t * Complex.I
    = Complex.exp ((t : ℂ) * Complex.I) := by
  rw [Complex.exp_mul_I, Complex.ofReal_cos, Complex.ofReal_sin]

theorem phase_star (t : ℝ) : star (Complex.exp ((t : ℂ) * Complex.I))
    = Complex.exp (((-t : ℝ) : ℂ) * Complex.I) := by
  change (starRingEnd ℂ) _ = _
  rw [← Complex.exp_conj]
  simp

/-- **The nonlocal operator at a k-point.**  As `vnl_real`, the projectors carrying the Bloch
phase of the cell of each image; the phase of the atom's own cell drops out. -/
theorem vnl_kpt (S : Setup E P G B grid) (ncol ldi ldo : ℕ) (dV : ℝ) (k : ℝ × ℝ × ℝ)
    (x Hx : ℕ → ℤ → ℂ) (X : ℕ → ℤ × ℤ × ℤ → ℂ)
    (hx : ∀ p < P, ∀ n < ncol, ∀ nd ∈ domain (G p), x p (n * ldi + nodeIdx (G p) nd) = X n nd)
    (p : ℕ) (hp : p < P)
    (hld : ((G p).X.hi - (G p).X.lo + 1) * (((G p).Y.hi - (G p).Y.lo + 1)
      * ((G p).Z.hi - (G p).Z.lo + 1)) ≤ ldo)
    (n : ℕ) (hn : n < ncol) (nd : ℤ × ℤ × ℤ) (hnd : nd ∈ domain (G p)) :
    vnlKpt E P G ncol ldi ldo dV (B.X.L, B.Y.L, B.Z.L) k x Hx p (n * ldo + nodeIdx (G p) nd)
      = Hx p (n * ldo + nodeIdx (G p) nd) + allProj E fun T J l np m =>
          gam T l np * chiK E B k T J l np m nd
            * (dV * ∑ nd' ∈ grid, star (chiK E B k T J l np m nd') * X n nd') := by
  have hL : 0 < B.X.L ∧ 0 < B.Y.L ∧ 0 < B.Z.L := by
    obtain ⟨s1, s2, s3⟩ := S.same p hp
    obtain ⟨h1, h2, h3⟩ := S.held p hp
    exact ⟨s1.2.1 ▸ h1.L_pos, s2.2.1 ▸ h2.L_pos, s3.2.1 ▸ h3.L_pos⟩
  have h := vnl_apply (𝕜 := ℂ) S ncol ldi ldo
    (fun c => (Real.cos (theta (B.X.L, B.Y.L, B.Z.L) k c) : ℂ)
      + Real.sin (theta (B.X.L, B.Y.L, B.Z.L) k c) * Complex.I) dV x Hx X hx p hp hld n hn nd hnd
  have e : ∀ T J l np m n, xi (𝕜 := ℂ) E B (fun c => star
      ((Real.cos (theta (B.X.L, B.Y.L, B.Z.L) k c) : ℂ)
        + Real.sin (theta (B.X.L, B.Y.L, B.Z.L) k c) * Complex.I)) T J l np m n
      = Complex.exp (((-theta (B.X.L, B.Y.L, B.Z.L) k
          (E.pos (3 * J), E.pos (3 * J + 1), E.pos (3 * J + 2)) : ℝ) : ℂ) * Complex.I)
        * chiK E B k T J l np m n := by
    intro T J l np m n
    unfold xi chiK
    rw [← smul_eq_mul, smul_finsum]
    refine finsum_congr fun v => ?_
    rw [smul_eq_mul, mul_ite, mul_zero]
    by_cases hN : Near E B T J n v
    swap
    · rw [if_neg hN, if_neg hN]
    rw [if_pos hN, if_pos hN]
    dsimp only
    rw [phase_eq, phase_star, theta_image B hL,
      show ∀ a b c : ℂ, a * (b * c) = a * b * c from fun a b c => (mul_assoc a b c).symm,
      ← Complex.exp_add]
    congr 2
    push_cast
    ring
  have hb : (fun c : ℝ × ℝ × ℝ => (Real.cos (theta (B.X.L, B.Y.L, B.Z.L) k c) : ℂ)
      - Real.sin (theta (B.X.L, B.Y.L, B.Z.L) k c) * Complex.I)
      = fun c => star ((Real.cos (theta (B.X.L, B.Y.L, B.Z.L) k c) : ℂ)
        + Real.sin (theta (B.X.L, B.Y.L, B.Z.L) k c) * Complex.I) := by
    funext c
    change _ = (starRingEnd ℂ) _
    rw [map_add, map_mul, Complex.conj_ofReal, Complex.conj_ofReal, Complex.conj_I]
    ring
  unfold vnlKpt
  rw [hb]
  refine h.trans ?_
  unfold allProj gam
  congr 1
  refine Finset.sum_congr rfl fun t _ => Finset.sum_congr rfl fun J _ =>
    Finset.sum_congr rfl fun l _ => Finset.sum_congr rfl fun np _ =>
    Finset.sum_congr rfl fun m _ => ?_
  simp only [e]
  have hu : ∀ s : ℝ, Complex.exp ((s : ℂ) * Complex.I) * star (Complex.exp ((s : ℂ) * Complex.I))
      = 1 := by
    intro s
    rw [phase_star, ← Complex.exp_add]
    push_cast
    rw [show (s : ℂ) * Complex.I + -(s : ℂ) * Complex.I = 0 by ring, Complex.exp_zero]
  have hq := hu (-theta (B.X.L, B.Y.L, B.Z.L) k
          (E.pos (3 * J), E.pos (3 * J + 1), E.pos (3 * J + 2)))
  generalize Complex.exp (((-theta (B.X.L, B.Y.L, B.Z.L) k
          (E.pos (3 * J), E.pos (3 * J + 1), E.pos (3 * J + 2)) : ℝ) : ℂ) * Complex.I) = μ at hq ⊢
  simp only [star_mul', mul_assoc, ← Finset.mul_sum]
  rw [show ∀ a b c d : ℂ, a * (μ * (b * (d * (star μ * c)))) = (μ * star μ) * (a * (b * (d * c)))
    from fun a b c d => by ring, hq, one_mul]
  rfl

/-- **Hermitian.**  The inner product of `y` with the operator applied to `x` is that of the
operator applied to `y` with `x`. -/
theorem vnl_hermitian (S : Setup E P G B grid) (ncol ldi ldo : ℕ) (dV : ℝ) (k : ℝ × ℝ × ℝ)
    (x y : ℕ → ℤ → ℂ) (X Y : ℕ → ℤ × ℤ × ℤ → ℂ)
    (hx : ∀ p < P, ∀ n < ncol, ∀ nd ∈ domain (G p), x p (n * ldi + nodeIdx (G p) nd) = X n nd)
    (hy : ∀ p < P, ∀ n < ncol, ∀ nd ∈ domain (G p), y p (n * ldi + nodeIdx (G p) nd) = Y n nd)
    (hld : ∀ p < P, ((G p).X.hi - (G p).X.lo + 1) * (((G p).Y.hi - (G p).Y.lo + 1)
      * ((G p).Z.hi - (G p).Z.lo + 1)) ≤ ldo)
    (n n' : ℕ) (hn : n < ncol) (hn' : n' < ncol) :
    ∑ p ∈ range P, ∑ nd ∈ domain (G p), star (y p (n' * ldi + nodeIdx (G p) nd)) *
        vnlKpt E P G ncol ldi ldo dV (B.X.L, B.Y.L, B.Z.L) k x (fun _ _ => 0) p
          (n * ldo + nodeIdx (G p) nd)
      = ∑ p ∈ range P, ∑ nd ∈ domain (G p),
        star (vnlKpt E P G ncol ldi ldo dV (B.X.L, B.Y.L, B.Z.L) k y (fun _ _ => 0) p
          (n' * ldo + nodeIdx (G p) nd)) * x p (n * ldi + nodeIdx (G p) nd) := by
  have swap : ∀ (f : Psd → ℕ → ℕ → ℕ → ℤ → ℤ × ℤ × ℤ → ℂ),
      ∑ nd ∈ grid, allProj E (fun T J l np m => f T J l np m nd)
        = allProj E fun T J l np m => ∑ nd ∈ grid, f T J l np m nd := by
    intro f
    unfold allProj
    rw [Finset.sum_comm]
    refine Finset.sum_congr rfl fun t _ => ?_
    rw [Finset.sum_comm]
    refine Finset.sum_congr rfl fun J _ => ?_
    rw [Finset.sum_comm]
    refine Finset.sum_congr rfl fun l _ => ?_
    rw [Finset.sum_comm]
    refine Finset.sum_congr rfl fun np _ => ?_
    rw [Finset.sum_comm]
  have hmul : ∀ (c : ℂ) (f : Psd → ℕ → ℕ → ℕ → ℤ → ℂ),
      c * allProj E f = allProj E fun T J l np m => c * f T J l np m := by
    intro c f
    unfold allProj
    simp only [Finset.mul_sum]
  have hstar : ∀ (f : Psd → ℕ → ℕ → ℕ → ℤ → ℂ),
      star (allProj E f) = allProj E fun T J l np m => star (f T J l np m) := by
    intro f
    unfold allProj
    simp only [star_sum]
  have e1 : ∀ p ∈ range P, ∀ nd ∈ domain (G p), star (y p (n' * ldi + nodeIdx (G p) nd)) *
        vnlKpt E P G ncol ldi ldo dV (B.X.L, B.Y.L, B.Z.L) k x (fun _ _ => 0) p
          (n * ldo + nodeIdx (G p) nd)
      = star (Y n' nd) * allProj E fun T J l np m => gam T l np * chiK E B k T J l np m nd
            * (dV * ∑ nd' ∈ grid, star (chiK E B k T J l np m nd') * X n nd') := by
    intro p hp nd hnd
    rw [Finset.mem_range] at hp
    rw [hy p hp n' hn' nd hnd, vnl_kpt S ncol ldi ldo dV k x _ X hx p hp (hld p hp) n hn nd hnd,
      zero_add]
  have e2 : ∀ p ∈ range P, ∀ nd ∈ domain (G p),
        star (vnlKpt E P G ncol ldi ldo dV (B.X.L, B.Y.L, B.Z.L) k y (fun _ _ => 0) p
          (n' * ldo + nodeIdx (G p) nd)) * x p (n * ldi + nodeIdx (G p) nd)
      = X n nd * allProj E fun T J l np m => star (gam T l np * chiK E B k T J l np m nd
            * (dV * ∑ nd' ∈ grid, star (chiK E B k T J l np m nd') * Y n' nd')) := by
    intro p hp nd hnd
    rw [Finset.mem_range] at hp
    rw [hx p hp n hn nd hnd, vnl_kpt S ncol ldi ldo dV k y _ Y hy p hp (hld p hp) n' hn' nd hnd,
      zero_add, hstar, mul_comm]
  rw [Finset.sum_congr rfl fun p hp => Finset.sum_congr rfl (e1 p hp),
    Finset.sum_congr rfl fun p hp => Finset.sum_congr rfl (e2 p hp),
    grid_sum S.sub S.once, grid_sum S.sub S.once]
  simp only [hmul]
  rw [swap, swap]
  unfold allProj
  refine Finset.sum_congr rfl fun t _ => Finset.sum_congr rfl fun J _ =>
    Finset.sum_congr rfl fun l _ => Finset.sum_congr rfl fun np _ =>
    Finset.sum_congr rfl fun m _ => ?_
  have l1 : ∀ nd ∈ grid, star (Y n' nd) * (gam (E.types.get t) l np
      * chiK E B k (E.types.get t) J l np m nd
      * (dV * ∑ nd' ∈ grid, star (chiK E B k (E.types.get t) J l np m nd') * X n nd'))
      = (gam (E.types.get t) l np * (dV * ∑ nd' ∈ grid,
          star (chiK E B k (E.types.get t) J l np m nd') * X n nd'))
        * (star (Y n' nd) * chiK E B k (E.types.get t) J l np m nd) := fun nd _ => by ring
  have l2 : ∀ nd ∈ grid, X n nd * star (gam (E.types.get t) l np
      * chiK E B k (E.types.get t) J l np m nd
      * (dV * ∑ nd' ∈ grid, star (chiK E B k (E.types.get t) J l np m nd') * Y n' nd'))
      = (gam (E.types.get t) l np * (dV * ∑ nd' ∈ grid,
          star (Y n' nd') * chiK E B k (E.types.get t) J l np m nd'))
        * (star (chiK E B k (E.types.get t) J l np m nd) * X n nd) := by
    intro nd _
    have c1 : ∀ r : ℝ, star (r : ℂ) = r := Complex.conj_ofReal
    simp only [star_mul', star_sum, star_star, c1]
    rw [Finset.sum_congr rfl fun i _ => mul_comm (chiK E B k (E.types.get t) J l np m i) _]
    ring
  refine (Finset.sum_congr rfl l1).trans (Eq.trans ?_ (Finset.sum_congr rfl l2).symm)
  rw [← Finset.mul_sum, ← Finset.mul_sum]
  ring

/-- **Nothing else is touched.**  Entries of `Hx` that belong to no node and column keep their
values. -/
theorem vnl_frame (S : Setup E P G B grid) (ncol ldi ldo : ℕ) (a b : ℝ × ℝ × ℝ → 𝕜)
    (x Hx : ℕ → ℤ → 𝕜) (p : ℕ) (hp : p < P) (y : ℤ)
    (hy : ∀ n < ncol, ∀ nd ∈ domain (G p), y ≠ n * ldo + nodeIdx (G p) nd) :
    vnl E P G ncol ldi ldo a b x Hx p y = Hx p y := by
  unfold vnl
  dsimp only
  rw [scatter_sum]
  refine (congrArg (Hx p y + ·) (zip_sum E.types _ _ (fun _ => 0) fun t => ?_)).trans (by simp)
  have hty : (E.types.map (Psd.toN E.orth))[t.1]? = some ((E.types.get t).toN E.orth) := by
    simp
  obtain ⟨m, recs, hout, hrec⟩ := nloc_record (G := G p) E.dist (S.held p hp).1 (S.held p hp).2.1
    (S.held p hp).2.2 _ E.pos t _ hty
  refine ⟨_, hout, ?_⟩
  dsimp only
  by_cases hz : nproj (E.types.get t) = 0
  · rw [if_pos hz]
  rw [if_neg hz]
  refine List.sum_eq_zero ?_
  intro z hz
  obtain ⟨R, hR, rfl⟩ := List.mem_map.1 hz
  obtain ⟨-, -, -, -, hg⟩ := hrec R hR
  refine List.sum_eq_zero ?_
  intro z hz
  obtain ⟨n, hn, rfl⟩ := List.mem_map.1 hz
  refine List.sum_eq_zero ?_
  intro z hz
  obtain ⟨g, hgm, rfl⟩ := List.mem_map.1 hz
  obtain ⟨nd, hnd, he, -⟩ := hg g hgm
  rw [if_neg]
  rw [he]
  exact hy n (List.mem_range.1 hn) nd hnd

/-- **Bloch condition.**  Moving the node by a lattice vector multiplies the projector with the
phase of that vector, provided distances depend on differences only. -/
theorem chiK_bloch (E : Env) (B : Geo) (k : ℝ × ℝ × ℝ) (T : Psd) (J l np : ℕ) (m : ℤ)
    (n N s : ℤ × ℤ × ℤ)
    (hdist : ∀ p c d : ℝ × ℝ × ℝ, E.dist (p + d) (c + d) = E.dist p c)
    (hX : N.1 * B.X.h = B.X.L) (hY : N.2.1 * B.Y.h = B.Y.L) (hZ : N.2.2 * B.Z.h = B.Z.L)
    (hs : Allowed B s) :
    chiK E B k T J l np m (n.1 + N.1 * s.1, n.2.1 + N.2.1 * s.2.1, n.2.2 + N.2.2 * s.2.2)
      = Complex.exp (((k.1 * (B.X.L * s.1) + k.2.1 * (B.Y.L * s.2.1) + k.2.2 * (B.Z.L * s.2.2) : ℝ)
          : ℂ) * Complex.I) * chiK E B k T J l np m n := by
  unfold chiK
  rw [mul_finsum, ← finsum_comp_equiv (Equiv.addRight s)]
  refine finsum_congr fun v => ?_
  rw [Equiv.coe_addRight, mul_ite, mul_zero]
  have e1 : nodePt B (n.1 + N.1 * s.1, n.2.1 + N.2.1 * s.2.1, n.2.2 + N.2.2 * s.2.2)
      = nodePt B n + (B.X.L * s.1, B.Y.L * s.2.1, B.Z.L * s.2.2) := by
    unfold nodePt
    rw [← hX, ← hY, ← hZ]
    simp only [Prod.mk_add_mk, Prod.mk.injEq]
    push_cast
    refine ⟨by ring, by ring, by ring⟩
  have e2 : image B E.pos J (v + s)
      = image B E.pos J v + (B.X.L * s.1, B.Y.L * s.2.1, B.Z.L * s.2.2) := by
    unfold image
    simp only [Prod.mk_add_mk, Prod.mk.injEq, Prod.fst_add, Prod.snd_add]
    push_cast
    refine ⟨by ring, by ring, by ring⟩
  have hiff : Near E B T J (n.1 + N.1 * s.1, n.2.1 + N.2.1 * s.2.1, n.2.2 + N.2.2 * s.2.2) (v + s)
      ↔ Near E B T J n v := by
    unfold Near
    rw [e1, e2, hdist]
    refine and_congr_left fun _ => ?_
    obtain ⟨s1, s2, s3⟩ := hs
    unfold Allowed
    simp only [Prod.fst_add, Prod.snd_add]
    refine and_congr ?_ (and_congr ?_ ?_)
    · refine forall_congr' fun h => ?_
      rw [s1 h, add_zero]
    · refine forall_congr' fun h => ?_
      rw [s2 h, add_zero]
    · refine forall_congr' fun h => ?_
      rw [s3 h, add_zero]
  by_cases hN : Near E B T J n v
  swap
  · rw [if_neg hN, if_neg (fun h => hN (hiff.1 h))]
  · rw [if_pos hN, if_pos (hiff.2 hN)]
    dsimp only
    rw [e1, e2, add_sub_add_right_eq_sub,
      show ∀ a b c : ℂ, a * (b * c) = a * b * c from fun a b c => (mul_assoc a b c).symm,
      ← Complex.exp_add]
    congr 2
    simp only [Prod.fst_add, Prod.snd_add]
    push_cast
    ring

end

/-! ### A run on two processes -/

/-- One atom at the origin with a local `s` channel and one `p` projector, a hat of radius 1. -/
noncomputable def exE : Env where
  types := [⟨1, 0, fun _ => 1, fun i => i + 1, fun i _ => i + 1, 1, [1], 0, 0, 0⟩]
  pos _ := 0
  orth := true
  dist p c := Real.sqrt ((p.1 - c.1) ^ 2 + (p.2.1 - c.2.1) ^ 2 + (p.2.2 - c.2.2) ^ 2)
  cart := id
  Y _ m _ := m + 2
  interp a _ r := a 0 * max 0 (1 - r)
  fit := id

/-- A direction of four nodes in a periodic cell of length 2, of which `lo … hi` are held. -/
noncomputable def exA (lo hi : ℤ) : Axis := ⟨0, 2, 0, 1 / 2, 4, lo, hi, false, 0⟩

/-- Process 0 holds the first two planes, process 1 the other two. -/
noncomputable def exG (p : ℕ) : Geo := ⟨exA (2 * p) (2 * p + 1), exA 0 3, exA 0 3⟩

theorem exHeld (lo hi : ℤ) (h0 : 0 ≤ lo) (h3 : hi ≤ 3) : HeldN (exA lo hi) := by
  refine ⟨by norm_num [exA], by norm_num [exA], fun _ => ⟨rfl, ?_, ?_⟩⟩
  · simp only [exA]
    have : (0 : ℝ) ≤ lo := by exact_mod_cast h0
    simp
    linarith
  · simp only [exA]
    have : (hi : ℝ) ≤ 3 := by exact_mod_cast h3
    simp
    linarith

example : Setup exE 2 exG ⟨exA 0 3, exA 0 3, exA 0 3⟩ (Icc 0 3 ×ˢ Icc 0 3 ×ˢ Icc 0 3) where
  same := by
    intro p _
    exact ⟨⟨rfl, rfl, rfl, rfl⟩, ⟨rfl, rfl, rfl, rfl⟩, ⟨rfl, rfl, rfl, rfl⟩⟩
  held := by
    intro p hp
    exact ⟨exHeld _ _ (by omega) (by omega), exHeld _ _ le_rfl le_rfl, exHeld _ _ le_rfl le_rfl⟩
  org := ⟨rfl, rfl, rfl⟩
  sub := by
    intro p hp n hn
    simp only [domain, exG, exA, mem_product, mem_Icc] at hn ⊢
    omega
  once := by
    intro n hn
    simp only [domain, exG, exA, mem_product, mem_Icc] at hn ⊢
    refine ⟨(n.1 / 2).toNat, by omega, ?_⟩
    intro q hq
    omega
  nonneg := fun _ _ => Real.sqrt_nonneg _
  box := by
    intro T hT p c h
    simp only [exE, List.mem_singleton] at hT
    subst hT
    have hr : rcMax (Psd.toN true ⟨1, 0, fun _ => 1, fun i => i + 1, fun i _ => i + 1, 1, [1], 0, 0, 0⟩)
        = 1 := by simp [rcMax, Psd.toN]
    have hb : rcbox (Psd.toN true ⟨1, 0, fun _ => 1, fun i => i + 1, fun i _ => i + 1, 1, [1], 0, 0, 0⟩)
        = (1, 1, 1) := by
      unfold rcbox
      rw [if_pos (show (Psd.toN true _).orth = true from rfl), hr]
    change Real.sqrt _ < rcMax (Psd.toN true _) at h
    change _ < (rcbox (Psd.toN true _)).1 ∧ _ < (rcbox (Psd.toN true _)).2.1 ∧
      _ < (rcbox (Psd.toN true _)).2.2
    rw [hr] at h
    rw [hb]
    rw [Real.sqrt_lt' one_pos, one_pow] at h
    refine ⟨?_, ?_, ?_⟩ <;> refine abs_lt_of_sq_lt_sq ?_ zero_le_one <;>
      nlinarith [sq_nonneg (p.1 - c.1), sq_nonneg (p.2.1 - c.2.1), sq_nonneg (p.2.2 - c.2.2)]
  rim := by
    intro T hT l np m p c h
    simp only [exE, List.mem_singleton] at hT
    subst hT
    have hr : rcMax (Psd.toN true ⟨1, 0, fun _ => 1, fun i => i + 1, fun i _ => i + 1, 1, [1], 0, 0, 0⟩)
        = 1 := by simp [rcMax, Psd.toN]
    change Real.sqrt _ = rcMax (Psd.toN true _) at h
    rw [hr] at h
    unfold proj
    simp only [exE, id, Prod.fst_sub, Prod.snd_sub]
    rw [h]
    simp

/-- The projector of that run is not zero. -/
example : chi exE ⟨exA 0 3, exA 0 3, exA 0 3⟩
    ⟨1, 0, fun _ => 1, fun i => i + 1, fun i _ => i + 1, 1, [1], 0, 0, 0⟩ 0 1 0 1 (0, 0, 0)
    = 6 := by
  have hr : rcMax (Psd.toN true ⟨1, 0, fun _ => 1, fun i => i + 1, fun i _ => i + 1, 1, [1], 0, 0, 0⟩)
      = 1 := by simp [rcMax, Psd.toN]
  unfold chi
  rw [finsum_eq_single _ (0, 0, 0)]
  · rw [if_pos]
    · norm_num [proj, exE, nodePt, image, exA]
    · refine ⟨⟨fun h => absurd rfl h, fun h => absurd rfl h, fun h => absurd rfl h⟩, ?_⟩
      change _ < rcMax (Psd.toN true _)
      rw [hr]
      norm_num [exE, nodePt, image, exA]
  · intro v hv
    rw [if_neg]
    rintro ⟨-, h⟩
    change _ < rcMax (Psd.toN true _) at h
    rw [hr] at h
    simp only [exE, nodePt, image, exA] at h
    rw [Real.sqrt_lt' one_pos] at h
    push_cast at h
    have h1 : ((v.1 ^ 2 + v.2.1 ^ 2 + v.2.2 ^ 2 : ℤ) : ℝ) < 1 := by
      push_cast
      nlinarith
    have h2 : v.1 ^ 2 + v.2.1 ^ 2 + v.2.2 ^ 2 < 1 := by exact_mod_cast h1
    have z : v.1 = 0 ∧ v.2.1 = 0 ∧ v.2.2 = 0 := by
      refine ⟨?_, ?_, ?_⟩ <;> nlinarith [sq_nonneg v.1, sq_nonneg v.2.1, sq_nonneg v.2.2]
    exact hv (Prod.ext z.1 (Prod.ext z.2.1 z.2.2))

end Sparc.Nloc

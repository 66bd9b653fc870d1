import Verif.Infl.Model
import Mathlib.Analysis.RCLike.Basic
import Mathlib.Analysis.SpecialFunctions.Trigonometric.Basic

/-!
# Nonlocal pseudopotential (model)

`CalculateNonlocalProjectors`, `CalculateNonlocalInnerProductIndex`, `Vnl_vec_mult` and
`Vnl_vec_mult_kpt`, `/repo/src/nlocVecRoutines.c:394-571, 769-791, 798-883, 889-999`, and the
spline set-up of the projectors, `/repo/src/initialization.c:3485-3495`.  `double` is `ℝ` and
`double _Complex` is `ℂ`; the two operator routines have the same loops and are instances of
one definition over `RCLike`.  Arrays of vectors are functions of the flat position; the
matrix `Chi[iat]` is a function of column and row; BLAS products are the sums they compute.
Spline interpolation and spherical harmonics are parameters.  Cyclix branches are left out.
-/

namespace Sparc.Nloc

open Infl

/-- A tabulated radial function. -/
abbrev Row := ℕ → ℝ

/-- One atom type: `psd[ityp].lmax`, `localPsd[ityp]`, `ppl`, `Gamma`, the rows of `UdV`,
`nAtomv`, `rc` and `CUTOFF_x/y/z`. -/
structure Psd where
  lmax : ℕ
  lloc : ℤ
  ppl : ℕ → ℕ
  gamma : ℕ → ℝ
  udv : ℕ → Row
  n : ℕ
  rcs : List ℝ
  cx : ℝ
  cy : ℝ
  cz : ℝ

/-- What `GetInfluencingAtoms_nloc` reads of a type. -/
def Psd.toN (orth : Bool) (T : Psd) : NTyp := ⟨T.rcs, orth, T.cx, T.cy, T.cz, T.n⟩

/-- `nproj`, nlocVecRoutines.c:440-444 (again 780-784). -/
def nproj (T : Psd) : ℕ :=
  (List.range (T.lmax + 1)).foldl
    (fun s (l : ℕ) => if (l : ℤ) = T.lloc then s else s + T.ppl l * (2 * l + 1)) 0

/-- `SplineFitUdV`, initialization.c:3485-3495; `fit` is `getYD_gen`. -/
def splineFit (fit : Row → Row) (T : Psd) : ℕ → Row :=
  ((List.range (T.lmax + 1)).foldl
    (fun (s : ℕ × ℕ × (ℕ → Row)) (l : ℕ) =>
      if (l : ℤ) = T.lloc then (s.1, s.2.1 + T.ppl l, s.2.2)
      else (List.range (T.ppl l)).foldl
        (fun (s : ℕ × ℕ × (ℕ → Row)) _ =>
          (s.1 + 1, s.2.1 + 1, Function.update s.2.2 s.1 (fit (T.udv s.2.1)))) s)
    (0, 0, fun _ _ => 0)).2.2

/-- The columns of `Chi`, nlocVecRoutines.c:523-559, as functions of the vector from the
image to the node; `Y` is `RealSphericalHarmonic`, `interp` the spline evaluation. -/
noncomputable def columns (Y : ℕ → ℤ → ℝ × ℝ × ℝ → ℝ) (interp : Row → Row → ℝ → ℝ)
    (D : ℕ → Row) (T : Psd) : List (ℝ × ℝ × ℝ → ℝ) :=
  ((List.range (T.lmax + 1)).foldl
    (fun (s : ℕ × ℕ × List (ℝ × ℝ × ℝ → ℝ)) (l : ℕ) =>
      if (l : ℤ) = T.lloc then (s.1, s.2.1 + T.ppl l, s.2.2)
      else (List.range (T.ppl l)).foldl
        (fun (s : ℕ × ℕ × List (ℝ × ℝ × ℝ → ℝ)) _ =>
          (s.1 + 1, s.2.1 + 1,
            (irange (-(l : ℤ)) l).foldl
              (fun cols m => cols ++ [fun d => Y l m d *
                interp (T.udv s.2.1) (D s.1) (Real.sqrt (d.1 ^ 2 + d.2.1 ^ 2 + d.2.2 ^ 2))])
              s.2.2)) s)
    (0, 0, [])).2.2

/-- `IP_displ`, nlocVecRoutines.c:773-790, as a list starting with its entry 0. -/
def ipDispl (types : List Psd) : List ℕ :=
  types.foldl (fun d T =>
    (List.range T.n).foldl (fun d _ => d ++ [d.getLastD 0 + nproj T]) d) [0]

/-- The vector from the image to a stored node: nlocVecRoutines.c:466-475 (orthogonal, `cart`
the identity) and 481-491 (`cart` is `nonCart2Cart_coord`). -/
noncomputable def rel (G : Geo) (cart : ℝ × ℝ × ℝ → ℝ × ℝ × ℝ) (R : NRec) (g : ℤ) :
    ℝ × ℝ × ℝ :=
  let v := decode G g
  cart (v.1 * G.X.h - R.x, v.2.1 * G.Y.h - R.y, v.2.2 * G.Z.h - R.z)

variable {𝕜 : Type} [RCLike 𝕜]

/-- One `gemm` of the inner products, nlocVecRoutines.c:812-827 and 911-937: the block at
`IP_displ[atom_index]*ncol` gets `a * Chi^T * x_rc` added, entry `n*nproj + c`. -/
noncomputable def gatherRec (G : Geo) (cart : ℝ × ℝ × ℝ → ℝ × ℝ × ℝ)
    (cols : List (ℝ × ℝ × ℝ → ℝ)) (displ : List ℕ) (np ncol ldi : ℕ) (a : ℝ × ℝ × ℝ → 𝕜)
    (x : ℤ → 𝕜) (alpha : ℕ → 𝕜) (R : NRec) : ℕ → 𝕜 :=
  let off := displ.getD R.idx 0 * ncol
  fun q =>
    if off ≤ q ∧ q < off + np * ncol then
      let c := (q - off) % np
      let n := (q - off) / np
      alpha q + a (R.x, R.y, R.z) *
        (R.gpos.map fun g => ((cols.getD c (fun _ => 0) (rel G cart R g) : ℝ) : 𝕜)
          * x (n * ldi + g)).sum
    else alpha q

/-- The inner products of one process, nlocVecRoutines.c:804-831 and 907-941. -/
noncomputable def gather (G : Geo) (cart : ℝ × ℝ × ℝ → ℝ × ℝ × ℝ)
    (cols : Psd → List (ℝ × ℝ × ℝ → ℝ)) (types : List Psd) (out : List NOut) (displ : List ℕ)
    (ncol ldi : ℕ) (a : ℝ × ℝ × ℝ → 𝕜) (x : ℤ → 𝕜) : ℕ → 𝕜 :=
  (types.zip out).foldl
    (fun alpha To =>
      if nproj To.1 = 0 then alpha
      else To.2.recs.foldl
        (gatherRec G cart (cols To.1) displ (nproj To.1) ncol ldi a x) alpha)
    (fun _ => 0)

/-- Multiplication with `Gamma`, nlocVecRoutines.c:841-863 and 951-973. -/
noncomputable def scale (types : List Psd) (ncol : ℕ) (alpha : ℕ → 𝕜) : ℕ → 𝕜 :=
  (types.foldl
    (fun (s : ℕ × (ℕ → 𝕜)) T =>
      (List.range T.n).foldl (fun s _ =>
        (List.range ncol).foldl (fun s _ =>
          ((List.range (T.lmax + 1)).foldl
            (fun (u : ℕ × ℕ × (ℕ → 𝕜)) (l : ℕ) =>
              if (l : ℤ) = T.lloc then (u.1 + T.ppl l, u.2)
              else
                let u' := (List.range (T.ppl l)).foldl
                  (fun (u' : ℕ × (ℕ → 𝕜)) np =>
                    (irange (-(l : ℤ)) l).foldl
                      (fun (u' : ℕ × (ℕ → 𝕜)) _ =>
                        (u'.1 + 1, Function.update u'.2 u'.1
                          (u'.2 u'.1 * ((T.gamma (u.1 + np) : ℝ) : 𝕜)))) u') u.2
                (u.1 + T.ppl l, u'))
            (0, s)).2) s) s)
    (0, alpha)).2

/-- One record of the expansion, nlocVecRoutines.c:869-880 and 979-995: `Vnlx = b * Chi * alpha`
is added to the columns of `Hx` at the stored nodes. -/
noncomputable def scatterRec (G : Geo) (cart : ℝ × ℝ × ℝ → ℝ × ℝ × ℝ)
    (cols : List (ℝ × ℝ × ℝ → ℝ)) (displ : List ℕ) (np ncol ldo : ℕ) (b : ℝ × ℝ × ℝ → 𝕜)
    (alpha : ℕ → 𝕜) (Hx : ℤ → 𝕜) (R : NRec) : ℤ → 𝕜 :=
  let off := displ.getD R.idx 0 * ncol
  (List.range ncol).foldl (fun (Hx : ℤ → 𝕜) (n : ℕ) =>
    R.gpos.foldl (fun (Hx : ℤ → 𝕜) (g : ℤ) =>
      Function.update Hx (n * ldo + g) (Hx (n * ldo + g) +
        b (R.x, R.y, R.z) * ((List.range np).map fun c =>
          ((cols.getD c (fun _ => 0) (rel G cart R g) : ℝ) : 𝕜) * alpha (off + n * np + c)).sum))
      Hx) Hx

/-- The expansion on one process, nlocVecRoutines.c:866-881 and 976-997. -/
noncomputable def scatter (G : Geo) (cart : ℝ × ℝ × ℝ → ℝ × ℝ × ℝ)
    (cols : Psd → List (ℝ × ℝ × ℝ → ℝ)) (types : List Psd) (out : List NOut) (displ : List ℕ)
    (ncol ldo : ℕ) (b : ℝ × ℝ × ℝ → 𝕜) (alpha : ℕ → 𝕜) (Hx : ℤ → 𝕜) : ℤ → 𝕜 :=
  (types.zip out).foldl
    (fun Hx To =>
      if nproj To.1 = 0 then Hx
      else To.2.recs.foldl
        (scatterRec G cart (cols To.1) displ (nproj To.1) ncol ldo b alpha) Hx) Hx

/-- What all processes of a run share. -/
structure Env where
  types : List Psd
  pos : ℕ → ℝ
  orth : Bool
  dist : ℝ × ℝ × ℝ → ℝ × ℝ × ℝ → ℝ
  cart : ℝ × ℝ × ℝ → ℝ × ℝ × ℝ
  Y : ℕ → ℤ → ℝ × ℝ × ℝ → ℝ
  interp : Row → Row → ℝ → ℝ
  fit : Row → Row

/-- The columns of a type, with the spline derivatives of the set-up. -/
noncomputable def Env.cols (E : Env) (T : Psd) : List (ℝ × ℝ × ℝ → ℝ) :=
  columns E.Y E.interp (splineFit E.fit T) T

/-- The records of one process. -/
noncomputable def Env.out (E : Env) (G : Geo) : List NOut :=
  (influenceN G E.dist (E.types.map (Psd.toN E.orth)) E.pos).out

/-- `Vnl_vec_mult(_kpt)` on the processes `G 0 … G (P-1)` with weights `a` for the inner
products and `b` for the expansion; the reduction is skipped for one process. -/
noncomputable def vnl (E : Env) (P : ℕ) (G : ℕ → Geo) (ncol ldi ldo : ℕ)
    (a b : ℝ × ℝ × ℝ → 𝕜) (x Hx : ℕ → ℤ → 𝕜) (p : ℕ) : ℤ → 𝕜 :=
  let displ := ipDispl E.types
  let alpha (p : ℕ) : ℕ → 𝕜 := gather (G p) E.cart E.cols E.types (E.out (G p)) displ ncol ldi a (x p)
  let sum : ℕ → 𝕜 := if P > 1 then fun q => ((List.range P).map fun p => alpha p q).sum
    else alpha p
  scatter (G p) E.cart E.cols E.types (E.out (G p)) displ ncol ldo b (scale E.types ncol sum)
    (Hx p)

/-- `Vnl_vec_mult`, nlocVecRoutines.c:798-883: weights `dV` and 1. -/
noncomputable def vnlReal (E : Env) (P : ℕ) (G : ℕ → Geo) (ncol ldi ldo : ℕ) (dV : ℝ)
    (x Hx : ℕ → ℤ → ℝ) (p : ℕ) : ℤ → ℝ :=
  vnl E P G ncol ldi ldo (fun _ => dV) (fun _ => 1) x Hx p

/-- `theta`, nlocVecRoutines.c:914 and 982. -/
noncomputable def theta (L k : ℝ × ℝ × ℝ) (c : ℝ × ℝ × ℝ) : ℝ :=
  -k.1 * (⌊c.1 / L.1⌋ * L.1) - k.2.1 * (⌊c.2.1 / L.2.1⌋ * L.2.1) - k.2.2 * (⌊c.2.2 / L.2.2⌋ * L.2.2)

/-- `Vnl_vec_mult_kpt`, nlocVecRoutines.c:889-999: weights `bloch_fac * dV` with
`cos(theta) + sin(theta)*I` (915, 919) and `cos(theta) - sin(theta)*I` (983). -/
noncomputable def vnlKpt (E : Env) (P : ℕ) (G : ℕ → Geo) (ncol ldi ldo : ℕ) (dV : ℝ)
    (L k : ℝ × ℝ × ℝ) (x Hx : ℕ → ℤ → ℂ) (p : ℕ) : ℤ → ℂ :=
  vnl E P G ncol ldi ldo
    (fun c => ((Real.cos (theta L k c) : ℂ) + Real.sin (theta L k c) * Complex.I) * dV)
    (fun c => (Real.cos (theta L k c) : ℂ) - Real.sin (theta L k c) * Complex.I) x Hx p

end Sparc.Nloc

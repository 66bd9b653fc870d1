import Verif.Pres.Model
import Verif.Nloc.Model

/-! # Spin-orbit coupling: the projectors and the operator

Model of spinOrbitCoupling.c and of the part of hamiltonianVecRoutines.c that applies the
nonlocal pseudopotential to two-component orbitals.

Simplifications: real numbers for `double`, `RCLike` numbers for `double _Complex`; matrices are
functions of row and column; `MPI_Allreduce` is the sum over the processes of the domain
communicator; cyclix cells (`CyclixFlag`) are left out.  Only types with spin-orbit data are
considered: readfiles.c:2311-2323 stops if some types have it and others do not. -/

namespace Sparc.Soc

open Pres Nloc

/-! ### Projectors -/

/-- A projector as a function of the vector from the image to the node. -/
abbrev Col (𝕜 : Type) := ℝ × ℝ × ℝ → 𝕜

variable {𝕜 : Type} [RCLike 𝕜]

/-- `SplineFitUdV_soc`, initialization.c:3505-3516; `fit` is `getYD_gen` and `udv` the rows of
`UdV_soc`. -/
def splineFit (fit : Row → Row) (udv : ℕ → Row) (T : Typ) : ℕ → Row :=
  ((List.range' 1 T.lmax).foldl
    (fun (s : ℕ × ℕ × (ℕ → Row)) (l : ℕ) =>
      if (l : ℤ) = T.lloc then (s.1, s.2.1 + T.pplSoc (l - 1), s.2.2)
      else (List.range (T.pplSoc (l - 1))).foldl
        (fun (s : ℕ × ℕ × (ℕ → Row)) _ =>
          (s.1 + 1, s.2.1 + 1, Function.update s.2.2 s.1 (fit (udv s.2.1)))) s)
    (0, 0, fun _ _ => 0)).2.2

/-- The columns of `Chiso`, spinOrbitCoupling.c:178-212; `Y` is `ComplexSphericalHarmonic` and
`interp` the spline evaluation. -/
noncomputable def columns (Y : ℕ → ℤ → Col 𝕜) (interp : Row → Row → ℝ → ℝ) (udv D : ℕ → Row)
    (T : Typ) : List (Col 𝕜) :=
  ((List.range' 1 T.lmax).foldl
    (fun (s : ℕ × ℕ × List (Col 𝕜)) (l : ℕ) =>
      if (l : ℤ) = T.lloc then (s.1, s.2.1 + T.pplSoc (l - 1), s.2.2)
      else (List.range (T.pplSoc (l - 1))).foldl
        (fun (s : ℕ × ℕ × List (Col 𝕜)) _ =>
          (s.1 + 1, s.2.1 + 1,
            (List.range (2 * l + 1)).foldl
              (fun cols (i : ℕ) => cols ++ [fun d => Y l ((i : ℤ) - l) d *
                ((interp (udv s.2.1) (D s.1)
                  (Real.sqrt (d.1 ^ 2 + d.2.1 ^ 2 + d.2.2 ^ 2)) : ℝ) : 𝕜)])
              s.2.2)) s)
    (0, 0, [])).2.2

/-- One of the three loops of `CreateChiSOMatrix`, spinOrbitCoupling.c:284-305, 307-327 and
329-349: `count1` runs over the columns of `Chiso`, those with `m = out l` are passed over. -/
def extract {β : Type} (out : ℕ → ℤ) (T : Typ) (C : ℕ → β) : List β :=
  ((List.range' 1 T.lmax).foldl (fun (s : ℕ × List β) (l : ℕ) =>
    if (l : ℤ) = T.lloc then s
    else (List.range (T.pplSoc (l - 1))).foldl (fun (s : ℕ × List β) _ =>
      (List.range (2 * l + 1)).foldl (fun (s : ℕ × List β) (i : ℕ) =>
        if (i : ℤ) - l = out l then (s.1 + 1, s.2) else (s.1 + 1, s.2 ++ [C s.1])) s) s)
    (0, [])).2

/-- `Chisowt0`, `Chisowtl` and `Chisowtnl`. -/
def wt0 {β : Type} (T : Typ) (C : ℕ → β) : List β := extract (fun _ => 0) T C
@[inherit_doc wt0]
def wtl {β : Type} (T : Typ) (C : ℕ → β) : List β := extract (fun l => l) T C
@[inherit_doc wt0]
def wtnl {β : Type} (T : Typ) (C : ℕ → β) : List β := extract (fun l => -(l : ℤ)) T C

/-! ### The operator -/

/-- The matrix used for the inner products: nlocVecRoutines.c:935-937 (`Chi_c`),
spinOrbitCoupling.c:438-440 (`Chisowt0`), 536 (by spinor). -/
def chiIn (o : Opt) (s : ℕ) (I : NImg 𝕜) : ℕ → ℕ → 𝕜 :=
  match o with
  | .SC => I.chi
  | .SO1 => I.so0
  | .SO2 => if s = 0 then I.sonl else I.sol

/-- The matrix used to go back to the grid: nlocVecRoutines.c:988, spinOrbitCoupling.c:494,
610. -/
def chiOut (o : Opt) (s : ℕ) (I : NImg 𝕜) : ℕ → ℕ → 𝕜 :=
  match o with
  | .SC => I.chi
  | .SO1 => I.so0
  | .SO2 => if s = 0 then I.sol else I.sonl

/-- `CblasTrans` in nlocVecRoutines.c:935, `CblasConjTrans` in spinOrbitCoupling.c:438 and 565. -/
noncomputable def entry (o : Opt) (c : 𝕜) : 𝕜 := if o = .SC then c else (starRingEnd 𝕜) c

/-- The inner products on one process, nlocVecRoutines.c:908-941, spinOrbitCoupling.c:411-444 and
534-571; `off` is the offset of the pointer `x`. -/
noncomputable def gather (N : NEnv) (dV : ℝ) (kv : ℝ × ℝ × ℝ) (ncol ldi off : ℕ) (o : Opt) (s : ℕ)
    (D : PDom 𝕜) (x : ℕ → 𝕜) : ℕ → 𝕜 :=
  D.imgs.zipIdx.foldl (fun m (li : List (NImg 𝕜) × ℕ) =>
    if N.nproj o li.2 = 0 then m
    else li.1.foldl (fun m (I : NImg 𝕜) => (List.range ncol).foldl (fun m n =>
      (List.range (N.nproj o li.2)).foldl (fun m p =>
        addAt m (N.ip o I.atom * ncol + (n * N.nproj o li.2 + p))
          (bloch N.L kv I.R * (dV : 𝕜) * ((List.range I.ndc).map fun i =>
            entry o (chiIn o s I i p) * x (off + (n * ldi + I.pos i))).sum)) m) m) m)
    (fun _ => 0)

/-- The factor of an inner product, nlocVecRoutines.c:966, spinOrbitCoupling.c:453 and 471, 598. -/
noncomputable def factor (o : Opt) (T : Typ) (s ld np l : ℕ) (m : ℤ) : ℝ :=
  match o with
  | .SC => T.gam (ld + np)
  | .SO1 => (if s = 0 then 1.0 else -1.0) * 0.5 * m * T.gamSoc (ld + np)
  | .SO2 => 0.5 * Real.sqrt ((l * (l + 1) : ℤ) - m * (m + 1) : ℤ) * T.gamSoc (ld + np)

/-- The values of `m` that are passed over: none, spinOrbitCoupling.c:470, 596. -/
def skipped (o : Opt) (l : ℕ) (m : ℤ) : Bool :=
  match o with
  | .SC => false
  | .SO1 => m = 0
  | .SO2 => m = l

/-- Multiplication with the coefficients, nlocVecRoutines.c:951-973, spinOrbitCoupling.c:455-479
and 581-605; the state of the loop over `l` is `ldispl`, `count` and `alpha`. -/
noncomputable def scale (N : NEnv) (ncol : ℕ) (o : Opt) (s : ℕ) (al : ℕ → 𝕜) : ℕ → 𝕜 :=
  let l0 := if o = .SC then 0 else 1
  let ppl := fun (T : Typ) (l : ℕ) => if o = .SC then T.ppl l else T.pplSoc (l - 1)
  (N.Ts.foldl (fun (st : ℕ × (ℕ → 𝕜)) T => (List.range T.n).foldl (fun (st : ℕ × (ℕ → 𝕜)) _ =>
    (List.range ncol).foldl (fun (st : ℕ × (ℕ → 𝕜)) _ =>
      ((List.range' l0 (T.lmax + 1 - l0)).foldl (fun (u : ℕ × ℕ × (ℕ → 𝕜)) (l : ℕ) =>
        if (l : ℤ) = T.lloc then (u.1 + ppl T l, u.2)
        else (u.1 + ppl T l, (List.range (ppl T l)).foldl (fun (v : ℕ × (ℕ → 𝕜)) np =>
          (List.range (2 * l + 1)).foldl (fun (v : ℕ × (ℕ → 𝕜)) (i : ℕ) =>
            if skipped o l ((i : ℤ) - l) then v
            else (v.1 + 1, Function.update v.2 v.1
              (v.2 v.1 * ((factor o T s u.1 np l ((i : ℤ) - l) : ℝ) : 𝕜)))) v) u.2))
        (0, st)).2) st) st) (0, al)).2

/-- Back to the grid, nlocVecRoutines.c:976-997, spinOrbitCoupling.c:482-503 and 608-630; `off`
is the offset of the pointer `Hx`. -/
noncomputable def scatter (N : NEnv) (kv : ℝ × ℝ × ℝ) (ncol ldo off : ℕ) (o : Opt) (s : ℕ)
    (D : PDom 𝕜) (al : ℕ → 𝕜) (Hx : ℕ → 𝕜) : ℕ → 𝕜 :=
  D.imgs.zipIdx.foldl (fun H (li : List (NImg 𝕜) × ℕ) =>
    if N.nproj o li.2 = 0 then H
    else li.1.foldl (fun H (I : NImg 𝕜) => (List.range ncol).foldl (fun H n =>
      (List.range I.ndc).foldl (fun H i =>
        addAt H (off + (n * ldo + I.pos i))
          (blochC N.L kv I.R * ((List.range (N.nproj o li.2)).map fun p =>
            chiOut o s I i p * al (N.ip o I.atom * ncol + (n * N.nproj o li.2 + p))).sum)) H) H) H)
    Hx

/-- The loop over the spinor components, hamiltonianVecRoutines.c:191-221, on process `D`: the
vector `x` of every process is read, `ldi` and `ldo` are the leading dimensions on a process. -/
noncomputable def vnl (N : NEnv) (dV : ℝ) (kv : ℝ × ℝ × ℝ) (soc : Bool) (nsp ncol : ℕ)
    (ldi ldo : PDom 𝕜 → ℕ) (doms : List (PDom 𝕜)) (x : PDom 𝕜 → ℕ → 𝕜) (D : PDom 𝕜)
    (Hx : ℕ → 𝕜) : ℕ → 𝕜 :=
  (List.range nsp).foldl (fun H s => (opts soc).foldl (fun H o =>
    let from_ := if o = .SO2 then 1 - s else s
    scatter N kv ncol (ldo D) (s * D.nd) o s D
      (scale N ncol o s ((doms.map fun D' =>
        gather N dV kv ncol (ldi D') (from_ * D'.nd) o s D' (x D')).sum)) H) H) Hx

end Sparc.Soc

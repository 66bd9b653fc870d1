import Mathlib.Data.Real.Basic

/-!
# Training set of the machine-learned force field (model)

Sparsification: `/repo/src/mlff/regression.c:41-136`, `/repo/src/mlff/sparsification.c:42-112`,
`/repo/src/mlff/tools_mlff.c:111-148`, `/repo/src/mlff/covariance_matrix.c:1394-1430`.  Distribution of atoms:
`/repo/src/mlff/sparc_mlff_interface.c:783-859`.  Removal of a structure: `covariance_matrix.c:1352-1383`.
Exact arithmetic; the kernel and LAPACK's eigensolver are one parameter.
-/

namespace Sparc.Train

/-- `x[i] = v`. -/
def upd {α : Type} (x : ℕ → α) (i : ℕ) (v : α) : ℕ → α := fun k => if k = i then v else x k

/-- The fields of `MLFF_Obj` that sparsification touches. -/
structure Train where
  ncols : ℕ
  nrows : ℕ
  sizeX : ℕ
  /-- `K_train[row][col]`. -/
  K : ℕ → ℕ → ℝ
  /-- `X3_traindataset[col][component]`. -/
  X3 : ℕ → ℕ → ℝ
  /-- `natm_typ_train[col]`. -/
  typ : ℕ → ℕ
  /-- `natm_train_elemwise[element]`. -/
  cnt : ℕ → ℤ
  /-- `natm_train_total`. -/
  total : ℤ

/-- `for (i = c; i < n-1; i++) a[i] = a[i+1];`. -/
def shift {α : Type} (a : ℕ → α) (c n : ℕ) : ℕ → α :=
  (List.range' c (n - 1 - c)).foldl (fun a i => upd a i (a (i + 1))) a

/-- `remove_train_cols`, covariance_matrix.c:1394-1430.  The loops over rows and components act on each row
and component separately. -/
def removeCol (T : Train) (c : ℕ) : Train :=
  let K := fun j => if j < T.nrows then upd (shift (T.K j) c T.ncols) (T.ncols - 1) 0 else T.K j
  let X3 := fun i k => if k < T.sizeX then
    upd (shift (fun i => T.X3 i k) c T.ncols) (T.ncols - 1) 0 i else T.X3 i k
  let e := T.typ c
  { T with
    K := K
    X3 := X3
    cnt := fun x => if x = e then T.cnt x - 1 else T.cnt x
    total := T.total - 1
    typ := shift T.typ c T.ncols
    ncols := T.ncols - 1 }

/-! ## Choice of the columns to keep -/

open Classical in
/-- Number of small eigenvalues, sparsification.c:81-87 (`N_low_min` is zero, regression.c:85). -/
noncomputable def nLow (n : ℕ) (w : ℕ → ℝ) : ℕ :=
  (List.range n).foldl (fun c i => if w i < 1 / 10 ^ 10 then c + 1 else c) 0

open Classical in
/-- Scores `w1`, sparsification.c:91-98; `V` is the row-major matrix of eigenvectors. -/
noncomputable def score (n : ℕ) (w V : ℕ → ℝ) (i : ℕ) : ℝ :=
  (List.range n).foldl (fun s j => if w j < 1 / 10 ^ 10 then s + 1 / (nLow n w : ℝ) * V (i * n + j) * V (i * n + j) else s) 0

open Classical in
/-- `smallest`, tools_mlff.c:111-125. -/
noncomputable def smallest (a : ℕ → ℝ) (n : ℕ) : ℝ :=
  (List.range' 1 (n - 1)).foldl (fun m i => if a i < m then a i else m) (a 0)

open Classical in
/-- `lin_search_double`, tools_mlff.c:141-148; `none` stands for `-1`. -/
noncomputable def search (a : ℕ → ℝ) (n : ℕ) (x : ℝ) : Option ℕ := (List.range n).find? fun i => a i = x

/-- The picking loop, sparsification.c:103-109: `k` picks; `none` if `w1[-1]` is written. -/
noncomputable def pick (n : ℕ) : ℕ → (ℕ → ℝ) → Option (List ℕ)
  | 0, _ => some []
  | k + 1, a => (search a n (smallest a n)).bind fun i => (pick n k (upd a i (10 ^ 10))).map fun l => i :: l

/-! ## Sparsification -/

/-- One element of `CUR_sparsify_before_training`, regression.c:61-134; `solver` gives eigenvalues and
eigenvectors of the kernel matrix of the descriptors.  `none` for the two `exit`s and for writes outside
arrays. -/
noncomputable def elemStep (solver : List (ℕ → ℝ) → (ℕ → ℝ) × (ℕ → ℝ)) (e : ℕ) (T : Train) : Option Train :=
  let org := (List.range T.total.toNat).filter fun j => T.typ j = e
  if (org.length : ℤ) ≠ T.cnt e then none
  else
    let n := org.length
    let s := solver (org.map fun j k => if k < T.sizeX then T.X3 j k else 0)
    (pick n (n - nLow n s.1) (score n s.1 s.2)).bind fun high =>
      let cols := (List.range n).filterMap fun l => if l ∈ high then none else org[l]?
      if (cols.length : ℤ) ≠ T.cnt e - high.length then none
      else some ((List.range cols.length).foldl (fun T k => removeCol T (cols.getD k 0 - k)) T)

/-- The loop over the elements, regression.c:61. -/
noncomputable def sparsify (solver : List (ℕ → ℝ) → (ℕ → ℝ) × (ℕ → ℝ)) : ℕ → Train → Option Train
  | 0, T => some T
  | e + 1, T => (sparsify solver e T).bind fun T => elemStep solver e T

/-! ## Distribution of the atoms -/

/-- `natom_procs[i]`, sparc_mlff_interface.c:838-845. -/
def natomProc (natom np i : ℕ) : ℕ := if i < natom % np then natom / np + 1 else natom / np

/-- `el_idx_global`, sparc_mlff_interface.c:829-837; `none` if it is filled beyond its length. -/
def elGlobal (natom : ℕ) (nAtomv : List ℕ) : Option (List ℕ) :=
  let l := nAtomv.zipIdx.flatMap fun t => List.replicate t.1 t.2
  if l.length ≤ natom then some l else none

/-- `get_domain_decompose_mlff_idx`, sparc_mlff_interface.c:817-859: atoms and elements of a rank. -/
def decompose (natom : ℕ) (nAtomv : List ℕ) (np rank : ℕ) : Option (List (ℕ × ℕ)) :=
  (elGlobal natom nAtomv).bind fun el =>
    let strt := (List.range rank).foldl (fun s i => s + natomProc natom np i) 0
    (List.range (natomProc natom np rank)).mapM fun i => (el[strt + i]?).map fun e => (strt + i, e)

/-! ## Removal of a structure -/

/-- The row part of `remove_str_rows`, covariance_matrix.c:1352-1383: `lens` are the numbers of rows of the
structures, `b` stands for `b_no_norm` and for every column of `K_train`. -/
def removeStr (lens : List ℕ) (s : ℕ) (b : ℕ → ℝ) : ℕ → ℝ :=
  let start := (lens.take s).sum
  let del := lens.getD s 0
  let n := lens.sum
  let b := (List.range' start del).foldl (fun b i => upd b i (b (i + del))) b
  (List.range' (n - del) del).foldl (fun b i => upd b i 0) b

end Sparc.Train

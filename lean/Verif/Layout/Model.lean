import Verif.Loop
import Verif.Block.Model
import Verif.Groups.Model
import Verif.Grid.Model
import Verif.D2D.Model

/-!
# Conversions of data layouts (model)

* `Row2Col`, `Col2Row`, `copy_mat_blk`, `cart_to_block_dp`, `block_dp_to_cart` of `/repo/src/tools.c`;
* `init_DP_CheFSI` (`/repo/src/eigenSolver.c`), `BP2DP` and `DP2BP` (`/repo/src/parallelization.c`);
* `parallel_info_dp2bp` and the data movement of `poissonSolve` (`/repo/src/xc/exx/exactExchange.c`).

Arrays are total functions on element indices (the code's `unit_size` only scales addresses).  All
processes of a communicator run the same code, so a collective step is a function of the family of
local arrays.  `none` stands for undefined behaviour or an MPI error.
-/

namespace Sparc.Layout

open Loop

/-! ### Row2Col and Col2Row -/

/-- `memcpy(a + d, a + s, n)` within one array; overlapping regions are undefined behaviour. -/
def memcpyIn {α : Type} (m : ℕ → α) (d s n : ℕ) : Option (ℕ → α) :=
  if n = 0 ∨ s + n ≤ d ∨ d + n ≤ s then
    some fun x => if d ≤ x ∧ x < d + n then m (s + (x - d)) else m x
  else none

/-- `memcpy(a + d, b + s, n)` from another array. -/
def memcpyFrom {α : Type} (m : ℕ → α) (d : ℕ) (b : ℕ → α) (s n : ℕ) : ℕ → α :=
  fun x => if d ≤ x ∧ x < d + n then b (s + (x - d)) else m x

/-- `Row2Col`, tools.c:2917-2935.  With no columns the size of the temporary is negative. -/
def row2col {α : Type} (nrow ncol : ℕ) (a : ℕ → α) : Option (ℕ → α) :=
  if ncol = 0 then none
  else do
    let full := nrow * ncol
    let b : ℕ → α := fun x => a (full + x)
    let m ← (List.range (ncol - 1)).foldlM (fun m t =>
      let i := ncol - 1 - t
      memcpyIn m (2 * i * nrow) (i * nrow) nrow) a
    pure ((List.range (ncol - 1)).foldl (fun m i =>
      memcpyFrom m ((2 * i + 1) * nrow) b (i * nrow) nrow) m)

/-- `Col2Row`, tools.c:2946-2968. -/
def col2row {α : Type} (nrow ncol : ℕ) (a : ℕ → α) : Option (ℕ → α) :=
  if ncol = 0 then none
  else do
    let full := nrow * ncol
    let b : ℕ → α := fun x => a (full + x)
    let m ← (List.range (ncol - 1)).foldlM (fun m t =>
      let i := t + 1
      memcpyIn m (i / 2 * nrow + i % 2 * full) (i * nrow) nrow) a
    pure ((List.range (ncol - 1)).foldl (fun m i =>
      memcpyFrom m ((i + ncol) / 2 * nrow + (i + ncol) % 2 * full) b (i * nrow) nrow) m)

/-! ### Tables and collective exchange -/

/-- Displacements from counts: `d[0] = 0`, `d[i+1] = d[i] + c[i]`. -/
def cum (c : ℕ → ℕ) : ℕ → ℕ
  | 0 => 0
  | n + 1 => cum c n + c n

/-- `MPI_Alltoallv` among `P` processes.  Counts that do not match are an MPI error. -/
def alltoallv {α : Type} (P : ℕ) (scnt sdis rcnt rdis : ℕ → ℕ → ℕ) (send recv : ℕ → ℕ → α) :
    Option (ℕ → ℕ → α) :=
  if ∀ p < P, ∀ i < P, scnt i p = rcnt p i then
    some fun p => fill ((List.range P).flatMap fun i => (List.range (rcnt p i)).map fun j => (i, j))
      (fun t => rdis p t.1 + t.2) (fun t => send t.1 (sdis t.1 p + t.2)) (recv p)
  else none

/-- `copy_mat_blk`, tools.c:2998-3020; `so` and `d0` are the offsets of the two corners. -/
def copyMatBlk {α : Type} (src : ℕ → α) (so lds nrow ncol : ℕ) (dst : ℕ → α) (d0 ldd : ℕ) : ℕ → α :=
  fill ((List.range ncol).flatMap fun c => (List.range nrow).map fun r => (c, r))
    (fun t => d0 + t.1 * ldd + t.2) (fun t => src (so + t.1 * lds + t.2)) dst

/-! ### Band parallelisation and domain parallelisation -/

/-- `calc_block_spos` for `iblk ≤ nblk`, eigenSolver.c:801-809. -/
def spos (len nblk i : ℕ) : ℕ :=
  if i < len % nblk then (len / nblk + 1) * i else len / nblk * i + len % nblk

/-- Parameters: processes of `blacscomm`, `Nd_bp`, leading dimension `Ndsp_bp`, `Nstates`. -/
structure BD where
  (P Nd lds Ns : ℕ)

/-- `Ns_bp` of process `p`, eigenSolver.c:840 (`band_end_indx - band_start_indx + 1`). -/
def BD.ns (B : BD) (p : ℕ) : ℕ := Groups.bandCount B.Ns B.P p

/-- `Ns_bp_displs`, eigenSolver.c:846-852. -/
def BD.nsDispls (B : BD) (i : ℕ) : ℕ := if i = B.P then B.Ns else Groups.bandStart B.Ns B.P i

/-- `Nd_dp_displs`, eigenSolver.c:855-858. -/
def BD.ndDispls (B : BD) (i : ℕ) : ℕ := spos B.Nd B.P i

/-- `Nd_dp` of process `p`, eigenSolver.c:859. -/
def BD.nd (B : BD) (p : ℕ) : ℕ := B.ndDispls (p + 1) - B.ndDispls p

/-- `bp2dp_sendcnts` of process `p`, eigenSolver.c:868, 874. -/
def BD.bpCnt (B : BD) (p i : ℕ) : ℕ :=
  if i = 0 then B.ns p * B.ndDispls 1 else B.ns p * (B.ndDispls (i + 1) - B.ndDispls i)

/-- `dp2bp_sendcnts` of process `p`, eigenSolver.c:869, 875. -/
def BD.dpCnt (B : BD) (p i : ℕ) : ℕ :=
  if i = 0 then B.nd p * B.nsDispls 1 else B.nd p * (B.nsDispls (i + 1) - B.nsDispls i)

/-- `BP2DP`, parallelization.c:2535-2585.  `pack` is the previous content of the buffers. -/
def bp2dp {α : Type} (B : BD) (bp pack dp : ℕ → ℕ → α) : Option (ℕ → ℕ → α) :=
  let buf : ℕ → ℕ → α := fun p => (List.range B.P).foldl (fun m i =>
    let nrow := B.ndDispls (i + 1) - B.ndDispls i
    copyMatBlk (bp p) (B.ndDispls i) B.lds nrow (B.ns p) m (cum (B.bpCnt p) i) nrow) (pack p)
  alltoallv B.P B.bpCnt (fun p => cum (B.bpCnt p)) B.dpCnt (fun p => cum (B.dpCnt p)) buf dp

/-- `DP2BP`, parallelization.c:2587-2645. -/
def dp2bp {α : Type} (B : BD) (dp pack bp : ℕ → ℕ → α) : Option (ℕ → ℕ → α) :=
  (alltoallv B.P B.dpCnt (fun p => cum (B.dpCnt p)) B.bpCnt (fun p => cum (B.bpCnt p)) dp pack).map
    fun buf p => (List.range B.P).foldl (fun m i =>
      let nrow := B.ndDispls (i + 1) - B.ndDispls i
      copyMatBlk (buf p) (cum (B.bpCnt p) i) nrow nrow (B.ns p) m (B.ndDispls i) B.lds) (bp p)

/-! ### Block order and Cartesian order -/

/-- A row of `DMVertices` in the sense of tools.c:3030-3095: start and size along each axis. -/
structure Vert where
  (x nx y ny z nz : ℕ)

def Vert.seg (v : Vert) : ℕ := v.nx * v.ny * v.nz

/-- `cart_to_block_dp`, tools.c:3030-3052.  The sequence of values written to `vec_bdp[p++]`. -/
def cartToBlock {α : Type} (cart : ℕ → α) (ncol : ℕ) (V : ℕ → Vert) (P Nx Ny Nd : ℕ) (bdp : ℕ → α) :
    ℕ → α :=
  if ncol = 0 then bdp
  else
    Grid.writeSeq 0
      ((List.range P).flatMap fun t => (List.range ncol).flatMap fun l =>
        (box (V t).nx (V t).ny (V t).nz).map fun c =>
          cart (((V t).x + c.1) + ((V t).y + c.2.1) * Nx + ((V t).z + c.2.2) * Nx * Ny + l * Nd))
      bdp

/-- `block_dp_to_cart`, tools.c:3063-3095.  A block without points has no iterations, so the
divisions by its sizes are not reached. -/
def blockToCart {α : Type} (bdp : ℕ → α) (ncol : ℕ) (V : ℕ → Vert) (displs : ℕ → ℕ) (P Nx Ny Nd : ℕ)
    (cart : ℕ → α) : ℕ → α :=
  if ncol = 0 then cart
  else
    fill ((List.range P).flatMap fun t => (List.range (V t).seg).flatMap fun p =>
        (List.range ncol).map fun l => (t, p, l))
      (fun s =>
        let v := V s.1
        let p := s.2.1
        let q := p % v.nx
        let i := v.x + q
        let p := (p - q) / v.nx
        let q := p % v.ny
        let j := v.y + q
        let p := (p - q) / v.ny
        let k := v.z + p
        i + j * Nx + k * Nx * Ny + s.2.2 * Nd)
      (fun s => bdp (displs s.1 + s.2.1 + s.2.2 * (V s.1).seg))
      cart

/-- The grid of the exact exchange code and its processes. -/
structure Pois where
  (N dims : Fin 3 → ℕ)
  ncol : ℕ

def Pois.P (S : Pois) : ℕ := D2D.procs S.dims

/-- `ncolpp`, exactExchange.c:809, 815. -/
def Pois.ncolp (S : Pois) (p : ℕ) : ℕ := S.ncol / S.P + if p < S.ncol % S.P then 1 else 0

/-- `DMVertices`, exactExchange.c:823-839. -/
def Pois.V (S : Pois) (i : ℕ) : Vert :=
  let c := D2D.cartCoords S.dims i
  { x := Block.blockNstart (S.N 0) (S.dims 0) (c 0), nx := Block.blockDecompose (S.N 0) (S.dims 0) (c 0),
    y := Block.blockNstart (S.N 1) (S.dims 1) (c 1), ny := Block.blockDecompose (S.N 1) (S.dims 1) (c 1),
    z := Block.blockNstart (S.N 2) (S.dims 2) (c 2), nz := Block.blockDecompose (S.N 2) (S.dims 2) (c 2) }

/-- `sendcounts` of process `p`, exactExchange.c:844 (`sing_size` is 1); `DMnd` is the number of points of
the process. -/
def Pois.scnt (S : Pois) (p i : ℕ) : ℕ := S.ncolp i * (S.V p).seg

/-- `recvcounts` of process `p`, exactExchange.c:845. -/
def Pois.rcnt (S : Pois) (p i : ℕ) : ℕ := S.ncolp p * (S.V i).nx * (S.V i).ny * (S.V i).nz

/-- Data movement of `poissonSolve`, exactExchange.c:684-784 (and `poissonSolve_kpt`).
`solve p` stands for `pois_fft` or `pois_kron` on process `p`: it turns the array of the right-hand
sides of this process into that of the solutions.  `junk` is the content of fresh memory. -/
def poissonSolve {α : Type} (S : Pois) (solve : ℕ → (ℕ → α) → ℕ → α) (junk : ℕ → ℕ → α)
    (rhs sol : ℕ → ℕ → α) : Option (ℕ → ℕ → α) :=
  let Nd := S.N 0 * S.N 1 * S.N 2
  if 1 < S.P then do
    let loc ← alltoallv S.P S.scnt (fun p => cum (S.scnt p)) S.rcnt (fun p => cum (S.rcnt p)) rhs junk
    let order : ℕ → ℕ → α := fun p =>
      blockToCart (loc p) (S.ncolp p) S.V (cum (S.rcnt p)) S.P (S.N 0) (S.N 1) Nd (junk p)
    let solLoc : ℕ → ℕ → α := fun p => solve p (order p)
    let solOrder : ℕ → ℕ → α := fun p =>
      cartToBlock (solLoc p) (S.ncolp p) S.V S.P (S.N 0) (S.N 1) Nd (junk p)
    alltoallv S.P S.rcnt (fun p => cum (S.rcnt p)) S.scnt (fun p => cum (S.scnt p)) solOrder sol
  else some fun p => solve p (rhs p)

end Sparc.Layout

/-!
# Block distribution of grid points over processes (model)

Transcription of the three inline functions of
`/repo/src/include/parallelization.h`.  `int` arguments are non-negative in all
call sites, hence `Nat`.  A division by zero (undefined behaviour in C) is the
outcome `none`.
-/

namespace Sparc.Block

/-- `block_decompose`, parallelization.h:40-43 (`p > 0`). -/
def blockDecompose (n p rank : Nat) : Nat :=
  n / p + (if rank < n % p then 1 else 0)

/-- `block_decompose_nstart`, parallelization.h:55-58 (`p > 0`). -/
def blockNstart (n p rank : Nat) : Nat :=
  n / p * rank + (if rank < n % p then rank else n % p)

/-- `block_decompose_rank`, parallelization.h:65-70.  `none` stands for the
division by zero that C leaves undefined (`p = 0`, or the second branch with
`n / p = 0`).  The C expression `node_indx - (n % p)` is a signed subtraction; it
is only evaluated in the second branch, where it is non-negative. -/
def blockRank (n p i : Nat) : Option Nat :=
  if p = 0 then none
  else if i < (n % p) * ((n - 1) / p + 1) then some (i / ((n - 1) / p + 1))
  else if n / p = 0 then none
  else some ((i - n % p) / (n / p))

end Sparc.Block

import Mathlib.Data.Int.Notation

/-!
# Index ranges of the 26-neighbour halo exchange (model)

`snd_rcv_buffer`, `/repo/src/lapVecRoutines.c:637-927`, entry by entry in slot order.  `D` is the
number of points of the block along the axis (`DMnx`, `DMny` or `DMnz`) and `F` is `FDn`.
-/

namespace Sparc.Halo

/-- `istart`: the axis is not periodic or has more than two processes; lines 657-685. -/
def istart26A (D F : ℤ) : List ℤ :=
  [0, 0, D - F, 0, 0, D - F, 0, 0, D - F,
   0, 0, D - F, 0, D - F, 0, 0, D - F,
   0, 0, D - F, 0, 0, D - F, 0, 0, D - F]

/-- `iend`: the axis is not periodic or has more than two processes; lines 657-685. -/
def iend26A (D F : ℤ) : List ℤ :=
  [F, D, D, F, D, D, F, D, D,
   F, D, D, F, D, F, D, D,
   F, D, D, F, D, D, F, D, D]

/-- `jstart`: the axis is not periodic or has more than two processes; lines 717-745. -/
def jstart26A (D F : ℤ) : List ℤ :=
  [0, 0, 0, 0, 0, 0, D - F, D - F, D - F,
   0, 0, 0, 0, 0, D - F, D - F, D - F,
   0, 0, 0, 0, 0, 0, D - F, D - F, D - F]

/-- `jend`: the axis is not periodic or has more than two processes; lines 717-745. -/
def jend26A (D F : ℤ) : List ℤ :=
  [F, F, F, D, D, D, D, D, D,
   F, F, F, D, D, D, D, D,
   F, F, F, D, D, D, D, D, D]

/-- `kstart`: the axis is not periodic or has more than two processes; lines 778-806. -/
def kstart26A (D F : ℤ) : List ℤ :=
  [0, 0, 0, 0, 0, 0, 0, 0, 0,
   0, 0, 0, 0, 0, 0, 0, 0,
   D - F, D - F, D - F, D - F, D - F, D - F, D - F, D - F, D - F]

/-- `kend`: the axis is not periodic or has more than two processes; lines 778-806. -/
def kend26A (D F : ℤ) : List ℤ :=
  [F, F, F, F, F, F, F, F, F,
   D, D, D, D, D, D, D, D,
   D, D, D, D, D, D, D, D, D]

/-- `istart`: periodic axis with at most two processes; lines 686-714. -/
def istart26B (D F : ℤ) : List ℤ :=
  [D - F, 0, 0, D - F, 0, 0, D - F, 0, 0,
   D - F, 0, 0, D - F, 0, D - F, 0, 0,
   D - F, 0, 0, D - F, 0, 0, D - F, 0, 0]

/-- `iend`: periodic axis with at most two processes; lines 686-714. -/
def iend26B (D F : ℤ) : List ℤ :=
  [D, D, F, D, D, F, D, D, F,
   D, D, F, D, F, D, D, F,
   D, D, F, D, D, F, D, D, F]

/-- `jstart`: periodic axis with at most two processes; lines 746-774. -/
def jstart26B (D F : ℤ) : List ℤ :=
  [D - F, D - F, D - F, 0, 0, 0, 0, 0, 0,
   D - F, D - F, D - F, 0, 0, 0, 0, 0,
   D - F, D - F, D - F, 0, 0, 0, 0, 0, 0]

/-- `jend`: periodic axis with at most two processes; lines 746-774. -/
def jend26B (D F : ℤ) : List ℤ :=
  [D, D, D, D, D, D, F, F, F,
   D, D, D, D, D, F, F, F,
   D, D, D, D, D, D, F, F, F]

/-- `kstart`: periodic axis with at most two processes; lines 807-835. -/
def kstart26B (D F : ℤ) : List ℤ :=
  [D - F, D - F, D - F, D - F, D - F, D - F, D - F, D - F, D - F,
   0, 0, 0, 0, 0, 0, 0, 0,
   0, 0, 0, 0, 0, 0, 0, 0, 0]

/-- `kend`: periodic axis with at most two processes; lines 807-835. -/
def kend26B (D F : ℤ) : List ℤ :=
  [D, D, D, D, D, D, D, D, D,
   D, D, D, D, D, D, D, D,
   F, F, F, F, F, F, F, F, F]

/-- `istart_in`: receive regions (the text is the same for one and for several processes); lines 839-866, 898-925. -/
def istart26in (D F : ℤ) : List ℤ :=
  [0, F, D + F, 0, F, D + F, 0, F, D + F,
   0, F, D + F, 0, D + F, 0, F, D + F,
   0, F, D + F, 0, F, D + F, 0, F, D + F]

/-- `iend_in`: receive regions (the text is the same for one and for several processes); lines 839-866, 898-925. -/
def iend26in (D F : ℤ) : List ℤ :=
  [F, D + F, D + F + F, F, D + F, D + F + F, F, D + F, D + F + F,
   F, D + F, D + F + F, F, D + F + F, F, D + F, D + F + F,
   F, D + F, D + F + F, F, D + F, D + F + F, F, D + F, D + F + F]

/-- `jstart_in`: receive regions (the text is the same for one and for several processes); lines 839-866, 898-925. -/
def jstart26in (D F : ℤ) : List ℤ :=
  [0, 0, 0, F, F, F, D + F, D + F, D + F,
   0, 0, 0, F, F, D + F, D + F, D + F,
   0, 0, 0, F, F, F, D + F, D + F, D + F]

/-- `jend_in`: receive regions (the text is the same for one and for several processes); lines 839-866, 898-925. -/
def jend26in (D F : ℤ) : List ℤ :=
  [F, F, F, D + F, D + F, D + F, D + F + F, D + F + F, D + F + F,
   F, F, F, D + F, D + F, D + F + F, D + F + F, D + F + F,
   F, F, F, D + F, D + F, D + F, D + F + F, D + F + F, D + F + F]

/-- `kstart_in`: receive regions (the text is the same for one and for several processes); lines 839-866, 898-925. -/
def kstart26in (D F : ℤ) : List ℤ :=
  [0, 0, 0, 0, 0, 0, 0, 0, 0,
   F, F, F, F, F, F, F, F,
   D + F, D + F, D + F, D + F, D + F, D + F, D + F, D + F, D + F]

/-- `kend_in`: receive regions (the text is the same for one and for several processes); lines 839-866, 898-925. -/
def kend26in (D F : ℤ) : List ℤ :=
  [F, F, F, F, F, F, F, F, F,
   D + F, D + F, D + F, D + F, D + F, D + F, D + F, D + F,
   D + F + F, D + F + F, D + F + F, D + F + F, D + F + F, D + F + F, D + F + F, D + F + F, D + F + F]

/-- `istart`: one process; lines 868-895. -/
def istart26one (D F : ℤ) : List ℤ :=
  [D - F, 0, 0, D - F, 0, 0, D - F, 0, 0,
   D - F, 0, 0, D - F, 0, D - F, 0, 0,
   D - F, 0, 0, D - F, 0, 0, D - F, 0, 0]

/-- `iend`: one process; lines 868-895. -/
def iend26one (D F : ℤ) : List ℤ :=
  [D, D, F, D, D, F, D, D, F,
   D, D, F, D, F, D, D, F,
   D, D, F, D, D, F, D, D, F]

/-- `jstart`: one process; lines 868-895. -/
def jstart26one (D F : ℤ) : List ℤ :=
  [D - F, D - F, D - F, 0, 0, 0, 0, 0, 0,
   D - F, D - F, D - F, 0, 0, 0, 0, 0,
   D - F, D - F, D - F, 0, 0, 0, 0, 0, 0]

/-- `jend`: one process; lines 868-895. -/
def jend26one (D F : ℤ) : List ℤ :=
  [D, D, D, D, D, D, F, F, F,
   D, D, D, D, D, F, F, F,
   D, D, D, D, D, D, F, F, F]

/-- `kstart`: one process; lines 868-895. -/
def kstart26one (D F : ℤ) : List ℤ :=
  [D - F, D - F, D - F, D - F, D - F, D - F, D - F, D - F, D - F,
   0, 0, 0, 0, 0, 0, 0, 0,
   0, 0, 0, 0, 0, 0, 0, 0, 0]

/-- `kend`: one process; lines 868-895. -/
def kend26one (D F : ℤ) : List ℤ :=
  [D, D, D, D, D, D, D, D, D,
   D, D, D, D, D, D, D, D,
   F, F, F, F, F, F, F, F, F]

/-- `isnonzero`, lines 868-895. -/
def isnonzero26 (p : Fin 3 → Bool) : List Bool :=
  [p 0 && p 1 && p 2, p 1 && p 2, p 0 && p 1 && p 2, p 0 && p 2, p 2, p 0 && p 2, p 0 && p 1 && p 2, p 1 && p 2, p 0 && p 1 && p 2,
   p 0 && p 1, p 1, p 0 && p 1, p 0, p 0, p 0 && p 1, p 1, p 0 && p 1,
   p 0 && p 1 && p 2, p 1 && p 2, p 0 && p 1 && p 2, p 0 && p 2, p 2, p 0 && p 2, p 0 && p 1 && p 2, p 1 && p 2, p 0 && p 1 && p 2]

end Sparc.Halo

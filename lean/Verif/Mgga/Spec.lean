import Verif.Tac
import Mathlib.Analysis.SpecialFunctions.Pow.Real
import Mathlib.Analysis.SpecialFunctions.Trigonometric.Basic

/-!
# The published SCAN functional

Sun, Ruzsinszky and Perdew, Phys. Rev. Lett. 115, 036402 (2015) and its supplement,
written without reference to the code.
-/

namespace Sparc.Mgga.Spec

open Real

/-- The reduced gradient, from the density and the norm of its gradient. -/
noncomputable def s (n g : ℝ) : ℝ := g / (2 * (3 * π ^ 2) ^ (1 / 3 : ℝ) * n ^ (4 / 3 : ℝ))

/-- The von Weizsäcker kinetic energy density. -/
noncomputable def tauW (n g : ℝ) : ℝ := g ^ 2 / (8 * n)

/-- The kinetic energy density of the uniform gas. -/
noncomputable def tauU (n : ℝ) : ℝ := 3 / 10 * (3 * π ^ 2) ^ (2 / 3 : ℝ) * n ^ (5 / 3 : ℝ)

/-- The spin scaling of the kinetic energy of the uniform gas. -/
noncomputable def ds (z : ℝ) : ℝ := ((1 + z) ^ (5 / 3 : ℝ) + (1 - z) ^ (5 / 3 : ℝ)) / 2

/-- The iso-orbital indicator. -/
noncomputable def alpha (n z g tau : ℝ) : ℝ := (tau - tauW n g) / (tauU n * ds z)

/-- The switching function, of class `C^∞` at `α = 1`. -/
noncomputable def sw (c1 c2 d a : ℝ) : ℝ :=
  if a < 1 then exp (-c1 * a / (1 - a)) else if a = 1 then 0 else -d * exp (c2 / (1 - a))

/-! ## Exchange -/

/-- Exchange energy per electron of the uniform gas. -/
noncomputable def exUnif (n : ℝ) : ℝ := -(3 / 4) * (3 / π) ^ (1 / 3 : ℝ) * n ^ (1 / 3 : ℝ)

/-- `μ_AK`. -/
noncomputable def mu : ℝ := 10 / 81
/-- `b₂`. -/
noncomputable def b2 : ℝ := √(5913 / 405000)
/-- `b₁`. -/
noncomputable def b1 : ℝ := 511 / 13500 / (2 * b2)
/-- `b₄`. -/
noncomputable def b4 : ℝ := mu ^ 2 / 0.065 - 1606 / 18225 - b1 ^ 2

/-- `x(s, α)`. -/
noncomputable def x (s a : ℝ) : ℝ :=
  mu * s ^ 2 * (1 + b4 * s ^ 2 / mu * exp (-|b4| * s ^ 2 / mu))
    + (b1 * s ^ 2 + b2 * (1 - a) * exp (-(1 / 2) * (1 - a) ^ 2)) ^ 2

/-- `h_x^1`. -/
noncomputable def h1 (s a : ℝ) : ℝ := 1 + 0.065 - 0.065 / (1 + x s a / 0.065)

/-- The enhancement factor, with `h_x^0 = 1.174`. -/
noncomputable def Fx (s a : ℝ) : ℝ :=
  (h1 s a + sw 0.667 0.8 1.24 a * (1.174 - h1 s a)) * (1 - exp (-4.9479 / √s))

/-- Exchange energy per electron of an unpolarised density: from the density, the norm
of its gradient and the kinetic energy density. -/
noncomputable def ex (n g tau : ℝ) : ℝ := exUnif n * Fx (s n g) (alpha n 0 g tau)

/-! ## Correlation -/

/-- The Seitz radius. -/
noncomputable def rs (n : ℝ) : ℝ := (3 / (4 * π * n)) ^ (1 / 3 : ℝ)

/-- The function `G` of Perdew and Wang (1992). -/
noncomputable def pwG (A a1 b1 b2 b3 b4 r : ℝ) : ℝ :=
  -2 * A * (1 + a1 * r)
    * log (1 + 1 / (2 * A * (b1 * √r + b2 * r + b3 * (r * √r) + b4 * r ^ 2)))

/-- `f(ζ)`. -/
noncomputable def fz (z : ℝ) : ℝ :=
  ((1 + z) ^ (4 / 3 : ℝ) + (1 - z) ^ (4 / 3 : ℝ) - 2) / (2 ^ (4 / 3 : ℝ) - 2)

/-- The local correlation energy of Perdew and Wang, with the digits of the reference
implementation of the functional. -/
noncomputable def lsda (r z : ℝ) : ℝ :=
  let e0 := pwG 0.0310907 0.21370 7.5957 3.5876 1.6382 0.49294 r
  let e1 := pwG 0.01554535 0.20548 14.1189 6.1977 3.3662 0.62517 r
  let mac := pwG 0.0168869 0.11125 10.357 3.6231 0.88026 0.49671 r
  e0 + (-mac) * (fz z / 1.709921) * (1 - z ^ 4) + (e1 - e0) * fz z * z ^ 4

/-- `φ(ζ)`. -/
noncomputable def phi (z : ℝ) : ℝ := ((1 + z) ^ (2 / 3 : ℝ) + (1 - z) ^ (2 / 3 : ℝ)) / 2

/-- `d_x(ζ)`. -/
noncomputable def dxz (z : ℝ) : ℝ := ((1 + z) ^ (4 / 3 : ℝ) + (1 - z) ^ (4 / 3 : ℝ)) / 2

/-- `β(r_s)`. -/
noncomputable def beta (r : ℝ) : ℝ := 0.06672455060314922 * (1 + 0.1 * r) / (1 + 0.1778 * r)

/-- The limit `ζ = 0`, `r_s → ∞` of `ξ`. -/
noncomputable def chiInf : ℝ :=
  (3 * π ^ 2 / 16) ^ (2 / 3 : ℝ) * (0.06672455060314922 * 0.1 / 0.1778
    / (0.9 - 3 / (4 * π) * (9 * π / 4) ^ (1 / 3 : ℝ)))

/-- The single-orbital limit `ε_c^0`. -/
noncomputable def e0 (r z s : ℝ) : ℝ :=
  let lda := -0.0285764 / (1 + 0.0889 * √r + 0.125541 * r)
  (lda + 0.0285764 * log (1 + (exp (-lda / 0.0285764) - 1)
      * (1 - (1 + 4 * chiInf * s ^ 2) ^ (-(1 / 4) : ℝ))))
    * ((1 - 2.3631 * (dxz z - 1)) * (1 - z ^ 12))

/-- The slowly varying limit `ε_c^1`, as a function of the coefficient `β` as well. -/
noncomputable def e1b (b r z s : ℝ) : ℝ :=
  let w := exp (-lsda r z / (0.031091 * phi z ^ 3)) - 1
  let A := b / (0.031091 * w)
  let t := (3 * π ^ 2 / 16) ^ (1 / 3 : ℝ) * s / (phi z * √r)
  lsda r z + 0.031091 * phi z ^ 3 * log (1 + w * (1 - (1 + 4 * A * t ^ 2) ^ (-(1 / 4) : ℝ)))

/-- The slowly varying limit `ε_c^1`. -/
noncomputable def e1 (r z s : ℝ) : ℝ := e1b (beta r) r z s

/-- Correlation energy per electron. -/
noncomputable def ec (n z g tau : ℝ) : ℝ :=
  let a := alpha n z g tau
  e1 (rs n) z (s n g) + sw 0.64 1.5 0.7 a * (e0 (rs n) z (s n g) - e1 (rs n) z (s n g))

end Sparc.Mgga.Spec

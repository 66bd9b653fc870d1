import Verif.Tac
import Mathlib.Analysis.SpecialFunctions.Pow.Real
import Mathlib.Analysis.SpecialFunctions.Trigonometric.Basic

/-!
# The published functionals

The formulas of the papers named in the comments of `exchangeCorrelation.c`,
written without reference to the code.
-/

namespace Sparc.Xc.Spec

open Real

/-- Exchange energy per electron of the uniform gas. -/
noncomputable def exUnif (n : ℝ) : ℝ := -(3 / 4) * (3 / π) ^ (1 / 3 : ℝ) * n ^ (1 / 3 : ℝ)

/-- The square of the reduced gradient `s = |∇n| / (2 (3π²)^(1/3) n^(4/3))`. -/
noncomputable def s2 (n g : ℝ) : ℝ := g / (2 * (3 * π ^ 2) ^ (1 / 3 : ℝ) * n ^ (4 / 3 : ℝ)) ^ 2

/-- Enhancement factor of PBE, PBEsol and revPBE. -/
noncomputable def fPBE (mu kappa x : ℝ) : ℝ := 1 + kappa - kappa / (1 + mu * x / kappa)

/-- Enhancement factor of RPBE. -/
noncomputable def fRPBE (mu kappa x : ℝ) : ℝ := 1 + kappa * (1 - exp (-(mu * x / kappa)))

/-- The enhancement factor selected by `iflag`: 1 PBE, 2 PBEsol, 3 RPBE, 4 revPBE. -/
noncomputable def enh : ℕ → ℝ → ℝ
  | 1 => fPBE 0.2195149727645171 0.804
  | 2 => fPBE (10 / 81) 0.804
  | 3 => fRPBE 0.2195149727645171 0.804
  | _ => fPBE 0.2195149727645171 1.245

/-- The enhancement factor of the refitted PW86 exchange, as a function of `s²`. -/
noncomputable def fPW86 (x : ℝ) : ℝ :=
  (1 + 1.851 * x + 17.33 * x ^ 2 + 0.163 * x ^ 3) ^ (1 / 15 : ℝ)

/-- The function `G` of Perdew and Wang (1992). -/
noncomputable def pwG (A a1 b1 b2 b3 b4 r : ℝ) : ℝ :=
  -2 * A * (1 + a1 * r)
    * log (1 + 1 / (2 * A * (b1 * √r + b2 * r + b3 * (r * √r) + b4 * r ^ 2)))

/-- Correlation energy per electron, unpolarised. -/
noncomputable def ec0 : ℝ → ℝ := pwG 0.031091 0.21370 7.5957 3.5876 1.6382 0.49294

/-- Correlation energy per electron, fully polarised. -/
noncomputable def ec1 : ℝ → ℝ := pwG 0.015545 0.20548 14.1189 6.1977 3.3662 0.62517

/-- Minus the spin stiffness. -/
noncomputable def mac : ℝ → ℝ := pwG 0.016887 0.11125 10.357 3.6231 0.88026 0.49671

/-- `f(ζ)`. -/
noncomputable def fz (z : ℝ) : ℝ :=
  ((1 + z) ^ (4 / 3 : ℝ) + (1 - z) ^ (4 / 3 : ℝ) - 2) / (2 ^ (4 / 3 : ℝ) - 2)

/-- The factor by which the code shrinks the polarisation in `f` and `φ`. -/
noncomputable def alpha : ℝ := 0.999999

/-- The Perdew-Wang interpolation between spin polarisations. -/
noncomputable def pw92 (r z : ℝ) : ℝ :=
  ec0 r + (-mac r) * (fz (alpha * z) / 1.709921) * (1 - z ^ 4)
    + (ec1 r - ec0 r) * fz (alpha * z) * z ^ 4

/-- `φ(ζ)` of PBE. -/
noncomputable def phi (z : ℝ) : ℝ := ((1 + z) ^ (2 / 3 : ℝ) + (1 - z) ^ (2 / 3 : ℝ)) / 2

/-- `γ` of PBE. -/
noncomputable def gamma : ℝ := (1 - log 2) / π ^ 2

/-- The gradient contribution `H` of PBE, from the local energy `ec`, the spin
factor `ph` and the square `t2` of the reduced gradient. -/
noncomputable def pbeH (beta ec ph t2 : ℝ) : ℝ :=
  let A := beta / gamma * (1 / (exp (-ec / (gamma * ph ^ 3)) - 1))
  gamma * ph ^ 3 * log (1 + beta / gamma * t2 * ((1 + A * t2) / (1 + A * t2 + A ^ 2 * t2 ^ 2)))

/-- The square of `t = |∇n| / (2 φ k_s n)`, where `k_s = √(4 k_F / π)` and
`k_F = (3 π² n)^(1/3)`. -/
noncomputable def t2 (n g ph : ℝ) : ℝ :=
  g / (2 * ph * √(4 * (3 * π ^ 2 * n) ^ (1 / 3 : ℝ) / π) * n) ^ 2

end Sparc.Xc.Spec

import Mathlib.Tactic.Ring
import Mathlib.Tactic.Linarith
import Mathlib.Tactic.LinearCombination
import Mathlib.Tactic.FieldSimp
import Mathlib.Tactic.Positivity
import Mathlib.Tactic.NormNum
import Mathlib.Tactic.IntervalCases
import Mathlib.Tactic.Module
import Mathlib.Tactic.Push
import Mathlib.Tactic.GCongr
import Mathlib.Tactic.Abel
import Mathlib.Tactic.Have
import Mathlib.Tactic.Tauto

/-! Tactics used across the proofs. -/

import Mathlib.Data.Rat.Defs
import Mathlib.Algebra.Order.Field.Rat
import Mathlib.Algebra.Order.Round
import Mathlib.Data.Int.Log
import Mathlib.Data.Rat.Floor
import Mathlib.Algebra.Order.Field.Power
import Mathlib.Tactic.NormNum.Pow
import Mathlib.Tactic.Ring
import Mathlib.Tactic.Linarith
import Mathlib.Tactic.FieldSimp
import Mathlib.Tactic.Positivity
/-
IEEE 754 binary64 numbers and rounding to nearest, as far as they are needed: finite values only.
-/
namespace Jules.Spec

/-- The finite `double`s, without the bound on large exponents: 53-bit significand, exponent at least -1074. -/
def IsDouble (x : ℚ) : Prop := ∃ m e : ℤ, |m| < 2 ^ 53 ∧ -1074 ≤ e ∧ x = m * (2 : ℚ) ^ e

/-- Correct rounding to nearest, with any rule for ties. -/
def Nearest (rnd : ℚ → ℚ) : Prop := ∀ x, IsDouble (rnd x) ∧ ∀ y, IsDouble y → |x - rnd x| ≤ |x - y|

end Jules.Spec

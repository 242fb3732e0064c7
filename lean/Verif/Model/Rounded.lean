import Verif.Model.Numeric
import Mathlib.Algebra.Order.Field.Rat
import Mathlib.Algebra.Order.AbsoluteValue.Basic
/-
The element type `double` (`numeric`, core/type.hpp:38) in base/numeric.hpp:185-325 and in matrix products: every operation is the exact one
followed by the rounding of the machine. The rounding is a parameter (`rnd`; the theorems are for all roundings to nearest, Spec/Double.lean).
Simplifications: -0 and 0 are the same; infinities and NaN are one value, "not finite"; operations are not fused and are computed in `double`.
-/
namespace Jules

/-- A `double`: a number, or something that is not finite.
core/type.hpp:36-42 `numeric`, `infinity`. -/
abbrev Fl := Option ℚ

/-- The result of an operation with exact result `x`: rounded, and not finite when too large.
Language semantics (IEEE 754 operations) of `double`, core/type.hpp:38. -/
def toFl (rnd : ℚ → ℚ) (x : ℚ) : Fl := if |rnd x| < 2 ^ 1024 then some (rnd x) else none

/-- An operation on two `double`s. What is not finite remains so under addition, subtraction and multiplication (zero times infinity is NaN).
Language semantics (IEEE 754 operations) of `double`, core/type.hpp:38. -/
def fl2 (rnd : ℚ → ℚ) (f : ℚ → ℚ → ℚ) : Fl → Fl → Fl
  | some a, some b => toFl rnd (f a b)
  | _, _ => none

/-- Division by a count, which is converted to `double` (and rounded) first; a division by zero is not finite.
Language semantics of the divisions in base/numeric.hpp:240, 247, 266, 317, 387, 393. -/
def flDiv (rnd : ℚ → ℚ) (a : Fl) (n : ℤ) : Fl :=
  match a, toFl rnd n with
  | some a, some d => if d = 0 then none else toFl rnd (a / d)
  | _, _ => none

/-- `double` elements.
Instance of base/numeric.hpp:185-325 for `numeric`, core/type.hpp:38. -/
def doubleOps (rnd : ℚ → ℚ) : NumOps Fl Fl where
  add a b := .ok (fl2 rnd (· + ·) a b)
  mulT a b := .ok (fl2 rnd (· * ·) a b)
  div a n := .ok (flDiv rnd a n)
  divSize a n := .ok (flDiv rnd a n)
  sub a b := .ok (fl2 rnd (· - ·) a b)
  mul a b := .ok (fl2 rnd (· * ·) a b)
  acc a b := .ok (fl2 rnd (· + ·) a b)

end Jules

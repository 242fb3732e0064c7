import Verif.Spec.Double
/-
Specification for C70: exact values of the reductions, and the constants of the error bounds.
-/
namespace Jules.Spec

/-- Half the distance between 1 and the next `double`. -/
def unit : ℚ := (2 : ℚ) ^ (-53 : ℤ)

/-- Half the smallest positive `double`. -/
def tiny : ℚ := (2 : ℚ) ^ (-1075 : ℤ)

/-- The smallest positive `double` with full precision. -/
def smallest : ℚ := (2 : ℚ) ^ (-1022 : ℤ)

/-- The relative error of `k` roundings: `(1 + unit)^k - 1` (about `k * unit`). -/
def rel (k : ℕ) : ℚ := (1 + unit) ^ k - 1

/-- The sum of the absolute values. -/
def asum (xs : List ℚ) : ℚ := (xs.map fun x => |x|).sum

/-- The exact mean. -/
def exactMean (xs : List ℚ) : ℚ := xs.sum / xs.length

/-- The exact (corrected) variance. -/
def exactVar (xs : List ℚ) : ℚ := (xs.map fun x => (x - exactMean xs) ^ 2).sum / ((xs.length : ℚ) - 1)

end Jules.Spec

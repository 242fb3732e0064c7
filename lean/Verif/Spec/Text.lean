import Verif.Spec.Double
import Verif.Model.Text
/-
What the texts of numbers mean, and what the library's conversions promise.
-/
namespace Jules.Spec

/-- A value that a `double` variable can have. -/
def IsF64 : Dbl → Prop
  | .fin q => IsDouble q ∧ |q| < 2 ^ 1024
  | _ => True

/-- The number a finite `double` stands for. -/
def numberOf : Dbl → Option ℚ
  | .fin q => some q
  | .negZero => some 0
  | _ => none

/-- The sign bit. -/
def signBit : Dbl → Bool
  | .nan neg => neg
  | .inf neg => neg
  | .negZero => true
  | .fin q => decide (q < 0)

/-- Numbers with at most six decimals. -/
def SixDecimals (z : ℚ) : Prop := ∃ k : ℤ, z = k / 10 ^ 6

/-- The library rounds to nearest, and reports underflow only for numbers in the subnormal range. -/
def LibOk (L : FpLib) : Prop := Nearest L.rnd ∧ ∀ v, L.under v = true → v ≠ 0 ∧ |v| < (2 : ℚ) ^ (-1022 : ℤ)

/-- A decimal number as it is written: sign, digits before the point, point and digits after it, exponent (letter, sign, digits). -/
structure Numeral where
  sign : Option Char
  whole : List Char
  frac : Option (List Char)
  exp : Option (Char × Option Char × List Char)

/-- It is well-formed. -/
def Numeral.Ok (n : Numeral) : Prop :=
  (∀ c, n.sign = some c → c = '-' ∨ c = '+') ∧
  (∀ c ∈ n.whole, c.isDigit) ∧ (∀ f, n.frac = some f → ∀ c ∈ f, c.isDigit) ∧
  (n.whole ≠ [] ∨ ∃ f, n.frac = some f ∧ f ≠ []) ∧
  (∀ e s d, n.exp = some (e, s, d) → (e = 'e' ∨ e = 'E') ∧ (∀ c, s = some c → c = '-' ∨ c = '+') ∧ d ≠ [] ∧ ∀ c ∈ d, c.isDigit)

/-- Its text. -/
def Numeral.text (n : Numeral) : List Char :=
  n.sign.toList ++ n.whole ++ (match n.frac with | some f => '.' :: f | none => []) ++
    (match n.exp with | some (e, s, d) => e :: (s.toList ++ d) | none => [])

/-- The number it denotes, without the sign. -/
def Numeral.magnitude (n : Numeral) : ℚ :=
  (Nat.ofDigitChars 10 (n.whole ++ n.frac.getD []) 0 : ℚ) / 10 ^ (n.frac.getD []).length *
    (match n.exp with
      | some (_, s, d) => if s = some '-' then 1 / (10 : ℚ) ^ Nat.ofDigitChars 10 d 0 else (10 : ℚ) ^ Nat.ofDigitChars 10 d 0
      | none => 1)

/-- The number it denotes. -/
def Numeral.value (n : Numeral) : ℚ := if n.sign = some '-' then -n.magnitude else n.magnitude

/-- A `double` after being written as text and read again. -/
def ThroughText (L : FpLib) (x y : Dbl) : Prop := (libFp L).stod ((libFp L).toStr x) = .ok y

/-- The text, without leading white space and one sign, begins with a digit, a point and a digit, or one of the words `inf` and `nan`
(in any case). -/
def StartsWithNumber (s : List Char) : Prop :=
  ∃ w sign u, s = w ++ Option.toList sign ++ u ∧ (∀ c ∈ w, isSpaceC c = true) ∧ (∀ c, sign = some c → c = '-' ∨ c = '+') ∧
    ((∃ c t, u = c :: t ∧ c.isDigit = true) ∨ (∃ c t, u = '.' :: c :: t ∧ c.isDigit = true) ∨
      ∃ a b c t, u = a :: b :: c :: t ∧ ([a.toLower, b.toLower, c.toLower] = ['i', 'n', 'f'] ∨ [a.toLower, b.toLower, c.toLower] = ['n', 'a', 'n']))

end Jules.Spec

import Verif.Spec.Text
/-
What the texts of hexadecimal numbers mean.
-/
namespace Jules.Spec

/-- The hexadecimal digits and their values. -/
def hexTable : List (Char × Nat) :=
  "0123456789abcdef".toList.zipIdx ++ [('A', 10), ('B', 11), ('C', 12), ('D', 13), ('E', 14), ('F', 15)]

/-- The number that a sequence of hexadecimal digits denotes. -/
def hexNumber (l : List Char) : Nat := l.foldl (fun a c => 16 * a + (hexTable.lookup c).getD 0) 0

/-- A hexadecimal number as it is written: sign, `0` and `x` or `X`, digits before the point, point and digits after it, exponent of two
(letter, sign, decimal digits). -/
structure HexNumeral where
  sign : Option Char
  x : Char
  whole : List Char
  frac : Option (List Char)
  exp : Option (Char × Option Char × List Char)

/-- It is well-formed. -/
def HexNumeral.Ok (n : HexNumeral) : Prop :=
  (∀ c, n.sign = some c → c = '-' ∨ c = '+') ∧ (n.x = 'x' ∨ n.x = 'X') ∧
  (∀ c ∈ n.whole, ∃ v, (c, v) ∈ hexTable) ∧ (∀ f, n.frac = some f → ∀ c ∈ f, ∃ v, (c, v) ∈ hexTable) ∧
  (n.whole ≠ [] ∨ ∃ f, n.frac = some f ∧ f ≠ []) ∧
  (∀ e s d, n.exp = some (e, s, d) → (e = 'p' ∨ e = 'P') ∧ (∀ c, s = some c → c = '-' ∨ c = '+') ∧ d ≠ [] ∧ ∀ c ∈ d, c.isDigit)

/-- Its text. -/
def HexNumeral.text (n : HexNumeral) : List Char :=
  n.sign.toList ++ ['0', n.x] ++ n.whole ++ (match n.frac with | some f => '.' :: f | none => []) ++
    (match n.exp with | some (e, s, d) => e :: (s.toList ++ d) | none => [])

/-- The number it denotes, without the sign. -/
def HexNumeral.magnitude (n : HexNumeral) : ℚ :=
  (hexNumber (n.whole ++ n.frac.getD []) : ℚ) / 16 ^ (n.frac.getD []).length *
    (match n.exp with
      | some (_, s, d) => if s = some '-' then 1 / (2 : ℚ) ^ Nat.ofDigitChars 10 d 0 else (2 : ℚ) ^ Nat.ofDigitChars 10 d 0
      | none => 1)

/-- The number it denotes. -/
def HexNumeral.value (n : HexNumeral) : ℚ := if n.sign = some '-' then -n.magnitude else n.magnitude

/-- Texts after which a hexadecimal number cannot go on. -/
def HexStops (rest : List Char) : Prop :=
  ∀ c, rest.head? = some c → (∀ v, (c, v) ∉ hexTable) ∧ c ≠ '.' ∧ c ≠ 'p' ∧ c ≠ 'P' ∧ c ≠ '+' ∧ c ≠ '-'

end Jules.Spec

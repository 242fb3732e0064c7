import Verif.Model.Column
/-
Doubles and text: `std::to_string(double)` (`printf` with `%f`) and `std::stod` (`strtod`), "C" locale, as glibc and libstdc++ implement
them. jules calls them for the coercions between numeric and string columns, core/type.hpp:88 and 99, and so for writing data frames.
The rounding of `strtod` is a parameter (`rnd`; the theorems are for all roundings to nearest, Spec/Double.lean), and so is which results
in the subnormal range are reported as underflow (`under`; implementation-defined).
-/
namespace Jules

/-- What the library's conversions depend on: the rounding of decimal numbers to doubles, and for which magnitudes `strtod` sets `ERANGE`
because of underflow.
Conversions of core/type.hpp:71-89. -/
structure FpLib where
  rnd : ℚ → ℚ
  under : ℚ → Bool

/-! ### to_string -/

/-- The natural number nearest to `n / d`, the even one of two.
`printf`'s rounding (to nearest, the default rounding mode), called by `std::to_string`, core/type.hpp:99. -/
def halfEven (n d : Nat) : Nat :=
  let q := n / d
  let r := n % d
  if 2 * r < d then q
  else if d < 2 * r then q + 1
  else if q % 2 = 0 then q
  else q + 1

/-- A number below 10^6 with six digits.
`printf` with `%f`, called by `std::to_string`, core/type.hpp:99. -/
def pad6 (m : Nat) : Txt := List.replicate (6 - (toStringNat m).length) '0' ++ toStringNat m

/-- The sign character.
`printf` with `%f`, called by `std::to_string`, core/type.hpp:99. -/
def signText (neg : Bool) : Txt := if neg then ['-'] else []

/-- A magnitude with six decimals.
`printf` with `%f`, called by `std::to_string`, core/type.hpp:99. -/
def fixed6 (mag : ℚ) : Txt :=
  let n := halfEven (mag.num.natAbs * 10 ^ 6) mag.den
  toStringNat (n / 10 ^ 6) ++ '.' :: pad6 (n % 10 ^ 6)

/-- `std::to_string(double)`.
Called in core/type.hpp:99. -/
def dblToString : Dbl → Txt
  | .nan neg => signText neg ++ ['n', 'a', 'n']
  | .inf neg => signText neg ++ ['i', 'n', 'f']
  | .negZero => signText true ++ fixed6 0
  | .fin q => signText (decide (q < 0)) ++ fixed6 |q|

/-! ### stod -/

/-- The value of a digit, decimal or hexadecimal.
`strtod`, called by `std::stod`, core/type.hpp:88. -/
def hexVal (c : Char) : Option Nat :=
  if c.isDigit then some (c.toNat - '0'.toNat)
  else if 'a' ≤ c ∧ c ≤ 'f' then some (c.toNat - 'a'.toNat + 10)
  else if 'A' ≤ c ∧ c ≤ 'F' then some (c.toNat - 'A'.toNat + 10)
  else none

/-- Digits in base 16.
`strtod`, called by `std::stod`, core/type.hpp:88. -/
def ofHex (l : Txt) : Nat := l.foldl (fun a c => 16 * a + (hexVal c).getD 0) 0

/-- Digits with at most one point: all the digits, how many of them are after the point, and the rest. `none` without digits.
`strtod`, called by `std::stod`, core/type.hpp:88. -/
def scanMantissa (isD : Char → Bool) (t : Txt) : Option (Txt × Nat × Txt) :=
  let ip := t.takeWhile isD
  let r := t.dropWhile isD
  let fp := match r with
    | '.' :: u => u.takeWhile isD
    | _ => []
  let rest := match r with
    | '.' :: u => u.dropWhile isD
    | _ => r
  if ip ++ fp = [] then none else some (ip ++ fp, fp.length, rest)

/-- The exponent, if the text begins with one: zero otherwise.
`strtod`, called by `std::stod`, core/type.hpp:88. -/
def scanExponent (isE : Char → Bool) (t : Txt) : Int :=
  match t with
  | [] => 0
  | c :: u =>
    if isE c then
      let r := splitSign u
      let n : Int := Nat.ofDigitChars 10 (r.2.takeWhile Char.isDigit) 0
      if r.1 then -n else n
    else 0

/-- What `strtod` finds after the sign: an infinity, a NaN or an exact non-negative number.
Called by `std::stod`, core/type.hpp:88. -/
inductive Magnitude where
  | inf
  | nan
  | num (v : ℚ)
  deriving DecidableEq

/-- A hexadecimal number after `0x`.
`strtod`, called by `std::stod`, core/type.hpp:88. -/
def scanHex (t : Txt) : Option ℚ :=
  match scanMantissa (fun c => (hexVal c).isSome) t with
  | none => none
  | some (ds, k, rest) =>
    some ((ofHex ds : ℚ) / 16 ^ k * (2 : ℚ) ^ scanExponent (fun c => c == 'p' || c == 'P') rest)

/-- A decimal number.
`strtod`, called by `std::stod`, core/type.hpp:88. -/
def scanDec (t : Txt) : Option ℚ :=
  match scanMantissa Char.isDigit t with
  | none => none
  | some (ds, k, rest) =>
    some ((Nat.ofDigitChars 10 ds 0 : ℚ) / 10 ^ k * (10 : ℚ) ^ scanExponent (fun c => c == 'e' || c == 'E') rest)

/-- The subject sequence of `strtod` after white space and the sign.
`strtod`, called by `std::stod`, core/type.hpp:88. -/
def scanMagnitude (t : Txt) : Option Magnitude :=
  if (t.take 3).map Char.toLower = ['i', 'n', 'f'] then some .inf
  else if (t.take 3).map Char.toLower = ['n', 'a', 'n'] then some .nan
  else
    match (if (t.take 2).map Char.toLower = ['0', 'x'] then scanHex (t.drop 2) else none) with
    | some v => some (.num v)
    | none => (scanDec t).map .num

/-- `std::stod`: `invalid_argument` without a number at the start of the text, `out_of_range` when the nearest double is too large, or when
underflow is reported.
Called in core/type.hpp:88. -/
def stodLib (L : FpLib) (s : Txt) : Res Dbl :=
  let r := splitSign (s.dropWhile isSpaceC)
  match scanMagnitude r.2 with
  | none => .error (.exc .invalidArgument)
  | some .inf => .ok (.inf r.1)
  | some .nan => .ok (.nan r.1)
  | some (.num v) =>
    let y := L.rnd (if r.1 then -v else v)
    if 2 ^ 1024 ≤ |y| then .error (.exc .outOfRange)
    else if L.under v then .error (.exc .outOfRange)
    else if r.1 ∧ y = 0 then .ok .negZero
    else .ok (.fin y)

/-- The conversions of the library.
core/type.hpp:38, 71-108. -/
def libFp (L : FpLib) : Fp where
  ofInt z := .fin (L.rnd z)
  stod := stodLib L
  toStr := dblToString

end Jules

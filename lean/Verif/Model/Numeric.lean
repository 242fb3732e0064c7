import Verif.Basic
import Verif.Model.Layout
import Verif.Model.SignedRange
/-
Model of base/numeric.hpp:78-478: the reductions over a range. A range is the list of values its iterators yield, first to
last; the range overloads call the iterator overloads with `begin`/`end` unless said otherwise. The library takes ranges by
reference to const and iterators by value, and none of these functions writes through them, so nothing but the result is
returned. Positions and counts (`std::size_t`) are `Nat`: they are bounded by the length of a range that is in memory.
-/
namespace Jules

section Order
variable {α : Type} (lt : α → α → Bool)

/-- base/numeric.hpp:78-92 `max(first, last, start)`: `if (start < *first) start = *first`. -/
def maxL : List α → α → α
  | [], start => start
  | x :: xs, start => if lt start x then maxL xs x else maxL xs start

/-- base/numeric.hpp:101-122 `which_max(first, last, start)`; `pos`, `best` are the loop's variables. -/
def whichMaxLoop : List α → α → Nat → Nat → Nat
  | [], _, _, best => best
  | x :: xs, start, pos, best => if lt start x then whichMaxLoop xs x (pos + 1) pos else whichMaxLoop xs start (pos + 1) best

/-- base/numeric.hpp:105 initialises both positions with 0. -/
def whichMax (l : List α) (start : α) : Nat := whichMaxLoop lt l start 0 0

/-- base/numeric.hpp:131-146 `min(first, last, start)`: `if (start > *first) start = *first`. -/
def minL : List α → α → α
  | [], start => start
  | x :: xs, start => if lt x start then minL xs x else minL xs start

/-- base/numeric.hpp:155-176 `which_min(first, last, start)`. -/
def whichMinLoop : List α → α → Nat → Nat → Nat
  | [], _, _, best => best
  | x :: xs, start, pos, best => if lt x start then whichMinLoop xs x (pos + 1) pos else whichMinLoop xs start (pos + 1) best

/-- base/numeric.hpp:159. -/
def whichMin (l : List α) (start : α) : Nat := whichMinLoop lt l start 0 0

end Order

/-- The arithmetic of the element type `T` and of the type `M` of a mean, as far as base/numeric.hpp uses it. An operation
without a value (signed overflow, division by zero) is an error.
The operations of the element type used in base/numeric.hpp:185-325. -/
structure NumOps (T M : Type) where
  /-- `start += *first` -/
  add : T → T → Res T
  /-- `start *= *first` -/
  mulT : T → T → Res T
  /-- division by a `ranges::distance` (a signed 64-bit integer) -/
  div : T → Int → Res M
  /-- division by a `ranges::size` (an unsigned 64-bit integer) -/
  divSize : T → Nat → Res M
  /-- `*it - mu` -/
  sub : T → M → Res M
  /-- `value * value` in base/math.hpp:21 `square` -/
  mul : M → M → Res M
  /-- `result += square(...)` -/
  acc : T → M → Res T

variable {T M : Type}

/-- base/numeric.hpp:214-228 `sum`. -/
def sumL (o : NumOps T M) : List T → T → Res T
  | [], start => .ok start
  | x :: xs, start => do
    let s ← o.add start x
    sumL o xs s

/-- base/numeric.hpp:185-199 `prod`; also 201-205 with 32-37 (`std::array`): a left fold from the multiplicative identity. -/
def prodLoop (o : NumOps T M) : List T → T → Res T
  | [], start => .ok start
  | x :: xs, start => do
    let s ← o.mulT start x
    prodLoop o xs s

/-- base/numeric.hpp:236-241 `mean(first, last, start)`. -/
def meanIter (o : NumOps T M) (l : List T) (start : T) : Res M := do
  let s ← sumL o l start
  o.div s l.length

/-- base/numeric.hpp:243-248 `mean(rng, start)`: divides by `ranges::size`. -/
def meanRng (o : NumOps T M) (l : List T) (start : T) : Res M := do
  let s ← sumL o l start
  o.divSize s l.length

/-- base/numeric.hpp:263-265, 312-315 the loop `result += square(*it - mu)`. -/
def devLoop (o : NumOps T M) (mu : M) : List T → T → Res T
  | [], r => .ok r
  | x :: xs, r => do
    let d ← o.sub x mu
    let q ← o.mul d d
    let r' ← o.acc r q
    devLoop o mu xs r'

/-- base/numeric.hpp:257-274 `var` (both overloads: the range overload calls the iterator one). -/
def var (o : NumOps T M) (l : List T) (start : T) : Res M := do
  let mu ← meanIter o l start
  let r ← devLoop o mu l start
  o.div r ((l.length : Int) - 1)

/-- base/numeric.hpp:284-297 `sd`; `sqrt` is the standard library's. -/
def sd (o : NumOps T M) (sqrt : M → R) (l : List T) (start : T) : Res R := do
  let v ← var o l start
  .ok (sqrt v)

/-- base/numeric.hpp:306-325 `meansd`. -/
def meansd (o : NumOps T M) (sqrt : M → R) (l : List T) (start : T) : Res (M × R) := do
  let mu ← meanIter o l start
  let r ← devLoop o mu l start
  let q ← o.div r ((l.length : Int) - 1)
  .ok (mu, sqrt q)

/-- Floating point element types, in exact arithmetic over a field `K` (an idealisation: no rounding). Division by zero gives no
finite number; the model reports it as an error.
Instances of base/numeric.hpp:185-325 for a field. -/
def fieldOps (K : Type) [Add K] [Sub K] [Mul K] [Div K] [IntCast K] [DecidableEq K] : NumOps K K where
  add a b := .ok (a + b)
  mulT a b := .ok (a * b)
  div a n := if n = 0 then .error .ub else .ok (a / (n : K))
  divSize a n := if n = 0 then .error .ub else .ok (a / ((n : Int) : K))
  sub a b := .ok (a - b)
  mul a b := .ok (a * b)
  acc a b := .ok (a + b)

/-- A signed integer of `w` bits is representable.
Language semantics of signed types. -/
def fitsS (w : Nat) (x : Int) : Bool := decide (-2 ^ (w - 1) ≤ x) && decide (x < 2 ^ (w - 1))

/-- The result of a signed operation in `w` bits; undefined when it is not representable.
Language semantics of signed types. -/
def signed (w : Nat) (x : Int) : Res Int := if fitsS w x then .ok x else .error .ub

/-- Conversion to a signed integer of `w` bits (modulo `2^w`).
Language semantics of signed types. -/
def wrapS (w : Nat) (x : Int) : Int := Int.bmod x (2 ^ w)

/-- Signed integer element types of `w` bits, `w = 32` (`int`) or `w = 64` (`long`). Sums and products are computed in the type;
a mean iterates in `long`, as `ranges::distance` is one; the division by `ranges::size` converts the dividend to `unsigned long`;
`result += square(...)` adds in `long` and converts back.
Instances of base/numeric.hpp:185-325 for signed types. -/
def signedOps (w : Nat) : NumOps Int Int where
  add a b := signed w (a + b)
  mulT a b := signed w (a * b)
  div a n := if n = 0 then .error .ub else .ok (a.tdiv n)
  divSize a n := if n = 0 then .error .ub else .ok ((toU64 a / n : Nat) : Int)
  sub a b := signed 64 (a - b)
  mul a b := signed 64 (a * b)
  acc a b := do
    let s ← signed 64 (a + b)
    .ok (wrapS w s)

/-- Unsigned integer element types of 64 bits (`index_t`): arithmetic modulo `2^64`; a `ranges::distance` (never negative here, and
`-1` only as `N - 1` of an empty range) is converted to unsigned.
Instances of base/numeric.hpp:185-325 for unsigned types. -/
def unsignedOps : NumOps Nat Nat where
  add a b := .ok ((a + b) % W64)
  mulT a b := .ok ((a * b) % W64)
  div a n := if n = 0 then .error .ub else .ok (a / toU64 n)
  divSize a n := if n = 0 then .error .ub else .ok (a / n)
  sub a b := .ok ((a + (W64 - b % W64)) % W64)
  mul a b := .ok ((a * b) % W64)
  acc a b := .ok ((a + b) % W64)

/-- base/numeric.hpp:363-377 `count`. -/
def countLoop : List Bool → Nat → Nat
  | [], n => n
  | b :: bs, n => if b then countLoop bs (n + 1) else countLoop bs n

/-- base/numeric.hpp:366 starts from zero. -/
def count (l : List Bool) : Nat := countLoop l 0

/-- base/numeric.hpp:384-394 `freq`: the count, converted to `numeric`, divided by the length (both overloads: the division is a
floating point one). -/
def freq (o : NumOps K M) (ofNat : Nat → K) (l : List Bool) : Res M := o.div (ofNat (count l)) l.length

/-- base/numeric.hpp:401-416 `which`; `index` is the loop's counter. -/
def whichLoop : List Bool → Nat → List Nat
  | [], _ => []
  | b :: bs, index => if b then index :: whichLoop bs (index + 1) else whichLoop bs (index + 1)

/-- base/numeric.hpp:406. -/
def which (l : List Bool) : List Nat := whichLoop l 0

/-- base/numeric.hpp:424-437 `all`. -/
def allL : List Bool → Bool
  | [] => true
  | b :: bs => if !b then false else allL bs

/-- base/numeric.hpp:445-458 `none`. -/
def noneL : List Bool → Bool
  | [] => true
  | b :: bs => if b then false else noneL bs

/-- base/numeric.hpp:466-479 `any`. -/
def anyL : List Bool → Bool
  | [] => false
  | b :: bs => if b then true else anyL bs

/-- The contract of `std::nth_element(begin, begin + n, end, cmp)` for a strict weak order `cmp` and `n < size`: the values are
permuted; what comes before position `n` is not greater than the value there, what comes after is not less. The algorithm itself
is the standard library's: every function with this contract is considered.
The contract of the calls base/numeric.hpp:341, 354. -/
def NthContract (cmp : α → α → Bool) (nthElement : List α → Nat → List α) : Prop :=
  ∀ (l : List α) (n : Nat) (x : α), n < l.length → (nthElement l n).Perm l ∧
    ((nthElement l n)[n]? = some x →
      (∀ i y, i < n → (nthElement l n)[i]? = some y → cmp x y = false) ∧
      (∀ i y, n < i → (nthElement l n)[i]? = some y → cmp y x = false))

/-- base/numeric.hpp:333-356 `nth` (both overloads): the values are copied into a vector, which is partially sorted. With `n` equal
to the size, `nth_element` is called with an empty tail and `values[n]` is past the end; with a larger `n`, `begin + n` is: no test
is made in any build. -/
def nth (nthElement : List α → Nat → List α) (l : List α) (n : Nat) : Res α :=
  if n < l.length then
    match (nthElement l n)[n]? with
    | some x => .ok x
    | none => .error .ub
  else .error .ub

end Jules

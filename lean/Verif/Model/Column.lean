import Mathlib.Data.Rat.Floor
import Verif.Model.IO
/-
Model of core/type.hpp (coercion rules) and of dataframe/column.hpp, dataframe/detail/column_model.hpp.
-/
namespace Jules

/-! ### Standard conversions used by the rules (contracts of the standard library, "C" locale) -/

/-- A C++ `double`: a NaN (`neg`: its sign bit), an infinity (`neg`: the negative one), negative zero, or a finite value (`fin 0` is
positive zero). Simplification: the payload of a NaN is not kept.
`numeric`, core/type.hpp:38. -/
inductive Dbl where
  | nan (neg : Bool)
  | inf (neg : Bool)
  | negZero
  | fin (q : Rat)
  deriving DecidableEq

/-- What this file does not define about `double`: conversion from integers (rounding), `std::stod`, `std::to_string(double)`. A full
definition of them is in Model/Text.lean; the theorems with an arbitrary `Fp` hold whatever the library does.
The conversions used in core/type.hpp:84-169. -/
structure Fp where
  ofInt : Int → Dbl
  stod : Txt → Res Dbl
  toStr : Dbl → Txt

/-- The contract of these functions that the theorems use, where they use any: integers up to 2^53 are exact, `stod` either
returns or throws, `to_string` writes something without tabs and line breaks.
The contracts of the conversions used in core/type.hpp:84-169. -/
structure Fp.Ok (fp : Fp) : Prop where
  ofInt_exact : ∀ z : Int, -2 ^ 53 ≤ z → z ≤ 2 ^ 53 → fp.ofInt z = .fin z
  stod_exc : ∀ s e, fp.stod s = .error e → ∃ x, e = .exc x
  toStr_ne : ∀ x, fp.toStr x ≠ []
  toStr_sep : ∀ x c, c ∈ fp.toStr x → c ≠ '\t' ∧ c ≠ '\n'

/-- `isspace` in the "C" locale.
Used by the calls of core/type.hpp:116, 139, 150. -/
def isSpaceC (c : Char) : Bool := c == ' ' || c == '\t' || c == '\n' || c == '\x0b' || c == '\x0c' || c == '\r'

/-- The optional sign before the digits: is it a minus? And the rest.
Used by the calls of core/type.hpp:116, 139, 150. -/
def splitSign : Txt → Bool × Txt
  | [] => (false, [])
  | c :: t => if c = '-' then (true, t) else if c = '+' then (false, t) else (false, c :: t)

/-- What `strtol`/`strtoul` (base 10) accept: white space, an optional sign, digits; the rest is ignored. `none` when there is no
digit. The result is the sign (`true` for minus) and the magnitude.
Used by the calls of core/type.hpp:116, 139, 150. -/
def strtoParse (s : Txt) : Option (Bool × Nat) :=
  let r := splitSign (s.dropWhile isSpaceC)
  match r.2.takeWhile Char.isDigit with
  | [] => none
  | d :: ds => some (r.1, Nat.ofDigitChars 10 (d :: ds) 0)

/-- `std::stoul`: `invalid_argument` without digits, `out_of_range` if the magnitude does not fit in `unsigned long`; a minus
sign negates the result modulo 2^64 (as `strtoul` does).
Called in core/type.hpp:116, 150. -/
def stoul (s : Txt) : Res UInt64 :=
  match strtoParse s with
  | none => .error (.exc .invalidArgument)
  | some (neg, n) =>
    if n ≥ 2 ^ 64 then .error (.exc .outOfRange)
    else .ok (if neg then - UInt64.ofNat n else UInt64.ofNat n)

/-- `std::stoi`: `invalid_argument` without digits, `out_of_range` if the value does not fit in `int`.
Called in core/type.hpp:139. -/
def stoi (s : Txt) : Res Int32 :=
  match strtoParse s with
  | none => .error (.exc .invalidArgument)
  | some (neg, n) =>
    let z : Int := if neg then -(n : Int) else n
    if z < -2 ^ 31 ∨ 2 ^ 31 ≤ z then .error (.exc .outOfRange)
    else .ok (Int32.ofInt z)

/-- `std::to_string` of an unsigned value.
Called in core/type.hpp:93-108. -/
def toStringNat (n : Nat) : Txt := Nat.toDigits 10 n

/-- `std::to_string` of a signed value.
Called in core/type.hpp:93-108. -/
def toStringInt (z : Int) : Txt := if z < 0 then '-' :: toStringNat z.natAbs else toStringNat z.natAbs

/-- The value of a finite double rounded towards zero.
Conversions of core/type.hpp:71-169 from `numeric`. -/
def truncQ (q : Rat) : Int := if q < 0 then -⌊-q⌋ else ⌊q⌋

/-- Conversion of a double to an integral type with values in `[lo, hi)`: undefined when the truncated value is not in range.
Conversions of core/type.hpp:71-169 from `numeric`. -/
def dblToInt (lo hi : Int) : Dbl → Res Int
  | .fin q => if lo ≤ truncQ q ∧ truncQ q < hi then .ok (truncQ q) else .error .ub
  | .negZero => if lo ≤ 0 ∧ 0 < hi then .ok 0 else .error .ub
  | _ => .error .ub

/-- `value < 0` for a double.
The test of core/type.hpp:112-131, 144-169. -/
def Dbl.isNeg : Dbl → Bool
  | .nan _ => false
  | .inf n => n
  | .negZero => false
  | .fin q => decide (q < 0)

/-! ### Coercion rules -/

/-- core/type.hpp:171-191 `base_coercion_rules<Rules...>` as a column sees it: the element types, their values, the types that
have a rule (`Rules::type`), and for each pair the function `Rule::coerce_from`, absent when the overload does not exist. -/
structure Coercion where
  Ty : Type
  [dec : DecidableEq Ty]
  Val : Ty → Type
  targets : List Ty
  rule : (src dst : Ty) → Option (Val src → Res (Val dst))

attribute [instance] Coercion.dec

/-- The element types considered: the five of jules (core/type.hpp:38-65), `const char*` (the type of string literals) and types
that have no rule at all. -/
inductive JTy where
  | numeric | string | index | integer | uinteger
  | cstr
  | foreign (n : Nat)
  deriving DecidableEq

/-- Values of the types.
core/type.hpp:38-65. -/
abbrev JTy.Val : JTy → Type
  | .numeric => Dbl
  | .string => Txt
  | .index => UInt64
  | .integer => Int32
  | .uinteger => UInt32
  | .cstr => Txt
  | .foreign _ => Nat

instance (t : JTy) : DecidableEq t.Val := by cases t <;> unfold JTy.Val <;> infer_instance

/-- core/type.hpp:71-89 `numeric_rule`. -/
def numericRule (fp : Fp) : (src : JTy) → Option (src.Val → Res Dbl)
  | .numeric => some fun x => .ok x
  | .string => some fun s => fp.stod s
  | .index => some fun n => .ok (fp.ofInt (UInt64.toNat n))
  | .integer => some fun z => .ok (fp.ofInt (Int32.toInt z))
  | .uinteger => some fun n => .ok (fp.ofInt (UInt32.toNat n))
  | .cstr => some fun s => fp.stod s
  | .foreign _ => none

/-- core/type.hpp:93-108 `string_rule`. -/
def stringRule (fp : Fp) : (src : JTy) → Option (src.Val → Res Txt)
  | .numeric => some fun x => .ok (fp.toStr x)
  | .string => some fun s => .ok s
  | .index => some fun n => .ok (toStringNat (UInt64.toNat n))
  | .integer => some fun z => .ok (toStringInt (Int32.toInt z))
  | .uinteger => some fun n => .ok (toStringNat (UInt32.toNat n))
  | .cstr => some fun s => .ok s
  | .foreign _ => none

/-- core/type.hpp:112-131 `index_rule`. -/
def indexRule : (src : JTy) → Option (src.Val → Res UInt64)
  | .numeric => some fun x =>
    if Dbl.isNeg x then .error (.exc .invalidArgument)
    else do
      let z ← dblToInt 0 (2 ^ 64) x
      .ok (UInt64.ofNat z.toNat)
  | .string => some fun s => stoul s
  | .index => some fun n => .ok n
  | .integer => some fun z =>
    if Int32.toInt z < 0 then .error (.exc .invalidArgument) else .ok (UInt64.ofNat (Int32.toInt z).toNat)
  | .uinteger => some fun n => .ok (UInt64.ofNat (UInt32.toNat n))
  | .cstr => some fun s => stoul s
  | .foreign _ => none

/-- core/type.hpp:135-140 `integer_rule`; the conversions from unsigned types are modulo 2^32 (implementation-defined before C++20,
as all compilers the project supports define it). -/
def integerRule : (src : JTy) → Option (src.Val → Res Int32)
  | .numeric => some fun x => do
    let z ← dblToInt (-2 ^ 31) (2 ^ 31) x
    .ok (Int32.ofInt z)
  | .string => some fun s => stoi s
  | .index => some fun n => .ok (Int32.ofNat (UInt64.toNat n))
  | .integer => some fun z => .ok z
  | .uinteger => some fun n => .ok (Int32.ofNat (UInt32.toNat n))
  | .cstr => some fun s => stoi s
  | .foreign _ => none

/-- core/type.hpp:148-154 `uinteger_rule::coerce_from(const string&)`. -/
def uintegerFromString (s : Txt) : Res UInt32 := do
  let result ← stoul s
  if result.toNat > 2 ^ 32 - 1 then .error (.exc .invalidArgument)
  else .ok (UInt32.ofNat result.toNat)

/-- core/type.hpp:144-169 `uinteger_rule`. -/
def uintegerRule : (src : JTy) → Option (src.Val → Res UInt32)
  | .numeric => some fun x =>
    if Dbl.isNeg x then .error (.exc .invalidArgument)
    else do
      let z ← dblToInt 0 (2 ^ 32) x
      .ok (UInt32.ofNat z.toNat)
  | .string => some fun s => uintegerFromString s
  | .index => some fun n => .ok (UInt32.ofNat (UInt64.toNat n))
  | .integer => some fun z =>
    if Int32.toInt z < 0 then .error (.exc .invalidArgument) else .ok (UInt32.ofNat (Int32.toInt z).toNat)
  | .uinteger => some fun n => .ok n
  | .cstr => some fun s => uintegerFromString s
  | .foreign _ => none

/-- core/type.hpp:196 `coercion_rules`. -/
abbrev julesRules (fp : Fp) : Coercion where
  Ty := JTy
  Val := JTy.Val
  targets := [.numeric, .string, .index, .integer, .uinteger]
  rule src
    | .numeric => numericRule fp src
    | .string => stringRule fp src
    | .index => indexRule src
    | .integer => integerRule src
    | .uinteger => uintegerRule src
    | .cstr => none
    | .foreign _ => none

/-! ### column_model -/

/-- column_model.hpp:203-238 `column_model<T, Coercion>`: a `std::vector<T>`. -/
structure Model (C : Coercion) where
  ty : C.Ty
  vals : List (C.Val ty)

instance (C : Coercion) [∀ t, DecidableEq (C.Val t)] : DecidableEq (Model C) := fun a b =>
  match a, b with
  | ⟨s, u⟩, ⟨t, v⟩ =>
    if h : s = t then by
      subst h
      exact if g : u = v then isTrue (by rw [g]) else isFalse (by intro e; injection e with _ e; exact g e)
    else isFalse (by intro e; injection e with e; exact h e)

/-- column_model.hpp:237 `size`. -/
def Model.size (m : Model C) : Nat := m.vals.length

/-- column_model.hpp:81, 93, 106-109, 126-136, 158, 185 `coerce<T>()`: a new model with the converted elements, `bad_cast` when
`T` has no rule or the rule does not apply to the element type. Exceptions of the conversion propagate (the new model is
deleted, line 129). -/
def Model.coerce (m : Model C) (T : C.Ty) : Res (Model C) :=
  if T ∈ C.targets then
    match C.rule m.ty T with
    | none => .error (.exc .badCast)
    | some f => do
      let vs ← m.vals.mapM f
      .ok ⟨T, vs⟩
  else .error (.exc .badCast)

/-- column_model.hpp:82, 94, 111, 138, 160, 187 `can_coerce<T>()`. -/
def Model.canCoerce (m : Model C) (T : C.Ty) : Bool := decide (T ∈ C.targets) && (C.rule m.ty T).isSome

/-- column_model.hpp:221-224 `clone`. -/
def Model.clone (m : Model C) : Model C := m

/-- column_model.hpp:226-231 `partial_clone`; `first + size` is computed in `index_t`. The vector constructor is given the iterators
`begin + first`, `begin + first + size`: a length that is not in the vector is undefined behaviour. -/
def Model.partialClone (A : Arith) (m : Model C) (first size : Nat) : Res (Model C) :=
  if first ≥ m.size ∨ A.add first size > m.size then .error (.exc .outOfRange)
  else if first + size ≤ m.size then .ok ⟨m.ty, (m.vals.drop first).take size⟩
  else .error .ub

/-! ### column -/

/-- column.hpp:21-102 `base_column`: a possibly null pointer to a model. -/
abbrev Column (C : Coercion) := Option (Model C)

/-- column.hpp:33 constructor from a list, 35 from a value and a size (`List.replicate`), 37-44 from ranges. -/
def Column.ofList {C : Coercion} (T : C.Ty) (l : List (C.Val T)) : Column C := some ⟨T, l⟩

/-- column.hpp:50 copy constructor: dereferences the model pointer. -/
def Column.copy (c : Column C) : Res (Column C) :=
  match c with
  | none => .error .ub
  | some m => .ok (some m.clone)

/-- column.hpp:46-48 partial copy: dereferences the model pointer. -/
def Column.partialCopy (A : Arith) (c : Column C) (first size : Nat) : Res (Column C) :=
  match c with
  | none => .error .ub
  | some m => do
    let m' ← m.partialClone A first size
    .ok (some m')

/-- column.hpp:54-58 copy assignment: the new value of the target. -/
def Column.copyAssign (_c src : Column C) : Column C :=
  match src with
  | none => none
  | some m => some m.clone

/-- column.hpp:52, 60 move construction and assignment: the target and the source afterwards. -/
def Column.move (src : Column C) : Column C × Column C := (src, none)

/-- column.hpp:62-67 `coerce<T>() &`: the outcome and the column afterwards. -/
def Column.coerce (c : Column C) (T : C.Ty) : Res Unit × Column C :=
  match c with
  | none => (.error (.exc .logic), c)
  | some m =>
    match m.coerce T with
    | .ok m' => (.ok (), some m')
    | .error e => (.error e, c)

/-- column.hpp:69 `can_coerce<T>()`. -/
def Column.canCoerce (c : Column C) (T : C.Ty) : Bool :=
  match c with
  | none => false
  | some m => m.canCoerce T

/-- column.hpp:71-76 `elements_type()`. -/
def Column.elementsType (c : Column C) : Res C.Ty :=
  match c with
  | none => .error (.exc .logic)
  | some m => .ok m.ty

/-- column.hpp:78-80 `size()`, `length()`. -/
def Column.size (c : Column C) : Nat :=
  match c with
  | none => 0
  | some m => m.size

/-- column.hpp:82-96 `data<T>()`: the elements the pointer refers to. -/
def Column.data (c : Column C) (T : C.Ty) : Res (List (C.Val T)) :=
  match c with
  | none => .error (.exc .logic)
  | some m => if h : m.ty = T then .ok (h ▸ m.vals) else .error (.exc .logic)

/-- dataframe/numeric.hpp:12-16 `to_column<T>(const column&)`: dereferences the model pointer. -/
def toColumn (c : Column C) (T : C.Ty) : Res (Column C) :=
  match c with
  | none => .error .ub
  | some m => do
    let m' ← m.coerce T
    .ok (some m')

/-- dataframe/numeric.hpp:18-23 `to_column<T>(column&&)`: the result; and the argument afterwards. -/
def toColumnRv (c : Column C) (T : C.Ty) : Res (Column C) × Column C :=
  match c.elementsType with
  | .error e => (.error e, c)
  | .ok t =>
    if t ≠ T then
      match c.coerce T with
      | (.ok (), c') => (.ok c'.move.1, c'.move.2)
      | (.error e, c') => (.error e, c')
    else (.ok c.move.1, c.move.2)

end Jules

import Verif.Model.Heap
import Verif.Model.Reshape
import Verif.Model.SignedRange
/-
Model of array/numeric.hpp:97-151 `cat` and 24-39 `seq`.
-/
namespace Jules

/-- An argument of `cat`: a scalar, or a sized range (a vector, a view, an expression, a standard container), given by
what reading each of its elements does.
array/numeric.hpp:99-110. -/
inductive CatArg (α : Type) where
  | one (v : α)
  | rng (elems : List (HM α α))

/-- array/numeric.hpp:112-123 `cat_size`. -/
def catSize : CatArg α → Nat
  | .one _ => 1
  | .rng l => l.length

/-- array/numeric.hpp:125-137 `cat_push`: for a range, `ranges::copy` into the back inserter of the builder. An
exception destroys the builder (it is a local variable of `cat`). Simplification: the copy of a scalar into the by-value
parameter of `cat_push` and the following move (which must not throw, builder.hpp:56) are one event. -/
def catPush (S : Nat → Bool) (chk : Bool) (b : Builder) : List (HM α α) → HM α Builder
  | [] => pure b
  | src :: rest => do
    let b' ← (do let v ← src
                 builderPush S chk b v : HM α Builder).cleanup (builderDtor b)
    catPush S chk b' rest

/-- The elements an argument pushes.
array/numeric.hpp:125-137. -/
def catElems : CatArg α → List (HM α α)
  | .one v => [pure v]
  | .rng l => l

/-- array/numeric.hpp:148 the fold over the arguments. -/
def catPushArgs (S : Nat → Bool) (chk : Bool) : Builder → List (CatArg α) → HM α Builder
  | b, [] => pure b
  | b, a :: as => do
    let b' ← catPush S chk b (catElems a)
    catPushArgs S chk b' as

/-- array/numeric.hpp:141-151 `cat`: the size is the left fold of the sizes of the arguments. Simplification: the sum is
exact (it exceeds 2^64 only if the arguments share storage, e.g. millions of copies of one huge view). -/
def catArr (S : Nat → Bool) (chk : Bool) (args : List (CatArg α)) : HM α Own := do
  let b ← builderNew S [args.foldl (fun n a => n + catSize a) 0]
  let b' ← catPushArgs S chk b args
  arrayFromBuilder chk b'

/-! ### seq -/

/-- The value is representable in `distance_t` (core/type.hpp:69, a signed 64-bit integer). -/
def fitsI64 (x : Int) : Bool := decide (-2 ^ 63 ≤ x) && decide (x < 2 ^ 63)

/-- A signed 64-bit operation: undefined when the result is not representable.
Arithmetic of `distance_t`, array/numeric.hpp:26-32. -/
def i64 (x : Int) : Res Int := if fitsI64 x then .ok x else .error .ub

/-- `std::vector<index_t>::max_size()` (PTRDIFF_MAX / sizeof(index_t)); `reserve` throws `std::length_error` beyond.
`std::vector<index_t>::max_size()`, array/numeric.hpp:33. -/
def vecMax : Nat := (2 ^ 63 - 1) / 8

/-- The loop array/numeric.hpp:35-36, `n` iterations left: `i` advances modulo 2^64. -/
def seqLoop (step : Int) : Nat → Nat → List Nat
  | 0, _ => []
  | n + 1, i => i :: seqLoop step n ((i + toU64 step) % W64)

/-- array/numeric.hpp:24-39 `seq(start, stop, step)`. The division truncates. Simplification: `reserve` throws
`std::length_error` (a `std::logic_error`) for sizes above `vecMax`; that it may throw `std::bad_alloc` for smaller ones is not
modelled. -/
def seqV (chk : Bool) (start stop : Nat) (step : Int) : Res (List Nat) := do
  dbg chk (step != 0)
  dbg chk (decide (start ≤ stop) || decide (step < 0))
  dbg chk (decide (start ≥ stop) || decide (step > 0))
  let d ← i64 (toSigned stop - toSigned start)
  if step = 0 then .error .ub
  else do
    let q ← i64 (d.tdiv step)
    let s ← i64 (q + 1)
    let size := toU64 s
    if size > vecMax then .error (.exc .logic)
    else .ok (seqLoop step size start)

end Jules

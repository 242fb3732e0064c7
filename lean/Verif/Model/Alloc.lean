import Verif.Model.Slicing
/-
Model of the computation of the allocation size (base/numeric.hpp `prod_args`, array/array.hpp `allocate_tag`) and of
array/slicing/relative.hpp.
-/
namespace Jules

/-! ### prod_args -/

/-- The integer types of C++ on the platforms considered: 8, 16, 32 and 64 bits, signed or unsigned.
The types of the arguments of array.hpp:377-380. -/
structure IntTy where
  bits : Nat
  signed : Bool
  deriving DecidableEq, Repr

/-- Which types exist.
The types of the arguments of array.hpp:377-380. -/
def IntTy.Ok (t : IntTy) : Prop := t.bits = 8 ∨ t.bits = 16 ∨ t.bits = 32 ∨ t.bits = 64

/-- The value is one of the type.
Language semantics. -/
def IntTy.holds (t : IntTy) (z : Int) : Bool :=
  if t.signed then decide (-2 ^ (t.bits - 1) ≤ z) && decide (z < 2 ^ (t.bits - 1)) else decide (0 ≤ z) && decide (z < 2 ^ t.bits)

/-- Integral promotion: types smaller than `int` become `int`.
Language semantics. -/
def IntTy.promote (t : IntTy) : IntTy := if t.bits < 32 then ⟨32, true⟩ else t

/-- The usual arithmetic conversions: the wider type, the unsigned one of equally wide types.
Language semantics. -/
def IntTy.common (s t : IntTy) : IntTy :=
  let s := s.promote
  let t := t.promote
  if s.bits < t.bits then t else if t.bits < s.bits then s else ⟨s.bits, s.signed && t.signed⟩

/-- Conversion to a type: modulo 2^bits for unsigned types. (To a signed type only values of it are converted here.)
Language semantics. -/
def IntTy.conv (t : IntTy) (z : Int) : Int := if t.signed then z else z % 2 ^ t.bits

/-- A value of an integer type.
An argument of array.hpp:377-380. -/
structure TInt where
  ty : IntTy
  val : Int
  deriving DecidableEq, Repr

/-- `a * b` of C++: overflow of a signed type is undefined.
The `*` of base/numeric.hpp:483. -/
def TInt.mul (a b : TInt) : Res TInt :=
  let t := a.ty.common b.ty
  let z := t.conv a.val * t.conv b.val
  if t.signed then (if t.holds z then .ok ⟨t, z⟩ else .error .ub) else .ok ⟨t, t.conv z⟩

/-- base/numeric.hpp:481-484 `prod_args`: a right fold; the innermost operand is the last argument itself (39-45). -/
def prodArgs : List TInt → Res TInt
  | [] => .error .illFormed
  | [a] => .ok a
  | a :: as => do
    let r ← prodArgs as
    a.mul r

/-- Conversion to `index_t`.
The `static_cast` of array.hpp:379. -/
def TInt.toIndex (a : TInt) : Nat := (a.val % 2 ^ 64).toNat

/-- array.hpp:377-380 the number of elements allocated by `array(dims...)`: the argument of `allocate`, converted to `size_type`. -/
def allocSize (dims : List TInt) : Res Nat := do
  let r ← prodArgs dims
  .ok r.toIndex

/-- array.hpp:379 the extents of the array. -/
def dimsExtents (dims : List TInt) : List Nat := dims.map TInt.toIndex

/-! ### Relative slices -/

/-- slicing/relative.hpp:16-49 `relative_index`: `size`, `e - k`, `e / k`. -/
inductive RelIdx where
  | size
  | sub (e : RelIdx) (k : Nat)
  | div (e : RelIdx) (k : Nat)
  deriving DecidableEq, Repr

/-- slicing/relative.hpp:23, 38-49 `operator()(size)`, in `index_t`; a division by zero is undefined. -/
def RelIdx.eval : RelIdx → Nat → Res Nat
  | .size, d => .ok d
  | .sub e k, d => do
    let x ← e.eval d
    .ok (usub x k)
  | .div e k, d => do
    let x ← e.eval d
    if k = 0 then .error .ub else .ok (x / k)

/-- slicing/relative.hpp:82-87 `eval` of a relative (strided) slice: an absolute one. -/
def evalRelative (start : Nat) (extent : RelIdx) (stride : Nat) (size : Nat) : Res (Nat × Nat × Nat) := do
  let x ← extent.eval size
  .ok (start, x, stride)

end Jules

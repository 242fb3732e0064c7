import Verif.Model.Slicing
/-
Index ranges whose elements are signed integers: slicing.hpp:264-270 with base/numeric.hpp:78-92 and the
conversion of `index_view` (index_view.hpp:42-54).
-/
namespace Jules

/-- base/numeric.hpp:78-92 `max(rng)` for `int`/`long` elements; `unbounded_min()` is the least value
(`lo`) of the type (core/type.hpp:246-265). -/
def maxSigned (lo : Int) (l : List Int) : Int := l.foldl (fun s x => if s < x then x else s) lo

/-- Conversion of a signed integer to `index_t`: modulo 2^64. -/
def toU64 (z : Int) : Nat := (z % (W64 : Int)).toNat

/-- slicing.hpp:264-270 `array_at(data, desc, rng)` for a one-dimensional array and a range of signed
integers: the bound check compares the *signed* maximum converted to `index_t`; the elements are converted
one by one by `index_view`. -/
def crefIndexSigned (A : Arith) (chk : Bool) (off e : Nat) (lo : Int) (l : List Int) : Res Obj := do
  dbg chk (toU64 (maxSigned lo l) < e)
  let m ← Mapper.mkVec A chk [l.length] (l.map toU64)
  .ok (.sref off m)

end Jules

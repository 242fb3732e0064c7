import Verif.Model.Stored
/-
Arithmetic of the iterators of arrays and views: detail/iterator.hpp:46-67. (The iterators themselves: `SIt`, Model/Stored.lean. The
iterators of expressions have no arithmetic: unary_expr_array.hpp:32-75, binary_expr_array.hpp:35-83.)
-/
namespace Jules

/-- `n` increments: `std::next(it, n)` for an iterator that is not random access (detail/iterator.hpp:59). -/
def SIt.nextN (A : Arith) (σ : Store α) : Nat → SIt → Res SIt
  | 0, it => .ok it
  | n + 1, it => do
    let it' ← it.next A σ
    it'.nextN A σ n

/-- `it + n` for `n ≥ 0`: detail/iterator.hpp:59; pointers: of contiguous views (ref_array.hpp:163-170) and inside the iterators of
index-mapped views (mapper.hpp:80-81). -/
def SIt.plus (A : Arith) (σ : Store α) (it : SIt) (n : Nat) : Res SIt :=
  match it with
  | .ptr p => .ok (.ptr (A.add p n))
  | .lst off obj k => .ok (.lst off obj (k + n))
  | .one off t p => (SIt.one off t p).nextN A σ n
  | .gen off obj idx => (SIt.gen off obj idx).nextN A σ n
  | _ => .error .illFormed

/-- `it - n` for `n ≥ 0`: detail/iterator.hpp:61. `std::prev` of the forward iterators of strided descriptors
(strided_descriptor.hpp:35, 205) with `n > 0` is undefined. (`--it`, detail/iterator.hpp:46-57, does not compile for them.) -/
def SIt.minus (it : SIt) (n : Nat) : Res SIt :=
  match it with
  | .ptr p => .ok (.ptr (p - n))
  | .lst off obj k => .ok (.lst off obj (k - n))
  | .one off t p => if n = 0 then .ok (.one off t p) else .error .ub
  | .gen off obj idx => if n = 0 then .ok (.gen off obj idx) else .error .ub
  | _ => .error .illFormed

/-- `while (first != last) { ++first; ++n; }`, `std::distance` of forward iterators (detail/iterator.hpp:67), for at most `fuel` tests. -/
def SIt.countTo (A : Arith) (σ : Store α) (last : SIt) : (fuel : Nat) → SIt → Res Nat
  | 0, _ => .error .outOfFuel
  | fuel + 1, it =>
    if it.eq last then .ok 0
    else do
      let it' ← it.next A σ
      let n ← countTo A σ last fuel it'
      .ok (n + 1)

/-- `last - first`: detail/iterator.hpp:67; pointers as in `SIt.plus`. -/
def SIt.minusIt (A : Arith) (σ : Store α) (fuel : Nat) (last first : SIt) : Res Int :=
  match last, first with
  | .ptr p, .ptr q => .ok ((p : Int) - q)
  | .lst _ _ k, .lst _ _ j => .ok ((k : Int) - j)
  | .one off t p, .one off' t' q => do
    let n ← (SIt.one off t p).countTo A σ fuel (.one off' t' q)
    .ok (n : Int)
  | .gen off obj i, .gen off' obj' j => do
    let n ← (SIt.gen off obj i).countTo A σ fuel (.gen off' obj' j)
    .ok (n : Int)
  | _, _ => .error .illFormed

end Jules

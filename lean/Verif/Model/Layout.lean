import Verif.Basic
/-
Model of array/descriptor.hpp and array/strided_descriptor.hpp.

`std::array<index_t, N>` is a list of length N.
-/
namespace Jules

/-- The parameters of the model: addition and multiplication of `index_t` (`std::size_t`, 64 bits; core/type.hpp `index_t`) and
whether failed checks throw (`JULES_DEBUG_THROWS`, core/debug.hpp:60-64), which inside a `noexcept` function is `std::terminate`.
`Arith.exact` is mathematical arithmetic, `Arith.u64` wraps.
core/type.hpp:57, core/debug.hpp:60-64. -/
structure Arith where
  add : Nat → Nat → Nat
  mul : Nat → Nat → Nat
  throws : Bool

/-- Exact arithmetic (no wrap-around); failed checks are fatal.
The idealisation of core/type.hpp:57. -/
def Arith.exact : Arith := ⟨(· + ·), (· * ·), false⟩

/-- Exact arithmetic (no wrap-around); failed checks throw.
The idealisation of core/type.hpp:57, with core/debug.hpp:63. -/
def Arith.exactThrows : Arith := ⟨(· + ·), (· * ·), true⟩

/-- 2^64.
The range of core/type.hpp:57. -/
abbrev W64 : Nat := 2 ^ 64

/-- C++ unsigned 64-bit arithmetic (`index_t`, core/type.hpp:57). -/
def Arith.u64 : Arith := ⟨fun a b => (a + b) % W64, fun a b => (a * b) % W64, false⟩

/-- Unsigned 64-bit subtraction `a - b` (wraps when `a < b`); used by both arithmetics.
The subtractions of `index_t` (core/type.hpp:57) in slicing.hpp:63, 159, 279, 379 and slicing/relative.hpp:40. -/
def usub (a b : Nat) : Nat := if b ≤ a then a - b else a + W64 - b

@[simp] theorem Arith.exact_add (a b : Nat) : Arith.exact.add a b = a + b := rfl
@[simp] theorem Arith.exact_mul (a b : Nat) : Arith.exact.mul a b = a * b := rfl

/-- The body of a `noexcept` function: when failed checks throw, the exception does not leave it (`std::terminate`). Without
JULES_DEBUG_THROWS a failed check is fatal anyway. Used at strided_descriptor.hpp:98-107, mapper.hpp:83-95, ref_array.hpp:212-217. -/
def inNoexcept (A : Arith) (r : Res β) : Res β :=
  match r with
  | .error .assert => .error (if A.throws then .terminate else .assert)
  | r => r

@[simp] theorem inNoexcept_exact (r : Res β) : inNoexcept Arith.exact r = r := by
  unfold inNoexcept; split <;> rfl
@[simp] theorem inNoexcept_u64 (r : Res β) : inNoexcept Arith.u64 r = r := by
  unfold inNoexcept; split <;> rfl
@[simp] theorem inNoexcept_ok (A : Arith) (b : β) : inNoexcept A (.ok b : Res β) = .ok b := rfl
theorem inNoexcept_eq_ok {A : Arith} {r : Res β} {b : β} : inNoexcept A r = .ok b ↔ r = .ok b := by
  unfold inNoexcept; split <;> simp

/-- base/numeric.hpp:201-205 `prod(std::array)` with 32-37 `prod_impl`: left fold of `*` from the
multiplicative identity (used by `descriptor::size`, descriptor.hpp:40, and `strided_descriptor::size`, strided_descriptor.hpp:119). -/
def prodL (A : Arith) (l : List Nat) : Nat := l.foldl A.mul 1

/-- descriptor.hpp:69-75: the general loop over dimensions (`stride`, `pos` loop variables). -/
def Desc.posLoop (A : Arith) : (ext idx : List Nat) → (stride pos : Nat) → Nat
  | e :: es, i :: is, stride, pos => posLoop A es is (A.mul stride e) (A.add pos (A.mul stride i))
  | _, _, _, pos => pos

/-- descriptor.hpp:62-77 `descriptor::operator()`: three `if constexpr` branches on N. -/
def Desc.pos (A : Arith) (ext idx : List Nat) : Nat :=
  match ext, idx with
  | [_], [i] => i
  | [e, _], [i, j] => A.add i (A.mul e j)
  | ext, idx => Desc.posLoop A ext idx 1 0

/-- strided_descriptor.hpp:171-173: the data members of `strided_descriptor<N>`. -/
structure SDesc where
  start : Nat
  ext : List Nat
  strides : List Nat
  deriving DecidableEq, Repr

/-- strided_descriptor.hpp:128-131 `std::inner_product(indexes, strides, start)`; for N = 1
strided_descriptor.hpp:276-279 computes `start + index * strides[0]`, the same expression. -/
def dot (A : Arith) : (idx strides : List Nat) → (init : Nat) → Nat
  | i :: is, t :: ts, init => dot A is ts (A.add init (A.mul i t))
  | _, _, init => init

/-- strided_descriptor.hpp:128-131, 276-279 `strided_descriptor::operator()`. -/
def SDesc.pos (A : Arith) (d : SDesc) (idx : List Nat) : Nat := dot A idx d.strides d.start

/-- strided_descriptor.hpp:119, 270 `size()`. -/
def SDesc.size (A : Arith) (d : SDesc) : Nat :=
  match d.ext with
  | [e] => e
  | ext => prodL A ext

/-- strided_descriptor.hpp:98-107: the loop inferring the strides (`tmp` loop variable). -/
def inferStrides (A : Arith) (chk : Bool) : (ext : List Nat) → (tmp : Nat) → Res (List Nat)
  | [], _ => .ok []
  | e :: es, tmp => do
    dbg chk (e != 0)
    let rest ← inferStrides A chk es (A.mul tmp e)
    .ok (tmp :: rest)

/-- strided_descriptor.hpp:98-107 constructor `(start, extents)`, `noexcept`; for N = 1 lines 258, 295: the stride
defaults to 1 and nothing is asserted. -/
def SDesc.mk' (A : Arith) (chk : Bool) (start : Nat) (ext : List Nat) : Res SDesc :=
  match ext with
  | [e] => .ok ⟨start, [e], [1]⟩
  | ext => do
    let ts ← inNoexcept A (inferStrides A chk ext 1)
    .ok ⟨start, ext, ts⟩

/-- strided_descriptor.hpp:139-142, 183-187 `discard_dimension`. (N = 1 has no such member.) -/
def SDesc.discard (d : SDesc) : Res SDesc :=
  match d.ext, d.strides with
  | _ :: e :: es, _ :: t :: ts => .ok ⟨d.start, e :: es, t :: ts⟩
  | _, _ => .error .illFormed

/-! ### Iteration -/

/-- strided_descriptor.hpp:49-61 `iterator::operator++`: loop over all but the last dimension with
wrap-around modulo the extent, carrying into the last one. Modulo by a zero extent is UB.
(The increment itself cannot overflow while the index is below an extent.) -/
def incr : (ext idx : List Nat) → Res (List Nat)
  | [_], [i] => .ok [i + 1]
  | e :: es, i :: is =>
    if e = 0 then .error .ub
    else
      let i' := (i + 1) % e
      if i' ≠ 0 then .ok (i' :: is)
      else do
        let r ← incr es is
        .ok (i' :: r)
  | _, _ => .error .illFormed

/-- strided_descriptor.hpp:176-181 `end_index_impl`: zero except in the last dimension. -/
def endIndex : List Nat → List Nat
  | [] => []
  | [e] => [e]
  | _ :: es => 0 :: endIndex es

/-- The loop `for (it = begin(); it != end(); ++it) out(*it)` of the generic iterator
(strided_descriptor.hpp:49-81, 133-137), with fuel bounding the number of tests. Comparison is
`operator==` on the multi-index (line 71), dereference is `operator*` (line 75). -/
def iterGen (A : Arith) (d : SDesc) : (fuel : Nat) → (idx : List Nat) → Res (List Nat)
  | 0, _ => .error .outOfFuel
  | fuel + 1, idx =>
    if idx = endIndex d.ext then .ok []
    else do
      let next ← incr d.ext idx
      let rest ← iterGen A d fuel next
      .ok (d.pos A idx :: rest)

/-- The same loop for the one-dimensional specialisation (strided_descriptor.hpp:201-240, 281-285):
the iterator is the position itself and is compared as such. -/
def iterOne (A : Arith) (stride stop : Nat) : (fuel : Nat) → (pos : Nat) → Res (List Nat)
  | 0, _ => .error .outOfFuel
  | fuel + 1, pos =>
    if pos = stop then .ok []
    else do
      let rest ← iterOne A stride stop fuel (A.add pos stride)
      .ok (pos :: rest)

/-- strided_descriptor.hpp:133-137, 281-285: all positions visited by iterating a strided descriptor from `begin()` to `end()`. -/
def SDesc.positions (A : Arith) (d : SDesc) (fuel : Nat) : Res (List Nat) :=
  match d.ext, d.strides with
  | [e], [t] => iterOne A t (A.add d.start (A.mul t e)) fuel d.start
  | [], _ => .error .illFormed
  | _, _ => iterGen A d fuel (d.ext.map fun _ => 0)

end Jules

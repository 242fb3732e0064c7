import Verif.Model.Memory
import Verif.Model.Numeric
/-
When the functions given by the user are called: `apply`, expressions over such functions, in-place `apply`, and everything that consumes
expressions. A call is an event in a log; what it returns may depend on all earlier calls (functions with state, shared by several
functions or not). Two cases of order are open in C++ and are decided by the environment here: the operands of a binary expression are
evaluated in either order (they are arguments of one call, binary_expr_array.hpp:75).
Simplification: the functions do not themselves change elements of arrays (except, in place, the one they are given) and do not throw
(exceptions: Model/Throwing.lean, C67).
-/
namespace Jules

/-- A call of a user's function: which function (which `Op` object of the expression), and its arguments.
expr_array.hpp:44 `operate`, functional.hpp:61, 91. -/
structure Call (α : Type) where
  fn : Nat
  args : List α
  deriving DecidableEq

/-- The calls made so far, first to last.
expr_array.hpp:44 `operate`, functional.hpp:61, 91. -/
abbrev Log (α : Type) := List (Call α)

/-- The user's functions: what a call returns after the calls made so far, and which operand of a binary expression is evaluated first.
expr_array.hpp:44 `operate`, binary_expr_array.hpp:75. -/
structure Users (α : Type) where
  resp : Log α → Call α → α
  leftFirst : Log α → Bool

/-- Calling a function: its result and the log afterwards.
expr_array.hpp:44 `operate`, functional.hpp:61, 91. -/
def Users.call (U : Users α) (fn : Nat) (args : List α) (h : Log α) : α × Log α := (U.resp h ⟨fn, args⟩, h ++ [⟨fn, args⟩])

/-- Expressions over user functions.
The expressions built by functional.hpp:46-71. -/
inductive CEx (L : Type) where
  /-- an array or view. -/
  | leaf (l : L)
  /-- `apply(e, f)`: functional.hpp:46-49. -/
  | un (f : Nat) (e : CEx L)
  /-- `apply(a, b, f)`: functional.hpp:65-71. -/
  | bin (f : Nat) (a b : CEx L)

/-- Their iterators: unary_expr_array.hpp:32-75, binary_expr_array.hpp:35-83. -/
inductive CIt where
  | cells (ps : List Nat)
  | map (f : Nat) (it : CIt)
  | zip (f : Nat) (l r : CIt)

/-- `*(begin + k)`: unary_expr_array.hpp:68, binary_expr_array.hpp:75, detail/iterator.hpp:69. Nothing is kept: dereferencing again calls
again. -/
def CIt.deref (U : Users α) (m : Mem α) : CIt → Nat → Log α → Res (α × Log α)
  | .cells ps, k, h => match ps[k]? with
    | some p => do
      let x ← m.read p
      .ok (x, h)
    | none => .error .ub
  | .map f it, k, h => do
    let r ← it.deref U m k h
    .ok (U.call f [r.1] r.2)
  | .zip f l r, k, h =>
    if U.leftFirst h then do
      let x ← l.deref U m k h
      let y ← r.deref U m k x.2
      .ok (U.call f [x.1, y.1] y.2)
    else do
      let y ← r.deref U m k h
      let x ← l.deref U m k y.2
      .ok (U.call f [x.1, y.1] x.2)

/-- The number of increments after which `begin` compares equal to `end`; comparing calls nothing.
unary_expr_array.hpp:64, binary_expr_array.hpp:71. -/
def CIt.count : CIt → Option Nat
  | .cells ps => some ps.length
  | .map _ it => it.count
  | .zip _ l r => match l.count, r.count with
    | some a, some b => if a = b then some a else none
    | _, _ => none

/-- A source of elements: `dimensions()` and `begin()`.
unary_expr_array.hpp:82-84, binary_expr_array.hpp:88-95, expr_array.hpp. -/
structure CObj where
  dims : List Nat
  it : CIt

/-- Creating the expression: functional.hpp:46-49, 65-71. No function is called (there is no log here); the simplifications are those of
`Ex.build`. -/
def CEx.build (A : Arith) (chk : Bool) : CEx Obj → Res CObj
  | .leaf o => match o.dims with
    | none => .error .illFormed
    | some d => do
      let ps ← o.positions A
      .ok ⟨d, .cells ps⟩
  | .un f e => do
    let x ← e.build A chk
    .ok ⟨x.dims, .map f x.it⟩
  | .bin f a b => do
    let x ← a.build A chk
    let y ← b.build A chk
    if x.dims.length ≠ y.dims.length then .error .illFormed
    else do
      dbg chk (x.dims == y.dims)
      .ok ⟨x.dims, .zip f x.it y.it⟩

/-! ### Arrays from expressions, assignment -/

/-- The values of `n` elements from the `k`-th on, in order.
`std::uninitialized_copy_n`, allocator.hpp:40-44. -/
def copyLoopC (U : Users α) (m : Mem α) (it : CIt) : Nat → Nat → Log α → Res (List α × Log α)
  | 0, _, h => .ok ([], h)
  | n + 1, k, h => do
    let r ← it.deref U m k h
    let rs ← copyLoopC U m it n (k + 1) r.2
    .ok (r.1 :: rs.1, rs.2)

/-- array.hpp:218-231 `array(const common_array_base&)`; also `eval`, unary_expr_array.hpp:113-117, binary_expr_array.hpp:121-126. -/
def newArrayC (A : Arith) (U : Users α) (src : CObj) (m : Mem α) (fresh : Nat) (h : Log α) : Res ((Mem α × Arr) × Log α) := do
  let r ← copyLoopC U m src.it (prodL A src.dims) 0 h
  .ok ((m.setMany fresh r.1, ⟨fresh, src.dims⟩), r.2)

/-- The loop of elementwise writes, `updLoop` with calls.
The loops of array/detail/common.hpp:22-36 and functional.hpp:51-63, 81-94. -/
def updLoopC (g : Nat → Nat → Mem α → Log α → Res (α × Log α)) : Nat → List Nat → Mem α → Log α → Res (Mem α × Log α)
  | _, [], m, h => .ok (m, h)
  | k, p :: ps, m, h => do
    let r ← g k p m h
    let m' ← m.write p r.1
    updLoopC g (k + 1) ps m' r.2

/-- detail/common.hpp:22-36 `array_assign`; `view = expression`, ref_array.hpp:70-74, strided_ref_array.hpp:76-80. -/
def arrayAssignC (A : Arith) (chk : Bool) (U : Users α) (dest : Obj) (src : CObj) (m : Mem α) (h : Log α) : Res (Mem α × Log α) :=
  match dest.dims with
  | none => .error .illFormed
  | some d =>
    if src.dims.length ≠ d.length then .error .illFormed
    else do
      dbg chk (src.dims == d)
      let ps ← dest.positions A
      let r ← updLoopC (fun k _ m h => src.it.deref U m k h) 0 ps m h
      dbg chk (src.it.count == some ps.length)
      .ok r

/-- array.hpp:318-344 `array = expression`. -/
def arrayAssignExprC (A : Arith) (U : Users α) (a : Arr) (src : CObj) (m : Mem α) (fresh : Nat) (h : Log α) : Res ((Mem α × Arr) × Log α) :=
  if prodL A a.ext = prodL A src.dims then
    match src.it.count with
    | none => .error .ub
    | some n =>
      if prodL A a.ext < n then .error .ub
      else do
        let r ← updLoopC (fun k _ m h => src.it.deref U m k h) 0 ((List.range n).map (A.add a.base ·)) m h
        .ok ((r.1, ⟨a.base, src.dims⟩), r.2)
  else do
    let r ← newArrayC A U src m fresh h
    .ok ((r.1.1.free a.base (prodL A a.ext), r.1.2), r.2)

/-- overlap.hpp:17-22 `overlap(view) = expression`. -/
def overlapViewC (A : Arith) (chk : Bool) (U : Users α) (dest : Obj) (src : CObj) (m : Mem α) (fresh : Nat) (h : Log α) :
    Res (Mem α × Log α) := do
  let r ← newArrayC A U src m fresh h
  let m'' ← assignView A chk dest (.leaf (.cref r.1.2.base r.1.2.ext)) r.1.1
  .ok (m''.free r.1.2.base (prodL A r.1.2.ext), r.2)

/-- functional.hpp:51-63 `apply(in_place, view, op)`; the call's result is the new value of the element it is given. -/
def applyInPlaceC (A : Arith) (U : Users α) (dest : Obj) (f : Nat) (m : Mem α) (h : Log α) : Res (Mem α × Log α) := do
  let ps ← dest.positions A
  updLoopC (fun _ p m h => do
    let x ← m.read p
    .ok (U.call f [x] h)) 0 ps m h

/-- functional.hpp:73-94 `apply(in_place, view, expression, op)`. -/
def inPlaceExprC (A : Arith) (chk : Bool) (U : Users α) (dest : Obj) (f : Nat) (src : CObj) (m : Mem α) (h : Log α) :
    Res (Mem α × Log α) :=
  match dest.dims with
  | none => .error .illFormed
  | some d =>
    if d.length ≠ src.dims.length then .error .illFormed
    else do
      dbg chk (d == src.dims)
      let ps ← dest.positions A
      updLoopC (fun k p m h => do
        let r ← src.it.deref U m k h
        let x ← m.read p
        .ok (U.call f [x, r.1] r.2)) 0 ps m h

/-! ### Reductions of expressions -/

/-- base/numeric.hpp:214-221 `sum`: `start += *first` for each element; also `prod` (185-192, `*=`), `count` (363-371, `if (*first) ++n`), `which` (401-410)
and the copy of `nth` (337-339). `n` elements from the `k`-th on. -/
def foldC (U : Users α) (m : Mem α) (it : CIt) (op : β → α → β) : Nat → Nat → β → Log α → Res (β × Log α)
  | 0, _, s, h => .ok (s, h)
  | n + 1, k, s, h => do
    let r ← it.deref U m k h
    foldC U m it op n (k + 1) (op s r.1) r.2

/-- base/numeric.hpp:78-86 `max` and 101-116 `which_max`: `if (start < *first) start = *first;`, with two dereferences; also `min` (131-139)
and `which_min` (155-170) with the order reversed. The result is the value and its position (`best`). -/
def maxC (U : Users α) (m : Mem α) (it : CIt) (lt : α → α → Bool) : Nat → Nat → α → Nat → Log α → Res ((α × Nat) × Log α)
  | 0, _, s, best, h => .ok ((s, best), h)
  | n + 1, k, s, best, h => do
    let r ← it.deref U m k h
    if lt s r.1 then do
      let r' ← it.deref U m k r.2
      maxC U m it lt n (k + 1) r'.1 k r'.2
    else maxC U m it lt n (k + 1) s best r.2

/-- base/numeric.hpp:424-431 `all`: returns at the first element that is not true; also `none` (445-452) and `any` (466-473), which return
at the first element that is true. `stop` says which elements end the loop; the result says whether one did. -/
def untilC (U : Users α) (m : Mem α) (it : CIt) (stop : α → Bool) : Nat → Nat → Log α → Res (Bool × Log α)
  | 0, _, h => .ok (false, h)
  | n + 1, k, h => do
    let r ← it.deref U m k h
    if stop r.1 then .ok (true, r.2) else untilC U m it stop n (k + 1) r.2

/-- base/numeric.hpp:257-268 `var` (and `sd`, 282-287, `meansd`, 306-318): the distance (no dereferences), the mean (one pass: 236-241), the squared deviations (a second pass).
The arithmetic is a parameter: `add`, the mean `fin`, `acc` (`result += square(*it - mu)`). -/
def varC (U : Users α) (m : Mem α) (it : CIt) (n : Nat) (start : β) (add : β → α → β) (fin : β → γ) (acc : γ → β → α → β) (h : Log α) :
    Res ((γ × β) × Log α) := do
  let s ← foldC U m it add n 0 start h
  let d ← foldC U m it (acc (fin s.1)) n 0 start s.2
  .ok ((fin s.1, d.1), d.2)

end Jules

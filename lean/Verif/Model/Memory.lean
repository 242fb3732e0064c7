import Verif.Model.Slicing
/-
Model of reading and writing arrays, views and lazy expressions: detail/common.hpp:22-36,
ref_array.hpp:70-90, 163-170, strided_ref_array.hpp:76-95, unary_expr_array.hpp, binary_expr_array.hpp,
functional.hpp, overlap.hpp, and the value part of array.hpp:206-220 and 279-344.

Memory is a partial map from addresses (in units of elements) to values; an address outside every live
array has no value and touching it is undefined behaviour. Element copies, assignments and the operators
are pure and do not throw here (exceptions are in the lifetime model, Model/Heap.lean).
-/
namespace Jules

/-- Memory cells of live arrays.
The cells the views of ref_array.hpp and strided_ref_array.hpp point to. -/
abbrev Mem (α : Type) := Nat → Option α

/-- Reading a cell.
`data_[i]`, detail/iterator.hpp:69. -/
def Mem.read (m : Mem α) (p : Nat) : Res α :=
  match m p with
  | some x => .ok x
  | none => .error .ub

/-- The memory with cell `p` changed.
`data_[i] = x`, detail/iterator.hpp:69. -/
def Mem.set (m : Mem α) (p : Nat) (x : α) : Mem α := fun q => if q = p then some x else m q

/-- Assigning to a cell.
`data_[i] = x`, detail/iterator.hpp:69. -/
def Mem.write (m : Mem α) (p : Nat) (x : α) : Res (Mem α) :=
  match m p with
  | some _ => .ok (m.set p x)
  | none => .error .ub

/-- Syntax of array expressions over leaves `L` (the operands that are arrays or views), as written by
the user with the operators and functions of functional.hpp and math.hpp. Simplification: all operators
act on one type of values (take a sum type for mixed expressions); operators are pure.
The expressions built by functional.hpp:46-71, 131-170, 189-194. -/
inductive Ex (L α : Type) where
  /-- an array or view. -/
  | leaf (l : L)
  /-- `apply(e, f)`: functional.hpp:46-49; the unary operators 189-194 and array/math.hpp:14-48. -/
  | un (f : α → α) (e : Ex L α)
  /-- `apply(a, b, f)`: functional.hpp:65-71; the binary operators 131-137. -/
  | bin (f : α → α → α) (a b : Ex L α)

/-- functional.hpp:20-31 `left_operation`: `op(lhs, x)`. -/
def leftOperation (lhs : α) (op : α → α → α) : α → α := fun x => op lhs x

/-- functional.hpp:33-44 `right_operation`: `op(x, rhs)`. -/
def rightOperation (rhs : α) (op : α → α → α) : α → α := fun x => op x rhs

/-- functional.hpp:164-170 `scalar OP array`. -/
def Ex.scalarLeft (op : α → α → α) (lhs : α) (e : Ex L α) : Ex L α := .un (leftOperation lhs op) e

/-- functional.hpp:156-162 `array OP scalar`. -/
def Ex.scalarRight (op : α → α → α) (e : Ex L α) (rhs : α) : Ex L α := .un (rightOperation rhs op) e

/-- Iterators: pointers or `iterator_from_indexes` (the cells still to be visited, from the beginning),
unary_expr_array.hpp:32-75, binary_expr_array.hpp:35-83. -/
inductive It (α : Type) where
  | cells (ps : List Nat)
  | map (f : α → α) (it : It α)
  | zip (f : α → α → α) (l r : It α)

/-- `*(begin + k)`: unary_expr_array.hpp:68, binary_expr_array.hpp:75, detail/iterator.hpp:69. The
iterators inside a binary expression advance together. Dereferencing past the end is undefined. -/
def It.deref (m : Mem α) : It α → Nat → Res α
  | .cells ps, k => match ps[k]? with
    | some p => m.read p
    | none => .error .ub
  | .map f it, k => f <$> it.deref m k
  | .zip f l r, k => do
    let x ← l.deref m k
    let y ← r.deref m k
    .ok (f x y)

/-- The number of increments after which `begin` compares equal to `end` (`none`: never):
unary_expr_array.hpp:64, binary_expr_array.hpp:71 (both parts must be at their end at once). -/
def It.count : It α → Option Nat
  | .cells ps => some ps.length
  | .map _ it => it.count
  | .zip _ l r => match l.count, r.count with
    | some a, some b => if a = b then some a else none
    | _, _ => none

/-- A source of elements: `dimensions()` and `begin()`.
unary_expr_array.hpp:82-84, binary_expr_array.hpp:88-95, expr_array.hpp. -/
structure EObj (α : Type) where
  dims : List Nat
  it : It α

/-- Evaluate the C++ expression that creates the (lazy) source object. `apply` for two operands asserts
equal extents (functional.hpp:68-70) and takes the left operand's. Operands of different order do not
compile. Simplification: the positions visited by an operand's iterator are computed when the expression
is created (they do not depend on the elements); the expression is used within the same full expression,
so the temporaries it refers to are alive; `Model/Stored.lean` (C58) models what the iterators refer to. -/
def Ex.build (A : Arith) (chk : Bool) : Ex Obj α → Res (EObj α)
  | .leaf o => match o.dims with
    | none => .error .illFormed
    | some d => do
      let ps ← o.positions A
      .ok ⟨d, .cells ps⟩
  | .un f e => do
    let x ← e.build A chk
    .ok ⟨x.dims, .map f x.it⟩
  | .bin f a b => do
    let x ← a.build A chk
    let y ← b.build A chk
    if x.dims.length ≠ y.dims.length then .error .illFormed
    else do
      dbg chk (x.dims == y.dims)
      .ok ⟨x.dims, .zip f x.it y.it⟩

/-- The loop shared by all elementwise writes: for the `k`-th cell `p` of the target, compute a value
from the present memory and store it in `p`.
The loops of array/detail/common.hpp:22-36 and functional.hpp:51-63, 81-94. -/
def updLoop (g : Nat → Nat → Mem α → Res α) : Nat → List Nat → Mem α → Res (Mem α)
  | _, [], m => .ok m
  | k, p :: ps, m => do
    let x ← g k p m
    let m' ← m.write p x
    updLoop g (k + 1) ps m'

/-- detail/common.hpp:22-36 `array_assign`; the first `static_assert` (line 25) is about the orders. -/
def arrayAssign (A : Arith) (chk : Bool) (dest : Obj) (src : EObj α) (m : Mem α) : Res (Mem α) :=
  match dest.dims with
  | none => .error .illFormed
  | some d =>
    if src.dims.length ≠ d.length then .error .illFormed
    else do
      dbg chk (src.dims == d)
      let ps ← dest.positions A
      let m' ← updLoop (fun k _ m => src.it.deref m k) 0 ps m
      dbg chk (src.it.count == some ps.length)
      .ok m'

/-- `view = expression`: ref_array.hpp:70-74, 86-90, strided_ref_array.hpp:76-80, 91-95. -/
def assignView (A : Arith) (chk : Bool) (dest : Obj) (e : Ex Obj α) (m : Mem α) : Res (Mem α) := do
  let src ← e.build A chk
  arrayAssign A chk dest src m

/-- A scalar right-hand side is taken by reference: a value, or (a reference to) a memory cell.
The `const U&` of ref_array.hpp:77-83 and functional.hpp:172-187. -/
inductive Scalar (α : Type) where
  | val (x : α)
  | cell (p : Nat)

/-- Reading through the reference.
Reading the `const U&` of ref_array.hpp:77-83 and functional.hpp:172-187. -/
def Scalar.get (m : Mem α) : Scalar α → Res α
  | .val x => .ok x
  | .cell p => m.read p

/-- `view = scalar`: ref_array.hpp:77-83, strided_ref_array.hpp:83-88 (`ranges::fill` takes the value by
reference and assigns it to each element). -/
def fillView (A : Arith) (dest : Obj) (x : Scalar α) (m : Mem α) : Res (Mem α) := do
  let ps ← dest.positions A
  updLoop (fun _ _ m => x.get m) 0 ps m

/-- `apply(in_place, view, op)`: functional.hpp:51-63; `op` updates its argument. -/
def applyInPlace (A : Arith) (dest : Obj) (op : α → α) (m : Mem α) : Res (Mem α) := do
  let ps ← dest.positions A
  updLoop (fun _ p m => op <$> m.read p) 0 ps m

/-- `view OP= scalar`: functional.hpp:172-187; the lambda captures the scalar by reference. -/
def inPlaceScalar (A : Arith) (dest : Obj) (op : α → α → α) (x : Scalar α) (m : Mem α) : Res (Mem α) := do
  let ps ← dest.positions A
  updLoop (fun _ p m => do
    let a ← m.read p
    let b ← x.get m
    .ok (op a b)) 0 ps m

/-- `view OP= expression`: functional.hpp:73-94, 139-154. -/
def inPlaceExpr (A : Arith) (chk : Bool) (dest : Obj) (op : α → α → α) (e : Ex Obj α) (m : Mem α) :
    Res (Mem α) := do
  let src ← e.build A chk
  match dest.dims with
  | none => .error .illFormed
  | some d =>
    if d.length ≠ src.dims.length then .error .illFormed
    else do
      dbg chk (d == src.dims)
      let ps ← dest.positions A
      updLoop (fun k p m => do
        let a ← m.read p
        let b ← src.it.deref m k
        .ok (op a b)) 0 ps m

/-- An owning array: the address of its first element and its extents.
array.hpp: `data_` and the extents (ref_array.hpp:188-191). -/
structure Arr where
  base : Nat
  ext : List Nat
  deriving DecidableEq, Repr

/-- The memory with the cells `base, base+1, …` set to the given values.
allocator.hpp:40-44. -/
def Mem.setMany (m : Mem α) (base : Nat) (xs : List α) : Mem α := fun q =>
  if base ≤ q ∧ q < base + xs.length then xs[q - base]? else m q

/-- The memory without the cells `base … base+n-1`.
allocator.hpp:25, 63. -/
def Mem.free (m : Mem α) (base n : Nat) : Mem α := fun q => if base ≤ q ∧ q < base + n then none else m q

/-- array.hpp:218-231 `array(const common_array_base&)`: allocate at a
free address and copy-construct `size()` elements from the source's iterator
(`std::uninitialized_copy_n`, allocator.hpp:40-44). -/
def newArray (A : Arith) (src : EObj α) (m : Mem α) (fresh : Nat) : Res (Mem α × Arr) := do
  let xs ← (List.range (prodL A src.dims)).mapM (fun k => src.it.deref m k)
  .ok (m.setMany fresh xs, ⟨fresh, src.dims⟩)

/-- array.hpp:318-344 `array::operator=(const common_array_base&)`: with equal sizes `std::copy` from the
source's begin to its end over the own cells; otherwise construct a new block, then destroy and free the
old one. The pointer must be non-null here (see Model/Heap.lean for null ones). -/
def arrayAssignExpr (A : Arith) (a : Arr) (src : EObj α) (m : Mem α) (fresh : Nat) :
    Res (Mem α × Arr) :=
  if prodL A a.ext = prodL A src.dims then
    match src.it.count with
    | none => .error .ub
    | some n =>
      if prodL A a.ext < n then .error .ub
      else do
        let m' ← updLoop (fun k _ m => src.it.deref m k) 0 ((List.range n).map (A.add a.base ·)) m
        .ok (m', ⟨a.base, src.dims⟩)
  else do
    let (m', b) ← newArray A src m fresh
    .ok (m'.free a.base (prodL A a.ext), b)

/-- `array = expression`.
array.hpp:318-344. -/
def assignArray (A : Arith) (chk : Bool) (a : Arr) (e : Ex Obj α) (m : Mem α) (fresh : Nat) :
    Res (Mem α × Arr) := do
  let src ← e.build A chk
  arrayAssignExpr A a src m fresh

/-- array.hpp:279-305 `array::operator=(const array&)`: nothing when the two are the same object,
otherwise as for a general source (`begin()`/`data()` are the same pointer). -/
def assignArrayCopy (A : Arith) (a b : Arr) (same : Bool) (m : Mem α) (fresh : Nat) : Res (Mem α × Arr) :=
  if same then .ok (m, a)
  else arrayAssignExpr A a ⟨b.ext, .cells ((List.range (prodL A b.ext)).map (A.add b.base ·))⟩ m fresh

/-- overlap.hpp:17-22 `overlap(view) = e`: evaluate `e` into a new array, assign that to the view, destroy
the array. -/
def overlapView (A : Arith) (chk : Bool) (dest : Obj) (e : Ex Obj α) (m : Mem α) (fresh : Nat) :
    Res (Mem α) := do
  let src ← e.build A chk
  let (m', t) ← newArray A src m fresh
  let m'' ← assignView A chk dest (.leaf (.cref t.base t.ext)) m'
  .ok (m''.free t.base (prodL A t.ext))

/-- overlap.hpp:17-22 for a target that is a (non-const) array: the move assignment swaps
(array.hpp:308-314) and the temporary destroys the old elements. -/
def overlapArray (A : Arith) (chk : Bool) (a : Arr) (e : Ex Obj α) (m : Mem α) (fresh : Nat) :
    Res (Mem α × Arr) := do
  let src ← e.build A chk
  let (m', t) ← newArray A src m fresh
  .ok (m'.free a.base (prodL A a.ext), t)

end Jules

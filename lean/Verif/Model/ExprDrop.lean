import Verif.Model.Memory
import Verif.Model.Reshape
/-
`drop` and `drop_to` of lazy expressions, with the value categories of what iterators give: unary_expr_array.hpp:119-129,
binary_expr_array.hpp:128-140, base/numeric.hpp:47-52.

Model/Memory.lean has the other operations on expressions; there every dereference gives a value. Here it is an lvalue, a prvalue
(a new temporary) or a reference to a temporary that has been destroyed.
-/
namespace Jules

/-- The result of dereferencing an iterator: an element, a temporary, or a reference to a temporary that does not exist any more. -/
inductive EVal (α : Type) where
  | cell (p : Nat)
  | tmp (x : α)
  | dead
  deriving DecidableEq, Repr

/-- Using the result (initialising an element, passing it to an operator, inside the full expression that dereferences). -/
def EVal.get (m : Mem α) : EVal α → Res α
  | .cell p => m.read p
  | .tmp x => .ok x
  | .dead => .error .ub

/-- Iterators (see `It`), with those of expressions whose operation is `identity` (base/numeric.hpp:47-52). -/
inductive DIt (α : Type) where
  | cells (ps : List Nat)
  | map (f : α → α) (it : DIt α)
  | zip (f : α → α → α) (l r : DIt α)
  | fwd (it : DIt α)

/-- What `value_type operator*()` of the iterator of `drop(...)` and `apply(..., identity)` returns: `identity` returns the reference it is given
(base/numeric.hpp:49), and `value_type` is the type of that reference (unary_expr_array.hpp:26, 36, 68). An element is passed on; for a
prvalue the reference is to the temporary that held it, destroyed when `operator*` returns. -/
def EVal.forward : EVal α → EVal α
  | .cell p => .cell p
  | .tmp _ => .dead
  | .dead => .dead

/-- `*(begin + k)` (unary_expr_array.hpp:68, binary_expr_array.hpp:75, detail/iterator.hpp:69). -/
def DIt.deref (m : Mem α) : DIt α → Nat → Res (EVal α)
  | .cells ps, k => match ps[k]? with
    | some p => .ok (.cell p)
    | none => .error .ub
  | .map f it, k => do
    let v ← it.deref m k
    let x ← v.get m
    .ok (.tmp (f x))
  | .zip f l r, k => do
    let v ← l.deref m k
    let w ← r.deref m k
    let x ← v.get m
    let y ← w.get m
    .ok (.tmp (f x y))
  | .fwd it, k => do
    let v ← it.deref m k
    .ok v.forward

/-- Expressions as in `Ex`, and `drop_to<D>` of an expression (`drop` is `drop_to<1>`, unary_expr_array.hpp:126-129,
binary_expr_array.hpp:136-140). -/
inductive DEx (α : Type) where
  | leaf (o : Obj)
  | un (f : α → α) (e : DEx α)
  | bin (f : α → α → α) (a b : DEx α)
  /-- `apply(e, identity)` (functional.hpp:46-49, base/numeric.hpp:47-52). -/
  | same (e : DEx α)
  | drop (D : Nat) (e : DEx α)

/-- A source of elements, as `EObj`: unary_expr_array.hpp:82-84, binary_expr_array.hpp:88-95. -/
structure DObj (α : Type) where
  dims : List Nat
  it : DIt α

/-- detail/common.hpp:58-75 `drop_one_level_extents<D>`. -/
def dropExtents (chk : Bool) (D : Nat) (ext : List Nat) : Res (List Nat) :=
  if ext.length < D then .error .illFormed
  else do
    dbg chk (ext.length - D ≤ countOnes ext)
    if (dropOnes (ext.length - D) ext).length = D then .ok (dropOnes (ext.length - D) ext) else .error .ub

/-- Creating the expression objects (see `Ex.build`); `drop_to<D>(e)`: unary_expr_array.hpp:119-124, binary_expr_array.hpp:128-134.
`drop_to` of an array or view is another function (Model/Reshape.lean): here its operand must be an expression. `drop_to<D>` with `D ≠ 1` is only
accepted for an expression that is const: otherwise the overload of drop.hpp:11-15 is chosen, whose `static_assert` fails. -/
def DEx.build (A : Arith) (chk : Bool) : DEx α → Res (DObj α)
  | .leaf o => match o.dims with
    | none => .error .illFormed
    | some d => do
      let ps ← o.positions A
      .ok ⟨d, .cells ps⟩
  | .un f e => do
    let x ← e.build A chk
    .ok ⟨x.dims, .map f x.it⟩
  | .bin f a b => do
    let x ← a.build A chk
    let y ← b.build A chk
    if x.dims.length ≠ y.dims.length then .error .illFormed
    else do
      dbg chk (x.dims == y.dims)
      .ok ⟨x.dims, .zip f x.it y.it⟩
  | .same e => do
    let x ← e.build A chk
    .ok ⟨x.dims, .fwd x.it⟩
  | .drop _ (.leaf _) => .error .illFormed
  | .drop D e => do
    let x ← e.build A chk
    let d ← dropExtents chk D x.dims
    .ok ⟨d, .fwd x.it⟩

/-- array.hpp:218-231 constructing an array from the expression. -/
def newFromDrop (A : Arith) (src : DObj α) (m : Mem α) (fresh : Nat) : Res (Mem α × Arr) := do
  let xs ← (List.range (prodL A src.dims)).mapM (fun k => do
    let v ← src.it.deref m k
    v.get m)
  .ok (m.setMany fresh xs, ⟨fresh, src.dims⟩)

end Jules

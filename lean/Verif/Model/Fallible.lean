import Verif.Model.Program
/-
Model of programs over several arrays whose functions and operators may throw on some values: what the statements of Model/Program.lean
do when an exception leaves one of them. Every exception is caught after the statement it leaves, and the program goes on (a program with
other handlers executes a prefix of its statements up to each handler: the statements that are executed are such a sequence).

Simplifications: copying, assigning and destroying elements does not throw (Model/Heap.lean and Model/Throwing.lean have those
exceptions); all elements have the same type; raw memory is not tracked (the block leaked by array.hpp:332-341 is in Model/Heap.lean).
-/
namespace Jules

/-- Array expressions over named arrays whose functions may throw (`none`).
functional.hpp:46-71, 131-170, 189-194. -/
inductive FEx (α : Type) where
  | arr (x : Nat) (h : List Ix)
  | un (f : α → Option α) (e : FEx α)
  | bin (f : α → α → Option α) (a b : FEx α)
  /-- `scalar OP e`, functional.hpp:164-170. -/
  | scl (f : α → α → Option α) (s : Sc α) (e : FEx α)
  /-- `e OP scalar`, functional.hpp:156-162. -/
  | scr (f : α → α → Option α) (e : FEx α) (s : Sc α)

/-- Statements; `x` names an array and `h` are the index expressions applied to it. An operator that works in place gives the new value
of its left argument and whether it throws (after having changed it).
functional.hpp:46-194, array.hpp:141-344, overlap.hpp:17-22. -/
inductive FStmt (α : Type) where
  /-- A statement whose functions do not throw. Model/Program.lean: array.hpp:82, 141-231, 279-344. -/
  | plain (s : Stmt α)
  /-- `auto x = array(e)`: array.hpp:218-231. -/
  | make (x : Nat) (e : FEx α)
  /-- `auto x = array(iterator, extents…)`, array.hpp:158-168; dereferencing the iterator may throw. -/
  | makeFrom (x : Nat) (l : List (Option α)) (ext : List Nat)
  /-- `x[h]… = e`: ref_array.hpp:70-74, 86-90, strided_ref_array.hpp:76-80, 91-95. -/
  | assign (x : Nat) (h : List Ix) (e : FEx α)
  /-- `x[h]… OP= e` or `x OP= e`: functional.hpp:73-94, 139-154. -/
  | inPlace (x : Nat) (h : List Ix) (op : α → α → α × Bool) (e : FEx α)
  /-- `x[h]… OP= scalar` or `x OP= scalar`: functional.hpp:172-187. -/
  | inPlaceScalar (x : Nat) (h : List Ix) (op : α → α → α × Bool) (s : Sc α)
  /-- `apply(in_place, x[h]…, f)`: functional.hpp:51-63. -/
  | apply (x : Nat) (h : List Ix) (f : α → α × Bool)
  /-- `overlap(x[h]…) = e`: overlap.hpp:17-22. -/
  | overlap (x : Nat) (h : List Ix) (e : FEx α)
  /-- `overlap(x) = e`: overlap.hpp:17-22 with array.hpp:308-314. -/
  | overlapWhole (x : Nat) (e : FEx α)
  /-- `x = e`: array.hpp:318-344, or array.hpp:279-305 when `e` is an array. -/
  | set (x : Nat) (e : FEx α)

/-- Iterators of expressions: Model/Memory.lean (`It`) with functions that may throw.
unary_expr_array.hpp:32-75, binary_expr_array.hpp:35-83. -/
inductive FIt (α : Type) where
  | cells (ps : List Nat)
  | map (f : α → Option α) (it : FIt α)
  | zip (f : α → α → Option α) (l r : FIt α)

/-- The result of a call of the user's function.
unary_expr_array.hpp:68, binary_expr_array.hpp:75. -/
def called : Option α → Res α
  | some x => .ok x
  | none => .error (.exc .user)

/-- `*(begin + k)`: unary_expr_array.hpp:68, binary_expr_array.hpp:75, detail/iterator.hpp:69. -/
def FIt.deref (m : Mem α) : FIt α → Nat → Res α
  | .cells ps, k => match ps[k]? with
    | some p => m.read p
    | none => .error .ub
  | .map f it, k => do
    let x ← it.deref m k
    called (f x)
  | .zip f l r, k => do
    let x ← l.deref m k
    let y ← r.deref m k
    called (f x y)

/-- The number of increments after which `begin` compares equal to `end` (`none`: never):
unary_expr_array.hpp:64, binary_expr_array.hpp:71. -/
def FIt.count : FIt α → Option Nat
  | .cells ps => some ps.length
  | .map _ it => it.count
  | .zip _ l r => match l.count, r.count with
    | some a, some b => if a = b then some a else none
    | _, _ => none

/-- A source of elements: `dimensions()` and `begin()`.
unary_expr_array.hpp:82-84, binary_expr_array.hpp:88-95, expr_array.hpp. -/
structure FSrc (α : Type) where
  dims : List Nat
  it : FIt α

/-- An array or view as a source: its extents and the cells its iterator visits.
ref_array.hpp:163-170, strided_ref_array.hpp:156-163. An element is not an array. -/
def FSrc.ofObj (A : Arith) (o : Obj) : Res (FSrc α) :=
  match o.dims with
  | none => .error .illFormed
  | some d => do
    let ps ← o.positions A
    .ok ⟨d, .cells ps⟩

/-- `apply(a, b, f)`: equal orders (a `static_assert`) and extents.
functional.hpp:65-71. -/
def FSrc.zip (chk : Bool) (f : α → α → Option α) (x y : FSrc α) : Res (FSrc α) :=
  if x.dims.length ≠ y.dims.length then .error .illFormed
  else do
    dbg chk (x.dims == y.dims)
    .ok ⟨x.dims, .zip f x.it y.it⟩

/-- Creating the (lazy) expression object: no function is called; operands are indexed, scalars are copied.
functional.hpp:46-71, 131-170. -/
def FEx.eval (A : Arith) (chk : Bool) (w : World α) : FEx α → Res (FSrc α)
  | .arr x h => do
    let o ← w.index A chk x h
    FSrc.ofObj A o
  | .un f e => do
    let e' ← e.eval A chk w
    .ok ⟨e'.dims, .map f e'.it⟩
  | .bin f a b => do
    let a' ← a.eval A chk w
    let b' ← b.eval A chk w
    a'.zip chk f b'
  | .scl f s e => do
    let c ← s.eval A chk w
    let v ← c.get w.mem
    let e' ← e.eval A chk w
    .ok ⟨e'.dims, .map (fun y => f v y) e'.it⟩
  | .scr f e s => do
    let e' ← e.eval A chk w
    let c ← s.eval A chk w
    let v ← c.get w.mem
    .ok ⟨e'.dims, .map (fun y => f y v) e'.it⟩

/-- The loop shared by all elementwise writes, when the value of an element may throw: `g` gives the new value of the element and whether
an exception is thrown after it has been changed, or throws before. The elements visited before keep their new values.
The loops of array/detail/common.hpp:30-32 (the right operand of `elem = *it++` is evaluated first) and functional.hpp:59-60, 90-91. -/
def stopLoop (g : Nat → Nat → Mem α → Res (α × Bool)) : Nat → List Nat → Mem α → Res (Mem α × Bool)
  | _, [], m => .ok (m, false)
  | k, p :: ps, m =>
    match g k p m with
    | .error (.exc _) => .ok (m, true)
    | .error f => .error f
    | .ok r => do
      let m' ← m.write p r.1
      if r.2 then .ok (m', true) else stopLoop g (k + 1) ps m'

/-- The value assigned to an element by `elem = *it++`.
array/detail/common.hpp:32. -/
def FSrc.value (src : FSrc α) (k : Nat) (m : Mem α) : Res (α × Bool) := do
  let y ← src.it.deref m k
  .ok (y, false)

/-- detail/common.hpp:22-36 `array_assign`; the last assertion (line 34) is not reached after an exception. -/
def fassign (A : Arith) (chk : Bool) (dest : Obj) (src : FSrc α) (m : Mem α) : Res (Mem α × Bool) :=
  match dest.dims with
  | none => .error .illFormed
  | some d =>
    if src.dims.length ≠ d.length then .error .illFormed
    else do
      dbg chk (src.dims == d)
      let ps ← dest.positions A
      let r ← stopLoop (fun k _ m => src.value k m) 0 ps m
      dbg chk (r.2 || src.it.count == some ps.length)
      .ok r

/-- One step of the loop of `view OP= expression`: `*itr++` may throw, and so may the operator.
functional.hpp:90-91. -/
def FSrc.update (src : FSrc α) (op : α → α → α × Bool) (k p : Nat) (m : Mem α) : Res (α × Bool) := do
  let a ← m.read p
  let b ← src.it.deref m k
  .ok (op a b)

/-- `view OP= expression`: functional.hpp:81-94, 139-154. -/
def finPlace (A : Arith) (chk : Bool) (dest : Obj) (op : α → α → α × Bool) (src : FSrc α) (m : Mem α) : Res (Mem α × Bool) :=
  match dest.dims with
  | none => .error .illFormed
  | some d =>
    if d.length ≠ src.dims.length then .error .illFormed
    else do
      dbg chk (d == src.dims)
      let ps ← dest.positions A
      stopLoop (fun k p m => src.update op k p m) 0 ps m

/-- One step of the loop of `view OP= scalar`; the scalar is read through a reference.
functional.hpp:172-187. -/
def scalarUpdate (op : α → α → α × Bool) (x : Scalar α) (p : Nat) (m : Mem α) : Res (α × Bool) := do
  let a ← m.read p
  let b ← x.get m
  .ok (op a b)

/-- `view OP= scalar`: functional.hpp:172-187. -/
def finPlaceScalar (A : Arith) (dest : Obj) (op : α → α → α × Bool) (x : Scalar α) (m : Mem α) : Res (Mem α × Bool) := do
  let ps ← dest.positions A
  stopLoop (fun _ p m => scalarUpdate op x p m) 0 ps m

/-- One step of the loop of `apply(in_place, view, op)`.
functional.hpp:59-60. -/
def applyUpdate (f : α → α × Bool) (p : Nat) (m : Mem α) : Res (α × Bool) := do
  let a ← m.read p
  .ok (f a)

/-- `apply(in_place, view, op)`: functional.hpp:51-63. -/
def fapply (A : Arith) (dest : Obj) (f : α → α × Bool) (m : Mem α) : Res (Mem α × Bool) := do
  let ps ← dest.positions A
  stopLoop (fun _ p m => applyUpdate f p m) 0 ps m

/-- An exception inside `construct`: when the element type cannot throw on construction (`nx`) `construct` is `noexcept` and the program
ends; otherwise `std::uninitialized_copy_n` destroys the elements constructed so far (`none`: the exception goes on).
allocator.hpp:40-44. -/
def constructed (nx : Bool) : Res β → Res (Option β)
  | .ok x => .ok (some x)
  | .error (.exc e) => if nx then .error .terminate else .ok none
  | .error f => .error f

/-- array.hpp:218-231 `array(const common_array_base&)`: allocate, construct from the source's iterator; on an exception the block is
freed (array.hpp:226-230). -/
def fnew (A : Arith) (nx : Bool) (src : FSrc α) (m : Mem α) (fresh : Nat) : Res (Option (Mem α × Arr)) := do
  let r ← constructed nx ((List.range (prodL A src.dims)).mapM (fun k => src.it.deref m k))
  .ok (r.map fun xs => (m.setMany fresh xs, ⟨fresh, src.dims⟩))

/-- The values an iterator goes through; dereferencing it may throw.
array.hpp:158-168. There must be enough of them. -/
def pull (l : List (Option α)) (k : Nat) : Res α :=
  match l[k]? with
  | some v => called v
  | none => .error .ub

/-- array.hpp:158-168 `array(It, Dims…)`: allocate, construct from the iterator; on an exception the block is freed. -/
def fnewFrom (A : Arith) (nx : Bool) (ext : List Nat) (l : List (Option α)) (m : Mem α) (fresh : Nat) : Res (Option (Mem α × Arr)) := do
  let r ← constructed nx ((List.range (prodL A ext)).mapM (pull l))
  .ok (r.map fun xs => (m.setMany fresh xs, ⟨fresh, ext⟩))

/-- The memory after `clear()` of the old block.
array.hpp:328-336, 383-389. -/
def Arr.clear (A : Arith) (a : Arr) (r : Mem α × Arr) : Mem α × Arr := (r.1.free a.base (prodL A a.ext), r.2)

/-- array.hpp:318-344 `array::operator=(const common_array_base&)`: with equal sizes `std::copy` over the own cells (the extents change
after it, line 325, so not after an exception); otherwise a new block is constructed and, unless an exception is thrown, replaces the old one
(JULES_DEFER, lines 332-338). The result is the memory, the array, and whether an exception leaves the function. -/
def fset (A : Arith) (nx : Bool) (a : Arr) (src : FSrc α) (m : Mem α) (fresh : Nat) : Res (Mem α × Arr × Bool) :=
  if prodL A a.ext = prodL A src.dims then
    match src.it.count with
    | none => .error .ub
    | some n =>
      if prodL A a.ext < n then .error .ub
      else do
        let r ← stopLoop (fun k _ m => src.value k m) 0 ((List.range n).map (A.add a.base ·)) m
        .ok (r.1, if r.2 then a else ⟨a.base, src.dims⟩, r.2)
  else do
    let r ← fnew A nx src m fresh
    .ok (match r with
      | none => (m, a, true)
      | some s => ((a.clear A s).1, (a.clear A s).2, false))

/-- overlap.hpp:17-22 `overlap(view) = e`: the temporary array is constructed; an exception there leaves everything as it was; assigning
the temporary to the view calls no functions; then it is destroyed. -/
def foverlap (A : Arith) (chk nx : Bool) (dest : Obj) (src : FSrc α) (m : Mem α) (fresh : Nat) : Res (Mem α × Bool) := do
  let r ← fnew A nx src m fresh
  match r with
  | none => .ok (m, true)
  | some s => do
    let m' ← assignView A chk dest (.leaf (.cref s.2.base s.2.ext)) s.1
    .ok (m'.free s.2.base (prodL A s.2.ext), false)

/-- The state after a statement that changes memory only.
Language semantics, for the assignments to views of ref_array.hpp:70-90. -/
def World.tick (w : World α) (r : Mem α × Bool) : World α × Bool := ({ w with mem := r.1, clock := w.clock + 1 }, r.2)

/-- The state after the initialization of `x`: without the array when the constructor throws.
Language semantics (array.hpp:218-231, 158-168). -/
def World.named (w : World α) (x : Nat) : Option (Mem α × Arr) → World α × Bool
  | none => w.tick (w.mem, true)
  | some r => (w.bind r.1 x (some r.2), false)

/-- One statement: the state after it and whether an exception has left it. `alloc k m n` is the address the allocator returns for `n`
elements in memory `m` at time `k`; `nx`: constructing an element cannot throw (`std::is_nothrow_constructible_v`, allocator.hpp:41).
The functions cited at each statement. -/
def World.fstep (A : Arith) (chk nx : Bool) (alloc : Nat → Mem α → Nat → Nat) (w : World α) : FStmt α → Res (World α × Bool)
  | .plain s => do
    let w' ← w.step A chk alloc s
    .ok (w', false)
  | .make x e =>
    match w.env x with
    | some _ => .error .illFormed
    | none => do
      let src ← e.eval A chk w
      let r ← fnew A nx src w.mem (alloc w.clock w.mem (prodL A src.dims))
      .ok (w.named x r)
  | .makeFrom x l ext =>
    match w.env x with
    | some _ => .error .illFormed
    | none => do
      needs (!ext.isEmpty) -- array.hpp:40
      let r ← fnewFrom A nx ext l w.mem (alloc w.clock w.mem (prodL A ext))
      .ok (w.named x r)
  | .assign x h e => do
    needs (!h.isEmpty) -- the other case is `set`
    let o ← w.index A chk x h
    let src ← e.eval A chk w
    let r ← fassign A chk o src w.mem
    .ok (w.tick r)
  | .inPlace x h op e => do
    let o ← w.index A chk x h
    let src ← e.eval A chk w
    let r ← finPlace A chk o op src w.mem
    .ok (w.tick r)
  | .inPlaceScalar x h op s => do
    let o ← w.index A chk x h
    let c ← s.eval A chk w
    let r ← finPlaceScalar A o op c w.mem
    .ok (w.tick r)
  | .apply x h f => do
    let o ← w.index A chk x h
    needs o.dims.isSome -- functional.hpp:51-63: not for elements
    let r ← fapply A o f w.mem
    .ok (w.tick r)
  | .overlap x h e => do
    needs (!h.isEmpty) -- the other case is `overlapWhole`
    let o ← w.index A chk x h
    let src ← e.eval A chk w
    let r ← foverlap A chk nx o src w.mem (alloc w.clock w.mem (prodL A src.dims))
    .ok (w.tick r)
  | .overlapWhole x e => do
    let a ← w.get x
    let src ← e.eval A chk w
    sameOrder a src.dims
    let r ← fnew A nx src w.mem (alloc w.clock w.mem (prodL A src.dims))
    .ok (w.named x (r.map (a.clear A)))
  | .set x (.arr y []) => do
    let w' ← w.step A chk alloc (.set x (.arr y []))
    .ok (w', false)
  | .set x e => do
    let a ← w.get x
    let src ← e.eval A chk w
    sameOrder a src.dims
    let r ← fset A nx a src w.mem (alloc w.clock w.mem (prodL A src.dims))
    .ok (w.bind r.1 x (some r.2.1), r.2.2)

/-- A sequence of statements, every exception being caught after the statement it leaves: the final state, and for each statement whether
an exception left it.
Language semantics, for the functions of array.hpp:141-344 and functional.hpp:46-194. -/
def World.frun (A : Arith) (chk nx : Bool) (alloc : Nat → Mem α → Nat → Nat) : World α → List (FStmt α) → Res (World α × List Bool)
  | w, [] => .ok (w, [])
  | w, s :: p => do
    let r ← w.fstep A chk nx alloc s
    let t ← r.1.frun A chk nx alloc p
    .ok (t.1, r.2 :: t.2)

end Jules

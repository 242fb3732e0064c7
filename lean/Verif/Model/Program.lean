import Verif.Model.Memory
/-
Model of programs over several arrays: sequences of C++ statements that create, index, read, write, assign and destroy arrays. Each
statement is the composition of the functions it calls (Model/Slicing.lean for `operator[]`, Model/Memory.lean for the rest).

A straight-line sequence is enough: the statements executed by a program with control flow are such a sequence.
-/
namespace Jules

/-- A scalar in a statement: a constant, or an element `x[..]…[..]`.
The `T`/`const T&` operands of functional.hpp:156-187, ref_array.hpp:77-83 and strided_ref_array.hpp:83-88. -/
inductive Sc (α : Type) where
  | const (c : α)
  | elem (x : Nat) (h : List Ix)

/-- Array expressions over named arrays: an array (no index expressions) or a view of one; the operators and functions.
functional.hpp:46-71, 131-170, 189-194. -/
inductive PEx (α : Type) where
  | arr (x : Nat) (h : List Ix)
  | un (f : α → α) (e : PEx α)
  | bin (f : α → α → α) (a b : PEx α)
  /-- `scalar OP e`, functional.hpp:164-170. -/
  | scl (f : α → α → α) (s : Sc α) (e : PEx α)
  /-- `e OP scalar`, functional.hpp:156-162. -/
  | scr (f : α → α → α) (e : PEx α) (s : Sc α)

/-- Statements; `x` names an array and `h` are the index expressions applied to it. -/
inductive Stmt (α : Type) where
  /-- `auto x = array(e)`: array.hpp:218-231 (and the copy constructor, 198-208, when `e` is an array). -/
  | make (x : Nat) (e : PEx α)
  /-- `auto x = array(value, extents…)`: array.hpp:141-151. -/
  | makeFill (x : Nat) (s : Sc α) (ext : List Nat)
  /-- `auto x = array(iterator, extents…)`: array.hpp:158-168; the values the iterator goes through are given. -/
  | makeFrom (x : Nat) (l : List α) (ext : List Nat)
  /-- End of `x`'s lifetime: array.hpp:82, 383-389 (`~array`). -/
  | drop (x : Nat)
  /-- `x[h]… = scalar`: ref_array.hpp:77-83, strided_ref_array.hpp:83-88, or the assignment of an element. -/
  | fill (x : Nat) (h : List Ix) (s : Sc α)
  /-- `x[h]… = e`: ref_array.hpp:70-74, 86-90, strided_ref_array.hpp:76-80, 91-95. -/
  | assign (x : Nat) (h : List Ix) (e : PEx α)
  /-- `x[h]… OP= e` or `x OP= e`: functional.hpp:73-94, 139-154. -/
  | inPlace (x : Nat) (h : List Ix) (op : α → α → α) (e : PEx α)
  /-- `x[h]… OP= scalar` or `x OP= scalar`: functional.hpp:172-187 (or the operator on elements). -/
  | inPlaceScalar (x : Nat) (h : List Ix) (op : α → α → α) (s : Sc α)
  /-- `apply(in_place, x[h]…, f)`: functional.hpp:51-63. -/
  | apply (x : Nat) (h : List Ix) (f : α → α)
  /-- `overlap(x[h]…) = e`: overlap.hpp:17-22. -/
  | overlap (x : Nat) (h : List Ix) (e : PEx α)
  /-- `overlap(x) = e`: overlap.hpp:17-22 with array.hpp:308-314. -/
  | overlapWhole (x : Nat) (e : PEx α)
  /-- `x = e`: array.hpp:318-344, or array.hpp:279-305 when `e` is an array. -/
  | set (x : Nat) (e : PEx α)
  /-- `x = std::move(y)`: array.hpp:308-314. -/
  | moveAssign (x y : Nat)

/-- Memory, the arrays in scope, and the number of statements executed (on which the choices of the allocator may depend).
array.hpp: each array is a pointer and its extents (`Arr`). -/
structure World (α : Type) where
  mem : Mem α
  env : Nat → Option Arr
  clock : Nat

/-- Using a name that is not in scope does not compile.
Language semantics (name lookup) for the arrays of array.hpp. -/
def World.get (w : World α) (x : Nat) : Res Arr :=
  match w.env x with
  | some a => .ok a
  | none => .error .illFormed

/-- Introduce, change or remove a variable.
Language semantics (scopes) for the arrays of array.hpp. -/
def World.bind (w : World α) (m : Mem α) (x : Nat) (a : Option Arr) : World α :=
  ⟨m, fun y => if y = x then a else w.env y, w.clock + 1⟩

/-- `x[h]…`: `operator[]` of ref_array.hpp:105-158, strided_ref_array.hpp:100-151 and the proxies, one after the other. -/
def World.index (w : World α) (A : Arith) (chk : Bool) (x : Nat) (h : List Ix) : Res Obj := do
  let a ← w.get x
  (Obj.cref a.base a.ext).run A chk h

/-- A scalar is taken by reference.
functional.hpp:172-187, ref_array.hpp:77-83. A chain of index expressions must end in an element. -/
def Sc.eval (A : Arith) (chk : Bool) (w : World α) : Sc α → Res (Scalar α)
  | .const c => .ok (.val c)
  | .elem x h => do
    let o ← w.index A chk x h
    match o with
    | .elem p => .ok (.cell p)
    | _ => .error .illFormed

/-- Creating the (lazy) expression object: operands are indexed, scalars are copied (functional.hpp:46-71, 131-170). -/
def PEx.eval (A : Arith) (chk : Bool) (w : World α) : PEx α → Res (Ex Obj α)
  | .arr x h => do
    let o ← w.index A chk x h
    .ok (.leaf o)
  | .un f e => do
    let e' ← e.eval A chk w
    .ok (.un f e')
  | .bin f a b => do
    let a' ← a.eval A chk w
    let b' ← b.eval A chk w
    .ok (.bin f a' b')
  | .scl f s e => do
    let c ← s.eval A chk w
    let v ← c.get w.mem
    let e' ← e.eval A chk w
    .ok (.scalarLeft f v e')
  | .scr f e s => do
    let e' ← e.eval A chk w
    let c ← s.eval A chk w
    let v ← c.get w.mem
    .ok (.scalarRight f e' v)

/-- The order of `x` and of the source must be the same: `static_assert` of array.hpp:321, and the type of the temporary in
overlap.hpp:19-20. -/
def sameOrder (a : Arr) (d : List Nat) : Res Unit :=
  if a.ext.length = d.length then .ok () else .error .illFormed

/-- A requirement checked at compile time.
The `static_assert`s and signatures cited where it is used. -/
def needs (c : Bool) : Res Unit := if c then .ok () else .error .illFormed

/-- Construct a new array from given values, in column-major order.
array.hpp:141-151 (fill) and 158-168 (iterator), allocator.hpp:33-44. The iterator must have enough values. -/
def newFrom (A : Arith) (ext : List Nat) (l : List α) (m : Mem α) (fresh : Nat) : Res (Mem α × Arr) :=
  if l.length < prodL A ext then .error .ub else .ok (m.setMany fresh (l.take (prodL A ext)), ⟨fresh, ext⟩)

/-- One statement. `alloc k m n` is the address the allocator returns for `n` elements in memory `m` at time `k`.
The functions cited at each statement. -/
def World.step (A : Arith) (chk : Bool) (alloc : Nat → Mem α → Nat → Nat) (w : World α) : Stmt α → Res (World α)
  | .make x e =>
    match w.env x with
    | some _ => .error .illFormed
    | none => do
      let e' ← e.eval A chk w
      let src ← e'.build A chk
      let r ← newArray A src w.mem (alloc w.clock w.mem (prodL A src.dims))
      .ok (w.bind r.1 x (some r.2))
  | .makeFill x s ext =>
    match w.env x with
    | some _ => .error .illFormed
    | none => do
      needs (!ext.isEmpty) -- array.hpp:40
      let c ← s.eval A chk w
      let v ← c.get w.mem
      let r ← newFrom A ext (List.replicate (prodL A ext) v) w.mem (alloc w.clock w.mem (prodL A ext))
      .ok (w.bind r.1 x (some r.2))
  | .makeFrom x l ext =>
    match w.env x with
    | some _ => .error .illFormed
    | none => do
      needs (!ext.isEmpty) -- array.hpp:40
      let r ← newFrom A ext l w.mem (alloc w.clock w.mem (prodL A ext))
      .ok (w.bind r.1 x (some r.2))
  | .drop x => do
    let a ← w.get x
    .ok (w.bind (w.mem.free a.base (prodL A a.ext)) x none)
  | .fill x h s => do
    needs (!h.isEmpty) -- an array cannot be assigned a scalar: array.hpp:279-344
    let o ← w.index A chk x h
    let c ← s.eval A chk w
    let m ← fillView A o c w.mem
    .ok { w with mem := m, clock := w.clock + 1 }
  | .assign x h e => do
    needs (!h.isEmpty) -- the other case is `set`
    let o ← w.index A chk x h
    let e' ← e.eval A chk w
    let m ← assignView A chk o e' w.mem
    .ok { w with mem := m, clock := w.clock + 1 }
  | .inPlace x h op e => do
    let o ← w.index A chk x h
    let e' ← e.eval A chk w
    let m ← inPlaceExpr A chk o op e' w.mem
    .ok { w with mem := m, clock := w.clock + 1 }
  | .inPlaceScalar x h op s => do
    let o ← w.index A chk x h
    let c ← s.eval A chk w
    let m ← Jules.inPlaceScalar A o op c w.mem
    .ok { w with mem := m, clock := w.clock + 1 }
  | .apply x h f => do
    let o ← w.index A chk x h
    needs o.dims.isSome -- functional.hpp:51-63: not for elements
    let m ← applyInPlace A o f w.mem
    .ok { w with mem := m, clock := w.clock + 1 }
  | .overlap x h e => do
    needs (!h.isEmpty) -- the other case is `overlapWhole`
    let o ← w.index A chk x h
    let e' ← e.eval A chk w
    let src ← e'.build A chk
    let m ← overlapView A chk o e' w.mem (alloc w.clock w.mem (prodL A src.dims))
    .ok { w with mem := m, clock := w.clock + 1 }
  | .overlapWhole x e => do
    let a ← w.get x
    let e' ← e.eval A chk w
    let src ← e'.build A chk
    sameOrder a src.dims
    let r ← overlapArray A chk a e' w.mem (alloc w.clock w.mem (prodL A src.dims))
    .ok (w.bind r.1 x (some r.2))
  | .set x (.arr y []) => do
    let a ← w.get x
    let b ← w.get y
    sameOrder a b.ext
    let r ← assignArrayCopy A a b (x == y) w.mem (alloc w.clock w.mem (prodL A b.ext))
    .ok (w.bind r.1 x (some r.2))
  | .set x e => do
    let a ← w.get x
    let e' ← e.eval A chk w
    let src ← e'.build A chk
    sameOrder a src.dims
    let r ← assignArray A chk a e' w.mem (alloc w.clock w.mem (prodL A src.dims))
    .ok (w.bind r.1 x (some r.2))
  | .moveAssign x y => do
    let a ← w.get x
    let b ← w.get y
    sameOrder a b.ext
    dbg chk (x != y)
    .ok ((w.bind w.mem x (some b)).bind w.mem y (some a))

/-- A sequence of statements.
Language semantics. -/
def World.run (A : Arith) (chk : Bool) (alloc : Nat → Mem α → Nat → Nat) : World α → List (Stmt α) → Res (World α)
  | w, [] => .ok w
  | w, s :: p => do
    let w' ← w.step A chk alloc s
    w'.run A chk alloc p

/-- The beginning of a program: no arrays, no memory.
Language semantics. -/
def World.empty : World α := ⟨fun _ => none, fun _ => none, 0⟩

end Jules

import Verif.Model.Memory
/-
Lazy expressions as objects: the iterators of views and expressions with what they refer to, step by step.

Model/Memory.lean takes the positions an operand visits when the expression is created and assumes that
everything an expression refers to is alive. Here the objects that iterators point into - the descriptor
inside a multi-dimensional strided view, the list of an index-mapped view, the function object inside an
expression - live in a store, from which they can have disappeared when the expression is used.
-/
namespace Jules

/-- What an object contributes to iteration: the descriptor of a view (mapper.hpp:40-41), the positions of an
index-mapped view (mapper.hpp:103), the operation of an expression (expr_array.hpp:47). -/
inductive Rep (α : Type) where
  | desc (d : SDesc)
  | list (l : List Nat)
  | fn1 (f : α → α)
  | fn2 (f : α → α → α)

/-- The objects alive now, by identity. Not in the code: object lifetime. -/
abbrev Store (α : Type) := Nat → Option (Rep α)

/-- Iterators as they are represented:
`T*` (ref_array.hpp:30-33); `iterator_from_indexes` (detail/iterator.hpp:72-73) over the one-dimensional descriptor
iterator (strided_descriptor.hpp:239-240), over the general one, which points to its descriptor (79-80), and
over a pointer into a list (mapper.hpp:48); the iterators of expressions, which point to the expression object
(unary_expr_array.hpp:73-74, binary_expr_array.hpp:80-82). -/
inductive SIt where
  | ptr (p : Nat)
  | one (off stride pos : Nat)
  | gen (off obj : Nat) (idx : List Nat)
  | lst (off obj k : Nat)
  | un (obj : Nat) (it : SIt)
  | bin (obj : Nat) (l r : SIt)
  deriving DecidableEq, Repr

/-- `++it`: strided_descriptor.hpp:49-61, 219-223, detail/iterator.hpp:34-38, unary_expr_array.hpp:51-55,
binary_expr_array.hpp:54-59. Only the general descriptor iterator looks at the object it points to. -/
def SIt.next (A : Arith) (σ : Store α) : SIt → Res SIt
  | .ptr p => .ok (.ptr (A.add p 1))
  | .one off t p => .ok (.one off t (A.add p t))
  | .gen off obj idx =>
    match σ obj with
    | some (.desc d) => do
      let idx' ← incr d.ext idx
      .ok (.gen off obj idx')
    | _ => .error .ub
  | .lst off obj k => .ok (.lst off obj (k + 1))
  | .un obj it => do
    let it' ← it.next A σ
    .ok (.un obj it')
  | .bin obj l r => do
    let l' ← l.next A σ
    let r' ← r.next A σ
    .ok (.bin obj l' r')

/-- `a == b`: strided_descriptor.hpp:71, 232, detail/iterator.hpp:63, unary_expr_array.hpp:64,
binary_expr_array.hpp:68 (both parts). -/
def SIt.eq : SIt → SIt → Bool
  | .ptr p, .ptr q => p == q
  | .one _ _ p, .one _ _ q => p == q
  | .gen _ _ i, .gen _ _ j => i == j
  | .lst _ _ k, .lst _ _ j => k == j
  | .un _ a, .un _ b => a.eq b
  | .bin _ a b, .bin _ c d => a.eq c && b.eq d
  | _, _ => false

/-- `*it`: detail/iterator.hpp:69, strided_descriptor.hpp:75, 236, unary_expr_array.hpp:68, binary_expr_array.hpp:72
(`source_->operate`, expr_array.hpp:44). -/
def SIt.deref (A : Arith) (σ : Store α) (m : Mem α) : SIt → Res α
  | .ptr p => m.read p
  | .one off _ p => m.read (A.add off p)
  | .gen off obj idx =>
    match σ obj with
    | some (.desc d) => m.read (A.add off (d.pos A idx))
    | _ => .error .ub
  | .lst off obj k =>
    match σ obj with
    | some (.list l) =>
      match l[k]? with
      | some p => m.read (A.add off p)
      | none => .error .ub
    | _ => .error .ub
  | .un obj it => do
    let x ← it.deref A σ m
    match σ obj with
    | some (.fn1 f) => .ok (f x)
    | _ => .error .ub
  | .bin obj l r => do
    let x ← l.deref A σ m
    let y ← r.deref A σ m
    match σ obj with
    | some (.fn2 f) => .ok (f x y)
    | _ => .error .ub

/-- An expression with the identity of each of its objects: the views at its leaves and the expression
objects at its nodes (functional.hpp:46-49, 65-71). -/
inductive SEx (α : Type) where
  | leaf (obj : Nat) (o : Obj)
  | un (obj : Nat) (f : α → α) (e : SEx α)
  | bin (obj : Nat) (f : α → α → α) (a b : SEx α)

/-- The expression without identities. Not in the code: relates the two models of functional.hpp:46-71. -/
def SEx.erase : SEx α → Ex Obj α
  | .leaf _ o => .leaf o
  | .un _ f e => .un f e.erase
  | .bin _ f a b => .bin f a.erase b.erase

/-- `dimensions()`, `begin()` and `end()`. -/
structure Src where
  dims : List Nat
  first : SIt
  last : SIt
  deriving DecidableEq, Repr

/-- The iterators of an array or view: ref_array.hpp:163-170, strided_ref_array.hpp:161-168,
strided_descriptor.hpp:133-137, 281-285, mapper.hpp:80-81. -/
def leafSrc (A : Arith) (obj : Nat) : Obj → Res Src
  | .cref off ext => .ok ⟨ext, .ptr off, .ptr (A.add off (prodL A ext))⟩
  | .sref off (.ident d) =>
    match d.ext, d.strides with
    | [e], [t] => .ok ⟨d.ext, .one off t d.start, .one off t (A.add d.start (A.mul t e))⟩
    | [], _ => .error .illFormed
    | _, _ => .ok ⟨d.ext, .gen off obj (d.ext.map fun _ => 0), .gen off obj (endIndex d.ext)⟩
  | .sref off (.vec d l) => .ok ⟨d.ext, .lst off obj 0, .lst off obj l.length⟩
  | _ => .error .illFormed

/-- Creating the expression objects: functional.hpp:46-49, 65-71; an expression's iterators wrap the operands'
(unary_expr_array.hpp:82-97, binary_expr_array.hpp:86-104). -/
def SEx.src (A : Arith) (chk : Bool) : SEx α → Res Src
  | .leaf obj o => leafSrc A obj o
  | .un obj _ e => do
    let x ← e.src A chk
    .ok ⟨x.dims, .un obj x.first, .un obj x.last⟩
  | .bin obj _ a b => do
    let x ← a.src A chk
    let y ← b.src A chk
    if x.dims.length ≠ y.dims.length then .error .illFormed
    else do
      dbg chk (x.dims == y.dims)
      .ok ⟨x.dims, .bin obj x.first y.first, .bin obj x.last y.last⟩

/-- The values produced by `n` times `*it, ++it` (the loop of `std::uninitialized_copy_n`, allocator.hpp:40-44). -/
def copyN (A : Arith) (σ : Store α) (m : Mem α) : Nat → SIt → Res (List α)
  | 0, _ => .ok []
  | n + 1, it => do
    let x ← it.deref A σ m
    let it' ← it.next A σ
    let xs ← copyN A σ m n it'
    .ok (x :: xs)

/-- array.hpp:218-231 constructing an array from an expression object kept since its creation, with the
objects `σ` still alive. -/
def newFromStored (A : Arith) (σ : Store α) (s : Src) (m : Mem α) (fresh : Nat) : Res (Mem α × Arr) := do
  let xs ← copyN A σ m (prodL A s.dims) s.first
  .ok (m.setMany fresh xs, ⟨fresh, s.dims⟩)

/-- The loop `for (auto& elem : destination) elem = *it++` over the cells of the target (detail/common.hpp:31-33):
the iterator is incremented before its copy is dereferenced. The iterator reached is returned. -/
def assignLoop (A : Arith) (σ : Store α) : List Nat → SIt → Mem α → Res (Mem α × SIt)
  | [], it, m => .ok (m, it)
  | p :: ps, it, m => do
    let it' ← it.next A σ
    let x ← it.deref A σ m
    let m' ← m.write p x
    assignLoop A σ ps it' m'

/-- `view = expression` for an expression object kept since its creation: detail/common.hpp:22-36
`array_assign`, called from ref_array.hpp:86-90, strided_ref_array.hpp:91-95. -/
def assignStored (A : Arith) (chk : Bool) (σ : Store α) (dest : Obj) (s : Src) (m : Mem α) : Res (Mem α) :=
  match dest.dims with
  | none => .error .illFormed
  | some d =>
    if s.dims.length ≠ d.length then .error .illFormed
    else do
      dbg chk (s.dims == d)
      let ps ← dest.positions A
      let (m', it) ← assignLoop A σ ps s.first m
      dbg chk (it.eq s.last)
      .ok m'

end Jules

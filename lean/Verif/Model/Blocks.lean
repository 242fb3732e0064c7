import Verif.Model.Scopes
import Verif.Model.Heap
/-
Model of the programs of Model/Scopes.lean at the level of allocations, constructions, destructions and assignments of single elements, each of
which may throw: `new` (std::bad_alloc, also when the allocator has no room), the constructors and the assignment operator of the element type, and the functions. The schedule `S` says
for the n-th of these events whether it throws; functions may also throw because of their arguments, as in Model/Fallible.lean. Destructors do
not throw.

Raw memory is tracked: the blocks that have been allocated and not yet freed. Using an address outside of them, destroying what has not been
constructed, freeing what has not been allocated and going through a null pointer are undefined; elements whose storage is reused or freed while
they are alive are counted.

Simplifications: an assignment of an element that throws leaves it as it was; all elements have the same type; no shadowing of names; a type whose
construction cannot throw (`nx`) may still have a throwing assignment.
-/
namespace Jules

/-- The storage: the constructed elements, the blocks allocated (address and number of elements), the number of elements whose storage was freed or
reused while they were alive, and the number of events so far.
What allocator.hpp:23-63 works on. -/
structure Pool (α : Type) where
  mem : Mem α
  blocks : List (Nat × Nat)
  ruined : Nat
  clock : Nat

/-- Outcome of a computation: normal, an exception, or the end of the execution.
The outcomes of the functions of array.hpp:112-344 and allocator.hpp:23-63. -/
inductive BOut (α β : Type) where
  | ok (b : β) (p : Pool α)
  | exn (p : Pool α)
  | fail (f : Fail)

/-- Computations on the storage.
The functions of array.hpp:112-344, allocator.hpp:23-63, functional.hpp:51-94, detail/common.hpp:22-36. -/
def BM (α β : Type) := Pool α → BOut α β

/-- Sequencing; exceptions propagate.
Language semantics (array.hpp:112-344). -/
def BM.bind (x : BM α β) (f : β → BM α γ) : BM α γ := fun p =>
  match x p with
  | .ok b p' => f b p'
  | .exn p' => .exn p'
  | .fail f => .fail f

instance : Monad (BM α) where
  pure b := fun p => .ok b p
  bind := BM.bind

/-- Undefined behaviour or a program that does not compile.
Language semantics (array.hpp:112-344). -/
def BM.die (f : Fail) : BM α β := fun _ => .fail f

/-- An exception.
Language semantics (functional.hpp:60, 91). -/
def BM.raise : BM α β := fun p => .exn p

/-- A computation that reads memory.
ref_array.hpp:100-103, unary_expr_array.hpp:68, binary_expr_array.hpp:75. -/
def BM.reads (g : Mem α → Res β) : BM α β := fun p =>
  match g p.mem with
  | .ok b => .ok b p
  | .error (.exc _) => .exn p
  | .error f => .fail f

/-- `try { x } catch (...) { c; throw; }`.
array.hpp:129-135, 144-150, 161-167, 201-207, 224-230. -/
def BM.cleanup (x : BM α β) (c : BM α Unit) : BM α β := fun p =>
  match x p with
  | .exn p' => BM.bind c (fun _ => fun q => .exn q) p'
  | r => r

/-- The destructor of a local object: `c` is executed when `x` ends, also by an exception.
Language semantics; the local array of overlap.hpp:19. -/
def BM.finally (x : BM α β) (c : BM α Unit) : BM α β := fun p =>
  match x p with
  | .ok b p' => BM.bind c (fun _ => fun q => .ok b q) p'
  | .exn p' => BM.bind c (fun _ => fun q => .exn q) p'
  | .fail f => .fail f

/-- `noexcept(nx)`.
allocator.hpp:33-44. -/
def BM.noexcept (nx : Bool) (x : BM α β) : BM α β := fun p =>
  match x p with
  | .exn p' => if nx then .fail .terminate else .exn p'
  | r => r

/-- Something that throws when the schedule says so.
`new` (allocator.hpp:23), the element type's constructors and assignment (allocator.hpp:36, 43; detail/common.hpp:32; array.hpp:285, 324), the
functions of functional.hpp:60, 91. -/
def mayThrow (S : Nat → Bool) : BM α Unit := fun p =>
  if S p.clock then .exn { p with clock := p.clock + 1 } else .ok () { p with clock := p.clock + 1 }

/-- A new block: `alloc k bl n` is the address for `n` elements, `bl` being the blocks in use at time `k`; without one (`none`), `std::bad_alloc` is
thrown.
allocator.hpp:23. -/
def takeB (alloc : Nat → List (Nat × Nat) → Nat → Option Nat) (n : Nat) : BM α Nat := fun p =>
  match alloc p.clock p.blocks n with
  | none => .exn p
  | some b => .ok b { p with blocks := (b, n) :: p.blocks }

/-- allocator.hpp:23 `allocate`. -/
def allocateB (S : Nat → Bool) (alloc : Nat → List (Nat × Nat) → Nat → Option Nat) (n : Nat) : BM α Nat := do
  mayThrow S
  takeB alloc n

/-- allocator.hpp:25 `deallocate`: only for the address of a block in use. -/
def deallocateB (b : Nat) : BM α Unit := fun p =>
  match p.blocks.find? (fun x => x.1 == b) with
  | none => .fail .ub
  | some x => .ok () { p with
      mem := p.mem.free b x.2
      blocks := p.blocks.filter (fun y => y.1 != b)
      ruined := p.ruined + ((List.range x.2).filter fun i => (p.mem (b + i)).isSome).length }

/-- The address lies in a block in use.
allocator.hpp:23. -/
def Pool.inside (p : Pool α) (q : Nat) : Bool := p.blocks.any fun b => decide (b.1 ≤ q) && decide (q < b.1 + b.2)

/-- Storing a constructed element.
allocator.hpp:28-44. -/
def Pool.place (p : Pool α) (q : Nat) (v : α) : Pool α :=
  { p with mem := p.mem.set q v, ruined := p.ruined + if (p.mem q).isSome then 1 else 0 }

/-- Placement new of an element; `nx`: it cannot throw.
allocator.hpp:28-44. -/
def constructB (S : Nat → Bool) (nx : Bool) (q : Nat) (v : α) : BM α Unit := fun p =>
  if p.inside q then
    (if nx then .ok () (p.place q v)
    else match mayThrow S p with
      | .ok _ p' => .ok () (p'.place q v)
      | r => r)
  else .fail .ub

/-- Running the destructor of an element.
allocator.hpp:63. -/
def destroyB (q : Nat) : BM α Unit := fun p =>
  match p.mem q with
  | some _ => .ok () { p with mem := p.mem.free q 1 }
  | none => .fail .ub

/-- `std::destroy_n`: `n` elements from the address `b`, the first first.
allocator.hpp:63. -/
def destroyNB (b : Nat) : Nat → BM α Unit
  | 0 => pure ()
  | n + 1 => do
    destroyB b
    destroyNB (b + 1) n

/-- `std::uninitialized_copy_n` / `uninitialized_fill_n` from the `k`-th element on: when the value cannot be obtained or its construction throws, the
elements constructed so far are destroyed.
allocator.hpp:33-44. -/
def constructLoopB (S : Nat → Bool) (nx : Bool) (b : Nat) (src : Nat → Mem α → Res α) : Nat → Nat → BM α Unit
  | _, 0 => pure ()
  | k, n + 1 => do
    (BM.bind (BM.reads (src k)) (constructB S nx (b + k))).cleanup (destroyNB b k)
    constructLoopB S nx b src (k + 1) n

/-- allocator.hpp:33-44 `construct`. -/
def constructNB (S : Nat → Bool) (nx : Bool) (b n : Nat) (src : Nat → Mem α → Res α) : BM α Unit :=
  (constructLoopB S nx b src 0 n).noexcept nx

/-- The constructors that allocate and fill: when constructing the elements throws, the block is freed.
array.hpp:141-151, 158-168, 199-208, 218-231. -/
def newB (A : Arith) (S : Nat → Bool) (nx : Bool) (alloc : Nat → List (Nat × Nat) → Nat → Option Nat) (ext : List Nat) (src : Nat → Mem α → Res α) :
    BM α Own := do
  let b ← allocateB S alloc (prodL A ext)
  (constructNB S nx b (prodL A ext) src).cleanup (deallocateB b)
  pure ⟨some b, ext⟩

/-- array.hpp:82, 383-389 `~array`, `clear`. -/
def clearB (A : Arith) (o : Own) : BM α Unit :=
  match o.ptr with
  | none => pure ()
  | some b => do
    destroyNB b (prodL A o.ext)
    deallocateB b

/-- Change an element.
`elem = *it++` of detail/common.hpp:32, the functions of functional.hpp:60, 91. -/
def storeB (q : Nat) (v : α) : BM α Unit := fun p =>
  match p.mem.write q v with
  | .ok m => .ok () { p with mem := m }
  | .error f => .fail f

/-- The loop shared by all elementwise writes: `g` gives the new value of the element and whether the function throws after it has been changed, or
throws before.
detail/common.hpp:30-32, functional.hpp:59-60, 90-91, `std::copy` in array.hpp:285, 324. -/
def loopB (S : Nat → Bool) (g : Nat → Nat → Mem α → Res (α × Bool)) : Nat → List Nat → BM α Unit
  | _, [] => pure ()
  | k, q :: ps => do
    let r ← BM.reads (g k q)
    mayThrow S
    storeB q r.1
    if r.2 then BM.raise else loopB S g (k + 1) ps

/-- detail/common.hpp:22-36 `array_assign`. -/
def assignB (A : Arith) (chk : Bool) (S : Nat → Bool) (dest : Obj) (src : FSrc α) : BM α Unit :=
  match dest.dims with
  | none => BM.die .illFormed
  | some d =>
    if src.dims.length ≠ d.length then BM.die .illFormed
    else do
      BM.reads fun _ => dbg chk (src.dims == d)
      let ps ← BM.reads fun _ => dest.positions A
      loopB S (fun k _ m => src.value k m) 0 ps
      BM.reads fun _ => dbg chk (src.it.count == some ps.length)

/-- `view OP= expression`: functional.hpp:81-94, 139-154. -/
def inPlaceB (A : Arith) (chk : Bool) (S : Nat → Bool) (dest : Obj) (op : α → α → α × Bool) (src : FSrc α) : BM α Unit :=
  match dest.dims with
  | none => BM.die .illFormed
  | some d =>
    if d.length ≠ src.dims.length then BM.die .illFormed
    else do
      BM.reads fun _ => dbg chk (d == src.dims)
      let ps ← BM.reads fun _ => dest.positions A
      loopB S (fun k p m => src.update op k p m) 0 ps

/-- The value a scalar has when an element is assigned: it is read through a reference.
ref_array.hpp:77-83, strided_ref_array.hpp:83-88. -/
def scalarValue (c : Scalar α) (m : Mem α) : Res (α × Bool) := do
  let v ← c.get m
  .ok (v, false)

/-- `view = scalar`, or the assignment of an element: ref_array.hpp:77-83, strided_ref_array.hpp:83-88. -/
def fillB (A : Arith) (S : Nat → Bool) (dest : Obj) (c : Scalar α) : BM α Unit := do
  let ps ← BM.reads fun _ => dest.positions A
  loopB S (fun _ _ m => scalarValue c m) 0 ps

/-- `view OP= scalar`: functional.hpp:172-187. -/
def inPlaceScalarB (A : Arith) (S : Nat → Bool) (dest : Obj) (op : α → α → α × Bool) (c : Scalar α) : BM α Unit := do
  let ps ← BM.reads fun _ => dest.positions A
  loopB S (fun _ p m => scalarUpdate op c p m) 0 ps

/-- `apply(in_place, view, f)`: functional.hpp:51-63; not for elements. -/
def applyB (A : Arith) (S : Nat → Bool) (dest : Obj) (f : α → α × Bool) : BM α Unit := do
  BM.reads fun _ => needs dest.dims.isSome
  let ps ← BM.reads fun _ => dest.positions A
  loopB S (fun _ p m => applyUpdate f p m) 0 ps

/-- array.hpp:279-305 and 318-344 `x = e`. With equal sizes the elements are assigned one by one, then the extents change. Otherwise a new block is
allocated and its elements constructed; only after that the old elements are destroyed and the new block installed (JULES_DEFER); when it throws,
nothing frees the new block. -/
def setB (A : Arith) (S : Nat → Bool) (nx : Bool) (alloc : Nat → List (Nat × Nat) → Nat → Option Nat) (o : Own) (src : FSrc α) : BM α Own :=
  if prodL A o.ext = prodL A src.dims then
    match src.it.count with
    | none => BM.die .ub
    | some n =>
      if prodL A o.ext < n then BM.die .ub
      else match o.ptr with
        | none => if n = 0 then pure ⟨none, src.dims⟩ else BM.die .ub
        | some b => do
          loopB S (fun k _ m => src.value k m) 0 ((List.range n).map (A.add b ·))
          pure ⟨some b, src.dims⟩
  else do
    let b ← allocateB S alloc (prodL A src.dims)
    constructNB S nx b (prodL A src.dims) (fun k m => src.it.deref m k)
    clearB A o
    pure ⟨some b, src.dims⟩

/-- overlap.hpp:17-22 `overlap(view) = e`: a local array is constructed from `e`, assigned to the view, and destroyed. -/
def overlapB (A : Arith) (chk : Bool) (S : Nat → Bool) (nx : Bool) (alloc : Nat → List (Nat × Nat) → Nat → Option Nat) (dest : Obj) (src : FSrc α) :
    BM α Unit := do
  let t ← newB A S nx alloc src.dims (fun k m => src.it.deref m k)
  BM.finally (do
    let ts ← BM.reads fun _ => FSrc.ofObj A (.cref (t.ptr.getD 0) t.ext)
    assignB A chk S dest ts) (clearB A t)

/-- overlap.hpp:17-22 `overlap(x) = e` for an array: the local array is constructed and swapped with `x` (array.hpp:308-314); then the old elements
are destroyed. -/
def overlapWholeB (A : Arith) (S : Nat → Bool) (nx : Bool) (alloc : Nat → List (Nat × Nat) → Nat → Option Nat) (o : Own) (src : FSrc α) : BM α Own := do
  let t ← newB A S nx alloc src.dims (fun k m => src.it.deref m k)
  clearB A o
  pure t

/-! ### Programs -/

/-- The state of a program: the storage, the arrays in scope (pointer and extents, ref_array.hpp:188-191), and the names declared in the blocks that
have been entered (the innermost block, and in each block the last declaration, first). -/
structure BWorld (α : Type) where
  pool : Pool α
  env : Nat → Option Own
  scopes : List (List Nat)

/-- A null pointer with extents that promise elements.
array.hpp:211-213. -/
def Own.hollow (A : Arith) (o : Own) : Bool := o.ptr.isNone && prodL A o.ext != 0

/-- The arrays whose elements can be used, as addresses and extents; a null pointer is as good as any other when there are no elements.
ref_array.hpp:188-191. -/
def BWorld.flat (A : Arith) (W : BWorld α) : World α :=
  ⟨W.pool.mem, fun x => (W.env x).bind fun o => if o.hollow A then none else some ⟨o.ptr.getD 0, o.ext⟩, 0⟩

/-- Going through a null pointer is undefined.
array.hpp:211-213. -/
def BWorld.usable (A : Arith) (W : BWorld α) (xs : List Nat) : Res Unit :=
  if xs.any (fun x => match W.env x with | some o => o.hollow A | none => false) then .error .ub else .ok ()

/-- A name that is in scope.
Language semantics (name lookup) for the arrays of array.hpp:82-344. -/
def BWorld.own (W : BWorld α) (x : Nat) : Res Own :=
  match W.env x with
  | some o => .ok o
  | none => .error .illFormed

/-- Introduce, change or remove a variable.
Language semantics (scopes) for the arrays of array.hpp:82-344. -/
def BWorld.put (W : BWorld α) (x : Nat) (o : Option Own) : BWorld α := { W with env := fun y => if y = x then o else W.env y }

/-- The state after a statement that changes elements only, and whether an exception leaves it.
Language semantics, for the assignments of ref_array.hpp:70-90 and functional.hpp:51-187. -/
def BWorld.wrote (W : BWorld α) : BOut α Unit → Res (BWorld α × Bool)
  | .ok _ p => .ok ({ W with pool := p }, false)
  | .exn p => .ok ({ W with pool := p }, true)
  | .fail f => .error f

/-- The state after a statement that gives `x` a new pointer or extents, unless an exception leaves it.
Language semantics, for array.hpp:141-231, 279-344. -/
def BWorld.stored (W : BWorld α) (x : Nat) : BOut α Own → Res (BWorld α × Bool)
  | .ok o p => .ok (({ W with pool := p }).put x (some o), false)
  | .exn p => .ok ({ W with pool := p }, true)
  | .fail f => .error f

/-- The orders must be equal.
`static_assert` of array.hpp:321; the types of array.hpp:279, 308 and overlap.hpp:19-20. -/
def sameRank (o : Own) (d : List Nat) : Res Unit := if o.ext.length = d.length then .ok () else .error .illFormed

/-- Statements with functions that may throw.
array.hpp:158-168, 218-231, 279-344, functional.hpp:46-194, overlap.hpp:17-22, and the functions cited at `FStmt`. -/
def BWorld.fstep (A : Arith) (chk nx : Bool) (S : Nat → Bool) (alloc : Nat → List (Nat × Nat) → Nat → Option Nat) (W : BWorld α) :
    FStmt α → Res (BWorld α × Bool)
  | .plain _ => .error .illFormed
  | .make x e => do
    needs (W.env x).isNone
    W.usable A e.uses
    let src ← e.eval A chk (W.flat A)
    W.stored x (newB A S nx alloc src.dims (fun k m => src.it.deref m k) W.pool)
  | .makeFrom x l ext => do
    needs (W.env x).isNone
    needs (!ext.isEmpty) -- array.hpp:40
    W.stored x (newB A S nx alloc ext (fun k _ => pull l k) W.pool)
  | .assign x h e => do
    needs (!h.isEmpty) -- the other case is `set`
    W.usable A (x :: e.uses)
    let o ← (W.flat A).index A chk x h
    let src ← e.eval A chk (W.flat A)
    W.wrote (assignB A chk S o src W.pool)
  | .inPlace x h op e => do
    W.usable A (x :: e.uses)
    let o ← (W.flat A).index A chk x h
    let src ← e.eval A chk (W.flat A)
    W.wrote (inPlaceB A chk S o op src W.pool)
  | .inPlaceScalar x h op s => do
    W.usable A (x :: s.uses)
    let o ← (W.flat A).index A chk x h
    let c ← s.eval A chk (W.flat A)
    W.wrote (inPlaceScalarB A S o op c W.pool)
  | .apply x h f => do
    W.usable A [x]
    let o ← (W.flat A).index A chk x h
    W.wrote (applyB A S o f W.pool)
  | .overlap x h e => do
    needs (!h.isEmpty) -- the other case is `overlapWhole`
    W.usable A (x :: e.uses)
    let o ← (W.flat A).index A chk x h
    let src ← e.eval A chk (W.flat A)
    W.wrote (overlapB A chk S nx alloc o src W.pool)
  | .overlapWhole x e => do
    let o ← W.own x
    W.usable A e.uses
    let src ← e.eval A chk (W.flat A)
    sameRank o src.dims
    W.stored x (overlapWholeB A S nx alloc o src W.pool)
  | .set x (.arr y []) => do
    let o ← W.own x
    if x = y then .ok (W, false) -- array.hpp:281-282
    else do
      W.usable A [y]
      let src ← (FEx.arr y []).eval A chk (W.flat A)
      sameRank o src.dims
      W.stored x (setB A S nx alloc o src W.pool)
  | .set x e => do
    let o ← W.own x
    W.usable A e.uses
    let src ← e.eval A chk (W.flat A)
    sameRank o src.dims
    W.stored x (setB A S nx alloc o src W.pool)

/-- A function that does not throw.
functional.hpp:46-71. -/
def PEx.fallible : PEx α → FEx α
  | .arr x h => .arr x h
  | .un f e => .un (fun u => some (f u)) e.fallible
  | .bin f a b => .bin (fun u v => some (f u v)) a.fallible b.fallible
  | .scl f s e => .scl (fun u v => some (f u v)) s e.fallible
  | .scr f e s => .scr (fun u v => some (f u v)) e.fallible s

/-- Statements: those above, and those without functions.
array.hpp:82, 112, 141-151, 211-213, 308-314, ref_array.hpp:77-83, and the functions cited at `Stmt` and `MStmt`. -/
def BWorld.mstep (A : Arith) (chk nx : Bool) (S : Nat → Bool) (alloc : Nat → List (Nat × Nat) → Nat → Option Nat) (W : BWorld α) :
    MStmt α → Res (BWorld α × Bool)
  | .declare x n => do
    needs (W.env x).isNone
    needs (n != 0) -- array.hpp:40
    .ok (W.put x (some ⟨none, List.replicate n 0⟩), false)
  | .moveMake x y => do
    needs (W.env x).isNone
    let o ← W.own y
    .ok ((W.put x (some o)).put y (some ⟨none, o.ext⟩), false)
  | .old (.make x e) => W.fstep A chk nx S alloc (.make x e.fallible)
  | .old (.makeFrom x l ext) => W.fstep A chk nx S alloc (.makeFrom x (l.map some) ext)
  | .old (.makeFill x s ext) => do
    needs (W.env x).isNone
    needs (!ext.isEmpty) -- array.hpp:40
    W.usable A s.uses
    let c ← s.eval A chk (W.flat A)
    W.stored x (newB A S nx alloc ext (fun _ m => c.get m) W.pool)
  | .old (.drop x) => do
    let o ← W.own x
    let r ← W.wrote (clearB A o W.pool)
    .ok (r.1.put x none, false)
  | .old (.fill x h s) => do
    needs (!h.isEmpty) -- an array cannot be assigned a scalar: array.hpp:279-344
    W.usable A (x :: s.uses)
    let o ← (W.flat A).index A chk x h
    let c ← s.eval A chk (W.flat A)
    W.wrote (fillB A S o c W.pool)
  | .old (.assign x h e) => W.fstep A chk nx S alloc (.assign x h e.fallible)
  | .old (.inPlace x h op e) => W.fstep A chk nx S alloc (.inPlace x h (fun u y => (op u y, false)) e.fallible)
  | .old (.inPlaceScalar x h op s) => W.fstep A chk nx S alloc (.inPlaceScalar x h (fun u y => (op u y, false)) s)
  | .old (.apply x h f) => W.fstep A chk nx S alloc (.apply x h (fun u => (f u, false)))
  | .old (.overlap x h e) => W.fstep A chk nx S alloc (.overlap x h e.fallible)
  | .old (.overlapWhole x e) => W.fstep A chk nx S alloc (.overlapWhole x e.fallible)
  | .old (.set x e) => W.fstep A chk nx S alloc (.set x e.fallible)
  | .old (.moveAssign x y) => do
    dbg chk (x != y)
    let o ← W.own x
    let o' ← W.own y
    sameRank o o'.ext
    .ok ((W.put x (some o')).put y (some o), false)

/-- A declaration in the innermost block.
Language semantics (scopes) for the constructors of array.hpp:112-231. -/
def BWorld.declare (W : BWorld α) : Option Nat → BWorld α
  | none => W
  | some x => match W.scopes with
    | [] => W
    | f :: fs => { W with scopes := (x :: f) :: fs }

/-- One statement: the state after it and whether an exception has left it. Arrays are destroyed at the end of their block only. A declaration
counts if its initialization does not throw.
array.hpp:112-344, functional.hpp:46-194, overlap.hpp:17-22. -/
def BWorld.step (A : Arith) (chk nx : Bool) (S : Nat → Bool) (alloc : Nat → List (Nat × Nat) → Nat → Option Nat) (W : BWorld α) :
    XStmt α → Res (BWorld α × Bool)
  | .calm (.old (.drop _)) => .error .illFormed
  | .calm s => do
    let r ← W.mstep A chk nx S alloc s
    .ok (if r.2 then r else (r.1.declare (XStmt.calm s).declares, false))
  | .wild s => do
    let r ← W.fstep A chk nx S alloc s
    .ok (if r.2 then r else (r.1.declare s.declares, false))

/-- Leaving a block: its arrays are destroyed, the last one first.
Language semantics (scopes); array.hpp:82, 383-389. -/
def BWorld.leave (A : Arith) (chk nx : Bool) (S : Nat → Bool) (alloc : Nat → List (Nat × Nat) → Nat → Option Nat) (W : BWorld α) : Res (BWorld α) :=
  match W.scopes with
  | [] => .error .illFormed
  | f :: fs => do
    let W' ← f.foldlM (fun W x => do let r ← W.mstep A chk nx S alloc (.old (.drop x)); .ok r.1) W
    .ok { W' with scopes := fs }

/-- Entering a block.
Language semantics (scopes) for the arrays of array.hpp:82-344. -/
def BWorld.enter (W : BWorld α) : BWorld α := { W with scopes := [] :: W.scopes }

/-- `return y;` for the array `y` of the block that ends: it is moved.
array.hpp:211-213; language semantics (implicit move). -/
def BWorld.give (A : Arith) (chk nx : Bool) (S : Nat → Bool) (alloc : Nat → List (Nat × Nat) → Nat → Option Nat) (W : BWorld α) (x y : Nat) :
    Res (BWorld α) := do
  needs ((W.scopes.headD []).contains y)
  let r ← W.mstep A chk nx S alloc (.moveMake x y)
  .ok r.1

/-- Copy one element after the other.
unary_expr_array.hpp:68, binary_expr_array.hpp:75, detail/iterator.hpp:69, ref_array.hpp:160-167. -/
def copiesB (S : Nat → Bool) (src : FSrc α) : Nat → Nat → BM α (List α)
  | _, 0 => pure []
  | k, n + 1 => do
    let v ← BM.reads fun m => src.it.deref m k
    mayThrow S
    let vs ← copiesB S src (k + 1) n
    pure (v :: vs)

/-- The elements from `begin()` to `end()`.
ref_array.hpp:160-167 and the iterators cited above. -/
def elementsB (S : Nat → Bool) (src : FSrc α) : BM α (List α) :=
  match src.it.count with
  | none => BM.die .ub
  | some n => copiesB S src 0 n

/-- Copying an element.
ref_array.hpp:100-103. -/
def scalarB (S : Nat → Bool) (c : Scalar α) : BM α α := do
  let v ← BM.reads fun m => c.get m
  mayThrow S
  pure v

/-- Running a program: the state in which it ends and its result; `none`: it is left by an exception.
Language semantics; array.hpp:82-344, ref_array.hpp:105-167, and the functions cited at `XStmt` and `Body`. -/
def BWorld.exec (A : Arith) (chk nx : Bool) (S : Nat → Bool) (alloc : Nat → List (Nat × Nat) → Nat → Option Nat) (W : BWorld α) :
    Body α β → Res (BWorld α × Option β)
  | .ret b => .ok (W, some b)
  | .throw => .ok (W, none)
  | .exec s k => do
    let r ← W.step A chk nx S alloc s
    if r.2 then .ok (r.1, none) else r.1.exec A chk nx S alloc k
  | .read s k => do
    W.usable A s.uses
    let c ← s.eval A chk (W.flat A)
    match scalarB S c W.pool with
    | .ok v p => BWorld.exec A chk nx S alloc { W with pool := p } (k v)
    | .exn p => .ok ({ W with pool := p }, none)
    | .fail f => .error f
  | .elements e k => do
    W.usable A e.uses
    let src ← e.eval A chk (W.flat A)
    match elementsB S src W.pool with
    | .ok xs p => BWorld.exec A chk nx S alloc { W with pool := p } (k src.dims xs)
    | .exn p => .ok ({ W with pool := p }, none)
    | .fail f => .error f
  | .block body k => do
    let r ← W.enter.exec A chk nx S alloc body
    let W' ← r.1.leave A chk nx S alloc
    match r.2 with
    | none => .ok (W', none)
    | some b => W'.exec A chk nx S alloc (k b)
  | .call x y body k => do
    let r ← W.enter.exec A chk nx S alloc body
    match r.2 with
    | none => do
      let W' ← r.1.leave A chk nx S alloc
      .ok (W', none)
    | some b => do
      let W₁ ← r.1.give A chk nx S alloc x y
      let W' ← W₁.leave A chk nx S alloc
      (W'.declare (some x)).exec A chk nx S alloc (k b)
  | .attempt body handler k => do
    let r ← W.enter.exec A chk nx S alloc body
    let W' ← r.1.leave A chk nx S alloc
    match r.2 with
    | some b => W'.exec A chk nx S alloc (k b)
    | none => do
      let r' ← W'.enter.exec A chk nx S alloc handler
      let W'' ← r'.1.leave A chk nx S alloc
      match r'.2 with
      | none => .ok (W'', none)
      | some b => W''.exec A chk nx S alloc (k b)

/-- The beginning of a program.
Language semantics for the arrays of array.hpp:82-344. -/
def BWorld.empty : BWorld α := ⟨⟨fun _ => none, [], 0, 0⟩, fun _ => none, [[]]⟩

/-- A whole program: a function body (`main`), an exception that leaves it being caught by the caller.
Language semantics for the arrays of array.hpp:82-344. -/
def BWorld.main (A : Arith) (chk nx : Bool) (S : Nat → Bool) (alloc : Nat → List (Nat × Nat) → Nat → Option Nat) (p : Body α β) : Res (BWorld α × Option β) :=
  BWorld.empty.exec A chk nx S alloc (.block p .ret)

end Jules

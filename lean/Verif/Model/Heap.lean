import Verif.Model.Layout
/-
Model of object lifetime: array/allocator.hpp, array/builder.hpp, the constructors, assignments and
destructor of array/array.hpp.

The heap is a sequence of blocks, in the order of their allocation. A block that has been freed stays as
`none`. A cell of a block is raw memory (`none`) or holds a constructed element.

Every allocation and every element construction or assignment may throw: the schedule `S` says, for the
n-th such event of the whole execution, whether it does. Destructors do not throw.
-/
namespace Jules

/-- The state of the heap. `lost` counts the elements whose storage was freed or reused without their
destructor having run.
What allocator.hpp:23-63 works on. -/
structure Heap (α : Type) where
  blocks : List (Option (List (Option α)))
  clock : Nat
  lost : Nat
  deriving DecidableEq, Repr

/-- Outcome of a computation on the heap: normal, an exception (the heap is kept), or the end of the
execution (assertion, undefined behaviour).
The outcomes of the functions of array.hpp and allocator.hpp. -/
inductive Out (α β : Type) where
  | ok (b : β) (h : Heap α)
  | exn (e : Exn) (h : Heap α)
  | fail (f : Fail)

/-- Computations on the heap.
The functions of array.hpp, allocator.hpp and builder.hpp that work on the heap. -/
def HM (α β : Type) := Heap α → Out α β

/-- Normal return.
Language semantics. -/
def HM.pure (b : β) : HM α β := fun h => .ok b h

/-- Sequencing; exceptions propagate.
Language semantics. -/
def HM.bind (x : HM α β) (f : β → HM α γ) : HM α γ := fun h =>
  match x h with
  | .ok b h' => f b h'
  | .exn e h' => .exn e h'
  | .fail f => .fail f

instance : Monad (HM α) where
  pure := HM.pure
  bind := HM.bind

/-- `throw e`.
Language semantics. -/
def HM.throw (e : Exn) : HM α β := fun h => .exn e h

/-- `try { x } catch (...) { c; throw; }`.
The form of array.hpp:129-135, 144-150, 161-167, 188-195, 201-207, 224-230, 241-247, 258-264. -/
def HM.cleanup (x : HM α β) (c : HM α Unit) : HM α β := fun h =>
  match x h with
  | .exn e h' => match c h' with
    | .ok _ h'' => .exn e h''
    | .exn e' h'' => .exn e' h''
    | .fail f => .fail f
  | r => r

/-- Undefined behaviour or a failed assertion.
Language semantics. -/
def HM.die (f : Fail) : HM α β := fun _ => .fail f

/-- A computation outside the heap.
Language semantics. -/
def HM.lift (x : Res β) : HM α β := fun h =>
  match x with
  | .ok b => .ok b h
  | .error (.exc e) => .exn e h
  | .error f => .fail f

/-- An event that throws `e` when the schedule says so.
Throwing `new` (allocator.hpp:23) and element operations (allocator.hpp:28-61, array.hpp:285, 324). -/
def event (S : Nat → Bool) (e : Exn) : HM α Unit := fun h =>
  if S h.clock then .exn e { h with clock := h.clock + 1 } else .ok () { h with clock := h.clock + 1 }

/-- The cells of a live block.
Blocks of allocator.hpp:23. -/
def Heap.cells (h : Heap α) (id : Nat) : Option (List (Option α)) := (h.blocks[id]?).join

/-- Change the cells of a block.
Blocks of allocator.hpp:23. -/
def Heap.setCells (h : Heap α) (id : Nat) (c : List (Option α)) : Heap α :=
  { h with blocks := h.blocks.set id (some c) }

/-- allocator.hpp:23 `allocate(n)`: `new storage_type[n]`. -/
def allocate (S : Nat → Bool) (n : Nat) : HM α Nat := do
  event S .badAlloc
  fun h => .ok h.blocks.length { h with blocks := h.blocks ++ [some (List.replicate n none)] }

/-- allocator.hpp:25 `deallocate`: `delete[]` on a live block (anything else is undefined); elements still
constructed are lost. -/
def deallocate (id : Nat) : HM α Unit := fun h =>
  match h.cells id with
  | some c => .ok () { h with blocks := h.blocks.set id none, lost := h.lost + (c.filter Option.isSome).length }
  | none => .fail .ub

/-- Placement new of an element; constructing over an existing element loses that one.
allocator.hpp:28-61, 76, 91 and builder.hpp:52, 59, 66. -/
def constructAt (S : Nat → Bool) (id k : Nat) (v : α) : HM α Unit := fun h =>
  match h.cells id with
  | some c => match c[k]? with
    | some old => (do
        event S .user
        fun h => .ok () { h.setCells id (c.set k (some v)) with lost := h.lost + if old.isSome then 1 else 0 } :
        HM α Unit) h
    | none => .fail .ub
  | none => .fail .ub

/-- Running an element's destructor.
allocator.hpp:63, 107. -/
def destroyAt (id k : Nat) : HM α Unit := fun h =>
  match h.cells id with
  | some c => match c[k]? with
    | some (some _) => .ok () (h.setCells id (c.set k none))
    | _ => .fail .ub
  | none => .fail .ub

/-- Reading an element.
ref_array.hpp:100, 163-170. -/
def readAt (id k : Nat) : HM α α := fun h =>
  match h.cells id with
  | some c => match c[k]? with
    | some (some v) => .ok v h
    | _ => .fail .ub
  | none => .fail .ub

/-- Assigning to an element.
array.hpp:285, 324 (`std::copy`) and assignments to `a[i]`. -/
def assignAt (S : Nat → Bool) (id k : Nat) (v : α) : HM α Unit := fun h =>
  match h.cells id with
  | some c => match c[k]? with
    | some (some _) => (do
        event S .user
        fun h => .ok () (h.setCells id (c.set k (some v))) : HM α Unit) h
    | _ => .fail .ub
  | none => .fail .ub

/-- Destroy the elements at the given positions, in order.
allocator.hpp:63, 95-109. -/
def destroyList (id : Nat) : List Nat → HM α Unit
  | [] => pure ()
  | k :: ks => do
    destroyAt id k
    destroyList id ks

/-- allocator.hpp:63 `std::destroy_n(data, n)`. -/
def destroyN (id n : Nat) : HM α Unit := destroyList id (List.range n)

/-- The construction loop over a sequence of (position, source of value): construct each in turn; when one
throws, destroy those already constructed, in order, and rethrow. `done` are the positions already
constructed. This is
* `std::uninitialized_copy_n`, `uninitialized_fill_n`, `uninitialized_value_construct_n` (allocator.hpp:28-44)
  with the positions 0, 1, …, n-1;
* `construct_recursive` / `destroy_recursive` (allocator.hpp:46-61, 81-109) with the positions in the order
  of the nested lists: `constructed_count` is the length of `done`, and the destruction visits the positions in
  the order in which they were constructed. -/
def constructLoop (S : Nat → Bool) (id : Nat) (done : List Nat) : List (Nat × HM α α) → HM α Unit
  | [] => pure ()
  | (k, src) :: rest => do
    (do let v ← src
        constructAt S id k v : HM α Unit).cleanup (destroyList id done)
    constructLoop S id (done ++ [k]) rest

/-- The positions 0..n-1 with the values delivered by an iterator.
allocator.hpp:28-44: positions `0, 1, ...`. -/
def seqPlan (n : Nat) (src : Nat → HM α α) : List (Nat × HM α α) := (List.range n).map fun k => (k, src k)

/-- An array object: `data_` and the extents of `descriptor_` (ref_array.hpp:188-191). -/
structure Own where
  ptr : Option Nat
  ext : List Nat
  deriving DecidableEq, Repr

/-- ref_array.hpp:172 `size()`. -/
def Own.size (o : Own) : Nat := prodL Arith.exact o.ext

/-- The constructors that allocate and fill (array.hpp:126-181, 184-208, 218-265): allocate `n` elements,
construct them, and when that throws deallocate and rethrow. (The data pointer is then set to null, so that
the destructor that runs for delegating constructors does nothing.) -/
def newArr (S : Nat → Bool) (ext : List Nat) (plan : List (Nat × HM α α)) : HM α Own := do
  let id ← allocate S (prodL Arith.exact ext)
  (constructLoop S id [] plan).cleanup (deallocate id)
  pure ⟨some id, ext⟩

/-- array.hpp:112 the default constructor: null pointer, value-initialised extents. -/
def defaultArr (N : Nat) : Own := ⟨none, List.replicate N 0⟩

/-- array.hpp:141-151 `array(value, dims...)`. -/
def fillArr (S : Nat → Bool) (v : α) (ext : List Nat) : HM α Own :=
  newArr S ext (seqPlan (prodL Arith.exact ext) fun _ => pure v)

/-- The elements of a C++ sequence `l` through an iterator; going past the end is undefined.
Dereferencing the iterator given to array.hpp:158-168. -/
def iterSrc (l : List α) (k : Nat) : HM α α :=
  match l[k]? with
  | some v => pure v
  | none => HM.die .ub

/-- array.hpp:158-168 `array(it, dims...)`; with one dimension also 234-265 (ranges, iterator pairs). -/
def iterArr (S : Nat → Bool) (l : List α) (ext : List Nat) : HM α Own :=
  newArr S ext (seqPlan (prodL Arith.exact ext) (iterSrc l))

/-- The elements of an array object through its pointer; the null pointer is undefined.
`source.data()[k]`, array.hpp:202, 285, 301. -/
def ownSrc (o : Own) (k : Nat) : HM α α :=
  match o.ptr with
  | some id => readAt id k
  | none => HM.die .ub

/-- array.hpp:199-208 the copy constructor. -/
def copyArr (S : Nat → Bool) (src : Own) : HM α Own := newArr S src.ext (seqPlan src.size (ownSrc src))

/-- array.hpp:211-213 the move constructor: the new object and what is left of the source (its descriptor is
copied, its pointer becomes null). -/
def moveArr (src : Own) : Own × Own := (⟨src.ptr, src.ext⟩, ⟨none, src.ext⟩)

/-- array.hpp:82, 383-389 the destructor (`clear`). -/
def clearArr (o : Own) : HM α Unit :=
  match o.ptr with
  | none => pure ()
  | some id => do
    destroyN id o.size
    deallocate id

/-- `std::copy` of `n` elements into the constructed cells of a block.
array.hpp:285, 324 `std::copy`. -/
def copyLoop (S : Nat → Bool) (dst : Own) (src : Nat → HM α α) : Nat → List Nat → HM α Unit
  | _, [] => pure ()
  | n, k :: ks => do
    let v ← src k
    (match dst.ptr with
      | some id => assignAt S id k v
      | none => HM.die .ub)
    copyLoop S dst src n ks

/-- array.hpp:279-305 and 318-344: assignment from a source with the given extents and elements. With equal
sizes: `std::copy` over the own elements, then take the extents. Otherwise allocate and construct a new block;
only when that has succeeded, the deferred action (JULES_DEFER) destroys the old elements and installs the new
block; when it throws, nothing frees the new block. -/
def assignArr (S : Nat → Bool) (dst : Own) (ext : List Nat) (src : Nat → HM α α) : HM α Own :=
  if dst.size = prodL Arith.exact ext then do
    copyLoop S dst src dst.size (List.range dst.size)
    pure ⟨dst.ptr, ext⟩
  else do
    let id ← allocate S (prodL Arith.exact ext)
    constructLoop S id [] (seqPlan (prodL Arith.exact ext) src)
    clearArr dst
    pure ⟨some id, ext⟩

/-! ### Nested initialiser lists -/

/-- core/type.hpp:209-219 `recursive_initializer_list_t<T, N>`. -/
def Nest (α : Type) : Nat → Type
  | 0 => α
  | n + 1 => List (Nest α n)

/-- array.hpp:404-412 `calculate_descriptor_fill`. -/
def descFill (chk : Bool) : (n : Nat) → Nest α n → Res (List Nat)
  | 0, _ => .ok []
  | n + 1, (l : List (Nest α n)) => do
    dbg chk (decide (l.length > 0))
    match l with
    | [] => .error .ub  -- `*values.begin()` of an empty list
    | x :: _ => do
      let es ← descFill chk n x
      .ok (l.length :: es)

/-- array.hpp:415-429 `calculate_descriptor_check`. -/
def descCheck : (n : Nat) → Nest α n → List Nat → Bool
  | 0, _, _ => true
  | n + 1, (l : List (Nest α n)), e :: es => l.length == e && l.all fun x => descCheck n x es
  | _ + 1, _, [] => false

/-- array.hpp:392-401 `calculate_descriptor`. -/
def calcDesc (chk : Bool) (n : Nat) (v : Nest α n) : Res (List Nat) := do
  let ext ← descFill chk n v
  dbg chk (descCheck n v ext)
  .ok ext

/-- The positions and values in the order in which `construct_recursive` visits them
(allocator.hpp:66-93): for each level the indices `0 … extents[level]-1`, `values.begin() + i`, and
`desc({indexes...})` at the leaves. Simplification: reaching past the end of a list (only possible in unchecked
builds) is detected here, before any element is constructed. -/
def initPlan (ext : List Nat) : (n : Nat) → Nest α n → (rest idx : List Nat) → Res (List (Nat × α))
  | 0, v, _, idx => .ok [(Desc.pos Arith.exact ext idx, v)]
  | n + 1, (l : List (Nest α n)), e :: rest, idx =>
    (List.range e).foldlM (fun acc i =>
      match l[i]? with
      | some x => do
        let p ← initPlan ext n x rest (idx ++ [i])
        .ok (acc ++ p)
      | none => .error .ub) []
  | _ + 1, _, [], _ => .error .ub

/-- array.hpp:184-196 `array(recursive_initializer_list_t)`. -/
def initArr (S : Nat → Bool) (chk : Bool) (n : Nat) (v : Nest α n) : HM α Own := do
  let ext ← HM.lift (calcDesc chk n v)
  let id ← allocate S (prodL Arith.exact ext)
  let plan ← HM.lift (initPlan ext n v ext [])
  (constructLoop S id [] (plan.map fun p => (p.1, pure p.2))).cleanup (deallocate id)
  pure ⟨some id, ext⟩

/-! ### Programs -/

/-- Operations of a program on array variables. Constructors need an unused variable.
The operations of array.hpp:112-344 and 82. -/
inductive HOp (α : Type) where
  /-- `array x;` -/
  | default (x N : Nat)
  /-- `array x(v, ext...)` -/
  | fill (x : Nat) (v : α) (ext : List Nat)
  /-- `array x(it, ext...)` with `it` delivering `l` -/
  | iter (x : Nat) (l : List α) (ext : List Nat)
  /-- `array x{{...}, ...}` -/
  | init (x n : Nat) (v : Nest α n)
  /-- `array x(y);` -/
  | copy (x y : Nat)
  /-- `array x(std::move(y));` -/
  | move (x y : Nat)
  /-- `x = y;` -/
  | assign (x y : Nat)
  /-- `x = std::move(y);` -/
  | moveAssign (x y : Nat)
  /-- `x = e;` for an expression `e` of the given extents whose elements are the list (reading no array) -/
  | assignExpr (x : Nat) (ext : List Nat) (l : List α)
  /-- `array x = reshape(std::move(y), ext...)` -/
  | reshape (x y : Nat) (ext : List Nat)
  /-- `x[...] = v` for the k-th element -/
  | write (x k : Nat) (v : α)
  /-- the end of `x`'s lifetime -/
  | destroy (x : Nat)

/-- A program state: the array objects and the heap.
A program state; not in the code. -/
structure PState (α : Type) where
  env : Nat → Option Own
  heap : Heap α

/-- Change a variable.
Program variables; not in the code. -/
def PState.setVar (s : PState α) (x : Nat) (o : Option Own) (h : Heap α) : PState α :=
  ⟨fun y => if y = x then o else s.env y, h⟩

/-- Finish an operation whose result is stored in variable `x`: the next state and the exception thrown, if any
(the program catches it and goes on); when it throws, the variables keep their values.
Language semantics: an exception leaves the variable as it was. -/
def finish (s : PState α) (x : Nat) (r : Out α Own) : Res (PState α × Option Exn) :=
  match r with
  | .ok o h => .ok (s.setVar x (some o) h, none)
  | .exn e h => .ok (⟨s.env, h⟩, some e)
  | .fail f => .error f

/-- One operation. Using a variable that is not alive, or constructing one that is, does not compile.
Dispatches to the models of array.hpp:112-344, 82 above. -/
def hstep (S : Nat → Bool) (chk : Bool) (s : PState α) : HOp α → Res (PState α × Option Exn)
  | .default x N => match s.env x with
    | some _ => .error .illFormed
    | none => .ok (s.setVar x (some (defaultArr N)) s.heap, none)
  | .fill x v ext => match s.env x with
    | some _ => .error .illFormed
    | none => finish s x (fillArr S v ext s.heap)
  | .iter x l ext => match s.env x with
    | some _ => .error .illFormed
    | none => finish s x (iterArr S l ext s.heap)
  | .init x n v => match s.env x with
    | some _ => .error .illFormed
    | none => finish s x (initArr S chk n v s.heap)
  | .copy x y => match s.env x, s.env y with
    | none, some o => finish s x (copyArr S o s.heap)
    | _, _ => .error .illFormed
  | .move x y => match s.env x, s.env y with
    | none, some o => .ok ((s.setVar y (some (moveArr o).2) s.heap).setVar x (some (moveArr o).1) s.heap, none)
    | _, _ => .error .illFormed
  | .assign x y => match s.env x, s.env y with
    | some a, some b => if x = y then .ok (s, none) else finish s x (assignArr S a b.ext (ownSrc b) s.heap)
    | _, _ => .error .illFormed
  | .moveAssign x y => match s.env x, s.env y with
    | some a, some b => do
      dbg chk (x != y)
      .ok ((s.setVar y (some a) s.heap).setVar x (some b) s.heap, none)
    | _, _ => .error .illFormed
  | .assignExpr x ext l => match s.env x with
    | some a => finish s x (assignArr S a ext (iterSrc l) s.heap)
    | none => .error .illFormed
  | .reshape x y ext => match s.env x, s.env y with
    | none, some o => do
      dbg chk (o.size == prodL Arith.exact ext)  -- array.hpp:441-447
      .ok ((s.setVar y (some ⟨none, o.ext⟩) s.heap).setVar x (some ⟨o.ptr, ext⟩) s.heap, none)
    | _, _ => .error .illFormed
  | .write x k v => match s.env x with
    | some a => match a.ptr with
      | some id => match assignAt S id k v s.heap with
        | .ok _ h => .ok (⟨s.env, h⟩, none)
        | .exn e h => .ok (⟨s.env, h⟩, some e)
        | .fail f => .error f
      | none => .error .ub
    | none => .error .illFormed
  | .destroy x => match s.env x with
    | some a => match clearArr a s.heap with
      | .ok _ h => .ok (s.setVar x none h, none)
      | .exn e h => .ok (⟨s.env, h⟩, some e)
      | .fail f => .error f
    | none => .error .illFormed

/-- A program, from the state `s`.
A sequence of the operations of array.hpp:112-344, 82. -/
def hrun (S : Nat → Bool) (chk : Bool) : PState α → List (HOp α) → Res (PState α)
  | s, [] => .ok s
  | s, op :: ops => do
    let r ← hstep S chk s op
    hrun S chk r.1 ops

/-- The state before anything has been created.
The start of a program; not in the code. -/
def PState.empty : PState α := ⟨fun _ => none, ⟨[], 0, 0⟩⟩

/-! ### array_builder -/

/-- builder.hpp:80-83: the data members. -/
structure Builder where
  ptr : Option Nat
  ext : List Nat
  count : Nat
  deriving DecidableEq, Repr

/-- builder.hpp:20 `array_builder(extents)`. -/
def builderNew (S : Nat → Bool) (ext : List Nat) : HM α Builder := do
  let id ← allocate S (prodL Arith.exact ext)
  pure ⟨some id, ext, 0⟩

/-- builder.hpp:49-68 `push_back` / `emplace_back`. -/
def builderPush (S : Nat → Bool) (chk : Bool) (b : Builder) (v : α) : HM α Builder := do
  HM.lift (dbg chk (b.count != prodL Arith.exact b.ext))
  (match b.ptr with
    | some id => constructAt S id b.count v
    | none => HM.die .ub)
  pure { b with count := b.count + 1 }

/-- builder.hpp:72-77 `release`: the pointer, and the builder afterwards. -/
def builderRelease (chk : Bool) (b : Builder) : Res (Option Nat × Builder) := do
  dbg chk (b.count == prodL Arith.exact b.ext)
  .ok (b.ptr, { b with ptr := none, count := 0 })

/-- builder.hpp:24-30 the destructor. -/
def builderDtor (b : Builder) : HM α Unit :=
  match b.ptr with
  | none => pure ()
  | some id => do
    destroyN id b.count
    deallocate id

/-- array.hpp:268 `array(array_builder)`: release, take the extents, destroy the builder. -/
def arrayFromBuilder (chk : Bool) (b : Builder) : HM α Own := do
  let r ← HM.lift (builderRelease chk b)
  builderDtor r.2
  pure ⟨r.1, r.2.ext⟩

/-- builder.hpp:34-36 the move constructor: new builder and what is left. -/
def builderMove (b : Builder) : Builder × Builder := (b, ⟨none, b.ext, 0⟩)

/-- builder.hpp:40-45 move assignment: swaps, and then flows off the end of a function returning a
reference (undefined behaviour). -/
def builderMoveAssign (_a _b : Builder) : Res (Builder × Builder) := .error .ub

/-- Push a sequence of elements; an exception ends the sequence and leaves the builder as it is. Returns the
builder and how many were pushed.
Calls of builder.hpp:49-68 in sequence. -/
def builderPushAll (S : Nat → Bool) (chk : Bool) : Builder → List α → Heap α → Out α Builder
  | b, [], h => .ok b h
  | b, v :: vs, h => match builderPush S chk b v h with
    | .ok b' h' => builderPushAll S chk b' vs h'
    | .exn _ h' => .ok b h'
    | .fail f => .fail f

end Jules

import Verif.Basic
/-
Model of base/const_vector.hpp: a `std::shared_ptr` to a `std::vector` that no member function changes.
`std::shared_ptr` is modelled by its contract: a block with a use count, freed when the count drops to zero.
-/
namespace Jules

/-- The store. `blocks[b]` is the vector of block `b` with its use count, or `none` once freed. `vars[x]` is the state of variable
`x`: `none` after its lifetime, `some none` holding a null pointer (moved from), `some (some b)` pointing to block `b`.
The `std::shared_ptr` of const_vector.hpp:193. -/
structure CVState (α : Type) where
  blocks : List (Option (List α × Nat))
  vars : List (Option (Option Nat))

/-- Nothing exists.
The start of a program; not in the code. -/
def CVState.init : CVState α := ⟨[], []⟩

/-- Operations on variables (numbered in the order of their creation).
const_vector.hpp:51-99. -/
inductive CVOp (α : Type) where
  /-- const_vector.hpp:67-83: any constructor that creates a vector with the given elements. -/
  | make (l : List α)
  /-- const_vector.hpp:86 copy constructor: a new variable. -/
  | copyInit (x : Nat)
  /-- const_vector.hpp:89 move constructor: a new variable. -/
  | moveInit (x : Nat)
  /-- const_vector.hpp:96 `x = y`. -/
  | copyAssign (x y : Nat)
  /-- const_vector.hpp:99 `x = std::move(y)`. -/
  | moveAssign (x y : Nat)
  /-- const_vector.hpp:51 destructor. -/
  | destroy (x : Nat)

/-- A variable within its lifetime.
const_vector.hpp:193. -/
def CVState.get (s : CVState α) (x : Nat) : Res (Option Nat) :=
  match s.vars[x]? with
  | some (some p) => .ok p
  | _ => .error .ub

/-- One more owner. Touching a freed block is undefined.
Copying the `std::shared_ptr` of const_vector.hpp:193. -/
def acquire (blocks : List (Option (List α × Nat))) : Option Nat → Res (List (Option (List α × Nat)))
  | none => .ok blocks
  | some b => match blocks[b]? with
    | some (some (l, n)) => .ok (blocks.set b (some (l, n + 1)))
    | _ => .error .ub

/-- One owner less; the last one frees the block.
Destroying the `std::shared_ptr` of const_vector.hpp:193. -/
def releasePtr (blocks : List (Option (List α × Nat))) : Option Nat → Res (List (Option (List α × Nat)))
  | none => .ok blocks
  | some b => match blocks[b]? with
    | some (some (l, n)) => .ok (blocks.set b (if n = 1 then none else some (l, n - 1)))
    | _ => .error .ub

/-- One operation.
const_vector.hpp:51-99. -/
def CVState.step (s : CVState α) : CVOp α → Res (CVState α)
  | .make l => .ok ⟨s.blocks ++ [some (l, 1)], s.vars ++ [some (some s.blocks.length)]⟩
  | .copyInit x => do
    let p ← s.get x
    let bs ← acquire s.blocks p
    .ok ⟨bs, s.vars ++ [some p]⟩
  | .moveInit x => do
    let p ← s.get x
    .ok ⟨s.blocks, s.vars.set x (some none) ++ [some p]⟩
  | .copyAssign x y => do
    let p ← s.get y
    let old ← s.get x
    let bs ← acquire s.blocks p
    let bs ← releasePtr bs old
    .ok ⟨bs, s.vars.set x (some p)⟩
  | .moveAssign x y => do
    let p ← s.get y
    let s1 : CVState α := ⟨s.blocks, s.vars.set y (some none)⟩
    let old ← s1.get x
    let bs ← releasePtr s.blocks old
    .ok ⟨bs, s1.vars.set x (some p)⟩
  | .destroy x => do
    let p ← s.get x
    let bs ← releasePtr s.blocks p
    .ok ⟨bs, s.vars.set x none⟩

/-- The vector a variable refers to (`*data_`): undefined for a null pointer. Every member function of const_vector.hpp:116-189 reads
through it. -/
def CVState.values (s : CVState α) (x : Nat) : Res (List α) := do
  let p ← s.get x
  match p with
  | none => .error .ub
  | some b => match s.blocks[b]? with
    | some (some (l, _)) => .ok l
    | _ => .error .ub

/-- const_vector.hpp:116 `at(pos)`. -/
def CVState.at (s : CVState α) (x pos : Nat) : Res α := do
  let l ← s.values x
  match l[pos]? with
  | some v => .ok v
  | none => .error (.exc .outOfRange)

/-- const_vector.hpp:119 `operator[](pos)`; 122, 125 `front`/`back` are the first and last position. -/
def CVState.index (s : CVState α) (x pos : Nat) : Res α := do
  let l ← s.values x
  match l[pos]? with
  | some v => .ok v
  | none => .error .ub

/-- const_vector.hpp:174 `operator==` compares the vectors. -/
def CVState.eq [DecidableEq α] (s : CVState α) (x y : Nat) : Res Bool := do
  let a ← s.values x
  let b ← s.values y
  .ok (decide (a = b))

/-- A history.
A sequence of the operations of const_vector.hpp:51-99. -/
def CVState.run (s : CVState α) (ops : List (CVOp α)) : Res (CVState α) := ops.foldlM CVState.step s

end Jules

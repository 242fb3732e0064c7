import Verif.Model.ConstVector
/-
Model of base/const_vector.hpp used by several threads. Threads have variables of their own, and all may copy and read shared variables
that nobody changes while the threads run. The only member of a const_vector is a `std::shared_ptr` (const_vector.hpp:193), modelled by its
contract: copying it increments the use count and destroying it decrements the count, each atomically; the thread whose decrement takes the
count to zero destroys the vector and frees the block, in a later step. Reading the elements is not synchronised. Threads are interleaved
step by step. (C++ guarantees that a program without data races behaves as some such interleaving; `SVSys.Race` is defined beside the steps.)
-/
namespace Jules

/-- The variable an operation reads: one of the thread's own, or a shared one.
Language semantics (scopes) for the objects of const_vector.hpp:25-194. -/
inductive SVRef where
  | own (x : Nat)
  | shared (g : Nat)

/-- What a thread can do.
const_vector.hpp:51-189. -/
inductive SVOp (α : Type) where
  /-- An operation on variables of its own, const_vector.hpp:51-99. -/
  | local (o : CVOp α)
  /-- const_vector.hpp:86 copy constructor from a shared variable: a new own variable. -/
  | copyShared (g : Nat)
  /-- const_vector.hpp:119 `operator[](pos)`; also what dereferencing an iterator (132-153) and `data()[pos]` (128) read. -/
  | read (r : SVRef) (pos : Nat)
  /-- const_vector.hpp:170 `size()`. -/
  | size (r : SVRef)
  /-- const_vector.hpp:174 `operator==`. -/
  | equal (r q : SVRef)

/-- What a thread has seen.
The results of const_vector.hpp:119, 170, 174. -/
inductive SVObs (α : Type) where
  | elem (v : α)
  | size (n : Nat)
  | equal (b : Bool)
  deriving DecidableEq

/-- The rest of the operation a thread is executing.
The steps of the `std::shared_ptr` (const_vector.hpp:193) and of the functions const_vector.hpp:119, 170, 174. -/
inductive SVPend where
  /-- Between two operations (const_vector.hpp:51-189). -/
  | idle
  /-- Copying a pointer to block `b`; then the pointer to the block `old`, if any, that was in the variable assigned to is dropped. const_vector.hpp:86, 96, 193. -/
  | incr (b : Nat) (old : Option Nat)
  /-- Dropping a pointer to block `b`: const_vector.hpp:51, 96, 99, 193. -/
  | decr (b : Nat)
  /-- It was the last pointer: destroying the vector and freeing the block: const_vector.hpp:193. -/
  | free (b : Nat)
  /-- const_vector.hpp:119. -/
  | read (b pos : Nat)
  /-- const_vector.hpp:170. -/
  | size (b : Nat)
  /-- `operator==` of `std::vector` begins with comparing the sizes … const_vector.hpp:174. -/
  | cmpSize (b c : Nat)
  /-- … and then the elements, from position `k`: const_vector.hpp:174. -/
  | cmpAt (b c k : Nat)

/-- A thread: its own variables, the rest of the present operation, what it has seen, the operations after it.
Language semantics (threads); const_vector.hpp:193. -/
structure SVThread (α : Type) where
  vars : List (Option (Option Nat))
  pend : SVPend
  log : List (SVObs α)
  todo : List (SVOp α)

/-- A state: the blocks (elements and use count), the shared variables, the threads.
The `std::shared_ptr` of const_vector.hpp:193. -/
structure SVSys (α : Type) (n : Nat) where
  blocks : Nat → Option (List α × Nat)
  shared : List (Option (Option Nat))
  threads : Fin n → SVThread α

/-- A variable within its lifetime.
const_vector.hpp:193. -/
def svGet (vars : List (Option (Option Nat))) (x : Nat) : Res (Option Nat) :=
  match vars[x]? with
  | some (some p) => .ok p
  | _ => .error .ub

/-- `*data_`: undefined for a null pointer.
const_vector.hpp:116-189. -/
def SVRef.block (shared vars : List (Option (Option Nat))) (r : SVRef) : Res Nat := do
  let p ← match r with
    | .own x => svGet vars x
    | .shared g => svGet shared g
  match p with
  | some b => .ok b
  | none => .error .ub

/-- Dropping a pointer: nothing to do for a null pointer.
The `std::shared_ptr` of const_vector.hpp:193. -/
def dropPend : Option Nat → SVPend
  | none => .idle
  | some b => .decr b

/-- Copying pointer `p` over a pointer `old` (or over nothing): the new count is incremented first.
The `std::shared_ptr` of const_vector.hpp:193 (`shared_ptr(r).swap(*this)`). -/
def copyPend : Option Nat → Option Nat → SVPend
  | some b, old => .incr b old
  | none, old => dropPend old

/-- Beginning an operation that does not allocate: the thread's own variables afterwards, and the steps on shared memory left to do. (The own
variables are changed at once: no other thread sees them.)
const_vector.hpp:51-99, 119, 170, 174. -/
def SVOp.begin (shared vars : List (Option (Option Nat))) : SVOp α → Res (List (Option (Option Nat)) × SVPend)
  | .local (.make _) => .error .illFormed
  | .local (.copyInit x) => do
    let p ← svGet vars x
    .ok (vars ++ [some p], copyPend p none)
  | .local (.moveInit x) => do
    let p ← svGet vars x
    .ok (vars.set x (some none) ++ [some p], .idle)
  | .local (.copyAssign x y) => do
    let p ← svGet vars y
    let old ← svGet vars x
    .ok (vars.set x (some p), copyPend p old)
  | .local (.moveAssign x y) => do
    let p ← svGet vars y
    let old ← svGet (vars.set y (some none)) x
    .ok ((vars.set y (some none)).set x (some p), dropPend old)
  | .local (.destroy x) => do
    let p ← svGet vars x
    .ok (vars.set x none, dropPend p)
  | .copyShared g => do
    let p ← svGet shared g
    .ok (vars ++ [some p], copyPend p none)
  | .read r pos => do
    let b ← r.block shared vars
    .ok (vars, .read b pos)
  | .size r => do
    let b ← r.block shared vars
    .ok (vars, .size b)
  | .equal r q => do
    let b ← r.block shared vars
    let c ← q.block shared vars
    .ok (vars, .cmpSize b c)

/-- The state in which thread `i` is `t` and the blocks are `bs`.
Language semantics (threads) for const_vector.hpp:25-194. -/
def SVSys.put (σ : SVSys α n) (i : Fin n) (t : SVThread α) (bs : Nat → Option (List α × Nat)) : SVSys α n :=
  ⟨bs, σ.shared, fun j => if j = i then t else σ.threads j⟩

/-- The blocks with another content of block `b`.
The blocks of the `std::shared_ptr` of const_vector.hpp:193. -/
def setBlock (bs : Nat → Option (List α × Nat)) (b : Nat) (v : Option (List α × Nat)) : Nat → Option (List α × Nat) :=
  fun c => if c = b then v else bs c

/-- One step of thread `i`. An operation on a block that has been freed has no step.
Constructors of const_vector.hpp:63-83 (`make`: any free block); the other operations as in `SVOp.begin`; then the steps of the
`std::shared_ptr` (const_vector.hpp:193) and of const_vector.hpp:119, 170, 174. -/
inductive SVSys.Step [DecidableEq α] (i : Fin n) : SVSys α n → SVSys α n → Prop
  | make : σ.threads i = ⟨vars, .idle, log, .local (.make l) :: p⟩ → σ.blocks b = none →
      Step i σ (σ.put i ⟨vars ++ [some (some b)], .idle, log, p⟩ (setBlock σ.blocks b (some (l, 1))))
  | begin : σ.threads i = ⟨vars, .idle, log, o :: p⟩ → o.begin σ.shared vars = .ok (vars', q) →
      Step i σ (σ.put i ⟨vars', q, log, p⟩ σ.blocks)
  | incr : σ.threads i = ⟨vars, .incr b old, log, p⟩ → σ.blocks b = some (l, c) →
      Step i σ (σ.put i ⟨vars, dropPend old, log, p⟩ (setBlock σ.blocks b (some (l, c + 1))))
  | decr : σ.threads i = ⟨vars, .decr b, log, p⟩ → σ.blocks b = some (l, c) →
      Step i σ (σ.put i ⟨vars, if c = 1 then .free b else .idle, log, p⟩ (setBlock σ.blocks b (some (l, c - 1))))
  | free : σ.threads i = ⟨vars, .free b, log, p⟩ → σ.blocks b = some (l, c) →
      Step i σ (σ.put i ⟨vars, .idle, log, p⟩ (setBlock σ.blocks b none))
  | read : σ.threads i = ⟨vars, .read b pos, log, p⟩ → σ.blocks b = some (l, c) → l[pos]? = some v →
      Step i σ (σ.put i ⟨vars, .idle, log ++ [.elem v], p⟩ σ.blocks)
  | size : σ.threads i = ⟨vars, .size b, log, p⟩ → σ.blocks b = some (l, c) →
      Step i σ (σ.put i ⟨vars, .idle, log ++ [.size l.length], p⟩ σ.blocks)
  | cmpSize : σ.threads i = ⟨vars, .cmpSize b b', log, p⟩ → σ.blocks b = some (l, c) → σ.blocks b' = some (l', c') → l.length = l'.length →
      Step i σ (σ.put i ⟨vars, .cmpAt b b' 0, log, p⟩ σ.blocks)
  | cmpSizeNe : σ.threads i = ⟨vars, .cmpSize b b', log, p⟩ → σ.blocks b = some (l, c) → σ.blocks b' = some (l', c') → l.length ≠ l'.length →
      Step i σ (σ.put i ⟨vars, .idle, log ++ [.equal false], p⟩ σ.blocks)
  | cmpEnd : σ.threads i = ⟨vars, .cmpAt b b' k, log, p⟩ → σ.blocks b = some (l, c) → l.length ≤ k →
      Step i σ (σ.put i ⟨vars, .idle, log ++ [.equal true], p⟩ σ.blocks)
  | cmpNext : σ.threads i = ⟨vars, .cmpAt b b' k, log, p⟩ → σ.blocks b = some (l, c) → σ.blocks b' = some (l', c') → l[k]? = some v → l'[k]? = some v →
      Step i σ (σ.put i ⟨vars, .cmpAt b b' (k + 1), log, p⟩ σ.blocks)
  | cmpNe : σ.threads i = ⟨vars, .cmpAt b b' k, log, p⟩ → σ.blocks b = some (l, c) → σ.blocks b' = some (l', c') → l[k]? = some v → l'[k]? = some w →
      v ≠ w → Step i σ (σ.put i ⟨vars, .idle, log ++ [.equal false], p⟩ σ.blocks)

/-- Any number of steps of any threads: any interleaving.
Language semantics (threads) for const_vector.hpp:25-194. -/
inductive SVSys.Reach [DecidableEq α] : SVSys α n → SVSys α n → Prop
  | refl : Reach σ σ
  | tail : Reach σ τ → SVSys.Step i τ υ → Reach σ υ

/-- The variables chosen by `f`; the others are not in scope.
Language semantics (scopes) for const_vector.hpp:25-194. -/
def keepVars (f : Nat → Bool) (vars : List (Option (Option Nat))) : List (Option (Option Nat)) :=
  vars.mapIdx fun x v => if f x then v else none

/-- The threads are started in the state `s` of a sequential program: variable `x` becomes a variable of thread `i` if `who x = some i`, and
is shared otherwise.
Language semantics (threads) for const_vector.hpp:25-194. -/
def SVSys.start (s : CVState α) (who : Nat → Option (Fin n)) (progs : Fin n → List (SVOp α)) : SVSys α n :=
  ⟨fun b => s.blocks[b]?.join, keepVars (fun x => decide (who x = none)) s.vars,
    fun i => ⟨keepVars (fun x => decide (who x = some i)) s.vars, .idle, [], progs i⟩⟩

/-- The thread has nothing left to do.
Language semantics (threads) for const_vector.hpp:25-194. -/
def SVSys.finished (σ : SVSys α n) (i : Fin n) : Prop := (σ.threads i).pend = .idle ∧ (σ.threads i).todo = []

/-- What the next step of a thread accesses: the block, and whether it destroys it. (The atomic steps on the use count do not race with each
other.)
const_vector.hpp:119, 170, 174, 193. -/
def SVPend.next : SVPend → Nat → Bool → Prop
  | .idle, _, _ => False
  | .incr b _, c, w => c = b ∧ w = false
  | .decr b, c, w => c = b ∧ w = false
  | .free b, c, w => c = b ∧ w = true
  | .read b _, c, w => c = b ∧ w = false
  | .size b, c, w => c = b ∧ w = false
  | .cmpSize b b', c, w => (c = b ∨ c = b') ∧ w = false
  | .cmpAt b b' _, c, w => (c = b ∨ c = b') ∧ w = false

/-- A data race: one thread is about to destroy a block and another is about to access it.
Language semantics ([intro.races], [util.smartptr.shared]) for const_vector.hpp:193. -/
def SVSys.Race (σ : SVSys α n) : Prop :=
  ∃ i j b w, i ≠ j ∧ (σ.threads i).pend.next b true ∧ (σ.threads j).pend.next b w

end Jules

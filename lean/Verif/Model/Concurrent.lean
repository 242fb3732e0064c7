import Verif.Model.Program
/-
Model of programs with several threads over the same arrays. The library has no shared mutable state of its own in these headers (the
only global, base/random.hpp:27 `random_engine`, is `thread_local`), so what threads share is the memory of the arrays. Each statement of
Model/Program.lean is given here as the sequence of its single accesses to memory, in the order of the loops it executes; threads are
interleaved access by access. (C++ guarantees that a program without data races behaves as some such interleaving; a data race is
undefined behaviour, so `Race` is defined beside the steps.)
-/
namespace Jules

/-- What a thread still has to do: one access to memory after the other.
The accesses are those of detail/iterator.hpp:69 (`data_[i]`) and allocator.hpp:23-63. -/
inductive Act (α β : Type) where
  | done (b : β)
  | stop (f : Fail)
  /-- read an element: detail/iterator.hpp:69. -/
  | read (q : Nat) (k : α → Act α β)
  /-- assign to an element: detail/iterator.hpp:69. -/
  | write (q : Nat) (v : α) (k : Act α β)
  /-- allocate memory for `n` elements: allocator.hpp:23 `allocate`, any free block. -/
  | acquire (n : Nat) (k : Nat → Act α β)
  /-- construct an element in allocated memory: allocator.hpp:33-44. -/
  | construct (q : Nat) (v : α) (k : Act α β)
  /-- destroy `n` elements and deallocate: allocator.hpp:25, 63. (One step; all these elements count as accessed.) -/
  | release (b n : Nat) (k : Act α β)

/-- One after the other.
Language semantics (sequencing) for the accesses of detail/iterator.hpp:69. -/
def Act.bind : Act α β → (β → Act α γ) → Act α γ
  | .done b, f => f b
  | .stop e, _ => .stop e
  | .read q k, f => .read q fun v => (k v).bind f
  | .write q v k, f => .write q v (k.bind f)
  | .acquire n k, f => .acquire n fun b => (k b).bind f
  | .construct q v k, f => .construct q v (k.bind f)
  | .release b n k, f => .release b n (k.bind f)

instance : Monad (Act α) where
  pure := .done
  bind := Act.bind

/-- Computations that do not access elements.
The descriptors and mappers of descriptor.hpp:62-77, strided_descriptor.hpp:128-131, mapper.hpp:14-110. -/
def Act.lift : Res β → Act α β
  | .ok b => .done b
  | .error f => .stop f

/-- Reading a scalar operand through its reference.
ref_array.hpp:77-83, functional.hpp:172-187. -/
def Scalar.act : Scalar α → Act α α
  | .val x => .done x
  | .cell p => .read p .done

/-- `*(begin + k)`: unary_expr_array.hpp:68, binary_expr_array.hpp:75, detail/iterator.hpp:69. -/
def It.act : It α → Nat → Act α α
  | .cells ps, k => match ps[k]? with
    | some p => .read p .done
    | none => .stop .ub
  | .map f it, k => do
    let x ← it.act k
    .done (f x)
  | .zip f l r, k => do
    let x ← l.act k
    let y ← r.act k
    .done (f x y)

/-- The loop of the elementwise writes (`updLoop`).
The loops of array/detail/common.hpp:22-36 and functional.hpp:51-63, 81-94. -/
def updAct (g : Nat → Nat → Act α α) : Nat → List Nat → Act α Unit
  | _, [] => .done ()
  | k, p :: ps => (g k p).bind fun x => .write p x (updAct g (k + 1) ps)

/-- Constructing `n` elements one after the other from the address `b`, starting with element `k`.
allocator.hpp:33-44. -/
def constructAct (g : Nat → Act α α) (b : Nat) : (n k : Nat) → Act α Unit
  | 0, _ => .done ()
  | n + 1, k => (g k).bind fun x => .construct (b + k) x (constructAct g b n (k + 1))

/-- A new array: array.hpp:141-168, 198-231: allocate, then construct. -/
def newAct (A : Arith) (ext : List Nat) (g : Nat → Act α α) : Act α Arr :=
  .acquire (prodL A ext) fun b => (constructAct g b (prodL A ext) 0).bind fun _ => .done ⟨b, ext⟩

/-- The elements of a list, for constructors that take an iterator. With too few of them: undefined behaviour.
array.hpp:158-168. -/
def listAct (l : List α) (k : Nat) : Act α α :=
  match l[k]? with
  | some x => .done x
  | none => .stop .ub

/-- Names of arrays, as a thread sees them.
Language semantics (scopes) for the arrays of array.hpp:36-461. -/
abbrev Env := Nat → Option Arr

/-- The arrays in scope, without memory: what indexing needs.
ref_array.hpp:188-191: pointer and extents. -/
def Env.world (env : Env) : World α := ⟨fun _ => none, env, 0⟩

/-- Introduce, change or remove a variable.
Language semantics (scopes) for the arrays of array.hpp:36-461. -/
def Env.bind (env : Env) (x : Nat) (a : Option Arr) : Env := fun y => if y = x then a else env y

/-- Creating the expression object: scalars are read and copied (functional.hpp:46-71, 131-170). -/
def PEx.act (A : Arith) (chk : Bool) (env : Env) : PEx α → Act α (Ex Obj α)
  | .arr x h => do
    let o ← Act.lift ((env.world (α := α)).index A chk x h)
    .done (.leaf o)
  | .un f e => do
    let e' ← e.act A chk env
    .done (.un f e')
  | .bin f a b => do
    let a' ← a.act A chk env
    let b' ← b.act A chk env
    .done (.bin f a' b')
  | .scl f s e => do
    let c ← Act.lift (s.eval A chk env.world)
    let v ← c.act
    let e' ← e.act A chk env
    .done (.scalarLeft f v e')
  | .scr f e s => do
    let e' ← e.act A chk env
    let c ← Act.lift (s.eval A chk env.world)
    let v ← c.act
    .done (.scalarRight f e' v)

/-- array/detail/common.hpp:22-36 `array_assign`. -/
def arrayAssignAct (A : Arith) (chk : Bool) (dest : Obj) (src : EObj α) : Act α Unit :=
  match dest.dims with
  | none => .stop .illFormed
  | some d =>
    if src.dims.length ≠ d.length then .stop .illFormed
    else do
      Act.lift (dbg chk (src.dims == d))
      let ps ← Act.lift (dest.positions A)
      updAct (fun k _ => src.it.act k) 0 ps
      Act.lift (dbg chk (src.it.count == some ps.length))

/-- array.hpp:318-344 `array::operator=(const common_array_base&)`. -/
def setAct (A : Arith) (a : Arr) (src : EObj α) : Act α Arr :=
  if prodL A a.ext = prodL A src.dims then
    match src.it.count with
    | none => .stop .ub
    | some n =>
      if prodL A a.ext < n then .stop .ub
      else do
        updAct (fun k _ => src.it.act k) 0 ((List.range n).map (A.add a.base ·))
        .done ⟨a.base, src.dims⟩
  else do
    let b ← newAct A src.dims src.it.act
    .release a.base (prodL A a.ext) (.done b)

/-- One statement (`World.step`, Model/Program.lean) as a sequence of accesses. The result is the thread's environment afterwards.
array.hpp:141-344, ref_array.hpp:70-90, strided_ref_array.hpp:76-95, functional.hpp:46-194, overlap.hpp:17-22, as cited at each statement of
`Stmt`. -/
def stmtAct (A : Arith) (chk : Bool) (env : Env) : Stmt α → Act α Env
  | .make x e =>
    match env x with
    | some _ => .stop .illFormed
    | none => do
      let e' ← e.act A chk env
      let src ← Act.lift (e'.build A chk)
      let b ← newAct A src.dims src.it.act
      .done (env.bind x (some b))
  | .makeFill x s ext =>
    match env x with
    | some _ => .stop .illFormed
    | none => do
      Act.lift (needs (!ext.isEmpty))
      let c ← Act.lift (s.eval A chk env.world)
      let b ← newAct A ext fun _ => c.act
      .done (env.bind x (some b))
  | .makeFrom x l ext =>
    match env x with
    | some _ => .stop .illFormed
    | none => do
      Act.lift (needs (!ext.isEmpty))
      let b ← newAct A ext (listAct l)
      .done (env.bind x (some b))
  | .drop x => do
    let a ← Act.lift ((env.world (α := α)).get x)
    .release a.base (prodL A a.ext) (.done (env.bind x none))
  | .fill x h s => do
    Act.lift (needs (!h.isEmpty))
    let o ← Act.lift ((env.world (α := α)).index A chk x h)
    let c ← Act.lift (s.eval A chk env.world)
    let ps ← Act.lift (o.positions A)
    updAct (fun _ _ => c.act) 0 ps
    .done env
  | .assign x h e => do
    Act.lift (needs (!h.isEmpty))
    let o ← Act.lift ((env.world (α := α)).index A chk x h)
    let e' ← e.act A chk env
    let src ← Act.lift (e'.build A chk)
    arrayAssignAct A chk o src
    .done env
  | .inPlace x h op e => do
    let o ← Act.lift ((env.world (α := α)).index A chk x h)
    let e' ← e.act A chk env
    let src ← Act.lift (e'.build A chk)
    match o.dims with
    | none => .stop .illFormed
    | some d =>
      if d.length ≠ src.dims.length then .stop .illFormed
      else do
        Act.lift (dbg chk (d == src.dims))
        let ps ← Act.lift (o.positions A)
        updAct (fun k p => .read p fun a => (src.it.act k).bind fun b => .done (op a b)) 0 ps
        .done env
  | .inPlaceScalar x h op s => do
    let o ← Act.lift ((env.world (α := α)).index A chk x h)
    let c ← Act.lift (s.eval A chk env.world)
    let ps ← Act.lift (o.positions A)
    updAct (fun _ p => .read p fun a => c.act.bind fun b => .done (op a b)) 0 ps
    .done env
  | .apply x h f => do
    let o ← Act.lift ((env.world (α := α)).index A chk x h)
    Act.lift (needs o.dims.isSome)
    let ps ← Act.lift (o.positions A)
    updAct (fun _ p => .read p fun a => .done (f a)) 0 ps
    .done env
  | .overlap x h e => do
    Act.lift (needs (!h.isEmpty))
    let o ← Act.lift ((env.world (α := α)).index A chk x h)
    let e' ← e.act A chk env
    let src ← Act.lift (e'.build A chk)
    let t ← newAct A src.dims src.it.act
    let tmp ← Act.lift ((Ex.leaf (.cref t.base t.ext) : Ex Obj α).build A chk)
    arrayAssignAct A chk o tmp
    .release t.base (prodL A t.ext) (.done env)
  | .overlapWhole x e => do
    let a ← Act.lift ((env.world (α := α)).get x)
    let e' ← e.act A chk env
    let src ← Act.lift (e'.build A chk)
    Act.lift (sameOrder a src.dims)
    let t ← newAct A src.dims src.it.act
    .release a.base (prodL A a.ext) (.done (env.bind x (some t)))
  | .set x (.arr y []) => do
    let a ← Act.lift ((env.world (α := α)).get x)
    let b ← Act.lift ((env.world (α := α)).get y)
    Act.lift (sameOrder a b.ext)
    if x = y then .done (env.bind x (some a))
    else do
      let r ← setAct A a (⟨b.ext, .cells ((List.range (prodL A b.ext)).map (A.add b.base ·))⟩ : EObj α)
      .done (env.bind x (some r))
  | .set x e => do
    let a ← Act.lift ((env.world (α := α)).get x)
    let e' ← e.act A chk env
    let src ← Act.lift (e'.build A chk)
    Act.lift (sameOrder a src.dims)
    let r ← setAct A a src
    .done (env.bind x (some r))
  | .moveAssign x y => do
    let a ← Act.lift ((env.world (α := α)).get x)
    let b ← Act.lift ((env.world (α := α)).get y)
    Act.lift (sameOrder a b.ext)
    Act.lift (dbg chk (x != y))
    .done ((env.bind x (some b)).bind y (some a))

/-! ### Threads -/

/-- A thread: the rest of the statement it is executing (which yields its environment) and the statements after it.
Language semantics; there is no thread-related code in the library but `thread_local` in base/random.hpp:27. -/
structure Thread (α : Type) where
  cur : Act α Env
  todo : List (Stmt α)

/-- A state: the living elements, the allocated memory in which no element has been constructed yet, the threads.
The memory of the arrays of array.hpp; allocator.hpp:23-63. -/
structure Sys (α : Type) (n : Nat) where
  mem : Mem α
  raw : Nat → Bool
  threads : Fin n → Thread α

/-- The state in which thread `i` is `t`.
Language semantics (threads), base/random.hpp:27. -/
def Sys.upd (σ : Sys α n) (i : Fin n) (t : Thread α) : Fin n → Thread α := fun j => if j = i then t else σ.threads j

/-- One step of thread `i`: it begins its next statement, or performs the next access of the present one.
Language semantics; detail/iterator.hpp:69, allocator.hpp:23-63. -/
inductive Sys.Step {α : Type} {n : Nat} (A : Arith) (chk : Bool) (i : Fin n) : Sys α n → Sys α n → Prop
  | next : σ.threads i = ⟨.done env, s :: p⟩ → Step A chk i σ ⟨σ.mem, σ.raw, σ.upd i ⟨stmtAct A chk env s, p⟩⟩
  | read : σ.threads i = ⟨.read q k, p⟩ → σ.mem q = some v → Step A chk i σ ⟨σ.mem, σ.raw, σ.upd i ⟨k v, p⟩⟩
  | write : σ.threads i = ⟨.write q v k, p⟩ → σ.mem q ≠ none → Step A chk i σ ⟨σ.mem.set q v, σ.raw, σ.upd i ⟨k, p⟩⟩
  | acquire : σ.threads i = ⟨.acquire l k, p⟩ → (∀ j, j < l → σ.mem (b + j) = none ∧ σ.raw (b + j) = false) →
      Step A chk i σ ⟨σ.mem, fun q => σ.raw q || (decide (b ≤ q) && decide (q < b + l)), σ.upd i ⟨k b, p⟩⟩
  | construct : σ.threads i = ⟨.construct q v k, p⟩ → σ.raw q = true →
      Step A chk i σ ⟨σ.mem.set q v, fun r => σ.raw r && decide (r ≠ q), σ.upd i ⟨k, p⟩⟩
  | release : σ.threads i = ⟨.release b l k, p⟩ → (∀ j, j < l → σ.mem (b + j) ≠ none) →
      Step A chk i σ ⟨σ.mem.free b l, σ.raw, σ.upd i ⟨k, p⟩⟩

/-- Any number of steps of any threads: any interleaving.
Language semantics (threads) for the accesses of detail/iterator.hpp:69. -/
inductive Sys.Reach {α : Type} {n : Nat} (A : Arith) (chk : Bool) : Sys α n → Sys α n → Prop
  | refl : Reach A chk σ σ
  | tail : Reach A chk σ τ → Sys.Step A chk i τ υ → Reach A chk σ υ

/-- The threads are started with their programs, all seeing the arrays of `w`.
Language semantics (threads) for the arrays of array.hpp:36-461. -/
def Sys.start (w : World α) (progs : Fin n → List (Stmt α)) : Sys α n := ⟨w.mem, fun _ => false, fun i => ⟨.done w.env, progs i⟩⟩

/-- The thread has nothing left to do.
Language semantics (threads) for the accesses of detail/iterator.hpp:69. -/
def Sys.finished (σ : Sys α n) (i : Fin n) : Prop := ∃ env, σ.threads i = ⟨.done env, []⟩

/-- The elements the next step accesses, and whether it changes them.
detail/iterator.hpp:69, allocator.hpp:23-63. -/
def Act.next : Act α β → Nat → Bool → Prop
  | .read q _, p, w => p = q ∧ w = false
  | .write q _ _, p, w => p = q ∧ w = true
  | .construct q _ _, p, w => p = q ∧ w = true
  | .release b n _, p, w => b ≤ p ∧ p < b + n ∧ w = true
  | _, _, _ => False

/-- A data race: two threads are about to access the same element, and at least one of them changes it.
Language semantics ([intro.races]) for the accesses of detail/iterator.hpp:69 and allocator.hpp:23-63. -/
def Sys.Race (σ : Sys α n) : Prop :=
  ∃ i j q b c, i ≠ j ∧ (σ.threads i).cur.next q b ∧ (σ.threads j).cur.next q c ∧ (b = true ∨ c = true)

end Jules

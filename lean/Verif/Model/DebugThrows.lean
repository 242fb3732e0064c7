import Verif.Model.Program
/-
Programs built with JULES_DEBUG_THROWS (core/debug.hpp:31, 60-64; the configuration of the test suite, test/CMakeLists.txt:73): a failed
check throws `std::logic_error` from where it is, in every build (the level of `throwing_module`, core/debug.hpp:42, is the maximal one), and
the program may catch it. The statements of Model/Program.lean again, but keeping the memory at the point of the throw; temporaries are
destroyed on the way out. Inside a `noexcept` function the throw is `std::terminate` (`inNoexcept`, Model/Layout.lean).
-/
namespace Jules

/-- A fragment ends normally, with an exception (leaving memory as given), or otherwise.
core/debug.hpp:44-58: `throw std::logic_error`. -/
inductive TOut (α β : Type) where
  | ok (b : β) (m : Mem α)
  | thrown (m : Mem α)
  | fail (f : Fail)

/-- Fragments that change memory and may throw.
Language semantics (exceptions) for core/debug.hpp:44-58. -/
def TM (α β : Type) := Mem α → TOut α β

/-- Sequencing: an exception skips what follows.
Language semantics (exceptions) for core/debug.hpp:44-58. -/
def TM.bind (x : TM α β) (k : β → TM α γ) : TM α γ := fun m =>
  match x m with
  | .ok b m' => k b m'
  | .thrown m' => .thrown m'
  | .fail f => .fail f

/-- Language semantics (sequencing) for core/debug.hpp:44-58. -/
instance : Monad (TM α) where
  pure b := fun m => .ok b m
  bind := TM.bind

/-- A fragment that does not change memory; its failed checks throw.
core/debug.hpp:60-64: `default_module` is the throwing one. -/
def TM.lift (r : Res β) : TM α β := fun m =>
  match r with
  | .ok b => .ok b m
  | .error .assert => .thrown m
  | .error f => .fail f

/-- A loop over elements, or the allocation and construction of a block: there is no check in it.
The loops of detail/common.hpp:31-33, functional.hpp:51-63, 81-94, ref_array.hpp:77-83 and of array.hpp:141-168, 198-231, 279-344. -/
def TM.act (f : Mem α → Res (Mem α × β)) : TM α β := fun m =>
  match f m with
  | .ok (m', b) => .ok b m'
  | .error e => .fail e

/-- A temporary is destroyed when its scope is left, normally or by an exception.
overlap.hpp:17-22: the end of the life of `evaluated`. -/
def TM.scoped (destroy : Mem α → Mem α) (x : TM α β) : TM α β := fun m =>
  match x m with
  | .ok b m' => .ok b (destroy m')
  | .thrown m' => .thrown (destroy m')
  | .fail f => .fail f

/-- detail/common.hpp:22-36 `array_assign`: a check before the loop and one after it. -/
def arrayAssignT (A : Arith) (dest : Obj) (src : EObj α) : TM α Unit :=
  match dest.dims with
  | none => TM.lift (.error .illFormed)
  | some d =>
    if src.dims.length ≠ d.length then TM.lift (.error .illFormed)
    else do
      TM.lift (dbg true (src.dims == d))
      let ps ← TM.lift (dest.positions A)
      TM.act fun m => do
        let m' ← updLoop (fun k _ m => src.it.deref m k) 0 ps m
        .ok (m', ())
      TM.lift (dbg true (src.it.count == some ps.length))

/-- The end of a statement: the new state, or the exception that leaves it.
Language semantics for core/debug.hpp:44-58 (the exception leaves the statement; variables keep their values). -/
inductive TRes (α : Type) where
  | ok (w : World α)
  | thrown (w : World α)
  | fail (f : Fail)

/-- Run the fragment of a statement in the state `w`; its value tells the new state from the new memory.
Language semantics (exceptions) for core/debug.hpp:44-58. -/
def World.exec (w : World α) (x : TM α (Mem α → World α)) : TRes α :=
  match x w.mem with
  | .ok f m => .ok (f m)
  | .thrown m => .thrown ⟨m, w.env, w.clock + 1⟩
  | .fail f => .fail f

/-- The state with memory `m`, one statement later.
Language semantics for the assignments of ref_array.hpp:70-90. -/
def World.wrote (w : World α) (m : Mem α) : World α := { w with mem := m, clock := w.clock + 1 }

/-- One statement, as in `World.step` (Model/Program.lean).
array.hpp:141-168, 198-231, 279-344 (construction and assignment), ref_array.hpp:70-90, strided_ref_array.hpp:76-95, functional.hpp:51-94,
overlap.hpp:17-22, as cited at `World.step` and `Stmt`. -/
def World.stepT (A : Arith) (alloc : Nat → Mem α → Nat → Nat) (w : World α) : Stmt α → TRes α
  | .make x e =>
    match w.env x with
    | some _ => .fail .illFormed
    | none => w.exec do
      let e' ← TM.lift (e.eval A true w)
      let src ← TM.lift (e'.build A true)
      let b ← TM.act fun m => newArray A src m (alloc w.clock m (prodL A src.dims))
      pure fun m => w.bind m x (some b)
  | .makeFill x s ext =>
    match w.env x with
    | some _ => .fail .illFormed
    | none => w.exec do
      TM.lift (needs (!ext.isEmpty))
      let c ← TM.lift (s.eval A true w)
      let v ← TM.lift (c.get w.mem)
      let b ← TM.act fun m => newFrom A ext (List.replicate (prodL A ext) v) m (alloc w.clock m (prodL A ext))
      pure fun m => w.bind m x (some b)
  | .makeFrom x l ext =>
    match w.env x with
    | some _ => .fail .illFormed
    | none => w.exec do
      TM.lift (needs (!ext.isEmpty))
      let b ← TM.act fun m => newFrom A ext l m (alloc w.clock m (prodL A ext))
      pure fun m => w.bind m x (some b)
  | .drop x => w.exec do
    let a ← TM.lift (w.get x)
    pure fun m => w.bind (m.free a.base (prodL A a.ext)) x none
  | .fill x h s => w.exec do
    TM.lift (needs (!h.isEmpty))
    let o ← TM.lift (w.index A true x h)
    let c ← TM.lift (s.eval A true w)
    TM.act fun m => do
      let m' ← fillView A o c m
      .ok (m', w.wrote)
  | .assign x h e => w.exec do
    TM.lift (needs (!h.isEmpty))
    let o ← TM.lift (w.index A true x h)
    let e' ← TM.lift (e.eval A true w)
    let src ← TM.lift (e'.build A true)
    arrayAssignT A o src
    pure w.wrote
  | .inPlace x h op e => w.exec do
    let o ← TM.lift (w.index A true x h)
    let e' ← TM.lift (e.eval A true w)
    let src ← TM.lift (e'.build A true)
    match o.dims with
    | none => TM.lift (.error .illFormed)
    | some d =>
      if d.length ≠ src.dims.length then TM.lift (.error .illFormed)
      else do
        TM.lift (dbg true (d == src.dims))
        let ps ← TM.lift (o.positions A)
        TM.act fun m => do
          let m' ← updLoop (fun k p m => do
            let a ← m.read p
            let b ← src.it.deref m k
            .ok (op a b)) 0 ps m
          .ok (m', w.wrote)
  | .inPlaceScalar x h op s => w.exec do
    let o ← TM.lift (w.index A true x h)
    let c ← TM.lift (s.eval A true w)
    TM.act fun m => do
      let m' ← Jules.inPlaceScalar A o op c m
      .ok (m', w.wrote)
  | .apply x h f => w.exec do
    let o ← TM.lift (w.index A true x h)
    TM.lift (needs o.dims.isSome)
    TM.act fun m => do
      let m' ← applyInPlace A o f m
      .ok (m', w.wrote)
  | .overlap x h e => w.exec do
    TM.lift (needs (!h.isEmpty))
    let o ← TM.lift (w.index A true x h)
    let e' ← TM.lift (e.eval A true w)
    let src ← TM.lift (e'.build A true)
    let t ← TM.act fun m => newArray A src m (alloc w.clock m (prodL A src.dims))
    TM.scoped (fun m => m.free t.base (prodL A t.ext)) do
      let tmp ← TM.lift ((Ex.leaf (.cref t.base t.ext) : Ex Obj α).build A true)
      arrayAssignT A o tmp
      pure w.wrote
  | .overlapWhole x e => w.exec do
    let a ← TM.lift (w.get x)
    let e' ← TM.lift (e.eval A true w)
    let src ← TM.lift (e'.build A true)
    TM.lift (sameOrder a src.dims)
    let t ← TM.act fun m => newArray A src m (alloc w.clock m (prodL A src.dims))
    pure fun m => w.bind (m.free a.base (prodL A a.ext)) x (some t)
  | .set x (.arr y []) => w.exec do
    let a ← TM.lift (w.get x)
    let b ← TM.lift (w.get y)
    TM.lift (sameOrder a b.ext)
    let b' ← TM.act fun m => assignArrayCopy A a b (x == y) m (alloc w.clock m (prodL A b.ext))
    pure fun m => w.bind m x (some b')
  | .set x e => w.exec do
    let a ← TM.lift (w.get x)
    let e' ← TM.lift (e.eval A true w)
    let src ← TM.lift (e'.build A true)
    TM.lift (sameOrder a src.dims)
    let b' ← TM.act fun m => arrayAssignExpr A a src m (alloc w.clock m (prodL A src.dims))
    pure fun m => w.bind m x (some b')
  | .moveAssign x y => w.exec do
    let a ← TM.lift (w.get x)
    let b ← TM.lift (w.get y)
    TM.lift (sameOrder a b.ext)
    TM.lift (inNoexcept A (dbg true (x != y))) -- array.hpp:308-310, `noexcept`
    pure fun m => (w.bind m x (some b)).bind m y (some a)

/-- A sequence of statements, each in a `try` block that catches `std::logic_error` (core/debug.hpp:56) and goes on.
Language semantics. -/
def World.runCatch (A : Arith) (alloc : Nat → Mem α → Nat → Nat) : World α → List (Stmt α) → TRes α
  | w, [] => .ok w
  | w, s :: p =>
    match w.stepT A alloc s with
    | .ok w' => w'.runCatch A alloc p
    | .thrown w' => w'.runCatch A alloc p
    | .fail f => .fail f

end Jules

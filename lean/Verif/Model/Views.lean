import Verif.Model.Program
/-
Model of programs that keep views in variables: `auto v = x[h]…;`. A view variable is a pointer with extents (ref_array.hpp) or with a
mapper (strided_ref_array.hpp), copied when it is created (ref_array.hpp:61-67, strided_ref_array.hpp:67-73); nothing connects it to
the array it was taken from. Everything else is as in Model/Program.lean, with names that may be arrays or views.

The lists given to the index expressions are owned by the view (Model/Borrow.lean is about borrowed ones), and a chain of index
expressions is one full expression (Model/Proxy.lean is about kept proxies).
-/
namespace Jules

/-- Statements.
`stmt`: those of Model/Program.lean, where an operand may be an array or a view, and where `fill`, `assign` and `overlap` without index
expressions are `v = scalar`, `v = e` and `overlap(v) = e` for a view `v` (ref_array.hpp:70-90, strided_ref_array.hpp:76-95). -/
inductive VStmt (α : Type) where
  | stmt (s : Stmt α)
  /-- `auto v = x[h]…`: ref_array.hpp:105-158, strided_ref_array.hpp:100-151 and the copy (or move) constructors,
  ref_array.hpp:61-67, strided_ref_array.hpp:67-73. -/
  | view (v x : Nat) (h : List Ix)
  /-- `auto y = std::move(x)`: array.hpp:211-213. Simplification: `x` is not used any more (Model/Adaptive.lean is about moved-from
  arrays), so its name goes out of scope. -/
  | moveMake (y x : Nat)

/-- The arrays in scope with the memory, and the views in scope.
ref_array.hpp:188-191, strided_ref_array.hpp:198: a pointer and a descriptor or mapper (`Obj`). -/
structure VWorld (α : Type) where
  w : World α
  view : Nat → Option Obj

/-- `x[h]…` where `x` is an array or a view.
ref_array.hpp:105-158, strided_ref_array.hpp:100-151. -/
def VWorld.index (V : VWorld α) (A : Arith) (chk : Bool) (x : Nat) (h : List Ix) : Res Obj :=
  match V.view x with
  | some o => o.run A chk h
  | none => V.w.index A chk x h

/-- A scalar operand: `Sc.eval` with views.
functional.hpp:172-187, ref_array.hpp:77-83. -/
def Sc.evalV (A : Arith) (chk : Bool) (V : VWorld α) : Sc α → Res (Scalar α)
  | .const c => .ok (.val c)
  | .elem x h => do
    let o ← V.index A chk x h
    match o with
    | .elem p => .ok (.cell p)
    | _ => .error .illFormed

/-- An array expression: `PEx.eval` with views (functional.hpp:46-71, 131-170). -/
def PEx.evalV (A : Arith) (chk : Bool) (V : VWorld α) : PEx α → Res (Ex Obj α)
  | .arr x h => do
    let o ← V.index A chk x h
    .ok (.leaf o)
  | .un f e => do
    let e' ← e.evalV A chk V
    .ok (.un f e')
  | .bin f a b => do
    let a' ← a.evalV A chk V
    let b' ← b.evalV A chk V
    .ok (.bin f a' b')
  | .scl f s e => do
    let c ← s.evalV A chk V
    let v ← c.get V.w.mem
    let e' ← e.evalV A chk V
    .ok (.scalarLeft f v e')
  | .scr f e s => do
    let e' ← e.evalV A chk V
    let c ← s.evalV A chk V
    let v ← c.get V.w.mem
    .ok (.scalarRight f e' v)

/-- The name is a view.
Language semantics (name lookup) for ref_array.hpp:188-191, strided_ref_array.hpp:198. -/
def VWorld.isView (V : VWorld α) (x : Nat) : Bool := (V.view x).isSome

/-- A new name.
Language semantics (declarations) for array.hpp:112-231 and ref_array.hpp:61-67. -/
def VWorld.isFree (V : VWorld α) (x : Nat) : Bool := (V.view x).isNone && (V.w.env x).isNone

/-- A statement that writes elements: only the memory changes.
ref_array.hpp:70-90, strided_ref_array.hpp:76-95. -/
def VWorld.put (V : VWorld α) (m : Mem α) : VWorld α := ⟨{ V.w with mem := m, clock := V.w.clock + 1 }, V.view⟩

/-- A statement that creates, replaces or destroys an array: the views in scope do not notice.
array.hpp:82-386. -/
def VWorld.bind (V : VWorld α) (m : Mem α) (x : Nat) (a : Option Arr) : VWorld α := ⟨V.w.bind m x a, V.view⟩

/-- One statement, as in `World.step`.
The functions cited at each statement of `Stmt` and `VStmt`; array.hpp:198-389, ref_array.hpp:61-158, strided_ref_array.hpp:67-151. -/
def VWorld.step (A : Arith) (chk : Bool) (alloc : Nat → Mem α → Nat → Nat) (V : VWorld α) : VStmt α → Res (VWorld α)
  | .view v x h => do
    needs (V.isFree v)
    let o ← V.index A chk x h
    needs o.dims.isSome -- `auto v = x[h]…` copies an element
    .ok ⟨{ V.w with clock := V.w.clock + 1 }, fun y => if y = v then some o else V.view y⟩
  | .moveMake y x => do
    needs (V.isFree y)
    needs (!V.isView x)
    let a ← V.w.get x
    .ok ((V.bind V.w.mem x none).bind V.w.mem y (some a))
  | .stmt (.make x e) => do
    needs (V.isFree x)
    let e' ← e.evalV A chk V
    let src ← e'.build A chk
    let r ← newArray A src V.w.mem (alloc V.w.clock V.w.mem (prodL A src.dims))
    .ok (V.bind r.1 x (some r.2))
  | .stmt (.makeFill x s ext) => do
    needs (V.isFree x)
    needs (!ext.isEmpty) -- array.hpp:40
    let c ← s.evalV A chk V
    let v ← c.get V.w.mem
    let r ← newFrom A ext (List.replicate (prodL A ext) v) V.w.mem (alloc V.w.clock V.w.mem (prodL A ext))
    .ok (V.bind r.1 x (some r.2))
  | .stmt (.makeFrom x l ext) => do
    needs (V.isFree x)
    needs (!ext.isEmpty) -- array.hpp:40
    let r ← newFrom A ext l V.w.mem (alloc V.w.clock V.w.mem (prodL A ext))
    .ok (V.bind r.1 x (some r.2))
  | .stmt (.drop x) =>
    match V.view x with
    -- the destructors of ref_array and strided_ref_array do nothing
    | some _ => .ok ⟨{ V.w with clock := V.w.clock + 1 }, fun y => if y = x then none else V.view y⟩
    | none => do
      let a ← V.w.get x
      .ok (V.bind (V.w.mem.free a.base (prodL A a.ext)) x none)
  | .stmt (.fill x h s) => do
    needs (V.isView x || !h.isEmpty)
    let o ← V.index A chk x h
    let c ← s.evalV A chk V
    let m ← fillView A o c V.w.mem
    .ok (V.put m)
  | .stmt (.assign x h e) => do
    needs (V.isView x || !h.isEmpty)
    let o ← V.index A chk x h
    let e' ← e.evalV A chk V
    let m ← assignView A chk o e' V.w.mem
    .ok (V.put m)
  | .stmt (.inPlace x h op e) => do
    let o ← V.index A chk x h
    let e' ← e.evalV A chk V
    let m ← inPlaceExpr A chk o op e' V.w.mem
    .ok (V.put m)
  | .stmt (.inPlaceScalar x h op s) => do
    let o ← V.index A chk x h
    let c ← s.evalV A chk V
    let m ← Jules.inPlaceScalar A o op c V.w.mem
    .ok (V.put m)
  | .stmt (.apply x h f) => do
    let o ← V.index A chk x h
    needs o.dims.isSome
    let m ← applyInPlace A o f V.w.mem
    .ok (V.put m)
  | .stmt (.overlap x h e) => do
    needs (V.isView x || !h.isEmpty)
    let o ← V.index A chk x h
    let e' ← e.evalV A chk V
    let src ← e'.build A chk
    let m ← overlapView A chk o e' V.w.mem (alloc V.w.clock V.w.mem (prodL A src.dims))
    .ok (V.put m)
  | .stmt (.overlapWhole x e) => do
    needs (!V.isView x)
    let a ← V.w.get x
    let e' ← e.evalV A chk V
    let src ← e'.build A chk
    sameOrder a src.dims
    let r ← overlapArray A chk a e' V.w.mem (alloc V.w.clock V.w.mem (prodL A src.dims))
    .ok (V.bind r.1 x (some r.2))
  | .stmt (.set x e) => do
    needs (!V.isView x)
    let a ← V.w.get x
    match e with
    | .arr y [] =>
      match V.view y with
      -- a source that is a view: array.hpp:318-344
      | some o => do
        let src ← (Ex.leaf o : Ex Obj α).build A chk
        sameOrder a src.dims
        let r ← assignArray A chk a (.leaf o) V.w.mem (alloc V.w.clock V.w.mem (prodL A src.dims))
        .ok (V.bind r.1 x (some r.2))
      -- an array: array.hpp:279-305
      | none => do
        let b ← V.w.get y
        sameOrder a b.ext
        let r ← assignArrayCopy A a b (x == y) V.w.mem (alloc V.w.clock V.w.mem (prodL A b.ext))
        .ok (V.bind r.1 x (some r.2))
    | _ => do
      let e' ← e.evalV A chk V
      let src ← e'.build A chk
      sameOrder a src.dims
      let r ← assignArray A chk a e' V.w.mem (alloc V.w.clock V.w.mem (prodL A src.dims))
      .ok (V.bind r.1 x (some r.2))
  | .stmt (.moveAssign x y) => do
    needs (!V.isView x && !V.isView y)
    let a ← V.w.get x
    let b ← V.w.get y
    sameOrder a b.ext
    dbg chk (x != y)
    .ok ((V.bind V.w.mem x (some b)).bind V.w.mem y (some a))

/-- A sequence of statements.
Language semantics; the statements are those of array.hpp:112-389 and ref_array.hpp:61-158. -/
def VWorld.run (A : Arith) (chk : Bool) (alloc : Nat → Mem α → Nat → Nat) : VWorld α → List (VStmt α) → Res (VWorld α)
  | V, [] => .ok V
  | V, s :: p => do
    let V' ← V.step A chk alloc s
    V'.run A chk alloc p

/-- The beginning of a program: no arrays, no views, no memory.
Language semantics: nothing in array.hpp:112-389 has been called. -/
def VWorld.empty : VWorld α := ⟨World.empty, fun _ => none⟩

end Jules

import Verif.Model.Blocks
/-
The programs of Model/Blocks.lean (blocks, calls, handlers; allocations, constructions, assignments and functions that may throw) in builds with
JULES_DEBUG_THROWS (core/debug.hpp:31, 60-64; the configuration of the test suite, test/CMakeLists.txt:73): a failed assertion throws
`std::logic_error` from where it is, so that it is an exception like any other: the local arrays of the functions of the library and the
arrays of the blocks that are left are destroyed, and handlers catch it. Inside a `noexcept` function the throw is `std::terminate` (`inNoexcept`,
Model/Layout.lean; used with an `A` with `A.throws`).

The same simplifications as in Model/Blocks.lean.
-/
namespace Jules

/-- An assertion inside a function that works on the storage: it throws.
core/debug.hpp:44-58. -/
def BM.assertT (c : Bool) : BM α Unit := if c then pure () else BM.raise

/-- detail/common.hpp:22-36 `array_assign`: an assertion before the loop and one after it. -/
def assignBT (A : Arith) (S : Nat → Bool) (dest : Obj) (src : FSrc α) : BM α Unit :=
  match dest.dims with
  | none => BM.die .illFormed
  | some d =>
    if src.dims.length ≠ d.length then BM.die .illFormed
    else do
      BM.assertT (src.dims == d)
      let ps ← BM.reads fun _ => dest.positions A
      loopB S (fun k _ m => src.value k m) 0 ps
      BM.assertT (src.it.count == some ps.length)

/-- `view OP= expression`: functional.hpp:81-94, 139-154. -/
def inPlaceBT (A : Arith) (S : Nat → Bool) (dest : Obj) (op : α → α → α × Bool) (src : FSrc α) : BM α Unit :=
  match dest.dims with
  | none => BM.die .illFormed
  | some d =>
    if d.length ≠ src.dims.length then BM.die .illFormed
    else do
      BM.assertT (d == src.dims)
      let ps ← BM.reads fun _ => dest.positions A
      loopB S (fun k p m => src.update op k p m) 0 ps

/-- overlap.hpp:17-22 `overlap(view) = e`: the local array is destroyed also when an assertion of the assignment throws. -/
def overlapBT (A : Arith) (S : Nat → Bool) (nx : Bool) (alloc : Nat → List (Nat × Nat) → Nat → Option Nat) (dest : Obj) (src : FSrc α) : BM α Unit := do
  let t ← newB A S nx alloc src.dims (fun k m => src.it.deref m k)
  BM.finally (do
    let ts ← BM.reads fun _ => FSrc.ofObj A (.cref (t.ptr.getD 0) t.ext)
    assignBT A S dest ts) (clearB A t)

/-- The evaluation of an operand, which does not change the storage: when an assertion in it fails, the exception leaves the statement.
core/debug.hpp:44-58, for the assertions of the functions cited at `Obj.index` (Model/Layout.lean, Model/Slicing.lean) and `FEx.eval`
(Model/Fallible.lean): array.hpp, ref_array.hpp:105-150, functional.hpp:66-71. -/
def BWorld.asserting (W : BWorld α) (r : Res γ) (k : γ → Res (BWorld α × δ)) (out : δ) : Res (BWorld α × δ) :=
  match r with
  | .ok b => k b
  | .error .assert => .ok (W, out)
  | .error f => .error f

/-- Statements with functions that may throw.
array.hpp:158-168, 218-231, 279-344, functional.hpp:46-194, overlap.hpp:17-22, and the functions cited at `FStmt`. -/
def BWorld.fstepT (A : Arith) (nx : Bool) (S : Nat → Bool) (alloc : Nat → List (Nat × Nat) → Nat → Option Nat) (W : BWorld α) :
    FStmt α → Res (BWorld α × Bool)
  | .plain _ => .error .illFormed
  | .make x e => do
    needs (W.env x).isNone
    W.usable A e.uses
    W.asserting (e.eval A true (W.flat A)) (fun src => W.stored x (newB A S nx alloc src.dims (fun k m => src.it.deref m k) W.pool)) true
  | .makeFrom x l ext => do
    needs (W.env x).isNone
    needs (!ext.isEmpty) -- array.hpp:40
    W.stored x (newB A S nx alloc ext (fun k _ => pull l k) W.pool)
  | .assign x h e => do
    needs (!h.isEmpty) -- the other case is `set`
    W.usable A (x :: e.uses)
    W.asserting ((W.flat A).index A true x h) (fun o =>
      W.asserting (e.eval A true (W.flat A)) (fun src => W.wrote (assignBT A S o src W.pool)) true) true
  | .inPlace x h op e => do
    W.usable A (x :: e.uses)
    W.asserting ((W.flat A).index A true x h) (fun o =>
      W.asserting (e.eval A true (W.flat A)) (fun src => W.wrote (inPlaceBT A S o op src W.pool)) true) true
  | .inPlaceScalar x h op s => do
    W.usable A (x :: s.uses)
    W.asserting ((W.flat A).index A true x h) (fun o =>
      W.asserting (s.eval A true (W.flat A)) (fun c => W.wrote (inPlaceScalarB A S o op c W.pool)) true) true
  | .apply x h f => do
    W.usable A [x]
    W.asserting ((W.flat A).index A true x h) (fun o => W.wrote (applyB A S o f W.pool)) true
  | .overlap x h e => do
    needs (!h.isEmpty) -- the other case is `overlapWhole`
    W.usable A (x :: e.uses)
    W.asserting ((W.flat A).index A true x h) (fun o =>
      W.asserting (e.eval A true (W.flat A)) (fun src => W.wrote (overlapBT A S nx alloc o src W.pool)) true) true
  | .overlapWhole x e => do
    let o ← W.own x
    W.usable A e.uses
    W.asserting (e.eval A true (W.flat A)) (fun src => do
      sameRank o src.dims
      W.stored x (overlapWholeB A S nx alloc o src W.pool)) true
  | .set x (.arr y []) => do
    let o ← W.own x
    if x = y then .ok (W, false) -- array.hpp:281-282
    else do
      W.usable A [y]
      W.asserting ((FEx.arr y []).eval A true (W.flat A)) (fun src => do
        sameRank o src.dims
        W.stored x (setB A S nx alloc o src W.pool)) true
  | .set x e => do
    let o ← W.own x
    W.usable A e.uses
    W.asserting (e.eval A true (W.flat A)) (fun src => do
      sameRank o src.dims
      W.stored x (setB A S nx alloc o src W.pool)) true

/-- Statements: those above, and those without functions.
array.hpp:82, 112, 141-151, 211-213, 308-314, ref_array.hpp:77-83, and the functions cited at `Stmt` and `MStmt`. -/
def BWorld.mstepT (A : Arith) (nx : Bool) (S : Nat → Bool) (alloc : Nat → List (Nat × Nat) → Nat → Option Nat) (W : BWorld α) :
    MStmt α → Res (BWorld α × Bool)
  | .declare x n => W.mstep A true nx S alloc (.declare x n) -- no assertions
  | .moveMake x y => W.mstep A true nx S alloc (.moveMake x y) -- no assertions
  | .old (.make x e) => W.fstepT A nx S alloc (.make x e.fallible)
  | .old (.makeFrom x l ext) => W.fstepT A nx S alloc (.makeFrom x (l.map some) ext)
  | .old (.makeFill x s ext) => do
    needs (W.env x).isNone
    needs (!ext.isEmpty) -- array.hpp:40
    W.usable A s.uses
    W.asserting (s.eval A true (W.flat A)) (fun c => W.stored x (newB A S nx alloc ext (fun _ m => c.get m) W.pool)) true
  | .old (.drop x) => W.mstep A true nx S alloc (.old (.drop x)) -- no assertions
  | .old (.fill x h s) => do
    needs (!h.isEmpty) -- an array cannot be assigned a scalar: array.hpp:279-344
    W.usable A (x :: s.uses)
    W.asserting ((W.flat A).index A true x h) (fun o =>
      W.asserting (s.eval A true (W.flat A)) (fun c => W.wrote (fillB A S o c W.pool)) true) true
  | .old (.assign x h e) => W.fstepT A nx S alloc (.assign x h e.fallible)
  | .old (.inPlace x h op e) => W.fstepT A nx S alloc (.inPlace x h (fun u y => (op u y, false)) e.fallible)
  | .old (.inPlaceScalar x h op s) => W.fstepT A nx S alloc (.inPlaceScalar x h (fun u y => (op u y, false)) s)
  | .old (.apply x h f) => W.fstepT A nx S alloc (.apply x h (fun u => (f u, false)))
  | .old (.overlap x h e) => W.fstepT A nx S alloc (.overlap x h e.fallible)
  | .old (.overlapWhole x e) => W.fstepT A nx S alloc (.overlapWhole x e.fallible)
  | .old (.set x e) => W.fstepT A nx S alloc (.set x e.fallible)
  | .old (.moveAssign x y) =>
    W.asserting (inNoexcept A (dbg true (x != y))) (fun _ => do -- array.hpp:308-310, `noexcept`
      let o ← W.own x
      let o' ← W.own y
      sameRank o o'.ext
      .ok ((W.put x (some o')).put y (some o), false)) true

/-- One statement: the state after it and whether an exception has left it.
array.hpp:112-344, functional.hpp:46-194, overlap.hpp:17-22. -/
def BWorld.stepT (A : Arith) (nx : Bool) (S : Nat → Bool) (alloc : Nat → List (Nat × Nat) → Nat → Option Nat) (W : BWorld α) :
    XStmt α → Res (BWorld α × Bool)
  | .calm (.old (.drop _)) => .error .illFormed
  | .calm s => do
    let r ← W.mstepT A nx S alloc s
    .ok (if r.2 then r else (r.1.declare (XStmt.calm s).declares, false))
  | .wild s => do
    let r ← W.fstepT A nx S alloc s
    .ok (if r.2 then r else (r.1.declare s.declares, false))

/-- Running a program: the state in which it ends and its result; `none`: it is left by an exception. There are no assertions in the destructors and in
the move constructor (`leave`, `give`).
Language semantics; array.hpp:82-344, ref_array.hpp:105-167, and the functions cited at `XStmt` and `Body`. -/
def BWorld.execT (A : Arith) (nx : Bool) (S : Nat → Bool) (alloc : Nat → List (Nat × Nat) → Nat → Option Nat) (W : BWorld α) :
    Body α β → Res (BWorld α × Option β)
  | .ret b => .ok (W, some b)
  | .throw => .ok (W, none)
  | .exec s k => do
    let r ← W.stepT A nx S alloc s
    if r.2 then .ok (r.1, none) else r.1.execT A nx S alloc k
  | .read s k => do
    W.usable A s.uses
    W.asserting (s.eval A true (W.flat A)) (fun c =>
      match scalarB S c W.pool with
      | .ok v p => BWorld.execT A nx S alloc { W with pool := p } (k v)
      | .exn p => .ok ({ W with pool := p }, none)
      | .fail f => .error f) none
  | .elements e k => do
    W.usable A e.uses
    W.asserting (e.eval A true (W.flat A)) (fun src =>
      match elementsB S src W.pool with
      | .ok xs p => BWorld.execT A nx S alloc { W with pool := p } (k src.dims xs)
      | .exn p => .ok ({ W with pool := p }, none)
      | .fail f => .error f) none
  | .block body k => do
    let r ← W.enter.execT A nx S alloc body
    let W' ← r.1.leave A true nx S alloc
    match r.2 with
    | none => .ok (W', none)
    | some b => W'.execT A nx S alloc (k b)
  | .call x y body k => do
    let r ← W.enter.execT A nx S alloc body
    match r.2 with
    | none => do
      let W' ← r.1.leave A true nx S alloc
      .ok (W', none)
    | some b => do
      let W₁ ← r.1.give A true nx S alloc x y
      let W' ← W₁.leave A true nx S alloc
      (W'.declare (some x)).execT A nx S alloc (k b)
  | .attempt body handler k => do
    let r ← W.enter.execT A nx S alloc body
    let W' ← r.1.leave A true nx S alloc
    match r.2 with
    | some b => W'.execT A nx S alloc (k b)
    | none => do
      let r' ← W'.enter.execT A nx S alloc handler
      let W'' ← r'.1.leave A true nx S alloc
      match r'.2 with
      | none => .ok (W'', none)
      | some b => W''.execT A nx S alloc (k b)

/-- A whole program: a function body (`main`), an exception that leaves it being caught by the caller.
Language semantics for the arrays of array.hpp:82-344. -/
def BWorld.mainT (A : Arith) (nx : Bool) (S : Nat → Bool) (alloc : Nat → List (Nat × Nat) → Nat → Option Nat) (p : Body α β) : Res (BWorld α × Option β) :=
  BWorld.empty.execT A nx S alloc (.block p .ret)

end Jules

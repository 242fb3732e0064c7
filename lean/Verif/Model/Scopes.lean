import Verif.Model.Fallible
import Verif.Model.Adaptive
/-
Model of programs with blocks, functions that return arrays, exceptions and handlers, over the statements of Model/Adaptive.lean (control flow,
default-constructed and moved-from arrays) and Model/Fallible.lean (functions that throw). Leaving a block, normally or by an exception, destroys
the arrays declared in it.

Simplifications: copying, assigning and destroying elements does not throw; all elements have the same type; a variable is a name that is not used
by another variable of an enclosing block (no shadowing); of raw memory only the number of lost blocks is tracked.
-/
namespace Jules

/-- Statements.
array.hpp:82-344, functional.hpp:46-194, overlap.hpp:17-22. -/
inductive XStmt (α : Type) where
  /-- A statement whose functions do not throw. Model/Adaptive.lean: array.hpp:82-344. -/
  | calm (s : MStmt α)
  /-- A statement whose functions may throw. Model/Fallible.lean: functional.hpp:46-194, array.hpp:158-344, overlap.hpp:17-22. -/
  | wild (s : FStmt α)

/-- Programs; what is done next may depend on the elements read and on the results of blocks.
Language semantics (control flow, scopes, exceptions); the elements are read as in ref_array.hpp:105-167. -/
inductive Body (α β : Type) where
  /-- The end of the block, with a result (language semantics; array.hpp:82). -/
  | ret (b : β)
  /-- `throw` (language semantics; the constructors rethrow like this, array.hpp:226-230). -/
  | throw
  /-- A statement, and the rest (array.hpp:82-344, functional.hpp:46-194). -/
  | exec (s : XStmt α) (k : Body α β)
  /-- Read an element: `x[i]…[j]` (ref_array.hpp:100-158). -/
  | read (s : Sc α) (k : α → Body α β)
  /-- Go through the elements of an array, view or expression from `begin()` to `end()`, knowing `dimensions()`: reductions
  (base/numeric.hpp:31-496), output (array/io.hpp:52-158), loops. -/
  | elements (e : FEx α) (k : List Nat → List α → Body α β)
  /-- `{ … }`, and the rest (language semantics; array.hpp:82). -/
  | block (body : Body α β) (k : β → Body α β)
  /-- `auto x = f();` where the body of `f` ends with `return y;`: `x` is move-constructed from the local array `y` (array.hpp:211-213), or is `y`
  itself, which is the same. -/
  | call (x y : Nat) (body : Body α β) (k : β → Body α β)
  /-- `try { … } catch (...) { … }`, and the rest (language semantics, as in array.hpp:224-230). -/
  | attempt (body handler : Body α β) (k : β → Body α β)

/-- The arrays used by an expression.
functional.hpp:46-71, 131-170. -/
def FEx.uses : FEx α → List Nat
  | .arr x _ => [x]
  | .un _ e => e.uses
  | .bin _ a b => a.uses ++ b.uses
  | .scl _ s e => s.uses ++ e.uses
  | .scr _ e s => e.uses ++ s.uses

/-- The arrays whose elements a statement uses. Simplification: `x = e` and `overlap(x) = e` are among them for `x`, so a moved-from `x` is only
assigned by statements whose functions do not throw (`calm`).
array.hpp:158-344, functional.hpp:46-187, overlap.hpp:17-22. -/
def FStmt.uses : FStmt α → List Nat
  | .plain s => s.uses
  | .make _ e => e.uses
  | .makeFrom _ _ _ => []
  | .assign x _ e => x :: e.uses
  | .inPlace x _ _ e => x :: e.uses
  | .inPlaceScalar x _ _ s => x :: s.uses
  | .apply x _ _ => [x]
  | .overlap x _ e => x :: e.uses
  | .overlapWhole x e => x :: e.uses
  | .set x e => x :: e.uses

/-- The name a declaration introduces.
array.hpp:158-168, 218-231. -/
def FStmt.declares : FStmt α → Option Nat
  | .make x _ => some x
  | .makeFrom x _ _ => some x
  | _ => none

/-- The name a declaration introduces.
array.hpp:112, 141-168, 198-231. -/
def XStmt.declares : XStmt α → Option Nat
  | .calm (.old s) => s.declares
  | .calm (.declare x _) => some x
  | .calm (.moveMake x _) => some x
  | .wild s => s.declares

/-- The state of a program: the arrays, the names declared in the blocks that have been entered (the innermost block, and in each block the last
declaration, first), and the number of blocks of raw memory to which there is no pointer any more.
Language semantics (scopes); array.hpp:330-341. -/
structure SWorld (α : Type) where
  m : MWorld α
  scopes : List (List Nat)
  lost : Nat

/-- A declaration in the innermost block.
Language semantics (scopes) for the constructors of array.hpp:112-231. -/
def SWorld.declare (W : SWorld α) : Option Nat → SWorld α
  | none => W
  | some x => match W.scopes with
    | [] => W
    | f :: fs => { W with scopes := (x :: f) :: fs }

/-- Blocks of raw memory that are lost when an exception leaves the statement: in `x = e` the new block has been allocated and `construct` throws;
nothing frees it (array.hpp:330-341). The constructors free it (array.hpp:226-230). -/
def World.loses (A : Arith) (chk : Bool) (w : World α) : FStmt α → Res Nat
  | .set x e => do
    let a ← w.get x
    let src ← e.eval A chk w
    .ok (if prodL A a.ext = prodL A src.dims then 0 else 1)
  | _ => .ok 0

/-- One statement: the state after it and whether an exception has left it. Arrays are destroyed at the end of their block only. A declaration
counts if its initialization does not throw.
array.hpp:112-344, functional.hpp:46-194, overlap.hpp:17-22. -/
def SWorld.step (A : Arith) (chk nx : Bool) (alloc : Nat → Mem α → Nat → Nat) (W : SWorld α) : XStmt α → Res (SWorld α × Bool)
  | .calm (.old (.drop _)) => .error .illFormed
  | .calm s => do
    let m ← W.m.step A chk alloc s
    .ok (({ W with m := m }).declare (XStmt.calm s).declares, false)
  | .wild (.plain _) => .error .illFormed -- it is one of the statements above
  | .wild s =>
    if W.m.anyGone s.declares.toList then .error .illFormed
    else if W.m.anyGone s.uses then .error .ub
    else do
      let r ← W.m.w.fstep A chk nx alloc s
      if r.2 then do
        let n ← W.m.w.loses A chk s
        .ok ({ W with m := ⟨r.1, W.m.gone⟩, lost := W.lost + n }, true)
      else .ok (({ W with m := ⟨r.1, W.m.gone⟩ }).declare s.declares, false)

/-- Entering a block.
Language semantics (scopes) for the arrays of array.hpp:82-344. -/
def SWorld.enter (W : SWorld α) : SWorld α := { W with scopes := [] :: W.scopes }

/-- Leaving a block: its arrays are destroyed, the last one first.
Language semantics (scopes); array.hpp:82, 383-389. -/
def SWorld.leave (A : Arith) (chk : Bool) (alloc : Nat → Mem α → Nat → Nat) (W : SWorld α) : Res (SWorld α) :=
  match W.scopes with
  | [] => .error .illFormed
  | f :: fs => do
    let m ← f.foldlM (fun m x => m.step A chk alloc (.old (.drop x))) W.m
    .ok { W with m := m, scopes := fs }

/-- `return y;` for the array `y` of the block that ends: it is moved.
array.hpp:211-213; language semantics (implicit move). -/
def SWorld.give (A : Arith) (chk : Bool) (alloc : Nat → Mem α → Nat → Nat) (W : SWorld α) (x y : Nat) : Res (SWorld α) := do
  needs ((W.scopes.headD []).contains y)
  let m ← W.m.step A chk alloc (.moveMake x y)
  .ok { W with m := m }

/-- The elements from `begin()` to `end()`; `none`: an exception is thrown at one of them.
unary_expr_array.hpp:32-75, binary_expr_array.hpp:35-83, detail/iterator.hpp:69, ref_array.hpp:160-167. -/
def FSrc.elements (src : FSrc α) (m : Mem α) : Res (Option (List α)) :=
  match src.it.count with
  | none => .error .ub
  | some n =>
    match (List.range n).mapM fun k => src.it.deref m k with
    | .ok xs => .ok (some xs)
    | .error (.exc _) => .ok none
    | .error f => .error f

/-- Running a program: the state in which it ends and its result; `none`: it is left by an exception.
Language semantics; array.hpp:82-344, ref_array.hpp:105-167, and the functions cited at `XStmt` and `Body`. -/
def SWorld.exec (A : Arith) (chk nx : Bool) (alloc : Nat → Mem α → Nat → Nat) (W : SWorld α) : Body α β → Res (SWorld α × Option β)
  | .ret b => .ok (W, some b)
  | .throw => .ok (W, none)
  | .exec s k => do
    let r ← W.step A chk nx alloc s
    if r.2 then .ok (r.1, none) else r.1.exec A chk nx alloc k
  | .read s k =>
    if W.m.anyGone s.uses then .error .ub
    else do
      let c ← s.eval A chk W.m.w
      let v ← c.get W.m.w.mem
      W.exec A chk nx alloc (k v)
  | .elements e k =>
    if W.m.anyGone e.uses then .error .ub
    else do
      let src ← e.eval A chk W.m.w
      let r ← src.elements W.m.w.mem
      match r with
      | none => .ok (W, none)
      | some xs => W.exec A chk nx alloc (k src.dims xs)
  | .block body k => do
    let r ← W.enter.exec A chk nx alloc body
    let W' ← r.1.leave A chk alloc
    match r.2 with
    | none => .ok (W', none)
    | some b => W'.exec A chk nx alloc (k b)
  | .call x y body k => do
    let r ← W.enter.exec A chk nx alloc body
    match r.2 with
    | none => do
      let W' ← r.1.leave A chk alloc
      .ok (W', none)
    | some b => do
      let W₁ ← r.1.give A chk alloc x y
      let W' ← W₁.leave A chk alloc
      (W'.declare (some x)).exec A chk nx alloc (k b)
  | .attempt body handler k => do
    let r ← W.enter.exec A chk nx alloc body
    let W' ← r.1.leave A chk alloc
    match r.2 with
    | some b => W'.exec A chk nx alloc (k b)
    | none => do
      let r' ← W'.enter.exec A chk nx alloc handler
      let W'' ← r'.1.leave A chk alloc
      match r'.2 with
      | none => .ok (W'', none)
      | some b => W''.exec A chk nx alloc (k b)

/-- The beginning of a program.
Language semantics for the arrays of array.hpp:82-344. -/
def SWorld.empty : SWorld α := ⟨MWorld.empty, [[]], 0⟩

/-- A whole program: a function body (`main`), an exception that leaves it being caught by the caller.
Language semantics for the arrays of array.hpp:82-344. -/
def SWorld.main (A : Arith) (chk nx : Bool) (alloc : Nat → Mem α → Nat → Nat) (p : Body α β) : Res (SWorld α × Option β) :=
  SWorld.empty.exec A chk nx alloc (.block p .ret)

end Jules

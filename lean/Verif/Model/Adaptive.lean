import Verif.Model.Program
/-
Programs with control flow, default-constructed arrays and moved-from arrays, over the statements of Model/Program.lean. What a program does
next may depend on every element it has read: programs are trees.
-/
namespace Jules

/-- Statements: those of Model/Program.lean, and two more.
array.hpp:82-344 and the functions cited at `Stmt`. -/
inductive MStmt (α : Type) where
  /-- A statement of Model/Program.lean (array.hpp:82-344, and the functions cited there). -/
  | old (s : Stmt α)
  /-- `array<T, n> x;`: array.hpp:112, the null pointer and extents 0 (descriptor.hpp:94). -/
  | declare (x n : Nat)
  /-- `auto x = std::move(y);`: array.hpp:211-213. The pointer of `y` becomes null; its descriptor is trivially copyable, so `y` keeps
  its extents. -/
  | moveMake (x y : Nat)

/-- The arrays whose pointer is null and whose extents are not all zero elements: moved-from arrays, with the extents they still have. (A
null pointer with no elements is as good as any other: such arrays stay in `w`.)
array.hpp:211-213, 308-314. -/
structure MWorld (α : Type) where
  w : World α
  gone : Nat → Option (List Nat)

/-- The arrays used by a scalar operand.
ref_array.hpp:77-83, functional.hpp:156-187. -/
def Sc.uses : Sc α → List Nat
  | .const _ => []
  | .elem x _ => [x]

/-- The arrays used by an expression.
functional.hpp:46-71, 131-170. -/
def PEx.uses : PEx α → List Nat
  | .arr x _ => [x]
  | .un _ e => e.uses
  | .bin _ a b => a.uses ++ b.uses
  | .scl _ s e => s.uses ++ e.uses
  | .scr _ e s => e.uses ++ s.uses

/-- The arrays whose elements a statement uses (as operands, or as the targets of elementwise writes).
array.hpp:82-344, ref_array.hpp:70-90, strided_ref_array.hpp:76-95, functional.hpp:46-187, overlap.hpp:17-22. -/
def Stmt.uses : Stmt α → List Nat
  | .make _ e => e.uses
  | .makeFill _ s _ => s.uses
  | .makeFrom _ _ _ => []
  | .drop _ => []
  | .fill x _ s => x :: s.uses
  | .assign x _ e => x :: e.uses
  | .inPlace x _ _ e => x :: e.uses
  | .inPlaceScalar x _ _ s => x :: s.uses
  | .apply x _ _ => [x]
  | .overlap x _ e => x :: e.uses
  | .overlapWhole _ e => e.uses
  | .set _ e => e.uses
  | .moveAssign _ _ => []

/-- The name a declaration introduces.
array.hpp:141-168, 198-231. -/
def Stmt.declares : Stmt α → Option Nat
  | .make x _ => some x
  | .makeFill x _ _ => some x
  | .makeFrom x _ _ => some x
  | _ => none

/-- Some of these arrays has been moved from.
array.hpp:211-213. -/
def MWorld.anyGone (W : MWorld α) (xs : List Nat) : Bool := xs.any fun x => (W.gone x).isSome

/-- Change whether `x` is moved-from.
array.hpp:211-213, 308-314. -/
def MWorld.mark (g : Nat → Option (List Nat)) (x : Nat) (d : Option (List Nat)) : Nat → Option (List Nat) := fun y => if y = x then d else g y

/-- `x = e` (array.hpp:279-305, 318-344) and `overlap(x) = e` (overlap.hpp:17-22 with array.hpp:308-314) where `x` has been moved from and has the
extents `d`. With equal sizes `x = e` copies the elements to the null pointer (`into`); otherwise new elements are constructed as by the
constructor, there is nothing to destroy (array.hpp:383-389), and the pointer is replaced. -/
def MWorld.revive (A : Arith) (chk : Bool) (alloc : Nat → Mem α → Nat → Nat) (W : MWorld α) (x : Nat) (d : List Nat) (e : PEx α) (into : Bool) :
    Res (MWorld α) := do
  let e' ← e.eval A chk W.w
  let src ← e'.build A chk
  sameOrder ⟨0, d⟩ src.dims
  if into && prodL A d == prodL A src.dims then .error .ub
  else do
    let w' ← W.w.step A chk alloc (.make x e)
    .ok ⟨w', MWorld.mark W.gone x none⟩

/-- One statement. Using the elements of a moved-from array is undefined: the pointer is null.
Simplification: also where no element is touched in the end (an empty slice of it).
array.hpp:112, 211-213, 279-344, and the functions cited at `Stmt` and `MStmt`. -/
def MWorld.step (A : Arith) (chk : Bool) (alloc : Nat → Mem α → Nat → Nat) (W : MWorld α) : MStmt α → Res (MWorld α)
  | .declare x n => do
    needs (W.gone x).isNone
    needs (W.w.env x).isNone
    needs (n != 0) -- array.hpp:40
    .ok ⟨W.w.bind W.w.mem x (some ⟨0, List.replicate n 0⟩), W.gone⟩
  | .moveMake x y => do
    needs (W.gone x).isNone
    needs (W.w.env x).isNone
    match W.gone y with
    | some d => .ok ⟨W.w, MWorld.mark W.gone x (some d)⟩
    | none => do
      let a ← W.w.get y
      if prodL A a.ext == 0 then .ok ⟨(W.w.bind W.w.mem x (some a)).bind W.w.mem y (some ⟨0, a.ext⟩), W.gone⟩
      else .ok ⟨(W.w.bind W.w.mem x (some a)).bind W.w.mem y none, MWorld.mark W.gone y (some a.ext)⟩
  | .old (.drop x) =>
    match W.gone x with
    | some _ => .ok ⟨W.w, MWorld.mark W.gone x none⟩ -- array.hpp:383-389 does nothing
    | none => do
      let w' ← W.w.step A chk alloc (.drop x)
      .ok ⟨w', W.gone⟩
  | .old (.moveAssign x y) => do
    dbg chk (x != y)
    match W.gone x, W.gone y with
    | none, none => do
      let w' ← W.w.step A chk alloc (.moveAssign x y)
      .ok ⟨w', W.gone⟩
    | some d, none => do
      let b ← W.w.get y
      sameOrder ⟨0, d⟩ b.ext
      .ok ⟨(W.w.bind W.w.mem x (some b)).bind W.w.mem y none, MWorld.mark (MWorld.mark W.gone x none) y (some d)⟩
    | none, some d => do
      let a ← W.w.get x
      sameOrder a d
      .ok ⟨(W.w.bind W.w.mem x none).bind W.w.mem y (some a), MWorld.mark (MWorld.mark W.gone x (some d)) y none⟩
    | some d, some d' => do
      sameOrder ⟨0, d⟩ d'
      .ok ⟨W.w, MWorld.mark (MWorld.mark W.gone x (some d')) y (some d)⟩
  | .old (.set x e) =>
    match W.gone x, e with
    | some d, .arr y [] =>
      if x = y then .ok W -- array.hpp:281-282
      else if W.anyGone [y] then .error .ub
      else W.revive A chk alloc x d (.arr y []) true
    | some d, e =>
      if W.anyGone e.uses then .error .ub
      else W.revive A chk alloc x d e true
    | none, e =>
      if W.anyGone e.uses then .error .ub
      else do
        let w' ← W.w.step A chk alloc (.set x e)
        .ok ⟨w', W.gone⟩
  | .old (.overlapWhole x e) =>
    match W.gone x with
    | some d =>
      if W.anyGone e.uses then .error .ub
      else W.revive A chk alloc x d e false
    | none =>
      if W.anyGone e.uses then .error .ub
      else do
        let w' ← W.w.step A chk alloc (.overlapWhole x e)
        .ok ⟨w', W.gone⟩
  | .old s =>
    if W.anyGone s.declares.toList then .error .illFormed
    else if W.anyGone s.uses then .error .ub
    else do
      let w' ← W.w.step A chk alloc s
      .ok ⟨w', W.gone⟩

/-- Programs: what is done next may depend on the elements read.
Language semantics (control flow); reads as in array.hpp, ref_array.hpp:105-167. -/
inductive Prog (α β : Type) where
  /-- The end, with a result. -/
  | ret (b : β)
  /-- A statement, and the rest. -/
  | exec (s : MStmt α) (k : Prog α β)
  /-- Read an element: `x[i]…[j]`. -/
  | read (s : Sc α) (k : α → Prog α β)
  /-- Go through the elements of an array, view or expression from `begin()` to `end()`, knowing `dimensions()`: reductions (base/numeric.hpp), output
  (array/io.hpp), loops. -/
  | elements (e : PEx α) (k : List Nat → List α → Prog α β)

/-- The elements from `begin()` to `end()`.
unary_expr_array.hpp:32-75, binary_expr_array.hpp:35-83, detail/iterator.hpp:69, ref_array.hpp:160-167. -/
def EObj.elements (src : EObj α) (m : Mem α) : Res (List α) :=
  match src.it.count with
  | none => .error .ub
  | some n => (List.range n).mapM fun k => src.it.deref m k

/-- Running a program.
Language semantics; ref_array.hpp:105-167, and the functions cited at `MStmt` and `Prog`. -/
def MWorld.exec (A : Arith) (chk : Bool) (alloc : Nat → Mem α → Nat → Nat) (W : MWorld α) : Prog α β → Res (MWorld α × β)
  | .ret b => .ok (W, b)
  | .exec s k => do
    let W' ← W.step A chk alloc s
    W'.exec A chk alloc k
  | .read s k =>
    if W.anyGone s.uses then .error .ub
    else do
      let c ← s.eval A chk W.w
      let v ← c.get W.w.mem
      W.exec A chk alloc (k v)
  | .elements e k =>
    if W.anyGone e.uses then .error .ub
    else do
      let e' ← e.eval A chk W.w
      let src ← e'.build A chk
      let xs ← src.elements W.w.mem
      W.exec A chk alloc (k src.dims xs)

/-- The beginning of a program.
Language semantics. -/
def MWorld.empty : MWorld α := ⟨World.empty, fun _ => none⟩

end Jules

import Verif.Model.Adaptive
/-
Programs that may run out of memory: every allocation may fail, whenever it is attempted. The statements of Model/Program.lean and Model/Adaptive.lean again,
with every call of an allocation function where the code makes it, and the memory at the point where `std::bad_alloc` is thrown; and programs that
catch the exception.

Memory is allocated for the elements of arrays (allocator.hpp:23) and for lists of positions (`std::vector` and the control block of the `std::shared_ptr`
that owns it: slicing.hpp:171-173, mapper.hpp:63-78, 83-95, base/index_view.hpp:37-53, base/const_vector.hpp:68-82).
-/
namespace Jules

/-- A fragment ends normally, with `std::bad_alloc` (leaving memory as given), or otherwise; the number counts the allocations attempted so far.
allocator.hpp:23: `std::allocator<T>::allocate` throws. -/
inductive OOut (α β : Type) where
  | ok (b : β) (m : Mem α) (n : Nat)
  | thrown (m : Mem α) (n : Nat)
  | fail (f : Fail)

/-- Fragments that change memory and may fail to allocate.
Language semantics (exceptions) for allocator.hpp:23. -/
def OM (α β : Type) := Mem α → Nat → OOut α β

/-- Sequencing: an exception skips what follows.
Language semantics (exceptions) for allocator.hpp:23. -/
def OM.bind (x : OM α β) (k : β → OM α γ) : OM α γ := fun m n =>
  match x m n with
  | .ok b m' n' => k b m' n'
  | .thrown m' n' => .thrown m' n'
  | .fail f => .fail f

/-- Language semantics (sequencing) for allocator.hpp:23. -/
instance : Monad (OM α) where
  pure b := fun m n => .ok b m n
  bind := OM.bind

/-- A fragment that neither changes memory nor allocates.
The computations of slicing.hpp:188-242, ref_array.hpp:105-158, functional.hpp:131-170. -/
def OM.lift (r : Res β) : OM α β := fun m n =>
  match r with
  | .ok b => .ok b m n
  | .error f => .fail f

/-- A loop over elements, or the construction of elements in memory already allocated.
The loops of detail/common.hpp:31-33, functional.hpp:51-63, 81-94, ref_array.hpp:77-83, allocator.hpp:33-44. -/
def OM.act (f : Mem α → Res (Mem α × β)) : OM α β := fun m n =>
  match f m with
  | .ok (m', b) => .ok b m' n
  | .error e => .fail e

/-- An allocation: `S k` says whether the `k`-th one fails.
allocator.hpp:23, and the allocations of `std::vector` and `std::make_shared` in slicing.hpp:171-173, base/const_vector.hpp:68-82. -/
def OM.allocation (S : Nat → Bool) : OM α Unit := fun m n => if S n then .thrown m (n + 1) else .ok () m (n + 1)

/-- An exception that leaves a `noexcept` function is `std::terminate`.
mapper.hpp:83: `drop_first_dimension(index_t) const noexcept`. -/
def OM.noexcept (x : OM α β) : OM α β := fun m n =>
  match x m n with
  | .ok b m' n' => .ok b m' n'
  | .thrown _ _ => .fail .terminate
  | .fail f => .fail f

/-- A temporary is destroyed when its scope is left, normally or by an exception.
overlap.hpp:17-22: the end of the life of `evaluated`. -/
def OM.scoped (destroy : Mem α → Mem α) (x : OM α β) : OM α β := fun m n =>
  match x m n with
  | .ok b m' n' => .ok b (destroy m') n'
  | .thrown m' n' => .thrown (destroy m') n'
  | .fail f => .fail f

/-- A list of positions is made: the vector, and the control block of its owner.
slicing.hpp:171-173, 203-206, mapper.hpp:63-78, 88-94, base/index_view.hpp:37-53. -/
def newList (S : Nat → Bool) : OM α Unit := do
  OM.allocation S
  OM.allocation S

/-- The allocations of one `operator[]` with the result `r`: none unless `r` is a view through a list of positions. A plain index on such a view makes its
list in a `noexcept` function; `every` on a one-dimensional one copies the view, which shares the list.
Simplifications: the checks of the index expression come first (they are fatal); a list of positions is counted as allocated also where it is empty or where the memory of
the user's own list is used (base/index_view.hpp:35, 42-45).
slicing.hpp:188-222, 224-242, 262-274, mapper.hpp:63-95. -/
def indexList (S : Nat → Bool) (o : Obj) (ix : Ix) (r : Obj) : OM α Unit :=
  match r with
  | .sref _ (.vec _ _) =>
    match o, ix with
    | .sref _ _, .at _ => OM.noexcept (newList S)
    | .sref _ _, .every => pure ()
    | _, _ => newList S
  | _ => pure ()

/-- A chain of `operator[]` applications.
`a[i][j]...` with ref_array.hpp:100-161, strided_ref_array.hpp:101-159, slicing.hpp:309-330, 360-411. -/
def Obj.runO (S : Nat → Bool) (A : Arith) (chk : Bool) : Obj → List Ix → OM α Obj
  | o, [] => pure o
  | o, ix :: h => do
    let r ← OM.lift (o.index A chk ix)
    indexList S o ix r
    r.runO S A chk h

/-- `x[h]…`.
ref_array.hpp:105-158, strided_ref_array.hpp:100-151. -/
def World.indexO (S : Nat → Bool) (w : World α) (A : Arith) (chk : Bool) (x : Nat) (h : List Ix) : OM α Obj := do
  let a ← OM.lift (w.get x)
  (Obj.cref a.base a.ext).runO S A chk h

/-- A scalar operand, as `Sc.eval`.
functional.hpp:172-187, ref_array.hpp:77-83. -/
def Sc.evalO (S : Nat → Bool) (A : Arith) (chk : Bool) (w : World α) : Sc α → OM α (Scalar α)
  | .const c => pure (.val c)
  | .elem x h => do
    let o ← w.indexO S A chk x h
    match o with
    | .elem p => pure (.cell p)
    | _ => OM.lift (.error .illFormed)

/-- Creating the (lazy) expression object, as `PEx.eval`. The objects themselves are not allocated.
functional.hpp:46-71, 131-170. -/
def PEx.evalO (S : Nat → Bool) (A : Arith) (chk : Bool) (w : World α) : PEx α → OM α (Ex Obj α)
  | .arr x h => do
    let o ← w.indexO S A chk x h
    pure (.leaf o)
  | .un f e => do
    let e' ← e.evalO S A chk w
    pure (.un f e')
  | .bin f a b => do
    let a' ← a.evalO S A chk w
    let b' ← b.evalO S A chk w
    pure (.bin f a' b')
  | .scl f s e => do
    let c ← s.evalO S A chk w
    let v ← OM.lift (c.get w.mem)
    let e' ← e.evalO S A chk w
    pure (.scalarLeft f v e')
  | .scr f e s => do
    let e' ← e.evalO S A chk w
    let c ← s.evalO S A chk w
    let v ← OM.lift (c.get w.mem)
    pure (.scalarRight f e' v)

/-- array.hpp:218-231 (and 198-208): the memory for the elements, then the elements. -/
def newArrayO (S : Nat → Bool) (A : Arith) (src : EObj α) (fresh : Mem α → Nat) : OM α Arr := do
  OM.allocation S
  OM.act fun m => newArray A src m (fresh m)

/-- array.hpp:318-344 (and 279-305): memory is allocated only if the sizes differ; the old elements are destroyed in the end. -/
def arrayAssignExprO (S : Nat → Bool) (A : Arith) (a : Arr) (src : EObj α) (fresh : Mem α → Nat) : OM α Arr :=
  if prodL A a.ext = prodL A src.dims then OM.act fun m => arrayAssignExpr A a src m (fresh m)
  else do
    let b ← newArrayO S A src fresh
    OM.act fun m => .ok (m.free a.base (prodL A a.ext), b)

/-- The end of a statement: the new state, or the state in which `std::bad_alloc` leaves it.
Language semantics for allocator.hpp:23. -/
inductive ORes (α β : Type) where
  | ok (w : β) (n : Nat)
  | thrown (w : World α) (n : Nat)
  | fail (f : Fail)

/-- Run the fragment of a statement in the state `w`; its value tells the new state from the new memory.
Language semantics (exceptions) for allocator.hpp:23. -/
def World.execO (w : World α) (n : Nat) (x : OM α (Mem α → World α)) : ORes α (World α) :=
  match x w.mem n with
  | .ok f m n' => .ok (f m) n'
  | .thrown m n' => .thrown ⟨m, w.env, w.clock + 1⟩ n'
  | .fail f => .fail f

/-- The state with memory `m`, one statement later.
Language semantics for the assignments of ref_array.hpp:70-90. -/
def World.now (w : World α) (m : Mem α) : World α := { w with mem := m, clock := w.clock + 1 }

/-- One statement, as in `World.step` (Model/Program.lean).
array.hpp:141-168, 198-231, 279-344 (construction and assignment), ref_array.hpp:70-90, strided_ref_array.hpp:76-95, functional.hpp:51-94,
overlap.hpp:17-22, as cited at `World.step` and `Stmt`. -/
def World.stepO (S : Nat → Bool) (A : Arith) (chk : Bool) (alloc : Nat → Mem α → Nat → Nat) (w : World α) (n : Nat) : Stmt α → ORes α (World α)
  | .make x e =>
    match w.env x with
    | some _ => .fail .illFormed
    | none => w.execO n do
      let e' ← e.evalO S A chk w
      let src ← OM.lift (e'.build A chk)
      let b ← newArrayO S A src fun m => alloc w.clock m (prodL A src.dims)
      pure fun m => w.bind m x (some b)
  | .makeFill x s ext =>
    match w.env x with
    | some _ => .fail .illFormed
    | none => w.execO n do
      OM.lift (needs (!ext.isEmpty))
      let c ← s.evalO S A chk w
      let v ← OM.lift (c.get w.mem)
      OM.allocation S
      let b ← OM.act fun m => newFrom A ext (List.replicate (prodL A ext) v) m (alloc w.clock m (prodL A ext))
      pure fun m => w.bind m x (some b)
  | .makeFrom x l ext =>
    match w.env x with
    | some _ => .fail .illFormed
    | none => w.execO n do
      OM.lift (needs (!ext.isEmpty))
      OM.allocation S
      let b ← OM.act fun m => newFrom A ext l m (alloc w.clock m (prodL A ext))
      pure fun m => w.bind m x (some b)
  | .drop x => w.execO n do
    let a ← OM.lift (w.get x)
    pure fun m => w.bind (m.free a.base (prodL A a.ext)) x none
  | .fill x h s => w.execO n do
    OM.lift (needs (!h.isEmpty))
    let o ← w.indexO S A chk x h
    let c ← s.evalO S A chk w
    OM.act fun m => do
      let m' ← fillView A o c m
      .ok (m', w.now)
  | .assign x h e => w.execO n do
    OM.lift (needs (!h.isEmpty))
    let o ← w.indexO S A chk x h
    let e' ← e.evalO S A chk w
    OM.act fun m => do
      let m' ← assignView A chk o e' m
      .ok (m', w.now)
  | .inPlace x h op e => w.execO n do
    let o ← w.indexO S A chk x h
    let e' ← e.evalO S A chk w
    OM.act fun m => do
      let m' ← inPlaceExpr A chk o op e' m
      .ok (m', w.now)
  | .inPlaceScalar x h op s => w.execO n do
    let o ← w.indexO S A chk x h
    let c ← s.evalO S A chk w
    OM.act fun m => do
      let m' ← Jules.inPlaceScalar A o op c m
      .ok (m', w.now)
  | .apply x h f => w.execO n do
    let o ← w.indexO S A chk x h
    OM.lift (needs o.dims.isSome)
    OM.act fun m => do
      let m' ← applyInPlace A o f m
      .ok (m', w.now)
  | .overlap x h e => w.execO n do
    OM.lift (needs (!h.isEmpty))
    let o ← w.indexO S A chk x h
    let e' ← e.evalO S A chk w
    let src ← OM.lift (e'.build A chk)
    let t ← newArrayO S A src fun m => alloc w.clock m (prodL A src.dims)
    OM.scoped (fun m => m.free t.base (prodL A t.ext)) do
      OM.act fun m => do
        let m' ← assignView A chk o (.leaf (.cref t.base t.ext)) m
        .ok (m', w.now)
  | .overlapWhole x e => w.execO n do
    let a ← OM.lift (w.get x)
    let e' ← e.evalO S A chk w
    let src ← OM.lift (e'.build A chk)
    OM.lift (sameOrder a src.dims)
    let t ← newArrayO S A src fun m => alloc w.clock m (prodL A src.dims)
    pure fun m => w.bind (m.free a.base (prodL A a.ext)) x (some t)
  | .set x (.arr y []) => w.execO n do
    let a ← OM.lift (w.get x)
    let b ← OM.lift (w.get y)
    OM.lift (sameOrder a b.ext)
    if x = y then pure fun m => w.bind m x (some a) -- array.hpp:281-282
    else do
      let b' ← arrayAssignExprO S A a ⟨b.ext, .cells ((List.range (prodL A b.ext)).map (A.add b.base ·))⟩ fun m => alloc w.clock m (prodL A b.ext)
      pure fun m => w.bind m x (some b')
  | .set x e => w.execO n do
    let a ← OM.lift (w.get x)
    let e' ← e.evalO S A chk w
    let src ← OM.lift (e'.build A chk)
    OM.lift (sameOrder a src.dims)
    let b' ← arrayAssignExprO S A a src fun m => alloc w.clock m (prodL A src.dims)
    pure fun m => w.bind m x (some b')
  | .moveAssign x y => w.execO n do
    let a ← OM.lift (w.get x)
    let b ← OM.lift (w.get y)
    OM.lift (sameOrder a b.ext)
    OM.lift (dbg chk (x != y))
    pure fun m => (w.bind m x (some b)).bind m y (some a)

/-- A statement that does not involve moved-from arrays: the others stay as they are.
array.hpp:211-213. -/
def MWorld.keepGone (W : MWorld α) (r : ORes α (World α)) : ORes α (MWorld α) :=
  match r with
  | .ok w n => .ok ⟨w, W.gone⟩ n
  | .thrown w n => .thrown w n
  | .fail f => .fail f

/-- A statement that allocates nothing.
array.hpp:112, 211-213, 308-314, 383-389. -/
def MWorld.direct (n : Nat) (r : Res (MWorld α)) : ORes α (MWorld α) :=
  match r with
  | .ok W => .ok W n
  | .error f => .fail f

/-- As `MWorld.revive`: a new value for a moved-from array.
array.hpp:279-305, 318-344; overlap.hpp:17-22. -/
def MWorld.reviveO (S : Nat → Bool) (A : Arith) (chk : Bool) (alloc : Nat → Mem α → Nat → Nat) (W : MWorld α) (n : Nat) (x : Nat) (d : List Nat) (e : PEx α)
    (into : Bool) : ORes α (MWorld α) :=
  match W.w.execO n (do
    OM.lift (needs (W.w.env x).isNone)
    let e' ← e.evalO S A chk W.w
    let src ← OM.lift (e'.build A chk)
    OM.lift (sameOrder ⟨0, d⟩ src.dims)
    if into && prodL A d == prodL A src.dims then OM.lift (.error .ub)
    else do
      let b ← newArrayO S A src fun m => alloc W.w.clock m (prodL A src.dims)
      pure fun m => W.w.bind m x (some b)) with
  | .ok w n => .ok ⟨w, MWorld.mark W.gone x none⟩ n
  | .thrown w n => .thrown w n
  | .fail f => .fail f

/-- One statement, as `MWorld.step`.
array.hpp:112, 211-213, 279-344, and the functions cited at `Stmt` and `MStmt`. -/
def MWorld.stepO (S : Nat → Bool) (A : Arith) (chk : Bool) (alloc : Nat → Mem α → Nat → Nat) (W : MWorld α) (n : Nat) : MStmt α → ORes α (MWorld α)
  | .declare x k => MWorld.direct n (W.step A chk alloc (.declare x k))
  | .moveMake x y => MWorld.direct n (W.step A chk alloc (.moveMake x y))
  | .old (.drop x) => MWorld.direct n (W.step A chk alloc (.old (.drop x)))
  | .old (.moveAssign x y) => MWorld.direct n (W.step A chk alloc (.old (.moveAssign x y)))
  | .old (.set x e) =>
    match W.gone x, e with
    | some d, .arr y [] =>
      if x = y then .ok W n
      else if W.anyGone [y] then .fail .ub
      else W.reviveO S A chk alloc n x d (.arr y []) true
    | some d, e =>
      if W.anyGone e.uses then .fail .ub
      else W.reviveO S A chk alloc n x d e true
    | none, e =>
      if W.anyGone e.uses then .fail .ub
      else W.keepGone (W.w.stepO S A chk alloc n (.set x e))
  | .old (.overlapWhole x e) =>
    match W.gone x with
    | some d =>
      if W.anyGone e.uses then .fail .ub
      else W.reviveO S A chk alloc n x d e false
    | none =>
      if W.anyGone e.uses then .fail .ub
      else W.keepGone (W.w.stepO S A chk alloc n (.overlapWhole x e))
  | .old s =>
    if W.anyGone s.declares.toList then .fail .illFormed
    else if W.anyGone s.uses then .fail .ub
    else W.keepGone (W.w.stepO S A chk alloc n s)

/-- Programs that catch `std::bad_alloc` and go on: the rest of the program depends on whether it was thrown.
Language semantics (`try { s } catch (const std::bad_alloc&) { … }`); reads as in ref_array.hpp:105-167. -/
inductive GProg (α β : Type) where
  /-- The end, with a result. -/
  | ret (b : β)
  /-- A statement: `true` if it was executed, `false` if it threw. -/
  | exec (s : MStmt α) (k : Bool → GProg α β)
  /-- Read an element. -/
  | read (s : Sc α) (k : Option α → GProg α β)
  /-- Go through the elements. -/
  | elements (e : PEx α) (k : Option (List Nat × List α) → GProg α β)

/-- The end of a program.
Language semantics (exceptions) for allocator.hpp:23. -/
inductive GOut (α β : Type) where
  | ok (W : MWorld α) (b : β) (n : Nat)
  | fail (f : Fail)

/-- Running a program: the `k`-th allocation fails if `S k`.
Language semantics (`try`); the functions cited at `MStmt` and `Prog`; ref_array.hpp:105-167. -/
def MWorld.execO (S : Nat → Bool) (A : Arith) (chk : Bool) (alloc : Nat → Mem α → Nat → Nat) (W : MWorld α) (n : Nat) : GProg α β → GOut α β
  | .ret b => .ok W b n
  | .exec s k =>
    match W.stepO S A chk alloc n s with
    | .ok W' n' => W'.execO S A chk alloc n' (k true)
    | .thrown w n' => MWorld.execO S A chk alloc ⟨w, W.gone⟩ n' (k false)
    | .fail f => .fail f
  | .read s k =>
    if W.anyGone s.uses then .fail .ub
    else
      match (do
        let c ← s.evalO S A chk W.w
        OM.lift (c.get W.w.mem) : OM α α) W.w.mem n with
      | .ok v m n' => MWorld.execO S A chk alloc ⟨⟨m, W.w.env, W.w.clock⟩, W.gone⟩ n' (k (some v))
      | .thrown m n' => MWorld.execO S A chk alloc ⟨⟨m, W.w.env, W.w.clock⟩, W.gone⟩ n' (k none)
      | .fail f => .fail f
  | .elements e k =>
    if W.anyGone e.uses then .fail .ub
    else
      match (do
        let e' ← e.evalO S A chk W.w
        let src ← OM.lift (e'.build A chk)
        let xs ← OM.lift (src.elements W.w.mem)
        pure (src.dims, xs) : OM α (List Nat × List α)) W.w.mem n with
      | .ok r m n' => MWorld.execO S A chk alloc ⟨⟨m, W.w.env, W.w.clock⟩, W.gone⟩ n' (k (some r))
      | .thrown m n' => MWorld.execO S A chk alloc ⟨⟨m, W.w.env, W.w.clock⟩, W.gone⟩ n' (k none)
      | .fail f => .fail f

end Jules

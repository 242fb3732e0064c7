import Verif.Model.Heap
/-
Model of exceptions thrown by user functions while arrays are constructed or assigned: allocator.hpp:39-44 and the constructors and assignments of
array.hpp that use it, with the `noexcept` specifications; builder.hpp:56-61.
-/
namespace Jules

/-- A function declared `noexcept(b)`: an exception that would leave it calls `std::terminate`.
Language semantics; allocator.hpp:40, builder.hpp:56. -/
def HM.noexcept (b : Bool) (x : HM α β) : HM α β := fun h =>
  match x h with
  | .exn e h' => if b then .fail .terminate else .exn e h'
  | r => r

/-- The events of element constructors: when the construction of an element is `nothrow` they do not throw.
`std::is_nothrow_constructible_v<value_type, U>` of allocator.hpp:40. -/
def elemEvents (nothrow : Bool) (S : Nat → Bool) : Nat → Bool := if nothrow then fun _ => false else S

/-- allocator.hpp:39-44 `construct(to, from, size)`: declared `noexcept` when the construction of an element from `*from` is, whatever `*from` and
`++from` may throw. -/
def constructFrom (nothrow : Bool) (S : Nat → Bool) (id n : Nat) (src : Nat → HM α α) : HM α Unit :=
  (constructLoop (elemEvents nothrow S) id [] (seqPlan n src)).noexcept nothrow

/-- array.hpp:157-181, 218-231 the constructors from an iterator, a generator, an expression. -/
def newArrN (nothrow : Bool) (S : Nat → Bool) (ext : List Nat) (src : Nat → HM α α) : HM α Own := do
  let id ← allocate S (prodL Arith.exact ext)
  (constructFrom nothrow S id (prodL Arith.exact ext) src).cleanup (deallocate id)
  pure ⟨some id, ext⟩

/-- array.hpp:318-344 assignment from an expression. -/
def assignArrN (nothrow : Bool) (S : Nat → Bool) (dst : Own) (ext : List Nat) (src : Nat → HM α α) : HM α Own :=
  if dst.size = prodL Arith.exact ext then do
    copyLoop S dst src dst.size (List.range dst.size)
    pure ⟨dst.ptr, ext⟩
  else do
    let id ← allocate S (prodL Arith.exact ext)
    constructFrom nothrow S id (prodL Arith.exact ext) src
    clearArr dst
    pure ⟨some id, ext⟩

/-- Expressions over arrays (all of the same extents) and scalars, with functions that may throw (`none`).
unary_expr_array.hpp, binary_expr_array.hpp, functional.hpp:46-71 (`apply`). -/
inductive HEx (α : Type) where
  | arr (o : Own)
  | scalar (v : α)
  | un (f : α → Option α) (e : HEx α)
  | bin (f : α → α → Option α) (a b : HEx α)

/-- The result of a user function.
Calls of the function object, unary_expr_array.hpp:68, binary_expr_array.hpp:75. -/
def callRes : Option α → HM α α
  | some v => pure v
  | none => HM.throw .user

/-- Dereferencing the k-th position of an expression's iterator: unary_expr_array.hpp:68, binary_expr_array.hpp:75, functional.hpp:20-45. -/
def HEx.src : HEx α → Nat → HM α α
  | .arr o, k => ownSrc o k
  | .scalar v, _ => pure v
  | .un f e, k => do
    let x ← e.src k
    callRes (f x)
  | .bin f a b, k => do
    let x ← a.src k
    let y ← b.src k
    callRes (f x y)

/-- The state of a generator after `k` calls that did not throw.
`ranges::views::generate(f)`, array.hpp:174. -/
def genState {σ : Type} (f : σ → Option (α × σ)) : Nat → σ → Option σ
  | 0, s => some s
  | k + 1, s => (f s).bind fun r => genState f k r.2

/-- Dereferencing the k-th position of `views::generate(f)` (array.hpp:174-175), after the positions before it: calls `f`. -/
def genSrc {σ : Type} (f : σ → Option (α × σ)) (s : σ) (k : Nat) : HM α α :=
  callRes (((genState f k s).bind f).map Prod.fst)

/-- array.hpp:170-181 `array(generated, f, dims...)`. -/
def genArr {σ : Type} (nothrow : Bool) (S : Nat → Bool) (f : σ → Option (α × σ)) (s : σ) (ext : List Nat) : HM α Own :=
  newArrN nothrow S ext (genSrc f s)

/-- builder.hpp:56-61 `push_back(T&&)`, unconditionally `noexcept`. -/
def builderPushMove (S : Nat → Bool) (chk : Bool) (b : Builder) (v : α) : HM α Builder :=
  (builderPush S chk b v).noexcept true

end Jules

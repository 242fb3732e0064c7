import Verif.Spec.Types
import Verif.Spec.Expr
import Verif.Model.Program
/-
Specification of programs over arrays, without memory, addresses, strides or layout: a store maps names to array values, and a statement
changes the elements it names. From the model only the syntax of statements (`Stmt`, `PEx`, `Sc`, `Ix`) is used.
-/
namespace Jules.Spec

/-- An array value: extents, and an element for each multi-index (only meaningful on valid ones). -/
structure AVal (α : Type) where
  ext : List Nat
  elt : List Nat → α

/-- The arrays in scope. -/
abbrev AStore (α : Type) := Nat → Option (AVal α)

/-! ### What `x[h]…` is: some elements of the array `x`, rearranged -/

/-- A view of an array: its extents, and for each multi-index of the view the multi-index of the array's element it is. -/
structure IView where
  ext : List Nat
  src : List Nat → List Nat

/-- A view, or a view with the selections given so far. -/
inductive IObj where
  | view (v : IView)
  | part (v : IView) (sels : List (List Nat))

/-- All selections given: choose along each dimension. -/
def iclose (v : IView) (sels : List (List Nat)) : IObj :=
  if sels.length = v.ext.length then .view ⟨sels.map List.length, fun j => v.src (choose sels j)⟩ else .part v sels

/-- One `[ix]`: a plain index on a view fixes the first dimension; any other index expression starts a chain of selections. -/
def istep : IObj → Ix → IObj
  | .view v, .at i => .view ⟨v.ext.tail, fun t => v.src (i :: t)⟩
  | .view v, ix => iclose v [sel (v.ext.headD 0) ix]
  | .part v sels, ix => iclose v (sels ++ [sel (v.ext.getD sels.length 0) ix])

/-- The elements of an array with extents `e` a chain of index expressions refers to. -/
def imeaning (e : List Nat) (h : List Ix) : IObj := h.foldl istep (.view ⟨e, id⟩)

/-- The chain `h` is legal on an array with extents `e` (it compiles and every step selects existing elements) and is the view `v`. -/
structure Chain (e : List Nat) (h : List Ix) (v : IView) : Prop where
  legal : LegalAll (.view (arrayView 0 e)) h
  compiles : (typeOf e.length h).isSome
  view : imeaning e h = .view v

/-- The elements of the view are different elements of the array. -/
def IView.Injective (v : IView) : Prop := ∀ i j, InB v.ext i → InB v.ext j → v.src i = v.src j → i = j

/-- The element `j` of the array belongs to the view. -/
def IView.Has (v : IView) (j : List Nat) : Prop := ∃ i, InB v.ext i ∧ v.src i = j

/-! ### Scalars and expressions -/

/-- The value of a scalar. -/
def scVal (A : AStore α) : Sc α → Option α
  | .const c => some c
  | .elem x h => match A x with
    | none => none
    | some a => match imeaning a.ext h with
      | .view v => some (a.elt (v.src []))
      | .part _ _ => none

/-- The scalar is a constant or an existing element. -/
def ScLegal (A : AStore α) : Sc α → Prop
  | .const _ => True
  | .elem x h => ∃ a v, A x = some a ∧ Chain a.ext h v ∧ v.ext = []

/-- The scalar is an element of the view `v` of `x`. -/
def ScIn (A : AStore α) (x : Nat) (v : IView) : Sc α → Prop
  | .const _ => False
  | .elem y h => y = x ∧ ∃ a w, A x = some a ∧ imeaning a.ext h = .view w ∧ v.Has (w.src [])

/-- The value of an expression at a multi-index. -/
def exVal (A : AStore α) : PEx α → List Nat → Option α
  | .arr x h, i => match A x with
    | none => none
    | some a => match imeaning a.ext h with
      | .view v => some (a.elt (v.src i))
      | .part _ _ => none
  | .un f e, i => (exVal A e i).map f
  | .bin f a b, i => (exVal A a i).bind fun x => (exVal A b i).map (f x)
  | .scl f s e, i => (scVal A s).bind fun c => (exVal A e i).map fun x => f c x
  | .scr f e s, i => (exVal A e i).bind fun x => (scVal A s).map fun c => f x c

/-- The array elements (variable, multi-index) an expression reads at a multi-index when it is evaluated there. Scalars are not in the
list: they are copied when the expression is created. -/
def exReads (A : AStore α) : PEx α → List Nat → List (Nat × List Nat)
  | .arr x h, i => match A x with
    | none => []
    | some a => match imeaning a.ext h with
      | .view v => [(x, v.src i)]
      | .part _ _ => []
  | .un _ e, i => exReads A e i
  | .bin _ a b, i => exReads A a i ++ exReads A b i
  | .scl _ _ e, i => exReads A e i
  | .scr _ e _, i => exReads A e i

/-- The expression is legal and has extents `d`: its operands are arrays or legal views, all of extents `d`. -/
def ExLegal (A : AStore α) (d : List Nat) : PEx α → Prop
  | .arr x h => ∃ a v, A x = some a ∧ Chain a.ext h v ∧ v.ext = d
  | .un _ e => ExLegal A d e
  | .bin _ a b => ExLegal A d a ∧ ExLegal A d b
  | .scl _ s e => ScLegal A s ∧ ExLegal A d e
  | .scr _ e s => ExLegal A d e ∧ ScLegal A s

/-- Elements are visited in column-major order: `j` before `i`. -/
def Before (d j i : List Nat) : Prop := cmSum d j < cmSum d i

/-- No element of the view `v` of `x` is needed by `e` after it has been overwritten (`overlap` exists for the other cases). -/
def NoLateRead (A : AStore α) (x : Nat) (v : IView) (e : PEx α) : Prop :=
  ∀ i j, InB v.ext i → InB v.ext j → Before v.ext j i → (x, v.src j) ∉ exReads A e i

/-- The same for the assignment to a whole array with extents `old` from an expression with extents `d`. -/
def NoLateReadWhole (A : AStore α) (x : Nat) (old d : List Nat) (e : PEx α) : Prop :=
  prod old = prod d → ∀ i k, InB d i → InB old k → (x, k) ∈ exReads A e i → cmSum d i ≤ cmSum old k

/-! ### Statements -/

/-- When a statement may be executed. -/
def StmtLegal (A : AStore α) : Stmt α → Prop
  | .make x e => A x = none ∧ ∃ d, d ≠ [] ∧ ExLegal A d e
  | .makeFill x s ext => A x = none ∧ ext ≠ [] ∧ ScLegal A s
  | .makeFrom x l ext => A x = none ∧ ext ≠ [] ∧ prod ext ≤ l.length
  | .drop x => A x ≠ none
  | .fill x h s => h ≠ [] ∧ ScLegal A s ∧ ∃ a v, A x = some a ∧ Chain a.ext h v
  | .assign x h e => h ≠ [] ∧ ∃ a v, A x = some a ∧ Chain a.ext h v ∧ v.ext ≠ [] ∧ v.Injective ∧ ExLegal A v.ext e ∧ NoLateRead A x v e
  | .inPlace x h _ e => ∃ a v, A x = some a ∧ Chain a.ext h v ∧ v.ext ≠ [] ∧ v.Injective ∧ ExLegal A v.ext e ∧ NoLateRead A x v e
  | .inPlaceScalar x h _ s => ScLegal A s ∧ ∃ a v, A x = some a ∧ Chain a.ext h v ∧ v.Injective ∧ ¬ ScIn A x v s
  | .apply x h _ => ∃ a v, A x = some a ∧ Chain a.ext h v ∧ v.ext ≠ [] ∧ v.Injective
  | .overlap x h e => h ≠ [] ∧ ∃ a v, A x = some a ∧ Chain a.ext h v ∧ v.ext ≠ [] ∧ v.Injective ∧ ExLegal A v.ext e
  | .overlapWhole x e => ∃ a d, A x = some a ∧ d.length = a.ext.length ∧ ExLegal A d e
  | .set x e => ∃ a d, A x = some a ∧ d.length = a.ext.length ∧ ExLegal A d e ∧ NoLateReadWhole A x a.ext d e
  | .moveAssign x y => x ≠ y ∧ ∃ a b, A x = some a ∧ A y = some b ∧ a.ext.length = b.ext.length

/-- `A'` is `A` except that the elements of `x` in the view `x[h]…` have the values given by `f` (of the multi-index in the view). -/
def Writes (A : AStore α) (x : Nat) (h : List Ix) (f : List Nat → Option α) (A' : AStore α) : Prop :=
  (∀ y, y ≠ x → A' y = A y) ∧ ∃ a a' v, A x = some a ∧ A' x = some a' ∧ imeaning a.ext h = .view v ∧ a'.ext = a.ext ∧
    (∀ i, InB v.ext i → f i = some (a'.elt (v.src i))) ∧ ∀ j, InB a.ext j → ¬ v.Has j → a'.elt j = a.elt j

/-- `A'` is `A` except that `x` is an array of extents `d` whose elements are given by `f`. -/
def Becomes (A : AStore α) (x : Nat) (d : List Nat) (f : List Nat → Option α) (A' : AStore α) : Prop :=
  (∀ y, y ≠ x → A' y = A y) ∧ ∃ a', A' x = some a' ∧ a'.ext = d ∧ ∀ i, InB d i → f i = some (a'.elt i)

/-- The value of the element `i` of the view `x[h]…`. -/
def old (A : AStore α) (x : Nat) (h : List Ix) (i : List Nat) : Option α := exVal A (.arr x h) i

/-- What a statement does. -/
def Effect (A : AStore α) (s : Stmt α) (A' : AStore α) : Prop :=
  match s with
  | .make x e => ∃ d, ExLegal A d e ∧ Becomes A x d (exVal A e) A'
  | .makeFill x s ext => Becomes A x ext (fun _ => scVal A s) A'
  | .makeFrom x l ext => Becomes A x ext (fun i => l[cmSum ext i]?) A'
  | .drop x => (∀ y, y ≠ x → A' y = A y) ∧ A' x = none
  | .fill x h s => Writes A x h (fun _ => scVal A s) A'
  | .assign x h e => Writes A x h (exVal A e) A'
  | .inPlace x h op e => Writes A x h (fun i => (old A x h i).bind fun u => (exVal A e i).map (op u)) A'
  | .inPlaceScalar x h op s => Writes A x h (fun i => (old A x h i).bind fun u => (scVal A s).map (op u)) A'
  | .apply x h f => Writes A x h (fun i => (old A x h i).map f) A'
  | .overlap x h e => Writes A x h (exVal A e) A'
  | .overlapWhole x e => ∃ d, ExLegal A d e ∧ Becomes A x d (exVal A e) A'
  | .set x e => ∃ d, ExLegal A d e ∧ Becomes A x d (exVal A e) A'
  | .moveAssign x y => (∀ z, z ≠ x → z ≠ y → A' z = A z) ∧ A' x = A y ∧ A' y = A x

/-- A sequence of legal statements takes the store `A` to `A'`. -/
inductive Runs : AStore α → List (Stmt α) → AStore α → Prop
  | nil : Runs A [] A
  | cons : StmtLegal A s → Effect A s A₁ → Runs A₁ p A' → Runs A (s :: p) A'

/-- The same arrays: same names, extents and elements. -/
def SameStore (A B : AStore α) : Prop := ∀ x, (A x = none ↔ B x = none) ∧
  ∀ a b, A x = some a → B x = some b → a.ext = b.ext ∧ ∀ i, InB a.ext i → a.elt i = b.elt i

/-! ### What a state of memory means -/

/-- The cells of an array. -/
abbrev cells (c : Arr) : AView := arrayView c.base c.ext

/-- The state `w` of a program holds exactly the arrays of the store `A`: the same names are in scope; every array has the extents of its
value and its elements, in column-major order, in its cells; different arrays have different cells; there is nothing else in memory (and
memory is finite). -/
structure HoldsStore (w : World α) (A : AStore α) : Prop where
  arr : ∀ x a, A x = some a → a.ext ≠ [] ∧ ∃ c, w.env x = some c ∧ c.ext = a.ext ∧
    ∀ i, InB a.ext i → w.mem ((cells c).pos i) = some (a.elt i)
  out : ∀ x, A x = none → w.env x = none
  sep : ∀ x y c d q, x ≠ y → w.env x = some c → w.env y = some d → Covers (cells c) q → ¬ Covers (cells d) q
  only : ∀ q, w.mem q ≠ none → ∃ x c, w.env x = some c ∧ Covers (cells c) q
  finite : ∃ B, ∀ q, B ≤ q → w.mem q = none

/-- The allocator returns free memory, as long as only finitely many cells are in use. -/
def GoodAlloc (alloc : Nat → Mem α → Nat → Nat) : Prop :=
  ∀ (k : Nat) (m : Mem α) (n : Nat), (∃ B, ∀ q, B ≤ q → m q = none) → ∀ i, i < n → m (alloc k m n + i) = none

end Jules.Spec

import Verif.Spec.Program
import Verif.Model.Fallible
/-
Specification of programs over arrays whose functions may throw, without memory, addresses, strides or layout. From the model only the
syntax of statements (`FStmt`, `FEx`) is used. When a statement is legal does not depend on what its functions compute: it is the
legality of Spec/Program.lean.
-/
namespace Jules.Spec

/-- The expression with functions that do nothing: the arrays it reads and their order are the same. -/
def shapeE : FEx α → PEx α
  | .arr x h => .arr x h
  | .un _ e => .un id (shapeE e)
  | .bin _ a b => .bin (fun x _ => x) (shapeE a) (shapeE b)
  | .scl _ s e => .scl (fun _ y => y) s (shapeE e)
  | .scr _ e s => .scr (fun x _ => x) (shapeE e) s

/-- When a statement may be executed. -/
def FLegal (A : AStore α) : FStmt α → Prop
  | .plain s => StmtLegal A s
  | .make x e => StmtLegal A (.make x (shapeE e))
  | .makeFrom x l ext => A x = none ∧ ext ≠ [] ∧ prod ext ≤ l.length
  | .assign x h e => StmtLegal A (.assign x h (shapeE e))
  | .inPlace x h _ e => StmtLegal A (.inPlace x h (fun u _ => u) (shapeE e))
  | .inPlaceScalar x h _ s => StmtLegal A (.inPlaceScalar x h (fun u _ => u) s)
  | .apply x h _ => StmtLegal A (.apply x h id)
  | .overlap x h e => StmtLegal A (.overlap x h (shapeE e))
  | .overlapWhole x e => StmtLegal A (.overlapWhole x (shapeE e))
  | .set x e => StmtLegal A (.set x (shapeE e))

/-- The value of a legal expression at a multi-index; `none`: evaluating it there throws. -/
def fexVal (A : AStore α) : FEx α → List Nat → Option α
  | .arr x h, i => exVal A (.arr x h) i
  | .un f e, i => (fexVal A e i).bind f
  | .bin f a b, i => (fexVal A a i).bind fun x => (fexVal A b i).bind (f x)
  | .scl f s e, i => (scVal A s).bind fun c => (fexVal A e i).bind (f c)
  | .scr f e s, i => (fexVal A e i).bind fun x => (scVal A s).bind (f x)

/-- What happens when a statement comes to an element: the value the element gets (if it is changed) and whether an exception ends the
statement there. -/
structure AtElt (α : Type) where
  new : Option α
  throws : Bool

/-- A new value is computed, then assigned. -/
def evaluated : Option α → AtElt α
  | some y => ⟨some y, false⟩
  | none => ⟨none, true⟩

/-- An operator is applied in place to the element (if its arguments can be evaluated). -/
def updated : Option (α × Bool) → AtElt α
  | some (y, t) => ⟨some y, t⟩
  | none => ⟨none, true⟩

/-- The statement comes to the element `i`: no element before it has thrown. -/
def Visited (d : List Nat) (out : List Nat → AtElt α) (i : List Nat) : Prop :=
  ∀ j, InB d j → Before d j i → (out j).throws = false

/-- An exception ends the statement at one of the elements. -/
def Thrown (d : List Nat) (out : List Nat → AtElt α) : Prop := ∃ i, InB d i ∧ (out i).throws = true

/-- The elements of the view `x[h]…` are visited in order until an exception is thrown; what happens at each is given by `out`. Everything
else is unchanged: the elements not visited, the rest of `x`, the other arrays, the extents. -/
def WritesUntil (A : AStore α) (x : Nat) (h : List Ix) (out : List Nat → AtElt α) (A' : AStore α) (thrown : Bool) : Prop :=
  (∀ y, y ≠ x → A' y = A y) ∧ ∃ a a' v, A x = some a ∧ A' x = some a' ∧ imeaning a.ext h = .view v ∧ a'.ext = a.ext ∧
    (thrown = true ↔ Thrown v.ext out) ∧
    (∀ i, InB v.ext i → Visited v.ext out i → ∀ y, (out i).new = some y → a'.elt (v.src i) = y) ∧
    (∀ i, InB v.ext i → (Visited v.ext out i → (out i).new = none) → a'.elt (v.src i) = a.elt (v.src i)) ∧
    ∀ j, InB a.ext j → ¬ v.Has j → a'.elt j = a.elt j

/-- Either no element throws and `Done` holds, or some element throws and nothing has changed. -/
def AllOrNothing (A : AStore α) (d : List Nat) (f : List Nat → Option α) (A' : AStore α) (thrown : Bool) (Done : Prop) : Prop :=
  (thrown = false ∧ (∀ i, InB d i → f i ≠ none) ∧ Done) ∨ (thrown = true ∧ (∃ i, InB d i ∧ f i = none) ∧ A' = A)

/-- `x = e` for an expression with as many elements as `x` that throws: `x` keeps its extents; in column-major order, its elements are those
of `e` up to the first that throws. -/
def Halfway (A : AStore α) (x : Nat) (d : List Nat) (f : List Nat → Option α) (A' : AStore α) : Prop :=
  (∀ y, y ≠ x → A' y = A y) ∧ ∃ a a', A x = some a ∧ A' x = some a' ∧ a'.ext = a.ext ∧
    ∀ i k, InB d i → InB a.ext k → cmSum d i = cmSum a.ext k →
      ((∀ j, InB d j → cmSum d j ≤ cmSum d i → f j ≠ none) → f i = some (a'.elt k)) ∧
      ((∃ j, InB d j ∧ cmSum d j ≤ cmSum d i ∧ f j = none) → a'.elt k = a.elt k)

/-- What a statement does, and whether an exception leaves it. -/
def FEffect (A : AStore α) (s : FStmt α) (A' : AStore α) (thrown : Bool) : Prop :=
  match s with
  | .plain s => thrown = false ∧ Effect A s A'
  | .make x e => ∃ d, ExLegal A d (shapeE e) ∧ AllOrNothing A d (fexVal A e) A' thrown (Becomes A x d (fexVal A e) A')
  | .makeFrom x l ext => AllOrNothing A ext (fun i => (l[cmSum ext i]?).join) A' thrown (Becomes A x ext (fun i => (l[cmSum ext i]?).join) A')
  | .assign x h e => WritesUntil A x h (fun i => evaluated (fexVal A e i)) A' thrown
  | .inPlace x h op e =>
    WritesUntil A x h (fun i => updated ((old A x h i).bind fun u => (fexVal A e i).map (op u))) A' thrown
  | .inPlaceScalar x h op s => WritesUntil A x h (fun i => updated ((old A x h i).bind fun u => (scVal A s).map (op u))) A' thrown
  | .apply x h f => WritesUntil A x h (fun i => updated ((old A x h i).map f)) A' thrown
  | .overlap x h e => ∃ a v, A x = some a ∧ imeaning a.ext h = .view v ∧
      AllOrNothing A v.ext (fexVal A e) A' thrown (Writes A x h (fexVal A e) A')
  | .overlapWhole x e => ∃ d, ExLegal A d (shapeE e) ∧ AllOrNothing A d (fexVal A e) A' thrown (Becomes A x d (fexVal A e) A')
  | .set x e => ∃ a d, A x = some a ∧ ExLegal A d (shapeE e) ∧
    if prod a.ext = prod d then
      (thrown = false ∧ (∀ i, InB d i → fexVal A e i ≠ none) ∧ Becomes A x d (fexVal A e) A') ∨
      (thrown = true ∧ (∃ i, InB d i ∧ fexVal A e i = none) ∧ Halfway A x d (fexVal A e) A')
    else AllOrNothing A d (fexVal A e) A' thrown (Becomes A x d (fexVal A e) A')

/-- The statement constructs new elements and one of them throws: when the element type cannot throw on construction the library has
promised that this does not happen. -/
def ConstructThrows (A : AStore α) : FStmt α → Prop
  | .make _ e | .overlap _ _ e | .overlapWhole _ e => ∃ d, ExLegal A d (shapeE e) ∧ ∃ i, InB d i ∧ fexVal A e i = none
  | .set x e => ∃ a d, A x = some a ∧ ExLegal A d (shapeE e) ∧ prod a.ext ≠ prod d ∧ ∃ i, InB d i ∧ fexVal A e i = none
  | .makeFrom _ l ext => ∃ i, InB ext i ∧ (l[cmSum ext i]?).join = none
  | _ => False

/-- A sequence of legal statements, each exception being caught after the statement it leaves, takes the store `A` to `A'`; for each
statement, whether an exception left it. `nx`: constructing an element cannot throw. -/
inductive FRuns (nx : Bool) : AStore α → List (FStmt α) → AStore α → List Bool → Prop
  | nil : FRuns nx A [] A []
  | cons : FLegal A s → ¬ (nx = true ∧ ConstructThrows A s) → FEffect A s A₁ t → FRuns nx A₁ p A' ts → FRuns nx A (s :: p) A' (t :: ts)

/-- The array a statement that may throw is about. -/
def target : FStmt α → Option Nat
  | .plain _ => none
  | .make x _ | .makeFrom x _ _ | .assign x _ _ | .inPlace x _ _ _ | .inPlaceScalar x _ _ _ | .apply x _ _ | .overlap x _ _
  | .overlapWhole x _ | .set x _ => some x

/-- An expression none of whose functions throws. -/
def totalE : PEx α → FEx α
  | .arr x h => .arr x h
  | .un f e => .un (fun x => some (f x)) (totalE e)
  | .bin f a b => .bin (fun x y => some (f x y)) (totalE a) (totalE b)
  | .scl f s e => .scl (fun x y => some (f x y)) s (totalE e)
  | .scr f e s => .scr (fun x y => some (f x y)) (totalE e) s

/-- A statement none of whose functions throws. -/
def totalS : Stmt α → FStmt α
  | .make x e => .make x (totalE e)
  | .makeFrom x l ext => .makeFrom x (l.map some) ext
  | .assign x h e => .assign x h (totalE e)
  | .inPlace x h op e => .inPlace x h (fun u y => (op u y, false)) (totalE e)
  | .inPlaceScalar x h op s => .inPlaceScalar x h (fun u y => (op u y, false)) s
  | .apply x h f => .apply x h (fun u => (f u, false))
  | .overlap x h e => .overlap x h (totalE e)
  | .overlapWhole x e => .overlapWhole x (totalE e)
  | .set x e => .set x (totalE e)
  | s => .plain s

end Jules.Spec

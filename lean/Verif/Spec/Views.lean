import Verif.Spec.Program64
import Verif.Model.Views
/-
Specification of programs that keep views in variables: a view is another name for the index expression it was created with. From the
model only the syntax of statements is used (`VStmt`, `Stmt`, `PEx`, `Sc`, `Ix`); `VHolds` relates it to the states of the model.
-/
namespace Jules.Spec

/-- What a view variable stands for: `x[h]…`, or elements that do not exist any more. -/
inductive Kept where
  | alias (x : Nat) (h : List Ix)
  | dangling

/-- The views in scope. -/
abbrev Aliases := Nat → Option Kept

/-- The arrays and the views in scope. -/
structure VStore (α : Type) where
  arr : AStore α
  view : Aliases

/-! ### Writing the index expression instead of the view -/

/-- `x[h]…` without views. There is nothing to write for a dangling view. -/
def inName (σ : Aliases) (x : Nat) (h : List Ix) : Option (Nat × List Ix) :=
  match σ x with
  | none => some (x, h)
  | some (.alias y g) => some (y, g ++ h)
  | some .dangling => none

/-- The same for scalars. -/
def inSc (σ : Aliases) : Sc α → Option (Sc α)
  | .const c => some (.const c)
  | .elem x h => (inName σ x h).map fun n => .elem n.1 n.2

/-- The same for expressions. -/
def inEx (σ : Aliases) : PEx α → Option (PEx α)
  | .arr x h => (inName σ x h).map fun n => .arr n.1 n.2
  | .un f e => (inEx σ e).map (.un f)
  | .bin f a b => (inEx σ a).bind fun a' => (inEx σ b).map (.bin f a')
  | .scl f s e => (inSc σ s).bind fun s' => (inEx σ e).map (.scl f s')
  | .scr f e s => (inEx σ e).bind fun e' => (inSc σ s).map (.scr f e')

/-- Not a view. -/
def arrayOnly (σ : Aliases) (x : Nat) (r : Option β) : Option β := if (σ x).isSome then none else r

/-- The same for statements. Views cannot be declared again, replaced as a whole or moved. -/
def inStmt (σ : Aliases) : Stmt α → Option (Stmt α)
  | .make x e => arrayOnly σ x ((inEx σ e).map (.make x))
  | .makeFill x s d => arrayOnly σ x ((inSc σ s).map fun s' => .makeFill x s' d)
  | .makeFrom x l d => arrayOnly σ x (some (.makeFrom x l d))
  | .drop x => arrayOnly σ x (some (.drop x))
  | .fill x h s => (inName σ x h).bind fun n => (inSc σ s).map (.fill n.1 n.2)
  | .assign x h e => (inName σ x h).bind fun n => (inEx σ e).map (.assign n.1 n.2)
  | .inPlace x h f e => (inName σ x h).bind fun n => (inEx σ e).map (.inPlace n.1 n.2 f)
  | .inPlaceScalar x h f s => (inName σ x h).bind fun n => (inSc σ s).map (.inPlaceScalar n.1 n.2 f)
  | .apply x h f => (inName σ x h).map fun n => .apply n.1 n.2 f
  | .overlap x h e => (inName σ x h).bind fun n => (inEx σ e).map (.overlap n.1 n.2)
  | .overlapWhole x e => arrayOnly σ x ((inEx σ e).map (.overlapWhole x))
  | .set x e => arrayOnly σ x ((inEx σ e).map (.set x))
  | .moveAssign x y => arrayOnly σ x (arrayOnly σ y (some (.moveAssign x y)))

/-! ### What happens to the views of an array -/

/-- Where the elements of the array `y` are after a statement that changes the extents of the arrays from `E` to `E'`: in the same array, in the array
they have been moved to, or nowhere: when the array is destroyed, replaced by `overlap`, or assigned a value of other extents. (When only
the extents change and not the number of elements, the elements are still there, in another arrangement: see `C80_reshaped`.) -/
def owner (E E' : Exts) : Stmt α → Nat → Option Nat
  | .drop x, y => if y = x then none else some y
  | .overlapWhole x _, y => if y = x then none else some y
  | .set x _, y => if y = x ∧ E x ≠ E' x then none else some y
  | .moveAssign x z, y => if y = x then some z else if y = z then some x else some y
  | _, y => some y

/-- A view follows the elements. -/
def Kept.follow (own : Nat → Option Nat) : Kept → Kept
  | .dangling => .dangling
  | .alias y h => match own y with
    | some z => .alias z h
    | none => .dangling

/-! ### Statements -/

/-- When a statement may be executed. -/
def VLegal (S : VStore α) : VStmt α → Prop
  | .view v x h => S.arr v = none ∧ S.view v = none ∧ ∃ y g a u, inName S.view x h = some (y, g) ∧ g ≠ [] ∧ S.arr y = some a ∧
      Chain a.ext g u ∧ u.ext ≠ []
  | .moveMake y x => S.arr y = none ∧ S.view y = none ∧ S.view x = none ∧ S.arr x ≠ none
  | .stmt s => (∃ x, s = .drop x ∧ S.view x ≠ none) ∨ ∃ s', inStmt S.view s = some s' ∧ StmtLegal S.arr s'

/-- What a statement does. -/
def VEffect (S : VStore α) (s : VStmt α) (S' : VStore α) : Prop :=
  match s with
  | .view v x h => S'.arr = S.arr ∧ (∀ z, z ≠ v → S'.view z = S.view z) ∧ ∃ y g, inName S.view x h = some (y, g) ∧ S'.view v = some (.alias y g)
  | .moveMake y x => (∀ z, z ≠ x → z ≠ y → S'.arr z = S.arr z) ∧ S'.arr y = S.arr x ∧ S'.arr x = none ∧
      ∀ v, S'.view v = (S.view v).map (Kept.follow fun z => some (if z = x then y else z))
  | .stmt s => (∃ x, s = .drop x ∧ S.view x ≠ none ∧ S'.arr = S.arr ∧ S'.view x = none ∧ ∀ z, z ≠ x → S'.view z = S.view z) ∨
      ∃ s', inStmt S.view s = some s' ∧ Effect S.arr s' S'.arr ∧ ∀ v, S'.view v = (S.view v).map (Kept.follow (owner S.arr.exts S'.arr.exts s'))

/-- A sequence of legal statements. -/
inductive VRuns : VStore α → List (VStmt α) → VStore α → Prop
  | nil : VRuns S [] S
  | cons : VLegal S s → VEffect S s S₁ → VRuns S₁ p S' → VRuns S (s :: p) S'

/-! ### What a state means -/

/-- The views in scope in the state `V` are those of `σ`; names of views are not names of arrays; and a view that is not dangling is the
object that the index expression it stands for gives now, with the arithmetic `A` and in the build `chk`. -/
structure Aliased (A : Arith) (chk : Bool) (V : VWorld α) (σ : Aliases) : Prop where
  one : ∀ x, σ x ≠ none → V.w.env x = none
  scope : ∀ x, V.view x = none ↔ σ x = none
  alias : ∀ v x h, σ v = some (.alias x h) → h ≠ [] ∧ ∃ c o, V.w.env x = some c ∧ V.view v = some o ∧ V.w.index A chk x h = .ok o

/-- The state `V` holds the arrays and views of `S`: it holds the arrays, and the views stand for what they are aliases of. -/
structure VHolds (chk : Bool) (V : VWorld α) (S : VStore α) : Prop where
  arr : HoldsStore V.w S.arr
  views : Aliased Arith.exact chk V S.view
  legal : ∀ v x h, S.view v = some (.alias x h) → ∃ a u, S.arr x = some a ∧ Chain a.ext h u ∧ u.ext ≠ []

end Jules.Spec

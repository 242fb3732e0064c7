import Verif.Spec.Expr
import Verif.Model.Heap
/-
Specification of nested lists and of the contents of an array object.
-/
namespace Jules.Spec

/-- The value written at a multi-index of a nested list. -/
def nestGet : (n : Nat) → Nest α n → List Nat → Option α
  | 0, v, [] => some v
  | n + 1, (l : List (Nest α n)), i :: is => (l[i]?).bind fun x => nestGet n x is
  | 0, _, _ :: _ => none
  | _ + 1, _, [] => none

/-- The nested list is rectangular with the given extents: at every level all sibling lists have the same
length. -/
def Rect : (n : Nat) → Nest α n → List Nat → Prop
  | 0, _, ext => ext = []
  | n + 1, (l : List (Nest α n)), ext => ∃ e es, ext = e :: es ∧ l.length = e ∧ ∀ x ∈ l, Rect n x es

/-- The memory an array object owns, addressed from its data pointer. -/
def contents (h : Heap α) (o : Own) : Mem α := fun p =>
  match o.ptr with
  | none => none
  | some id => (h.cells id).bind fun c => (c[p]?).join

end Jules.Spec

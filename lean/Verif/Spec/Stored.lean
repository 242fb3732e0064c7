import Verif.Spec.Expr
import Verif.Model.Stored
/-
Which objects a lazy expression depends on after it has been created. Only the syntax of expressions with
object identities (`SEx`, `Rep`, `Store`) is taken from the model.
-/
namespace Jules.Spec

/-- The objects a lazy expression refers to: each operation object, from the outermost to the innermost; each operand that is a
multi-dimensional strided view or a view selected by lists of indices. Contiguous arrays and views and one-dimensional strided views are
copied into the expression: only their elements are referred to. -/
def refersTo : SEx α → List (Nat × Rep α)
  | .leaf obj (.sref _ (.ident d)) =>
    match d.ext, d.strides with
    | [_], [_] => []
    | _, _ => [(obj, .desc d)]
  | .leaf obj (.sref _ (.vec _ l)) => [(obj, .list l)]
  | .leaf _ _ => []
  | .un obj f e => (obj, .fn1 f) :: refersTo e
  | .bin obj f a b => (obj, .fn2 f) :: (refersTo a ++ refersTo b)

/-- All objects the expression refers to are alive and unchanged. -/
def Usable (σ : Store α) (e : SEx α) : Prop := ∀ x ∈ refersTo e, σ x.1 = some x.2

/-- Some object the expression refers to has been destroyed; the others are unchanged. -/
def Dangling (σ : Store α) (e : SEx α) : Prop :=
  (∃ x ∈ refersTo e, σ x.1 = none) ∧ ∀ x ∈ refersTo e, σ x.1 = some x.2 ∨ σ x.1 = none

/-- The identities of all operands and operation objects. -/
def idents : SEx α → List Nat
  | .leaf obj _ => [obj]
  | .un obj _ e => obj :: idents e
  | .bin obj _ a b => obj :: (idents a ++ idents b)

/-- The operation objects of an expression. -/
def operations : SEx α → List Nat
  | .leaf _ _ => []
  | .un obj _ e => obj :: operations e
  | .bin obj _ a b => obj :: (operations a ++ operations b)

/-- The operation objects that have no name after `auto e = ...;`: all but the outermost. -/
def unnamed : SEx α → List Nat
  | .leaf _ _ => []
  | .un _ _ e => operations e
  | .bin _ _ a b => operations a ++ operations b

/-- An operand that is copied into expressions: an array, a contiguous view or a one-dimensional strided view. -/
def Direct : Obj → Prop
  | .cref _ _ => True
  | .sref _ (.ident d) => d.ext.length = 1 ∧ d.strides.length = 1
  | _ => False

/-- All operands are direct. -/
def Plain : SEx α → Prop
  | .leaf _ o => Direct o
  | .un _ _ e => Plain e
  | .bin _ _ a b => Plain a ∧ Plain b

end Jules.Spec

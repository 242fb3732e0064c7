import Verif.Spec.Expr
import Verif.Model.ExprDrop
/-
What expressions with dropped dimensions mean. From the model only the syntax (`DEx`), memories and `Observes` are used.
-/
namespace Jules.Spec

/-- `l'` is `l` without its first `k` extents equal to one. -/
inductive WithoutOnes : Nat → List Nat → List Nat → Prop where
  | none : WithoutOnes 0 l l
  | one : WithoutOnes k l l' → WithoutOnes (k + 1) (1 :: l) l'
  | other : x ≠ 1 → WithoutOnes (k + 1) l l' → WithoutOnes (k + 1) (x :: l) (x :: l')

/-- In memory `m` the expression is an array of extents `d` whose elements are, in column-major order, `xs`: operators act elementwise on
operands of the same extents; dropping dimensions removes extents equal to one and changes no element. -/
inductive Elems (m : Mem α) : DEx α → List Nat → List α → Prop where
  | leaf {o : Obj} {v : AView} {xs : List α} : Observes o v → v.ext ≠ [] → v.enum.map m = xs.map some → Elems m (.leaf o) v.ext xs
  | un {f : α → α} : Elems m e d xs → Elems m (.un f e) d (xs.map f)
  | bin {f : α → α → α} : Elems m a d xs → Elems m b d ys → Elems m (.bin f a b) d (List.zipWith f xs ys)
  | same : Elems m e d xs → Elems m (.same e) d xs
  | drop : (∀ o, e ≠ .leaf o) → Elems m e d xs → 0 < D → D ≤ d.length → WithoutOnes (d.length - D) d d' → Elems m (.drop D e) d' xs

/-- The expression gives elements of arrays, not computed values. -/
def Passes : DEx α → Prop
  | .leaf _ => True
  | .un _ _ => False
  | .bin _ _ _ => False
  | .same e => Passes e
  | .drop _ e => Passes e

/-- `drop` or `identity` is applied to computed values somewhere in the expression. -/
def DropsValues : DEx α → Prop
  | .leaf _ => False
  | .un _ e => DropsValues e
  | .bin _ a b => DropsValues a ∨ DropsValues b
  | .same e => ¬ Passes e ∨ DropsValues e
  | .drop _ e => ¬ Passes e ∨ DropsValues e

end Jules.Spec

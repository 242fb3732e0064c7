import Verif.Spec.Observe
import Verif.Model.Memory
/-
Specification of expressions and of what is read through an array or view. From the model only the
syntax of expressions (`Ex`), memories and the index operator are used.
-/
namespace Jules.Spec

/-- `o[i₀]…[i_{N-1}]` is an element of memory `m` whose value is `x`. -/
def Reads (m : Mem α) (o : Obj) (i : List Nat) (x : Option α) : Prop :=
  ∃ p, o.run Arith.exact true (i.map .at) = .ok (.elem p) ∧ m p = x

/-- The value of an expression at a multi-index: the operators applied to the operands' elements at that
multi-index (`none` if an operand's cell is not alive). -/
def valAt (m : Mem α) : Ex AView α → List Nat → Option α
  | .leaf v, i => m (v.pos i)
  | .un f e, i => (valAt m e i).map f
  | .bin f a b, i => (valAt m a i).bind fun x => (valAt m b i).map (f x)

/-- The cells an expression reads at a multi-index. -/
def cellsAt : Ex AView α → List Nat → List Nat
  | .leaf v, i => [v.pos i]
  | .un _ e, i => cellsAt e i
  | .bin _ a b, i => cellsAt a i ++ cellsAt b i

/-- The operands' extents, from left to right. -/
def exts : Ex AView α → List (List Nat)
  | .leaf v => [v.ext]
  | .un _ e => exts e
  | .bin _ a b => exts a ++ exts b

/-- The expression `e` over C++ objects denotes `s` over abstract views: the same tree of operators, each
operand (of positive order) behaving as its abstract view. -/
inductive Denotes : Ex Obj α → Ex AView α → Prop
  | leaf : Observes o v → v.ext ≠ [] → Denotes (.leaf o) (.leaf v)
  | un : Denotes e s → Denotes (.un f e) (.un f s)
  | bin : Denotes a s → Denotes b t → Denotes (.bin f a b) (.bin f s t)

/-- All cells of a view are alive. -/
def Alive (m : Mem α) (v : AView) : Prop := ∀ i, InB v.ext i → m (v.pos i) ≠ none

/-- Different multi-indices of the view are different cells. -/
def Distinct (v : AView) : Prop := ∀ i j, InB v.ext i → InB v.ext j → v.pos i = v.pos j → i = j

/-- The cell belongs to the view. -/
def Covers (v : AView) (p : Nat) : Prop := ∃ i, InB v.ext i ∧ v.pos i = p

end Jules.Spec

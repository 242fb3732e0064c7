import Verif.Spec.Program
/-
Specification for C68: intact memory, the types of programs. From the model only the syntax of statements and the state of a program
(memory and the arrays in scope) are used.
-/
namespace Jules.Spec

/-! ### Intact memory -/

/-- Every array in scope has an order and owns its elements, all of them alive; different arrays share none; no other element is alive
(nothing has leaked); memory is finite. -/
structure Intact (w : World α) : Prop where
  order : ∀ x c, w.env x = some c → c.ext ≠ []
  live : ∀ x c q, w.env x = some c → Covers (cells c) q → w.mem q ≠ none
  sep : ∀ x y c d q, x ≠ y → w.env x = some c → w.env y = some d → Covers (cells c) q → ¬ Covers (cells d) q
  only : ∀ q, w.mem q ≠ none → ∃ x c, w.env x = some c ∧ Covers (cells c) q
  finite : ∃ B, ∀ q, B ≤ q → w.mem q = none

/-- The array `y` (its extents, the addresses and the values of its elements) is the same in both states. -/
def SameArray (w w' : World α) (y : Nat) : Prop :=
  w'.env y = w.env y ∧ ∀ c q, w.env y = some c → Covers (cells c) q → w'.mem q = w.mem q

/-- The arrays a statement is about. -/
def changes : Stmt α → List Nat
  | .make x _ => [x]
  | .makeFill x _ _ => [x]
  | .makeFrom x _ _ => [x]
  | .drop x => [x]
  | .fill x _ _ => [x]
  | .assign x _ _ => [x]
  | .inPlace x _ _ _ => [x]
  | .inPlaceScalar x _ _ _ => [x]
  | .apply x _ _ => [x]
  | .overlap x _ _ => [x]
  | .overlapWhole x _ => [x]
  | .set x _ => [x]
  | .moveAssign x y => [x, y]

/-! ### What is not checked by the library: a bounded slice with stride zero (a division by zero), and an iterator with too few values -/

/-- No bounded slice with stride zero. -/
def StepsOK (h : List Ix) : Prop := ∀ s m, Ix.boundedStrided s m 0 ∉ h

def ScSteps : Sc α → Prop
  | .const _ => True
  | .elem _ h => StepsOK h

def ExSteps : PEx α → Prop
  | .arr _ h => StepsOK h
  | .un _ e => ExSteps e
  | .bin _ a b => ExSteps a ∧ ExSteps b
  | .scl _ s e => ScSteps s ∧ ExSteps e
  | .scr _ e s => ExSteps e ∧ ScSteps s

/-- The statement has no bounded slice with stride zero, and an iterator given to a constructor has enough values. -/
def Provided : Stmt α → Prop
  | .make _ e => ExSteps e
  | .makeFill _ s _ => ScSteps s
  | .makeFrom _ l ext => prod ext ≤ l.length
  | .drop _ => True
  | .fill _ h s => StepsOK h ∧ ScSteps s
  | .assign _ h e => StepsOK h ∧ ExSteps e
  | .inPlace _ h _ e => StepsOK h ∧ ExSteps e
  | .inPlaceScalar _ h _ s => StepsOK h ∧ ScSteps s
  | .apply _ h _ => StepsOK h
  | .overlap _ h e => StepsOK h ∧ ExSteps e
  | .overlapWhole _ e => ExSteps e
  | .set _ e => ExSteps e
  | .moveAssign _ _ => True

/-! ### Types of programs: the order of each array in scope -/

/-- The orders of the arrays in scope. -/
abbrev Ctx := Nat → Option Nat

/-- The order of an array or view. -/
def viewOrder : Kind → Option Nat
  | .contiguous n => some n
  | .strided n _ => some n
  | _ => none

/-- The type of `x[h]…`. -/
def chainKind (Γ : Ctx) (x : Nat) (h : List Ix) : Option Kind := (Γ x).bind fun n => typeOf n h

/-- The scalar is a constant or an element. -/
def scTyped (Γ : Ctx) : Sc α → Bool
  | .const _ => true
  | .elem x h => chainKind Γ x h == some .element

/-- The order of an expression, if it compiles. -/
def exOrder (Γ : Ctx) : PEx α → Option Nat
  | .arr x h => (chainKind Γ x h).bind viewOrder
  | .un _ e => exOrder Γ e
  | .bin _ a b => match exOrder Γ a, exOrder Γ b with
    | some n, some m => if n = m then some n else none
    | _, _ => none
  | .scl _ s e => if scTyped Γ s then exOrder Γ e else none
  | .scr _ e s => if scTyped Γ s then exOrder Γ e else none

/-- `x[h]…` is a view (not an element, nor an incomplete chain) of the order `n`. -/
def viewTyped (Γ : Ctx) (x : Nat) (h : List Ix) (n : Option Nat) : Bool :=
  ((chainKind Γ x h).bind viewOrder).isSome && (chainKind Γ x h).bind viewOrder == n

/-- `x[h]…` is a view or an element. -/
def placeTyped (Γ : Ctx) (x : Nat) (h : List Ix) : Bool :=
  ((chainKind Γ x h).bind viewOrder).isSome || chainKind Γ x h == some .element

/-- A declaration or the end of a scope. -/
def Ctx.upd (Γ : Ctx) (x : Nat) (n : Option Nat) : Ctx := fun y => if y = x then n else Γ y

/-- `some` context if the condition holds. -/
def when (c : Bool) (Γ : Ctx) : Option Ctx := if c then some Γ else none

/-- The statement compiles; the orders of the arrays in scope after it. -/
def check (Γ : Ctx) : Stmt α → Option Ctx
  | .make x e => when (Γ x).isNone Γ |>.bind fun Γ => (exOrder Γ e).map fun n => Γ.upd x (some n)
  | .makeFill x s ext => when ((Γ x).isNone && ext ≠ [] && scTyped Γ s) (Γ.upd x (some ext.length))
  | .makeFrom x _ ext => when ((Γ x).isNone && ext ≠ []) (Γ.upd x (some ext.length))
  | .drop x => when (Γ x).isSome (Γ.upd x none)
  | .fill x h s => when (!h.isEmpty && placeTyped Γ x h && scTyped Γ s) Γ
  | .assign x h e => when (!h.isEmpty && viewTyped Γ x h (exOrder Γ e)) Γ
  | .inPlace x h _ e => when (viewTyped Γ x h (exOrder Γ e)) Γ
  | .inPlaceScalar x h _ s => when (placeTyped Γ x h && scTyped Γ s) Γ
  | .apply x h _ => when ((chainKind Γ x h).bind viewOrder).isSome Γ
  | .overlap x h e => when (!h.isEmpty && viewTyped Γ x h (exOrder Γ e)) Γ
  | .overlapWhole x e => when ((Γ x).isSome && exOrder Γ e == Γ x) Γ
  | .set x e => when ((Γ x).isSome && exOrder Γ e == Γ x) Γ
  | .moveAssign x y => when ((Γ x).isSome && Γ x == Γ y) Γ

/-- A program compiles. -/
def checkAll : Ctx → List (Stmt α) → Option Ctx
  | Γ, [] => some Γ
  | Γ, s :: p => (check Γ s).bind fun Γ' => checkAll Γ' p

/-- The orders of the arrays of a state. -/
def ctxOf (w : World α) : Ctx := fun x => (w.env x).map fun c => c.ext.length

end Jules.Spec

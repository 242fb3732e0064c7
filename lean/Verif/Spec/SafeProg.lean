import Verif.Spec.Sound
import Verif.Spec.NoMemory
/-
Specification for C77: what it takes for a program with control flow, moves and missing memory to be safe in checked builds. From the model only the syntax
(`MStmt`, `GProg`) and the state of a program are used.
-/
namespace Jules.Spec

/-- Memory is intact; a moved-from array owns nothing, and still has its extents. -/
structure IntactM (W : MWorld α) : Prop where
  intact : Intact W.w
  gone : ∀ x d, W.gone x = some d → W.w.env x = none ∧ d ≠ []

/-! ### Types -/

/-- The orders of the arrays in scope, moved-from or not. -/
def mctx (W : MWorld α) : Ctx := fun x =>
  match W.gone x with
  | some d => some d.length
  | none => ctxOf W.w x

/-- The statement compiles; the orders of the arrays in scope after it. -/
def mcheck (Γ : Ctx) : MStmt α → Option Ctx
  | .declare x n => when ((Γ x).isNone && n != 0) (Γ.upd x (some n))
  | .moveMake x y => when ((Γ x).isNone && (Γ y).isSome) (Γ.upd x (Γ y))
  | .old s => check Γ s

/-- The program compiles (a statement that throws declares nothing). -/
def CompilesG (Γ : Ctx) : GProg α β → Prop
  | .ret _ => True
  | .exec s k => ∃ Γ', mcheck Γ s = some Γ' ∧ CompilesG Γ' (k true) ∧ CompilesG Γ (k false)
  | .read s k => scTyped Γ s = true ∧ ∀ o, CompilesG Γ (k o)
  | .elements e k => (exOrder Γ e).isSome ∧ ∀ o, CompilesG Γ (k o)

/-! ### What is not checked by the library -/

/-- No bounded slice with stride zero, and iterators with enough values. -/
def ProvidedG : GProg α β → Prop
  | .ret _ => True
  | .exec s k => (∀ t, s = .old t → Provided t) ∧ ∀ b, ProvidedG (k b)
  | .read s k => ScSteps s ∧ ∀ o, ProvidedG (k o)
  | .elements e k => ExSteps e ∧ ∀ o, ProvidedG (k o)

/-- Moved-from arrays: the statement reads or writes elements of `x`, or assigns to `x`. -/
def Misuses (x : Nat) : MStmt α → Prop
  | .old (.set y e) => (Operand x e ∨ y = x) ∧ e ≠ .arr y []
  | .old s => Touches x s
  | _ => False

/-- The names that may be moved-from after a statement, if those in `g` may be before. -/
def after (g : Nat → Prop) : MStmt α → Nat → Prop
  | .moveMake x y => fun z => if z = x then g y else z = y ∨ g z
  | .old (.drop x) => fun z => z ≠ x ∧ g z
  | .old (.overlapWhole x _) => fun z => z ≠ x ∧ g z
  | .old (.moveAssign x y) => fun z => if z = x then g y else if z = y then g x else g z
  | _ => g

/-- No array is used after it has been moved from, except to destroy it, to move it, and to replace it with `overlap`. -/
def DisciplinedG (g : Nat → Prop) : GProg α β → Prop
  | .ret _ => True
  | .exec s k => (∀ x, g x → ¬ Misuses x s) ∧ DisciplinedG (after g s) (k true) ∧ DisciplinedG g (k false)
  | .read s k => (∀ x, g x → ¬ ScOf x s) ∧ ∀ o, DisciplinedG g (k o)
  | .elements e k => (∀ x, g x → ¬ Operand x e) ∧ ∀ o, DisciplinedG g (k o)

/-- The arrays a statement is about. -/
def mchanges : MStmt α → List Nat
  | .declare x _ => [x]
  | .moveMake x y => [x, y]
  | .old s => changes s

end Jules.Spec

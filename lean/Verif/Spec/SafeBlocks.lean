import Verif.Spec.SafeProg
import Verif.Spec.Blocks
/-
Specification for C87: what it takes for a program with blocks, calls, exceptions and handlers to be safe in checked builds. Nothing is said about
values and indices, nor about what throws. From the model only the syntax (`XStmt`, `Body`) and the state (`BWorld`) are used.
-/
namespace Jules.Spec

/-! ### Statements, forgetting what their functions do -/

/-- The statement with functions that do nothing. -/
def shapeS : FStmt α → Option (Stmt α)
  | .plain _ => none
  | .make x e => some (.make x (shapeE e))
  | .makeFrom x l ext => some (.makeFrom x (l.filterMap id) ext)
  | .assign x h e => some (.assign x h (shapeE e))
  | .inPlace x h _ e => some (.inPlace x h (fun u _ => u) (shapeE e))
  | .inPlaceScalar x h _ s => some (.inPlaceScalar x h (fun u _ => u) s)
  | .apply x h _ => some (.apply x h id)
  | .overlap x h e => some (.overlap x h (shapeE e))
  | .overlapWhole x e => some (.overlapWhole x (shapeE e))
  | .set x e => some (.set x (shapeE e))

/-- The statement with functions that do nothing; arrays are not destroyed by hand. -/
def erase : XStmt α → Option (MStmt α)
  | .calm (.old (.drop _)) => none
  | .calm s => some s
  | .wild s => (shapeS s).map .old

/-! ### Types -/

/-- The orders of the arrays in scope, moved-from or not. -/
def sctx (S : MStore α) : Ctx := fun x =>
  match S.moved x with
  | some d => some d.length
  | none => (S.live x).map fun a => a.ext.length

/-- The statement compiles; the orders of the arrays in scope after it. -/
def xcheck (Γ : Ctx) (s : XStmt α) : Option Ctx := (erase s).bind (mcheck Γ)

/-- The program compiles, and where it ends the orders of the arrays in scope are as `exit` says. A function returns an array of its own. -/
def CompilesB (exit : Ctx → Prop) (Γ : Ctx) : Body α β → Prop
  | .ret _ => exit Γ
  | .throw => True
  | .exec s k => ∃ Γ', xcheck Γ s = some Γ' ∧ CompilesB exit Γ' k
  | .read s k => scTyped Γ s = true ∧ ∀ v, CompilesB exit Γ (k v)
  | .elements e k => (exOrder Γ (shapeE e)).isSome ∧ ∀ d xs, CompilesB exit Γ (k d xs)
  | .block body k => CompilesB (fun _ => True) Γ body ∧ ∀ b, CompilesB exit Γ (k b)
  | .call x y body k => Γ x = none ∧ Γ y = none ∧ ∃ n, CompilesB (fun Γ' => Γ' y = some n ∧ Γ' x = none) Γ body ∧
      ∀ b, CompilesB exit (Γ.upd x (some n)) (k b)
  | .attempt body handler k => CompilesB (fun _ => True) Γ body ∧ CompilesB (fun _ => True) Γ handler ∧ ∀ b, CompilesB exit Γ (k b)

/-! ### What is not checked by the library -/

/-- No bounded slice with stride zero; an iterator given to a constructor has enough values. -/
def XProvided : XStmt α → Prop
  | .calm (.old s) => Provided s
  | .calm _ => True
  | .wild (.makeFrom _ l ext) => prod ext ≤ l.length
  | .wild s => ∀ t, shapeS s = some t → Provided t

/-- The same for a program. -/
def ProvidedB : Body α β → Prop
  | .ret _ => True
  | .throw => True
  | .exec s k => XProvided s ∧ ProvidedB k
  | .read s k => ScSteps s ∧ ∀ v, ProvidedB (k v)
  | .elements e k => ExSteps (shapeE e) ∧ ∀ d xs, ProvidedB (k d xs)
  | .block body k => ProvidedB body ∧ ∀ b, ProvidedB (k b)
  | .call _ _ body k => ProvidedB body ∧ ∀ b, ProvidedB (k b)
  | .attempt body handler k => ProvidedB body ∧ ProvidedB handler ∧ ∀ b, ProvidedB (k b)

/-! ### Moved-from arrays -/

/-- The statement reads or writes elements of `x`, or assigns to `x`. -/
def XMisuses (x : Nat) (s : XStmt α) : Prop := ∃ t, erase s = some t ∧ Misuses x t

/-- The names that may be moved-from after a statement, if those in `g` may be before. A new variable is not, unless it is constructed by moving one that is. -/
def goneAfter (g : Nat → Prop) : MStmt α → Nat → Prop
  | .declare x _ => fun z => z ≠ x ∧ g z
  | .moveMake x y => fun z => if z = x then g y else z = y ∨ g z
  | .old (.make x _) => fun z => z ≠ x ∧ g z
  | .old (.makeFill x _ _) => fun z => z ≠ x ∧ g z
  | .old (.makeFrom x _ _) => fun z => z ≠ x ∧ g z
  | .old (.overlapWhole x _) => fun z => z ≠ x ∧ g z
  | .old (.moveAssign x y) => fun z => if z = x then g y else if z = y then g x else g z
  | _ => g

/-- The same for statements with functions that may throw. -/
def xgone (g : Nat → Prop) (s : XStmt α) (z : Nat) : Prop := ∃ t, erase s = some t ∧ goneAfter g t z

/-- The names that may be moved-from where the program ends, by an exception (`t`) or without. -/
def goneAt (t : Bool) (g : Nat → Prop) : Body α β → Nat → Prop
  | .ret _ => fun z => t = false ∧ g z
  | .throw => fun z => t = true ∧ g z
  | .exec s k => fun z => (t = true ∧ g z) ∨ goneAt t (xgone g s) k z
  | .read _ k => fun z => (t = true ∧ g z) ∨ ∃ v, goneAt t g (k v) z
  | .elements _ k => fun z => (t = true ∧ g z) ∨ ∃ d xs, goneAt t g (k d xs) z
  | .block body k => fun z => (t = true ∧ goneAt true g body z) ∨ ∃ b, goneAt t (goneAt false g body) (k b) z
  | .call x y body k => fun z => (t = true ∧ goneAt true g body z) ∨
      ∃ b, goneAt t (fun w => if w = x then goneAt false g body y else goneAt false g body w) (k b) z
  | .attempt body handler k => fun z => (∃ b, goneAt t (goneAt false g body) (k b) z) ∨
      (t = true ∧ goneAt true (goneAt true g body) handler z) ∨ ∃ b, goneAt t (goneAt false (goneAt true g body) handler) (k b) z

/-- No array is used after it may have been moved from, except to move it, to replace it with `overlap`, and to leave its block. -/
def NoUseGone (g : Nat → Prop) : Body α β → Prop
  | .ret _ => True
  | .throw => True
  | .exec s k => (∀ x, g x → ¬ XMisuses x s) ∧ NoUseGone (xgone g s) k
  | .read s k => (∀ x, g x → ¬ ScOf x s) ∧ ∀ v, NoUseGone g (k v)
  | .elements e k => (∀ x, g x → ¬ Operand x (shapeE e)) ∧ ∀ d xs, NoUseGone g (k d xs)
  | .block body k => NoUseGone g body ∧ ∀ b, NoUseGone (goneAt false g body) (k b)
  | .call x y body k => NoUseGone g body ∧ ∀ b, NoUseGone (fun w => if w = x then goneAt false g body y else goneAt false g body w) (k b)
  | .attempt body handler k => NoUseGone g body ∧ (∀ b, NoUseGone (goneAt false g body) (k b)) ∧
      NoUseGone (goneAt true g body) handler ∧ ∀ b, NoUseGone (goneAt false (goneAt true g body) handler) (k b)

/-! ### Effects on other arrays -/

/-- The arrays a statement is about. -/
def xchanges (s : XStmt α) : List Nat := ((erase s).map mchanges).getD []

/-- An assignment to a whole array. -/
def IsSet (s : XStmt α) : Prop := (∃ x e, s = .wild (.set x e)) ∨ ∃ x e, s = .calm (.old (.set x e))

end Jules.Spec

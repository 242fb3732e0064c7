import Verif.Spec.Program
import Verif.Model.Adaptive
/-
Specification of programs with control flow and moves: a store of array values, and the names of moved-from arrays. From the model only the syntax
(`MStmt`, `Prog`) is used.
-/
namespace Jules.Spec

/-- The arrays in scope that have a value, and those that have been moved from, with the extents they report. -/
structure MStore (α : Type) where
  live : AStore α
  moved : Nat → Option (List Nat)

/-- `x` is in scope and has `n` dimensions. -/
def HasOrder (S : MStore α) (x n : Nat) : Prop :=
  (∃ a, S.live x = some a ∧ a.ext.length = n) ∨ ∃ d, S.moved x = some d ∧ d.length = n

/-- The name is not in scope. -/
def Unused (S : MStore α) (x : Nat) : Prop := S.live x = none ∧ S.moved x = none

/-- When a statement may be executed. Of a moved-from array only these uses are allowed: destroying it, moving it, assigning it to itself, replacing
its value with `overlap`, and assigning it a value with another number of elements. -/
def MLegal (S : MStore α) : MStmt α → Prop
  | .declare x n => Unused S x ∧ n ≠ 0
  | .moveMake x y => Unused S x ∧ ∃ n, HasOrder S y n
  | .old (.make x e) => S.moved x = none ∧ StmtLegal S.live (.make x e)
  | .old (.makeFill x s ext) => S.moved x = none ∧ StmtLegal S.live (.makeFill x s ext)
  | .old (.makeFrom x l ext) => S.moved x = none ∧ StmtLegal S.live (.makeFrom x l ext)
  | .old (.drop x) => ∃ n, HasOrder S x n
  | .old (.set x e) => StmtLegal S.live (.set x e) ∨
      ∃ d, S.moved x = some d ∧ (e = .arr x [] ∨ ∃ d', d'.length = d.length ∧ ExLegal S.live d' e ∧ prod d' ≠ prod d)
  | .old (.overlapWhole x e) => StmtLegal S.live (.overlapWhole x e) ∨
      ∃ d d', S.moved x = some d ∧ d'.length = d.length ∧ ExLegal S.live d' e
  | .old (.moveAssign x y) => x ≠ y ∧ ∃ n, HasOrder S x n ∧ HasOrder S y n
  | .old s => StmtLegal S.live s

/-- No other array than those in `xs` has been affected. -/
def Others (S : MStore α) (xs : List Nat) (S' : MStore α) : Prop := ∀ z, z ∉ xs → S'.live z = S.live z ∧ S'.moved z = S.moved z

/-- What a statement does. -/
def MEffect (S : MStore α) (s : MStmt α) (S' : MStore α) : Prop :=
  match s with
  | .declare x n => S'.moved = S.moved ∧ Becomes S.live x (List.replicate n 0) (fun _ => none) S'.live
  | .moveMake x y => Others S [x, y] S' ∧ S'.live x = S.live y ∧ S'.moved x = S.moved y ∧
      ((∃ d, S.moved y = some d ∧ S'.moved y = some d ∧ S'.live y = none) ∨
       ∃ a, S.live y = some a ∧ if prod a.ext = 0 then S'.live y = some a ∧ S'.moved y = none else S'.live y = none ∧ S'.moved y = some a.ext)
  | .old (.drop x) => Others S [x] S' ∧ Unused S' x
  | .old (.set x e) =>
      (S.moved x = none ∧ S'.moved = S.moved ∧ Effect S.live (.set x e) S'.live) ∨
      (S.moved x ≠ none ∧ e = .arr x [] ∧ S'.moved = S.moved ∧ S'.live = S.live) ∨
      (S.moved x ≠ none ∧ e ≠ .arr x [] ∧ Others S [x] S' ∧ S'.moved x = none ∧ Effect S.live (.set x e) S'.live)
  | .old (.overlapWhole x e) => Others S [x] S' ∧ S'.moved x = none ∧ Effect S.live (.overlapWhole x e) S'.live
  | .old (.moveAssign x y) => Others S [x, y] S' ∧ S'.live x = S.live y ∧ S'.live y = S.live x ∧ S'.moved x = S.moved y ∧ S'.moved y = S.moved x
  | .old s => S'.moved = S.moved ∧ Effect S.live s S'.live

/-- The elements of an expression with extents `d`, in column-major order. -/
def Elements (S : MStore α) (e : PEx α) (d : List Nat) (xs : List α) : Prop :=
  d ≠ [] ∧ ExLegal S.live d e ∧ xs.length = prod d ∧ ∀ i, InB d i → exVal S.live e i = xs[cmSum d i]?

/-- The scalar is an element of `x`. -/
def ScOf (x : Nat) : Sc α → Prop
  | .const _ => False
  | .elem y _ => y = x

/-- `x` is an operand of the expression. -/
def Operand (x : Nat) : PEx α → Prop
  | .arr y _ => y = x
  | .un _ e => Operand x e
  | .bin _ a b => Operand x a ∨ Operand x b
  | .scl _ s e => ScOf x s ∨ Operand x e
  | .scr _ e s => Operand x e ∨ ScOf x s

/-- The statement reads elements of `x`, or writes them one by one. -/
def Touches (x : Nat) : Stmt α → Prop
  | .make _ e => Operand x e
  | .makeFill _ s _ => ScOf x s
  | .makeFrom _ _ _ => False
  | .drop _ => False
  | .fill y _ s => y = x ∨ ScOf x s
  | .assign y _ e => y = x ∨ Operand x e
  | .inPlace y _ _ e => y = x ∨ Operand x e
  | .inPlaceScalar y _ _ s => y = x ∨ ScOf x s
  | .apply y _ _ => y = x
  | .overlap y _ e => y = x ∨ Operand x e
  | .overlapWhole _ e => Operand x e
  | .set y e => Operand x e ∧ e ≠ .arr y []
  | .moveAssign _ _ => False

/-- The program, started with the arrays `S`, may return `b` and leave the arrays `S'`. -/
inductive Computes : MStore α → Prog α β → MStore α → β → Prop
  | ret : Computes S (.ret b) S b
  | exec : MLegal S s → MEffect S s S₁ → Computes S₁ k S' b → Computes S (.exec s k) S' b
  | read : ScLegal S.live s → scVal S.live s = some v → Computes S (k v) S' b → Computes S (.read s k) S' b
  | elements : Elements S e d xs → Computes S (k d xs) S' b → Computes S (.elements e k) S' b

/-- Whatever values come out, the program only executes legal statements and only reads existing elements. -/
def LegalProg (S : MStore α) : Prog α β → Prop
  | .ret _ => True
  | .exec s k => MLegal S s ∧ ∀ S₁, MEffect S s S₁ → LegalProg S₁ k
  | .read s k => ScLegal S.live s ∧ ∀ v, scVal S.live s = some v → LegalProg S (k v)
  | .elements e k => ∃ d, d ≠ [] ∧ ExLegal S.live d e ∧ ∀ xs, Elements S e d xs → LegalProg S (k d xs)

/-- The state holds exactly these arrays; a moved-from array is a null pointer with extents that promise elements. -/
structure MHolds (W : MWorld α) (S : MStore α) : Prop where
  store : HoldsStore W.w S.live
  gone : W.gone = S.moved
  moved : ∀ x d, S.moved x = some d → S.live x = none ∧ d ≠ [] ∧ prod d ≠ 0

end Jules.Spec

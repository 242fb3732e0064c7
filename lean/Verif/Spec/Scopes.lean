import Verif.Spec.Fallible
import Verif.Spec.Adaptive
import Verif.Model.Scopes
/-
Specification of programs with blocks, calls, exceptions and handlers: array values and names only. From the model only the syntax (`XStmt`,
`Body`) is used. There is no list of declarations: leaving a block leaves exactly the names that were in scope when it was entered.
-/
namespace Jules.Spec

/-- The name is in scope. -/
def InScope (S : MStore α) (x : Nat) : Prop := ¬ Unused S x

/-- A statement that ends the life of an array by hand. -/
def IsDrop : MStmt α → Prop
  | .old (.drop _) => True
  | _ => False

/-- When a statement may be executed. -/
def XLegal (S : MStore α) : XStmt α → Prop
  | .calm s => MLegal S s ∧ ¬ IsDrop s
  | .wild s => FLegal S.live s ∧ ∃ x, target s = some x ∧ S.moved x = none

/-- What a statement does, and whether an exception leaves it. -/
def XEffect (S : MStore α) (s : XStmt α) (S' : MStore α) (thrown : Bool) : Prop :=
  match s with
  | .calm s => thrown = false ∧ MEffect S s S'
  | .wild s => S'.moved = S.moved ∧ FEffect S.live s S'.live thrown

/-- The statement constructs new elements, of a type that cannot throw on construction, and one of them throws. -/
def Breaks (nx : Bool) (S : MStore α) : XStmt α → Prop
  | .calm _ => False
  | .wild s => nx = true ∧ ConstructThrows S.live s

/-- An assignment to a whole array that changes the number of its elements. -/
def Resizes (S : MStore α) (s : XStmt α) : Prop :=
  ∃ x e a d, s = .wild (.set x e) ∧ S.live x = some a ∧ ExLegal S.live d (shapeE e) ∧ prod a.ext ≠ prod d

/-- What is lost when an exception leaves the statement: one block of memory if the statement is a resizing assignment, otherwise nothing. -/
def Loss (S : MStore α) (s : XStmt α) (n : Nat) : Prop := (Resizes S s ∧ n = 1) ∨ (¬ Resizes S s ∧ n = 0)

/-- The elements of an expression with extents `d`, none of which throws, in column-major order. -/
def FElements (S : MStore α) (e : FEx α) (d : List Nat) (xs : List α) : Prop :=
  d ≠ [] ∧ ExLegal S.live d (shapeE e) ∧ xs.length = prod d ∧ ∀ i, InB d i → ∃ v, fexVal S.live e i = some v ∧ xs[cmSum d i]? = some v

/-- Going through the elements of the expression throws. -/
def FThrows (S : MStore α) (e : FEx α) : Prop :=
  ∃ d, d ≠ [] ∧ ExLegal S.live d (shapeE e) ∧ ∃ i, InB d i ∧ fexVal S.live e i = none

/-- From `S₁`, only the names in `P` remain. -/
def Left (P : Nat → Prop) (S₁ S' : MStore α) : Prop :=
  (∀ x, P x → S'.live x = S₁.live x ∧ S'.moved x = S₁.moved x) ∧ ∀ x, ¬ P x → Unused S' x

/-- The program, started with the arrays `S`, may end with the arrays `S'` and the result `r` (`none`: it is left by an exception), having lost `n`
blocks of memory. -/
inductive Does {α β : Type} (nx : Bool) : MStore α → Body α β → MStore α → Option β → Nat → Prop
  | ret : Does nx S (.ret b) S (some b) 0
  | throw : Does nx S .throw S none 0
  | exec : XLegal S s → ¬ Breaks nx S s → XEffect S s S₁ false → Does nx S₁ k S' r n → Does nx S (.exec s k) S' r n
  | execThrow : XLegal S s → ¬ Breaks nx S s → XEffect S s S' true → Loss S s n → Does nx S (.exec s k) S' none n
  | read : ScLegal S.live s → scVal S.live s = some v → Does nx S (k v) S' r n → Does nx S (.read s k) S' r n
  | elements : FElements S e d xs → Does nx S (k d xs) S' r n → Does nx S (.elements e k) S' r n
  | elementsThrow : FThrows S e → Does nx S (.elements e k) S none 0
  | block : Does nx S body S₁ (some b) n → Left (InScope S) S₁ S₂ → Does nx S₂ (k b) S' r n' → Does nx S (.block body k) S' r (n + n')
  | blockThrow : Does nx S body S₁ none n → Left (InScope S) S₁ S' → Does nx S (.block body k) S' none n
  | call : Does nx S body S₁ (some b) n → Unused S y → MLegal S₁ (.moveMake x y) → MEffect S₁ (.moveMake x y) S₂ →
      Left (fun z => InScope S z ∨ z = x) S₂ S₃ → Does nx S₃ (k b) S' r n' → Does nx S (.call x y body k) S' r (n + n')
  | callThrow : Does nx S body S₁ none n → Left (InScope S) S₁ S' → Does nx S (.call x y body k) S' none n
  | attempt : Does nx S body S₁ (some b) n → Left (InScope S) S₁ S₂ → Does nx S₂ (k b) S' r n' → Does nx S (.attempt body handler k) S' r (n + n')
  | handled : Does nx S body S₁ none n → Left (InScope S) S₁ S₂ → Does nx S₂ handler S₃ (some b) n' → Left (InScope S₂) S₃ S₄ →
      Does nx S₄ (k b) S' r n'' → Does nx S (.attempt body handler k) S' r (n + n' + n'')
  | again : Does nx S body S₁ none n → Left (InScope S) S₁ S₂ → Does nx S₂ handler S₃ none n' → Left (InScope S₂) S₃ S' →
      Does nx S (.attempt body handler k) S' none (n + n')

/-- The program, started with the arrays `S`, comes to a statement that constructs an element of a type that cannot throw on construction, and
throws. -/
inductive Aborts {α β : Type} (nx : Bool) : MStore α → Body α β → Prop
  | now : XLegal S s → Breaks nx S s → Aborts nx S (.exec s k)
  | exec : XLegal S s → ¬ Breaks nx S s → XEffect S s S₁ false → Aborts nx S₁ k → Aborts nx S (.exec s k)
  | read : ScLegal S.live s → scVal S.live s = some v → Aborts nx S (k v) → Aborts nx S (.read s k)
  | elements : FElements S e d xs → Aborts nx S (k d xs) → Aborts nx S (.elements e k)
  | inBlock : Aborts nx S body → Aborts nx S (.block body k)
  | block : Does nx S body S₁ (some b) n → Left (InScope S) S₁ S₂ → Aborts nx S₂ (k b) → Aborts nx S (.block body k)
  | inCall : Aborts nx S body → Aborts nx S (.call x y body k)
  | call : Does nx S body S₁ (some b) n → Unused S y → MLegal S₁ (.moveMake x y) → MEffect S₁ (.moveMake x y) S₂ →
      Left (fun z => InScope S z ∨ z = x) S₂ S₃ → Aborts nx S₃ (k b) → Aborts nx S (.call x y body k)
  | inTry : Aborts nx S body → Aborts nx S (.attempt body handler k)
  | attempt : Does nx S body S₁ (some b) n → Left (InScope S) S₁ S₂ → Aborts nx S₂ (k b) → Aborts nx S (.attempt body handler k)
  | inHandler : Does nx S body S₁ none n → Left (InScope S) S₁ S₂ → Aborts nx S₂ handler → Aborts nx S (.attempt body handler k)
  | handled : Does nx S body S₁ none n → Left (InScope S) S₁ S₂ → Does nx S₂ handler S₃ (some b) n' → Left (InScope S₂) S₃ S₄ →
      Aborts nx S₄ (k b) → Aborts nx S (.attempt body handler k)

/-- Whatever values come out and whichever functions throw, the program only executes legal statements and only reads existing elements; a function
returns one of its own arrays. -/
def LegalBody (nx : Bool) (S : MStore α) : Body α β → Prop
  | .ret _ => True
  | .throw => True
  | .exec s k => XLegal S s ∧ ∀ S₁, XEffect S s S₁ false → LegalBody nx S₁ k
  | .read s k => ScLegal S.live s ∧ ∀ v, scVal S.live s = some v → LegalBody nx S (k v)
  | .elements e k => ∃ d, d ≠ [] ∧ ExLegal S.live d (shapeE e) ∧ ∀ xs, FElements S e d xs → LegalBody nx S (k d xs)
  | .block body k => LegalBody nx S body ∧ ∀ S₁ S₂ b n, Does nx S body S₁ (some b) n → Left (InScope S) S₁ S₂ → LegalBody nx S₂ (k b)
  | .call x y body k => LegalBody nx S body ∧ Unused S y ∧ ∀ S₁ b n, Does nx S body S₁ (some b) n → MLegal S₁ (.moveMake x y) ∧
      ∀ S₂ S₃, MEffect S₁ (.moveMake x y) S₂ → Left (fun z => InScope S z ∨ z = x) S₂ S₃ → LegalBody nx S₃ (k b)
  | .attempt body handler k => LegalBody nx S body ∧
      (∀ S₁ S₂ b n, Does nx S body S₁ (some b) n → Left (InScope S) S₁ S₂ → LegalBody nx S₂ (k b)) ∧
      ∀ S₁ S₂ n, Does nx S body S₁ none n → Left (InScope S) S₁ S₂ → LegalBody nx S₂ handler ∧
        ∀ S₃ S₄ b n', Does nx S₂ handler S₃ (some b) n' → Left (InScope S₂) S₃ S₄ → LegalBody nx S₄ (k b)

/-- The program has no assignment `x = e`, with functions that may throw, to a whole array. -/
def NoWholeAssign : Body α β → Prop
  | .ret _ => True
  | .throw => True
  | .exec s k => (∀ x e, s ≠ .wild (.set x e)) ∧ NoWholeAssign k
  | .read _ k => ∀ v, NoWholeAssign (k v)
  | .elements _ k => ∀ d xs, NoWholeAssign (k d xs)
  | .block body k => NoWholeAssign body ∧ ∀ b, NoWholeAssign (k b)
  | .call _ _ body k => NoWholeAssign body ∧ ∀ b, NoWholeAssign (k b)
  | .attempt body handler k => NoWholeAssign body ∧ NoWholeAssign handler ∧ ∀ b, NoWholeAssign (k b)

/-- No arrays. -/
def noArrays : MStore α := ⟨fun _ => none, fun _ => none⟩

end Jules.Spec

import Verif.Spec.Adaptive
import Verif.Spec.DebugThrows
import Verif.Model.NoMemory
/-
Specification of programs that may run out of memory: on array values, a statement that needs memory is executed or has no effect. From the model only the
syntax (`MStmt`, `GProg`) is used.
-/
namespace Jules.Spec

/-- The chain selects elements by a list of indices. -/
def ListSel (h : List Ix) : Prop := ∃ l, Ix.rng l ∈ h

/-- The chain, on an array of order `n`, applies a plain index to a view of two or more dimensions that was selected by a list of indices. -/
def FatalChain (n : Nat) (h : List Ix) : Prop :=
  ∃ h₁ i h₂ k, h = h₁ ++ Ix.at i :: h₂ ∧ typeOf n h₁ = some (.strided k true) ∧ k ≠ 1

/-- All `x[h]…` in a statement. -/
def mchains : MStmt α → List (Nat × List Ix)
  | .old s => chains s
  | _ => []

/-- The statement makes a list of positions, or new elements: it constructs an array from values, changes the number of elements of an array, gives a moved-from array a value,
or uses `overlap`. -/
def MayAllocate (S : MStore α) (s : MStmt α) : Prop :=
  (∃ x h, (x, h) ∈ mchains s ∧ ListSel h) ∨
  match s with
  | .old (.make _ _) => True
  | .old (.makeFill _ _ _) => True
  | .old (.makeFrom _ _ _) => True
  | .old (.overlap _ _ _) => True
  | .old (.overlapWhole _ _) => True
  | .old (.set x e) => e ≠ .arr x [] ∧ ((∃ d, S.moved x = some d) ∨ ∃ a d, S.live x = some a ∧ ExLegal S.live d e ∧ prod d ≠ prod a.ext)
  | _ => False

/-- The program may return `b` and leave the arrays `S'`: each statement is executed, or, if it may need memory, throws and changes nothing. -/
inductive Ending : MStore α → GProg α β → MStore α → β → Prop
  | ret : Ending S (.ret b) S b
  | done : MLegal S s → MEffect S s S₁ → Ending S₁ (k true) S' b → Ending S (.exec s k) S' b
  | failed : MLegal S s → MayAllocate S s → Ending S (k false) S' b → Ending S (.exec s k) S' b
  | read : ScLegal S.live s → scVal S.live s = some v → Ending S (k (some v)) S' b → Ending S (.read s k) S' b
  | unread : ScLegal S.live s → (∃ x h, (x, h) ∈ scChains s ∧ ListSel h) → Ending S (k none) S' b → Ending S (.read s k) S' b
  | elements : Elements S e d xs → Ending S (k (some (d, xs))) S' b → Ending S (.elements e k) S' b
  | unseen : d ≠ [] → ExLegal S.live d e → (∃ x h, (x, h) ∈ exChains e ∧ ListSel h) → Ending S (k none) S' b → Ending S (.elements e k) S' b

/-- Whatever values come out and whatever fails, the program only executes legal statements and only reads existing elements. -/
def LegalG (S : MStore α) : GProg α β → Prop
  | .ret _ => True
  | .exec s k => MLegal S s ∧ (∀ S₁, MEffect S s S₁ → LegalG S₁ (k true)) ∧ LegalG S (k false)
  | .read s k => ScLegal S.live s ∧ (∀ v, scVal S.live s = some v → LegalG S (k (some v))) ∧ LegalG S (k none)
  | .elements e k => ∃ d, d ≠ [] ∧ ExLegal S.live d e ∧ (∀ xs, Elements S e d xs → LegalG S (k (some (d, xs)))) ∧ LegalG S (k none)

/-- A fatal chain on one of the arrays. -/
def Fatal (S : MStore α) (cs : List (Nat × List Ix)) : Prop := ∃ x h a, (x, h) ∈ cs ∧ S.live x = some a ∧ FatalChain a.ext.length h

/-- The program has no fatal chain, whatever values come out and whatever fails. -/
def NoFatal (S : MStore α) : GProg α β → Prop
  | .ret _ => True
  | .exec s k => ¬ Fatal S (mchains s) ∧ (∀ S₁, MEffect S s S₁ → NoFatal S₁ (k true)) ∧ NoFatal S (k false)
  | .read s k => ¬ Fatal S (scChains s) ∧ (∀ v, scVal S.live s = some v → NoFatal S (k (some v))) ∧ NoFatal S (k none)
  | .elements e k => ¬ Fatal S (exChains e) ∧ (∀ d xs, Elements S e d xs → NoFatal S (k (some (d, xs)))) ∧ NoFatal S (k none)

/-- The same program without handlers. -/
def trusting : GProg α β → Prog α β
  | .ret b => .ret b
  | .exec s k => .exec s (trusting (k true))
  | .read s k => .read s fun v => trusting (k (some v))
  | .elements e k => .elements e fun d xs => trusting (k (some (d, xs)))

end Jules.Spec

import Verif.Spec.Views
/-
Specification for C81: programs with kept views, legal or not, that use no dangling view; and such programs for which 64 bits are enough.
-/
namespace Jules.Spec

/-- The views after a statement that changes the extents of the arrays from `E` to `E'`. -/
def nextViews (E E' : Exts) (σ : Aliases) : VStmt α → Aliases
  | .view v x h => fun z => if z = v then (inName σ x h).map fun n => .alias n.1 n.2 else σ z
  | .moveMake y x => fun v => (σ v).map (Kept.follow fun z => some (if z = x then y else z))
  | .stmt s => fun v => match s, inStmt σ s with
    | .drop x, none => if v = x then none else σ v
    | _, none => σ v
    | _, some s' => (σ v).map (Kept.follow (owner E E' s'))

/-- The views after a program (in a checked build, with the arithmetic `A`). -/
def viewsAfter (A : Arith) (alloc : Nat → Mem α → Nat → Nat) : VWorld α → Aliases → List (VStmt α) → Aliases
  | _, σ, [] => σ
  | V, σ, s :: p => match V.step A true alloc s with
    | .ok V' => viewsAfter A alloc V' (nextViews (worldExts V.w) (worldExts V'.w) σ s) p
    | .error _ => σ

/-- The statement compiles, mentions no dangling view, and is not one of the two things the library does not check (Spec/Sound.lean): it can
be written without views, and what is written compiles and has no bounded slice of stride zero and no iterator with too few values. -/
def Prudent (Γ : Ctx) (σ : Aliases) : VStmt α → Prop
  | .view v x h => Γ v = none ∧ σ v = none ∧ ∃ y g, inName σ x h = some (y, g) ∧ g ≠ [] ∧ StepsOK g ∧ ((chainKind Γ y g).bind viewOrder).isSome
  | .moveMake y x => Γ y = none ∧ σ y = none ∧ σ x = none ∧ (Γ x).isSome
  | .stmt s => (∃ x, s = .drop x ∧ σ x ≠ none) ∨ ∃ s', inStmt σ s = some s' ∧ Provided s' ∧ (check Γ s').isSome

/-- Each statement that is executed when the program runs is prudent (in a checked build, with the arithmetic `A`). -/
def PrudentRun (A : Arith) (alloc : Nat → Mem α → Nat → Nat) : VWorld α → Aliases → List (VStmt α) → Prop
  | _, _, [] => True
  | V, σ, s :: p => Prudent (ctxOf V.w) σ s ∧
      ∀ V', V.step A true alloc s = .ok V' → PrudentRun A alloc V' (nextViews (worldExts V.w) (worldExts V'.w) σ s) p

/-- The arrays a statement with views is about: those of the statement without views. -/
def vchanges (σ : Aliases) : VStmt α → List Nat
  | .view _ _ _ => []
  | .moveMake y x => [y, x]
  | .stmt s => match inStmt σ s with
    | some s' => changes s'
    | none => []

/-- 64 bits and a memory for `B` elements are enough for the statement, written without views. -/
def VFits (B : Nat) (E : Exts) (σ : Aliases) : VStmt α → Prop
  | .view _ x h => ∀ y g, inName σ x h = some (y, g) → ChainFits E y g
  | .moveMake _ _ => True
  | .stmt s => ∀ s', inStmt σ s = some s' → StmtFits B E s'

/-- 64 bits are enough for each statement that is executed. -/
def VFitsRun (B : Nat) (alloc : Nat → Mem α → Nat → Nat) : VWorld α → Aliases → List (VStmt α) → Prop
  | _, _, [] => True
  | V, σ, s :: p => VFits B (worldExts V.w) σ s ∧
      ∀ V', V.step Arith.u64 true alloc s = .ok V' → VFitsRun B alloc V' (nextViews (worldExts V.w) (worldExts V'.w) σ s) p

/-- A sequence of legal statements for which 64 bits are enough. -/
inductive VRuns64 (B : Nat) : VStore α → List (VStmt α) → VStore α → Prop
  | nil : VRuns64 B S [] S
  | cons : VLegal S s → VFits B S.arr.exts S.view s → VEffect S s S₁ → VRuns64 B S₁ p S' → VRuns64 B S (s :: p) S'

end Jules.Spec

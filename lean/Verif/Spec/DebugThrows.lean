import Verif.Spec.Sound
/-
Specification for C69: when a failed check cannot be caught. From the model only the syntax of statements and the state of a program are
used.
-/
namespace Jules.Spec

def scChains : Sc α → List (Nat × List Ix)
  | .const _ => []
  | .elem x h => [(x, h)]

def exChains : PEx α → List (Nat × List Ix)
  | .arr x h => [(x, h)]
  | .un _ e => exChains e
  | .bin _ a b => exChains a ++ exChains b
  | .scl _ s e => scChains s ++ exChains e
  | .scr _ e s => exChains e ++ scChains s

/-- All `x[h]…` in a statement. -/
def chains : Stmt α → List (Nat × List Ix)
  | .make _ e => exChains e
  | .makeFill _ s _ => scChains s
  | .makeFrom _ _ _ => []
  | .drop _ => []
  | .fill x h s => (x, h) :: scChains s
  | .assign x h e => (x, h) :: exChains e
  | .inPlace x h _ e => (x, h) :: exChains e
  | .inPlaceScalar x h _ s => (x, h) :: scChains s
  | .apply x h _ => [(x, h)]
  | .overlap x h e => (x, h) :: exChains e
  | .overlapWhole _ e => exChains e
  | .set _ e => exChains e
  | .moveAssign _ _ => []

/-- A chain with an empty list of indices or a slice of no elements. -/
def EmptySel (h : List Ix) : Prop := Ix.rng [] ∈ h ∨ ∃ s, Ix.slice s 0 ∈ h

/-- Extents of two or more dimensions, one of them zero. -/
def Flat (e : List Nat) : Prop := e.length ≠ 1 ∧ 0 ∈ e

/-- The statements whose failed checks may be fatal although failed checks throw: those that index an array with a zero extent (and two or
more dimensions), those that select no elements by an empty list or slice, and the self-move. -/
def Uncatchable (w : World α) (s : Stmt α) : Prop :=
  (∃ x h, (x, h) ∈ chains s ∧ h ≠ [] ∧ (EmptySel h ∨ ∃ c, w.env x = some c ∧ Flat c.ext)) ∨ ∃ x, s = .moveAssign x x

/-- The same arrays: same names, extents, addresses and values; and nothing else in memory that was not there. -/
def SameState (w w' : World α) : Prop := w'.mem = w.mem ∧ w'.env = w.env

/-- A statement without the things that make failed checks fatal, whatever the state: no empty selections, no new arrays of zero extents
(in two or more dimensions), no self-move. -/
def Cautious : Stmt α → Prop
  | .makeFill _ s ext => (∀ p ∈ scChains s, ¬ EmptySel p.2) ∧ ¬ Flat ext
  | .makeFrom _ _ ext => ¬ Flat ext
  | .moveAssign x y => x ≠ y
  | s => ∀ p ∈ chains s, ¬ EmptySel p.2

end Jules.Spec

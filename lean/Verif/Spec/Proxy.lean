import Verif.Spec.View
import Verif.Model.Proxy
/-
Chains of index expressions as they are written in a program: which of them may be cut into several full
expressions, and which rely on the lifetime of function parameters. From the model only the syntax of
steps (`HIx`) is used.
-/
namespace Jules.Spec

/-- After `[ix]` the chain still needs index expressions. -/
def Open (a : AObj) (ix : Ix) : Prop := ∃ v s, astep a ix = .part v s ∧ s.length < v.ext.length

/-- A position, an absolute slice or an absolute strided slice. -/
def IsPlain : Ix → Prop
  | .at _ => True
  | .slice _ _ => True
  | .strided _ _ _ => True
  | _ => False

/-- A slice whose extent is worked out from the dimension. -/
def IsBounded : Ix → Prop
  | .bounded _ _ => True
  | .boundedStrided _ _ _ => True
  | _ => False

/-- `[ix]` does not make the rest of the chain depend on a parameter: it is the first or the last index
expression of its group (one per dimension), or it is `every`, a range, or a bounded slice in a group that
did not start with `every` (`ev`). -/
def StepSafe (a : AObj) (ev : Bool) (ix : Ix) : Prop :=
  Open a ix → (∃ v, a = .view v) ∨ (¬ IsPlain ix ∧ (IsBounded ix → ev = false))

/-- Whether the group of index expressions that is open after `[ix]` started with `every`. -/
def nextEv (a : AObj) (ev : Bool) (ix : Ix) : Bool :=
  match a with
  | .view _ => decide (ix = .every)
  | .part _ _ => ev

/-- Every step is safe. -/
def ChainSafe : AObj → Bool → List Ix → Prop
  | _, _, [] => True
  | a, ev, ix :: h =>
    StepSafe a ev ix ∧ ChainSafe (astep a ix) (nextEv a ev ix) h

/-- The step leaves the incomplete chain with a reference to something that does not exist any more:
* a position or absolute slice between the first and the last index expression of its group, when
  parameters end with their function or the full expression ends here;
* a temporary range, when the full expression ends here. -/
def LeavesDangling (pl : Bool) (a : AObj) (x : HIx) : Prop :=
  Open a x.ix ∧ ((IsPlain x.ix ∧ (∃ v s, a = .part v s) ∧ (pl = false ∨ x.ends = true)) ∨
    ((∃ l, x.ix = .rng l) ∧ x.tmp = true ∧ x.ends = true))

end Jules.Spec

import Verif.Props.ConstVector
import Verif.Model.ConstVectorThreads
/-
Specification for C82: what a thread does when it is executed alone, in terms of values (the specification of C38), and what holds of the
state of several threads. From the model only the syntax of the operations and the state of the threads are used.
-/
namespace Jules.Spec
open Jules.Props (CVal CSpec)

/-- A thread alone: the values of its own variables, and what it has seen. -/
structure SVAlone (α : Type) where
  own : CSpec α
  log : List (SVObs α)

/-- The value of a variable. `G` are the values of the shared variables. -/
def SVAlone.val (G : CSpec α) (t : SVAlone α) : SVRef → CVal α
  | .own x => t.own.val x
  | .shared g => G.val g

/-- Operations on variables within their lifetimes; moved-from variables are not read. -/
def svLegal (G : CSpec α) (t : SVAlone α) : SVOp α → Prop
  | .local o => t.own.ok o
  | .copyShared g => G.alive g
  | .read r pos => ∃ l, t.val G r = .val l ∧ pos < l.length
  | .size r => ∃ l, t.val G r = .val l
  | .equal r q => ∃ l m, t.val G r = .val l ∧ t.val G q = .val m

/-- What the operation does. -/
inductive SVEffect [DecidableEq α] (G : CSpec α) (t : SVAlone α) : SVOp α → SVAlone α → Prop
  | local : SVEffect G t (.local o) ⟨t.own.step o, t.log⟩
  | copyShared : SVEffect G t (.copyShared g) ⟨t.own ++ [G.val g], t.log⟩
  | read : t.val G r = .val l → l[pos]? = some v → SVEffect G t (.read r pos) ⟨t.own, t.log ++ [.elem v]⟩
  | size : t.val G r = .val l → SVEffect G t (.size r) ⟨t.own, t.log ++ [.size l.length]⟩
  | equal : t.val G r = .val l → t.val G q = .val m → SVEffect G t (.equal r q) ⟨t.own, t.log ++ [.equal (decide (l = m))]⟩

/-- The program `p` takes the thread, executed alone, from `t` to `t'`. -/
inductive SVRuns [DecidableEq α] (G : CSpec α) : SVAlone α → List (SVOp α) → SVAlone α → Prop
  | nil : SVRuns G t [] t
  | cons : svLegal G t o → SVEffect G t o t₁ → SVRuns G t₁ p t' → SVRuns G t (o :: p) t'

/-- The variables of `S` chosen by `f`. -/
def keepVals (f : Nat → Bool) (S : CSpec α) : CSpec α := S.mapIdx fun x v => if f x then v else .gone

/-- A variable holding pointer `v` has the value `a`, in a memory with the given blocks. -/
def Shows (blocks : Nat → Option (List α × Nat)) : Option (Option Nat) → CVal α → Prop
  | none, a => a = .gone
  | some none, a => a = .movedFrom
  | some (some b), a => ∃ l c, blocks b = some (l, c) ∧ a = .val l

/-- Variables `vars` have the values `S`. -/
def ShowsAll (blocks : Nat → Option (List α × Nat)) (vars : List (Option (Option Nat))) (S : CSpec α) : Prop :=
  vars.length = S.length ∧ ∀ (x : Nat) v a, vars[x]? = some v → S[x]? = some a → Shows blocks v a

/-- Some variable refers to block `b`. -/
def Referred (σ : SVSys α n) (b : Nat) : Prop := some (some b) ∈ σ.shared ∨ ∃ i, some (some b) ∈ (σ.threads i).vars

/-- The number of variables that refer to block `b`. -/
def refCount (σ : SVSys α n) (b : Nat) : Nat :=
  σ.shared.count (some (some b)) + ((List.finRange n).map fun i => (σ.threads i).vars.count (some (some b))).sum

end Jules.Spec

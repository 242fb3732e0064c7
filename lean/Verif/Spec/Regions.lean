import Verif.Spec.Concurrent
import Verif.Model.Regions
/-
Specification for C91: parallel regions of threads with control flow. From the model only the syntax (`TProg`, `Phase`) is used.
-/
namespace Jules.Spec

/-- The program of one thread, executed alone, takes the store from `A` to `A'`; of the shared arrays (those of `G`) it reads only the elements `R` and
changes only the elements `W`; it creates and destroys only arrays of its own. -/
inductive BranchRuns (G : AStore α) (R W : ElemSet) : AStore α → TProg α → AStore α → Prop
  | ret : BranchRuns G R W A .ret A
  | exec : StmtLegal A s → (∀ x ∈ remakes s, G x = none) → (∀ x j, G x ≠ none → stmtReads A s x j → R x j) →
      (∀ x j, G x ≠ none → stmtWrites A s x j → W x j) → Effect A s A₁ → BranchRuns G R W A₁ k A' → BranchRuns G R W A (.exec s k) A'
  | read : ScLegal A s → (∀ x j, G x ≠ none → scElem A s x j → R x j) → scVal A s = some v → BranchRuns G R W A (k v) A' →
      BranchRuns G R W A (.read s k) A'

/-- The shared arrays after the region: the elements changed by thread `i` are as thread `i` leaves them, the others as they were. -/
def Joined (G : AStore α) (W : Fin n → ElemSet) (A : Fin n → AStore α) (G' : AStore α) : Prop :=
  ∀ x, (G x = none ↔ G' x = none) ∧ ∀ a b, G x = some a → G' x = some b → b.ext = a.ext ∧ ∀ j, InB a.ext j →
    (∀ i c, W i x j → A i x = some c → b.elt j = c.elt j) ∧ ((∀ i, ¬ W i x j) → b.elt j = a.elt j)

/-- The main program takes the store `G` to `G'`. In each region the threads keep out of each other's way (which elements belong to which thread may
differ from region to region), and destroy their own arrays. -/
inductive RegionsRun : AStore α → List (Phase α) → AStore α → Prop
  | nil : RegionsRun G [] G
  | seq : StmtLegal G s → Effect G s G₁ → RegionsRun G₁ ps G' → RegionsRun G (.seq s :: ps) G'
  | par {n : Nat} {progs : Fin n → TProg α} {R W : Fin n → ElemSet} {A : Fin n → AStore α} : Separate R W → (∀ i, BranchRuns G (R i) (W i) G (progs i) (A i)) → (∀ i x, G x = none → A i x = none) → Joined G W A G₁ →
      RegionsRun G₁ ps G' → RegionsRun G (.par n progs :: ps) G'

end Jules.Spec

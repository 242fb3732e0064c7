import Verif.Spec.Program
import Verif.Model.Concurrent
/-
Specification for C72: which elements of which arrays a statement reads and changes, threads that keep out of each other's way, and what
memory holds when they have finished. From the model only the syntax of statements, the state of a program (memory, arrays in scope) and,
for the last definition, the state of several threads are used.
-/
namespace Jules.Spec

/-! ### Elements that are read and changed -/

/-- Element `j` of array `x` belongs to the view `y[h]…`. -/
def viewElem (A : AStore α) (y : Nat) (h : List Ix) (x : Nat) (j : List Nat) : Prop :=
  y = x ∧ ∃ a v, A x = some a ∧ imeaning a.ext h = .view v ∧ v.Has j

/-- It is the scalar. -/
def scElem (A : AStore α) : Sc α → Nat → List Nat → Prop
  | .const _, _, _ => False
  | .elem y h, x, j => viewElem A y h x j

/-- It occurs in the expression. -/
def exElem (A : AStore α) : PEx α → Nat → List Nat → Prop
  | .arr y h, x, j => viewElem A y h x j
  | .un _ e, x, j => exElem A e x j
  | .bin _ a b, x, j => exElem A a x j ∨ exElem A b x j
  | .scl _ s e, x, j => scElem A s x j ∨ exElem A e x j
  | .scr _ e s, x, j => exElem A e x j ∨ scElem A s x j

/-- The statement reads element `j` of array `x`. -/
def stmtReads (A : AStore α) : Stmt α → Nat → List Nat → Prop
  | .make _ e, x, j => exElem A e x j
  | .makeFill _ s _, x, j => scElem A s x j
  | .fill _ _ s, x, j => scElem A s x j
  | .assign _ _ e, x, j => exElem A e x j
  | .inPlace y h _ e, x, j => viewElem A y h x j ∨ exElem A e x j
  | .inPlaceScalar y h _ s, x, j => viewElem A y h x j ∨ scElem A s x j
  | .apply y h _, x, j => viewElem A y h x j
  | .overlap _ _ e, x, j => exElem A e x j
  | .overlapWhole _ e, x, j => exElem A e x j
  | .set _ e, x, j => exElem A e x j
  | _, _, _ => False

/-- The statement changes element `j` of array `x`, which remains where it is. -/
def stmtWrites (A : AStore α) : Stmt α → Nat → List Nat → Prop
  | .fill y h _, x, j => viewElem A y h x j
  | .assign y h _, x, j => viewElem A y h x j
  | .inPlace y h _ _, x, j => viewElem A y h x j
  | .inPlaceScalar y h _ _, x, j => viewElem A y h x j
  | .apply y h _, x, j => viewElem A y h x j
  | .overlap y h _, x, j => viewElem A y h x j
  | _, _, _ => False

/-- The arrays a statement creates, destroys or gives other elements as a whole. -/
def remakes : Stmt α → List Nat
  | .make x _ => [x]
  | .makeFill x _ _ => [x]
  | .makeFrom x _ _ => [x]
  | .drop x => [x]
  | .overlapWhole x _ => [x]
  | .set x _ => [x]
  | .moveAssign x y => [x, y]
  | _ => []

/-! ### Threads -/

/-- Elements of arrays. -/
abbrev ElemSet := Nat → List Nat → Prop

/-- The program `p` of one thread, executed alone, takes the store from `A` to `A'`; of the shared arrays (those of `G`) it reads only the
elements `R` and changes only the elements `W`; it creates and destroys only arrays of its own. -/
inductive ThreadRuns (G : AStore α) (R W : ElemSet) : AStore α → List (Stmt α) → AStore α → Prop
  | nil : ThreadRuns G R W A [] A
  | cons : StmtLegal A s → (∀ x ∈ remakes s, G x = none) → (∀ x j, G x ≠ none → stmtReads A s x j → R x j) →
      (∀ x j, G x ≠ none → stmtWrites A s x j → W x j) → Effect A s A₁ → ThreadRuns G R W A₁ p A' → ThreadRuns G R W A (s :: p) A'

/-- No thread reads or changes an element another one changes. -/
def Separate (R W : Fin n → ElemSet) : Prop := ∀ i k, i ≠ k → ∀ x j, W i x j → ¬ R k x j ∧ ¬ W k x j

/-- The environment of a thread between two statements. -/
def envOf (t : Thread α) (env : Env) : Prop := t.cur = .done env

/-- What memory holds when all threads have finished; `A i` is the store with which thread `i` ends when it is executed alone, `G` (in the
state `w`) the shared arrays at the beginning. -/
structure HoldsAll (w : World α) (G : AStore α) (W : Fin n → ElemSet) (A : Fin n → AStore α) (σ : Sys α n) : Prop where
  /-- The shared arrays are where they were: an element changed by a thread has the value that thread computes alone … -/
  changed : ∀ i x c b j, w.env x = some c → G x ≠ none → A i x = some b → InB c.ext j → W i x j → σ.mem ((cells c).pos j) = some (b.elt j)
  /-- … and the other elements are unchanged. -/
  same : ∀ x c a j, w.env x = some c → G x = some a → InB c.ext j → (∀ i, ¬ W i x j) → σ.mem ((cells c).pos j) = some (a.elt j)
  /-- Each thread has its own arrays, with the values it computes alone. -/
  own : ∀ i, ∃ env, envOf (σ.threads i) env ∧ (∀ x, G x ≠ none → env x = w.env x) ∧ (∀ x, A i x = none → env x = none) ∧
    ∀ x b, A i x = some b → ∃ c, env x = some c ∧ c.ext = b.ext ∧ (G x = none → ∀ j, InB b.ext j → σ.mem ((cells c).pos j) = some (b.elt j))
  /-- Own arrays of different threads have different elements, also from the shared ones. -/
  apart : ∀ i k env env' x y c d q, i ≠ k → envOf (σ.threads i) env → envOf (σ.threads k) env' → G x = none → env x = some c → env' y = some d →
    Covers (cells c) q → ¬ Covers (cells d) q
  /-- Nothing else is in memory. -/
  only : ∀ q, σ.mem q ≠ none → (∃ x c, w.env x = some c ∧ Covers (cells c) q) ∨
    ∃ i env x c, envOf (σ.threads i) env ∧ env x = some c ∧ Covers (cells c) q
  raw : ∀ q, σ.raw q = false

end Jules.Spec

import Verif.Model.Borrow
/-
Which indexed views depend on a list of indices that lives elsewhere. Only the syntax of index expressions
(`BIx`) is taken from the model.
-/
namespace Jules.Spec

/-- The memory holds the list `l` in the `n` cells from `p`. -/
def Holds (μ : Mem Nat) (p n : Nat) (l : List Nat) : Prop := l.length = n ∧ ∀ k, k < n → μ (p + k) = l[k]?

/-- Some of the `n` cells from `p` do not exist (any more). -/
def Gone (μ : Mem Nat) (p n : Nat) : Prop := ∃ k, k < n ∧ μ (p + k) = none

/-- An index expression that selects consecutive elements without stride. -/
def Contiguous : BIx → Prop
  | .ix (.slice _ _) => True
  | .ix (.bounded _ _) => True
  | .ix .every => True
  | _ => False

/-- The history applies the list of indices in the `n` cells from `p` to (a contiguous part of) a
one-dimensional array, and then only `every`. -/
def Follows (e : List Nat) (h : List (Mem Nat × BIx)) (p n : Nat) : Prop :=
  e.length = 1 ∧ ∃ pre μ post, h = pre ++ (μ, .ptr p n) :: post ∧ (∀ s ∈ pre, Contiguous s.2) ∧ ∀ s ∈ post, s.2 = .ix .every

/-- The object does not depend on the index memory: in every two states of it iterating visits the same positions, and every index
expression with a list of its own has the same outcome. -/
def Independent (A : Arith) (chk : Bool) (b : BObj) : Prop := ∀ μ₁ μ₂ : Mem Nat,
  b.positions A μ₁ = b.positions A μ₂ ∧ ∀ i : Ix, b.index A chk μ₁ (.ix i) = b.index A chk μ₂ (.ix i)

/-- The index expression with its list, if it has one, read from the memory. -/
inductive Now (μ : Mem Nat) : BIx → Ix → Prop where
  | ix (i : Ix) : Now μ (.ix i) i
  | ptr {p n : Nat} {l : List Nat} (h : Holds μ p n l) : Now μ (.ptr p n) (.rng l)

end Jules.Spec

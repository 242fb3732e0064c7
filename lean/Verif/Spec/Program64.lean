import Verif.Spec.Sound
import Verif.Spec.Fits
/-
Specification for C71: programs for which 64 bits are enough, in terms of the extents of the arrays in scope and of the statements. From the
model only the syntax of statements and the state of a program (memory, arrays in scope) are used.
-/
namespace Jules.Spec

/-- The extents of the arrays in scope. -/
abbrev Exts := Nat → Option (List Nat)

/-- Those of a store. -/
def AStore.exts (A : AStore α) : Exts := fun x => (A x).map fun a => a.ext

/-- Those of a state of a program. -/
def worldExts (w : World α) : Exts := fun x => (w.env x).map fun c => c.ext

/-! ### Index expressions that fit -/

/-- The index expressions of `x[h]…` fit (Spec/Fits.lean: bounds are 64-bit numbers, no over-long lone strides, no view with more than 2^62
elements). -/
def ChainFits (E : Exts) (x : Nat) (h : List Ix) : Prop := ∀ e, E x = some e → FitsAll maxElems (.view (arrayView 0 e)) h

def ScFits (E : Exts) : Sc α → Prop
  | .const _ => True
  | .elem x h => ChainFits E x h

def ExFits (E : Exts) : PEx α → Prop
  | .arr x h => ChainFits E x h
  | .un _ e => ExFits E e
  | .bin _ a b => ExFits E a ∧ ExFits E b
  | .scl _ s e => ScFits E s ∧ ExFits E e
  | .scr _ e s => ExFits E e ∧ ScFits E s

/-- All index expressions of a statement fit, and the extents written in it are at most 2^62. -/
def IxsFit (E : Exts) : Stmt α → Prop
  | .make _ e => ExFits E e
  | .makeFill _ s ext => ScFits E s ∧ ∀ n ∈ ext, n ≤ maxElems
  | .makeFrom _ _ ext => ∀ n ∈ ext, n ≤ maxElems
  | .drop _ => True
  | .fill x h s => ChainFits E x h ∧ ScFits E s
  | .assign x h e => ChainFits E x h ∧ ExFits E e
  | .inPlace x h _ e => ChainFits E x h ∧ ExFits E e
  | .inPlaceScalar x h _ s => ChainFits E x h ∧ ScFits E s
  | .apply x h _ => ChainFits E x h
  | .overlap x h e => ChainFits E x h ∧ ExFits E e
  | .overlapWhole _ e => ExFits E e
  | .set _ e => ExFits E e
  | .moveAssign _ _ => True

/-! ### Memory that is needed -/

/-- The extents of an expression (those of its leftmost operand). -/
def exExt (E : Exts) : PEx α → List Nat
  | .arr x h => match E x with
    | none => []
    | some e => match imeaning e h with
      | .view v => v.ext
      | .part _ _ => []
  | .un _ e => exExt E e
  | .bin _ a _ => exExt E a
  | .scl _ _ e => exExt E e
  | .scr _ e _ => exExt E e

/-- The number of elements the statement (possibly) allocates. -/
def request (E : Exts) : Stmt α → Nat
  | .make _ e => prod (exExt E e)
  | .makeFill _ _ ext => prod ext
  | .makeFrom _ _ ext => prod ext
  | .overlap _ _ e => prod (exExt E e)
  | .overlapWhole _ e => prod (exExt E e)
  | .set _ e => prod (exExt E e)
  | _ => 0

/-- The number of elements of an array. -/
def elems (E : Exts) (x : Nat) : Nat := match E x with
  | some e => prod e
  | none => 0

/-- All arrays in scope together have at most `n` elements. -/
def TotalAtMost (E : Exts) (n : Nat) : Prop := ∃ names : List Nat, (∀ x, E x ≠ none → x ∈ names) ∧ (names.map (elems E)).sum ≤ n

/-- 64 bits and a memory for `B` elements are enough for the statement. -/
def StmtFits (B : Nat) (E : Exts) (s : Stmt α) : Prop := IxsFit E s ∧ ∃ n, TotalAtMost E n ∧ n + request E s ≤ B

/-- At most `n` elements are alive. -/
def AliveAtMost (m : Mem α) (n : Nat) : Prop := ∃ l : List Nat, l.length ≤ n ∧ ∀ q, m q ≠ none → q ∈ l

/-- An allocator with memory for `B` elements on a 64-bit machine: as long as the elements in use and the requested ones are at most `B`, it
returns a free block below the address 2^62 (in units of elements). -/
def GoodAlloc64 (B : Nat) (alloc : Nat → Mem α → Nat → Nat) : Prop :=
  ∀ (k : Nat) (m : Mem α) (u n : Nat), AliveAtMost m u → u + n ≤ B →
    (∀ i, i < n → m (alloc k m n + i) = none) ∧ alloc k m n + n < maxElems

/-- A sequence of legal statements for which 64 bits are enough takes the store `A` to `A'`. -/
inductive Runs64 (B : Nat) : AStore α → List (Stmt α) → AStore α → Prop
  | nil : Runs64 B A [] A
  | cons : StmtLegal A s → StmtFits B A.exts s → Effect A s A₁ → Runs64 B A₁ p A' → Runs64 B A (s :: p) A'

/-- 64 bits are enough for each statement that is executed when the program runs (in a checked build, from the state `w`). -/
def FitsRun (B : Nat) (alloc : Nat → Mem α → Nat → Nat) : World α → List (Stmt α) → Prop
  | _, [] => True
  | w, s :: p => StmtFits B (worldExts w) s ∧ ∀ w', w.step Arith.u64 true alloc s = .ok w' → FitsRun B alloc w' p

/-- All arrays lie below the address 2^62 and have extents of at most 2^62. -/
def Below (w : World α) : Prop := ∀ x c, w.env x = some c → (∀ n ∈ c.ext, n ≤ maxElems) ∧ c.base + prod c.ext < maxElems

end Jules.Spec

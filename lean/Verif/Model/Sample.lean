import Verif.Model.Random
import Mathlib.Data.Rat.Defs
/-
Model of base/random.hpp: sampling from a distribution.
-/
namespace Jules

/-- A distribution object together with its generator: one call `dist(g)` returns a value and changes the state of both. base/random.hpp:34. -/
structure Sampler (S V : Type) where
  call : S → V × S

/-- base/random.hpp:34 `sample(dist, g)`. -/
def Sampler.one (d : Sampler S V) (s : S) : V × S := d.call s

/-- The view `ranges::views::generate_n(f, n)` (range-v3, an input view): how many elements are left, and the element read last, if it was read since the last `++`.
base/random.hpp:38. -/
structure GenN (S V : Type) where
  left : Nat
  val : Option V
  st : S

/-- `*it` of `generate_n`: calls the function only if the current element has not been read yet. base/random.hpp:38. -/
def GenN.read (d : Sampler S V) (g : GenN S V) : V × GenN S V :=
  match g.val with
  | some v => (v, g)
  | none => let (v, s) := d.call g.st; (v, { g with val := some v, st := s })

/-- `++it` of `generate_n`: calls the function if the current element has not been read, so that it is skipped. base/random.hpp:38. -/
def GenN.next (d : Sampler S V) (g : GenN S V) : GenN S V :=
  match g.val with
  | some _ => { g with left := g.left - 1, val := none }
  | none => { g with left := g.left - 1, st := (d.call g.st).2 }

/-- The construction of the `const_vector` from the view (base/random.hpp:39, base/const_vector.hpp:70-72, `std::vector` from a pair of input iterators): test, read, append,
advance. -/
def GenN.collect (d : Sampler S V) : (fuel : Nat) → GenN S V → List V → Res (List V × S)
  | 0, g, acc => if g.left = 0 then .ok (acc, g.st) else .error .outOfFuel
  | fuel + 1, g, acc =>
    if g.left = 0 then .ok (acc, g.st)
    else
      let (v, g) := g.read d
      GenN.collect d fuel (g.next d) (acc ++ [v])

/-- base/random.hpp:36-40 `sample(n, dist, g)`. -/
def Sampler.many (d : Sampler S V) (n : Nat) (s : S) : Res (List V × S) := GenN.collect d n ⟨n, none, s⟩ []

/-- The weights a `std::discrete_distribution(first, last)` works with: those given, or a single 1 if there are none ([rand.dist.samp.discrete]).
base/random.hpp:92 and 101. -/
def discreteWeights (w : List ℚ) : List ℚ := if w = [] then [1] else w

/-- A `std::discrete_distribution` that keeps to its contract: the indices it yields have positive weight. base/random.hpp:92 and 101. -/
def DiscreteFor (w : List ℚ) (d : Sampler S Nat) : Prop := ∀ s, ∃ x, (discreteWeights w)[(d.call s).1]? = some x ∧ 0 < x

end Jules

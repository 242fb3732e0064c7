import Verif.Basic
import Verif.Model.Layout
/-
Model of base/random.hpp: index sampling.
-/
namespace Jules

/-- base/random.hpp:73-82 the loop of `uniform_index_sample(no_replacement, n, end, g)`. `canon k` is the value of the `k`-th call of
`canon_sample` (base/random.hpp:29-32, `std::generate_canonical`, a number in [0, 1) by the standard); one call is made per
iteration, so `k` counts the iterations. `less rem c need` decides the test `(end - t) * c < n - m` for `rem = end - t` and
`need = n - m` (unsigned subtractions; `m < n` holds, so the second cannot wrap). The result lists the pushed indices. -/
def selLoop (less : Nat → C → Nat → Bool) (canon : Nat → C) (n e : Nat) : (fuel k t m : Nat) → Res (List Nat)
  | 0, _, _, m => if m < n then .error .outOfFuel else .ok []
  | fuel + 1, k, t, m =>
    if m < n then
      if less ((e + (W64 - t)) % W64) (canon k) (n - m) then do
        let rest ← selLoop less canon n e fuel (k + 1) ((t + 1) % W64) (m + 1)
        .ok (t :: rest)
      else selLoop less canon n e fuel (k + 1) ((t + 1) % W64) m
    else .ok []

/-- base/random.hpp:66-85 `uniform_index_sample(no_replacement, n, end, g)`, run for at most `fuel` iterations. -/
def sampleNoRepl (less : Nat → C → Nat → Bool) (canon : Nat → C) (n e fuel : Nat) : Res (List Nat) :=
  selLoop less canon n e fuel 0 0 0

/-- The test in exact arithmetic. (The code computes in `double`.)
base/random.hpp:77. -/
def lessExact (rem : Nat) (c : Rat) (need : Nat) : Bool := decide ((rem : Rat) * c < need)

/-- The test in `double`, as the code computes it: `rnd` rounds to `double`. `end - t` and `n - m` are converted, the product is
rounded. base/random.hpp:77. -/
def lessDouble (rnd : Rat → Rat) (rem : Nat) (c : Rat) (need : Nat) : Bool := decide (rnd (rnd rem * c) < rnd need)

/-- base/random.hpp:54-58 `uniform_index_sample(n, end, g)`: a `std::uniform_int_distribution<index_t>(0, end - 1)` is sampled `n`
times (base/random.hpp:36-40); `draw k a b` is the value of its `k`-th call, in [a, b] by the standard when `a ≤ b`. -/
def sampleRepl (draw : Nat → Nat → Nat → Nat) (n e : Nat) : List Nat :=
  (List.range n).map fun k => draw k 0 ((e + (W64 - 1)) % W64)

end Jules

/-
Specification of multi-dimensional indices, independent of the model.

An array of order N has extents `e = [e₀, …, e_{N-1}]`; its elements are addressed by
multi-indices `i = [i₀, …, i_{N-1}]` with `i_k < e_k`.
-/
namespace Jules.Spec

/-- `i` is a valid multi-index for the extents `e`. -/
def InB : (ext idx : List Nat) → Prop
  | [], [] => True
  | e :: es, i :: is => i < e ∧ InB es is
  | _, _ => False

instance instDecInB : (ext idx : List Nat) → Decidable (InB ext idx)
  | [], [] => isTrue trivial
  | _ :: es, _ :: is => @instDecidableAnd _ _ _ (instDecInB es is)
  | [], _ :: _ => isFalse id
  | _ :: _, [] => isFalse id

/-- Product of a list of extents. -/
def prod : List Nat → Nat
  | [] => 1
  | e :: es => e * prod es

/-- Column-major position: `Σ_k i_k * Π_{j<k} e_j` (Horner form of the sum; see
`cmPos_eq_sum`). -/
def cmPos : List Nat → List Nat → Nat
  | e :: es, i :: is => i + e * cmPos es is
  | _, _ => 0

/-- The sum `Σ_k i_k * Π_{j<k} e_j` written literally. -/
def cmSum (e i : List Nat) : Nat :=
  ((List.range i.length).map fun k => i.getD k 0 * prod (e.take k)).sum

/-- Cartesian product of lists of choices, first coordinate varying fastest. -/
def cart : List (List α) → List (List α)
  | [] => [[]]
  | l :: ls => (cart ls).flatMap fun t => l.map (· :: t)

/-- All multi-indices of the extents `e` in column-major order (first index fastest). -/
def multiIdx (e : List Nat) : List (List Nat) := cart (e.map List.range)

/-- Pointwise choice: `choose [l₀,…] [j₀,…] = [l₀[j₀], …]`. -/
def choose : List (List Nat) → List Nat → List Nat
  | l :: ls, j :: js => l.getD j 0 :: choose ls js
  | _, _ => []

end Jules.Spec

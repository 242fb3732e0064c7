import Verif.Spec.Index
import Verif.Model.Slicing
/-
Specification of indexing: what each index expression selects, and what the resulting view is.

An abstract view is a shape together with the memory position of each multi-index. The only thing
taken from the model is the syntax of index expressions (`Ix`).
-/
namespace Jules.Spec

/-- An abstract view. `pos` is only meaningful on valid multi-indices of `ext`. An element is a view
of order zero. -/
structure AView where
  ext : List Nat
  pos : List Nat → Nat

/-- The number of positions a bounded strided slice considers in a dimension of extent `d`: what the
library computes. It equals the number of `k < d` of the form `s + j*t` only when the remainder of
`(d - s) / t` is `0` or `t - 1`; see C09 for the exact relation (this is a defect of the library). -/
def stridedCount (s d t : Nat) : Nat :=
  if s < d then (d - s + if (d - s) % t = 0 then 0 else 1) / t else 0

/-- The indices an index expression selects in a dimension of extent `d`, in order. -/
def sel (d : Nat) : Ix → List Nat
  | .at i => [i]
  | .slice s x => (List.range x).map (s + ·)
  | .strided s x t => (List.range x).map fun k => s + k * t
  | .every => List.range d
  | .bounded s m => ((List.range d).filter fun k => s ≤ k).take m
  | .boundedStrided s m t => ((List.range d).filter fun k => s ≤ k ∧ (k - s) % t = 0).take (min m (stridedCount s d t))
  | .rng l => l

/-- The view obtained by choosing `sels[k]` along dimension `k`. -/
def restrict (v : AView) (sels : List (List Nat)) : AView :=
  ⟨sels.map List.length, fun j => v.pos (choose sels j)⟩

/-- Fixing the first index. -/
def fixFirst (v : AView) (i : Nat) : AView := ⟨v.ext.tail, fun t => v.pos (i :: t)⟩

/-- The meaning of a partially applied chain: a view, or a view with the selections given so far. -/
inductive AObj where
  | view (v : AView)
  | part (v : AView) (sels : List (List Nat))

/-- Finish a chain of selections once there is one per dimension. -/
def close (v : AView) (sels : List (List Nat)) : AObj :=
  if sels.length = v.ext.length then .view (restrict v sels) else .part v sels

/-- One `[ix]`: a plain index on a view fixes the first dimension; any other index expression starts a
chain of selections, one per dimension, in which a plain index selects a single position (and keeps
the dimension, with extent 1). -/
def astep : AObj → Ix → AObj
  | .view v, .at i => .view (fixFirst v i)
  | .view v, ix => close v [sel (v.ext.headD 0) ix]
  | .part v sels, ix => close v (sels ++ [sel (v.ext.getD sels.length 0) ix])

/-- Every selected index lies inside its dimension. -/
def selsInside (ext : List Nat) (sels : List (List Nat)) : Prop :=
  ∀ (k : Nat) (l : List Nat) (e : Nat), sels[k]? = some l → ext[k]? = some e → ∀ i ∈ l, i < e

/-- What a checked application of `[ix]` must have verified: a plain index is inside the first
dimension; when the chain is complete, every selected index is inside its dimension. -/
def Admissible : AObj → Ix → Prop
  | .view v, .at i => i < v.ext.headD 0
  | .view v, ix => v.ext.length = 1 → selsInside v.ext [sel (v.ext.headD 0) ix]
  | .part v sels, ix => sels.length + 1 = v.ext.length →
      selsInside v.ext (sels ++ [sel (v.ext.getD sels.length 0) ix])

/-- Strides are positive. -/
def strideOK : Ix → Prop
  | .strided _ _ t => 0 < t
  | .boundedStrided _ _ t => 0 < t
  | _ => True

/-- An index expression is legal for a dimension of extent `d`: it selects at least one index, only
indices of the dimension, and strides are positive. -/
def LegalIx (d : Nat) (ix : Ix) : Prop :=
  strideOK ix ∧ sel d ix ≠ [] ∧ ∀ i ∈ sel d ix, i < d

/-- `[ix]` is legal: no extent is zero and `ix` is legal for the dimension it applies to. -/
def Legal : AObj → Ix → Prop
  | .view v, ix => (∀ x ∈ v.ext, x ≠ 0) ∧ LegalIx (v.ext.headD 0) ix
  | .part v sels, ix => (∀ x ∈ v.ext, x ≠ 0) ∧ LegalIx (v.ext.getD sels.length 0) ix

/-- Every step of a history is legal. -/
def LegalAll : AObj → List Ix → Prop
  | _, [] => True
  | a, ix :: h => Legal a ix ∧ LegalAll (astep a ix) h

/-- Two views are the same: same shape and same position for each valid multi-index. -/
def SameView (v w : AView) : Prop := v.ext = w.ext ∧ ∀ i, InB v.ext i → v.pos i = w.pos i

/-- Two meanings are the same. -/
def SameObj : AObj → AObj → Prop
  | .view v, .view w => SameView v w
  | .part v s, .part w t => SameView v w ∧ s = t
  | _, _ => False

/-- The positions of a view in column-major order. -/
def AView.enum (v : AView) : List Nat := (multiIdx v.ext).map v.pos

end Jules.Spec

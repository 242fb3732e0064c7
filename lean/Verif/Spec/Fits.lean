import Verif.Spec.View
/-
When 64 bits are enough: conditions on the array and on the index expressions, in terms of their values only.
-/
namespace Jules.Spec

/-- The largest number of elements considered, 2^62. (An allocation has fewer than 2^63 bytes.) -/
def maxElems : Nat := 2 ^ 62

/-- The bounds written in an index expression for a dimension of extent `d` are 64-bit numbers: the end of a slice, the last index of a
strided slice. A strided slice that selects only one index must not have a stride beyond the extent. -/
def IxFits (d : Nat) : Ix → Prop
  | .slice s x => s + x < 2 ^ 64
  | .strided s x t => (0 < x → s + (x - 1) * t < 2 ^ 64) ∧ (x = 1 → t ≤ max 1 d)
  | .bounded s _ => s < 2 ^ 64
  | .boundedStrided s m t => s < 2 ^ 64 ∧ ((sel d (.boundedStrided s m t)).length = 1 → t ≤ max 1 d)
  | _ => True

/-- The extent of the dimension the next index expression applies to. -/
def nextDim : AObj → Nat
  | .view v => v.ext.headD 0
  | .part v sels => v.ext.getD sels.length 0

/-- A view has at most `n` elements. (Index ranges may repeat elements, so a view can be larger than the array.) -/
def SizeAtMost (n : Nat) : AObj → Prop
  | .view v => prod v.ext ≤ n
  | .part _ _ => True

/-- Every index expression of the chain fits, up to the first that is out of range, and no view has more than `n` elements. -/
def FitsAll (n : Nat) : AObj → List Ix → Prop
  | _, [] => True
  | a, ix :: h => IxFits (nextDim a) ix ∧ (Admissible a ix → SizeAtMost n (astep a ix) ∧ FitsAll n (astep a ix) h)

/-- A strided slice that selects a single index of a dimension of extent `d` has a stride of at most `d`. -/
def LoneStrideOK (d : Nat) : Ix → Prop
  | .strided _ x t => x = 1 → t ≤ d
  | .boundedStrided s m t => (sel d (.boundedStrided s m t)).length = 1 → t ≤ d
  | _ => True

/-- Not an explicit list of indices. -/
def NotList : Ix → Prop
  | .rng _ => False
  | _ => True

/-- Every step of the chain is legal, without explicit lists of indices and without over-long strides. -/
def OrdinaryAll : AObj → List Ix → Prop
  | _, [] => True
  | a, ix :: h => Legal a ix ∧ NotList ix ∧ LoneStrideOK (nextDim a) ix ∧ OrdinaryAll (astep a ix) h

end Jules.Spec

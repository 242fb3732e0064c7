import Verif.Spec.SafeBlocks
import Verif.Spec.DebugThrows
import Verif.Spec.NoMemory
/-
Specification for C90: which failed checks cannot be caught, in programs with blocks and handlers. From the model only the syntax of programs is used.
-/
namespace Jules.Spec

/-- A chain of indices whose failed checks may be fatal: it selects nothing by an empty list or slice, or the array has a zero extent (and two or more
dimensions). -/
def StuckChain (S : MStore α) (x : Nat) (h : List Ix) : Prop := h ≠ [] ∧ (EmptySel h ∨ ∃ a, S.live x = some a ∧ Flat a.ext)

/-- A statement whose failed checks may be fatal although failed checks throw: it has such a chain, or is a self-move. -/
def XUncatchable (S : MStore α) (s : XStmt α) : Prop :=
  ∃ t, erase s = some t ∧ ((∃ x h, (x, h) ∈ mchains t ∧ StuckChain S x h) ∨ ∃ x, t = .old (.moveAssign x x))

/-- No empty selections, no new arrays of zero extents in two or more dimensions, no self-move. -/
def XCautious (s : XStmt α) : Prop :=
  ∀ t, erase s = some t →
    match t with
    | .declare _ n => n = 1
    | .moveMake _ _ => True
    | .old u => Cautious u

/-- The same for a program. -/
def CautiousB : Body α β → Prop
  | .ret _ => True
  | .throw => True
  | .exec s k => XCautious s ∧ CautiousB k
  | .read s k => (∀ p ∈ scChains s, ¬ EmptySel p.2) ∧ ∀ v, CautiousB (k v)
  | .elements e k => (∀ p ∈ exChains (shapeE e), ¬ EmptySel p.2) ∧ ∀ d xs, CautiousB (k d xs)
  | .block body k => CautiousB body ∧ ∀ b, CautiousB (k b)
  | .call _ _ body k => CautiousB body ∧ ∀ b, CautiousB (k b)
  | .attempt body handler k => CautiousB body ∧ CautiousB handler ∧ ∀ b, CautiousB (k b)

end Jules.Spec

import Verif.Spec.Program64
import Verif.Spec.SafeProg
/-
Specification for C78: whole programs (control flow, moves, failing allocations) for which 64 bits are enough. From the model only the syntax and, for programs that
need not be legal, what statements do.
-/
namespace Jules.Spec

/-- 64 bits and a memory for `B` elements are enough for the statement (arrays with the extents `E` are in scope; moves and default construction need nothing). -/
def MStmtFits (B : Nat) (E : Exts) : MStmt α → Prop
  | .old s => StmtFits B E s
  | _ => True

/-- 64 bits are enough for the program, whatever values come out and whatever fails. -/
def FitsG (B : Nat) (S : MStore α) : GProg α β → Prop
  | .ret _ => True
  | .exec s k => MStmtFits B S.live.exts s ∧ (∀ S₁, MEffect S s S₁ → FitsG B S₁ (k true)) ∧ FitsG B S (k false)
  | .read s k => ScFits S.live.exts s ∧ (∀ v, scVal S.live s = some v → FitsG B S (k (some v))) ∧ FitsG B S (k none)
  | .elements e k => ExFits S.live.exts e ∧ (∀ d xs, Elements S e d xs → FitsG B S (k (some (d, xs)))) ∧ FitsG B S (k none)

/-- All arrays lie below the address 2^62, and no extents, not even those of moved-from arrays, promise more than 2^62 elements. -/
structure BelowM (W : MWorld α) : Prop where
  live : Below W.w
  moved : ∀ x d, W.gone x = some d → (∀ n ∈ d, n ≤ maxElems) ∧ prod d ≤ maxElems

/-- 64 bits are enough for each statement that is executed when the program runs in a checked build from the state `W`, whatever fails. -/
def FitsRunG (B : Nat) (alloc : Nat → Mem α → Nat → Nat) (W : MWorld α) : GProg α β → Prop
  | .ret _ => True
  | .exec s k => MStmtFits B (worldExts W.w) s ∧ (∀ W', W.step Arith.u64 true alloc s = .ok W' → FitsRunG B alloc W' (k true)) ∧
      FitsRunG B alloc ⟨⟨W.w.mem, W.w.env, W.w.clock + 1⟩, W.gone⟩ (k false)
  | .read s k => ScFits (worldExts W.w) s ∧ ∀ o, FitsRunG B alloc W (k o)
  | .elements e k => ExFits (worldExts W.w) e ∧ ∀ o, FitsRunG B alloc W (k o)

end Jules.Spec

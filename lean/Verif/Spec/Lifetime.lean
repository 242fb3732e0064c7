import Verif.Spec.Init
/-
What C23 and C25 say, independently of how the library works.
-/
namespace Jules.Spec

/-- An array object that claims to have elements but has no storage: what a move, a release or a reshape of an
rvalue leaves behind. -/
def Hollow (o : Own) : Prop := o.ptr = none ∧ prod o.ext ≠ 0

instance (o : Own) : Decidable (Hollow o) := inferInstanceAs (Decidable (_ ∧ _))

/-- The state is tidy up to raw blocks that nobody owns: every array with storage owns a live block with as many
constructed elements as its size, no block has two owners, every other live block is raw, and no element's
storage was ever reused or freed before its destructor ran. -/
structure Tidy (s : PState α) : Prop where
  owned : ∀ x o id, s.env x = some o → o.ptr = some id →
    ∃ vs : List α, s.heap.cells id = some (vs.map some) ∧ vs.length = prod o.ext
  once : ∀ x y o o' id, s.env x = some o → s.env y = some o' → o.ptr = some id → o'.ptr = some id → x = y
  raw : ∀ id c, s.heap.cells id = some c → (∃ x o, s.env x = some o ∧ o.ptr = some id) ∨ ∀ v ∈ c, v = none
  lost : s.heap.lost = 0

/-- Nothing is leaked: every live block has an owner. -/
def NoLeak (s : PState α) : Prop := ∀ id c, s.heap.cells id = some c → ∃ x o, s.env x = some o ∧ o.ptr = some id

/-- Nothing is allocated. -/
def Freed (s : PState α) : Prop := ∀ id, s.heap.cells id = none

/-- What the caller has to respect: sequences and expressions deliver as many elements as the extents require, element
indices are in range, in unchecked builds nested lists are rectangular and reshapes keep the size, and (the part
that is not obvious) an array left behind by a move is not read, and not assigned something of the size it claims. -/
def Allowed (chk : Bool) (s : PState α) : HOp α → Prop
  | .iter _ l ext => prod ext ≤ l.length
  | .init _ n v => n ≠ 0 ∧ (chk = true ∨ ∃ ext, Rect n v ext ∧ ∀ e ∈ ext, e ≠ 0)
  | .copy _ y => ∀ o, s.env y = some o → ¬ Hollow o
  | .assign x y => ∀ a b, s.env x = some a → s.env y = some b → ¬ Hollow b ∧ (Hollow a → prod a.ext ≠ prod b.ext)
  | .assignExpr x ext l => prod ext ≤ l.length ∧ ∀ a, s.env x = some a → Hollow a → prod a.ext ≠ prod ext
  | .reshape _ y ext => chk = true ∨ ∀ o, s.env y = some o → prod o.ext = prod ext
  | .write x k _ => ∀ o, s.env x = some o → ¬ Hollow o ∧ k < prod o.ext
  | _ => True

/-- Assignments that copy elements. -/
def IsAssign : HOp α → Prop
  | .assign .. => True
  | .assignExpr .. => True
  | _ => False

/-- The program stays within `Allowed` for as long as it runs; with `calm`, no copying assignment throws. -/
inductive Careful (S : Nat → Bool) (chk calm : Bool) : PState α → List (HOp α) → Prop where
  | nil (s) : Careful S chk calm s []
  | stop {s op ops f} : Allowed chk s op → hstep S chk s op = .error f → Careful S chk calm s (op :: ops)
  | step {s op ops s' e} : Allowed chk s op → hstep S chk s op = .ok (s', e) →
      (calm = true → IsAssign op → e = none) → Careful S chk calm s' ops → Careful S chk calm s (op :: ops)

end Jules.Spec

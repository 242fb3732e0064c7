import Verif.Spec.View
/-
What a user can observe of an object returned by indexing, without looking at its representation.
-/
namespace Jules.Spec

/-- The object `o` (in a checked build) behaves as the abstract view `v`:
* `dimensions()` are `v`'s extents (an element has none);
* iterating it from `begin()` to `end()` visits `v`'s positions in column-major order;
* `o[i₀]…[i_{N-1}]` is the element at `v`'s position when all indices are in range, and is
  reported by an assertion when some index is out of range. -/
structure Observes (o : Obj) (v : AView) : Prop where
  dims : o.dims.getD [] = v.ext
  iterate : o.positions Arith.exact = .ok v.enum
  element : ∀ i, InB v.ext i → o.run Arith.exact true (i.map .at) = .ok (.elem (v.pos i))
  reject : ∀ i, i.length = v.ext.length → ¬ InB v.ext i →
    o.run Arith.exact true (i.map .at) = .error .assert

/-- The abstract view of an array with extents `e` stored contiguously from offset `off`. -/
def arrayView (off : Nat) (e : List Nat) : AView := ⟨e, fun i => off + cmSum e i⟩

/-- What a chain of index expressions applied to an array means. -/
def meaning (off : Nat) (e : List Nat) (h : List Ix) : AObj := h.foldl astep (.view (arrayView off e))

/-- A chain of index expressions `h` applied in a checked build to an array with extents `e` gives
the view `o`, which means `v`. -/
def ViewOf (e : List Nat) (h : List Ix) (o : Obj) (v : AView) : Prop :=
  e ≠ [] ∧ (Obj.cref 0 e).run Arith.exact true h = .ok o ∧ meaning 0 e h = .view v

end Jules.Spec

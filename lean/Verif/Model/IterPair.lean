import Verif.Model.Heap
import Verif.Model.DataFrame
/-
Model of the constructors that take iterators: array.hpp:158-168 (iterator and extents), array.hpp:252-265 (iterator and sentinel),
dataframe.hpp:89-127 (iterator and sentinel). Iterators are given by what they do; copies of an iterator share the state of what they
iterate over (the stream of an input iterator).
-/
namespace Jules

/-- An iterator type with its sentinel: `ι` is what an iterator object contains (copied with it), `σ` the state shared by all copies.
`none` is undefined behaviour.
The template parameters `Iter`, `Sent`, `It` of array.hpp:157, 252 and dataframe.hpp:89-104. -/
structure Iterator (σ ι α : Type) where
  /-- `it == last` -/
  atEnd : ι → σ → Bool
  /-- `*it` -/
  deref : ι → σ → Option α
  /-- `++it` -/
  next : ι → σ → Option (ι × σ)

/-- `ranges::distance(first, last)` (array.hpp:254-255, dataframe.hpp:100): increments a copy until it equals the sentinel and counts. (For
iterators that can be subtracted it is the difference, which is the same number.) -/
def Iterator.distance {σ ι α : Type} (I : Iterator σ ι α) : (fuel : Nat) → ι → σ → Res (Nat × σ)
  | 0, _, _ => .error .outOfFuel
  | fuel + 1, it, s =>
    if I.atEnd it s then .ok (0, s)
    else match I.next it s with
      | none => .error .ub
      | some p => do
        let r ← I.distance fuel p.1 p.2
        .ok (r.1 + 1, r.2)

/-- `std::uninitialized_copy_n(from, n, to)` (allocator.hpp:40-44), the reading side: dereference and increment `n` times. Simplification: all
values are read before the first element is constructed. -/
def Iterator.pull {σ ι α : Type} (I : Iterator σ ι α) : (n : Nat) → ι → σ → Res (List α × σ)
  | 0, _, s => .ok ([], s)
  | n + 1, it, s =>
    match I.deref it s with
    | none => .error .ub
    | some v => match I.next it s with
      | none => .error .ub
      | some p => do
        let r ← I.pull n p.1 p.2
        .ok (v :: r.1, r.2)

/-- array.hpp:252-265 `array(begin, end)`: the distance is computed for the allocation and again for the extent, then the elements are
copied starting from `begin`. Returns the array and the final state of the underlying sequence. -/
def pairArr {σ ι α : Type} (S : Nat → Bool) (I : Iterator σ ι α) (fuel : Nat) (it : ι) (s : σ) : HM α (Own × σ) := do
  let d1 ← HM.lift (I.distance fuel it s)
  let id ← allocate S d1.1
  let d2 ← HM.lift (I.distance fuel it d1.2)
  let vs ← HM.lift (I.pull d2.1 it d2.2)
  (constructLoop S id [] (seqPlan d2.1 (iterSrc vs.1))).cleanup (deallocate id)
  pure (⟨some id, [d2.1]⟩, vs.2)

/-- array.hpp:157-168 `array(it, dims...)`, for any iterator. -/
def iterExtArr {σ ι α : Type} (S : Nat → Bool) (I : Iterator σ ι α) (it : ι) (s : σ) (ext : List Nat) : HM α (Own × σ) := do
  let id ← allocate S (prodL Arith.exact ext)
  let vs ← HM.lift (I.pull (prodL Arith.exact ext) it s)
  (constructLoop S id [] (seqPlan (prodL Arith.exact ext) (iterSrc vs.1))).cleanup (deallocate id)
  pure (⟨some id, ext⟩, vs.2)

/-- dataframe.hpp:111 `std::all_of(first, last, …)`, the reading side: visit everything from `first` to `last`. Simplification: the visit goes
on after a column of the wrong size (the constructor throws in any case). -/
def Iterator.visit {σ ι α : Type} (I : Iterator σ ι α) : (fuel : Nat) → ι → σ → Res (List α)
  | 0, _, _ => .error .outOfFuel
  | fuel + 1, it, s =>
    if I.atEnd it s then .ok []
    else match I.deref it s with
      | none => .error .ub
      | some v => match I.next it s with
        | none => .error .ub
        | some p => do
          let r ← I.visit fuel p.1 p.2
          .ok (v :: r)

/-- dataframe.hpp:97-127 `base_dataframe(first, last)` for input iterators: the distance (for `reserve`), then the first element without asking
whether there is one, then the others. `conv` is the construction of the stored element: a copy, or nothing for temporaries. (The overload of
dataframe.hpp:89-95 needs an iterator that is not an input iterator but can be dereferenced and incremented as one.) -/
def DF.ofIters {C : Coercion} {σ ι : Type} (I : Iterator σ ι (Named C)) (conv : Named C → Res (Named C)) (fuel : Nat) (it : ι) (s : σ) :
    Res (DF C) := do
  let d ← I.distance fuel it s
  match I.deref it d.2 with
  | none => .error .ub
  | some x => match I.next it d.2 with
    | none => .error .ub
    | some p => do
      let xs ← I.visit fuel p.1 p.2
      DF.ofIter ((x :: xs).map conv)

end Jules

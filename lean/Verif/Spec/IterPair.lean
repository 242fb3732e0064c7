import Verif.Model.IterPair
/-
What an iterator traverses, and the two usual kinds of single-pass iterators.
-/
namespace Jules.Spec

/-- Traversing once, starting with the iterator `it` in state `s`, gives the elements `l`. -/
inductive Traverses (I : Iterator σ ι α) : ι → σ → List α → Prop
  | done {it s} : I.atEnd it s = true → Traverses I it s []
  | step {it s x it' s' xs} : I.atEnd it s = false → I.deref it s = some x → I.next it s = some (it', s') →
      Traverses I it' s' xs → Traverses I it s (x :: xs)

/-- The traversal changes nothing but the iterator itself, so that it can be repeated: forward iterators, pointers. -/
inductive MultiPass (I : Iterator σ ι α) (s : σ) : ι → List α → Prop
  | done {it} : I.atEnd it s = true → MultiPass I s it []
  | step {it x it' xs} : I.atEnd it s = false → I.deref it s = some x → I.next it s = some (it', s) →
      MultiPass I s it' xs → MultiPass I s it (x :: xs)

/-- Positions in a fixed sequence, such as pointers or `std::list` iterators. -/
def listIter : Iterator (List α) Nat α where
  atEnd k l := k == l.length
  deref k l := l[k]?
  next k l := if k < l.length then some (k + 1, l) else none

/-- `std::istream_iterator`: the iterator holds the value it has read (`none` at the end of the stream), incrementing reads the next one from
the stream, whose unread values are the state. -/
def streamIter : Iterator (List α) (Option α) α where
  atEnd it _ := it.isNone
  deref it _ := it
  next it s := it.map fun _ => (s.head?, s.tail)

/-- The iterator of `ranges::istream` (`views::istream`): everything, including the current value, is in the range. -/
def streamViewIter : Iterator (List α) Unit α where
  atEnd _ s := s.isEmpty
  deref _ s := s.head?
  next _ s := match s with
    | [] => none
    | _ :: xs => some ((), xs)

end Jules.Spec

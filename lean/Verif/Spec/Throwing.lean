import Verif.Model.Throwing
/-
What the elements of an expression with throwing functions are.
-/
namespace Jules.Spec

/-- The element at position `k` of an expression, in the heap `h`: a value, or `none` if one of its functions throws. -/
inductive Outcome (h : Heap α) : HEx α → Nat → Option α → Prop
  | arr {o : Own} {id : Nat} {c : List (Option α)} {k : Nat} {v : α} : o.ptr = some id → h.cells id = some c → c[k]? = some (some v) →
      Outcome h (.arr o) k (some v)
  | scalar {v : α} {k : Nat} : Outcome h (.scalar v) k (some v)
  | un {f : α → Option α} {e : HEx α} {k : Nat} {x : Option α} : Outcome h e k x → Outcome h (.un f e) k (x.bind f)
  | bin {f : α → α → Option α} {a b : HEx α} {k : Nat} {x y : Option α} : Outcome h a k x → Outcome h b k y →
      Outcome h (.bin f a b) k (x.bind fun x => y.bind fun y => f x y)

/-- The results of `n` successive calls of a generator, up to and including the first that throws (`none`). -/
def calls {σ : Type} (f : σ → Option (α × σ)) : Nat → σ → List (Option α)
  | 0, _ => []
  | n + 1, s => match f s with
    | none => [none]
    | some r => some r.1 :: calls f n r.2

end Jules.Spec

import Verif.Spec.View
/-
The static types of index chains: in C++ the type of `a[x][y]…` is fixed at compile time, so it can depend on the order of `a` and on
the kinds of the index expressions but not on their values, nor on extents.
-/
namespace Jules.Spec

/-- Kinds of objects an index chain can have as static type. `lst`: elements are (or will be) selected through a list of positions
(`vector_mapper`), otherwise by strides (`identity_mapper`). -/
inductive Kind where
  /-- An element. -/
  | element
  /-- A contiguous array or view of order `n`. -/
  | contiguous (n : Nat)
  /-- A strided view of order `n`. -/
  | strided (n : Nat) (lst : Bool)
  /-- `k` of `n` index expressions given. -/
  | part (n k : Nat) (lst : Bool)
  /-- `k` of `n` index expressions given on a contiguous array, all of them `every`. -/
  | everys (n k : Nat)
  deriving DecidableEq, Repr

/-- Is the index expression a list of indices? -/
def isList : Ix → Bool
  | .rng _ => true
  | _ => false

/-- After `k + 1` of `n` index expressions. -/
def given (n k : Nat) (lst : Bool) : Kind := if k + 1 = n then .strided n lst else .part n (k + 1) lst

/-- The type of `o[ix]`, if the expression compiles. -/
def typeStep : Kind → Ix → Option Kind
  | .element, _ => none
  | .contiguous n, .at _ => some (if n = 1 then .element else .strided (n - 1) false)
  | .contiguous n, .every => some (if n = 1 then .contiguous 1 else .everys n 1)
  | .contiguous n, .slice _ _ => some (if n = 1 then .contiguous 1 else .part n 1 false)
  | .contiguous n, .bounded _ _ => some (if n = 1 then .contiguous 1 else .part n 1 false)
  | .contiguous n, ix => some (given n 0 (isList ix))
  | .strided n lst, .at _ => some (if n = 1 then .element else .strided (n - 1) lst)
  | .strided n lst, ix => some (given n 0 (lst || isList ix))
  | .part n k lst, ix => some (given n k (lst || isList ix))
  | .everys n k, .at _ => if k + 1 = n then some (.contiguous n) else none
  | .everys n k, .every => some (if k + 1 = n then .contiguous n else .everys n (k + 1))
  | .everys n k, .slice _ _ => some (if k + 1 = n then .contiguous n else .part n (k + 1) false)
  | .everys n k, ix => some (given n k (isList ix))

/-- The type of a chain. -/
def typeOf (n : Nat) (h : List Ix) : Option Kind := h.foldlM typeStep (.contiguous n)

/-- Only the kind of the index expression: values forgotten. -/
def shape : Ix → Ix
  | .at _ => .at 0
  | .slice _ _ => .slice 0 0
  | .strided _ _ _ => .strided 0 0 0
  | .every => .every
  | .bounded _ _ => .bounded 0 0
  | .boundedStrided _ _ _ => .boundedStrided 0 0 0
  | .rng _ => .rng []

/-- The kind of an object of the model. -/
def kindOf : Obj → Kind
  | .elem _ => .element
  | .cref _ ext => .contiguous ext.length
  | .sref _ (.ident d) => .strided d.ext.length false
  | .sref _ (.vec d _) => .strided d.ext.length true
  | .proxy _ m args => .part m.desc.ext.length args.length ((match m with | .ident _ => false | .vec _ _ => true) || !args.all Arg.isDefault)
  | .everyProxy _ ext M => .everys ext.length M

end Jules.Spec

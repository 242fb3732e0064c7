import Verif.Model.Slicing
/-
What the proxies of array/slicing.hpp hold between two applications of `operator[]`, and for how long.

`Model/Slicing.lean` stores the index arguments of an incomplete chain by value. The code stores some of
them as references: `strided_ref_array_proxy::at` (slicing.hpp:331-345) keeps `Index` itself when it is
an lvalue reference. This file models those references and their lifetimes.
-/
namespace Jules

/-- How a proxy holds an index argument (the element types of `std::tuple<Indexes...>`, slicing.hpp:349). -/
inductive Held where
  /-- a member of the proxy (`IndexType` is not a reference, slicing.hpp:239, 342). -/
  | val (a : Arg)
  /-- a reference to the by-value parameter of the `operator[]` call that created the proxy: `at(i)`,
  `at(slice)` in slicing.hpp:309-313 pass an lvalue, so `IndexType` is `index_t&`,
  `absolute_slice&` or `absolute_strided_slice&`. -/
  | param (a : Arg)
  /-- a reference to the caller's range (`const Rng&`, slicing.hpp:325-329, 406-410; ref_array.hpp:154-161,
  strided_ref_array.hpp:152-159); `tmp`: the range is a temporary of the caller's full expression. -/
  | range (l : List Nat) (tmp : Bool)
  /-- a reference to an object that no longer exists (slicing.hpp:349). -/
  | dead
  deriving DecidableEq, Repr

/-- Reading a held argument (`std::get<I>(indexes_)`, slicing.hpp:340). `pl` is the implementation's choice
for the lifetime of parameters ([expr.call]: it ends when the function returns, `pl = false`, or at the end
of the full expression, `pl = true`). -/
def Held.load (pl : Bool) : Held → Res Arg
  | .val a => .ok a
  | .param a => if pl then .ok a else .error .ub
  | .range l _ => .ok (.rng l)
  | .dead => .error .ub

/-- The end of the full expression in which the proxy was created: parameters and temporaries are gone
(slicing.hpp:299-350; the proxy itself can be kept, e.g. `auto p = a[i]; std::move(p)[j]`). -/
def Held.endExpr : Held → Held
  | .param _ => .dead
  | .range _ true => .dead
  | h => h

/-- An object of an indexing chain, with the proxies of slicing.hpp:299-350 as they are represented. -/
inductive HObj where
  /-- an element, a view or a `ref_array_every_proxy` (which holds no arguments, slicing.hpp:426-427). -/
  | obj (o : Obj)
  | proxy (off : Nat) (m : Mapper) (held : List Held)
  deriving DecidableEq, Repr

/-- slicing.hpp:299-350 (see `Held.endExpr`). -/
def HObj.endExpr : HObj → HObj
  | .obj o => .obj o
  | .proxy off m held => .proxy off m (held.map Held.endExpr)

/-- How `strided_ref_array_proxy::operator[]` passes its argument on (slicing.hpp:309-330): indices and
absolute slices as lvalues (references to the parameter), `every` and bounded slices as prvalues, ranges
as the reference they came as. -/
def proxyHold (A : Arith) (m : Mapper) (k : Nat) (ix : Ix) (tmp : Bool) : Res Held :=
  let dim := m.desc.ext.getD k 0
  match ix with
  | .at i => .ok (.param (.idx i))
  | .slice s x => .ok (.param (.slice s x 1))
  | .strided s x t => .ok (.param (.slice s x t))
  | .every => .ok (.val (.slice 0 dim 1))
  | .bounded s mx => .ok (.val (.slice s (boundedExtent s mx dim) 1))
  | .boundedStrided s mx t => do
    let x ← boundedStridedExtent A s mx t dim
    .ok (.val (.slice s x t))
  | .rng l => .ok (.range l tmp)

/-- slicing.hpp:309-345: with one argument per dimension the held ones are read and the slice is made (the
argument of the call in progress is alive); otherwise a larger proxy is made. -/
def hproxyIndex (pl : Bool) (A : Arith) (chk : Bool) (off : Nat) (m : Mapper) (held : List Held) (ix : Ix)
    (tmp : Bool) : Res HObj := do
  let a ← proxyHold A m held.length ix tmp
  if held.length = m.desc.ext.length - 1 then
    let args ← held.mapM (Held.load pl)
    let b ← a.load true
    let o ← arraySlice A chk off m (args ++ [b])
    .ok (.obj o)
  else .ok (.proxy off m (held ++ [a]))

/-- The first index of a chain on a view (slicing.hpp:234-242, 281-290, ref_array.hpp:100-161,
strided_ref_array.hpp:101-159): slices are passed as rvalues and stored by value, ranges by reference. -/
def holdFirst (tmp : Bool) : Arg → Held
  | .rng l => .range l tmp
  | a => .val a

/-- The argument with which `ref_array_every_proxy::at` leaves for a general proxy (slicing.hpp:419-424): the full
slices are prvalues; the argument goes through `strided_ref_array_proxy::operator[]` (by value), so a slice
is held as a reference to the parameter of that call, even when it is the result of evaluating a bounded
slice (lines 397-404). -/
def holdEvery (tmp : Bool) : Arg → Held
  | .rng l => .range l tmp
  | a => .param a

/-- One `[ix]` (slicing.hpp:299-428, ref_array.hpp:100-161, strided_ref_array.hpp:101-159). `tmp`: if `ix` is a range, it is a temporary. -/
def HObj.index (pl : Bool) (A : Arith) (chk : Bool) (o : HObj) (ix : Ix) (tmp : Bool) : Res HObj :=
  match o with
  | .proxy off m held => hproxyIndex pl A chk off m held ix tmp
  | .obj (.everyProxy off ext M) => do
    let r ← everyIndex A chk off ext M ix
    match r with
    | .proxy off m args => .ok (.proxy off m (args.dropLast.map .val ++ (args.getLast?.map (holdEvery tmp)).toList))
    | r => .ok (.obj r)
  | .obj o => do
    let r ← o.index A chk ix
    match r with
    | .proxy off m args => .ok (.proxy off m (args.map (holdFirst tmp)))
    | r => .ok (.obj r)

/-- One step of a program that indexes: `[ix]`, and whether the full expression ends after it (the result
is kept in a variable and used later).
Uses of slicing.hpp:299-428. -/
structure HIx where
  ix : Ix
  /-- if `ix` is a range: it is a temporary. -/
  tmp : Bool := false
  /-- the full expression ends here. -/
  ends : Bool := false
  deriving DecidableEq, Repr

/-- `[ix]`, then possibly the end of the full expression (slicing.hpp:299-428). -/
def HObj.step (pl : Bool) (A : Arith) (chk : Bool) (o : HObj) (x : HIx) : Res HObj := do
  let r ← o.index pl A chk x.ix x.tmp
  .ok (if x.ends then r.endExpr else r)

/-- A chain of indexing steps (slicing.hpp:299-428). -/
def HObj.run (pl : Bool) (A : Arith) (chk : Bool) (o : HObj) (h : List HIx) : Res HObj :=
  h.foldlM (HObj.step pl A chk) o

end Jules

import Verif.Model.Layout
/-
Model of array/slicing.hpp, array/slicing/{absolute,bounded}.hpp, array/mapper.hpp and the indexing
operators of array/ref_array.hpp and array/strided_ref_array.hpp.

A view is represented by what it needs to compute memory positions; positions are offsets from the
`data` pointer of the array the history started from (`off` is the displacement of the view's own
`data_` pointer).
-/
namespace Jules

/-- An argument as it reaches `array_slice`: an index, an absolute (strided) slice, or a sized range
of indices. `absolute_slice` converts to `absolute_strided_slice` with stride 1
(slicing/absolute.hpp:33). -/
inductive Arg where
  | idx (i : Nat)
  | slice (start extent stride : Nat)
  | rng (l : List Nat)
  deriving DecidableEq, Repr

/-- base/numeric.hpp:78-92 `max(rng)` for `index_t` elements: `unbounded_min()` is 0. -/
def maxIdx (l : List Nat) : Nat := l.foldl (fun s x => if s < x then x else s) 0

/-! ### Default slicing -/

/-- slicing.hpp:51-84 `do_slice<D>(strided_descriptor<N>&, args...)`: dimension by dimension, mutating
`start`, `extents[D]`, `strides[D]` (returned here). The checks are CHECK_STRIDE, CHECK_EXTENT,
CHECK_BOUNDS (lines 13-20). The number of arguments must be N (static_assert). Ranges never reach this
function (slicing.hpp:192). -/
def doSlice (A : Arith) (chk : Bool) : (start : Nat) → (ext strides : List Nat) → List Arg →
    Res (Nat × List Nat × List Nat)
  | s, [], [], [] => .ok (s, [], [])
  | s, e :: es, t :: ts, .slice a x d :: as => do
    dbg chk (0 < d)
    dbg chk (0 < x)
    dbg chk (A.add a (A.mul (usub x 1) d) < e)
    let (s', es', ts') ← doSlice A chk (A.add s (A.mul t a)) es ts as
    .ok (s', x :: es', A.mul t d :: ts')
  | s, e :: es, t :: ts, .idx i :: as => do
    dbg chk (i < e)
    let (s', es', ts') ← doSlice A chk (A.add s (A.mul t i)) es ts as
    .ok (s', 1 :: es', 1 :: ts')
  | _, _, _, _ => .error .illFormed

/-- slicing.hpp:86-95 `default_slicing`. -/
def defaultSlicing (A : Arith) (chk : Bool) (d : SDesc) (args : List Arg) : Res SDesc := do
  let (s, e, t) ← doSlice A chk d.start d.ext d.strides args
  .ok ⟨s, e, t⟩

/-! ### Indirect slicing -/

/-- slicing.hpp:110-165 the indirect `do_slice` overloads. Arguments arrive in reverse order (last
dimension first, line 175); `ix` is the suffix of the multi-index built so far; the state is the mutable
`extents` array and the `indexes` vector. `I = N - D - 1` is the number of arguments that remain. -/
def doSliceInd (A : Arith) (chk : Bool) (d : SDesc) : (revArgs : List Arg) → (ix : List Nat) →
    (st : List Nat × List Nat) → Res (List Nat × List Nat)
  | [], ix, (ext, out) => .ok (ext, out ++ [d.pos A ix])
  | .rng l :: as, ix, (ext, out) => do
    dbg chk (maxIdx l < d.ext.getD as.length 0)
    l.foldlM (fun st i => doSliceInd A chk d as (i :: ix) st) (ext.set as.length l.length, out)
  | .idx i :: as, ix, (ext, out) => do
    dbg chk (i < d.ext.getD as.length 0)
    doSliceInd A chk d as (i :: ix) (ext.set as.length 1, out)
  | .slice a x t :: as, ix, (ext, out) => do
    dbg chk (0 < t)
    dbg chk (0 < x)
    dbg chk (A.add a (A.mul (usub x 1) t) < d.ext.getD as.length 0)
    (List.range x).foldlM
      (fun st i => doSliceInd A chk d as (A.add a (A.mul i t) :: ix) st) (ext.set as.length x, out)

/-- slicing.hpp:167-184 `indirect_slicing`: `extents` starts value-initialised (zeros); one argument per
dimension (static_assert). -/
def indirectSlicing (A : Arith) (chk : Bool) (d : SDesc) (args : List Arg) :
    Res (List Nat × List Nat) :=
  if args.length ≠ d.ext.length then .error .illFormed
  else doSliceInd A chk d args.reverse [] (d.ext.map fun _ => 0, [])

/-! ### Mappers -/

/-- mapper.hpp:14-42 `identity_mapper` and mapper.hpp:44-105 `vector_mapper` (a descriptor plus the list of
positions; `index_view` is the list it denotes). Simplification: an `index_view` built from an lvalue
`std::vector<index_t>` does not own the list (base/index_view.hpp:37, 44-46); here the caller is assumed to keep that
vector alive and unmodified; `Model/Borrow.lean` (C57) models the borrowing. -/
inductive Mapper where
  | ident (d : SDesc)
  | vec (d : SDesc) (idx : List Nat)
  deriving DecidableEq, Repr

/-- mapper.hpp:24, 79 `descriptor()`. -/
def Mapper.desc : Mapper → SDesc
  | .ident d => d
  | .vec d _ => d

/-- mapper.hpp:50-55 constructor of `vector_mapper`. -/
def Mapper.mkVec (A : Arith) (chk : Bool) (ext idx : List Nat) : Res Mapper := do
  let d ← SDesc.mk' A chk 0 ext
  dbg chk (idx.length == d.size A)
  .ok (.vec d idx)

/-- Access to the index list, `index_view::operator[]` (base/index_view.hpp:63): out of range is UB. -/
def lookup (idx : List Nat) (i : Nat) : Res Nat :=
  match idx[i]? with
  | some p => .ok p
  | none => .error .ub

/-- mapper.hpp:22 and 57-61 `map(index_t)`. -/
def Mapper.map (chk : Bool) (m : Mapper) (i : Nat) : Res Nat :=
  match m with
  | .ident _ => .ok i
  | .vec _ idx => do
    dbg chk (i < idx.length)
    lookup idx i

/-- Fuel for iterating a descriptor: one more test than its number of elements. A loop that needs more
is reported as `outOfFuel`.
Not in the code: bounds the loops of mapper.hpp:72-76 and 91-92. -/
def iterFuel (d : SDesc) : Nat := prodL Arith.exact d.ext + 1

/-- mapper.hpp:63-77 `map(std::vector)` and `map(strided_descriptor)`: map every position in order. -/
def Mapper.mapAll (chk : Bool) (m : Mapper) (l : List Nat) : Res (List Nat) := l.mapM (m.map chk)

/-- mapper.hpp:28-33 and 83-95 `drop_first_dimension`, both `noexcept`. -/
def Mapper.dropFirst (A : Arith) (chk : Bool) (m : Mapper) (i : Nat) : Res Mapper :=
  match m with
  | .ident d => do
    let n ← d.discard
    .ok (.ident { n with start := A.add d.start (A.mul (d.strides.headD 0) i) })
  | .vec d idx => inNoexcept A (do
    let n ← d.discard
    let n : SDesc := { n with start := A.add d.start i }
    let ps ← n.positions A (iterFuel n)
    let idx' ← Mapper.mapAll chk (.vec d idx) ps
    Mapper.mkVec A chk n.ext idx')

/-! ### Objects -/

/-- What an indexing expression denotes: an element, a contiguous view (`ref_array`, or the array
itself), a strided view (`strided_ref_array`), or one of the two proxies
(slicing.hpp:299-350, 353-428). -/
inductive Obj where
  | elem (pos : Nat)
  | cref (off : Nat) (ext : List Nat)
  | sref (off : Nat) (m : Mapper)
  | proxy (off : Nat) (m : Mapper) (args : List Arg)
  | everyProxy (off : Nat) (ext : List Nat) (M : Nat)
  deriving DecidableEq, Repr

/-- The index expressions accepted by `operator[]`. Bounded slices carry the maximum of their
`bounded_index` (slicing/bounded.hpp:22-45): `at_most(m)` is `m`, `every` is the largest `index_t`. -/
inductive Ix where
  | at (i : Nat)
  | slice (start extent : Nat)
  | strided (start extent stride : Nat)
  | every
  | bounded (start maximum : Nat)
  | boundedStrided (start maximum stride : Nat)
  | rng (l : List Nat)
  deriving DecidableEq, Repr

/-- detail/common.hpp:50-56 `seq_size`; a zero step is a division by zero (UB). -/
def seqSize (A : Arith) (start stop step : Nat) : Res Nat :=
  let size := if start < stop then stop - start else start - stop
  if step = 0 then .error .ub
  else .ok (A.add size (if size % step = 0 then 0 else 1) / step)

/-- slicing/bounded.hpp:80-83 `eval(bounded_slice, dim)`: the extent. -/
def boundedExtent (start maximum dim : Nat) : Nat :=
  min maximum (if start < dim then dim - start else 0)

/-- slicing/bounded.hpp:85-89 `eval(bounded_strided_slice, dim)`: the extent. -/
def boundedStridedExtent (A : Arith) (start maximum stride dim : Nat) : Res Nat :=
  (if start < dim then seqSize A start dim stride else .ok 0) >>= fun size =>
  .ok (min maximum size)

/-- slicing.hpp:192: do all arguments convert to an index or a strided slice? -/
def Arg.isDefault : Arg → Bool
  | .rng _ => false
  | _ => true

/-- slicing.hpp:188-209 `array_slice`. -/
def arraySlice (A : Arith) (chk : Bool) (off : Nat) (m : Mapper) (args : List Arg) : Res Obj :=
  if args.all Arg.isDefault then do
    let d' ← defaultSlicing A chk m.desc args
    match m with
    | .ident _ => .ok (.sref off (.ident d'))
    | .vec _ _ => do
      let ps ← d'.positions A (iterFuel d')
      let idx ← m.mapAll chk ps
      let m' ← Mapper.mkVec A chk d'.ext idx
      .ok (.sref off m')
  else do
    let (ext, ps) ← indirectSlicing A chk m.desc args
    match m with
    | .ident _ => do
      let m' ← Mapper.mkVec A chk ext ps
      .ok (.sref off m')
    | .vec _ _ => do
      let idx ← m.mapAll chk ps
      let m' ← Mapper.mkVec A chk ext idx
      .ok (.sref off m')

/-- slicing.hpp:211-222 `array_at(data, mapper, index_t)`. -/
def arrayAtIdx (A : Arith) (chk : Bool) (off : Nat) (m : Mapper) (i : Nat) : Res Obj := do
  dbg chk (i < m.desc.ext.headD 0)
  if m.desc.ext.length = 1 then
    let p ← m.map chk (m.desc.pos A [i])
    .ok (.elem (A.add off p))
  else
    let m' ← m.dropFirst A chk i
    .ok (.sref off m')

/-- slicing.hpp:234-242 `array_at(data, mapper, Index&&)`. -/
def arrayAtArg (A : Arith) (chk : Bool) (off : Nat) (m : Mapper) (a : Arg) : Res Obj :=
  if m.desc.ext.length = 1 then arraySlice A chk off m [a] else .ok (.proxy off m [a])

/-- slicing.hpp:224-232 `array_at(data, mapper, every_index)`. -/
def arrayAtEvery (off : Nat) (m : Mapper) : Obj :=
  if m.desc.ext.length = 1 then .sref off m
  else .proxy off m [.slice 0 (m.desc.ext.headD 0) 1]

/-- strided_ref_array.hpp:101-159 the indexing operators of strided views. -/
def srefIndex (A : Arith) (chk : Bool) (off : Nat) (m : Mapper) (ix : Ix) : Res Obj :=
  match ix with
  | .at i => arrayAtIdx A chk off m i
  | .slice s x => arrayAtArg A chk off m (.slice s x 1)
  | .strided s x t => arrayAtArg A chk off m (.slice s x t)
  | .every => .ok (arrayAtEvery off m)
  | .bounded s mx => arrayAtArg A chk off m (.slice s (boundedExtent s mx (m.desc.ext.headD 0)) 1)
  | .boundedStrided s mx t => do
    let x ← boundedStridedExtent A s mx t (m.desc.ext.headD 0)
    arrayAtArg A chk off m (.slice s x t)
  | .rng l => arrayAtArg A chk off m (.rng l)

/-- slicing.hpp:331-345 `strided_ref_array_proxy::at`. -/
def proxyAt (A : Arith) (chk : Bool) (off : Nat) (m : Mapper) (args : List Arg) (a : Arg) : Res Obj :=
  if args.length = m.desc.ext.length - 1 then arraySlice A chk off m (args ++ [a])
  else .ok (.proxy off m (args ++ [a]))

/-- slicing.hpp:309-330 the indexing operators of `strided_ref_array_proxy`. -/
def proxyIndex (A : Arith) (chk : Bool) (off : Nat) (m : Mapper) (args : List Arg) (ix : Ix) : Res Obj :=
  let dim := m.desc.ext.getD args.length 0
  match ix with
  | .at i => proxyAt A chk off m args (.idx i)
  | .slice s x => proxyAt A chk off m args (.slice s x 1)
  | .strided s x t => proxyAt A chk off m args (.slice s x t)
  | .every => proxyAt A chk off m args (.slice 0 dim 1)
  | .bounded s mx => proxyAt A chk off m args (.slice s (boundedExtent s mx dim) 1)
  | .boundedStrided s mx t => do
    let x ← boundedStridedExtent A s mx t dim
    proxyAt A chk off m args (.slice s x t)
  | .rng l => proxyAt A chk off m args (.rng l)

/-- slicing.hpp:413-424 `ref_array_every_proxy::at`: falls back to the general proxy with one full slice
per `every` seen so far. -/
def everyFallback (A : Arith) (chk : Bool) (off : Nat) (ext : List Nat) (M : Nat) (ix : Ix) : Res Obj := do
  let d ← SDesc.mk' A chk 0 ext
  proxyIndex A chk off (.ident d) ((ext.take M).map fun e => .slice 0 e 1) ix

/-- slicing.hpp:360-411 the indexing operators of `ref_array_every_proxy`. `operator[](index_t)` before the
last dimension (line 371, `at(slice)` with the name of an overloaded function) does not compile. Division
by the last extent when it is zero is UB. -/
def everyIndex (A : Arith) (chk : Bool) (off : Nat) (ext : List Nat) (M : Nat) (ix : Ix) : Res Obj :=
  let N := ext.length
  let last := ext.getD (N - 1) 0
  match ix with
  | .at i =>
    if M = N - 1 then do
      dbg chk (i < last)
      if last = 0 then .error .ub
      else
        let stride := prodL A ext / last
        .ok (.cref (A.add off (A.mul i stride)) (ext.set (N - 1) 1))
    else .error .illFormed
  | .slice s x =>
    if M = N - 1 then do
      dbg chk (usub (A.add s x) 1 < last)
      if last = 0 then .error .ub
      else
        let stride := prodL A ext / last
        .ok (.cref (A.add off (A.mul s stride)) (ext.set (N - 1) x))
    else everyFallback A chk off ext M (.slice s x)
  | .strided s x t => everyFallback A chk off ext M (.strided s x t)
  | .every => if M = N - 1 then .ok (.cref off ext) else .ok (.everyProxy off ext (M + 1))
  | .bounded s mx => everyFallback A chk off ext M (.slice s (boundedExtent s mx (ext.getD M 0)))
  | .boundedStrided s mx t => do
    let x ← boundedStridedExtent A s mx t (ext.getD M 0)
    everyFallback A chk off ext M (.strided s x t)
  | .rng l => everyFallback A chk off ext M (.rng l)

/-- slicing.hpp:276-285 `array_at(data, descriptor, absolute_slice)`. -/
def arrayAtSliceC (A : Arith) (chk : Bool) (off : Nat) (ext : List Nat) (s x : Nat) : Res Obj :=
  match ext with
  | [e] => do
    dbg chk (usub (A.add s x) 1 < e)
    .ok (.cref (A.add off s) [x])
  | ext => do
    let d ← SDesc.mk' A chk 0 ext
    arrayAtArg A chk off (.ident d) (.slice s x 1)

/-- slicing.hpp:287-290 `array_at(data, descriptor, Index&&)`. -/
def arrayAtArgC (A : Arith) (chk : Bool) (off : Nat) (ext : List Nat) (a : Arg) : Res Obj := do
  let d ← SDesc.mk' A chk 0 ext
  arrayAtArg A chk off (.ident d) a

/-- ref_array.hpp:100-161 the indexing operators of contiguous views and arrays, with
slicing.hpp:244-290 `array_at(data, descriptor, ...)`. `index_view` is constructible from any range, so
one-dimensional ranges always take the branch of lines 266-270. -/
def crefIndex (A : Arith) (chk : Bool) (off : Nat) (ext : List Nat) (ix : Ix) : Res Obj :=
  match ix with
  | .at i => do
    dbg chk (i < ext.headD 0)
    if ext.length = 1 then .ok (.elem (A.add off i))
    else
      let d ← SDesc.mk' A chk i ext
      let n ← d.discard
      .ok (.sref off (.ident n))
  | .slice s x => arrayAtSliceC A chk off ext s x
  | .strided s x t => arrayAtArgC A chk off ext (.slice s x t)
  | .every => if ext.length = 1 then .ok (.cref off ext) else .ok (.everyProxy off ext 1)
  | .bounded s mx => arrayAtSliceC A chk off ext s (boundedExtent s mx (ext.headD 0))
  | .boundedStrided s mx t => do
    let x ← boundedStridedExtent A s mx t (ext.headD 0)
    arrayAtArgC A chk off ext (.slice s x t)
  | .rng l =>
    if ext.length = 1 then do
      dbg chk (maxIdx l < ext.headD 0)
      let m ← Mapper.mkVec A chk [l.length] l
      .ok (.sref off m)
    else arrayAtArgC A chk off ext (.rng l)

/-- One application of `operator[]` (ref_array.hpp:100-161, strided_ref_array.hpp:101-159, slicing.hpp:309-330, 360-411). An element has no `operator[]`. -/
def Obj.index (A : Arith) (chk : Bool) (o : Obj) (ix : Ix) : Res Obj :=
  match o with
  | .elem _ => .error .illFormed
  | .cref off ext => crefIndex A chk off ext ix
  | .sref off m => srefIndex A chk off m ix
  | .proxy off m args => proxyIndex A chk off m args ix
  | .everyProxy off ext M => everyIndex A chk off ext M ix

/-- A chain of `operator[]` applications.
`a[i][j]...` with ref_array.hpp:100-161, strided_ref_array.hpp:101-159, slicing.hpp:309-330, 360-411. -/
def Obj.run (A : Arith) (chk : Bool) (o : Obj) (h : List Ix) : Res Obj :=
  h.foldlM (Obj.index A chk) o

/-- `dimensions()` (ref_array.hpp:180, strided_ref_array.hpp:178). -/
def Obj.dims : Obj → Option (List Nat)
  | .cref _ ext => some ext
  | .sref _ m => some m.desc.ext
  | _ => none

/-- The memory positions visited by iterating an object from `begin()` to `end()`: the pointers
`data() .. data() + size()` of a contiguous view (ref_array.hpp:163-170), the descriptor's or index list's
positions for a strided view (strided_ref_array.hpp:161-168, mapper.hpp:25-26, 80-81,
detail/iterator.hpp:69). For an element: its own position. -/
def Obj.positions (A : Arith) : Obj → Res (List Nat)
  | .elem p => .ok [p]
  | .cref off ext => .ok ((List.range (prodL A ext)).map (A.add off ·))
  | .sref off (.ident d) => do
    let ps ← d.positions A (iterFuel d)
    .ok (ps.map (A.add off ·))
  | .sref off (.vec _ idx) => .ok (idx.map (A.add off ·))
  | .proxy _ _ _ => .error .illFormed
  | .everyProxy _ _ _ => .error .illFormed

end Jules

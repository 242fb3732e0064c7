import Verif.Model.Blocks
/-
Debug levels. `-DJULES_DEBUG_LEVEL=n` (core/debug.hpp:9-15) keeps the assertions of level at most `n`: 1 "unreachable", 2 "invalid argument" and "invalid
state", 3 "boundary check" and "extents check" (core/debug.hpp:21-28). The other models know builds with all assertions and builds with none (`chk`); here the
functions of Model/Layout.lean, Model/Slicing.lean, Model/Fallible.lean and Model/Blocks.lean that contain or reach assertions are given again, with each
assertion at its level. `K n` says whether the assertions of level `n` are compiled in.
-/
namespace Jules

/-- The assertions compiled in with `JULES_DEBUG_LEVEL` = `n`.
core/debug.hpp:9-15, 31; debug_assert: an assertion of level `l` is active in a module of level `n` iff `l ≤ n`. -/
def active (n : Nat) : Nat → Bool := fun l => decide (l ≤ n)

/-- strided_descriptor.hpp:98-107: the loop inferring the strides (`tmp` loop variable). -/
def inferStridesL (A : Arith) (K : Nat → Bool) : (ext : List Nat) → (tmp : Nat) → Res (List Nat)
  | [], _ => .ok []
  | e :: es, tmp => do
    dbg (K 2) (e != 0)
    let rest ← inferStridesL A K es (A.mul tmp e)
    .ok (tmp :: rest)

/-- strided_descriptor.hpp:98-107 constructor `(start, extents)`, `noexcept`; for N = 1 lines 258, 295: the stride
defaults to 1 and nothing is asserted. -/
def SDesc.mkL (A : Arith) (K : Nat → Bool) (start : Nat) (ext : List Nat) : Res SDesc :=
  match ext with
  | [e] => .ok ⟨start, [e], [1]⟩
  | ext => do
    let ts ← inNoexcept A (inferStridesL A K ext 1)
    .ok ⟨start, ext, ts⟩

/-- slicing.hpp:51-84 `do_slice<D>(strided_descriptor<N>&, args...)`: dimension by dimension, mutating
`start`, `extents[D]`, `strides[D]` (returned here). The checks are CHECK_STRIDE, CHECK_EXTENT,
CHECK_BOUNDS (lines 13-20). The number of arguments must be N (static_assert). Ranges never reach this
function (slicing.hpp:192). -/
def doSliceL (A : Arith) (K : Nat → Bool) : (start : Nat) → (ext strides : List Nat) → List Arg →
    Res (Nat × List Nat × List Nat)
  | s, [], [], [] => .ok (s, [], [])
  | s, e :: es, t :: ts, .slice a x d :: as => do
    dbg (K 2) (0 < d)
    dbg (K 2) (0 < x)
    dbg (K 3) (A.add a (A.mul (usub x 1) d) < e)
    let (s', es', ts') ← doSliceL A K (A.add s (A.mul t a)) es ts as
    .ok (s', x :: es', A.mul t d :: ts')
  | s, e :: es, t :: ts, .idx i :: as => do
    dbg (K 3) (i < e)
    let (s', es', ts') ← doSliceL A K (A.add s (A.mul t i)) es ts as
    .ok (s', 1 :: es', 1 :: ts')
  | _, _, _, _ => .error .illFormed

/-- slicing.hpp:86-95 `default_slicing`. -/
def defaultSlicingL (A : Arith) (K : Nat → Bool) (d : SDesc) (args : List Arg) : Res SDesc := do
  let (s, e, t) ← doSliceL A K d.start d.ext d.strides args
  .ok ⟨s, e, t⟩

/-- slicing.hpp:110-165 the indirect `do_slice` overloads. Arguments arrive in reverse order (last
dimension first, line 175); `ix` is the suffix of the multi-index built so far; the state is the mutable
`extents` array and the `indexes` vector. `I = N - D - 1` is the number of arguments that remain. -/
def doSliceIndL (A : Arith) (K : Nat → Bool) (d : SDesc) : (revArgs : List Arg) → (ix : List Nat) →
    (st : List Nat × List Nat) → Res (List Nat × List Nat)
  | [], ix, (ext, out) => .ok (ext, out ++ [d.pos A ix])
  | .rng l :: as, ix, (ext, out) => do
    dbg (K 3) (maxIdx l < d.ext.getD as.length 0)
    l.foldlM (fun st i => doSliceIndL A K d as (i :: ix) st) (ext.set as.length l.length, out)
  | .idx i :: as, ix, (ext, out) => do
    dbg (K 3) (i < d.ext.getD as.length 0)
    doSliceIndL A K d as (i :: ix) (ext.set as.length 1, out)
  | .slice a x t :: as, ix, (ext, out) => do
    dbg (K 2) (0 < t)
    dbg (K 2) (0 < x)
    dbg (K 3) (A.add a (A.mul (usub x 1) t) < d.ext.getD as.length 0)
    (List.range x).foldlM
      (fun st i => doSliceIndL A K d as (A.add a (A.mul i t) :: ix) st) (ext.set as.length x, out)

/-- slicing.hpp:167-184 `indirect_slicing`: `extents` starts value-initialised (zeros); one argument per
dimension (static_assert). -/
def indirectSlicingL (A : Arith) (K : Nat → Bool) (d : SDesc) (args : List Arg) :
    Res (List Nat × List Nat) :=
  if args.length ≠ d.ext.length then .error .illFormed
  else doSliceIndL A K d args.reverse [] (d.ext.map fun _ => 0, [])

/-- mapper.hpp:50-55 constructor of `vector_mapper`. -/
def Mapper.mkVecL (A : Arith) (K : Nat → Bool) (ext idx : List Nat) : Res Mapper := do
  let d ← SDesc.mkL A K 0 ext
  dbg (K 2) (idx.length == d.size A)
  .ok (.vec d idx)

/-- mapper.hpp:22 and 57-61 `map(index_t)`. -/
def Mapper.mapL (K : Nat → Bool) (m : Mapper) (i : Nat) : Res Nat :=
  match m with
  | .ident _ => .ok i
  | .vec _ idx => do
    dbg (K 3) (i < idx.length)
    lookup idx i

/-- mapper.hpp:63-77 `map(std::vector)` and `map(strided_descriptor)`: map every position in order. -/
def Mapper.mapAllL (K : Nat → Bool) (m : Mapper) (l : List Nat) : Res (List Nat) := l.mapM (m.mapL K)

/-- mapper.hpp:28-33 and 83-95 `drop_first_dimension`, both `noexcept`. -/
def Mapper.dropFirstL (A : Arith) (K : Nat → Bool) (m : Mapper) (i : Nat) : Res Mapper :=
  match m with
  | .ident d => do
    let n ← d.discard
    .ok (.ident { n with start := A.add d.start (A.mul (d.strides.headD 0) i) })
  | .vec d idx => inNoexcept A (do
    let n ← d.discard
    let n : SDesc := { n with start := A.add d.start i }
    let ps ← n.positions A (iterFuel n)
    let idx' ← Mapper.mapAllL K (.vec d idx) ps
    Mapper.mkVecL A K n.ext idx')

/-- slicing.hpp:188-209 `array_slice`. -/
def arraySliceL (A : Arith) (K : Nat → Bool) (off : Nat) (m : Mapper) (args : List Arg) : Res Obj :=
  if args.all Arg.isDefault then do
    let d' ← defaultSlicingL A K m.desc args
    match m with
    | .ident _ => .ok (.sref off (.ident d'))
    | .vec _ _ => do
      let ps ← d'.positions A (iterFuel d')
      let idx ← m.mapAllL K ps
      let m' ← Mapper.mkVecL A K d'.ext idx
      .ok (.sref off m')
  else do
    let (ext, ps) ← indirectSlicingL A K m.desc args
    match m with
    | .ident _ => do
      let m' ← Mapper.mkVecL A K ext ps
      .ok (.sref off m')
    | .vec _ _ => do
      let idx ← m.mapAllL K ps
      let m' ← Mapper.mkVecL A K ext idx
      .ok (.sref off m')

/-- slicing.hpp:211-222 `array_at(data, mapper, index_t)`. -/
def arrayAtIdxL (A : Arith) (K : Nat → Bool) (off : Nat) (m : Mapper) (i : Nat) : Res Obj := do
  dbg (K 3) (i < m.desc.ext.headD 0)
  if m.desc.ext.length = 1 then
    let p ← m.mapL K (m.desc.pos A [i])
    .ok (.elem (A.add off p))
  else
    let m' ← m.dropFirstL A K i
    .ok (.sref off m')

/-- slicing.hpp:234-242 `array_at(data, mapper, Index&&)`. -/
def arrayAtArgL (A : Arith) (K : Nat → Bool) (off : Nat) (m : Mapper) (a : Arg) : Res Obj :=
  if m.desc.ext.length = 1 then arraySliceL A K off m [a] else .ok (.proxy off m [a])

/-- strided_ref_array.hpp:101-159 the indexing operators of strided views. -/
def srefIndexL (A : Arith) (K : Nat → Bool) (off : Nat) (m : Mapper) (ix : Ix) : Res Obj :=
  match ix with
  | .at i => arrayAtIdxL A K off m i
  | .slice s x => arrayAtArgL A K off m (.slice s x 1)
  | .strided s x t => arrayAtArgL A K off m (.slice s x t)
  | .every => .ok (arrayAtEvery off m)
  | .bounded s mx => arrayAtArgL A K off m (.slice s (boundedExtent s mx (m.desc.ext.headD 0)) 1)
  | .boundedStrided s mx t => do
    let x ← boundedStridedExtent A s mx t (m.desc.ext.headD 0)
    arrayAtArgL A K off m (.slice s x t)
  | .rng l => arrayAtArgL A K off m (.rng l)

/-- slicing.hpp:331-345 `strided_ref_array_proxy::at`. -/
def proxyAtL (A : Arith) (K : Nat → Bool) (off : Nat) (m : Mapper) (args : List Arg) (a : Arg) : Res Obj :=
  if args.length = m.desc.ext.length - 1 then arraySliceL A K off m (args ++ [a])
  else .ok (.proxy off m (args ++ [a]))

/-- slicing.hpp:309-330 the indexing operators of `strided_ref_array_proxy`. -/
def proxyIndexL (A : Arith) (K : Nat → Bool) (off : Nat) (m : Mapper) (args : List Arg) (ix : Ix) : Res Obj :=
  let dim := m.desc.ext.getD args.length 0
  match ix with
  | .at i => proxyAtL A K off m args (.idx i)
  | .slice s x => proxyAtL A K off m args (.slice s x 1)
  | .strided s x t => proxyAtL A K off m args (.slice s x t)
  | .every => proxyAtL A K off m args (.slice 0 dim 1)
  | .bounded s mx => proxyAtL A K off m args (.slice s (boundedExtent s mx dim) 1)
  | .boundedStrided s mx t => do
    let x ← boundedStridedExtent A s mx t dim
    proxyAtL A K off m args (.slice s x t)
  | .rng l => proxyAtL A K off m args (.rng l)

/-- slicing.hpp:413-424 `ref_array_every_proxy::at`: falls back to the general proxy with one full slice
per `every` seen so far. -/
def everyFallbackL (A : Arith) (K : Nat → Bool) (off : Nat) (ext : List Nat) (M : Nat) (ix : Ix) : Res Obj := do
  let d ← SDesc.mkL A K 0 ext
  proxyIndexL A K off (.ident d) ((ext.take M).map fun e => .slice 0 e 1) ix

/-- slicing.hpp:360-411 the indexing operators of `ref_array_every_proxy`. `operator[](index_t)` before the
last dimension (line 371, `at(slice)` with the name of an overloaded function) does not compile. Division
by the last extent when it is zero is UB. -/
def everyIndexL (A : Arith) (K : Nat → Bool) (off : Nat) (ext : List Nat) (M : Nat) (ix : Ix) : Res Obj :=
  let N := ext.length
  let last := ext.getD (N - 1) 0
  match ix with
  | .at i =>
    if M = N - 1 then do
      dbg (K 3) (i < last)
      if last = 0 then .error .ub
      else
        let stride := prodL A ext / last
        .ok (.cref (A.add off (A.mul i stride)) (ext.set (N - 1) 1))
    else .error .illFormed
  | .slice s x =>
    if M = N - 1 then do
      dbg (K 3) (usub (A.add s x) 1 < last)
      if last = 0 then .error .ub
      else
        let stride := prodL A ext / last
        .ok (.cref (A.add off (A.mul s stride)) (ext.set (N - 1) x))
    else everyFallbackL A K off ext M (.slice s x)
  | .strided s x t => everyFallbackL A K off ext M (.strided s x t)
  | .every => if M = N - 1 then .ok (.cref off ext) else .ok (.everyProxy off ext (M + 1))
  | .bounded s mx => everyFallbackL A K off ext M (.slice s (boundedExtent s mx (ext.getD M 0)))
  | .boundedStrided s mx t => do
    let x ← boundedStridedExtent A s mx t (ext.getD M 0)
    everyFallbackL A K off ext M (.strided s x t)
  | .rng l => everyFallbackL A K off ext M (.rng l)

/-- slicing.hpp:276-285 `array_at(data, descriptor, absolute_slice)`. -/
def arrayAtSliceCL (A : Arith) (K : Nat → Bool) (off : Nat) (ext : List Nat) (s x : Nat) : Res Obj :=
  match ext with
  | [e] => do
    dbg (K 3) (usub (A.add s x) 1 < e)
    .ok (.cref (A.add off s) [x])
  | ext => do
    let d ← SDesc.mkL A K 0 ext
    arrayAtArgL A K off (.ident d) (.slice s x 1)

/-- slicing.hpp:287-290 `array_at(data, descriptor, Index&&)`. -/
def arrayAtArgCL (A : Arith) (K : Nat → Bool) (off : Nat) (ext : List Nat) (a : Arg) : Res Obj := do
  let d ← SDesc.mkL A K 0 ext
  arrayAtArgL A K off (.ident d) a

/-- ref_array.hpp:100-161 the indexing operators of contiguous views and arrays, with
slicing.hpp:244-290 `array_at(data, descriptor, ...)`. `index_view` is constructible from any range, so
one-dimensional ranges always take the branch of lines 266-270. -/
def crefIndexL (A : Arith) (K : Nat → Bool) (off : Nat) (ext : List Nat) (ix : Ix) : Res Obj :=
  match ix with
  | .at i => do
    dbg (K 3) (i < ext.headD 0)
    if ext.length = 1 then .ok (.elem (A.add off i))
    else
      let d ← SDesc.mkL A K i ext
      let n ← d.discard
      .ok (.sref off (.ident n))
  | .slice s x => arrayAtSliceCL A K off ext s x
  | .strided s x t => arrayAtArgCL A K off ext (.slice s x t)
  | .every => if ext.length = 1 then .ok (.cref off ext) else .ok (.everyProxy off ext 1)
  | .bounded s mx => arrayAtSliceCL A K off ext s (boundedExtent s mx (ext.headD 0))
  | .boundedStrided s mx t => do
    let x ← boundedStridedExtent A s mx t (ext.headD 0)
    arrayAtArgCL A K off ext (.slice s x t)
  | .rng l =>
    if ext.length = 1 then do
      dbg (K 3) (maxIdx l < ext.headD 0)
      let m ← Mapper.mkVecL A K [l.length] l
      .ok (.sref off m)
    else arrayAtArgCL A K off ext (.rng l)

/-- One application of `operator[]` (ref_array.hpp:100-161, strided_ref_array.hpp:101-159, slicing.hpp:309-330, 360-411). An element has no `operator[]`. -/
def Obj.indexL (A : Arith) (K : Nat → Bool) (o : Obj) (ix : Ix) : Res Obj :=
  match o with
  | .elem _ => .error .illFormed
  | .cref off ext => crefIndexL A K off ext ix
  | .sref off m => srefIndexL A K off m ix
  | .proxy off m args => proxyIndexL A K off m args ix
  | .everyProxy off ext M => everyIndexL A K off ext M ix

/-- A chain of `operator[]` applications.
`a[i][j]...` with ref_array.hpp:100-161, strided_ref_array.hpp:101-159, slicing.hpp:309-330, 360-411. -/
def Obj.runL (A : Arith) (K : Nat → Bool) (o : Obj) (h : List Ix) : Res Obj :=
  h.foldlM (Obj.indexL A K) o

/-- `x[h]…`: `operator[]` of ref_array.hpp:105-158, strided_ref_array.hpp:100-151 and the proxies, one after the other. -/
def World.indexL (w : World α) (A : Arith) (K : Nat → Bool) (x : Nat) (h : List Ix) : Res Obj := do
  let a ← w.get x
  (Obj.cref a.base a.ext).runL A K h

/-- A scalar is taken by reference.
functional.hpp:172-187, ref_array.hpp:77-83. A chain of index expressions must end in an element. -/
def Sc.evalL (A : Arith) (K : Nat → Bool) (w : World α) : Sc α → Res (Scalar α)
  | .const c => .ok (.val c)
  | .elem x h => do
    let o ← w.indexL A K x h
    match o with
    | .elem p => .ok (.cell p)
    | _ => .error .illFormed

/-- `apply(a, b, f)`: equal orders (a `static_assert`) and extents.
functional.hpp:65-71. -/
def FSrc.zipL (K : Nat → Bool) (f : α → α → Option α) (x y : FSrc α) : Res (FSrc α) :=
  if x.dims.length ≠ y.dims.length then .error .illFormed
  else do
    dbg (K 3) (x.dims == y.dims)
    .ok ⟨x.dims, .zip f x.it y.it⟩

/-- Creating the (lazy) expression object: no function is called; operands are indexed, scalars are copied.
functional.hpp:46-71, 131-170. -/
def FEx.evalL (A : Arith) (K : Nat → Bool) (w : World α) : FEx α → Res (FSrc α)
  | .arr x h => do
    let o ← w.indexL A K x h
    FSrc.ofObj A o
  | .un f e => do
    let e' ← e.evalL A K w
    .ok ⟨e'.dims, .map f e'.it⟩
  | .bin f a b => do
    let a' ← a.evalL A K w
    let b' ← b.evalL A K w
    a'.zipL K f b'
  | .scl f s e => do
    let c ← s.evalL A K w
    let v ← c.get w.mem
    let e' ← e.evalL A K w
    .ok ⟨e'.dims, .map (fun y => f v y) e'.it⟩
  | .scr f e s => do
    let e' ← e.evalL A K w
    let c ← s.evalL A K w
    let v ← c.get w.mem
    .ok ⟨e'.dims, .map (fun y => f y v) e'.it⟩

/-- detail/common.hpp:22-36 `array_assign`. -/
def assignBL (A : Arith) (K : Nat → Bool) (S : Nat → Bool) (dest : Obj) (src : FSrc α) : BM α Unit :=
  match dest.dims with
  | none => BM.die .illFormed
  | some d =>
    if src.dims.length ≠ d.length then BM.die .illFormed
    else do
      BM.reads fun _ => dbg (K 3) (src.dims == d)
      let ps ← BM.reads fun _ => dest.positions A
      loopB S (fun k _ m => src.value k m) 0 ps
      BM.reads fun _ => dbg (K 1) (src.it.count == some ps.length)

/-- `view OP= expression`: functional.hpp:81-94, 139-154. -/
def inPlaceBL (A : Arith) (K : Nat → Bool) (S : Nat → Bool) (dest : Obj) (op : α → α → α × Bool) (src : FSrc α) : BM α Unit :=
  match dest.dims with
  | none => BM.die .illFormed
  | some d =>
    if d.length ≠ src.dims.length then BM.die .illFormed
    else do
      BM.reads fun _ => dbg (K 3) (d == src.dims)
      let ps ← BM.reads fun _ => dest.positions A
      loopB S (fun k p m => src.update op k p m) 0 ps

/-- overlap.hpp:17-22 `overlap(view) = e`: a local array is constructed from `e`, assigned to the view, and destroyed. -/
def overlapBL (A : Arith) (K : Nat → Bool) (S : Nat → Bool) (nx : Bool) (alloc : Nat → List (Nat × Nat) → Nat → Option Nat) (dest : Obj) (src : FSrc α) :
    BM α Unit := do
  let t ← newB A S nx alloc src.dims (fun k m => src.it.deref m k)
  BM.finally (do
    let ts ← BM.reads fun _ => FSrc.ofObj A (.cref (t.ptr.getD 0) t.ext)
    assignBL A K S dest ts) (clearB A t)

/-- Statements with functions that may throw.
array.hpp:158-168, 218-231, 279-344, functional.hpp:46-194, overlap.hpp:17-22, and the functions cited at `FStmt`. -/
def BWorld.fstepL (A : Arith) (K : Nat → Bool) (nx : Bool) (S : Nat → Bool) (alloc : Nat → List (Nat × Nat) → Nat → Option Nat) (W : BWorld α) :
    FStmt α → Res (BWorld α × Bool)
  | .plain _ => .error .illFormed
  | .make x e => do
    needs (W.env x).isNone
    W.usable A e.uses
    let src ← e.evalL A K (W.flat A)
    W.stored x (newB A S nx alloc src.dims (fun k m => src.it.deref m k) W.pool)
  | .makeFrom x l ext => do
    needs (W.env x).isNone
    needs (!ext.isEmpty) -- array.hpp:40
    W.stored x (newB A S nx alloc ext (fun k _ => pull l k) W.pool)
  | .assign x h e => do
    needs (!h.isEmpty) -- the other case is `set`
    W.usable A (x :: e.uses)
    let o ← (W.flat A).indexL A K x h
    let src ← e.evalL A K (W.flat A)
    W.wrote (assignBL A K S o src W.pool)
  | .inPlace x h op e => do
    W.usable A (x :: e.uses)
    let o ← (W.flat A).indexL A K x h
    let src ← e.evalL A K (W.flat A)
    W.wrote (inPlaceBL A K S o op src W.pool)
  | .inPlaceScalar x h op s => do
    W.usable A (x :: s.uses)
    let o ← (W.flat A).indexL A K x h
    let c ← s.evalL A K (W.flat A)
    W.wrote (inPlaceScalarB A S o op c W.pool)
  | .apply x h f => do
    W.usable A [x]
    let o ← (W.flat A).indexL A K x h
    W.wrote (applyB A S o f W.pool)
  | .overlap x h e => do
    needs (!h.isEmpty) -- the other case is `overlapWhole`
    W.usable A (x :: e.uses)
    let o ← (W.flat A).indexL A K x h
    let src ← e.evalL A K (W.flat A)
    W.wrote (overlapBL A K S nx alloc o src W.pool)
  | .overlapWhole x e => do
    let o ← W.own x
    W.usable A e.uses
    let src ← e.evalL A K (W.flat A)
    sameRank o src.dims
    W.stored x (overlapWholeB A S nx alloc o src W.pool)
  | .set x (.arr y []) => do
    let o ← W.own x
    if x = y then .ok (W, false) -- array.hpp:281-282
    else do
      W.usable A [y]
      let src ← (FEx.arr y []).evalL A K (W.flat A)
      sameRank o src.dims
      W.stored x (setB A S nx alloc o src W.pool)
  | .set x e => do
    let o ← W.own x
    W.usable A e.uses
    let src ← e.evalL A K (W.flat A)
    sameRank o src.dims
    W.stored x (setB A S nx alloc o src W.pool)

/-- Statements: those above, and those without functions.
array.hpp:82, 112, 141-151, 211-213, 308-314, ref_array.hpp:77-83, and the functions cited at `Stmt` and `MStmt`. -/
def BWorld.mstepL (A : Arith) (K : Nat → Bool) (nx : Bool) (S : Nat → Bool) (alloc : Nat → List (Nat × Nat) → Nat → Option Nat) (W : BWorld α) :
    MStmt α → Res (BWorld α × Bool)
  | .declare x n => do
    needs (W.env x).isNone
    needs (n != 0) -- array.hpp:40
    .ok (W.put x (some ⟨none, List.replicate n 0⟩), false)
  | .moveMake x y => do
    needs (W.env x).isNone
    let o ← W.own y
    .ok ((W.put x (some o)).put y (some ⟨none, o.ext⟩), false)
  | .old (.make x e) => W.fstepL A K nx S alloc (.make x e.fallible)
  | .old (.makeFrom x l ext) => W.fstepL A K nx S alloc (.makeFrom x (l.map some) ext)
  | .old (.makeFill x s ext) => do
    needs (W.env x).isNone
    needs (!ext.isEmpty) -- array.hpp:40
    W.usable A s.uses
    let c ← s.evalL A K (W.flat A)
    W.stored x (newB A S nx alloc ext (fun _ m => c.get m) W.pool)
  | .old (.drop x) => do
    let o ← W.own x
    let r ← W.wrote (clearB A o W.pool)
    .ok (r.1.put x none, false)
  | .old (.fill x h s) => do
    needs (!h.isEmpty) -- an array cannot be assigned a scalar: array.hpp:279-344
    W.usable A (x :: s.uses)
    let o ← (W.flat A).indexL A K x h
    let c ← s.evalL A K (W.flat A)
    W.wrote (fillB A S o c W.pool)
  | .old (.assign x h e) => W.fstepL A K nx S alloc (.assign x h e.fallible)
  | .old (.inPlace x h op e) => W.fstepL A K nx S alloc (.inPlace x h (fun u y => (op u y, false)) e.fallible)
  | .old (.inPlaceScalar x h op s) => W.fstepL A K nx S alloc (.inPlaceScalar x h (fun u y => (op u y, false)) s)
  | .old (.apply x h f) => W.fstepL A K nx S alloc (.apply x h (fun u => (f u, false)))
  | .old (.overlap x h e) => W.fstepL A K nx S alloc (.overlap x h e.fallible)
  | .old (.overlapWhole x e) => W.fstepL A K nx S alloc (.overlapWhole x e.fallible)
  | .old (.set x e) => W.fstepL A K nx S alloc (.set x e.fallible)
  | .old (.moveAssign x y) => do
    dbg (K 2) (x != y)
    let o ← W.own x
    let o' ← W.own y
    sameRank o o'.ext
    .ok ((W.put x (some o')).put y (some o), false)

/-- One statement: the state after it and whether an exception has left it. Arrays are destroyed at the end of their block only. A declaration
counts if its initialization does not throw.
array.hpp:112-344, functional.hpp:46-194, overlap.hpp:17-22. -/
def BWorld.stepL (A : Arith) (K : Nat → Bool) (nx : Bool) (S : Nat → Bool) (alloc : Nat → List (Nat × Nat) → Nat → Option Nat) (W : BWorld α) :
    XStmt α → Res (BWorld α × Bool)
  | .calm (.old (.drop _)) => .error .illFormed
  | .calm s => do
    let r ← W.mstepL A K nx S alloc s
    .ok (if r.2 then r else (r.1.declare (XStmt.calm s).declares, false))
  | .wild s => do
    let r ← W.fstepL A K nx S alloc s
    .ok (if r.2 then r else (r.1.declare s.declares, false))

/-- Leaving a block: its arrays are destroyed, the last one first.
Language semantics (scopes); array.hpp:82, 383-389. -/
def BWorld.leaveL (A : Arith) (K : Nat → Bool) (nx : Bool) (S : Nat → Bool) (alloc : Nat → List (Nat × Nat) → Nat → Option Nat) (W : BWorld α) : Res (BWorld α) :=
  match W.scopes with
  | [] => .error .illFormed
  | f :: fs => do
    let W' ← f.foldlM (fun W x => do let r ← W.mstepL A K nx S alloc (.old (.drop x)); .ok r.1) W
    .ok { W' with scopes := fs }

/-- `return y;` for the array `y` of the block that ends: it is moved.
array.hpp:211-213; language semantics (implicit move). -/
def BWorld.giveL (A : Arith) (K : Nat → Bool) (nx : Bool) (S : Nat → Bool) (alloc : Nat → List (Nat × Nat) → Nat → Option Nat) (W : BWorld α) (x y : Nat) :
    Res (BWorld α) := do
  needs ((W.scopes.headD []).contains y)
  let r ← W.mstepL A K nx S alloc (.moveMake x y)
  .ok r.1

/-- Running a program: the state in which it ends and its result; `none`: it is left by an exception.
Language semantics; array.hpp:82-344, ref_array.hpp:105-167, and the functions cited at `XStmt` and `Body`. -/
def BWorld.execL (A : Arith) (K : Nat → Bool) (nx : Bool) (S : Nat → Bool) (alloc : Nat → List (Nat × Nat) → Nat → Option Nat) (W : BWorld α) :
    Body α β → Res (BWorld α × Option β)
  | .ret b => .ok (W, some b)
  | .throw => .ok (W, none)
  | .exec s k => do
    let r ← W.stepL A K nx S alloc s
    if r.2 then .ok (r.1, none) else r.1.execL A K nx S alloc k
  | .read s k => do
    W.usable A s.uses
    let c ← s.evalL A K (W.flat A)
    match scalarB S c W.pool with
    | .ok v p => BWorld.execL A K nx S alloc { W with pool := p } (k v)
    | .exn p => .ok ({ W with pool := p }, none)
    | .fail f => .error f
  | .elements e k => do
    W.usable A e.uses
    let src ← e.evalL A K (W.flat A)
    match elementsB S src W.pool with
    | .ok xs p => BWorld.execL A K nx S alloc { W with pool := p } (k src.dims xs)
    | .exn p => .ok ({ W with pool := p }, none)
    | .fail f => .error f
  | .block body k => do
    let r ← W.enter.execL A K nx S alloc body
    let W' ← r.1.leaveL A K nx S alloc
    match r.2 with
    | none => .ok (W', none)
    | some b => W'.execL A K nx S alloc (k b)
  | .call x y body k => do
    let r ← W.enter.execL A K nx S alloc body
    match r.2 with
    | none => do
      let W' ← r.1.leaveL A K nx S alloc
      .ok (W', none)
    | some b => do
      let W₁ ← r.1.giveL A K nx S alloc x y
      let W' ← W₁.leaveL A K nx S alloc
      (W'.declare (some x)).execL A K nx S alloc (k b)
  | .attempt body handler k => do
    let r ← W.enter.execL A K nx S alloc body
    let W' ← r.1.leaveL A K nx S alloc
    match r.2 with
    | some b => W'.execL A K nx S alloc (k b)
    | none => do
      let r' ← W'.enter.execL A K nx S alloc handler
      let W'' ← r'.1.leaveL A K nx S alloc
      match r'.2 with
      | none => .ok (W'', none)
      | some b => W''.execL A K nx S alloc (k b)

/-- A whole program: a function body (`main`), an exception that leaves it being caught by the caller.
Language semantics for the arrays of array.hpp:82-344. -/
def BWorld.mainL (A : Arith) (K : Nat → Bool) (nx : Bool) (S : Nat → Bool) (alloc : Nat → List (Nat × Nat) → Nat → Option Nat) (p : Body α β) : Res (BWorld α × Option β) :=
  BWorld.empty.execL A K nx S alloc (.block p .ret)

end Jules

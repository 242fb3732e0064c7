import Verif.Model.Memory
/-
What `base/index_view.hpp` refers to: a view made by indexing a one-dimensional contiguous array or view
with a range of `index_t` in memory does not copy the indices.

Model/Slicing.lean takes the indices of a range by value (`Ix.rng`). Here ranges whose elements are
`index_t` objects in memory (`std::vector<index_t>`, named or temporary, or a range with `index_t*` or
`const index_t*` iterators, such as a jules vector of indices) are `BIx.ptr`, and the index memory is a
`Mem Nat`. All other ranges (generated ones, other element types, `const_vector`, which is shared and
immutable) remain `Ix.rng`.
-/
namespace Jules

/-- The contents of `len` index cells from `p`.
Reading through `begin_ .. end_` (base/index_view.hpp:54-63) or through the caller's range. -/
def readIdx (μ : Mem Nat) (p len : Nat) : Res (List Nat) := (List.range len).mapM fun k => μ.read (p + k)

/-- The index expressions of `operator[]`: those of `Ix`, and ranges of `index_t` objects in memory
(ref_array.hpp:153-161, strided_ref_array.hpp:151-159). -/
inductive BIx where
  | ix (i : Ix)
  | ptr (p len : Nat)
  deriving DecidableEq, Repr

/-- An object: one that owns what it needs, or a one-dimensional `strided_ref_array<T, vector_mapper<1>>`
whose `index_view` has no `data_` (base/index_view.hpp:37, 44-46), i.e. refers to `len` index cells from `p`. -/
inductive BObj where
  | obj (o : Obj)
  | borrowed (off p len : Nat)
  deriving DecidableEq, Repr

/-- The index expression, its range read now. Multi-dimensional and index-mapped objects keep a reference
to the range until the group is complete (slicing.hpp:331-345, C56) and then read it (110-165);
simplification: it is read when the index expression is written, so the memory must not change before the
group is complete. -/
def BIx.now (μ : Mem Nat) : BIx → Res Ix
  | .ix i => .ok i
  | .ptr p len => do
    let l ← readIdx μ p len
    .ok (.rng l)

/-- The descriptor of a one-dimensional vector mapper (mapper.hpp:50-51, strided_descriptor.hpp:258). -/
def borrowedDesc (len : Nat) : SDesc := ⟨0, [len], [1]⟩

/-- mapper.hpp:57-61 `vector_mapper::map(index_t)` through the pointers of base/index_view.hpp:63. -/
def bmap (chk : Bool) (μ : Mem Nat) (p len i : Nat) : Res Nat := do
  dbg chk (i < len)
  if i < len then μ.read (p + i) else .error .ub

/-- slicing.hpp:188-209 `array_slice` for a borrowed mapper: the positions are mapped now, the result owns
its list (mapper.hpp:63-77). -/
def borrowedSlice (A : Arith) (chk : Bool) (μ : Mem Nat) (off p len : Nat) (a : Arg) : Res BObj :=
  if a.isDefault then do
    let d' ← defaultSlicing A chk (borrowedDesc len) [a]
    let ps ← d'.positions A (iterFuel d')
    let idx ← ps.mapM (bmap chk μ p len)
    let m' ← Mapper.mkVec A chk d'.ext idx
    .ok (.obj (.sref off m'))
  else do
    let (ext, ps) ← indirectSlicing A chk (borrowedDesc len) [a]
    let idx ← ps.mapM (bmap chk μ p len)
    let m' ← Mapper.mkVec A chk ext idx
    .ok (.obj (.sref off m'))

/-- strided_ref_array.hpp:101-159 with slicing.hpp:211-242 for a borrowed mapper; `every` copies the mapper,
whose pointers are copied (slicing.hpp:224-229, base/index_view.hpp:65-68). -/
def borrowedIndex (A : Arith) (chk : Bool) (μ : Mem Nat) (off p len : Nat) : Ix → Res BObj
  | .at i => do
    dbg chk (i < len)
    let q ← bmap chk μ p len ((borrowedDesc len).pos A [i])
    .ok (.obj (.elem (A.add off q)))
  | .slice s x => borrowedSlice A chk μ off p len (.slice s x 1)
  | .strided s x t => borrowedSlice A chk μ off p len (.slice s x t)
  | .every => .ok (.borrowed off p len)
  | .bounded s mx => borrowedSlice A chk μ off p len (.slice s (boundedExtent s mx len) 1)
  | .boundedStrided s mx t => do
    let x ← boundedStridedExtent A s mx t len
    borrowedSlice A chk μ off p len (.slice s x t)
  | .rng l => borrowedSlice A chk μ off p len (.rng l)

/-- slicing.hpp:263-270: a one-dimensional contiguous object indexed by a range of indices in memory: the
largest one is checked now, and `index_view` keeps the pointers. Without checks nothing is read. -/
def borrow (chk : Bool) (μ : Mem Nat) (off e p len : Nat) : Res BObj :=
  if chk then do
    let l ← readIdx μ p len
    dbg chk (maxIdx l < e)
    .ok (.borrowed off p len)
  else .ok (.borrowed off p len)

/-- One application of `operator[]` when the index memory is `μ` (ref_array.hpp:100-161,
strided_ref_array.hpp:101-159). -/
def BObj.index (A : Arith) (chk : Bool) (μ : Mem Nat) (b : BObj) (x : BIx) : Res BObj :=
  match b, x with
  | .obj (.cref off [e]), .ptr p len => borrow chk μ off e p len
  | .obj o, x => do
    let i ← x.now μ
    let r ← o.index A chk i
    .ok (.obj r)
  | .borrowed off p len, x => do
    let i ← x.now μ
    borrowedIndex A chk μ off p len i

/-- A sequence of index expressions, each with the state of the index memory when it is applied
(ref_array.hpp:100-161, strided_ref_array.hpp:101-159). -/
def BObj.run (A : Arith) (chk : Bool) (b : BObj) (h : List (Mem Nat × BIx)) : Res BObj :=
  h.foldlM (fun b s => b.index A chk s.1 s.2) b

/-- Iterating from `begin()` to `end()` (see `Obj.positions`): a borrowed view reads its indices now
(mapper.hpp:80-81, detail/iterator.hpp:69). -/
def BObj.positions (A : Arith) (μ : Mem Nat) : BObj → Res (List Nat)
  | .obj o => o.positions A
  | .borrowed off p len => do
    let l ← readIdx μ p len
    .ok (l.map (A.add off ·))

/-- `view = scalar` (strided_ref_array.hpp:83-88) when the elements are `index_t` in the same memory as the
indices: each index is read when its element is assigned (detail/iterator.hpp:69). -/
def BObj.fill (A : Arith) (x : Nat) (m : Mem Nat) : BObj → Res (Mem Nat)
  | .obj o => fillView A o (.val x) m
  | .borrowed off p len => (List.range len).foldlM (fun m k => do
      let q ← m.read (p + k)
      m.write (A.add off q) x) m

end Jules

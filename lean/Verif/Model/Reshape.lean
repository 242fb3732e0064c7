import Verif.Model.Slicing
/-
Model of array/drop.hpp, array/reshape.hpp, array/axis.hpp and the functions they declare
(detail/common.hpp:58-75, strided_descriptor.hpp:144-169 and 287-291, ref_array.hpp:196-217,
strided_ref_array.hpp:180-188, 206-216).
-/
namespace Jules

/-- The number of extents equal to one (the `std::accumulate` of detail/common.hpp:62-63 and
strided_descriptor.hpp:147-148). -/
def countOnes (ext : List Nat) : Nat := ext.foldl (fun acc d => acc + if d = 1 then 1 else 0) 0

/-- detail/common.hpp:66-72: `std::copy_if` with the counter `dropped_count`: skip the first `k`
extents equal to one. -/
def dropOnes : (k : Nat) → List Nat → List Nat
  | _, [] => []
  | k, d :: ds => if k = 0 ∨ d ≠ 1 then d :: dropOnes k ds else dropOnes (k - 1) ds

/-- strided_descriptor.hpp:156-164: the same loop carrying the strides along. -/
def dropOnes2 : (k : Nat) → (ext strides : List Nat) → List Nat × List Nat
  | k, d :: ds, t :: ts =>
    if k = 0 ∨ d ≠ 1 then
      let r := dropOnes2 k ds ts
      (d :: r.1, t :: r.2)
    else dropOnes2 (k - 1) ds ts
  | _, _, _ => ([], [])

/-- `drop_to<D>`:
* ref_array.hpp:196-203 for contiguous views (`D == 0` reads the protected member `data()` and does not
  compile); the copy writes past the array of `D` extents when there are too few ones (UB);
* strided_ref_array.hpp:180-188 with mapper.hpp:35-38 and strided_descriptor.hpp:144-169 for strided views
  (`static_assert(D < N)`), and strided_descriptor.hpp:287-291 for N = 1; `D == 0` returns `*data()`, which
  does not add the view's start position;
* mapper.hpp:97-100 does not compile for index-mapped views (no matching constructor). -/
def dropTo (A : Arith) (chk : Bool) (D : Nat) : Obj → Res Obj
  | .cref off ext =>
    if D = 0 then .error .illFormed
    else if ext.length < D then .error .illFormed
    else do
      dbg chk (ext.length - D ≤ countOnes ext)
      if (dropOnes (ext.length - D) ext).length = D then .ok (.cref off (dropOnes (ext.length - D) ext))
      else .error .ub
  | .sref off m =>
    if D = 0 then do
      dbg chk (m.desc.size A == 1)
      .ok (.elem off)
    else
      match m with
      | .vec _ _ => .error .illFormed
      | .ident d =>
        if d.ext.length = 1 then (if D = 1 then .ok (.sref off (.ident d)) else .error .illFormed)
        else if d.ext.length ≤ D then .error .illFormed
        else do
          dbg chk (d.ext.length - D ≤ countOnes d.ext)
          let r := dropOnes2 (d.ext.length - D) d.ext d.strides
          if r.1.length = D then .ok (.sref off (.ident ⟨d.start, r.1, r.2⟩)) else .error .ub
  | .elem p => if D = 0 then .ok (.elem p) else .error .illFormed  -- drop.hpp:13-17
  | .proxy _ _ _ => .error .illFormed
  | .everyProxy _ _ _ => .error .illFormed

/-- ref_array.hpp:207-210 `flatten` (contiguous views only). -/
def flatten (A : Arith) : Obj → Res Obj
  | .cref off ext => .ok (.cref off [prodL A ext])
  | _ => .error .illFormed

/-- ref_array.hpp:212-217 `reshape_to`, `noexcept` (contiguous views only); reshape.hpp:33-43 `reshape` and
`reshape_as` call it with the given extents. -/
def reshapeTo (A : Arith) (chk : Bool) (ext' : List Nat) : Obj → Res Obj
  | .cref off ext => do
    inNoexcept A (dbg chk (prodL A ext == prodL A ext'))
    .ok (.cref off ext')
  | _ => .error .illFormed

/-! ### Axis -/

/-- axis.hpp:17-26: the chain of index expressions of `axis_at_impl<Order, Axis, 0>`. -/
def axisChain (N axis i : Nat) : List Ix :=
  List.replicate axis .every ++ [.at i] ++ List.replicate (N - axis - 1) .every

/-- The order of a view.
`order`, ref_array.hpp:44, strided_ref_array.hpp:50. -/
def Obj.order : Obj → Nat
  | o => (o.dims.getD []).length

/-- axis.hpp:30-35 `axis_at<Axis>(arr, i)`. -/
def axisAt (A : Arith) (chk : Bool) (axis : Nat) (o : Obj) (i : Nat) : Res Obj :=
  o.run A chk (axisChain o.order axis i) >>= dropTo A chk (o.order - 1)

/-- axis.hpp:137 `axis_array::size()`. -/
def axisSize (axis : Nat) (o : Obj) : Nat := (o.dims.getD []).getD axis 0

/-- axis.hpp:143-153 with 53-57, 99, 108: `begin()` to `end()` of an axis array: the elements at the positions
`0, 1, …` until the position equals `size()`. -/
def axisElems (A : Arith) (chk : Bool) (axis : Nat) (o : Obj) : Res (List Obj) :=
  (List.range (axisSize axis o)).mapM (axisAt A chk axis o)

/-- axis.hpp:37-120: the position held by an `axis_iterator`, with its arithmetic. -/
structure AxisIter where
  pos : Nat
  deriving DecidableEq, Repr

/-- Conversion of `index_t` to `distance_t` (`std::ptrdiff_t`).
The casts of axis.hpp:105. -/
def toSigned (n : Nat) : Int := if n % W64 < 2 ^ 63 then ((n % W64 : Nat) : Int) else ((n % W64 : Nat) : Int) - W64

/-- axis.hpp:79: `it + n`. -/
def AxisIter.plus (it : AxisIter) (n : Int) : AxisIter := ⟨(((it.pos : Int) + n) % (W64 : Int)).toNat⟩

/-- axis.hpp:81: `it - n`. -/
def AxisIter.minus (it : AxisIter) (n : Int) : AxisIter := ⟨(((it.pos : Int) - n) % (W64 : Int)).toNat⟩

/-- axis.hpp:103-106: `it - other`, exactly as written there: `other.pos_ - pos_`. -/
def AxisIter.diff (it other : AxisIter) : Int := toSigned other.pos - toSigned it.pos

end Jules

import Verif.Model.Slicing
/-
Implicit conversions between view types.
-/
namespace Jules

/-- `operator strided_ref_array<T, identity_mapper<order>>`: ref_array.hpp:95-97; the descriptor is built by
strided_descriptor.hpp:98-107 from the extents alone. Other objects have no such conversion. -/
def Obj.toStrided (A : Arith) (chk : Bool) : Obj → Res Obj
  | .cref off ext => do
    let d ← SDesc.mk' A chk 0 ext
    .ok (.sref off (.ident d))
  | _ => .error .illFormed

/-- `operator ref_array<const T>` (ref_array.hpp:93), `operator strided_ref_array<const T, Mapper>` (strided_ref_array.hpp:98): the same data
and descriptor (mapper). Constness has no effect at run time. -/
def Obj.toConst : Obj → Res Obj
  | .cref off ext => .ok (.cref off ext)
  | .sref off m => .ok (.sref off m)
  | _ => .error .illFormed

end Jules

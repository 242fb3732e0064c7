import Verif.Model.Memory
import Verif.Model.Reshape
/-
Model of array/io.hpp: writing arrays to streams. Text is a list of characters; a stream is what has been written to it. The text
of an element (`os << x` for the element type) is a function of its value. Not modelled: failing streams, stream flags and widths.
-/
namespace Jules

/-- Text. -/
abbrev Txt := List Char

/-- io.hpp:17-20 `basic_dim_fmt`. -/
structure DimFmt where
  before : Txt := ['{']
  sep : Txt := [' ']
  after : Txt := ['}']
  deriving DecidableEq, Repr

/-- io.hpp:31-32 (constructor of `array_ostream`) and 47-48: there is at least one format. -/
def normFmts (fmts : List DimFmt) : List DimFmt := if fmts.length = 0 then [{}] else fmts

/-- io.hpp:49 the format used for a view of order `N`. -/
def fmtFor (fmts : List DimFmt) (N : Nat) : DimFmt := fmts.getD (if N ≤ fmts.length then fmts.length - N else 0) {}

/-- io.hpp:43-65 `array_ostream::operator<<(RefArray)` for a view of order `N` (arrays are printed through `ref(a)`, line 41); `a[i]` is a
view of order `N - 1`, or an element, which is written by the element type's own operator. -/
def printFmt (A : Arith) (chk : Bool) (txt : α → Txt) (m : Mem α) (fmts : List DimFmt) : (N : Nat) → Obj → Res Txt
  | 0, .elem p => do
    let x ← m.read p
    .ok (txt x)
  | N + 1, o =>
    match o.dims with
    | none => .error .illFormed
    | some ext =>
      let fs := normFmts fmts
      let fmt := fmtFor fs (N + 1)
      let dim := ext.headD 0
      if dim = 0 then .ok (fmt.before ++ fmt.after)
      else do
        let o0 ← o.index A chk (.at 0)
        let first ← printFmt A chk txt m fs N o0
        let body ← (List.range' 1 (dim - 1)).foldlM (fun acc i => do
          let oi ← o.index A chk (.at i)
          let s ← printFmt A chk txt m fs N oi
          .ok (acc ++ fmt.sep ++ s)) first
        .ok (fmt.before ++ body ++ fmt.after)
  | _, _ => .error .illFormed

/-- io.hpp:139-155 `operator<<(std::basic_ostream&, RefArray)` when the stream is not an `array_ostream` (which takes the other path). -/
def printPlain (A : Arith) (chk : Bool) (txt : α → Txt) (m : Mem α) : (N : Nat) → Obj → Res Txt
  | 0, .elem p => do
    let x ← m.read p
    .ok (txt x)
  | N + 1, o =>
    match o.dims with
    | none => .error .illFormed
    | some ext =>
      let dim := ext.headD 0
      if dim = 0 then .ok (['{'] ++ ['}'])
      else do
        let o0 ← o.index A chk (.at 0)
        let first ← printPlain A chk txt m N o0
        let body ← (List.range' 1 (dim - 1)).foldlM (fun acc i => do
          let oi ← o.index A chk (.at i)
          let s ← printPlain A chk txt m N oi
          .ok (acc ++ [' '] ++ s)) first
        .ok (['{'] ++ body ++ ['}'])
  | _, _ => .error .illFormed

/-- io.hpp:95-113 `operator<<(array_ostream&, dimensions_format)`: the formats after setting the one at `dim`. -/
def setFmt (fmts : List DimFmt) (dim : Nat) (f : DimFmt) : List DimFmt :=
  let fmts := if fmts.length < dim then fmts ++ List.replicate (dim - fmts.length) ({} : DimFmt) else fmts
  if fmts.length = dim then fmts ++ [f] else fmts.set dim f

/-- io.hpp:115-119 `comma_separated`. -/
def commaFmts : List DimFmt := [⟨[], ['\n'], []⟩, ⟨[], [','], []⟩]

/-- io.hpp:121-125 `space_separated`. -/
def spaceFmts : List DimFmt := [⟨[], ['\n'], []⟩, ⟨[], [' '], []⟩]

/-- io.hpp:127-131 `tab_separated`. -/
def tabFmts : List DimFmt := [⟨[], ['\n'], []⟩, ⟨[], ['\t'], []⟩]

end Jules

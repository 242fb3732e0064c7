import Verif.Model.ColumnHeap
/-
Model of programs that keep views of columns: `auto p = to_view<T>(x);` (dataframe/numeric.hpp:25-35). A view is the address of the elements of the `std::vector` in a `column_model`
(`data<T>()`, column.hpp:82-98) and the number of elements at that time (array/ref_array.hpp:63); nothing connects it to the column it was taken from. Everything else is as in
Model/ColumnHeap.lean.

The address of the elements is represented by the number of the object: the vector of a `column_model` is filled when the object is made and its buffer is never replaced.
-/
namespace Jules

/-- Where a column is: a variable, or a column of a data frame (`d.at(i).column`).
column.hpp:101, dataframe.hpp:262-266, 301. -/
inductive Place where
  | col (x : Nat)
  | elem (d i : Nat)
  deriving DecidableEq

/-- A view of the elements of a column: `ref_array<T, 1>` or `ref_array<const T, 1>`.
ref_array.hpp:188-191, made in numeric.hpp:29, 34. -/
structure KView (C : Coercion) where
  ty : C.Ty
  id : Nat
  size : Nat
  isConst : Bool

/-- The objects, columns and data frames of the program, its views, and the elements it has read.
column.hpp:101, dataframe.hpp:299-302, ref_array.hpp:188-191. -/
structure KState (C : Coercion) where
  st : CState C
  views : Nat → Option (KView C)
  out : List (Σ T : C.Ty, C.Val T)

/-- Statements. `stmt`: those of Model/ColumnHeap.lean.
column.hpp:31-98, dataframe.hpp:77-296, numeric.hpp:12-35, ref_array.hpp:61-103. -/
inductive KStmt (C : Coercion) where
  | stmt (s : CStmt C)
  /-- `auto p = to_view<T>(x);` for a column variable: numeric.hpp:25-30. -/
  | view (p x : Nat) (T : C.Ty)
  /-- `auto p = to_view<T>(std::as_const(x));` or `auto p = to_view<T>(d.at(i).column);`: numeric.hpp:32-35, dataframe.hpp:262-266. -/
  | constView (p : Nat) (w : Place) (T : C.Ty)
  /-- `p[i]`: ref_array.hpp:100-103. -/
  | read (p i : Nat)
  /-- `p[i] = a;`: ref_array.hpp:100. -/
  | write (p i : Nat) (T : C.Ty) (a : C.Val T)
  /-- The end of the scope of `p`: ref_array.hpp:67 (nothing is destroyed with it). -/
  | viewDrop (p : Nat)

/-- A computation on the columns and data frames.
Language semantics, for numeric.hpp:25-35. -/
def onCols {C : Coercion} (x : SM (CState C) β) : SM (KState C) β := fun P =>
  match x P.st with
  | .ok b s => .ok b { P with st := s }
  | .exn e s => .exn e { P with st := s }
  | .fail f => .fail f

/-- A new name.
Language semantics (names in scope), for numeric.hpp:25-35. -/
def newView {C : Coercion} (p : Nat) : SM (KState C) Unit := fun P =>
  match P.views p with
  | none => .ok () P
  | some _ => .fail .illFormed

/-- The view with this name.
Language semantics (names in scope), for ref_array.hpp:100-103. -/
def getView {C : Coercion} (p : Nat) : SM (KState C) (KView C) := fun P =>
  match P.views p with
  | some v => .ok v P
  | none => .fail .illFormed

/-- The view variable gets a value (`none`: it goes out of scope).
Language semantics (variables), for ref_array.hpp:63-67, 188-191. -/
def setView {C : Coercion} (p : Nat) (v : Option (KView C)) : SM (KState C) Unit := fun P =>
  .ok () { P with views := fun q => if q = p then v else P.views q }

/-- column.hpp:82-98 `data<T>()`: the address of the elements. -/
def dataP {C : Coercion} (p : Option Nat) (T : C.Ty) : CM C Nat :=
  match p with
  | none => SM.throw .logic
  | some id => do
    let m ← fetch id
    if m.ty = T then SM.pure id else SM.throw .logic

/-- The pointer of a column that is accessed as a constant.
dataframe.hpp:262-266 `at` for a column of a data frame. -/
def getPlace {C : Coercion} : Place → SM (CState C) (Option Nat)
  | .col x => getCol x
  | .elem d i => do
    let D ← getFrame d
    match D.elems[i]? with
    | none => SM.throw .logic
    | some e => SM.pure e.ptr

/-- The bounds check of `p[i]`; without checks an index out of range is undefined behaviour when the element is accessed.
ref_array.hpp:100-103, array/slicing.hpp:244-252. -/
def inRange {C : Coercion} (chk : Bool) (i n : Nat) : SM (KState C) Unit := if i < n then SM.pure () else SM.die (if chk then .assert else .ub)

/-- The element of a vector.
`data()[i]`, column_model.hpp:203-238. -/
def elemAt {C : Coercion} (m : Model C) (i : Nat) : CM C (Σ T : C.Ty, C.Val T) :=
  match m.vals[i]? with
  | some a => SM.pure ⟨m.ty, a⟩
  | none => SM.die .ub

/-- Reading it through a view of `T`; undefined if the object does not exist any more or has another type of elements.
ref_array.hpp:100-103. -/
def loadElem {C : Coercion} (id : Nat) (T : C.Ty) (i : Nat) : CM C (Σ T : C.Ty, C.Val T) := do
  let m ← fetch id
  if m.ty = T then elemAt m i else SM.die .ub

/-- Writing it.
ref_array.hpp:100. -/
def storeElem {C : Coercion} (id : Nat) (T : C.Ty) (i : Nat) (a : C.Val T) : CM C Unit := do
  let m ← fetch id
  if h : T = m.ty then
    if i < m.vals.length then store id ⟨m.ty, m.vals.set i (h ▸ a)⟩ else SM.die .ub
  else SM.die .ub

/-- The program has read an element.
The value of ref_array.hpp:100-103. -/
def record {C : Coercion} (a : Σ T : C.Ty, C.Val T) : SM (KState C) Unit := fun P => .ok () { P with out := P.out ++ [a] }

/-- Execution of a statement. numeric.hpp:25-35, column.hpp:82-98, ref_array.hpp:61-103, and `cstep`. -/
def kstep {C : Coercion} (chk : Bool) (S : Nat → Bool) (lostIndex : List (Txt × Nat) → List (Txt × Nat) → List (Txt × Nat)) : KStmt C → SM (KState C) Unit
  | .stmt s => onCols (cstep S lostIndex s)
  | .view p x T => do
    newView p
    let t ← onCols (getCol x)
    let ty ← onCols (onHeap (typeP t))
    if ty ≠ T then onCols (cstep S lostIndex (.coerce x T)) else SM.pure ()
    let t ← onCols (getCol x)
    let id ← onCols (onHeap (dataP t T))
    let n ← onCols (onHeap (sizeP t))
    setView p (some ⟨T, id, n, false⟩)
  | .constView p w T => do
    newView p
    let t ← onCols (getPlace w)
    let id ← onCols (onHeap (dataP t T))
    let n ← onCols (onHeap (sizeP t))
    setView p (some ⟨T, id, n, true⟩)
  | .read p i => do
    let v ← getView p
    inRange chk i v.size
    let a ← onCols (onHeap (loadElem v.id v.ty i))
    record a
  | .write p i T a => do
    let v ← getView p
    if v.isConst = false ∧ v.ty = T then do
      inRange chk i v.size
      onCols (onHeap (storeElem v.id T i a))
    else SM.die .illFormed
  | .viewDrop p => do
    let _ ← getView p
    setView p none

/-- A program without handlers, and one that goes on after each exception (`handled`).
Language semantics, for column.hpp:31-98, dataframe.hpp:77-296 and numeric.hpp:12-35. -/
def krun {C : Coercion} (chk : Bool) (S : Nat → Bool) (lostIndex : List (Txt × Nat) → List (Txt × Nat) → List (Txt × Nat)) (handled : Bool) : List (KStmt C) → SM (KState C) Unit
  | [] => SM.pure ()
  | s :: p => if handled then do
      let _ ← SM.try (kstep chk S lostIndex s)
      krun chk S lostIndex handled p
    else do
      kstep chk S lostIndex s
      krun chk S lostIndex handled p

/-- The beginning of a program.
Language semantics: nothing of column.hpp:31-98 and dataframe.hpp:77-296 has been called. -/
def KState.start {C : Coercion} : KState C := ⟨⟨⟨[], 0⟩, fun _ => none, fun _ => none⟩, fun _ => none, []⟩

end Jules

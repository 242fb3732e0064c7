import Verif.Model.ColumnHeap
/-
Specification for C79: what statements over columns and data frames do to values (no pointers, no memory), and what it means that the objects of a program hold such values.
The functions on values are those of Model/Column.lean and Model/DataFrame.lean, whose properties are C39-C51.
-/
namespace Jules.Spec

/-- Columns and data frames as values. -/
structure VState (C : Coercion) where
  cols : Nat → Option (Column C)
  frames : Nat → Option (DF C)

def vCol {C : Coercion} (x : Nat) : SM (VState C) (Column C) := fun V =>
  match V.cols x with
  | some c => .ok c V
  | none => .fail .illFormed

def vFrame {C : Coercion} (d : Nat) : SM (VState C) (DF C) := fun V =>
  match V.frames d with
  | some D => .ok D V
  | none => .fail .illFormed

def vNewCol {C : Coercion} (x : Nat) : SM (VState C) Unit := fun V =>
  match V.cols x with
  | none => .ok () V
  | some _ => .fail .illFormed

def vNewFrame {C : Coercion} (d : Nat) : SM (VState C) Unit := fun V =>
  match V.frames d with
  | none => .ok () V
  | some _ => .fail .illFormed

def vDiffer {C : Coercion} (x y : Nat) : SM (VState C) Unit := fun V => if x = y then .fail .illFormed else .ok () V

def vSetCol {C : Coercion} (x : Nat) (c : Option (Column C)) : SM (VState C) Unit := fun V =>
  .ok () { V with cols := fun y => if y = x then c else V.cols y }

def vSetFrame {C : Coercion} (d : Nat) (D : Option (DF C)) : SM (VState C) Unit := fun V =>
  .ok () { V with frames := fun y => if y = d then D else V.frames y }

def vCols {C : Coercion} : List (Txt × Nat) → SM (VState C) (List (Named C))
  | [] => SM.pure []
  | (name, x) :: l => do
    let c ← vCol x
    let r ← vCols l
    SM.pure (⟨name, c⟩ :: r)

/-- What a statement does to the values: the result of each operation is copied into its target; an exception leaves the values as they are then. -/
def vstep {C : Coercion} : CStmt C → SM (VState C) Unit
  | .col x T l => do
    vNewCol x
    vSetCol x (some (Column.ofList T l))
  | .colEmpty x => do
    vNewCol x
    vSetCol x (some none)
  | .colCopy x y => do
    vNewCol x
    let c ← vCol y
    let c' ← SM.lift (Column.copy c)
    vSetCol x (some c')
  | .colPart x y first size => do
    vNewCol x
    let c ← vCol y
    let c' ← SM.lift (Column.partialCopy Arith.u64 c first size)
    vSetCol x (some c')
  | .colMove x y => do
    vNewCol x
    let c ← vCol y
    vSetCol y (some none)
    vSetCol x (some c)
  | .colSet x y => do
    let t ← vCol x
    let c ← vCol y
    vSetCol x (some (Column.copyAssign t c))
  | .colMoveSet x y => do
    vDiffer x y
    let _ ← vCol x
    let c ← vCol y
    vSetCol y (some none)
    vSetCol x (some c)
  | .coerce x T => do
    let c ← vCol x
    SM.lift (c.coerce T).1
    vSetCol x (some (c.coerce T).2)
  | .toCol x y T => do
    vNewCol x
    let c ← vCol y
    let c' ← SM.lift (toColumn c T)
    vSetCol x (some c')
  | .toColMove x y T => do
    vNewCol x
    let c ← vCol y
    let c' ← SM.lift (toColumnRv c T).1
    vSetCol y (some none)
    vSetCol x (some c')
  | .colDrop x => do
    let _ ← vCol x
    vSetCol x none
  | .frame d => do
    vNewFrame d
    vSetFrame d (some DF.empty)
  | .frameOf d l => do
    vNewFrame d
    let es ← vCols l
    let tmp ← SM.lift (es.mapM Named.copy)
    let D ← SM.lift (DF.ofList tmp)
    vSetFrame d (some D)
  | .frameCopy d s => do
    vNewFrame d
    let D ← vFrame s
    let D' ← SM.lift D.copy
    vSetFrame d (some D')
  | .frameMove d s => do
    vNewFrame d
    let D ← vFrame s
    vSetFrame s (some D.move.2)
    vSetFrame d (some D.move.1)
  | .frameSet d s => do
    let _ ← vFrame d
    let D ← vFrame s
    if d = s then SM.pure () else vSetFrame d (some D)
  | .frameMoveSet d s => do
    vDiffer d s
    let _ ← vFrame d
    let D ← vFrame s
    vSetFrame s (some D.move.2)
    vSetFrame d (some D.move.1)
  | .bind d s => do
    let T ← vFrame d
    let D ← vFrame s
    let o ← SM.lift D.copy
    vSetFrame d (some (T.bind (fun _ => false) o).2)
    SM.lift (T.bind (fun _ => false) o).1
  | .bindMove d s => do
    vDiffer d s
    let T ← vFrame d
    let D ← vFrame s
    vSetFrame s (some D.move.2)
    vSetFrame d (some (T.bind (fun _ => false) D).2)
    SM.lift (T.bind (fun _ => false) D).1
  | .bindCol d name x => do
    let T ← vFrame d
    let c ← vCol x
    vSetCol x (some none)
    vSetFrame d (some (T.bind (fun _ => false) (DF.ofNamed ⟨name, c⟩)).2)
    SM.lift (T.bind (fun _ => false) (DF.ofNamed ⟨name, c⟩)).1
  | .colAt x d i => do
    vNewCol x
    let D ← vFrame d
    let e ← SM.lift (D.atPos i)
    let c ← SM.lift (Column.copy e.col)
    vSetCol x (some c)
  | .head d s n => do
    vNewFrame d
    let D ← vFrame s
    let D' ← SM.lift (D.head n)
    vSetFrame d (some D')
  | .table d T => do
    let D ← vFrame d
    let _ ← SM.lift (D.elems.mapM fun e => columnAs T e.col)
    SM.pure ()
  | .frameDrop d => do
    let _ ← vFrame d
    vSetFrame d none

/-! ### Objects that hold values -/

/-- A variable of the program. -/
inductive Owner where
  | col (x : Nat)
  | frame (d : Nat)
  deriving DecidableEq

/-- The pointers of a variable with the columns they stand for. -/
def holdings {C : Coercion} (P : CState C) (V : VState C) : Owner → List (Option Nat × Column C)
  | .col x => match P.cols x, V.cols x with
    | some p, some c => [(p, c)]
    | _, _ => []
  | .frame d => match P.frames d, V.frames d with
    | some D, some E => (D.elems.map PNamed.ptr).zip (E.elems.map Named.col)
    | _, _ => []

/-- A pointer stands for a column: null for the column without data; otherwise the object it points to exists and has the elements. -/
def StandsFor {C : Coercion} (g : Nat → Option (Model C)) : Option Nat → Column C → Prop
  | none, none => True
  | some id, some m => g id = some m
  | _, _ => False

/-- The addresses. -/
def addrs {C : Coercion} (l : List (Option Nat × Column C)) : List Nat := l.filterMap Prod.fst

/-- The state `P` of a program holds the values `V`: the same variables are in scope; each column and each column of a data frame points to an object with its elements; no object
belongs to two of them; and every object that exists belongs to one of them. -/
structure Represents {C : Coercion} (P : CState C) (V : VState C) : Prop where
  cols : ∀ x, (P.cols x).isSome = (V.cols x).isSome
  frames : ∀ d, (P.frames d).map (fun D => (D.rows, D.elems.map PNamed.name, D.index)) = (V.frames d).map (fun E => (E.rows, E.names, E.index))
  values : ∀ o p c, (p, c) ∈ holdings P V o → StandsFor P.heap.get p c
  once : ∀ o, (addrs (holdings P V o)).Nodup
  owner : ∀ o o' i, i ∈ addrs (holdings P V o) → i ∈ addrs (holdings P V o') → o = o'
  noLeak : ∀ i, P.heap.get i ≠ none → ∃ o, i ∈ addrs (holdings P V o)

/-- The state at the start. -/
def CState.start {C : Coercion} : CState C := ⟨⟨[], 0⟩, fun _ => none, fun _ => none⟩

/-- `bind` that ran out of memory: the data frame has got some of the columns of the other one (none if those have another number of rows). -/
def PartlyBound {C : Coercion} (T other : DF C) (T' : DF C) : Prop :=
  ∃ k, T'.elems = T.elems ++ other.elems.take k ∧ (T'.rows = T.rows ∧ (k = 0 ∨ other.rows = T.rows) ∨ T.elems = [] ∧ T'.rows = other.rows)

/-- Copy assignment that ran out of memory: the number of rows is that of the source; each column is that of the target or (name or all of it) that of the source. -/
def PartlyAssigned {C : Coercion} (T D : DF C) (T' : DF C) : Prop :=
  T'.rows = D.rows ∧ ∀ (i : Nat) e, T'.elems[i]? = some e → (∃ t, T.elems[i]? = some t ∧ e.col = t.col ∧ (e.name = t.name ∨ ∃ s, D.elems[i]? = some s ∧ e.name = s.name)) ∨ D.elems[i]? = some e

/-- What an allocation that fails leaves behind: nothing has changed, except that `bind` and the copy assignment of data frames may have been stopped in the middle, and that a
column or data frame moved into `bind` may be lost. -/
def AfterBadAlloc {C : Coercion} (V : VState C) (s : CStmt C) (V' : VState C) : Prop :=
  V' = V ∨ match s with
  | .frameSet d s => ∃ T D T', V.frames d = some T ∧ V.frames s = some D ∧ PartlyAssigned T D T' ∧ V' = { V with frames := fun y => if y = d then some T' else V.frames y }
  | .bind d s => ∃ T D o T', V.frames d = some T ∧ V.frames s = some D ∧ D.copy = .ok o ∧ PartlyBound T o T' ∧
      V' = { V with frames := fun y => if y = d then some T' else V.frames y }
  | .bindMove d s => ∃ T D T', V.frames d = some T ∧ V.frames s = some D ∧ PartlyBound T D T' ∧
      V' = { V with frames := fun y => if y = d then some T' else if y = s then some D.move.2 else V.frames y }
  | .bindCol d name x => ∃ T c T', V.frames d = some T ∧ V.cols x = some c ∧ PartlyBound T (DF.ofNamed ⟨name, c⟩) T' ∧
      V' = { V with cols := fun y => if y = x then some none else V.cols y, frames := fun y => if y = d then some T' else V.frames y }
  | _ => False

/-- A statement of this program throws `e` on these values and leaves those (`oom`: an allocation may fail). -/
def Throws {C : Coercion} (oom : Prop) (V : VState C) (s : CStmt C) (e : Exn) (V' : VState C) : Prop := vstep s V = .exn e V' ∨ oom ∧ e = .badAlloc ∧ AfterBadAlloc V s V'

/-- A statement is ill-formed or undefined on these values: on values as such, or because a copy assignment of a data frame has to copy-construct a column without data. -/
def Undefined {C : Coercion} (V : VState C) (s : CStmt C) (f : Fail) : Prop :=
  vstep s V = .fail f ∨ f = .ub ∧ ∃ d y D, s = .frameSet d y ∧ V.frames y = some D ∧ ∃ v ∈ D.elems, v.col = none

/-- The executions of a program on values; `handled`: every statement is in a `try` block of its own. -/
inductive ColumnRuns {C : Coercion} (oom : Prop) (handled : Bool) : VState C → List (CStmt C) → SOut (VState C) Unit → Prop
  | done : ColumnRuns oom handled V [] (.ok () V)
  | step : vstep s V = .ok () V' → ColumnRuns oom handled V' p r → ColumnRuns oom handled V (s :: p) r
  | caught : handled = true → Throws oom V s e V' → ColumnRuns oom handled V' p r → ColumnRuns oom handled V (s :: p) r
  | thrown : handled = false → Throws oom V s e V' → ColumnRuns oom handled V (s :: p) (.exn e V')
  | undefined : Undefined V s f → ColumnRuns oom handled V (s :: p) (.fail f)

/-- The values at the start. -/
def VState.start {C : Coercion} : VState C := ⟨fun _ => none, fun _ => none⟩

/-- The outcomes are the same, and the state then holds the values. -/
def Matches {C : Coercion} : SOut (CState C) Unit → SOut (VState C) Unit → Prop
  | .ok _ P, .ok _ V => Represents P V
  | .exn e P, .exn e' V => e = e' ∧ Represents P V
  | .fail f, .fail f' => f = f'
  | _, _ => False

/-- Nothing is in scope. -/
def Closed {C : Coercion} (P : CState C) : Prop := (∀ x, P.cols x = none) ∧ ∀ d, P.frames d = none

/-- Every column of every data frame has `row_count()` elements. -/
def AllRectangular {C : Coercion} (V : VState C) : Prop := ∀ d E, V.frames d = some E → ∀ e ∈ E.elems, Column.size e.col = E.rows

/-- Is it a copy assignment of data frames? -/
def isFrameSet {C : Coercion} : CStmt C → Bool
  | .frameSet _ _ => true
  | _ => false

end Jules.Spec

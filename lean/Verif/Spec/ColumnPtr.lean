import Verif.Spec.ColumnHeap
import Verif.Model.ColumnPtr
/-
Specification for C83: a view of a column is another name for the elements of the column that has them now. Statements that move a column keep the view; statements that give the
column other elements, or destroy it, end it. From the model only the syntax of statements (`KStmt`, `CStmt`, `Place`) is used; `Points` and `KMatches` relate it to the states.
-/
namespace Jules.Spec

/-- A view: the type and number of its elements, whether it is constant, and where the column with the elements is now (`none`: there is none any more). -/
structure WView (C : Coercion) where
  ty : C.Ty
  size : Nat
  isConst : Bool
  loc : Option Place

/-- The values of columns and data frames, the views, and what has been read. -/
structure WState (C : Coercion) where
  vals : VState C
  views : Nat → Option (WView C)
  out : List (Σ T : C.Ty, C.Val T)

/-- The column at a place. -/
def columnIn {C : Coercion} (V : VState C) : Place → Option (Column C)
  | .col x => V.cols x
  | .elem d i => (V.frames d).bind fun E => (E.elems[i]?).map Named.col

/-- Another value for a column at a place. -/
def setColumn {C : Coercion} (V : VState C) (c : Column C) : Place → VState C
  | .col x => { V with cols := fun y => if y = x then some c else V.cols y }
  | .elem d i => { V with frames := fun y => if y = d then (V.frames d).map fun E => { E with elems := E.elems.modify i fun e => { e with col := c } } else V.frames y }

/-- The number of columns of a data frame. -/
def width {C : Coercion} (V : VState C) (d : Nat) : Nat := ((V.frames d).map fun E => E.elems.length).getD 0

/-- Has the column `y` elements of type `T`? -/
def hasType {C : Coercion} (V : VState C) (y : Nat) (T : C.Ty) : Prop := ∃ l, V.cols y = some (some ⟨T, l⟩)

open Classical in
/-- Where the elements of the column at a place are after the statement has completed. -/
noncomputable def movesTo {C : Coercion} (V : VState C) : CStmt C → Place → Option Place
  | .colMove x y, w => if w = .col y then some (.col x) else some w
  | .colSet x _, w => if w = .col x then none else some w
  | .colMoveSet x y, w => if w = .col y then some (.col x) else if w = .col x then none else some w
  | .coerce x _, w => if w = .col x then none else some w
  | .toColMove x y T, w => if w = .col y then (if hasType V y T then some (.col x) else none) else some w
  | .colDrop x, w => if w = .col x then none else some w
  | .frameMove d s, .elem a i => if a = s then some (.elem d i) else some (.elem a i)
  | .frameSet d s, .elem a i => if a = d ∧ d ≠ s then none else some (.elem a i)
  | .frameMoveSet d s, .elem a i => if a = s then some (.elem d i) else if a = d then none else some (.elem a i)
  | .bindMove d s, .elem a i => if a = s then some (.elem d (width V d + i)) else some (.elem a i)
  | .bindCol d _ x, w => if w = .col x then some (.elem d (width V d)) else some w
  | .frameDrop d, .elem a i => if a = d then none else some (.elem a i)
  | _, w => some w

/-- Where they may be after it has thrown: where they were; or nowhere, for a data frame that was being assigned to, and for what was being moved into a data frame; or at their new
place in the data frame. -/
def mayMove {C : Coercion} (V : VState C) : CStmt C → Place → Option Place → Prop
  | .frameSet d _, .elem a i, r => r = some (.elem a i) ∨ a = d ∧ r = none
  | .bindMove d s, .elem a i, r => if a = s then r = none ∨ r = some (.elem d (width V d + i)) else r = some (.elem a i)
  | .bindCol _ _ x, w, r => r = some w ∨ w = .col x ∧ r = none
  | _, w, r => r = some w

/-- The views follow the elements. -/
def followAll {C : Coercion} (f : Place → Option Place) (views : Nat → Option (WView C)) : Nat → Option (WView C) := fun p => (views p).map fun v => { v with loc := v.loc.bind f }

/-- What a statement may do: complete with these values and views, throw and leave those, or be undefined. `oom`: an allocation may fail. -/
inductive WStep {C : Coercion} (chk : Bool) (oom : Prop) (W : WState C) : KStmt C → SOut (WState C) Unit → Prop
  | stmt : vstep s W.vals = .ok () V' → WStep chk oom W (.stmt s) (.ok () ⟨V', followAll (movesTo W.vals s) W.views, W.out⟩)
  | stmtThrows : Throws oom W.vals s e V' → (∀ w, mayMove W.vals s w (f w)) → WStep chk oom W (.stmt s) (.exn e ⟨V', followAll f W.views, W.out⟩)
  | stmtUndefined : Undefined W.vals s f → WStep chk oom W (.stmt s) (.fail f)
  /-- `to_view<T>(x)`, when the elements of `x` have type `T`. -/
  | view : W.views p = none → W.vals.cols x = some (some ⟨T, l⟩) →
      WStep chk oom W (.view p x T) (.ok () { W with views := fun q => if q = p then some ⟨T, l.length, false, some (.col x)⟩ else W.views q })
  /-- Otherwise `x` is converted first, which ends its other views. -/
  | viewCoerce : W.views p = none → W.vals.cols x = some (some m) → m.ty ≠ T → WStep chk oom W (.stmt (.coerce x T)) (.ok () W') → W'.vals.cols x = some (some ⟨T, l⟩) →
      WStep chk oom W (.view p x T) (.ok () { W' with views := fun q => if q = p then some ⟨T, l.length, false, some (.col x)⟩ else W'.views q })
  | viewThrows : W.views p = none → W.vals.cols x = some (some m) → m.ty ≠ T → WStep chk oom W (.stmt (.coerce x T)) (.exn e W') → WStep chk oom W (.view p x T) (.exn e W')
  | viewUndefined : W.views p = none → W.vals.cols x = some (some m) → m.ty ≠ T → Undefined W.vals (.coerce x T) f → WStep chk oom W (.view p x T) (.fail f)
  | viewEmpty : W.views p = none → W.vals.cols x = some none → WStep chk oom W (.view p x T) (.exn .logic W)
  | viewIllFormed : W.views p ≠ none ∨ W.vals.cols x = none → WStep chk oom W (.view p x T) (.fail .illFormed)
  /-- `to_view<T>` of a constant column. -/
  | constView : W.views p = none → columnIn W.vals w = some (some ⟨T, l⟩) →
      WStep chk oom W (.constView p w T) (.ok () { W with views := fun q => if q = p then some ⟨T, l.length, true, some w⟩ else W.views q })
  | constViewType : W.views p = none → columnIn W.vals w = some (some m) → m.ty ≠ T → WStep chk oom W (.constView p w T) (.exn .logic W)
  | constViewEmpty : W.views p = none → columnIn W.vals w = some none → WStep chk oom W (.constView p w T) (.exn .logic W)
  | constViewRange : W.views p = none → W.vals.frames d = some E → E.elems[i]? = none → WStep chk oom W (.constView p (.elem d i) T) (.exn .logic W)
  | constViewNoCol : W.views p ≠ none ∨ W.vals.cols x = none → WStep chk oom W (.constView p (.col x) T) (.fail .illFormed)
  | constViewNoFrame : W.views p ≠ none ∨ W.vals.frames d = none → WStep chk oom W (.constView p (.elem d i) T) (.fail .illFormed)
  /-- `p[i]` is the element of the column that has the elements now. -/
  | read : W.views p = some v → v.loc = some w → columnIn W.vals w = some (some ⟨v.ty, l⟩) → l.length = v.size → l[i]? = some a →
      WStep chk oom W (.read p i) (.ok () { W with out := W.out ++ [⟨v.ty, a⟩] })
  | readDangling : W.views p = some v → v.loc = none → i < v.size → WStep chk oom W (.read p i) (.fail .ub)
  | readRange : W.views p = some v → v.size ≤ i → WStep chk oom W (.read p i) (.fail (if chk then .assert else .ub))
  | readIllFormed : W.views p = none → WStep chk oom W (.read p i) (.fail .illFormed)
  /-- `p[i] = a` changes that element of this column and nothing else. -/
  | write : W.views p = some ⟨T, n, false, some w⟩ → columnIn W.vals w = some (some ⟨T, l⟩) → l.length = n → i < n →
      WStep chk oom W (.write p i T a) (.ok () { W with vals := setColumn W.vals (some ⟨T, l.set i a⟩) w })
  | writeDangling : W.views p = some ⟨T, n, false, none⟩ → i < n → WStep chk oom W (.write p i T a) (.fail .ub)
  | writeRange : W.views p = some v → v.isConst = false → v.ty = T → v.size ≤ i → WStep chk oom W (.write p i T a) (.fail (if chk then .assert else .ub))
  | writeIllFormed : (∀ v, W.views p = some v → v.isConst = true ∨ v.ty ≠ T) → WStep chk oom W (.write p i T a) (.fail .illFormed)
  | viewDrop : W.views p = some v → WStep chk oom W (.viewDrop p) (.ok () { W with views := fun q => if q = p then none else W.views q })
  | viewDropIllFormed : W.views p = none → WStep chk oom W (.viewDrop p) (.fail .illFormed)

/-- The executions of a program; `handled`: every statement is in a `try` block of its own. -/
inductive WRuns {C : Coercion} (chk : Bool) (oom : Prop) (handled : Bool) : WState C → List (KStmt C) → SOut (WState C) Unit → Prop
  | done : WRuns chk oom handled W [] (.ok () W)
  | step : WStep chk oom W s (.ok () W') → WRuns chk oom handled W' p r → WRuns chk oom handled W (s :: p) r
  | caught : handled = true → WStep chk oom W s (.exn e W') → WRuns chk oom handled W' p r → WRuns chk oom handled W (s :: p) r
  | thrown : handled = false → WStep chk oom W s (.exn e W') → WRuns chk oom handled W (s :: p) (.exn e W')
  | undefined : WStep chk oom W s (.fail f) → WRuns chk oom handled W (s :: p) (.fail f)

/-- The start of a program. -/
def WState.start {C : Coercion} : WState C := ⟨VState.start, fun _ => none, []⟩

/-- The pointer of the column at a place, if there is one that is not null. -/
def pointerAt {C : Coercion} (P : CState C) : Place → Option Nat
  | .col x => (P.cols x).join
  | .elem d i => ((P.frames d).bind fun D => (D.elems[i]?).map PNamed.ptr).join

/-- A view variable of the program is such a view: it points to the object of the column at the place, which has elements of its type, as many as it says, or to an
object that does not exist any more. -/
def Points {C : Coercion} (P : CState C) (v : KView C) (u : WView C) : Prop :=
  v.ty = u.ty ∧ v.size = u.size ∧ v.isConst = u.isConst ∧ v.id < P.heap.models.length ∧
  match u.loc with
  | some w => pointerAt P w = some v.id ∧ ∃ l : List (C.Val v.ty), P.heap.get v.id = some ⟨v.ty, l⟩ ∧ l.length = v.size
  | none => P.heap.get v.id = none

/-- The state of the program is this one. -/
structure KHolds {C : Coercion} (P : KState C) (W : WState C) : Prop where
  vals : Represents P.st W.vals
  scope : ∀ p, (P.views p).isSome = (W.views p).isSome
  views : ∀ p v u, P.views p = some v → W.views p = some u → Points P.st v u
  out : P.out = W.out

/-- The outcomes are the same, and the state then is this one. -/
def KMatches {C : Coercion} : SOut (KState C) Unit → SOut (WState C) Unit → Prop
  | .ok _ P, .ok _ W => KHolds P W
  | .exn e P, .exn e' W => e = e' ∧ KHolds P W
  | .fail f, .fail f' => f = f'
  | _, _ => False

end Jules.Spec

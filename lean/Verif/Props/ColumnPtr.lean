import Verif.Lemmas.ColumnPtr
import Verif.Props.ColumnHeap
/-
C83: views of columns (`to_view`) that a program keeps while it goes on using the columns and the data frames they have become part of.
-/
namespace Jules.Props
open Jules Jules.Spec

variable {C : Coercion} {S : Nat → Bool} {lost : List (Txt × Nat) → List (Txt × Nat) → List (Txt × Nat)} {chk : Bool}

/-- C83: every statement, whatever allocations fail, does what `WStep` says: views are names for the elements of the columns they have been taken from. -/
theorem C83_statement {P : KState C} {W : WState C} (h : KHolds P W) (s : KStmt C) :
    ∃ r, WStep chk (∃ k, S k = true) W s r ∧ KMatches (kstep chk S lost s P) r := kstep_sim h s

theorem kholds_start : KHolds (KState.start : KState C) WState.start :=
  ⟨represents_start, fun _ => rfl, (fun _ _ _ h => by cases h), rfl⟩

/-- C83: and so does every program, with or without exception handlers. -/
theorem C83_program (handled : Bool) (p : List (KStmt C)) :
    ∃ r, WRuns chk (∃ k, S k = true) handled WState.start p r ∧ KMatches (krun chk S lost handled p KState.start) r := krun_sim p kholds_start

/-- C83: what the views of a program denote at every moment: a view that has a place shows exactly the elements of the column there, with its type and its size. -/
theorem C83_denotes {P : KState C} {W : WState C} (h : KHolds P W) {p : Nat} {u : WView C} {w : Place} (hu : W.views p = some u) (hl : u.loc = some w) :
    ∃ l : List (C.Val u.ty), columnIn W.vals w = some (some ⟨u.ty, l⟩) ∧ l.length = u.size ∧
      ∀ i, kstep chk S lost (.read p i) P = if hi : i < l.length then .ok () { P with out := P.out ++ [⟨u.ty, l[i]⟩] } else .fail (if chk then .assert else .ub) := by
  obtain ⟨v, hv⟩ : ∃ v, P.views p = some v := by
    cases hv : P.views p with
    | none => rw [(scope_none h).1 hv] at hu; cases hu
    | some v => exact ⟨v, rfl⟩
  obtain ⟨h1, h2, h3, h4, h5⟩ := h.views p v u hv hu
  rw [hl] at h5
  obtain ⟨h6, l, h7, h8⟩ := (show pointerAt P.st w = some v.id ∧ ∃ l : List (C.Val v.ty), P.st.heap.get v.id = some ⟨v.ty, l⟩ ∧ l.length = v.size from h5)
  obtain ⟨m, h9, h10, -⟩ := ptr_value h.vals h6
  rw [h7] at h10
  obtain ⟨vt, vid, vs, vc⟩ := v
  obtain ⟨ut, us, uc, ul⟩ := u
  dsimp only at *
  subst h1 h2 h3
  cases h10
  refine ⟨l, h9, h8, fun i => ?_⟩
  show (getView p >>= _) P = _
  rw [sm_ok (getView_ok hv)]
  dsimp only
  by_cases hi : i < l.length
  · rw [dif_pos hi, sm_ok (inRange_ok (by omega))]
    have : onHeap (loadElem vid vt i) P.st = .ok ⟨vt, l[i]⟩ P.st := by
      unfold onHeap loadElem
      rw [sm_ok (fetch_ok h7), if_pos rfl]
      unfold elemAt
      dsimp only
      rw [List.getElem?_eq_getElem hi]; rfl
    rw [sm_ok (on_ok this)]; rfl
  · rw [dif_neg hi, sm_fail (inRange_no (by omega))]

/-- C83: a statement that completes and moves the column takes the view along: the column is at the new place, with the same elements, and the view shows them. -/
theorem C83_kept {P P' : KState C} {W : WState C} (h : KHolds P W) {s : CStmt C} (hs : kstep chk S lost (.stmt s) P = .ok () P') {p : Nat} {u : WView C} {w w' : Place} (hu : W.views p = some u)
    (hl : u.loc = some w) (hm : movesTo W.vals s w = some w') :
    ∃ W', KHolds P' W' ∧ W'.views p = some { u with loc := some w' } ∧ columnIn W'.vals w' = columnIn W.vals w := by
  have hs' : onCols (cstep S lost s) P = .ok () P' := hs
  obtain ⟨r, h1, h2⟩ := kstmt_sim (chk := chk) (S := S) (lost := lost) h s
  rw [hs'] at h2
  cases h1 with
  | stmt h3 =>
    rename_i V'
    have h2 : KHolds P' _ := h2
    refine ⟨_, h2, by simp [followAll, hu, hl, hm], ?_⟩
    have hf := flow_step (S := S) (lost := lost) h.vals s
    unfold onCols at hs'
    cases hr : cstep S lost s P.st with
    | ok b s' =>
      rw [hr] at hs' hf
      cases hs'
      have hf : Flow P.st s' (movesTo W.vals s) := hf
      obtain ⟨v, hv⟩ : ∃ v, P.views p = some v := by
        cases hv : P.views p with
        | none => rw [(scope_none h).1 hv] at hu; cases hu
        | some v => exact ⟨v, rfl⟩
      obtain ⟨k1, k2, k3, k4, k5⟩ := h.views p v u hv hu
      rw [hl] at k5
      have k6 : pointerAt P.st w = some v.id := k5.1
      obtain ⟨m, m1, m2, -⟩ := ptr_value h.vals k6
      obtain ⟨m', n1, n2, -⟩ := ptr_value h2.vals (hf.dest w v.id w' k6 hm)
      have n2 : s'.heap.get v.id = some m' := n2
      rcases hf.ext.same v.id k4 with e | e
      · rw [e, m2] at n2
        cases n2
        exact n1.trans m1.symm
      · rw [e] at n2; cases n2
    | exn e s' => rw [hr] at hs'; cases hs'
    | fail f => rw [hr] at hs'; cases hs'
  | stmtThrows _ _ => exact h2.elim
  | stmtUndefined _ => exact h2.elim

/-- C83: a statement that gives the column other elements, or destroys it, ends the view: reading through it is undefined behaviour from then on, and no build detects it. -/
theorem C83_ended {P P' : KState C} {W : WState C} (h : KHolds P W) {s : CStmt C} (hs : kstep chk S lost (.stmt s) P = .ok () P') {p i : Nat} {u : WView C} {w : Place} (hu : W.views p = some u)
    (hl : u.loc = some w) (hm : movesTo W.vals s w = none) (hi : i < u.size) : kstep chk S lost (.read p i) P' = .fail .ub := by
  have hs' : onCols (cstep S lost s) P = .ok () P' := hs
  obtain ⟨r, h1, h2⟩ := kstmt_sim (chk := chk) (S := S) (lost := lost) h s
  rw [hs'] at h2
  cases h1 with
  | stmt h3 =>
    have h2 : KHolds P' _ := h2
    obtain ⟨r, h4, h5⟩ := read_sim (chk := chk) (S := S) (lost := lost) h2 p i
    have hv : followAll (movesTo W.vals s) W.views p = some { u with loc := none } := by simp [followAll, hu, hl, hm]
    cases h4 with
    | read k1 k2 _ _ _ => dsimp only at k1; rw [hv] at k1; cases k1; cases k2
    | readDangling _ _ _ =>
      cases hr : kstep chk S lost (.read p i) P' with
      | fail f => rw [hr] at h5; exact congrArg _ h5
      | ok _ _ => rw [hr] at h5; exact h5.elim
      | exn _ _ => rw [hr] at h5; exact h5.elim
    | readRange k1 k2 => dsimp only at k1; rw [hv] at k1; cases k1; dsimp only at k2; omega
    | readIllFormed k1 => dsimp only at k1; rw [hv] at k1; cases k1
  | stmtThrows _ _ => exact h2.elim
  | stmtUndefined _ => exact h2.elim

/-- C83: writing an element through a view changes that element of the column that has the elements now, wherever it has been moved to, and no other element, column or data frame. -/
theorem C83_write {P : KState C} {W : WState C} (h : KHolds P W) {p i : Nat} {T : C.Ty} {a : C.Val T} {n : Nat} {w : Place} {l : List (C.Val T)} (hu : W.views p = some ⟨T, n, false, some w⟩)
    (hl : columnIn W.vals w = some (some ⟨T, l⟩)) (hi : i < l.length) :
    ∃ P', kstep chk S lost (.write p i T a) P = .ok () P' ∧ KHolds P' { W with vals := setColumn W.vals (some ⟨T, l.set i a⟩) w } := by
  obtain ⟨l', h1, h2, -⟩ := C83_denotes (chk := chk) (S := S) (lost := lost) h hu rfl
  dsimp only at h1 h2
  have hl' := hl
  rw [h1] at hl'
  cases hl'
  obtain ⟨r, h4, h5⟩ := write_sim (chk := chk) (S := S) (lost := lost) h p i T a
  cases h4 with
  | write k1 k2 k3 k4 =>
    rw [hu] at k1
    cases k1
    rw [h1] at k2
    cases k2
    cases hr : kstep chk S lost (.write p i T a) P with
    | ok u P' => rw [hr] at h5; exact ⟨P', rfl, h5⟩
    | exn _ _ => rw [hr] at h5; exact h5.elim
    | fail _ => rw [hr] at h5; exact h5.elim
  | writeDangling k1 _ => rw [hu] at k1; cases k1
  | writeRange k1 _ _ k2 => rw [hu] at k1; cases k1; dsimp only at k2; omega
  | writeIllFormed k1 => rcases k1 _ hu with k | k; cases k; exact (k rfl).elim

/-- What `setColumn` means: the column at the place has the new value, the columns at other places have their old ones. -/
theorem C83_write_elsewhere {V : VState C} {w w' : Place} {c : Column C} (hw : columnIn V w ≠ none) :
    columnIn (setColumn V c w) w = some c ∧ (w' ≠ w → columnIn (setColumn V c w) w' = columnIn V w') := by
  cases w with
  | col x =>
    refine ⟨by simp [columnIn, setColumn], fun h => ?_⟩
    cases w' with
    | col y =>
      have : y ≠ x := fun e => h (by rw [e])
      simp [columnIn, setColumn, this]
    | elem d i => rfl
  | elem d i =>
    simp only [columnIn, ne_eq, Option.bind_eq_none_iff, not_forall] at hw
    obtain ⟨E, hE, he⟩ := hw
    constructor
    · simp only [columnIn, setColumn, if_pos, hE, Option.map_some, Option.bind_some, List.getElem?_modify]
      cases hi : E.elems[i]? with
      | none => rw [hi] at he; simp at he
      | some e => simp
    · intro h
      cases w' with
      | col y => rfl
      | elem d' i' =>
        by_cases hd : d' = d
        · subst hd
          have hi : i ≠ i' := fun e => h (by rw [e])
          simp [columnIn, setColumn, hE, List.getElem?_modify, hi]
        · simp [columnIn, setColumn, hd]

/-- C83: these are all the statements that end views by completing: assigning to the column, converting it, destroying it, and the same for its data frame. Moves and binds never do. -/
theorem C83_dangles_only {V : VState C} {s : CStmt C} {w : Place} (h : movesTo V s w = none) :
    (∃ x y, s = .colSet x y ∧ w = .col x) ∨ (∃ x y, s = .colMoveSet x y ∧ w = .col x) ∨ (∃ x T, s = .coerce x T ∧ w = .col x) ∨ (∃ x y T, s = .toColMove x y T ∧ w = .col y ∧ ¬ hasType V y T) ∨
    (∃ x, s = .colDrop x ∧ w = .col x) ∨ (∃ d y i, s = .frameSet d y ∧ w = .elem d i) ∨ (∃ d y i, s = .frameMoveSet d y ∧ w = .elem d i) ∨ (∃ d i, s = .frameDrop d ∧ w = .elem d i) := by
  cases s <;> cases w <;> simp only [movesTo] at h <;> (try split at h) <;> (try split at h) <;> (try cases h) <;> simp_all

/-! ### The hypotheses hold in concrete cases -/

/-- A view is kept while its column is moved into a data frame and that is moved; what is written through it is seen in the data frame. -/
def exKeep : List (KStmt (julesRules fpEx)) :=
  [.stmt (.col 0 JTy.integer [(1 : Int32), (2 : Int32)]), .view 0 0 JTy.integer, .stmt (.frame 0), .stmt (.bindCol 0 ['a'] 0), .write 0 1 JTy.integer (7 : Int32), .stmt (.colAt 1 0 0),
    .constView 1 (.col 1) JTy.integer, .read 1 1, .stmt (.frameMove 1 0), .read 0 0, .write 0 0 JTy.integer (9 : Int32), .constView 2 (.elem 1 0) JTy.integer, .read 2 0, .read 1 0]

/-- The integers a program has read. -/
def ints (l : List (Σ T : JTy, (julesRules fpEx).Val T)) : List (Option Int32) := l.map fun a =>
  match a with
  | ⟨.integer, n⟩ => some n
  | _ => none

/-- The program ended normally, having read these integers. -/
def hasRead (l : List Int32) : SOut (KState (julesRules fpEx)) Unit → Bool
  | .ok _ P => decide (ints P.out = l.map some)
  | _ => false

example : hasRead [7, 1, 9, 1] (krun true (fun _ => false) (fun a _ => a) false exKeep KState.start) = true := by decide +kernel

/-- The execution has ended this way. -/
def hasFailed (f : Fail) : SOut (KState (julesRules fpEx)) Unit → Bool
  | .fail g => decide (g = f)
  | _ => false

-- Converting the column ends the view, also in checked builds; so does a second view of another type.
example : hasFailed .ub (krun true (fun _ => false) (fun a _ => a) false [.stmt (.col 0 JTy.integer [(1 : Int32), (2 : Int32)]), .view 0 0 JTy.integer, .stmt (.coerce 0 JTy.string), .read 0 0]
    (KState.start : KState (julesRules fpEx))) = true := by decide +kernel
example : hasFailed .ub (krun true (fun _ => false) (fun a _ => a) false [.stmt (.col 0 JTy.integer [(1 : Int32), (2 : Int32)]), .view 0 0 JTy.integer, .view 1 0 JTy.string, .read 0 0]
    (KState.start : KState (julesRules fpEx))) = true := by decide +kernel
-- An index out of range is detected in checked builds, a constant view cannot be written.
example : hasFailed .assert (krun true (fun _ => false) (fun a _ => a) false [.stmt (.col 0 JTy.integer [(1 : Int32), (2 : Int32)]), .view 0 0 JTy.integer, .read 0 2]
    (KState.start : KState (julesRules fpEx))) = true := by decide +kernel
example : hasFailed .illFormed (krun true (fun _ => false) (fun a _ => a) false [.stmt (.col 0 JTy.integer [(1 : Int32), (2 : Int32)]), .constView 0 (.col 0) JTy.integer, .write 0 1 JTy.integer (7 : Int32)]
    (KState.start : KState (julesRules fpEx))) = true := by decide +kernel

/-- A column and a view of it. -/
def exViewed : List (KStmt (julesRules fpEx)) := [.stmt (.col 0 JTy.integer [(1 : Int32), (2 : Int32)]), .view 0 0 JTy.integer]

theorem exViewed_state : ∃ P W, krun true (fun _ => false) (fun a _ => a) false exViewed KState.start = .ok () P ∧ KHolds P W ∧ W.views 0 = some ⟨JTy.integer, 2, false, some (.col 0)⟩ ∧
    columnIn W.vals (.col 0) = some (some ⟨JTy.integer, [(1 : Int32), (2 : Int32)]⟩) := by
  have hp : ∃ P, krun true (fun _ => false) (fun a _ => a) false exViewed KState.start = .ok () P := ⟨_, by simp [exViewed, krun, kstep]; rfl⟩
  obtain ⟨P, hp⟩ := hp
  obtain ⟨r, h1, h2⟩ := C83_program (chk := true) (S := fun _ => false) (lost := fun a _ => a) false exViewed
  rw [hp] at h2
  cases h1 with
  | step e h1 =>
    cases e with
    | stmt e =>
      cases e
      cases h1 with
      | step e h1 =>
        cases e with
        | view k1 k2 =>
          cases k2
          cases h1
          exact ⟨P, _, hp, h2, rfl, rfl⟩
        | viewCoerce k1 k2 k3 _ _ => cases k2; exact (k3 rfl).elim
      | caught h _ _ => cases h
      | thrown _ _ => exact h2.elim
      | undefined _ => exact h2.elim
  | caught h _ _ => cases h
  | thrown _ _ => exact h2.elim
  | undefined _ => exact h2.elim

example := C83_statement (chk := false) (S := fun k => k == 3) (lost := fun a _ => a) exViewed_state.choose_spec.choose_spec.2.1 (.stmt (.colCopy 1 0))
example := C83_denotes (chk := true) (S := fun _ => false) (lost := fun a _ => a) exViewed_state.choose_spec.choose_spec.2.1 exViewed_state.choose_spec.choose_spec.2.2.1 rfl
example := C83_write (chk := true) (S := fun _ => false) (lost := fun a _ => a) (i := 1) (a := (5 : Int32)) exViewed_state.choose_spec.choose_spec.2.1
  exViewed_state.choose_spec.choose_spec.2.2.1 exViewed_state.choose_spec.choose_spec.2.2.2 (by decide)
example := (C83_write_elsewhere (V := (⟨fun _ => some none, fun _ => none⟩ : VState (julesRules fpEx))) (w := .col 0) (w' := .col 1) (c := none) (by simp [columnIn])).2 (by simp)

-- Moving the column keeps the view, destroying it ends it.
theorem exViewed_move : ∃ P W P', KHolds P W ∧ kstep true (fun _ => false) (fun a _ => a) (.stmt (.colMove 1 0)) P = .ok () P' ∧
    W.views 0 = some ⟨JTy.integer, 2, false, some (.col 0)⟩ ∧ movesTo W.vals (.colMove 1 0 : CStmt (julesRules fpEx)) (.col 0) = some (.col 1) := by
  obtain ⟨P, W, h1, h2, h3, -⟩ := exViewed_state
  have hp : ∃ P, krun true (fun _ => false) (fun a _ => a) false exViewed KState.start = .ok () P ∧
      ∃ P', kstep true (fun _ => false) (fun a _ => a) (.stmt (.colMove 1 0)) P = .ok () P' := ⟨_, by simp [exViewed, krun, kstep]; rfl, _, rfl⟩
  obtain ⟨P2, k1, P', k2⟩ := hp
  rw [h1] at k1
  cases k1
  exact ⟨P, W, P', h2, k2, h3, by simp [movesTo]⟩
example := C83_kept exViewed_move.choose_spec.choose_spec.choose_spec.1 exViewed_move.choose_spec.choose_spec.choose_spec.2.1 exViewed_move.choose_spec.choose_spec.choose_spec.2.2.1 rfl
  exViewed_move.choose_spec.choose_spec.choose_spec.2.2.2

theorem exViewed_drop : ∃ P W P', KHolds P W ∧ kstep true (fun _ => false) (fun a _ => a) (.stmt (.colDrop 0)) P = .ok () P' ∧
    W.views 0 = some ⟨JTy.integer, 2, false, some (.col 0)⟩ ∧ movesTo W.vals (.colDrop 0 : CStmt (julesRules fpEx)) (.col 0) = none := by
  obtain ⟨P, W, h1, h2, h3, -⟩ := exViewed_state
  have hp : ∃ P, krun true (fun _ => false) (fun a _ => a) false exViewed KState.start = .ok () P ∧
      ∃ P', kstep true (fun _ => false) (fun a _ => a) (.stmt (.colDrop 0)) P = .ok () P' := ⟨_, by simp [exViewed, krun, kstep]; rfl, _, rfl⟩
  obtain ⟨P2, k1, P', k2⟩ := hp
  rw [h1] at k1
  cases k1
  exact ⟨P, W, P', h2, k2, h3, by simp [movesTo]⟩
example := C83_ended (i := 1) exViewed_drop.choose_spec.choose_spec.choose_spec.1 exViewed_drop.choose_spec.choose_spec.choose_spec.2.1 exViewed_drop.choose_spec.choose_spec.choose_spec.2.2.1 rfl
  exViewed_drop.choose_spec.choose_spec.choose_spec.2.2.2 (by decide)
example := C83_dangles_only exViewed_drop.choose_spec.choose_spec.choose_spec.2.2.2

end Jules.Props

import Verif.Lemmas.ColumnStep
import Verif.Props.DataFrame
/-
C79: columns and data frames with their storage. Every allocation and every conversion may throw.
-/
namespace Jules.Props
open Jules Jules.Spec

variable {C : Coercion} {S : Nat → Bool} {lost : List (Txt × Nat) → List (Txt × Nat) → List (Txt × Nat)}

/-- C79: the effect of a statement. If it completes, the objects hold the values that the operation has on values. If it throws, the exception is the one of the operation on
values, or `bad_alloc` because an allocation failed; the objects then hold values that `AfterBadAlloc` allows, and still nothing is shared, dangling or leaked. If it is undefined,
then already because of the values. -/
theorem C79_statement_partial {P : CState C} {V : VState C} (h : Represents P V) (s : CStmt C) :
    (∀ P', cstep S lost s P = .ok () P' → ∃ V', vstep s V = .ok () V' ∧ Represents P' V') ∧
    (∀ e P', cstep S lost s P = .exn e P' → ∃ V', Throws (∃ k, S k = true) V s e V' ∧ Represents P' V') ∧
    (∀ f, cstep S lost s P = .fail f → Undefined V s f) := by
  have hs := cstep_sim (S := S) lost h s
  refine ⟨?_, ?_, ?_⟩
  · intro P' hP
    rw [hP] at hs; exact hs
  · intro e P' hP
    rw [hP] at hs
    obtain ⟨V', h1, h2⟩ := hs
    exact ⟨V', h2.imp (fun h => h) fun h => ⟨h.1.2, h.1.1, h.2⟩, h1⟩
  · intro f hP
    rw [hP] at hs; exact hs

theorem represents_start : Represents (CState.start : CState C) VState.start := by
  have hh : ∀ o, holdings (CState.start : CState C) VState.start o = [] := by intro o; cases o <;> rfl
  refine ⟨fun _ => rfl, fun _ => rfl, ?_, ?_, ?_, ?_⟩
  · intro o p c hm; rw [hh] at hm; cases hm
  · intro o; rw [hh]; exact List.nodup_nil
  · intro o o' i hi; rw [hh] at hi; cases hi
  · intro i hi; exact (hi (by simp [CState.start, CHeap.get])).elim

theorem runs_from {handled : Bool} : ∀ (p : List (CStmt C)) {P : CState C} {V : VState C}, Represents P V →
    ∃ r, ColumnRuns (∃ k, S k = true) handled V p r ∧ Matches (crun S lost handled p P) r
  | [], P, V, h => ⟨_, .done, h⟩
  | s :: p, P, V, h => by
    obtain ⟨h1, h2, h3⟩ := C79_statement_partial (S := S) (lost := lost) h s
    unfold crun
    cases hs : cstep S lost s P with
    | ok u P' =>
      obtain ⟨V', e1, e2⟩ := h1 P' hs
      obtain ⟨r, r1, r2⟩ := runs_from (handled := handled) p e2
      refine ⟨r, .step e1 r1, ?_⟩
      cases handled with
      | true =>
        rw [if_pos rfl, sm_ok (b := .ok u) (s' := P') (by unfold SM.try; rw [hs])]; exact r2
      | false => rw [if_neg (by simp), sm_ok hs]; exact r2
    | exn e P' =>
      obtain ⟨V', e1, e2⟩ := h2 e P' hs
      cases handled with
      | true =>
        obtain ⟨r, r1, r2⟩ := runs_from (handled := true) p e2
        refine ⟨r, .caught rfl e1 r1, ?_⟩
        rw [if_pos rfl, sm_ok (b := .error e) (s' := P') (by unfold SM.try; rw [hs])]; exact r2
      | false =>
        refine ⟨_, .thrown rfl e1, ?_⟩
        rw [if_neg (by simp), sm_exn hs]; exact ⟨rfl, e2⟩
    | fail f =>
      refine ⟨_, .undefined (h3 f hs), ?_⟩
      cases handled with
      | true => rw [if_pos rfl, sm_fail (e := f) (by unfold SM.try; rw [hs])]; exact rfl
      | false => rw [if_neg (by simp), sm_fail hs]; exact rfl

/-- C79: every program over columns and data frames, with or without exception handlers, whatever allocations fail: its outcome is one that the program has on values, and the
objects then hold these values: each exists, belongs to exactly one column, and every existing object belongs to a column in scope. In particular no object is used after it has
been deleted and none is deleted twice. -/
theorem C79_program_partial (handled : Bool) (p : List (CStmt C)) :
    ∃ r, ColumnRuns (∃ k, S k = true) handled VState.start p r ∧ Matches (crun S lost handled p CState.start) r := runs_from p represents_start

theorem represents_reached {handled : Bool} {p : List (CStmt C)} {P : CState C} (h : crun S lost handled p CState.start = .ok () P ∨ ∃ e, crun S lost handled p CState.start = .exn e P) :
    ∃ V, Represents P V := by
  obtain ⟨r, -, h2⟩ := C79_program_partial (S := S) (lost := lost) handled p
  rcases h with h | ⟨e, h⟩
  · rw [h] at h2
    cases r with
    | ok u V => exact ⟨V, h2⟩
    | exn _ _ => exact h2.elim
    | fail _ => exact h2.elim
  · rw [h] at h2
    cases r with
    | ok _ _ => exact h2.elim
    | exn _ V => exact ⟨V, h2.2⟩
    | fail _ => exact h2.elim

/-- C79: no leak. When a program has ended, also by an exception, and its variables are out of scope, all objects that it made have been deleted. -/
theorem C79_no_leak {handled : Bool} {p : List (CStmt C)} {P : CState C} (h : crun S lost handled p CState.start = .ok () P ∨ ∃ e, crun S lost handled p CState.start = .exn e P)
    (hc : Closed P) (i : Nat) : P.heap.get i = none := by
  obtain ⟨V, hV⟩ := represents_reached h
  by_contra hi
  obtain ⟨o, ho⟩ := hV.noLeak i hi
  have : holdings P V o = [] := by
    cases o with
    | col x => exact noCol_holds (hc.1 x)
    | frame d => exact noFrame_holds (hc.2 d)
  rw [this] at ho
  cases ho

/-- C79: what a user sees of two variables never changes together: two different variables do not share objects. -/
theorem C79_not_shared {handled : Bool} {p : List (CStmt C)} {P : CState C} (h : crun S lost handled p CState.start = .ok () P ∨ ∃ e, crun S lost handled p CState.start = .exn e P)
    {x y i : Nat} (hx : P.cols x = some (some i)) (hy : P.cols y = some (some i)) : x = y := by
  obtain ⟨V, hV⟩ := represents_reached h
  obtain ⟨c, -, h1, -⟩ := rep_col hV hx
  obtain ⟨d, -, h2, -⟩ := rep_col hV hy
  have := hV.owner (.col x) (.col y) i (by rw [h1]; exact .head _) (by rw [h2]; exact .head _)
  cases this
  rfl

/-- C79: without failing allocations a program without handlers is a function of values. -/
theorem C79_no_failure {p : List (CStmt C)} {P : CState C} (hS : ∀ k, S k = false) (h : crun S lost false p CState.start = .ok () P) :
    ∃ V, ColumnRuns False false VState.start p (.ok () V) ∧ Represents P V := by
  obtain ⟨r, h1, h2⟩ := C79_program_partial (S := S) (lost := lost) false p
  rw [h] at h2
  have ho : (∃ k, S k = true) = False := by simp [hS]
  rw [ho] at h1
  cases r with
  | ok u V => exact ⟨V, h1, h2⟩
  | exn _ _ => exact h2.elim
  | fail _ => exact h2.elim

/-! ### Rectangular data frames -/

theorem setFrame_rect {V : VState C} {d : Nat} {E : DF C} (h : AllRectangular V) (hE : ∀ e ∈ E.elems, Column.size e.col = E.rows) :
    AllRectangular { V with frames := fun y => if y = d then some E else V.frames y } := by
  intro d' E' hd
  dsimp only at hd
  split at hd
  · cases hd; exact hE
  · exact h d' E' hd

theorem vbind_ok {x : SM σ β} {f : β → SM σ γ} {s s' : σ} {c : γ} (h : (x >>= f) s = .ok c s') : ∃ b s1, x s = .ok b s1 ∧ f b s1 = .ok c s' := by
  change SM.bind x f s = _ at h
  unfold SM.bind at h
  cases hx : x s with
  | ok b s1 => rw [hx] at h; exact ⟨b, s1, rfl, h⟩
  | exn _ _ => rw [hx] at h; cases h
  | fail _ => rw [hx] at h; cases h

/-- A normal or exceptional outcome satisfies `Q`. -/
def Leaves (r : SOut σ β) (Q : σ → Prop) : Prop := SP r (fun _ s => Q s) (fun _ s => Q s) fun _ => True

theorem leaves_bind {x : SM σ β} {f : β → SM σ γ} {s : σ} {Q : σ → Prop} {R : β → σ → Prop} (hx : SP (x s) R (fun _ s => Q s) fun _ => True)
    (hf : ∀ b s', R b s' → Leaves (f b s') Q) : Leaves ((x >>= f) s) Q := sp_bind hx hf

theorem leaves_lift {v : Res β} {f : β → SM σ γ} {s : σ} {Q : σ → Prop} (hQ : Q s) (hf : ∀ b, v = .ok b → Leaves (f b s) Q) : Leaves ((SM.lift v >>= f) s) Q :=
  leaves_bind (R := fun b s' => v = .ok b ∧ s' = s) (sp_lift (fun b hb => ⟨hb, rfl⟩) (fun _ _ => hQ) fun _ _ => trivial) fun b s' hb => hb.2 ▸ hf b hb.1

theorem leaves_lift' {v : Res Unit} {s : σ} {Q : σ → Prop} (hQ : Q s) : Leaves (SM.lift v s) Q := sp_lift (fun _ _ => hQ) (fun _ _ => hQ) fun _ _ => trivial

variable {V : VState C} {Q : VState C → Prop}

theorem leaves_vCol {x : Nat} {f : Column C → SM (VState C) γ} (hf : ∀ c, Leaves (f c V) Q) : Leaves ((vCol x >>= f) V) Q := by
  cases hx : V.cols x with
  | none => rw [sm_fail (vCol_no hx)]; trivial
  | some c => rw [sm_ok (vCol_eq hx)]; exact hf c

theorem leaves_vFrame {x : Nat} {f : DF C → SM (VState C) γ} (hf : ∀ c, V.frames x = some c → Leaves (f c V) Q) : Leaves ((vFrame x >>= f) V) Q := by
  cases hx : V.frames x with
  | none => rw [sm_fail (vFrame_no hx)]; trivial
  | some c => rw [sm_ok (vFrame_eq hx)]; exact hf c hx

theorem leaves_newCol {x : Nat} {f : Unit → SM (VState C) γ} (hf : Leaves (f () V) Q) : Leaves ((vNewCol x >>= f) V) Q := by
  cases hx : V.cols x with
  | none => rw [sm_ok (vNewCol_eq hx)]; exact hf
  | some c => rw [sm_fail (vNewCol_no hx)]; trivial

theorem leaves_newFrame {x : Nat} {f : Unit → SM (VState C) γ} (hf : Leaves (f () V) Q) : Leaves ((vNewFrame x >>= f) V) Q := by
  cases hx : V.frames x with
  | none => rw [sm_ok (vNewFrame_eq hx)]; exact hf
  | some c => rw [sm_fail (vNewFrame_no hx)]; trivial

theorem leaves_differ {x y : Nat} {f : Unit → SM (VState C) γ} (hf : Leaves (f () V) Q) : Leaves ((vDiffer x y >>= f) V) Q := by
  by_cases hx : x = y
  · rw [sm_fail (vDiffer_no hx)]; trivial
  · rw [sm_ok (vDiffer_eq hx)]; exact hf

theorem vstep_rect (h : AllRectangular V) (s : CStmt C) : Leaves (vstep s V) AllRectangular := by
  have hcol : ∀ {V : VState C} {x : Nat} {c : Option (Column C)}, AllRectangular V → Leaves (vSetCol x c V) AllRectangular := fun h => h
  have hfr : ∀ {V : VState C} {x : Nat} {E : DF C}, AllRectangular V → Rectangular E → Leaves (vSetFrame x (some E) V) AllRectangular := fun h hE => setFrame_rect h hE
  have hmv : ∀ E : DF C, Rectangular E.move.2 := fun E e he => by cases he
  cases s with
  | col x T l => exact leaves_newCol (hcol h)
  | colEmpty x => exact leaves_newCol (hcol h)
  | colCopy x y => exact leaves_newCol (leaves_vCol fun c => leaves_lift h fun _ _ => hcol h)
  | colPart x y first size => exact leaves_newCol (leaves_vCol fun c => leaves_lift h fun _ _ => hcol h)
  | colMove x y => exact leaves_newCol (leaves_vCol fun c => leaves_bind (R := fun _ V => AllRectangular V) h fun _ _ h => hcol h)
  | colSet x y => exact leaves_vCol fun _ => leaves_vCol fun _ => hcol h
  | colMoveSet x y => exact leaves_differ (leaves_vCol fun _ => leaves_vCol fun c => leaves_bind (R := fun _ V => AllRectangular V) h fun _ _ h => hcol h)
  | coerce x T => exact leaves_vCol fun _ => leaves_lift h fun _ _ => hcol h
  | toCol x y T => exact leaves_newCol (leaves_vCol fun c => leaves_lift h fun _ _ => hcol h)
  | toColMove x y T => exact leaves_newCol (leaves_vCol fun c => leaves_lift h fun _ _ => leaves_bind (R := fun _ V => AllRectangular V) h fun _ _ h => hcol h)
  | colDrop x => exact leaves_vCol fun _ => hcol h
  | frame d => exact leaves_newFrame (hfr h fun e he => by cases he)
  | frameOf d l =>
    refine leaves_newFrame (leaves_bind (R := fun _ V' => V' = V) ?_ ?_)
    · have : ∀ l : List (Txt × Nat), SP (vCols l V) (fun _ V' => V' = V) (fun _ s => AllRectangular s) fun _ => True := by
        intro l
        induction l with
        | nil => exact rfl
        | cons a l ih =>
          obtain ⟨name, x⟩ := a
          unfold vCols
          cases hx : V.cols x with
          | none => rw [sm_fail (vCol_no hx)]; trivial
          | some c =>
            rw [sm_ok (vCol_eq hx)]
            exact sp_bind ih fun _ V' hV => hV
      exact this l
    · rintro es _ rfl
      exact leaves_lift h fun tmp _ => leaves_lift h fun D hD => hfr h (ofIter_spec hD).2.2.1
  | frameCopy d s => exact leaves_newFrame (leaves_vFrame fun D hD => leaves_lift h fun D' hD' => hfr h (by rw [df_copy hD']; exact h s D hD))
  | frameMove d s => exact leaves_newFrame (leaves_vFrame fun D hD => leaves_bind (R := fun _ V => AllRectangular V) (setFrame_rect h (hmv D)) fun _ _ h' => hfr h' (h s D hD))
  | frameSet d s =>
    refine leaves_vFrame fun T hT => leaves_vFrame fun D hD => ?_
    split
    · exact h
    · exact hfr h (h s D hD)
  | frameMoveSet d s =>
    exact leaves_differ (leaves_vFrame fun T hT => leaves_vFrame fun D hD => leaves_bind (R := fun _ V => AllRectangular V) (setFrame_rect h (hmv D)) fun _ _ h' => hfr h' (h s D hD))
  | bind d s =>
    refine leaves_vFrame fun T hT => leaves_vFrame fun D hD => leaves_lift h fun o ho => leaves_bind (R := fun _ V => AllRectangular V) (setFrame_rect h ?_) fun _ _ h' => leaves_lift' h'
    exact rect_bind (h d T hT) (by rw [df_copy ho]; exact h s D hD)
  | bindMove d s =>
    refine leaves_differ (leaves_vFrame fun T hT => leaves_vFrame fun D hD => leaves_bind (R := fun _ V => AllRectangular V) (setFrame_rect h (hmv D)) fun _ V' h' =>
      leaves_bind (R := fun _ V => AllRectangular V) (setFrame_rect h' ?_) fun _ _ h'' => leaves_lift' h'')
    exact rect_bind (h d T hT) (h s D hD)
  | bindCol d name x =>
    refine leaves_vFrame fun T hT => leaves_vCol fun c => leaves_bind (R := fun _ V => AllRectangular V) h fun _ V' h' =>
      leaves_bind (R := fun _ V => AllRectangular V) (setFrame_rect h' ?_) fun _ _ h'' => leaves_lift' h''
    exact rect_bind (h d T hT) (fun e he => by simp only [DF.ofNamed, List.mem_singleton] at he; subst he; rfl)
  | colAt x d i => exact leaves_newCol (leaves_vFrame fun D _ => leaves_lift h fun _ _ => leaves_lift h fun _ _ => hcol h)
  | head d s n =>
    refine leaves_newFrame (leaves_vFrame fun D hD => leaves_lift h fun D' hD' => hfr h ?_)
    unfold DF.head at hD'
    split at hD'
    · cases hD'
    · rw [res_bind_ok] at hD'
      obtain ⟨t, ht, hD'⟩ := hD'
      rw [df_copy hD']
      exact (ofIter_spec ht).2.2.1
  | table d T => exact leaves_vFrame fun D _ => leaves_lift h fun _ _ => h
  | frameDrop d =>
    refine leaves_vFrame fun D _ => ?_
    intro d' E' hd
    dsimp only at hd
    split at hd
    · cases hd
    · exact h d' E' hd

theorem partlyBound_rect {T o T' : DF C} (hT : Rectangular T) (ho : Rectangular o) (h : PartlyBound T o T') : Rectangular T' := by
  obtain ⟨k, h1, h2⟩ := h
  intro e he
  rw [h1] at he
  rcases h2 with ⟨h2, h3⟩ | ⟨h2, h3⟩
  · rcases List.mem_append.1 he with he | he
    · rw [h2]; exact hT e he
    · rcases h3 with rfl | h3
      · cases he
      · rw [h2, ← h3]; exact ho e (List.mem_of_mem_take he)
  · rw [h2] at he
    rw [h3]; exact ho e (List.mem_of_mem_take (by simpa using he))

theorem bad_rect (h : AllRectangular V) {s : CStmt C} (hs : isFrameSet s = false) {V' : VState C} (ha : AfterBadAlloc V s V') : AllRectangular V' := by
  rcases ha with rfl | ha
  · exact h
  · have hmv : ∀ E : DF C, Rectangular E.move.2 := fun E e he => by cases he
    cases s with
    | frameSet _ _ => cases hs
    | bind d s =>
      obtain ⟨T, D, o, T', h1, h2, h3, h4, rfl⟩ := ha
      exact setFrame_rect h (partlyBound_rect (h d T h1) (by rw [df_copy h3]; exact h s D h2) h4)
    | bindMove d s =>
      obtain ⟨T, D, T', h1, h2, h4, rfl⟩ := ha
      intro d' E' hd
      dsimp only at hd
      split at hd
      · cases hd; exact partlyBound_rect (h d T h1) (h s D h2) h4
      · split at hd
        · cases hd; exact hmv D
        · exact h d' E' hd
    | bindCol d name x =>
      obtain ⟨T, c, T', h1, h2, h4, rfl⟩ := ha
      refine setFrame_rect (V := { V with cols := _ }) h (partlyBound_rect (h d T h1) ?_ h4)
      intro e he
      simp only [DF.ofNamed, List.mem_singleton] at he; subst he; rfl
    | _ => exact ha.elim

theorem rect_ok (h : AllRectangular V) {s : CStmt C} {V' : VState C} (hs : vstep s V = .ok () V') : AllRectangular V' := by
  have := vstep_rect h s
  rw [hs] at this; exact this

theorem runs_rect {oom : Prop} {handled : Bool} {p : List (CStmt C)} {r : SOut (VState C) Unit} (hr : ColumnRuns oom handled V p r) (hp : ∀ s ∈ p, isFrameSet s = false)
    (h : AllRectangular V) : Leaves r AllRectangular := by
  have hthr : ∀ {V : VState C} {s e V'}, AllRectangular V → isFrameSet s = false → Throws oom V s e V' → AllRectangular V' := by
    intro V s e V' h hs ht
    rcases ht with ht | ⟨_, _, ht⟩
    · have := vstep_rect h s
      rw [ht] at this; exact this
    · exact bad_rect h hs ht
  induction hr with
  | done => exact h
  | step h1 _ ih =>
    exact ih (fun s hs => hp s (.tail _ hs)) (rect_ok h h1)
  | caught _ h1 _ ih => exact ih (fun s hs => hp s (.tail _ hs)) (hthr h (hp _ (.head _)) h1)
  | thrown _ h1 => exact hthr h (hp _ (.head _)) h1
  | undefined _ => trivial

/-- C79 (C42): in every program without copy assignments of data frames, whatever allocations fail and however exceptions are handled, all columns of all data frames have
`row_count()` elements. -/
theorem C79_rectangular_partial {handled : Bool} {p : List (CStmt C)} {P : CState C} (hp : ∀ s ∈ p, isFrameSet s = false)
    (h : crun S lost handled p CState.start = .ok () P ∨ ∃ e, crun S lost handled p CState.start = .exn e P) : ∃ V, Represents P V ∧ AllRectangular V := by
  obtain ⟨r, h1, h2⟩ := C79_program_partial (S := S) (lost := lost) handled p
  have h3 := runs_rect h1 hp (V := VState.start) (by intro d E hd; cases hd)
  rcases h with h | ⟨e, h⟩
  · rw [h] at h2
    cases r with
    | ok u V => exact ⟨V, h2, h3⟩
    | exn _ _ => exact h2.elim
    | fail _ => exact h2.elim
  · rw [h] at h2
    cases r with
    | ok _ _ => exact h2.elim
    | exn _ V => exact ⟨V, h2.2, h3⟩
    | fail _ => exact h2.elim

/-! ### What does not hold, and examples -/

/-- Two data frames: one with three rows, then one with a single row, which is assigned to the first one. -/
def exAssign : List (CStmt (julesRules fpEx)) :=
  [.col 0 JTy.integer [(1 : Int32), (2 : Int32), (3 : Int32)], .frameOf 0 [(['a'], 0)], .col 1 JTy.integer [(4 : Int32)], .frameOf 1 [(['b'], 1)], .frameSet 0 1]

/-- What is checked about the end of `exAssign` when the 34th allocation fails. -/
def halfAssigned : SOut (CState (julesRules fpEx)) Unit → Bool
  | .exn e P => decide (e = .badAlloc) && decide (P.frames 0 = some ⟨1, [⟨['b'], some 2⟩], 1, [(['a'], 0)]⟩) && decide ((P.heap.get 2).map Model.size = some 3)
  | _ => false

/-- C79, C42 fail for copy assignment of data frames when memory runs out in the middle: the exception leaves a data frame that says it has one row, with a column of three
elements under the name of the other data frame's column. -/
theorem C79_not_rectangular : ∃ (S : Nat → Bool) (P : CState (julesRules fpEx)) (i : Nat) (m : Model (julesRules fpEx)),
    crun S (fun a _ => a) false exAssign CState.start = .exn .badAlloc P ∧ P.frames 0 = some ⟨1, [⟨['b'], some i⟩], 1, [(['a'], 0)]⟩ ∧ P.heap.get i = some m ∧ m.size = 3 := by
  have h : halfAssigned (crun (fun k => k == 33) (fun a _ => a) false exAssign CState.start) = true := by decide +kernel
  cases hc : crun (C := julesRules fpEx) (fun k => k == 33) (fun a _ => a) false exAssign CState.start with
  | ok _ _ => rw [hc] at h; exact absurd h (by simp [halfAssigned])
  | fail _ => rw [hc] at h; exact absurd h (by simp [halfAssigned])
  | exn e P =>
    rw [hc] at h
    simp only [halfAssigned, Bool.and_eq_true, decide_eq_true_eq] at h
    obtain ⟨⟨rfl, h2⟩, h3⟩ := h
    obtain ⟨m, h4, h5⟩ := Option.map_eq_some_iff.mp h3
    exact ⟨_, P, 2, m, hc, h2, h4, h5⟩

/-- The same as values: the specification allows it (`PartlyAssigned`), so the strong guarantee is false for this operation. -/
theorem C79_not_strong : ∃ (S : Nat → Bool) (P : CState (julesRules fpEx)) (V : VState (julesRules fpEx)),
    crun S (fun a _ => a) false exAssign CState.start = .exn .badAlloc P ∧ Represents P V ∧ ¬ AllRectangular V := by
  obtain ⟨S, P, i, m, h1, h2, h3, h4⟩ := C79_not_rectangular
  obtain ⟨V, hV⟩ := represents_reached (.inr ⟨_, h1⟩)
  refine ⟨S, P, V, h1, hV, fun hr => ?_⟩
  obtain ⟨E, e1, e2, e3⟩ := rep_frame hV h2
  obtain ⟨d1, d2, d3, d4⟩ := e3
  obtain ⟨rows, elems, index⟩ := E
  cases elems with
  | nil => simp at d3
  | cons v vs =>
    have hv := d4 (some i) v.col (by unfold held; exact .head _)
    obtain ⟨m', hm', hm''⟩ := denotes_some hv rfl
    rw [h3] at hm''
    cases hm''
    have := hr 0 _ e1 v (.head _)
    rw [hm'] at this
    have d1 : 1 = rows := d1
    rw [← d1] at this
    change m.size = 1 at this
    omega

/-- C42 fails in full generality: a history that ends in a copy assignment out of memory leaves a data frame with one row (`row_count()` is 1) whose only column has three
elements. -/
theorem C42_out_of_memory : ∃ (S : Nat → Bool) (P : CState (julesRules fpEx)) (D : PFrame) (e : PNamed) (i : Nat) (m : Model (julesRules fpEx)),
    crun S (fun a _ => a) false exAssign CState.start = .exn .badAlloc P ∧ P.frames 0 = some D ∧ e ∈ D.elems ∧ e.ptr = some i ∧ P.heap.get i = some m ∧ m.size ≠ D.rows := by
  obtain ⟨S, P, i, m, h1, h2, h3, h4⟩ := C79_not_rectangular
  exact ⟨S, P, _, _, i, m, h1, h2, .head _, rfl, h3, by rw [h4]; show 3 ≠ 1; decide⟩

/-- C79: copying a column that has been moved from is undefined behaviour, in every build. -/
theorem C79_moved_from_copy (fp : Fp) (S : Nat → Bool) (hS : ∀ k, S k = false) (l : List Int32) :
    crun (C := julesRules fp) S lost false [.col 0 JTy.integer l, .colMove 1 0, .colCopy 2 0] CState.start = .fail .ub := by
  have h := C79_program_partial (C := julesRules fp) (S := S) (lost := lost) false [.col 0 JTy.integer l, .colMove 1 0, .colCopy 2 0]
  obtain ⟨r, h1, h2⟩ := h
  have ho : (∃ k, S k = true) = False := by simp [hS]
  rw [ho] at h1
  have hr : r = .fail .ub := by
    cases h1 with
    | step e h1 =>
      cases e
      cases h1 with
      | step e h1 =>
        cases e
        cases h1 with
        | step e _ => cases e
        | caught h _ _ => cases h
        | thrown _ h => rcases h with h | h; cases h; exact h.1.elim
        | undefined h => rcases h with h | ⟨rfl, _⟩; cases h; rfl; rfl
      | caught h _ _ => cases h
      | thrown _ h => rcases h with h | h; cases h; exact h.1.elim
      | undefined h => rcases h with h | ⟨rfl, _⟩; cases h; rfl
    | caught h _ _ => cases h
    | thrown _ h => rcases h with h | h; cases h; exact h.1.elim
    | undefined h => rcases h with h | ⟨rfl, _⟩; cases h; rfl
  rw [hr] at h2
  cases hc : crun (C := julesRules fp) S lost false [.col 0 JTy.integer l, .colMove 1 0, .colCopy 2 0] CState.start with
  | ok _ _ => rw [hc] at h2; exact h2.elim
  | exn _ _ => rw [hc] at h2; exact h2.elim
  | fail f => rw [hc] at h2; exact congrArg _ h2

/-- A program that makes, converts, binds and drops things. -/
def exColumns : List (CStmt (julesRules fpEx)) :=
  [.col 0 JTy.integer [(1 : Int32), (2 : Int32)], .frameOf 0 [(['a'], 0)], .coerce 0 JTy.string, .bindCol 0 ['b'] 0, .head 1 0 1, .bind 1 1, .table 1 JTy.string, .frameMove 2 1,
    .colDrop 0, .frameDrop 0, .frameDrop 1, .frameDrop 2]

/-- The program ended normally, having made `n` objects of which none is left. -/
def leftNothing (n : Nat) : SOut (CState (julesRules fpEx)) Unit → Bool
  | .ok _ P => decide (P.heap.models.map (·.isSome) = List.replicate n false)
  | _ => false

-- With enough memory eleven objects are made (the conversions of `table` included) and nothing is left.
example : leftNothing 11 (crun (fun _ => false) (fun a _ => a) true exColumns CState.start) = true := by decide +kernel

-- When an allocation of the conversion to strings, or of making the table, fails and the exception is handled, nothing is left either.
example : leftNothing 8 (crun (fun k => k == 22) (fun a _ => a) true exColumns CState.start) = true := by decide +kernel
example : leftNothing 9 (crun (fun k => k == 50) (fun a _ => a) true exColumns CState.start) = true := by decide +kernel

-- The hypotheses of `C79_rectangular_partial` are met by it.
example : ∀ s ∈ exColumns, isFrameSet s = false := by decide +kernel

/-! ### The hypotheses hold in concrete cases -/

/-- One column, its copy, and both destroyed. -/
def exDrop : List (CStmt (julesRules fpEx)) := [.col 0 JTy.integer [(1 : Int32), (2 : Int32)], .colCopy 1 0, .colDrop 0, .colDrop 1]

theorem exDrop_closed : ∃ P, crun (fun _ => false) (fun a _ => a) true exDrop CState.start = .ok () P ∧ Closed P := by
  refine ⟨_, by simp [exDrop, crun, cstep]; rfl, ?_, ?_⟩
  · intro x
    rcases x with _ | _ | x <;> rfl
  · intro d; rfl
example := C79_no_leak (Or.inl exDrop_closed.choose_spec.1) exDrop_closed.choose_spec.2
theorem exTwo_ends : ∃ P, crun (fun _ => false) (fun a _ => a) false (exDrop.take 2) CState.start = .ok () P ∧ P.cols 0 = some (some 0) := by
  exact ⟨_, by simp [exDrop, crun, cstep]; rfl, rfl⟩
example := C79_not_shared (Or.inl exTwo_ends.choose_spec.1) (x := 0) (y := 0) exTwo_ends.choose_spec.2 exTwo_ends.choose_spec.2
example := C79_no_failure (fun _ => rfl) exTwo_ends.choose_spec.1
example := C79_statement_partial (S := fun _ => false) (lost := fun a _ => a) represents_start (.col 0 JTy.integer [(1 : Int32)] : CStmt (julesRules fpEx))

end Jules.Props

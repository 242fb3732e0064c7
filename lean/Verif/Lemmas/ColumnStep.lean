import Verif.Lemmas.ColumnProg
/-
Lemmas for C79: each statement.
-/
namespace Jules
open Spec

section
variable {C : Coercion} {S : Nat → Bool} {P P' : CState C} {V V' : VState C} {A : VState C → Prop} {N : Prop}

theorem denotesF_shape {g : Nat → Option (Model C)} {D : PFrame} {E : DF C} (h : DenotesF g D E) : SameShape D E := ⟨h.1, h.2.1, h.2.2.1⟩

theorem held_nil {vs : List (Named C)} : held [] vs = [] := rfl

theorem others_swap (o o' : Owner) : others P V [o, o'] = others P V [o', o] := by
  funext i
  unfold others
  have : i ∈ addrs (share P V [o, o']) ↔ i ∈ addrs (share P V [o', o]) := by rw [mem_share, mem_share]; simp [or_comm]
  by_cases h : i ∈ addrs (share P V [o, o'])
  · rw [if_pos h, if_pos (this.1 h)]
  · rw [if_neg h, if_neg fun hh => h (this.2 hh)]

theorem setCol_eq {x : Nat} {p : Option (Option Nat)} : setCol x p P = .ok () { P with cols := fun y => if y = x then p else P.cols y } := rfl
theorem setFrame_eq {x : Nat} {p : Option PFrame} : setFrame x p P = .ok () { P with frames := fun y => if y = x then p else P.frames y } := rfl
theorem vSetCol_eq {x : Nat} {p : Option (Column C)} : vSetCol x p V = .ok () { V with cols := fun y => if y = x then p else V.cols y } := rfl
theorem vSetFrame_eq {x : Nat} {p : Option (DF C)} : vSetFrame x p V = .ok () { V with frames := fun y => if y = x then p else V.frames y } := rfl

theorem sim_colMove (h : Represents P V) (x y : Nat) : Sim S V (cstep S lost (.colMove x y) P) (vstep (.colMove x y) V) A N := by
  refine sim_isNewCol h x fun hx hx' => sim_getCol h y fun p c hy hy' hh hd => ?_
  have hxy : x ≠ y := by rintro rfl; rw [hx] at hy; cases hy
  refine ⟨_, rfl, rep_setCols h hxy (q := none) (d := none) ?_⟩
  have hs := sep_two h (o := .col x) (o' := .col y) (by simpa using hxy)
  rw [noCol_holds hx, hh] at hs
  exact sep_perm (sep_null hs) (List.Perm.swap _ _ _)

theorem sim_colSet (h : Represents P V) (x y : Nat) : Sim S V (cstep S lost (.colSet x y) P) (vstep (.colSet x y) V) A N := by
  refine sim_getCol h x fun p c hx hx' hh hd => sim_getCol h y fun q d hy hy' hh' hd' => ?_
  have hs := sep_one h (.col x)
  rw [hh] at hs
  refine sp_bind (R := fun p' P' => ∃ h', P' = { P with heap := h' } ∧ Sep (others P V [.col x]) h'.get [(p', Column.copyAssign c d)]) (sp_onHeap (sp_mono (sp_assignP (S := S) hs hd') ?_ ?_ ?_)) ?_
  · exact fun b h' hb => ⟨h', rfl, hb⟩
  · exact fun e h' he => ⟨V, rep_clock h he.1, .inr ⟨he.2, .inl rfl⟩⟩
  · exact fun _ h => h.elim
  · rintro p' _ ⟨h', rfl, hs'⟩
    exact ⟨_, rfl, rep_setCol h hs'⟩

theorem sim_colMoveSet (h : Represents P V) (x y : Nat) : Sim S V (cstep S lost (.colMoveSet x y) P) (vstep (.colMoveSet x y) V) A N := by
  refine sim_differ x y fun hxy => sim_getCol h x fun p c hx hx' hh hd => sim_getCol h y fun q d hy hy' hh' hd' => ?_
  have hs := sep_two h (o := .col x) (o' := .col y) (by simpa using hxy)
  rw [hh, hh'] at hs
  rw [sm_ok setCol_eq, sm_ok vSetCol_eq]
  refine sp_bind (R := fun _ P' => ∃ h', P' = { P with heap := h', cols := fun z => if z = y then some none else P.cols z } ∧ Sep (others P V [.col x, .col y]) h'.get [(q, d)])
    (sp_onHeap (sp_mono (sp_delete hs) ?_ (fun _ _ h => h.elim) fun _ h => h.elim)) ?_
  · exact fun b h' hb => ⟨h', rfl, hb⟩
  · rintro _ _ ⟨h', rfl, hs'⟩
    refine ⟨_, rfl, rep_setCols h hxy (q := none) (d := none) ?_⟩
    exact sep_perm (sep_null hs') (List.Perm.swap _ _ _)

theorem sim_coerce (h : Represents P V) (x : Nat) (T : C.Ty) : Sim S V (cstep S lost (.coerce x T) P) (vstep (.coerce x T) V) A N := by
  refine sim_getCol h x fun p c hx hx' hh hd => ?_
  have hs := sep_one h (.col x)
  rw [hh] at hs
  refine sp_bind (R := fun p' P' => ∃ h', P' = { P with heap := h' } ∧ (c.coerce T).1 = .ok () ∧ Sep (others P V [.col x]) h'.get [(p', (c.coerce T).2)])
    (sp_onHeap (sp_mono (sp_coerceP (S := S) hs T) ?_ ?_ ?_)) ?_
  · exact fun b h' hb => ⟨h', rfl, hb⟩
  · exact fun e h' he => ⟨V, rep_clock h he.1, he.2.imp (fun h => sm_exn (lift_exn h)) fun h => ⟨h, .inl rfl⟩⟩
  · exact fun f hf => .inl (sm_fail (lift_fail hf))
  · rintro p' _ ⟨h', rfl, h1, hs'⟩
    exact ⟨_, sm_ok (lift_ok h1), rep_setCol h hs'⟩

theorem sim_toColMove (h : Represents P V) (x y : Nat) (T : C.Ty) : Sim S V (cstep S lost (.toColMove x y T) P) (vstep (.toColMove x y T) V) A N := by
  refine sim_isNewCol h x fun hx hx' => sim_getCol h y fun p c hy hy' hh hd => ?_
  have hxy : x ≠ y := by rintro rfl; rw [hx] at hy; cases hy
  have hs := sep_two h (o := .col x) (o' := .col y) (by simpa using hxy)
  rw [noCol_holds hx, hh] at hs
  refine sp_bind (R := fun p' P' => ∃ h' c', P' = { P with heap := h' } ∧ (toColumnRv c T).1 = .ok c' ∧ Sep (others P V [.col x, .col y]) h'.get [(p', c')])
    (sp_onHeap (sp_mono (sp_toColumnRvP (S := S) hs T) ?_ ?_ ?_)) ?_
  · exact fun b h' hb => hb.elim fun c' hb => ⟨h', c', rfl, hb⟩
  · exact fun e h' he => ⟨V, rep_clock h he.1, he.2.imp (fun h => sm_exn (lift_exn h)) fun h => ⟨h, .inl rfl⟩⟩
  · exact fun f hf => .inl (sm_fail (lift_fail hf))
  · rintro p' _ ⟨h', c', rfl, h1, hs'⟩
    refine ⟨_, sm_ok (lift_ok h1), rep_setCols h hxy (q := none) (d := none) ?_⟩
    exact sep_perm (sep_null hs') (List.Perm.swap _ _ _)

theorem sim_colDrop (h : Represents P V) (x : Nat) : Sim S V (cstep S lost (.colDrop x) P) (vstep (.colDrop x) V) A N := by
  refine sim_getCol h x fun p c hx hx' hh hd => ?_
  have hs := sep_one h (.col x)
  rw [hh] at hs
  refine sp_bind (R := fun _ P' => ∃ h', P' = { P with heap := h' } ∧ Sep (others P V [.col x]) h'.get []) (sp_onHeap (sp_mono (sp_delete hs) ?_ (fun _ _ h => h.elim) fun _ h => h.elim)) ?_
  · exact fun b h' hb => ⟨h', rfl, hb⟩
  · rintro _ _ ⟨h', rfl, hs'⟩
    exact ⟨_, rfl, rep_dropCol h hs'⟩

theorem getCols_sim (h : Represents P V) : ∀ l : List (Txt × Nat), (getCols l P = .fail .illFormed ∧ vCols l V = .fail .illFormed) ∨
    ∃ es vs, getCols l P = .ok es P ∧ vCols l V = .ok vs V ∧ DenoteAll P.heap.get es vs
  | [] => .inr ⟨[], [], rfl, rfl, rfl, nofun⟩
  | (name, x) :: l => by
    unfold getCols vCols
    cases hx : P.cols x with
    | none => exact .inl ⟨sm_fail (getCol_no hx), sm_fail (vCol_no (rep_noCol h hx))⟩
    | some p =>
      obtain ⟨c, h1, h2, h3⟩ := rep_col h hx
      rw [sm_ok (getCol_eq hx), sm_ok (vCol_eq h1)]
      rcases getCols_sim h l with ⟨h4, h5⟩ | ⟨es, vs, h4, h5, h6⟩
      · exact .inl ⟨sm_fail h4, sm_fail h5⟩
      · refine .inr ⟨⟨name, p⟩ :: es, ⟨name, c⟩ :: vs, ?_, ?_, denoteAll_cons.2 ⟨⟨rfl, h3⟩, h6⟩⟩
        · rw [sm_ok h4]; rfl
        · rw [sm_ok h5]; rfl

/-! ### The statements on data frames -/

theorem sim_frameOf (h : Represents P V) (d : Nat) (l : List (Txt × Nat)) : Sim S V (cstep S lost (.frameOf d l) P) (vstep (.frameOf d l) V) A N := by
  refine sim_isNewFrame h d fun hx hx' => ?_
  rcases getCols_sim h l with ⟨h4, h5⟩ | ⟨es, vs, h4, h5, h6⟩
  · rw [sm_fail h4, sm_fail h5]; exact sim_fail
  · rw [sm_ok h4, sm_ok h5]
    have := sim_newFrame (A := A) (N := N) h hx (makes_frameOfList (S := S) h6)
    cases hm : vs.mapM Named.copy with
    | ok tmp =>
      rw [sm_ok (lift_ok rfl)]
      rw [hm] at this
      exact this
    | error f =>
      rw [hm] at this
      cases f with
      | exc e => exact this
      | _ => exact this

theorem sim_frameMove (h : Represents P V) (x y : Nat) : Sim S V (cstep S lost (.frameMove x y) P) (vstep (.frameMove x y) V) A N := by
  refine sim_isNewFrame h x fun hx hx' => sim_getFrame h y fun D E hy hy' hh hd => ?_
  have hxy : x ≠ y := by rintro rfl; rw [hx] at hy; cases hy
  refine ⟨_, rfl, rep_setFrames h hxy (denotesF_shape hd) (D' := .empty D.rows) (E' := E.move.2) ⟨hd.1, rfl, rfl⟩ ?_⟩
  have hs := sep_two h (o := .frame x) (o' := .frame y) (by simpa using hxy)
  rw [noFrame_holds hx, hh] at hs
  show Sep _ _ (held D.elems E.elems ++ [])
  rw [List.append_nil]
  exact hs

theorem sim_frameSet (h : Represents P V) (x y : Nat) : Sim S V (cstep S lost (.frameSet x y) P) (vstep (.frameSet x y) V)
    (fun V' => ∃ T D T', V.frames x = some T ∧ V.frames y = some D ∧ PartlyAssigned T D T' ∧ V' = { V with frames := fun z => if z = x then some T' else V.frames z })
    (∃ D, V.frames y = some D ∧ ∃ v ∈ D.elems, v.col = none) := by
  refine sim_getFrame h x fun T tv hx hx' hh hd => sim_getFrame h y fun D dv hy hy' hh' hd' => ?_
  by_cases hxy : x = y
  · rw [if_pos hxy, if_pos hxy]
    exact ⟨V, rfl, h⟩
  · rw [if_neg hxy, if_neg hxy]
    have hs := sep_one h (.frame x)
    rw [hh] at hs
    have hsrc : DenotesF (others P V [.frame x]) D dv := ⟨hd'.1, hd'.2.1, hd'.2.2.1, fun p c hm => rep_others h (o := .frame y) (by simpa using fun e => hxy e.symm) (by rw [hh']; exact hm)⟩
    refine sp_bind (R := fun q P' => ∃ (h' : CHeap C) (qv : DF C), P' = { P with heap := h' } ∧ SameShape q.2 qv ∧ Sep (others P V [.frame x]) h'.get (held q.2.elems qv.elems) ∧
      match q.1 with
      | none => qv = dv
      | some x => Bad S x ∧ PartlyAssigned tv dv qv) (sp_onHeap (sp_mono (sp_frameAssign (S := S) (l := []) hd.2.2.1 hsrc (by rw [List.append_nil]; exact hs)) ?_ (fun _ _ h => h.elim) ?_)) ?_
    · rintro q h' ⟨qv, q1, q2, q3, q4, q5⟩
      rw [List.append_nil] at q4
      exact ⟨h', qv, rfl, ⟨q1, q2, q3⟩, q4, q5⟩
    · rintro f ⟨h1, h2⟩
      exact .inr ⟨h1, dv, hy', h2⟩
    · rintro ⟨o, Q⟩ _ ⟨h', qv, rfl, h1, h2, h3⟩
      rw [sm_ok setFrame_eq]
      cases o with
      | none =>
        have h3 : qv = dv := h3
        subst h3
        exact ⟨_, rfl, rep_setFrame h h1 h2⟩
      | some e => exact ⟨_, rep_setFrame h h1 h2, .inr ⟨h3.1, .inr ⟨tv, dv, qv, hx', hy', h3.2, rfl⟩⟩⟩

theorem sim_frameMoveSet (h : Represents P V) (x y : Nat) : Sim S V (cstep S lost (.frameMoveSet x y) P) (vstep (.frameMoveSet x y) V) A N := by
  refine sim_differ x y fun hxy => sim_getFrame h x fun T tv hx hx' hh hd => sim_getFrame h y fun D dv hy hy' hh' hd' => ?_
  have hs := sep_two h (o := .frame x) (o' := .frame y) (by simpa using hxy)
  rw [hh, hh'] at hs
  rw [sm_ok setFrame_eq, sm_ok vSetFrame_eq]
  refine sp_bind (R := fun _ P' => ∃ h', P' = { P with heap := h', frames := fun z => if z = y then some (.empty D.rows) else P.frames z } ∧
      Sep (others P V [.frame x, .frame y]) h'.get (held D.elems dv.elems))
    (sp_onHeap (sp_mono (sp_destroyAll hd.2.2.1 hs) ?_ (fun _ _ h => h.elim) fun _ h => h.elim)) ?_
  · exact fun b h' hb => ⟨h', rfl, hb⟩
  · rintro _ _ ⟨h', rfl, hs'⟩
    refine ⟨_, rfl, rep_setFrames h hxy (denotesF_shape hd') (D' := .empty D.rows) (E' := dv.move.2) ⟨hd'.1, rfl, rfl⟩ ?_⟩
    show Sep _ _ (held D.elems dv.elems ++ [])
    rw [List.append_nil]
    exact hs'

theorem sim_frameDrop (h : Represents P V) (x : Nat) : Sim S V (cstep S lost (.frameDrop x) P) (vstep (.frameDrop x) V) A N := by
  refine sim_getFrame h x fun D E hx hx' hh hd => ?_
  have hs := sep_one h (.frame x)
  rw [hh, ← List.append_nil (held _ _)] at hs
  refine sp_bind (R := fun _ P' => ∃ h', P' = { P with heap := h' } ∧ Sep (others P V [.frame x]) h'.get []) (sp_onHeap (sp_mono (sp_destroyAll hd.2.2.1 hs) ?_ (fun _ _ h => h.elim) fun _ h => h.elim)) ?_
  · exact fun b h' hb => ⟨h', rfl, hb⟩
  · rintro _ _ ⟨h', rfl, hs'⟩
    exact ⟨_, rfl, rep_dropFrame h hs'⟩

theorem sim_table (h : Represents P V) (x : Nat) (T : C.Ty) : Sim S V (cstep S lost (.table x T) P) (vstep (.table x T) V) A N := by
  refine sim_getFrame h x fun D E hx hx' hh hd => ?_
  refine sp_bind (R := fun vs P' => ∃ h', P' = { P with heap := h' } ∧ (E.elems.mapM fun e => columnAs T e.col) = .ok vs ∧ h'.get = P.heap.get) (sp_onHeap (sp_mono (sp_gather (S := S) hd) ?_ ?_ ?_)) ?_
  · exact fun b h' hb => ⟨h', rfl, hb⟩
  · exact fun e h' he => ⟨V, rep_clock h he.1, he.2.imp (fun h => sm_exn (lift_exn h)) fun h => ⟨h, .inl rfl⟩⟩
  · exact fun f hf => .inl (sm_fail (lift_fail hf))
  · rintro _ _ ⟨h', rfl, h1, h2⟩
    exact ⟨V, sm_ok (lift_ok h1), rep_clock h h2⟩

theorem sim_colAt (h : Represents P V) (x d i : Nat) : Sim S V (cstep S lost (.colAt x d i) P) (vstep (.colAt x d i) V) A N := by
  refine sim_isNewCol h x fun hx hx' => sim_getFrame h d fun D E hy hy' hh hd => ?_
  obtain ⟨d1, d2, d3⟩ := hd
  have hlen : D.elems.length = E.elems.length := by simpa using congrArg List.length d3.1
  cases hi : D.elems[i]? with
  | none =>
    have : E.elems[i]? = none := by rw [List.getElem?_eq_none_iff] at hi ⊢; omega
    refine ⟨V, h, .inl (sm_exn (lift_exn ?_))⟩
    unfold DF.atPos; rw [this]
  | some e =>
    obtain ⟨v, hv⟩ : ∃ v, E.elems[i]? = some v := by
      have := (List.getElem?_eq_some_iff.1 hi).1
      exact ⟨E.elems[i]'(by omega), List.getElem?_eq_getElem _⟩
    have hden : StandsFor P.heap.get e.ptr v.col := by
      apply d3.2
      unfold held
      refine List.mem_iff_getElem?.2 ⟨i, ?_⟩
      rw [List.getElem?_zip_eq_some]
      simp [hi, hv]
    have : SM.lift (E.atPos i) V = .ok v V := lift_ok (by unfold DF.atPos; rw [hv])
    rw [sm_ok this]
    exact sim_newCol h hx (makes_copyP hden)

/-! ### bind -/

/-- The end of a call of `bind`: `o` is destroyed, the data frame gets its new value, the exception goes on. -/
theorem sp_bindEnd {r : Nat → Option (Model C)} {T O : PFrame} {tv ov : DF C} {d : Nat} {L : List (Option Nat × Column C)}
    {POk : CState C → Prop} {PEx : Exn → CState C → Prop} {F : Fail → Prop} (hT : SameShape T tv) (hO : O.rows = ov.rows ∧ O.elems.map PNamed.name = ov.elems.map Named.name)
    (hs : Sep r P.heap.get (held T.elems tv.elems ++ (held O.elems ov.elems ++ L)))
    (hok : ∀ (Q : PFrame) (qv : DF C) (h' : CHeap C), tv.bind (fun _ => false) ov = (.ok (), qv) → SameShape Q qv → Sep r h'.get (held Q.elems qv.elems ++ L) →
      POk { P with heap := h', frames := fun z => if z = d then some Q else P.frames z })
    (hex : ∀ e (Q : PFrame) (qv : DF C) (h' : CHeap C), tv.bind (fun _ => false) ov = (.error (.exc e), qv) ∨ Bad S e ∧ PartlyBound tv ov qv → SameShape Q qv →
      Sep r h'.get (held Q.elems qv.elems ++ L) → PEx e { P with heap := h', frames := fun z => if z = d then some Q else P.frames z }) :
    SP ((onHeap (bindP S T O) >>= fun q => onHeap (destroyAll q.2.2) >>= fun _ => setFrame d (some q.2.1) >>= fun _ => orThrow q.1) P) (fun _ => POk) PEx F := by
  obtain ⟨t1, t2, t3⟩ := hT
  refine sp_bind (R := fun q P' => ∃ (h' : CHeap C) (qv : DF C) (ws : List (Named C)), P' = { P with heap := h' } ∧ SameShape q.2.1 qv ∧ q.2.2.map PNamed.name = ws.map Named.name ∧
    Sep r h'.get (held q.2.1.elems qv.elems ++ (held q.2.2 ws ++ L)) ∧
      match q.1 with
      | none => tv.bind (fun _ => false) ov = (.ok (), qv)
      | some x => tv.bind (fun _ => false) ov = (.error (.exc x), qv) ∨ Bad S x ∧ PartlyBound tv ov qv)
    (sp_onHeap (sp_mono (sp_bindP (S := S) ⟨t1, t2, t3⟩ hO hs) ?_ (fun _ _ h => h.elim) fun _ h => h.elim)) ?_
  · rintro q h' ⟨qv, ws, q1, q2, q3, q4, q5, q6⟩
    exact ⟨h', qv, ws, rfl, ⟨q1, q2, q3⟩, q4, q5, q6⟩
  · rintro ⟨o, Q, rest⟩ _ ⟨h', qv, ws, rfl, h1, h2, h3, h4⟩
    have h3' : Sep r h'.get (held rest ws ++ (held Q.elems qv.elems ++ L)) := by
      refine sep_perm h3 ?_
      rw [← List.append_assoc, ← List.append_assoc]
      exact List.Perm.append_right _ List.perm_append_comm
    refine sp_bind (R := fun _ P' => ∃ h'' : CHeap C, P' = { P with heap := h'' } ∧ Sep r h''.get (held Q.elems qv.elems ++ L))
      (sp_onHeap (sp_mono (sp_destroyAll h2 h3') ?_ (fun _ _ h => h.elim) fun _ h => h.elim)) ?_
    · exact fun b h'' hb => ⟨h'', rfl, hb⟩
    · rintro _ _ ⟨h'', rfl, hs''⟩
      rw [sm_ok setFrame_eq]
      cases o with
      | none => exact hok Q qv h'' h4 h1 hs''
      | some e => exact hex e Q qv h'' h4 h1 hs''

theorem sim_bind (h : Represents P V) (d s : Nat) : Sim S V (cstep S lost (.bind d s) P) (vstep (.bind d s) V)
    (fun V' => ∃ T D o T', V.frames d = some T ∧ V.frames s = some D ∧ D.copy = .ok o ∧ PartlyBound T o T' ∧ V' = { V with frames := fun y => if y = d then some T' else V.frames y }) N := by
  refine sim_getFrame h d fun T tv hx hx' hh hd => sim_getFrame h s fun D dv hy hy' hh' hd' => ?_
  have hs := sep_one h (.frame d)
  rw [hh] at hs
  refine sp_bind (R := fun O P' => ∃ (h' : CHeap C) (ov : DF C), P' = { P with heap := h' } ∧ dv.copy = .ok ov ∧ SameShape O ov ∧ Sep P.heap.get h'.get (held O.elems ov.elems))
    (sp_onHeap (sp_mono (makes_frameCopy (S := S) hd') ?_ ?_ ?_)) ?_
  · rintro O h' ⟨ov, l, h1, ⟨l1, l2, l3, rfl⟩, hs'⟩
    exact ⟨h', ov, rfl, h1, ⟨l1, l2, l3⟩, hs'⟩
  · exact fun e h' he => ⟨V, rep_clock h he.1, he.2.imp (fun h => sm_exn (lift_exn h)) fun h => ⟨h, .inl rfl⟩⟩
  · exact fun f hf => .inl (sm_fail (lift_fail hf))
  · rintro O _ ⟨h1, ov, rfl, hc, hsh, hs1⟩
    have hs2 : Sep (others P V [.frame d]) h1.get (held T.elems tv.elems ++ (held O.elems ov.elems ++ [])) := by
      rw [List.append_nil]
      exact sep_swap (sep_trans hs hs1)
    rw [sm_ok (lift_ok hc), sm_ok vSetFrame_eq]
    refine sp_bindEnd (P := { P with heap := h1 }) (denotesF_shape hd) ⟨hsh.1, hsh.2.2⟩ hs2 ?_ ?_
    · intro Q qv h' hb hq hs3
      rw [List.append_nil] at hs3
      refine ⟨_, ?_, rep_setFrame h hq hs3⟩
      rw [hb]; rfl
    · intro e Q qv h' hb hq hs3
      rw [List.append_nil] at hs3
      refine ⟨_, rep_setFrame h hq hs3, ?_⟩
      rcases hb with hb | ⟨hb, hp⟩
      · left; rw [hb]; rfl
      · exact .inr ⟨hb, .inr ⟨tv, dv, ov, qv, hx', hy', hc, hp, rfl⟩⟩

theorem sim_bindMove (h : Represents P V) (d s : Nat) : Sim S V (cstep S lost (.bindMove d s) P) (vstep (.bindMove d s) V)
    (fun V' => ∃ T D T', V.frames d = some T ∧ V.frames s = some D ∧ PartlyBound T D T' ∧
      V' = { V with frames := fun y => if y = d then some T' else if y = s then some D.move.2 else V.frames y }) N := by
  refine sim_differ d s fun hds => sim_getFrame h d fun T tv hx hx' hh hd => sim_getFrame h s fun D dv hy hy' hh' hd' => ?_
  have hs := sep_two h (o := .frame d) (o' := .frame s) (by simpa using hds)
  rw [hh, hh', ← List.append_nil (held D.elems dv.elems)] at hs
  rw [sm_ok setFrame_eq, sm_ok vSetFrame_eq, sm_ok vSetFrame_eq]
  refine sp_bindEnd (P := { P with frames := _ }) (denotesF_shape hd) ⟨hd'.1, hd'.2.2.1⟩ hs ?_ ?_
  · intro Q qv h' hb hq hs3
    refine ⟨_, ?_, rep_setFrames h hds hq (D' := .empty D.rows) (E' := dv.move.2) ⟨hd'.1, rfl, rfl⟩ hs3⟩
    rw [hb]; rfl
  · intro e Q qv h' hb hq hs3
    refine ⟨_, rep_setFrames h hds hq (D' := .empty D.rows) (E' := dv.move.2) ⟨hd'.1, rfl, rfl⟩ hs3, ?_⟩
    rcases hb with hb | ⟨hb, hp⟩
    · left; rw [hb]; rfl
    · exact .inr ⟨hb, .inr ⟨tv, dv, qv, hx', hy', hp, rfl⟩⟩

theorem sim_bindCol (h : Represents P V) (d : Nat) (name : Txt) (x : Nat) : Sim S V (cstep S lost (.bindCol d name x) P) (vstep (.bindCol d name x) V)
    (fun V' => ∃ T c T', V.frames d = some T ∧ V.cols x = some c ∧ PartlyBound T (DF.ofNamed ⟨name, c⟩) T' ∧
      V' = { V with cols := fun y => if y = x then some none else V.cols y, frames := fun y => if y = d then some T' else V.frames y }) N := by
  refine sim_getFrame h d fun T tv hx hx' hh hd => sim_getCol h x fun p c hy hy' hh' hd' => ?_
  have hs := sep_two h (o := .frame d) (o' := .col x) (by simp)
  rw [hh, hh'] at hs
  refine sp_bind (R := fun _ P' => ∃ h' : CHeap C, P' = { P with heap := h' } ∧ h'.get = P.heap.get) (sp_onHeap (sp_event ?_ ?_)) ?_
  · exact fun h' hg _ => ⟨h', rfl, hg⟩
  · exact fun e h' hb hg => ⟨V, rep_clock h hg, .inr ⟨hb, .inl rfl⟩⟩
  rintro _ _ ⟨h1, rfl, g1⟩
  rw [← g1] at hs
  rw [sm_ok setCol_eq, sm_ok vSetCol_eq, sm_ok vSetFrame_eq]
  have hs1 : Sep (others P V [.frame d, .col x]) h1.get ((p, (⟨name, c⟩ : Named C).col) :: held T.elems tv.elems) := sep_swap hs
  refine sp_bind (R := fun O P' => ∃ h' : CHeap C, P' = { P with heap := h', cols := fun y => if y = x then some none else P.cols y } ∧ SameShape O (DF.ofNamed ⟨name, c⟩) ∧
      Sep (others P V [.frame d, .col x]) h'.get (held O.elems (DF.ofNamed ⟨name, c⟩).elems ++ held T.elems tv.elems))
    (sp_onHeap (sp_mono (sp_frameOfNamed (S := S) (e := ⟨name, p⟩) (v := ⟨name, c⟩) rfl hs1) ?_ ?_ ?_)) ?_
  · rintro O h' ⟨o1, o2, o3, o4⟩
    exact ⟨h', rfl, ⟨o1, o2, o3⟩, o4⟩
  · rintro e h' ⟨hb, hs2⟩
    have := rep_setBoth h (x := d) (y := x) (p := none) (c := none) (denotesF_shape hd) (sep_perm (sep_null hs2) (by simpa using (List.perm_append_comm (l₁ := [((none : Option Nat), (none : Column C))]))))
    refine ⟨_, ?_, .inr ⟨hb, .inr ⟨tv, c, tv, hx', hy', ⟨0, by simp, .inl ⟨rfl, .inl rfl⟩⟩, rfl⟩⟩⟩
    have e1 : (fun z => if z = d then some T else P.frames z) = P.frames := by
      funext z
      split
      · next hz => rw [hz, hx]
      · rfl
    rw [e1] at this
    exact this
  · exact fun _ h => h.elim
  · rintro O _ ⟨h2, rfl, ho, hs2⟩
    refine sp_bindEnd (P := { P with heap := h2, cols := _ }) (L := []) (denotesF_shape hd) ⟨ho.1, ho.2.2⟩ (by rw [List.append_nil]; exact sep_swap hs2) ?_ ?_
    · intro Q qv h' hb hq hs3
      rw [List.append_nil] at hs3
      refine ⟨_, ?_, rep_setBoth h hq (p := none) (c := none) (sep_perm (sep_null hs3) (by simpa using (List.perm_append_comm (l₁ := [((none : Option Nat), (none : Column C))]))))⟩
      rw [hb]; rfl
    · intro e Q qv h' hb hq hs3
      rw [List.append_nil] at hs3
      refine ⟨_, rep_setBoth h hq (p := none) (c := none) (sep_perm (sep_null hs3) (by simpa using (List.perm_append_comm (l₁ := [((none : Option Nat), (none : Column C))])))), ?_⟩
      rcases hb with hb | ⟨hb, hp⟩
      · left; rw [hb]; rfl
      · exact .inr ⟨hb, .inr ⟨tv, c, qv, hx', hy', hp, rfl⟩⟩

/-- Every statement. -/
theorem cstep_sim (lost : List (Txt × Nat) → List (Txt × Nat) → List (Txt × Nat)) (h : Represents P V) (s : CStmt C) :
    SP (cstep S lost s P) (fun _ P' => ∃ V', vstep s V = .ok () V' ∧ Represents P' V')
      (fun e P' => ∃ V', Represents P' V' ∧ (vstep s V = .exn e V' ∨ Bad S e ∧ AfterBadAlloc V s V'))
      (fun f => vstep s V = .fail f ∨ f = .ub ∧ ∃ d y D, s = .frameSet d y ∧ V.frames y = some D ∧ ∃ v ∈ D.elems, v.col = none) := by
  cases s with
  | col x T l => exact sim_isNewCol h x fun hx _ => sim_newCol h hx (makes_build _ _)
  | colEmpty x =>
    refine sim_isNewCol h x fun hx _ => ⟨_, rfl, rep_setCol h ?_⟩
    have hs := sep_one h (.col x)
    rw [noCol_holds hx] at hs
    exact sep_null hs
  | colCopy x y => exact sim_isNewCol h x fun hx _ => sim_getCol h y fun p c _ _ _ hd => sim_newCol h hx (makes_copyP hd)
  | colPart x y first size => exact sim_isNewCol h x fun hx _ => sim_getCol h y fun p c _ _ _ hd => sim_newCol h hx (makes_partP hd _ _)
  | colMove x y => exact sim_colMove h x y
  | colSet x y => exact sim_colSet h x y
  | colMoveSet x y => exact sim_colMoveSet h x y
  | coerce x T => exact sim_coerce h x T
  | toCol x y T => exact sim_isNewCol h x fun hx _ => sim_getCol h y fun p c _ _ _ hd => sim_newCol h hx (makes_toColumnP hd T)
  | toColMove x y T => exact sim_toColMove h x y T
  | colDrop x => exact sim_colDrop h x
  | frame d =>
    refine sim_isNewFrame h d fun hx _ => ⟨_, rfl, rep_setFrame h ⟨rfl, rfl, rfl⟩ ?_⟩
    have hs := sep_one h (.frame d)
    rw [noFrame_holds hx] at hs
    exact hs
  | frameOf d l => exact sim_frameOf h d l
  | frameCopy d s => exact sim_isNewFrame h d fun hx _ => sim_getFrame h s fun D E _ _ _ hd => sim_newFrame h hx (makes_frameCopy hd)
  | frameMove d s => exact sim_frameMove h d s
  | frameSet d s =>
    refine sp_mono (sim_frameSet h d s) (fun _ _ h => h) (fun _ _ h => h) ?_
    rintro f (h | ⟨h1, D, h2, h3⟩)
    · exact .inl h
    · exact .inr ⟨h1, d, s, D, rfl, h2, h3⟩
  | frameMoveSet d s => exact sim_frameMoveSet h d s
  | bind d s => exact sim_bind h d s
  | bindMove d s => exact sim_bindMove h d s
  | bindCol d name x => exact sim_bindCol h d name x
  | colAt x d i => exact sim_colAt h x d i
  | head d s n => exact sim_isNewFrame h d fun hx _ => sim_getFrame h s fun D E _ _ _ hd => sim_newFrame h hx (makes_headP hd n)
  | table d T => exact sim_table h d T
  | frameDrop d => exact sim_frameDrop h d

end

end Jules

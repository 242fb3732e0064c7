import Verif.Lemmas.ColumnFrames
/-
Lemmas for C79: assignment and `bind` of data frames, and reading all columns.
-/
namespace Jules
open Spec

section
variable {C : Coercion} {S : Nat → Bool} {r g g0 : Nat → Option (Model C)} {l : List (Option Nat × Column C)}

theorem copyAssign_eq (c d : Column C) : Column.copyAssign c d = d := by cases d <;> rfl

theorem named_copy (v : Named C) : v.copy = .ok v ∨ v.copy = .error .ub ∧ v.col = none := by
  obtain ⟨n, c⟩ := v
  cases c with
  | none => exact .inr ⟨rfl, rfl⟩
  | some m => exact .inl rfl

theorem copy_all : ∀ vs : List (Named C), vs.mapM Named.copy = .ok vs ∨ vs.mapM Named.copy = .error .ub ∧ ∃ v ∈ vs, v.col = none
  | [] => .inl rfl
  | v :: vs => by
    rw [List.mapM_cons]
    rcases named_copy v with h | ⟨h, hn⟩
    · rw [h, res_ok_bind]
      rcases copy_all vs with h | ⟨h, w, hw, hn⟩
      · rw [h]; exact .inl rfl
      · rw [h]; exact .inr ⟨rfl, w, .tail _ hw, hn⟩
    · rw [h]; exact .inr ⟨rfl, v, .head _, hn⟩

/-- Each column is that of the target or (name or all of it) that of the source. -/
def Mixed (tv sv qv : List (Named C)) : Prop :=
  ∀ (i : Nat) e, qv[i]? = some e → (∃ t, tv[i]? = some t ∧ e.col = t.col ∧ (e.name = t.name ∨ ∃ s, sv[i]? = some s ∧ e.name = s.name)) ∨ sv[i]? = some e

theorem mixed_refl {tv sv : List (Named C)} : Mixed tv sv tv := fun _ e h => .inl ⟨e, h, rfl, .inl rfl⟩

theorem mixed_cons {tv sv qv : List (Named C)} {t s q : Named C} (h : Mixed tv sv qv) (h0 : (q.col = t.col ∧ (q.name = t.name ∨ q.name = s.name)) ∨ q = s) :
    Mixed (t :: tv) (s :: sv) (q :: qv)
  | 0, e, he => by
    cases he
    rcases h0 with ⟨h1, h2⟩ | rfl
    · exact .inl ⟨t, rfl, h1, h2.imp (fun h => h) fun h => ⟨s, rfl, h⟩⟩
    · exact .inr rfl
  | i + 1, e, he => h i e he

theorem sp_assignElems : ∀ {ts ss : List PNamed} {tv sv : List (Named C)} {l : List (Option Nat × Column C)} {h : CHeap C}, ts.map PNamed.name = tv.map Named.name → DenoteAll r ss sv →
    Sep r h.get (held ts tv ++ l) →
    SP (assignElems S ts ss h) (fun q h' => ∃ qv, q.2.map PNamed.name = qv.map Named.name ∧ Sep r h'.get (held q.2 qv ++ l) ∧
      match q.1 with
      | none => qv = sv.take tv.length ++ tv.drop sv.length
      | some x => Bad S x ∧ Mixed tv sv qv) (fun _ _ => False) (fun _ => False)
  | [], ss, tv, sv, l, h, hn, hd, hs => by
    have : tv = [] := by simpa using hn.symm
    subst this
    unfold assignElems
    exact ⟨[], rfl, hs, by simp⟩
  | t :: ts, [], tv, sv, l, h, hn, hd, hs => by
    rw [denoteAll_nil hd]
    unfold assignElems
    exact ⟨tv, hn, hs, by simp⟩
  | t :: ts, s :: ss, [], sv, l, h, hn, hd, hs => by simp at hn
  | t :: ts, s :: ss, t' :: tv, sv, l, h, hn, hd, hs => by
    obtain ⟨s', sv, rfl⟩ := denoteAll_cons_left hd
    obtain ⟨⟨h1, h2⟩, h3⟩ := denoteAll_cons.1 hd
    rw [List.map_cons, List.map_cons, List.cons.injEq] at hn
    have hs' : Sep r h.get ((t.ptr, t'.col) :: (held ts tv ++ l)) := hs
    unfold assignElems
    refine sp_bind (R := fun x h' => h'.get = h.get ∧ ∀ e, x = .error e → Bad S e) (sp_try (sp_event (fun h' hg _ => ⟨hg, nofun⟩) fun e h' hb hg => ⟨hg, fun e' he => by cases he; exact hb⟩)) ?_
    rintro (x | ⟨⟩) h1' ⟨g1, hb⟩
    · refine ⟨t' :: tv, by simp [hn.1, hn.2], by rw [g1]; exact hs, hb _ rfl, mixed_refl⟩
    · rw [← g1] at hs'
      refine sp_bind (R := fun x h' => match x with
        | .ok p => Sep r h'.get ((p, s'.col) :: (held ts tv ++ l))
        | .error e => h'.get = h1'.get ∧ Bad S e) (sp_try (sp_mono (sp_assignP (S := S) hs' (denotes_mono h2 hs'.ext)) (fun b h' hb => ?_) (fun e h' he => he) fun _ h => h)) ?_
      · rw [copyAssign_eq] at hb; exact hb
      rintro (x | p) h2' hx
      · refine ⟨⟨s'.name, t'.col⟩ :: tv, by simp [h1, hn.2], by rw [hx.1]; exact hs', hx.2, mixed_cons mixed_refl (.inl ⟨rfl, .inr rfl⟩)⟩
      · have hsw : Sep r h2'.get (held ts tv ++ ((p, s'.col) :: l)) := sep_perm hx (List.perm_middle.symm)
        refine sp_bind (sp_assignElems (ss := ss) hn.2 h3 hsw) ?_
        rintro ⟨o, qs⟩ h3' ⟨qv, q1, q2, q3⟩
        refine ⟨s' :: qv, by simp [h1, q1], sep_perm q2 List.perm_middle, ?_⟩
        cases o with
        | none => simp only at q3 ⊢; simp [q3]
        | some x => exact ⟨q3.1, mixed_cons q3.2 (.inr rfl)⟩

theorem denoteAll_drop {es : List PNamed} {vs : List (Named C)} (n : Nat) (h : DenoteAll g es vs) : DenoteAll g (es.drop n) (vs.drop n) := by
  induction n generalizing es vs with
  | zero => exact h
  | succ n ih =>
    cases es with
    | nil => have := denoteAll_nil h; subst this; simpa using h
    | cons e es =>
      obtain ⟨v, vs, rfl⟩ := denoteAll_cons_left h
      exact ih (denoteAll_cons.1 h).2

theorem held_split {es : List PNamed} {vs : List (Named C)} (n : Nat) (hn : es.map PNamed.name = vs.map Named.name) :
    held es vs = held (es.take n) (vs.take n) ++ held (es.drop n) (vs.drop n) := by
  rw [← held_append, List.take_append_drop, List.take_append_drop]
  rw [List.map_take, List.map_take, hn]

theorem mixed_append {tv sv qv : List (Named C)} (h : tv.length ≤ sv.length) (hq : qv = sv.take tv.length ++ tv.drop sv.length) : Mixed tv sv qv := by
  intro i e he
  right
  rw [hq, List.drop_eq_nil_of_le h, List.append_nil] at he
  rw [List.getElem?_take] at he
  split at he
  · exact he
  · cases he

theorem sp_assignVector {cap : Nat} {ts ss : List PNamed} {tv sv : List (Named C)} {h : CHeap C} (hn : ts.map PNamed.name = tv.map Named.name) (hd : DenoteAll r ss sv)
    (hs : Sep r h.get (held ts tv ++ l)) :
    SP (assignVector S cap ts ss h) (fun q h' => ∃ qv, q.2.1.map PNamed.name = qv.map Named.name ∧ Sep r h'.get (held q.2.1 qv ++ l) ∧
      match q.1 with
      | none => qv = sv
      | some x => Bad S x ∧ Mixed tv sv qv) (fun _ _ => False) (fun f => f = .ub ∧ ∃ v ∈ sv, v.col = none) := by
  have hl : ts.length = tv.length := by simpa using congrArg List.length hn
  have hl' : ss.length = sv.length := by simpa using congrArg List.length hd.1
  unfold assignVector
  split
  · refine sp_bind (R := fun x h' => match x with
      | .ok es => es.map PNamed.name = sv.map Named.name ∧ Sep r h'.get (held ts tv ++ (held es sv ++ l))
      | .error e => h'.get = h.get ∧ Bad S e) (sp_try (sp_mono (makes_copyVector (S := S) (denoteAll_mono hd hs.ext)) ?_ ?_ ?_)) ?_
    · rintro es h' ⟨w, l', hw, ⟨hn', rfl⟩, hs'⟩
      rcases copy_all sv with h | ⟨h, _⟩
      · rw [h] at hw; cases hw
        refine ⟨hn', sep_perm (sep_trans hs hs') ?_⟩
        rw [← List.append_assoc, ← List.append_assoc]
        exact List.Perm.append_right _ List.perm_append_comm
      · rw [h] at hw; cases hw
    · rintro e h' ⟨h1, h2⟩
      refine ⟨h1, h2.resolve_left fun h => ?_⟩
      rcases copy_all sv with h' | ⟨h', _⟩ <;> rw [h'] at h <;> cases h
    · rintro f ⟨hf, -⟩
      rcases copy_all sv with h' | ⟨h', hh⟩ <;> rw [h'] at hf <;> cases hf
      exact ⟨rfl, hh⟩
    · rintro (x | es) h1 hx
      · exact ⟨tv, hn, by rw [hx.1]; exact hs, hx.2, mixed_refl⟩
      · refine sp_bind (sp_mono (sp_destroyAll hn hx.2) (fun _ h' hh => hh) (fun _ _ h => h) fun _ h => h.elim) fun _ h2 hs2 => ?_
        exact ⟨sv, hx.1, hs2, rfl⟩
  · refine sp_bind (sp_mono (sp_assignElems (S := S) hn hd hs) (fun _ _ h => h) (fun _ _ h => h) fun _ h => h.elim) ?_
    rintro ⟨o, qs⟩ h1 ⟨qv, q1, q2, q3⟩
    have hlq : qs.length = qv.length := by simpa using congrArg List.length q1
    cases o with
    | some x => exact ⟨qv, q1, q2, q3⟩
    | none =>
      dsimp only at q1 q2 q3 ⊢
      split
      · next hlt =>
        have hsp := held_split ss.length q1
        rw [hsp] at q2
        have hd1 : (qs.drop ss.length).map PNamed.name = (qv.drop ss.length).map Named.name := by rw [List.map_drop, List.map_drop, q1]
        have q2' : Sep r h1.get (held (qs.drop ss.length) (qv.drop ss.length) ++ (held (qs.take ss.length) (qv.take ss.length) ++ l)) := by
          refine sep_perm q2 ?_
          rw [← List.append_assoc]
          exact List.Perm.append_right _ List.perm_append_comm
        refine sp_bind (sp_mono (sp_destroyAll hd1 q2') (fun _ h' hh => hh) (fun _ _ h => h) fun _ h => h.elim) fun _ h2 hs2 => ?_
        refine ⟨_, ?_, hs2, ?_⟩
        · rw [List.map_take, List.map_take, q1]
        · rw [q3, hl', List.take_of_length_le (by omega : sv.length ≤ tv.length)]
          simp
      · next hge =>
        have hlen : qv.length = tv.length := by rw [q3]; simp; omega
        refine sp_bind (R := fun x h' => match x with
          | .ok es => es.map PNamed.name = (sv.drop ts.length).map Named.name ∧ Sep r h'.get (held (qs ++ es) (qv ++ sv.drop ts.length) ++ l)
          | .error e => h'.get = h1.get ∧ Bad S e) (sp_try (sp_mono (makes_copyElems (S := S) (denoteAll_drop ts.length (denoteAll_mono hd q2.ext))) ?_ ?_ ?_)) ?_
        · rintro es h' ⟨w, l', hw, ⟨hn', rfl⟩, hs'⟩
          rcases copy_all (sv.drop ts.length) with h | ⟨h, _⟩
          · rw [h] at hw; cases hw
            refine ⟨hn', sep_perm (sep_trans q2 hs') ?_⟩
            rw [held_append q1, ← List.append_assoc]
            exact List.Perm.append_right _ List.perm_append_comm
          · rw [h] at hw; cases hw
        · rintro e h' ⟨h1, h2⟩
          refine ⟨h1, h2.resolve_left fun h => ?_⟩
          rcases copy_all (sv.drop ts.length) with h' | ⟨h', _⟩ <;> rw [h'] at h <;> cases h
        · rintro f ⟨hf, -⟩
          rcases copy_all (sv.drop ts.length) with h' | ⟨h', v, hv, hh⟩ <;> rw [h'] at hf <;> cases hf
          exact ⟨rfl, v, List.mem_of_mem_drop hv, hh⟩
        · rintro (x | es) h2 hx
          · exact ⟨qv, q1, by rw [hx.1]; exact q2, hx.2, mixed_append (by omega) q3⟩
          · refine ⟨_, ?_, hx.2, ?_⟩
            · simp [q1, hx.1]
            · rw [q3, List.drop_eq_nil_of_le (by omega : tv.length ≤ sv.length), hl]
              simp

theorem sp_frameAssign {lostIndex : List (Txt × Nat) → List (Txt × Nat) → List (Txt × Nat)} {T D : PFrame} {tv dv : DF C} {h : CHeap C}
    (hn : T.elems.map PNamed.name = tv.elems.map Named.name) (hd : DenotesF r D dv) (hs : Sep r h.get (held T.elems tv.elems ++ l)) :
    SP (frameAssign S lostIndex T D h) (fun q h' => ∃ qv : DF C, q.2.rows = qv.rows ∧ q.2.index = qv.index ∧ q.2.elems.map PNamed.name = qv.elems.map Named.name ∧
      Sep r h'.get (held q.2.elems qv.elems ++ l) ∧
      match q.1 with
      | none => qv = dv
      | some x => Bad S x ∧ PartlyAssigned tv dv qv) (fun _ _ => False) (fun f => f = .ub ∧ ∃ v ∈ dv.elems, v.col = none) := by
  obtain ⟨d1, d2, d3⟩ := hd
  unfold frameAssign
  refine sp_bind (sp_assignVector (S := S) hn d3 hs) ?_
  rintro ⟨o, es, cap⟩ h1 ⟨qv, q1, q2, q3⟩
  cases o with
  | some x => exact ⟨⟨dv.rows, qv, T.index⟩, d1, rfl, q1, q2, q3.1, rfl, q3.2⟩
  | none =>
    dsimp only at q1 q2 q3 ⊢
    subst q3
    refine sp_bind (R := fun x h' => h'.get = h1.get ∧ ∀ e, x = .error e → Bad S e) (sp_try (sp_event (fun h' hg _ => ⟨hg, nofun⟩) fun e h' hb hg => ⟨hg, fun e' he => by cases he; exact hb⟩)) ?_
    rintro (x | ⟨⟩) h2 ⟨g1, hb⟩
    · exact ⟨⟨dv.rows, dv.elems, lostIndex T.index D.index⟩, d1, rfl, q1, by rw [g1]; exact q2, hb _ rfl, rfl, fun i e he => .inr he⟩
    · exact ⟨dv, d1, d2, q1, by rw [g1]; exact q2, rfl⟩

/-! ### bind -/

theorem sp_bindLoop : ∀ {es : List PNamed} {vs : List (Named C)} {D : PFrame} {dv : DF C} {h : CHeap C}, es.map PNamed.name = vs.map Named.name →
    D.rows = dv.rows → D.index = dv.index → D.elems.map PNamed.name = dv.elems.map Named.name → Sep r h.get (held D.elems dv.elems ++ (held es vs ++ l)) →
    SP (bindLoopP S D es h) (fun q h' => ∃ (qv : DF C) (ws : List (Named C)), q.2.1.rows = qv.rows ∧ q.2.1.index = qv.index ∧ q.2.1.elems.map PNamed.name = qv.elems.map Named.name ∧
      q.2.2.map PNamed.name = ws.map Named.name ∧ Sep r h'.get (held q.2.1.elems qv.elems ++ (held q.2.2 ws ++ l)) ∧
      match q.1 with
      | none => ∀ k, bindLoop (fun _ => false) k dv vs = (.ok (), qv)
      | some x => Bad S x ∧ (∃ k, qv.elems = dv.elems ++ vs.take k) ∧ qv.rows = dv.rows) (fun _ _ => False) (fun _ => False)
  | [], [], D, dv, h, _, h1, h2, h3, hs => ⟨dv, [], h1, h2, h3, rfl, hs, fun _ => rfl⟩
  | [], v :: vs, D, dv, h, hn, _, _, _, _ => by simp at hn
  | e :: es, [], D, dv, h, hn, _, _, _, _ => by simp at hn
  | e :: es, v :: vs, D, dv, h, hn, h1, h2, h3, hs => by
    rw [List.map_cons, List.map_cons, List.cons.injEq] at hn
    have hl : D.elems.length = dv.elems.length := by simpa using congrArg List.length h3
    unfold bindLoopP
    refine sp_bind (R := fun x h' => h'.get = h.get ∧ ∀ e, x = .error e → Bad S e) (sp_try ?_) ?_
    · split
      · exact sp_event (fun h' hg _ => ⟨hg, nofun⟩) fun e h' hb hg => ⟨hg, fun e' he => by cases he; exact hb⟩
      · exact ⟨rfl, nofun⟩
    rintro (x | ⟨⟩) h1' ⟨g1, hb⟩
    · exact ⟨dv, v :: vs, h1, h2, h3, by simp [hn.1, hn.2], by rw [g1]; exact hs, hb _ rfl, ⟨0, by simp⟩, rfl⟩
    · dsimp only
      let dv1 : DF C := if v.name ≠ [] then { dv with index := (v.name, dv.elems.length) :: dv.index } else dv
      generalize hD1 : (if e.name ≠ [] then { D with index := (e.name, D.elems.length) :: D.index } else D) = D1
      have a1 : D1.rows = dv1.rows := by rw [← hD1, hn.1]; show _ = DF.rows (ite _ _ _); split <;> exact h1
      have a2 : D1.index = dv1.index := by rw [← hD1, hn.1]; show _ = DF.index (ite _ _ _); split <;> simp [h2, hl]
      have a3 : D1.elems = D.elems := by rw [← hD1]; split <;> rfl
      have a4 : dv1.elems = dv.elems := by show DF.elems (ite _ _ _) = _; split <;> rfl
      have a5 : dv1.rows = dv.rows := by show DF.rows (ite _ _ _) = _; split <;> rfl
      refine sp_bind (R := fun x h' => h'.get = h1'.get ∧ ∀ e, x = .error e → Bad S e) (sp_try ?_) ?_
      · split
        · exact ⟨rfl, nofun⟩
        · exact sp_event (fun h' hg _ => ⟨hg, nofun⟩) fun e h' hb hg => ⟨hg, fun e' he => by cases he; exact hb⟩
      rintro (x | ⟨⟩) h2' ⟨g2, hb⟩
      · exact ⟨dv1, v :: vs, a1, a2, by rw [a3, a4]; exact h3, by simp [hn.1, hn.2], by rw [g2, g1, a3, a4]; exact hs, hb _ rfl, ⟨0, by simp [a4]⟩, a5⟩
      · dsimp only
        have hs2 : Sep r h2'.get (held (D1.elems ++ [e]) (dv1.elems ++ [v]) ++ (held es vs ++ l)) := by
          rw [g2, g1, a3, a4, held_snoc h3, List.append_assoc]
          exact hs
        refine sp_mono (sp_bindLoop (dv := { dv1 with elems := dv1.elems ++ [v] }) hn.2 a1 a2 (by dsimp only; rw [a3, a4]; simp [h3, hn.1]) hs2) ?_ (fun _ _ h => h) fun _ h => h
        rintro ⟨o, Q, rest⟩ h' ⟨qv, ws, b1, b2, b3, b4, b5, b6⟩
        refine ⟨qv, ws, b1, b2, b3, b4, b5, ?_⟩
        cases o with
        | none =>
          intro k
          unfold bindLoop
          by_cases hv : v.name = []
          · have : dv1 = dv := by show ite _ _ _ = _; rw [if_neg (by simpa using hv)]
            rw [this] at b6
            simpa [hv] using b6 (k + 1)
          · have : dv1 = { dv with index := (v.name, dv.elems.length) :: dv.index } := by show ite _ _ _ = _; rw [if_pos hv]
            rw [this] at b6
            simpa [hv] using b6 (k + 2)
        | some x =>
          obtain ⟨c1, ⟨k, c2⟩, c3⟩ := b6
          refine ⟨c1, ⟨k + 1, ?_⟩, c3.trans a5⟩
          rw [c2, a4]; simp

theorem sp_bindP {D O : PFrame} {dv ov : DF C} {h : CHeap C} (hd : D.rows = dv.rows ∧ D.index = dv.index ∧ D.elems.map PNamed.name = dv.elems.map Named.name)
    (ho : O.rows = ov.rows ∧ O.elems.map PNamed.name = ov.elems.map Named.name) (hs : Sep r h.get (held D.elems dv.elems ++ (held O.elems ov.elems ++ l))) :
    SP (bindP S D O h) (fun q h' => ∃ (qv : DF C) (ws : List (Named C)), q.2.1.rows = qv.rows ∧ q.2.1.index = qv.index ∧ q.2.1.elems.map PNamed.name = qv.elems.map Named.name ∧
      q.2.2.map PNamed.name = ws.map Named.name ∧ Sep r h'.get (held q.2.1.elems qv.elems ++ (held q.2.2 ws ++ l)) ∧
      match q.1 with
      | none => dv.bind (fun _ => false) ov = (.ok (), qv)
      | some x => dv.bind (fun _ => false) ov = (.error (.exc x), qv) ∨ Bad S x ∧ PartlyBound dv ov qv) (fun _ _ => False) (fun _ => False) := by
  obtain ⟨d1, d2, d3⟩ := hd
  obtain ⟨o1, o3⟩ := ho
  have hl : D.elems.length = dv.elems.length := by simpa using congrArg List.length d3
  unfold bindP
  refine sp_bind (R := fun x h' => h'.get = h.get ∧ ∀ e, x = .error e → Bad S e) (sp_try (sp_event (fun h' hg _ => ⟨hg, nofun⟩) fun e h' hb hg => ⟨hg, fun e' he => by cases he; exact hb⟩)) ?_
  rintro (x | ⟨⟩) h1 ⟨g1, hb⟩
  · exact ⟨dv, ov.elems, d1, d2, d3, o3, by rw [g1]; exact hs, .inr ⟨hb _ rfl, 0, by simp, .inl ⟨rfl, .inl rfl⟩⟩⟩
  · dsimp only
    rw [o3, d2]
    unfold DF.bind DF.names DF.nonempty
    simp only [Bool.false_eq_true, if_false, decide_eq_true_eq]
    split
    · rw [hl]
      split
      · next hpos =>
        rw [d1, o1]
        split
        · next hrows =>
          refine sp_mono (sp_bindLoop (dv := dv) o3 d1 d2 d3 (by rw [g1]; exact hs)) ?_ (fun _ _ h => h) fun _ h => h
          rintro ⟨o, Q, rest⟩ h' ⟨qv, ws, b1, b2, b3, b4, b5, b6⟩
          refine ⟨qv, ws, b1, b2, b3, b4, b5, ?_⟩
          cases o with
          | none => exact b6 1
          | some x => exact .inr ⟨b6.1, b6.2.1.elim fun k hk => ⟨k, hk, .inl ⟨b6.2.2, .inr hrows.symm⟩⟩⟩
        · exact ⟨dv, ov.elems, d1, d2, d3, o3, by rw [g1]; exact hs, .inl rfl⟩
      · next hz =>
        have hz' : dv.elems = [] := List.length_eq_zero_iff.1 (by omega)
        refine sp_mono (sp_bindLoop (dv := { dv with rows := ov.rows }) o3 o1 rfl d3 (by rw [g1]; exact hs)) ?_ (fun _ _ h => h) fun _ h => h
        rintro ⟨o, Q, rest⟩ h' ⟨qv, ws, b1, b2, b3, b4, b5, b6⟩
        refine ⟨qv, ws, b1, b2, b3, b4, b5, ?_⟩
        cases o with
        | none => exact b6 1
        | some x => exact .inr ⟨b6.1, b6.2.1.elim fun k hk => ⟨k, hk, .inr ⟨hz', b6.2.2⟩⟩⟩
    · exact ⟨dv, ov.elems, d1, d2, d3, o3, by rw [g1]; exact hs, .inl rfl⟩

theorem sp_frameOfNamed {e : PNamed} {v : Named C} {h : CHeap C} (hn : e.name = v.name) (hs : Sep r h.get ((e.ptr, v.col) :: l)) :
    SP (frameOfNamed S e h) (fun D h' => D.rows = (DF.ofNamed v).rows ∧ D.index = (DF.ofNamed v).index ∧ D.elems.map PNamed.name = (DF.ofNamed v).elems.map Named.name ∧
      Sep r h'.get (held D.elems (DF.ofNamed v).elems ++ l)) (fun x h' => Bad S x ∧ Sep r h'.get l) (fun _ => False) := by
  unfold frameOfNamed
  refine sp_bind (R := fun n h' => n = Column.size v.col ∧ h' = h) (sp_sizeP (hs.vals _ _ (.head _)) ⟨rfl, rfl⟩) ?_
  rintro n h1 ⟨rfl, rfl⟩
  refine sp_bind (R := fun _ h' => Sep r h'.get ((e.ptr, v.col) :: l)) (sp_cleanup (R := fun x h' => Bad S x ∧ Sep r h'.get ((e.ptr, v.col) :: l)) (sp_event (fun h' hg _ => by rw [hg]; exact hs)
    fun x h' hb hg => ⟨hb, by rw [hg]; exact hs⟩) ?_) ?_
  · rintro x h' ⟨hb, hs'⟩
    exact sp_mono (sp_delete hs') (fun _ h'' hh => ⟨hb, hh⟩) (fun _ _ h => h) fun _ h => h
  · intro _ h2 hs2
    exact ⟨rfl, rfl, by simp [DF.ofNamed, hn], hs2⟩

/-! ### Reading all columns -/

/-- These addresses have elements of this type. -/
def DataAt (g : Nat → Option (Model C)) (T : C.Ty) : List Nat → List (List (C.Val T)) → Prop
  | [], [] => True
  | id :: ids, v :: vs => g id = some ⟨T, v⟩ ∧ DataAt g T ids vs
  | _, _ => False

theorem dataAt_mono {T : C.Ty} {g' : Nat → Option (Model C)} (hg : ∀ i m, g i = some m → g' i = some m) : ∀ {ids : List Nat} {vs : List (List (C.Val T))}, DataAt g T ids vs → DataAt g' T ids vs
  | [], [], _ => trivial
  | _ :: _, _ :: _, h => ⟨hg _ _ h.1, dataAt_mono hg h.2⟩
  | [], _ :: _, h => h
  | _ :: _, [], h => h

theorem dataAt_snoc {T : C.Ty} {id : Nat} {v : List (C.Val T)} (hv : g id = some ⟨T, v⟩) : ∀ {ids : List Nat} {vs : List (List (C.Val T))}, DataAt g T ids vs → DataAt g T (ids ++ [id]) (vs ++ [v])
  | [], [], _ => ⟨hv, trivial⟩
  | _ :: _, _ :: _, h => ⟨h.1, dataAt_snoc hv h.2⟩
  | [], _ :: _, h => h.elim
  | _ :: _, [], h => h.elim

theorem sp_valsAll {T : C.Ty} {h : CHeap C} {P : List (List (C.Val T)) → CHeap C → Prop} {Q : Exn → CHeap C → Prop} {F : Fail → Prop} :
    ∀ {ids : List Nat} {vs : List (List (C.Val T))}, DataAt h.get T ids vs → SP (valsAll T ids h) (fun ws h' => ws = vs ∧ h' = h) Q F
  | [], [], _ => ⟨rfl, rfl⟩
  | id :: ids, v :: vs, hd => by
    unfold valsAll
    refine sp_bind (R := fun w h' => w = v ∧ h' = h) ?_ ?_
    · unfold valsAt
      refine sp_bind (R := fun b h' => b = ⟨T, v⟩ ∧ h' = h) (sp_fetch hd.1 ⟨rfl, rfl⟩) ?_
      rintro b h' ⟨rfl, rfl⟩
      rw [dif_pos rfl]
      exact ⟨rfl, rfl⟩
    · rintro w h' ⟨rfl, rfl⟩
      refine sp_bind (sp_valsAll (P := P) hd.2) ?_
      rintro ws h' ⟨rfl, rfl⟩
      exact ⟨rfl, rfl⟩
  | [], _ :: _, h => h.elim
  | _ :: _, [], h => h.elim

theorem coerce_ty {m m' : Model C} {T : C.Ty} (h : m.coerce T = .ok m') : ∃ v, m' = ⟨T, v⟩ := by
  unfold Model.coerce at h
  split at h
  · split at h
    · cases h
    · obtain ⟨v, _, h2⟩ := res_bind_ok.1 h
      cases h2; exact ⟨v, rfl⟩
  · cases h

theorem sp_gatherLoop {T : C.Ty} : ∀ {ps : List (Option Nat)} {cs : List (Column C)} {tmp : List (Option Nat)} {lt : List (Option Nat × Column C)} {data : List Nat}
    {dv : List (List (C.Val T))} {h : CHeap C}, ps.length = cs.length → (∀ p c, (p, c) ∈ ps.zip cs → StandsFor g0 p c) → lt.map Prod.fst = tmp → Sep g0 h.get lt → DataAt h.get T data dv →
    SP (gatherLoop S T ps tmp data h) (fun res h' => ∃ lt' vs, cs.mapM (columnAs T) = .ok vs ∧ lt'.map Prod.fst = res.1 ∧ Sep g0 h'.get lt' ∧ DataAt h'.get T res.2 (dv ++ vs))
      (fun e h' => h'.get = g0 ∧ (cs.mapM (columnAs T) = .error (.exc e) ∨ Bad S e)) (Fails (cs.mapM (columnAs T)))
  | [], [], tmp, lt, data, dv, h, _, _, ht, hs, hd => ⟨lt, [], rfl, ht, hs, by simpa using hd⟩
  | [], _ :: _, _, _, _, _, _, hl, _, _, _, _ => by cases hl
  | _ :: _, [], _, _, _, _, _, hl, _, _, _, _ => by cases hl
  | p :: ps, c :: cs, tmp, lt, data, dv, h, hl, hp, ht, hs, hd => by
    have hc : StandsFor h.get p c := denotes_mono (hp p c (.head _)) hs.ext
    have hp' : ∀ p c, (p, c) ∈ ps.zip cs → StandsFor g0 p c := fun p c hm => hp p c (.tail _ hm)
    have hl' : ps.length = cs.length := by simpa using hl
    have hs0 : Sep g0 h.get (lt ++ []) := by rw [List.append_nil]; exact hs
    unfold gatherLoop
    rw [List.mapM_cons]
    refine sp_bind (R := fun t h' => Column.elementsType c = .ok t ∧ h' = h) (sp_cleanup (R := fun e h' => Column.elementsType c = .error (.exc e) ∧ h' = h)
      (sp_mono (sp_typeP hc) (fun _ _ h => h) (fun _ _ h => h) fun _ h => h.elim) ?_) ?_
    · rintro e h' ⟨h1, rfl⟩
      refine sp_mono (sp_destroyCols ht hs0) (fun _ h'' hh => ⟨sep_nil hh, .inl ?_⟩) (fun _ _ h => h) fun _ h => h
      unfold columnAs; rw [h1]; rfl
    · rintro t h1 ⟨h1e, rfl⟩
      have hev : ∀ (lt1 : List (Option Nat × Column C)) (tmp1 : List (Option Nat)) (h1 : CHeap C), lt1.map Prod.fst = tmp1 → Sep g0 h1.get lt1 →
          SP (((cEvent S).cleanup (destroyCols tmp1)) h1) (fun _ h' => h'.get = h1.get) (fun e h' => h'.get = g0 ∧
            ((do let a ← columnAs T c; let b ← cs.mapM (columnAs T); (Pure.pure (a :: b) : Res _)) = .error (.exc e) ∨ Bad S e))
            (Fails ((do let a ← columnAs T c; let b ← cs.mapM (columnAs T); (Pure.pure (a :: b) : Res _)))) := by
        intro lt1 tmp1 h1 ht1 hs1
        refine sp_cleanup (R := fun e h' => Sep g0 h'.get (lt1 ++ []) ∧ Bad S e) (sp_event (fun h' hg _ => hg) fun e h' hb hg => ⟨by rw [hg, List.append_nil]; exact hs1, hb⟩) ?_
        rintro e h' ⟨h2, hb⟩
        exact sp_mono (sp_destroyCols ht1 h2) (fun _ h'' hh => ⟨sep_nil hh, .inr hb⟩) (fun _ _ h => h) fun _ h => h
      cases c with
      | none => cases h1e
      | some m =>
        cases h1e
        split
        · next htT =>
          refine sp_bind (hev lt tmp h1 ht hs) ?_
          intro _ h2 g2
          obtain ⟨ty, vals⟩ := m
          have htT : ty = T := htT
          subst htT
          cases p with
          | none => exact hc.elim
          | some id =>
            have hc : h1.get id = some ⟨ty, vals⟩ := hc
            have hcol : columnAs ty (some (⟨ty, vals⟩ : Model C)) = .ok vals := by
              unfold columnAs Column.elementsType Column.data
              rw [res_ok_bind, if_pos rfl]
              simp
            rw [hcol]
            rw [← g2] at hs hd hc
            refine sp_mono (sp_gatherLoop hl' hp' ht hs (dataAt_snoc hc hd)) ?_ ?_ ?_
            · rintro res h' ⟨lt', vs, e1, e2, e3, e4⟩
              exact ⟨lt', vals :: vs, by rw [res_ok_bind, e1]; rfl, e2, e3, by simpa using e4⟩
            · rintro e h' ⟨e1, e2⟩
              exact ⟨e1, e2.imp (fun h => by rw [res_ok_bind, h]; rfl) fun h => h⟩
            · intro f hf
              refine ⟨?_, hf.2⟩; rw [res_ok_bind, hf.1]; rfl
        · next htT =>
          have hcol : columnAs T (some m) = (do let c' ← toColumn (some m) T; Column.data c' T) := by
            unfold columnAs Column.elementsType
            rw [res_ok_bind, if_neg htT]
          rw [hcol]
          refine sp_bind (R := fun q h' => ∃ v, toColumn (some m) T = .ok (some ⟨T, v⟩) ∧ Sep h1.get h'.get [(q, some ⟨T, v⟩)]) (sp_cleanup
            (R := fun e h' => h'.get = h1.get ∧ (toColumn (some m) T = .error (.exc e) ∨ Bad S e)) (sp_mono (makes_toColumnP (S := S) hc T) ?_ (fun _ _ h => h) ?_) ?_) ?_
          · rintro q h' ⟨w, l', hw, hl, hs'⟩
            unfold IsCol at hl
            subst hl
            obtain ⟨m', hm', e⟩ := res_bind_ok.1 hw
            cases e
            obtain ⟨v, rfl⟩ := coerce_ty hm'
            exact ⟨v, hw, hs'⟩
          · rintro f ⟨hf, hx⟩
            refine ⟨?_, hx⟩
            rw [hf]; rfl
          · rintro e h' ⟨e1, e2⟩
            refine sp_mono (sp_destroyCols ht (by rw [e1]; exact hs0)) (fun _ h'' hh => ⟨sep_nil hh, e2.imp (fun h => ?_) fun h => h⟩) (fun _ _ h => h) fun _ h => h
            rw [h]; rfl
          · rintro q h2 ⟨v, hv, hs2⟩
            have hdat : Column.data (some (⟨T, v⟩ : Model C)) T = .ok v := by unfold Column.data; simp
            have hcol' : columnAs T (some m) = .ok v := by rw [hcol, hv, res_ok_bind, hdat]
            rw [← hcol]
            have hs3 : Sep g0 h2.get ((q, some ⟨T, v⟩) :: lt) := sep_trans hs hs2
            refine sp_bind (hev _ _ h2 (by simp [ht]) hs3) ?_
            intro _ h3 g3
            rw [← g3] at hs3 hs2
            have hs4 : Sep g0 h3.get (lt ++ [(q, some ⟨T, v⟩)]) := sep_perm hs3 (by simpa using (List.perm_append_comm (l₁ := [(q, some ⟨T, v⟩)]) (l₂ := lt)))
            refine sp_bind (hev (lt ++ [(q, some ⟨T, v⟩)]) _ h3 (by simp [ht]) hs4) ?_
            intro _ h4 g4
            rw [← g4] at hs4 hs2
            have hq := hs2.vals _ _ (.head _)
            cases q with
            | none => exact hq.elim
            | some id =>
              rw [hcol']
              refine sp_mono (sp_gatherLoop hl' hp' (by simp [ht]) hs4 (dataAt_snoc hq (dataAt_mono hs2.ext hd))) ?_ ?_ ?_
              · rintro res h' ⟨lt', vs, e1, e2, e3, e4⟩
                exact ⟨lt', v :: vs, by rw [res_ok_bind, e1]; rfl, e2, e3, by simpa using e4⟩
              · rintro e h' ⟨e1, e2⟩
                exact ⟨e1, e2.imp (fun h => by rw [res_ok_bind, h]; rfl) fun h => h⟩
              · intro f hf
                refine ⟨?_, hf.2⟩; rw [res_ok_bind, hf.1]; rfl

theorem mapM_columnAs (T : C.Ty) : ∀ vs : List (Named C), (vs.mapM fun e => columnAs T e.col) = (vs.map Named.col).mapM (columnAs T)
  | [] => rfl
  | v :: vs => by rw [List.map_cons, List.mapM_cons, List.mapM_cons, mapM_columnAs T vs]

theorem sp_gather {T : C.Ty} {D : PFrame} {E : DF C} {h : CHeap C} (hd : DenotesF h.get D E) :
    SP (gather S T D h) (fun ws h' => (E.elems.mapM fun e => columnAs T e.col) = .ok ws ∧ h'.get = h.get)
      (fun e h' => h'.get = h.get ∧ ((E.elems.mapM fun e => columnAs T e.col) = .error (.exc e) ∨ Bad S e)) (Fails ((E.elems.mapM fun e => columnAs T e.col))) := by
  obtain ⟨_, _, h1, h2⟩ := hd
  have hl : (D.elems.map PNamed.ptr).length = (E.elems.map Named.col).length := by simpa using congrArg List.length h1
  rw [mapM_columnAs]
  unfold gather
  refine sp_bind (sp_gatherLoop (S := S) (T := T) (lt := []) (dv := []) hl h2 rfl sep_refl trivial) ?_
  rintro ⟨tmp, ids⟩ h' ⟨lt', vs, e1, e2, e3, e4⟩
  refine sp_bind (sp_valsAll (P := fun _ _ => True) e4) ?_
  rintro ws h'' ⟨rfl, rfl⟩
  refine sp_bind (sp_mono (sp_destroyCols (l2 := []) e2 (by rw [List.append_nil]; exact e3)) (fun _ _ h => h) (fun _ _ h => h.elim) fun _ h => h.elim) ?_
  intro _ h3 hs
  exact ⟨e1, sep_nil hs⟩

end

end Jules

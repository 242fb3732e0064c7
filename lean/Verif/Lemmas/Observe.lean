import Verif.Lemmas.Complete
import Verif.Spec.Observe
/-
Well-formed objects behave as their meaning.
-/
namespace Jules
open Spec

theorem inB_of_legal {v : AView} {i : Nat} : LegalIx (v.ext.headD 0) (.at i) ↔
    i < v.ext.headD 0 := by
  simp [LegalIx, strideOK, sel]

theorem index_at_ok {o : Obj} {v : AView} {i : Nat} (hwf : o.WF) (hs : SameObj o.abs (.view v))
    (hz : ∀ x ∈ v.ext, x ≠ 0) (hi : i < v.ext.headD 0) :
    ∃ o', o.index Arith.exact true (.at i) = .ok o' ∧ o'.WF ∧ SameObj o'.abs (.view (fixFirst v i)) := by
  have hp : o.ArgsPos := by
    cases o <;> trivial
  have hok := index_stepOK (ix := .at i) hwf hp (agood_congr hs.symm trivial)
    (legal_congr hs.symm (by exact ⟨hz, inB_of_legal.2 hi⟩))
  rcases hok with ⟨o', h, _⟩ | h
  · have st := (index_step hwf h).congr hs
    exact ⟨o', h, st.wf, st.same⟩
  · exfalso
    cases o with
    | elem p =>
      have hs : SameView ⟨[], fun _ => p⟩ v := hs
      have := hs.1
      simp only at this
      rw [← this] at hi; simp at hi
    | proxy off m args => exact hs.elim
    | everyProxy off ext M => exact hs.elim
    | cref off ext =>
      have hs : SameView (contig off ext) v := hs
      have he : ext = v.ext := hs.1
      simp only [Obj.index, crefIndex, he, hi, decide_true, dbg_any_true, res_ok_bind] at h
      split at h
      · cases h
      · next hl =>
        rw [mk'_ok hz, res_ok_bind, discard_complete (canon_WF (he ▸ hwf) fun _ => hz) hl] at h
        cases h
    | sref off m =>
      have hs : SameView (m.aview off) v := hs
      have he : m.desc.ext = v.ext := by rw [← hs.1, Mapper.aview_ext]
      rw [← he] at hi
      obtain ⟨o', ho⟩ := arrayAtIdx_complete (off := off) hwf hi
      have h : arrayAtIdx Arith.exact true off m i = .error .illFormed := h
      rw [ho] at h; cases h

theorem run_at_ok : ∀ {i : List Nat} {o : Obj} {v : AView}, o.WF → SameObj o.abs (.view v) →
    InB v.ext i → o.run Arith.exact true (i.map .at) = .ok (.elem (v.pos i))
  | [], o, v, hwf, hs, hi => by
    have he : v.ext = [] := by
      cases h : v.ext with
      | nil => rfl
      | cons => rw [h] at hi; exact hi.elim
    cases o with
    | elem p =>
      have hs : SameView ⟨[], fun _ => p⟩ v := hs
      simp [Obj.run, ← hs.2 [] (by simp)]
    | proxy off m args => exact hs.elim
    | everyProxy off ext M => exact hs.elim
    | cref off ext =>
      have hs : SameView (contig off ext) v := hs
      exact absurd (hs.1.trans he) hwf
    | sref off m =>
      have hs : SameView (m.aview off) v := hs
      have := hs.1.trans he
      rw [Mapper.aview_ext] at this
      exact absurd this (Mapper.WF.desc hwf).2.1
  | a :: is, o, v, hwf, hs, hi => by
    have hz : ∀ x ∈ v.ext, x ≠ 0 := prod_pos_iff.1 (inB_prod_pos hi)
    cases he : v.ext with
    | nil => rw [he] at hi; exact hi.elim
    | cons e es =>
      rw [he] at hi
      obtain ⟨o', h1, h2, h3⟩ := index_at_ok hwf hs hz (i := a) (by rw [he]; exact hi.1)
      have := run_at_ok (i := is) h2 h3 (by simp only [fixFirst, he]; exact hi.2)
      simp only [Obj.run, List.map_cons, List.foldlM_cons, h1, res_ok_bind]
      exact this

theorem inferStrides_assert : ∀ {e : List Nat} {t : Nat}, (∃ x ∈ e, x = 0) →
    inferStrides Arith.exact true e t = .error .assert
  | [], _, h => by simp at h
  | a :: e, t, h => by
    by_cases ha : a = 0
    · subst ha; simp [inferStrides, dbg]
    · have : ∃ x ∈ e, x = 0 := by
        obtain ⟨x, hx, h0⟩ := h
        rcases List.mem_cons.1 hx with rfl | hx
        · exact absurd h0 ha
        · exact ⟨x, hx, h0⟩
      have hr := inferStrides_assert (t := t * a) this
      have ha' : (a != 0) = true := by simpa using ha
      simp [inferStrides, ha', hr]

theorem index_at_reject {o : Obj} {v : AView} {i : Nat} (hwf : o.WF) (hs : SameObj o.abs (.view v))
    (hne : v.ext ≠ []) (h : ¬ (i < v.ext.headD 0 ∧ (∀ x ∈ v.ext, x ≠ 0))) :
    o.index Arith.exact true (.at i) = .error .assert := by
  cases o with
  | elem p =>
    have hs : SameView ⟨[], fun _ => p⟩ v := hs
    exact absurd hs.1.symm hne
  | proxy off m args => exact hs.elim
  | everyProxy off ext M => exact hs.elim
  | cref off ext =>
    have hs : SameView (contig off ext) v := hs
    have he : ext = v.ext := hs.1
    subst he
    by_cases hi : i < v.ext.headD 0
    · have hz : ∃ x ∈ v.ext, x = 0 := by
        apply Classical.byContradiction
        intro hc
        exact h ⟨hi, fun x hx h0 => hc ⟨x, hx, h0⟩⟩
      simp only [Obj.index, crefIndex, hi, decide_true, dbg_any_true, res_ok_bind]
      split
      · next hl =>
        obtain ⟨e, he⟩ := List.length_eq_one_iff.1 hl
        obtain ⟨x, hx, rfl⟩ := hz
        rw [he] at hx hi
        simp at hx hi
        omega
      · next hl =>
        have : SDesc.mk' Arith.exact true i v.ext = .error .assert := by
          unfold SDesc.mk'
          split
          · next e he => rw [he] at hl; simp at hl
          · rw [inferStrides_assert hz]; rfl
        rw [this]; rfl
    · simp only [Obj.index, crefIndex, hi, decide_false, dbg_true_false, res_error_bind]
  | sref off m =>
    have hs : SameView (m.aview off) v := hs
    have he : m.desc.ext = v.ext := by rw [← hs.1, Mapper.aview_ext]
    have hwf : m.WF := hwf
    have hi : ¬ i < m.desc.ext.headD 0 := by
      intro hi
      apply h
      rw [← he]
      refine ⟨hi, ?_⟩
      by_cases hl : m.desc.ext.length = 1
      · obtain ⟨e, hx⟩ := List.length_eq_one_iff.1 hl
        rw [hx] at hi ⊢
        simp at hi ⊢; omega
      · exact hwf.desc.2.2.2 hl
    simp only [Obj.index, srefIndex, arrayAtIdx, hi, decide_false, dbg_true_false, res_error_bind]

theorem run_at_reject : ∀ {i : List Nat} {o : Obj} {v : AView}, o.WF → SameObj o.abs (.view v) →
    i.length = v.ext.length → ¬ InB v.ext i → o.run Arith.exact true (i.map .at) = .error .assert
  | [], o, v, _, _, hl, hi => by
    have : v.ext = [] := List.length_eq_zero_iff.1 hl.symm
    rw [this] at hi
    exact absurd trivial hi
  | a :: is, o, v, hwf, hs, hl, hi => by
    cases he : v.ext with
    | nil => rw [he] at hl; simp at hl
    | cons e es =>
      by_cases h : a < v.ext.headD 0 ∧ (∀ x ∈ v.ext, x ≠ 0)
      · obtain ⟨o', h1, h2, h3⟩ := index_at_ok hwf hs h.2 h.1
        have := run_at_reject (i := is) h2 h3 (by simp [fixFirst, he] at hl ⊢; exact hl) (by
          intro hc
          apply hi
          simp only [fixFirst, he, List.tail_cons] at hc
          have := h.1
          rw [he] at this ⊢
          exact ⟨this, hc⟩)
        simp only [Obj.run, List.map_cons, List.foldlM_cons, h1, res_ok_bind]
        exact this
      · have := index_at_reject hwf hs (by simp [he]) h
        simp only [Obj.run, List.map_cons, List.foldlM_cons, this, res_error_bind]

theorem observes {o : Obj} {v : AView} (hwf : o.WF) (hs : SameObj o.abs (.view v)) : Observes o v := by
  refine ⟨?_, ?_, fun i hi => run_at_ok hwf hs hi, fun i hl hi => run_at_reject hwf hs hl hi⟩
  · cases o with
    | elem p => exact hs.1
    | cref off ext => exact hs.1
    | sref off m =>
      have := hs.1
      rw [Mapper.aview_ext] at this
      exact this
    | proxy off m args => exact hs.elim
    | everyProxy off ext M => exact hs.elim
  · cases hab : o.abs with
    | part w t => rw [hab] at hs; exact hs.elim
    | view w =>
      rw [hab] at hs
      rw [positions_enum hwf hab]
      exact congrArg _ (SameView.enum hs)

theorem arrayView_same (off : Nat) (e : List Nat) : SameView (contig off e) (arrayView off e) :=
  ⟨rfl, fun i hi => by
    have hi : InB e i := hi
    simp [contig, arrayView, cmPos_eq_sum (inB_length hi)]⟩

theorem sameObj_view {a : AObj} {v : AView} (h : SameObj a (.view v)) : ∃ w, a = .view w ∧ SameView w v := by
  cases a with
  | view w => exact ⟨w, rfl, h⟩
  | part w t => exact h.elim

/-- Everything an accepted history tells us. -/
theorem run_meaning {off : Nat} {e : List Nat} {h : List Ix} {o : Obj} (hne : e ≠ [])
    (hr : (Obj.cref off e).run Arith.exact true h = .ok o) :
    o.WF ∧ SameObj o.abs (meaning off e h) ∧ AdmAll (.view (arrayView off e)) h := by
  obtain ⟨w, s, a⟩ := run_refines (o := .cref off e) hne hr
  have := foldl_astep_congr (a := (Obj.cref off e).abs) (b := .view (arrayView off e)) (arrayView_same off e) a
  exact ⟨w, s.trans this.1, this.2⟩

theorem viewOf_wf {e : List Nat} {h : List Ix} {o : Obj} {v : AView} (hv : ViewOf e h o v) :
    o.WF ∧ SameObj o.abs (.view v) := by
  obtain ⟨h1, h2, h3⟩ := hv
  obtain ⟨w, s, _⟩ := run_meaning h1 h2
  rw [h3] at s
  exact ⟨w, s⟩

/-- The meaning of a complete chain that does not start with a plain index. -/
theorem foldl_part {v : AView} : ∀ {ixs : List Ix} {sels : List (List Nat)}, ixs ≠ [] →
    sels.length + ixs.length = v.ext.length →
    ixs.foldl astep (.part v sels) =
      .view (restrict v (sels ++ List.zipWith sel (v.ext.drop sels.length) ixs))
  | [], _, h, _ => absurd rfl h
  | [ix], sels, _, hl => by
    have hl : sels.length + 1 = v.ext.length := hl
    have : v.ext.drop sels.length = [v.ext.getD sels.length 0] := by
      rw [List.drop_eq_getElem_cons (by omega), List.drop_eq_nil_of_le (by omega),
        List.getD_eq_getElem?_getD, List.getElem?_eq_getElem (by omega)]; rfl
    rw [this]
    simp [astep, close, hl]
  | ix :: ix2 :: ixs, sels, _, hl => by
    have hl : sels.length + (ixs.length + 2) = v.ext.length := hl
    have hstep : astep (.part v sels) ix = .part v (sels ++ [sel (v.ext.getD sels.length 0) ix]) := by
      simp only [astep, close]
      rw [if_neg (by simp; omega)]
    rw [List.foldl_cons, hstep, foldl_part (by simp) (by simp; omega)]
    have h0 : v.ext.getD sels.length 0 = v.ext[sels.length] := by
      rw [List.getD_eq_getElem?_getD, List.getElem?_eq_getElem (by omega)]; rfl
    rw [List.drop_eq_getElem_cons (i := sels.length) (by omega), h0, List.zipWith_cons_cons,
      List.append_assoc, List.singleton_append, List.length_append, List.length_singleton]

theorem foldl_view {v : AView} {ix : Ix} {ixs : List Ix} (hx : ∀ i, ix ≠ .at i)
    (hl : (ix :: ixs).length = v.ext.length) :
    (ix :: ixs).foldl astep (.view v) = .view (restrict v (List.zipWith sel v.ext (ix :: ixs))) := by
  rw [List.foldl_cons, astep_view_notAt hx]
  cases he : v.ext with
  | nil => rw [he] at hl; simp at hl
  | cons e es =>
    rw [he] at hl
    cases ixs with
    | nil =>
      have : es = [] := by simpa using hl.symm
      subst this
      simp [close, he]
    | cons i2 is =>
      have hc : close v [sel (List.headD (e :: es) 0) ix] = .part v [sel e ix] := by
        unfold close
        rw [if_neg (by rw [he, ← hl]; simp)]
        rfl
      rw [hc, foldl_part (by simp) (by rw [he, ← hl]; simp; omega), he]
      simp

theorem run_append {A : Arith} {chk : Bool} {o : Obj} {h k : List Ix} :
    o.run A chk (h ++ k) = o.run A chk h >>= fun o' => o'.run A chk k := by
  simp [Obj.run, List.foldlM_append]

end Jules

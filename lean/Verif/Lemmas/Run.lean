import Verif.Lemmas.Objects
/-
Histories of `operator[]`.
-/
namespace Jules
open Spec

/-- Every step of the history is admissible. -/
def AdmAll : AObj → List Ix → Prop
  | _, [] => True
  | a, ix :: h => Admissible a ix ∧ AdmAll (astep a ix) h

theorem foldl_astep_congr : ∀ {h : List Ix} {a b : AObj}, SameObj a b → AdmAll a h →
    SameObj (h.foldl astep a) (h.foldl astep b) ∧ AdmAll b h
  | [], _, _, hs, _ => ⟨hs, trivial⟩
  | _ :: _, _, _, hs, ⟨h1, h2⟩ =>
    have hs' := astep_congr hs h1
    have := foldl_astep_congr hs' h2
    ⟨this.1, admissible_congr hs h1, this.2⟩

theorem run_refines : ∀ {h : List Ix} {o o' : Obj}, o.WF → o.run Arith.exact true h = .ok o' →
    o'.WF ∧ SameObj o'.abs (h.foldl astep o.abs) ∧ AdmAll o.abs h
  | [], o, o', hwf, hr => by
    simp only [Obj.run, List.foldlM_nil, res_pure, Except.ok.injEq] at hr
    subst hr
    exact ⟨hwf, SameObj.refl _, trivial⟩
  | ix :: h, o, o', hwf, hr => by
    simp only [Obj.run, List.foldlM_cons, res_bind_ok] at hr
    obtain ⟨o1, h1, h2⟩ := hr
    have st := index_step hwf h1
    obtain ⟨w, s, a⟩ := run_refines st.wf h2
    have := foldl_astep_congr st.same a
    exact ⟨w, s.trans this.1, st.adm, this.2⟩

/-- All positions of the meaning are below `n`. -/
def Bounded (n : Nat) : AObj → Prop
  | .view v => ∀ i, InB v.ext i → v.pos i < n
  | .part v _ => ∀ i, InB v.ext i → v.pos i < n

theorem bounded_congr {n : Nat} {a b : AObj} (h : SameObj a b) (hb : Bounded n a) : Bounded n b := by
  cases a with
  | view v =>
    cases b with
    | view w =>
        intro i hi
        have h : SameView v w := h
        have hb : ∀ i, InB v.ext i → v.pos i < n := hb
        rw [← h.2 i (by rw [h.1]; exact hi)]; exact hb i (by rw [h.1]; exact hi)
    | part w t => exact h.elim
  | part v s =>
    cases b with
    | view w => exact h.elim
    | part w t =>
        intro i hi
        have h : SameView v w ∧ s = t := h
        have hb : ∀ i, InB v.ext i → v.pos i < n := hb
        rw [← h.1.2 i (by rw [h.1.1]; exact hi)]; exact hb i (by rw [h.1.1]; exact hi)

theorem bounded_close {n : Nat} {v : AView} {sels : List (List Nat)}
    (hb : ∀ i, InB v.ext i → v.pos i < n)
    (hi : sels.length = v.ext.length → selsInside v.ext sels) : Bounded n (close v sels) := by
  unfold close
  split
  · next hl =>
    intro j hj
    exact hb _ (inside_choose (selsInside_inside hl (hi hl)) hj)
  · exact hb

theorem bounded_astep {n : Nat} {a : AObj} {ix : Ix} (hb : Bounded n a) (ha : Admissible a ix) :
    Bounded n (astep a ix) := by
  cases a with
  | view v =>
    by_cases hx : ∃ i, ix = .at i
    · obtain ⟨i, rfl⟩ := hx
      intro t ht
      have ht : InB v.ext.tail t := ht
      have ha : i < v.ext.headD 0 := ha
      apply hb
      cases he : v.ext with
      | nil => simp [he] at ha
      | cons e es => rw [he] at ha ht; exact ⟨ha, ht⟩
    · have hx : ∀ i, ix ≠ .at i := fun i hi => hx ⟨i, hi⟩
      rw [astep_view_notAt hx]
      exact bounded_close hb fun hl => (admissible_view_notAt hx).1 ha (by simpa using hl.symm)
  | part v s =>
    simp only [astep]
    exact bounded_close hb fun hl => ha (by simpa using hl)

theorem bounded_run {n : Nat} : ∀ {h : List Ix} {a : AObj}, Bounded n a → AdmAll a h →
    Bounded n (h.foldl astep a)
  | [], _, hb, _ => hb
  | ix :: h, a, hb, ⟨h1, h2⟩ => by
    have := bounded_run (h := h) (a := astep a ix) (bounded_astep hb h1) h2
    exact this

theorem bounded_root (off : Nat) (e : List Nat) : Bounded (off + prod e) (Obj.cref off e).abs := by
  intro i hi
  have := cmPos_lt hi
  simp only [contig] at *
  omega

theorem cart_nil_mem : ∀ {ls : List (List α)}, [] ∈ ls → cart ls = []
  | l :: ls, h => by
    rcases List.mem_cons.1 h with h | h
    · subst h; simp [cart]
    · simp [cart, cart_nil_mem h]

/-- Iterating a well-formed object visits the enumeration of its meaning. -/
theorem positions_enum {o : Obj} (hwf : o.WF) {v : AView} (hv : o.abs = .view v) :
    o.positions Arith.exact = .ok v.enum := by
  cases o with
  | elem p => cases hv; simp [Obj.positions, AView.enum, multiIdx, cart]
  | cref off ext =>
    cases hv
    simp only [Obj.positions, AView.enum, contig, prodL_exact, Except.ok.injEq]
    rw [← multiIdx_map_cmPos, List.map_map]
    rfl
  | sref off m =>
    cases hv
    cases m with
    | ident d =>
      have hwf : d.WF := hwf
      simp only [Obj.positions, positions_spec hwf.iterOK (iterFuel_lt d), res_ok_bind, Except.ok.injEq]
      rw [List.map_map]
      simp [AView.enum, Mapper.aview, Function.comp_def]
    | vec d idx =>
      obtain ⟨hc, hw, hlen⟩ := hwf
      simp only [Obj.positions, AView.enum, Mapper.aview, Except.ok.injEq]
      have : (multiIdx d.ext).map (fun i => off + idx.getD (cmPos d.ext i) 0)
          = ((multiIdx d.ext).map (cmPos d.ext)).map fun k => off + idx.getD k 0 := by
        rw [List.map_map]; rfl
      rw [this, multiIdx_map_cmPos, ← hlen]
      apply List.ext_getElem?
      intro k
      simp only [List.getElem?_map, Arith.exact_add]
      rcases Nat.lt_or_ge k idx.length with hk | hk
      · simp [hk]
      · simp [hk]
  | proxy off m args => cases hv
  | everyProxy off ext M => cases hv

end Jules

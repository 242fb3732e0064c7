import Verif.Lemmas.Bounded
/-
Every checked application of `operator[]` refines the abstract step.
-/
namespace Jules
open Spec

theorem Spec.SameView.refl (v : AView) : SameView v v := ⟨rfl, fun _ _ => rfl⟩

theorem Spec.SameView.symm {v w : AView} (h : SameView v w) : SameView w v :=
  ⟨h.1.symm, fun i hi => (h.2 i (by rw [h.1]; exact hi)).symm⟩

theorem Spec.SameView.trans {u v w : AView} (h : SameView u v) (k : SameView v w) : SameView u w :=
  ⟨h.1.trans k.1, fun i hi => (h.2 i hi).trans (k.2 i (by rw [← h.1]; exact hi))⟩

theorem Spec.SameView.enum {v w : AView} (h : SameView v w) : v.enum = w.enum := by
  unfold AView.enum
  rw [← h.1]
  exact List.map_congr_left fun i hi => h.2 i (mem_multiIdx.1 hi)

theorem restrict_congr {v w : AView} {sels : List (List Nat)} (h : SameView v w)
    (hi : Inside v.ext sels) : SameView (restrict v sels) (restrict w sels) :=
  ⟨rfl, fun _ hj => h.2 _ (inside_choose hi hj)⟩

theorem fixFirst_congr {v w : AView} {i : Nat} (h : SameView v w) (hi : i < v.ext.headD 0) :
    SameView (fixFirst v i) (fixFirst w i) := by
  refine ⟨by simp [fixFirst, h.1], fun t ht => h.2 _ ?_⟩
  have ht : InB v.ext.tail t := ht
  cases he : v.ext with
  | nil => simp [he] at hi
  | cons e es => rw [he] at ht hi; exact ⟨hi, ht⟩

theorem Spec.SameObj.refl (a : AObj) : SameObj a a := by
  cases a with
  | view v => exact SameView.refl v
  | part v s => exact ⟨SameView.refl v, rfl⟩

theorem Spec.SameObj.symm {a b : AObj} (h : SameObj a b) : SameObj b a := by
  cases a <;> cases b
  · exact SameView.symm h
  · exact h.elim
  · exact h.elim
  · exact ⟨SameView.symm h.1, h.2.symm⟩

theorem Spec.SameObj.trans {a b c : AObj} (h : SameObj a b) (k : SameObj b c) : SameObj a c := by
  cases a <;> cases b <;> cases c <;> first | exact h.elim | exact k.elim | skip
  · exact SameView.trans h k
  · exact ⟨SameView.trans h.1 k.1, h.2.trans k.2⟩

theorem close_congr {v w : AView} {sels : List (List Nat)} (h : SameView v w)
    (hi : sels.length = v.ext.length → selsInside v.ext sels) :
    SameObj (close v sels) (close w sels) := by
  unfold close
  rw [← h.1]
  split
  · next hl => exact restrict_congr h (selsInside_inside hl (hi hl))
  · exact ⟨h, rfl⟩

theorem astep_view_notAt {v : AView} {ix : Ix} (h : ∀ i, ix ≠ .at i) :
    astep (.view v) ix = close v [sel (v.ext.headD 0) ix] := by
  cases ix <;> simp [astep] at h ⊢

theorem admissible_view_notAt {v : AView} {ix : Ix} (h : ∀ i, ix ≠ .at i) :
    Admissible (.view v) ix ↔ (v.ext.length = 1 → selsInside v.ext [sel (v.ext.headD 0) ix]) := by
  cases ix <;> simp [Admissible] at h ⊢

theorem astep_congr {a b : AObj} {ix : Ix} (h : SameObj a b) (ha : Admissible a ix) :
    SameObj (astep a ix) (astep b ix) := by
  cases a with
  | view v =>
    cases b with
    | part w t => exact h.elim
    | view w =>
      have h : SameView v w := h
      by_cases hx : ∃ i, ix = .at i
      · obtain ⟨i, rfl⟩ := hx
        exact fixFirst_congr h ha
      · have hx : ∀ i, ix ≠ .at i := fun i hi => hx ⟨i, hi⟩
        rw [astep_view_notAt hx, astep_view_notAt hx, ← h.1]
        exact close_congr h fun hl => (admissible_view_notAt hx).1 ha (by simpa using hl.symm)
  | part v s =>
    cases b with
    | view w => exact h.elim
    | part w t =>
      obtain ⟨h1, rfl⟩ := h
      simp only [astep]
      rw [← h1.1]
      exact close_congr h1 fun hl => ha (by simpa using hl)

theorem admissible_congr {a b : AObj} {ix : Ix} (h : SameObj a b) (ha : Admissible a ix) :
    Admissible b ix := by
  cases a with
  | view v =>
    cases b with
    | part w t => exact h.elim
    | view w =>
      have h : SameView v w := h
      by_cases hx : ∃ i, ix = .at i
      · obtain ⟨i, rfl⟩ := hx
        simp only [Admissible] at ha ⊢
        rw [← h.1]; exact ha
      · have hx : ∀ i, ix ≠ .at i := fun i hi => hx ⟨i, hi⟩
        rw [admissible_view_notAt hx] at ha ⊢
        rw [← h.1]; exact ha
  | part v s =>
    cases b with
    | view w => exact h.elim
    | part w t =>
      obtain ⟨h1, rfl⟩ := h
      simp only [Admissible] at ha ⊢
      rw [← h1.1]; exact ha

/-- The refinement statement for one step from `o` whose meaning is `a`. -/
structure Step (a : AObj) (ix : Ix) (o' : Obj) : Prop where
  wf : o'.WF
  same : SameObj o'.abs (astep a ix)
  adm : Admissible a ix

theorem Step.congr {a b : AObj} {ix : Ix} {o' : Obj} (h : Step a ix o') (hab : SameObj a b) :
    Step b ix o' :=
  ⟨h.wf, h.same.trans (astep_congr hab h.adm), admissible_congr hab h.adm⟩

theorem Step.congr_sel_part {v : AView} {s : List (List Nat)} {ix ix' : Ix} {o' : Obj}
    (h : Step (.part v s) ix o')
    (he : sel (v.ext.getD s.length 0) ix = sel (v.ext.getD s.length 0) ix') :
    Step (.part v s) ix' o' := by
  obtain ⟨h1, h2, h3⟩ := h
  simp only [astep, Admissible] at h2 h3
  rw [he] at h2 h3
  exact ⟨h1, h2, h3⟩

theorem Step.congr_sel_view {v : AView} {ix ix' : Ix} {o' : Obj}
    (h : Step (.view v) ix o') (hx : ∀ i, ix ≠ .at i) (hx' : ∀ i, ix' ≠ .at i)
    (he : sel (v.ext.headD 0) ix = sel (v.ext.headD 0) ix') : Step (.view v) ix' o' := by
  obtain ⟨h1, h2, h3⟩ := h
  rw [astep_view_notAt hx, he] at h2
  rw [admissible_view_notAt hx, he] at h3
  exact ⟨h1, by rw [astep_view_notAt hx']; exact h2, (admissible_view_notAt hx').2 h3⟩

/-! ### Strided views -/

theorem discard_ok {d n : SDesc} (h : d.discard = .ok n) :
    n.start = d.start ∧ n.ext = d.ext.tail ∧ n.strides = d.strides.tail ∧ n.ext ≠ [] ∧ n.strides ≠ [] ∧
      2 ≤ d.ext.length := by
  unfold SDesc.discard at h
  split at h
  · next he hs => cases h; simp [he, hs]
  · cases h

theorem ext_cons {d : SDesc} (h : d.WF) : ∃ e es t ts, d.ext = e :: es ∧ d.strides = t :: ts := by
  obtain ⟨h1, h2, _⟩ := h
  cases he : d.ext with
  | nil => exact absurd he h2
  | cons e es =>
    cases hs : d.strides with
    | nil => rw [he, hs] at h1; simp at h1
    | cons t ts => exact ⟨e, es, t, ts, rfl, rfl⟩

theorem arrayAtIdx_step {off : Nat} {m : Mapper} {i : Nat} {o : Obj} (hm : m.WF)
    (h : arrayAtIdx Arith.exact true off m i = .ok o) : Step (.view (m.aview off)) (.at i) o := by
  unfold arrayAtIdx at h
  simp only [res_bind_ok, dbg_ok] at h
  obtain ⟨_, h1, h2⟩ := h
  have hi : i < m.desc.ext.headD 0 := by simpa using h1
  obtain ⟨e, es, t, ts, hext, hstr⟩ := ext_cons hm.desc
  have hie : i < e := by simpa [hext] using hi
  by_cases hl : m.desc.ext.length = 1
  · rw [if_pos hl] at h2
    have hes : es = [] := by rw [hext] at hl; simpa using hl
    subst hes
    simp only [res_bind_ok, Except.ok.injEq] at h2
    obtain ⟨p, h2, rfl⟩ := h2
    refine ⟨trivial, ?_, by simpa [Admissible] using hi⟩
    refine ⟨by simp [fixFirst, hext], ?_⟩
    intro j hj
    have hj : j = [] := by simpa using hj
    subst hj
    cases m with
    | ident d =>
      simp only [Mapper.map, Except.ok.injEq] at h2
      subst h2
      simp [fixFirst, Mapper.aview, Mapper.desc]
    | vec d idx =>
      obtain ⟨_, rfl⟩ := vec_map_ok.1 h2
      obtain ⟨hc, _, _⟩ := hm
      simp only [Mapper.desc] at hext hstr ⊢
      simp only [fixFirst, Mapper.aview, Arith.exact_add]
      rw [hc, canon_pos (by simp [hext])]
      simp [canon]
  · rw [if_neg hl] at h2
    simp only [res_bind_ok, Except.ok.injEq] at h2
    obtain ⟨m', h2, rfl⟩ := h2
    cases m with
    | ident d =>
      simp only [Mapper.dropFirst, res_bind_ok, Except.ok.injEq, Arith.exact_add, Arith.exact_mul] at h2
      obtain ⟨n, h3, rfl⟩ := h2
      obtain ⟨n1, n2, n3, n4, n5, n6⟩ := discard_ok h3
      simp only [Mapper.desc] at hext hstr hl
      obtain ⟨w1, w2, w3, w4⟩ := hm
      refine ⟨⟨?_, n4, ?_, ?_⟩, ⟨?_, ?_⟩, by simpa [Admissible] using hi⟩
      · simp [n2, n3, w1]
      · intro x hx
        rw [n3] at hx; exact w3 x (List.mem_of_mem_tail hx)
      · intro _ x hx
        rw [n2] at hx; exact w4 hl x (List.mem_of_mem_tail hx)
      · simp [fixFirst, Mapper.aview, n2]
      · intro j hj
        simp only [Mapper.aview, fixFirst]
        rw [n3, hstr]
        simp only [List.headD_cons, List.tail_cons, dotP]
        rw [Nat.mul_comm i t]; omega
    | vec d idx =>
      simp only [Mapper.dropFirst, inNoexcept_exact, res_bind_ok, Arith.exact_add] at h2
      obtain ⟨n, h3, ps, h4, idx', h5, h6⟩ := h2
      obtain ⟨n1, n2, n3, n4, n5, n6⟩ := discard_ok h3
      obtain ⟨hc, hw, hlen⟩ := hm
      simp only [Mapper.desc] at hext hstr hl
      obtain ⟨w1, w2, w3, w4⟩ := hw
      have hnwf : ({ n with start := d.start + i } : SDesc).WF := by
        refine ⟨?_, n4, ?_, ?_⟩
        · simp [n2, n3, w1]
        · intro x hx
          have hx : x ∈ n.strides := hx
          rw [n3] at hx; exact w3 x (List.mem_of_mem_tail hx)
        · intro _ x hx
          have hx : x ∈ n.ext := hx
          rw [n2] at hx; exact w4 hl x (List.mem_of_mem_tail hx)
      rw [positions_spec hnwf.iterOK (iterFuel_lt _)] at h4
      simp only [Except.ok.injEq] at h4
      subst h4
      obtain ⟨_, rfl⟩ := vec_mapAll_ok.1 h5
      obtain ⟨rfl, l1, l2⟩ := mkVec_exact.1 h6
      have hnext : n.ext = es := by rw [n2, hext]; rfl
      have hnstr : n.strides = cmStrides es e := by
        rw [n3, hc]
        simp [canon, hext, cmStrides]
      refine ⟨⟨rfl, canon_WF n4 l2, l1⟩, ⟨?_, ?_⟩, by simpa [Admissible] using hi⟩
      · simp [fixFirst, Mapper.aview, canon, n2]
      · intro j hj
        have hj : InB n.ext j := hj
        rw [List.map_map]
        rw [aview_vec hj]
        have hd0 : d.start = 0 := by rw [hc]; rfl
        rw [hnext] at hj
        simp only [Function.comp_def, sdesc_pos_exact, fixFirst, Mapper.aview, hnstr, hext, cmPos, hd0]
        rw [dotP_cmStrides _ _ _ (inB_length hj)]
        simp

theorem step_close {off : Nat} {m : Mapper} {args : List Arg} {o : Obj} (hm : m.WF)
    (h : arraySlice Arith.exact true off m args = .ok o) :
    o.WF ∧ SameObj o.abs (close (m.aview off) (args.map Arg.sel)) ∧
      selsInside m.desc.ext (args.map Arg.sel) := by
  obtain ⟨⟨m', rfl, hw, hs⟩, hi⟩ := arraySlice_sound hm h
  refine ⟨hw, ?_, inside_selsInside hi⟩
  unfold close
  rw [if_pos (by simp [inside_map_length_eq hi])]
  exact hs

theorem arrayAtArg_step {off : Nat} {m : Mapper} {a : Arg} {ix : Ix} {o : Obj} (hm : m.WF)
    (hx : ∀ i, ix ≠ .at i) (ha : a.sel = sel (m.desc.ext.headD 0) ix)
    (h : arrayAtArg Arith.exact true off m a = .ok o) : Step (.view (m.aview off)) ix o := by
  unfold arrayAtArg at h
  split at h
  · next hl =>
    obtain ⟨h1, h2, h3⟩ := step_close hm h
    refine ⟨h1, ?_, ?_⟩
    · rw [astep_view_notAt hx, Mapper.aview_ext, ← ha]; exact h2
    · rw [admissible_view_notAt hx, Mapper.aview_ext, ← ha]; exact fun _ => h3
  · next hl =>
    simp only [Except.ok.injEq] at h
    subst h
    have hne : m.desc.ext.length ≠ 0 := fun h0 => hm.desc.2.1 (List.length_eq_zero_iff.1 h0)
    refine ⟨⟨hm, by simp, by simp; omega⟩, ?_, ?_⟩
    · rw [astep_view_notAt hx, Mapper.aview_ext, ← ha]
      unfold close
      rw [if_neg (by rw [Mapper.aview_ext]; simpa using fun h => hl h.symm)]
      exact ⟨SameView.refl _, rfl⟩
    · rw [admissible_view_notAt hx, Mapper.aview_ext]
      exact fun h => absurd h hl

theorem choose_range_single {e j : Nat} (h : j < e) : (List.range e).getD j 0 = j := by
  simp [List.getD_eq_getElem?_getD, h]

theorem choose_ranges_append : ∀ {es : List Nat} {js : List Nat} {l : List Nat} {k : Nat}, InB es js →
    choose (es.map List.range ++ [l]) (js ++ [k]) = js ++ [l.getD k 0]
  | [], js, l, k, h => by simp at h; subst h; simp [choose]
  | e :: es, js, l, k, h => by
    obtain ⟨a, as, rfl, ha, has⟩ := inB_cons.1 h
    simp only [List.map_cons, List.cons_append, choose, choose_ranges_append has]
    rw [choose_range_single ha]

/-- Restricting every dimension to itself gives the same view. -/
theorem restrict_ranges (v : AView) : SameView (restrict v (v.ext.map List.range)) v := by
  refine ⟨by simp [restrict, Function.comp_def], ?_⟩
  intro j hj
  have hj : InB v.ext j := by simpa [restrict, Function.comp_def] using hj
  simp [restrict, choose_range hj]

theorem srefIndex_step {off : Nat} {m : Mapper} {ix : Ix} {o : Obj} (hm : m.WF)
    (h : srefIndex Arith.exact true off m ix = .ok o) : Step (.view (m.aview off)) ix o := by
  cases ix with
  | «at» i => exact arrayAtIdx_step hm h
  | slice s x => exact arrayAtArg_step hm (by simp) (sel_slice _ _ _) h
  | strided s x t => exact arrayAtArg_step hm (by simp) rfl h
  | rng l => exact arrayAtArg_step hm (by simp) rfl h
  | bounded s mx => exact arrayAtArg_step hm (by simp) (sel_bounded _ _ _) h
  | boundedStrided s mx t =>
    simp only [srefIndex, res_bind_ok] at h
    obtain ⟨x, h1, h2⟩ := h
    exact arrayAtArg_step hm (by simp) (sel_boundedStrided h1) h2
  | every =>
    simp only [srefIndex, Except.ok.injEq, arrayAtEvery] at h
    subst h
    have hne : m.desc.ext.length ≠ 0 := fun h0 => hm.desc.2.1 (List.length_eq_zero_iff.1 h0)
    by_cases hl : m.desc.ext.length = 1
    · rw [if_pos hl]
      obtain ⟨e, he⟩ := List.length_eq_one_iff.1 hl
      refine ⟨hm, ?_, ?_⟩
      · rw [astep_view_notAt (by simp), Mapper.aview_ext]
        unfold close
        rw [if_pos (by rw [Mapper.aview_ext, hl]; rfl)]
        have := restrict_ranges (m.aview off)
        rw [Mapper.aview_ext, he] at this
        simp only [he]
        exact this.symm
      · rw [admissible_view_notAt (by simp), Mapper.aview_ext]
        intro _ k l x hk hx i hi
        rw [he] at hk hx
        cases k with
        | zero =>
          simp [sel] at hk hx
          subst hk hx
          simpa using hi
        | succ k => simp at hk
    · rw [if_neg hl]
      refine ⟨⟨hm, by simp, by simp; omega⟩, ?_, ?_⟩
      · rw [astep_view_notAt (by simp), Mapper.aview_ext, ← sel_every]
        unfold close
        rw [if_neg (by rw [Mapper.aview_ext]; simpa using fun h => hl h.symm)]
        exact ⟨SameView.refl _, rfl⟩
      · rw [admissible_view_notAt (by simp), Mapper.aview_ext]
        exact fun h => absurd h hl

/-! ### Proxies -/

theorem proxyAt_step {off : Nat} {m : Mapper} {args : List Arg} {a : Arg} {ix : Ix} {o : Obj}
    (hm : m.WF) (hl : args.length < m.desc.ext.length)
    (ha : a.sel = sel (m.desc.ext.getD args.length 0) ix)
    (h : proxyAt Arith.exact true off m args a = .ok o) :
    Step (.part (m.aview off) (args.map Arg.sel)) ix o := by
  unfold proxyAt at h
  split at h
  · next hlen =>
    obtain ⟨h1, h2, h3⟩ := step_close hm h
    refine ⟨h1, ?_, ?_⟩
    · simp only [astep]
      rw [Mapper.aview_ext, List.length_map, ← ha]
      simpa using h2
    · simp only [Admissible]
      rw [Mapper.aview_ext, List.length_map, ← ha]
      intro _; simpa using h3
  · next hlen =>
    simp only [Except.ok.injEq] at h
    subst h
    refine ⟨⟨hm, by simp, by simp; omega⟩, ?_, ?_⟩
    · simp only [astep]
      rw [Mapper.aview_ext, List.length_map, ← ha]
      unfold close
      rw [if_neg (by rw [Mapper.aview_ext]; simp; omega)]
      exact ⟨SameView.refl _, by simp⟩
    · simp only [Admissible]
      rw [Mapper.aview_ext, List.length_map]
      intro h; omega

theorem proxyIndex_step {off : Nat} {m : Mapper} {args : List Arg} {ix : Ix} {o : Obj}
    (hm : m.WF) (hl : args.length < m.desc.ext.length)
    (h : proxyIndex Arith.exact true off m args ix = .ok o) :
    Step (.part (m.aview off) (args.map Arg.sel)) ix o := by
  cases ix with
  | «at» i => exact proxyAt_step hm hl rfl h
  | slice s x => exact proxyAt_step hm hl (sel_slice _ _ _) h
  | strided s x t => exact proxyAt_step hm hl rfl h
  | rng l => exact proxyAt_step hm hl rfl h
  | bounded s mx => exact proxyAt_step hm hl (sel_bounded _ _ _) h
  | boundedStrided s mx t =>
    simp only [proxyIndex, res_bind_ok] at h
    obtain ⟨x, h1, h2⟩ := h
    exact proxyAt_step hm hl (sel_boundedStrided h1) h2
  | every => exact proxyAt_step hm hl (sel_every _) h

/-! ### Contiguous arrays -/

theorem contig_same (off : Nat) (ext : List Nat) :
    SameView ((Mapper.ident (canon 0 ext)).aview off) (contig off ext) := by
  refine ⟨rfl, ?_⟩
  intro i hi
  have hi : InB ext i := hi
  simp only [Mapper.aview, contig, canon]
  rw [dotP_cmStrides _ _ _ (inB_length hi)]
  omega

theorem cmPos_append : ∀ {a i b j : List Nat}, i.length = a.length →
    cmPos (a ++ b) (i ++ j) = cmPos a i + prod a * cmPos b j
  | [], [], b, j, _ => by simp [cmPos, prod]
  | e :: es, x :: is, b, j, h => by
    have := @cmPos_append es is b j (by simpa using h)
    simp only [List.cons_append, cmPos, this, prod, Nat.mul_add, Nat.mul_assoc]
    omega

theorem inB_append : ∀ {a b j : List Nat}, InB (a ++ b) j →
    ∃ i k, j = i ++ k ∧ InB a i ∧ InB b k
  | [], b, j, h => ⟨[], j, rfl, trivial, h⟩
  | e :: es, b, j, h => by
    obtain ⟨x, js, rfl, hx, hj⟩ := inB_cons.1 h
    obtain ⟨i, k, rfl, hi, hk⟩ := inB_append hj
    exact ⟨x :: i, k, rfl, ⟨hx, hi⟩, hk⟩

theorem inB_append_intro : ∀ {a b i k : List Nat}, InB a i → InB b k → InB (a ++ b) (i ++ k)
  | [], b, i, k, h, hk => by simp at h; subst h; exact hk
  | e :: es, b, i, k, h, hk => by
    obtain ⟨x, is, rfl, hx, hi⟩ := inB_cons.1 h
    exact ⟨hx, inB_append_intro hi hk⟩

/-- The contiguous fast path for a slice of the last dimension. -/
theorem everyLast {off s x l : Nat} {es : List Nat} (hl : l ≠ 0) :
    SameView (contig (off + s * (prod (es ++ [l]) / l)) (es ++ [x]))
      (restrict (contig off (es ++ [l])) (es.map List.range ++ [(List.range x).map (s + ·)])) := by
  refine ⟨by simp [restrict, contig, Function.comp_def], ?_⟩
  intro j hj
  have hj : InB (es ++ [x]) j := hj
  obtain ⟨js, k, rfl, hjs, hk⟩ := inB_append hj
  obtain ⟨b, bs, rfl, hb, hbs⟩ := inB_cons.1 hk
  have := inB_nil.1 hbs
  subst this
  simp only [restrict, contig]
  rw [choose_ranges_append hjs, cmPos_append (inB_length hjs), cmPos_append (inB_length hjs)]
  have hp : prod (es ++ [l]) / l = prod es := by
    rw [prod_append]
    simp only [prod, Nat.mul_one]
    exact Nat.mul_div_cancel _ (Nat.pos_of_ne_zero hl)
  rw [hp]
  have hg : ((List.range x).map (s + ·)).getD b 0 = s + b := by
    simp [List.getD_eq_getElem?_getD, hb]
  rw [hg]
  simp only [cmPos, Nat.mul_add, Nat.mul_zero, Nat.add_zero]
  rw [Nat.mul_comm s]
  omega

theorem inside_ranges_snoc {es : List Nat} {l : Nat} {m : List Nat} (h : ∀ i ∈ m, i < l) :
    Inside (es ++ [l]) (es.map List.range ++ [m]) := by
  induction es with
  | nil => exact ⟨h, trivial⟩
  | cons e es ih => exact ⟨fun i hi => List.mem_range.1 hi, ih⟩

theorem ext_snoc {ext : List Nat} (h : ext ≠ []) :
    ∃ es l, ext = es ++ [l] ∧ ext.length - 1 = es.length ∧ ext.getD (ext.length - 1) 0 = l := by
  refine ⟨ext.dropLast, ext.getLast h, (List.dropLast_concat_getLast h).symm, by simp, ?_⟩
  rw [List.getD_eq_getElem?_getD, List.getLast_eq_getElem, List.getElem?_eq_getElem]
  rfl

theorem set_snoc (es : List Nat) (l x : Nat) : (es ++ [l]).set es.length x = es ++ [x] := by
  simp

theorem everyFallback_step {off : Nat} {ext : List Nat} {M : Nat} {ix : Ix} {o : Obj}
    (hM : M < ext.length)
    (h : everyFallback Arith.exact true off ext M ix = .ok o) :
    Step (.part (contig off ext) ((ext.take M).map List.range)) ix o := by
  simp only [everyFallback, res_bind_ok, mk'_exact] at h
  obtain ⟨d, ⟨rfl, h0⟩, h2⟩ := h
  have hne : ext ≠ [] := by intro h; subst h; simp at hM
  have hwf : (Mapper.ident (canon 0 ext)).WF := canon_WF hne (h0 trivial)
  have hlen : ((ext.take M).map fun e => Arg.slice 0 e 1).length = M := by simp; omega
  have := proxyIndex_step hwf (by rw [hlen]; exact hM) h2
  refine this.congr ⟨contig_same off ext, ?_⟩
  rw [List.map_map]
  apply List.map_congr_left
  intro e _
  simp [Arg.sel]

theorem step_part_snoc {off : Nat} {es : List Nat} {l : Nat} {ix : Ix} {o : Obj} {m : List Nat}
    (hs : sel l ix = m) (hwf : o.WF)
    (h : SameObj o.abs (.view (restrict (contig off (es ++ [l])) (es.map List.range ++ [m]))))
    (hi : ∀ i ∈ m, i < l) :
    Step (.part (contig off (es ++ [l])) (((es ++ [l]).take es.length).map List.range)) ix o := by
  have e1 : (es ++ [l]).take es.length = es := by simp
  have e2 : (contig off (es ++ [l])).ext = es ++ [l] := rfl
  have e3 : (es ++ [l]).getD (es.map List.range).length 0 = l := by simp
  rw [e1]
  refine ⟨hwf, ?_, ?_⟩
  · simp only [astep]
    rw [e2, e3, hs]
    unfold close
    rw [if_pos (by simp [e2])]
    exact h
  · simp only [Admissible]
    rw [e2, e3, hs]
    exact fun _ => inside_selsInside (inside_ranges_snoc hi)

theorem everyIndex_step {off : Nat} {ext : List Nat} {M : Nat} {ix : Ix} {o : Obj}
    (hM : M < ext.length)
    (h : everyIndex Arith.exact true off ext M ix = .ok o) :
    Step (.part (contig off ext) ((ext.take M).map List.range)) ix o := by
  have hne : ext ≠ [] := by intro h; subst h; simp at hM
  obtain ⟨es, l, rfl, hlen, hlast⟩ := ext_snoc hne
  cases ix with
  | «at» i =>
    simp only [everyIndex] at h
    rw [hlast, hlen] at h
    split at h
    · next hMN =>
      subst hMN
      simp only [res_bind_ok, dbg_ok] at h
      obtain ⟨_, h1, h2⟩ := h
      have hi : i < l := by simpa using h1
      rw [if_neg (by omega)] at h2
      simp only [Except.ok.injEq, Arith.exact_add, Arith.exact_mul, prodL_exact, set_snoc] at h2
      subst h2
      have := @everyLast off i 1 l es (by omega)
      refine step_part_snoc (m := [i]) rfl (by simp [Obj.WF]) ?_ (by simpa using hi)
      simpa [Obj.abs, SameObj] using this
    · cases h
  | slice s x =>
    simp only [everyIndex] at h
    rw [hlast, hlen] at h
    split at h
    · next hMN =>
      subst hMN
      simp only [res_bind_ok, dbg_ok] at h
      obtain ⟨_, h1, h2⟩ := h
      split at h2
      · cases h2
      · next hl0 =>
        simp only [Except.ok.injEq, Arith.exact_add, Arith.exact_mul, prodL_exact, set_snoc] at h2
        subst h2
        have := @everyLast off s x l es hl0
        refine step_part_snoc (m := (List.range x).map (s + ·)) rfl (by simp [Obj.WF]) this ?_
        intro i hi
        obtain ⟨k, hk, rfl⟩ := List.mem_map.1 hi
        have hk := List.mem_range.1 hk
        have h1 : usub (s + x) 1 < l := of_decide_eq_true (h1 trivial)
        rw [usub_one (by omega)] at h1
        omega
    · exact everyFallback_step hM h
  | strided s x t => exact everyFallback_step hM h
  | rng r => exact everyFallback_step hM h
  | every =>
    simp only [everyIndex] at h
    rw [hlen] at h
    split at h
    · next hMN =>
      subst hMN
      simp only [Except.ok.injEq] at h
      subst h
      refine step_part_snoc (m := List.range l) rfl (by simp [Obj.WF]) ?_ (by simp)
      have := (restrict_ranges (contig off (es ++ [l]))).symm
      simpa [Obj.abs, SameObj, contig] using this
    · next hMN =>
      simp only [Except.ok.injEq] at h
      subst h
      have hM' : M < es.length := by rw [List.length_append] at hM; simp at hM; omega
      refine ⟨⟨by omega, by simp; omega⟩, ?_, ?_⟩
      · simp only [astep]
        unfold close
        have e2 : (contig off (es ++ [l])).ext = es ++ [l] := rfl
        have e4 : (((es ++ [l]).take M).map List.range).length = M := by simp; omega
        rw [if_neg (by rw [e2, List.length_append, e4]; simp; omega)]
        refine ⟨SameView.refl _, ?_⟩
        rw [e2, e4, take_snoc_getD hM]
        simp [sel]
      · simp only [Admissible]
        intro h
        exfalso
        simp [contig] at h
        omega
  | bounded s mx =>
    have := everyFallback_step hM h
    refine this.congr_sel_part ?_
    have e4 : (((es ++ [l]).take M).map List.range).length = M := by
      rw [List.length_map, List.length_take]; omega
    rw [e4]
    rw [← sel_slice, sel_bounded]
    rfl
  | boundedStrided s mx t =>
    simp only [everyIndex, res_bind_ok] at h
    obtain ⟨x, h1, h2⟩ := h
    have := everyFallback_step hM h2
    refine this.congr_sel_part ?_
    have e4 : (((es ++ [l]).take M).map List.range).length = M := by
      rw [List.length_map, List.length_take]; omega
    rw [e4]
    rw [← sel_strided]
    exact sel_boundedStrided h1

theorem step_view_one {off : Nat} {e : Nat} {ix : Ix} {o : Obj} (hx : ∀ i, ix ≠ .at i) (hwf : o.WF)
    (h : SameObj o.abs (.view (restrict (contig off [e]) [sel e ix])))
    (hi : ∀ i ∈ sel e ix, i < e) : Step (.view (contig off [e])) ix o := by
  refine ⟨hwf, ?_, ?_⟩
  · rw [astep_view_notAt hx]; exact h
  · rw [admissible_view_notAt hx]
    exact fun _ => inside_selsInside (e := [e]) (ls := [sel e ix]) ⟨hi, trivial⟩

theorem arrayAtArgC_step {off : Nat} {ext : List Nat} {a : Arg} {ix : Ix} {o : Obj} (hne : ext ≠ [])
    (hx : ∀ i, ix ≠ .at i) (ha : a.sel = sel (ext.headD 0) ix)
    (h : arrayAtArgC Arith.exact true off ext a = .ok o) : Step (.view (contig off ext)) ix o := by
  simp only [arrayAtArgC, res_bind_ok, mk'_exact] at h
  obtain ⟨d, ⟨rfl, h0⟩, h2⟩ := h
  exact (arrayAtArg_step (m := .ident (canon 0 ext)) (canon_WF hne (h0 trivial)) hx ha h2).congr
    (contig_same off ext)

theorem arrayAtSliceC_step {off : Nat} {ext : List Nat} {s x : Nat} {ix : Ix} {o : Obj} (hne : ext ≠ [])
    (hx : ∀ i, ix ≠ .at i) (ha : Arg.sel (.slice s x 1) = sel (ext.headD 0) ix)
    (h : arrayAtSliceC Arith.exact true off ext s x = .ok o) : Step (.view (contig off ext)) ix o := by
  unfold arrayAtSliceC at h
  split at h
  · next e =>
    simp only [res_bind_ok, dbg_ok, Except.ok.injEq] at h
    obtain ⟨_, h1, rfl⟩ := h
    have h1 : usub (s + x) 1 < e := of_decide_eq_true (h1 trivial)
    refine step_view_one hx (by simp [Obj.WF]) ?_ ?_
    · simp only [List.headD_cons] at ha
      rw [← ha]
      refine ⟨by simp [restrict, contig], ?_⟩
      intro j hj
      have hj : InB [x] j := hj
      obtain ⟨b, bs, rfl, hb, hbs⟩ := inB_cons.1 hj
      have := inB_nil.1 hbs
      subst this
      simp only [restrict, contig, choose, sel_slice_getD hb, cmPos, Arith.exact_add]
      omega
    · simp only [List.headD_cons] at ha
      rw [← ha]
      intro i hi
      simp only [Arg.sel, List.mem_map, List.mem_range, Nat.mul_one] at hi
      obtain ⟨k, hk, rfl⟩ := hi
      rw [usub_one (by omega)] at h1
      omega
  · exact arrayAtArgC_step hne hx ha h

theorem crefIndex_step {off : Nat} {ext : List Nat} {ix : Ix} {o : Obj} (hne : ext ≠ [])
    (h : crefIndex Arith.exact true off ext ix = .ok o) : Step (.view (contig off ext)) ix o := by
  cases ix with
  | «at» i =>
    simp only [crefIndex, res_bind_ok, dbg_ok] at h
    obtain ⟨_, h1, h2⟩ := h
    have hi : i < ext.headD 0 := by simpa using h1
    cases hext : ext with
    | nil => exact absurd hext hne
    | cons e es =>
    subst hext
    have hie : i < e := hi
    split at h2
    · next hl =>
      have hes : es = [] := by simpa using hl
      subst hes
      simp only [Except.ok.injEq] at h2
      subst h2
      refine ⟨trivial, ⟨rfl, ?_⟩, hi⟩
      intro j hj
      have hj : j = [] := by simpa using hj
      subst hj
      simp [fixFirst, contig, cmPos]
    · next hl =>
      simp only [res_bind_ok, Except.ok.injEq, mk'_exact] at h2
      obtain ⟨d, ⟨rfl, h0⟩, n, h3, rfl⟩ := h2
      obtain ⟨n1, n2, n3, n4, n5, n6⟩ := discard_ok h3
      obtain ⟨w1, w2, w3, w4⟩ := @canon_WF i (e :: es) hne (h0 trivial)
      have hnext : n.ext = es := n2
      have hnstr : n.strides = cmStrides es e := by rw [n3]; simp [canon, cmStrides]
      refine ⟨⟨?_, n4, ?_, ?_⟩, ⟨?_, ?_⟩, hi⟩
      · rw [hnext, hnstr, cmStrides_length]
      · intro x hx
        rw [n3] at hx; exact w3 x (List.mem_of_mem_tail hx)
      · intro _ x hx
        rw [n2] at hx; exact w4 hl x (List.mem_of_mem_tail hx)
      · simp [fixFirst, Mapper.aview, contig, hnext]
      · intro j hj
        have hj : InB n.ext j := hj
        rw [hnext] at hj
        simp only [Mapper.aview, fixFirst, contig, hnstr, n1, canon, cmPos]
        rw [dotP_cmStrides _ _ _ (inB_length hj)]
  | slice s x => exact arrayAtSliceC_step hne (by simp) (sel_slice _ _ _) h
  | strided s x t => exact arrayAtArgC_step hne (by simp) rfl h
  | bounded s mx => exact arrayAtSliceC_step hne (by simp) (sel_bounded _ _ _) h
  | boundedStrided s mx t =>
    simp only [crefIndex, res_bind_ok] at h
    obtain ⟨x, h1, h2⟩ := h
    exact arrayAtArgC_step hne (by simp) (sel_boundedStrided h1) h2
  | every =>
    simp only [crefIndex] at h
    split at h
    · next hl =>
      simp only [Except.ok.injEq] at h
      subst h
      obtain ⟨e, rfl⟩ := List.length_eq_one_iff.1 hl
      refine step_view_one (by simp) hne ?_ (by simp [sel])
      exact (restrict_ranges (contig off [e])).symm
    · next hl =>
      simp only [Except.ok.injEq] at h
      subst h
      have h0 : ext.length ≠ 0 := fun h0 => hne (List.length_eq_zero_iff.1 h0)
      refine ⟨⟨Nat.le_refl _, by omega⟩, ?_, ?_⟩
      · rw [astep_view_notAt (by simp)]
        unfold close
        rw [if_neg (by simpa [contig] using fun h => hl h.symm)]
        refine ⟨SameView.refl _, ?_⟩
        cases ext with
        | nil => exact absurd rfl hne
        | cons e es => simp [sel, contig]
      · rw [admissible_view_notAt (by simp)]
        exact fun h => absurd h hl
  | rng l =>
    simp only [crefIndex] at h
    split at h
    · next hl =>
      obtain ⟨e, rfl⟩ := List.length_eq_one_iff.1 hl
      simp only [res_bind_ok, dbg_ok, Except.ok.injEq] at h
      obtain ⟨_, h1, m, h2, rfl⟩ := h
      obtain ⟨rfl, l1, l2⟩ := mkVec_exact.1 h2
      have h1 : maxIdx l < e := by simpa using h1
      refine step_view_one (by simp) ⟨rfl, canon_WF (by simp) l2, l1⟩ ?_ (maxIdx_lt.1 h1).2
      refine ⟨rfl, ?_⟩
      intro j hj
      have hj : InB [l.length] j := hj
      obtain ⟨b, bs, rfl, hb, hbs⟩ := inB_cons.1 hj
      have := inB_nil.1 hbs
      subst this
      simp [Mapper.aview, canon, cmPos, restrict, contig, choose, sel]
    · exact arrayAtArgC_step hne (by simp) rfl h

/-- One checked application of `operator[]` refines the abstract step. -/
theorem index_step {o : Obj} {ix : Ix} {o' : Obj} (hwf : o.WF)
    (h : o.index Arith.exact true ix = .ok o') : Step o.abs ix o' := by
  cases o with
  | elem p => cases h
  | cref off ext => exact crefIndex_step hwf h
  | sref off m => exact srefIndex_step hwf h
  | proxy off m args => exact proxyIndex_step hwf.1 hwf.2.2 h
  | everyProxy off ext M => exact everyIndex_step hwf.2 h

end Jules

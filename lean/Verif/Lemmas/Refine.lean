import Verif.Lemmas.Slicing
/-
Refinement of the indexing operators to the abstract views of Spec/View.
-/
namespace Jules
open Spec

/-- The abstract view of a mapper whose data pointer is displaced by `off`. -/
def Mapper.aview (off : Nat) : Mapper → AView
  | .ident d => ⟨d.ext, fun i => off + (d.start + dotP i d.strides)⟩
  | .vec d idx => ⟨d.ext, fun i => off + idx.getD (cmPos d.ext i) 0⟩

/-- The abstract view of a contiguous array. -/
def contig (off : Nat) (ext : List Nat) : AView := ⟨ext, fun i => off + cmPos ext i⟩

/-- The meaning of an object. -/
def Obj.abs : Obj → AObj
  | .elem p => .view ⟨[], fun _ => p⟩
  | .cref off ext => .view (contig off ext)
  | .sref off m => .view (m.aview off)
  | .proxy off m args => .part (m.aview off) (args.map Arg.sel)
  | .everyProxy off ext M => .part (contig off ext) ((ext.take M).map List.range)

def SDesc.WF (d : SDesc) : Prop :=
  d.strides.length = d.ext.length ∧ d.ext ≠ [] ∧ (∀ t ∈ d.strides, 0 < t) ∧
    (d.ext.length ≠ 1 → ∀ x ∈ d.ext, x ≠ 0)

def Mapper.WF : Mapper → Prop
  | .ident d => d.WF
  | .vec d idx => d = canon 0 d.ext ∧ d.WF ∧ idx.length = prod d.ext

/-- Objects that a checked history can produce. -/
def Obj.WF : Obj → Prop
  | .elem _ => True
  | .cref _ ext => ext ≠ []
  | .sref _ m => m.WF
  | .proxy _ m args => m.WF ∧ args ≠ [] ∧ args.length < m.desc.ext.length
  | .everyProxy _ ext M => 1 ≤ M ∧ M < ext.length

theorem SDesc.WF.iterOK {d : SDesc} (h : d.WF) : IterOK d :=
  ⟨h.1.symm, h.2.1, fun _ => h.2.2.1, h.2.2.2⟩

theorem Mapper.WF.desc {m : Mapper} (h : m.WF) : m.desc.WF := by
  cases m with
  | ident d => exact h
  | vec d idx => exact h.2.1

@[simp] theorem Mapper.aview_ext (off : Nat) (m : Mapper) : (m.aview off).ext = m.desc.ext := by
  cases m <;> rfl

theorem cmStrides_pos : ∀ {e : List Nat} {t : Nat}, 0 < t → (∀ x ∈ e, x ≠ 0) →
    ∀ s ∈ cmStrides e t, 0 < s
  | [], _, _, _ => by simp [cmStrides]
  | e :: es, t, ht, h => by
    intro s hs
    simp only [cmStrides, List.mem_cons] at hs
    rcases hs with rfl | hs
    · exact ht
    · exact cmStrides_pos (Nat.mul_pos ht (Nat.pos_of_ne_zero (h e (by simp))))
        (fun x hx => h x (by simp [hx])) s hs

theorem canon_WF {s : Nat} {e : List Nat} (h0 : e ≠ []) (h : e.length ≠ 1 → ∀ x ∈ e, x ≠ 0) :
    (canon s e).WF := by
  refine ⟨cmStrides_length _ _, h0, ?_, h⟩
  by_cases hl : e.length = 1
  · match e, hl with
    | [a], _ => simp [canon, cmStrides]
  · exact cmStrides_pos (by omega) (h hl)

theorem mkVec_exact {ext idx : List Nat} {m : Mapper} :
    Mapper.mkVec Arith.exact true ext idx = .ok m ↔
      m = .vec (canon 0 ext) idx ∧ idx.length = prod ext ∧ (ext.length ≠ 1 → ∀ x ∈ ext, x ≠ 0) := by
  simp only [Mapper.mkVec, res_bind_ok, mk'_exact, dbg_ok, Except.ok.injEq]
  constructor
  · rintro ⟨d, ⟨rfl, h1⟩, _, h2, rfl⟩
    refine ⟨rfl, ?_, fun h => h1 trivial h⟩
    simpa [sdesc_size_exact, canon] using h2
  · rintro ⟨rfl, h2, h1⟩
    refine ⟨_, ⟨rfl, fun _ => h1⟩, (), ?_, rfl⟩
    intro _
    simpa [sdesc_size_exact, canon] using h2

theorem mapM_ok_map {f : Nat → Res Nat} {g : Nat → Nat} (hf : ∀ x y, f x = .ok y → y = g x) :
    ∀ {l r : List Nat}, l.mapM f = .ok r → r = l.map g
  | [], r, h => by simp at h; simp [h]
  | x :: l, r, h => by
    simp only [List.mapM_cons, res_bind_ok, res_pure, Except.ok.injEq] at h
    obtain ⟨y, h1, ys, h2, rfl⟩ := h
    rw [hf x y h1, mapM_ok_map hf h2]; rfl

theorem mapM_map_ok {f : Nat → Res Nat} {g : Nat → Nat} :
    ∀ {l : List Nat}, (∀ x ∈ l, f x = .ok (g x)) → l.mapM f = .ok (l.map g)
  | [], _ => by simp
  | x :: l, h => by
    rw [List.mapM_cons, h x (by simp), res_ok_bind, mapM_map_ok fun y hy => h y (by simp [hy])]
    rfl

theorem vec_map_ok {d : SDesc} {idx : List Nat} {i p : Nat} :
    (Mapper.vec d idx).map true i = .ok p ↔ i < idx.length ∧ p = idx.getD i 0 := by
  simp only [Mapper.map, res_bind_ok, dbg_ok, lookup]
  constructor
  · rintro ⟨_, h1, h2⟩
    have h1 : i < idx.length := by simpa using h1
    rw [List.getElem?_eq_getElem h1] at h2
    simp only [Except.ok.injEq] at h2
    exact ⟨h1, by rw [List.getD_eq_getElem?_getD, List.getElem?_eq_getElem h1]; exact h2.symm⟩
  · rintro ⟨h1, rfl⟩
    refine ⟨(), by simpa using h1, ?_⟩
    rw [List.getD_eq_getElem?_getD, List.getElem?_eq_getElem h1]; rfl

theorem vec_mapAll_ok {d : SDesc} {idx l r : List Nat} :
    (Mapper.vec d idx).mapAll true l = .ok r ↔
      (∀ x ∈ l, x < idx.length) ∧ r = l.map fun i => idx.getD i 0 := by
  constructor
  · intro h
    refine ⟨?_, mapM_ok_map (fun x y h => (vec_map_ok.1 h).2) h⟩
    unfold Mapper.mapAll at h
    induction l generalizing r with
    | nil => simp
    | cons x l ih =>
      simp only [List.mapM_cons, res_bind_ok, res_pure, Except.ok.injEq] at h
      obtain ⟨y, h1, ys, h2, rfl⟩ := h
      intro z hz
      rcases List.mem_cons.1 hz with rfl | hz
      · exact (vec_map_ok.1 h1).1
      · exact ih h2 z hz
  · rintro ⟨h, rfl⟩
    exact mapM_map_ok fun x hx => vec_map_ok.2 ⟨h x hx, rfl⟩

theorem iterFuel_lt (d : SDesc) : prod d.ext < iterFuel d := by
  simp [iterFuel, prodL_exact]

theorem canon_pos {ext i : List Nat} (h : i.length = ext.length) :
    (canon 0 ext).pos Arith.exact i = cmPos ext i := by
  simp [canon, dotP_cmStrides _ _ _ h]

/-- A freshly built index-mapped view denotes the enumerated function. -/
theorem aview_vec {off : Nat} {ext : List Nat} {g : List Nat → Nat} {j : List Nat} (hj : InB ext j) :
    ((Mapper.vec (canon 0 ext) ((multiIdx ext).map g)).aview off).pos j = off + g j := by
  simp only [Mapper.aview, canon]
  rw [List.getD_eq_getElem?_getD, map_multiIdx_getElem? g hj]; rfl

theorem inside_map_length_eq {args : List Arg} {e : List Nat} (h : Inside e (args.map Arg.sel)) :
    args.length = e.length := by
  have := inside_length h; simpa using this

/-- The result of slicing a well-formed view. -/
structure Sliced (off : Nat) (m : Mapper) (args : List Arg) (o : Obj) : Prop where
  ex : ∃ m', o = .sref off m' ∧ m'.WF ∧
    SameView (m'.aview off) (restrict (m.aview off) (args.map Arg.sel))
  inside : Inside m.desc.ext (args.map Arg.sel)

theorem arraySlice_default {off : Nat} {m : Mapper} {args : List Arg} {o : Obj} (hm : m.WF)
    (hd : args.all Arg.isDefault = true)
    (h : arraySlice Arith.exact true off m args = .ok o) : Sliced off m args o := by
  unfold arraySlice at h
  rw [if_pos hd] at h
  simp only [res_bind_ok, defaultSlicing] at h
  obtain ⟨d', ⟨⟨s', e', t'⟩, h1, h2⟩, h3⟩ := h
  simp only [Except.ok.injEq] at h2
  subst h2
  obtain ⟨q1, q2, q3, q4, q5, _, q7⟩ := doSlice_sound h1 hm.desc.2.2.1
  have hd'WF : (⟨s', e', t'⟩ : SDesc).WF := by
    refine ⟨q3, ?_, q4, fun _ => q5⟩
    intro he
    have h1 := inside_length q1
    have he : e' = [] := he
    rw [he] at q2
    have : (args.map Arg.sel) = [] := by simpa using q2.symm
    rw [this] at h1
    exact hm.desc.2.1 (List.length_eq_zero_iff.1 h1.symm)
  refine ⟨?_, q1⟩
  cases m with
  | ident d =>
    simp only [Except.ok.injEq] at h3
    subst h3
    refine ⟨_, rfl, hd'WF, ?_, ?_⟩
    · simpa [restrict, Mapper.desc] using q2
    · intro j hj
      simp only [Mapper.aview, restrict]
      rw [q7 j hj]; rfl
  | vec d idx =>
    simp only [res_bind_ok] at h3
    obtain ⟨ps, p1, idx', p2, m', p3, p4⟩ := h3
    simp only [Except.ok.injEq] at p4
    subst p4
    rw [positions_spec hd'WF.iterOK (iterFuel_lt _)] at p1
    simp only [Except.ok.injEq] at p1
    subst p1
    obtain ⟨_, rfl⟩ := vec_mapAll_ok.1 p2
    obtain ⟨rfl, l1, l2⟩ := mkVec_exact.1 p3
    obtain ⟨hc, _, hlen⟩ := hm
    refine ⟨_, rfl, ⟨rfl, canon_WF hd'WF.2.1 l2, l1⟩, ?_, ?_⟩
    · simpa [restrict, canon, Mapper.desc] using q2
    · intro j hj
      have hj : InB e' j := hj
      rw [List.map_map]
      rw [aview_vec hj]
      have hin : InB d.ext (choose (args.map Arg.sel) j) := inside_choose q1 (by rw [← q2]; exact hj)
      have := q7 j hj
      simp only [Mapper.desc] at this
      simp only [Function.comp_def, sdesc_pos_exact, restrict, Mapper.aview, this]
      rw [hc] at *
      simp only [canon] at *
      rw [dotP_cmStrides _ _ _ (inB_length hin)]
      simp

theorem extOut_full {sels : List (List Nat)} {e0 ext : List Nat} (h : ExtOut sels e0 ext)
    (hl : sels.length = e0.length) (h2 : e0.length ≠ 1 → ∀ x ∈ ext, x ≠ 0) :
    ext = sels.map List.length ∧ (e0.length ≠ 1 → ∀ l ∈ sels, l ≠ []) := by
  obtain ⟨q1, _, q3, q4⟩ := h
  have htake : ext.take sels.length = ext := by
    rw [hl, ← q1]; exact List.take_length
  rw [htake] at q3 q4
  by_cases hempty : ∃ l ∈ sels, l = []
  · have h0 := q4 hempty
    by_cases hl1 : e0.length = 1
    · refine ⟨?_, fun h => absurd hl1 h⟩
      have hs : sels.length = 1 := by omega
      have he : ext.length = 1 := by omega
      match sels, ext, hs, he with
      | [l], [x], _, _ =>
        obtain ⟨l', hl', rfl⟩ := hempty
        simp at hl' h0
        subst hl' h0; rfl
    · exact absurd rfl (h2 hl1 0 h0)
  · have : ∀ l ∈ sels, l ≠ [] := fun l hl h => hempty ⟨l, hl, h⟩
    exact ⟨q3 this, fun _ => this⟩

theorem arraySlice_indirect {off : Nat} {m : Mapper} {args : List Arg} {o : Obj} (hm : m.WF)
    (hd : ¬ args.all Arg.isDefault = true)
    (h : arraySlice Arith.exact true off m args = .ok o) : Sliced off m args o := by
  unfold arraySlice at h
  rw [if_neg hd] at h
  simp only [res_bind_ok] at h
  obtain ⟨⟨ext, ps⟩, h1, h3⟩ := h
  obtain ⟨hl, rfl, hext, hin⟩ := indirectSlicing_sound h1
  have hne := hm.desc.2.1
  have fin : (ext.length ≠ 1 → ∀ x ∈ ext, x ≠ 0) →
      ext = (args.map Arg.sel).map List.length ∧ Inside m.desc.ext (args.map Arg.sel) := by
    intro h2
    have hlen0 : (m.desc.ext.map fun _ => 0).length = m.desc.ext.length := by simp
    have hel : ext.length = m.desc.ext.length := hext.1.trans hlen0
    obtain ⟨e1, e2⟩ := extOut_full hext (by simp [hl]) (by rw [hlen0, ← hel]; exact h2)
    refine ⟨e1, ?_⟩
    by_cases hl1 : m.desc.ext.length = 1
    · have ha : args.length = 1 := by omega
      match args, ha with
      | [a], _ =>
        by_cases hs : a.sel = []
        · obtain ⟨e, he⟩ := List.length_eq_one_iff.1 hl1
          simp [Inside, hs, he]
        · exact hin (by simpa using hs)
    · have := e2 (by rw [hlen0]; exact hl1)
      exact hin fun a ha => this a.sel (List.mem_map_of_mem ha)
  have hlens : ∀ j, InB ((args.map Arg.sel).map List.length) j →
      Inside m.desc.ext (args.map Arg.sel) → InB m.desc.ext (choose (args.map Arg.sel) j) :=
    fun j hj hi => inside_choose hi hj
  cases m with
  | ident d =>
    simp only [res_bind_ok] at h3
    obtain ⟨m', p3, p4⟩ := h3
    simp only [Except.ok.injEq] at p4
    subst p4
    obtain ⟨rfl, l1, l2⟩ := mkVec_exact.1 p3
    obtain ⟨f1, f2⟩ := fin l2
    refine ⟨⟨_, rfl, ⟨rfl, canon_WF ?_ l2, l1⟩, ?_, ?_⟩, f2⟩
    · intro h0
      have := hext.1
      rw [h0] at this
      simp [Mapper.desc] at this
      exact hne (List.length_eq_zero_iff.1 this.symm)
    · simp [restrict, canon, Mapper.aview, f1]
    · intro j hj
      have hj : InB ext j := hj
      rw [cart_eq_map_choose, ← f1, List.map_map, aview_vec hj]
      simp [restrict, Mapper.aview, Mapper.desc]
  | vec d idx =>
    simp only [res_bind_ok] at h3
    obtain ⟨idx', p2, m', p3, p4⟩ := h3
    simp only [Except.ok.injEq] at p4
    subst p4
    obtain ⟨_, rfl⟩ := vec_mapAll_ok.1 p2
    obtain ⟨rfl, l1, l2⟩ := mkVec_exact.1 p3
    obtain ⟨f1, f2⟩ := fin l2
    refine ⟨⟨_, rfl, ⟨rfl, canon_WF ?_ l2, l1⟩, ?_, ?_⟩, f2⟩
    · intro h0
      have := hext.1
      rw [h0] at this
      simp [Mapper.desc] at this
      exact hne (List.length_eq_zero_iff.1 this.symm)
    · simp [restrict, canon, Mapper.aview, f1]
    · intro j hj
      have hj : InB ext j := hj
      rw [cart_eq_map_choose, ← f1, List.map_map, List.map_map, aview_vec hj]
      have hin : InB d.ext (choose (args.map Arg.sel) j) := inside_choose f2 (by rw [← f1]; exact hj)
      obtain ⟨hc, _, _⟩ := hm
      simp only [Function.comp_def, restrict, Mapper.aview, Mapper.desc]
      rw [hc, canon_pos (by rw [inB_length hin])]
      rfl

theorem arraySlice_sound {off : Nat} {m : Mapper} {args : List Arg} {o : Obj} (hm : m.WF)
    (h : arraySlice Arith.exact true off m args = .ok o) : Sliced off m args o := by
  by_cases hd : args.all Arg.isDefault = true
  · exact arraySlice_default hm hd h
  · exact arraySlice_indirect hm hd h

end Jules

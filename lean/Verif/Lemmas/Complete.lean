import Verif.Lemmas.Run
/-
Completeness: legal index expressions are accepted by checked builds (exact arithmetic).
-/
namespace Jules
open Spec

theorem foldlM_ok {f : σ → α → Res σ} : ∀ {l : List α}, (∀ st, ∀ x ∈ l, ∃ st', f st x = .ok st') →
    ∀ st, ∃ st', l.foldlM f st = .ok st'
  | [], _, st => ⟨st, rfl⟩
  | x :: l, h, st => by
    obtain ⟨s1, h1⟩ := h st x (by simp)
    obtain ⟨s2, h2⟩ := foldlM_ok (l := l) (fun st y hy => h st y (by simp [hy])) s1
    exact ⟨s2, by rw [List.foldlM_cons, h1, res_ok_bind, h2]⟩

/-- Every slice among the arguments has a positive stride and a positive extent. -/
def Arg.Pos : Arg → Prop
  | .slice _ x d => 0 < d ∧ 0 < x
  | _ => True

theorem pos_sel_ne {a : Arg} (h : a.sel ≠ []) (h2 : ∀ s x d, a = .slice s x d → 0 < d) : a.Pos := by
  cases a with
  | slice s x d =>
    refine ⟨h2 _ _ _ rfl, ?_⟩
    rcases Nat.eq_zero_or_pos x with hx | hx
    · subst hx; simp [Arg.sel] at h
    · exact hx
  | idx i => trivial
  | rng l => trivial

theorem slice_bound {s x d e : Nat} (hx : 0 < x) (h : ∀ i ∈ Arg.sel (.slice s x d), i < e) :
    s + (x - 1) * d < e := by
  apply h
  simp only [Arg.sel, List.mem_map, List.mem_range]
  exact ⟨x - 1, by omega, rfl⟩

theorem doSliceInd_complete (d : SDesc) : ∀ (as : List Arg) (ix : List Nat) (st : List Nat × List Nat),
    (∀ k a, as.reverse[k]? = some a → a.Pos ∧ a.sel ≠ [] ∧ ∀ i ∈ a.sel, i < d.ext.getD k 0) →
    ∃ st', doSliceInd Arith.exact true d as ix st = .ok st'
  | [], ix, (ext, out), _ => ⟨_, rfl⟩
  | a :: as, ix, (ext, out), h => by
    have hrec : ∀ ix st, ∃ st', doSliceInd Arith.exact true d as ix st = .ok st' := fun ix st =>
      doSliceInd_complete d as ix st fun k b hb => h k b (by
        rw [List.reverse_cons, List.getElem?_append_left]
        · exact hb
        · exact (List.getElem?_eq_some_iff.1 hb).1)
    obtain ⟨h1, h2, h3⟩ := h as.length a (by simp)
    cases a with
    | idx i =>
      have : i < d.ext.getD as.length 0 := h3 i (by simp [Arg.sel])
      simp only [doSliceInd, this, decide_true, dbg_any_true, res_ok_bind]
      exact hrec _ _
    | rng l =>
      have : maxIdx l < d.ext.getD as.length 0 := by
        rw [maxIdx_lt]
        refine ⟨?_, h3⟩
        cases l with
        | nil => simp [Arg.sel] at h2
        | cons x l => have := h3 x (by simp [Arg.sel]); omega
      simp only [doSliceInd, this, decide_true, dbg_any_true, res_ok_bind]
      exact foldlM_ok (fun st i _ => hrec _ st) _
    | slice s x t =>
      obtain ⟨p1, p2⟩ := h1
      have := slice_bound p2 h3
      rw [← usub_one p2] at this
      simp only [doSliceInd, p1, p2, this, decide_true, dbg_any_true, res_ok_bind, Arith.exact_add,
        Arith.exact_mul]
      exact foldlM_ok (fun st i _ => hrec _ st) _

theorem inside_getElem : ∀ {e : List Nat} {ls : List (List Nat)} {k : Nat} {l : List Nat}, Inside e ls →
    ls[k]? = some l → ∀ i ∈ l, i < e.getD k 0
  | [], [], _, _, _, h => by simp at h
  | e :: es, l :: ls, k, l', h, hk => by
    cases k with
    | zero => simp at hk; subst hk; simpa using h.1
    | succ k => simpa using inside_getElem h.2 (by simpa using hk)
  | [], _ :: _, _, _, h, _ => h.elim
  | _ :: _, [], _, _, h, _ => h.elim

theorem indirectSlicing_complete {d : SDesc} {args : List Arg} (hi : Inside d.ext (args.map Arg.sel))
    (hp : ∀ a ∈ args, a.Pos) (hn : ∀ a ∈ args, a.sel ≠ []) :
    ∃ r, indirectSlicing Arith.exact true d args = .ok r := by
  unfold indirectSlicing
  rw [if_neg (by have := inside_length hi; simp at this; omega)]
  apply doSliceInd_complete
  intro k a hk
  rw [List.reverse_reverse] at hk
  have hm := List.mem_of_getElem? hk
  refine ⟨hp a hm, hn a hm, ?_⟩
  exact inside_getElem hi (by simp [hk])

theorem mapM_vec_ok {d : SDesc} {idx l : List Nat} (h : ∀ x ∈ l, x < idx.length) :
    (Mapper.vec d idx).mapAll true l = .ok (l.map fun i => idx.getD i 0) :=
  vec_mapAll_ok.2 ⟨h, rfl⟩

theorem restrict_ne_nil {args : List Arg} (hn : ∀ a ∈ args, a.sel ≠ []) :
    ∀ x ∈ (args.map Arg.sel).map List.length, x ≠ 0 := by
  intro x hx
  simp only [List.map_map, List.mem_map, Function.comp] at hx
  obtain ⟨a, ha, rfl⟩ := hx
  have := hn a ha
  cases h : a.sel with
  | nil => exact absurd h this
  | cons => simp

theorem arraySlice_complete {off : Nat} {m : Mapper} {args : List Arg} (hm : m.WF)
    (hi : Inside m.desc.ext (args.map Arg.sel)) (hp : ∀ a ∈ args, a.Pos) (hn : ∀ a ∈ args, a.sel ≠ []) :
    ∃ o, arraySlice Arith.exact true off m args = .ok o := by
  have hnz := restrict_ne_nil hn
  have hlen : args.length = m.desc.ext.length := inside_map_length_eq hi
  unfold arraySlice
  split
  · next hd =>
    obtain ⟨⟨s', e', t'⟩, hr⟩ := doSlice_complete (s := m.desc.start) hm.desc.1 hd hi hn
      (fun s x d h => (hp _ h).1)
    obtain ⟨q1, q2, q3, q4, q5, _, q7⟩ := doSlice_sound hr hm.desc.2.2.1
    have hd' : defaultSlicing Arith.exact true m.desc args = .ok ⟨s', e', t'⟩ := by
      simp [defaultSlicing, hr]
    rw [hd', res_ok_bind]
    cases m with
    | ident d => exact ⟨_, rfl⟩
    | vec d idx =>
      obtain ⟨hc, hw, hl⟩ := hm
      have hd'WF : (⟨s', e', t'⟩ : SDesc).WF := by
        refine ⟨q3, ?_, q4, fun _ => q5⟩
        intro he
        have he : e' = [] := he
        rw [he] at q2
        have h0 : args = [] := by simpa using q2.symm
        rw [h0] at hlen
        exact hw.2.1 (List.length_eq_zero_iff.1 hlen.symm)
      simp only [positions_spec hd'WF.iterOK (iterFuel_lt _), res_ok_bind]
      rw [mapM_vec_ok, res_ok_bind]
      · rw [mkVec_exact.2 ⟨rfl, by simp [multiIdx_length], fun _ => q5⟩, res_ok_bind]
        exact ⟨_, rfl⟩
      · intro x hx
        obtain ⟨j, hj, rfl⟩ := List.mem_map.1 hx
        have hj : InB e' j := mem_multiIdx.1 hj
        have hin : InB d.ext (choose (args.map Arg.sel) j) := inside_choose q1 (by rw [← q2]; exact hj)
        have := q7 j hj
        simp only [Mapper.desc] at this
        rw [sdesc_pos_exact, this, hc]
        simp only [canon, Nat.zero_add]
        rw [dotP_cmStrides _ _ _ (inB_length hin), Nat.one_mul, hl]
        exact cmPos_lt hin
  · next hd =>
    obtain ⟨⟨ext, ps⟩, hr⟩ := indirectSlicing_complete hi hp hn
    obtain ⟨_, rfl, hext, _⟩ := indirectSlicing_sound hr
    obtain ⟨rfl⟩ : ext = (args.map Arg.sel).map List.length := by
      have := hext.2.2.1 (by
        intro l hl
        obtain ⟨a, ha, rfl⟩ := List.mem_map.1 hl
        exact hn a ha)
      have h1 := hext.1
      rw [List.take_of_length_le (by rw [h1]; simp [hlen])] at this
      exact this
    rw [hr, res_ok_bind]
    have hmk : ∀ l : List Nat, l.length = ((args.map Arg.sel).map List.length |> prod) →
        ∃ o, (Mapper.mkVec Arith.exact true ((args.map Arg.sel).map List.length) l >>= fun m' =>
          (.ok (Obj.sref off m') : Res Obj)) = .ok o := by
      intro l hl
      rw [mkVec_exact.2 ⟨rfl, hl, fun _ => hnz⟩]
      exact ⟨_, rfl⟩
    cases m with
    | ident d =>
      apply hmk
      rw [cart_eq_map_choose]; simp [multiIdx_length]
    | vec d idx =>
      obtain ⟨hc, hw, hl⟩ := hm
      rw [cart_eq_map_choose] 
      simp only [Mapper.desc] at hi ⊢
      rw [mapM_vec_ok, res_ok_bind]
      · apply hmk
        simp [multiIdx_length]
      · intro x hx
        simp only [List.map_map, List.mem_map, Function.comp] at hx
        obtain ⟨j, hj, rfl⟩ := hx
        have hin : InB d.ext (choose (args.map Arg.sel) j) := inside_choose hi (by
          simpa [Function.comp_def] using mem_multiIdx.1 hj)
        rw [hc, canon_pos (inB_length hin), hl]
        exact cmPos_lt hin

theorem discard_complete {d : SDesc} (h : d.WF) (hl : d.ext.length ≠ 1) :
    d.discard = .ok ⟨d.start, d.ext.tail, d.strides.tail⟩ := by
  obtain ⟨e, es, t, ts, he, hs⟩ := ext_cons h
  have h1 := h.1
  rw [he, hs] at h1
  rw [he] at hl
  cases es with
  | nil => simp at hl
  | cons e2 es =>
    cases ts with
    | nil => simp at h1
    | cons t2 ts => simp [SDesc.discard, he, hs]

theorem arrayAtIdx_complete {off : Nat} {m : Mapper} {i : Nat} (hm : m.WF)
    (hi : i < m.desc.ext.headD 0) : ∃ o, arrayAtIdx Arith.exact true off m i = .ok o := by
  obtain ⟨e, es, t, ts, hext, hstr⟩ := ext_cons hm.desc
  have hie : i < e := by simpa [hext] using hi
  unfold arrayAtIdx
  simp only [hi, decide_true, dbg_any_true, res_ok_bind]
  split
  · next hl =>
    have hes : es = [] := by rw [hext] at hl; simpa using hl
    subst hes
    cases m with
    | ident d => exact ⟨_, rfl⟩
    | vec d idx =>
      obtain ⟨hc, hw, hlen⟩ := hm
      simp only [Mapper.desc] at hext hstr ⊢
      have : d.pos Arith.exact [i] < idx.length := by
        rw [hc, canon_pos (by simp [hext]), hlen]
        exact cmPos_lt (by rw [hext]; simpa using hie)
      rw [vec_map_ok.2 ⟨this, rfl⟩]
      exact ⟨_, rfl⟩
  · next hl =>
    have hd := discard_complete hm.desc hl
    cases m with
    | ident d =>
      simp only [Mapper.desc] at hd
      simp [Mapper.dropFirst, hd]
    | vec d idx =>
      obtain ⟨hc, hw, hlen⟩ := hm
      simp only [Mapper.desc] at hd hext hstr hl
      have hes : es ≠ [] := by
        intro h; subst h; simp [hext] at hl
      obtain ⟨w1, w2, w3, w4⟩ := hw
      have hnz : ∀ x ∈ d.ext, x ≠ 0 := w4 hl
      simp only [Mapper.dropFirst, inNoexcept_exact, hd, res_ok_bind, Arith.exact_add]
      have hnwf : (⟨d.start + i, d.ext.tail, d.strides.tail⟩ : SDesc).WF := by
        refine ⟨by simp [w1], by simpa [hext] using hes, ?_, ?_⟩
        · intro x hx; exact w3 x (List.mem_of_mem_tail hx)
        · intro _ x hx; exact hnz x (List.mem_of_mem_tail hx)
      rw [positions_spec hnwf.iterOK (iterFuel_lt _), res_ok_bind, mapM_vec_ok, res_ok_bind,
        mkVec_exact.2 ⟨rfl, by simp [multiIdx_length], fun _ x hx => hnz x (List.mem_of_mem_tail hx)⟩]
      · exact ⟨_, rfl⟩
      · intro x hx
        obtain ⟨j, hj, rfl⟩ := List.mem_map.1 hx
        have hj : InB d.ext.tail j := mem_multiIdx.1 hj
        have hd0 : d.start = 0 := by rw [hc]; rfl
        have hin : InB d.ext (i :: j) := by rw [hext] at hj ⊢; exact ⟨hie, hj⟩
        have := cmPos_lt hin
        rw [hlen]
        have h2 : d.pos Arith.exact (i :: j) = cmPos d.ext (i :: j) := by
          rw [hc, canon_pos (by rw [inB_length hin])]; rfl
        rw [← h2] at this
        rw [sdesc_pos_exact, hstr, hd0] at this
        have ht1 : t = 1 := by
          have : d.strides = cmStrides d.ext 1 := by rw [hc]; rfl
          rw [hext, hstr] at this; simp [cmStrides] at this; exact this.1
        subst ht1
        simp only [sdesc_pos_exact, hstr, hd0, List.tail_cons]
        simp only [dotP] at this
        omega

/-! ### Legality -/

theorem mk'_ok {chk : Bool} {e : List Nat} (h : ∀ x ∈ e, x ≠ 0) (s : Nat) :
    SDesc.mk' Arith.exact chk s e = .ok (canon s e) :=
  mk'_exact.2 ⟨rfl, fun _ _ => h⟩

/-- Invariant of legal histories on meanings. -/
def AGood : AObj → Prop
  | .view _ => True
  | .part v sels => sels.length < v.ext.length ∧ selsInside v.ext sels ∧ ∀ l ∈ sels, l ≠ []

/-- Invariant of legal histories on objects. -/
def Obj.ArgsPos : Obj → Prop
  | .proxy _ _ args => ∀ a ∈ args, a.Pos
  | _ => True

theorem selsInside_snoc {e : List Nat} {sels : List (List Nat)} {l : List Nat}
    (h : selsInside e sels) (hl : ∀ i ∈ l, i < e.getD sels.length 0) : selsInside e (sels ++ [l]) := by
  intro k m x hm hx i hi
  rcases Nat.lt_trichotomy k sels.length with hk | hk | hk
  · rw [List.getElem?_append_left hk] at hm
    exact h k m x hm hx i hi
  · subst hk
    simp at hm
    subst hm
    have := hl i hi
    rw [List.getD_eq_getElem?_getD, hx] at this
    exact this
  · rw [List.getElem?_append_right (by omega)] at hm
    have : k - sels.length ≠ 0 := by omega
    cases hq : k - sels.length with
    | zero => omega
    | succ n => rw [hq] at hm; simp at hm

/-- Outcome of a legal step. -/
def StepOK (r : Res Obj) : Prop := (∃ o, r = .ok o ∧ o.ArgsPos) ∨ r = .error .illFormed

theorem arraySlice_stepOK {off : Nat} {m : Mapper} {args : List Arg} (hm : m.WF)
    (hi : selsInside m.desc.ext (args.map Arg.sel)) (hl : args.length = m.desc.ext.length)
    (hp : ∀ a ∈ args, a.Pos) (hn : ∀ a ∈ args, a.sel ≠ []) :
    StepOK (arraySlice Arith.exact true off m args) := by
  obtain ⟨o, ho⟩ := arraySlice_complete (off := off) hm (selsInside_inside (by simp [hl]) hi) hp hn
  refine .inl ⟨o, ho, ?_⟩
  obtain ⟨⟨m', rfl, _⟩, _⟩ := arraySlice_sound hm ho
  trivial

/-- A legal argument in the first dimension. -/
structure ArgOK (d : Nat) (a : Arg) : Prop where
  pos : a.Pos
  ne : a.sel ≠ []
  inside : ∀ i ∈ a.sel, i < d

theorem ArgOK.of_sel {d : Nat} {a : Arg} {ix : Ix} (h : LegalIx d ix) (hs : a.sel = sel d ix)
    (hp : ∀ s x t, a = .slice s x t → 0 < t) : ArgOK d a :=
  ⟨pos_sel_ne (by rw [hs]; exact h.2.1) hp, by rw [hs]; exact h.2.1, by rw [hs]; exact h.2.2⟩

theorem arrayAtArg_stepOK {off : Nat} {m : Mapper} {a : Arg} (hm : m.WF)
    (ha : ArgOK (m.desc.ext.headD 0) a) : StepOK (arrayAtArg Arith.exact true off m a) := by
  unfold arrayAtArg
  split
  · next hl =>
    refine arraySlice_stepOK hm ?_ (by simp [hl]) (by simpa using ha.pos) (by simpa using ha.ne)
    obtain ⟨e, he⟩ := List.length_eq_one_iff.1 hl
    have := ha.inside
    rw [he] at this ⊢
    exact inside_selsInside (ls := [a.sel]) ⟨by simpa using this, trivial⟩
  · exact .inl ⟨_, rfl, by simpa [Obj.ArgsPos] using ha.pos⟩

theorem proxyAt_stepOK {off : Nat} {m : Mapper} {args : List Arg} {a : Arg} (hm : m.WF)
    (hi : selsInside m.desc.ext (args.map Arg.sel)) (hl : args.length < m.desc.ext.length)
    (hp : ∀ a ∈ args, a.Pos) (hn : ∀ a ∈ args, a.sel ≠ [])
    (ha : ArgOK (m.desc.ext.getD args.length 0) a) : StepOK (proxyAt Arith.exact true off m args a) := by
  have hp' : ∀ b ∈ args ++ [a], b.Pos := by
    intro b hb
    rcases List.mem_append.1 hb with hb | hb
    · exact hp b hb
    · rw [List.mem_singleton.1 hb]; exact ha.pos
  unfold proxyAt
  split
  · next h =>
    refine arraySlice_stepOK hm ?_ (by simp; omega) hp' ?_
    · rw [List.map_append]
      exact selsInside_snoc hi (by simpa using ha.inside)
    · intro b hb
      rcases List.mem_append.1 hb with hb | hb
      · exact hn b hb
      · rw [List.mem_singleton.1 hb]; exact ha.ne
  · exact .inl ⟨_, rfl, hp'⟩

theorem boundedStrided_ok {s mx t dim : Nat} (ht : 0 < t) :
    ∃ x, boundedStridedExtent Arith.exact s mx t dim = .ok x := by
  unfold boundedStridedExtent seqSize
  split
  · rw [if_neg (by omega)]; exact ⟨_, rfl⟩
  · exact ⟨_, rfl⟩

theorem proxyIndex_stepOK {off : Nat} {m : Mapper} {args : List Arg} {ix : Ix} (hm : m.WF)
    (hi : selsInside m.desc.ext (args.map Arg.sel)) (hl : args.length < m.desc.ext.length)
    (hp : ∀ a ∈ args, a.Pos) (hn : ∀ a ∈ args, a.sel ≠ [])
    (h : LegalIx (m.desc.ext.getD args.length 0) ix) :
    StepOK (proxyIndex Arith.exact true off m args ix) := by
  cases ix with
  | «at» i => exact proxyAt_stepOK hm hi hl hp hn (.of_sel h rfl (by simp))
  | slice s x => exact proxyAt_stepOK hm hi hl hp hn (.of_sel h (sel_slice _ _ _) (by simp))
  | strided s x t =>
    exact proxyAt_stepOK hm hi hl hp hn (.of_sel h rfl (by
      rintro _ _ _ h'; cases h'; exact h.1))
  | every => exact proxyAt_stepOK hm hi hl hp hn (.of_sel h (sel_every _) (by simp))
  | bounded s mx => exact proxyAt_stepOK hm hi hl hp hn (.of_sel h (sel_bounded _ _ _) (by simp))
  | boundedStrided s mx t =>
    have ht : 0 < t := h.1
    obtain ⟨x, hx⟩ := boundedStrided_ok (s := s) (mx := mx) (dim := m.desc.ext.getD args.length 0) ht
    simp only [proxyIndex, hx, res_ok_bind]
    refine proxyAt_stepOK hm hi hl hp hn (.of_sel h (sel_boundedStrided hx) (by
      rintro _ _ _ h'; cases h'; exact ht))
  | rng l => exact proxyAt_stepOK hm hi hl hp hn (.of_sel h rfl (by simp))

theorem srefIndex_stepOK {off : Nat} {m : Mapper} {ix : Ix} (hm : m.WF)
    (h : LegalIx (m.desc.ext.headD 0) ix) : StepOK (srefIndex Arith.exact true off m ix) := by
  cases ix with
  | «at» i =>
    have hi := h.2.2 i (by simp [sel])
    obtain ⟨o, ho⟩ := arrayAtIdx_complete (off := off) hm hi
    refine .inl ⟨o, ho, ?_⟩
    unfold arrayAtIdx at ho
    simp only [res_bind_ok] at ho
    obtain ⟨_, _, ho⟩ := ho
    split at ho
    · simp only [res_bind_ok, Except.ok.injEq] at ho
      obtain ⟨_, _, rfl⟩ := ho; trivial
    · simp only [res_bind_ok, Except.ok.injEq] at ho
      obtain ⟨_, _, rfl⟩ := ho; trivial
  | slice s x => exact arrayAtArg_stepOK hm (.of_sel h (sel_slice _ _ _) (by simp))
  | strided s x t =>
    exact arrayAtArg_stepOK hm (.of_sel h rfl (by rintro _ _ _ h'; cases h'; exact h.1))
  | every =>
    refine .inl ⟨_, rfl, ?_⟩
    unfold arrayAtEvery
    split
    · trivial
    · have : 0 < m.desc.ext.headD 0 := by
        have := h.2.1
        rcases Nat.eq_zero_or_pos (m.desc.ext.headD 0) with h0 | h0
        · rw [h0] at this; simp [sel] at this
        · exact h0
      intro a ha
      rw [List.mem_singleton.1 ha]
      exact ⟨by omega, this⟩
  | bounded s mx => exact arrayAtArg_stepOK hm (.of_sel h (sel_bounded _ _ _) (by simp))
  | boundedStrided s mx t =>
    have ht : 0 < t := h.1
    obtain ⟨x, hx⟩ := boundedStrided_ok (s := s) (mx := mx) (dim := m.desc.ext.headD 0) ht
    simp only [srefIndex, hx, res_ok_bind]
    exact arrayAtArg_stepOK hm (.of_sel h (sel_boundedStrided hx) (by
      rintro _ _ _ h'; cases h'; exact ht))
  | rng l => exact arrayAtArg_stepOK hm (.of_sel h rfl (by simp))

theorem everyFallback_stepOK {off : Nat} {ext : List Nat} {M : Nat} {ix : Ix}
    (hM : 1 ≤ M ∧ M < ext.length) (hz : ∀ x ∈ ext, x ≠ 0) (h : LegalIx (ext.getD M 0) ix) :
    StepOK (everyFallback Arith.exact true off ext M ix) := by
  unfold everyFallback
  rw [mk'_ok hz, res_ok_bind]
  have hlen : ((ext.take M).map fun e => Arg.slice 0 e 1).length = M := by simp; omega
  have hne : ext ≠ [] := by intro h; subst h; simp at hM
  refine proxyIndex_stepOK (m := .ident (canon 0 ext)) (canon_WF hne fun _ => hz) ?_ ?_ ?_ ?_ ?_
  · simp only [Mapper.desc, canon, List.map_map]
    intro k l x hl hx i hi
    simp only [List.getElem?_map, Option.map_eq_some_iff, Function.comp] at hl
    obtain ⟨y, hy, rfl⟩ := hl
    have hk : k < M := by
      have := (List.getElem?_eq_some_iff.1 hy).1
      simp at this; omega
    rw [List.getElem?_take, if_pos hk, hx] at hy
    cases hy
    simp [Arg.sel] at hi
    exact hi
  · rw [hlen]; exact hM.2
  · intro a ha
    obtain ⟨e, he, rfl⟩ := List.mem_map.1 ha
    exact ⟨by omega, Nat.pos_of_ne_zero (hz e (List.mem_of_mem_take he))⟩
  · intro a ha
    obtain ⟨e, he, rfl⟩ := List.mem_map.1 ha
    have := hz e (List.mem_of_mem_take he)
    simpa [Arg.sel] using this
  · rw [hlen]; exact h

theorem legalIx_congr {d : Nat} {ix ix' : Ix} (h : LegalIx d ix) (hs : sel d ix' = sel d ix)
    (ho : strideOK ix') : LegalIx d ix' := ⟨ho, by rw [hs]; exact h.2.1, by rw [hs]; exact h.2.2⟩

theorem slice_check {s x d : Nat} (h : LegalIx d (.slice s x)) : usub (s + x) 1 < d := by
  have hx : 0 < x := by
    rcases Nat.eq_zero_or_pos x with h0 | h0
    · have := h.2.1; simp [sel, h0] at this
    · exact h0
  have := h.2.2 (s + (x - 1)) (by simp only [sel, List.mem_map, List.mem_range]; exact ⟨x - 1, by omega, rfl⟩)
  rw [usub_one (by omega)]; omega

theorem everyIndex_stepOK {off : Nat} {ext : List Nat} {M : Nat} {ix : Ix}
    (hM : 1 ≤ M ∧ M < ext.length) (hz : ∀ x ∈ ext, x ≠ 0) (h : LegalIx (ext.getD M 0) ix) :
    StepOK (everyIndex Arith.exact true off ext M ix) := by
  have hlast : ext.getD (ext.length - 1) 0 ≠ 0 := by
    have hlt : ext.length - 1 < ext.length := by omega
    rw [List.getD_eq_getElem?_getD, List.getElem?_eq_getElem hlt]
    exact hz _ (List.getElem_mem _)
  cases ix with
  | «at» i =>
    simp only [everyIndex]
    split
    · next hMl =>
      have := h.2.2 i (by simp [sel])
      rw [hMl] at this
      simp only [this, decide_true, dbg_any_true, res_ok_bind]
      exact .inl ⟨_, rfl, trivial⟩
    · exact .inr rfl
  | slice s x =>
    simp only [everyIndex]
    split
    · next hMl =>
      have := slice_check h
      rw [hMl] at this
      simp only [Arith.exact_add, this, decide_true, dbg_any_true, res_ok_bind]
      exact .inl ⟨_, rfl, trivial⟩
    · exact everyFallback_stepOK hM hz h
  | strided s x t => exact everyFallback_stepOK hM hz h
  | every =>
    simp only [everyIndex]
    split
    · exact .inl ⟨_, rfl, trivial⟩
    · exact .inl ⟨_, rfl, trivial⟩
  | bounded s mx =>
    exact everyFallback_stepOK hM hz (legalIx_congr h (by rw [← sel_slice, sel_bounded]) trivial)
  | boundedStrided s mx t =>
    have ht : 0 < t := h.1
    obtain ⟨x, hx⟩ := boundedStrided_ok (s := s) (mx := mx) (dim := ext.getD M 0) ht
    simp only [everyIndex, hx, res_ok_bind]
    exact everyFallback_stepOK hM hz (legalIx_congr h (by
      rw [← sel_strided (ext.getD M 0) s x t, sel_boundedStrided hx]) ht)
  | rng l => exact everyFallback_stepOK hM hz h

theorem arrayAtArgC_stepOK {off : Nat} {ext : List Nat} {a : Arg} (hne : ext ≠ [])
    (hz : ∀ x ∈ ext, x ≠ 0) (ha : ArgOK (ext.headD 0) a) :
    StepOK (arrayAtArgC Arith.exact true off ext a) := by
  unfold arrayAtArgC
  rw [mk'_ok hz, res_ok_bind]
  exact arrayAtArg_stepOK (m := .ident (canon 0 ext)) (canon_WF hne fun _ => hz) ha

theorem arrayAtSliceC_stepOK {off : Nat} {ext : List Nat} {s x : Nat} (hne : ext ≠ [])
    (hz : ∀ x ∈ ext, x ≠ 0) (h : LegalIx (ext.headD 0) (.slice s x)) :
    StepOK (arrayAtSliceC Arith.exact true off ext s x) := by
  unfold arrayAtSliceC
  split
  · next e =>
    have := slice_check h
    simp only [List.headD_cons] at this
    simp only [Arith.exact_add, this, decide_true, dbg_any_true, res_ok_bind]
    exact .inl ⟨_, rfl, trivial⟩
  · rw [mk'_ok hz, res_ok_bind]
    exact arrayAtArg_stepOK (m := .ident (canon 0 ext)) (canon_WF hne fun _ => hz)
      (.of_sel h (sel_slice _ _ _) (by simp))

theorem crefIndex_stepOK {off : Nat} {ext : List Nat} {ix : Ix} (hne : ext ≠ [])
    (hz : ∀ x ∈ ext, x ≠ 0) (h : LegalIx (ext.headD 0) ix) :
    StepOK (crefIndex Arith.exact true off ext ix) := by
  cases ix with
  | «at» i =>
    have hi := h.2.2 i (by simp [sel])
    simp only [crefIndex, hi, decide_true, dbg_any_true, res_ok_bind]
    split
    · exact .inl ⟨_, rfl, trivial⟩
    · next hl =>
      rw [mk'_ok hz, res_ok_bind, discard_complete (canon_WF hne fun _ => hz) hl, res_ok_bind]
      exact .inl ⟨_, rfl, trivial⟩
  | slice s x => exact arrayAtSliceC_stepOK hne hz h
  | strided s x t =>
    exact arrayAtArgC_stepOK hne hz (.of_sel h rfl (by rintro _ _ _ h'; cases h'; exact h.1))
  | every =>
    simp only [crefIndex]
    split <;> exact .inl ⟨_, rfl, trivial⟩
  | bounded s mx =>
    exact arrayAtSliceC_stepOK hne hz (legalIx_congr h (by rw [← sel_slice, sel_bounded]) trivial)
  | boundedStrided s mx t =>
    have ht : 0 < t := h.1
    obtain ⟨x, hx⟩ := boundedStrided_ok (s := s) (mx := mx) (dim := ext.headD 0) ht
    simp only [crefIndex, hx, res_ok_bind]
    exact arrayAtArgC_stepOK hne hz (.of_sel h (sel_boundedStrided hx) (by
      rintro _ _ _ h'; cases h'; exact ht))
  | rng l =>
    simp only [crefIndex]
    split
    · next hl =>
      obtain ⟨e, rfl⟩ := List.length_eq_one_iff.1 hl
      have h1 : maxIdx l < e := maxIdx_lt.2 ⟨Nat.pos_of_ne_zero (hz e (by simp)), h.2.2⟩
      simp only [List.headD_cons, h1, decide_true, dbg_any_true, res_ok_bind]
      rw [mkVec_exact.2 ⟨rfl, by simp [prod], by simp⟩]
      exact .inl ⟨_, rfl, trivial⟩
    · exact arrayAtArgC_stepOK hne hz (.of_sel h rfl (by simp))

theorem index_stepOK {o : Obj} {ix : Ix} (hwf : o.WF) (hp : o.ArgsPos) (hg : AGood o.abs)
    (h : Legal o.abs ix) : StepOK (o.index Arith.exact true ix) := by
  cases o with
  | elem p => exact .inr rfl
  | cref off ext => exact crefIndex_stepOK hwf h.1 h.2
  | sref off m =>
    have h2 : LegalIx ((m.aview off).ext.headD 0) ix := h.2
    rw [Mapper.aview_ext] at h2
    exact srefIndex_stepOK hwf h2
  | proxy off m args =>
    obtain ⟨_, g2, g3⟩ := hg
    have h2 : LegalIx ((m.aview off).ext.getD (args.map Arg.sel).length 0) ix := h.2
    rw [Mapper.aview_ext, List.length_map] at h2
    rw [Mapper.aview_ext] at g2
    exact proxyIndex_stepOK hwf.1 g2 hwf.2.2 hp (fun a ha => g3 _ (List.mem_map_of_mem ha)) h2
  | everyProxy off ext M =>
    have hM : 1 ≤ M ∧ M < ext.length := hwf
    have h2 : LegalIx (ext.getD ((ext.take M).map List.range).length 0) ix := h.2
    have : ((ext.take M).map List.range).length = M := by simp; omega
    rw [this] at h2
    exact everyIndex_stepOK hM h.1 h2

theorem agood_close {v : AView} {sels : List (List Nat)} (h1 : selsInside v.ext sels)
    (h2 : ∀ l ∈ sels, l ≠ []) (h3 : sels.length ≤ v.ext.length) : AGood (close v sels) := by
  unfold close
  split
  · trivial
  · exact ⟨by omega, h1, h2⟩

theorem agood_astep {a : AObj} {ix : Ix} (hg : AGood a) (h : Legal a ix) : AGood (astep a ix) := by
  cases a with
  | view v =>
    by_cases hx : ∃ i, ix = .at i
    · obtain ⟨i, rfl⟩ := hx; trivial
    · have hx : ∀ i, ix ≠ .at i := fun i hi => hx ⟨i, hi⟩
      rw [astep_view_notAt hx]
      obtain ⟨h1, _, h3, h4⟩ := h
      have hne : v.ext ≠ [] := by
        intro h0
        rw [h0] at h3 h4
        cases hs : sel 0 ix with
        | nil => exact h3 hs
        | cons x l => have := h4 x (by simp [hs]); simp at this
      refine agood_close ?_ (by simpa using h3) ?_
      · have := selsInside_snoc (e := v.ext) (sels := []) (l := sel (v.ext.headD 0) ix) (by
          intro k l x hk; simp at hk) (by
          intro i hi
          have := h4 i hi
          cases he : v.ext with
          | nil => exact absurd he hne
          | cons e es => rw [he] at this; simpa using this)
        simpa using this
      · cases he : v.ext with
        | nil => exact absurd he hne
        | cons e es => simp
  | part v s =>
    obtain ⟨g1, g2, g3⟩ := hg
    obtain ⟨h1, _, h3, h4⟩ := h
    refine agood_close (selsInside_snoc g2 h4) ?_ (by simp; omega)
    intro l hl
    rcases List.mem_append.1 hl with hl | hl
    · exact g3 l hl
    · rw [List.mem_singleton.1 hl]; exact h3

theorem legal_congr {a b : AObj} {ix : Ix} (h : SameObj a b) (hl : Legal a ix) : Legal b ix := by
  cases a with
  | view v =>
    cases b with
    | view w =>
      have h : SameView v w := h
      simp only [Legal] at hl ⊢
      rw [← h.1]; exact hl
    | part w t => exact h.elim
  | part v s =>
    cases b with
    | view w => exact h.elim
    | part w t =>
      obtain ⟨h, rfl⟩ := h
      simp only [Legal] at hl ⊢
      rw [← h.1]; exact hl

theorem agood_congr {a b : AObj} (h : SameObj a b) (hl : AGood a) : AGood b := by
  cases a with
  | view v =>
    cases b with
    | view w => trivial
    | part w t => exact h.elim
  | part v s =>
    cases b with
    | view w => exact h.elim
    | part w t =>
      obtain ⟨h, rfl⟩ := h
      simp only [AGood] at hl ⊢
      rw [← h.1]; exact hl

theorem run_complete : ∀ {h : List Ix} {o : Obj} {a : AObj}, o.WF → o.ArgsPos → SameObj o.abs a →
    AGood a → LegalAll a h → (∃ o', o.run Arith.exact true h = .ok o') ∨
      o.run Arith.exact true h = .error .illFormed
  | [], o, _, _, _, _, _, _ => .inl ⟨o, rfl⟩
  | ix :: h, o, a, hwf, hp, hs, hg, ⟨h1, h2⟩ => by
    rcases index_stepOK hwf hp (agood_congr hs.symm hg) (legal_congr hs.symm h1) with ⟨o1, ho, hp'⟩ | ho
    · have st := (index_step hwf ho).congr hs
      have := run_complete st.wf hp' st.same (agood_astep hg h1) h2
      simpa only [Obj.run, List.foldlM_cons, ho, res_ok_bind] using this
    · right
      simp only [Obj.run, List.foldlM_cons, ho, res_error_bind]

end Jules

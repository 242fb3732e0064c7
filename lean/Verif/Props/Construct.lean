import Verif.Lemmas.Init
/-
C15, C16, C24: construction of arrays.

`contents h o` is the memory owned by the array object `o` in heap `h`; `Reads (contents h o) (.cref 0 o.ext) i x`
says that `o[i₀]…[i_{N-1}]` reads `x`.
-/
namespace Jules.Props
open Spec

/-! ### C15 -/

/-- **C15.** In a checked build a nested initialiser list is accepted iff it is rectangular (no list empty);
the extents are the lengths at each level; otherwise it is reported. -/
theorem C15_accept_iff (n : Nat) (v : Nest α n) :
    (∀ ext, calcDesc true n v = .ok ext ↔ Rect n v ext ∧ ∀ e ∈ ext, e ≠ 0) ∧
      ((¬ ∃ ext, Rect n v ext ∧ ∀ e ∈ ext, e ≠ 0) → calcDesc true n v = .error .assert) :=
  ⟨calcDesc_iff n v, calcDesc_reject⟩

/-- **C15.** A list that is not rectangular makes the construction fail before anything is allocated. -/
theorem C15_reject (S : Nat → Bool) {n : Nat} {v : Nest α n} (h : ¬ ∃ ext, Rect n v ext ∧ ∀ e ∈ ext, e ≠ 0)
    (hp : Heap α) : initArr S true n v hp = .fail .assert := by
  simp [initArr, calcDesc_reject h, HM.lift, bind, HM.bind]

example : ¬ ∃ ext : List Nat, Rect 2 ([[1, 2, 3], [4, 5]] : List (List Nat)) ext ∧ ∀ e ∈ ext, e ≠ 0 := by
  rintro ⟨ext, ⟨e, es, rfl, h1, h2⟩, h3⟩
  obtain ⟨e1, es1, rfl, h4, _⟩ := h2 ([1, 2, 3] : List Nat) (.head _)
  obtain ⟨e2, es2, h5, h6, _⟩ := h2 ([4, 5] : List Nat) (.tail _ (.head _))
  cases h5
  rw [← h4] at h6
  exact absurd h6 (by decide)

theorem initArr_eq {S : Nat → Bool} {chk : Bool} {n : Nat} {v : Nest α n} {ext : List Nat} (hr : Rect n v ext)
    (hz : ∀ e ∈ ext, e ≠ 0) (h : Heap α) :
    initArr S chk n v h = newArr S ext (((lexIdx ext).filterMap fun i =>
      (nestGet n v i).map fun x => (Desc.pos Arith.exact ext i, x)).map fun p => (p.1, pure p.2)) h := by
  have hp := initPlan_eq ext (idx := []) hr
  simp only [List.nil_append] at hp
  simp only [initArr, newArr, calcDesc_rect hr hz, HM.lift, bind, HM.bind, hp]

theorem plan_fst {f : List Nat → Nat} {g : List Nat → Option α} : ∀ {l : List (List Nat)}, (∀ i ∈ l, g i ≠ none) →
    (l.filterMap fun i => (g i).map fun x => (f i, x)).map (·.1) = l.map f
  | [], _ => rfl
  | i :: l, h => by
    cases hg : g i with
    | none => exact (h i (by simp) hg).elim
    | some x =>
      rw [List.filterMap_cons_some (b := (f i, x)) (by simp [hg])]
      simp [plan_fst (l := l) fun j hj => h j (by simp [hj])]

/-- What construction from a rectangular nested list does. -/
theorem post_initArr {S : Nat → Bool} {chk : Bool} {n : Nat} {v : Nest α n} {ext : List Nat} (hn : n ≠ 0)
    (hr : Rect n v ext) (hz : ∀ e ∈ ext, e ≠ 0) (h : Heap α) :
    Post (initArr S chk n v h)
      (fun o h' => o.ext = ext ∧ (∀ i, InB ext i → Reads (contents h' o) (.cref 0 ext) i (nestGet n v i)) ∧
        o = ⟨some h.blocks.length, ext⟩ ∧ (∃ c, h'.cells h.blocks.length = some c ∧ c.length = prod ext ∧ ∀ x ∈ c, x ≠ none) ∧
        Same h.blocks.length h h')
      (fun _ h' => Thr S ∧ (∀ j, h'.cells j = h.cells j) ∧ h'.lost = h.lost) := by
  rw [initArr_eq hr hz]
  have hlen := rect_length hr hz
  have hne : ext ≠ [] := by rintro rfl; exact hn (by simpa using hlen.symm)
  have htot : ∀ i ∈ lexIdx ext, nestGet n v i ≠ none := fun i hi => nestGet_ne_none hr (mem_lexIdx.1 hi)
  have hpos : ∀ i, InB ext i → Desc.pos Arith.exact ext i = cmPos ext i := fun i hi => desc_pos_exact (inB_length hi)
  have hfst : ((((lexIdx ext).filterMap fun i => (nestGet n v i).map fun x => (Desc.pos Arith.exact ext i, x)).map
      fun p => (p.1, (pure p.2 : HM α α))).map (·.1)) = (lexIdx ext).map (Desc.pos Arith.exact ext) := by
    rw [List.map_map]
    exact plan_fst htot
  have hF := filterMap_total (F := fun i => (nestGet n v i).map fun x => (Desc.pos Arith.exact ext i, x))
    (l := lexIdx ext) (by intro a ha; simpa using htot a ha)
  have hok : PlanOK h.blocks.length (prod ext) h
      (((lexIdx ext).filterMap fun i => (nestGet n v i).map fun x => (Desc.pos Arith.exact ext i, x)).map
        fun p => (p.1, (pure p.2 : HM α α)))
      (((lexIdx ext).filterMap fun i => (nestGet n v i).map fun x => (Desc.pos Arith.exact ext i, x)).map (·.2)) := by
    refine ⟨by simp, ?_, ?_, ?_⟩
    · intro j p x hp hx
      simp only [List.getElem?_map, Option.map_eq_some_iff] at hp hx
      obtain ⟨q, hq, rfl⟩ := hp
      obtain ⟨q', hq', rfl⟩ := hx
      rw [hq] at hq'; cases hq'
      exact good_pure _
    · rw [hfst]
      apply List.Nodup.map_on _ (lexIdx_nodup ext)
      intro i hi j hj he
      have hi := mem_lexIdx.1 hi
      have hj := mem_lexIdx.1 hj
      rw [hpos i hi, hpos j hj] at he
      exact cmPos_inj hi hj he
    · intro q
      rw [hfst, List.mem_map]
      constructor
      · rintro ⟨i, hi, rfl⟩
        have hi := mem_lexIdx.1 hi
        rw [hpos i hi]; exact cmPos_lt hi
      · intro hq
        exact ⟨unflatten ext q, mem_lexIdx.2 (unflatten_inB hq), by rw [hpos _ (unflatten_inB hq), cmPos_unflatten hq]⟩
  refine (post_newArr hok).mono ?_ (fun _ _ h => h)
  rintro o h' ⟨c, rfl, a2, a3, a4, a5⟩
  have hel : ∀ i, InB ext i → ∃ x, nestGet n v i = some x ∧ c[cmPos ext i]? = some (some x) := by
    intro i hi
    obtain ⟨j, hj⟩ := List.mem_iff_getElem?.1 (mem_lexIdx.2 hi)
    cases hg : nestGet n v i with
    | none => exact (htot i (mem_lexIdx.2 hi) hg).elim
    | some x =>
      refine ⟨x, rfl, ?_⟩
      have h1 := hF.2 j i hj
      simp only [hg, Option.map_some] at h1
      have := a4 j (Desc.pos Arith.exact ext i, pure x) x
        (by simp only [List.getElem?_map]; rw [h1]; rfl) (by simp only [List.getElem?_map]; rw [h1]; rfl)
      rwa [hpos i hi] at this
  refine ⟨rfl, ?_, rfl, ⟨c, a2, a3, ?_⟩, a5⟩
  · intro i hi
    refine ⟨_, (array_observes 0 hne).element i hi, ?_⟩
    obtain ⟨x, hx, hc⟩ := hel i hi
    have hp : (arrayView 0 ext).pos i = cmPos ext i := by
      simp only [arrayView, Nat.zero_add]; exact (cmPos_eq_sum (inB_length hi)).symm
    simp [contents, a2, hp, hc, hx]
  · intro x hx
    obtain ⟨k, hk⟩ := List.mem_iff_getElem?.1 hx
    have hlt : k < prod ext := by
      have := (List.getElem?_eq_some_iff.1 hk).1
      omega
    obtain ⟨y, _, hy⟩ := hel _ (unflatten_inB hlt)
    rw [cmPos_unflatten hlt, hk] at hy
    rw [Option.some.inj hy]; simp

/-- **C15.** Construction from a rectangular list with extents `ext`: unless an element's copy constructor (or
the allocation) throws, the array has extents `ext` and `a[i₀]…[i_{N-1}]` is the value written at that position
of the list. -/
theorem C15_elements {S : Nat → Bool} (hS : ∀ t, S t = false) {chk : Bool} {n : Nat} {v : Nest α n} {ext : List Nat}
    (hn : n ≠ 0) (hr : Rect n v ext) (hz : ∀ e ∈ ext, e ≠ 0) (h : Heap α) :
    ∃ o h', initArr S chk n v h = .ok o h' ∧ o.ext = ext ∧
      ∀ i, InB ext i → Reads (contents h' o) (.cref 0 ext) i (nestGet n v i) := by
  have := post_initArr (S := S) (chk := chk) hn hr hz h
  cases hr : initArr S chk n v h with
  | ok o h' => rw [hr] at this; exact ⟨o, h', rfl, this.1, this.2.1⟩
  | exn e h' =>
    rw [hr] at this
    obtain ⟨t, ht⟩ := this.1
    rw [hS t] at ht; cases ht
  | fail f => rw [hr] at this; exact this.elim

/-- `{{1, 2, 3}, {4, 5, 6}}` is a 2×3 matrix, stored by columns. -/
example : Rect 2 ([[1, 2, 3], [4, 5, 6]] : List (List Nat)) [2, 3] := by
  refine ⟨2, [3], rfl, rfl, ?_⟩
  intro x hx
  refine ⟨3, [], rfl, ?_, fun _ _ => rfl⟩
  rcases List.mem_cons.1 hx with rfl | hx
  · rfl
  · rcases List.mem_cons.1 hx with rfl | hx
    · rfl
    · cases hx
example : (match initArr (fun _ => false) true 2 ([[1, 2, 3], [4, 5, 6]] : List (List Nat)) ⟨[], 0, 0⟩ with
    | .ok o h => some (o.ext, h.blocks)
    | _ => none) = some ([2, 3], [some [some 1, some 4, some 2, some 5, some 3, some 6]]) := by rfl
example : (match initArr (fun _ => false) true 2 ([[1, 2, 3], [4, 5]] : List (List Nat)) ⟨[], 0, 0⟩ with
    | .fail .assert => true
    | _ => false) = true := by rfl

/-! ### C16 -/

theorem contents_of {h : Heap α} {id : Nat} {ext : List Nat} {vs : List α} (hc : h.cells id = some (vs.map some)) (p : Nat) :
    contents h ⟨some id, ext⟩ p = vs[p]? := by
  simp only [contents, hc, Option.bind_some, List.getElem?_map]
  cases vs[p]? <;> rfl

/-- What an array built from the sequence `vs` looks like: extents, elements by multi-index (column-major), and
iteration order. -/
structure Holds (h : Heap α) (o : Own) (ext : List Nat) (vs : List α) : Prop where
  dims : o.ext = ext
  element : ∀ i, InB ext i → Reads (contents h o) (.cref 0 ext) i vs[cmSum ext i]?
  iterate : ∃ ps, (Obj.cref 0 o.ext).positions Arith.exact = .ok ps ∧ ps.map (contents h o) = vs.map some

theorem holds_of {h : Heap α} {id : Nat} {ext : List Nat} {vs : List α} (hne : ext ≠ []) (hl : vs.length = prod ext)
    (hc : h.cells id = some (vs.map some)) : Holds h ⟨some id, ext⟩ ext vs := by
  refine ⟨rfl, ?_, ?_⟩
  · intro i hi
    refine ⟨_, (array_observes 0 hne).element i hi, ?_⟩
    rw [contents_of hc]; simp [arrayView]
  · refine ⟨List.range (prod ext), by simp [Obj.positions, prodL_exact], ?_⟩
    apply List.ext_getElem?
    intro k
    by_cases hk : k < prod ext
    · simp [hk, contents_of hc, hl]
    · rw [List.getElem?_eq_none (by simpa using hk), List.getElem?_eq_none (by simp; omega)]

/-- **C16.** An array built from an iterator (delivering at least `size` elements; with one dimension also from a
range) contains the first `size` elements in column-major order, and iterating it yields exactly them. -/
theorem C16_from_sequence {S : Nat → Bool} {ext : List Nat} (hne : ext ≠ []) {l : List α} (hl : prod ext ≤ l.length)
    (h : Heap α) :
    Post (iterArr S l ext h) (fun o h' => Holds h' o ext (l.take (prod ext))) (fun _ _ => Thr S) := by
  have hl' : (l.take (prod ext)).length = prod ext := by simp [hl]
  refine (post_newSeq (vs := l.take (prod ext)) hl' ?_).mono ?_ (fun _ _ h => h.1)
  · intro k v hk
    apply good_iter
    have hlt : k < prod ext := by have := (List.getElem?_eq_some_iff.1 hk).1; omega
    rwa [List.getElem?_take_of_lt hlt] at hk
  · rintro o h' ⟨rfl, hc, _⟩
    exact holds_of hne hl' hc

/-- **C16.** An array built from a fill value has that value everywhere. -/
theorem C16_fill {S : Nat → Bool} {ext : List Nat} (hne : ext ≠ []) (v : α) (h : Heap α) :
    Post (fillArr S v ext h) (fun o h' => Holds h' o ext (List.replicate (prod ext) v)) (fun _ _ => Thr S) := by
  refine (post_newSeq (vs := List.replicate (prod ext) v) (by simp) ?_).mono ?_ (fun _ _ h => h.1)
  · intro k w hk
    have : w = v := List.eq_of_mem_replicate (List.mem_of_getElem? hk)
    subst this; exact good_pure _
  · rintro o h' ⟨rfl, hc, _⟩
    exact holds_of hne (by simp) hc

example := C16_fill (S := fun t => t == 3) (ext := [2, 3]) (by decide) (7 : Int) ⟨[], 0, 0⟩

/-- **C16.** A copy has the same extents and elements, and the source is untouched. -/
theorem C16_copy {S : Nat → Bool} {src : Own} {id : Nat} {vs : List α} {h : Heap α} (hne : src.ext ≠ [])
    (hp : src.ptr = some id) (hc : h.cells id = some (vs.map some)) (hl : vs.length = prod src.ext) :
    Post (copyArr S src h) (fun o h' => Holds h' o src.ext vs ∧ Holds h' src src.ext vs ∧ o.ptr ≠ src.ptr)
      (fun _ _ => Thr S) := by
  have hid : id ≠ h.blocks.length := Nat.ne_of_lt (cells_lt hc)
  have hsz : src.size = prodL Arith.exact src.ext := rfl
  unfold copyArr
  rw [hsz]
  refine (post_newSeq (vs := vs) hl ?_).mono ?_ (fun _ _ h => h.1)
  · intro k v hk
    exact good_own hp hid hc (by simp [hk])
  · rintro o h' ⟨rfl, hc', hs⟩
    refine ⟨holds_of hne hl hc', ?_, by simp [hp, hid.symm]⟩
    have : src = ⟨some id, src.ext⟩ := by cases src; simp_all
    have h2 := holds_of (h := h') (id := id) hne hl (by rw [hs.cells id hid, hc])
    rw [← this] at h2
    exact h2

example := C16_copy (S := fun t => t == 3) (src := ⟨some 0, [2, 2]⟩) (vs := [1, 2, 3, 4]) (h := ⟨[some [some 1, some 2, some 3, some 4]], 0, 0⟩) (by decide) rfl rfl rfl

/-- With a schedule that never throws the constructions return normally. -/
theorem post_noThrow {r : Out α β} {P : β → Heap α → Prop} {S : Nat → Bool} (hS : ∀ t, S t = false)
    (h : Post r P fun _ _ => Thr S) : ∃ b h', r = .ok b h' ∧ P b h' := by
  cases r with
  | ok b h' => exact ⟨b, h', rfl, h⟩
  | exn e h' =>
    obtain ⟨t, ht⟩ := h
    rw [hS t] at ht; cases ht
  | fail f => exact h.elim

example : ∃ o h', iterArr (fun _ => false) [1, 2, 3, 4, 5, 6, 7] [2, 3] (⟨[], 0, 0⟩ : Heap Nat) = .ok o h' ∧
    Holds h' o [2, 3] [1, 2, 3, 4, 5, 6] :=
  post_noThrow (fun _ => rfl) (C16_from_sequence (by simp) (by decide) _)

/-! ### C24 -/

/-- An exception during construction leaves no trace: the same blocks are alive with the same contents, no
element was lost. -/
def Untouched (h h' : Heap α) : Prop := (∀ id, h'.cells id = h.cells id) ∧ h'.lost = h.lost

/-- **C24.** Whichever event throws during the construction of an array (from a fill value, a sequence, another
array or a nested list): the elements already constructed are destroyed once, the block is freed, and the
exception propagates; everything else is untouched. -/
theorem C24_constructors_leak_free {S : Nat → Bool} {h h' : Heap α} {e : Exn} :
    (∀ v ext, fillArr S v ext h = .exn e h' → Untouched h h') ∧
    (∀ l ext, prod ext ≤ l.length → iterArr S l ext h = .exn e h' → Untouched h h') ∧
    (∀ (src : Own) (id : Nat) (vs : List α), src.ptr = some id → h.cells id = some (vs.map some) →
      vs.length = prod src.ext → copyArr S src h = .exn e h' → Untouched h h') ∧
    (∀ (chk : Bool) (n : Nat) (v : Nest α n), n ≠ 0 → (chk = true ∨ ∃ ext, Rect n v ext ∧ ∀ e ∈ ext, e ≠ 0) →
      initArr S chk n v h = .exn e h' → Untouched h h') := by
  refine ⟨?_, ?_, ?_, ?_⟩
  · intro v ext he
    have := post_newSeq (S := S) (h := h) (ext := ext) (src := fun _ => pure v) (vs := List.replicate (prod ext) v) (by simp) (by
      intro k w hk
      have : w = v := List.eq_of_mem_replicate (List.mem_of_getElem? hk)
      subst this; exact good_pure _)
    have he : newArr S ext (seqPlan (prodL Arith.exact ext) fun _ => pure v) h = .exn e h' := he
    rw [he] at this
    exact ⟨this.2.1, this.2.2⟩
  · intro l ext hl he
    have := post_newSeq (S := S) (h := h) (ext := ext) (src := iterSrc l) (vs := l.take (prod ext)) (by simp [hl]) (by
      intro k v hk
      apply good_iter
      have hlt : k < prod ext := by have := (List.getElem?_eq_some_iff.1 hk).1; simp at this; omega
      rwa [List.getElem?_take_of_lt hlt] at hk)
    have he : newArr S ext (seqPlan (prodL Arith.exact ext) (iterSrc l)) h = .exn e h' := he
    rw [he] at this
    exact ⟨this.2.1, this.2.2⟩
  · intro src id vs hp hc hl he
    have hid : id ≠ h.blocks.length := Nat.ne_of_lt (cells_lt hc)
    have := post_newSeq (S := S) (h := h) (ext := src.ext) (src := ownSrc src) (vs := vs) hl
      (fun k v hk => good_own hp hid hc (by simp [hk]))
    have he : newArr S src.ext (seqPlan (prodL Arith.exact src.ext) (ownSrc src)) h = .exn e h' := he
    rw [he] at this
    exact ⟨this.2.1, this.2.2⟩
  · intro chk n v hn hr he
    by_cases hr' : ∃ ext, Rect n v ext ∧ ∀ e ∈ ext, e ≠ 0
    · obtain ⟨ext, hr', hz⟩ := hr'
      have := post_initArr (S := S) (chk := chk) hn hr' hz h
      rw [he] at this
      exact ⟨this.2.1, this.2.2⟩
    · rcases hr with rfl | hr
      · rw [C15_reject S hr'] at he; cases he
      · exact (hr' hr).elim

/-- The second element of four throws: the block is gone and nothing is lost. -/
example : (match fillArr (fun t => t == 2) 7 [2, 2] (⟨[], 0, 0⟩ : Heap Nat) with
    | .exn .user h => some (h.blocks, h.lost)
    | _ => none) = some ([none], 0) := by rfl

end Jules.Props

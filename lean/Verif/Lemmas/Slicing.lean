import Verif.Lemmas.Iterate
import Verif.Spec.View
/-
The slicing functions compute the abstract selections.
-/
namespace Jules
open Spec

/-- The indices selected by an evaluated argument. -/
def Arg.sel : Arg → List Nat
  | .idx i => [i]
  | .slice s x t => (List.range x).map fun k => s + k * t
  | .rng l => l

theorem usub_one {x : Nat} (h : 0 < x) : usub x 1 = x - 1 := by
  unfold usub; rw [if_pos (by omega)]

theorem lt_of_mem_range_map {s x t e i : Nat} (h : s + (x - 1) * t < e)
    (hi : i ∈ (List.range x).map fun k => s + k * t) : i < e := by
  obtain ⟨k, hk, rfl⟩ := List.mem_map.1 hi
  have hk := List.mem_range.1 hk
  have : k * t ≤ (x - 1) * t := Nat.mul_le_mul_right _ (by omega)
  omega

/-- Every selected index is inside its dimension (list recursion form). -/
def Inside : List Nat → List (List Nat) → Prop
  | [], [] => True
  | e :: es, l :: ls => (∀ i ∈ l, i < e) ∧ Inside es ls
  | _, _ => False

theorem inside_length : ∀ {e ls}, Inside e ls → ls.length = e.length
  | [], [], _ => rfl
  | _ :: _, _ :: _, h => by simp [inside_length h.2]
  | [], _ :: _, h => h.elim
  | _ :: _, [], h => h.elim

theorem inside_choose : ∀ {e ls j}, Inside e ls → InB (ls.map List.length) j → InB e (choose ls j)
  | [], [], j, _, h => by simp at h; simp [choose]
  | e :: es, l :: ls, j, h, hj => by
    rw [List.map_cons] at hj
    obtain ⟨a, js, rfl, ha, hjs⟩ := inB_cons.1 hj
    refine ⟨?_, inside_choose h.2 hjs⟩
    rw [List.getD_eq_getElem?_getD, List.getElem?_eq_getElem ha]
    exact h.1 _ (List.getElem_mem _)
  | [], _ :: _, _, h, _ => h.elim
  | _ :: _, [], _, h, _ => h.elim

theorem inside_selsInside : ∀ {e ls}, Inside e ls → selsInside e ls
  | [], [], _ => by intro k l x h; simp at h
  | e :: es, l :: ls, h => by
    intro k m x hm hx
    cases k with
    | zero => simp at hm hx; subst hm hx; exact h.1
    | succ k => simp at hm hx; exact inside_selsInside h.2 k m x hm hx
  | [], _ :: _, h => h.elim
  | _ :: _, [], h => h.elim

theorem selsInside_inside : ∀ {e ls}, ls.length = e.length → selsInside e ls → Inside e ls
  | [], [], _, _ => trivial
  | e :: es, l :: ls, hl, h =>
    ⟨h 0 l e (by simp) (by simp), selsInside_inside (by simpa using hl) fun k m x hm hx =>
      h (k + 1) m x (by simpa using hm) (by simpa using hx)⟩
  | [], _ :: _, hl, _ => by simp at hl
  | _ :: _, [], hl, _ => by simp at hl

@[simp] theorem sel_slice_length (s x t : Nat) : (Arg.sel (.slice s x t)).length = x := by
  simp [Arg.sel]

theorem sel_slice_getD {s x t k : Nat} (h : k < x) : (Arg.sel (.slice s x t)).getD k 0 = s + k * t := by
  simp [Arg.sel, List.getD_eq_getElem?_getD, h]

/-- Soundness of default slicing in a checked build. -/
theorem doSlice_sound : ∀ {args : List Arg} {s : Nat} {e t : List Nat} {s' : Nat} {e' t' : List Nat},
    doSlice Arith.exact true s e t args = .ok (s', e', t') → (∀ x ∈ t, 0 < x) →
      Inside e (args.map Arg.sel) ∧ e' = (args.map Arg.sel).map List.length ∧
      t'.length = e'.length ∧ (∀ x ∈ t', 0 < x) ∧ (∀ x ∈ e', x ≠ 0) ∧
      args.all Arg.isDefault = true ∧
      ∀ j, InB e' j → s' + dotP j t' = s + dotP (choose (args.map Arg.sel) j) t
  | [], s, e, t, s', e', t', h, _ => by
    cases e <;> cases t <;> simp [doSlice] at h
    obtain ⟨rfl, rfl, rfl⟩ := h
    simp [Inside, dotP, choose]
  | a :: as, s, [], t, s', e', t', h, _ => by
    cases t <;> cases a <;> simp [doSlice] at h
  | a :: as, s, e :: es, [], s', e', t', h, _ => by
    cases a <;> simp [doSlice] at h
  | .rng l :: as, s, e :: es, t :: ts, s', e', t', h, _ => by simp [doSlice] at h
  | .idx i :: as, s, e :: es, t :: ts, s', e', t', h, ht => by
    simp only [doSlice, res_bind_ok, dbg_ok, Arith.exact_add, Arith.exact_mul] at h
    obtain ⟨_, h1, ⟨s2, e2, t2⟩, h2, h3⟩ := h
    simp only [Except.ok.injEq, Prod.mk.injEq] at h3
    obtain ⟨rfl, rfl, rfl⟩ := h3
    obtain ⟨i1, i2, i3, i4, i5, i6, i7⟩ := doSlice_sound h2 fun x hx => ht x (by simp [hx])
    have hi : i < e := by simpa using h1
    refine ⟨⟨by simpa [Arg.sel] using hi, i1⟩, by simp [Arg.sel, i2], by simp [i3], ?_, ?_, ?_, ?_⟩
    · intro x hx; rcases List.mem_cons.1 hx with rfl | hx
      · omega
      · exact i4 x hx
    · intro x hx; rcases List.mem_cons.1 hx with rfl | hx
      · omega
      · exact i5 x hx
    · simpa [Arg.isDefault] using i6
    · intro j hj
      obtain ⟨a, js, rfl, ha, hjs⟩ := inB_cons.1 hj
      have : a = 0 := by omega
      subst this
      have := i7 js hjs
      simp only [dotP, List.map_cons, choose, Arg.sel, List.getD_cons_zero]
      rw [Nat.mul_comm i t]
      omega
  | .slice a x d :: as, s, e :: es, t :: ts, s', e', t', h, ht => by
    simp only [doSlice, res_bind_ok, dbg_ok, Arith.exact_add, Arith.exact_mul] at h
    obtain ⟨_, hd, _, hx, _, hb, ⟨s2, e2, t2⟩, h2, h3⟩ := h
    simp only [Except.ok.injEq, Prod.mk.injEq] at h3
    obtain ⟨rfl, rfl, rfl⟩ := h3
    obtain ⟨i1, i2, i3, i4, i5, i6, i7⟩ := doSlice_sound h2 fun x hx => ht x (by simp [hx])
    have hd : 0 < d := by simpa using hd
    have hx : 0 < x := by simpa using hx
    have hb : a + (x - 1) * d < e := by simpa [usub_one hx] using hb
    refine ⟨⟨fun i hi => lt_of_mem_range_map hb hi, i1⟩, by simp [Arg.sel, i2], by simp [i3], ?_, ?_, ?_, ?_⟩
    · intro y hy; rcases List.mem_cons.1 hy with rfl | hy
      · exact Nat.mul_pos (ht t (by simp)) hd
      · exact i4 y hy
    · intro y hy; rcases List.mem_cons.1 hy with rfl | hy
      · omega
      · exact i5 y hy
    · simpa [Arg.isDefault] using i6
    · intro j hj
      obtain ⟨b, js, rfl, hb', hjs⟩ := inB_cons.1 hj
      have := i7 js hjs
      simp only [dotP, List.map_cons, choose]
      rw [sel_slice_getD hb', Nat.add_mul]
      have e1 : b * (t * d) = b * d * t := by rw [Nat.mul_comm t d, Nat.mul_assoc]
      rw [Nat.mul_comm a t, e1]
      omega

/-- Completeness of default slicing: legal arguments are accepted. -/
theorem doSlice_complete : ∀ {args : List Arg} {s : Nat} {e t : List Nat},
    t.length = e.length → args.all Arg.isDefault = true →
      Inside e (args.map Arg.sel) → (∀ a ∈ args, a.sel ≠ []) →
      (∀ s x d, Arg.slice s x d ∈ args → 0 < d) →
      ∃ r, doSlice Arith.exact true s e t args = .ok r
  | [], s, [], [], _, _, _, _, _ => ⟨_, rfl⟩
  | .rng l :: as, _, _, _, _, h, _, _, _ => by simp [Arg.isDefault] at h
  | .idx i :: as, s, e :: es, t :: ts, hl, hd, hi, hn, hp => by
    obtain ⟨r, hr⟩ := @doSlice_complete as (s + t * i) es ts (by simpa using hl)
      (by simpa [Arg.isDefault] using hd) hi.2 (fun a ha => hn a (by simp [ha]))
      (fun s x d h => hp s x d (by simp [h]))
    refine ⟨(r.1, 1 :: r.2.1, 1 :: r.2.2), ?_⟩
    have : i < e := hi.1 i (by simp [Arg.sel])
    simp [doSlice, this, hr]
  | .slice a x d :: as, s, e :: es, t :: ts, hl, hd, hi, hn, hp => by
    obtain ⟨r, hr⟩ := @doSlice_complete as (s + t * a) es ts (by simpa using hl)
      (by simpa [Arg.isDefault] using hd) hi.2 (fun a ha => hn a (by simp [ha]))
      (fun s x d h => hp s x d (by simp [h]))
    refine ⟨(r.1, x :: r.2.1, t * d :: r.2.2), ?_⟩
    have h1 : 0 < d := hp a x d (by simp)
    have h2 : 0 < x := by
      have := hn (.slice a x d) (by simp)
      rcases Nat.eq_zero_or_pos x with h | h
      · subst h; simp [Arg.sel] at this
      · exact h
    have h3 : a + (x - 1) * d < e := by
      apply hi.1
      simp only [Arg.sel, List.mem_map, List.mem_range]
      exact ⟨x - 1, by omega, rfl⟩
    simp [doSlice, h1, h2, usub_one h2, h3, hr]
  | _ :: _, _, [], _, _, _, h, _, _ => by simp [Inside] at h
  | [], _, _ :: _, _, _, _, h, _, _ => by simp [Inside] at h
  | [], _, [], _ :: _, h, _, _, _, _ => by simp at h
  | _ :: _, _, _ :: _, [], h, _, _, _, _ => by simp at h

/-! ### Indirect slicing -/

theorem maxIdx_le {l : List Nat} : ∀ i ∈ l, i ≤ maxIdx l := by
  have key : ∀ (l : List Nat) (s : Nat),
      s ≤ l.foldl (fun s x => if s < x then x else s) s ∧
        ∀ i ∈ l, i ≤ l.foldl (fun s x => if s < x then x else s) s := by
    intro l
    induction l with
    | nil => intro s; simp
    | cons x xs ih =>
      intro s
      simp only [List.foldl_cons, List.mem_cons]
      obtain ⟨h1, h2⟩ := ih (if s < x then x else s)
      refine ⟨?_, ?_⟩
      · split at h1 <;> rename_i hc <;> simp [hc] at h1 ⊢ <;> omega
      · rintro i (rfl | hi)
        · split at h1 <;> rename_i hc <;> simp [hc] at h1 ⊢ <;> omega
        · exact h2 i hi
  exact (key l 0).2

theorem maxIdx_lt {l : List Nat} {n : Nat} : maxIdx l < n ↔ 0 < n ∧ ∀ i ∈ l, i < n := by
  constructor
  · intro h; exact ⟨by omega, fun i hi => Nat.lt_of_le_of_lt (maxIdx_le i hi) h⟩
  · rintro ⟨h0, h⟩
    have key : ∀ (l : List Nat) (s : Nat), s < n → (∀ i ∈ l, i < n) →
        l.foldl (fun s x => if s < x then x else s) s < n := by
      intro l
      induction l with
      | nil => intro s hs _; simpa using hs
      | cons x xs ih =>
        intro s hs hl
        simp only [List.foldl_cons]
        apply ih
        · split
          · exact hl x (by simp)
          · exact hs
        · intro i hi; exact hl i (by simp [hi])
    exact key l 0 h0 h

/-- What the indirect recursion leaves in the `extents` array, relative to its initial content. -/
def ExtOut (sels : List (List Nat)) (ext ext' : List Nat) : Prop :=
  ext'.length = ext.length ∧ ext'.drop sels.length = ext.drop sels.length ∧
    ((∀ l ∈ sels, l ≠ []) → ext'.take sels.length = sels.map List.length) ∧
    ((∃ l ∈ sels, l = []) → 0 ∈ ext'.take sels.length)

/-- One step of the indirect recursion: the last dimension's choices `l` outermost. -/
theorem indStep (d : SDesc) (as : List Arg) (ix : List Nat)
    (hrec : ∀ (ix ext out ext' out' : List Nat), as.length ≤ ext.length →
      doSliceInd Arith.exact true d as ix (ext, out) = .ok (ext', out') →
      out' = out ++ (cart (as.reverse.map Arg.sel)).map (fun t => d.pos Arith.exact (t ++ ix)) ∧
        ExtOut (as.reverse.map Arg.sel) ext ext' ∧
        ((∀ a ∈ as, a.sel ≠ []) → Inside (d.ext.take as.length) (as.reverse.map Arg.sel))) :
    ∀ (l : List Nat) (ext out ext' out' : List Nat), as.length < ext.length →
      l.foldlM (fun st i => doSliceInd Arith.exact true d as (i :: ix) st) (ext, out) = .ok (ext', out') →
      out' = out ++ l.flatMap (fun i =>
          (cart (as.reverse.map Arg.sel)).map (fun t => d.pos Arith.exact (t ++ i :: ix))) ∧
        (l = [] → ext' = ext) ∧ (l ≠ [] → ExtOut (as.reverse.map Arg.sel) ext ext') ∧
        (l ≠ [] → (∀ a ∈ as, a.sel ≠ []) → Inside (d.ext.take as.length) (as.reverse.map Arg.sel)) := by
  intro l
  induction l with
  | nil =>
    intro ext out ext' out' _ h
    simp only [List.foldlM_nil, res_pure, Except.ok.injEq, Prod.mk.injEq] at h
    obtain ⟨rfl, rfl⟩ := h
    simp
  | cons i l ih =>
    intro ext out ext' out' hl h
    simp only [List.foldlM_cons, res_bind_ok] at h
    obtain ⟨⟨e1, o1⟩, h1, h2⟩ := h
    obtain ⟨ho, he, hin⟩ := hrec _ _ _ _ _ (by omega) h1
    obtain ⟨ho2, hnil, hne, _⟩ := ih e1 o1 ext' out' (by rw [he.1]; omega) h2
    refine ⟨?_, by simp, fun _ => ?_, fun _ => hin⟩
    · rw [ho2, ho, List.flatMap_cons, List.append_assoc]
    · by_cases hln : l = []
      · rw [hnil hln]; exact he
      · obtain ⟨q1, q2, q3, q4⟩ := hne hln
        exact ⟨q1.trans he.1, q2.trans he.2.1, q3, q4⟩

theorem cart_append_singleton : ∀ (ls : List (List α)) (l : List α),
    cart (ls ++ [l]) = l.flatMap fun x => (cart ls).map (· ++ [x])
  | [], l => by
    simp only [List.nil_append, cart, List.flatMap_cons, List.flatMap_nil, List.append_nil, List.map_cons,
      List.map_nil]
    induction l with
    | nil => rfl
    | cons x xs ih => simp [List.flatMap_cons, ih]
  | a :: ls, l => by
    have ih := cart_append_singleton ls l
    simp only [List.cons_append, cart, ih, List.flatMap_assoc, List.map_flatMap, List.flatMap_map,
      List.map_map]
    rfl

theorem extOut_snoc {sels : List (List Nat)} {l ext ext' : List Nat} (hlen : sels.length < ext.length)
    (h0 : l = [] → ext' = ext.set sels.length 0)
    (h1 : l ≠ [] → ExtOut sels (ext.set sels.length l.length) ext') : ExtOut (sels ++ [l]) ext ext' := by
  by_cases hl : l = []
  · subst hl
    have := h0 rfl
    subst this
    refine ⟨by simp, ?_, ?_, ?_⟩
    · rw [List.length_append, List.length_singleton, List.drop_set, if_pos (by omega)]
    · intro h; exact absurd rfl (h [] (by simp))
    · intro _
      rw [List.mem_take_iff_getElem]
      exact ⟨sels.length, by simp; omega, by simp⟩
  · obtain ⟨q1, q2, q3, q4⟩ := h1 hl
    have hl' : ext'.length = ext.length := by simpa using q1
    have hd : ext'.drop sels.length = l.length :: ext.drop (sels.length + 1) := by
      rw [q2, List.drop_set, if_neg (by omega), List.drop_eq_getElem_cons hlen, Nat.sub_self,
        List.set_cons_zero]
    have hk : ext'[sels.length]? = some l.length := by
      have := congrArg (fun z => z[0]?) hd
      simpa using this
    have ht : ext'.take (sels.length + 1) = ext'.take sels.length ++ [l.length] := by
      rw [List.take_add_one, hk]; rfl
    refine ⟨hl', ?_, ?_, ?_⟩
    · have := congrArg List.tail hd
      simpa [List.tail_drop] using this
    · intro h
      rw [List.length_append, List.length_singleton, ht, q3 fun m hm => h m (by simp [hm])]
      simp
    · rintro ⟨m, hm, rfl⟩
      rw [List.length_append, List.length_singleton, ht]
      rcases List.mem_append.1 hm with hm | hm
      · exact List.mem_append_left _ (q4 ⟨_, hm, rfl⟩)
      · exact absurd (by simpa using hm) hl

theorem inside_snoc : ∀ {e : List Nat} {ls : List (List Nat)} {x : Nat} {l : List Nat},
    Inside e ls → (∀ i ∈ l, i < x) → Inside (e ++ [x]) (ls ++ [l])
  | [], [], _, _, _, h => ⟨h, trivial⟩
  | _ :: _, _ :: _, _, _, h, h2 => ⟨h.1, inside_snoc h.2 h2⟩
  | [], _ :: _, _, _, h, _ => h.elim
  | _ :: _, [], _, _, h, _ => h.elim

theorem take_snoc_getD {e : List Nat} {k : Nat} (h : k < e.length) :
    e.take (k + 1) = e.take k ++ [e.getD k 0] := by
  rw [List.take_add_one, List.getD_eq_getElem?_getD, List.getElem?_eq_getElem h]; rfl

theorem doSliceInd_sound (d : SDesc) : ∀ (as : List Arg), as.length ≤ d.ext.length →
    ∀ (ix ext out ext' out' : List Nat), as.length ≤ ext.length →
      doSliceInd Arith.exact true d as ix (ext, out) = .ok (ext', out') →
      out' = out ++ (cart (as.reverse.map Arg.sel)).map (fun t => d.pos Arith.exact (t ++ ix)) ∧
        ExtOut (as.reverse.map Arg.sel) ext ext' ∧
        ((∀ a ∈ as, a.sel ≠ []) → Inside (d.ext.take as.length) (as.reverse.map Arg.sel)) := by
  intro as
  induction as with
  | nil =>
    intro _ ix ext out ext' out' _ h
    simp only [doSliceInd, Except.ok.injEq, Prod.mk.injEq] at h
    obtain ⟨rfl, rfl⟩ := h
    refine ⟨by simp [cart], ⟨rfl, rfl, by simp, by simp⟩, by simp [Inside]⟩
  | cons a as ih =>
    intro hdl ix ext out ext' out' hl h
    simp only [List.length_cons] at hdl hl
    have hrec := ih (by omega)
    -- reduce every kind of argument to a fold over its selected indices
    have hfold : (∀ i ∈ a.sel, i < d.ext.getD as.length 0) ∧
        a.sel.foldlM (fun st i => doSliceInd Arith.exact true d as (i :: ix) st)
          (ext.set as.length a.sel.length, out) = .ok (ext', out') := by
      cases a with
      | idx i =>
        simp only [doSliceInd, res_bind_ok, dbg_ok] at h
        obtain ⟨_, h1, h2⟩ := h
        refine ⟨by simpa [Arg.sel] using h1, ?_⟩
        simp [Arg.sel, h2]
      | rng l =>
        simp only [doSliceInd, res_bind_ok, dbg_ok] at h
        obtain ⟨_, h1, h2⟩ := h
        have h1 : maxIdx l < d.ext.getD as.length 0 := by simpa using h1
        exact ⟨(maxIdx_lt.1 h1).2, h2⟩
      | slice s x t =>
        simp only [doSliceInd, res_bind_ok, dbg_ok, Arith.exact_add, Arith.exact_mul] at h
        obtain ⟨_, h1, _, h2, _, h3, h4⟩ := h
        have h2 : 0 < x := by simpa using h2
        have h3 : s + (x - 1) * t < d.ext.getD as.length 0 := by simpa [usub_one h2] using h3
        refine ⟨fun i hi => lt_of_mem_range_map h3 hi, ?_⟩
        rw [Arg.sel, List.foldlM_map, List.length_map, List.length_range]
        exact h4
    obtain ⟨hb, hf⟩ := hfold
    obtain ⟨o1, o2, o3, o4⟩ := indStep d as ix hrec a.sel _ _ _ _ (by simp; omega) hf
    refine ⟨?_, ?_, ?_⟩
    · rw [o1, List.reverse_cons, List.map_append, List.map_singleton, cart_append_singleton,
        List.map_flatMap]
      simp [Function.comp_def]
    · rw [List.reverse_cons, List.map_append, List.map_singleton]
      have hlen : (as.reverse.map Arg.sel).length = as.length := by simp
      refine extOut_snoc (by rw [hlen]; omega) (fun hs => ?_) (fun hs => ?_)
      · rw [hlen, o2 hs, hs]; rfl
      · rw [hlen]; exact o3 hs
    · intro hne
      rw [List.reverse_cons, List.map_append, List.map_singleton, List.length_cons,
        take_snoc_getD (by omega)]
      exact inside_snoc (o4 (hne a (by simp)) fun b hb => hne b (by simp [hb])) hb

theorem indirectSlicing_sound {d : SDesc} {args : List Arg} {ext ps : List Nat}
    (h : indirectSlicing Arith.exact true d args = .ok (ext, ps)) :
    args.length = d.ext.length ∧
      ps = (cart (args.map Arg.sel)).map (d.pos Arith.exact) ∧
      ExtOut (args.map Arg.sel) (d.ext.map fun _ => 0) ext ∧
      ((∀ a ∈ args, a.sel ≠ []) → Inside d.ext (args.map Arg.sel)) := by
  unfold indirectSlicing at h
  split at h
  · cases h
  · next hl =>
    have hl : args.length = d.ext.length := by omega
    obtain ⟨h1, h2, h3⟩ := doSliceInd_sound d args.reverse (by simp [hl]) _ _ _ _ _ (by simp [hl]) h
    simp only [List.nil_append, List.reverse_reverse, List.append_nil] at h1
    refine ⟨hl, h1, by simpa using h2, fun hne => ?_⟩
    have := h3 (by simpa using hne)
    simpa [hl] using this

end Jules

import Verif.Props.Indexing
import Verif.Model.Reshape
/-
C12 (axes), C13 (dropping dimensions), C14 (reshape and flatten).
-/
namespace Jules.Props
open Jules Spec

/-! ### C13 -/

theorem countOnes_eq (ext : List Nat) : countOnes ext = ext.count 1 := by
  have : ∀ (l : List Nat) (a : Nat), l.foldl (fun acc d => acc + if d = 1 then 1 else 0) a = a + l.count 1 := by
    intro l
    induction l with
    | nil => simp
    | cons d ds ih =>
      intro a
      rw [List.foldl_cons, ih, List.count_cons]
      by_cases h : d = 1 <;> simp [h, Nat.add_assoc, Nat.add_comm]
  rw [countOnes, this]; omega

theorem dropOnes_length : ∀ (k : Nat) (l : List Nat), (dropOnes k l).length = l.length - min k (l.count 1)
  | k, [] => by simp [dropOnes]
  | k, d :: ds => by
    have hc : ds.count 1 ≤ ds.length := List.count_le_length
    rw [dropOnes]
    split
    · next h =>
      rw [List.length_cons, dropOnes_length k ds, List.length_cons, List.count_cons]
      rcases h with h | h
      · subst h; simp
      · simp only [beq_iff_eq, h, if_false]; omega
    · next h =>
      have h1 : d = 1 := by
        apply Classical.byContradiction
        intro h'; exact h (.inr h')
      have h2 : k ≠ 0 := fun h' => h (.inl h')
      rw [dropOnes_length (k - 1) ds, List.length_cons, List.count_cons]
      simp only [h1, beq_self_eq_true, if_true]; omega

theorem dropOnes_sublist : ∀ (k : Nat) (l : List Nat), (dropOnes k l).Sublist l
  | _, [] => .slnil
  | k, d :: ds => by
    rw [dropOnes]
    split
    · exact (dropOnes_sublist k ds).cons_cons d
    · exact (dropOnes_sublist (k - 1) ds).cons d

theorem dropOnes_filter : ∀ (k : Nat) (l : List Nat), (dropOnes k l).filter (· ≠ 1) = l.filter (· ≠ 1)
  | _, [] => rfl
  | k, d :: ds => by
    rw [dropOnes]
    split
    · rw [List.filter_cons, List.filter_cons, dropOnes_filter k ds]
    · next h =>
      have h1 : d = 1 := by
        apply Classical.byContradiction
        intro h'; exact h (.inr h')
      rw [dropOnes_filter (k - 1) ds]; simp [h1]

theorem dropOnes_prod : ∀ (k : Nat) (l : List Nat), prod (dropOnes k l) = prod l
  | _, [] => rfl
  | k, d :: ds => by
    rw [dropOnes]
    split
    · simp [prod, dropOnes_prod k ds]
    · next h =>
      have h1 : d = 1 := by
        apply Classical.byContradiction
        intro h'; exact h (.inr h')
      simp [prod, dropOnes_prod (k - 1) ds, h1]

theorem dropOnes2_fst : ∀ (k : Nat) (e t : List Nat), t.length = e.length →
    (dropOnes2 k e t).1 = dropOnes k e
  | _, [], [], _ => rfl
  | k, d :: ds, t :: ts, h => by
    have h : ts.length = ds.length := by simpa using h
    rw [dropOnes2, dropOnes]
    split
    · simp [dropOnes2_fst k ds ts h]
    · exact dropOnes2_fst (k - 1) ds ts h
  | _, [], _ :: _, h => by simp at h
  | _, _ :: _, [], h => by simp at h

theorem dropOnes2_snd_length : ∀ (k : Nat) (e t : List Nat), t.length = e.length →
    (dropOnes2 k e t).2.length = (dropOnes2 k e t).1.length
  | _, [], [], _ => rfl
  | k, d :: ds, t :: ts, h => by
    have h : ts.length = ds.length := by simpa using h
    rw [dropOnes2]
    split
    · simp [dropOnes2_snd_length k ds ts h]
    · exact dropOnes2_snd_length (k - 1) ds ts h
  | _, [], _ :: _, h => by simp at h
  | _, _ :: _, [], h => by simp at h

theorem dropOnes2_pos : ∀ (k : Nat) (e t : List Nat), (∀ x ∈ t, 0 < x) → ∀ x ∈ (dropOnes2 k e t).2, 0 < x
  | _, [], [], _ => by simp [dropOnes2]
  | k, d :: ds, t :: ts, h => by
    rw [dropOnes2]
    split
    · intro x hx
      rcases List.mem_cons.1 hx with rfl | hx
      · exact h _ (by simp)
      · exact dropOnes2_pos k ds ts (fun y hy => h y (by simp [hy])) x hx
    · exact dropOnes2_pos (k - 1) ds ts fun y hy => h y (by simp [hy])
  | _, [], _ :: _, _ => by simp [dropOnes2]
  | _, _ :: _, [], _ => by simp [dropOnes2]

/-- The list of displacements of a shape with strides. -/
theorem enum_cons (e t : Nat) (es ts : List Nat) :
    (multiIdx (e :: es)).map (fun i => dotP i (t :: ts)) =
      ((multiIdx es).map fun i => dotP i ts).flatMap fun y => (List.range e).map fun k => k * t + y := by
  simp [multiIdx, cart, List.map_flatMap, List.flatMap_map, Function.comp_def, dotP]

theorem dropOnes2_enum : ∀ (k : Nat) (e t : List Nat), t.length = e.length →
    (multiIdx (dropOnes2 k e t).1).map (fun i => dotP i (dropOnes2 k e t).2) =
      (multiIdx e).map fun i => dotP i t
  | _, [], [], _ => rfl
  | k, d :: ds, t :: ts, h => by
    have hl : ts.length = ds.length := by simpa using h
    rw [dropOnes2]
    split
    · simp only
      rw [enum_cons, enum_cons, dropOnes2_enum k ds ts hl]
    · next hk =>
      have h1 : d = 1 := by
        apply Classical.byContradiction
        intro h'; exact hk (.inr h')
      subst h1
      rw [dropOnes2_enum (k - 1) ds ts hl, enum_cons]
      simp [List.range_succ]
  | _, [], _ :: _, h => by simp at h
  | _, _ :: _, [], h => by simp at h

theorem dropOnes_erase : ∀ (k : Nat) (l : List Nat), dropOnes (k + 1) l = dropOnes k (l.erase 1)
  | _, [] => rfl
  | k, d :: ds => by
    by_cases h : d = 1
    · subst h; simp [dropOnes]
    · rw [List.erase_cons_tail (by simpa using h), dropOnes, dropOnes, if_pos (.inr h), if_pos (.inr h),
        dropOnes_erase k ds]

theorem dropOnes_eq_diff : ∀ (k : Nat) (l : List Nat), dropOnes k l = l.diff (List.replicate k 1)
  | 0, l => by
    have : ∀ l : List Nat, dropOnes 0 l = l := by
      intro l
      induction l with
      | nil => rfl
      | cons d ds ih => simp [dropOnes, ih]
    simp [this]
  | k + 1, l => by rw [dropOnes_erase, dropOnes_eq_diff k, List.replicate_succ, List.diff_cons]

/-- What dropping dimensions must do to a view: `D` dimensions remain, the others (the first ones of extent one)
are removed, the remaining extents keep their order, and the elements and their order are the same. -/
structure Dropped (D : Nat) (v w : AView) : Prop where
  order : w.ext.length = D
  first : w.ext = v.ext.diff (List.replicate (v.ext.length - D) 1)
  sub : w.ext.Sublist v.ext
  ones : w.ext.filter (· ≠ 1) = v.ext.filter (· ≠ 1)
  elems : w.enum = v.enum

theorem drop_of_wf {o : Obj} {v : AView} (wf : o.WF) (s : SameObj o.abs (.view v))
    {D : Nat} (hD : 0 < D) {o' : Obj} (hr : dropTo Arith.exact true D o = .ok o') :
    ∃ w, Observes o' w ∧ Dropped D v w := by
  cases o with
  | elem p => simp [dropTo, Nat.pos_iff_ne_zero.1 hD] at hr
  | proxy off m args => exact s.elim
  | everyProxy off ext M => exact s.elim
  | cref off ext =>
    have s : SameView (contig off ext) v := s
    have he : ext = v.ext := s.1
    simp only [dropTo, if_neg (Nat.pos_iff_ne_zero.1 hD)] at hr
    split at hr
    · cases hr
    · next hle =>
      obtain ⟨_, _, hr⟩ := res_bind_ok.1 hr
      split at hr
      · next hlen =>
        cases hr
        have hne : dropOnes (ext.length - D) ext ≠ [] := by
          intro h0; rw [h0] at hlen; simp at hlen; omega
        refine ⟨contig off (dropOnes (ext.length - D) ext), observes hne (SameObj.refl _), ?_⟩
        refine ⟨hlen, by rw [← he]; exact dropOnes_eq_diff _ _, by rw [← he]; exact dropOnes_sublist _ _, by rw [← he]; exact dropOnes_filter _ _, ?_⟩
        rw [← SameView.enum s]
        have hen : ∀ x : List Nat, (contig off x).enum = (List.range (prod x)).map (off + ·) := by
          intro x
          rw [← multiIdx_map_cmPos, List.map_map]; rfl
        rw [hen, hen, dropOnes_prod]
      · cases hr
  | sref off m =>
    have s : SameView (m.aview off) v := s
    simp only [dropTo, if_neg (Nat.pos_iff_ne_zero.1 hD)] at hr
    cases m with
    | vec d idx => cases hr
    | ident d =>
      have he : d.ext = v.ext := s.1
      have wf : d.WF := wf
      simp only at hr
      split at hr
      · next h1 =>
        split at hr
        · next hD1 =>
          cases hr
          refine ⟨v, observes (o := .sref off (.ident d)) wf s, by rw [← he, h1, hD1], by rw [← he, h1, hD1]; rfl, List.Sublist.refl _, rfl, rfl⟩
        · cases hr
      · next h1 =>
        split at hr
        · cases hr
        · next hle =>
          obtain ⟨_, _, hr⟩ := res_bind_ok.1 hr
          split at hr
          · next hlen =>
            cases hr
            obtain ⟨w1, w2, w3, w4⟩ := wf
            have hf := dropOnes2_fst (d.ext.length - D) d.ext d.strides w1
            have hwf : SDesc.WF ⟨d.start, (dropOnes2 (d.ext.length - D) d.ext d.strides).1,
                (dropOnes2 (d.ext.length - D) d.ext d.strides).2⟩ := by
              refine ⟨dropOnes2_snd_length _ _ _ w1, ?_, dropOnes2_pos _ _ _ w3, ?_⟩
              · intro h0
                have h0 : (dropOnes2 (d.ext.length - D) d.ext d.strides).1 = [] := h0
                rw [h0] at hlen; simp at hlen; omega
              · intro _ x hx
                have hx : x ∈ (dropOnes2 (d.ext.length - D) d.ext d.strides).1 := hx
                rw [hf] at hx
                exact w4 h1 x ((dropOnes_sublist _ _).subset hx)
            refine ⟨_, observes (o := .sref off (.ident ⟨d.start, _, _⟩)) hwf (SameObj.refl _), ?_⟩
            refine ⟨hlen, ?_, ?_, ?_, ?_⟩
            · rw [← he]; simp only [Mapper.aview, hf]; exact dropOnes_eq_diff _ _
            · rw [← he]; simp only [Mapper.aview, hf]; exact dropOnes_sublist _ _
            · rw [← he]; simp only [Mapper.aview, hf]; exact dropOnes_filter _ _
            · rw [← SameView.enum s]
              have := dropOnes2_enum (d.ext.length - D) d.ext d.strides w1
              simp only [AView.enum, Mapper.aview]
              have h2 := congrArg (List.map fun y => off + (d.start + y)) this
              simpa [List.map_map, Function.comp_def] using h2
          · cases hr

/-- **C13** (`D > 0`). `drop_to<D>` of an accepted view, when accepted, is the view without `N - D`
dimensions of extent one. -/
theorem C13_drop_partial {e : List Nat} {h : List Ix} {o : Obj} {v : AView} (hv : ViewOf e h o v)
    {D : Nat} (hD : 0 < D) {o' : Obj} (hr : dropTo Arith.exact true D o = .ok o') :
    ∃ w, Observes o' w ∧ Dropped D v w :=
  drop_of_wf (viewOf_wf hv).1 (viewOf_wf hv).2 hD hr

-- A strided view with a dimension of extent one, used in the examples below.
def thinEx : AView := match meaning 0 [3, 4] [.strided 0 2 2, .slice 2 1] with
  | .view v => v
  | _ => arrayView 0 []
example := C13_drop_partial (e := [3, 4]) (h := [.strided 0 2 2, .slice 2 1]) (v := thinEx) ⟨by decide, rfl, rfl⟩ (D := 1) (by decide) rfl

/-- **C13.** `drop_to<D>` (with `0 < D ≤ N`, and `D < N` for strided views) is accepted iff at least
`N - D` extents are one; otherwise a checked build reports it. -/
theorem C13_accepted_iff (off : Nat) (ext : List Nat) (D : Nat) (hD : 0 < D) (hN : D ≤ ext.length) :
    ((∃ o', dropTo Arith.exact true D (.cref off ext) = .ok o') ↔ ext.length - D ≤ ext.count 1) ∧
      (¬ ext.length - D ≤ ext.count 1 → dropTo Arith.exact true D (.cref off ext) = .error .assert) := by
  simp only [dropTo, if_neg (Nat.pos_iff_ne_zero.1 hD), if_neg (Nat.not_lt.2 hN), countOnes_eq]
  have hl := dropOnes_length (ext.length - D) ext
  by_cases h : ext.length - D ≤ ext.count 1
  · have : (dropOnes (ext.length - D) ext).length = D := by rw [hl]; omega
    simp [h, this]
  · simp [h, dbg]

example := C13_accepted_iff 5 [1, 3, 1, 2] 2 (by decide) (by decide)

/-- **C13.** The same for strided views. -/
theorem C13_accepted_iff_strided (off s : Nat) (ext ts : List Nat) (D : Nat) (hD : 0 < D)
    (hN : D < ext.length) (hts : ts.length = ext.length) :
    ((∃ o', dropTo Arith.exact true D (.sref off (.ident ⟨s, ext, ts⟩)) = .ok o') ↔
        ext.length - D ≤ ext.count 1) ∧
      (¬ ext.length - D ≤ ext.count 1 →
        dropTo Arith.exact true D (.sref off (.ident ⟨s, ext, ts⟩)) = .error .assert) := by
  simp only [dropTo, if_neg (Nat.pos_iff_ne_zero.1 hD), if_neg (Nat.not_le.2 hN),
    if_neg (show ext.length ≠ 1 by omega), countOnes_eq, dropOnes2_fst _ _ _ hts]
  have hl := dropOnes_length (ext.length - D) ext
  by_cases h : ext.length - D ≤ ext.count 1
  · have : (dropOnes (ext.length - D) ext).length = D := by rw [hl]; omega
    simp [h, this]
  · simp [h, dbg]

example := C13_accepted_iff_strided 5 2 [1, 3, 2] [7, 1, 4] 2 (by decide) (by decide) rfl

/-- **C13.** Without assertions what is accepted gives the same result, and what would have been reported is undefined. -/
theorem C13_unchecked (off s : Nat) (ext ts : List Nat) (D : Nat) (hD : 0 < D) (hN : D < ext.length) (hts : ts.length = ext.length) :
    (ext.length - D ≤ ext.count 1 → dropTo Arith.exact false D (.cref off ext) = dropTo Arith.exact true D (.cref off ext) ∧
      dropTo Arith.exact false D (.sref off (.ident ⟨s, ext, ts⟩)) = dropTo Arith.exact true D (.sref off (.ident ⟨s, ext, ts⟩))) ∧
    (¬ ext.length - D ≤ ext.count 1 → dropTo Arith.exact false D (.cref off ext) = .error .ub ∧
      dropTo Arith.exact false D (.sref off (.ident ⟨s, ext, ts⟩)) = .error .ub) := by
  have hlt : ¬ ext.length < D := by omega
  simp only [dropTo, if_neg (Nat.pos_iff_ne_zero.1 hD), if_neg (Nat.not_le.2 hN), if_neg hlt,
    if_neg (show ext.length ≠ 1 by omega), countOnes_eq, dropOnes2_fst _ _ _ hts]
  have hl := dropOnes_length (ext.length - D) ext
  refine ⟨fun h => ?_, fun h => ?_⟩
  · simp [h, dbg]
  · have : (dropOnes (ext.length - D) ext).length ≠ D := by rw [hl]; omega
    simp [this, dbg]

example := (C13_unchecked 5 2 [1, 3, 2] [7, 1, 4] 2 (by decide) (by decide) rfl).1 (by decide)
example := (C13_unchecked 5 2 [4, 3, 2] [7, 1, 4] 2 (by decide) (by decide) rfl).2 (by decide)

/-- **C13 is false for `D = 0`**: `drop_to<0>` of a one-element strided view reads the first element of
the underlying memory instead of the view's element: for `v[slice(3, 1, 1)]` on a vector of five. -/
theorem C13_drop_to_scalar_wrong :
    (Obj.cref 0 [5]).run Arith.exact true [.strided 3 1 1] = .ok (.sref 0 (.ident ⟨3, [1], [1]⟩)) ∧
      (Obj.sref 0 (.ident ⟨3, [1], [1]⟩)).positions Arith.exact = .ok [3] ∧
      dropTo Arith.exact true 0 (.sref 0 (.ident ⟨3, [1], [1]⟩)) = .ok (.elem 0) := by decide

/-- For `D = 0` on any strided view of one element: `drop_to<0>` is accepted and yields the first element of the underlying array, the view's element is at
`start`: it is the right one iff the view starts at the beginning. -/
theorem C13_drop_to_scalar_iff (off : Nat) (d : SDesc) (hd : d.WF) (h1 : prod d.ext = 1) :
    dropTo Arith.exact true 0 (.sref off (.ident d)) = .ok (.elem off) ∧
      ∃ p, (Obj.sref off (.ident d)).positions Arith.exact = .ok [p] ∧ (p = off ↔ d.start = 0) := by
  refine ⟨by simp [dropTo, Mapper.desc, sdesc_size_exact, h1], off + d.start, ?_, by omega⟩
  have := positions_enum (o := .sref off (.ident d)) hd rfl
  rw [this]
  have hone : ∀ l : List Nat, prod l = 1 → multiIdx l = [List.replicate l.length 0] := by
    intro l
    induction l with
    | nil => intro _; rfl
    | cons a l ih =>
      intro h
      have ⟨ha, hl⟩ : a = 1 ∧ prod l = 1 := ⟨Nat.eq_one_of_mul_eq_one_right h, Nat.eq_one_of_mul_eq_one_left h⟩
      have := ih hl
      simp only [multiIdx] at this
      simp [multiIdx, cart, this, ha, List.range_succ, List.replicate_succ]
  have hz : ∀ (l t : List Nat), dotP (List.replicate l.length 0) t = 0 := by
    intro l
    induction l with
    | nil => intro t; simp [dotP]
    | cons a l ih =>
      intro t
      cases t with
      | nil => simp [dotP]
      | cons b t => simp [dotP, ih, List.replicate_succ]
  simp [AView.enum, Mapper.aview, hone d.ext h1, hz]

example := C13_drop_to_scalar_iff 5 ⟨2, [1, 1], [7, 4]⟩ ⟨rfl, by decide, by decide, by decide⟩ rfl

/-- **C13, partial** for `D = 0`: it is right when the view starts at the beginning. -/
theorem C13_drop_to_scalar_partial (off : Nat) (d : SDesc) (hd : d.WF) (h0 : d.start = 0) (h1 : prod d.ext = 1) :
    dropTo Arith.exact true 0 (.sref off (.ident d)) = .ok (.elem off) ∧
      (Obj.sref off (.ident d)).positions Arith.exact = .ok [off] := by
  obtain ⟨h2, p, h3, h4⟩ := C13_drop_to_scalar_iff off d hd h1
  exact ⟨h2, by rw [h3, h4.2 h0]⟩

example : dropTo Arith.exact true 1 (.sref 0 (.ident ⟨5, [1, 3], [1, 4]⟩)) =
    .ok (.sref 0 (.ident ⟨5, [3], [4]⟩)) := by decide
example : dropTo Arith.exact true 2 (.cref 0 [1, 3, 1, 2]) = .ok (.cref 0 [3, 2]) := by decide
example : dropTo Arith.exact true 1 (.cref 0 [2, 3]) = .error .assert := by decide

/-! ### C14 -/

/-- **C14.** `reshape` keeps the memory positions in order and gives the requested extents; it is
accepted iff the sizes agree. No element is copied: the positions are those of the source. -/
theorem C14_reshape (off : Nat) (e e' : List Nat) :
    (reshapeTo Arith.exact true e' (.cref off e) = .ok (.cref off e') ↔ prod e = prod e') ∧
      (prod e ≠ prod e' → reshapeTo Arith.exact true e' (.cref off e) = .error .assert) ∧
      ((Obj.cref off e').dims = some e') ∧
      (prod e = prod e' → (Obj.cref off e').positions Arith.exact = (Obj.cref off e).positions Arith.exact) := by
  refine ⟨?_, ?_, rfl, ?_⟩
  · simp only [reshapeTo, prodL_exact]
    by_cases h : prod e = prod e' <;> simp [h, dbg]
  · intro h; simp [reshapeTo, prodL_exact, h, dbg]
  · intro h; simp [Obj.positions, prodL_exact, h]

/-- **C14.** Element by element: the reshaped view at `j` is the source's element at the multi-index with
the same column-major rank. -/
theorem C14_reshape_element (off : Nat) (e e' i j : List Nat) (he : e ≠ []) (he' : e' ≠ [])
    (hi : InB e i) (hj : InB e' j) (hrank : cmSum e i = cmSum e' j) :
    (Obj.cref off e').run Arith.exact true (j.map .at) = (Obj.cref off e).run Arith.exact true (i.map .at) := by
  rw [run_at_ok (o := .cref off e) he (v := arrayView off e) (arrayView_same off e) hi,
    run_at_ok (o := .cref off e') he' (v := arrayView off e') (arrayView_same off e') hj]
  simp [arrayView, hrank]

example := C14_reshape_element 5 [2, 6] [3, 4] [1, 3] [1, 2] (by decide) (by decide) (by decide) (by decide) (by decide)

/-- **C14.** Reshaping back restores the original view; `flatten` is reshaping to one dimension. -/
theorem C14_roundtrip (off : Nat) (e e' : List Nat) (chk : Bool) (h : prod e = prod e') :
    (reshapeTo Arith.exact chk e' (.cref off e) >>= reshapeTo Arith.exact chk e) = .ok (.cref off e) ∧
      flatten Arith.exact (.cref off e) = reshapeTo Arith.exact true [prod e] (.cref off e) ∧
      (flatten Arith.exact (.cref off e) >>= reshapeTo Arith.exact chk e) = .ok (.cref off e) := by
  cases chk <;> simp [reshapeTo, flatten, prodL_exact, h, prod, dbg]

example : reshapeTo Arith.exact true [3, 4] (.cref 0 [2, 6]) = .ok (.cref 0 [3, 4]) := by decide
example : reshapeTo Arith.exact true [3, 5] (.cref 0 [2, 6]) = .error .assert := by decide

/-! ### C12 -/

/-- **C12.** `rows(a)` has `row_count` elements; its i-th element is a one-dimensional view whose
elements are `a[i][0], a[i][1], …` in order (column-major positions `i + r*j`). -/
theorem C12_rows (r c i : Nat) (hi : i < r) (chk : Bool) (hc : chk = true → c ≠ 0) :
    axisSize 0 (.cref 0 [r, c]) = r ∧
      ∃ o, axisAt Arith.exact chk 0 (.cref 0 [r, c]) i = .ok o ∧ o.dims = some [c] ∧
        o.positions Arith.exact = .ok ((List.range c).map fun j => cmSum [r, c] [i, j]) := by
  refine ⟨rfl, .sref 0 (.ident ⟨i, [c], [r]⟩), ?_, rfl, ?_⟩
  · have h1 : SDesc.mk' Arith.exact chk i [r, c] = .ok ⟨i, [r, c], [1, r]⟩ := by
      cases chk with
      | false => simp [SDesc.mk', inferStrides]
      | true =>
        have hr : (r != 0) = true := by simp; omega
        have hc : (c != 0) = true := by simpa using hc rfl
        simp [SDesc.mk', inferStrides, hr, hc]
    simp [axisAt, axisChain, Obj.order, Obj.dims, Obj.run, Obj.index, crefIndex, hi, h1, SDesc.discard,
      srefIndex, arrayAtEvery, Mapper.desc, dropTo]
  · have hpos : 0 < r := by omega
    have := iterOne_spec r hpos c i (iterFuel ⟨i, [c], [r]⟩) (by simp [iterFuel, prodL])
    have hp : SDesc.positions Arith.exact ⟨i, [c], [r]⟩ (iterFuel ⟨i, [c], [r]⟩) =
        .ok ((List.range c).map fun j => i + j * r) := by
      simpa [SDesc.positions, Nat.mul_comm] using this
    simp only [Obj.positions, hp, res_ok_bind, Except.ok.injEq, List.map_map]
    apply List.map_congr_left
    intro j _
    simp [cmSum, prod, List.range_succ, Nat.mul_comm]

example := C12_rows 2 3 1 (by decide) true (by decide)

/-- **C12.** In a checked build the elements of `rows(a)` of a matrix with rows but no columns cannot be
formed: the check rejects zero extents. -/
theorem C12_rows_of_empty_rejected (r i : Nat) (hi : i < r) :
    axisAt Arith.exact true 0 (.cref 0 [r, 0]) i = .error .assert := by
  have hr : (r != 0) = true := by simp; omega
  simp [axisAt, axisChain, Obj.order, Obj.dims, Obj.run, Obj.index, crefIndex, hi, SDesc.mk', inferStrides,
    hr, dbg]

example := C12_rows_of_empty_rejected 2 1 (by decide)

/-- **C12.** `columns(a)` has `column_count` elements; its j-th element has the elements `a[0][j], a[1][j], …`
in order. -/
theorem C12_columns (r c j : Nat) (hj : j < c) (chk : Bool) :
    axisSize 1 (.cref 0 [r, c]) = c ∧
      ∃ o, axisAt Arith.exact chk 1 (.cref 0 [r, c]) j = .ok o ∧ o.dims = some [r] ∧
        o.positions Arith.exact = .ok ((List.range r).map fun i => cmSum [r, c] [i, j]) := by
  have hdrop : dropOnes 1 [r, 1] = [r] := by
    by_cases h : r = 1
    · subst h; rfl
    · simp [dropOnes, h]
  have hone : 1 ≤ countOnes [r, 1] := by simp [countOnes]
  have hc0 : c ≠ 0 := by omega
  refine ⟨rfl, .cref (j * r) [r], ?_, rfl, ?_⟩
  · have hdiv : r * c / c = r := Nat.mul_div_cancel _ (by omega)
    simp [axisAt, axisChain, Obj.order, Obj.dims, Obj.run, Obj.index, crefIndex, everyIndex, hj, hc0,
      dropTo, hone, hdrop, prodL_exact, prod, hdiv]
  · simp only [Obj.positions, prodL_exact, prod, Nat.mul_one, Except.ok.injEq]
    apply List.map_congr_left
    intro i _
    simp [cmSum, prod, List.range_succ]
    rw [Nat.add_comm]

example := C12_columns 2 3 1 (by decide)

/-- **C12.** Iterating `rows`/`columns` produces the elements of all positions, in order. -/
theorem C12_elements (axis : Nat) (o : Obj) (f : Nat → Obj)
    (h : ∀ i, i < axisSize axis o → axisAt Arith.exact true axis o i = .ok (f i)) :
    axisElems Arith.exact true axis o = .ok ((List.range (axisSize axis o)).map f) := by
  have : ∀ l : List Nat, (∀ i ∈ l, i < axisSize axis o) →
      l.mapM (axisAt Arith.exact true axis o) = .ok (l.map f) := by
    intro l
    induction l with
    | nil => intro _; rfl
    | cons i l ih =>
      intro hl
      rw [List.mapM_cons, h i (hl i (by simp)), res_ok_bind, ih fun k hk => hl k (by simp [hk])]
      rfl
  exact this _ fun i hi => List.mem_range.1 hi

example := C12_elements 1 (.cref 0 [2, 3]) (fun j => .cref (2 * j) [2]) (by decide)

/-- **C12 is false for iterator differences**: `(it + n) - it` is `-n`. -/
theorem C12_difference_negated (p n : Nat) (hp : p + n < 2 ^ 63) :
    (AxisIter.plus ⟨p⟩ n).diff ⟨p⟩ = - (n : Int) := by
  have h1 : (((p : Int) + n) % (W64 : Int)).toNat = p + n := by
    rw [Int.emod_eq_of_lt (by omega) (by simp only [W64]; omega)]
    omega
  have h2 : ∀ x, x < 2 ^ 63 → toSigned x = x := by
    intro x hx
    have hm : x % W64 = x := Nat.mod_eq_of_lt (by simp only [W64]; omega)
    simp [toSigned, hm, hx]
  simp only [AxisIter.plus, AxisIter.diff, h1, h2 _ hp, h2 p (by omega)]
  omega

example := C12_difference_negated 4 3 (by decide)

/-- **C12, partial.** Moving forwards and backwards is consistent. -/
theorem C12_plus_minus_partial (p : Nat) (n : Int) (hp : p < W64) :
    (AxisIter.minus (AxisIter.plus ⟨p⟩ n) n).pos = p := by
  simp only [AxisIter.plus, AxisIter.minus]
  have hpos : (0 : Int) < (W64 : Int) := by decide
  have h0 := Int.emod_nonneg ((p : Int) + n) (Int.ne_of_gt hpos)
  rw [Int.toNat_of_nonneg h0, Int.sub_eq_add_neg, Int.emod_add_emod,
    show (p : Int) + n + -n = p by omega, Int.emod_eq_of_lt (by omega) (by omega)]
  omega

example := C12_plus_minus_partial 4 3 (by decide)

/-- **C12.** For orders above two: the last axis of a contiguous array has the elements of
`a[every]…[every][i]`, in order, but dimensions of extent one are dropped from the front, so the shape can
be wrong: for extents (1, 5, 4) the elements along the last axis get extents (5, 1) instead of (1, 5). -/
theorem C12_axis_shape_wrong :
    axisAt Arith.exact true 2 (.cref 0 [1, 5, 4]) 3 = .ok (.cref 15 [5, 1]) := by decide

/-- **C12.** The other axes of contiguous arrays of order three or more do not compile. -/
theorem C12_inner_axes_ill_formed (a b c i : Nat) (ha : a ≠ 0) (hb : b ≠ 0) (hc : c ≠ 0) :
    axisAt Arith.exact true 1 (.cref 0 [a, b, c]) i = .error .illFormed ∧
      (i < a → axisAt Arith.exact true 0 (.cref 0 [a, b, c]) i = .error .illFormed) := by
  refine ⟨?_, fun hi => ?_⟩
  · simp [axisAt, axisChain, Obj.order, Obj.dims, Obj.run, Obj.index, crefIndex, everyIndex]
  · have h1 : (a != 0) = true := by simpa using ha
    have h2 : (b != 0) = true := by simpa using hb
    have h3 : (c != 0) = true := by simpa using hc
    have hb' := Nat.pos_of_ne_zero hb
    have hc' := Nat.pos_of_ne_zero hc
    have hb1 : b - 1 < b := by omega
    have hc1 : c - 1 < c := by omega
    simp [axisAt, axisChain, Obj.order, Obj.dims, Obj.run, Obj.index, crefIndex, SDesc.mk', inferStrides,
      h1, h2, h3, hi, SDesc.discard, srefIndex, arrayAtEvery, Mapper.desc, proxyIndex, proxyAt, arraySlice,
      Arg.isDefault, defaultSlicing, doSlice, hb', hc', usub_one hb', usub_one hc', dropTo, hb1, hc1, dbg]

example := C12_inner_axes_ill_formed 2 3 4 1 (by decide) (by decide) (by decide)

/-! #### Axes of arbitrary views -/

theorem multiIdx_cons (x : Nat) (xs : List Nat) :
    multiIdx (x :: xs) = (multiIdx xs).flatMap fun t => (List.range x).map (· :: t) := rfl

/-- Enumerating the multi-indices with the dimension `a` fixed. -/
theorem multiIdx_set_one : ∀ (ext : List Nat) (a i : Nat), a < ext.length →
    (multiIdx (ext.set a 1)).map (fun j => j.set a i) =
      (multiIdx (ext.eraseIdx a)).map fun j => j.insertIdx a i
  | [], _, _, h => by simp at h
  | x :: xs, 0, i, _ => by
    simp [multiIdx_cons, List.map_flatMap, List.range_succ, List.flatMap_singleton']
    induction multiIdx xs with
    | nil => rfl
    | cons t ts ih => simp [ih]
  | x :: xs, a + 1, i, h => by
    have ih := multiIdx_set_one xs a i (by simpa using h)
    simp only [List.set_cons_succ, List.eraseIdx_cons_succ, multiIdx_cons, List.map_flatMap, List.map_map]
    have h1 : ((multiIdx (xs.set a 1)).flatMap fun t => (List.range x).map ((fun j => j.set (a + 1) i) ∘ (· :: t))) =
        ((multiIdx (xs.set a 1)).map fun j => j.set a i).flatMap fun t => (List.range x).map (· :: t) := by
      rw [List.flatMap_map]; rfl
    have h2 : ((multiIdx (xs.eraseIdx a)).flatMap fun t =>
          (List.range x).map ((fun j => j.insertIdx (a + 1) i) ∘ (· :: t))) =
        ((multiIdx (xs.eraseIdx a)).map fun j => j.insertIdx a i).flatMap fun t => (List.range x).map (· :: t) := by
      rw [List.flatMap_map]; rfl
    rw [h1, h2, ih]

theorem zipWith_axisChain : ∀ (ext : List Nat) (a i : Nat), a < ext.length →
    List.zipWith sel ext (axisChain ext.length a i) = (ext.map List.range).set a [i]
  | [], _, _, h => by simp at h
  | x :: xs, 0, i, _ => by
    have : ∀ l : List Nat, List.zipWith sel l (List.replicate l.length .every) = l.map List.range := by
      intro l
      induction l with
      | nil => rfl
      | cons y ys ih => simp [List.replicate_succ, ih, sel]
    simp [axisChain, sel, this]
  | x :: xs, a + 1, i, h => by
    have ih := zipWith_axisChain xs a i (by simpa using h)
    have hc : axisChain (x :: xs).length (a + 1) i = .every :: axisChain xs.length a i := by
      simp only [axisChain, List.replicate_succ, List.cons_append, List.length_cons]
      rw [show xs.length + 1 - (a + 1) - 1 = xs.length - a - 1 by omega]
    rw [hc, List.zipWith_cons_cons, ih]
    rfl

theorem map_length_set (ext : List Nat) (a i : Nat) :
    ((ext.map List.range).set a [i]).map List.length = ext.set a 1 := by
  rw [List.map_set, List.map_map]
  simp [Function.comp_def]

theorem choose_axis : ∀ (ext : List Nat) (a i : Nat) (j : List Nat), InB (ext.set a 1) j →
    choose ((ext.map List.range).set a [i]) j = j.set a i
  | [], _, _, j, h => by
    cases j with
    | nil => simp [choose]
    | cons _ _ => simp [InB] at h
  | x :: xs, 0, i, j, h => by
    obtain ⟨k, ks, rfl, hk, hks⟩ := inB_cons.1 h
    have : k = 0 := by omega
    subst this
    simp [choose, choose_range hks]
  | x :: xs, a + 1, i, j, h => by
    obtain ⟨k, ks, rfl, hk, hks⟩ := inB_cons.1 h
    simp only [List.map_cons, List.set_cons_succ, choose, choose_axis xs a i ks hks]
    congr 1
    simp [List.getD_eq_getElem?_getD, hk]

theorem set_erase_one : ∀ (ext : List Nat) (a : Nat), a < ext.length → (∀ k, k < a → ext[k]? ≠ some 1) →
    (ext.set a 1).erase 1 = ext.eraseIdx a
  | [], _, h, _ => by simp at h
  | x :: xs, 0, _, _ => by simp
  | x :: xs, a + 1, h, h1 => by
    have hx : x ≠ 1 := by
      intro hx; exact h1 0 (by omega) (by simp [hx])
    rw [List.set_cons_succ, List.erase_cons_tail (by simpa using hx), List.eraseIdx_cons_succ,
      set_erase_one xs a (by simpa using h) fun k hk => by
        have := h1 (k + 1) (by omega)
        simpa using this]

theorem sameView_of_enum {v w : AView} (he : v.ext = w.ext) (h : v.enum = w.enum) : SameView v w := by
  refine ⟨he, fun i hi => ?_⟩
  simp only [AView.enum, ← he] at h
  exact List.map_inj_left.1 h i (mem_multiIdx.2 hi)

theorem foldl_axisChain_zero {v : AView} {i : Nat} (hN : v.ext ≠ []) :
    ∃ w, (axisChain v.ext.length 0 i).foldl astep (.view v) = .view w ∧ SameView w ⟨v.ext.eraseIdx 0, fun j => v.pos (j.insertIdx 0 i)⟩ := by
  cases he : v.ext with
  | nil => exact absurd he hN
  | cons x xs =>
    have hc : axisChain (x :: xs).length 0 i = .at i :: List.replicate xs.length .every := by simp [axisChain]
    rw [hc, List.foldl_cons]
    have hs : astep (.view v) (.at i) = .view (fixFirst v i) := rfl
    have hf : (fixFirst v i).ext = xs := by simp [fixFirst, he]
    rw [hs]
    cases xs with
    | nil => exact ⟨_, rfl, by simp [fixFirst, he], fun j _ => by simp [fixFirst]⟩
    | cons y ys =>
      have h1 := foldl_view (v := fixFirst v i) (ix := .every) (ixs := List.replicate ys.length .every)
        (by intro k h; cases h) (by rw [hf]; simp)
      refine ⟨restrict (fixFirst v i) (List.zipWith sel (fixFirst v i).ext (.every :: List.replicate ys.length .every)), h1, ?_⟩
      have hz : ∀ l : List Nat, List.zipWith sel l (List.replicate l.length .every) = l.map List.range := by
        intro l
        induction l with
        | nil => rfl
        | cons y ys ih => simp [List.replicate_succ, ih, sel]
      have h2 : List.zipWith sel (fixFirst v i).ext (.every :: List.replicate ys.length .every) = (fixFirst v i).ext.map List.range := by
        rw [hf]; exact hz (y :: ys)
      rw [h2]
      refine (restrict_ranges (fixFirst v i)).trans ⟨by simp [fixFirst, he], fun j _ => by simp [fixFirst]⟩

/-- The elements along an axis, for the chain of index expressions before unit dimensions are dropped. -/
theorem axis_chain_view {e : List Nat} {h : List Ix} {o o1 : Obj} {v : AView} (hv : ViewOf e h o v) {a i : Nat}
    (ha : a < v.ext.length) (hr : o.run Arith.exact true (axisChain v.ext.length a i) = .ok o1) :
    ∃ w, ViewOf e (h ++ axisChain v.ext.length a i) o1 w ∧ v.ext.getD a 0 > i ∧
      (if a = 0 then w.ext = v.ext.eraseIdx 0 else w.ext = v.ext.set a 1) ∧
      w.enum = (multiIdx (v.ext.eraseIdx a)).map fun j => v.pos (j.insertIdx a i) := by
  have happ : ∀ w, (axisChain v.ext.length a i).foldl astep (.view v) = .view w →
      ViewOf e (h ++ axisChain v.ext.length a i) o1 w := by
    intro w hw
    obtain ⟨h1, h2, h3⟩ := hv
    refine ⟨h1, by rw [run_append, h2]; exact hr, ?_⟩
    unfold meaning at h3 ⊢
    rw [List.foldl_append, h3, hw]
  cases a with
  | zero =>
    obtain ⟨w, h1, h2⟩ := foldl_axisChain_zero (v := v) (i := i) (by intro h; simp [h] at ha)
    refine ⟨w, happ w h1, ?_, by simpa using h2.1, h2.enum⟩
    obtain ⟨hw, s⟩ := viewOf_wf hv
    obtain ⟨_, _, ad⟩ := run_refines hw hr
    have ad := (foldl_astep_congr s ad).2
    have : axisChain v.ext.length 0 i = .at i :: List.replicate (v.ext.length - 1) .every := by simp [axisChain]
    rw [this] at ad
    have := ad.1
    cases hx : v.ext with
    | nil => simp [hx] at ha
    | cons x xs =>
      have h3 : i < v.ext.headD 0 := this
      simpa [hx] using h3
  | succ a =>
    have hc : axisChain v.ext.length (a + 1) i =
        .every :: (List.replicate a .every ++ [.at i] ++ List.replicate (v.ext.length - (a + 1) - 1) .every) := by
      simp [axisChain, List.replicate_succ]
    have hlen : (.every :: (List.replicate a .every ++ [.at i] ++
        List.replicate (v.ext.length - (a + 1) - 1) .every) : List Ix).length = v.ext.length := by
      simp; omega
    have hin := chain_inside hv (ix := .every) (by intro k h; cases h) hlen (by rw [← hc]; exact hr)
    have hfold := foldl_view (v := v) (ix := .every) (by intro k h; cases h) hlen
    rw [← hc] at hin hfold
    rw [zipWith_axisChain _ _ _ ha] at hin hfold
    refine ⟨_, happ _ hfold, ?_, by rw [if_neg (by omega)]; exact map_length_set _ _ _, ?_⟩
    · have hx : v.ext[a + 1]? = some v.ext[a + 1] := List.getElem?_eq_getElem ha
      have := hin (a + 1) [i] v.ext[a + 1] (by rw [List.getElem?_set]; simp [ha]) hx i (by simp)
      simpa [List.getD_eq_getElem?_getD, hx] using this
    · simp only [AView.enum, restrict, map_length_set]
      have h3 := multiIdx_set_one v.ext (a + 1) i ha
      have h4 : ((multiIdx (v.ext.set (a + 1) 1)).map fun j => v.pos (choose ((v.ext.map List.range).set (a + 1) [i]) j)) =
          ((multiIdx (v.ext.set (a + 1) 1)).map fun j => j.set (a + 1) i).map v.pos := by
        rw [List.map_map]
        apply List.map_congr_left
        intro j hj
        simp [choose_axis _ _ _ _ (mem_multiIdx.1 hj)]
      rw [h4, h3, List.map_map]; rfl

theorem observes_ext {o : Obj} {v w : AView} (ho : Observes o v) (hs : SameView v w) : Observes o w :=
  ⟨by rw [ho.dims, hs.1], by rw [ho.iterate, hs.enum],
    fun i hi => by rw [ho.element i (by rw [hs.1]; exact hi), hs.2 i (by rw [hs.1]; exact hi)],
    fun i hl hi => ho.reject i (by rw [hs.1]; exact hl) (by rw [hs.1]; exact hi)⟩

theorem axis_core {e : List Nat} {h : List Ix} {o o' : Obj} {v : AView} (hv : ViewOf e h o v) (hN : 2 ≤ v.ext.length)
    {a i : Nat} (ha : a < v.ext.length) (hr : axisAt Arith.exact true a o i = .ok o') :
    i < v.ext.getD a 0 ∧
      o'.positions Arith.exact = .ok ((multiIdx (v.ext.eraseIdx a)).map fun j => v.pos (j.insertIdx a i)) ∧
      ((a ≠ 0 → (v.ext.set a 1).erase 1 = v.ext.eraseIdx a) →
        Observes o' ⟨v.ext.eraseIdx a, fun j => v.pos (j.insertIdx a i)⟩) := by
  have hord : o.order = v.ext.length := by
    rw [Obj.order, (C04_history hv).dims]
  rw [axisAt, hord] at hr
  obtain ⟨o1, h1, h2⟩ := res_bind_ok.1 hr
  obtain ⟨w, hw, hi, hext, hen⟩ := axis_chain_view hv ha h1
  obtain ⟨u, hu, hd⟩ := C13_drop_partial hw (by omega) h2
  refine ⟨hi, ?_, fun hone => observes_ext hu (sameView_of_enum ?_ ?_)⟩
  · rw [hu.iterate, hd.elems, hen]
  · rw [hd.first]
    show w.ext.diff _ = v.ext.eraseIdx a
    split at hext
    · next h0 =>
      subst h0
      rw [hext]
      simp [List.length_eraseIdx, ha]
    · next h0 =>
      rw [hext]
      have : (v.ext.set a 1).length - (v.ext.length - 1) = 1 := by simp; omega
      rw [this]
      simp [List.diff_cons, hone h0]
  · rw [hd.elems, hen]; rfl

/-- **C12, partial.** For every view of order two or more and every axis (when the call compiles and passes the checks): the
i-th element along the axis has the elements of the view with that index fixed to `i`, in order; and it is the
view without that dimension, unless an earlier dimension has extent one (then the extents are permuted, see
`C12_axis_shape_wrong`). -/
theorem C12_axis_partial {e : List Nat} {h : List Ix} {o o' : Obj} {v : AView} (hv : ViewOf e h o v) (hN : 2 ≤ v.ext.length)
    {a i : Nat} (ha : a < v.ext.length) (hr : axisAt Arith.exact true a o i = .ok o') :
    i < v.ext.getD a 0 ∧
      o'.positions Arith.exact = .ok ((multiIdx (v.ext.eraseIdx a)).map fun j => v.pos (j.insertIdx a i)) ∧
      ((∀ k, k < a → v.ext[k]? ≠ some 1) →
        Observes o' ⟨v.ext.eraseIdx a, fun j => v.pos (j.insertIdx a i)⟩) := by
  have := axis_core hv hN ha hr
  exact ⟨this.1, this.2.1, fun hone => this.2.2 fun _ => set_erase_one v.ext a ha hone⟩

example := C12_axis_partial (e := [3, 4]) (h := [.strided 0 2 2, .slice 2 1]) (v := thinEx) ⟨by decide, rfl, rfl⟩ (by decide) (a := 0) (i := 1) (by decide) rfl

/-- **C12.** Rows and columns of every strided or contiguous view of order two without empty dimensions are accepted. -/
theorem C12_matrix_accepted {e : List Nat} {h : List Ix} {o : Obj} {v : AView} (hv : ViewOf e h o v) {r c : Nat}
    (hx : v.ext = [r, c]) (hr : r ≠ 0) (hc : c ≠ 0) (hm : ∀ off d idx, o ≠ .sref off (.vec d idx)) :
    (∀ i, i < r → ∃ o', axisAt Arith.exact true 0 o i = .ok o' ∧ Observes o' ⟨[c], fun j => v.pos (i :: j)⟩) ∧
      ∀ j, j < c → ∃ o', axisAt Arith.exact true 1 o j = .ok o' ∧ Observes o' ⟨[r], fun i => v.pos (i ++ [j])⟩ := by
  obtain ⟨wf, s⟩ := viewOf_wf hv
  have hrow : ∀ i, i < r → ∃ o', axisAt Arith.exact true 0 o i = .ok o' := by
    intro i hi
    cases o with
    | elem p => exact absurd s.1 (by simp [hx])
    | proxy off m args => exact s.elim
    | everyProxy off ext M => exact s.elim
    | cref off ext =>
      have he : ext = [r, c] := by rw [← hx]; exact s.1
      subst he
      have h1 : (r != 0) = true := by simpa using hr
      have h2 : (c != 0) = true := by simpa using hc
      have h3 : SDesc.mk' Arith.exact true i [r, c] = .ok ⟨i, [r, c], [1, r]⟩ := by
        simp [SDesc.mk', inferStrides, h1, h2]
      refine ⟨.sref off (.ident ⟨i, [c], [r]⟩), ?_⟩
      simp [axisAt, axisChain, Obj.order, Obj.dims, Obj.run, Obj.index, crefIndex, hi, h3, SDesc.discard,
        srefIndex, arrayAtEvery, Mapper.desc, dropTo]
    | sref off m =>
      cases m with
      | vec d idx => exact absurd rfl (hm off d idx)
      | ident d =>
        have he : d.ext = [r, c] := by rw [← hx]; exact s.1
        have wf : d.WF := wf
        obtain ⟨st, ext, ts⟩ := d
        have he : ext = [r, c] := he
        subst he
        have hl : ts.length = 2 := wf.1
        match ts, hl with
        | [t, u], _ =>
          refine ⟨.sref off (.ident ⟨st + i * t, [c], [u]⟩), ?_⟩
          simp [axisAt, axisChain, Obj.order, Obj.dims, Obj.run, Obj.index, hi, SDesc.discard,
            srefIndex, arrayAtEvery, arrayAtIdx, Mapper.desc, dropTo, Mapper.dropFirst, Nat.mul_comm]
  have hcol : ∀ j, j < c → ∃ o', axisAt Arith.exact true 1 o j = .ok o' := by
    intro j hj
    have h1 : 1 ≤ countOnes [r, 1] := by simp [countOnes]
    cases o with
    | elem p => exact absurd s.1 (by simp [hx])
    | proxy off m args => exact s.elim
    | everyProxy off ext M => exact s.elim
    | cref off ext =>
      have he : ext = [r, c] := by rw [← hx]; exact s.1
      subst he
      have hdrop : dropOnes 1 [r, 1] = [r] := by
        by_cases h : r = 1
        · subst h; rfl
        · simp [dropOnes, h]
      refine ⟨.cref (off + j * r) [r], ?_⟩
      have hdiv : r * c / c = r := Nat.mul_div_cancel _ (by omega)
      simp [axisAt, axisChain, Obj.order, Obj.dims, Obj.run, Obj.index, crefIndex, everyIndex, hj, hc,
        dropTo, h1, hdrop, prodL_exact, prod, hdiv]
    | sref off m =>
      cases m with
      | vec d idx => exact absurd rfl (hm off d idx)
      | ident d =>
        have he : d.ext = [r, c] := by rw [← hx]; exact s.1
        have wf : d.WF := wf
        obtain ⟨st, ext, ts⟩ := d
        have he : ext = [r, c] := he
        subst he
        have hl : ts.length = 2 := wf.1
        match ts, hl with
        | [t, u], _ =>
          have hfst := dropOnes2_fst 1 [r, 1] [t, 1] rfl
          have hdrop : dropOnes 1 [r, 1] = [r] := by
            by_cases h : r = 1
            · subst h; rfl
            · simp [dropOnes, h]
          have hr' := Nat.pos_of_ne_zero hr
          have hr1 : r - 1 < r := by omega
          simp [axisAt, axisChain, Obj.order, Obj.dims, Obj.run, Obj.index, hj, SDesc.discard,
            srefIndex, arrayAtEvery, Mapper.desc, dropTo, proxyIndex, proxyAt, arraySlice,
            Arg.isDefault, defaultSlicing, doSlice, hr', usub_one hr', hr1, h1, hfst, hdrop]
  refine ⟨fun i hi => ?_, fun j hj => ?_⟩
  · obtain ⟨o', ho⟩ := hrow i hi
    refine ⟨o', ho, ?_⟩
    have := (C12_axis_partial hv (by simp [hx]) (by simp [hx]) ho).2.2 (by intro k hk; omega)
    simpa [hx] using this
  · obtain ⟨o', ho⟩ := hcol j hj
    refine ⟨o', ho, ?_⟩
    have h1 := (axis_core hv (by simp [hx]) (by simp [hx]) ho).2.2 (by
      intro _
      rw [hx]
      by_cases h : r = 1
      · subst h; rfl
      · simp [List.erase_cons_tail, h])
    refine observes_ext h1 ⟨by simp [hx], fun i hi => ?_⟩
    have hi : InB [r] i := by simpa [hx] using hi
    obtain ⟨k, ks, rfl, hk, hks⟩ := inB_cons.1 hi
    cases ks with
    | nil => rfl
    | cons _ _ => simp [InB] at hks

example : axisAt Arith.exact true 0 (.cref 0 [2, 3]) 1 = .ok (.sref 0 (.ident ⟨1, [3], [2]⟩)) ∧
    (Obj.sref 0 (.ident ⟨1, [3], [2]⟩)).positions Arith.exact = .ok [1, 3, 5] := by decide

/-- The second column of `a[slice(0, 2, 2)][slice(1, 3, 1)]` for a 3 x 4 matrix, and the second axis of a strided view of order 3. -/
example : ((Obj.cref 0 [3, 4]).run Arith.exact true [.strided 0 2 2, .strided 1 3 1] >>= fun o =>
      axisAt Arith.exact true 1 o 1 >>= fun c => c.positions Arith.exact) = .ok [6, 8] ∧
    ((Obj.cref 0 [2, 3, 2]).run Arith.exact true [.strided 0 2 1, .strided 0 2 2, .strided 0 2 1] >>= fun o =>
      axisAt Arith.exact true 1 o 1 >>= fun c => c.positions Arith.exact) = .ok [4, 5, 10, 11] := by decide

end Jules.Props

import Verif.Lemmas.Chains
import Verif.Lemmas.Unchecked
import Verif.Model.SignedRange
/-
C03 - C11: indexing and slicing.

`ViewOf e h o v` (Spec/Observe): in a checked build the chain `h` of index expressions, applied to an
array with extents `e`, was accepted and gave `o`; `v` is what the chain means according to Spec/View.
`Observes o v`: the user-visible behaviour of `o` (dimensions, iteration, element access) is that of `v`.
-/
namespace Jules.Props
open Jules Spec

/-! ### The general statement -/

/-- Every accepted history of index expressions gives an object that behaves as the specification says. -/
theorem C04_history {e : List Nat} {h : List Ix} {o : Obj} {v : AView} (hv : ViewOf e h o v) :
    Observes o v := by
  obtain ⟨w, s⟩ := viewOf_wf hv
  exact observes w s

-- A view with repeated and reordered columns, used in the examples below.
def viewEx : AView := match meaning 0 [3, 4] [.every, .rng [3, 0, 3]] with
  | .view v => v
  | _ => arrayView 0 []
example := C04_history (e := [3, 4]) (h := [.every, .rng [3, 0, 3]]) (v := viewEx) ⟨by decide, rfl, rfl⟩

/-- Every legal history is accepted, unless the C++ expression does not compile. -/
theorem C04_legal_accepted {e : List Nat} (he : e ≠ []) {h : List Ix}
    (hl : LegalAll (.view (arrayView 0 e)) h) :
    (∃ o, (Obj.cref 0 e).run Arith.exact true h = .ok o) ∨
      (Obj.cref 0 e).run Arith.exact true h = .error .illFormed :=
  run_complete (o := .cref 0 e) he trivial (a := .view (arrayView 0 e)) (arrayView_same 0 e) trivial hl

example : LegalAll (.view (arrayView 0 [3, 4])) [.every, .rng [3, 0, 3]] := by
  simp [LegalAll, Legal, LegalIx, strideOK, astep, arrayView, close, sel]

/-! ### C03 -/

/-- **C03.** `a[i₀]…[i_{N-1}]` is the element at position `Σ_k i_k Π_{j<k} e_j`. -/
theorem C03_array_element {e i : List Nat} (he : e ≠ []) (hi : InB e i) (chk : Bool) :
    (Obj.cref 0 e).run Arith.exact chk (i.map .at) = .ok (.elem (cmSum e i)) := by
  have := run_at_ok (o := .cref 0 e) he (v := arrayView 0 e) (arrayView_same 0 e) hi
  simp only [arrayView, Nat.zero_add] at this
  cases chk with
  | true => exact this
  | false => exact weak_run _ _ _ _ this

example := C03_array_element (e := [3, 4, 2]) (i := [2, 3, 1]) (by decide) (by decide)

/-- **C03.** Out-of-range indices are reported. -/
theorem C03_array_reject {e i : List Nat} (he : e ≠ []) (hl : i.length = e.length) (hi : ¬ InB e i) :
    (Obj.cref 0 e).run Arith.exact true (i.map .at) = .error .assert :=
  run_at_reject (o := .cref 0 e) he (v := arrayView 0 e) (arrayView_same 0 e) hl hi

example := C03_array_reject (e := [3, 4, 2]) (i := [2, 4, 1]) (by decide) rfl (by decide)

/-- **C03.** The same for every view: indexing it with `i` gives the element the view means at `i`. -/
theorem C03_view_element {e : List Nat} {h : List Ix} {o : Obj} {v : AView} (hv : ViewOf e h o v)
    {i : List Nat} (hi : InB v.ext i) (chk : Bool) :
    o.run Arith.exact chk (i.map .at) = .ok (.elem (v.pos i)) := by
  have := (C04_history hv).element i hi
  cases chk with
  | true => exact this
  | false => exact weak_run _ _ _ _ this

example := C03_view_element (e := [3, 4]) (h := [.every, .rng [3, 0, 3]]) (v := viewEx) ⟨by decide, rfl, rfl⟩ (i := [2, 1]) (by decide)

/-- **C03.** Out-of-range indices are reported for every view. -/
theorem C03_view_reject {e : List Nat} {h : List Ix} {o : Obj} {v : AView} (hv : ViewOf e h o v)
    {i : List Nat} (hl : i.length = v.ext.length) (hi : ¬ InB v.ext i) :
    o.run Arith.exact true (i.map .at) = .error .assert := (C04_history hv).reject i hl hi

example : (Obj.cref 0 [3, 4]).run Arith.exact true [.at 2, .at 3] = .ok (.elem 11) := by decide
example : (Obj.cref 0 [3, 4]).run Arith.exact true [.at 2, .at 4] = .error .assert := by decide

/-! ### C04 -/

/-- **C04/C07.** Indexing an order-N view `o` with N index expressions, the first of which is not a plain
index, gives a view whose k-th extent is the number of indices selected in dimension k and whose element
at `j` is `o`'s element at the selected indices. All selected indices are inside their dimension. -/
theorem C04_selection {e : List Nat} {h : List Ix} {o : Obj} {v : AView} (hv : ViewOf e h o v)
    {ix : Ix} {ixs : List Ix} (hx : ∀ i, ix ≠ .at i) (hl : (ix :: ixs).length = v.ext.length)
    {o' : Obj} (hr : o.run Arith.exact true (ix :: ixs) = .ok o') :
    Observes o' ⟨(List.zipWith sel v.ext (ix :: ixs)).map List.length,
      fun j => v.pos (choose (List.zipWith sel v.ext (ix :: ixs)) j)⟩ := by
  have hv' : ViewOf e (h ++ ix :: ixs) o' (restrict v (List.zipWith sel v.ext (ix :: ixs))) := by
    obtain ⟨h1, h2, h3⟩ := hv
    refine ⟨h1, ?_, ?_⟩
    · rw [run_append, h2]; exact hr
    · unfold meaning at h3 ⊢
      rw [List.foldl_append, h3]
      exact foldl_view hx hl
  exact C04_history hv'

example := C04_selection (e := [3, 4]) (h := [.every, .rng [3, 0, 3]]) (v := viewEx) ⟨by decide, rfl, rfl⟩ (ix := .slice 1 2) (ixs := [.rng [2, 0]]) (by intro i h; cases h) rfl rfl

/-- **C04.** The explicit form for strided slices: the element at `j` is the original element at
`(start_k + j_k * stride_k)_k` and the k-th extent is the k-th slice's extent; the slices stay inside. -/
theorem C04_strided_slices {e : List Nat} {h : List Ix} {o : Obj} {v : AView} (hv : ViewOf e h o v)
    {sl : List (Nat × Nat × Nat)} (hne : sl ≠ []) (hl : sl.length = v.ext.length) {o' : Obj}
    (hr : o.run Arith.exact true (sl.map fun p => .strided p.1 p.2.1 p.2.2) = .ok o') :
    Observes o' ⟨sl.map (·.2.1), fun j => v.pos (List.zipWith (fun p k => p.1 + k * p.2.2) sl j)⟩ ∧
      ∀ j, InB (sl.map (·.2.1)) j → InB v.ext (List.zipWith (fun p k => p.1 + k * p.2.2) sl j) := by
  obtain ⟨w, s⟩ := viewOf_wf hv
  obtain ⟨w', s', hi, _⟩ := chain_facts w s hne hl hr
  have hext : ((sliceArgs sl).map Arg.sel).map List.length = sl.map (·.2.1) := by
    simp [sliceArgs, Function.comp_def]
  have hch : ∀ (sl : List (Nat × Nat × Nat)) (j : List Nat), InB (sl.map (·.2.1)) j →
      choose ((sliceArgs sl).map Arg.sel) j = List.zipWith (fun p k => p.1 + k * p.2.2) sl j := by
    intro sl
    induction sl with
    | nil => intro j hj; simp at hj; simp [hj, sliceArgs, choose]
    | cons p sl ih =>
      intro j hj
      obtain ⟨k, ks, rfl, hk, hks⟩ := inB_cons.1 hj
      have := ih ks hks
      simp only [sliceArgs] at this
      simp only [sliceArgs, List.map_cons, choose, List.zipWith_cons_cons, this]
      rw [sel_slice_getD hk]
  refine ⟨observes w' (s'.trans ?_), fun j hj => ?_⟩
  · refine ⟨hext, fun j hj => ?_⟩
    have hj : InB (sl.map (·.2.1)) j := by rw [← hext]; exact hj
    simp only [restrict]
    rw [hch sl j hj]
  · rw [← hch sl j hj]
    exact inside_choose hi (by rw [hext]; exact hj)

example := C04_strided_slices (e := [3, 4]) (h := [.every, .rng [3, 0, 3]]) (v := viewEx) ⟨by decide, rfl, rfl⟩ (sl := [(0, 2, 2), (1, 2, 1)]) (by decide) rfl rfl

/-- **C04.** Slices that stay inside the view are accepted. -/
theorem C04_strided_accepted {e : List Nat} {h : List Ix} {o : Obj} {v : AView} (hv : ViewOf e h o v)
    (hz : ∀ x ∈ v.ext, x ≠ 0) {sl : List (Nat × Nat × Nat)} (hne : sl ≠ [])
    (hin : List.Forall₂ (fun p x => 0 < p.2.1 ∧ 0 < p.2.2 ∧ p.1 + (p.2.1 - 1) * p.2.2 < x) sl v.ext) :
    ∃ o', o.run Arith.exact true (sl.map fun p => .strided p.1 p.2.1 p.2.2) = .ok o' := by
  obtain ⟨w, s⟩ := viewOf_wf hv
  have key : ∀ {sl : List (Nat × Nat × Nat)} {x : List Nat},
      List.Forall₂ (fun p x => 0 < p.2.1 ∧ 0 < p.2.2 ∧ p.1 + (p.2.1 - 1) * p.2.2 < x) sl x →
      (∀ p ∈ sl, 0 < p.2.1 ∧ 0 < p.2.2) ∧ Inside x ((sliceArgs sl).map Arg.sel) := by
    intro sl x hf
    induction hf with
    | nil => exact ⟨by simp, trivial⟩
    | cons h _ ih =>
      refine ⟨?_, fun i hi => lt_of_mem_range_map h.2.2 hi, ih.2⟩
      intro p hp
      rcases List.mem_cons.1 hp with rfl | hp
      · exact ⟨h.1, h.2.1⟩
      · exact ih.1 p hp
  exact view_chain_accept w s hz hne hin.length_eq (key hin).1 (key hin).2

example : (Obj.cref 0 [5, 4]).run Arith.exact true [.strided 1 2 2, .strided 0 2 3] =
    .ok (.sref 0 (.ident ⟨1, [2, 2], [2, 15]⟩)) := by decide

/-! ### C05 -/

/-- **C05** (mathematical arithmetic; see `C05_wraparound` and C55 for 64-bit arithmetic). After any
accepted history, every position that iteration or element access can reach is inside the array. -/
theorem C05_in_bounds_partial {e : List Nat} (he : e ≠ []) {h : List Ix} {o : Obj}
    (hr : (Obj.cref 0 e).run Arith.exact true h = .ok o) {k : List Ix} {o' : Obj} {ps : List Nat}
    (hk : o.run Arith.exact true k = .ok o') (hp : o'.positions Arith.exact = .ok ps) :
    ∀ p ∈ ps, p < prod e := by
  have hrk : (Obj.cref 0 e).run Arith.exact true (h ++ k) = .ok o' := by rw [run_append, hr]; exact hk
  obtain ⟨w, s, a⟩ := run_meaning he hrk
  have hb : Bounded (prod e) (.view (arrayView 0 e)) := by
    have h1 := bounded_root 0 e
    rw [Nat.zero_add] at h1
    exact bounded_congr (a := (Obj.cref 0 e).abs) (arrayView_same 0 e) h1
  have hb' := bounded_congr s.symm (bounded_run hb a)
  cases hab : o'.abs with
  | part v t =>
    cases o' <;> simp [Obj.abs] at hab <;> simp [Obj.positions] at hp
  | view v =>
    rw [positions_enum w hab] at hp
    cases hp
    rw [hab] at hb'
    intro p hp
    obtain ⟨i, hi, rfl⟩ := List.mem_map.1 hp
    exact hb' i (mem_multiIdx.1 hi)

example := C05_in_bounds_partial (e := [3, 4]) (by decide) (h := [.every, .rng [3, 0, 3]]) rfl (k := [.slice 1 2, .at 2]) rfl (ps := [1, 2].map (fun x => x + 9)) (by decide +kernel)

/-- **C05** (mathematical arithmetic). Checked indexing never has undefined behaviour, except for a
bounded slice with stride zero (see `C09_zero_stride_ub`). -/
theorem C05_no_ub_partial {e : List Nat} (he : e ≠ []) {h : List Ix}
    (hz : ∀ s m, Ix.boundedStrided s m 0 ∉ h) :
    (∃ o, (Obj.cref 0 e).run Arith.exact true h = .ok o) ∨
      (Obj.cref 0 e).run Arith.exact true h = .error .assert ∨
      (Obj.cref 0 e).run Arith.exact true h = .error .illFormed := by
  have := noUB_run (h := h) (o := .cref 0 e) he (by
    intro ix hix hs
    cases ix with
    | boundedStrided s m t =>
      have : t = 0 := hs
      subst this
      exact hz s m hix
    | _ => exact hs.elim)
  cases hr : (Obj.cref 0 e).run Arith.exact true h with
  | ok o => exact .inl ⟨o, rfl⟩
  | error f =>
    rcases this f hr with rfl | rfl
    · exact .inr (.inl rfl)
    · exact .inr (.inr rfl)

example := C05_no_ub_partial (e := [3, 4]) (by decide) (h := [.every, .boundedStrided 1 7 2, .at 9]) (by intro s m; simp)

/-- **C05 is false in 64-bit arithmetic**: the bounds checks wrap. `a[slice(2^64 - 1, 2)]` on a vector of
eight elements is accepted and its first element is outside the vector. -/
theorem C05_wraparound_1d :
    (Obj.cref 0 [8]).run Arith.u64 true [.slice (2 ^ 64 - 1) 2] = .ok (.cref (2 ^ 64 - 1) [2]) ∧
      (Obj.cref (2 ^ 64 - 1) [2]).positions Arith.u64 = .ok [2 ^ 64 - 1, 0] := by
  decide

/-- **C05 is false in 64-bit arithmetic** for strided slices in any dimension:
`m[slice(0, 3, 2^63)][0]` on a 4×2 matrix is accepted (the check computes `0 + 2 * 2^63 = 0`) and its second
element is at position 2^63. -/
theorem C05_wraparound_strided :
    (Obj.cref 0 [4, 2]).run Arith.u64 true [.strided 0 3 (2 ^ 63), .at 0] =
        .ok (.sref 0 (.ident ⟨0, [3, 1], [2 ^ 63, 1]⟩)) ∧
      (Obj.sref 0 (.ident ⟨0, [3, 1], [2 ^ 63, 1]⟩)).positions Arith.u64 = .ok [0, 2 ^ 63, 0] := by
  decide

example : (Obj.cref 0 [5, 4]).run Arith.exact true [.every, .rng [3, 0], .at 1] =
    .ok (.sref 0 (.vec ⟨0, [2], [1]⟩ [16, 1])) := by decide

/-! ### C06 -/

/-- **C06.** Slicing a view with `S` and the result with `T` gives the same view as slicing once with the
composed slices, which are accepted. -/
theorem C06_composition {e : List Nat} {h : List Ix} {o : Obj} {v : AView} (hv : ViewOf e h o v)
    {S T : List (Nat × Nat × Nat)} (hne : S ≠ []) (hS : S.length = v.ext.length)
    (hT : T.length = v.ext.length) {o1 o2 : Obj}
    (h1 : o.run Arith.exact true (S.map fun p => .strided p.1 p.2.1 p.2.2) = .ok o1)
    (h2 : o1.run Arith.exact true (T.map fun p => .strided p.1 p.2.1 p.2.2) = .ok o2) :
    ∃ o3 w, o.run Arith.exact true ((List.zipWith (fun p q => ((p.1 + q.1 * p.2.2, q.2.1, p.2.2 * q.2.2) :
        Nat × Nat × Nat)) S T).map fun p => .strided p.1 p.2.1 p.2.2) = .ok o3 ∧
      Observes o2 w ∧ Observes o3 w := by
  obtain ⟨wf, s⟩ := viewOf_wf hv
  have hneT : T ≠ [] := by
    intro h; subst h; simp at hT
    rw [← hT] at hS
    exact hne (List.length_eq_zero_iff.1 hS)
  obtain ⟨w1, s1, i1, p1⟩ := chain_facts wf s hne hS h1
  have hextS : (restrict v ((sliceArgs S).map Arg.sel)).ext.length = v.ext.length := by
    simp [restrict, sliceArgs, hS]
  obtain ⟨w2, s2, i2, p2⟩ := chain_facts w1 s1 hneT (by rw [hextS, hT]) h2
  obtain ⟨c1, c2⟩ := compose_inside i1 (fun p hp => (p1 p hp).1) i2
  have hz := zero_empty_sel i1 (fun p hp => (p1 p hp).1)
  have hclen : (List.zipWith composeSlice S T).length = v.ext.length := by simp [hS, hT]
  have hcne : List.zipWith composeSlice S T ≠ [] := by
    intro h; rw [h] at hclen
    simp at hclen
    rw [← hclen] at hS
    exact hne (List.length_eq_zero_iff.1 hS)
  have hcp : ∀ p ∈ List.zipWith composeSlice S T, 0 < p.2.1 ∧ 0 < p.2.2 := by
    intro p hp
    obtain ⟨k, hk, rfl⟩ := List.mem_iff_getElem.1 hp
    simp only [List.getElem_zipWith, composeSlice]
    simp at hk
    exact ⟨(p2 _ (List.getElem_mem _)).1, Nat.mul_pos (p1 _ (List.getElem_mem _)).2 (p2 _ (List.getElem_mem _)).2⟩
  obtain ⟨o3, h3⟩ := view_chain_accept wf s hz hcne hclen hcp c1
  obtain ⟨w3, s3, _, _⟩ := chain_facts wf s hcne hclen h3
  refine ⟨o3, _, h3, observes w2 s2, observes w3 (s3.trans ?_)⟩
  have hext := compose_ext (S := S) (T := T) (by rw [hS, hT])
  refine ⟨hext, fun j hj => ?_⟩
  have hj : InB (((sliceArgs (List.zipWith composeSlice S T)).map Arg.sel).map List.length) j := hj
  rw [hext] at hj
  simp only [restrict]
  rw [c2 j hj]

example : (Obj.cref 0 [9]).run Arith.exact true [.strided 1 4 2, .strided 1 2 2] =
    .ok (.sref 0 (.ident ⟨3, [2], [4]⟩)) ∧
    (Obj.cref 0 [9]).run Arith.exact true [.strided (1 + 1 * 2) 2 (2 * 2)] =
      .ok (.sref 0 (.ident ⟨3, [2], [4]⟩)) := by decide

/-! ### C07, C08 -/

/-- A complete chain accepted by a checked build selects only indices of the dimensions. -/
theorem chain_inside {e : List Nat} {h : List Ix} {o : Obj} {v : AView}
    (hv : ViewOf e h o v) {ix : Ix} {ixs : List Ix} (hx : ∀ i, ix ≠ .at i)
    (hl : (ix :: ixs).length = v.ext.length) {o' : Obj}
    (hr : o.run Arith.exact true (ix :: ixs) = .ok o') :
    selsInside v.ext (List.zipWith sel v.ext (ix :: ixs)) := by
  obtain ⟨w, s⟩ := viewOf_wf hv
  obtain ⟨_, _, a⟩ := run_refines w hr
  have a := (foldl_astep_congr s a).2
  -- the last step of the chain checked all selections
  have key : ∀ (ixs : List Ix) (sels : List (List Nat)), ixs ≠ [] → sels.length + ixs.length = v.ext.length →
      AdmAll (.part v sels) ixs →
      selsInside v.ext (sels ++ List.zipWith sel (v.ext.drop sels.length) ixs) := by
    intro ixs
    induction ixs with
    | nil => intro _ h; exact absurd rfl h
    | cons ix ixs ih =>
      intro sels _ hl ha
      have hl : sels.length + (ixs.length + 1) = v.ext.length := hl
      have hd : v.ext.drop sels.length = v.ext.getD sels.length 0 :: v.ext.drop (sels.length + 1) := by
        rw [List.drop_eq_getElem_cons (by omega), List.getD_eq_getElem?_getD,
          List.getElem?_eq_getElem (by omega)]; rfl
      rw [hd, List.zipWith_cons_cons]
      by_cases hi : ixs = []
      · subst hi
        have := ha.1 (by simpa using hl)
        simpa using this
      · have h2 := ha.2
        have hpos : 0 < ixs.length := List.length_pos_iff.2 hi
        have hstep : astep (.part v sels) ix = .part v (sels ++ [sel (v.ext.getD sels.length 0) ix]) := by
          simp only [astep, close]
          rw [if_neg (by simp; omega)]
        rw [hstep] at h2
        have := ih _ hi (by simp; omega) h2
        simpa using this
  · cases he : v.ext with
    | nil => rw [he] at hl; simp at hl
    | cons d ds =>
      by_cases hi : ixs = []
      · subst hi
        have hl1 : v.ext.length = 1 := by rw [← hl]; rfl
        have := (admissible_view_notAt hx).1 a.1 hl1
        rw [he] at this
        have hds : ds = [] := by rw [he] at hl1; simpa using hl1
        subst hds
        simpa using this
      · have h2 := a.2
        rw [astep_view_notAt hx] at h2
        have hpos : 0 < ixs.length := List.length_pos_iff.2 hi
        have hc : close v [sel (v.ext.headD 0) ix] = .part v [sel d ix] := by
          unfold close
          rw [if_neg (by rw [← hl]; simp; omega), he]; rfl
        rw [hc] at h2
        have := key ixs [sel d ix] hi (by rw [← hl]; simp; omega) h2
        rw [he] at this
        simpa using this

/-- **C07** (unsigned index ranges; see `C07_signed_range` for signed ones). In an accepted chain that
completes the dimensions, every selected index - in particular every index listed in a range - is inside
its dimension. Together with `C04_selection`, which gives extents and elements, this is C07 for every
mix of index ranges, slices and plain indices. -/
theorem C07_listed_indices_checked_partial {e : List Nat} {h : List Ix} {o : Obj} {v : AView}
    (hv : ViewOf e h o v) {ix : Ix} {ixs : List Ix} (hx : ∀ i, ix ≠ .at i)
    (hl : (ix :: ixs).length = v.ext.length) {o' : Obj}
    (hr : o.run Arith.exact true (ix :: ixs) = .ok o') :
    ∀ (k : Nat) (l : List Nat) (d : Nat), (ix :: ixs)[k]? = some (.rng l) → v.ext[k]? = some d →
      ∀ i ∈ l, i < d := by
  have hall := chain_inside hv hx hl hr
  intro k l d hk hd i hi
  exact hall k l d (by simp [List.getElem?_zipWith, hk, hd, sel]) hd i hi

example := C07_listed_indices_checked_partial (e := [3, 4]) (h := [.every, .rng [3, 0, 3]]) (v := viewEx) ⟨by decide, rfl, rfl⟩ (ix := .slice 1 2) (ixs := [.rng [2, 0]])
  (by intro i h; cases h) rfl rfl 1 [2, 0] 3 rfl rfl

/-- **C07.** Slicing with one list of indices per dimension: the k-th extent is the length of the k-th list, and the element at
multi-index `j` is the original element whose k-th index is the `j_k`-th of the k-th list. (Mixes with slices and plain indices:
`C04_selection`.) -/
theorem C07_lists {e : List Nat} {h : List Ix} {o : Obj} {v : AView} (hv : ViewOf e h o v) {l : List Nat} {ls : List (List Nat)}
    (hl : (l :: ls).length = v.ext.length) {o' : Obj} (hr : o.run Arith.exact true ((l :: ls).map .rng) = .ok o') :
    Observes o' ⟨(l :: ls).map List.length, fun j => v.pos (choose (l :: ls) j)⟩ := by
  have hz : ∀ (ls : List (List Nat)) (ext : List Nat), ls.length = ext.length → List.zipWith sel ext (ls.map .rng) = ls := by
    intro ls
    induction ls with
    | nil => intro ext _; cases ext <;> rfl
    | cons a as ih =>
      intro ext hl
      cases ext with
      | nil => simp at hl
      | cons x xs => simp only [List.map_cons, List.zipWith_cons_cons, sel]; rw [ih xs (by simpa using hl)]
  have := C04_selection hv (ix := .rng l) (ixs := ls.map .rng) (by simp) (by simpa using hl) (by simpa using hr)
  have h1 := hz (l :: ls) v.ext hl
  simp only [List.map_cons] at h1
  rw [h1] at this
  exact this

example := C07_lists (e := [3, 4]) (h := [.every, .rng [3, 0, 3]]) (v := viewEx) ⟨by decide, rfl, rfl⟩ (l := [1, 1]) (ls := [[2, 0, 1]]) rfl rfl

/-- **C07 is false for ranges of signed integers**: the check only bounds the maximum, so a negative
index passes when it is not the maximum. `a[{-1, 0}]` on a vector of three elements is accepted and its
first element is at position 2^64 - 1. -/
theorem C07_signed_range :
    crefIndexSigned Arith.u64 true 0 3 (-2 ^ 63) [-1, 0] =
        .ok (.sref 0 (.vec ⟨0, [2], [1]⟩ [2 ^ 64 - 1, 0])) ∧
      (Obj.sref 0 (.vec ⟨0, [2], [1]⟩ [2 ^ 64 - 1, 0])).positions Arith.u64 = .ok [2 ^ 64 - 1, 0] := by
  decide

theorem maxSigned_spec (l : List Int) (lo : Int) : (maxSigned lo l = lo ∨ maxSigned lo l ∈ l) ∧ lo ≤ maxSigned lo l ∧ ∀ x ∈ l, x ≤ maxSigned lo l := by
  induction l generalizing lo with
  | nil => exact ⟨.inl rfl, Int.le_refl _, fun x h => by cases h⟩
  | cons y l ih =>
    have hu : maxSigned lo (y :: l) = maxSigned (if lo < y then y else lo) l := rfl
    rw [hu]
    obtain ⟨h1, h2, h3⟩ := ih (if lo < y then y else lo)
    have h4 : lo ≤ (if lo < y then y else lo) ∧ y ≤ (if lo < y then y else lo) := by split <;> omega
    refine ⟨?_, ?_, ?_⟩
    · rcases h1 with h | h
      · rw [h]
        split
        · exact .inr (by simp)
        · exact .inl rfl
      · exact .inr (by simp [h])
    · exact Int.le_trans h4.1 h2
    · intro x hx
      rcases List.mem_cons.1 hx with rfl | hx
      · exact Int.le_trans h4.2 h2
      · exact h3 x hx

/-- **C07.** What is checked for a range of signed 64-bit integers, exactly: it is reported if an element is not below the extent, or if no element is
non-negative (so the empty range is reported too, although the empty range of indices is not); otherwise it is accepted. If no element is negative, the
result is the one for the same indices given as `index_t`. -/
theorem C07_signed_exact {off e : Nat} (he : e ≤ 2 ^ 63) {l : List Int} (hl : ∀ x ∈ l, -2 ^ 63 ≤ x ∧ x < 2 ^ 63) :
    ((∃ x ∈ l, (e : Int) ≤ x) ∨ (∀ x ∈ l, x < 0) → crefIndexSigned Arith.exact true off e (-2 ^ 63) l = .error .assert) ∧
    ((∃ x ∈ l, 0 ≤ x) → (∀ x ∈ l, x < (e : Int)) → ∃ o, crefIndexSigned Arith.exact true off e (-2 ^ 63) l = .ok o) ∧
    (l ≠ [] → (∀ x ∈ l, 0 ≤ x ∧ x < (e : Int)) →
      crefIndexSigned Arith.exact true off e (-2 ^ 63) l = (Obj.cref off [e]).index Arith.exact true (.rng (l.map Int.toNat))) := by
  obtain ⟨h1, h2, h3⟩ := maxSigned_spec l (-2 ^ 63)
  have hval : toU64 (maxSigned (-2 ^ 63) l) = if 0 ≤ maxSigned (-2 ^ 63) l then (maxSigned (-2 ^ 63) l).toNat else (maxSigned (-2 ^ 63) l + 2 ^ 64).toNat := by
    have hu : maxSigned (-2 ^ 63) l < 2 ^ 63 := by
      rcases h1 with h | h
      · rw [h]; decide
      · exact (hl _ h).2
    unfold toU64 W64
    split <;> omega
  have hmk : ∀ idx : List Nat, idx.length = l.length → Mapper.mkVec Arith.exact true [l.length] idx = .ok (.vec ⟨0, [l.length], [1]⟩ idx) := by
    intro idx hi
    simp [Mapper.mkVec, SDesc.mk', inferStrides, SDesc.size, prodL_exact, prod, hi, dbg]
  have hok : (∃ x ∈ l, 0 ≤ x) → (∀ x ∈ l, x < (e : Int)) →
      crefIndexSigned Arith.exact true off e (-2 ^ 63) l = .ok (.sref off (.vec ⟨0, [l.length], [1]⟩ (l.map toU64))) := by
    rintro ⟨x, hx, h0⟩ hlt
    have hm0 : 0 ≤ maxSigned (-2 ^ 63) l := by have := h3 x hx; omega
    have hme : maxSigned (-2 ^ 63) l < e := by
      rcases h1 with h | h
      · omega
      · exact hlt _ h
    have : toU64 (maxSigned (-2 ^ 63) l) < e := by rw [hval, if_pos hm0]; omega
    simp only [crefIndexSigned, this, decide_true, dbg_true_true, res_ok_bind, hmk (l.map toU64) (by simp)]
  refine ⟨?_, fun h h' => ⟨_, hok h h'⟩, ?_⟩
  · intro h
    have : ¬ toU64 (maxSigned (-2 ^ 63) l) < e := by
      rw [hval]
      rcases h with ⟨x, hx, hxe⟩ | h
      · have := h3 x hx
        split <;> omega
      · have : maxSigned (-2 ^ 63) l < 0 := by
          rcases h1 with h' | h'
          · rw [h']; decide
          · exact h _ h'
        split <;> omega
    simp only [crefIndexSigned, this, decide_false, dbg_true_false]
    rfl
  · intro hne hall
    obtain ⟨y, hy⟩ := List.exists_mem_of_ne_nil l hne
    rw [hok ⟨y, hy, (hall y hy).1⟩ fun x hx => (hall x hx).2]
    have hmap : l.map toU64 = l.map Int.toNat := by
      refine List.map_congr_left fun x hx => ?_
      have := hall x hx
      unfold toU64 W64; omega
    have hmax : maxIdx (l.map Int.toNat) < e := by
      have hb : ∀ (k : List Nat) (s : Nat), s < e → (∀ x ∈ k, x < e) → k.foldl (fun s x => if s < x then x else s) s < e := by
        intro k
        induction k with
        | nil => intro s hs _; exact hs
        | cons a k ih =>
          intro s hs hk
          refine ih (if s < a then a else s) ?_ fun x hx => hk x (by simp [hx])
          have := hk a (by simp)
          split <;> omega
      refine hb _ 0 (by have := hall y hy; omega) ?_
      intro x hx
      obtain ⟨z, hz, rfl⟩ := List.mem_map.1 hx
      have := hall z hz
      omega
    simp only [Obj.index, crefIndex, List.length_singleton, if_true, List.headD_cons, hmax, decide_true, dbg_true_true, res_ok_bind, List.length_map, hmap,
      hmk (l.map Int.toNat) (by simp)]

example : crefIndexSigned Arith.exact true 0 3 (-2 ^ 63) [] = .error .assert := (C07_signed_exact (off := 0) (e := 3) (by decide) (by simp)).1 (.inr (by simp))
example : (Obj.cref 0 [3]).index Arith.exact true (.rng []) = .ok (.sref 0 (.vec ⟨0, [0], [1]⟩ [])) := by decide
example := (C07_signed_exact (off := 0) (e := 3) (l := [-1, 0]) (by decide) (by decide)).2.1 (by decide) (by decide)
example := (C07_signed_exact (off := 0) (e := 3) (l := [2, 0]) (by decide) (by decide)).2.2 (by decide) (by decide)

/-- **C07.** Without assertions nothing is checked: every range of signed integers is accepted, of extent its length, each integer converted to
`index_t` on its own. -/
theorem C07_signed_unchecked (off e : Nat) (l : List Int) :
    crefIndexSigned Arith.exact false off e (-2 ^ 63) l = .ok (.sref off (.vec ⟨0, [l.length], [1]⟩ (l.map fun x => (x % 2 ^ 64).toNat))) := by
  simp [crefIndexSigned, Mapper.mkVec, SDesc.mk', inferStrides, SDesc.size, prodL_exact, prod, dbg]
  intros; rfl

example : crefIndexSigned Arith.exact false 0 3 (-2 ^ 63) [-1, 7] = .ok (.sref 0 (.vec ⟨0, [2], [1]⟩ [2 ^ 64 - 1, 7])) := C07_signed_unchecked 0 3 [-1, 7]

example : (Obj.cref 0 [3, 4]).run Arith.exact true [.rng [2, 0, 2], .strided 1 2 2] =
    .ok (.sref 0 (.vec ⟨0, [3, 2], [1, 3]⟩ [5, 3, 5, 11, 9, 11])) := by decide

/-- **C08.** Views obtained through index ranges are ordinary views: any further accepted history means
what the specification says, and any further history is accepted, reported, or does not compile (it
never reads outside the index list). -/
theorem C08_reslicing {e : List Nat} {h : List Ix} {o : Obj} {v : AView} (hv : ViewOf e h o v)
    {k : List Ix} :
    (∀ o' w, o.run Arith.exact true k = .ok o' → k.foldl astep (.view v) = .view w → Observes o' w) ∧
      ((∀ s m, Ix.boundedStrided s m 0 ∉ k) → ∀ f, o.run Arith.exact true k = .error f →
        f = .assert ∨ f = .illFormed) := by
  obtain ⟨w, s⟩ := viewOf_wf hv
  refine ⟨fun o' w' hr hm => ?_, fun hz => noUB_run w ?_⟩
  · obtain ⟨h1, h2, h3⟩ := hv
    refine C04_history (e := e) (h := h ++ k) ⟨h1, by rw [run_append, h2]; exact hr, ?_⟩
    unfold meaning at h3 ⊢
    rw [List.foldl_append, h3, hm]
  · intro ix hix hs
    cases ix with
    | boundedStrided s m t =>
      have : t = 0 := hs
      subst this
      exact hz s m hix
    | _ => exact hs.elim

example : (Obj.cref 0 [3, 4]).run Arith.exact true
    [.rng [2, 0, 2], .strided 1 2 2, .at 1, .rng [1, 1]] =
    .ok (.sref 0 (.vec ⟨0, [2], [1]⟩ [9, 9])) := by decide

/-! ### C09 -/

/-- The number of positions `s + j*t` below `d` (`t > 0`). -/
def trueCount (s d t : Nat) : Nat := ((List.range d).filter fun k => s ≤ k ∧ (k - s) % t = 0).length

/-- **C09.** A bounded slice selects `min m (number of positions s ≤ k < d)` positions; `every` (the
largest maximum) selects all of them; nothing when `start ≥ d`. -/
theorem C09_bounded (s m d : Nat) :
    boundedExtent s m d = min m (trueCount s d 1) ∧ (d ≤ s → boundedExtent s m d = 0) ∧
      (d ≤ m → boundedExtent s m d = trueCount s d 1) ∧
      (0 < boundedExtent s m d → s + (boundedExtent s m d - 1) < d) := by
  have h1 : trueCount s d 1 = d - s := by
    have := filter_ge_range s d
    have h2 : ((List.range d).filter fun k => decide (s ≤ k ∧ (k - s) % 1 = 0)) =
        (List.range d).filter fun k => decide (s ≤ k) := by
      congr 1; funext k; simp [Nat.mod_one]
    unfold trueCount
    rw [h2, this]; simp
  rw [h1]
  unfold boundedExtent
  split <;> refine ⟨by omega, by omega, by omega, by omega⟩

/-- **C09.** What a bounded strided slice selects: `min m c` where `c` is at most the number of
positions, so it never leaves the dimension, and it selects nothing when `start ≥ d`. -/
theorem C09_strided_inside (s m d t : Nat) (ht : 0 < t) :
    ∃ x, boundedStridedExtent Arith.exact s m t d = .ok x ∧ x ≤ min m (trueCount s d t) ∧
      (d ≤ s → x = 0) ∧ (0 < x → s + (x - 1) * t < d) := by
  obtain ⟨x, hx⟩ := boundedStrided_ok (s := s) (mx := m) (dim := d) ht
  have hsel := sel_boundedStrided hx
  have hlen := congrArg List.length hsel
  simp only [sel_slice_length, sel, List.length_take] at hlen
  refine ⟨x, hx, ?_, ?_, ?_⟩
  · unfold trueCount; omega
  · intro hd
    have : stridedCount s d t = 0 := by simp [stridedCount, Nat.not_lt.2 hd]
    rw [this] at hlen; omega
  · intro hpos
    have : s + (x - 1) * t ∈ Arg.sel (.slice s x t) := by
      simp only [Arg.sel, List.mem_map, List.mem_range]; exact ⟨x - 1, by omega, rfl⟩
    rw [hsel] at this
    simp only [sel] at this
    have := List.mem_of_mem_take this
    have := (List.mem_filter.1 this).1
    exact List.mem_range.1 this

example := C09_strided_inside 1 100 7 3 (by decide)

/-- **C09** in a chain: wherever a bounded slice stands in a complete accepted chain on a view, the extent of that dimension of the
result is the clipped one, and the positions selected there are `s, s + 1, ...`. -/
theorem C09_in_chain {e : List Nat} {h : List Ix} {o : Obj} {v : AView} (hv : ViewOf e h o v) {ix : Ix} {ixs : List Ix}
    (hx : ∀ i, ix ≠ .at i) (hl : (ix :: ixs).length = v.ext.length) {o' : Obj}
    (hr : o.run Arith.exact true (ix :: ixs) = .ok o') {k s m d : Nat} (hk : (ix :: ixs)[k]? = some (.bounded s m))
    (hd : v.ext[k]? = some d) :
    (o'.dims.getD [])[k]? = some (min m (trueCount s d 1)) ∧
      ∃ sels : List (List Nat), sels.length = v.ext.length ∧ sels[k]? = some ((List.range (min m (trueCount s d 1))).map (s + ·)) ∧
        o'.positions Arith.exact = .ok ((multiIdx (sels.map List.length)).map fun j => v.pos (choose sels j)) := by
  have hobs := C04_selection hv hx hl hr
  have hsel : (List.zipWith sel v.ext (ix :: ixs))[k]? = some ((List.range (min m (trueCount s d 1))).map (s + ·)) := by
    rw [List.getElem?_zipWith, hk, hd]
    simp only [Option.some.injEq]
    rw [← sel_bounded, (C09_bounded s m d).1]
    simp [Arg.sel]
  refine ⟨?_, _, by simp only [List.length_zipWith]; omega, hsel, hobs.iterate⟩
  rw [hobs.dims]
  show (List.map List.length _)[k]? = _
  rw [List.getElem?_map, hsel]
  simp

example := C09_in_chain (e := [3, 4]) (h := [.every, .rng [3, 0, 3]]) (v := viewEx) ⟨by decide, rfl, rfl⟩ (ix := .bounded 1 9) (ixs := [.every])
  (by intro i h; cases h) rfl rfl (k := 0) (s := 1) (m := 9) (d := 3) rfl rfl

/-- **C09** for strided bounded slices in a chain: the extent is at most the clipped one. -/
theorem C09_strided_in_chain {e : List Nat} {h : List Ix} {o : Obj} {v : AView} (hv : ViewOf e h o v) {ix : Ix} {ixs : List Ix}
    (hx : ∀ i, ix ≠ .at i) (hl : (ix :: ixs).length = v.ext.length) {o' : Obj}
    (hr : o.run Arith.exact true (ix :: ixs) = .ok o') {k s m t d : Nat} (hk : (ix :: ixs)[k]? = some (.boundedStrided s m t))
    (hd : v.ext[k]? = some d) :
    ∃ x ≤ min m (trueCount s d t), (o'.dims.getD [])[k]? = some x ∧
      ∃ sels : List (List Nat), sels.length = v.ext.length ∧ sels[k]? = some ((List.range x).map fun i => s + i * t) ∧
        o'.positions Arith.exact = .ok ((multiIdx (sels.map List.length)).map fun j => v.pos (choose sels j)) := by
  have hobs := C04_selection hv hx hl hr
  have hsel0 : (List.zipWith sel v.ext (ix :: ixs))[k]? = some (sel d (.boundedStrided s m t)) := by
    rw [List.getElem?_zipWith, hk, hd]
  by_cases ht : 0 < t
  · obtain ⟨x, hbx, hle, _⟩ := C09_strided_inside s m d t ht
    have hsel := hsel0
    rw [← sel_boundedStrided hbx] at hsel
    refine ⟨x, hle, ?_, _, by simp only [List.length_zipWith]; omega, hsel, hobs.iterate⟩
    rw [hobs.dims]
    show (List.map List.length _)[k]? = _
    rw [List.getElem?_map, hsel]
    simp
  · have ht0 : t = 0 := by omega
    subst ht0
    have hempty : sel d (.boundedStrided s m 0) = [] := by simp [sel, stridedCount]
    rw [hempty] at hsel0
    refine ⟨0, Nat.zero_le _, ?_, _, by simp only [List.length_zipWith]; omega, by simpa using hsel0, hobs.iterate⟩
    rw [hobs.dims]
    show (List.map List.length _)[k]? = _
    rw [List.getElem?_map, hsel0]
    simp

example : (Obj.cref 0 [3, 7]).run Arith.exact true [.bounded 1 9, .boundedStrided 2 9 2] =
    .ok (.sref 0 (.ident ⟨7, [2, 3], [1, 6]⟩)) := by decide

/-- **C09, partial.** The count is the true one exactly when the remainder of `(d - s) / t` is `0` or
`t - 1`. -/
theorem C09_strided_count_partial (s m d t : Nat) (ht : 0 < t) (hs : s < d)
    (hm : trueCount s d t ≤ m) :
    boundedStridedExtent Arith.exact s m t d = .ok (trueCount s d t) ↔
      ((d - s) % t = 0 ∨ (d - s) % t = t - 1) := by
  have hcount : trueCount s d t = (d - s + (t - 1)) / t := by
    unfold trueCount
    rw [filter_stride_range s d t ht]
    simp [hs]
  have hval : boundedStridedExtent Arith.exact s m t d = .ok (min m (stridedCount s d t)) := by
    simp only [boundedStridedExtent, if_pos hs, seqSize, if_neg (Nat.pos_iff_ne_zero.1 ht), res_ok_bind,
      stridedCount, Arith.exact_add]
  rw [hval]
  have hle : stridedCount s d t ≤ trueCount s d t := by
    rw [hcount]
    simp only [stridedCount, if_pos hs]
    apply Nat.div_le_div_right
    have := Nat.mod_lt (d - s) ht
    split
    · omega
    · omega
  have hmin : min m (stridedCount s d t) = stridedCount s d t := by omega
  rw [hmin, Except.ok.injEq, hcount]
  simp only [stridedCount, if_pos hs]
  have hdm := Nat.div_add_mod (d - s) t
  have hr := Nat.mod_lt (d - s) ht
  generalize hq : (d - s) / t = q at *
  generalize hrr : (d - s) % t = r at *
  have hmul : ∀ c, (t * q + c) / t = q + c / t := fun c => by
    rw [Nat.mul_add_div ht]
  constructor
  · intro h
    rw [← hdm, show t * q + r + (t - 1) = t * q + (r + (t - 1)) by omega, hmul] at h
    split at h
    · left; assumption
    · next h0 =>
      right
      rw [Nat.add_assoc, hmul] at h
      have h1 : (r + (t - 1)) / t = 1 := by
        apply Nat.div_eq_of_lt_le <;> omega
      rw [h1] at h
      have h2 : (r + 1) / t = 1 := by omega
      have : t ≤ r + 1 := by
        rcases Nat.lt_or_ge (r + 1) t with h3 | h3
        · rw [Nat.div_eq_of_lt h3] at h2; omega
        · exact h3
      omega
  · intro h
    rw [← hdm, show t * q + r + (t - 1) = t * q + (r + (t - 1)) by omega, hmul]
    rcases h with h | h
    · subst h
      simp only [if_pos, Nat.add_zero, Nat.mul_div_cancel_left _ ht]
      have : (0 + (t - 1)) / t = 0 := Nat.div_eq_of_lt (by omega)
      omega
    · by_cases h0 : r = 0
      · rw [if_pos h0, h0]
        have : (0 + (t - 1)) / t = 0 := Nat.div_eq_of_lt (by omega)
        simp only [Nat.add_zero, Nat.mul_div_cancel_left _ ht]; omega
      · rw [if_neg h0, Nat.add_assoc, hmul]
        congr 1
        have h1 : (r + 1) / t = 1 := by
          apply Nat.div_eq_of_lt_le <;> omega
        have h2 : (r + (t - 1)) / t = 1 := by
          apply Nat.div_eq_of_lt_le <;> omega
        rw [h1, h2]

example := C09_strided_count_partial 1 100 7 3 (by decide) (by decide) (by decide)

/-- **C09 is false in general**: `slice(0, every, 3)` on a dimension of extent 4 should select the two
positions 0 and 3, and selects one. -/
theorem C09_strided_count_wrong :
    boundedStridedExtent Arith.u64 0 (2 ^ 64 - 1) 3 4 = .ok 1 ∧ trueCount 0 4 3 = 2 ∧
      (Obj.cref 0 [4]).run Arith.u64 true [.boundedStrided 0 (2 ^ 64 - 1) 3] =
        .ok (.sref 0 (.ident ⟨0, [1], [3]⟩)) := by decide

/-- **C09.** A zero stride is undefined behaviour (a remainder modulo zero) even in checked builds. -/
theorem C09_zero_stride_ub (s m d : Nat) (hs : s < d) (chk : Bool) :
    (Obj.cref 0 [d]).run Arith.exact chk [.boundedStrided s m 0] = .error .ub := by
  simp [Obj.run, Obj.index, crefIndex, boundedStridedExtent, seqSize, hs]

example := C09_zero_stride_ub 1 2 5 (by decide)

/-! ### C10 -/

/-- **C10.** A history that runs without assertion failure in a checked build gives the same object in an
unchecked build, in mathematical and in 64-bit arithmetic. -/
theorem C10_unchecked_agrees (A : Arith) (o o' : Obj) (h : List Ix) (hr : o.run A true h = .ok o') :
    o.run A false h = .ok o' := weak_run A h o o' hr

/-- The converse fails, as it must: an out-of-range index is only caught by the checked build. -/
example : (Obj.cref 0 [3]).run Arith.u64 false [.at 7] = .ok (.elem 7) ∧
    (Obj.cref 0 [3]).run Arith.u64 true [.at 7] = .error .assert := by decide

/-! ### C11 -/

/-- **C11.** A contiguous array and the general strided view with the same extents behave the same
under any history accepted by both. -/
theorem C11_fast_path_agrees {e : List Nat} (he : ∀ x ∈ e, x ≠ 0) (hne : e ≠ []) {d : SDesc}
    (hd : SDesc.mk' Arith.exact true 0 e = .ok d) {h : List Ix} {o1 o2 : Obj} {v : AView}
    (hm : meaning 0 e h = .view v)
    (h1 : (Obj.cref 0 e).run Arith.exact true h = .ok o1)
    (h2 : (Obj.sref 0 (.ident d)).run Arith.exact true h = .ok o2) :
    Observes o1 v ∧ Observes o2 v := by
  refine ⟨C04_history ⟨hne, h1, hm⟩, ?_⟩
  obtain ⟨rfl, _⟩ := mk'_exact.1 hd
  obtain ⟨w, s, a⟩ := run_refines (o := .sref 0 (.ident (canon 0 e))) (canon_WF hne fun _ => he) h2
  have hsame : SameObj (Obj.sref 0 (.ident (canon 0 e))).abs (.view (arrayView 0 e)) :=
    SameView.trans (contig_same 0 e) (arrayView_same 0 e)
  have := foldl_astep_congr hsame a
  unfold meaning at hm
  rw [hm] at this
  exact observes w (s.trans this.1)

example := C11_fast_path_agrees (e := [2, 3, 4]) (by decide) (by decide) (d := ⟨0, [2, 3, 4], [1, 2, 6]⟩) (by decide) (h := [.every, .every, .slice 1 2])
  (o1 := .cref 6 [2, 3, 2]) (o2 := .sref 0 (.ident ⟨6, [2, 3, 2], [1, 2, 6]⟩)) rfl (by decide) (by decide)

/-- **C11.** Both accept every legal history (unless it does not compile). -/
theorem C11_both_accept {e : List Nat} (he : ∀ x ∈ e, x ≠ 0) (hne : e ≠ []) {d : SDesc}
    (hd : SDesc.mk' Arith.exact true 0 e = .ok d) {h : List Ix}
    (hl : LegalAll (.view (arrayView 0 e)) h) (o : Obj) (ho : o = .cref 0 e ∨ o = .sref 0 (.ident d)) :
    (∃ o', o.run Arith.exact true h = .ok o') ∨ o.run Arith.exact true h = .error .illFormed := by
  rcases ho with rfl | rfl
  · exact C04_legal_accepted hne hl
  · obtain ⟨rfl, _⟩ := mk'_exact.1 hd
    exact run_complete (o := .sref 0 (.ident (canon 0 e))) (canon_WF hne fun _ => he) trivial
      (a := .view (arrayView 0 e)) (SameView.trans (contig_same 0 e) (arrayView_same 0 e)) trivial hl

/-- A case where the two run different code: two `every` and a slice in the last dimension. -/
example : (Obj.cref 0 [2, 3, 4]).run Arith.exact true [.every, .every, .slice 1 2] =
      .ok (.cref 6 [2, 3, 2]) ∧
    (Obj.sref 0 (.ident ⟨0, [2, 3, 4], [1, 2, 6]⟩)).run Arith.exact true [.every, .every, .slice 1 2] =
      .ok (.sref 0 (.ident ⟨6, [2, 3, 2], [1, 2, 6]⟩)) := by decide

end Jules.Props

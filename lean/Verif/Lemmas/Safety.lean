import Verif.Lemmas.Observe
/-
Checked indexing has no undefined behaviour (exact arithmetic); chains of slices.
-/
namespace Jules
open Spec

/-- The outcome is a value, an assertion failure, or a program that does not compile. -/
def NoUB (r : Res α) : Prop := ∀ f, r = .error f → f = .assert ∨ f = .illFormed

theorem noUB_ok (a : α) : NoUB (.ok a : Res α) := by intro f h; cases h
theorem noUB_assert : NoUB (.error .assert : Res α) := by intro f h; cases h; exact .inl rfl
theorem noUB_illFormed : NoUB (.error .illFormed : Res α) := by intro f h; cases h; exact .inr rfl

theorem noUB_bind {x : Res α} {g : α → Res β} (hx : NoUB x) (hg : ∀ a, x = .ok a → NoUB (g a)) :
    NoUB (x >>= g) := by
  cases x with
  | ok a => exact hg a rfl
  | error e =>
    intro f h
    simp only [res_error_bind, Except.error.injEq] at h
    exact hx f (by rw [h])

theorem noUB_dbg (chk c : Bool) : NoUB (dbg chk c) := by
  cases chk <;> cases c <;> simp [dbg, noUB_ok, noUB_assert]

theorem noUB_foldlM {f : σ → α → Res σ} : ∀ {l : List α}, (∀ st, ∀ x ∈ l, NoUB (f st x)) →
    ∀ st, NoUB (l.foldlM f st)
  | [], _, st => by simp [noUB_ok]
  | x :: l, h, st => by
    rw [List.foldlM_cons]
    exact noUB_bind (h st x (by simp)) fun s _ => noUB_foldlM (fun st y hy => h st y (by simp [hy])) s

theorem noUB_inferStrides : ∀ {e : List Nat} {t : Nat}, NoUB (inferStrides Arith.exact true e t)
  | [], _ => noUB_ok _
  | _ :: _, _ => noUB_bind (noUB_dbg _ _) fun _ _ => noUB_bind noUB_inferStrides fun _ _ => noUB_ok _

theorem noUB_mk' {s : Nat} {e : List Nat} : NoUB (SDesc.mk' Arith.exact true s e) := by
  unfold SDesc.mk'
  split
  · exact noUB_ok _
  · rw [inNoexcept_exact]; exact noUB_bind noUB_inferStrides fun _ _ => noUB_ok _

theorem noUB_mkVec {e l : List Nat} : NoUB (Mapper.mkVec Arith.exact true e l) :=
  noUB_bind noUB_mk' fun _ _ => noUB_bind (noUB_dbg _ _) fun _ _ => noUB_ok _

theorem noUB_map {m : Mapper} {i : Nat} : NoUB (m.map true i) := by
  cases m with
  | ident d => exact noUB_ok _
  | vec d idx =>
    refine noUB_bind (noUB_dbg _ _) fun _ h => ?_
    have : i < idx.length := by simpa [dbg_ok] using h
    unfold lookup
    rw [List.getElem?_eq_getElem this]
    exact noUB_ok _

theorem noUB_mapAll {m : Mapper} : ∀ {l : List Nat}, NoUB (m.mapAll true l)
  | [] => by simp [Mapper.mapAll, noUB_ok]
  | x :: l => by
    unfold Mapper.mapAll
    rw [List.mapM_cons]
    exact noUB_bind noUB_map fun _ _ => noUB_bind (noUB_mapAll (l := l)) fun _ _ => noUB_ok _

theorem noUB_doSlice : ∀ {args : List Arg} {s : Nat} {e t : List Nat},
    NoUB (doSlice Arith.exact true s e t args)
  | [], s, [], [] => noUB_ok _
  | [], s, [], _ :: _ => noUB_illFormed
  | [], s, _ :: _, t => by cases t <;> exact noUB_illFormed
  | .rng _ :: _, _, e, t => by cases e <;> cases t <;> exact noUB_illFormed
  | .idx _ :: _, _, [], t => by cases t <;> exact noUB_illFormed
  | .idx _ :: _, _, _ :: _, [] => noUB_illFormed
  | .slice _ _ _ :: _, _, [], t => by cases t <;> exact noUB_illFormed
  | .slice _ _ _ :: _, _, _ :: _, [] => noUB_illFormed
  | .idx _ :: _, _, _ :: _, _ :: _ =>
    noUB_bind (noUB_dbg _ _) fun _ _ => noUB_bind noUB_doSlice fun _ _ => noUB_ok _
  | .slice _ _ _ :: _, _, _ :: _, _ :: _ =>
    noUB_bind (noUB_dbg _ _) fun _ _ => noUB_bind (noUB_dbg _ _) fun _ _ =>
      noUB_bind (noUB_dbg _ _) fun _ _ => noUB_bind noUB_doSlice fun _ _ => noUB_ok _

theorem noUB_doSliceInd {d : SDesc} : ∀ {as : List Arg} {ix : List Nat} {st : List Nat × List Nat},
    NoUB (doSliceInd Arith.exact true d as ix st)
  | [], ix, (ext, out) => noUB_ok _
  | .rng l :: as, ix, (ext, out) =>
    noUB_bind (noUB_dbg _ _) fun _ _ => noUB_foldlM (fun _ _ _ => noUB_doSliceInd) _
  | .idx i :: as, ix, (ext, out) => noUB_bind (noUB_dbg _ _) fun _ _ => noUB_doSliceInd
  | .slice s x t :: as, ix, (ext, out) =>
    noUB_bind (noUB_dbg _ _) fun _ _ => noUB_bind (noUB_dbg _ _) fun _ _ =>
      noUB_bind (noUB_dbg _ _) fun _ _ => noUB_foldlM (fun _ _ _ => noUB_doSliceInd) _

theorem noUB_arraySlice {off : Nat} {m : Mapper} {args : List Arg} (hm : m.WF) :
    NoUB (arraySlice Arith.exact true off m args) := by
  unfold arraySlice
  split
  · next hd =>
    refine noUB_bind (noUB_bind noUB_doSlice fun _ _ => noUB_ok _) fun d' h => ?_
    cases m with
    | ident d => exact noUB_ok _
    | vec d idx =>
      simp only [defaultSlicing, res_bind_ok] at h
      obtain ⟨⟨s', e', t'⟩, h1, h2⟩ := h
      simp only [Except.ok.injEq] at h2
      subst h2
      obtain ⟨q1, q2, q3, q4, q5, _, q7⟩ := doSlice_sound h1 hm.desc.2.2.1
      have hd'WF : (⟨s', e', t'⟩ : SDesc).WF := by
        refine ⟨q3, ?_, q4, fun _ => q5⟩
        intro he
        have he : e' = [] := he
        rw [he] at q2
        have h0 : args = [] := by simpa using q2.symm
        have hlen := inside_map_length_eq q1
        rw [h0] at hlen
        exact hm.desc.2.1 (List.length_eq_zero_iff.1 hlen.symm)
      simp only [positions_spec hd'WF.iterOK (iterFuel_lt _), res_ok_bind]
      exact noUB_bind noUB_mapAll fun _ _ => noUB_bind noUB_mkVec fun _ _ => noUB_ok _
  · refine noUB_bind ?_ fun r _ => ?_
    · unfold indirectSlicing
      split
      · exact noUB_illFormed
      · exact noUB_doSliceInd
    · obtain ⟨ext, ps⟩ := r
      cases m with
      | ident d => exact noUB_bind noUB_mkVec fun _ _ => noUB_ok _
      | vec d idx => exact noUB_bind noUB_mapAll fun _ _ => noUB_bind noUB_mkVec fun _ _ => noUB_ok _

theorem noUB_arrayAtIdx {off : Nat} {m : Mapper} {i : Nat} (hm : m.WF) :
    NoUB (arrayAtIdx Arith.exact true off m i) := by
  by_cases hi : i < m.desc.ext.headD 0
  · obtain ⟨o, ho⟩ := arrayAtIdx_complete (off := off) hm hi
    rw [ho]; exact noUB_ok _
  · simp only [arrayAtIdx, hi, decide_false, dbg_true_false, res_error_bind]
    exact noUB_assert

theorem noUB_arrayAtArg {off : Nat} {m : Mapper} {a : Arg} (hm : m.WF) :
    NoUB (arrayAtArg Arith.exact true off m a) := by
  unfold arrayAtArg
  split
  · exact noUB_arraySlice hm
  · exact noUB_ok _

theorem noUB_proxyAt {off : Nat} {m : Mapper} {args : List Arg} {a : Arg} (hm : m.WF) :
    NoUB (proxyAt Arith.exact true off m args a) := by
  unfold proxyAt
  split
  · exact noUB_arraySlice hm
  · exact noUB_ok _

theorem noUB_boundedStrided {s mx t d : Nat} (ht : 0 < t) :
    NoUB (boundedStridedExtent Arith.exact s mx t d) := by
  obtain ⟨x, hx⟩ := boundedStrided_ok (s := s) (mx := mx) (dim := d) ht
  rw [hx]; exact noUB_ok _

/-- A bounded slice with stride zero. -/
def Ix.zeroStep : Ix → Prop
  | .boundedStrided _ _ t => t = 0
  | _ => False

theorem noUB_proxyIndex {off : Nat} {m : Mapper} {args : List Arg} {ix : Ix} (hm : m.WF)
    (hz : ¬ ix.zeroStep) : NoUB (proxyIndex Arith.exact true off m args ix) := by
  cases ix with
  | boundedStrided s mx t =>
    exact noUB_bind (noUB_boundedStrided (Nat.pos_of_ne_zero hz)) fun _ _ => noUB_proxyAt hm
  | _ => exact noUB_proxyAt hm

theorem noUB_srefIndex {off : Nat} {m : Mapper} {ix : Ix} (hm : m.WF)
    (hz : ¬ ix.zeroStep) : NoUB (srefIndex Arith.exact true off m ix) := by
  cases ix with
  | boundedStrided s mx t =>
    exact noUB_bind (noUB_boundedStrided (Nat.pos_of_ne_zero hz)) fun _ _ => noUB_arrayAtArg hm
  | «at» i => exact noUB_arrayAtIdx hm
  | every => exact noUB_ok _
  | _ => exact noUB_arrayAtArg hm

theorem noUB_everyFallback {off : Nat} {ext : List Nat} {M : Nat} {ix : Ix} (hne : ext ≠ [])
    (hz : ¬ ix.zeroStep) : NoUB (everyFallback Arith.exact true off ext M ix) := by
  refine noUB_bind noUB_mk' fun d hd => ?_
  obtain ⟨rfl, h⟩ := mk'_exact.1 hd
  exact noUB_proxyIndex (m := .ident (canon 0 ext)) (canon_WF hne (h rfl)) hz

theorem noUB_everyIndex {off : Nat} {ext : List Nat} {M : Nat} {ix : Ix} (hne : ext ≠ [])
    (hz : ¬ ix.zeroStep) : NoUB (everyIndex Arith.exact true off ext M ix) := by
  cases ix with
  | «at» i =>
    simp only [everyIndex]
    split
    · refine noUB_bind (noUB_dbg _ _) fun _ h => ?_
      have : i < ext.getD (ext.length - 1) 0 := by
        have := dbg_ok.1 h rfl; exact of_decide_eq_true this
      rw [if_neg (by omega)]
      exact noUB_ok _
    · exact noUB_illFormed
  | slice s x =>
    simp only [everyIndex]
    split
    · refine noUB_bind (noUB_dbg _ _) fun _ h => ?_
      have : usub (s + x) 1 < ext.getD (ext.length - 1) 0 := by
        have := dbg_ok.1 h rfl; exact of_decide_eq_true this
      rw [if_neg (by omega)]
      exact noUB_ok _
    · exact noUB_everyFallback hne hz
  | strided s x t => exact noUB_everyFallback hne hz
  | every =>
    simp only [everyIndex]
    split <;> exact noUB_ok _
  | bounded s mx => exact noUB_everyFallback hne (by simp [Ix.zeroStep])
  | boundedStrided s mx t =>
    exact noUB_bind (noUB_boundedStrided (Nat.pos_of_ne_zero hz)) fun _ _ =>
      noUB_everyFallback hne (by simp [Ix.zeroStep])
  | rng l => exact noUB_everyFallback hne hz

theorem noUB_arrayAtArgC {off : Nat} {ext : List Nat} {a : Arg} (hne : ext ≠ []) :
    NoUB (arrayAtArgC Arith.exact true off ext a) := by
  refine noUB_bind noUB_mk' fun d hd => ?_
  obtain ⟨rfl, h⟩ := mk'_exact.1 hd
  exact noUB_arrayAtArg (m := .ident (canon 0 ext)) (canon_WF hne (h rfl))

theorem noUB_arrayAtSliceC {off : Nat} {ext : List Nat} {s x : Nat} (hne : ext ≠ []) :
    NoUB (arrayAtSliceC Arith.exact true off ext s x) := by
  unfold arrayAtSliceC
  split
  · exact noUB_bind (noUB_dbg _ _) fun _ _ => noUB_ok _
  · refine noUB_bind noUB_mk' fun d hd => ?_
    obtain ⟨rfl, h⟩ := mk'_exact.1 hd
    exact noUB_arrayAtArg (m := .ident (canon 0 ext)) (canon_WF hne (h rfl))

theorem noUB_crefIndex {off : Nat} {ext : List Nat} {ix : Ix} (hne : ext ≠ [])
    (hz : ¬ ix.zeroStep) : NoUB (crefIndex Arith.exact true off ext ix) := by
  cases ix with
  | «at» i =>
    refine noUB_bind (noUB_dbg _ _) fun _ h => ?_
    split
    · exact noUB_ok _
    · refine noUB_bind noUB_mk' fun d hd => noUB_bind ?_ fun _ _ => noUB_ok _
      unfold SDesc.discard
      split
      · exact noUB_ok _
      · exact noUB_illFormed
  | slice s x => exact noUB_arrayAtSliceC hne
  | strided s x t => exact noUB_arrayAtArgC hne
  | every =>
    simp only [crefIndex]
    split <;> exact noUB_ok _
  | bounded s mx => exact noUB_arrayAtSliceC hne
  | boundedStrided s mx t =>
    exact noUB_bind (noUB_boundedStrided (Nat.pos_of_ne_zero hz)) fun _ _ => noUB_arrayAtArgC hne
  | rng l =>
    simp only [crefIndex]
    split
    · exact noUB_bind (noUB_dbg _ _) fun _ _ => noUB_bind noUB_mkVec fun _ _ => noUB_ok _
    · exact noUB_arrayAtArgC hne

theorem noUB_index {o : Obj} {ix : Ix} (hwf : o.WF) (hz : ¬ ix.zeroStep) :
    NoUB (o.index Arith.exact true ix) := by
  cases o with
  | elem p => exact noUB_illFormed
  | cref off ext => exact noUB_crefIndex hwf hz
  | sref off m => exact noUB_srefIndex hwf hz
  | proxy off m args => exact noUB_proxyIndex hwf.1 hz
  | everyProxy off ext M =>
    have hM : 1 ≤ M ∧ M < ext.length := hwf
    exact noUB_everyIndex (by intro h; subst h; simp at hM) hz

theorem noUB_run : ∀ {h : List Ix} {o : Obj}, o.WF → (∀ ix ∈ h, ¬ ix.zeroStep) →
    NoUB (o.run Arith.exact true h)
  | [], o, _, _ => noUB_ok _
  | ix :: h, o, hwf, hz => by
    simp only [Obj.run, List.foldlM_cons]
    exact noUB_bind (noUB_index hwf (hz ix (by simp))) fun o' ho =>
      noUB_run (index_step hwf ho).wf fun i hi => hz i (by simp [hi])

/-! ### Chains of strided slices -/

/-- The chain `[slice(s₀,x₀,t₀)][slice(s₁,x₁,t₁)]…`. -/
def sliceChain (sl : List (Nat × Nat × Nat)) : List Ix := sl.map fun p => .strided p.1 p.2.1 p.2.2

def sliceArgs (sl : List (Nat × Nat × Nat)) : List Arg := sl.map fun p => .slice p.1 p.2.1 p.2.2

theorem proxy_chain {A : Arith} {chk : Bool} {off : Nat} {m : Mapper} : ∀ {sl : List (Nat × Nat × Nat)}
    {args : List Arg}, sl ≠ [] → args.length + sl.length = m.desc.ext.length →
    (Obj.proxy off m args).run A chk (sliceChain sl) = arraySlice A chk off m (args ++ sliceArgs sl)
  | [], _, h, _ => absurd rfl h
  | [p], args, _, hl => by
    have hl : args.length + 1 = m.desc.ext.length := hl
    simp only [Obj.run, sliceChain, List.map_cons, List.map_nil, List.foldlM_cons, List.foldlM_nil,
      Obj.index, proxyIndex, proxyAt, sliceArgs]
    rw [if_pos (by omega)]
    exact bind_pure _
  | p :: q :: sl, args, _, hl => by
    have hl : args.length + (sl.length + 2) = m.desc.ext.length := hl
    have := proxy_chain (A := A) (chk := chk) (off := off) (m := m) (sl := q :: sl)
      (args := args ++ [.slice p.1 p.2.1 p.2.2]) (by simp) (by simp; omega)
    simp only [Obj.run, sliceChain, List.map_cons, List.foldlM_cons, Obj.index, proxyIndex, proxyAt] at this ⊢
    rw [if_neg (by omega), res_ok_bind, this]
    simp [sliceArgs]

theorem sref_chain {A : Arith} {chk : Bool} {off : Nat} {m : Mapper} {sl : List (Nat × Nat × Nat)}
    (hne : sl ≠ []) (hl : sl.length = m.desc.ext.length) :
    (Obj.sref off m).run A chk (sliceChain sl) = arraySlice A chk off m (sliceArgs sl) := by
  cases sl with
  | nil => exact absurd rfl hne
  | cons p sl =>
    have hl : sl.length + 1 = m.desc.ext.length := hl
    simp only [Obj.run, sliceChain, List.map_cons, List.foldlM_cons, Obj.index, srefIndex, arrayAtArg]
    cases sl with
    | nil =>
      rw [if_pos (by simpa using hl.symm)]
      simp only [sliceArgs, List.map_nil, List.foldlM_nil, List.map_cons]
      exact bind_pure _
    | cons q sl =>
      rw [if_neg (by simp at hl; omega), res_ok_bind]
      exact proxy_chain (args := [.slice p.1 p.2.1 p.2.2]) (by simp) (by simp at hl ⊢; omega)

theorem cref_chain {A : Arith} {chk : Bool} {off : Nat} {ext : List Nat} {sl : List (Nat × Nat × Nat)}
    (hne : sl ≠ []) (hl : sl.length = ext.length) :
    (Obj.cref off ext).run A chk (sliceChain sl) =
      SDesc.mk' A chk 0 ext >>= fun d => arraySlice A chk off (.ident d) (sliceArgs sl) := by
  cases sl with
  | nil => exact absurd rfl hne
  | cons p sl =>
    have hd : ∀ d, SDesc.mk' A chk 0 ext = .ok d → d.ext = ext := by
      intro d hd
      unfold SDesc.mk' at hd
      split at hd
      · cases hd; rfl
      · obtain ⟨_, _, h⟩ := res_bind_ok.1 hd
        cases h; rfl
    simp only [Obj.run, sliceChain, List.map_cons, List.foldlM_cons, Obj.index, crefIndex, arrayAtArgC]
    cases hmk : SDesc.mk' A chk 0 ext with
    | error e => rfl
    | ok d =>
      simp only [res_ok_bind]
      have := sref_chain (A := A) (chk := chk) (off := off) (m := .ident d) hne (by simp [Mapper.desc, hd d hmk, hl])
      rw [← this]
      simp only [Obj.run, sliceChain, List.map_cons, List.foldlM_cons, Obj.index, srefIndex]

theorem doSlice_pos : ∀ {args : List Arg} {s : Nat} {e t : List Nat} {r : Nat × List Nat × List Nat},
    doSlice Arith.exact true s e t args = .ok r → ∀ s x d, Arg.slice s x d ∈ args → 0 < x ∧ 0 < d
  | [], _, _, _, _, _, _, _, _, h => by simp at h
  | .rng _ :: _, _, e, t, _, h, _, _, _, _ => by cases e <;> cases t <;> cases h
  | .idx _ :: as, s, [], t, _, h, _, _, _, _ => by cases t <;> cases h
  | .idx _ :: as, s, _ :: _, [], _, h, _, _, _, _ => by cases h
  | .slice _ _ _ :: as, s, [], t, _, h, _, _, _, _ => by cases t <;> cases h
  | .slice _ _ _ :: as, s, _ :: _, [], _, h, _, _, _, _ => by cases h
  | .idx i :: as, s, e :: es, t :: ts, r, h, s', x', d', hm => by
    simp only [doSlice, res_bind_ok] at h
    obtain ⟨_, _, r', h2, _⟩ := h
    exact doSlice_pos h2 s' x' d' (by simpa using hm)
  | .slice a x d :: as, s, e :: es, t :: ts, r, h, s', x', d', hm => by
    simp only [doSlice, res_bind_ok, dbg_ok] at h
    obtain ⟨_, h0, _, h1, _, _, r', h2, _⟩ := h
    rcases List.mem_cons.1 hm with hm | hm
    · cases hm
      exact ⟨by simpa using h1, by simpa using h0⟩
    · exact doSlice_pos h2 s' x' d' hm

theorem sliceArgs_default (sl : List (Nat × Nat × Nat)) : (sliceArgs sl).all Arg.isDefault = true := by
  simp [sliceArgs, Arg.isDefault]

theorem sliceArgs_pos {off : Nat} {m : Mapper} {sl : List (Nat × Nat × Nat)} {o : Obj}
    (h : arraySlice Arith.exact true off m (sliceArgs sl) = .ok o) : ∀ p ∈ sl, 0 < p.2.1 ∧ 0 < p.2.2 := by
  unfold arraySlice at h
  rw [if_pos (sliceArgs_default sl)] at h
  simp only [res_bind_ok, defaultSlicing] at h
  obtain ⟨d', ⟨r, h1, _⟩, _⟩ := h
  intro p hp
  exact doSlice_pos h1 p.1 p.2.1 p.2.2 (List.mem_map_of_mem hp)

/-- A complete chain of strided slices on a view is one call of `array_slice`. -/
theorem view_chain {o : Obj} {v : AView} (hwf : o.WF) (hs : SameObj o.abs (.view v))
    {sl : List (Nat × Nat × Nat)} (hne : sl ≠ []) (hl : sl.length = v.ext.length) {o' : Obj}
    (h : o.run Arith.exact true (sliceChain sl) = .ok o') : ∀ p ∈ sl, 0 < p.2.1 ∧ 0 < p.2.2 := by
  cases o with
  | elem p =>
    have : v.ext = [] := hs.1.symm
    rw [this] at hl
    exact absurd (List.length_eq_zero_iff.1 hl) hne
  | proxy off m args => exact hs.elim
  | everyProxy off ext M => exact hs.elim
  | sref off m =>
    have he := hs.1
    rw [Mapper.aview_ext] at he
    rw [sref_chain hne (by rw [hl, he])] at h
    exact sliceArgs_pos h
  | cref off ext =>
    have he : ext = v.ext := hs.1
    rw [cref_chain hne (by rw [hl, he])] at h
    obtain ⟨d, _, h⟩ := res_bind_ok.1 h
    exact sliceArgs_pos h

end Jules

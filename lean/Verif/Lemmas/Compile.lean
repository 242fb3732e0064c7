import Verif.Lemmas.Safety
/-
Which index expressions compile.
-/
namespace Jules
open Spec

/-- The C++ expression compiles. -/
def NoIF (r : Res α) : Prop := r ≠ .error .illFormed

theorem noIF_ok (a : α) : NoIF (.ok a : Res α) := by intro h; cases h

theorem noIF_bind {x : Res α} {g : α → Res β} (hx : NoIF x) (hg : ∀ a, x = .ok a → NoIF (g a)) :
    NoIF (x >>= g) := by
  cases x with
  | ok a => exact hg a rfl
  | error e =>
    intro h
    simp only [res_error_bind, Except.error.injEq] at h
    exact hx (by rw [h])

theorem noIF_dbg (chk c : Bool) : NoIF (dbg chk c) := by
  cases chk <;> cases c <;> simp [dbg, NoIF]

theorem noIF_foldlM {f : σ → α → Res σ} : ∀ {l : List α}, (∀ st, ∀ x ∈ l, NoIF (f st x)) →
    ∀ st, NoIF (l.foldlM f st)
  | [], _, st => by simp [noIF_ok]
  | x :: l, h, st => by
    rw [List.foldlM_cons]
    exact noIF_bind (h st x (by simp)) fun s _ => noIF_foldlM (fun st y hy => h st y (by simp [hy])) s

theorem noIF_inferStrides : ∀ {e : List Nat} {t : Nat}, NoIF (inferStrides Arith.exact true e t)
  | [], _ => noIF_ok _
  | _ :: _, _ => noIF_bind (noIF_dbg _ _) fun _ _ => noIF_bind noIF_inferStrides fun _ _ => noIF_ok _

theorem noIF_mk' {s : Nat} {e : List Nat} : NoIF (SDesc.mk' Arith.exact true s e) := by
  unfold SDesc.mk'
  split
  · exact noIF_ok _
  · rw [inNoexcept_exact]; exact noIF_bind noIF_inferStrides fun _ _ => noIF_ok _

theorem noIF_mkVec {e l : List Nat} : NoIF (Mapper.mkVec Arith.exact true e l) :=
  noIF_bind noIF_mk' fun _ _ => noIF_bind (noIF_dbg _ _) fun _ _ => noIF_ok _

theorem noIF_map {m : Mapper} {i : Nat} : NoIF (m.map true i) := by
  cases m with
  | ident d => exact noIF_ok _
  | vec d idx =>
    refine noIF_bind (noIF_dbg _ _) fun _ h => ?_
    unfold lookup
    split
    · exact noIF_ok _
    · intro h; cases h

theorem noIF_mapAll {m : Mapper} : ∀ {l : List Nat}, NoIF (m.mapAll true l)
  | [] => by simp [Mapper.mapAll, noIF_ok]
  | x :: l => by
    unfold Mapper.mapAll
    rw [List.mapM_cons]
    exact noIF_bind noIF_map fun _ _ => noIF_bind (noIF_mapAll (l := l)) fun _ _ => noIF_ok _

theorem noIF_doSlice : ∀ {args : List Arg} {s : Nat} {e t : List Nat}, args.all Arg.isDefault = true →
    args.length = e.length → e.length = t.length → NoIF (doSlice Arith.exact true s e t args)
  | [], s, [], [], _, _, _ => noIF_ok _
  | .rng _ :: _, _, _, _, h, _, _ => by simp [Arg.isDefault] at h
  | .idx _ :: _, _, _ :: _, _ :: _, hd, h1, h2 =>
    noIF_bind (noIF_dbg _ _) fun _ _ => noIF_bind (noIF_doSlice (by simpa [Arg.isDefault] using hd) (by simpa using h1) (by simpa using h2)) fun _ _ => noIF_ok _
  | .slice _ _ _ :: _, _, _ :: _, _ :: _, hd, h1, h2 =>
    noIF_bind (noIF_dbg _ _) fun _ _ => noIF_bind (noIF_dbg _ _) fun _ _ =>
      noIF_bind (noIF_dbg _ _) fun _ _ => noIF_bind (noIF_doSlice (by simpa [Arg.isDefault] using hd) (by simpa using h1) (by simpa using h2)) fun _ _ => noIF_ok _

theorem noIF_doSliceInd {d : SDesc} : ∀ {as : List Arg} {ix : List Nat} {st : List Nat × List Nat},
    NoIF (doSliceInd Arith.exact true d as ix st)
  | [], ix, (ext, out) => noIF_ok _
  | .rng l :: as, ix, (ext, out) =>
    noIF_bind (noIF_dbg _ _) fun _ _ => noIF_foldlM (fun _ _ _ => noIF_doSliceInd) _
  | .idx i :: as, ix, (ext, out) => noIF_bind (noIF_dbg _ _) fun _ _ => noIF_doSliceInd
  | .slice s x t :: as, ix, (ext, out) =>
    noIF_bind (noIF_dbg _ _) fun _ _ => noIF_bind (noIF_dbg _ _) fun _ _ =>
      noIF_bind (noIF_dbg _ _) fun _ _ => noIF_foldlM (fun _ _ _ => noIF_doSliceInd) _

theorem noIF_arraySlice {off : Nat} {m : Mapper} {args : List Arg} (hm : m.WF) (hl : args.length = m.desc.ext.length) :
    NoIF (arraySlice Arith.exact true off m args) := by
  unfold arraySlice
  split
  · next hd =>
    refine noIF_bind (noIF_bind (noIF_doSlice hd hl hm.desc.1.symm) fun _ _ => noIF_ok _) fun d' h => ?_
    cases m with
    | ident d => exact noIF_ok _
    | vec d idx =>
      simp only [defaultSlicing, res_bind_ok] at h
      obtain ⟨⟨s', e', t'⟩, h1, h2⟩ := h
      simp only [Except.ok.injEq] at h2
      subst h2
      obtain ⟨q1, q2, q3, q4, q5, _, q7⟩ := doSlice_sound h1 hm.desc.2.2.1
      have hd'WF : (⟨s', e', t'⟩ : SDesc).WF := by
        refine ⟨q3, ?_, q4, fun _ => q5⟩
        intro he
        have he : e' = [] := he
        rw [he] at q2
        have h0 : args = [] := by simpa using q2.symm
        have hlen := inside_map_length_eq q1
        rw [h0] at hlen
        exact hm.desc.2.1 (List.length_eq_zero_iff.1 hlen.symm)
      simp only [positions_spec hd'WF.iterOK (iterFuel_lt _), res_ok_bind]
      exact noIF_bind noIF_mapAll fun _ _ => noIF_bind noIF_mkVec fun _ _ => noIF_ok _
  · refine noIF_bind ?_ fun r _ => ?_
    · unfold indirectSlicing
      rw [if_neg (by simpa using hl)]
      exact noIF_doSliceInd
    · obtain ⟨ext, ps⟩ := r
      cases m with
      | ident d => exact noIF_bind noIF_mkVec fun _ _ => noIF_ok _
      | vec d idx => exact noIF_bind noIF_mapAll fun _ _ => noIF_bind noIF_mkVec fun _ _ => noIF_ok _

theorem noIF_arrayAtIdx {off : Nat} {m : Mapper} {i : Nat} (hm : m.WF) :
    NoIF (arrayAtIdx Arith.exact true off m i) := by
  by_cases hi : i < m.desc.ext.headD 0
  · obtain ⟨o, ho⟩ := arrayAtIdx_complete (off := off) hm hi
    rw [ho]; exact noIF_ok _
  · simp only [arrayAtIdx, hi, decide_false, dbg_true_false, res_error_bind]
    intro h; cases h

theorem noIF_arrayAtArg {off : Nat} {m : Mapper} {a : Arg} (hm : m.WF) :
    NoIF (arrayAtArg Arith.exact true off m a) := by
  unfold arrayAtArg
  split
  · next h => exact noIF_arraySlice hm h.symm
  · exact noIF_ok _

theorem noIF_proxyAt {off : Nat} {m : Mapper} {args : List Arg} {a : Arg} (hm : m.WF) (hl : args.length < m.desc.ext.length) :
    NoIF (proxyAt Arith.exact true off m args a) := by
  unfold proxyAt
  split
  · exact noIF_arraySlice hm (by simp; omega)
  · exact noIF_ok _

theorem noIF_boundedStrided {s mx t d : Nat} : NoIF (boundedStridedExtent Arith.exact s mx t d) := by
  unfold boundedStridedExtent seqSize
  refine noIF_bind ?_ fun _ _ => noIF_ok _
  split
  · dsimp only
    split
    · intro h; cases h
    · exact noIF_ok _
  · exact noIF_ok _

theorem noIF_proxyIndex {off : Nat} {m : Mapper} {args : List Arg} {ix : Ix} (hm : m.WF) (hl : args.length < m.desc.ext.length) :
    NoIF (proxyIndex Arith.exact true off m args ix) := by
  cases ix with
  | boundedStrided s mx t => exact noIF_bind noIF_boundedStrided fun _ _ => noIF_proxyAt hm hl
  | _ => exact noIF_proxyAt hm hl

theorem noIF_srefIndex {off : Nat} {m : Mapper} {ix : Ix} (hm : m.WF) : NoIF (srefIndex Arith.exact true off m ix) := by
  cases ix with
  | boundedStrided s mx t => exact noIF_bind noIF_boundedStrided fun _ _ => noIF_arrayAtArg hm
  | «at» i => exact noIF_arrayAtIdx hm
  | every => exact noIF_ok _
  | _ => exact noIF_arrayAtArg hm

theorem noIF_everyFallback {off : Nat} {ext : List Nat} {M : Nat} {ix : Ix} (hM : M < ext.length) :
    NoIF (everyFallback Arith.exact true off ext M ix) := by
  refine noIF_bind noIF_mk' fun d hd => ?_
  obtain ⟨rfl, h⟩ := mk'_exact.1 hd
  have hne : ext ≠ [] := by rintro rfl; simp at hM
  refine noIF_proxyIndex (m := .ident (canon 0 ext)) (canon_WF hne (h rfl)) ?_
  have : (canon 0 ext).ext = ext := rfl
  simp [Mapper.desc, this]; omega

theorem noIF_everyIndex {off : Nat} {ext : List Nat} {M : Nat} {ix : Ix} (hM : M < ext.length)
    (hat : ∀ i, ix = .at i → M = ext.length - 1) : NoIF (everyIndex Arith.exact true off ext M ix) := by
  cases ix with
  | «at» i =>
    simp only [everyIndex]
    rw [if_pos (hat i rfl)]
    refine noIF_bind (noIF_dbg _ _) fun _ h => ?_
    split
    · intro h; cases h
    · exact noIF_ok _
  | slice s x =>
    simp only [everyIndex]
    split
    · refine noIF_bind (noIF_dbg _ _) fun _ h => ?_
      split
      · intro h; cases h
      · exact noIF_ok _
    · exact noIF_everyFallback hM
  | strided s x t => exact noIF_everyFallback hM
  | every =>
    simp only [everyIndex]
    split <;> exact noIF_ok _
  | bounded s mx => exact noIF_everyFallback hM
  | boundedStrided s mx t => exact noIF_bind noIF_boundedStrided fun _ _ => noIF_everyFallback hM
  | rng l => exact noIF_everyFallback hM

theorem noIF_arrayAtArgC {off : Nat} {ext : List Nat} {a : Arg} (hne : ext ≠ []) :
    NoIF (arrayAtArgC Arith.exact true off ext a) := by
  refine noIF_bind noIF_mk' fun d hd => ?_
  obtain ⟨rfl, h⟩ := mk'_exact.1 hd
  exact noIF_arrayAtArg (m := .ident (canon 0 ext)) (canon_WF hne (h rfl))

theorem noIF_arrayAtSliceC {off : Nat} {ext : List Nat} {s x : Nat} (hne : ext ≠ []) :
    NoIF (arrayAtSliceC Arith.exact true off ext s x) := by
  unfold arrayAtSliceC
  split
  · exact noIF_bind (noIF_dbg _ _) fun _ _ => noIF_ok _
  · refine noIF_bind noIF_mk' fun d hd => ?_
    obtain ⟨rfl, h⟩ := mk'_exact.1 hd
    exact noIF_arrayAtArg (m := .ident (canon 0 ext)) (canon_WF hne (h rfl))

theorem noIF_crefIndex {off : Nat} {ext : List Nat} {ix : Ix} (hne : ext ≠ []) :
    NoIF (crefIndex Arith.exact true off ext ix) := by
  cases ix with
  | «at» i =>
    refine noIF_bind (noIF_dbg _ _) fun _ h => ?_
    split
    · exact noIF_ok _
    · next hlen =>
      refine noIF_bind noIF_mk' fun d hd => noIF_bind ?_ fun _ _ => noIF_ok _
      obtain ⟨rfl, h⟩ := mk'_exact.1 hd
      have hw := canon_WF (s := i) hne (h rfl)
      obtain ⟨a, b, l, rfl⟩ : ∃ a b l, ext = a :: b :: l := by
        cases ext with
        | nil => exact (hne rfl).elim
        | cons a ext =>
          cases ext with
          | nil => simp at hlen
          | cons b l => exact ⟨a, b, l, rfl⟩
      unfold SDesc.discard
      split
      · exact noIF_ok _
      · next hx =>
        have h1 : (canon i (a :: b :: l)).ext = a :: b :: l := rfl
        have h2 := hw.1
        rw [h1] at h2
        cases h3 : (canon i (a :: b :: l)).strides with
        | nil => rw [h3] at h2; simp at h2
        | cons x t =>
          cases t with
          | nil => rw [h3] at h2; simp at h2
          | cons y t => exact (hx _ _ _ _ _ _ h1 h3).elim
  | slice s x => exact noIF_arrayAtSliceC hne
  | strided s x t => exact noIF_arrayAtArgC hne
  | every =>
    simp only [crefIndex]
    split <;> exact noIF_ok _
  | bounded s mx => exact noIF_arrayAtSliceC hne
  | boundedStrided s mx t => exact noIF_bind noIF_boundedStrided fun _ _ => noIF_arrayAtArgC hne
  | rng l =>
    simp only [crefIndex]
    split
    · exact noIF_bind (noIF_dbg _ _) fun _ _ => noIF_bind noIF_mkVec fun _ _ => noIF_ok _
    · exact noIF_arrayAtArgC hne

/-- `[ix]` compiles, except on an element and for a plain index after `[every]…` on a contiguous array before the last
dimension. -/
theorem noIF_index {o : Obj} {ix : Ix} (hwf : o.WF) (he : ∀ p, o ≠ .elem p)
    (hat : ∀ off ext M i, o = .everyProxy off ext M → ix = .at i → M = ext.length - 1) : NoIF (o.index Arith.exact true ix) := by
  cases o with
  | elem p => exact (he p rfl).elim
  | cref off ext => exact noIF_crefIndex hwf
  | sref off m => exact noIF_srefIndex hwf
  | proxy off m args => exact noIF_proxyIndex hwf.1 hwf.2.2
  | everyProxy off ext M => exact noIF_everyIndex hwf.2 fun i hi => hat off ext M i rfl hi

/-- A legal step that compiles succeeds. -/
theorem legal_step {o : Obj} {a : AObj} {ix : Ix} (hwf : o.WF) (hp : o.ArgsPos) (hs : SameObj o.abs a) (hg : AGood a)
    (hl : Legal a ix) (hc : NoIF (o.index Arith.exact true ix)) : ∃ o', o.index Arith.exact true ix = .ok o' ∧ o'.ArgsPos := by
  rcases index_stepOK hwf hp (agood_congr hs.symm hg) (legal_congr hs.symm hl) with h | h
  · exact h
  · exact (hc h).elim

end Jules

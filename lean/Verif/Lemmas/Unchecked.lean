import Verif.Model.Slicing
/-
Removing the checks does not change successful results.
-/
namespace Jules

/-- Whenever `r` succeeds, `r'` succeeds with the same value. -/
def Weak (r r' : Res α) : Prop := ∀ a, r = .ok a → r' = .ok a

theorem Weak.refl (r : Res α) : Weak r r := fun _ h => h

theorem weak_bind {x x' : Res α} {g g' : α → Res β} (hx : Weak x x') (hg : ∀ a, Weak (g a) (g' a)) :
    Weak (x >>= g) (x' >>= g') := by
  intro b h
  obtain ⟨a, h1, h2⟩ := res_bind_ok.1 h
  exact res_bind_ok.2 ⟨a, hx a h1, hg a b h2⟩

theorem weak_inNoexcept {A : Arith} {r r' : Res α} (h : Weak r r') : Weak (inNoexcept A r) (inNoexcept A r') := by
  intro a ha
  exact inNoexcept_eq_ok.2 (h a (inNoexcept_eq_ok.1 ha))

theorem weak_dbg (c : Bool) : Weak (dbg true c) (dbg false c) := fun _ _ => rfl

theorem weak_foldlM {f f' : σ → α → Res σ} (h : ∀ s a, Weak (f s a) (f' s a)) :
    ∀ (l : List α) (s : σ), Weak (l.foldlM f s) (l.foldlM f' s)
  | [], _ => .refl _
  | a :: l, s => by
    simp only [List.foldlM_cons]
    exact weak_bind (h s a) fun s' => weak_foldlM h l s'

theorem weak_mapM {f f' : α → Res β} (h : ∀ a, Weak (f a) (f' a)) :
    ∀ (l : List α), Weak (l.mapM f) (l.mapM f')
  | [] => by simp [Weak.refl]
  | a :: l => by
    simp only [List.mapM_cons]
    exact weak_bind (h a) fun _ => weak_bind (weak_mapM h l) fun _ => .refl _

theorem weak_inferStrides (A : Arith) : ∀ (e : List Nat) (t : Nat),
    Weak (inferStrides A true e t) (inferStrides A false e t)
  | [], _ => .refl _
  | _ :: _, _ => weak_bind (weak_dbg _) fun _ => weak_bind (weak_inferStrides A _ _) fun _ => .refl _

theorem weak_mk' (A : Arith) (s : Nat) (e : List Nat) : Weak (SDesc.mk' A true s e) (SDesc.mk' A false s e) := by
  unfold SDesc.mk'
  split
  · exact .refl _
  · exact weak_bind (weak_inNoexcept (weak_inferStrides A _ _)) fun _ => .refl _

theorem weak_mkVec (A : Arith) (e l : List Nat) : Weak (Mapper.mkVec A true e l) (Mapper.mkVec A false e l) :=
  weak_bind (weak_mk' A 0 e) fun _ => weak_bind (weak_dbg _) fun _ => .refl _

theorem weak_map (m : Mapper) (i : Nat) : Weak (m.map true i) (m.map false i) := by
  cases m with
  | ident d => exact .refl _
  | vec d idx => exact weak_bind (weak_dbg _) fun _ => .refl _

theorem weak_mapAll (m : Mapper) (l : List Nat) : Weak (m.mapAll true l) (m.mapAll false l) :=
  weak_mapM (weak_map m) l

theorem weak_doSlice (A : Arith) : ∀ (args : List Arg) (s : Nat) (e t : List Nat),
    Weak (doSlice A true s e t args) (doSlice A false s e t args)
  | [], _, e, t => by cases e <;> cases t <;> exact .refl _
  | .rng _ :: _, _, e, t => by cases e <;> cases t <;> exact .refl _
  | .idx _ :: _, _, [], t => by cases t <;> exact .refl _
  | .slice _ _ _ :: _, _, [], t => by cases t <;> exact .refl _
  | .idx _ :: _, _, _ :: _, [] => .refl _
  | .slice _ _ _ :: _, _, _ :: _, [] => .refl _
  | .idx _ :: _, _, _ :: _, _ :: _ =>
    weak_bind (weak_dbg _) fun _ => weak_bind (weak_doSlice A _ _ _ _) fun _ => .refl _
  | .slice _ _ _ :: _, _, _ :: _, _ :: _ =>
    weak_bind (weak_dbg _) fun _ => weak_bind (weak_dbg _) fun _ => weak_bind (weak_dbg _) fun _ =>
      weak_bind (weak_doSlice A _ _ _ _) fun _ => .refl _

theorem weak_doSliceInd (A : Arith) (d : SDesc) : ∀ (as : List Arg) (ix : List Nat) (st : List Nat × List Nat),
    Weak (doSliceInd A true d as ix st) (doSliceInd A false d as ix st)
  | [], _, (_, _) => .refl _
  | .rng _ :: _, _, (_, _) =>
    weak_bind (weak_dbg _) fun _ => weak_foldlM (fun _ _ => weak_doSliceInd A d _ _ _) _ _
  | .idx _ :: _, _, (_, _) => weak_bind (weak_dbg _) fun _ => weak_doSliceInd A d _ _ _
  | .slice _ _ _ :: _, _, (_, _) =>
    weak_bind (weak_dbg _) fun _ => weak_bind (weak_dbg _) fun _ => weak_bind (weak_dbg _) fun _ =>
      weak_foldlM (fun _ _ => weak_doSliceInd A d _ _ _) _ _

theorem weak_arraySlice (A : Arith) (off : Nat) (m : Mapper) (args : List Arg) :
    Weak (arraySlice A true off m args) (arraySlice A false off m args) := by
  unfold arraySlice
  split
  · refine weak_bind (weak_bind (weak_doSlice A _ _ _ _) fun _ => .refl _) fun d' => ?_
    cases m with
    | ident d => exact .refl _
    | vec d idx =>
      exact weak_bind (.refl _) fun _ => weak_bind (weak_mapAll _ _) fun _ =>
        weak_bind (weak_mkVec _ _ _) fun _ => .refl _
  · refine weak_bind ?_ fun r => ?_
    · unfold indirectSlicing
      split
      · exact .refl _
      · exact weak_doSliceInd A _ _ _ _
    · cases m with
      | ident d => exact weak_bind (weak_mkVec _ _ _) fun _ => .refl _
      | vec d idx => exact weak_bind (weak_mapAll _ _) fun _ => weak_bind (weak_mkVec _ _ _) fun _ => .refl _

theorem weak_arrayAtIdx (A : Arith) (off : Nat) (m : Mapper) (i : Nat) :
    Weak (arrayAtIdx A true off m i) (arrayAtIdx A false off m i) := by
  refine weak_bind (weak_dbg _) fun _ => ?_
  split
  · exact weak_bind (weak_map _ _) fun _ => .refl _
  · refine weak_bind ?_ fun _ => .refl _
    cases m with
    | ident d => exact .refl _
    | vec d idx =>
      exact weak_inNoexcept (weak_bind (.refl _) fun _ => weak_bind (.refl _) fun _ => weak_bind (weak_mapAll _ _) fun _ =>
        weak_mkVec _ _ _)

theorem weak_arrayAtArg (A : Arith) (off : Nat) (m : Mapper) (a : Arg) :
    Weak (arrayAtArg A true off m a) (arrayAtArg A false off m a) := by
  unfold arrayAtArg
  split
  · exact weak_arraySlice A _ _ _
  · exact .refl _

theorem weak_proxyAt (A : Arith) (off : Nat) (m : Mapper) (args : List Arg) (a : Arg) :
    Weak (proxyAt A true off m args a) (proxyAt A false off m args a) := by
  unfold proxyAt
  split
  · exact weak_arraySlice A _ _ _
  · exact .refl _

theorem weak_proxyIndex (A : Arith) (off : Nat) (m : Mapper) (args : List Arg) (ix : Ix) :
    Weak (proxyIndex A true off m args ix) (proxyIndex A false off m args ix) := by
  cases ix with
  | boundedStrided s mx t => exact weak_bind (.refl _) fun _ => weak_proxyAt A _ _ _ _
  | _ => exact weak_proxyAt A _ _ _ _

theorem weak_srefIndex (A : Arith) (off : Nat) (m : Mapper) (ix : Ix) :
    Weak (srefIndex A true off m ix) (srefIndex A false off m ix) := by
  cases ix with
  | boundedStrided s mx t => exact weak_bind (.refl _) fun _ => weak_arrayAtArg A _ _ _
  | «at» i => exact weak_arrayAtIdx A _ _ _
  | every => exact .refl _
  | _ => exact weak_arrayAtArg A _ _ _

theorem weak_everyFallback (A : Arith) (off : Nat) (e : List Nat) (M : Nat) (ix : Ix) :
    Weak (everyFallback A true off e M ix) (everyFallback A false off e M ix) :=
  weak_bind (weak_mk' A _ _) fun _ => weak_proxyIndex A _ _ _ _

theorem weak_everyIndex (A : Arith) (off : Nat) (e : List Nat) (M : Nat) (ix : Ix) :
    Weak (everyIndex A true off e M ix) (everyIndex A false off e M ix) := by
  cases ix with
  | «at» i =>
    simp only [everyIndex]
    split
    · exact weak_bind (weak_dbg _) fun _ => .refl _
    · exact .refl _
  | slice s x =>
    simp only [everyIndex]
    split
    · exact weak_bind (weak_dbg _) fun _ => .refl _
    · exact weak_everyFallback A _ _ _ _
  | every => exact .refl _
  | boundedStrided s mx t => exact weak_bind (.refl _) fun _ => weak_everyFallback A _ _ _ _
  | _ => exact weak_everyFallback A _ _ _ _

theorem weak_arrayAtArgC (A : Arith) (off : Nat) (e : List Nat) (a : Arg) :
    Weak (arrayAtArgC A true off e a) (arrayAtArgC A false off e a) :=
  weak_bind (weak_mk' A _ _) fun _ => weak_arrayAtArg A _ _ _

theorem weak_arrayAtSliceC (A : Arith) (off : Nat) (e : List Nat) (s x : Nat) :
    Weak (arrayAtSliceC A true off e s x) (arrayAtSliceC A false off e s x) := by
  unfold arrayAtSliceC
  split
  · exact weak_bind (weak_dbg _) fun _ => .refl _
  · exact weak_bind (weak_mk' A _ _) fun _ => weak_arrayAtArg A _ _ _

theorem weak_crefIndex (A : Arith) (off : Nat) (e : List Nat) (ix : Ix) :
    Weak (crefIndex A true off e ix) (crefIndex A false off e ix) := by
  cases ix with
  | «at» i =>
    refine weak_bind (weak_dbg _) fun _ => ?_
    split
    · exact .refl _
    · exact weak_bind (weak_mk' A _ _) fun _ => .refl _
  | slice s x => exact weak_arrayAtSliceC A _ _ _ _
  | bounded s mx => exact weak_arrayAtSliceC A _ _ _ _
  | every => exact .refl _
  | strided s x t => exact weak_arrayAtArgC A _ _ _
  | boundedStrided s mx t => exact weak_bind (.refl _) fun _ => weak_arrayAtArgC A _ _ _
  | rng l =>
    simp only [crefIndex]
    split
    · exact weak_bind (weak_dbg _) fun _ => weak_bind (weak_mkVec _ _ _) fun _ => .refl _
    · exact weak_arrayAtArgC A _ _ _

theorem weak_index (A : Arith) (o : Obj) (ix : Ix) : Weak (o.index A true ix) (o.index A false ix) := by
  cases o with
  | elem p => exact .refl _
  | cref off ext => exact weak_crefIndex A _ _ _
  | sref off m => exact weak_srefIndex A _ _ _
  | proxy off m args => exact weak_proxyIndex A _ _ _ _
  | everyProxy off ext M => exact weak_everyIndex A _ _ _ _

theorem weak_run (A : Arith) (h : List Ix) (o : Obj) : Weak (o.run A true h) (o.run A false h) :=
  weak_foldlM (fun o ix => weak_index A o ix) h o

end Jules

import Verif.Lemmas.Sound
import Verif.Lemmas.Complete
import Verif.Lemmas.Wrap
/-
Builds where failed checks throw: the same outcomes, except that a failed check inside a `noexcept` function terminates.
-/
namespace Jules
open Spec

/-! ### The arithmetic is the same -/

theorem dot_throws (a b : List Nat) (c : Nat) : dot Arith.exactThrows a b c = dot Arith.exact a b c := by
  induction a generalizing b c with
  | nil => rfl
  | cons x a ih => cases b with
    | nil => rfl
    | cons y b => exact ih b _

theorem pos_throws (d : SDesc) (i : List Nat) : d.pos Arith.exactThrows i = d.pos Arith.exact i := dot_throws _ _ _

theorem iterGen_throws (d : SDesc) : ∀ (f : Nat) (i : List Nat), iterGen Arith.exactThrows d f i = iterGen Arith.exact d f i
  | 0, _ => rfl
  | f + 1, i => by
    simp only [iterGen, pos_throws]
    congr 1
    congr 1
    funext n
    rw [iterGen_throws d f n]

theorem iterOne_throws (t stop : Nat) : ∀ (f p : Nat), iterOne Arith.exactThrows t stop f p = iterOne Arith.exact t stop f p
  | 0, _ => rfl
  | f + 1, p => by
    simp only [iterOne]
    rw [iterOne_throws t stop f]
    rfl

theorem sdescPositions_throws (d : SDesc) (f : Nat) : d.positions Arith.exactThrows f = d.positions Arith.exact f := by
  unfold SDesc.positions
  split
  · exact iterOne_throws _ _ _ _
  · rfl
  · exact iterGen_throws _ _ _

theorem positions_throws (o : Obj) : o.positions Arith.exactThrows = o.positions Arith.exact := by
  cases o with
  | sref off m =>
    cases m with
    | ident d => simp only [Obj.positions, sdescPositions_throws]; rfl
    | vec d l => rfl
  | _ => rfl

theorem doSlice_throws : ∀ (args : List Arg) (s : Nat) (e t : List Nat),
    doSlice Arith.exactThrows true s e t args = doSlice Arith.exact true s e t args
  | [], _, e, t => by cases e <;> cases t <;> rfl
  | .rng _ :: _, _, e, t => by cases e <;> cases t <;> rfl
  | .idx _ :: _, _, [], t => by cases t <;> rfl
  | .slice _ _ _ :: _, _, [], t => by cases t <;> rfl
  | .idx _ :: _, _, _ :: _, [] => rfl
  | .slice _ _ _ :: _, _, _ :: _, [] => rfl
  | .idx _ :: as, _, _ :: _, _ :: _ => by simp only [doSlice]; rw [doSlice_throws as]; rfl
  | .slice _ _ _ :: as, _, _ :: _, _ :: _ => by simp only [doSlice]; rw [doSlice_throws as]; rfl

theorem doSliceInd_throws (d : SDesc) : ∀ (as : List Arg) (ix : List Nat) (st : List Nat × List Nat),
    doSliceInd Arith.exactThrows true d as ix st = doSliceInd Arith.exact true d as ix st
  | [], _, (_, _) => by simp only [doSliceInd, pos_throws]
  | .rng _ :: as, _, (_, _) => by simp only [doSliceInd, doSliceInd_throws d as]
  | .idx _ :: as, _, (_, _) => by simp only [doSliceInd, doSliceInd_throws d as]
  | .slice _ _ _ :: as, _, (_, _) => by simp only [doSliceInd, doSliceInd_throws d as]; rfl

/-! ### The relation between the two builds -/

/-- The two outcomes are the same (and `P` holds of a value), or a failed check has become `std::terminate` (only if `T`). -/
def Tw (T : Prop) (r r' : Res β) (P : β → Prop) : Prop :=
  (r' = r ∧ ∀ b, r = .ok b → P b) ∨ (r = .error .assert ∧ r' = .error .terminate ∧ T)

variable {T : Prop}

theorem tw_refl {r : Res β} {P : β → Prop} (h : ∀ b, r = .ok b → P b) : Tw T r r P := .inl ⟨rfl, h⟩

theorem tw_ok {b : β} {P : β → Prop} (h : P b) : Tw T (.ok b) (.ok b) P := .inl ⟨rfl, fun _ hb => by cases hb; exact h⟩

theorem tw_eq {r r' : Res β} {P : β → Prop} (h : r' = r) (hP : ∀ b, r = .ok b → P b) : Tw T r r' P := .inl ⟨h, hP⟩

theorem tw_bind {r r' : Res β} {g g' : β → Res γ} {P : β → Prop} {Q : γ → Prop} (h : Tw T r r' P)
    (hg : ∀ b, r = .ok b → P b → Tw T (g b) (g' b) Q) : Tw T (r >>= g) (r' >>= g') Q := by
  rcases h with ⟨rfl, h⟩ | ⟨h1, h2, h3⟩
  · cases hr : r' with
    | ok b => exact hg b hr (h b hr)
    | error f => exact .inl ⟨rfl, fun b hb => by cases hb⟩
  · subst h1 h2
    exact .inr ⟨rfl, rfl, h3⟩

theorem tw_mono {r r' : Res β} {P Q : β → Prop} (h : Tw T r r' P) (hq : ∀ b, r = .ok b → P b → Q b) : Tw T r r' Q := by
  rcases h with ⟨h1, h2⟩ | h
  · exact .inl ⟨h1, fun b hb => hq b hb (h2 b hb)⟩
  · exact .inr h

theorem tw_any {r r' : Res β} {P : β → Prop} (h : Tw T r r' fun _ => True) (hq : ∀ b, r = .ok b → P b) : Tw T r r' P :=
  tw_mono h fun b hb _ => hq b hb

/-- No zero extent (in two or more dimensions). -/
def NZ (e : List Nat) : Prop := e.length ≠ 1 → ∀ x ∈ e, x ≠ 0

theorem tw_mk' (s : Nat) {e : List Nat} (h : ¬ T → NZ e) : Tw T (SDesc.mk' Arith.exact true s e) (SDesc.mk' Arith.exactThrows true s e) fun _ => True := by
  by_cases hz : NZ e
  · refine tw_eq ?_ fun _ _ => trivial
    rw [mk'_exact.2 ⟨rfl, fun _ hl => hz hl⟩]
    unfold SDesc.mk'
    split
    · next x => rfl
    · next hne =>
      have hl : e.length ≠ 1 := by
        intro h
        match e, h with
        | [a], _ => exact hne a rfl
      have : ∀ (e : List Nat) (t : Nat), (∀ x ∈ e, x ≠ 0) → inferStrides Arith.exactThrows true e t = .ok (cmStrides e t) := by
        intro e
        induction e with
        | nil => intro t _; rfl
        | cons x es ih =>
          intro t hx
          have h0 : (x != 0) = true := by simp [hx x (by simp)]
          simp only [inferStrides, h0, dbg_any_true, res_ok_bind]
          rw [ih _ fun y hy => hx y (by simp [hy])]
          rfl
      rw [this e 1 (hz hl)]
      rfl
  · have hT : T := by
      by_cases hT : T
      · exact hT
      · exact (hz (h hT)).elim
    have h1 : e.length ≠ 1 ∧ 0 ∈ e := by
      unfold NZ at hz
      refine ⟨fun h => hz fun h' => (h' h).elim, ?_⟩
      by_cases h0 : 0 ∈ e
      · exact h0
      · exact (hz fun _ x hx hx0 => h0 (hx0 ▸ hx)).elim
    refine .inr ⟨?_, ?_, hT⟩
    all_goals
      unfold SDesc.mk'
      split
      · exact (h1.1 rfl).elim
      · rw [inferStrides_zero h1.2]; rfl

theorem tw_mkVec {e l : List Nat} (h : ¬ T → NZ e) : Tw T (Mapper.mkVec Arith.exact true e l) (Mapper.mkVec Arith.exactThrows true e l) fun _ => True :=
  tw_bind (tw_mk' 0 h) fun _ _ _ => tw_refl fun _ _ => trivial

/-- The index expressions that can create a zero extent without a failed check. -/
def IxNZ (ix : Ix) : Prop := ix ≠ .rng [] ∧ ∀ s, ix ≠ .slice s 0

/-- No zero extents ahead. -/
def Obj.NZ : Obj → Prop
  | .elem _ => True
  | .cref _ ext => Jules.NZ ext
  | .sref _ _ => True
  | .proxy _ _ args => Arg.rng [] ∉ args
  | .everyProxy _ ext _ => Jules.NZ ext

theorem foldlM_head {f : σ → β → Res σ} {b : β} {l : List β} {s r : σ} (h : (b :: l).foldlM f s = .ok r) : ∃ s', f s b = .ok s' := by
  rw [List.foldlM_cons] at h
  obtain ⟨s', h1, _⟩ := res_bind_ok.1 h
  exact ⟨s', h1⟩

theorem doSliceInd_pos (d : SDesc) : ∀ (as : List Arg) (ix : List Nat) (st r : List Nat × List Nat), Arg.rng [] ∉ as →
    doSliceInd Arith.exact true d as ix st = .ok r → ∀ a ∈ as, a.sel ≠ []
  | [], _, _, _, _, _ => by simp
  | .rng l :: as, ix, (e, o), r, hn, h => by
    simp only [List.mem_cons, not_or, Arg.rng.injEq] at hn
    simp only [doSliceInd, res_bind_ok] at h
    obtain ⟨_, _, h⟩ := h
    cases l with
    | nil => exact (hn.1 rfl).elim
    | cons i l =>
      obtain ⟨s', h'⟩ := foldlM_head h
      intro a ha
      rcases List.mem_cons.1 ha with rfl | ha
      · simp [Arg.sel]
      · exact doSliceInd_pos d as _ _ _ hn.2 h' a ha
  | .idx i :: as, ix, (e, o), r, hn, h => by
    simp only [List.mem_cons, not_or] at hn
    simp only [doSliceInd, res_bind_ok] at h
    obtain ⟨_, _, h⟩ := h
    intro a ha
    rcases List.mem_cons.1 ha with rfl | ha
    · simp [Arg.sel]
    · exact doSliceInd_pos d as _ _ _ hn.2 h a ha
  | .slice s x t :: as, ix, (e, o), r, hn, h => by
    simp only [List.mem_cons, not_or] at hn
    simp only [doSliceInd, res_bind_ok, dbg_ok] at h
    obtain ⟨_, _, _, h2, _, _, h⟩ := h
    have h2 : 0 < x := by simpa using h2
    obtain ⟨x, rfl⟩ : ∃ y, x = y + 1 := ⟨x - 1, by omega⟩
    rw [List.range_succ_eq_map] at h
    obtain ⟨s', h'⟩ := foldlM_head h
    intro a ha
    rcases List.mem_cons.1 ha with rfl | ha
    · simp [Arg.sel]
    · exact doSliceInd_pos d as _ _ _ hn.2 h' a ha

theorem indirect_nz {d : SDesc} {args : List Arg} {ext ps : List Nat} (h : indirectSlicing Arith.exact true d args = .ok (ext, ps))
    (hn : Arg.rng [] ∉ args) : NZ ext := by
  obtain ⟨h1, _, h3, _⟩ := indirectSlicing_sound h
  have hp : ∀ a ∈ args, a.sel ≠ [] := by
    unfold indirectSlicing at h
    split at h
    · cases h
    · intro a ha
      exact doSliceInd_pos d _ _ _ _ (by simpa using hn) h a (by simpa using ha)
  have := h3.2.2.1 (by simpa using hp)
  have hl : ext.length = args.length := by rw [h3.1]; simp [h1]
  rw [List.length_map, ← hl, List.take_length] at this
  intro _ x hx
  rw [this] at hx
  simp only [List.map_map, List.mem_map, Function.comp_apply] at hx
  obtain ⟨a, ha, rfl⟩ := hx
  simpa using hp a ha

theorem tw_arraySlice (off : Nat) {m : Mapper} {args : List Arg} (hm : m.WF) (hn : ¬ T → Arg.rng [] ∉ args) :
    Tw T (arraySlice Arith.exact true off m args) (arraySlice Arith.exactThrows true off m args) fun o => o.NZ := by
  unfold arraySlice
  split
  · unfold defaultSlicing
    rw [doSlice_throws]
    refine tw_bind (P := fun d' : SDesc => NZ d'.ext) (tw_refl ?_) fun d' _ hd' => ?_
    · intro d' h
      obtain ⟨r, h1, h2⟩ := res_bind_ok.1 h
      have := (doSlice_sound h1 hm.desc.2.2.1).2.2.2.2.1
      cases h2
      exact fun _ => this
    · cases m with
      | ident d => exact tw_ok trivial
      | vec d l =>
        rw [sdescPositions_throws]
        exact tw_bind (tw_refl fun _ _ => trivial) fun _ _ _ => tw_bind (tw_refl fun _ _ => trivial) fun _ _ _ =>
          tw_bind (tw_mkVec fun _ => hd') fun _ _ _ => tw_ok trivial
  · have h : indirectSlicing Arith.exactThrows true m.desc args = indirectSlicing Arith.exact true m.desc args := by
      unfold indirectSlicing; split
      · rfl
      · exact doSliceInd_throws _ _ _ _
    rw [h]
    refine tw_bind (P := fun r => ¬ T → NZ r.1) (tw_refl fun r hr hT => indirect_nz hr (hn hT)) fun r _ hr => ?_
    cases m with
    | ident d => exact tw_bind (tw_mkVec hr) fun _ _ _ => tw_ok trivial
    | vec d l => exact tw_bind (tw_refl fun _ _ => trivial) fun _ _ _ => tw_bind (tw_mkVec hr) fun _ _ _ => tw_ok trivial

theorem tw_arrayAtIdx (off : Nat) {m : Mapper} (i : Nat) (hm : m.WF) :
    Tw T (arrayAtIdx Arith.exact true off m i) (arrayAtIdx Arith.exactThrows true off m i) fun o => o.NZ := by
  by_cases hi : i < m.desc.ext.headD 0
  · obtain ⟨o, ho⟩ := arrayAtIdx_complete (off := off) hm hi
    unfold arrayAtIdx at ho ⊢
    simp only [hi, decide_true, dbg_any_true, res_ok_bind] at ho ⊢
    split
    · next hl =>
      rw [pos_throws]
      exact tw_bind (tw_refl fun _ _ => trivial) fun _ _ _ => tw_ok trivial
    · next hl =>
      rw [if_neg hl] at ho
      refine tw_bind (P := fun _ => True) ?_ fun _ _ _ => tw_ok trivial
      cases m with
      | ident d => exact tw_refl fun _ _ => trivial
      | vec d l =>
        obtain ⟨m', h1, _⟩ := res_bind_ok.1 ho
        simp only [Mapper.dropFirst, inNoexcept_exact] at h1 ⊢
        have key : Tw (False) (do
            let n ← d.discard
            let n : SDesc := { n with start := Arith.exact.add d.start i }
            let ps ← n.positions Arith.exact (iterFuel n)
            let idx' ← Mapper.mapAll true (.vec d l) ps
            Mapper.mkVec Arith.exact true n.ext idx') (do
            let n ← d.discard
            let n : SDesc := { n with start := Arith.exactThrows.add d.start i }
            let ps ← n.positions Arith.exactThrows (iterFuel n)
            let idx' ← Mapper.mapAll true (.vec d l) ps
            Mapper.mkVec Arith.exactThrows true n.ext idx') fun _ => True := by
          refine tw_bind (tw_refl fun _ _ => trivial) fun n hn _ => ?_
          simp only [sdescPositions_throws]
          refine tw_bind (tw_refl fun _ _ => trivial) fun _ _ _ => tw_bind (tw_refl fun _ _ => trivial) fun _ _ _ => tw_mkVec fun _ => ?_
          obtain ⟨n1, n2, _⟩ := discard_ok hn
          intro hl' x hx
          simp only [n2] at hx
          exact hm.2.1.2.2.2 hl x (List.mem_of_mem_tail hx)
        rcases key with ⟨k1, _⟩ | ⟨_, _, k⟩
        · refine tw_eq ?_ fun _ _ => trivial
          rw [k1, h1]; rfl
        · exact k.elim
  · have : ∀ A, arrayAtIdx A true off m i = .error .assert := by
      intro A
      unfold arrayAtIdx
      simp only [hi, decide_false, dbg_true_false, res_error_bind]
    rw [this, this]
    exact tw_refl fun b hb => by cases hb

theorem tw_arrayAtArg (off : Nat) {m : Mapper} {a : Arg} (hm : m.WF) (hn : ¬ T → a ≠ .rng []) :
    Tw T (arrayAtArg Arith.exact true off m a) (arrayAtArg Arith.exactThrows true off m a) fun o => ¬ T → o.NZ := by
  have h : ¬ T → Arg.rng [] ∉ [a] := fun hT => by simpa using fun h => hn hT h.symm
  unfold arrayAtArg
  split
  · exact tw_mono (tw_arraySlice off hm h) fun _ _ h _ => h
  · exact tw_ok h

theorem tw_proxyAt (off : Nat) {m : Mapper} {args : List Arg} {a : Arg} (hm : m.WF) (hn : ¬ T → Arg.rng [] ∉ args) (ha : ¬ T → a ≠ .rng []) :
    Tw T (proxyAt Arith.exact true off m args a) (proxyAt Arith.exactThrows true off m args a) fun o => ¬ T → o.NZ := by
  have h : ¬ T → Arg.rng [] ∉ args ++ [a] := fun hT => by
    simp only [List.mem_append, List.mem_singleton, not_or]
    exact ⟨hn hT, fun h => ha hT h.symm⟩
  unfold proxyAt
  split
  · exact tw_mono (tw_arraySlice off hm h) fun _ _ h _ => h
  · exact tw_ok h

theorem seqSize_throws (a b c : Nat) : seqSize Arith.exactThrows a b c = seqSize Arith.exact a b c := rfl

theorem bse_throws (a b c d : Nat) : boundedStridedExtent Arith.exactThrows a b c d = boundedStridedExtent Arith.exact a b c d := rfl

theorem tw_proxyIndex (off : Nat) {m : Mapper} {args : List Arg} {ix : Ix} (hm : m.WF) (hn : ¬ T → Arg.rng [] ∉ args) (hx : ¬ T → ix ≠ .rng []) :
    Tw T (proxyIndex Arith.exact true off m args ix) (proxyIndex Arith.exactThrows true off m args ix) fun o => ¬ T → o.NZ := by
  cases ix with
  | boundedStrided s mx t =>
    simp only [proxyIndex, bse_throws]
    exact tw_bind (tw_refl fun _ _ => trivial) fun _ _ _ => tw_proxyAt off hm hn fun _ => by simp
  | rng l => exact tw_proxyAt off hm hn fun hT h => hx hT (by cases h; rfl)
  | _ => exact tw_proxyAt off hm hn fun _ => by simp

theorem tw_srefIndex (off : Nat) {m : Mapper} {ix : Ix} (hm : m.WF) (hx : ¬ T → ix ≠ .rng []) :
    Tw T (srefIndex Arith.exact true off m ix) (srefIndex Arith.exactThrows true off m ix) fun o => ¬ T → o.NZ := by
  cases ix with
  | boundedStrided s mx t =>
    simp only [srefIndex, bse_throws]
    exact tw_bind (tw_refl fun _ _ => trivial) fun _ _ _ => tw_arrayAtArg off hm fun _ => by simp
  | «at» i => exact tw_mono (tw_arrayAtIdx off i hm) fun _ _ h _ => h
  | every =>
    refine tw_ok fun _ => ?_
    unfold arrayAtEvery
    split
    · trivial
    · simp [Obj.NZ]
  | rng l => exact tw_arrayAtArg off hm fun hT h => hx hT (by cases h; rfl)
  | _ => exact tw_arrayAtArg off hm fun _ => by simp

theorem canon_wf_of_mk' {s : Nat} {e : List Nat} {d : SDesc} (hne : e ≠ []) (h : SDesc.mk' Arith.exact true s e = .ok d) : d.WF := by
  obtain ⟨rfl, h'⟩ := mk'_exact.1 h
  exact canon_WF hne (h' rfl)

theorem tw_everyFallback (off : Nat) {e : List Nat} (M : Nat) {ix : Ix} (hne : e ≠ []) (hz : ¬ T → NZ e) (hx : ¬ T → ix ≠ .rng []) :
    Tw T (everyFallback Arith.exact true off e M ix) (everyFallback Arith.exactThrows true off e M ix) fun o => ¬ T → o.NZ :=
  tw_bind (tw_mk' 0 hz) fun d hd _ => tw_proxyIndex off (m := .ident d) (canon_wf_of_mk' hne hd) (fun _ h => by
    obtain ⟨x, _, hx⟩ := List.mem_map.1 h
    cases hx) hx

theorem nz_set {e : List Nat} (h : NZ e) {x : Nat} (hx : x ≠ 0) (k : Nat) : NZ (e.set k x) := by
  intro hl y hy
  rcases List.mem_or_eq_of_mem_set hy with hy | rfl
  · exact h (by simpa using hl) y hy
  · exact hx

theorem tw_everyIndex (off : Nat) {e : List Nat} (M : Nat) {ix : Ix} (hne : e ≠ []) (hz : ¬ T → NZ e) (hx : ¬ T → IxNZ ix) :
    Tw T (everyIndex Arith.exact true off e M ix) (everyIndex Arith.exactThrows true off e M ix) fun o => ¬ T → o.NZ := by
  cases ix with
  | «at» i =>
    simp only [everyIndex]
    split
    · refine tw_bind (tw_refl fun _ _ => trivial) fun _ _ _ => ?_
      split
      · exact tw_refl fun b hb => by cases hb
      · exact tw_ok fun hT => nz_set (hz hT) (by simp) _
    · exact tw_refl fun b hb => by cases hb
  | slice s x =>
    simp only [everyIndex]
    split
    · refine tw_bind (tw_refl fun _ _ => trivial) fun _ _ _ => ?_
      split
      · exact tw_refl fun b hb => by cases hb
      · exact tw_ok fun hT => nz_set (hz hT) (fun h => (hx hT).2 s (by rw [h])) _
    · exact tw_everyFallback off M hne hz fun _ => by simp
  | every =>
    simp only [everyIndex]
    split
    · exact tw_ok hz
    · exact tw_ok hz
  | boundedStrided s mx t =>
    simp only [everyIndex, bse_throws]
    exact tw_bind (tw_refl fun _ _ => trivial) fun _ _ _ => tw_everyFallback off M hne hz fun _ => by simp
  | rng l => exact tw_everyFallback off M hne hz fun hT => (hx hT).1
  | _ => exact tw_everyFallback off M hne hz fun _ => by simp

theorem tw_arrayAtArgC (off : Nat) {e : List Nat} {a : Arg} (hne : e ≠ []) (hz : ¬ T → NZ e) (ha : ¬ T → a ≠ .rng []) :
    Tw T (arrayAtArgC Arith.exact true off e a) (arrayAtArgC Arith.exactThrows true off e a) fun o => ¬ T → o.NZ :=
  tw_bind (tw_mk' 0 hz) fun d hd _ => tw_arrayAtArg off (m := .ident d) (canon_wf_of_mk' hne hd) ha

theorem tw_arrayAtSliceC (off : Nat) {e : List Nat} (s x : Nat) (hne : e ≠ []) (hz : ¬ T → NZ e) :
    Tw T (arrayAtSliceC Arith.exact true off e s x) (arrayAtSliceC Arith.exactThrows true off e s x) fun o => ¬ T → o.NZ := by
  unfold arrayAtSliceC
  split
  · exact tw_bind (tw_refl fun _ _ => trivial) fun _ _ _ => tw_ok fun _ h => by simp at h
  · exact tw_bind (tw_mk' 0 hz) fun d hd _ => tw_arrayAtArg off (m := .ident d) (canon_wf_of_mk' hne hd) fun _ => by simp

theorem tw_crefIndex (off : Nat) {e : List Nat} {ix : Ix} (hne : e ≠ []) (hz : ¬ T → NZ e) (hx : ¬ T → IxNZ ix) :
    Tw T (crefIndex Arith.exact true off e ix) (crefIndex Arith.exactThrows true off e ix) fun o => ¬ T → o.NZ := by
  cases ix with
  | «at» i =>
    refine tw_bind (tw_refl fun _ _ => trivial) fun _ _ _ => ?_
    split
    · exact tw_ok fun _ => trivial
    · exact tw_bind (tw_mk' i hz) fun _ _ _ => tw_bind (tw_refl fun _ _ => trivial) fun _ _ _ => tw_ok fun _ => trivial
  | slice s x => exact tw_arrayAtSliceC off s x hne hz
  | bounded s mx => exact tw_arrayAtSliceC off s _ hne hz
  | every =>
    simp only [crefIndex]
    split
    · exact tw_ok hz
    · exact tw_ok hz
  | strided s x t => exact tw_arrayAtArgC off hne hz fun _ => by simp
  | boundedStrided s mx t =>
    simp only [crefIndex, bse_throws]
    exact tw_bind (tw_refl fun _ _ => trivial) fun _ _ _ => tw_arrayAtArgC off hne hz fun _ => by simp
  | rng l =>
    simp only [crefIndex]
    split
    · exact tw_bind (tw_refl fun _ _ => trivial) fun _ _ _ => tw_bind (tw_mkVec fun _ h => by simp at h) fun _ _ _ => tw_ok fun _ => trivial
    · exact tw_arrayAtArgC off hne hz fun hT h => (hx hT).1 (by cases h; rfl)

theorem tw_index {o : Obj} {ix : Ix} (hwf : o.WF) (hz : ¬ T → o.NZ) (hx : ¬ T → IxNZ ix) :
    Tw T (o.index Arith.exact true ix) (o.index Arith.exactThrows true ix) fun o' => o'.WF ∧ (¬ T → o'.NZ) := by
  have key : Tw T (o.index Arith.exact true ix) (o.index Arith.exactThrows true ix) fun o' => ¬ T → o'.NZ := by
    cases o with
    | elem p => exact tw_refl fun b hb => by cases hb
    | cref off ext => exact tw_crefIndex off hwf hz hx
    | sref off m => exact tw_srefIndex off hwf fun hT => (hx hT).1
    | proxy off m args => exact tw_proxyIndex off hwf.1 hz fun hT => (hx hT).1
    | everyProxy off ext M =>
      refine tw_everyIndex off M ?_ hz hx
      rintro rfl
      have := hwf.2
      simp at this
  exact tw_mono key fun o' ho' h => ⟨(index_step hwf ho').wf, h⟩

theorem tw_run : ∀ {h : List Ix} {o : Obj}, o.WF → (¬ T → o.NZ) → (¬ T → ∀ ix ∈ h, IxNZ ix) →
    Tw T (o.run Arith.exact true h) (o.run Arith.exactThrows true h) fun o' => o'.WF ∧ (¬ T → o'.NZ)
  | [], o, hwf, hz, _ => tw_ok ⟨hwf, hz⟩
  | ix :: h, o, hwf, hz, hx => by
    simp only [Obj.run, List.foldlM_cons]
    exact tw_bind (tw_index hwf hz fun hT => hx hT ix (by simp)) fun o' _ ho' =>
      tw_run ho'.1 ho'.2 fun hT ix' hix => hx hT ix' (by simp [hix])

end Jules

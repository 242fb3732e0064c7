import Verif.Lemmas.ColumnAssign
/-
Lemmas for C79: programs over columns and data frames.
-/
namespace Jules
open Spec

section
variable {C : Coercion} {S : Nat → Bool} {σ β γ : Type}

/-! ### The owners of a statement and the others -/

/-- The pointers of these variables, with the columns. -/
def share (P : CState C) (V : VState C) (os : List Owner) : List (Option Nat × Column C) := os.flatMap (holdings P V)

/-- The objects of the others. -/
def others (P : CState C) (V : VState C) (os : List Owner) : Nat → Option (Model C) := fun i => if i ∈ addrs (share P V os) then none else P.heap.get i

variable {P P' : CState C} {V V' : VState C} {os : List Owner}

theorem mem_share {i : Nat} : i ∈ addrs (share P V os) ↔ ∃ o ∈ os, i ∈ addrs (holdings P V o) := by
  unfold share
  rw [mem_addrs]
  constructor
  · rintro ⟨c, h⟩
    obtain ⟨o, ho, h⟩ := List.mem_flatMap.1 h
    exact ⟨o, ho, mem_addrs.2 ⟨c, h⟩⟩
  · rintro ⟨o, ho, h⟩
    obtain ⟨c, h⟩ := mem_addrs.1 h
    exact ⟨c, List.mem_flatMap.2 ⟨o, ho, h⟩⟩

theorem share_nodup (hos : os.Nodup) (ho : ∀ o, (addrs (holdings P V o)).Nodup) (hx : ∀ o o' i, i ∈ addrs (holdings P V o) → i ∈ addrs (holdings P V o') → o = o') :
    (addrs (share P V os)).Nodup := by
  induction os with
  | nil => exact List.nodup_nil
  | cons o os ih =>
    obtain ⟨h1, h2⟩ := List.nodup_cons.1 hos
    show (addrs (holdings P V o ++ share P V os)).Nodup
    rw [addrs_append]
    refine List.nodup_append.2 ⟨ho o, ih h2, ?_⟩
    rintro a ha b hb rfl
    obtain ⟨o', ho', hb⟩ := mem_share.1 hb
    exact h1 (hx _ _ _ ha hb ▸ ho')

theorem share_disjoint (hn : (addrs (share P V os)).Nodup) {o o' : Owner} {i : Nat} (ho : o ∈ os) (ho' : o' ∈ os) (hi : i ∈ addrs (holdings P V o))
    (hi' : i ∈ addrs (holdings P V o')) (hne : o ≠ o') : False := by
  induction os with
  | nil => cases ho
  | cons a os ih =>
    have hn' : (addrs (holdings P V a) ++ addrs (share P V os)).Nodup := by rw [← addrs_append]; exact hn
    obtain ⟨_, n2, n3⟩ := List.nodup_append.1 hn'
    rcases List.mem_cons.1 ho with e1 | e1
    · rcases List.mem_cons.1 ho' with e2 | e2
      · exact hne (e1.trans e2.symm)
      · exact n3 i (e1 ▸ hi) i (mem_share.2 ⟨o', e2, hi'⟩) rfl
    · rcases List.mem_cons.1 ho' with e2 | e2
      · exact n3 i (e2 ▸ hi') i (mem_share.2 ⟨o, e1, hi⟩) rfl
      · exact ih n2 e1 e2

theorem rep_sep (h : Represents P V) (hos : os.Nodup) : Sep (others P V os) P.heap.get (share P V os) := by
  refine ⟨share_nodup hos h.once h.owner, ?_, ?_, ?_⟩
  · intro p c hm
    obtain ⟨o, _, hm⟩ := List.mem_flatMap.1 hm
    exact h.values o p c hm
  · intro i hi
    unfold others; rw [if_pos hi]
  · intro i hi
    unfold others; rw [if_neg hi]

theorem rep_others (h : Represents P V) {o : Owner} (ho : o ∉ os) {p : Option Nat} {c : Column C} (hm : (p, c) ∈ holdings P V o) : StandsFor (others P V os) p c := by
  have hd := h.values o p c hm
  cases p with
  | none => rw [denotes_null hd]; trivial
  | some i =>
    obtain ⟨m, rfl, hm'⟩ := denotes_some hd rfl
    show others P V os i = some m
    unfold others
    rw [if_neg, hm']
    intro hi
    obtain ⟨o', ho', hi⟩ := mem_share.1 hi
    exact ho (h.owner _ _ _ (mem_addrs.2 ⟨_, hm⟩) hi ▸ ho')

/-- After a statement: the variables it is about have these objects, the others the same as before. -/
theorem rep_back (h : Represents P V) (hos : ∀ o, o ∉ os → holdings P' V' o = holdings P V o) (hs : Sep (others P V os) P'.heap.get (share P' V' os))
    (h1 : ∀ x, (P'.cols x).isSome = (V'.cols x).isSome)
    (h2 : ∀ d, (P'.frames d).map (fun D => (D.rows, D.elems.map PNamed.name, D.index)) = (V'.frames d).map (fun E => (E.rows, E.names, E.index))) :
    Represents P' V' := by
  have hdis : ∀ o o' i, o ∈ os → o' ∉ os → i ∈ addrs (holdings P' V' o) → i ∈ addrs (holdings P' V' o') → False := by
    intro o o' i ho ho' hi hi'
    have h3 := hs.fresh i (mem_share.2 ⟨o, ho, hi⟩)
    rw [hos o' ho'] at hi'
    obtain ⟨c, hc⟩ := mem_addrs.1 hi'
    obtain ⟨m, _, hm⟩ := denotes_some (rep_others h ho' hc) rfl
    rw [h3] at hm; cases hm
  have hsub : ∀ o ∈ os, (holdings P' V' o).Sublist (share P' V' os) := by
    intro o ho
    exact List.sublist_flatten_of_mem (List.mem_map_of_mem ho)
  refine ⟨h1, h2, ?_, ?_, ?_, ?_⟩
  · intro o p c hm
    by_cases ho : o ∈ os
    · exact hs.vals p c (List.mem_flatMap.2 ⟨o, ho, hm⟩)
    · rw [hos o ho] at hm
      exact denotes_mono (rep_others h ho hm) hs.ext
  · intro o
    by_cases ho : o ∈ os
    · exact hs.nodup.sublist ((hsub o ho).filterMap _)
    · rw [hos o ho]; exact h.once o
  · intro o o' i hi hi'
    by_cases ho : o ∈ os
    · by_cases ho' : o' ∈ os
      · by_contra hne
        exact share_disjoint hs.nodup ho ho' hi hi' hne
      · exact (hdis _ _ _ ho ho' hi hi').elim
    · by_cases ho' : o' ∈ os
      · exact (hdis _ _ _ ho' ho hi' hi).elim
      · rw [hos o ho] at hi
        rw [hos o' ho'] at hi'
        exact h.owner _ _ _ hi hi'
  · intro i hi
    by_cases hm : i ∈ addrs (share P' V' os)
    · obtain ⟨o, _, hm⟩ := mem_share.1 hm
      exact ⟨o, hm⟩
    · rw [hs.rest i hm] at hi
      unfold others at hi
      split at hi
      · exact (hi rfl).elim
      · next hn =>
        obtain ⟨o, ho⟩ := h.noLeak i hi
        have : o ∉ os := fun hh => hn (mem_share.2 ⟨o, hh, ho⟩)
        exact ⟨o, by rw [hos o this]; exact ho⟩

theorem rep_upd (h : Represents P V) (hc : ∀ x, Owner.col x ∉ os → P'.cols x = P.cols x ∧ V'.cols x = V.cols x)
    (hf : ∀ d, Owner.frame d ∉ os → P'.frames d = P.frames d ∧ V'.frames d = V.frames d) (hs : Sep (others P V os) P'.heap.get (share P' V' os))
    (h1 : ∀ x, Owner.col x ∈ os → (P'.cols x).isSome = (V'.cols x).isSome)
    (h2 : ∀ d, Owner.frame d ∈ os → (P'.frames d).map (fun D => (D.rows, D.elems.map PNamed.name, D.index)) = (V'.frames d).map (fun E => (E.rows, E.names, E.index))) :
    Represents P' V' := by
  refine rep_back h ?_ hs ?_ ?_
  · intro o ho
    cases o with
    | col x => unfold holdings; dsimp only; rw [(hc x ho).1, (hc x ho).2]
    | frame d => unfold holdings; dsimp only; rw [(hf d ho).1, (hf d ho).2]
  · intro x
    by_cases hx : Owner.col x ∈ os
    · exact h1 x hx
    · rw [(hc x hx).1, (hc x hx).2]; exact h.cols x
  · intro d
    by_cases hx : Owner.frame d ∈ os
    · exact h2 d hx
    · rw [(hf d hx).1, (hf d hx).2]; exact h.frames d

theorem others_new (h : share P V os = []) : others P V os = P.heap.get := by
  funext i
  unfold others
  rw [h]
  rfl

theorem rep_clock (h : Represents P V) {h' : CHeap C} (hg : h'.get = P.heap.get) : Represents { P with heap := h' } V := by
  refine rep_upd (os := []) h (fun _ _ => ⟨rfl, rfl⟩) (fun _ _ => ⟨rfl, rfl⟩) ?_ nofun nofun
  show Sep _ h'.get []
  rw [hg]
  exact rep_sep h List.nodup_nil

/-! ### Looking at variables -/

theorem rep_col (h : Represents P V) {x : Nat} {p : Option Nat} (hp : P.cols x = some p) : ∃ c, V.cols x = some c ∧ holdings P V (.col x) = [(p, c)] ∧ StandsFor P.heap.get p c := by
  have h1 := h.cols x
  rw [hp] at h1
  obtain ⟨c, hc⟩ := Option.isSome_iff_exists.1 h1.symm
  have h2 : holdings P V (.col x) = [(p, c)] := by unfold holdings; dsimp only; rw [hp, hc]
  exact ⟨c, hc, h2, h.values (.col x) p c (by rw [h2]; exact .head _)⟩

theorem rep_noCol (h : Represents P V) {x : Nat} (hp : P.cols x = none) : V.cols x = none := by
  have h1 := h.cols x
  rw [hp] at h1
  cases hc : V.cols x with
  | none => rfl
  | some c => rw [hc] at h1; cases h1

theorem rep_frame (h : Represents P V) {d : Nat} {D : PFrame} (hp : P.frames d = some D) :
    ∃ E, V.frames d = some E ∧ holdings P V (.frame d) = held D.elems E.elems ∧ DenotesF P.heap.get D E := by
  have h1 := h.frames d
  rw [hp] at h1
  cases hE : V.frames d with
  | none => rw [hE] at h1; cases h1
  | some E =>
    rw [hE] at h1
    simp only [Option.map_some, Option.some.injEq, Prod.mk.injEq] at h1
    have h2 : holdings P V (.frame d) = held D.elems E.elems := by unfold holdings held; dsimp only; rw [hp, hE]
    exact ⟨E, rfl, h2, h1.1, h1.2.2, h1.2.1, fun p c hm => h.values (.frame d) p c (by rw [h2]; exact hm)⟩

theorem rep_noFrame (h : Represents P V) {d : Nat} (hp : P.frames d = none) : V.frames d = none := by
  have h1 := h.frames d
  rw [hp] at h1
  cases hc : V.frames d with
  | none => rfl
  | some c => rw [hc] at h1; cases h1

theorem sm_ok {x : SM σ β} {f : β → SM σ γ} {s s' : σ} {b : β} (h : x s = .ok b s') : (x >>= f) s = f b s' := by
  change SM.bind x f s = _
  unfold SM.bind; rw [h]

theorem sm_exn {x : SM σ β} {f : β → SM σ γ} {s s' : σ} {e : Exn} (h : x s = .exn e s') : (x >>= f) s = .exn e s' := by
  change SM.bind x f s = _
  unfold SM.bind; rw [h]

theorem sm_fail {x : SM σ β} {f : β → SM σ γ} {s : σ} {e : Fail} (h : x s = .fail e) : (x >>= f) s = .fail e := by
  change SM.bind x f s = _
  unfold SM.bind; rw [h]

theorem lift_ok {v : Res β} {s : σ} {b : β} (h : v = .ok b) : SM.lift v s = .ok b s := by rw [h]; rfl

theorem lift_exn {v : Res β} {s : σ} {e : Exn} (h : v = .error (.exc e)) : SM.lift v s = .exn e s := by rw [h]; rfl

theorem lift_fail {v : Res β} {s : σ} {f : Fail} (h : Fails v f) : SM.lift v s = .fail f := by
  obtain ⟨rfl, h⟩ := h
  cases f with
  | exc e => exact (h e rfl).elim
  | _ => rfl

theorem sp_onHeap {x : CM C β} {R : β → CState C → Prop} {Q : Exn → CState C → Prop} {F : Fail → Prop}
    (h : SP (x P.heap) (fun b h' => R b { P with heap := h' }) (fun e h' => Q e { P with heap := h' }) F) : SP (onHeap x P) R Q F := by
  unfold onHeap
  cases hx : x P.heap with
  | ok b s' => rw [hx] at h; exact h
  | exn e s' => rw [hx] at h; exact h
  | fail f => rw [hx] at h; exact h

theorem getCol_eq {x : Nat} {p : Option Nat} (h : P.cols x = some p) : getCol x P = .ok p P := by unfold getCol; rw [h]
theorem getCol_no {x : Nat} (h : P.cols x = none) : getCol x P = .fail .illFormed := by unfold getCol; rw [h]
theorem getFrame_eq {x : Nat} {p : PFrame} (h : P.frames x = some p) : getFrame x P = .ok p P := by unfold getFrame; rw [h]
theorem getFrame_no {x : Nat} (h : P.frames x = none) : getFrame x P = .fail .illFormed := by unfold getFrame; rw [h]
theorem newCol_eq {x : Nat} (h : P.cols x = none) : newCol x P = .ok () P := by unfold newCol; rw [h]
theorem newCol_no {x : Nat} {p : Option Nat} (h : P.cols x = some p) : newCol x P = .fail .illFormed := by unfold newCol; rw [h]
theorem newFrame_eq {x : Nat} (h : P.frames x = none) : newFrame x P = .ok () P := by unfold newFrame; rw [h]
theorem newFrame_no {x : Nat} {p : PFrame} (h : P.frames x = some p) : newFrame x P = .fail .illFormed := by unfold newFrame; rw [h]
theorem differ_eq {x y : Nat} (h : x ≠ y) : differ x y P = .ok () P := by unfold differ; rw [if_neg h]
theorem differ_no {x y : Nat} (h : x = y) : differ x y P = .fail .illFormed := by unfold differ; rw [if_pos h]
theorem vCol_eq {x : Nat} {p : Column C} (h : V.cols x = some p) : vCol x V = .ok p V := by unfold vCol; rw [h]
theorem vCol_no {x : Nat} (h : V.cols x = none) : vCol x V = .fail .illFormed := by unfold vCol; rw [h]
theorem vFrame_eq {x : Nat} {p : DF C} (h : V.frames x = some p) : vFrame x V = .ok p V := by unfold vFrame; rw [h]
theorem vFrame_no {x : Nat} (h : V.frames x = none) : vFrame x V = .fail .illFormed := by unfold vFrame; rw [h]
theorem vNewCol_eq {x : Nat} (h : V.cols x = none) : vNewCol x V = .ok () V := by unfold vNewCol; rw [h]
theorem vNewCol_no {x : Nat} {p : Column C} (h : V.cols x = some p) : vNewCol x V = .fail .illFormed := by unfold vNewCol; rw [h]
theorem vNewFrame_eq {x : Nat} (h : V.frames x = none) : vNewFrame x V = .ok () V := by unfold vNewFrame; rw [h]
theorem vNewFrame_no {x : Nat} {p : DF C} (h : V.frames x = some p) : vNewFrame x V = .fail .illFormed := by unfold vNewFrame; rw [h]
theorem vDiffer_eq {x y : Nat} (h : x ≠ y) : vDiffer x y V = .ok () V := by unfold vDiffer; rw [if_neg h]
theorem vDiffer_no {x y : Nat} (h : x = y) : vDiffer x y V = .fail .illFormed := by unfold vDiffer; rw [if_pos h]

/-! ### What a statement must do -/

/-- The outcome `r` on objects matches the outcome `v` on values; `A`: what a failed allocation may leave, `N`: undefined behaviour that depends on the room in vectors. -/
def Sim (S : Nat → Bool) (V : VState C) (r : SOut (CState C) Unit) (v : SOut (VState C) Unit) (A : VState C → Prop) (N : Prop) : Prop :=
  SP r (fun _ P' => ∃ V', v = .ok () V' ∧ Represents P' V') (fun e P' => ∃ V', Represents P' V' ∧ (v = .exn e V' ∨ Bad S e ∧ (V' = V ∨ A V'))) (fun f => v = .fail f ∨ f = .ub ∧ N)

variable {A : VState C → Prop} {N : Prop}

theorem sim_fail {f : Fail} : Sim S V (.fail f) (.fail f) A N := .inl rfl

theorem share_one {o : Owner} : share P V [o] = holdings P V o := by unfold share; simp

theorem share_two {o o' : Owner} : share P V [o, o'] = holdings P V o ++ holdings P V o' := by unfold share; simp

theorem sep_one (h : Represents P V) (o : Owner) : Sep (others P V [o]) P.heap.get (holdings P V o) := by
  rw [← share_one]; exact rep_sep h (by simp)

theorem sep_two (h : Represents P V) {o o' : Owner} (ho : o ≠ o') : Sep (others P V [o, o']) P.heap.get (holdings P V o ++ holdings P V o') := by
  rw [← share_two]; exact rep_sep h (by simp [ho])

theorem noCol_holds {x : Nat} (h : P.cols x = none) : holdings P V (.col x) = [] := by unfold holdings; dsimp only; rw [h]

theorem noFrame_holds {x : Nat} (h : P.frames x = none) : holdings P V (.frame x) = [] := by unfold holdings; dsimp only; rw [h]

theorem rep_setCol (h : Represents P V) {x : Nat} {p : Option Nat} {c : Column C} {h' : CHeap C} (hs : Sep (others P V [.col x]) h'.get [(p, c)]) :
    Represents ⟨h', fun y => if y = x then some p else P.cols y, P.frames⟩ ⟨fun y => if y = x then some c else V.cols y, V.frames⟩ := by
  refine rep_upd (os := [.col x]) h ?_ (fun _ _ => ⟨rfl, rfl⟩) ?_ ?_ ?_
  · intro y hy
    have hy : y ≠ x := by simpa using hy
    dsimp only; rw [if_neg hy, if_neg hy]; exact ⟨rfl, rfl⟩
  · rw [share_one]
    unfold holdings
    dsimp only
    rw [if_pos rfl, if_pos rfl]; exact hs
  · intro y hy
    have hy : y = x := by simpa using hy
    dsimp only; rw [if_pos hy, if_pos hy]; rfl
  · intro d hd; simp at hd

theorem rep_dropCol (h : Represents P V) {x : Nat} {h' : CHeap C} (hs : Sep (others P V [.col x]) h'.get []) :
    Represents ⟨h', fun y => if y = x then none else P.cols y, P.frames⟩ ⟨fun y => if y = x then none else V.cols y, V.frames⟩ := by
  refine rep_upd (os := [.col x]) h ?_ (fun _ _ => ⟨rfl, rfl⟩) ?_ ?_ ?_
  · intro y hy
    have hy : y ≠ x := by simpa using hy
    dsimp only; rw [if_neg hy, if_neg hy]; exact ⟨rfl, rfl⟩
  · rw [share_one, noCol_holds (by simp)]; exact hs
  · intro y hy
    have hy : y = x := by simpa using hy
    dsimp only; rw [if_pos hy, if_pos hy]; rfl
  · intro d hd; simp at hd

theorem rep_setCols (h : Represents P V) {x y : Nat} (hxy : x ≠ y) {p q : Option Nat} {c d : Column C} {h' : CHeap C}
    (hs : Sep (others P V [.col x, .col y]) h'.get [(p, c), (q, d)]) :
    Represents ⟨h', fun z => if z = x then some p else if z = y then some q else P.cols z, P.frames⟩
      ⟨fun z => if z = x then some c else if z = y then some d else V.cols z, V.frames⟩ := by
  refine rep_upd (os := [.col x, .col y]) h ?_ (fun _ _ => ⟨rfl, rfl⟩) ?_ ?_ ?_
  · intro z hz
    have hz : z ≠ x ∧ z ≠ y := by simpa using hz
    dsimp only; rw [if_neg hz.1, if_neg hz.1, if_neg hz.2, if_neg hz.2]; exact ⟨rfl, rfl⟩
  · rw [share_two]
    unfold holdings
    dsimp only
    rw [if_pos rfl, if_pos rfl, if_neg hxy.symm, if_pos rfl, if_neg hxy.symm, if_pos rfl]; exact hs
  · intro z hz
    dsimp only
    have hz : z = x ∨ z = y := by simpa using hz
    by_cases h1 : z = x
    · rw [if_pos h1, if_pos h1]; rfl
    · rw [if_neg h1, if_neg h1, if_pos (hz.resolve_left h1), if_pos (hz.resolve_left h1)]; rfl
  · intro d hd; simp at hd

/-- The data frames have the same rows, names and index. -/
def SameShape (D : PFrame) (E : DF C) : Prop := D.rows = E.rows ∧ D.index = E.index ∧ D.elems.map PNamed.name = E.elems.map Named.name

theorem sameShape_map {D : PFrame} {E : DF C} (h : SameShape D E) : (some D).map (fun D : PFrame => (D.rows, D.elems.map PNamed.name, D.index)) =
    (some E).map (fun E => (E.rows, E.names, E.index)) := by
  obtain ⟨h1, h2, h3⟩ := h
  simp only [Option.map_some]
  rw [h1, h2, h3]
  rfl

theorem rep_setFrame (h : Represents P V) {x : Nat} {D : PFrame} {E : DF C} {h' : CHeap C} (hsh : SameShape D E)
    (hs : Sep (others P V [.frame x]) h'.get (held D.elems E.elems)) :
    Represents ⟨h', P.cols, fun y => if y = x then some D else P.frames y⟩ ⟨V.cols, fun y => if y = x then some E else V.frames y⟩ := by
  refine rep_upd (os := [.frame x]) h (fun _ _ => ⟨rfl, rfl⟩) ?_ ?_ ?_ ?_
  · intro y hy
    have hy : y ≠ x := by simpa using hy
    dsimp only; rw [if_neg hy, if_neg hy]; exact ⟨rfl, rfl⟩
  · rw [share_one]
    unfold holdings
    dsimp only
    rw [if_pos rfl, if_pos rfl]; exact hs
  · intro d hd; simp at hd
  · intro y hy
    have hy : y = x := by simpa using hy
    dsimp only; rw [if_pos hy, if_pos hy]; exact sameShape_map hsh

theorem rep_dropFrame (h : Represents P V) {x : Nat} {h' : CHeap C} (hs : Sep (others P V [.frame x]) h'.get []) :
    Represents ⟨h', P.cols, fun y => if y = x then none else P.frames y⟩ ⟨V.cols, fun y => if y = x then none else V.frames y⟩ := by
  refine rep_upd (os := [.frame x]) h (fun _ _ => ⟨rfl, rfl⟩) ?_ ?_ ?_ ?_
  · intro y hy
    have hy : y ≠ x := by simpa using hy
    dsimp only; rw [if_neg hy, if_neg hy]; exact ⟨rfl, rfl⟩
  · rw [share_one, noFrame_holds (by simp)]; exact hs
  · intro d hd; simp at hd
  · intro y hy
    have hy : y = x := by simpa using hy
    dsimp only; rw [if_pos hy, if_pos hy]; rfl

theorem rep_setFrames (h : Represents P V) {x y : Nat} (hxy : x ≠ y) {D D' : PFrame} {E E' : DF C} {h' : CHeap C} (hsh : SameShape D E) (hsh' : SameShape D' E')
    (hs : Sep (others P V [.frame x, .frame y]) h'.get (held D.elems E.elems ++ held D'.elems E'.elems)) :
    Represents ⟨h', P.cols, fun z => if z = x then some D else if z = y then some D' else P.frames z⟩
      ⟨V.cols, fun z => if z = x then some E else if z = y then some E' else V.frames z⟩ := by
  refine rep_upd (os := [.frame x, .frame y]) h (fun _ _ => ⟨rfl, rfl⟩) ?_ ?_ ?_ ?_
  · intro z hz
    have hz : z ≠ x ∧ z ≠ y := by simpa using hz
    dsimp only; rw [if_neg hz.1, if_neg hz.1, if_neg hz.2, if_neg hz.2]; exact ⟨rfl, rfl⟩
  · rw [share_two]
    unfold holdings
    dsimp only
    rw [if_pos rfl, if_pos rfl, if_neg hxy.symm, if_pos rfl, if_neg hxy.symm, if_pos rfl]; exact hs
  · intro d hd; simp at hd
  · intro z hz
    dsimp only
    have hz : z = x ∨ z = y := by simpa using hz
    by_cases h1 : z = x
    · rw [if_pos h1, if_pos h1]; exact sameShape_map hsh
    · rw [if_neg h1, if_neg h1, if_pos (hz.resolve_left h1), if_pos (hz.resolve_left h1)]; exact sameShape_map hsh'

theorem rep_setBoth (h : Represents P V) {x y : Nat} {D : PFrame} {E : DF C} {p : Option Nat} {c : Column C} {h' : CHeap C} (hsh : SameShape D E)
    (hs : Sep (others P V [.frame x, .col y]) h'.get (held D.elems E.elems ++ [(p, c)])) :
    Represents ⟨h', fun z => if z = y then some p else P.cols z, fun z => if z = x then some D else P.frames z⟩
      ⟨fun z => if z = y then some c else V.cols z, fun z => if z = x then some E else V.frames z⟩ := by
  refine rep_upd (os := [.frame x, .col y]) h ?_ ?_ ?_ ?_ ?_
  · intro z hz
    have hz : z ≠ y := by simpa using hz
    dsimp only; rw [if_neg hz, if_neg hz]; exact ⟨rfl, rfl⟩
  · intro z hz
    have hz : z ≠ x := by simpa using hz
    dsimp only; rw [if_neg hz, if_neg hz]; exact ⟨rfl, rfl⟩
  · rw [share_two]
    unfold holdings
    dsimp only
    rw [if_pos rfl, if_pos rfl, if_pos rfl, if_pos rfl]; exact hs
  · intro z hz
    have hz : z = y := by simpa using hz
    dsimp only; rw [if_pos hz, if_pos hz]; rfl
  · intro z hz
    have hz : z = x := by simpa using hz
    dsimp only; rw [if_pos hz, if_pos hz]; exact sameShape_map hsh

/-! ### New variables -/

theorem sim_newCol (h : Represents P V) {x : Nat} (hx : P.cols x = none) {op : CM C (Option Nat)} {v : Res (Column C)} (hm : Makes S P.heap op v IsCol) :
    Sim S V ((onHeap op >>= fun p => setCol x (some p)) P) ((SM.lift v >>= fun c => vSetCol x (some c)) V) A N := by
  refine sp_bind (R := fun p P' => ∃ c h', P' = { P with heap := h' } ∧ v = .ok c ∧ Sep P.heap.get h'.get [(p, c)]) (sp_onHeap (sp_mono hm ?_ ?_ ?_)) ?_
  · rintro p h' ⟨c, l, hc, hl, hs⟩
    unfold IsCol at hl
    subst hl
    exact ⟨c, h', rfl, hc, hs⟩
  · rintro e h' ⟨h1, h2⟩
    exact ⟨V, rep_clock h h1, h2.imp (fun h => sm_exn (lift_exn h)) fun h => ⟨h, .inl rfl⟩⟩
  · exact fun f hf => .inl (sm_fail (lift_fail hf))
  · rintro p _ ⟨c, h', rfl, hc, hs⟩
    refine ⟨_, sm_ok (lift_ok hc), rep_setCol h ?_⟩
    rw [others_new (by rw [share_one, noCol_holds hx])]
    exact hs

theorem sim_newFrame (h : Represents P V) {x : Nat} (hx : P.frames x = none) {op : CM C PFrame} {v : Res (DF C)} (hm : Makes S P.heap op v IsFrame) :
    Sim S V ((onHeap op >>= fun p => setFrame x (some p)) P) ((SM.lift v >>= fun c => vSetFrame x (some c)) V) A N := by
  refine sp_bind (R := fun D P' => ∃ E h', P' = { P with heap := h' } ∧ v = .ok E ∧ SameShape D E ∧ Sep P.heap.get h'.get (held D.elems E.elems)) (sp_onHeap (sp_mono hm ?_ ?_ ?_)) ?_
  · rintro p h' ⟨c, l, hc, ⟨l1, l2, l3, rfl⟩, hs⟩
    exact ⟨c, h', rfl, hc, ⟨l1, l2, l3⟩, hs⟩
  · rintro e h' ⟨h1, h2⟩
    exact ⟨V, rep_clock h h1, h2.imp (fun h => sm_exn (lift_exn h)) fun h => ⟨h, .inl rfl⟩⟩
  · exact fun f hf => .inl (sm_fail (lift_fail hf))
  · rintro p _ ⟨c, h', rfl, hc, hsh, hs⟩
    refine ⟨_, sm_ok (lift_ok hc), rep_setFrame h hsh ?_⟩
    rw [others_new (by rw [share_one, noFrame_holds hx])]
    exact hs

/-! ### The statements on columns -/

theorem isNew_col (h : Represents P V) (x : Nat) : P.cols x = none ∧ V.cols x = none ∨ (∃ p, P.cols x = some p) ∧ ∃ c, V.cols x = some c := by
  cases hx : P.cols x with
  | none => exact .inl ⟨rfl, rep_noCol h hx⟩
  | some p => exact .inr ⟨⟨p, rfl⟩, (rep_col h hx).imp fun _ hc => hc.1⟩

theorem isNew_frame (h : Represents P V) (x : Nat) : P.frames x = none ∧ V.frames x = none ∨ (∃ p, P.frames x = some p) ∧ ∃ c, V.frames x = some c := by
  cases hx : P.frames x with
  | none => exact .inl ⟨rfl, rep_noFrame h hx⟩
  | some p => exact .inr ⟨⟨p, rfl⟩, (rep_frame h hx).imp fun _ hc => hc.1⟩

/-- After checking that the name is new. -/
theorem sim_isNewCol (h : Represents P V) (x : Nat) {f : Unit → SM (CState C) Unit} {g : Unit → SM (VState C) Unit}
    (hf : P.cols x = none → V.cols x = none → Sim S V (f () P) (g () V) A N) : Sim S V ((newCol x >>= f) P) ((vNewCol x >>= g) V) A N := by
  rcases isNew_col h x with ⟨h1, h2⟩ | ⟨⟨p, h1⟩, c, h2⟩
  · rw [sm_ok (newCol_eq h1), sm_ok (vNewCol_eq h2)]; exact hf h1 h2
  · rw [sm_fail (newCol_no h1), sm_fail (vNewCol_no h2)]; exact sim_fail

theorem sim_isNewFrame (h : Represents P V) (x : Nat) {f : Unit → SM (CState C) Unit} {g : Unit → SM (VState C) Unit}
    (hf : P.frames x = none → V.frames x = none → Sim S V (f () P) (g () V) A N) : Sim S V ((newFrame x >>= f) P) ((vNewFrame x >>= g) V) A N := by
  rcases isNew_frame h x with ⟨h1, h2⟩ | ⟨⟨p, h1⟩, c, h2⟩
  · rw [sm_ok (newFrame_eq h1), sm_ok (vNewFrame_eq h2)]; exact hf h1 h2
  · rw [sm_fail (newFrame_no h1), sm_fail (vNewFrame_no h2)]; exact sim_fail

theorem sim_getCol (h : Represents P V) (x : Nat) {f : Option Nat → SM (CState C) Unit} {g : Column C → SM (VState C) Unit}
    (hf : ∀ p c, P.cols x = some p → V.cols x = some c → holdings P V (.col x) = [(p, c)] → StandsFor P.heap.get p c → Sim S V (f p P) (g c V) A N) :
    Sim S V ((getCol x >>= f) P) ((vCol x >>= g) V) A N := by
  cases hx : P.cols x with
  | none => rw [sm_fail (getCol_no hx), sm_fail (vCol_no (rep_noCol h hx))]; exact sim_fail
  | some p =>
    obtain ⟨c, h1, h2, h3⟩ := rep_col h hx
    rw [sm_ok (getCol_eq hx), sm_ok (vCol_eq h1)]
    exact hf p c hx h1 h2 h3

theorem sim_getFrame (h : Represents P V) (x : Nat) {f : PFrame → SM (CState C) Unit} {g : DF C → SM (VState C) Unit}
    (hf : ∀ D E, P.frames x = some D → V.frames x = some E → holdings P V (.frame x) = held D.elems E.elems → DenotesF P.heap.get D E → Sim S V (f D P) (g E V) A N) :
    Sim S V ((getFrame x >>= f) P) ((vFrame x >>= g) V) A N := by
  cases hx : P.frames x with
  | none => rw [sm_fail (getFrame_no hx), sm_fail (vFrame_no (rep_noFrame h hx))]; exact sim_fail
  | some p =>
    obtain ⟨c, h1, h2, h3⟩ := rep_frame h hx
    rw [sm_ok (getFrame_eq hx), sm_ok (vFrame_eq h1)]
    exact hf p c hx h1 h2 h3

theorem sim_differ (x y : Nat) {f : Unit → SM (CState C) Unit} {g : Unit → SM (VState C) Unit} (hf : x ≠ y → Sim S V (f () P) (g () V) A N) :
    Sim S V ((differ x y >>= f) P) ((vDiffer x y >>= g) V) A N := by
  by_cases hx : x = y
  · rw [sm_fail (differ_no hx), sm_fail (vDiffer_no hx)]; exact sim_fail
  · rw [sm_ok (differ_eq hx), sm_ok (vDiffer_eq hx)]; exact hf hx

end

end Jules

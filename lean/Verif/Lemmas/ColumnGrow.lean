import Verif.Lemmas.ColumnStep
import Verif.Spec.ColumnPtr
/-
Lemmas for C83: what statements do to the objects that exist, and the addresses of new ones.
-/
namespace Jules
open Spec

section
variable {C : Coercion} {S : Nat → Bool} {σ τ β γ : Type} {n : Nat}

/-- The objects below `n` are as they were or deleted. -/
structure Ext (n : Nat) (h h' : CHeap C) : Prop where
  len : n ≤ h'.models.length
  same : ∀ i, i < n → h'.get i = h.get i ∨ h'.get i = none

theorem ext_refl {h : CHeap C} (hn : n ≤ h.models.length) : Ext n h h := ⟨hn, fun _ _ => .inl rfl⟩

theorem ext_trans {h h' h'' : CHeap C} (a : Ext n h h') (b : Ext n h' h'') : Ext n h h'' := by
  refine ⟨b.len, fun i hi => ?_⟩
  rcases b.same i hi with e | e
  · rw [e]; exact a.same i hi
  · exact .inr e

/-- A computation on states that contain objects: those below `n` are as they were or deleted; the result satisfies `R`. -/
def Grows (n : Nat) (g : σ → CHeap C) (x : SM σ β) (R : β → Prop) : Prop :=
  ∀ s, n ≤ (g s).models.length → SP (x s) (fun b s' => Ext n (g s) (g s') ∧ R b) (fun _ s' => Ext n (g s) (g s')) fun _ => True

variable {g : σ → CHeap C} {R : β → Prop}

theorem grows_mono {x : SM σ β} {R' : β → Prop} (h : Grows n g x R) (hR : ∀ b, R b → R' b) : Grows n g x R' := fun s hs =>
  sp_mono (h s hs) (fun b _ hb => ⟨hb.1, hR b hb.2⟩) (fun _ _ h => h) fun _ h => h

theorem grows_pure {b : β} (h : R b) : Grows n g (SM.pure b) R := fun _ hs => ⟨ext_refl hs, h⟩

theorem grows_throw {e : Exn} : Grows n g (SM.throw e : SM σ β) R := fun _ hs => ext_refl hs

theorem grows_die {f : Fail} : Grows n g (SM.die f : SM σ β) R := fun _ _ => trivial

theorem grows_bind {x : SM σ β} {f : β → SM σ γ} {R' : γ → Prop} (hx : Grows n g x R) (hf : ∀ b, R b → Grows n g (f b) R') : Grows n g (x >>= f) R' := fun s hs => by
  change SP (SM.bind x f s) _ _ _
  have h1 := hx s hs
  unfold SM.bind
  cases hr : x s with
  | ok b s' =>
    rw [hr] at h1
    have h2 := hf b h1.2 s' h1.1.len
    exact sp_mono h2 (fun _ _ h => ⟨ext_trans h1.1 h.1, h.2⟩) (fun _ _ h => ext_trans h1.1 h) fun _ h => h
  | exn e s' => rw [hr] at h1; exact h1
  | fail f => trivial

theorem grows_cleanup {x : SM σ β} {c : SM σ Unit} {R' : Unit → Prop} (hx : Grows n g x R) (hc : Grows n g c R') : Grows n g (x.cleanup c) R := fun s hs => by
  have h1 := hx s hs
  unfold SM.cleanup
  cases hr : x s with
  | ok b s' => rw [hr] at h1; exact h1
  | exn e s' =>
    rw [hr] at h1
    have h2 := hc s' (h1 : Ext _ _ _).len
    dsimp only
    cases hr' : c s' with
    | ok b s'' => rw [hr'] at h2; exact ext_trans h1 h2.1
    | exn e s'' => trivial
    | fail f => trivial
  | fail f => trivial

theorem grows_try {x : SM σ β} (hx : Grows n g x R) : Grows n g x.try (fun r => ∀ b, r = .ok b → R b) := fun s hs => by
  have h1 := hx s hs
  unfold SM.try
  cases hr : x s with
  | ok b s' => rw [hr] at h1; exact ⟨h1.1, fun b' hb => by cases hb; exact h1.2⟩
  | exn e s' => rw [hr] at h1; exact ⟨h1, fun b' hb => by cases hb⟩
  | fail f => trivial

theorem grows_lift {x : Res β} (h : ∀ b, x = .ok b → R b) : Grows n g (SM.lift x) R := fun s hs => by
  unfold SM.lift
  cases x with
  | ok b => exact ⟨ext_refl hs, h b rfl⟩
  | error f => cases f <;> first | trivial | exact ext_refl hs

/-! ### The operations -/

/-- The pointer is null or to a new object. -/
def NewPtr (n : Nat) (p : Option Nat) : Prop := ∀ i, p = some i → n ≤ i

/-- All of these are. -/
def NewElems (n : Nat) (es : List PNamed) : Prop := ∀ e ∈ es, NewPtr n e.ptr

variable {x : CM C β}

theorem grows_event : Grows n id (cEvent S : CM C Unit) fun _ => True := fun h hs => by
  unfold cEvent
  split
  · exact ⟨hs, fun i hi => .inl rfl⟩
  · exact ⟨⟨hs, fun i hi => .inl rfl⟩, trivial⟩

theorem grows_events : ∀ k, Grows n id (cEvents S k : CM C Unit) fun _ => True
  | 0 => grows_pure trivial
  | k + 1 => grows_bind grows_event fun _ _ => grows_events k

theorem grows_place (m : Model C) : Grows n id (place m) fun i => n ≤ i := fun h hs => by
  refine ⟨⟨?_, fun i hi => .inl ?_⟩, hs⟩
  · show n ≤ (h.models ++ [some m]).length
    have hs : n ≤ h.models.length := hs
    simp only [List.length_append, List.length_cons, List.length_nil]; omega
  · have hs : n ≤ h.models.length := hs
    show CHeap.get { h with models := h.models ++ [some m] } i = h.get i
    rw [get_place, if_neg (by omega)]

theorem grows_fetch (i : Nat) : Grows n id (fetch i : CM C (Model C)) fun _ => True := fun h hs => by
  unfold fetch
  cases h.get i with
  | none => trivial
  | some m => exact ⟨ext_refl hs, trivial⟩

theorem grows_store {i : Nat} (hi : n ≤ i) (m : Model C) : Grows n id (store i m) fun _ => True := fun h hs => by
  unfold store
  cases hg : h.get i with
  | none => trivial
  | some m' =>
    refine ⟨⟨?_, fun j hj => .inl ?_⟩, trivial⟩
    · show n ≤ (h.models.set i (some m)).length
      rw [List.length_set]; exact hs
    · show CHeap.get { h with models := h.models.set i (some m) } j = h.get j
      rw [get_set (get_lt hg), if_neg (by omega)]

theorem grows_delete (p : Option Nat) : Grows n id (deleteModel p : CM C Unit) fun _ => True := fun h hs => by
  unfold deleteModel
  cases p with
  | none => exact ⟨ext_refl hs, trivial⟩
  | some i =>
    dsimp only
    cases hg : h.get i with
    | none => trivial
    | some m' =>
      refine ⟨⟨?_, fun j hj => ?_⟩, trivial⟩
      · show n ≤ (h.models.set i none).length
        rw [List.length_set]; exact hs
      · show CHeap.get { h with models := h.models.set i none } j = h.get j ∨ CHeap.get { h with models := h.models.set i none } j = none
        rw [get_set (get_lt hg)]
        by_cases h' : j = i
        · rw [if_pos h']; exact .inr rfl
        · rw [if_neg h']; exact .inl rfl

theorem grows_build (m : Model C) : Grows n id (buildModel S m) (NewPtr n) :=
  grows_bind grows_event fun _ _ => grows_bind grows_event fun _ _ => grows_bind (grows_events _) fun _ _ => grows_bind (grows_place m) fun i hi =>
    grows_pure fun j hj => by cases hj; exact hi

theorem grows_transform {s t : C.Ty} (f : C.Val s → Res (C.Val t)) {i : Nat} (hi : n ≤ i) : ∀ (xs : List (C.Val s)) (done : List (C.Val t)),
    Grows n id (transformLoop S f i xs done) fun _ => True
  | [], _ => grows_pure trivial
  | x :: xs, done => by
    unfold transformLoop
    exact grows_bind grows_event fun _ _ => grows_bind (R := fun _ => True) (grows_lift fun _ _ => trivial) fun _ _ => grows_bind (grows_store hi _) fun _ _ => grows_transform f hi xs _

theorem grows_coerceImpl {s t : C.Ty} (f : C.Val s → Res (C.Val t)) (src : List (C.Val s)) : Grows n id (coerceImpl S f src) (NewPtr n) := by
  refine grows_bind grows_event fun _ _ => grows_bind (grows_place _) fun i hi => ?_
  intro h hs
  have hbody : ∀ h : CHeap C, n ≤ h.models.length → SP ((do
      SM.inner (cEvent S)
      SM.inner (transformLoop S f i src [])
      exchange none : SM (CHeap C × Option Nat) (Option Nat)) (h, some i)) (fun b st => Ext n h st.1 ∧ b = some i) (fun _ st => Ext n h st.1) fun _ => True := by
    intro h hs
    refine sp_bind (R := fun _ st => Ext n h st.1 ∧ st.2 = some i) (sp_inner (sp_mono (grows_event (n := n) h hs) (fun _ _ h => ⟨h.1, rfl⟩) (fun _ _ h => h) fun _ h => h)) ?_
    rintro _ ⟨h1, l1⟩ ⟨e1, rfl⟩
    refine sp_bind (R := fun _ st => Ext n h st.1 ∧ st.2 = some i)
      (sp_inner (sp_mono (grows_transform f hi src [] h1 e1.len) (fun _ _ h => ⟨ext_trans e1 h.1, rfl⟩) (fun _ _ h => ext_trans e1 h) fun _ h => h)) ?_
    rintro _ ⟨h2, l2⟩ ⟨e2, rfl⟩
    exact ⟨e2, rfl⟩
  have h1 := hbody h hs
  unfold deferred
  have hact : ∀ st : CHeap C × Option Nat, n ≤ st.1.models.length → SP (SM.inner (deleteModel st.2) st) (fun _ st' => Ext n st.1 st'.1) (fun _ _ => True) fun _ => True := by
    rintro ⟨h2, p⟩ hs2
    exact sp_inner (sp_mono (grows_delete (n := n) p h2 hs2) (fun _ _ h => h.1) (fun _ _ _ => trivial) fun _ _ => trivial)
  cases hr : (do
      SM.inner (cEvent S)
      SM.inner (transformLoop S f i src [])
      exchange none : SM (CHeap C × Option Nat) (Option Nat)) (h, some i) with
  | ok b st =>
    rw [hr] at h1
    have h2 := hact st h1.1.len
    dsimp only
    cases hr' : SM.inner (deleteModel st.2) st with
    | ok u st' =>
      rw [hr'] at h2
      exact ⟨ext_trans h1.1 h2, fun j hj => by rw [h1.2] at hj; cases hj; exact hi⟩
    | exn _ _ => trivial
    | fail _ => trivial
  | exn e st =>
    rw [hr] at h1
    have h2 := hact st (h1 : Ext _ _ _).len
    dsimp only
    cases hr' : SM.inner (deleteModel st.2) st with
    | ok u st' => rw [hr'] at h2; exact ext_trans h1 h2
    | exn _ _ => trivial
    | fail _ => trivial
  | fail f => trivial

theorem grows_coercePtr (i : Nat) (T : C.Ty) : Grows n id (coercePtr S i T) (NewPtr n) := by
  refine grows_bind (grows_fetch i) fun m _ => ?_
  split
  · split
    · exact grows_throw
    · exact grows_coerceImpl _ _
  · exact grows_throw

theorem grows_clone (i : Nat) : Grows n id (clonePtr S i : CM C _) (NewPtr n) := grows_bind (grows_fetch i) fun m _ => grows_build m

theorem grows_copyP (p : Option Nat) : Grows n id (copyP S p : CM C _) (NewPtr n) := by
  cases p with
  | none => exact grows_die
  | some i => exact grows_clone i

theorem grows_partP (p : Option Nat) (first size : Nat) : Grows n id (partP S p first size : CM C _) (NewPtr n) := by
  cases p with
  | none => exact grows_die
  | some i => exact grows_bind (grows_fetch i) fun m _ => grows_bind (R := fun _ => True) (grows_lift fun _ _ => trivial) fun m' _ => grows_build m'

theorem newPtr_none : NewPtr n none := fun _ h => by cases h

theorem grows_assignP (t p : Option Nat) : Grows n id (assignP S t p : CM C _) (NewPtr n) := by
  unfold assignP
  cases p with
  | none => exact grows_bind (grows_pure newPtr_none) fun q hq => grows_bind (grows_delete t) fun _ _ => grows_pure hq
  | some i => exact grows_bind (grows_clone i) fun q hq => grows_bind (grows_delete t) fun _ _ => grows_pure hq

theorem grows_coerceP (p : Option Nat) (T : C.Ty) : Grows n id (coerceP S p T) (NewPtr n) := by
  cases p with
  | none => exact grows_throw
  | some i => exact grows_bind (grows_coercePtr i T) fun q hq => grows_bind (grows_delete _) fun _ _ => grows_pure hq

theorem grows_typeP (p : Option Nat) : Grows n id (typeP p : CM C C.Ty) fun _ => True := by
  cases p with
  | none => exact grows_throw
  | some i => exact grows_bind (grows_fetch i) fun m _ => grows_pure trivial

theorem grows_sizeP (p : Option Nat) : Grows n id (sizeP p : CM C Nat) fun _ => True := by
  cases p with
  | none => exact grows_pure trivial
  | some i => exact grows_bind (grows_fetch i) fun m _ => grows_pure trivial

theorem grows_toColumnP (p : Option Nat) (T : C.Ty) : Grows n id (toColumnP S p T) (NewPtr n) := by
  cases p with
  | none => exact grows_die
  | some i => exact grows_coercePtr i T

theorem grows_destroyAll : ∀ es : List PNamed, Grows n id (destroyAll es : CM C Unit) fun _ => True
  | [] => grows_pure trivial
  | e :: es => grows_bind (grows_delete _) fun _ _ => grows_destroyAll es

theorem grows_copyNamed (e : PNamed) : Grows n id (copyNamed S e : CM C _) fun e' => NewPtr n e'.ptr :=
  grows_bind grows_event fun _ _ => grows_bind (grows_copyP _) fun _ hp => grows_pure hp

theorem newElems_nil : NewElems n [] := fun _ h => by cases h

theorem newElems_cons {e : PNamed} {es : List PNamed} (h : NewPtr n e.ptr) (h' : NewElems n es) : NewElems n (e :: es) := by
  intro a ha
  rcases List.mem_cons.1 ha with rfl | ha
  · exact h
  · exact h' a ha

theorem newElems_append {es es' : List PNamed} (h : NewElems n es) (h' : NewElems n es') : NewElems n (es ++ es') := by
  intro a ha
  rcases List.mem_append.1 ha with ha | ha
  · exact h a ha
  · exact h' a ha

theorem grows_copyElems : ∀ es : List PNamed, Grows n id (copyElems S es : CM C _) (NewElems n)
  | [] => grows_pure newElems_nil
  | e :: es => grows_bind (grows_copyNamed e) fun e' he => grows_bind (grows_cleanup (grows_copyElems es) (grows_delete _)) fun es' hes => grows_pure (newElems_cons he hes)

theorem grows_copyVector (es : List PNamed) : Grows n id (copyVector S es : CM C _) (NewElems n) := by
  unfold copyVector
  split
  · exact grows_pure newElems_nil
  · exact grows_bind grows_event fun _ _ => grows_copyElems es

theorem grows_pushSized (rows : Nat) : ∀ (xs : List (CM C PNamed)) (acc : List PNamed), (∀ x ∈ xs, Grows n id x fun e => NewPtr n e.ptr) → NewElems n acc →
    Grows n id (pushSizedP rows xs acc) fun r => NewElems n r.1
  | [], acc, _, ha => grows_pure ha
  | x :: xs, acc, hx, ha => by
    unfold pushSizedP
    refine grows_bind (grows_cleanup (hx x (.head _)) (grows_destroyAll acc)) fun e he => grows_bind (grows_sizeP _) fun k _ => ?_
    have ha' : NewElems n (acc ++ [e]) := newElems_append ha (newElems_cons he newElems_nil)
    split
    · exact grows_pushSized rows xs _ (fun x h => hx x (.tail _ h)) ha'
    · exact grows_pure ha'

theorem grows_register : ∀ (es : List PNamed) (i : Nat) (index : List (Txt × Nat)), Grows n id (registerP S es i index : CM C _) fun _ => True
  | [], _, _ => grows_pure trivial
  | e :: es, i, index => by
    unfold registerP
    split
    · split
      · exact grows_throw
      · exact grows_bind grows_event fun _ _ => grows_register es _ _
    · exact grows_register es _ _

theorem grows_frameOfIter (xs : List (CM C PNamed)) (hx : ∀ x ∈ xs, Grows n id x fun e => NewPtr n e.ptr) : Grows n id (frameOfIter S xs) fun D => NewElems n D.elems := by
  cases xs with
  | nil => exact grows_die
  | cons x xs =>
    refine grows_bind grows_event fun _ _ => grows_bind (hx x (.head _)) fun e he => grows_bind (grows_sizeP _) fun rows _ =>
      grows_bind (grows_pushSized rows xs [e] (fun x h => hx x (.tail _ h)) (newElems_cons he newElems_nil)) fun r hr => ?_
    split
    · exact grows_bind (grows_cleanup (grows_register _ _ _) (grows_destroyAll _)) fun _ _ => grows_pure hr
    · exact grows_bind (grows_destroyAll _) fun _ _ => grows_throw

theorem grows_frameOfList (l : List PNamed) : Grows n id (frameOfList S l : CM C _) fun D => NewElems n D.elems := by
  refine grows_bind (grows_copyElems l) fun tmp _ => grows_bind (grows_cleanup (grows_frameOfIter _ fun x hx => ?_) (grows_destroyAll _)) fun D hD =>
    grows_bind (grows_destroyAll _) fun _ _ => grows_pure hD
  obtain ⟨e, _, rfl⟩ := List.mem_map.1 hx
  exact grows_copyNamed e

theorem grows_frameCopy (D : PFrame) : Grows n id (frameCopy S D : CM C _) fun D' => NewElems n D'.elems :=
  grows_bind (grows_copyVector _) fun _ hes => grows_bind (grows_cleanup grows_event (grows_destroyAll _)) fun _ _ => grows_pure hes

theorem grows_headP (D : PFrame) (k : Nat) : Grows n id (headP S D k : CM C _) fun D' => NewElems n D'.elems := by
  unfold headP
  split
  · exact grows_throw
  · refine grows_bind (grows_frameOfIter _ fun x hx => ?_) fun t _ => grows_bind (grows_cleanup (grows_frameCopy t) (grows_destroyAll _)) fun r hr =>
      grows_bind (grows_destroyAll _) fun _ _ => grows_pure hr
    obtain ⟨e, _, rfl⟩ := List.mem_map.1 hx
    exact grows_bind grows_event fun _ _ => grows_bind (grows_partP _ _ _) fun p hp => grows_pure hp

theorem grows_destroyCols : ∀ ps : List (Option Nat), Grows n id (destroyCols ps : CM C Unit) fun _ => True
  | [] => grows_pure trivial
  | _ :: ps => grows_bind (grows_delete _) fun _ _ => grows_destroyCols ps

theorem grows_gatherLoop (T : C.Ty) : ∀ (ps tmp : List (Option Nat)) (data : List Nat), Grows n id (gatherLoop S T ps tmp data) fun _ => True
  | [], _, _ => grows_pure trivial
  | p :: ps, tmp, data => by
    unfold gatherLoop
    refine grows_bind (grows_cleanup (grows_typeP p) (grows_destroyCols _)) fun t _ => ?_
    split
    · exact grows_bind (grows_cleanup grows_event (grows_destroyCols _)) fun _ _ => grows_gatherLoop T ps _ _
    · exact grows_bind (grows_cleanup (grows_toColumnP p T) (grows_destroyCols _)) fun q _ => grows_bind (grows_cleanup grows_event (grows_destroyCols _)) fun _ _ =>
        grows_bind (grows_cleanup grows_event (grows_destroyCols _)) fun _ _ => grows_gatherLoop T ps _ _

theorem grows_valsAll (T : C.Ty) : ∀ ids : List Nat, Grows n id (valsAll T ids : CM C _) fun _ => True
  | [] => grows_pure trivial
  | i :: ids => by
    refine grows_bind (R := fun _ => True) (grows_bind (grows_fetch i) fun m _ => ?_) fun _ _ => grows_bind (grows_valsAll T ids) fun _ _ => grows_pure trivial
    split
    · exact grows_pure trivial
    · exact grows_die

theorem grows_gather (T : C.Ty) (D : PFrame) : Grows n id (gather S T D : CM C _) fun _ => True :=
  grows_bind (grows_gatherLoop T _ _ _) fun _ _ => grows_bind (grows_valsAll T _) fun _ _ => grows_bind (grows_destroyCols _) fun _ _ => grows_pure trivial

/-! ### Assigning and binding -/

/-- The pointers `es'` of a data frame that has been assigned to: at each position the one that was there or a new one. -/
def Replaced (n : Nat) (es es' : List PNamed) : Prop := ∀ (i : Nat) e, es'[i]? = some e → NewPtr n e.ptr ∨ ∃ t, es[i]? = some t ∧ t.ptr = e.ptr

theorem replaced_refl {es : List PNamed} : Replaced n es es := fun _ e h => .inr ⟨e, h, rfl⟩

theorem replaced_new {es es' : List PNamed} (h : NewElems n es') : Replaced n es es' := fun _ e he => .inl (h e (List.mem_of_getElem? he))

theorem replaced_cons {t e : PNamed} {es es' : List PNamed} (h : NewPtr n e.ptr ∨ t.ptr = e.ptr) (h' : Replaced n es es') : Replaced n (t :: es) (e :: es') := by
  intro i a ha
  cases i with
  | zero => cases ha; exact h.imp id fun h => ⟨t, rfl, h⟩
  | succ i => exact h' i a ha

theorem grows_assignElems : ∀ ts ss : List PNamed, Grows n id (assignElems S ts ss : CM C _) fun q =>
    q.2.length = ts.length ∧ Replaced n ts q.2 ∧ (q.1 = none → ∀ i e, q.2[i]? = some e → i < ss.length → NewPtr n e.ptr)
  | [], _ => by
    unfold assignElems
    exact grows_pure ⟨rfl, replaced_refl, fun _ _ _ h => by cases h⟩
  | t :: ts, [] => by
    unfold assignElems
    exact grows_pure ⟨rfl, replaced_refl, fun _ _ _ _ h => by simp at h⟩
  | t :: ts, s :: ss => by
    unfold assignElems
    refine grows_bind (grows_try grows_event) fun r _ => ?_
    cases r with
    | error e => exact grows_pure ⟨rfl, replaced_refl, fun h => by cases h⟩
    | ok u =>
      refine grows_bind (grows_try (grows_assignP t.ptr s.ptr)) fun r hr => ?_
      cases r with
      | error e => exact grows_pure ⟨rfl, replaced_cons (.inr rfl) replaced_refl, fun h => by cases h⟩
      | ok p =>
        refine grows_bind (grows_assignElems ts ss) fun q hq => grows_pure ⟨by simp [hq.1], replaced_cons (.inl (hr p rfl)) hq.2.1, fun h i e he hi => ?_⟩
        cases i with
        | zero => cases he; exact hr p rfl
        | succ i => exact hq.2.2 h i e he (by simpa using hi)

theorem grows_assignVector (cap : Nat) (ts ss : List PNamed) : Grows n id (assignVector S cap ts ss : CM C _) fun q => Replaced n ts q.2.1 ∧ (q.1 = none → NewElems n q.2.1) := by
  unfold assignVector
  split
  · refine grows_bind (grows_try (grows_copyVector ss)) fun r hr => ?_
    cases r with
    | error e => exact grows_pure ⟨replaced_refl, fun h => by cases h⟩
    | ok es => exact grows_bind (grows_destroyAll _) fun _ _ => grows_pure ⟨replaced_new (hr es rfl), fun _ => hr es rfl⟩
  · refine grows_bind (grows_assignElems ts ss) fun q hq => ?_
    obtain ⟨x, qs⟩ := q
    obtain ⟨h1, h2, h3⟩ := hq
    dsimp only at h1 h2 h3
    cases x with
    | some e => exact grows_pure ⟨h2, fun h => by cases h⟩
    | none =>
      dsimp only
      split
      · refine grows_bind (grows_destroyAll _) fun _ _ => ?_
        have hn : NewElems n (qs.take ss.length) := by
          intro e he
          obtain ⟨i, hi⟩ := List.mem_iff_getElem?.1 he
          rw [List.getElem?_take] at hi
          split at hi
          · next hlt => exact h3 rfl i e hi hlt
          · cases hi
        exact grows_pure ⟨replaced_new hn, fun _ => hn⟩
      · next hlen =>
        have hq : NewElems n qs := by
          intro e he
          obtain ⟨i, hi⟩ := List.mem_iff_getElem?.1 he
          have := (List.getElem?_eq_some_iff.1 hi).1
          exact h3 rfl i e hi (by omega)
        refine grows_bind (grows_try (grows_copyElems _)) fun r hr => ?_
        cases r with
        | error e => exact grows_pure ⟨h2, fun h => by cases h⟩
        | ok es =>
          have hn := newElems_append hq (hr es rfl)
          exact grows_pure ⟨replaced_new hn, fun _ => hn⟩

theorem grows_frameAssign (lost : List (Txt × Nat) → List (Txt × Nat) → List (Txt × Nat)) (t s : PFrame) :
    Grows n id (frameAssign S lost t s : CM C _) fun q => Replaced n t.elems q.2.elems ∧ (q.1 = none → NewElems n q.2.elems) := by
  refine grows_bind (grows_assignVector _ _ _) fun r hr => ?_
  obtain ⟨x, es, cap⟩ := r
  cases x with
  | some e => exact grows_pure ⟨hr.1, fun h => by cases h⟩
  | none =>
    dsimp only
    refine grows_bind (grows_try grows_event) fun q _ => ?_
    cases q with
    | error e => exact grows_pure ⟨hr.1, fun h => by cases h⟩
    | ok u => exact grows_pure ⟨hr.1, fun _ => hr.2 rfl⟩

/-- The data frame `T` got the first `k` of the columns of another one, and this is what is left of those. -/
def GotSome (T : PFrame) (es : List PNamed) (q : Option Exn × PFrame × List PNamed) : Prop :=
  ∃ k, q.2.1.elems = T.elems ++ es.take k ∧ q.2.2 = es.drop k ∧ (q.1 = none → es.length ≤ k) ∧ (q.1 ≠ none → k = 0 ∨ k < es.length)

theorem grows_bindLoop : ∀ (T : PFrame) (es : List PNamed), Grows n id (bindLoopP S T es : CM C _) fun q =>
    ∃ k, q.2.1.elems = T.elems ++ es.take k ∧ q.2.2 = es.drop k ∧ (q.1 = none → es.length ≤ k) ∧ (q.1 ≠ none → k < es.length)
  | T, [] => grows_pure ⟨0, by simp, rfl, fun _ => by simp, fun h => (h rfl).elim⟩
  | T, e :: es => by
    unfold bindLoopP
    refine grows_bind (R := fun _ => True) (grows_mono (grows_try (R := fun _ => True) ?_) fun _ _ => trivial) fun r _ => ?_
    · split
      · exact grows_event
      · exact grows_pure trivial
    cases r with
    | error x => exact grows_pure ⟨0, by simp, rfl, nofun, fun _ => by simp⟩
    | ok u =>
      dsimp only
      have hel : (if e.name ≠ [] then { T with index := (e.name, T.elems.length) :: T.index } else T : PFrame).elems = T.elems := by split <;> rfl
      generalize (if e.name ≠ [] then { T with index := (e.name, T.elems.length) :: T.index } else T : PFrame) = T' at hel
      refine grows_bind (R := fun _ => True) (grows_mono (grows_try (R := fun _ => True) ?_) fun _ _ => trivial) fun r _ => ?_
      · split
        · exact grows_pure trivial
        · exact grows_event
      cases r with
      | error x => exact grows_pure ⟨0, by simp [hel], rfl, nofun, fun _ => by simp⟩
      | ok u =>
        refine grows_mono (grows_bindLoop _ es) ?_
        rintro q ⟨k, h1, h2, h3, h4⟩
        refine ⟨k + 1, ?_, ?_, fun h => by simpa using h3 h, fun h => by simpa using h4 h⟩
        · rw [h1]; simp [hel]
        · rw [h2]; rfl

theorem grows_bindP (T D : PFrame) : Grows n id (bindP S T D : CM C _) (GotSome T D.elems) := by
  unfold bindP
  have h0 : ∀ x : Exn, GotSome T D.elems (some x, T, D.elems) := fun x => ⟨0, by simp, rfl, nofun, fun _ => .inl rfl⟩
  have hl : ∀ T' : PFrame, T'.elems = T.elems → Grows n id (bindLoopP S T' D.elems : CM C _) (GotSome T D.elems) := fun T' hT => grows_mono (grows_bindLoop T' D.elems) <| by
    rintro q ⟨k, h1, h2, h3, h4⟩
    exact ⟨k, by rw [h1, hT], h2, h3, fun h => .inr (h4 h)⟩
  refine grows_bind (grows_try grows_event) fun r _ => ?_
  cases r with
  | error x => exact grows_pure (h0 x)
  | ok u =>
    dsimp only
    split
    · split
      · split
        · exact hl T rfl
        · exact grows_pure (h0 _)
      · exact hl _ rfl
    · exact grows_pure (h0 _)

theorem grows_frameOfNamed (e : PNamed) : Grows n id (frameOfNamed S e : CM C _) fun D => D.elems = [e] :=
  grows_bind (grows_sizeP _) fun _ _ => grows_bind (grows_cleanup grows_event (grows_delete _)) fun _ _ => grows_pure rfl

end

end Jules

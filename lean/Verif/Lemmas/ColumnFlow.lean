import Verif.Lemmas.ColumnGrow
/-
Lemmas for C83: where the objects of columns are after a statement.
-/
namespace Jules
open Spec

section
variable {C : Coercion} {S : Nat → Bool} {P P' : CState C} {V V' : VState C} {lost : List (Txt × Nat) → List (Txt × Nat) → List (Txt × Nat)}

/-- The objects of `P` are at the places `f` in `P'`, or nowhere; the other objects of `P'` are new. -/
structure Flow (P P' : CState C) (f : Place → Option Place) : Prop where
  ext : Ext P.heap.models.length P.heap P'.heap
  dest : ∀ w id w', pointerAt P w = some id → f w = some w' → pointerAt P' w' = some id
  src : ∀ w' id, pointerAt P' w' = some id → P.heap.models.length ≤ id ∨ ∃ w, pointerAt P w = some id ∧ f w = some w'

/-- What is to be shown about a statement. -/
def FlowStep (P : CState C) (V : VState C) (s : CStmt C) (r : SOut (CState C) Unit) : Prop :=
  SP r (fun _ P' => Flow P P' (movesTo V s)) (fun _ P' => ∃ f, (∀ w, mayMove V s w (f w)) ∧ Flow P P' f) fun _ => True

/-- Only the objects have changed. -/
theorem flow_heap {h' : CHeap C} (he : Ext P.heap.models.length P.heap h') : Flow P { P with heap := h' } some :=
  ⟨he, fun w id w' hp hf => by cases hf; exact hp, fun w id hp => .inr ⟨w, hp, rfl⟩⟩

section
variable {β : Type} {A : Unit → CState C → Prop} {B : Exn → CState C → Prop}

theorem spf_getCol {x : Nat} {k : Option Nat → SM (CState C) Unit} (h : ∀ p, P.cols x = some p → SP (k p P) A B fun _ => True) : SP ((getCol x >>= k) P) A B fun _ => True := by
  cases hx : P.cols x with
  | none => rw [sm_fail (getCol_no hx)]; trivial
  | some p => rw [sm_ok (getCol_eq hx)]; exact h p hx

theorem spf_getFrame {d : Nat} {k : PFrame → SM (CState C) Unit} (h : ∀ D, P.frames d = some D → SP (k D P) A B fun _ => True) : SP ((getFrame d >>= k) P) A B fun _ => True := by
  cases hx : P.frames d with
  | none => rw [sm_fail (getFrame_no hx)]; trivial
  | some p => rw [sm_ok (getFrame_eq hx)]; exact h p hx

theorem spf_newCol {x : Nat} {k : Unit → SM (CState C) Unit} (h : P.cols x = none → SP (k () P) A B fun _ => True) : SP ((newCol x >>= k) P) A B fun _ => True := by
  cases hx : P.cols x with
  | none => rw [sm_ok (newCol_eq hx)]; exact h hx
  | some p => rw [sm_fail (newCol_no hx)]; trivial

theorem spf_newFrame {x : Nat} {k : Unit → SM (CState C) Unit} (h : P.frames x = none → SP (k () P) A B fun _ => True) : SP ((newFrame x >>= k) P) A B fun _ => True := by
  cases hx : P.frames x with
  | none => rw [sm_ok (newFrame_eq hx)]; exact h hx
  | some p => rw [sm_fail (newFrame_no hx)]; trivial

theorem spf_differ {x y : Nat} {k : Unit → SM (CState C) Unit} (h : x ≠ y → SP (k () P) A B fun _ => True) : SP ((differ x y >>= k) P) A B fun _ => True := by
  by_cases hx : x = y
  · rw [sm_fail (differ_no hx)]; trivial
  · rw [sm_ok (differ_eq hx)]; exact h hx

theorem spf_onHeap {x : CM C β} {R : β → Prop} {k : β → SM (CState C) Unit} {n : Nat} (hx : Grows n id x R) (hn : n ≤ P.heap.models.length)
    (hk : ∀ b h', Ext n P.heap h' → R b → SP (k b { P with heap := h' }) A B fun _ => True) (hB : ∀ e h', Ext n P.heap h' → B e { P with heap := h' }) :
    SP ((onHeap x >>= k) P) A B fun _ => True :=
  sp_bind (R := fun b P' => ∃ h', P' = { P with heap := h' } ∧ Ext n P.heap h' ∧ R b)
    (sp_onHeap (sp_mono (hx P.heap hn) (fun b h' h => ⟨h', rfl, h.1, h.2⟩) (fun e h' h => hB e h' h) fun _ h => h)) (by rintro b _ ⟨h', rfl, h1, h2⟩; exact hk b h' h1 h2)

end

theorem flow_newCol {x : Nat} {p : Option Nat} {h' : CHeap C} (he : Ext P.heap.models.length P.heap h') (hx : P.cols x = none) (hp : NewPtr P.heap.models.length p) :
    Flow P ⟨h', fun y => if y = x then some p else P.cols y, P.frames⟩ some := by
  refine ⟨he, ?_, ?_⟩
  · rintro (y | ⟨d, i⟩) id w' hw hf
    · cases hf
      have hne : y ≠ x := by rintro rfl; simp [pointerAt, hx] at hw
      simpa [pointerAt, hne] using hw
    · cases hf; exact hw
  · rintro (y | ⟨d, i⟩) id hw
    · by_cases hy : y = x
      · refine .inl (hp id ?_)
        simpa [pointerAt, hy] using hw
      · exact .inr ⟨.col y, by simpa [pointerAt, hy] using hw, rfl⟩
    · exact .inr ⟨.elem d i, hw, rfl⟩

theorem flow_newFrame {x : Nat} {D : PFrame} {h' : CHeap C} (he : Ext P.heap.models.length P.heap h') (hx : P.frames x = none) (hp : NewElems P.heap.models.length D.elems) :
    Flow P ⟨h', P.cols, fun y => if y = x then some D else P.frames y⟩ some := by
  refine ⟨he, ?_, ?_⟩
  · rintro (y | ⟨d, i⟩) id w' hw hf
    · cases hf; exact hw
    · cases hf
      have hne : d ≠ x := by rintro rfl; simp [pointerAt, hx] at hw
      simpa [pointerAt, hne] using hw
  · rintro (y | ⟨d, i⟩) id hw
    · exact .inr ⟨.col y, hw, rfl⟩
    · by_cases hy : d = x
      · refine .inl ?_
        simp only [pointerAt, hy, if_pos, Option.bind_some] at hw
        cases hD : D.elems[i]? with
        | none => rw [hD] at hw; simp at hw
        | some e =>
          rw [hD] at hw
          exact hp e (List.mem_of_getElem? hD) id (by simpa using hw)
      · exact .inr ⟨.elem d i, by simpa [pointerAt, hy] using hw, rfl⟩

theorem movesTo_id {s : CStmt C} (h : ∀ w, movesTo V s w = some w) : movesTo V s = some := funext h

/-- A new column. -/
theorem flow_makeCol {x : Nat} {c : CM C (Option Nat)} {s : CStmt C} (hx : P.cols x = none) (hc : Grows P.heap.models.length id c (NewPtr P.heap.models.length))
    (hs : movesTo V s = some) (hs' : ∀ w, mayMove V s w (some w)) : FlowStep P V s ((do let p ← onHeap c; setCol x (some p) : SM (CState C) Unit) P) := by
  refine spf_onHeap hc le_rfl (fun p h' he hp => ?_) fun e h' he => ⟨some, hs', flow_heap he⟩
  rw [hs]; exact flow_newCol he hx hp

/-- A new data frame. -/
theorem flow_makeFrame {x : Nat} {c : CM C PFrame} {s : CStmt C} (hx : P.frames x = none) (hc : Grows P.heap.models.length id c fun D => NewElems P.heap.models.length D.elems)
    (hs : movesTo V s = some) (hs' : ∀ w, mayMove V s w (some w)) : FlowStep P V s ((do let p ← onHeap c; setFrame x (some p) : SM (CState C) Unit) P) := by
  refine spf_onHeap hc le_rfl (fun p h' he hp => ?_) fun e h' he => ⟨some, hs', flow_heap he⟩
  rw [hs]; exact flow_newFrame he hx hp

/-- A column gets a new pointer. -/
theorem flow_setCol {x : Nat} {p : Option Nat} {h' : CHeap C} {f : Place → Option Place} (he : Ext P.heap.models.length P.heap h') (hp : NewPtr P.heap.models.length p)
    (hf : ∀ w, f w = if w = .col x then none else some w) (q : Option (Option Nat)) (hq : q = some p ∨ q = none) : Flow P ⟨h', fun y => if y = x then q else P.cols y, P.frames⟩ f := by
  refine ⟨he, ?_, ?_⟩
  · intro w id w' hw hfw
    rw [hf] at hfw
    split at hfw
    · cases hfw
    · next hne =>
      cases hfw
      cases w with
      | col y =>
        have : y ≠ x := fun h => hne (by rw [h])
        simpa [pointerAt, this] using hw
      | elem d i => exact hw
  · rintro (y | ⟨d, i⟩) id hw
    · by_cases hy : y = x
      · refine .inl (hp id ?_)
        rcases hq with rfl | rfl
        · simpa [pointerAt, hy] using hw
        · simp [pointerAt, hy] at hw
      · exact .inr ⟨.col y, by simpa [pointerAt, hy] using hw, by rw [hf, if_neg (by simpa using hy)]⟩
    · exact .inr ⟨.elem d i, hw, by rw [hf, if_neg (by simp)]⟩

/-- A column is moved. -/
theorem flow_moveCol {x y : Nat} {q : Option Nat} {h' : CHeap C} {f : Place → Option Place} (he : Ext P.heap.models.length P.heap h') (hy : P.cols y = some q) (hxy : x ≠ y)
    (hf : ∀ w, f w = if w = .col y then some (.col x) else if w = .col x then none else some w) :
    Flow P ⟨h', fun z => if z = x then some q else if z = y then some none else P.cols z, P.frames⟩ f := by
  refine ⟨he, ?_, ?_⟩
  · intro w id w' hw hfw
    rw [hf] at hfw
    split at hfw
    · next he =>
      cases hfw; subst he
      simpa [pointerAt, hy] using hw
    · split at hfw
      · cases hfw
      · next h1 h2 =>
        cases hfw
        cases w with
        | col z =>
          have hz1 : z ≠ y := fun h => h1 (by rw [h])
          have hz2 : z ≠ x := fun h => h2 (by rw [h])
          simpa [pointerAt, hz1, hz2] using hw
        | elem d i => exact hw
  · rintro (z | ⟨d, i⟩) id hw
    · by_cases hz : z = x
      · exact .inr ⟨.col y, by simpa [pointerAt, hz, hy] using hw, by rw [hf, if_pos rfl, hz]⟩
      · by_cases hz' : z = y
        · simp [pointerAt, hz', Ne.symm hxy] at hw
        · exact .inr ⟨.col z, by simpa [pointerAt, hz, hz'] using hw, by rw [hf, if_neg (by simpa using hz'), if_neg (by simpa using hz)]⟩
    · exact .inr ⟨.elem d i, hw, by rw [hf, if_neg (by simp), if_neg (by simp)]⟩

/-- A data frame gets other columns. -/
theorem flow_setFrame {x : Nat} {D D' : PFrame} {h' : CHeap C} {f : Place → Option Place} (he : Ext P.heap.models.length P.heap h') (hx : P.frames x = some D)
    (hf : ∀ w, (∀ i, w ≠ .elem x i) → f w = some w)
    (hto : ∀ (i : Nat) e w' id, D.elems[i]? = some e → e.ptr = some id → f (.elem x i) = some w' → ∃ j e', w' = .elem x j ∧ D'.elems[j]? = some e' ∧ e'.ptr = some id)
    (hsrc : ∀ (j : Nat) e' id, D'.elems[j]? = some e' → e'.ptr = some id → P.heap.models.length ≤ id ∨ ∃ i e, D.elems[i]? = some e ∧ e.ptr = some id ∧ f (.elem x i) = some (.elem x j)) :
    Flow P ⟨h', P.cols, fun y => if y = x then some D' else P.frames y⟩ f := by
  refine ⟨he, ?_, ?_⟩
  · rintro (y | ⟨d, i⟩) id w' hw hfw
    · rw [hf _ (by simp)] at hfw; cases hfw; exact hw
    · by_cases hd : d = x
      · subst hd
        simp only [pointerAt, hx, Option.bind_some] at hw
        cases hD : D.elems[i]? with
        | none => rw [hD] at hw; simp at hw
        | some e =>
          rw [hD] at hw
          obtain ⟨j, e', rfl, h1, h2⟩ := hto i e w' id hD (by simpa using hw) hfw
          simp [pointerAt, h1, h2]
      · rw [hf _ (by simp [hd])] at hfw; cases hfw
        simpa [pointerAt, hd] using hw
  · rintro (y | ⟨d, i⟩) id hw
    · exact .inr ⟨.col y, hw, hf _ (by simp)⟩
    · by_cases hd : d = x
      · subst hd
        simp only [pointerAt, if_pos, Option.bind_some] at hw
        cases hD : D'.elems[i]? with
        | none => rw [hD] at hw; simp at hw
        | some e =>
          rw [hD] at hw
          rcases hsrc i e id hD (by simpa using hw) with h | ⟨j, e', h1, h2, h3⟩
          · exact .inl h
          · exact .inr ⟨.elem d j, by simp [pointerAt, hx, h1, h2], h3⟩
      · exact .inr ⟨.elem d i, by simpa [pointerAt, hd] using hw, hf _ (by simp [hd])⟩

theorem ptr_col {x id : Nat} : pointerAt P (.col x) = some id ↔ P.cols x = some (some id) := by
  show (P.cols x).join = some id ↔ _
  cases P.cols x with
  | none => simp
  | some p => simp

theorem ptr_elem {d i id : Nat} : pointerAt P (.elem d i) = some id ↔ ∃ D e, P.frames d = some D ∧ D.elems[i]? = some e ∧ e.ptr = some id := by
  show ((P.frames d).bind fun D => (D.elems[i]?).map PNamed.ptr).join = some id ↔ _
  cases P.frames d with
  | none => simp
  | some D =>
    cases hD : D.elems[i]? with
    | none => simp [hD]
    | some e => simp [hD]

theorem onHeap_noexn {β : Type} {x : CM C β} {k : β → SM (CState C) Unit} {A : Unit → CState C → Prop} {B : Exn → CState C → Prop} {R : β → Prop} {n : Nat} (hx : Grows n id x R)
    (hn : n ≤ P.heap.models.length) (hne : ∀ h e h', x h ≠ .exn e h') (hk : ∀ b h', Ext n P.heap h' → R b → SP (k b { P with heap := h' }) A B fun _ => True) :
    SP ((onHeap x >>= k) P) A B fun _ => True := by
  have h1 := hx P.heap hn
  change SP (SM.bind (onHeap x) k P) _ _ _
  unfold SM.bind onHeap
  cases hr : x P.heap with
  | ok b h' => rw [hr] at h1; exact hk b h' h1.1 h1.2
  | exn e h' => exact (hne _ _ _ hr).elim
  | fail f => trivial

theorem bind_noexn {σ β γ : Type} {x : SM σ β} {f : β → SM σ γ} (hx : ∀ h e h', x h ≠ .exn e h') (hf : ∀ b h e h', f b h ≠ .exn e h') : ∀ h e h', (x >>= f) h ≠ .exn e h' := by
  intro h e h'
  change SM.bind x f h ≠ _
  unfold SM.bind
  cases hr : x h with
  | ok b s => exact hf b s e h'
  | exn e s => exact (hx _ _ _ hr).elim
  | fail f => nofun

theorem try_noexn {σ β : Type} {x : SM σ β} : ∀ h e h', x.try h ≠ .exn e h' := by
  intro h e h'
  unfold SM.try
  cases x h <;> nofun

theorem delete_noexn {p : Option Nat} : ∀ (h : CHeap C) e h', deleteModel p h ≠ .exn e h' := by
  intro h e h'
  unfold deleteModel
  cases p with
  | none => nofun
  | some i =>
    dsimp only
    cases h.get i <;> nofun

theorem destroyAll_noexn : ∀ (es : List PNamed) (h : CHeap C) e h', destroyAll es h ≠ .exn e h'
  | [] => fun _ _ _ => nofun
  | _ :: es => bind_noexn delete_noexn fun _ => destroyAll_noexn es

theorem bindLoop_noexn : ∀ (es : List PNamed) (T : PFrame) (h : CHeap C) e h', bindLoopP S T es h ≠ .exn e h'
  | [], _ => fun _ _ _ => nofun
  | e :: es, T => by
    unfold bindLoopP
    refine bind_noexn try_noexn fun r => ?_
    cases r with
    | error x => exact fun _ _ _ => nofun
    | ok u =>
      refine bind_noexn try_noexn fun r => ?_
      cases r with
      | error x => exact fun _ _ _ => nofun
      | ok u => exact bindLoop_noexn es _

theorem bindP_noexn (T D : PFrame) : ∀ (h : CHeap C) e h', bindP S T D h ≠ .exn e h' := by
  unfold bindP
  refine bind_noexn try_noexn fun r => ?_
  cases r with
  | error x => exact fun _ _ _ => nofun
  | ok u =>
    dsimp only
    split
    · split
      · split
        · exact bindLoop_noexn _ _
        · exact fun _ _ _ => nofun
      · exact bindLoop_noexn _ _
    · exact fun _ _ _ => nofun

theorem width_eq (h : Represents P V) {d : Nat} {D : PFrame} (hd : P.frames d = some D) : width V d = D.elems.length := by
  obtain ⟨E, h1, _, h3⟩ := rep_frame h hd
  have hl : D.elems.length = E.elems.length := by simpa using congrArg List.length h3.2.2.1
  unfold width
  rw [h1]; exact hl.symm

theorem spf_orThrow {x : Option Exn} {A : Unit → CState C → Prop} {B : Exn → CState C → Prop} (hA : x = none → A () P) (hB : ∀ e, x = some e → B e P) :
    SP (orThrow x P) A B fun _ => True := by
  cases x with
  | none => exact hA rfl
  | some e => exact hB e rfl

theorem append_left {es es' : List PNamed} {i : Nat} {e : PNamed} (h : es[i]? = some e) : (es ++ es')[i]? = some e := by
  rw [List.getElem?_append_left (List.getElem?_eq_some_iff.1 h).1]; exact h

/-- A data frame gets new columns in addition. -/
theorem flow_addNew {x : Nat} {D D' : PFrame} {h' : CHeap C} {es : List PNamed} (he : Ext P.heap.models.length P.heap h') (hx : P.frames x = some D) (hD : D'.elems = D.elems ++ es)
    (hn : NewElems P.heap.models.length es) : Flow P ⟨h', P.cols, fun y => if y = x then some D' else P.frames y⟩ some := by
  refine flow_setFrame he hx (fun _ _ => rfl) ?_ ?_
  · intro i e w' id h1 h2 h3
    cases h3
    exact ⟨i, e, rfl, by rw [hD]; exact append_left h1, h2⟩
  · intro j e' id h1 h2
    rw [hD] at h1
    by_cases hj : j < D.elems.length
    · rw [List.getElem?_append_left hj] at h1
      exact .inr ⟨j, e', h1, h2, rfl⟩
    · rw [List.getElem?_append_right (by omega)] at h1
      exact .inl (hn e' (List.mem_of_getElem? h1) id h2)

theorem newElems_take {n k : Nat} {es : List PNamed} (h : NewElems n es) : NewElems n (es.take k) := fun e he => h e (List.mem_of_mem_take he)

/-- A data frame gets the first `k` columns of another one, which becomes empty. -/
theorem flow_bindMove {d s k : Nat} {T D D' : PFrame} {h' : CHeap C} {f : Place → Option Place} (he : Ext P.heap.models.length P.heap h') (hd : P.frames d = some T)
    (hs : P.frames s = some D) (hds : d ≠ s) (hD : D'.elems = T.elems ++ D.elems.take k) (h1 : ∀ w, (∀ i, w ≠ .elem s i) → f w = some w)
    (h2 : ∀ i, i < k → i < D.elems.length → f (.elem s i) = some (.elem d (T.elems.length + i))) (h3 : ∀ i, k ≤ i → i < D.elems.length → f (.elem s i) = none) :
    Flow P ⟨h', P.cols, fun y => if y = d then some D' else if y = s then some (.empty D.rows) else P.frames y⟩ f := by
  refine ⟨he, ?_, ?_⟩
  · rintro (y | ⟨a, i⟩) id w' hw hfw
    · rw [h1 _ (by simp)] at hfw; cases hfw; exact hw
    · by_cases ha : a = s
      · subst ha
        obtain ⟨D0, e, g1, g2, g3⟩ := ptr_elem.1 hw
        rw [hs] at g1; cases g1
        have hi := (List.getElem?_eq_some_iff.1 g2).1
        by_cases hk : i < k
        · rw [h2 i hk hi] at hfw; cases hfw
          refine ptr_elem.2 ⟨D', e, by simp, ?_, g3⟩
          rw [hD, List.getElem?_append_right (by omega), Nat.add_sub_cancel_left, List.getElem?_take, if_pos hk]
          exact g2
        · rw [h3 i (by omega) hi] at hfw; cases hfw
      · rw [h1 _ (by simp [ha])] at hfw; cases hfw
        obtain ⟨D0, e, g1, g2, g3⟩ := ptr_elem.1 hw
        by_cases had : a = d
        · subst had
          rw [hd] at g1; cases g1
          exact ptr_elem.2 ⟨D', e, by simp, by rw [hD]; exact append_left g2, g3⟩
        · exact ptr_elem.2 ⟨D0, e, by simp [had, ha, g1], g2, g3⟩
  · rintro (y | ⟨a, i⟩) id hw
    · exact .inr ⟨.col y, hw, h1 _ (by simp)⟩
    · obtain ⟨D0, e, g1, g2, g3⟩ := ptr_elem.1 hw
      dsimp only at g1
      split at g1
      · next had =>
        cases g1; subst had
        rw [hD] at g2
        by_cases hi : i < T.elems.length
        · rw [List.getElem?_append_left hi] at g2
          exact .inr ⟨.elem a i, ptr_elem.2 ⟨T, e, hd, g2, g3⟩, h1 _ (by simp [hds])⟩
        · rw [List.getElem?_append_right (by omega), List.getElem?_take] at g2
          split at g2
          · next hlt =>
            refine .inr ⟨.elem s (i - T.elems.length), ptr_elem.2 ⟨D, e, hs, g2, g3⟩, ?_⟩
            rw [h2 _ hlt (List.getElem?_eq_some_iff.1 g2).1]
            congr 2; omega
          · cases g2
      · split at g1
        · cases g1; simp [PFrame.empty] at g2
        · next had has => exact .inr ⟨.elem a i, ptr_elem.2 ⟨D0, e, g1, g2, g3⟩, h1 _ (by simp [has])⟩

theorem destroyAll_grows {n : Nat} {es : List PNamed} : Grows n id (destroyAll es : CM C Unit) fun _ => True := grows_destroyAll es

/-- Every statement. -/
theorem flow_step (h : Represents P V) (s : CStmt C) : FlowStep P V s (cstep S lost s P) := by
  cases s with
  | col x T l => exact spf_newCol fun hx => flow_makeCol hx (grows_build _) rfl fun _ => rfl
  | colEmpty x => exact spf_newCol fun hx => flow_newCol (p := none) (ext_refl le_rfl) hx newPtr_none
  | colCopy x y => exact spf_newCol fun hx => spf_getCol fun p hp => flow_makeCol hx (grows_copyP _) rfl fun _ => rfl
  | colPart x y a b => exact spf_newCol fun hx => spf_getCol fun p hp => flow_makeCol hx (grows_partP _ _ _) rfl fun _ => rfl
  | toCol x y T => exact spf_newCol fun hx => spf_getCol fun p hp => flow_makeCol hx (grows_toColumnP _ _) rfl fun _ => rfl
  | colAt x d i =>
    refine spf_newCol fun hx => spf_getFrame fun D hD => ?_
    cases D.elems[i]? with
    | none => exact ⟨some, fun _ => rfl, flow_heap (ext_refl le_rfl)⟩
    | some e => exact flow_makeCol hx (grows_copyP _) rfl fun _ => rfl
  | colMove x y =>
    refine spf_newCol fun hx => spf_getCol fun q hy => ?_
    have hxy : x ≠ y := by rintro rfl; rw [hx] at hy; cases hy
    have := flow_moveCol (P := P) (x := x) (f := fun w => if w = .col y then some (.col x) else if w = .col x then none else some w) (ext_refl le_rfl) hy hxy fun _ => rfl
    refine ⟨this.ext, ?_, ?_⟩
    · intro w id w' hw hf
      refine this.dest w id w' hw ?_
      simp only [movesTo] at hf
      split at hf
      · next he => rw [if_pos he]; exact hf
      · next he =>
        rw [if_neg he, if_neg ?_]
        · exact hf
        · rintro rfl; rw [ptr_col, hx] at hw; cases hw
    · intro w' id hw
      rcases this.src w' id hw with h | ⟨w, h1, h2⟩
      · exact .inl h
      · refine .inr ⟨w, h1, ?_⟩
        simp only [movesTo]
        split at h2
        · next he => rw [if_pos he]; exact h2
        · next he =>
          rw [if_neg he]
          split at h2
          · cases h2
          · exact h2
  | colSet x y =>
    exact spf_getCol fun t ht => spf_getCol fun q hq => spf_onHeap (grows_assignP t q) le_rfl (fun p h' he hp => flow_setCol he hp (fun _ => rfl) _ (.inl rfl))
      fun e h' he => ⟨some, fun _ => rfl, flow_heap he⟩
  | colMoveSet x y =>
    refine spf_differ fun hxy => spf_getCol fun t ht => spf_getCol fun q hq => ?_
    rw [sm_ok setCol_eq]
    exact onHeap_noexn (grows_delete t) le_rfl delete_noexn fun _ h' he _ => flow_moveCol he hq hxy fun _ => rfl
  | coerce x T =>
    exact spf_getCol fun t ht => spf_onHeap (grows_coerceP t T) le_rfl (fun p h' he hp => flow_setCol he hp (fun _ => rfl) _ (.inl rfl))
      fun e h' he => ⟨some, fun _ => rfl, flow_heap he⟩
  | toColMove x y T =>
    refine spf_newCol fun hx => spf_getCol fun q hy => ?_
    have hxy : x ≠ y := by rintro rfl; rw [hx] at hy; cases hy
    cases q with
    | none => exact ⟨some, fun _ => rfl, flow_heap (ext_refl le_rfl)⟩
    | some id =>
      obtain ⟨c, hc, -, hd⟩ := rep_col h hy
      obtain ⟨m, rfl, hm⟩ := denotes_some hd rfl
      have htype : onHeap (toColumnRvP S (some id) T) P = onHeap (if m.ty ≠ T then coerceP S (some id) T else SM.pure (some id)) P := by
        unfold onHeap toColumnRvP
        rw [sm_ok (b := m.ty) (s' := P.heap) (by show (fetch id >>= fun m => SM.pure m.ty) P.heap = _; rw [sm_ok (b := m) (s' := P.heap) (by unfold fetch; rw [hm])]; rfl)]
      by_cases hT : m.ty = T
      · rw [if_neg (by simpa using hT)] at htype
        rw [sm_ok (b := some id) (s' := P) (by rw [htype]; rfl)]
        have := flow_moveCol (P := P) (x := x) (f := fun w => if w = .col y then some (.col x) else if w = .col x then none else some w) (ext_refl le_rfl) hy hxy fun _ => rfl
        have ht : hasType V y T := by
          obtain ⟨ty, vals⟩ := m
          cases hT
          exact ⟨vals, hc⟩
        refine ⟨this.ext, ?_, ?_⟩
        · intro w id w' hw hf
          refine this.dest w id w' hw ?_
          simp only [movesTo] at hf
          split at hf
          · next he => rw [if_pos he]; first | exact hf | (rw [if_pos ht] at hf; exact hf)
          · next he =>
            rw [if_neg he, if_neg ?_]
            · exact hf
            · rintro rfl; rw [ptr_col, hx] at hw; cases hw
        · intro w' id hw
          rcases this.src w' id hw with h | ⟨w, h1, h2⟩
          · exact .inl h
          · refine .inr ⟨w, h1, ?_⟩
            simp only [movesTo]
            split at h2
            · next he => rw [if_pos he, if_pos ht]; exact h2
            · next he =>
              rw [if_neg he]
              split at h2
              · cases h2
              · exact h2
      · rw [if_pos hT] at htype
        have ht : ¬ hasType V y T := by
          rintro ⟨l, hl⟩
          rw [hc] at hl; cases hl; exact hT rfl
        have hb : (onHeap (toColumnRvP S (some id) T) >>= fun p => (do setCol y (some none); setCol x (some p) : SM (CState C) Unit)) P =
            (onHeap (coerceP S (some id) T) >>= fun p => (do setCol y (some none); setCol x (some p) : SM (CState C) Unit)) P := by
          change SM.bind _ _ P = SM.bind _ _ P
          unfold SM.bind
          rw [htype]
        change FlowStep P V (.toColMove x y T) ((onHeap (toColumnRvP S (some id) T) >>= fun p => (do setCol y (some none); setCol x (some p) : SM (CState C) Unit)) P)
        rw [hb]
        refine spf_onHeap (grows_coerceP _ T) le_rfl (fun p h' he hp => ?_) fun e h' he => ⟨some, fun _ => rfl, flow_heap he⟩
        refine ⟨he, ?_, ?_⟩
        · intro w id w' hw hf
          simp only [movesTo] at hf
          split at hf
          · first | cases hf | (rw [if_neg ht] at hf; cases hf)
          · next hne =>
            cases hf
            cases w with
            | elem d i => exact hw
            | col z =>
              have h1 : z ≠ y := fun e => hne (by rw [e])
              have h2 : z ≠ x := by rintro rfl; rw [ptr_col, hx] at hw; cases hw
              rw [ptr_col] at hw ⊢
              simp [h1, h2, hw]
        · rintro (z | ⟨d, i⟩) id hw
          · rw [ptr_col] at hw
            dsimp only at hw
            split at hw
            · cases hw; exact .inl (hp id rfl)
            · split at hw
              · cases hw
              · next h1 h2 => exact .inr ⟨.col z, ptr_col.2 hw, by simp [movesTo, h2]⟩
          · exact .inr ⟨.elem d i, hw, by simp [movesTo]⟩
  | colDrop x =>
    exact spf_getCol fun t ht => spf_onHeap (grows_delete t) le_rfl (fun p h' he _ => flow_setCol he (p := none) newPtr_none (fun _ => rfl) _ (.inr rfl))
      fun e h' he => ⟨some, fun _ => rfl, flow_heap he⟩
  | frame d => exact spf_newFrame fun hx => flow_newFrame (ext_refl le_rfl) hx newElems_nil
  | frameOf d l =>
    refine spf_newFrame fun hx => ?_
    rcases getCols_sim h l with ⟨h4, h5⟩ | ⟨es, vs, h4, h5, h6⟩
    · rw [sm_fail h4]; trivial
    · rw [sm_ok h4]
      exact flow_makeFrame hx (grows_frameOfList _) (funext fun w => by cases w <;> rfl) fun w => by cases w <;> rfl
  | frameCopy d s =>
    exact spf_newFrame fun hx => spf_getFrame fun D hD => flow_makeFrame hx (grows_frameCopy _) (funext fun w => by cases w <;> rfl) fun w => by cases w <;> rfl
  | head d s n =>
    exact spf_newFrame fun hx => spf_getFrame fun D hD => flow_makeFrame hx (grows_headP _ _) (funext fun w => by cases w <;> rfl) fun w => by cases w <;> rfl
  | table d T =>
    refine spf_getFrame fun D hD => spf_onHeap (grows_gather T D) le_rfl (fun p h' he _ => ?_) fun e h' he => ⟨some, fun w => by cases w <;> rfl, flow_heap he⟩
    have : movesTo V (.table d T) = some := funext fun w => by cases w <;> rfl
    change Flow P _ (movesTo V (.table d T))
    rw [this]; exact flow_heap he
  | frameMove d s =>
    refine spf_newFrame fun hx => spf_getFrame fun D hD => ?_
    have hds : d ≠ s := by rintro rfl; rw [hx] at hD; cases hD
    refine ⟨ext_refl le_rfl, ?_, ?_⟩
    · rintro (y | ⟨a, i⟩) id w' hw hf
      · cases hf; exact hw
      · obtain ⟨D0, e, g1, g2, g3⟩ := ptr_elem.1 hw
        simp only [movesTo] at hf
        split at hf
        · next ha =>
          cases hf; subst ha
          rw [hD] at g1; cases g1
          exact ptr_elem.2 ⟨_, e, by simp, g2, g3⟩
        · next ha =>
          cases hf
          have : a ≠ d := by rintro rfl; rw [hx] at g1; cases g1
          exact ptr_elem.2 ⟨_, e, by simp [this, ha, g1], g2, g3⟩
    · rintro (y | ⟨a, i⟩) id hw
      · exact .inr ⟨.col y, hw, rfl⟩
      · obtain ⟨D0, e, g1, g2, g3⟩ := ptr_elem.1 hw
        dsimp only at g1
        split at g1
        · next ha => cases g1; subst ha; exact .inr ⟨.elem s i, ptr_elem.2 ⟨_, e, hD, g2, g3⟩, by simp [movesTo]⟩
        · split at g1
          · cases g1; simp [PFrame.empty] at g2
          · next h1 h2 => exact .inr ⟨.elem a i, ptr_elem.2 ⟨_, e, g1, g2, g3⟩, by simp [movesTo, h2]⟩
  | frameSet d s =>
    refine spf_getFrame fun T hT => spf_getFrame fun D hD => ?_
    by_cases hds : d = s
    · rw [if_pos hds]
      have : movesTo V (.frameSet d s) = some := funext fun w => by
        cases w with
        | col x => rfl
        | elem a i => simp [movesTo, hds]
      change Flow P _ (movesTo V (.frameSet d s))
      rw [this]; exact flow_heap (ext_refl le_rfl)
    · rw [if_neg hds]
      refine spf_onHeap (grows_frameAssign lost T D) le_rfl (fun r h' he hr => ?_) fun e h' he => ⟨some, fun w => by cases w <;> first | rfl | exact .inl rfl, flow_heap he⟩
      obtain ⟨x, D'⟩ := r
      obtain ⟨hr1, hr2⟩ := hr
      rw [sm_ok setFrame_eq]
      refine spf_orThrow (fun hx => ?_) fun e hx => ?_
      · have hn := hr2 hx
        refine flow_setFrame he hT ?_ ?_ ?_
        · rintro (y | ⟨a, i⟩) hw
          · rfl
          · simp only [movesTo]
            rw [if_neg fun h => hw i (by rw [h.1])]
        · intro i e w' id h1 h2 h3
          simp only [movesTo] at h3
          rw [if_pos ⟨trivial, hds⟩] at h3; cases h3
        · intro j e' id h1 h2
          exact .inl (hn e' (List.mem_of_getElem? h1) id h2)
      · classical
        refine ⟨fun w => if (∃ i, w = .elem d i) ∧ pointerAt ⟨h', P.cols, fun y => if y = d then some D' else P.frames y⟩ w ≠ pointerAt P w then none else some w, ?_, ?_⟩
        · rintro (y | ⟨a, i⟩)
          · simp [mayMove]
          · simp only [mayMove]
            split
            · next hc =>
              obtain ⟨⟨j, hj⟩, _⟩ := hc
              cases hj
              exact .inr ⟨rfl, rfl⟩
            · exact .inl rfl
        · refine flow_setFrame he hT ?_ ?_ ?_
          · intro w hw
            rw [if_neg fun hc => ?_]
            obtain ⟨⟨j, rfl⟩, _⟩ := hc
            exact hw j rfl
          · intro i e w' id h1 h2 h3
            split at h3
            · cases h3
            · next hc =>
              cases h3
              have hp : pointerAt P (.elem d i) = some id := ptr_elem.2 ⟨T, e, hT, h1, h2⟩
              have : pointerAt ⟨h', P.cols, fun y => if y = d then some D' else P.frames y⟩ (.elem d i) = some id := by
                by_contra hne
                exact hc ⟨⟨i, rfl⟩, by rw [hp]; exact hne⟩
              obtain ⟨D0, e', g1, g2, g3⟩ := ptr_elem.1 this
              simp at g1; subst g1
              exact ⟨i, e', rfl, g2, g3⟩
          · intro j e' id h1 h2
            rcases hr1 j e' h1 with hn | ⟨t, ht, htp⟩
            · exact .inl (hn id h2)
            · refine .inr ⟨j, t, ht, htp.trans h2, ?_⟩
              rw [if_neg]
              rintro ⟨_, hne⟩
              apply hne
              rw [ptr_elem.2 ⟨T, t, hT, ht, htp.trans h2⟩]
              exact ptr_elem.2 ⟨D', e', by simp, h1, h2⟩
  | frameMoveSet d s =>
    refine spf_differ fun hds => spf_getFrame fun T hT => spf_getFrame fun D hD => ?_
    rw [sm_ok setFrame_eq]
    refine onHeap_noexn (grows_destroyAll T.elems) le_rfl (destroyAll_noexn _) fun _ h' he _ => ?_
    refine ⟨he, ?_, ?_⟩
    · rintro (y | ⟨a, i⟩) id w' hw hf
      · cases hf; exact hw
      · obtain ⟨D0, e, g1, g2, g3⟩ := ptr_elem.1 hw
        simp only [movesTo] at hf
        split at hf
        · next ha =>
          cases hf; subst ha
          rw [hD] at g1; cases g1
          exact ptr_elem.2 ⟨_, e, by simp, g2, g3⟩
        · next ha =>
          split at hf
          · cases hf
          · next ha' =>
            cases hf
            exact ptr_elem.2 ⟨_, e, by simp [ha', ha, g1], g2, g3⟩
    · rintro (y | ⟨a, i⟩) id hw
      · exact .inr ⟨.col y, hw, rfl⟩
      · obtain ⟨D0, e, g1, g2, g3⟩ := ptr_elem.1 hw
        dsimp only at g1
        split at g1
        · next ha => cases g1; subst ha; exact .inr ⟨.elem s i, ptr_elem.2 ⟨_, e, hD, g2, g3⟩, by simp [movesTo]⟩
        · split at g1
          · cases g1; simp [PFrame.empty] at g2
          · next h1 h2 => exact .inr ⟨.elem a i, ptr_elem.2 ⟨_, e, g1, g2, g3⟩, by simp [movesTo, h2, h1]⟩
  | bind d s =>
    refine spf_getFrame fun T hT => spf_getFrame fun D hD => ?_
    have hid : movesTo V (.bind d s) = some := funext fun w => by cases w <;> rfl
    have hex : ∀ h', Ext P.heap.models.length P.heap h' → ∃ f, (∀ w, mayMove V (.bind d s) w (f w)) ∧ Flow P { P with heap := h' } f :=
      fun h' he => ⟨some, fun w => by cases w <;> rfl, flow_heap he⟩
    refine spf_onHeap (grows_frameCopy D) le_rfl (fun o h1 e1 ho => ?_) fun e h' he => hex h' he
    refine spf_onHeap (grows_bindP T o) e1.len (fun r h2 e2 hr => ?_) fun e h' he => hex h' (ext_trans e1 he)
    refine spf_onHeap (grows_destroyAll r.2.2) e2.len (fun _ h3 e3 _ => ?_) fun e h' he => hex h' (ext_trans (ext_trans e1 e2) he)
    rw [sm_ok setFrame_eq]
    obtain ⟨k, k1, -⟩ := hr
    have hfl := flow_addNew (P := P) (h' := h3) (ext_trans (ext_trans e1 e2) e3) hT k1 (newElems_take ho)
    refine spf_orThrow (fun _ => ?_) fun e _ => ⟨some, fun w => by cases w <;> rfl, hfl⟩
    rw [hid]; exact hfl
  | bindMove d s =>
    refine spf_differ fun hds => spf_getFrame fun T hT => spf_getFrame fun D hD => ?_
    rw [sm_ok setFrame_eq]
    refine onHeap_noexn (n := P.heap.models.length) (grows_bindP T D) le_rfl (bindP_noexn _ _) fun r h1 e1 hr => ?_
    refine onHeap_noexn (n := P.heap.models.length) (grows_destroyAll r.2.2) e1.len (destroyAll_noexn _) fun _ h2 e2 _ => ?_
    rw [sm_ok setFrame_eq]
    have e3 : Ext P.heap.models.length P.heap h2 := ext_trans e1 e2
    obtain ⟨x, T', rest⟩ := r
    obtain ⟨k, k1, k2, k3, k4⟩ := hr
    have hw := width_eq h hT
    have hst : ∀ f : Place → Option Place, (∀ w, (∀ i, w ≠ .elem s i) → f w = some w) → (∀ i, i < k → i < D.elems.length → f (.elem s i) = some (.elem d (T.elems.length + i))) →
        (∀ i, k ≤ i → i < D.elems.length → f (.elem s i) = none) →
        Flow P ⟨h2, P.cols, fun y => if y = d then some T' else if y = s then some (.empty D.rows) else P.frames y⟩ f := fun f f1 f2 f3 =>
      flow_bindMove e3 hT hD hds k1 f1 f2 f3
    refine spf_orThrow (fun hx => ?_) fun e hx => ?_
    · refine hst _ ?_ ?_ ?_
      · rintro (y | ⟨a, i⟩) hne
        · rfl
        · simp only [movesTo]; rw [if_neg fun ha => hne i (by rw [ha])]
      · intro i _ _; simp only [movesTo]; rw [if_pos trivial, hw]
      · intro i h1 h2
        have : D.elems.length ≤ k := k3 hx
        omega
    · refine ⟨fun w => match w with
        | .elem a i => if a = s then (if i < k then some (.elem d (T.elems.length + i)) else none) else some (.elem a i)
        | .col x => some (.col x), ?_, hst _ ?_ ?_ ?_⟩
      · rintro (y | ⟨a, i⟩)
        · rfl
        · simp only [mayMove]
          by_cases ha : a = s
          · rw [if_pos ha, if_pos ha]
            split
            · exact .inr (by rw [hw])
            · exact .inl rfl
          · rw [if_neg ha, if_neg ha]
      · rintro (y | ⟨a, i⟩) hne
        · rfl
        · dsimp only; rw [if_neg fun ha => hne i (by rw [ha])]
      · intro i hi _; simp [hi]
      · intro i hi _; simp [hi]
  | bindCol d name x =>
    refine spf_getFrame fun T hT => spf_getCol fun p hp => ?_
    refine spf_onHeap grows_event le_rfl (fun _ h1 e1 _ => ?_) fun e h' he => ⟨some, fun w => .inl rfl, flow_heap he⟩
    rw [sm_ok setCol_eq]
    have hgone : ∀ h', Ext P.heap.models.length P.heap h' →
        ∃ f, (∀ w, mayMove V (.bindCol d name x) w (f w)) ∧ Flow P ⟨h', fun y => if y = x then some none else P.cols y, P.frames⟩ f := fun h' he =>
      ⟨fun w => if w = .col x then none else some w, fun w => by
        by_cases hw : w = .col x
        · exact .inr ⟨hw, if_pos hw⟩
        · exact .inl (if_neg hw), flow_setCol he (p := none) newPtr_none (fun _ => rfl) _ (.inl rfl)⟩
    refine spf_onHeap (n := P.heap.models.length) (grows_frameOfNamed _) e1.len (fun o h2 e2 ho => ?_) fun e h' he => hgone h' (ext_trans e1 he)
    refine spf_onHeap (n := P.heap.models.length) (grows_bindP T o) e2.len (fun r h3 e3 hr => ?_) fun e h' he => hgone h' (ext_trans (ext_trans e1 e2) he)
    refine spf_onHeap (n := P.heap.models.length) (grows_destroyAll r.2.2) e3.len (fun _ h4 e4 _ => ?_) fun e h' he => hgone h' (ext_trans (ext_trans (ext_trans e1 e2) e3) he)
    rw [sm_ok setFrame_eq]
    have e5 : Ext P.heap.models.length P.heap h4 := ext_trans (ext_trans (ext_trans e1 e2) e3) e4
    obtain ⟨y, T', rest⟩ := r
    obtain ⟨k, k1, -, k3, k4⟩ := hr
    dsimp only at k1 k3 k4
    rw [ho] at k1 k3 k4
    have hw := width_eq h hT
    refine spf_orThrow (fun hx => ?_) fun e hx => ?_
    · have hk : 1 ≤ k := k3 hx
      have k1 : T'.elems = T.elems ++ [⟨name, p⟩] := by
        rw [k1, List.take_of_length_le (by simpa using hk)]
      refine ⟨e5, ?_, ?_⟩
      · rintro (z | ⟨a, i⟩) id w' hw' hf
        · simp only [movesTo] at hf
          split at hf
          · next he =>
            cases hf
            cases he
            rw [ptr_col, hp] at hw'
            cases hw'
            refine ptr_elem.2 ⟨T', ⟨name, some id⟩, by simp, ?_, rfl⟩
            rw [k1, hw, List.getElem?_append_right le_rfl]; simp
          · next hne =>
            cases hf
            have : z ≠ x := fun e => hne (by rw [e])
            rw [ptr_col] at hw' ⊢
            simp [this, hw']
        · simp only [movesTo] at hf
          rw [if_neg (by simp)] at hf
          cases hf
          obtain ⟨D0, e, g1, g2, g3⟩ := ptr_elem.1 hw'
          by_cases had : a = d
          · subst had
            rw [hT] at g1; cases g1
            exact ptr_elem.2 ⟨T', e, by simp, by rw [k1]; exact append_left g2, g3⟩
          · exact ptr_elem.2 ⟨D0, e, by simp [had, g1], g2, g3⟩
      · rintro (z | ⟨a, i⟩) id hw'
        · rw [ptr_col] at hw'
          dsimp only at hw'
          split at hw'
          · cases hw'
          · next hne => exact .inr ⟨.col z, ptr_col.2 hw', by simp [movesTo, hne]⟩
        · obtain ⟨D0, e, g1, g2, g3⟩ := ptr_elem.1 hw'
          dsimp only at g1
          split at g1
          · next had =>
            cases g1; subst had
            rw [k1] at g2
            by_cases hi : i < T.elems.length
            · rw [List.getElem?_append_left hi] at g2
              exact .inr ⟨.elem a i, ptr_elem.2 ⟨T, e, hT, g2, g3⟩, by simp [movesTo]⟩
            · rw [List.getElem?_append_right (by omega)] at g2
              have hi' : i - T.elems.length = 0 := by
                by_contra hne
                rw [List.getElem?_eq_none (by simp only [List.length_cons, List.length_nil]; omega)] at g2; cases g2
              rw [hi'] at g2
              cases g2
              have g3 : p = some id := g3
              subst g3
              refine .inr ⟨.col x, ptr_col.2 hp, ?_⟩
              simp only [movesTo]
              rw [if_pos trivial, hw]
              congr 2; omega
          · exact .inr ⟨.elem a i, ptr_elem.2 ⟨D0, e, g1, g2, g3⟩, by simp [movesTo]⟩
    · have hk : k = 0 := by
        rcases k4 (by have hx : y = some e := hx; rw [hx]; nofun) with h | h
        · exact h
        · have h : k < 1 := h
          omega
      subst hk
      have k1 : T'.elems = T.elems ++ [] := k1
      obtain ⟨f, f1, f2⟩ := hgone h4 e5
      refine ⟨f, f1, ?_⟩
      rw [List.append_nil] at k1
      have hptr : ∀ w, pointerAt (C := C) ⟨h4, fun y => if y = x then some none else P.cols y, fun y => if y = d then some T' else P.frames y⟩ w =
          pointerAt (C := C) ⟨h4, fun y => if y = x then some none else P.cols y, P.frames⟩ w := by
        rintro (z | ⟨a, i⟩)
        · rfl
        · unfold pointerAt
          dsimp only
          by_cases had : a = d
          · rw [if_pos had, had, hT]
            simp [k1]
          · rw [if_neg had]
      exact ⟨f2.ext, fun w id w' a b => by rw [hptr]; exact f2.dest w id w' a b, fun w' id a => f2.src w' id (by rw [← hptr]; exact a)⟩
  | frameDrop d =>
    refine spf_getFrame fun D hD => spf_onHeap (grows_destroyAll _) le_rfl (fun _ h' he _ => ?_) fun e h' he => ⟨some, fun w => by cases w <;> rfl, flow_heap he⟩
    refine ⟨he, ?_, ?_⟩
    · rintro (y | ⟨a, i⟩) id w' hw hf
      · cases hf; exact hw
      · simp only [movesTo] at hf
        split at hf
        · cases hf
        · next ha =>
          cases hf
          obtain ⟨D0, e, g1, g2, g3⟩ := ptr_elem.1 hw
          exact ptr_elem.2 ⟨D0, e, by simp [ha, g1], g2, g3⟩
    · rintro (y | ⟨a, i⟩) id hw
      · exact .inr ⟨.col y, hw, rfl⟩
      · obtain ⟨D0, e, g1, g2, g3⟩ := ptr_elem.1 hw
        dsimp only at g1
        split at g1
        · cases g1
        · next ha => exact .inr ⟨.elem a i, ptr_elem.2 ⟨D0, e, g1, g2, g3⟩, by simp [movesTo, ha]⟩

/-! ### Places and values -/

theorem nodup_filterMap_inj {α β : Type} {f : α → Option β} : ∀ {l : List α} {i j : Nat} {a b : α} {x : β}, (l.filterMap f).Nodup → l[i]? = some a → l[j]? = some b → f a = some x →
    f b = some x → i = j
  | [], i, j, a, b, x, _, hi, _, _, _ => by simp at hi
  | c :: l, i, j, a, b, x, hn, hi, hj, ha, hb => by
    have hn' : (l.filterMap f).Nodup := by
      rw [List.filterMap_cons] at hn
      split at hn
      · exact hn
      · exact (List.nodup_cons.1 hn).2
    have hmem : ∀ {k : Nat} {d : α}, l[k]? = some d → f d = some x → x ∈ l.filterMap f := fun hk hd => List.mem_filterMap.2 ⟨_, List.mem_of_getElem? hk, hd⟩
    have hno : f c = some x → x ∉ l.filterMap f := by
      intro hc
      rw [List.filterMap_cons, hc] at hn
      exact (List.nodup_cons.1 hn).1
    cases i with
    | zero =>
      cases j with
      | zero => rfl
      | succ j =>
        cases hi
        exact (hno ha (hmem hj hb)).elim
    | succ i =>
      cases j with
      | zero =>
        cases hj
        exact (hno hb (hmem hi ha)).elim
      | succ j => rw [nodup_filterMap_inj hn' hi hj ha hb]

/-- The variable a place belongs to. -/
def ownerOf : Place → Owner
  | .col x => .col x
  | .elem d _ => .frame d

theorem hold_col {x : Nat} {p : Option Nat} {c : Column C} (hp : P.cols x = some p) (hc : V.cols x = some c) : holdings P V (.col x) = [(p, c)] := by
  unfold holdings; dsimp only; rw [hp, hc]

theorem hold_elem (h : Represents P V) {d i : Nat} {D : PFrame} {e : PNamed} (hD : P.frames d = some D) (he : D.elems[i]? = some e) :
    ∃ E v, V.frames d = some E ∧ E.elems[i]? = some v ∧ holdings P V (.frame d) = held D.elems E.elems ∧ (held D.elems E.elems)[i]? = some (e.ptr, v.col) := by
  obtain ⟨E, h1, h2, h3⟩ := rep_frame h hD
  have hl : D.elems.length = E.elems.length := by simpa using congrArg List.length h3.2.2.1
  have hi := (List.getElem?_eq_some_iff.1 he).1
  have hv : E.elems[i]? = some (E.elems[i]'(by omega)) := List.getElem?_eq_getElem _
  refine ⟨E, _, h1, hv, h2, ?_⟩
  unfold held
  rw [List.getElem?_zip_eq_some]
  exact ⟨by rw [List.getElem?_map, he]; rfl, by rw [List.getElem?_map, hv]; rfl⟩

/-- The object of the column at a place has its elements. -/
theorem ptr_value (h : Represents P V) {w : Place} {id : Nat} (hp : pointerAt P w = some id) :
    ∃ m, columnIn V w = some (some m) ∧ P.heap.get id = some m ∧ id ∈ addrs (holdings P V (ownerOf w)) := by
  cases w with
  | col x =>
    rw [ptr_col] at hp
    obtain ⟨c, h1, h2, h3⟩ := rep_col h hp
    obtain ⟨m, rfl, hm⟩ := denotes_some h3 rfl
    exact ⟨m, h1, hm, by show id ∈ addrs (holdings P V (.col x)); rw [h2]; exact .head _⟩
  | elem d i =>
    obtain ⟨D, e, g1, g2, g3⟩ := ptr_elem.1 hp
    obtain ⟨E, v, k1, k2, k3, k4⟩ := hold_elem h g1 g2
    have hmem : (e.ptr, v.col) ∈ holdings P V (.frame d) := by rw [k3]; exact List.mem_of_getElem? k4
    have hd := h.values _ _ _ hmem
    obtain ⟨m, hm, hg⟩ := denotes_some hd g3
    refine ⟨m, ?_, hg, mem_addrs.2 ⟨v.col, by rw [← g3]; exact hmem⟩⟩
    show (V.frames d).bind (fun E => (E.elems[i]?).map Named.col) = _
    rw [k1, Option.bind_some, k2, Option.map_some, hm]

theorem value_ptr (h : Represents P V) {w : Place} {m : Model C} (hc : columnIn V w = some (some m)) : ∃ id, pointerAt P w = some id ∧ P.heap.get id = some m := by
  cases w with
  | col x =>
    have hc : V.cols x = some (some m) := hc
    have h1 := h.cols x
    rw [hc] at h1
    obtain ⟨p, hp⟩ := Option.isSome_iff_exists.1 h1
    have h2 := h.values (.col x) p (some m) (by rw [hold_col hp hc]; exact .head _)
    cases p with
    | none => exact h2.elim
    | some id => exact ⟨id, ptr_col.2 hp, h2⟩
  | elem d i =>
    have hc : (V.frames d).bind (fun E => (E.elems[i]?).map Named.col) = some (some m) := hc
    obtain ⟨E, hE, hc⟩ := Option.bind_eq_some_iff.1 hc
    obtain ⟨v, hv, hc⟩ := Option.map_eq_some_iff.1 hc
    have h1 := h.frames d
    rw [hE] at h1
    cases hD : P.frames d with
    | none => rw [hD] at h1; cases h1
    | some D =>
      obtain ⟨E', e1, e2, e3⟩ := rep_frame h hD
      rw [hE] at e1; cases e1
      have hl : D.elems.length = E.elems.length := by simpa using congrArg List.length e3.2.2.1
      have hi := (List.getElem?_eq_some_iff.1 hv).1
      have he : D.elems[i]? = some (D.elems[i]'(by omega)) := List.getElem?_eq_getElem _
      obtain ⟨E', v', k1, k2, k3, k4⟩ := hold_elem h hD he
      rw [hE] at k1; cases k1
      rw [hv] at k2; cases k2
      have hd := h.values _ _ _ (by rw [k3]; exact List.mem_of_getElem? k4 : (_, v.col) ∈ holdings P V (.frame d))
      rw [hc] at hd
      cases hp : (D.elems[i]'(by omega)).ptr with
      | none => rw [hp] at hd; exact hd.elim
      | some id => rw [hp] at hd; exact ⟨id, ptr_elem.2 ⟨D, _, hD, he, hp⟩, hd⟩

/-- No two places have the same object. -/
theorem ptr_inj (h : Represents P V) {w w' : Place} {id : Nat} (hw : pointerAt P w = some id) (hw' : pointerAt P w' = some id) : w = w' := by
  obtain ⟨_, _, _, h1⟩ := ptr_value h hw
  obtain ⟨_, _, _, h2⟩ := ptr_value h hw'
  have ho := h.owner _ _ _ h1 h2
  cases w with
  | col x =>
    cases w' with
    | col y => simpa [ownerOf] using ho
    | elem d i => simp [ownerOf] at ho
  | elem d i =>
    cases w' with
    | col y => simp [ownerOf] at ho
    | elem d' j =>
      have : d = d' := by simpa [ownerOf] using ho
      subst this
      obtain ⟨D, e, g1, g2, g3⟩ := ptr_elem.1 hw
      obtain ⟨D', e', g1', g2', g3'⟩ := ptr_elem.1 hw'
      rw [g1] at g1'; cases g1'
      obtain ⟨E, v, k1, k2, k3, k4⟩ := hold_elem h g1 g2
      obtain ⟨E', v', k1', k2', k3', k4'⟩ := hold_elem h g1 g2'
      rw [k1] at k1'; cases k1'
      have hn := h.once (.frame d)
      rw [k3] at hn
      congr 1
      exact nodup_filterMap_inj hn k4 k4' g3 g3'

/-- An object that exists is at some place. -/
theorem ptr_exists (h : Represents P V) {id : Nat} (hg : P.heap.get id ≠ none) : ∃ w, pointerAt P w = some id := by
  obtain ⟨o, ho⟩ := h.noLeak id hg
  obtain ⟨c, hc⟩ := mem_addrs.1 ho
  cases o with
  | col x =>
    unfold holdings at hc
    dsimp only at hc
    split at hc
    · next p c' h1 h2 =>
      rcases List.mem_cons.1 hc with hc | hc
      · cases hc; exact ⟨.col x, ptr_col.2 h1⟩
      · cases hc
    · cases hc
  | frame d =>
    unfold holdings at hc
    dsimp only at hc
    split at hc
    · next D E h1 h2 =>
      obtain ⟨i, hi⟩ := List.mem_iff_getElem?.1 hc
      rw [List.getElem?_zip_eq_some] at hi
      obtain ⟨hi, _⟩ := hi
      rw [List.getElem?_map] at hi
      obtain ⟨e, he, hp⟩ := Option.map_eq_some_iff.1 hi
      exact ⟨.elem d i, ptr_elem.2 ⟨D, e, h1, he, hp⟩⟩
    · cases hc

end

end Jules

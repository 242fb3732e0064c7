import Verif.Lemmas.ColumnHeap
/-
Lemmas for C79: the operations on columns and data frames.
-/
namespace Jules
open Spec

section
variable {C : Coercion} {S : Nat → Bool} {r g g0 : Nat → Option (Model C)} {l : List (Option Nat × Column C)}

/-! ### Columns -/

theorem makes_copyP {h : CHeap C} {p : Option Nat} {c : Column C} (hd : StandsFor h.get p c) : Makes S h (copyP S p) (Column.copy c) IsCol := by
  cases p with
  | none => rw [denotes_null hd]; exact ⟨rfl, nofun⟩
  | some id =>
    obtain ⟨m, rfl, hm⟩ := denotes_some hd rfl
    exact makes_clone hm

theorem makes_partP {h : CHeap C} {p : Option Nat} {c : Column C} (hd : StandsFor h.get p c) (first size : Nat) :
    Makes S h (partP S p first size) (Column.partialCopy Arith.u64 c first size) IsCol := by
  cases p with
  | none => rw [denotes_null hd]; exact ⟨rfl, nofun⟩
  | some id =>
    obtain ⟨m, rfl, hm⟩ := denotes_some hd rfl
    exact makes_partial hm

theorem makes_toColumnP {h : CHeap C} {p : Option Nat} {c : Column C} (hd : StandsFor h.get p c) (T : C.Ty) : Makes S h (toColumnP S p T) (toColumn c T) IsCol := by
  cases p with
  | none => rw [denotes_null hd]; exact ⟨rfl, nofun⟩
  | some id =>
    obtain ⟨m, rfl, hm⟩ := denotes_some hd rfl
    exact makes_coerce hm T

theorem sp_sizeP {h : CHeap C} {p : Option Nat} {c : Column C} {P : Nat → CHeap C → Prop} {Q : Exn → CHeap C → Prop} {F : Fail → Prop} (hd : StandsFor h.get p c)
    (hP : P (Column.size c) h) : SP (sizeP p h) P Q F := by
  cases p with
  | none => rw [denotes_null hd] at hP; exact hP
  | some id =>
    obtain ⟨m, rfl, hm⟩ := denotes_some hd rfl
    unfold sizeP
    exact sp_bind (R := fun b h' => b = m ∧ h' = h) (sp_fetch hm ⟨rfl, rfl⟩) fun b h' hb => by rw [hb.1, hb.2]; exact hP

theorem sp_typeP {h : CHeap C} {p : Option Nat} {c : Column C} (hd : StandsFor h.get p c) :
    SP (typeP p h) (fun t h' => Column.elementsType c = .ok t ∧ h' = h) (fun e h' => Column.elementsType c = .error (.exc e) ∧ h' = h) (fun _ => False) := by
  cases p with
  | none => rw [denotes_null hd]; exact ⟨rfl, rfl⟩
  | some id =>
    obtain ⟨m, rfl, hm⟩ := denotes_some hd rfl
    unfold typeP
    exact sp_bind (R := fun b h' => b = m ∧ h' = h) (sp_fetch hm ⟨rfl, rfl⟩) fun b h' hb => by rw [hb.1, hb.2]; exact ⟨rfl, rfl⟩

theorem sp_coerceP {h : CHeap C} {p : Option Nat} {c : Column C} (hs : Sep r h.get ((p, c) :: l)) (T : C.Ty) :
    SP (coerceP S p T h) (fun q h' => (c.coerce T).1 = .ok () ∧ Sep r h'.get ((q, (c.coerce T).2) :: l))
      (fun e h' => h'.get = h.get ∧ ((c.coerce T).1 = .error (.exc e) ∨ Bad S e)) (Fails ((c.coerce T).1)) := by
  have hd := hs.vals p c (.head _)
  cases p with
  | none => rw [denotes_null hd]; exact ⟨rfl, .inl rfl⟩
  | some id =>
    obtain ⟨m, rfl, hm⟩ := denotes_some hd rfl
    unfold coerceP
    have hc := makes_coerce (S := S) hm T
    unfold Makes at hc
    have hv : ∀ v, m.coerce T = .ok v → Column.coerce (some m) T = (.ok (), some v) := by intro v hv; simp only [Column.coerce, hv]
    have he : ∀ e, m.coerce T = .error e → (Column.coerce (some m) T).1 = .error e := by intro v hv; simp only [Column.coerce, hv]
    have he' : ∀ e, (m.coerce T >>= fun m' => (Except.ok (some m') : Res (Column C))) = .error e → m.coerce T = .error e := by
      intro e h
      cases hh : m.coerce T with
      | ok v => rw [hh] at h; cases h
      | error f => rw [hh] at h; cases h; rfl
    refine sp_bind (sp_mono hc (fun b h' hb => hb) ?_ ?_) ?_
    · rintro e h' ⟨h1, h2⟩
      exact ⟨h1, h2.imp (fun h => he _ (he' _ h)) fun h => h⟩
    · intro f hf
      exact ⟨he _ (he' _ hf.1), hf.2⟩
    · rintro q h1 ⟨w, l', hw, hl, hs'⟩
      unfold IsCol at hl
      subst hl
      obtain ⟨v, hv1, hv2⟩ := res_bind_ok.1 hw
      cases hv2
      have hs2 : Sep r h1.get ((some id, some m) :: (q, some v) :: l) := sep_perm (sep_trans hs hs') (List.Perm.swap _ _ _)
      rw [hv v hv1]
      exact sp_bind (sp_mono (sp_delete hs2) (fun _ h' hh => hh) (fun _ _ h => h.elim) fun _ h => h.elim) fun _ h2 hs3 => ⟨rfl, hs3⟩

theorem sp_assignP {h : CHeap C} {p q : Option Nat} {c d : Column C} (hs : Sep r h.get ((p, c) :: l)) (hq : StandsFor h.get q d) :
    SP (assignP S p q h) (fun q' h' => Sep r h'.get ((q', Column.copyAssign c d) :: l)) (fun e h' => h'.get = h.get ∧ Bad S e) (fun _ => False) := by
  unfold assignP
  refine sp_bind (R := fun q' h' => Sep r h'.get ((p, c) :: (q', Column.copyAssign c d) :: l)) ?_ ?_
  · cases q with
    | none =>
      rw [denotes_null hq]
      exact sep_perm (sep_null hs) (List.Perm.swap _ _ _)
    | some id =>
      obtain ⟨m, rfl, hm⟩ := denotes_some hq rfl
      refine sp_mono (makes_clone (S := S) hm) ?_ ?_ ?_
      · rintro b h' ⟨w, l', hw, hl, hs'⟩
        cases hw
        unfold IsCol at hl
        subst hl
        exact sep_perm (sep_trans hs hs') (List.Perm.swap _ _ _)
      · rintro e h' ⟨h1, h2⟩
        exact ⟨h1, h2.resolve_left (by nofun)⟩
      · nofun
  · intro q' h1 hs1
    exact sp_bind (sp_mono (sp_delete hs1) (fun _ h' hh => hh) (fun _ _ h => h.elim) fun _ h => h.elim) fun _ h2 hs2 => hs2

theorem sp_toColumnRvP {h : CHeap C} {p : Option Nat} {c : Column C} (hs : Sep r h.get ((p, c) :: l)) (T : C.Ty) :
    SP (toColumnRvP S p T h) (fun q h' => ∃ c', (toColumnRv c T).1 = .ok c' ∧ Sep r h'.get ((q, c') :: l))
      (fun e h' => h'.get = h.get ∧ ((toColumnRv c T).1 = .error (.exc e) ∨ Bad S e)) (Fails ((toColumnRv c T).1)) := by
  unfold toColumnRvP toColumnRv
  refine sp_bind (sp_mono (sp_typeP (hs.vals p c (.head _))) (fun t h' ht => ht) ?_ ?_) ?_
  · rintro e h' ⟨h1, rfl⟩
    rw [h1]; exact ⟨rfl, .inl rfl⟩
  · exact fun _ h => h.elim
  · rintro t h' ⟨h1, rfl⟩
    rw [h1]
    by_cases ht : t = T
    · simp only [ht, ne_eq, not_true_eq_false, if_false]
      exact ⟨_, rfl, hs⟩
    · simp only [ht, ne_eq, not_false_eq_true, if_true]
      refine sp_mono (sp_coerceP hs T) ?_ ?_ ?_
      · rintro q h2 ⟨h3, h4⟩
        generalize c.coerce T = z at h3 h4
        obtain ⟨z1, z2⟩ := z
        cases h3
        exact ⟨_, rfl, h4⟩
      · rintro e h2 ⟨h3, h4⟩
        generalize c.coerce T = z at h4
        obtain ⟨z1, z2⟩ := z
        refine ⟨h3, h4.imp (fun h => ?_) fun h => h⟩
        cases h; rfl
      · intro f h4
        generalize c.coerce T = z at h4
        obtain ⟨z1, z2⟩ := z
        obtain ⟨h4, hx⟩ := h4; cases h4; exact ⟨rfl, hx⟩

/-! ### Named columns -/

theorem makes_copyNamed {h : CHeap C} {e : PNamed} {v : Named C} (hn : e.name = v.name) (hd : StandsFor h.get e.ptr v.col) : Makes S h (copyNamed S e) v.copy IsNamed := by
  unfold Makes copyNamed Named.copy
  refine sp_bind (R := fun _ h' => h'.get = h.get) (sp_event (fun h' hg _ => hg) fun e h' hb hg => ⟨hg, .inr hb⟩) fun _ h1 g1 => ?_
  have hc := makes_copyP (S := S) (h := h1) (by rw [g1]; exact hd)
  unfold Makes at hc
  rw [g1] at hc
  refine sp_bind (sp_mono hc (fun b h' hb => hb) ?_ ?_) ?_
  · rintro x h' ⟨h2, h3⟩
    exact ⟨h2, h3.imp (fun h => by rw [h]; rfl) fun h => h⟩
  · rintro f ⟨hf, hx⟩
    refine ⟨?_, hx⟩
    rw [hf]; rfl
  · rintro p h2 ⟨w, l', hw, hl, hs⟩
    unfold IsCol at hl
    subst hl
    exact ⟨⟨v.name, w⟩, _, by rw [hw]; rfl, ⟨hn, rfl⟩, hs⟩

/-- The named columns denote these. -/
def DenoteAll (g : Nat → Option (Model C)) (es : List PNamed) (vs : List (Named C)) : Prop :=
  es.map PNamed.name = vs.map Named.name ∧ ∀ p c, (p, c) ∈ held es vs → StandsFor g p c

theorem denoteAll_cons {es : List PNamed} {v : Named C} {e : PNamed} {vs : List (Named C)} :
    DenoteAll g (e :: es) (v :: vs) ↔ (e.name = v.name ∧ StandsFor g e.ptr v.col) ∧ DenoteAll g es vs := by
  unfold DenoteAll held
  simp only [List.map_cons, List.cons.injEq, List.zip_cons_cons, List.mem_cons]
  constructor
  · rintro ⟨⟨h1, h2⟩, h3⟩
    exact ⟨⟨h1, h3 _ _ (.inl rfl)⟩, h2, fun p c h => h3 p c (.inr h)⟩
  · rintro ⟨⟨h1, h2⟩, h3, h4⟩
    refine ⟨⟨h1, h3⟩, ?_⟩
    rintro p c (h | h)
    · cases h; exact h2
    · exact h4 p c h

theorem denoteAll_mono {g' : Nat → Option (Model C)} {es : List PNamed} {vs : List (Named C)} (h : DenoteAll g es vs) (hg : ∀ i m, g i = some m → g' i = some m) :
    DenoteAll g' es vs := ⟨h.1, fun p c hm => denotes_mono (h.2 p c hm) hg⟩

theorem denoteAll_nil {vs : List (Named C)} (h : DenoteAll g [] vs) : vs = [] := by
  have := h.1
  simpa using this.symm

theorem denoteAll_cons_left {es : List PNamed} {e : PNamed} {vs : List (Named C)} (h : DenoteAll g (e :: es) vs) : ∃ v vs', vs = v :: vs' := by
  cases vs with
  | nil => have := h.1; simp at this
  | cons v vs => exact ⟨v, vs, rfl⟩

theorem makes_copyElems : ∀ {es : List PNamed} {vs : List (Named C)} {h : CHeap C}, DenoteAll h.get es vs → Makes S h (copyElems S es) (vs.mapM Named.copy) IsElems
  | [], vs, h, hd => by
    rw [denoteAll_nil hd]
    exact ⟨[], [], rfl, ⟨rfl, rfl⟩, sep_refl⟩
  | e :: es, vs, h, hd => by
    obtain ⟨v, vs, rfl⟩ := denoteAll_cons_left hd
    obtain ⟨⟨h1, h2⟩, h3⟩ := denoteAll_cons.1 hd
    unfold Makes copyElems
    rw [List.mapM_cons]
    refine sp_bind (sp_mono (makes_copyNamed (S := S) h1 h2) (fun b h' hb => hb) ?_ ?_) ?_
    · rintro x h' ⟨h2, h3⟩
      exact ⟨h2, h3.imp (fun h => by rw [h]; rfl) fun h => h⟩
    · rintro f ⟨hf, hx⟩
      refine ⟨?_, hx⟩
      rw [hf]; rfl
    · rintro e' h1 ⟨v', l', hv, ⟨hn, rfl⟩, hs⟩
      have ih : Makes S h1 (copyElems S es) (vs.mapM Named.copy) IsElems := makes_copyElems (denoteAll_mono h3 hs.ext)
      unfold Makes at ih
      rw [hv]
      refine sp_bind (R := fun es' h' => ∃ vs', vs.mapM Named.copy = .ok vs' ∧ es'.map PNamed.name = vs'.map Named.name ∧ Sep h1.get h'.get (held es' vs')) (sp_cleanup
        (R := fun x h' => Sep h.get h'.get ((e'.ptr, v'.col) :: []) ∧ (vs.mapM Named.copy = .error (.exc x) ∨ Bad S x)) (sp_mono ih ?_ ?_ ?_) ?_) ?_
      · rintro b h' ⟨w, l', hw, ⟨hn, rfl⟩, hs'⟩
        exact ⟨w, hw, hn, hs'⟩
      · rintro x h' ⟨h4, h5⟩
        rw [h4]; exact ⟨hs, h5⟩
      · rintro f ⟨hf, hx⟩
        refine ⟨?_, hx⟩
        rw [hf]; rfl
      · rintro x h' ⟨h4, h5⟩
        refine sp_mono (sp_delete h4) (fun _ h'' hh => ⟨sep_nil hh, h5.imp (fun h => ?_) fun h => h⟩) (fun _ _ h => h) fun _ h => h
        rw [h]; rfl
      · rintro es' h2 ⟨vs', hv', hn', hs'⟩
        refine ⟨v' :: vs', _, by rw [hv']; rfl, ⟨by simp [hn, hn'], rfl⟩, ?_⟩
        exact sep_perm (sep_trans hs hs') (List.perm_append_comm (l₂ := [(e'.ptr, v'.col)]))

theorem makes_copyVector {es : List PNamed} {vs : List (Named C)} {h : CHeap C} (hd : DenoteAll h.get es vs) : Makes S h (copyVector S es) (vs.mapM Named.copy) IsElems := by
  unfold copyVector
  split
  · next he =>
    subst he
    rw [denoteAll_nil hd]
    exact ⟨[], [], rfl, ⟨rfl, rfl⟩, sep_refl⟩
  · unfold Makes
    refine sp_bind (R := fun _ h' => h'.get = h.get) (sp_event (fun h' hg _ => hg) fun e h' hb hg => ⟨hg, .inr hb⟩) fun _ h1 g1 => ?_
    have := makes_copyElems (S := S) (h := h1) (g1 ▸ hd)
    unfold Makes at this
    rw [g1] at this
    exact this

/-! ### Data frames -/

/-- What makes the elements of a data frame. -/
def Sources (S : Nat → Bool) (g0 : Nat → Option (Model C)) : List (CM C PNamed) → List (Res (Named C)) → Prop
  | [], [] => True
  | x :: xs, v :: vs => (∀ h : CHeap C, (∀ i m, g0 i = some m → h.get i = some m) → Makes S h x v IsNamed) ∧ Sources S g0 xs vs
  | _, _ => False

theorem held_snoc {es : List PNamed} {vs : List (Named C)} {e : PNamed} {v : Named C} (hn : es.map PNamed.name = vs.map Named.name) :
    held (es ++ [e]) (vs ++ [v]) = held es vs ++ [(e.ptr, v.col)] := by
  have hl : es.length = vs.length := by simpa using congrArg List.length hn
  unfold held
  rw [List.map_append, List.map_append, List.zip_append (by simp [hl])]
  rfl

theorem held_append {es es' : List PNamed} {vs vs' : List (Named C)} (hn : es.map PNamed.name = vs.map Named.name) :
    held (es ++ es') (vs ++ vs') = held es vs ++ held es' vs' := by
  have hl : es.length = vs.length := by simpa using congrArg List.length hn
  unfold held
  rw [List.map_append, List.map_append, List.zip_append (by simp [hl])]

theorem sp_pushSized {rows : Nat} : ∀ {xs : List (CM C PNamed)} {vs : List (Res (Named C))} {acc : List PNamed} {accv : List (Named C)} {h : CHeap C}, Sources S g0 xs vs →
    acc.map PNamed.name = accv.map Named.name → Sep g0 h.get (held acc accv) →
    SP (pushSizedP rows xs acc h)
      (fun res h' => ∃ ws, pushSized rows vs accv = .ok (ws, res.2) ∧ res.1.map PNamed.name = ws.map Named.name ∧ Sep g0 h'.get (held res.1 ws))
      (fun e h' => h'.get = g0 ∧ (pushSized rows vs accv = .error (.exc e) ∨ Bad S e)) (Fails (pushSized rows vs accv))
  | [], [], acc, accv, h, _, hn, hs => ⟨accv, rfl, hn, hs⟩
  | x :: xs, v :: vs, acc, accv, h, hx, hn, hs => by
    unfold pushSizedP pushSized
    refine sp_bind (R := fun e h' => ∃ w, v = .ok w ∧ e.name = w.name ∧ Sep g0 h'.get (held (acc ++ [e]) (accv ++ [w]))) (sp_cleanup
      (R := fun y h' => Sep g0 h'.get (held acc accv ++ []) ∧ (v = .error (.exc y) ∨ Bad S y)) (sp_mono (hx.1 h hs.ext) ?_ ?_ ?_) ?_) ?_
    · rintro e h' ⟨w, l', hw, ⟨hn', rfl⟩, hs'⟩
      refine ⟨w, hw, hn', ?_⟩
      rw [held_snoc hn]
      exact sep_swap (sep_trans hs hs')
    · rintro y h' ⟨h4, h5⟩
      rw [h4, List.append_nil]; exact ⟨hs, h5⟩
    · rintro f ⟨hf, hx⟩
      refine ⟨?_, hx⟩
      rw [hf]; rfl
    · rintro y h' ⟨h4, h5⟩
      refine sp_mono (sp_destroyAll hn h4) (fun _ h'' hh => ⟨sep_nil hh, h5.imp (fun h => ?_) fun h => h⟩) (fun _ _ h => h) fun _ h => h
      rw [h]; rfl
    · rintro e h1 ⟨w, rfl, hn', hs1⟩
      have hd : StandsFor h1.get e.ptr w.col := hs1.vals _ _ (by rw [held_snoc hn]; exact List.mem_append_right _ (.head _))
      refine sp_bind (R := fun n h' => n = Column.size w.col ∧ h' = h1) (sp_sizeP hd ⟨rfl, rfl⟩) ?_
      rintro n h2 ⟨rfl, rfl⟩
      rw [res_ok_bind]
      have hn2 : (acc ++ [e]).map PNamed.name = (accv ++ [w]).map Named.name := by simp [hn, hn']
      split
      · next hz =>
        exact sp_pushSized hx.2 hn2 hs1
      · exact ⟨_, rfl, hn2, hs1⟩

theorem sp_register : ∀ {es : List PNamed} {vs : List (Named C)} (i : Nat) (index : List (Txt × Nat)) {h : CHeap C}, es.map PNamed.name = vs.map Named.name →
    SP (registerP S es i index h) (fun idx h' => registerNames vs i index = .ok idx ∧ h'.get = h.get)
      (fun e h' => h'.get = h.get ∧ (registerNames vs i index = .error (.exc e) ∨ Bad S e)) (Fails (registerNames vs i index))
  | [], [], i, index, h, _ => ⟨rfl, rfl⟩
  | [], v :: vs, i, index, h, hn => by simp at hn
  | e :: es, [], i, index, h, hn => by simp at hn
  | e :: es, v :: vs, i, index, h, hn => by
    rw [List.map_cons, List.map_cons, List.cons.injEq] at hn
    unfold registerP registerNames
    rw [hn.1]
    split
    · split
      · exact ⟨rfl, .inl rfl⟩
      · refine sp_bind (R := fun _ h' => h'.get = h.get) (sp_event (fun h' hg _ => hg) fun e h' hb hg => ⟨hg, .inr hb⟩) fun _ h1 g1 => ?_
        rw [← g1]
        exact sp_register (i + 1) ((v.name, i) :: index) hn.2
    · exact sp_register i index hn.2

theorem makes_frameOfIter {xs : List (CM C PNamed)} {vs : List (Res (Named C))} {h : CHeap C} (hx : Sources S h.get xs vs) :
    Makes S h (frameOfIter S xs) (DF.ofIter vs) IsFrame := by
  cases xs with
  | nil =>
    cases vs with
    | nil => exact ⟨rfl, nofun⟩
    | cons v vs => exact hx.elim
  | cons x xs =>
    cases vs with
    | nil => exact hx.elim
    | cons v vs =>
      unfold Makes frameOfIter DF.ofIter
      dsimp only
      refine sp_bind (R := fun _ h' => h'.get = h.get) (sp_event (fun h' hg _ => hg) fun e h' hb hg => ⟨hg, .inr hb⟩) fun _ h1 g1 => ?_
      have h2 := hx.1 h1 (by rw [g1]; exact fun _ _ hm => hm)
      unfold Makes at h2
      rw [g1] at h2
      refine sp_bind (sp_mono h2 (fun b h' hb => hb) ?_ ?_) ?_
      · rintro y h' ⟨h3, h4⟩
        exact ⟨h3, h4.imp (fun h => by rw [h]; rfl) fun h => h⟩
      · rintro f ⟨hf, hx⟩
        refine ⟨?_, hx⟩
        rw [hf]; rfl
      · rintro e h3 ⟨w, l', rfl, ⟨hn, rfl⟩, hs⟩
        refine sp_bind (R := fun n h' => n = Column.size w.col ∧ h' = h3) (sp_sizeP (hs.vals _ _ (.head _)) ⟨rfl, rfl⟩) ?_
        rintro n h3 ⟨rfl, rfl⟩
        rw [res_ok_bind]
        refine sp_bind (sp_mono (sp_pushSized (rows := Column.size w.col) (acc := [e]) (accv := [w]) hx.2 (by simp [hn]) hs) (fun b h' hb => hb) ?_ ?_) ?_
        · rintro y h' ⟨h4, h5⟩
          exact ⟨h4, h5.imp (fun h => by rw [h]; rfl) fun h => h⟩
        · rintro f ⟨hf, hx⟩
          refine ⟨?_, hx⟩
          rw [hf]; rfl
        · rintro ⟨es, ok⟩ h4 ⟨ws, hw, hn', hs'⟩
          dsimp only at hw hn' hs' ⊢
          rw [hw, res_ok_bind]
          cases ok with
          | true =>
            simp only [if_true]
            refine sp_bind (R := fun idx h' => registerNames ws 0 [] = .ok idx ∧ h'.get = h4.get) (sp_cleanup
              (R := fun y h' => Sep h.get h'.get (held es ws ++ []) ∧ (registerNames ws 0 [] = .error (.exc y) ∨ Bad S y))
              (sp_mono (sp_register (S := S) 0 [] hn') (fun _ _ h => h) ?_ ?_) ?_) ?_
            · rintro y h' ⟨h5, h6⟩
              rw [h5, List.append_nil]; exact ⟨hs', h6⟩
            · rintro f ⟨hf, hx⟩
              refine ⟨?_, hx⟩
              rw [hf]; rfl
            · rintro y h' ⟨h5, h6⟩
              refine sp_mono (sp_destroyAll hn' h5) (fun _ h'' hh => ⟨sep_nil hh, h6.imp (fun h => ?_) fun h => h⟩) (fun _ _ h => h) fun _ h => h
              rw [h]; rfl
            · rintro idx h5 ⟨h6, h7⟩
              refine ⟨⟨Column.size w.col, ws, idx⟩, _, by rw [h6]; rfl, ⟨rfl, rfl, hn', rfl⟩, ?_⟩
              rw [h7]; exact hs'
          | false =>
            simp only [Bool.false_eq_true, if_false]
            refine sp_bind (sp_mono (sp_destroyAll (l := []) hn' (by rw [List.append_nil]; exact hs')) (fun _ h' hh => hh) (fun _ _ h => h.elim) fun _ h => h.elim) fun _ h5 hs5 => ?_
            exact ⟨sep_nil hs5, .inl rfl⟩

theorem sources_copy {es : List PNamed} {vs : List (Named C)} : DenoteAll g0 es vs → Sources S g0 (es.map (copyNamed S)) (vs.map Named.copy) := by
  induction es generalizing vs with
  | nil => intro h; rw [denoteAll_nil h]; trivial
  | cons e es ih =>
    intro h
    obtain ⟨v, vs, rfl⟩ := denoteAll_cons_left h
    obtain ⟨⟨h1, h2⟩, h3⟩ := denoteAll_cons.1 h
    exact ⟨fun h hg => makes_copyNamed h1 (denotes_mono h2 hg), ih h3⟩

theorem makes_frameOfList {es : List PNamed} {vs : List (Named C)} {h : CHeap C} (hd : DenoteAll h.get es vs) :
    Makes S h (frameOfList S es) (do let tmp ← vs.mapM Named.copy; DF.ofList tmp) IsFrame := by
  unfold Makes frameOfList
  refine sp_bind (sp_mono (makes_copyElems (S := S) hd) (fun b h' hb => hb) ?_ ?_) ?_
  · rintro y h' ⟨h4, h5⟩
    exact ⟨h4, h5.imp (fun h => by rw [h]; rfl) fun h => h⟩
  · rintro f ⟨hf, hx⟩
    refine ⟨?_, hx⟩
    rw [hf]; rfl
  · rintro tmp h1 ⟨ws, l', hw, ⟨hn, rfl⟩, hs⟩
    rw [hw, res_ok_bind]
    have hm := makes_frameOfIter (S := S) (h := h1) (sources_copy (S := S) (es := tmp) (vs := ws) ⟨hn, hs.vals⟩)
    unfold Makes at hm
    refine sp_bind (R := fun D h' => ∃ E, DF.ofList ws = .ok E ∧ D.rows = E.rows ∧ D.index = E.index ∧ D.elems.map PNamed.name = E.elems.map Named.name ∧
      Sep h.get h'.get (held tmp ws ++ held D.elems E.elems)) (sp_cleanup
        (R := fun y h' => Sep h.get h'.get (held tmp ws ++ []) ∧ (DF.ofList ws = .error (.exc y) ∨ Bad S y)) (sp_mono hm ?_ ?_ ?_) ?_) ?_
    · rintro D h' ⟨E, l', hE, ⟨e1, e2, e3, rfl⟩, hs'⟩
      exact ⟨E, hE, e1, e2, e3, sep_swap (sep_trans hs hs')⟩
    · rintro y h' ⟨h4, h5⟩
      rw [h4, List.append_nil]; exact ⟨hs, h5⟩
    · exact fun f hf => hf
    · rintro y h' ⟨h5, h6⟩
      exact sp_mono (sp_destroyAll hn h5) (fun _ h'' hh => ⟨sep_nil hh, h6⟩) (fun _ _ h => h) fun _ h => h
    · rintro D h2 ⟨E, hE, e1, e2, e3, hs2⟩
      refine sp_bind (sp_mono (sp_destroyAll hn hs2) (fun _ h' hh => hh) (fun _ _ h => h.elim) fun _ h => h.elim) fun _ h3 hs3 => ?_
      exact ⟨E, _, hE, ⟨e1, e2, e3, rfl⟩, hs3⟩

/-- The data frame denotes this one. -/
def DenotesF (g : Nat → Option (Model C)) (D : PFrame) (E : DF C) : Prop := D.rows = E.rows ∧ D.index = E.index ∧ DenoteAll g D.elems E.elems

theorem mapM_copy_length : ∀ {vs ws : List (Named C)}, vs.mapM Named.copy = .ok ws → ws.map Named.name = vs.map Named.name
  | [], ws, h => by cases h; rfl
  | v :: vs, ws, h => by
    rw [List.mapM_cons] at h
    obtain ⟨a, h1, h2⟩ := res_bind_ok.1 h
    obtain ⟨b, h3, h4⟩ := res_bind_ok.1 h2
    cases h4
    unfold Named.copy at h1
    obtain ⟨c, h5, h6⟩ := res_bind_ok.1 h1
    cases h6
    simp [mapM_copy_length h3]

theorem makes_frameCopy {D : PFrame} {E : DF C} {h : CHeap C} (hd : DenotesF h.get D E) : Makes S h (frameCopy S D) E.copy IsFrame := by
  obtain ⟨d1, d2, d3⟩ := hd
  unfold Makes frameCopy DF.copy
  refine sp_bind (sp_mono (makes_copyVector (S := S) d3) (fun b h' hb => hb) ?_ ?_) ?_
  · rintro y h' ⟨h4, h5⟩
    exact ⟨h4, h5.imp (fun h => by rw [h]; rfl) fun h => h⟩
  · rintro f ⟨hf, hx⟩
    refine ⟨?_, hx⟩
    rw [hf]; rfl
  · rintro es h1 ⟨ws, l', hw, ⟨hn, rfl⟩, hs⟩
    rw [hw, res_ok_bind]
    refine sp_bind (R := fun _ h' => h'.get = h1.get) (sp_cleanup (R := fun y h' => Sep h.get h'.get (held es ws ++ []) ∧ Bad S y) (sp_event (fun h' hg _ => hg) ?_) ?_) ?_
    · intro y h' hb hg
      rw [hg, List.append_nil]; exact ⟨hs, hb⟩
    · rintro y h' ⟨h5, h6⟩
      exact sp_mono (sp_destroyAll hn h5) (fun _ h'' hh => ⟨sep_nil hh, .inr h6⟩) (fun _ _ h => h) fun _ h => h
    · intro _ h2 g2
      refine ⟨⟨E.rows, ws, E.index⟩, _, rfl, ⟨d1, d2, hn, rfl⟩, ?_⟩
      rw [g2]; exact hs

theorem sources_part {es : List PNamed} {vs : List (Named C)} {n : Nat} : DenoteAll g0 es vs →
    Sources S g0 (es.map fun e => (do
      cEvent S
      let p ← partP S e.ptr 0 n
      SM.pure (⟨e.name, p⟩ : PNamed) : CM C PNamed))
    (vs.map fun e => do
      let c ← Column.partialCopy Arith.u64 e.col 0 n
      .ok (⟨e.name, c⟩ : Named C)) := by
  induction es generalizing vs with
  | nil => intro h; rw [denoteAll_nil h]; trivial
  | cons e es ih =>
    intro h
    obtain ⟨v, vs, rfl⟩ := denoteAll_cons_left h
    obtain ⟨⟨h1, h2⟩, h3⟩ := denoteAll_cons.1 h
    refine ⟨fun h hg => ?_, ih h3⟩
    unfold Makes
    refine sp_bind (R := fun _ h' => h'.get = h.get) (sp_event (fun h' hg _ => hg) fun e h' hb hg => ⟨hg, .inr hb⟩) fun _ h1' g1 => ?_
    have hc := makes_partP (S := S) (h := h1') (denotes_mono h2 (by rw [g1]; exact hg)) 0 n
    unfold Makes at hc
    rw [g1] at hc
    refine sp_bind (sp_mono hc (fun b h' hb => hb) ?_ ?_) ?_
    · rintro x h' ⟨h2, h3⟩
      exact ⟨h2, h3.imp (fun h => by dsimp only; rw [h]; rfl) fun h => h⟩
    · intro f hf
      dsimp only
      refine ⟨?_, hf.2⟩; rw [hf.1]; rfl
    · rintro p h2 ⟨w, l', hw, hl, hs⟩
      unfold IsCol at hl
      subst hl
      exact ⟨⟨v.name, w⟩, _, by dsimp only; rw [hw]; rfl, ⟨h1, rfl⟩, hs⟩

theorem makes_headP {D : PFrame} {E : DF C} {h : CHeap C} (hd : DenotesF h.get D E) (n : Nat) : Makes S h (headP S D n) (E.head n) IsFrame := by
  obtain ⟨d1, d2, d3⟩ := hd
  unfold Makes headP DF.head
  rw [d1]
  split
  · exact ⟨rfl, .inl rfl⟩
  · have hm := makes_frameOfIter (S := S) (h := h) (sources_part (S := S) (n := n) d3)
    refine sp_bind (sp_mono hm (fun b h' hb => hb) ?_ ?_) ?_
    · rintro y h' ⟨h4, h5⟩
      exact ⟨h4, h5.imp (fun h => by rw [h]; rfl) fun h => h⟩
    · rintro f ⟨hf, hx⟩
      refine ⟨?_, hx⟩
      rw [hf]; rfl
    · rintro t h1 ⟨E1, l', hE, ⟨e1, e2, e3, rfl⟩, hs⟩
      rw [hE, res_ok_bind]
      have hc := makes_frameCopy (S := S) (h := h1) (D := t) (E := E1) ⟨e1, e2, e3, hs.vals⟩
      unfold Makes at hc
      refine sp_bind (R := fun D h' => ∃ E, E1.copy = .ok E ∧ D.rows = E.rows ∧ D.index = E.index ∧ D.elems.map PNamed.name = E.elems.map Named.name ∧
        Sep h.get h'.get (held t.elems E1.elems ++ held D.elems E.elems)) (sp_cleanup
          (R := fun y h' => Sep h.get h'.get (held t.elems E1.elems ++ []) ∧ (E1.copy = .error (.exc y) ∨ Bad S y)) (sp_mono hc ?_ ?_ ?_) ?_) ?_
      · rintro D h' ⟨E, l', hE, ⟨e1, e2, e3, rfl⟩, hs'⟩
        exact ⟨E, hE, e1, e2, e3, sep_swap (sep_trans hs hs')⟩
      · rintro y h' ⟨h4, h5⟩
        rw [h4, List.append_nil]; exact ⟨hs, h5⟩
      · exact fun f hf => hf
      · rintro y h' ⟨h5, h6⟩
        exact sp_mono (sp_destroyAll e3 h5) (fun _ h'' hh => ⟨sep_nil hh, h6⟩) (fun _ _ h => h) fun _ h => h
      · rintro D h2 ⟨E, hE, q1, q2, q3, hs2⟩
        refine sp_bind (sp_mono (sp_destroyAll e3 hs2) (fun _ h' hh => hh) (fun _ _ h => h.elim) fun _ h => h.elim) fun _ h3 hs3 => ?_
        exact ⟨E, _, hE, ⟨q1, q2, q3, rfl⟩, hs3⟩

end

end Jules

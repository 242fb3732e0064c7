import Verif.Spec.ColumnHeap
import Verif.Lemmas.Heap
/-
Lemmas for C79: a logic for computations with exceptions, and separation of the objects that belong to different columns.
-/
namespace Jules
open Spec

/-- A normal result satisfies `P`, an exception `Q`, anything else `F`. -/
def SP (r : SOut σ β) (P : β → σ → Prop) (Q : Exn → σ → Prop) (F : Fail → Prop) : Prop :=
  match r with
  | .ok b s => P b s
  | .exn e s => Q e s
  | .fail f => F f

/-- The value is this failure, which is not an exception. -/
def Fails (v : Res β) (f : Fail) : Prop := v = .error f ∧ ∀ e, f ≠ .exc e

section
variable {σ τ β γ : Type}

theorem sp_mono {r : SOut σ β} {P P' : β → σ → Prop} {Q Q' : Exn → σ → Prop} {F F' : Fail → Prop} (h : SP r P Q F) (hP : ∀ b s, P b s → P' b s)
    (hQ : ∀ e s, Q e s → Q' e s) (hF : ∀ f, F f → F' f) : SP r P' Q' F' := by
  cases r with
  | ok b s => exact hP _ _ h
  | exn e s => exact hQ _ _ h
  | fail f => exact hF _ h

theorem sp_bind {x : SM σ β} {f : β → SM σ γ} {s : σ} {P : γ → σ → Prop} {Q : Exn → σ → Prop} {F : Fail → Prop} {R : β → σ → Prop} (hx : SP (x s) R Q F)
    (hf : ∀ b s', R b s' → SP (f b s') P Q F) : SP ((x >>= f) s) P Q F := by
  change SP (SM.bind x f s) P Q F
  unfold SM.bind
  cases hr : x s with
  | ok b s' => rw [hr] at hx; exact hf b s' hx
  | exn e s' => rw [hr] at hx; exact hx
  | fail f => rw [hr] at hx; exact hx

theorem sp_pure {b : β} {s : σ} {P : β → σ → Prop} {Q : Exn → σ → Prop} {F : Fail → Prop} (h : P b s) : SP ((SM.pure b : SM σ β) s) P Q F := h

theorem sp_throw {e : Exn} {s : σ} {P : β → σ → Prop} {Q : Exn → σ → Prop} {F : Fail → Prop} (h : Q e s) : SP ((SM.throw e : SM σ β) s) P Q F := h

theorem sp_die {f : Fail} {s : σ} {P : β → σ → Prop} {Q : Exn → σ → Prop} {F : Fail → Prop} (h : F f) : SP ((SM.die f : SM σ β) s) P Q F := h

theorem sp_cleanup {x : SM σ β} {c : SM σ Unit} {s : σ} {P : β → σ → Prop} {Q R : Exn → σ → Prop} {F : Fail → Prop} (hx : SP (x s) P R F)
    (hc : ∀ e s', R e s' → SP (c s') (fun _ s'' => Q e s'') (fun _ _ => False) (fun _ => False)) : SP (x.cleanup c s) P Q F := by
  unfold SM.cleanup
  cases hr : x s with
  | ok b s' => rw [hr] at hx; exact hx
  | exn e s' =>
    rw [hr] at hx
    have := hc e s' hx
    cases hr' : c s' with
    | ok b s'' => rw [hr'] at this; simp only [hr']; exact this
    | exn e s'' => rw [hr'] at this; exact this.elim
    | fail f => rw [hr'] at this; exact this.elim
  | fail f => rw [hr] at hx; exact hx

theorem sp_try {x : SM σ β} {s : σ} {P : Except Exn β → σ → Prop} {Q : Exn → σ → Prop} {F : Fail → Prop}
    (hx : SP (x s) (fun b s' => P (.ok b) s') (fun e s' => P (.error e) s') F) : SP (x.try s) P Q F := by
  unfold SM.try
  cases hr : x s with
  | ok b s' => rw [hr] at hx; exact hx
  | exn e s' => rw [hr] at hx; exact hx
  | fail f => rw [hr] at hx; exact hx

theorem sp_lift {x : Res β} {s : σ} {P : β → σ → Prop} {Q : Exn → σ → Prop} {F : Fail → Prop} (hP : ∀ b, x = .ok b → P b s) (hQ : ∀ e, x = .error (.exc e) → Q e s)
    (hF : ∀ f, Fails x f → F f) : SP (SM.lift x s) P Q F := by
  unfold SM.lift
  cases x with
  | ok b => exact hP b rfl
  | error f =>
    cases f with
    | exc e => exact hQ e rfl
    | _ => exact hF _ ⟨rfl, nofun⟩

theorem sp_inner {x : SM σ β} {s : σ} {t : τ} {P : β → σ × τ → Prop} {Q : Exn → σ × τ → Prop} {F : Fail → Prop}
    (hx : SP (x s) (fun b s' => P b (s', t)) (fun e s' => Q e (s', t)) F) : SP (SM.inner x (s, t)) P Q F := by
  unfold SM.inner
  dsimp only
  cases hr : x s with
  | ok b s' => rw [hr] at hx; exact hx
  | exn e s' => rw [hr] at hx; exact hx
  | fail f => rw [hr] at hx; exact hx

theorem sp_deferred {l : τ} {body : SM (σ × τ) β} {act : SM (σ × τ) Unit} {s : σ} {P : β → σ → Prop} {Q : Exn → σ → Prop} {F : Fail → Prop}
    {R : β → σ × τ → Prop} {R' : Exn → σ × τ → Prop} (hx : SP (body (s, l)) R R' F)
    (ha : ∀ b st, R b st → SP (act st) (fun _ st' => P b st'.1) (fun _ _ => False) (fun _ => False))
    (ha' : ∀ e st, R' e st → SP (act st) (fun _ st' => Q e st'.1) (fun _ _ => False) (fun _ => False)) : SP (deferred l body act s) P Q F := by
  unfold deferred
  cases hr : body (s, l) with
  | ok b st =>
    rw [hr] at hx
    have := ha b st hx
    cases hr' : act st with
    | ok u st' => rw [hr'] at this; simp only [hr']; exact this
    | exn e st' => rw [hr'] at this; exact this.elim
    | fail f => rw [hr'] at this; exact this.elim
  | exn e st =>
    rw [hr] at hx
    have := ha' e st hx
    cases hr' : act st with
    | ok u st' => rw [hr'] at this; simp only [hr']; exact this
    | exn e st' => rw [hr'] at this; exact this.elim
    | fail f => rw [hr'] at this; exact this.elim
  | fail f => rw [hr] at hx; exact hx

end

section
variable {C : Coercion} {S : Nat → Bool} {β : Type}

/-! ### Separation -/

/-- The objects `g` are those of `r` and, apart from them, those that `l` points to, with these values. -/
structure Sep (r g : Nat → Option (Model C)) (l : List (Option Nat × Column C)) : Prop where
  nodup : (addrs l).Nodup
  vals : ∀ p c, (p, c) ∈ l → StandsFor g p c
  fresh : ∀ i ∈ addrs l, r i = none
  rest : ∀ i, i ∉ addrs l → g i = r i

variable {r g g' : Nat → Option (Model C)} {l l' : List (Option Nat × Column C)}

theorem mem_addrs {i : Nat} : i ∈ addrs l ↔ ∃ c, (some i, c) ∈ l := by
  unfold addrs
  rw [List.mem_filterMap]
  constructor
  · rintro ⟨⟨p, c⟩, h, rfl⟩; exact ⟨c, h⟩
  · rintro ⟨c, h⟩; exact ⟨_, h, rfl⟩

theorem addrs_append : addrs (l ++ l') = addrs l ++ addrs l' := List.filterMap_append

theorem addrs_cons_some {id : Nat} {c : Column C} : addrs ((some id, c) :: l) = id :: addrs l := rfl

theorem addrs_cons_none {c : Column C} : addrs ((none, c) :: l) = addrs l := rfl

theorem denotes_some {p : Option Nat} {c : Column C} {id : Nat} (h : StandsFor g p c) (hp : p = some id) : ∃ m, c = some m ∧ g id = some m := by
  subst hp
  cases c with
  | none => exact h.elim
  | some m => exact ⟨m, rfl, h⟩

theorem denotes_null {c : Column C} (h : StandsFor g none c) : c = none := by
  cases c with
  | none => rfl
  | some m => exact h.elim

theorem denotes_mono {p : Option Nat} {c : Column C} (h : StandsFor g p c) (hg : ∀ i m, g i = some m → g' i = some m) : StandsFor g' p c := by
  cases p with
  | none => rw [denotes_null h]; trivial
  | some id =>
    obtain ⟨m, rfl, hm⟩ := denotes_some h rfl
    exact hg _ _ hm

theorem Sep.alive (h : Sep r g l) {i : Nat} (hi : i ∈ addrs l) : g i ≠ none := by
  obtain ⟨c, hc⟩ := mem_addrs.1 hi
  obtain ⟨m, _, hm⟩ := denotes_some (h.vals _ _ hc) rfl
  rw [hm]; nofun

theorem Sep.ext (h : Sep r g l) (i : Nat) (m : Model C) (hi : r i = some m) : g i = some m := by
  rw [h.rest i, hi]
  intro hm
  rw [h.fresh i hm] at hi; cases hi

theorem sep_refl : Sep g g [] := ⟨List.nodup_nil, nofun, nofun, fun _ _ => rfl⟩

theorem sep_nil (h : Sep r g []) : g = r := funext fun i => h.rest i (by simp [addrs])

theorem sep_trans (h : Sep r g l) (h' : Sep g g' l') : Sep r g' (l' ++ l) := by
  have hd : ∀ i, i ∈ addrs l' → i ∉ addrs l := fun i hi hl => h.alive hl (h'.fresh i hi)
  refine ⟨?_, ?_, ?_, ?_⟩
  · rw [addrs_append]
    exact List.nodup_append.2 ⟨h'.nodup, h.nodup, fun a ha b hb hab => hd a ha (hab ▸ hb)⟩
  · intro p c hm
    rcases List.mem_append.1 hm with hm | hm
    · exact h'.vals _ _ hm
    · exact denotes_mono (h.vals _ _ hm) h'.ext
  · intro i hi
    rw [addrs_append] at hi
    by_cases hl : i ∈ addrs l
    · exact h.fresh i hl
    · have hi' := (List.mem_append.1 hi).resolve_right hl
      rw [← h.rest i hl]; exact h'.fresh i hi'
  · intro i hi
    rw [addrs_append, List.mem_append, not_or] at hi
    rw [h'.rest i hi.1, h.rest i hi.2]

theorem sep_perm (h : Sep r g l) (hp : l.Perm l') : Sep r g l' := by
  have ha : (addrs l).Perm (addrs l') := hp.filterMap _
  exact ⟨ha.nodup_iff.1 h.nodup, fun p c hm => h.vals p c (hp.mem_iff.2 hm), fun i hi => h.fresh i (ha.mem_iff.2 hi), fun i hi => h.rest i (fun hh => hi (ha.mem_iff.1 hh))⟩

theorem sep_swap {l1 l2 : List (Option Nat × Column C)} (h : Sep r g (l1 ++ l2)) : Sep r g (l2 ++ l1) := sep_perm h List.perm_append_comm

theorem sep_null (h : Sep r g l) : Sep r g ((none, none) :: l) := by
  refine ⟨h.nodup, ?_, h.fresh, h.rest⟩
  intro p c hm
  rcases List.mem_cons.1 hm with hm | hm
  · cases hm; trivial
  · exact h.vals _ _ hm

theorem sep_unnull {c : Column C} (h : Sep r g ((none, c) :: l)) : Sep r g l :=
  ⟨h.nodup, fun p c hm => h.vals p c (.tail _ hm), h.fresh, h.rest⟩

theorem sep_single {id : Nat} {m : Model C} (h : g id = none) (h1 : g' id = some m) (h2 : ∀ i, i ≠ id → g' i = g i) : Sep g g' [(some id, some m)] := by
  refine ⟨by simp [addrs], ?_, ?_, ?_⟩
  · intro p c hm
    rcases List.mem_cons.1 hm with hm | hm
    · cases hm; exact h1
    · cases hm
  · intro i hi
    have : i = id := by simpa [addrs] using hi
    rw [this]; exact h
  · intro i hi
    exact h2 i (by intro e; apply hi; simp [addrs, e])

/-! ### The operations on objects -/

theorem get_lt {h : CHeap C} {id : Nat} {m : Model C} (hg : h.get id = some m) : id < h.models.length := by
  by_contra hc
  unfold CHeap.get at hg
  rw [List.getElem?_eq_none (by omega)] at hg
  cases hg

theorem get_set {h : CHeap C} {id : Nat} (hid : id < h.models.length) (v : Option (Model C)) (i : Nat) :
    (CHeap.get { h with models := h.models.set id v } i) = if i = id then v else h.get i := by
  unfold CHeap.get
  dsimp only
  rw [List.getElem?_set]
  by_cases hi : id = i
  · subst hi; simp [hid]
  · simp [hi, Ne.symm hi]

theorem get_place {h : CHeap C} (m : Model C) (i : Nat) :
    (CHeap.get { h with models := h.models ++ [some m] } i) = if i = h.models.length then some m else h.get i := by
  unfold CHeap.get
  dsimp only
  by_cases hi : i < h.models.length
  · rw [List.getElem?_append_left hi, if_neg (by omega)]
  · rw [List.getElem?_append_right (by omega)]
    by_cases he : i = h.models.length
    · simp [he]
    · rw [if_neg he, List.getElem?_eq_none (by simp; omega), List.getElem?_eq_none (by omega)]

theorem get_new (h : CHeap C) : h.get h.models.length = none := by
  unfold CHeap.get; simp

/-- An allocation failed. -/
def Bad (S : Nat → Bool) (e : Exn) : Prop := e = .badAlloc ∧ Thr S

theorem sp_event {h : CHeap C} {P : Unit → CHeap C → Prop} {Q : Exn → CHeap C → Prop} {F : Fail → Prop} (hP : ∀ h' : CHeap C, h'.get = h.get → h'.models = h.models → P () h')
    (hQ : ∀ (e : Exn) (h' : CHeap C), Bad S e → h'.get = h.get → Q e h') : SP (cEvent S h) P Q F := by
  unfold cEvent
  split
  · next hS => exact hQ _ _ ⟨rfl, _, hS⟩ rfl
  · exact hP _ rfl rfl

theorem sp_events {P : Unit → CHeap C → Prop} {Q : Exn → CHeap C → Prop} {F : Fail → Prop} : ∀ {n : Nat} {h : CHeap C},
    (∀ h' : CHeap C, h'.get = h.get → P () h') → (∀ (e : Exn) (h' : CHeap C), Bad S e → h'.get = h.get → Q e h') → SP (cEvents S n h) P Q F
  | 0, h, hP, _ => hP h rfl
  | n + 1, h, hP, hQ => by
    unfold cEvents
    refine sp_bind (R := fun _ h' => h'.get = h.get) (sp_event (fun h' hg _ => hg) hQ) fun _ h' hg => ?_
    exact sp_events (fun h'' hg' => hP h'' (hg'.trans hg)) fun e h'' hb hg' => hQ e h'' hb (hg'.trans hg)

theorem sp_fetch {h : CHeap C} {id : Nat} {m : Model C} {P : Model C → CHeap C → Prop} {Q : Exn → CHeap C → Prop} {F : Fail → Prop} (hg : h.get id = some m) (hP : P m h) :
    SP (fetch id h) P Q F := by
  unfold fetch
  rw [hg]; exact hP

theorem sp_delete {h : CHeap C} {p : Option Nat} {c : Column C} (hs : Sep r h.get ((p, c) :: l)) :
    SP (deleteModel p h) (fun _ h' => Sep r h'.get l) (fun _ _ => False) (fun _ => False) := by
  unfold deleteModel
  cases p with
  | none => exact sep_unnull hs
  | some id =>
    obtain ⟨m, rfl, hm⟩ := denotes_some (hs.vals (some id) c (.head _)) rfl
    have hn : id ∉ addrs l := (List.nodup_cons.1 (addrs_cons_some (l := l) ▸ hs.nodup)).1
    dsimp only
    rw [hm]
    have hg := get_set (get_lt hm) none
    refine ⟨(List.nodup_cons.1 (addrs_cons_some (l := l) ▸ hs.nodup)).2, ?_, fun i hi => hs.fresh i (.tail _ hi), ?_⟩
    · intro p c hpc
      cases p with
      | none => rw [denotes_null (hs.vals none c (.tail _ hpc))]; trivial
      | some i =>
        obtain ⟨m', rfl, hm'⟩ := denotes_some (hs.vals (some i) c (.tail _ hpc)) rfl
        have : i ≠ id := fun e => hn (e ▸ mem_addrs.2 ⟨_, hpc⟩)
        show CHeap.get _ i = some m'
        rw [hg, if_neg this, hm']
    · intro i hi
      rw [hg]
      by_cases he : i = id
      · rw [if_pos he, he]
        exact (hs.fresh id (by rw [addrs_cons_some]; exact .head _)).symm
      · rw [if_neg he]
        exact hs.rest i (by rw [addrs_cons_some]; exact fun h => (List.mem_cons.1 h).elim he hi)

theorem sp_destroyCols : ∀ {ps : List (Option Nat)} {l1 l2 : List (Option Nat × Column C)} {h : CHeap C}, l1.map Prod.fst = ps → Sep r h.get (l1 ++ l2) →
    SP (destroyCols ps h) (fun _ h' => Sep r h'.get l2) (fun _ _ => False) (fun _ => False)
  | [], [], l2, h, _, hs => hs
  | p :: ps, (q, c) :: l1, l2, h, he, hs => by
    rw [List.map_cons, List.cons_eq_cons] at he
    obtain ⟨he, he'⟩ := he
    have he : q = p := he
    subst he
    unfold destroyCols
    exact sp_bind (sp_delete hs) fun _ h' hs' => sp_destroyCols he' hs'

theorem destroyAll_eq : ∀ es : List PNamed, (destroyAll es : CM C Unit) = destroyCols (es.map PNamed.ptr)
  | [] => rfl
  | e :: es => by
    unfold destroyAll
    rw [List.map_cons, destroyCols, destroyAll_eq es]

/-- The pointers of named columns, with the columns. -/
def held (es : List PNamed) (vs : List (Named C)) : List (Option Nat × Column C) := (es.map PNamed.ptr).zip (vs.map Named.col)

theorem held_fst {es : List PNamed} {vs : List (Named C)} (h : es.map PNamed.name = vs.map Named.name) : (held es vs).map Prod.fst = es.map PNamed.ptr := by
  have hl : es.length = vs.length := by simpa using congrArg List.length h
  unfold held
  rw [List.map_fst_zip]
  simp [hl]

theorem sp_destroyAll {es : List PNamed} {vs : List (Named C)} {h : CHeap C} (hn : es.map PNamed.name = vs.map Named.name) (hs : Sep r h.get (held es vs ++ l)) :
    SP (destroyAll es h) (fun _ h' => Sep r h'.get l) (fun _ _ => False) (fun _ => False) := by
  rw [destroyAll_eq]
  exact sp_destroyCols (held_fst hn) hs

/-- A computation that makes something new: its value is the one given; it leaves nothing behind if it throws. -/
def Makes (S : Nat → Bool) (h : CHeap C) (x : CM C β) (v : Res γ) (R : β → γ → List (Option Nat × Column C) → Prop) : Prop :=
  SP (x h) (fun b h' => ∃ w l, v = .ok w ∧ R b w l ∧ Sep h.get h'.get l) (fun e h' => h'.get = h.get ∧ (v = .error (.exc e) ∨ Bad S e)) (Fails v)

/-- A new column. -/
def IsCol (p : Option Nat) (c : Column C) (l : List (Option Nat × Column C)) : Prop := l = [(p, c)]

/-- A new named column. -/
def IsNamed (e : PNamed) (v : Named C) (l : List (Option Nat × Column C)) : Prop := e.name = v.name ∧ l = [(e.ptr, v.col)]

/-- New named columns. -/
def IsElems (es : List PNamed) (vs : List (Named C)) (l : List (Option Nat × Column C)) : Prop := es.map PNamed.name = vs.map Named.name ∧ l = held es vs

/-- A new data frame. -/
def IsFrame (D : PFrame) (E : DF C) (l : List (Option Nat × Column C)) : Prop := D.rows = E.rows ∧ D.index = E.index ∧ IsElems D.elems E.elems l

theorem makes_build (h : CHeap C) (m : Model C) : Makes S h (buildModel S m) (.ok (some m)) IsCol := by
  unfold Makes buildModel
  refine sp_bind (R := fun _ h' => h'.get = h.get) (sp_event (fun h' hg _ => hg) fun e h' hb hg => ⟨hg, .inr hb⟩) fun _ h1 g1 => ?_
  refine sp_bind (R := fun _ h' => h'.get = h.get) (sp_event (fun h' hg _ => hg.trans g1) fun e h' hb hg => ⟨hg.trans g1, .inr hb⟩) fun _ h2 g2 => ?_
  refine sp_bind (R := fun _ h' => h'.get = h.get) (sp_events (fun h' hg => hg.trans g2) fun e h' hb hg => ⟨hg.trans g2, .inr hb⟩) fun _ h3 g3 => ?_
  refine sp_bind (R := fun id h' => Sep h.get h'.get [(some id, some m)]) ?_ fun id h' hs => ⟨_, _, rfl, rfl, hs⟩
  unfold place
  rw [← g3]
  exact sep_single (get_new h3) (by rw [get_place, if_pos rfl]) fun i hi => by rw [get_place, if_neg hi]

theorem makes_clone {h : CHeap C} {id : Nat} {m : Model C} (hm : h.get id = some m) : Makes S h (clonePtr S id) (.ok (some m)) IsCol := by
  unfold Makes clonePtr
  exact sp_bind (R := fun b h' => b = m ∧ h' = h) (sp_fetch hm ⟨rfl, rfl⟩) fun b h' hb => by rw [hb.1, hb.2]; exact makes_build h m

theorem makes_partial {h : CHeap C} {id first size : Nat} {m : Model C} {A : Arith} (hm : h.get id = some m) :
    Makes S h (partialPtr S A id first size) (do let m' ← m.partialClone A first size; .ok (some m')) IsCol := by
  unfold Makes partialPtr
  refine sp_bind (R := fun b h' => b = m ∧ h' = h) (sp_fetch hm ⟨rfl, rfl⟩) fun b h' hb => ?_
  rw [hb.1, hb.2]
  refine sp_bind (R := fun b h' => m.partialClone A first size = .ok b ∧ h' = h) (sp_lift (fun b hb => ⟨hb, rfl⟩) (fun e he => ⟨rfl, .inl ?_⟩) fun f hf => ?_) fun b h' hb => ?_
  · rw [he]; rfl
  · refine ⟨?_, hf.2⟩; rw [hf.1]; rfl
  · rw [hb.1, hb.2]; exact makes_build h b

theorem sp_transform {s t : C.Ty} (f : C.Val s → Res (C.Val t)) {id : Nat} : ∀ (xs : List (C.Val s)) (done : List (C.Val t)) {h : CHeap C},
    Sep r h.get [(some id, some ⟨t, done⟩)] →
    SP (transformLoop S f id xs done h) (fun _ h' => ∃ ys, xs.mapM f = .ok ys ∧ Sep r h'.get [(some id, some ⟨t, done ++ ys⟩)])
      (fun e h' => (∃ m, Sep r h'.get [(some id, some m)]) ∧ (xs.mapM f = .error (.exc e) ∨ Bad S e)) (Fails (xs.mapM f))
  | [], done, h, hs => ⟨[], rfl, by rw [List.append_nil]; exact hs⟩
  | x :: xs, done, h, hs => by
    unfold transformLoop
    refine sp_bind (R := fun _ h' => h'.get = h.get) (sp_event (fun h' hg _ => hg) fun e h' hb hg => ⟨⟨_, by rw [hg]; exact hs⟩, .inr hb⟩) fun _ h1 g1 => ?_
    rw [← g1] at hs
    refine sp_bind (R := fun y h' => f x = .ok y ∧ h' = h1) (sp_lift (fun b hb => ⟨hb, rfl⟩) (fun e he => ⟨⟨_, hs⟩, .inl ?_⟩) fun f' hf => ?_) fun y h2 hy => ?_
    · rw [List.mapM_cons, he]; rfl
    · refine ⟨?_, hf.2⟩; rw [List.mapM_cons, hf.1]; rfl
    · obtain ⟨hy, rfl⟩ := hy
      have hid : h2.get id = some ⟨t, done⟩ := hs.vals _ _ (.head _)
      refine sp_bind (R := fun _ h' => Sep r h'.get [(some id, some ⟨t, done ++ [y]⟩)]) ?_ fun _ h3 hs3 => ?_
      · unfold store
        rw [hid]
        have hg := get_set (get_lt hid) (some (⟨t, done ++ [y]⟩ : Model C))
        refine ⟨hs.nodup, ?_, hs.fresh, ?_⟩
        · intro p c hm
          rcases List.mem_cons.1 hm with hm | hm
          · cases hm
            show CHeap.get _ id = _
            rw [hg, if_pos rfl]
          · cases hm
        · intro i hi
          rw [hg, if_neg (by intro e; apply hi; rw [e]; exact .head _)]
          exact hs.rest i hi
      · refine sp_mono (sp_transform f xs (done ++ [y]) hs3) ?_ ?_ ?_
        · rintro b h' ⟨ys, h1, h2⟩
          refine ⟨y :: ys, ?_, ?_⟩
          · rw [List.mapM_cons, hy, res_ok_bind, h1]; rfl
          · simpa using h2
        · rintro e h' ⟨h1, h2⟩
          refine ⟨h1, h2.imp (fun h => ?_) fun h => h⟩
          rw [List.mapM_cons, hy, res_ok_bind, h]; rfl
        · intro f' h1
          refine ⟨?_, h1.2⟩; rw [List.mapM_cons, hy, res_ok_bind, h1.1]; rfl

theorem makes_coerceImpl {s t : C.Ty} (f : C.Val s → Res (C.Val t)) (xs : List (C.Val s)) (h : CHeap C) :
    Makes S h (coerceImpl S f xs) (do let ys ← xs.mapM f; .ok (some ⟨t, ys⟩ : Column C)) IsCol := by
  unfold Makes coerceImpl
  refine sp_bind (R := fun _ h' => h'.get = h.get) (sp_event (fun h' hg _ => hg) fun e h' hb hg => ⟨hg, .inr hb⟩) fun _ h1 g1 => ?_
  refine sp_bind (R := fun id h' => Sep h.get h'.get [(some id, some ⟨t, []⟩)]) ?_ fun id h2 hs => ?_
  · unfold place
    rw [← g1]
    exact sep_single (get_new h1) (by rw [get_place, if_pos rfl]) fun i hi => by rw [get_place, if_neg hi]
  refine sp_deferred (R := fun q st => q = some id ∧ st.2 = none ∧ ∃ ys, xs.mapM f = .ok ys ∧ Sep h.get st.1.get [(some id, some ⟨t, ys⟩)])
    (R' := fun e st => st.2 = some id ∧ (∃ m, Sep h.get st.1.get [(some id, some m)]) ∧ (xs.mapM f = .error (.exc e) ∨ Bad S e)) ?_ ?_ ?_
  · refine sp_bind (R := fun _ st => st.2 = some id ∧ Sep h.get st.1.get [(some id, some ⟨t, []⟩)])
      (sp_inner (sp_event (fun h' hg _ => ⟨rfl, by rw [hg]; exact hs⟩) fun e h' hb hg => ⟨rfl, ⟨_, by rw [hg]; exact hs⟩, .inr hb⟩)) ?_
    rintro _ ⟨h3, l3⟩ ⟨hl, hs3⟩
    have hl : l3 = some id := hl
    subst hl
    refine sp_bind (R := fun _ st => st.2 = some id ∧ ∃ ys, xs.mapM f = .ok ys ∧ Sep h.get st.1.get [(some id, some ⟨t, ys⟩)])
      (sp_inner (sp_mono (sp_transform f xs [] hs3) (fun b h' hb => ⟨rfl, hb⟩) (fun e h' he => ⟨rfl, he⟩) fun f' hf => ?_)) ?_
    · refine ⟨?_, hf.2⟩; rw [hf.1]; rfl
    · rintro _ ⟨h4, l4⟩ ⟨hl, hs4⟩
      exact ⟨hl, rfl, hs4⟩
  · rintro q ⟨h3, l3⟩ ⟨rfl, hl, ys, h1, h2⟩
    have hl : l3 = none := hl
    subst hl
    exact ⟨_, _, by rw [h1]; rfl, rfl, h2⟩
  · rintro e ⟨h3, l3⟩ ⟨hl, ⟨m, hs3⟩, he⟩
    have hl : l3 = some id := hl
    subst hl
    refine sp_inner (sp_mono (sp_delete hs3) (fun _ h' hs' => ⟨sep_nil hs', he.imp (fun h => ?_) fun h => h⟩) (fun _ _ h => h) fun _ h => h)
    rw [h]; rfl

theorem makes_coerce {h : CHeap C} {id : Nat} {m : Model C} (hm : h.get id = some m) (T : C.Ty) :
    Makes S h (coercePtr S id T) (do let m' ← m.coerce T; .ok (some m')) IsCol := by
  unfold Makes coercePtr
  refine sp_bind (R := fun b h' => b = m ∧ h' = h) (sp_fetch hm ⟨rfl, rfl⟩) fun b h' hb => ?_
  obtain ⟨rfl, rfl⟩ := hb
  unfold Model.coerce
  by_cases hT : T ∈ C.targets
  · rw [if_pos hT, if_pos hT]
    cases hr : C.rule b.ty T with
    | none => exact ⟨rfl, .inl rfl⟩
    | some f =>
      have := makes_coerceImpl (S := S) f b.vals h'
      unfold Makes at this
      simp only [bind_assoc, res_ok_bind]
      exact this
  · rw [if_neg hT, if_neg hT]
    exact ⟨rfl, .inl rfl⟩

end

end Jules

import Verif.Spec.Throwing
import Verif.Props.Construct
import Verif.Props.Lifetime
/-
C67: exceptions thrown by user functions while arrays are constructed or assigned.
-/
namespace Jules.Props
open Spec

/-- A source of a value or an exception, on every heap that agrees with `h0` except on block `id`. -/
def GivesT (id : Nat) (h0 : Heap α) (src : HM α α) (r : Option α) : Prop :=
  ∀ h, (∀ j, j ≠ id → h.cells j = h0.cells j) → src h = callRes r h

theorem post_call {r : Option α} {h : Heap α} {P : α → Heap α → Prop} {Q : Exn → Heap α → Prop} (hp : ∀ v, r = some v → P v h)
    (hq : r = none → Q .user h) : Post (callRes r h) P Q := by
  cases r with
  | none => exact hq rfl
  | some v => exact hp v rfl

/-- The construction loop with sources that may throw. -/
theorem post_constructLoopT {S : Nat → Bool} {id : Nat} {h0 : Heap α} : ∀ {plan : List (Nat × HM α α)}
    {rs : List (Option α)} {done : List Nat} {h : Heap α} {c : List (Option α)}, h.cells id = some c → Same id h0 h →
    plan.length = rs.length → (∀ (j : Nat) (p : Nat × HM α α) (r : Option α), plan[j]? = some p → rs[j]? = some r → GivesT id h0 p.2 r) →
    (done ++ plan.map (·.1)).Nodup → (∀ k ∈ done, ∃ v, c[k]? = some (some v)) →
    (∀ k ∈ plan.map (·.1), c[k]? = some none) →
    Post (constructLoop S id done plan h)
      (fun _ h' => none ∉ rs ∧ ∃ c', h'.cells id = some c' ∧ c'.length = c.length ∧
        (∀ (j : Nat) (p : Nat × HM α α) (r : Option α), plan[j]? = some p → rs[j]? = some r → c'[p.1]? = some r) ∧
        (∀ q, q ∉ plan.map (·.1) → c'[q]? = c[q]?) ∧ Same id h0 h')
      (fun e h' => e = .user ∧ (none ∈ rs ∨ Thr S) ∧ ∃ c', h'.cells id = some c' ∧ c'.length = c.length ∧
        (∀ q ∈ done ++ plan.map (·.1), c'[q]? = some none) ∧
        (∀ q, q ∉ done ++ plan.map (·.1) → c'[q]? = c[q]?) ∧ Same id h0 h')
  | [], rs, done, h, c, hc, hs, hl, hg, hn, hd, hr => by
    have : rs = [] := by cases rs with | nil => rfl | cons => simp at hl
    subst this
    exact ⟨by simp, c, hc, rfl, by simp, by simp, hs⟩
  | (k, src) :: rest, [], done, h, c, hc, hs, hl, hg, hn, hd, hr => by simp at hl
  | (k, src) :: rest, r :: rs, done, h, c, hc, hs, hl, hg, hn, hd, hr => by
    have hsrc : src h = callRes r h := hg 0 (k, src) r rfl rfl h fun j hj => hs.cells j hj
    have hk : c[k]? = some none := hr k (by simp)
    have hlt : k < c.length := (List.getElem?_eq_some_iff.1 hk).1
    simp only [constructLoop]
    refine post_bind (R := fun _ h' => ∃ v, r = some v ∧ h'.cells id = some (c.set k (some v)) ∧ Same id h0 h') ?_ ?_
    · refine post_cleanup (R := fun e h' => e = .user ∧ (none ∈ r :: rs ∨ Thr S) ∧ h'.cells id = some c ∧ Same id h0 h') ?_ ?_
      · refine post_bind (R := fun w h' => r = some w ∧ h' = h) ?_ ?_
        · rw [hsrc]
          exact post_call (fun v hv => ⟨hv, rfl⟩) fun h => ⟨rfl, .inl (by simp [h]), hc, hs⟩
        · rintro w h' ⟨rfl, rfl⟩
          exact (post_constructAt hc hk).mono (fun _ h2 ⟨a, b⟩ => ⟨w, rfl, a, hs.trans b⟩)
            fun e h2 ⟨a, t, b, d⟩ => ⟨a, .inr t, b, hs.trans d⟩
      · rintro e h1 ⟨he, ht, h1c, h1s⟩
        have hnd : done.Nodup := (List.nodup_append.1 hn).1
        refine (post_destroyList h1c hnd hd).mono ?_ (fun _ _ h => h)
        rintro _ h2 ⟨c', a1, a2, a3, a4, a5⟩
        refine ⟨he, ht, c', a1, a2, ?_, ?_, h1s.trans a5⟩
        · intro q hq
          by_cases hqd : q ∈ done
          · exact a3 q hqd
          · rw [a4 q hqd]
            exact hr q ((List.mem_append.1 hq).resolve_left hqd)
        · intro q hq
          rw [List.mem_append, not_or] at hq
          exact a4 q hq.1
    · rintro _ h1 ⟨v, rfl, h1c, h1s⟩
      have hn' : ((done ++ [k]) ++ rest.map (·.1)).Nodup := by simpa using hn
      have hkr : k ∉ rest.map (·.1) := by
        have := (List.nodup_append.1 hn).2.1
        simp only [List.map_cons, List.nodup_cons] at this
        exact this.1
      have hkd : k ∉ done := by
        intro h
        exact (List.nodup_append.1 hn).2.2 k h k (by simp) rfl
      refine (post_constructLoopT (h0 := h0) (rs := rs) h1c h1s (by simpa using hl) ?_ hn' ?_ ?_).mono ?_ ?_
      · intro j p w hj hw
        exact hg (j + 1) p w (by simpa using hj) (by simpa using hw)
      · intro q hq
        rcases List.mem_append.1 hq with hq | hq
        · obtain ⟨w, hw⟩ := hd q hq
          exact ⟨w, by rw [List.getElem?_set_ne (by rintro rfl; exact hkd hq), hw]⟩
        · rw [List.mem_singleton] at hq
          subst hq
          exact ⟨v, by simp [hlt]⟩
      · intro q hq
        rw [List.getElem?_set_ne (by rintro rfl; exact hkr hq)]
        exact hr q (by simp only [List.map_cons, List.mem_cons]; exact .inr hq)
      · rintro _ h2 ⟨hnn, c', a1, a2, a3, a4, a5⟩
        refine ⟨by simpa using hnn, c', a1, by simpa using a2, ?_, ?_, a5⟩
        · intro j p w hj hw
          cases j with
          | zero =>
            simp only [List.getElem?_cons_zero, Option.some.injEq] at hj hw
            subst hj hw
            simp only
            rw [a4 k hkr]; simp [hlt]
          | succ j => exact a3 j p w (by simpa using hj) (by simpa using hw)
        · intro q hq
          simp only [List.map_cons, List.mem_cons, not_or] at hq
          rw [a4 q hq.2, List.getElem?_set_ne (Ne.symm hq.1)]
      · rintro e h2 ⟨he, ht, c', a1, a2, a3, a4, a5⟩
        refine ⟨he, ht.imp (fun h => by simp [h]) (fun h => h), c', a1, by simpa using a2, ?_, ?_, a5⟩
        · intro q hq
          exact a3 q (by simpa using hq)
        · intro q hq
          rw [a4 q (by simpa using hq)]
          rw [List.getElem?_set_ne]
          rintro rfl
          exact hq (by simp)

/-- Constructing all `n` cells of a block from sources that may throw. -/
theorem post_constructSeqT {S : Nat → Bool} {id n : Nat} {h0 h : Heap α} {src : Nat → HM α α} {rs : List (Option α)} (hl : rs.length = n)
    (hg : ∀ (k : Nat) (r : Option α), rs[k]? = some r → GivesT id h0 (src k) r)
    (hc : h.cells id = some (List.replicate n none)) (hs : Same id h0 h) :
    Post (constructLoop S id [] (seqPlan n src) h)
      (fun _ h' => none ∉ rs ∧ h'.cells id = some rs ∧ Same id h0 h')
      (fun e h' => e = .user ∧ (none ∈ rs ∨ Thr S) ∧ h'.cells id = some (List.replicate n none) ∧ Same id h0 h') := by
  refine (post_constructLoopT (h0 := h0) (rs := rs) (done := []) hc hs (by simp [seqPlan, hl]) ?_ (by simpa using nodup_seqPlan n src)
    (by simp) (fun q hq => ?_)).mono ?_ ?_
  · intro j p r hj hr
    obtain ⟨rfl, _⟩ := seqPlan_getElem? hj
    exact hg j r hr
  · rw [List.getElem?_replicate, if_pos (mem_seqPlan.1 hq)]
  · rintro _ h' ⟨h1, c', a1, a2, a3, a4, a5⟩
    refine ⟨h1, ?_, a5⟩
    rw [a1]
    congr 1
    apply List.ext_getElem?
    intro k
    by_cases hk : k < n
    · have hv : rs[k]? = some rs[k] := List.getElem?_eq_getElem (by omega)
      have hp : (seqPlan n src)[k]? = some (k, src k) := by simp [seqPlan, hk]
      rw [a3 k _ _ hp hv, hv]
    · rw [List.getElem?_eq_none (by simp at a2; omega), List.getElem?_eq_none (by omega)]
  · rintro e h' ⟨h1, h2, c', a1, a2, a3, a4, a5⟩
    refine ⟨h1, h2, ?_, a5⟩
    rw [a1]
    congr 1
    apply List.ext_getElem?
    intro k
    by_cases hk : k < n
    · rw [a3 k (by rw [List.nil_append]; exact mem_seqPlan.2 hk), List.getElem?_replicate, if_pos hk]
    · rw [List.getElem?_eq_none (by simp at a2; omega), List.getElem?_eq_none (by simp; omega)]

theorem gives_of_outcome {id : Nat} {h0 : Heap α} {e : HEx α} {k : Nat} {r : Option α} (ho : Outcome h0 e k r)
    (hid : h0.cells id = none) : GivesT id h0 (e.src k) r := by
  intro h hh
  induction ho with
  | @arr o j c k v hp hc hk =>
    have hj : j ≠ id := by rintro rfl; rw [hid] at hc; cases hc
    simp [HEx.src, ownSrc, hp, readAt, hh j hj, hc, hk, callRes, Pure.pure, HM.pure]
  | scalar => rfl
  | @un f e k x _ ih =>
    show HM.bind _ _ _ = _
    unfold HM.bind
    rw [ih]
    cases x <;> rfl
  | @bin f a b k x y _ _ iha ihb =>
    show HM.bind _ _ _ = _
    unfold HM.bind
    rw [iha]
    cases x with
    | none => rfl
    | some x =>
      show HM.bind _ _ _ = _
      unfold HM.bind
      rw [ihb]
      cases y <;> rfl

theorem none_not_mem {rs : List (Option α)} (h : none ∉ rs) : ∃ vs : List α, rs = vs.map some := by
  induction rs with
  | nil => exact ⟨[], rfl⟩
  | cons r rs ih =>
    simp only [List.mem_cons, not_or] at h
    obtain ⟨vs, rfl⟩ := ih h.2
    cases r with
    | none => exact absurd rfl h.1
    | some v => exact ⟨v :: vs, rfl⟩

theorem post_noexcept {b : Bool} {x : HM α β} {h : Heap α} {P : β → Heap α → Prop} {Q : Exn → Heap α → Prop} (hx : Post (x h) P Q)
    (hb : b = true → ∀ e h', ¬ Q e h') : Post (x.noexcept b h) P Q := by
  unfold HM.noexcept
  cases hr : x h with
  | ok v h' => rw [hr] at hx; exact hx
  | exn e h' =>
    rw [hr] at hx
    cases b with
    | false => exact hx
    | true => exact absurd hx (hb rfl e h')
  | fail f => rw [hr] at hx; exact hx.elim

theorem thr_elem {nx : Bool} {S : Nat → Bool} (h : Thr (elemEvents nx S)) : nx = false ∧ Thr S := by
  cases nx with
  | false => exact ⟨rfl, h⟩
  | true => obtain ⟨t, ht⟩ := h; cases ht

theorem post_newArrN {nx : Bool} {S : Nat → Bool} {ext : List Nat} {src : Nat → HM α α} {rs : List (Option α)} {h : Heap α}
    (hl : rs.length = prod ext) (hg : ∀ (k : Nat) (r : Option α), rs[k]? = some r → GivesT h.blocks.length h (src k) r)
    (hx : nx = false ∨ none ∉ rs) :
    Post (newArrN nx S ext src h)
      (fun o h' => none ∉ rs ∧ o = ⟨some h.blocks.length, ext⟩ ∧ h'.cells h.blocks.length = some rs ∧ Same h.blocks.length h h')
      (fun e h' => (e = .user ∧ none ∈ rs ∨ Thr S) ∧ Untouched h h') := by
  unfold newArrN
  rw [prodL_exact]
  refine post_bind (post_allocate.mono (fun _ _ h => h) fun e h' ⟨_, t, a, b⟩ => ⟨.inr t, a, b⟩) ?_
  rintro id h1 ⟨hid, h1c, h1s⟩
  subst hid
  refine post_bind (R := fun _ h' => none ∉ rs ∧ h'.cells h.blocks.length = some rs ∧ Same h.blocks.length h h') ?_ ?_
  · refine post_cleanup (R := fun e h' => (e = .user ∧ none ∈ rs ∨ Thr S) ∧ ∃ c', h'.cells h.blocks.length = some c' ∧ (∀ x ∈ c', x = none) ∧
      Same h.blocks.length h h') ?_ ?_
    · refine Post.mono (post_noexcept (post_constructSeqT hl hg h1c h1s) ?_) (fun _ _ h => h) ?_
      · rintro rfl e h' ⟨_, h2, _⟩
        rcases h2 with h2 | h2
        · rcases hx with hx | hx
          · cases hx
          · exact hx h2
        · exact absurd (thr_elem h2).1 (by simp)
      · rintro e h' ⟨he, h2, h3, h4⟩
        refine ⟨h2.imp (fun h => ⟨he, h⟩) fun h => (thr_elem h).2, _, h3, ?_, h4⟩
        intro x hx
        exact List.eq_of_mem_replicate hx
    · rintro e h2 ⟨ht, c', a1, a2, a3⟩
      refine (post_deallocate a1 a2).mono ?_ (fun _ _ h => h)
      rintro _ h3 ⟨b1, b2⟩
      refine ⟨ht, fun j => ?_, (a3.trans b2).lost⟩
      by_cases hj : j = h.blocks.length
      · subst hj; rw [b1, cells_fresh]
      · exact (a3.trans b2).cells j hj
  · rintro _ h2 ⟨a1, a2, a3⟩
    exact post_pure ⟨a1, rfl, a2, a3⟩

/-- **C67**, the part that holds: constructing an array from an expression whose functions may throw. If elements of the array's type may throw when they
are constructed, or no function throws: the array has the elements of the expression, or the exception reaches the caller and nothing is left
behind. Missing: element types that are constructed without exceptions (such as numbers) together with throwing functions, where the claim is false,
see `C67_construct_terminates`. -/
theorem C67_construct_partial {nx : Bool} {S : Nat → Bool} {ext : List Nat} (hne : ext ≠ []) {e : HEx α} {rs : List (Option α)} {h : Heap α}
    (hl : rs.length = prod ext) (ho : ∀ (k : Nat) (r : Option α), rs[k]? = some r → Outcome h e k r) (hx : nx = false ∨ none ∉ rs) :
    Post (newArrN nx S ext e.src h)
      (fun o h' => ∃ vs : List α, rs = vs.map some ∧ Holds h' o ext vs ∧ ∀ j, j ≠ h.blocks.length → h'.cells j = h.cells j)
      (fun x h' => (x = .user ∧ none ∈ rs ∨ Thr S) ∧ Untouched h h') := by
  refine (post_newArrN hl (fun k r hk => gives_of_outcome (ho k r hk) (cells_fresh h)) hx).mono ?_ (fun _ _ h => h)
  rintro o h' ⟨h1, rfl, h2, h3⟩
  obtain ⟨vs, rfl⟩ := none_not_mem h1
  exact ⟨vs, rfl, holds_of hne (by simpa using hl) h2, h3.cells⟩

theorem terminates_core {S : Nat → Bool} {ext : List Nat} {src : Nat → HM α α} {rs : List (Option α)} {h : Heap α} {id : Nat} {h1 : Heap α}
    (hl : rs.length = prod ext) (hg : ∀ (k : Nat) (r : Option α), rs[k]? = some r → GivesT id h (src k) r)
    (hc : h1.cells id = some (List.replicate (prod ext) none)) (hs : Same id h h1) (hn : none ∈ rs) :
    constructFrom true S id (prod ext) src h1 = .fail .terminate := by
  have := post_constructSeqT (S := elemEvents true S) hl hg hc hs
  unfold constructFrom HM.noexcept
  cases hr : constructLoop (elemEvents true S) id [] (seqPlan (prod ext) src) h1 with
  | ok v h' => rw [hr] at this; exact absurd hn this.1
  | exn e h' => rfl
  | fail f => rw [hr] at this; exact this.elim

theorem allocate_ok {S : Nat → Bool} {n : Nat} {h : Heap α} (hS : S h.clock = false) :
    ∃ h1, allocate S n h = .ok h.blocks.length h1 ∧ h1.cells h.blocks.length = some (List.replicate n none) ∧ Same h.blocks.length h h1 := by
  have := post_allocate (S := S) (n := n) (h := h)
  have he : allocate S n h = .ok h.blocks.length
      { h with clock := h.clock + 1, blocks := h.blocks ++ [some (List.replicate n none)] } := by
    simp [allocate, event, Bind.bind, HM.bind, hS]
  rw [he] at this
  exact ⟨_, he, this.2.1, this.2.2⟩

/-- C67 is false for element types constructed without exceptions, such as `double`: if a function applied to an element throws while an array is being
constructed from the expression (and the memory could be allocated), the program is terminated, because `construct` is declared `noexcept` for them. -/
theorem C67_construct_terminates {S : Nat → Bool} {ext : List Nat} {e : HEx α} {rs : List (Option α)} {h : Heap α}
    (hl : rs.length = prod ext) (ho : ∀ (k : Nat) (r : Option α), rs[k]? = some r → Outcome h e k r) (hn : none ∈ rs)
    (hS : S h.clock = false) : newArrN true S ext e.src h = .fail .terminate := by
  obtain ⟨h1, e1, e2, e3⟩ := allocate_ok (n := prod ext) hS
  unfold newArrN
  rw [prodL_exact]
  show HM.bind _ _ _ = _
  unfold HM.bind
  rw [e1]
  show HM.bind _ _ _ = _
  unfold HM.bind HM.cleanup
  rw [terminates_core hl (fun k r hk => gives_of_outcome (ho k r hk) (cells_fresh h)) e2 e3 hn]


/-! ### Assignment -/

/-- A source that may also read its own position of the target. -/
def GivesTAt (id : Nat) (h0 : Heap α) (k : Nat) (src : HM α α) (r : Option α) : Prop :=
  ∀ h, (∀ j, j ≠ id → h.cells j = h0.cells j) → (∀ c0, h0.cells id = some c0 → ∃ c, h.cells id = some c ∧ c[k]? = c0[k]?) → src h = callRes r h

theorem givesAt_of_outcome {id : Nat} {h0 : Heap α} {e : HEx α} {k : Nat} {r : Option α} (ho : Outcome h0 e k r) : GivesTAt id h0 k (e.src k) r := by
  intro h hh hk'
  induction ho with
  | @arr o j c k v hp hc hk =>
    by_cases hj : j = id
    · subst hj
      obtain ⟨c1, h1, h2⟩ := hk' c hc
      simp [HEx.src, ownSrc, hp, readAt, h1, h2, hk, callRes, Pure.pure, HM.pure]
    · simp [HEx.src, ownSrc, hp, readAt, hh j hj, hc, hk, callRes, Pure.pure, HM.pure]
  | scalar => rfl
  | @un f e k x _ ih =>
    show HM.bind _ _ _ = _
    unfold HM.bind
    rw [ih hk']
    cases x <;> rfl
  | @bin f a b k x y _ _ iha ihb =>
    show HM.bind _ _ _ = _
    unfold HM.bind
    rw [iha hk']
    cases x with
    | none => rfl
    | some x =>
      show HM.bind _ _ _ = _
      unfold HM.bind
      rw [ihb hk']
      cases y <;> rfl

/-- The copying loop with sources that may throw, from position `k` on. -/
theorem post_copyLoopT {S : Nat → Bool} {dst : Own} {id n : Nat} {h0 : Heap α} {src : Nat → HM α α} {rs : List (Option α)} {olds : List α}
    (hp : dst.ptr = some id) (hc0 : h0.cells id = some (olds.map some)) (hlo : olds.length = n) (hlr : rs.length = n)
    (hg : ∀ (k : Nat) (r : Option α), rs[k]? = some r → GivesTAt id h0 k (src k) r) :
    ∀ {m k : Nat} {ws : List α} {h : Heap α}, k + m = n → ws.length = k → rs.take k = ws.map some →
      h.cells id = some ((ws ++ olds.drop k).map some) → Same id h0 h →
    Post (copyLoop S dst src n (List.range' k m) h)
      (fun _ h' => ∃ vs : List α, rs = vs.map some ∧ h'.cells id = some (vs.map some) ∧ Same id h0 h')
      (fun e h' => e = .user ∧ ∃ (q : Nat) (vs : List α), q < n ∧ rs.take q = vs.map some ∧ (rs[q]? = some none ∨ Thr S) ∧
        h'.cells id = some ((vs ++ olds.drop q).map some) ∧ Same id h0 h')
  | 0, k, ws, h, hk, hw, ht, hc, hs => by
    have hkn : k = n := by omega
    subst hkn
    refine ⟨ws, ?_, ?_, hs⟩
    · rw [← ht, List.take_of_length_le (by omega)]
    · rw [hc, List.drop_of_length_le (by omega), List.append_nil]
  | m + 1, k, ws, h, hk, hw, ht, hc, hs => by
    have hkr : rs[k]? = some rs[k] := List.getElem?_eq_getElem (by omega)
    have hold : (ws ++ olds.drop k)[k]? = some olds[k] := by
      rw [List.getElem?_append_right (by omega)]; simp [hw]
    rw [List.range'_succ]
    simp only [copyLoop]
    refine post_bind (R := fun w h' => rs[k]? = some (some w) ∧ h' = h) ?_ ?_
    · rw [hg k _ hkr h (fun j hj => hs.cells j hj) ?_]
      · refine post_call (fun v hv => ⟨by rw [hkr, hv], rfl⟩) fun hn => ?_
        exact ⟨rfl, k, ws, by omega, ht, .inl (by rw [hkr, hn]), hc, hs⟩
      · intro c0 hc0'
        rw [hc0] at hc0'; cases hc0'
        refine ⟨_, hc, ?_⟩
        rw [List.getElem?_map, hold]
        simp [List.getElem?_eq_getElem (show k < olds.length by omega)]
    rintro w h' ⟨hw', rfl⟩
    rw [hp]
    refine post_bind (R := fun _ h' => h'.cells id = some (((ws ++ [w]) ++ olds.drop (k + 1)).map some) ∧ Same id h0 h') ?_ ?_
    · refine (post_assignAt hc (w := olds[k]) (by rw [List.getElem?_map, hold]; rfl)).mono ?_ ?_
      · rintro _ h1 ⟨a, b⟩
        refine ⟨?_, hs.trans b⟩
        rw [a, ← List.map_set]
        congr 2
        rw [List.set_append_right _ _ (by omega), hw, Nat.sub_self, List.drop_eq_getElem_cons (show k < olds.length by omega), List.set_cons_zero,
          List.append_assoc, List.singleton_append]
      · rintro e h1 ⟨a, t, b, d⟩
        exact ⟨a, k, ws, by omega, ht, .inr t, b, hs.trans d⟩
    · rintro _ h1 ⟨a, b⟩
      refine post_copyLoopT hp hc0 hlo hlr hg (m := m) (k := k + 1) (ws := ws ++ [w]) (by omega) (by simp [hw]) ?_ a b
      rw [List.take_add_one, ht, hw']
      simp

/-- **C67.** Assigning an expression to an array of the same size: afterwards the array has the expression's elements; or an exception reaches the caller,
thrown by a function at some position (or by the assignment of an element there): the elements before that position have been assigned, the
element there and the ones after it have their old values, and nothing else has changed. The expression may contain the array itself. -/
theorem C67_assign_same_size {nx : Bool} {S : Nat → Bool} {dst : Own} {ext : List Nat} (hne : ext ≠ []) {e : HEx α} {rs : List (Option α)}
    {olds : List α} {h : Heap α} {id : Nat} (hsz : prod dst.ext = prod ext) (hp : dst.ptr = some id) (hc : h.cells id = some (olds.map some))
    (hlo : olds.length = prod ext) (hl : rs.length = prod ext) (ho : ∀ (k : Nat) (r : Option α), rs[k]? = some r → Outcome h e k r) :
    Post (assignArrN nx S dst ext e.src h)
      (fun o h' => ∃ vs : List α, rs = vs.map some ∧ o.ptr = some id ∧ Holds h' o ext vs ∧ Same id h h')
      (fun x h' => x = .user ∧ ∃ (q : Nat) (vs : List α), q < prod ext ∧ rs.take q = vs.map some ∧ (rs[q]? = some none ∨ Thr S) ∧
        h'.cells id = some ((vs ++ olds.drop q).map some) ∧ Same id h h') := by
  unfold assignArrN
  rw [if_pos (by rw [own_size, prodL_exact, hsz]), own_size, hsz, List.range_eq_range']
  refine post_bind (post_copyLoopT (ws := []) hp hc hlo hl (fun k r hk => givesAt_of_outcome (ho k r hk)) (by omega) rfl (by simp) (by simpa using hc)
    Same.rfl') ?_
  rintro _ h' ⟨vs, a1, a2, a3⟩
  refine post_pure ⟨vs, a1, hp, ?_, a3⟩
  rw [hp]
  exact holds_of hne (by simpa [a1] using hl) a2

/-- **C67.** Assigning an expression to an array of another size, for element types whose construction may throw (or when no function throws): the array
gets the expression's elements in a new block and its old block is freed; or the exception reaches the caller and everything that existed before
is unchanged. -/
theorem C67_assign_resize_partial {nx : Bool} {S : Nat → Bool} {dst : Own} {ext : List Nat} (hne : ext ≠ []) {e : HEx α} {rs : List (Option α)} {h : Heap α}
    (hsz : prod dst.ext ≠ prod ext) (hd : ∀ id, dst.ptr = some id → ∃ vs : List α, h.cells id = some (vs.map some) ∧ vs.length = prod dst.ext)
    (hl : rs.length = prod ext) (ho : ∀ (k : Nat) (r : Option α), rs[k]? = some r → Outcome h e k r) (hx : nx = false ∨ none ∉ rs) :
    Post (assignArrN nx S dst ext e.src h)
      (fun o h' => ∃ vs : List α, rs = vs.map some ∧ Holds h' o ext vs ∧ h'.lost = h.lost ∧ (∀ id, dst.ptr = some id → h'.cells id = none) ∧
        ∀ j, dst.ptr ≠ some j → o.ptr ≠ some j → h'.cells j = h.cells j)
      (fun x h' => (x = .user ∧ none ∈ rs ∨ Thr S) ∧ h'.lost = h.lost ∧ ∀ j c, h.cells j = some c → h'.cells j = some c) := by
  have hfresh : ∀ {j c}, h.cells j = some c → j ≠ h.blocks.length := by
    rintro j c hj rfl; rw [cells_fresh] at hj; cases hj
  unfold assignArrN
  rw [if_neg (by rw [own_size, prodL_exact]; exact hsz), prodL_exact]
  refine post_bind (post_allocate.mono (fun _ _ h => h) fun x h' ⟨_, t, a, b⟩ => ⟨.inr t, b, fun j c hj => by rw [a, hj]⟩) ?_
  rintro id h1 ⟨rfl, h1c, h1s⟩
  refine post_bind (R := fun _ h' => none ∉ rs ∧ h'.cells h.blocks.length = some rs ∧ Same h.blocks.length h h') ?_ ?_
  · refine Post.mono (post_noexcept (post_constructSeqT hl (fun k r hk => gives_of_outcome (ho k r hk) (cells_fresh h)) h1c h1s) ?_)
      (fun _ _ h => h) ?_
    · rintro rfl x h' ⟨_, h2, _⟩
      rcases h2 with h2 | h2
      · rcases hx with hx | hx
        · cases hx
        · exact hx h2
      · exact absurd (thr_elem h2).1 (by simp)
    · rintro x h' ⟨he, h2, h3, h4⟩
      exact ⟨h2.imp (fun h => ⟨he, h⟩) fun h => (thr_elem h).2, h4.lost, fun j c hj => by rw [h4.cells j (hfresh hj), hj]⟩
  · rintro _ h2 ⟨a1, a2, a3⟩
    refine post_bind (R := fun _ h' => (∀ id, dst.ptr = some id → h'.cells id = none) ∧
      (∀ j, dst.ptr ≠ some j → h'.cells j = h2.cells j) ∧ h'.lost = h2.lost) ?_ ?_
    · refine (post_clear (o := dst) (h := h2) ?_).mono (fun _ _ h => h) (fun _ _ h => h.elim)
      intro id hid
      obtain ⟨vs, b1, b2⟩ := hd id hid
      exact ⟨vs, by rw [a3.cells id (hfresh b1), b1], b2⟩
    · rintro _ h3 ⟨b1, b2, b3⟩
      obtain ⟨vs, rfl⟩ := none_not_mem a1
      have hne' : dst.ptr ≠ some h.blocks.length := by
        intro hh
        obtain ⟨vs, c1, c2⟩ := hd _ hh
        exact hfresh c1 rfl
      refine post_pure ⟨vs, rfl, holds_of hne (by simpa using hl) (by rw [b2 _ hne', a2]), b3.trans a3.lost, b1, ?_⟩
      intro j hj hj'
      rw [b2 j hj, a3.cells j (fun h => hj' (by rw [h]))]

/-- For element types constructed without exceptions, the program is terminated when a function throws while an array is assigned an expression of another
size. -/
theorem C67_assign_resize_terminates {S : Nat → Bool} {dst : Own} {ext : List Nat} {e : HEx α} {rs : List (Option α)} {h : Heap α}
    (hsz : prod dst.ext ≠ prod ext) (hl : rs.length = prod ext) (ho : ∀ (k : Nat) (r : Option α), rs[k]? = some r → Outcome h e k r)
    (hn : none ∈ rs) (hS : S h.clock = false) : assignArrN true S dst ext e.src h = .fail .terminate := by
  obtain ⟨h1, e1, e2, e3⟩ := allocate_ok (n := prod ext) hS
  unfold assignArrN
  rw [if_neg (by rw [own_size, prodL_exact]; exact hsz), prodL_exact]
  show HM.bind _ _ _ = _
  unfold HM.bind
  rw [e1]
  show HM.bind _ _ _ = _
  unfold HM.bind
  rw [terminates_core hl (fun k r hk => gives_of_outcome (ho k r hk) (cells_fresh h)) e2 e3 hn]

/-! ### Generated arrays -/

theorem calls_length_le {σ : Type} (f : σ → Option (α × σ)) : ∀ (n : Nat) (s : σ), (calls f n s).length ≤ n
  | 0, _ => by simp [calls]
  | n + 1, s => by
    unfold calls
    cases f s with
    | none => simp
    | some r => have := calls_length_le f n r.2; simpa using this

/-- The results of `n` calls, padded to length `n`: after a call that throws nothing more is called. -/
theorem genSrc_getElem {σ : Type} (f : σ → Option (α × σ)) : ∀ (n : Nat) (s : σ) (k : Nat), k < n →
    (calls f n s)[k]? = some (((genState f k s).bind f).map Prod.fst) ∨ (none ∈ (calls f n s) ∧ ((genState f k s).bind f).map Prod.fst = none)
  | 0, _, _, h => by omega
  | n + 1, s, k, h => by
    unfold calls
    cases k with
    | zero => cases hf : f s <;> simp [genState, hf]
    | succ k =>
      cases hf : f s with
      | none => simp [genState, hf]
      | some r =>
        rcases genSrc_getElem f n r.2 k (by omega) with h | ⟨h1, h2⟩
        · left; simpa [genState, hf] using h
        · right; exact ⟨by simp [h1], by simpa [genState, hf] using h2⟩

/-- The outcome of position `k` of a generated sequence, for all positions below `n`. -/
def genRs {σ : Type} (f : σ → Option (α × σ)) (n : Nat) (s : σ) : List (Option α) :=
  (List.range n).map fun k => ((genState f k s).bind f).map Prod.fst

theorem genRs_gives {σ : Type} {f : σ → Option (α × σ)} {n : Nat} {s : σ} {id : Nat} {h0 : Heap α} {k : Nat} {r : Option α}
    (hk : (genRs f n s)[k]? = some r) : GivesT id h0 (genSrc f s k) r := by
  intro h _
  unfold genRs at hk
  rw [List.getElem?_map] at hk
  by_cases hkn : k < n
  · rw [List.getElem?_range hkn] at hk
    simp only [Option.map_some, Option.some.injEq] at hk
    rw [← hk]; rfl
  · rw [List.getElem?_eq_none (by simp; omega)] at hk
    cases hk

theorem calls_of_no_throw {σ : Type} {f : σ → Option (α × σ)} {n : Nat} {s : σ} (h : none ∉ calls f n s) : calls f n s = genRs f n s := by
  have hlen : ∀ (n : Nat) (s : σ), none ∉ calls f n s → (calls f n s).length = n := by
    intro n
    induction n with
    | zero => intro s _; rfl
    | succ n ih =>
      intro s hh
      unfold calls at hh ⊢
      cases hf : f s with
      | none => simp [hf] at hh
      | some r => simp only [hf, List.mem_cons, not_or] at hh ⊢; simp [ih r.2 hh.2]
  apply List.ext_getElem?
  intro k
  by_cases hk : k < n
  · rcases genSrc_getElem f n s k hk with h1 | ⟨h1, _⟩
    · rw [h1, genRs, List.getElem?_map, List.getElem?_range hk]; rfl
    · exact absurd h1 h
  · rw [List.getElem?_eq_none (by rw [hlen n s h]; omega), List.getElem?_eq_none (by simp [genRs]; omega)]

theorem genRs_none {σ : Type} {f : σ → Option (α × σ)} {n : Nat} {s : σ} : none ∈ genRs f n s ↔ none ∈ calls f n s := by
  constructor
  · intro h
    obtain ⟨k, hk⟩ := List.mem_iff_getElem?.1 h
    have hkn : k < n := by
      by_contra hc
      rw [List.getElem?_eq_none (by simp [genRs]; omega)] at hk; cases hk
    rw [genRs, List.getElem?_map, List.getElem?_range hkn] at hk
    rcases genSrc_getElem f n s k hkn with h1 | ⟨h1, _⟩
    · exact List.mem_iff_getElem?.2 ⟨k, by rw [h1]; exact hk⟩
    · exact h1
  · intro h
    by_contra hc
    obtain ⟨k, hk⟩ := List.mem_iff_getElem?.1 h
    have hkn : k < n := by
      by_contra hc'
      rw [List.getElem?_eq_none (by have := calls_length_le f n s; omega)] at hk; cases hk
    rcases genSrc_getElem f n s k hkn with h1 | ⟨_, h1⟩
    · apply hc
      refine List.mem_iff_getElem?.2 ⟨k, ?_⟩
      rw [genRs, List.getElem?_map, List.getElem?_range hkn]
      rw [hk] at h1; exact h1.symm ▸ rfl
    · apply hc
      refine List.mem_iff_getElem?.2 ⟨k, ?_⟩
      rw [genRs, List.getElem?_map, List.getElem?_range hkn, Option.map_some, h1]

/-- **C67.** Constructing an array from a generator, called once per element in order: the array has the generator's results, or an exception reaches the
caller and nothing is left behind. Missing, as for expressions: see `C67_generate_terminates`. -/
theorem C67_generate_partial {σ : Type} {nx : Bool} {S : Nat → Bool} {ext : List Nat} (hne : ext ≠ []) {f : σ → Option (α × σ)} {s : σ} {h : Heap α}
    (hx : nx = false ∨ none ∉ calls f (prod ext) s) :
    Post (genArr nx S f s ext h)
      (fun o h' => ∃ vs : List α, calls f (prod ext) s = vs.map some ∧ Holds h' o ext vs ∧ ∀ j, j ≠ h.blocks.length → h'.cells j = h.cells j)
      (fun x h' => (x = .user ∧ none ∈ calls f (prod ext) s ∨ Thr S) ∧ Untouched h h') := by
  have hl : (genRs f (prod ext) s).length = prod ext := by simp [genRs]
  unfold genArr
  refine (post_newArrN hl (fun k r hk => genRs_gives hk) (hx.imp (fun h => h) fun h => mt genRs_none.1 h)).mono ?_ ?_
  · rintro o h' ⟨h1, rfl, h2, h3⟩
    have h1' := mt genRs_none.2 h1
    obtain ⟨vs, hvs⟩ := none_not_mem h1'
    have hrs := calls_of_no_throw h1'
    refine ⟨vs, hvs, holds_of hne ?_ (by rw [h2, ← hrs, hvs]), h3.cells⟩
    rw [← hrs, hvs] at hl
    simpa using hl
  · rintro x h' ⟨h1, h2⟩
    exact ⟨h1.imp (fun h => ⟨h.1, genRs_none.1 h.2⟩) (fun h => h), h2⟩

/-- For element types constructed without exceptions, the program is terminated when a generator throws. -/
theorem C67_generate_terminates {σ : Type} {S : Nat → Bool} {ext : List Nat} {f : σ → Option (α × σ)} {s : σ} {h : Heap α}
    (hn : none ∈ calls f (prod ext) s) (hS : S h.clock = false) : genArr true S f s ext h = .fail .terminate := by
  obtain ⟨h1, e1, e2, e3⟩ := allocate_ok (n := prod ext) hS
  unfold genArr newArrN
  rw [prodL_exact]
  show HM.bind _ _ _ = _
  unfold HM.bind
  rw [e1]
  show HM.bind _ _ _ = _
  unfold HM.bind HM.cleanup
  rw [terminates_core (by simp [genRs]) (fun k r hk => genRs_gives hk) e2 e3 (genRs_none.2 hn)]

/-! ### Builder -/

/-- Moving an element into a builder: if its move constructor throws, the program is terminated (`push_back(T&&)` is always `noexcept`), whereas the
other forms report the exception and leave the builder as it was (`C26_push`). -/
theorem C67_push_back_move {S : Nat → Bool} {chk : Bool} {b : Builder} {vs : List α} {v : α} {h : Heap α} (hb : Building h b vs)
    (hroom : vs.length < prod b.ext) :
    (∃ b' h', builderPushMove S chk b v h = .ok b' h' ∧ b'.ext = b.ext ∧ b'.ptr = b.ptr ∧ Building h' b' (vs ++ [v])) ∨
      (S h.clock = true ∧ builderPushMove S chk b v h = .fail .terminate) := by
  have hp := C26_push (S := S) (chk := chk) (v := v) hb hroom
  unfold builderPushMove HM.noexcept
  cases hr : builderPush S chk b v h with
  | ok b' h' => rw [hr] at hp; exact .inl ⟨b', h', rfl, hp.1, hp.2.1, hp.2.2.1⟩
  | fail f => rw [hr] at hp; exact hp.elim
  | exn e h' =>
    right
    refine ⟨?_, rfl⟩
    by_contra hS
    obtain ⟨h1, h2, id, h3, h4⟩ := hb
    have hd : (dbg chk (b.count != prodL Arith.exact b.ext) : Res Unit) = .ok () := by
      have : b.count ≠ prod b.ext := by omega
      simp [dbg, prodL_exact, this]
    have hcell : (vs.map some ++ List.replicate (prod b.ext - vs.length) (none : Option α))[b.count]? = some none := by
      rw [List.getElem?_append_right (by simp [h1]), List.getElem?_replicate]
      simp [h1]; omega
    simp [builderPush, Bind.bind, HM.bind, HM.lift, hd, h3, constructAt, h4, hcell, event, hS, Pure.pure, HM.pure] at hr

/-! ### Concrete cases -/

/-- A function that throws on negative arguments. -/
def exRoot (x : Int) : Option Int := if x < 0 then none else some (x + 100)

/-- A heap with the array `{1, -2, 3}` in block 0. -/
def exThrowHeap : Heap Int := { blocks := [some [some 1, some (-2), some 3]], clock := 0, lost := 0 }

/-- The outcomes of `apply(a, f)`. -/
theorem exThrow_outcome : ∀ (k : Nat) (r : Option Int), ([some 101, none, some 103] : List (Option Int))[k]? = some r →
    Outcome exThrowHeap (.un exRoot (.arr ⟨some 0, [3]⟩)) k r := by
  intro k r hk
  match k, hk with
  | 0, hk => simp only [List.getElem?_cons_zero, Option.some.injEq] at hk; subst hk; exact .un (x := some (1)) (Outcome.arr (h := exThrowHeap) (id := 0) (k := 0) (c := [some 1, some (-2), some 3]) rfl rfl rfl)
  | 1, hk => simp only [List.getElem?_cons_succ, List.getElem?_cons_zero, Option.some.injEq] at hk; subst hk; exact .un (x := some (-2)) (Outcome.arr (h := exThrowHeap) (id := 0) (k := 1) (c := [some 1, some (-2), some 3]) rfl rfl rfl)
  | 2, hk => simp only [List.getElem?_cons_succ, List.getElem?_cons_zero, Option.some.injEq] at hk; subst hk; exact .un (x := some (3)) (Outcome.arr (h := exThrowHeap) (id := 0) (k := 2) (c := [some 1, some (-2), some 3]) rfl rfl rfl)

/-- `vector<double> b = apply(a, f);` terminates the program; with elements whose construction may throw, the exception reaches the caller. -/
example : (match newArrN true (fun _ => false) [3] (HEx.src (.un exRoot (.arr ⟨some 0, [3]⟩))) exThrowHeap with
    | .fail .terminate => true | _ => false) = true ∧
    (match newArrN false (fun _ => false) [3] (HEx.src (.un exRoot (.arr ⟨some 0, [3]⟩))) exThrowHeap with
    | .exn .user h => h.blocks == [some [some 1, some (-2), some 3], none] | _ => false) = true := by decide +kernel

/-- `a = apply(a, f);` throws after the first element has been assigned. -/
example : (match assignArrN true (fun _ => false) ⟨some 0, [3]⟩ [3] (HEx.src (.un exRoot (.arr ⟨some 0, [3]⟩))) exThrowHeap with
    | .exn .user h => h.blocks == [some [some 101, some (-2), some 3]] | _ => false) = true := by decide +kernel

/-- `c = apply(a, f);` with `c` of another size: terminated, or the exception reaches the caller and the new block is leaked. -/
example : (match assignArrN true (fun _ => false) ⟨none, [0]⟩ [3] (HEx.src (.un exRoot (.arr ⟨some 0, [3]⟩))) exThrowHeap with
    | .fail .terminate => true | _ => false) = true ∧
    (match assignArrN false (fun _ => false) ⟨none, [0]⟩ [3] (HEx.src (.un exRoot (.arr ⟨some 0, [3]⟩))) exThrowHeap with
    | .exn .user h => h.blocks == [some [some 1, some (-2), some 3], some [none, none, none]] | _ => false) = true := by decide +kernel

/-- A generator that counts and throws at its third call. -/
example : calls (fun s : Nat => if s = 2 then none else some (s * 10, s + 1)) 4 0 = [some 0, some 10, none] ∧
    calls (fun s : Nat => if s = 2 then none else some (s * 10, s + 1)) 2 0 = [some 0, some 10] ∧
    (match genArr true (fun _ => false) (fun s : Nat => if s = 2 then none else some (s * 10, s + 1)) 0 [2, 1] { blocks := [], clock := 0, lost := 0 } with
    | .ok _ h => h.blocks == [some [some 0, some 10]] | _ => false) = true := by decide +kernel

/-- A builder with room for two elements, one pushed. -/
example : Building (α := Nat) { blocks := [some [some 5, none]], clock := 0, lost := 0 } ⟨some 0, [2], 1⟩ [5] :=
  ⟨rfl, by decide, 0, rfl, rfl⟩

/-! ### The hypotheses hold in concrete cases -/

example := C67_construct_partial (nx := false) (S := fun _ => false) (ext := [3]) (by decide) (rs := [some 101, none, some 103]) rfl exThrow_outcome (.inl rfl)
example := C67_construct_terminates (S := fun _ => false) (ext := [3]) (rs := [some 101, none, some 103]) rfl exThrow_outcome (by decide) rfl
example := C67_assign_same_size (nx := true) (S := fun _ => false) (dst := ⟨some 0, [3]⟩) (ext := [3]) (by decide) (rs := [some 101, none, some 103]) (olds := [1, -2, 3]) (h := exThrowHeap) (id := 0)
  rfl rfl rfl rfl rfl exThrow_outcome
example := C67_assign_resize_partial (nx := false) (S := fun _ => false) (dst := ⟨none, [0]⟩) (ext := [3]) (by decide) (rs := [some 101, none, some 103]) (h := exThrowHeap) (by decide) nofun rfl
  exThrow_outcome (.inl rfl)
example := C67_assign_resize_terminates (S := fun _ => false) (dst := ⟨none, [0]⟩) (ext := [3]) (rs := [some 101, none, some 103]) (h := exThrowHeap) (by decide) rfl exThrow_outcome (by decide) rfl
example := C67_generate_partial (nx := true) (S := fun _ => false) (ext := [2, 1]) (by decide) (f := fun s : Nat => if s = 2 then none else some (s * 10, s + 1)) (s := 0) (h := ⟨[], 0, 0⟩)
  (.inr (by decide))
example := C67_generate_terminates (S := fun _ => false) (ext := [2, 2]) (f := fun s : Nat => if s = 2 then none else some (s * 10, s + 1)) (s := 0) (h := ⟨[], 0, 0⟩) (by decide) rfl

example := C67_push_back_move (S := fun _ => false) (chk := true) (v := 6) building_ex (by decide)

end Jules.Props

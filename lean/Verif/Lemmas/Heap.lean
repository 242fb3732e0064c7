import Verif.Model.Heap
import Verif.Lemmas.Index
/-
Lemmas about the heap model.
-/
namespace Jules
open Spec

/-- Weakest precondition: a normal result satisfies `P`, an exception satisfies `Q`, nothing else happens. -/
def Post (r : Out α β) (P : β → Heap α → Prop) (Q : Exn → Heap α → Prop) : Prop :=
  match r with
  | .ok b h => P b h
  | .exn e h => Q e h
  | .fail _ => False

theorem Post.mono {r : Out α β} {P P' : β → Heap α → Prop} {Q Q' : Exn → Heap α → Prop} (h : Post r P Q)
    (hP : ∀ b h, P b h → P' b h) (hQ : ∀ e h, Q e h → Q' e h) : Post r P' Q' := by
  cases r with
  | ok b h' => exact hP _ _ h
  | exn e h' => exact hQ _ _ h
  | fail f => exact h.elim

theorem post_bind {x : HM α β} {f : β → HM α γ} {h : Heap α} {P : γ → Heap α → Prop} {Q : Exn → Heap α → Prop}
    {R : β → Heap α → Prop} (hx : Post (x h) R Q) (hf : ∀ b h', R b h' → Post (f b h') P Q) :
    Post ((x >>= f) h) P Q := by
  change Post (HM.bind x f h) P Q
  unfold HM.bind
  cases hr : x h with
  | ok b h' => rw [hr] at hx; exact hf b h' hx
  | exn e h' => rw [hr] at hx; exact hx
  | fail f => rw [hr] at hx; exact hx.elim

theorem post_pure {b : β} {h : Heap α} {P : β → Heap α → Prop} {Q : Exn → Heap α → Prop} (hp : P b h) :
    Post ((pure b : HM α β) h) P Q := hp

theorem post_cleanup {x : HM α β} {c : HM α Unit} {h : Heap α} {P : β → Heap α → Prop}
    {Q R : Exn → Heap α → Prop} (hx : Post (x h) P R)
    (hc : ∀ e h', R e h' → Post (c h') (fun _ h'' => Q e h'') (fun _ _ => False)) :
    Post (x.cleanup c h) P Q := by
  unfold HM.cleanup
  cases hr : x h with
  | ok b h' => rw [hr] at hx; exact hx
  | exn e h' =>
    rw [hr] at hx
    have := hc e h' hx
    cases hr' : c h' with
    | ok b h'' =>
      rw [hr'] at this
      simp only [hr']; exact this
    | exn e h'' => rw [hr'] at this; exact this.elim
    | fail f => rw [hr'] at this; exact this.elim
  | fail f => rw [hr] at hx; exact hx.elim

/-- The schedule has a throwing event. -/
def Thr (S : Nat → Bool) : Prop := ∃ t, S t = true

theorem post_event {S : Nat → Bool} {e : Exn} {h : Heap α} {P : Unit → Heap α → Prop} {Q : Exn → Heap α → Prop}
    (hp : P () { h with clock := h.clock + 1 }) (hq : Thr S → Q e { h with clock := h.clock + 1 }) :
    Post (event S e h) P Q := by
  unfold event; split
  · next hS => exact hq ⟨_, hS⟩
  · exact hp

/-! ### Cells -/

theorem cells_lt {h : Heap α} {id : Nat} {c : List (Option α)} (hc : h.cells id = some c) :
    id < h.blocks.length := by
  unfold Heap.cells at hc
  cases hb : h.blocks[id]? with
  | none => rw [hb] at hc; cases hc
  | some b => exact (List.getElem?_eq_some_iff.1 hb).1

@[simp] theorem cells_clock (h : Heap α) (t : Nat) (id : Nat) : ({ h with clock := t } : Heap α).cells id = h.cells id := rfl
@[simp] theorem cells_lost (h : Heap α) (t : Nat) (id : Nat) : ({ h with lost := t } : Heap α).cells id = h.cells id := rfl

theorem cells_setCells_same {h : Heap α} {id : Nat} {c : List (Option α)} (hl : id < h.blocks.length) :
    (h.setCells id c).cells id = some c := by
  simp [Heap.cells, Heap.setCells, hl]

theorem cells_setCells_ne {h : Heap α} {id j : Nat} {c : List (Option α)} (hne : j ≠ id) :
    (h.setCells id c).cells j = h.cells j := by
  simp [Heap.cells, Heap.setCells, List.getElem?_set_ne hne.symm]

theorem cells_free_same (h : Heap α) (id : Nat) (t : Nat) :
    ({ h with blocks := h.blocks.set id none, lost := t } : Heap α).cells id = none := by
  simp only [Heap.cells]
  rw [List.getElem?_set]
  split
  · split <;> rfl
  · next h' => exact (h' rfl).elim

theorem cells_free_ne {h : Heap α} {id j : Nat} (t : Nat) (hne : j ≠ id) :
    ({ h with blocks := h.blocks.set id none, lost := t } : Heap α).cells j = h.cells j := by
  simp [Heap.cells, List.getElem?_set_ne hne.symm]

theorem cells_alloc_same (h : Heap α) (b : List (Option α)) :
    ({ h with blocks := h.blocks ++ [some b] } : Heap α).cells h.blocks.length = some b := by
  simp [Heap.cells]

theorem cells_alloc_ne {h : Heap α} (b : List (Option α)) {j : Nat} (hne : j ≠ h.blocks.length) :
    ({ h with blocks := h.blocks ++ [some b] } : Heap α).cells j = h.cells j := by
  simp only [Heap.cells]
  by_cases hj : j < h.blocks.length
  · rw [List.getElem?_append_left hj]
  · rw [List.getElem?_eq_none (by simp; omega), List.getElem?_eq_none (by omega)]

theorem cells_fresh (h : Heap α) : h.cells h.blocks.length = none := by simp [Heap.cells]

/-- The two heaps agree on all blocks but `id`, and on the lost elements. -/
structure Same (id : Nat) (h h' : Heap α) : Prop where
  cells : ∀ j, j ≠ id → h'.cells j = h.cells j
  lost : h'.lost = h.lost

theorem Same.rfl' {id : Nat} {h : Heap α} : Same id h h := ⟨fun _ _ => rfl, rfl⟩
theorem Same.trans {id : Nat} {h h' h'' : Heap α} (a : Same id h h') (b : Same id h' h'') : Same id h h'' :=
  ⟨fun j hj => (b.cells j hj).trans (a.cells j hj), b.lost.trans a.lost⟩

/-! ### Primitive operations -/

theorem post_allocate {S : Nat → Bool} {n : Nat} {h : Heap α} :
    Post (allocate S n h)
      (fun id h' => id = h.blocks.length ∧ h'.cells id = some (List.replicate n none) ∧ Same id h h')
      (fun e h' => e = .badAlloc ∧ Thr S ∧ (∀ j, h'.cells j = h.cells j) ∧ h'.lost = h.lost) := by
  unfold allocate
  refine post_bind (R := fun _ h' => h' = { h with clock := h.clock + 1 }) (post_event rfl ?_) ?_
  · exact fun t => ⟨rfl, t, fun _ => rfl, rfl⟩
  · rintro _ h' rfl
    refine ⟨rfl, cells_alloc_same _ _, ⟨fun j hj => ?_, rfl⟩⟩
    exact (cells_alloc_ne (h := { h with clock := h.clock + 1 }) _ hj).trans rfl

theorem post_deallocate {id : Nat} {h : Heap α} {c : List (Option α)} (hc : h.cells id = some c)
    (hraw : ∀ x ∈ c, x = none) :
    Post (deallocate id h) (fun _ h' => h'.cells id = none ∧ Same id h h') (fun _ _ => False) := by
  unfold deallocate
  rw [hc]
  have : (c.filter Option.isSome).length = 0 := by
    rw [List.length_eq_zero_iff, List.filter_eq_nil_iff]
    intro x hx; rw [hraw x hx]; simp
  refine ⟨cells_free_same _ _ _, fun j hj => cells_free_ne _ hj, ?_⟩
  simp [this]

theorem post_destroyAt {id k : Nat} {h : Heap α} {c : List (Option α)} {v : α} (hc : h.cells id = some c)
    (hk : c[k]? = some (some v)) :
    Post (destroyAt id k h) (fun _ h' => h'.cells id = some (c.set k none) ∧ Same id h h') (fun _ _ => False) := by
  unfold destroyAt
  rw [hc]; simp only [hk]
  exact ⟨cells_setCells_same (cells_lt hc), fun j hj => cells_setCells_ne hj, rfl⟩

theorem post_constructAt {S : Nat → Bool} {id k : Nat} {v : α} {h : Heap α} {c : List (Option α)}
    (hc : h.cells id = some c) (hk : c[k]? = some none) :
    Post (constructAt S id k v h) (fun _ h' => h'.cells id = some (c.set k (some v)) ∧ Same id h h')
      (fun e h' => e = .user ∧ Thr S ∧ h'.cells id = some c ∧ Same id h h') := by
  unfold constructAt
  rw [hc]; simp only [hk]
  refine post_bind (R := fun _ h' => h' = { h with clock := h.clock + 1 }) (post_event rfl ?_) ?_
  · exact fun t => ⟨rfl, t, hc, fun _ _ => rfl, rfl⟩
  · rintro _ h' rfl
    refine ⟨?_, fun j hj => ?_, by simp⟩
    · exact cells_setCells_same (h := { h with clock := h.clock + 1 }) (cells_lt (h := h) hc)
    · exact (cells_setCells_ne (h := { h with clock := h.clock + 1 }) hj).trans rfl

theorem post_assignAt {S : Nat → Bool} {id k : Nat} {v w : α} {h : Heap α} {c : List (Option α)}
    (hc : h.cells id = some c) (hk : c[k]? = some (some w)) :
    Post (assignAt S id k v h) (fun _ h' => h'.cells id = some (c.set k (some v)) ∧ Same id h h')
      (fun e h' => e = .user ∧ Thr S ∧ h'.cells id = some c ∧ Same id h h') := by
  unfold assignAt
  rw [hc]; simp only [hk]
  refine post_bind (R := fun _ h' => h' = { h with clock := h.clock + 1 }) (post_event rfl ?_) ?_
  · exact fun t => ⟨rfl, t, hc, fun _ _ => rfl, rfl⟩
  · rintro _ h' rfl
    refine ⟨?_, fun j hj => ?_, rfl⟩
    · exact cells_setCells_same (h := { h with clock := h.clock + 1 }) (cells_lt (h := h) hc)
    · exact (cells_setCells_ne (h := { h with clock := h.clock + 1 }) hj).trans rfl

/-! ### Loops -/

/-- Destroying distinct constructed elements makes exactly them raw. -/
theorem post_destroyList {id : Nat} : ∀ {ks : List Nat} {h : Heap α} {c : List (Option α)},
    h.cells id = some c → ks.Nodup → (∀ k ∈ ks, ∃ v, c[k]? = some (some v)) →
    Post (destroyList id ks h)
      (fun _ h' => ∃ c', h'.cells id = some c' ∧ c'.length = c.length ∧ (∀ k ∈ ks, c'[k]? = some none) ∧
        (∀ q, q ∉ ks → c'[q]? = c[q]?) ∧ Same id h h') (fun _ _ => False)
  | [], h, c, hc, _, _ => ⟨c, hc, rfl, by simp, by simp, .rfl'⟩
  | k :: ks, h, c, hc, hn, hv => by
    obtain ⟨hk, hn⟩ := List.nodup_cons.1 hn
    obtain ⟨v, hkv⟩ := hv k (by simp)
    have hlt : k < c.length := (List.getElem?_eq_some_iff.1 hkv).1
    refine post_bind (post_destroyAt hc hkv) ?_
    rintro _ h1 ⟨h1c, h1s⟩
    refine (post_destroyList h1c hn ?_).mono ?_ (fun _ _ h => h)
    · intro q hq
      obtain ⟨w, hw⟩ := hv q (by simp [hq])
      exact ⟨w, by rw [List.getElem?_set_ne (by rintro rfl; exact hk hq), hw]⟩
    · rintro _ h2 ⟨c', hc', hl, h3, h4, h5⟩
      refine ⟨c', hc', by simpa using hl, ?_, ?_, h1s.trans h5⟩
      · intro q hq
        rcases List.mem_cons.1 hq with rfl | hq
        · rw [h4 q hk]; simp [hlt]
        · exact h3 q hq
      · intro q hq
        simp only [List.mem_cons, not_or] at hq
        rw [h4 q hq.2, List.getElem?_set_ne (Ne.symm hq.1)]

theorem post_destroyN {id n : Nat} {h : Heap α} {c : List (Option α)} (hc : h.cells id = some c)
    (hn : n ≤ c.length) (hv : ∀ k, k < n → ∃ v, c[k]? = some (some v)) (hr : ∀ k, n ≤ k → k < c.length → c[k]? = some none) :
    Post (destroyN id n h) (fun _ h' => ∃ c', h'.cells id = some c' ∧ (∀ x ∈ c', x = none) ∧ Same id h h')
      (fun _ _ => False) := by
  unfold destroyN
  refine (post_destroyList hc List.nodup_range (by simpa using hv)).mono ?_ (fun _ _ h => h)
  rintro _ h' ⟨c', h1, h2, h3, h4, h5⟩
  refine ⟨c', h1, ?_, h5⟩
  intro x hx
  obtain ⟨k, hk⟩ := List.mem_iff_getElem?.1 hx
  have hlt : k < c'.length := (List.getElem?_eq_some_iff.1 hk).1
  by_cases hkn : k < n
  · rw [h3 k (by simpa using hkn)] at hk; exact (Option.some.inj hk).symm
  · rw [h4 k (by simpa using hkn), hr k (by omega) (by omega)] at hk; exact (Option.some.inj hk).symm

/-- A source of a value: delivers `v` on every heap that agrees with `h0` except on block `id`. -/
def Good (id : Nat) (h0 : Heap α) (src : HM α α) (v : α) : Prop :=
  ∀ h, (∀ j, j ≠ id → h.cells j = h0.cells j) → src h = .ok v h

/-- The construction loop: on success exactly the planned cells are constructed with the planned values; on
an exception all of them, and those done before, are raw again. -/
theorem post_constructLoop {S : Nat → Bool} {id : Nat} {h0 : Heap α} : ∀ {plan : List (Nat × HM α α)}
    {vs : List α} {done : List Nat} {h : Heap α} {c : List (Option α)}, h.cells id = some c → Same id h0 h →
    plan.length = vs.length → (∀ (j : Nat) (p : Nat × HM α α) (v : α), plan[j]? = some p → vs[j]? = some v → Good id h0 p.2 v) →
    (done ++ plan.map (·.1)).Nodup → (∀ k ∈ done, ∃ v, c[k]? = some (some v)) →
    (∀ k ∈ plan.map (·.1), c[k]? = some none) →
    Post (constructLoop S id done plan h)
      (fun _ h' => ∃ c', h'.cells id = some c' ∧ c'.length = c.length ∧
        (∀ (j : Nat) (p : Nat × HM α α) (v : α), plan[j]? = some p → vs[j]? = some v → c'[p.1]? = some (some v)) ∧
        (∀ q, q ∉ plan.map (·.1) → c'[q]? = c[q]?) ∧ Same id h0 h')
      (fun e h' => e = .user ∧ Thr S ∧ ∃ c', h'.cells id = some c' ∧ c'.length = c.length ∧
        (∀ q ∈ done ++ plan.map (·.1), c'[q]? = some none) ∧
        (∀ q, q ∉ done ++ plan.map (·.1) → c'[q]? = c[q]?) ∧ Same id h0 h')
  | [], vs, done, h, c, hc, hs, hl, hg, hn, hd, hr => ⟨c, hc, rfl, by simp, by simp, hs⟩
  | (k, src) :: rest, [], done, h, c, hc, hs, hl, hg, hn, hd, hr => by simp at hl
  | (k, src) :: rest, v :: vs, done, h, c, hc, hs, hl, hg, hn, hd, hr => by
    have hsrc : src h = .ok v h := hg 0 (k, src) v rfl rfl h fun j hj => hs.cells j hj
    have hk : c[k]? = some none := hr k (by simp)
    have hlt : k < c.length := (List.getElem?_eq_some_iff.1 hk).1
    simp only [constructLoop]
    refine post_bind (R := fun _ h' => h'.cells id = some (c.set k (some v)) ∧ Same id h0 h') ?_ ?_
    · refine post_cleanup (R := fun e h' => e = .user ∧ Thr S ∧ h'.cells id = some c ∧ Same id h0 h') ?_ ?_
      · refine post_bind (R := fun w h' => w = v ∧ h' = h) (by rw [hsrc]; exact ⟨rfl, rfl⟩) ?_
        rintro w h' ⟨rfl, rfl⟩
        exact (post_constructAt hc hk).mono (fun _ h2 ⟨a, b⟩ => ⟨a, hs.trans b⟩)
          fun e h2 ⟨a, t, b, d⟩ => ⟨a, t, b, hs.trans d⟩
      · rintro e h1 ⟨he, ht, h1c, h1s⟩
        have hnd : done.Nodup := (List.nodup_append.1 hn).1
        refine (post_destroyList h1c hnd hd).mono ?_ (fun _ _ h => h)
        rintro _ h2 ⟨c', a1, a2, a3, a4, a5⟩
        refine ⟨he, ht, c', a1, a2, ?_, ?_, h1s.trans a5⟩
        · intro q hq
          by_cases hqd : q ∈ done
          · exact a3 q hqd
          · rw [a4 q hqd]
            exact hr q ((List.mem_append.1 hq).resolve_left hqd)
        · intro q hq
          rw [List.mem_append, not_or] at hq
          exact a4 q hq.1
    · rintro _ h1 ⟨h1c, h1s⟩
      have hn' : ((done ++ [k]) ++ rest.map (·.1)).Nodup := by simpa using hn
      have hkr : k ∉ rest.map (·.1) := by
        have := (List.nodup_append.1 hn).2.1
        simp only [List.map_cons, List.nodup_cons] at this
        exact this.1
      have hkd : k ∉ done := by
        intro h
        exact (List.nodup_append.1 hn).2.2 k h k (by simp) rfl
      refine (post_constructLoop (h0 := h0) (vs := vs) h1c h1s (by simpa using hl) ?_ hn' ?_ ?_).mono ?_ ?_
      · intro j p w hj hw
        exact hg (j + 1) p w (by simpa using hj) (by simpa using hw)
      · intro q hq
        rcases List.mem_append.1 hq with hq | hq
        · obtain ⟨w, hw⟩ := hd q hq
          exact ⟨w, by rw [List.getElem?_set_ne (by rintro rfl; exact hkd hq), hw]⟩
        · rw [List.mem_singleton] at hq
          subst hq
          exact ⟨v, by simp [hlt]⟩
      · intro q hq
        rw [List.getElem?_set_ne (by rintro rfl; exact hkr hq)]
        exact hr q (by simp only [List.map_cons, List.mem_cons]; exact .inr hq)
      · rintro _ h2 ⟨c', a1, a2, a3, a4, a5⟩
        refine ⟨c', a1, by simpa using a2, ?_, ?_, a5⟩
        · intro j p w hj hw
          cases j with
          | zero =>
            simp only [List.getElem?_cons_zero, Option.some.injEq] at hj hw
            subst hj hw
            simp only
            rw [a4 k hkr]; simp [hlt]
          | succ j => exact a3 j p w (by simpa using hj) (by simpa using hw)
        · intro q hq
          simp only [List.map_cons, List.mem_cons, not_or] at hq
          rw [a4 q hq.2, List.getElem?_set_ne (Ne.symm hq.1)]
      · rintro e h2 ⟨he, ht, c', a1, a2, a3, a4, a5⟩
        refine ⟨he, ht, c', a1, by simpa using a2, ?_, ?_, a5⟩
        · intro q hq
          exact a3 q (by simpa using hq)
        · intro q hq
          rw [a4 q (by simpa using hq)]
          rw [List.getElem?_set_ne]
          rintro rfl
          exact hq (by simp)

end Jules

namespace Jules
open Spec

theorem nodup_seqPlan (n : Nat) (src : Nat → HM α α) : ((seqPlan n src).map (·.1)).Nodup := by
  have : (seqPlan n src).map (·.1) = List.range n := by
    simp [seqPlan, List.map_map, Function.comp_def]
  rw [this]; exact List.nodup_range

theorem mem_seqPlan {n : Nat} {src : Nat → HM α α} {q : Nat} : q ∈ (seqPlan n src).map (·.1) ↔ q < n := by
  have : (seqPlan n src).map (·.1) = List.range n := by
    simp [seqPlan, List.map_map, Function.comp_def]
  rw [this, List.mem_range]

theorem seqPlan_getElem? {n k : Nat} {src : Nat → HM α α} {p : Nat × HM α α} (h : (seqPlan n src)[k]? = some p) :
    p = (k, src k) ∧ k < n := by
  simp only [seqPlan, List.getElem?_map, Option.map_eq_some_iff] at h
  obtain ⟨a, ha, rfl⟩ := h
  have hlt : k < n := by simpa using (List.getElem?_eq_some_iff.1 ha).1
  rw [List.getElem?_range hlt] at ha
  cases ha; exact ⟨rfl, hlt⟩

/-- A plan for a block of `n` cells: every position once, each with a good source. -/
structure PlanOK (id n : Nat) (h0 : Heap α) (plan : List (Nat × HM α α)) (vs : List α) : Prop where
  len : plan.length = vs.length
  good : ∀ (j : Nat) (p : Nat × HM α α) (v : α), plan[j]? = some p → vs[j]? = some v → Good id h0 p.2 v
  nodup : (plan.map (·.1)).Nodup
  mem : ∀ q, q ∈ plan.map (·.1) ↔ q < n

/-- What `newArr` does. -/
theorem post_newArr {S : Nat → Bool} {ext : List Nat} {plan : List (Nat × HM α α)} {vs : List α} {h : Heap α}
    (hp : PlanOK h.blocks.length (prod ext) h plan vs) :
    Post (newArr S ext plan h)
      (fun o h' => ∃ c, o = ⟨some h.blocks.length, ext⟩ ∧ h'.cells h.blocks.length = some c ∧ c.length = prod ext ∧
        (∀ (j : Nat) (p : Nat × HM α α) (v : α), plan[j]? = some p → vs[j]? = some v → c[p.1]? = some (some v)) ∧
        Same h.blocks.length h h')
      (fun _ h' => Thr S ∧ (∀ j, h'.cells j = h.cells j) ∧ h'.lost = h.lost) := by
  unfold newArr
  refine post_bind (post_allocate.mono (fun _ _ h => h) fun e h' ⟨_, t, a, b⟩ => ⟨t, a, b⟩) ?_
  rintro id h1 ⟨hid, h1c, h1s⟩
  subst hid
  have hr : ∀ q ∈ plan.map (·.1), (List.replicate (prodL Arith.exact ext) (none : Option α))[q]? = some none := by
    intro q hq
    rw [prodL_exact]
    have := (hp.mem q).1 hq
    simp [this]
  refine post_bind (R := fun _ h' => ∃ c', h'.cells h.blocks.length = some c' ∧ c'.length = prod ext ∧
      (∀ (j : Nat) (p : Nat × HM α α) (v : α), plan[j]? = some p → vs[j]? = some v → c'[p.1]? = some (some v)) ∧
      Same h.blocks.length h h') ?_ ?_
  · refine post_cleanup (R := fun e h' => Thr S ∧ ∃ c', h'.cells h.blocks.length = some c' ∧ (∀ x ∈ c', x = none) ∧
      Same h.blocks.length h h') ?_ ?_
    · refine (post_constructLoop (h0 := h) (vs := vs) (done := []) h1c h1s hp.len hp.good (by simpa using hp.nodup)
        (by simp) hr).mono ?_ ?_
      · rintro _ h2 ⟨c', a1, a2, a3, a4, a5⟩
        exact ⟨c', a1, by rw [a2, List.length_replicate, prodL_exact], a3, a5⟩
      · rintro e h2 ⟨_, ht, c', a1, a2, a3, a4, a5⟩
        refine ⟨ht, c', a1, ?_, a5⟩
        intro x hx
        obtain ⟨q, hq⟩ := List.mem_iff_getElem?.1 hx
        have hlt : q < c'.length := (List.getElem?_eq_some_iff.1 hq).1
        rw [a2, List.length_replicate, prodL_exact] at hlt
        rw [a3 q (by simpa using (hp.mem q).2 hlt)] at hq
        exact (Option.some.inj hq).symm
    · rintro e h2 ⟨ht, c', a1, a2, a3⟩
      refine (post_deallocate a1 a2).mono ?_ (fun _ _ h => h)
      rintro _ h3 ⟨b1, b2⟩
      refine ⟨ht, fun j => ?_, (a3.trans b2).lost⟩
      by_cases hj : j = h.blocks.length
      · subst hj; rw [b1, cells_fresh]
      · exact (a3.trans b2).cells j hj
  · rintro _ h2 ⟨c', a1, a2, a3, a4⟩
    exact post_pure ⟨c', rfl, a1, a2, a3, a4⟩

/-- The plan of a sequence. -/
theorem seqPlan_ok {id n : Nat} {h0 : Heap α} {src : Nat → HM α α} {vs : List α} (hl : vs.length = n)
    (hg : ∀ (k : Nat) (v : α), vs[k]? = some v → Good id h0 (src k) v) : PlanOK id n h0 (seqPlan n src) vs := by
  refine ⟨by simp [seqPlan, hl], ?_, nodup_seqPlan n src, fun q => mem_seqPlan⟩
  intro j p v hj hv
  obtain ⟨rfl, _⟩ := seqPlan_getElem? hj
  exact hg j v hv

/-- A block whose cells hold exactly `vs`. -/
theorem seqPlan_cells {n : Nat} {src : Nat → HM α α} {vs : List α} (hl : vs.length = n) {c : List (Option α)}
    (hc : c.length = n)
    (h : ∀ (j : Nat) (p : Nat × HM α α) (v : α), (seqPlan n src)[j]? = some p → vs[j]? = some v → c[p.1]? = some (some v)) :
    c = vs.map some := by
  apply List.ext_getElem?
  intro k
  by_cases hk : k < n
  · have hv : vs[k]? = some vs[k] := List.getElem?_eq_getElem (by omega)
    have hp : (seqPlan n src)[k]? = some (k, src k) := by simp [seqPlan, hk]
    rw [h k _ _ hp hv]; simp [hv]
  · rw [List.getElem?_eq_none (by omega), List.getElem?_eq_none (by simp; omega)]

theorem good_pure {id : Nat} {h0 : Heap α} (v : α) : Good id h0 (pure v) v := fun _ _ => rfl

theorem good_iter {id : Nat} {h0 : Heap α} {l : List α} {k : Nat} {v : α} (h : l[k]? = some v) :
    Good id h0 (iterSrc l k) v := by
  unfold iterSrc; rw [h]; exact good_pure v

theorem good_own {id : Nat} {h0 : Heap α} {o : Own} {j k : Nat} {c : List (Option α)} {v : α} (hp : o.ptr = some j)
    (hne : j ≠ id) (hc : h0.cells j = some c) (hk : c[k]? = some (some v)) : Good id h0 (ownSrc o k) v := by
  intro h hh
  simp [ownSrc, hp, readAt, hh j hne, hc, hk]

theorem post_newSeq {S : Nat → Bool} {ext : List Nat} {src : Nat → HM α α} {vs : List α} {h : Heap α}
    (hl : vs.length = prod ext) (hg : ∀ (k : Nat) (v : α), vs[k]? = some v → Good h.blocks.length h (src k) v) :
    Post (newArr S ext (seqPlan (prodL Arith.exact ext) src) h)
      (fun o h' => o = ⟨some h.blocks.length, ext⟩ ∧ h'.cells h.blocks.length = some (vs.map some) ∧
        Same h.blocks.length h h')
      (fun _ h' => Thr S ∧ (∀ j, h'.cells j = h.cells j) ∧ h'.lost = h.lost) := by
  rw [prodL_exact]
  refine (post_newArr (seqPlan_ok hl hg)).mono ?_ (fun _ _ h => h)
  rintro o h' ⟨c, a1, a2, a3, a4, a5⟩
  exact ⟨a1, by rw [a2, seqPlan_cells hl a3 a4], a5⟩

end Jules

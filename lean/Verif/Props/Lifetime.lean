import Verif.Lemmas.Lifetime
import Verif.Props.Construct
/-
C23, C25, C26: object lifetime, exception safety of assignment, array_builder.
-/
namespace Jules.Props
open Spec

/-! ### C23 -/

/-- A value list of an array that is alive and not hollow. -/
theorem tidy_values {s : PState α} (ht : Tidy s) {x : Nat} {o : Own} (hx : s.env x = some o) (hh : ¬ Hollow o) :
    ∃ ws : List α, ws.length = prod o.ext ∧ ∀ id, o.ptr = some id → s.heap.cells id = some (ws.map some) := by
  cases hp : o.ptr with
  | none =>
    refine ⟨[], ?_, by simp⟩
    by_contra hne
    exact hh ⟨hp, fun h => hne (by simp [h])⟩
  | some id =>
    obtain ⟨vs, hc, hl⟩ := ht.owned x o id hx hp
    exact ⟨vs, hl, by intro j hj; cases hj; exact hc⟩

/-- Reading the source of a copy. -/
theorem good_source {s : PState α} {o : Own} {ws : List α} {b : Nat}
    (hl : ws.length = prod o.ext) (hh : ¬ Hollow o) (hc : ∀ id, o.ptr = some id → s.heap.cells id = some (ws.map some))
    (hb : o.ptr ≠ some b) : ∀ (k : Nat) (v : α), ws[k]? = some v → Good b s.heap (ownSrc o k) v := by
  intro k v hk
  cases hp : o.ptr with
  | none =>
    have : prod o.ext = 0 := by
      by_contra hne; exact hh ⟨hp, hne⟩
    rw [this, List.length_eq_zero_iff] at hl
    subst hl; simp at hk
  | some id =>
    exact good_own hp (by rintro rfl; exact hb hp) (hc id hp) (by simp [hk])

/-- A new variable with a new block. -/
theorem tidy_new {s : PState α} (ht : Tidy s) {x : Nat} (hx : s.env x = none) {ext : List Nat} {h' : Heap α} {vs : List α}
    (hc : h'.cells s.heap.blocks.length = some (vs.map some)) (hl : vs.length = prod ext)
    (hs : Same s.heap.blocks.length s.heap h') :
    Tidy (s.setVar x (some ⟨some s.heap.blocks.length, ext⟩) h') ∧
      (NoLeak s → NoLeak (s.setVar x (some ⟨some s.heap.blocks.length, ext⟩) h')) := by
  have hold : ∀ {y o id}, s.env y = some o → o.ptr = some id → id ≠ s.heap.blocks.length := by
    intro y o id hy hid
    obtain ⟨vs, hc, _⟩ := ht.owned y o id hy hid
    exact Nat.ne_of_lt (cells_lt hc)
  have hkeep : ∀ {id}, (∃ y o, s.env y = some o ∧ o.ptr = some id) →
      ∃ y o, (s.setVar x (some ⟨some s.heap.blocks.length, ext⟩) h').env y = some o ∧ o.ptr = some id := by
    rintro id ⟨y, o, hy, ho⟩
    refine ⟨y, o, ?_, ho⟩
    have : y ≠ x := by rintro rfl; rw [hx] at hy; cases hy
    simp [PState.setVar, this, hy]
  refine ⟨⟨?_, ?_, ?_, ?_⟩, ?_⟩
  · intro y o id hy hid
    simp only [PState.setVar] at hy ⊢
    split at hy
    · cases hy; cases hid; exact ⟨vs, hc, hl⟩
    · obtain ⟨ws, a, b⟩ := ht.owned y o id hy hid
      exact ⟨ws, by rw [hs.cells id (hold hy hid), a], b⟩
  · intro y z o o' id hy hz hid hid'
    simp only [PState.setVar] at hy hz
    split at hy <;> split at hz
    · next h1 h2 => rw [h1, h2]
    · cases hy; cases hid; exact (hold hz hid' rfl).elim
    · cases hz; cases hid'; exact (hold hy hid rfl).elim
    · exact ht.once y z o o' id hy hz hid hid'
  · intro id c hid
    by_cases hne : id = s.heap.blocks.length
    · subst hne
      exact .inl ⟨x, _, if_pos rfl, rfl⟩
    · have hid : h'.cells id = some c := hid
      rw [hs.cells id hne] at hid
      rcases ht.raw id c hid with h | h
      · exact .inl (hkeep h)
      · exact .inr h
  · exact hs.lost.trans ht.lost
  · intro hn id c hid
    by_cases hne : id = s.heap.blocks.length
    · subst hne
      exact ⟨x, _, if_pos rfl, rfl⟩
    · have hid : h'.cells id = some c := hid
      rw [hs.cells id hne] at hid
      exact hkeep (hn id c hid)

/-- The heap changed only in ways that do not matter. -/
theorem tidy_heap {s : PState α} (ht : Tidy s) {h' : Heap α} (hc : ∀ j, h'.cells j = s.heap.cells j) (hl : h'.lost = s.heap.lost) :
    Tidy (⟨s.env, h'⟩ : PState α) ∧ (NoLeak s → NoLeak (⟨s.env, h'⟩ : PState α)) := by
  refine ⟨⟨?_, ht.once, ?_, hl.trans ht.lost⟩, ?_⟩
  · intro x o id hx hid
    obtain ⟨vs, a, b⟩ := ht.owned x o id hx hid
    exact ⟨vs, by rw [← a]; exact hc id, b⟩
  · intro id c hid
    exact ht.raw id c (by rw [← hc id]; exact hid)
  · intro hn id c hid
    exact hn id c (by rw [← hc id]; exact hid)

/-- The heap changed only in the owned blocks, which keep their sizes, and perhaps in one raw block. -/
theorem tidy_heap' {s : PState α} (ht : Tidy s) {h' : Heap α}
    (ho : ∀ x o id vs, s.env x = some o → o.ptr = some id → s.heap.cells id = some (List.map some vs) →
      ∃ vs' : List α, h'.cells id = some (vs'.map some) ∧ vs'.length = vs.length)
    (hr : ∀ id c, h'.cells id = some c → (∃ x o, s.env x = some o ∧ o.ptr = some id) ∨ ∀ v ∈ c, v = none)
    (hl : h'.lost = s.heap.lost) : Tidy (⟨s.env, h'⟩ : PState α) := by
  refine ⟨?_, ht.once, hr, hl.trans ht.lost⟩
  intro x o id hx hid
  obtain ⟨vs, a, b⟩ := ht.owned x o id hx hid
  obtain ⟨vs', c, d⟩ := ho x o id vs hx hid a
  exact ⟨vs', c, d.trans b⟩

/-- Handing the storage of `y` over to `x` (both present afterwards). -/
theorem tidy_perm {s s' : PState α} (ht : Tidy s) (hh : s'.heap = s.heap)
    (f : Nat → Nat) (hf : ∀ x x' o o' id, s'.env x = some o → s'.env x' = some o' → o.ptr = some id → o'.ptr = some id →
      f x = f x' → x = x')
    (h1 : ∀ x o id, s'.env x = some o → o.ptr = some id → ∃ o', s.env (f x) = some o' ∧ o'.ptr = some id ∧ prod o'.ext = prod o.ext)
    (h2 : ∀ x o id, s.env x = some o → o.ptr = some id → ∃ y o', s'.env y = some o' ∧ o'.ptr = some id) :
    Tidy s' ∧ (NoLeak s → NoLeak s') := by
  refine ⟨⟨?_, ?_, ?_, by rw [hh]; exact ht.lost⟩, ?_⟩
  · intro x o id hx hid
    obtain ⟨o', ho', hp', he⟩ := h1 x o id hx hid
    obtain ⟨vs, a, b⟩ := ht.owned _ o' id ho' hp'
    exact ⟨vs, by rw [hh]; exact a, b.trans he⟩
  · intro x y o o' id hx hy hid hid'
    obtain ⟨a, ha, hp, _⟩ := h1 x o id hx hid
    obtain ⟨b, hb, hq, _⟩ := h1 y o' id hy hid'
    exact hf x y o o' id hx hy hid hid' (ht.once _ _ a b id ha hb hp hq)
  · intro id c hid
    rw [hh] at hid
    rcases ht.raw id c hid with ⟨x, o, hx, ho⟩ | h
    · exact .inl (h2 x o id hx ho)
    · exact .inr h
  · intro hn id c hid
    rw [hh] at hid
    obtain ⟨x, o, hx, ho⟩ := hn id c hid
    exact h2 x o id hx ho

theorem finish_new {s : PState α} (ht : Tidy s) {x : Nat} (hx : s.env x = none) {ext : List Nat} {S : Nat → Bool}
    {r : Out α Own} {vs : List α} (hl : vs.length = prod ext)
    (hr : Post r (fun o h' => o = ⟨some s.heap.blocks.length, ext⟩ ∧
        h'.cells s.heap.blocks.length = some (vs.map some) ∧ Same s.heap.blocks.length s.heap h')
      (fun _ h' => Thr S ∧ (∀ j, h'.cells j = s.heap.cells j) ∧ h'.lost = s.heap.lost)) :
    ∃ s' e, finish s x r = .ok (s', e) ∧ Tidy s' ∧ (NoLeak s → NoLeak s') := by
  cases r with
  | ok o h' =>
    obtain ⟨rfl, a, b⟩ := hr
    exact ⟨_, _, rfl, tidy_new ht hx a hl b⟩
  | exn e h' =>
    obtain ⟨_, a, b⟩ := hr
    exact ⟨_, _, rfl, tidy_heap ht a b⟩
  | fail f => exact hr.elim

/-- One assignment. -/
theorem assign_step {S : Nat → Bool} {s : PState α} (ht : Tidy s) {x : Nat} {a : Own} (hx : s.env x = some a)
    {ext : List Nat} {src : Nat → HM α α} {ws : List α} (hw : ws.length = prod ext)
    (hh : Hollow a → prod a.ext ≠ prod ext)
    (hg : ∀ b, (a.ptr = some b ∨ b = s.heap.blocks.length) → ∀ (k : Nat) (v : α), ws[k]? = some v → Good b s.heap (src k) v) :
    ∃ s' e, finish s x (assignArr S a ext src s.heap) = .ok (s', e) ∧ Tidy s' ∧ (e = none → NoLeak s → NoLeak s') := by
  have ho : ∀ id, a.ptr = some id → ∃ vs : List α, s.heap.cells id = some (vs.map some) ∧ vs.length = prod a.ext :=
    fun id hid => ht.owned x a id hx hid
  have hother : ∀ {y o id}, y ≠ x → s.env y = some o → o.ptr = some id → a.ptr ≠ some id := by
    intro y o id hy hyo hid hid'
    exact hy (ht.once y x o a id hyo hx hid hid')
  by_cases hsz : prod a.ext = prod ext
  · have hp := post_assign_same (S := S) hsz hw (fun h => hh h hsz) ho fun id hid => hg id (.inl hid)
    cases hr : assignArr S a ext src s.heap with
    | fail f => rw [hr] at hp; exact hp.elim
    | exn e h' =>
      rw [hr] at hp
      obtain ⟨_, _, b1, b2, b3⟩ := hp
      refine ⟨_, _, rfl, ?_, by intro h; cases h⟩
      refine tidy_heap' ht ?_ ?_ b3
      · intro y o id vs hy hid hc
        by_cases hyx : y = x
        · subst hyx
          rw [hx] at hy; cases hy
          obtain ⟨vs', c1, c2, _⟩ := b1 id vs hid hc
          exact ⟨vs', c1, c2⟩
        · exact ⟨vs, by rw [b2 id (hother hyx hy hid)]; exact hc, rfl⟩
      · intro id c hid
        by_cases hai : a.ptr = some id
        · exact .inl ⟨x, a, hx, hai⟩
        · rw [b2 id hai] at hid
          exact ht.raw id c hid
    | ok o h' =>
      rw [hr] at hp
      obtain ⟨rfl, b1, b2, b3⟩ := hp
      have key : ∀ {id}, (∃ y o, s.env y = some o ∧ o.ptr = some id) →
          ∃ y o, (s.setVar x (some ⟨a.ptr, ext⟩) h').env y = some o ∧ o.ptr = some id := by
        rintro id ⟨y, o, hy, hid⟩
        by_cases hyx : y = x
        · subst hyx
          rw [hx] at hy; cases hy
          exact ⟨y, _, if_pos rfl, hid⟩
        · exact ⟨y, o, by simp [PState.setVar, hyx, hy], hid⟩
      have hlive : ∀ {id c}, h'.cells id = some c → a.ptr = some id ∨ s.heap.cells id = some c := by
        intro id c hid
        by_cases hai : a.ptr = some id
        · exact .inl hai
        · rw [b2 id hai] at hid; exact .inr hid
      refine ⟨_, _, rfl, ⟨?_, ?_, ?_, b3.trans ht.lost⟩, ?_⟩
      · intro y o id hy hid
        simp only [PState.setVar] at hy ⊢
        split at hy
        · cases hy; exact ⟨ws, b1 id hid, hw⟩
        · next hyx =>
          obtain ⟨vs, c1, c2⟩ := ht.owned y o id hy hid
          exact ⟨vs, by rw [b2 id (hother hyx hy hid)]; exact c1, c2⟩
      · intro y z o o' id hy hz hid hid'
        simp only [PState.setVar] at hy hz
        split at hy <;> split at hz
        · next h1 h2 => rw [h1, h2]
        · next h1 h2 => cases hy; exact (hother h2 hz hid' hid).elim
        · next h1 h2 => cases hz; exact (hother h1 hy hid hid').elim
        · exact ht.once y z o o' id hy hz hid hid'
      · intro id c hid
        rcases hlive hid with h | h
        · exact .inl (key ⟨x, a, hx, h⟩)
        · rcases ht.raw id c h with h | h
          · exact .inl (key h)
          · exact .inr h
      · intro _ hn id c hid
        rcases hlive hid with h | h
        · exact key ⟨x, a, hx, h⟩
        · exact key (hn id c h)
  · have hp := post_assign_diff (S := S) hsz hw ho (hg _ (.inr rfl))
    have hold : ∀ {y o id}, s.env y = some o → o.ptr = some id → id ≠ s.heap.blocks.length := by
      intro y o id hy hid
      obtain ⟨vs, hc, _⟩ := ht.owned y o id hy hid
      exact Nat.ne_of_lt (cells_lt hc)
    cases hr : assignArr S a ext src s.heap with
    | fail f => rw [hr] at hp; exact hp.elim
    | exn e h' =>
      rw [hr] at hp
      obtain ⟨_, b1, b2⟩ := hp
      refine ⟨_, _, rfl, ?_, by intro h; cases h⟩
      refine tidy_heap' ht ?_ ?_ b1.lost
      · intro y o id vs hy hid hc
        exact ⟨vs, by rw [b1.cells id (hold hy hid)]; exact hc, rfl⟩
      · intro id c hid
        by_cases hne : id = s.heap.blocks.length
        · subst hne
          rcases b2 with ⟨_, h⟩ | ⟨_, h⟩
          · rw [h] at hid; cases hid
          · rw [h] at hid
            right
            cases hid
            intro v hv
            exact List.eq_of_mem_replicate hv
        · rw [b1.cells id hne] at hid
          exact ht.raw id c hid
    | ok o h' =>
      rw [hr] at hp
      obtain ⟨rfl, b1, b2, b3, b4⟩ := hp
      have key : ∀ {id c}, h'.cells id = some c → (∃ y o, s.env y = some o ∧ o.ptr = some id) →
          ∃ y o, (s.setVar x (some ⟨some s.heap.blocks.length, ext⟩) h').env y = some o ∧ o.ptr = some id := by
        rintro id c hc ⟨y, o, hy, hid⟩
        by_cases hyx : y = x
        · subst hyx
          rw [hx] at hy; cases hy
          rw [b2 id hid] at hc; cases hc
        · exact ⟨y, o, by simp [PState.setVar, hyx, hy], hid⟩
      have hlive : ∀ {id c}, h'.cells id = some c → id ≠ s.heap.blocks.length → s.heap.cells id = some c := by
        intro id c hid hne
        by_cases hai : a.ptr = some id
        · rw [b2 id hai] at hid; cases hid
        · rwa [b3 id hne hai] at hid
      refine ⟨_, _, rfl, ⟨?_, ?_, ?_, b4.trans ht.lost⟩, ?_⟩
      · intro y o id hy hid
        simp only [PState.setVar] at hy ⊢
        split at hy
        · cases hy; cases hid; exact ⟨ws, b1, hw⟩
        · next hyx =>
          obtain ⟨vs, c1, c2⟩ := ht.owned y o id hy hid
          exact ⟨vs, by rw [b3 id (hold hy hid) (hother hyx hy hid)]; exact c1, c2⟩
      · intro y z o o' id hy hz hid hid'
        simp only [PState.setVar] at hy hz
        split at hy <;> split at hz
        · next h1 h2 => rw [h1, h2]
        · cases hy; cases hid; exact (hold hz hid' rfl).elim
        · cases hz; cases hid'; exact (hold hy hid rfl).elim
        · exact ht.once y z o o' id hy hz hid hid'
      · intro id c hid
        by_cases hne : id = s.heap.blocks.length
        · subst hne; exact .inl ⟨x, _, if_pos rfl, rfl⟩
        · rcases ht.raw id c (hlive hid hne) with h | h
          · exact .inl (key hid h)
          · exact .inr h
      · intro _ hn id c hid
        by_cases hne : id = s.heap.blocks.length
        · subst hne; exact ⟨x, _, if_pos rfl, rfl⟩
        · exact key hid (hn id c (hlive hid hne))

/-- One allowed operation in a tidy state. -/
theorem tidy_step {S : Nat → Bool} {chk : Bool} {s : PState α} (ht : Tidy s) {op : HOp α} (ha : Allowed chk s op) :
    (∃ s' e, hstep S chk s op = .ok (s', e) ∧ Tidy s' ∧ (¬ (IsAssign op ∧ e ≠ none) → NoLeak s → NoLeak s')) ∨
      hstep S chk s op = .error .assert ∨ hstep S chk s op = .error .illFormed := by
  have weaken : ∀ {r : Res (PState α × Option Exn)}, (∃ s' e, r = .ok (s', e) ∧ Tidy s' ∧ (NoLeak s → NoLeak s')) →
      (∃ s' e, r = Except.ok (s', e) ∧ Tidy s' ∧ (¬ (IsAssign op ∧ e ≠ none) → NoLeak s → NoLeak s')) ∨
        r = .error Fail.assert ∨ r = .error .illFormed := by
    rintro r ⟨s', e, a, b, c⟩
    exact .inl ⟨s', e, a, b, fun _ => c⟩
  cases op with
  | default x N =>
    cases hx : s.env x with
    | some o => right; right; simp [hstep, hx]
    | none =>
      simp only [hstep, hx]
      refine weaken ⟨_, _, rfl, tidy_perm ht rfl id (fun _ _ _ _ _ _ _ _ _ h => h) ?_ ?_⟩
      · intro y o id hy hid
        simp only [PState.setVar] at hy
        split at hy
        · cases hy; cases hid
        · exact ⟨o, hy, hid, rfl⟩
      · intro y o id hy hid
        refine ⟨y, o, ?_, hid⟩
        have : y ≠ x := by rintro rfl; rw [hx] at hy; cases hy
        simp [PState.setVar, this, hy]
  | fill x v ext =>
    cases hx : s.env x with
    | some o => right; right; simp [hstep, hx]
    | none =>
      simp only [hstep, hx]
      refine weaken (finish_new ht hx (S := S) (ext := ext) (vs := List.replicate (prod ext) v) (by simp) ?_)
      refine post_newSeq (by simp) ?_
      intro k w hk
      have : w = v := List.eq_of_mem_replicate (List.mem_of_getElem? hk)
      subst this; exact good_pure _
  | iter x l ext =>
    cases hx : s.env x with
    | some o => right; right; simp [hstep, hx]
    | none =>
      simp only [hstep, hx]
      have ha : prod ext ≤ l.length := ha
      have hl' : (l.take (prod ext)).length = prod ext := by simp [ha]
      refine weaken (finish_new ht hx (S := S) (ext := ext) (vs := l.take (prod ext)) hl' ?_)
      refine post_newSeq hl' ?_
      intro k w hk
      apply good_iter
      have hlt : k < prod ext := by have := (List.getElem?_eq_some_iff.1 hk).1; omega
      rwa [List.getElem?_take_of_lt hlt] at hk
  | init x n v =>
    cases hx : s.env x with
    | some o => right; right; simp [hstep, hx]
    | none =>
      obtain ⟨hn, hr⟩ := ha
      by_cases hr' : ∃ ext, Rect n v ext ∧ ∀ e ∈ ext, e ≠ 0
      · obtain ⟨ext, hr', hz⟩ := hr'
        have hp := post_initArr (S := S) (chk := chk) hn hr' hz s.heap
        simp only [hstep, hx]
        cases hi : initArr S chk n v s.heap with
        | fail f => rw [hi] at hp; exact hp.elim
        | exn e h' =>
          rw [hi] at hp
          exact weaken ⟨_, _, rfl, tidy_heap ht hp.2.1 hp.2.2⟩
        | ok o h' =>
          rw [hi] at hp
          obtain ⟨_, _, rfl, ⟨c, c1, c2, c3⟩, c4⟩ := hp
          obtain ⟨vs, rfl⟩ : ∃ vs : List α, c = vs.map some := by
            refine ⟨c.filterMap id, ?_⟩
            clear c1 c2
            induction c with
            | nil => rfl
            | cons a c ih =>
              cases a with
              | none => exact (c3 none (by simp) rfl).elim
              | some a =>
                have := ih fun x hx => c3 x (by simp [hx])
                simpa [List.filterMap_cons] using this
          exact weaken ⟨_, _, rfl, tidy_new ht hx c1 (by simpa using c2) c4⟩
      · rcases hr with rfl | hr
        · right; left
          simp [hstep, hx, C15_reject S hr', finish]
        · exact (hr' hr).elim
  | copy x y =>
    cases hx : s.env x with
    | some o => right; right; simp [hstep, hx]
    | none =>
      cases hy : s.env y with
      | none => right; right; simp [hstep, hx, hy]
      | some o =>
        simp only [hstep, hx, hy]
        have hh := ha o hy
        obtain ⟨ws, hl, hc⟩ := tidy_values ht hy hh
        refine weaken (finish_new ht hx (S := S) (ext := o.ext) (vs := ws) hl ?_)
        refine post_newSeq hl (good_source hl hh hc ?_)
        intro hp
        have := cells_lt (hc _ hp)
        exact Nat.lt_irrefl _ this
  | move x y =>
    cases hx : s.env x with
    | some o => right; right; simp [hstep, hx]
    | none =>
      cases hy : s.env y with
      | none => right; right; simp [hstep, hx, hy]
      | some o =>
        have hxy : y ≠ x := by rintro rfl; rw [hx] at hy; cases hy
        simp only [hstep, hx, hy]
        refine weaken ⟨_, _, rfl, tidy_perm ht rfl (fun z => if z = x then y else z) ?_ ?_ ?_⟩
        · intro a b oa ob id h1 h2 h3 h4 h5
          simp only [PState.setVar, moveArr] at h1 h2 h5
          split at h5 <;> split at h5
          · next p q => rw [p, q]
          · next p q =>
            subst h5
            rw [if_neg q, if_pos rfl] at h2
            cases h2; cases h4
          · next p q =>
            subst h5
            rw [if_neg p, if_pos rfl] at h1
            cases h1; cases h3
          · exact h5
        · intro z oz id h1 h2
          simp only [PState.setVar, moveArr] at h1
          split at h1
          · next p => cases h1; exact ⟨o, by simp [p, hy], h2, rfl⟩
          · next p =>
            split at h1
            · cases h1; cases h2
            · exact ⟨oz, by simpa [p] using h1, h2, rfl⟩
        · intro z oz id h1 h2
          by_cases hz : z = y
          · subst hz
            rw [hy] at h1; cases h1
            exact ⟨x, ⟨o.ptr, o.ext⟩, if_pos rfl, h2⟩
          · have hzx : z ≠ x := by rintro rfl; rw [hx] at h1; cases h1
            exact ⟨z, oz, by simp [PState.setVar, hz, hzx, h1], h2⟩
  | assign x y =>
    cases hx : s.env x with
    | none => right; right; simp [hstep, hx]
    | some a =>
      cases hy : s.env y with
      | none => right; right; simp [hstep, hx, hy]
      | some b =>
        simp only [hstep, hx, hy]
        by_cases hxy : x = y
        · rw [if_pos hxy]
          exact weaken ⟨s, none, rfl, ht, fun h => h⟩
        · rw [if_neg hxy]
          obtain ⟨hb, hab⟩ := ha a b hx hy
          obtain ⟨ws, hl, hc⟩ := tidy_values ht hy hb
          obtain ⟨s', e, h1, h2, h3⟩ := assign_step (S := S) ht hx (ext := b.ext) (src := ownSrc b) hl hab (by
            intro id hid
            apply good_source hl hb hc
            intro hbp
            rcases hid with h | h
            · exact hxy (ht.once x y a b id hx hy h hbp)
            · subst h
              exact Nat.lt_irrefl _ (cells_lt (hc _ hbp)))
          refine .inl ⟨s', e, h1, h2, fun h4 => h3 ?_⟩
          by_contra hne
          exact h4 ⟨trivial, hne⟩
  | moveAssign x y =>
    cases hx : s.env x with
    | none => right; right; simp [hstep, hx]
    | some a =>
      cases hy : s.env y with
      | none => right; right; simp [hstep, hx, hy]
      | some b =>
        simp only [hstep, hx, hy]
        by_cases hchk : chk = true ∧ x = y
        · right; left
          simp [dbg, hchk.1, hchk.2, bind, Except.bind]
        · have : (dbg chk (x != y) : Res Unit) = .ok () := by
            cases chk
            · simp [dbg]
            · have : x ≠ y := fun h => hchk ⟨rfl, h⟩
              simp [dbg, this]
          rw [this]
          refine weaken ⟨_, _, rfl, tidy_perm ht rfl (fun z => if z = x then y else if z = y then x else z) ?_ ?_ ?_⟩
          · intro p q op oq id _ _ _ _ h5
            grind
          · intro z oz id h1 h2
            simp only [PState.setVar] at h1 ⊢
            split at h1
            · next p => cases h1; exact ⟨b, by simp [p, hy], h2, rfl⟩
            · next p =>
              split at h1
              · next q =>
                cases h1
                have hyx : y ≠ x := q ▸ p
                exact ⟨a, by simp [q, hyx, hx], h2, rfl⟩
              · next q => exact ⟨oz, by simpa [p, q] using h1, h2, rfl⟩
          · intro z oz id h1 h2
            by_cases hzy : z = y
            · subst hzy
              rw [hy] at h1; cases h1
              exact ⟨x, b, if_pos rfl, h2⟩
            · by_cases hzx : z = x
              · subst hzx
                rw [hx] at h1; cases h1
                exact ⟨y, a, by simp [PState.setVar, Ne.symm hzy], h2⟩
              · exact ⟨z, oz, by simp [PState.setVar, hzx, hzy, h1], h2⟩
  | assignExpr x ext l =>
    cases hx : s.env x with
    | none => right; right; simp [hstep, hx]
    | some a =>
      simp only [hstep, hx]
      obtain ⟨hl, hh⟩ := ha
      have hl' : (l.take (prod ext)).length = prod ext := by simp [hl]
      obtain ⟨s', e, h1, h2, h3⟩ := assign_step (S := S) ht hx (ext := ext) (src := iterSrc l) hl' (hh a hx) (by
        intro id _ k w hk
        apply good_iter
        have hlt : k < prod ext := by have := (List.getElem?_eq_some_iff.1 hk).1; omega
        rwa [List.getElem?_take_of_lt hlt] at hk)
      refine .inl ⟨s', e, h1, h2, fun h4 => h3 ?_⟩
      by_contra hne
      exact h4 ⟨trivial, hne⟩
  | reshape x y ext =>
    cases hx : s.env x with
    | some o => right; right; simp [hstep, hx]
    | none =>
      cases hy : s.env y with
      | none => right; right; simp [hstep, hx, hy]
      | some o =>
        have hxy : y ≠ x := by rintro rfl; rw [hx] at hy; cases hy
        simp only [hstep, hx, hy]
        by_cases hsz : prod o.ext = prod ext
        · have : (dbg chk (o.size == prodL Arith.exact ext) : Res Unit) = .ok () := by
            simp [dbg, own_size, prodL_exact, hsz]
          rw [this]
          refine weaken ⟨_, _, rfl, tidy_perm ht rfl (fun z => if z = x then y else z) ?_ ?_ ?_⟩
          · intro a b oa ob id h1 h2 h3 h4 h5
            simp only [PState.setVar] at h1 h2 h5
            split at h5 <;> split at h5
            · next p q => rw [p, q]
            · next p q =>
              subst h5
              rw [if_neg q, if_pos rfl] at h2
              cases h2; cases h4
            · next p q =>
              subst h5
              rw [if_neg p, if_pos rfl] at h1
              cases h1; cases h3
            · exact h5
          · intro z oz id h1 h2
            simp only [PState.setVar] at h1
            split at h1
            · next p => cases h1; exact ⟨o, by simp [p, hy], h2, hsz⟩
            · next p =>
              split at h1
              · cases h1; cases h2
              · exact ⟨oz, by simpa [p] using h1, h2, rfl⟩
          · intro z oz id h1 h2
            by_cases hz : z = y
            · subst hz
              rw [hy] at h1; cases h1
              exact ⟨x, ⟨o.ptr, ext⟩, if_pos rfl, h2⟩
            · have hzx : z ≠ x := by rintro rfl; rw [hx] at h1; cases h1
              exact ⟨z, oz, by simp [PState.setVar, hz, hzx, h1], h2⟩
        · rcases ha with rfl | ha
          · right; left
            have : (dbg true (o.size == prodL Arith.exact ext) : Res Unit) = .error .assert := by
              simp [dbg, own_size, prodL_exact, hsz]
            rw [this]; rfl
          · exact (hsz (ha o hy)).elim
  | write x k v =>
    cases hx : s.env x with
    | none => right; right; simp [hstep, hx]
    | some a =>
      obtain ⟨hh, hk⟩ := ha a hx
      cases hp : a.ptr with
      | none => exact (hh ⟨hp, by omega⟩).elim
      | some id =>
        obtain ⟨vs, hc, hl⟩ := ht.owned x a id hx hp
        have hkv : (vs.map some)[k]? = some (some (vs[k]'(by omega))) := by
          rw [List.getElem?_map, List.getElem?_eq_getElem (by omega)]; rfl
        have hpost := post_assignAt (S := S) (v := v) hc hkv
        simp only [hstep, hx, hp]
        have hmid : ∀ {h' : Heap α}, (∃ vs' : List α, h'.cells id = some (vs'.map some) ∧ vs'.length = vs.length) →
            Same id s.heap h' → Tidy (⟨s.env, h'⟩ : PState α) ∧ (NoLeak s → NoLeak (⟨s.env, h'⟩ : PState α)) := by
          rintro h' ⟨vs', a1, a2⟩ hs
          have live : ∀ j c, h'.cells j = some c → j = id ∨ s.heap.cells j = some c := by
            intro j c hj
            by_cases hji : j = id
            · exact .inl hji
            · rw [hs.cells j hji] at hj; exact .inr hj
          refine ⟨tidy_heap' ht ?_ ?_ hs.lost, ?_⟩
          · intro y o j ws hy hj hws
            by_cases hji : j = id
            · subst hji
              rw [hc] at hws
              have : vs = ws := List.map_injective_iff.2 (fun _ _ h => Option.some.inj h) (Option.some.inj hws)
              subst this
              exact ⟨vs', a1, a2⟩
            · exact ⟨ws, by rw [hs.cells j hji]; exact hws, rfl⟩
          · intro j c hj
            rcases live j c hj with rfl | h
            · exact .inl ⟨x, a, hx, hp⟩
            · exact ht.raw j c h
          · intro hn j c hj
            rcases live j c hj with rfl | h
            · exact ⟨x, a, hx, hp⟩
            · exact hn j c h
        cases hr : assignAt S id k v s.heap with
        | fail f => rw [hr] at hpost; exact hpost.elim
        | ok u h' =>
          rw [hr] at hpost
          exact weaken ⟨_, _, rfl, hmid ⟨vs.set k v, by rw [hpost.1, List.map_set], by simp⟩ hpost.2⟩
        | exn e h' =>
          rw [hr] at hpost
          exact weaken ⟨_, _, rfl, hmid ⟨vs, hpost.2.2.1, rfl⟩ hpost.2.2.2⟩
  | destroy x =>
    cases hx : s.env x with
    | none => right; right; simp [hstep, hx]
    | some a =>
      simp only [hstep, hx]
      have hp := post_clear (o := a) (h := s.heap) fun id hid => ht.owned x a id hx hid
      cases hr : clearArr a s.heap with
      | fail f => rw [hr] at hp; exact hp.elim
      | exn e h' => rw [hr] at hp; exact hp.elim
      | ok u h' =>
        rw [hr] at hp
        obtain ⟨b1, b2, b3⟩ := hp
        have hother : ∀ {y o id}, y ≠ x → s.env y = some o → o.ptr = some id → a.ptr ≠ some id := by
          intro y o id hy hyo hid hid'
          exact hy (ht.once y x o a id hyo hx hid hid')
        have live : ∀ {id c}, h'.cells id = some c → s.heap.cells id = some c ∧ a.ptr ≠ some id := by
          intro id c hid
          by_cases hai : a.ptr = some id
          · rw [b1 id hai] at hid; cases hid
          · rw [b2 id hai] at hid; exact ⟨hid, hai⟩
        have key : ∀ {id}, a.ptr ≠ some id → (∃ y o, s.env y = some o ∧ o.ptr = some id) →
            ∃ y o, (s.setVar x none h').env y = some o ∧ o.ptr = some id := by
          rintro id hai ⟨y, o, hy, hid⟩
          have : y ≠ x := by rintro rfl; rw [hx] at hy; cases hy; exact hai hid
          exact ⟨y, o, by simp [PState.setVar, this, hy], hid⟩
        refine weaken ⟨_, _, rfl, ⟨?_, ?_, ?_, b3.trans ht.lost⟩, ?_⟩
        · intro y o id hy hid
          simp only [PState.setVar] at hy ⊢
          split at hy
          · cases hy
          · next hyx =>
            obtain ⟨vs, c1, c2⟩ := ht.owned y o id hy hid
            exact ⟨vs, by rw [b2 id (hother hyx hy hid)]; exact c1, c2⟩
        · intro y z o o' id hy hz
          simp only [PState.setVar] at hy hz
          split at hy
          · cases hy
          · split at hz
            · cases hz
            · exact ht.once y z o o' id hy hz
        · intro id c hid
          obtain ⟨h1, h2⟩ := live hid
          rcases ht.raw id c h1 with h | h
          · exact .inl (key h2 h)
          · exact .inr h
        · intro hn id c hid
          obtain ⟨h1, h2⟩ := live hid
          exact key h2 (hn id c h1)

/-- **C23** (partial: moved-from arrays must not be read or assigned something of the size they claim, see
`C23_moved_from_assignment`). A careful program, whatever throws: no operation is undefined behaviour (it only
stops at a failed assertion), every array's elements are alive and owned by it alone, no element was overwritten
or freed without being destroyed. If moreover no copying assignment threw (see `C25_leak`), every live block has
an owner. -/
theorem C23_lifetime_partial {S : Nat → Bool} {chk calm : Bool} {s : PState α} {ops : List (HOp α)}
    (hc : Careful S chk calm s ops) (ht : Tidy s) (hn : calm = true → NoLeak s) :
    (∃ s', hrun S chk s ops = .ok s' ∧ Tidy s' ∧ (calm = true → NoLeak s')) ∨
      hrun S chk s ops = .error .assert ∨ hrun S chk s ops = .error .illFormed := by
  induction hc with
  | nil s => exact .inl ⟨s, rfl, ht, hn⟩
  | stop ha hf =>
    rcases tidy_step (S := S) ht ha with ⟨s', e, h, _⟩ | h | h
    · rw [hf] at h; cases h
    · right; left; simp [hrun, h, bind, Except.bind]
    · right; right; simp [hrun, h, bind, Except.bind]
  | step ha hok hcalm _ ih =>
    rcases tidy_step (S := S) ht ha with ⟨s', e, h, h1, h2⟩ | h | h
    · rw [hok] at h
      cases h
      simp only [hrun, hok, bind, Except.bind]
      exact ih h1 fun hcm => h2 (fun ⟨h3, h4⟩ => h4 (hcalm hcm h3)) (hn hcm)
    · rw [hok] at h; cases h
    · rw [hok] at h; cases h

theorem tidy_empty : Tidy (PState.empty : PState α) ∧ NoLeak (PState.empty : PState α) := by
  constructor
  · constructor <;> simp [PState.empty, Heap.cells]
  · intro id c h; simp [PState.empty, Heap.cells] at h

/-- **C23** (partial, as above). A whole program that creates arrays, uses them and destroys all of them leaves
nothing allocated, and never lost an element. -/
theorem C23_all_freed_partial {S : Nat → Bool} {chk : Bool} {ops : List (HOp α)} {s' : PState α}
    (hc : Careful S chk true PState.empty ops) (hr : hrun S chk PState.empty ops = .ok s')
    (hd : ∀ x, s'.env x = none) : Freed s' ∧ s'.heap.lost = 0 := by
  rcases C23_lifetime_partial hc tidy_empty.1 (fun _ => tidy_empty.2) with ⟨s2, h1, h2, h3⟩ | h | h
  · rw [hr] at h1; cases h1
    refine ⟨fun id => ?_, h2.lost⟩
    cases hcell : s'.heap.cells id with
    | none => rfl
    | some c =>
      obtain ⟨x, o, hx, _⟩ := h3 rfl id c hcell
      rw [hd x] at hx; cases hx
  · rw [hr] at h; cases h
  · rw [hr] at h; cases h

/-- An executable check of `Allowed`, to exhibit concrete careful programs (initialiser lists are left out). -/
def allowedB (s : PState α) : HOp α → Bool
  | .iter _ l ext => decide (prod ext ≤ l.length)
  | .init _ _ _ => false
  | .copy _ y => match s.env y with
    | some o => !decide (Hollow o)
    | none => true
  | .assign x y => match s.env x, s.env y with
    | some a, some b => !decide (Hollow b) && (!decide (Hollow a) || prod a.ext != prod b.ext)
    | _, _ => true
  | .assignExpr x ext l => decide (prod ext ≤ l.length) && match s.env x with
    | some a => !decide (Hollow a) || prod a.ext != prod ext
    | none => true
  | .reshape _ y ext => match s.env y with
    | some o => prod o.ext == prod ext
    | none => true
  | .write x k _ => match s.env x with
    | some o => !decide (Hollow o) && decide (k < prod o.ext)
    | none => true
  | _ => true

theorem allowedB_sound {chk : Bool} {s : PState α} {op : HOp α} (h : allowedB s op = true) : Allowed chk s op := by
  cases op <;> simp only [allowedB, Allowed] at h ⊢ <;> try trivial
  · simpa using h
  · intro o ho; simpa [ho] using h
  · intro a b ha hb
    simp only [ha, hb, Bool.and_eq_true, Bool.not_eq_true', decide_eq_false_iff_not, Bool.or_eq_true, bne_iff_ne] at h
    exact ⟨h.1, fun hh => h.2.resolve_left fun h => h hh⟩
  · refine ⟨by simp at h; exact h.1, ?_⟩
    intro a ha
    simp only [ha, Bool.and_eq_true, Bool.not_eq_true', decide_eq_false_iff_not, Bool.or_eq_true, bne_iff_ne] at h
    exact fun hh => h.2.resolve_left fun h => h hh
  · right; intro o ho; simpa [ho] using h
  · intro o ho; simpa [ho] using h

/-- An executable check of `Careful`. -/
def carefulB (S : Nat → Bool) (chk : Bool) : PState α → List (HOp α) → Bool
  | _, [] => true
  | s, op :: ops => allowedB s op && match hstep S chk s op with
    | .ok (s', none) => carefulB S chk s' ops
    | _ => false

theorem carefulB_sound {S : Nat → Bool} {chk calm : Bool} : ∀ {ops : List (HOp α)} {s : PState α},
    carefulB S chk s ops = true → Careful S chk calm s ops
  | [], s, _ => .nil s
  | op :: ops, s, h => by
    simp only [carefulB, Bool.and_eq_true] at h
    obtain ⟨h1, h2⟩ := h
    split at h2
    · next s' he => exact .step (allowedB_sound h1) he (fun _ _ => rfl) (carefulB_sound h2)
    · cases h2

/-- A program with copies, a move, an assignment to a moved-from array (of another size), a reshape and destruction, all
within `Careful`, and ending with every array destroyed. -/
theorem careful_ex : Careful (fun _ => false) true true (PState.empty : PState Nat)
    [.fill 0 7 [2, 2], .copy 1 0, .move 2 0, .iter 3 [1, 2, 3] [3], .assign 0 3, .assign 1 3, .write 1 2 9, .moveAssign 1 2,
      .reshape 4 1 [4], .assignExpr 4 [2] [5, 6], .destroy 0, .destroy 1, .destroy 2, .destroy 3, .destroy 4] :=
  carefulB_sound (by decide +kernel)

/-- **C23 is false as stated**: assigning to a moved-from array a source of the size it still claims writes
through a null pointer, in every build. -/
theorem C23_moved_from_assignment {S : Nat → Bool} {chk : Bool} {s : PState α} (ht : Tidy s) {x y : Nat} {a b : Own}
    (hx : s.env x = some a) (hy : s.env y = some b) (ha : Hollow a) (hb : ¬ Hollow b) (hsz : prod a.ext = prod b.ext) :
    hstep S chk s (.assign x y) = .error .ub := by
  have hxy : x ≠ y := by
    rintro rfl
    rw [hx] at hy; cases hy; exact hb ha
  obtain ⟨n, hn⟩ := Nat.exists_eq_succ_of_ne_zero ha.2
  have hbp : ∃ id, b.ptr = some id := by
    cases hp : b.ptr with
    | none => exact (hb ⟨hp, hsz ▸ ha.2⟩).elim
    | some id => exact ⟨id, rfl⟩
  obtain ⟨id, hid⟩ := hbp
  obtain ⟨vs, hc, hl⟩ := ht.owned y b id hy hid
  have hv : (vs.map some)[0]? = some (some (vs[0]'(by omega))) := by
    rw [List.getElem?_map, List.getElem?_eq_getElem (by omega)]; rfl
  simp only [hstep, hx, hy, if_neg hxy, assignArr, own_size, prodL_exact, hsz, if_true]
  rw [← hsz, hn, Nat.succ_eq_add_one, List.range_succ_eq_map]
  simp [copyLoop, bind, HM.bind, ownSrc, hid, readAt, hc, hv, ha.1, HM.die, finish]

/-- `vector<int> a{7, 7}, b{7, 7}; auto c = std::move(a); a = b;`. The same program with sources of another size
is fine. -/
example : (hrun (fun _ => false) true (PState.empty : PState Nat) [.fill 0 7 [2], .fill 1 7 [2], .move 2 0, .assign 0 1]).isOk
    = false ∧ (hrun (fun _ => false) true (PState.empty : PState Nat) [.fill 0 7 [2], .fill 1 7 [3], .move 2 0, .assign 0 1]).isOk
    = true := by decide +kernel

/-! ### C25 -/

/-- The two copying assignments from a source of extents `ext` whose elements are readable. -/
inductive AssignFrom (s : PState α) (x : Nat) (ext : List Nat) : HOp α → Prop where
  /-- `x = y` -/
  | array {y b} : x ≠ y → s.env y = some b → ¬ Hollow b → b.ext = ext → AssignFrom s x ext (.assign x y)
  /-- `x = e` -/
  | expr {l} : prod ext ≤ l.length → AssignFrom s x ext (.assignExpr x ext l)

theorem assignFrom_step {S : Nat → Bool} {chk : Bool} {s : PState α} (ht : Tidy s) {x : Nat} {a : Own} (hx : s.env x = some a)
    {ext : List Nat} {op : HOp α} (hop : AssignFrom s x ext op) :
    ∃ (src : Nat → HM α α) (ws : List α), hstep S chk s op = finish s x (assignArr S a ext src s.heap) ∧ ws.length = prod ext ∧
      ∀ b, (a.ptr = some b ∨ b = s.heap.blocks.length) → ∀ (k : Nat) (v : α), ws[k]? = some v → Good b s.heap (src k) v := by
  cases hop with
  | @array y b hxy hy hb he =>
    subst he
    obtain ⟨ws, hl, hc⟩ := tidy_values ht hy hb
    refine ⟨ownSrc b, ws, by simp [hstep, hx, hy, hxy], hl, ?_⟩
    intro id hid
    apply good_source hl hb hc
    intro hbp
    rcases hid with h | h
    · exact hxy (ht.once x y a b id hx hy h hbp)
    · subst h; exact Nat.lt_irrefl _ (cells_lt (hc _ hbp))
  | @expr l hl =>
    refine ⟨iterSrc l, l.take (prod ext), by simp [hstep, hx], by simp [hl], ?_⟩
    intro id _ k w hk
    apply good_iter
    have hlt : k < prod ext := by have := (List.getElem?_eq_some_iff.1 hk).1; simp at this; omega
    rwa [List.getElem?_take_of_lt hlt] at hk

/-- **C25** (partial: see `C25_leak`). If an assignment from a source of another size throws, the target keeps its
extents and elements, and so does every other array; no element is lost. -/
theorem C25_keeps_old_value_partial {S : Nat → Bool} {chk : Bool} {s s' : PState α} (ht : Tidy s) {x : Nat} {a : Own}
    (hx : s.env x = some a) {ext : List Nat} {op : HOp α} (hop : AssignFrom s x ext op) (hsz : prod a.ext ≠ prod ext) {e : Exn}
    (hr : hstep S chk s op = .ok (s', some e)) :
    s'.env = s.env ∧ (∀ id c, s.heap.cells id = some c → s'.heap.cells id = some c) ∧ s'.heap.lost = s.heap.lost := by
  obtain ⟨src, ws, hs, hw, hg⟩ := assignFrom_step (S := S) (chk := chk) ht hx hop
  have hp := post_assign_diff (S := S) hsz hw (fun id hid => ht.owned x a id hx hid) (hg _ (.inr rfl))
  rw [hs] at hr
  cases hi : assignArr S a ext src s.heap with
  | fail f => rw [hi] at hr; cases hr
  | ok o h' => rw [hi] at hr; cases hr
  | exn e' h' =>
    rw [hi] at hr hp
    cases hr
    refine ⟨rfl, fun id c hc => ?_, hp.2.1.lost⟩
    rw [← hc]
    exact hp.2.1.cells id (Nat.ne_of_lt (cells_lt hc))

/-- **C25 is false as stated**: whenever the exception comes from copying an element (and not from the allocation
itself), the newly allocated block stays allocated and nobody owns it. -/
theorem C25_leak {S : Nat → Bool} {chk : Bool} {s s' : PState α} (ht : Tidy s) {x : Nat} {a : Own}
    (hx : s.env x = some a) {ext : List Nat} {op : HOp α} (hop : AssignFrom s x ext op) (hsz : prod a.ext ≠ prod ext) {e : Exn}
    (he : e ≠ .badAlloc) (hr : hstep S chk s op = .ok (s', some e)) : ¬ NoLeak s' := by
  obtain ⟨src, ws, hs, hw, hg⟩ := assignFrom_step (S := S) (chk := chk) ht hx hop
  have hp := post_assign_diff (S := S) hsz hw (fun id hid => ht.owned x a id hx hid) (hg _ (.inr rfl))
  rw [hs] at hr
  cases hi : assignArr S a ext src s.heap with
  | fail f => rw [hi] at hr; cases hr
  | ok o h' => rw [hi] at hr; cases hr
  | exn e' h' =>
    rw [hi] at hr hp
    cases hr
    obtain ⟨_, _, ⟨h, _⟩ | ⟨_, h⟩⟩ := hp
    · exact (he h).elim
    · intro hn
      obtain ⟨y, o, hy, ho⟩ := hn _ _ h
      obtain ⟨vs, hc, _⟩ := ht.owned y o _ hy ho
      exact Nat.lt_irrefl _ (cells_lt hc)

/-- **C25.** If an assignment from a source of the same size throws, the target keeps its extents, each of its elements
is alive and is its old value or the assigned one; every other array is unchanged, no element is lost and
nothing is leaked. -/
theorem C25_same_size {S : Nat → Bool} {chk : Bool} {s s' : PState α} (ht : Tidy s) {x : Nat} {a : Own}
    (hx : s.env x = some a) (ha : ¬ Hollow a) {ext : List Nat} {op : HOp α} (hop : AssignFrom s x ext op)
    (hsz : prod a.ext = prod ext) {e : Exn} (hr : hstep S chk s op = .ok (s', some e)) :
    s'.env = s.env ∧ s'.heap.lost = s.heap.lost ∧ (NoLeak s → NoLeak s') ∧
      (∀ id c, s.heap.cells id = some c → a.ptr ≠ some id → s'.heap.cells id = some c) ∧
      ∃ ws : List α, ws.length = prod ext ∧ ∀ id vs, a.ptr = some id → s.heap.cells id = some (List.map some vs) →
        ∃ vs' : List α, s'.heap.cells id = some (vs'.map some) ∧ vs'.length = vs.length ∧
          ∀ q : Nat, vs'[q]? = vs[q]? ∨ vs'[q]? = ws[q]? := by
  obtain ⟨src, ws, hs, hw, hg⟩ := assignFrom_step (S := S) (chk := chk) ht hx hop
  have hp := post_assign_same (S := S) hsz hw ha (fun id hid => ht.owned x a id hx hid) fun id hid => hg id (.inl hid)
  rw [hs] at hr
  cases hi : assignArr S a ext src s.heap with
  | fail f => rw [hi] at hr; cases hr
  | ok o h' => rw [hi] at hr; cases hr
  | exn e' h' =>
    rw [hi] at hr hp
    cases hr
    obtain ⟨_, _, b1, b2, b3⟩ := hp
    refine ⟨rfl, b3, ?_, fun id c hc hid => by rw [← hc]; exact b2 id hid, ws, hw, b1⟩
    intro hn id c hid
    by_cases hai : a.ptr = some id
    · exact ⟨x, a, hx, hai⟩
    · exact hn id c (by rw [← b2 id hai]; exact hid)

/-- `vector<T> a(2), b(3); a = b;` with the copy of the second element throwing: `a` is unchanged, but after the
destruction of both a block of three elements is still allocated. -/
example : (match hrun (fun t => t == 9) true (PState.empty : PState Nat)
      [.fill 0 7 [2], .fill 1 8 [3], .assign 0 1, .destroy 0, .destroy 1] with
    | .ok s => some s.heap.blocks
    | _ => none) = some [none, none, some [none, none, none]] := by decide +kernel

/-! ### C26 -/

/-- A builder in use: its block holds the pushed elements, the rest is raw. -/
def Building (h : Heap α) (b : Builder) (vs : List α) : Prop :=
  b.count = vs.length ∧ vs.length ≤ prod b.ext ∧ ∃ id, b.ptr = some id ∧
    h.cells id = some (vs.map some ++ List.replicate (prod b.ext - vs.length) none)

/-- **C26.** A new builder holds nothing and has room for the product of its extents. -/
theorem C26_new (S : Nat → Bool) (ext : List Nat) (h : Heap α) :
    Post (builderNew S ext h) (fun b h' => b.ext = ext ∧ Building h' b [] ∧ b.ptr = some h.blocks.length ∧ Same h.blocks.length h h')
      (fun _ h' => (∀ j, h'.cells j = h.cells j) ∧ h'.lost = h.lost) := by
  unfold builderNew
  refine post_bind (post_allocate.mono (fun _ _ h => h) fun e h' ⟨_, _, a, b⟩ => ⟨a, b⟩) ?_
  rintro id h1 ⟨rfl, h1c, h1s⟩
  exact post_pure ⟨rfl, ⟨rfl, Nat.zero_le _, _, rfl, by simpa [prodL_exact] using h1c⟩, rfl, h1s⟩

/-- **C26.** While there is room, a push appends its element (or throws and changes nothing); everything else is
untouched. -/
theorem C26_push {S : Nat → Bool} {chk : Bool} {b : Builder} {vs : List α} {v : α} {h : Heap α} (hb : Building h b vs)
    (hroom : vs.length < prod b.ext) :
    Post (builderPush S chk b v h)
      (fun b' h' => b'.ext = b.ext ∧ b'.ptr = b.ptr ∧ Building h' b' (vs ++ [v]) ∧
        h'.lost = h.lost ∧ ∀ j, b.ptr ≠ some j → h'.cells j = h.cells j)
      (fun _ h' => Building h' b vs ∧ h'.lost = h.lost ∧ ∀ j, b.ptr ≠ some j → h'.cells j = h.cells j) := by
  obtain ⟨h1, h2, id, h3, h4⟩ := hb
  unfold builderPush
  have hd : (dbg chk (b.count != prodL Arith.exact b.ext) : Res Unit) = .ok () := by
    have : b.count ≠ prod b.ext := by omega
    simp [dbg, prodL_exact, this]
  have hcell : (vs.map some ++ List.replicate (prod b.ext - vs.length) (none : Option α))[b.count]? = some none := by
    rw [List.getElem?_append_right (by simp [h1]), List.getElem?_replicate]
    simp [h1]; omega
  refine post_bind (R := fun _ h' => h' = h) (by rw [hd]; exact rfl) ?_
  rintro _ _ rfl
  rw [h3]
  refine post_bind ((post_constructAt h4 hcell).mono (fun _ _ h => h) ?_) ?_
  · rintro e h' ⟨_, _, a, s⟩
    exact ⟨⟨h1, h2, id, h3, a⟩, s.lost, fun j hj => s.cells j (by rintro rfl; exact hj rfl)⟩
  · rintro _ h' ⟨a, s⟩
    refine post_pure ⟨rfl, h3.symm ▸ rfl, ⟨by simp [h1], by simp; omega, id, by simpa using h3, ?_⟩, s.lost,
      fun j hj => s.cells j (by rintro rfl; exact hj rfl)⟩
    rw [a]
    congr 1
    rw [h1, List.set_append_right _ _ (by simp)]
    obtain ⟨m, hm⟩ : ∃ m, prod b.ext - vs.length = m + 1 := ⟨prod b.ext - vs.length - 1, by omega⟩
    have hm' : prod b.ext - (vs ++ [v]).length = m := by simp; omega
    simp only [hm, hm', List.length_map, Nat.sub_self, List.replicate_succ, List.set_cons_zero]
    simp

/-- **C26.** Pushing into a complete builder: reported in checked builds, undefined otherwise. -/
theorem C26_over_push {S : Nat → Bool} {b : Builder} {vs : List α} {v : α} {h : Heap α} (hb : Building h b vs)
    (hfull : vs.length = prod b.ext) :
    builderPush S true b v h = .fail .assert ∧ builderPush S false b v h = .fail .ub := by
  obtain ⟨h1, h2, id, h3, h4⟩ := hb
  constructor
  · have hd : (dbg true (b.count != prodL Arith.exact b.ext) : Res Unit) = .error .assert := by
      simp [dbg, prodL_exact, h1, hfull]
    simp [builderPush, bind, HM.bind, HM.lift, hd]
  · have hcell : (vs.map some ++ List.replicate (prod b.ext - vs.length) (none : Option α))[b.count]? = none := by
      apply List.getElem?_eq_none
      simp [h1, hfull]
    have hd : (dbg false (b.count != prodL Arith.exact b.ext) : Res Unit) = .ok () := by simp [dbg]
    simp [builderPush, bind, HM.bind, HM.lift, hd, h3, constructAt, h4, hcell]

/-- **C26.** Turning a complete builder into an array: the array holds exactly the pushed elements, column-major; the
builder no longer owns anything. An incomplete builder is reported in checked builds. -/
theorem C26_release {chk : Bool} {b : Builder} {vs : List α} {h : Heap α} (hb : Building h b vs) (hne : b.ext ≠ []) :
    (vs.length = prod b.ext → ∃ o, arrayFromBuilder chk b h = .ok o h ∧ Holds h o b.ext vs ∧ o.ptr = b.ptr) ∧
      (vs.length ≠ prod b.ext → arrayFromBuilder true b h = .fail .assert) := by
  obtain ⟨h1, h2, id, h3, h4⟩ := hb
  constructor
  · intro hfull
    have hd : (dbg chk (b.count == prodL Arith.exact b.ext) : Res Unit) = .ok () := by
      simp [dbg, prodL_exact, h1, hfull]
    refine ⟨⟨b.ptr, b.ext⟩, ?_, ?_, rfl⟩
    · simp [arrayFromBuilder, builderRelease, hd, bind, HM.bind, HM.lift, Except.bind, builderDtor, pure, HM.pure]
    · rw [h3]
      exact holds_of hne hfull (by rw [h4]; simp [hfull])
  · intro hnf
    have hd : (dbg true (b.count == prodL Arith.exact b.ext) : Res Unit) = .error .assert := by
      have : b.count ≠ prod b.ext := by omega
      simp [dbg, prodL_exact, this]
    simp [arrayFromBuilder, builderRelease, hd, bind, HM.bind, HM.lift, Except.bind]

/-- **C26.** Destroying an unreleased builder destroys exactly the pushed elements and frees its memory. -/
theorem C26_destroy {b : Builder} {vs : List α} {h : Heap α} (hb : Building h b vs) :
    Post (builderDtor b h) (fun _ h' => (∀ id, b.ptr = some id → h'.cells id = none) ∧
      (∀ j, b.ptr ≠ some j → h'.cells j = h.cells j) ∧ h'.lost = h.lost) (fun _ _ => False) := by
  obtain ⟨h1, h2, id, h3, h4⟩ := hb
  unfold builderDtor
  rw [h3]
  refine post_bind (post_destroyN h4 (by simp [h1]) ?_ ?_) ?_
  · intro k hk
    rw [h1] at hk
    exact ⟨vs[k], by rw [List.getElem?_append_left (by simpa using hk)]; simp [hk]⟩
  · intro k hk hk'
    simp only [List.length_append, List.length_map, List.length_replicate] at hk'
    rw [List.getElem?_append_right (by simp; omega), List.getElem?_replicate]
    simp; omega
  · rintro _ h' ⟨c', a1, a2, a3⟩
    refine (post_deallocate a1 a2).mono ?_ (fun _ _ h => h)
    rintro _ h2 ⟨b1, b2⟩
    refine ⟨by intro j hj; cases hj; exact b1, fun j hj => (a3.trans b2).cells j (by rintro rfl; exact hj rfl), (a3.trans b2).lost⟩

/-- **C26.** A sequence of pushes that fits: whatever throws, the builder then holds a prefix of the sequence, the
whole of it if nothing throws. -/
theorem C26_push_all {S : Nat → Bool} {chk : Bool} : ∀ {ws : List α} {b : Builder} {vs : List α} {h : Heap α},
    Building h b vs → vs.length + ws.length ≤ prod b.ext →
    ∃ b' h' n, builderPushAll S chk b ws h = .ok b' h' ∧ Building h' b' (vs ++ ws.take n) ∧ b'.ext = b.ext ∧
      b'.ptr = b.ptr ∧ h'.lost = h.lost ∧ (∀ j, b.ptr ≠ some j → h'.cells j = h.cells j) ∧
      ((∀ t, S t = false) → n = ws.length)
  | [], b, vs, h, hb, _ => ⟨b, h, 0, rfl, by simpa using hb, rfl, rfl, rfl, fun _ _ => rfl, fun _ => rfl⟩
  | v :: ws, b, vs, h, hb, hl => by
    simp only [List.length_cons] at hl
    have hp := C26_push (S := S) (chk := chk) (v := v) hb (by omega)
    simp only [builderPushAll]
    cases hr : builderPush S chk b v h with
    | fail f => rw [hr] at hp; exact hp.elim
    | exn e h' =>
      rw [hr] at hp
      refine ⟨b, h', 0, rfl, by simpa using hp.1, rfl, rfl, hp.2.1, hp.2.2, ?_⟩
      intro hS
      exfalso
      obtain ⟨h1, h2, id, h3, h4⟩ := hb
      have hcell : (vs.map some ++ List.replicate (prod b.ext - vs.length) (none : Option α))[b.count]? = some none := by
        rw [List.getElem?_append_right (by simp [h1]), List.getElem?_replicate]
        simp [h1]; omega
      have hd : (dbg chk (b.count != prodL Arith.exact b.ext) : Res Unit) = .ok () := by
        have : b.count ≠ prod b.ext := by omega
        simp [dbg, prodL_exact, this]
      simp [builderPush, bind, HM.bind, HM.lift, hd, h3, constructAt, h4, hcell, event, hS, pure, HM.pure] at hr
    | ok b' h' =>
      rw [hr] at hp
      obtain ⟨p1, p2, p3, p4, p5⟩ := hp
      obtain ⟨b2, h2, n, q1, q2, q3, q4, q5, q6, q7⟩ := C26_push_all (S := S) (chk := chk) (ws := ws) p3 (by simp [p1]; omega)
      refine ⟨b2, h2, n + 1, q1, by simpa using q2, q3.trans p1, q4.trans p2, q5.trans p4, ?_, ?_⟩
      · intro j hj
        rw [q6 j (by rw [p2]; exact hj), p5 j hj]
      · intro hS; simp [q7 hS]

/-- Move-assigning a builder is undefined (the operator has no return statement); move construction hands the
contents over. -/
theorem C26_move {b : Builder} {vs : List α} {h : Heap α} (hb : Building h b vs) :
    Building h (builderMove b).1 vs ∧ builderDtor (builderMove b).2 h = .ok () h ∧
      ∀ a, builderMoveAssign a b = .error .ub := ⟨hb, rfl, fun _ => rfl⟩

/-- Three elements pushed into a builder of three, released as a vector. -/
example : (match builderNew (fun _ => false) [3] (⟨[], 0, 0⟩ : Heap Nat) with
    | .ok b h => match builderPushAll (fun _ => false) true b [4, 5, 6] h with
      | .ok b h => match arrayFromBuilder true b h with
        | .ok o h => some (o, h.blocks)
        | _ => none
      | _ => none
    | _ => none) = some (⟨some 0, [3]⟩, [some [some 4, some 5, some 6]]) := by decide +kernel

/-! ### The hypotheses hold in concrete cases -/

example := C23_lifetime_partial careful_ex tidy_empty.1 (fun _ => tidy_empty.2)

/-- Two vectors of sizes 2 and 3. -/
def twoVecs : PState Nat := ⟨fun x => if x = 0 then some ⟨some 0, [2]⟩ else if x = 1 then some ⟨some 1, [3]⟩ else none,
  ⟨[some [some 7, some 7], some [some 8, some 8, some 8]], 0, 0⟩⟩

theorem twoVecs_tidy : Tidy twoVecs := by
  have env : ∀ x o, twoVecs.env x = some o → (x = 0 ∧ o = ⟨some 0, [2]⟩) ∨ (x = 1 ∧ o = ⟨some 1, [3]⟩) := by
    intro x o h
    simp only [twoVecs] at h
    split at h
    · cases h; exact .inl ⟨‹_›, rfl⟩
    · split at h
      · cases h; exact .inr ⟨‹_›, rfl⟩
      · cases h
  refine ⟨?_, ?_, ?_, rfl⟩
  · intro x o id h hp
    rcases env x o h with ⟨rfl, rfl⟩ | ⟨rfl, rfl⟩
    · cases hp; exact ⟨[7, 7], rfl, rfl⟩
    · cases hp; exact ⟨[8, 8, 8], rfl, rfl⟩
  · intro x y o o' id h h' hp hp'
    rcases env x o h with ⟨rfl, rfl⟩ | ⟨rfl, rfl⟩ <;> rcases env y o' h' with ⟨rfl, rfl⟩ | ⟨rfl, rfl⟩ <;> cases hp <;> first | rfl | cases hp'
  · intro id c h
    match id, h with
    | 0, _ => exact .inl ⟨0, _, rfl, rfl⟩
    | 1, _ => exact .inl ⟨1, _, rfl, rfl⟩
    | n + 2, h => cases h

/-- The second element copied by `0 = 1` throws. -/
example := C25_keeps_old_value_partial (S := fun t => t == 2) (chk := true) twoVecs_tidy (x := 0) rfl (.array (y := 1) (ext := [3]) (by decide) rfl (by simp [Hollow]) rfl) (by decide)
  (e := .user) rfl
example := C25_leak (S := fun t => t == 2) (chk := true) twoVecs_tidy (x := 0) rfl (.array (y := 1) (ext := [3]) (by decide) rfl (by simp [Hollow]) rfl) (by decide)
  (e := .user) (by decide) rfl

/-- A builder of three with one element pushed. -/
theorem building_ex : Building (⟨[some [some 4, none, none]], 0, 0⟩ : Heap Nat) ⟨some 0, [3], 1⟩ [4] := ⟨rfl, by decide, 0, rfl, rfl⟩

theorem building_full : Building (⟨[some [some 4, some 5]], 0, 0⟩ : Heap Nat) ⟨some 0, [2], 2⟩ [4, 5] := ⟨rfl, by decide, 0, rfl, rfl⟩

example := C26_push (S := fun _ => false) (chk := true) (v := 5) building_ex (by decide)
example := C26_over_push (S := fun _ => false) (v := 5) building_full rfl
example := (C26_release (chk := true) building_full (by decide)).1 rfl
example := (C26_release (chk := true) building_ex (by decide)).2 (by decide)
example := C26_destroy building_ex
example := C26_push_all (S := fun _ => false) (chk := true) (ws := [5, 6]) building_ex (by decide)

/-- One vector, its copy, and both destroyed. -/
example := C23_all_freed_partial (α := Nat) (S := fun _ => false) (chk := true) (ops := [.fill 0 7 [2], .copy 1 0, .destroy 0, .destroy 1]) (carefulB_sound (by decide +kernel)) rfl
  (by intro x; rcases x with _ | _ | x <;> rfl)

end Jules.Props

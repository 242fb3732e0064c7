import Verif.Lemmas.Heap
import Verif.Spec.Lifetime
/-
Lemmas about assignment and destruction of array objects.
-/
namespace Jules
open Spec

theorem post_copyLoop {S : Nat → Bool} {dst : Own} {id n : Nat} {h0 : Heap α} {src : Nat → HM α α} {ws : List α}
    (hp : dst.ptr = some id) (hg : ∀ (k : Nat) (v : α), ws[k]? = some v → Good id h0 (src k) v) :
    ∀ {ks : List Nat} {h : Heap α} {vs : List α}, h.cells id = some (vs.map some) → Same id h0 h →
    (∀ k ∈ ks, k < vs.length ∧ k < ws.length) →
    Post (copyLoop S dst src n ks h)
      (fun _ h' => ∃ vs' : List α, h'.cells id = some (vs'.map some) ∧ vs'.length = vs.length ∧
        (∀ k ∈ ks, vs'[k]? = ws[k]?) ∧ (∀ q, q ∉ ks → vs'[q]? = vs[q]?) ∧ Same id h0 h')
      (fun e h' => e = .user ∧ Thr S ∧ ∃ vs' : List α, h'.cells id = some (vs'.map some) ∧ vs'.length = vs.length ∧
        (∀ (q : Nat), vs'[q]? = vs[q]? ∨ vs'[q]? = ws[q]?) ∧ Same id h0 h')
  | [], h, vs, hc, hs, _ => ⟨vs, hc, rfl, by simp, by simp, hs⟩
  | k :: ks, h, vs, hc, hs, hk => by
    obtain ⟨hkv, hkw⟩ := hk k (by simp)
    have hw : ws[k]? = some ws[k] := List.getElem?_eq_getElem hkw
    have hv : (vs.map some)[k]? = some (some vs[k]) := by simp [hkv]
    simp only [copyLoop]
    refine post_bind (R := fun w h' => w = ws[k] ∧ h' = h) ?_ ?_
    · rw [hg k _ hw h fun j hj => hs.cells j hj]; exact ⟨rfl, rfl⟩
    rintro w h' ⟨rfl, rfl⟩
    rw [hp]
    refine post_bind (R := fun _ h' => h'.cells id = some ((vs.set k ws[k]).map some) ∧ Same id h0 h') ?_ ?_
    · refine (post_assignAt hc hv).mono ?_ ?_
      · rintro _ h1 ⟨a, b⟩
        exact ⟨by rw [a, List.map_set], hs.trans b⟩
      · rintro e h1 ⟨a, t, b, d⟩
        exact ⟨a, t, vs, b, rfl, fun _ => .inl rfl, hs.trans d⟩
    · rintro _ h1 ⟨a, b⟩
      refine (post_copyLoop hp hg a b ?_).mono ?_ ?_
      · intro q hq
        have := hk q (by simp [hq])
        simpa using this
      · rintro _ h2 ⟨vs', a1, a2, a3, a4, a5⟩
        refine ⟨vs', a1, by simpa using a2, ?_, ?_, a5⟩
        · intro q hq
          by_cases hqk : q ∈ ks
          · exact a3 q hqk
          · have : q = k := by simpa [hqk] using hq
            subst this
            rw [a4 q hqk]; simp [hkv]
        · intro q hq
          simp only [List.mem_cons, not_or] at hq
          rw [a4 q hq.2, List.getElem?_set_ne (Ne.symm hq.1)]
      · rintro e h2 ⟨he, t, vs', a1, a2, a3, a5⟩
        refine ⟨he, t, vs', a1, by simpa using a2, ?_, a5⟩
        intro q
        rcases a3 q with h | h
        · by_cases hqk : q = k
          · subst hqk
            right; rw [h]; simp [hkv]
          · left; rw [h, List.getElem?_set_ne (Ne.symm hqk)]
        · exact .inr h

theorem own_size (o : Own) : o.size = prod o.ext := by simp [Own.size, prodL_exact]

/-- Destroying an array with storage frees exactly its block. -/
theorem post_clear {o : Own} {h : Heap α}
    (ho : ∀ id, o.ptr = some id → ∃ vs : List α, h.cells id = some (vs.map some) ∧ vs.length = prod o.ext) :
    Post (clearArr o h) (fun _ h' => (∀ id, o.ptr = some id → h'.cells id = none) ∧
      (∀ j, o.ptr ≠ some j → h'.cells j = h.cells j) ∧ h'.lost = h.lost) (fun _ _ => False) := by
  unfold clearArr
  cases hp : o.ptr with
  | none => exact post_pure ⟨by simp, by simp, rfl⟩
  | some id =>
    obtain ⟨vs, hc, hl⟩ := ho id hp
    refine post_bind (post_destroyN hc (by simp [own_size, hl]) ?_ ?_) ?_
    · intro k hk
      rw [own_size, ← hl] at hk
      exact ⟨vs[k], by simp [hk]⟩
    · intro k hk hk'
      rw [own_size, ← hl] at hk
      simp at hk'; omega
    · rintro _ h1 ⟨c', a1, a2, a3⟩
      refine (post_deallocate a1 a2).mono ?_ (fun _ _ h => h)
      rintro _ h2 ⟨b1, b2⟩
      refine ⟨?_, ?_, (a3.trans b2).lost⟩
      · intro j hj; cases hj; exact b1
      · intro j hj; exact (a3.trans b2).cells j (by rintro rfl; exact hj rfl)

/-- Assignment of a source of the same size. -/
theorem post_assign_same {S : Nat → Bool} {dst : Own} {ext : List Nat} {src : Nat → HM α α} {h : Heap α} {ws : List α}
    (hsz : prod dst.ext = prod ext) (hw : ws.length = prod ext) (hh : ¬ Hollow dst)
    (ho : ∀ id, dst.ptr = some id → ∃ vs : List α, h.cells id = some (vs.map some) ∧ vs.length = prod dst.ext)
    (hg : ∀ id, dst.ptr = some id → ∀ (k : Nat) (v : α), ws[k]? = some v → Good id h (src k) v) :
    Post (assignArr S dst ext src h)
      (fun o h' => o = ⟨dst.ptr, ext⟩ ∧ (∀ id, dst.ptr = some id → h'.cells id = some (ws.map some)) ∧
        (∀ j, dst.ptr ≠ some j → h'.cells j = h.cells j) ∧ h'.lost = h.lost)
      (fun e h' => e = .user ∧ Thr S ∧ (∀ (id : Nat) (vs : List α), dst.ptr = some id → h.cells id = some (vs.map some) →
          ∃ vs' : List α, h'.cells id = some (vs'.map some) ∧ vs'.length = vs.length ∧
            ∀ (q : Nat), vs'[q]? = vs[q]? ∨ vs'[q]? = ws[q]?) ∧
        (∀ j, dst.ptr ≠ some j → h'.cells j = h.cells j) ∧ h'.lost = h.lost) := by
  unfold assignArr
  rw [if_pos (by rw [own_size, prodL_exact, hsz])]
  cases hp : dst.ptr with
  | none =>
    have : dst.size = 0 := by
      rw [own_size]
      by_contra hne
      exact hh ⟨hp, hne⟩
    rw [this]
    exact post_bind (R := fun _ h' => h' = h) rfl (by rintro _ _ rfl; exact post_pure ⟨rfl, by simp, by simp, rfl⟩)
  | some id =>
    obtain ⟨vs, hc, hl⟩ := ho id hp
    have hlen : ∀ k ∈ List.range dst.size, k < vs.length ∧ k < ws.length := by
      intro k hk
      rw [List.mem_range, own_size] at hk
      omega
    refine post_bind ((post_copyLoop hp (hg id hp) hc .rfl' hlen).mono (fun _ _ h => h) ?_) ?_
    · rintro e h' ⟨he, t, vs', a1, a2, a3, a4⟩
      refine ⟨he, t, ?_, fun j hj => a4.cells j (by rintro rfl; exact hj rfl), a4.lost⟩
      intro j vs2 hj hc2
      cases hj
      rw [hc] at hc2
      have : vs = vs2 := List.map_injective_iff.2 (fun _ _ h => Option.some.inj h) (Option.some.inj hc2)
      subst this
      exact ⟨vs', a1, a2, a3⟩
    · rintro _ h' ⟨vs', a1, a2, a3, a4, a5⟩
      refine post_pure ⟨rfl, ?_, fun j hj => a5.cells j (by rintro rfl; exact hj rfl), a5.lost⟩
      intro j hj; cases hj
      rw [a1]
      congr 2
      apply List.ext_getElem?
      intro k
      by_cases hk : k < dst.size
      · exact a3 k (by simpa using hk)
      · rw [own_size] at hk
        rw [List.getElem?_eq_none (by omega), List.getElem?_eq_none (by omega)]

/-- Assignment of a source of another size. When it throws, every block that existed is as before. -/
theorem post_assign_diff {S : Nat → Bool} {dst : Own} {ext : List Nat} {src : Nat → HM α α} {h : Heap α} {ws : List α}
    (hsz : prod dst.ext ≠ prod ext) (hw : ws.length = prod ext)
    (ho : ∀ id, dst.ptr = some id → ∃ vs : List α, h.cells id = some (vs.map some) ∧ vs.length = prod dst.ext)
    (hg : ∀ (k : Nat) (v : α), ws[k]? = some v → Good h.blocks.length h (src k) v) :
    Post (assignArr S dst ext src h)
      (fun o h' => o = ⟨some h.blocks.length, ext⟩ ∧ h'.cells h.blocks.length = some (ws.map some) ∧
        (∀ id, dst.ptr = some id → h'.cells id = none) ∧
        (∀ j, j ≠ h.blocks.length → dst.ptr ≠ some j → h'.cells j = h.cells j) ∧ h'.lost = h.lost)
      (fun e h' => Thr S ∧ Same h.blocks.length h h' ∧
        (e = .badAlloc ∧ h'.cells h.blocks.length = none ∨
          e = .user ∧ h'.cells h.blocks.length = some (List.replicate (prod ext) none))) := by
  unfold assignArr
  rw [if_neg (by rw [own_size, prodL_exact]; exact hsz)]
  refine post_bind (post_allocate.mono (fun _ _ h => h) ?_) ?_
  · rintro e h' ⟨he, t, a, b⟩
    exact ⟨t, ⟨fun j _ => a j, b⟩, .inl ⟨he, by rw [a, cells_fresh]⟩⟩
  rintro id h1 ⟨rfl, h1c, h1s⟩
  rw [prodL_exact] at h1c ⊢
  have hplan := seqPlan_ok (id := h.blocks.length) (h0 := h) hw hg
  refine post_bind ((post_constructLoop (h0 := h) (vs := ws) (done := []) h1c h1s hplan.len hplan.good
    (by simpa using hplan.nodup) (by simp) ?_).mono (fun _ _ h => h) ?_) ?_
  · intro q hq
    have := (hplan.mem q).1 hq
    simp [this]
  · rintro e h2 ⟨he, ht, c', a1, a2, a3, a4, a5⟩
    refine ⟨ht, a5, .inr ⟨he, ?_⟩⟩
    rw [a1]
    congr 1
    apply List.ext_getElem?
    intro k
    by_cases hk : k < prod ext
    · rw [a3 k (by simpa using (hplan.mem k).2 hk)]; simp [hk]
    · rw [List.getElem?_eq_none (by rw [a2]; simpa using hk), List.getElem?_eq_none (by simpa using hk)]
  · rintro _ h2 ⟨c', a1, a2, a3, a4, a5⟩
    have hcells : c' = ws.map some := seqPlan_cells hw (by rw [a2]; simp) a3
    subst hcells
    have hne : ∀ id, dst.ptr = some id → id ≠ h.blocks.length := by
      intro id hid
      obtain ⟨vs, hc, _⟩ := ho id hid
      exact Nat.ne_of_lt (cells_lt hc)
    refine post_bind ((post_clear (o := dst) (h := h2) ?_).mono (fun _ _ h => h) fun _ _ h => h.elim) ?_
    · intro id hid
      obtain ⟨vs, hc, hl⟩ := ho id hid
      exact ⟨vs, by rw [a5.cells id (hne id hid), hc], hl⟩
    · rintro _ h3 ⟨b1, b2, b3⟩
      refine post_pure ⟨rfl, ?_, b1, ?_, b3.trans a5.lost⟩
      · rw [b2 _ (fun h => hne _ h rfl), a1]
      · intro j hj hj'
        rw [b2 j hj', a5.cells j hj]

end Jules

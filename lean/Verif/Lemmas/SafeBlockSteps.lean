import Verif.Lemmas.SafeBlocks
/-
Lemmas for C87: statements with functions that may throw, legal or not, in checked builds.
-/
namespace Jules
open Spec Props

section
variable {α : Type} {W : BWorld α} {S : MStore α} {lost : List Nat} {T : Nat → Bool} {alloc : Nat → List (Nat × Nat) → Nat → Option Nat} {nx : Bool}

/-- How a statement ends: with arrays whose orders are those of `Γ'` (of before, if it throws), of which those not in `chg` are as before, and only those
described by `mv` (the same as before, if it throws) are moved-from; a block is lost only by an exception, and only if `I`. -/
def XFine (W : BWorld α) (S : MStore α) (lost : List Nat) (Γ' : Ctx) (chg : List Nat) (mv : Nat → Prop) (I : Prop) (nx : Bool) : Res (BWorld α × Bool) → Prop
  | .ok r => r.1.scopes = W.scopes ∧ ∃ S' lost', BHolds r.1 S' lost' ∧ (sctx S' = if r.2 then sctx S else Γ') ∧
      (∀ z, S'.moved z ≠ none → if r.2 then S.moved z ≠ none else mv z) ∧ (∀ y, y ∉ chg → S'.live y = S.live y ∧ S'.moved y = S.moved y) ∧
      (lost'.length = lost.length ∨ r.2 = true ∧ I ∧ lost'.length = lost.length + 1)
  | .error f => f = .assert ∨ f = .terminate ∧ nx = true

variable {Γ' : Ctx} {chg : List Nat} {mv : Nat → Prop} {I : Prop}

theorem fine_bind {β : Type} {r : Res β} {P : β → Prop} {g : β → Res (BWorld α × Bool)} (h : (∃ b, r = .ok b ∧ P b) ∨ r = .error .assert)
    (hg : ∀ b, P b → XFine W S lost Γ' chg mv I nx (g b)) : XFine W S lost Γ' chg mv I nx (r >>= g) := by
  rcases h with ⟨b, rfl, hb⟩ | rfl
  · exact hg b hb
  · exact .inl rfl

theorem fine_mono {mv' : Nat → Prop} {I' : Prop} {r : Res (BWorld α × Bool)} (h : XFine W S lost Γ' chg mv I nx r) (hm : ∀ z, mv z → mv' z) (hI : I → I') :
    XFine W S lost Γ' chg mv' I' nx r := by
  cases r with
  | error f => exact h
  | ok r =>
    obtain ⟨h1, S', lost', h2, h3, h4, h5, h6⟩ := h
    refine ⟨h1, S', lost', h2, h3, fun z hz => ?_, h5, h6.imp id fun q => ⟨q.1, hI q.2.1, q.2.2⟩⟩
    have := h4 z hz
    cases hr : r.2 with
    | true => simpa [hr] using this
    | false =>
      rw [hr] at this
      simpa using hm z (by simpa using this)

/-! ### Names and orders -/

theorem sctx_overlay (H : BHolds W S lost) : sctx S = overlay S.moved (ctxOf (W.flat Arith.exact)) := by
  funext x
  unfold sctx overlay
  cases S.moved x with
  | some d => rfl
  | none =>
    dsimp only
    have HF := bholds_flat H
    cases hx : S.live x with
    | none => simp [ctxOf, HF.out x hx]
    | some a =>
      obtain ⟨_, c, h1, h2, _⟩ := HF.arr x a hx
      simp [ctxOf, h1, h2]

theorem usable_safe (H : BHolds W S lost) {xs : List Nat} (h : ∀ x ∈ xs, S.moved x = none) : W.usable Arith.exact xs = .ok () := by
  unfold BWorld.usable
  rw [if_neg]
  rw [Bool.not_eq_true, List.any_eq_false]
  intro x hx
  cases hl : S.live x with
  | none => simp [H.out x ⟨hl, h x hx⟩]
  | some a =>
    obtain ⟨p, he, hp⟩ := bholds_env H hl
    rw [he]
    simp only [Own.hollow, prodL_exact, Bool.and_eq_true, Option.isNone_iff_eq_none, bne_iff_ne, ne_eq, not_and, Decidable.not_not]
    exact hp

/-- The array that is indexed. -/
theorem dest_cases (H : BHolds W S lost) {x : Nat} {h : List Ix} (hk : (chainKind (sctx S) x h).isSome) (hx : S.moved x = none) (hs : StepsOK h) :
    (∃ o, (W.flat Arith.exact).index Arith.exact true x h = .ok o ∧ ∃ a c, S.live x = some a ∧ (W.flat Arith.exact).env x = some c ∧ c.ext = a.ext ∧
      GoodObj c o ∧ chainKind (sctx S) x h = some (kindOf o)) ∨ (W.flat Arith.exact).index Arith.exact true x h = .error .assert := by
  have HF := bholds_flat H
  rw [sctx_overlay H, chainKind_overlay hx] at *
  rcases safe_cases (safe_index (holds_intact HF) x hs) hk with ⟨o, h1, c, h2, h3, h4⟩ | h1
  · refine .inl ⟨o, h1, ?_⟩
    cases hl : S.live x with
    | none => rw [HF.out x hl] at h2; cases h2
    | some a =>
      obtain ⟨_, c', k1, k2, _⟩ := HF.arr x a hl
      rw [h2] at k1; cases k1
      exact ⟨a, c, rfl, h2, k2, h3, h4⟩
  · exact .inr h1

theorem src_cases (H : BHolds W S lost) {e : FEx α} (he : (exOrder (sctx S) (shapeE e)).isSome) (hu : ∀ z ∈ e.uses, S.moved z = none)
    (hs : ExSteps (shapeE e)) :
    (∃ src, e.eval Arith.exact true (W.flat Arith.exact) = .ok src ∧ FGood W.pool.mem src ∧ exOrder (sctx S) (shapeE e) = some src.dims.length) ∨
      e.eval Arith.exact true (W.flat Arith.exact) = .error .assert := by
  rw [fex_uses] at hu
  rw [sctx_overlay H, exOrder_overlay hu] at *
  rcases safe_cases (safe_fex (holds_intact (bholds_flat H)) hs) he with ⟨src, h1, h2, h3⟩ | h
  · exact .inl ⟨src, h1, h2, h3⟩
  · exact .inr h

theorem sc_cases (H : BHolds W S lost) {s : Sc α} (he : scTyped (sctx S) s = true) (hu : ∀ z ∈ s.uses, S.moved z = none) (hs : ScSteps s) :
    (∃ c, s.eval Arith.exact true (W.flat Arith.exact) = .ok c ∧ ∀ m', Keeps W.pool.mem m' → ∃ v, c.get m' = .ok v) ∨
      s.eval Arith.exact true (W.flat Arith.exact) = .error .assert := by
  rw [sctx_overlay H, scTyped_overlay hu] at he
  rcases safe_cases (safe_sc (holds_intact (bholds_flat H)) hs) he with ⟨c, h1, _, h3⟩ | h
  · exact .inl ⟨c, h1, h3⟩
  · exact .inr h

theorem pos_cases {c : Arr} {o : Obj} (h : GoodObj c o) (hk : (viewOrder (kindOf o)).isSome ∨ kindOf o = .element) :
    (∃ ps, o.positions Arith.exact = .ok ps ∧ (∀ p ∈ ps, Covers (cells c) p) ∧ ∀ d, o.dims = some d → d ≠ [] ∧ ps.length = prod d) ∨
      o.positions Arith.exact = .error .assert := by
  rcases safe_cases h hk with ⟨ps, h1, _, h2⟩ | h
  · exact .inl ⟨ps, h1, h2⟩
  · exact .inr h

/-- The orders do not change when elements do. -/
theorem sctx_elts {A' : AStore α} {x : Nat} {a a' : AVal α} (ha : S.live x = some a) (ha' : A' x = some a') (he : a'.ext = a.ext)
    (ho : ∀ y, y ≠ x → A' y = S.live y) : sctx ⟨A', S.moved⟩ = sctx S := by
  funext z
  unfold sctx
  dsimp only
  cases S.moved z with
  | some d => rfl
  | none =>
    dsimp only
    by_cases hz : z = x
    · subst hz; rw [ha, ha']; simp [he]
    · rw [ho z hz]

/-- Elements of `x` have changed. -/
theorem touched (H : BHolds W S lost) {x : Nat} {a : AVal α} (ha : S.live x = some a) {c : Arr} (hc : (W.flat Arith.exact).env x = some c) (hce : c.ext = a.ext)
    {m' : Mem α} (hn : ∀ q, m' q = none ↔ W.pool.mem q = none) (hq : ∀ q, ¬ Covers (cells c) q → m' q = W.pool.mem q) :
    ∃ A', (∀ ck, BHolds { W with pool := ⟨m', W.pool.blocks, W.pool.ruined, ck⟩ } ⟨A', S.moved⟩ lost) ∧ sctx ⟨A', S.moved⟩ = sctx S ∧
      ∀ y, y ≠ x → A' y = S.live y := by
  have HF := bholds_flat H
  let a' : AVal α := ⟨a.ext, fun j => (m' (c.base + cmSum a.ext j)).getD (a.elt j)⟩
  let A' : AStore α := fun z => if z = x then some a' else S.live z
  have ho : ∀ y, y ≠ x → A' y = S.live y := fun y hy => by simp [A', hy]
  have hx' : A' x = some a' := by simp [A']
  have hal : ∀ j, InB a.ext j → m' (c.base + cmSum a.ext j) = some (a'.elt j) := by
    intro j hj
    have : W.pool.mem (c.base + cmSum a.ext j) ≠ none := by
      have := alive_cells HF ha hc j (by show InB c.ext j; rw [hce]; exact hj)
      simp only [cells, arrayView, hce] at this
      exact this
    obtain ⟨v, hv⟩ := Option.ne_none_iff_exists'.1 fun h => this ((hn _).1 h)
    simp only [a', hv, Option.getD_some]
  have hch : Chain a.ext [] ⟨a.ext, id⟩ := ⟨trivial, by simp [typeOf], rfl⟩
  refine ⟨A', fun ck => bholds_wrote H (k := 0) ?_ ?_ ck, sctx_elts ha hx' rfl ho, ho⟩
  · refine holds_write HF ha hc hce hch (f := fun k => some (a'.elt k)) (fun i hi => hal i hi) (by simp) ?_
      ⟨ho, a, a', ⟨a.ext, id⟩, ha, hx', rfl, rfl, fun _ _ => rfl, fun j hj hh => (hh ⟨j, hj, rfl⟩).elim⟩
    intro q hcov
    apply hq
    rintro ⟨k, hk, he⟩
    exact hcov ⟨k, by rw [← hce]; exact hk, by rw [← he]; simp [cells, arrayView, IView.toA, hce]⟩
  · intro z
    by_cases hz : z = x
    · subst hz; rw [hx', ha]; simp
    · rw [ho z hz]

/-- A loop over elements of `x`. -/
theorem loop_touched (H : BHolds W S lost) {x : Nat} {a : AVal α} (ha : S.live x = some a) {c : Arr} (hc : (W.flat Arith.exact).env x = some c) (hce : c.ext = a.ext)
    {ps : List Nat} (hps : ∀ p ∈ ps, Covers (cells c) p) {g : Nat → Nat → Mem α → Res (α × Bool)}
    (hg : ∀ m', Keeps W.pool.mem m' → ∀ k p, k < ps.length → p ∈ ps → W.pool.mem p ≠ none → (∃ r, g k p m' = .ok r) ∨ ∃ e, g k p m' = .error (.exc e)) :
    ∃ m' ck A', (loopB T g 0 ps W.pool = .ok () ⟨m', W.pool.blocks, W.pool.ruined, ck⟩ ∨ loopB T g 0 ps W.pool = .exn ⟨m', W.pool.blocks, W.pool.ruined, ck⟩) ∧
      BHolds { W with pool := ⟨m', W.pool.blocks, W.pool.ruined, ck⟩ } ⟨A', S.moved⟩ lost ∧ sctx ⟨A', S.moved⟩ = sctx S ∧ ∀ y, y ≠ x → A' y = S.live y := by
  have hlive : ∀ p ∈ ps, W.pool.mem p ≠ none := fun p hp => (holds_intact (bholds_flat H)).live x c p hc (hps p hp)
  obtain ⟨m', ck, h1, h2, h3⟩ := loopB_live (T := T) (g := g) (bl := W.pool.blocks) (ru := W.pool.ruined) ps 0 W.pool.mem W.pool.clock hlive
    (fun m' hm k p _ hk hp => hg m' hm k p (by omega) hp (hlive p hp))
  obtain ⟨A', k1, k2, k3⟩ := touched H ha hc hce h2 fun q hq => h3 q fun h => hq (hps q h)
  exact ⟨m', ck, A', h1, k1 ck, k2, k3⟩

theorem fine_wrote {x : Nat} {A' : AStore α} {p : Pool α} {R : BOut α Unit} (hR : R = .ok () p ∨ R = .exn p)
    (hB : BHolds { W with pool := p } ⟨A', S.moved⟩ lost) (hs : sctx ⟨A', S.moved⟩ = sctx S) (ho : ∀ y, y ≠ x → A' y = S.live y) :
    XFine W S lost (sctx S) [x] (fun z => S.moved z ≠ none) False nx (W.wrote R) := by
  rcases hR with rfl | rfl
  · exact ⟨rfl, _, lost, hB, hs, fun z hz => hz, fun y hy => ⟨ho y (by simpa using hy), rfl⟩, .inl rfl⟩
  · exact ⟨rfl, _, lost, hB, hs, fun z hz => hz, fun y hy => ⟨ho y (by simpa using hy), rfl⟩, .inl rfl⟩

/-! ### Writing -/

theorem dims_of {o : Obj} {n : Nat} (h : viewOrder (kindOf o) = some n) : ∃ d, o.dims = some d ∧ d.length = n := by
  rw [kind_dims] at h
  cases hd : o.dims with
  | none => rw [hd] at h; cases h
  | some d => rw [hd] at h; exact ⟨d, rfl, Option.some.inj h⟩

/-- The order of the destination is that of the source. -/
theorem view_orders {Γ : Ctx} {x : Nat} {h : List Ix} {o : Obj} {n : Nat} (hk : chainKind Γ x h = some (kindOf o)) (hv : viewTyped Γ x h (some n) = true) :
    viewOrder (kindOf o) = some n := by
  unfold viewTyped at hv
  rw [hk] at hv
  simp only [Option.bind_some, Bool.and_eq_true, beq_iff_eq] at hv
  exact hv.2

theorem viewTyped_kind {Γ : Ctx} {x : Nat} {h : List Ix} {n : Option Nat} (ht : viewTyped Γ x h n = true) : (chainKind Γ x h).isSome ∧ n.isSome := by
  unfold viewTyped at ht
  simp only [Bool.and_eq_true, beq_iff_eq] at ht
  refine ⟨?_, by rw [← ht.2]; exact ht.1⟩
  cases hk : chainKind Γ x h with
  | none => rw [hk] at ht; simp at ht
  | some k => rfl

theorem place_kind {Γ : Ctx} {x : Nat} {h : List Ix} {o : Obj} (hk : chainKind Γ x h = some (kindOf o)) (hp : placeTyped Γ x h = true) :
    (viewOrder (kindOf o)).isSome ∨ kindOf o = .element := by
  unfold placeTyped at hp
  rw [hk] at hp
  simpa using hp

theorem uses_moved {x : Nat} {xs : List Nat} (hx : S.moved x = none) (hu : ∀ z ∈ xs, S.moved z = none) : ∀ z ∈ x :: xs, S.moved z = none := by
  intro z hz
  rcases List.mem_cons.1 hz with rfl | hz
  · exact hx
  · exact hu z hz

/-- `view = e`. -/
theorem assign_touched (H : BHolds W S lost) {x : Nat} {a : AVal α} (ha : S.live x = some a) {c : Arr} (hc : (W.flat Arith.exact).env x = some c) (hce : c.ext = a.ext)
    {o : Obj} (ho : GoodObj c o) {src : FSrc α} (hg : FGood W.pool.mem src) (hv : viewOrder (kindOf o) = some src.dims.length) :
    XFine W S lost (sctx S) [x] (fun z => S.moved z ≠ none) False nx (W.wrote (assignB Arith.exact true T o src W.pool)) := by
  obtain ⟨d, hd, hdl⟩ := dims_of hv
  by_cases hsd : src.dims = d
  · rcases pos_cases ho (.inl (by rw [hv]; rfl)) with ⟨ps, h1, h2, h3⟩ | h1
    · have hlen := (h3 d hd).2
      obtain ⟨m', ck, A', k1, k2, k3, k4⟩ := loop_touched (T := T) H ha hc hce h2 (g := fun k _ m => src.value k m)
        (fun m' hm k p hk _ _ => value_any hg hm (by rw [hsd, ← hlen]; exact hk))
      have hcount : (src.it.count == some ps.length) = true := by rw [flive_count hg.2, hlen, hsd]; simp
      refine fine_wrote (A' := A') (p := ⟨m', W.pool.blocks, W.pool.ruined, ck⟩) ?_ k2 k3 k4
      have hb : (src.dims == d) = true := by simpa using hsd
      have hl : ¬ src.dims.length ≠ d.length := by rw [hsd]; simp
      simp only [assignB, hd, if_neg hl, hb, dbg_any_true, bm_bind, BM.bind, BM.reads, h1]
      rcases k1 with k1 | k1
      · left; simp only [k1, hcount, dbg_any_true]
      · right; simp only [k1]
    · have hb : (src.dims == d) = true := by simpa using hsd
      have hl : ¬ src.dims.length ≠ d.length := by rw [hsd]; simp
      have : assignB Arith.exact true T o src W.pool = .fail .assert := by
        simp only [assignB, hd, if_neg hl, hb, dbg_any_true, bm_bind, BM.bind, BM.reads, h1]
      rw [this]; exact .inl rfl
  · have hb : (src.dims == d) = false := by simpa using hsd
    have hl : ¬ src.dims.length ≠ d.length := by rw [hdl]; simp
    have : assignB Arith.exact true T o src W.pool = .fail .assert := by
      simp only [assignB, hd, if_neg hl, hb, bm_bind, BM.bind, BM.reads]; rfl
    rw [this]; exact .inl rfl

theorem fine_assign (H : BHolds W S lost) {x : Nat} {h : List Ix} {e : FEx α} (h0 : h ≠ []) (hv : viewTyped (sctx S) x h (exOrder (sctx S) (shapeE e)) = true)
    (hx : S.moved x = none) (hu : ∀ z ∈ e.uses, S.moved z = none) (hs : StepsOK h) (he : ExSteps (shapeE e)) :
    XFine W S lost (sctx S) [x] (fun z => S.moved z ≠ none) False nx (W.fstep Arith.exact true nx T alloc (.assign x h e)) := by
  obtain ⟨t1, t2⟩ := viewTyped_kind hv
  simp only [BWorld.fstep, needs_ne h0, usable_safe H (uses_moved hx hu), res_ok_bind]
  refine fine_bind (dest_cases H t1 hx hs) ?_
  rintro o ⟨a, c, ha, hc, hce, ho, hk⟩
  refine fine_bind (src_cases H t2 hu he) ?_
  rintro src ⟨hg, hd⟩
  rw [hd] at hv
  exact assign_touched H ha hc hce ho hg (view_orders hk hv)

theorem fine_inPlace (H : BHolds W S lost) {x : Nat} {h : List Ix} {op : α → α → α × Bool} {e : FEx α}
    (hv : viewTyped (sctx S) x h (exOrder (sctx S) (shapeE e)) = true)
    (hx : S.moved x = none) (hu : ∀ z ∈ e.uses, S.moved z = none) (hs : StepsOK h) (he : ExSteps (shapeE e)) :
    XFine W S lost (sctx S) [x] (fun z => S.moved z ≠ none) False nx (W.fstep Arith.exact true nx T alloc (.inPlace x h op e)) := by
  obtain ⟨t1, t2⟩ := viewTyped_kind hv
  simp only [BWorld.fstep, usable_safe H (uses_moved hx hu), res_ok_bind]
  refine fine_bind (dest_cases H t1 hx hs) ?_
  rintro o ⟨a, c, ha, hc, hce, ho, hk⟩
  refine fine_bind (src_cases H t2 hu he) ?_
  rintro src ⟨hg, hd⟩
  rw [hd] at hv
  have hv := view_orders hk hv
  obtain ⟨d, hd, hdl⟩ := dims_of hv
  by_cases hsd : d = src.dims
  · have hb : (d == src.dims) = true := by simpa using hsd
    have hl : ¬ d.length ≠ src.dims.length := by rw [hsd]; simp
    rcases pos_cases ho (.inl (by rw [hv]; rfl)) with ⟨ps, h1, h2, h3⟩ | h1
    · have hlen := (h3 d hd).2
      obtain ⟨m', ck, A', k1, k2, k3, k4⟩ := loop_touched (T := T) H ha hc hce h2 (g := fun k p m => src.update op k p m)
        (fun m' hm k p hk _ hp => update_any hg op hm (by rw [← hsd, ← hlen]; exact hk) hp)
      refine fine_wrote (A' := A') (p := ⟨m', W.pool.blocks, W.pool.ruined, ck⟩) ?_ k2 k3 k4
      simp only [inPlaceB, hd, if_neg hl, hb, dbg_any_true, bm_bind, BM.bind, BM.reads, h1]
      exact k1
    · have : inPlaceB Arith.exact true T o op src W.pool = .fail .assert := by
        simp only [inPlaceB, hd, if_neg hl, hb, dbg_any_true, bm_bind, BM.bind, BM.reads, h1]
      rw [this]; exact .inl rfl
  · have hb : (d == src.dims) = false := by simpa using hsd
    have hl : ¬ d.length ≠ src.dims.length := by rw [hdl]; simp
    have : inPlaceB Arith.exact true T o op src W.pool = .fail .assert := by
      simp only [inPlaceB, hd, if_neg hl, hb, bm_bind, BM.bind, BM.reads]; rfl
    rw [this]; exact .inl rfl

theorem fine_inPlaceScalar (H : BHolds W S lost) {x : Nat} {h : List Ix} {op : α → α → α × Bool} {s : Sc α}
    (hv : placeTyped (sctx S) x h = true) (hsc : scTyped (sctx S) s = true)
    (hx : S.moved x = none) (hu : ∀ z ∈ s.uses, S.moved z = none) (hs : StepsOK h) (he : ScSteps s) :
    XFine W S lost (sctx S) [x] (fun z => S.moved z ≠ none) False nx (W.fstep Arith.exact true nx T alloc (.inPlaceScalar x h op s)) := by
  simp only [BWorld.fstep, usable_safe H (uses_moved hx hu), res_ok_bind]
  refine fine_bind (dest_cases H (place_isSome hv) hx hs) ?_
  rintro o ⟨a, c, ha, hc, hce, ho, hk⟩
  refine fine_bind (sc_cases H hsc hu he) ?_
  intro sc hg
  rcases pos_cases ho (place_kind hk hv) with ⟨ps, h1, h2, h3⟩ | h1
  · obtain ⟨m', ck, A', k1, k2, k3, k4⟩ := loop_touched (T := T) H ha hc hce h2 (g := fun _ p m => scalarUpdate op sc p m) (by
      intro m' hm k p hk _ hp
      obtain ⟨v, hv⟩ := hg m' hm
      obtain ⟨u, hu⟩ := read_live (hm p hp)
      exact .inl ⟨op u v, by simp only [scalarUpdate, hu, hv, res_ok_bind]⟩)
    refine fine_wrote (A' := A') (p := ⟨m', W.pool.blocks, W.pool.ruined, ck⟩) ?_ k2 k3 k4
    simp only [inPlaceScalarB, bm_bind, BM.bind, BM.reads, h1]
    exact k1
  · have : inPlaceScalarB Arith.exact T o op sc W.pool = .fail .assert := by
      simp only [inPlaceScalarB, bm_bind, BM.bind, BM.reads, h1]
    rw [this]; exact .inl rfl

theorem fine_fill (H : BHolds W S lost) {x : Nat} {h : List Ix} {s : Sc α} (h0 : h ≠ []) (hv : placeTyped (sctx S) x h = true) (hsc : scTyped (sctx S) s = true)
    (hx : S.moved x = none) (hu : ∀ z ∈ s.uses, S.moved z = none) (hs : StepsOK h) (he : ScSteps s) :
    XFine W S lost (sctx S) [x] (fun z => S.moved z ≠ none) False nx (W.mstep Arith.exact true nx T alloc (.old (.fill x h s))) := by
  simp only [BWorld.mstep, needs_ne h0, usable_safe H (uses_moved hx hu), res_ok_bind]
  refine fine_bind (dest_cases H (place_isSome hv) hx hs) ?_
  rintro o ⟨a, c, ha, hc, hce, ho, hk⟩
  refine fine_bind (sc_cases H hsc hu he) ?_
  intro sc hg
  rcases pos_cases ho (place_kind hk hv) with ⟨ps, h1, h2, h3⟩ | h1
  · obtain ⟨m', ck, A', k1, k2, k3, k4⟩ := loop_touched (T := T) H ha hc hce h2 (g := fun _ _ m => scalarValue sc m) (by
      intro m' hm k p hk _ hp
      obtain ⟨v, hv⟩ := hg m' hm
      exact .inl ⟨(v, false), by simp only [scalarValue, hv, res_ok_bind]⟩)
    refine fine_wrote (A' := A') (p := ⟨m', W.pool.blocks, W.pool.ruined, ck⟩) ?_ k2 k3 k4
    simp only [fillB, bm_bind, BM.bind, BM.reads, h1]
    exact k1
  · have : fillB Arith.exact T o sc W.pool = .fail .assert := by
      simp only [fillB, bm_bind, BM.bind, BM.reads, h1]
    rw [this]; exact .inl rfl

theorem fine_apply (H : BHolds W S lost) {x : Nat} {h : List Ix} {f : α → α × Bool} (hv : ((chainKind (sctx S) x h).bind viewOrder).isSome)
    (hx : S.moved x = none) (hs : StepsOK h) :
    XFine W S lost (sctx S) [x] (fun z => S.moved z ≠ none) False nx (W.fstep Arith.exact true nx T alloc (.apply x h f)) := by
  have hk0 : (chainKind (sctx S) x h).isSome := by
    cases hk : chainKind (sctx S) x h with
    | none => rw [hk] at hv; cases hv
    | some k => rfl
  simp only [BWorld.fstep, usable_safe H (uses_moved hx (xs := []) (by simp)), res_ok_bind]
  refine fine_bind (dest_cases H hk0 hx hs) ?_
  rintro o ⟨a, c, ha, hc, hce, ho, hk⟩
  rw [hk] at hv
  have hv : (viewOrder (kindOf o)).isSome = true := hv
  have hdim : o.dims.isSome = true := by
    rw [kind_dims] at hv
    simpa using hv
  rcases pos_cases ho (.inl hv) with ⟨ps, h1, h2, h3⟩ | h1
  · obtain ⟨m', ck, A', k1, k2, k3, k4⟩ := loop_touched (T := T) H ha hc hce h2 (g := fun _ p m => applyUpdate f p m) (by
      intro m' hm k p hk _ hp
      obtain ⟨u, hu⟩ := read_live (hm p hp)
      exact .inl ⟨f u, by simp only [applyUpdate, hu, res_ok_bind]⟩)
    refine fine_wrote (A' := A') (p := ⟨m', W.pool.blocks, W.pool.ruined, ck⟩) ?_ k2 k3 k4
    simp only [applyB, bm_bind, BM.bind, BM.reads, hdim, needs, if_true, h1]
    exact k1
  · have : applyB Arith.exact T o f W.pool = .fail .assert := by
      simp only [applyB, bm_bind, BM.bind, BM.reads, hdim, needs, if_true, h1]
    rw [this]; exact .inl rfl

end
end Jules

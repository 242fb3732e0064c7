import Verif.Lemmas.SafeBlockSteps
/-
Lemmas for C87: statements that allocate, legal or not, in checked builds.
-/
namespace Jules
open Spec Props

section
variable {α : Type} {W : BWorld α} {S : MStore α} {lost : List Nat} {T : Nat → Bool} {alloc : Nat → List (Nat × Nat) → Nat → Option Nat} {nx : Bool} {I : Prop}

/-- The orders when `x` has become another array. -/
theorem sctx_became {A' : AStore α} {M : Nat → Option (List Nat)} {x : Nat} {a' : AVal α} (ha' : A' x = some a') (hM : M x = none)
    (ho : ∀ y, y ≠ x → A' y = S.live y ∧ M y = S.moved y) : sctx ⟨A', M⟩ = (sctx S).upd x (some a'.ext.length) := by
  funext z
  unfold Ctx.upd
  by_cases hz : z = x
  · subst hz; simp [sctx, hM, ha']
  · simp [sctx, ho z hz, hz]

theorem sctx_none {x : Nat} (h : sctx S x = none) : S.live x = none ∧ S.moved x = none := by
  unfold sctx at h
  cases hm : S.moved x with
  | some d => rw [hm] at h; cases h
  | none =>
    rw [hm] at h
    cases hl : S.live x with
    | none => exact ⟨rfl, rfl⟩
    | some a => rw [hl] at h; cases h

theorem fine_stored {x : Nat} {d : List Nat} {f : List Nat → Option α} {k : Nat} {R : BOut α Own} (hR : NewOut W S lost x d f nx T alloc k R) (hk : k = 0 ∨ k = 1 ∧ I) :
    XFine W S lost ((sctx S).upd x (some d.length)) [x] (fun z => z ≠ x ∧ S.moved z ≠ none) I nx (W.stored x R) := by
  rcases hR with ⟨o, p, A', rfl, h2, h3, h4⟩ | ⟨p, lost', n, rfl, h2, h3, h4⟩ | ⟨rfl, h2, h3⟩
  · obtain ⟨ho, a', ha', he, _⟩ := h3
    refine ⟨rfl, _, lost, h4, ?_, ?_, ?_, .inl rfl⟩
    · rw [← he]
      exact sctx_became ha' (by simp [unmove]) fun y hy => ⟨ho y hy, by simp [unmove, hy]⟩
    · intro z hz
      have hz : (if z = x then none else S.moved z) ≠ none := hz
      by_cases hzx : z = x
      · simp [hzx] at hz
      · rw [if_neg hzx] at hz; exact ⟨hzx, hz⟩
    · intro y hy
      have hy : y ≠ x := by simpa using hy
      exact ⟨ho y hy, by simp [unmove, hy]⟩
  · refine ⟨rfl, S, lost', h2, rfl, fun z hz => hz, fun _ _ => ⟨rfl, rfl⟩, ?_⟩
    rcases hk with rfl | ⟨rfl, hI⟩
    · left
      rcases h4 with ⟨_, _, h⟩ | ⟨_, h⟩ <;> omega
    · have : n = 0 ∨ n = 1 := by rcases h4 with ⟨_, _, h⟩ | ⟨_, h⟩ <;> omega
      rcases this with rfl | rfl
      · exact .inl h3
      · exact .inr ⟨rfl, hI, h3⟩
  · exact .inr ⟨rfl, h2⟩

theorem fine_make [Nonempty α] (H : BHolds W S lost) (hal : GoodBlocks alloc) {x : Nat} {e : FEx α} (hx : sctx S x = none) {n : Nat}
    (hn : exOrder (sctx S) (shapeE e) = some n) (hu : ∀ z ∈ e.uses, S.moved z = none) (he : ExSteps (shapeE e)) :
    XFine W S lost ((sctx S).upd x (some n)) [x] (fun z => z ≠ x ∧ S.moved z ≠ none) False nx (W.fstep Arith.exact true nx T alloc (.make x e)) := by
  obtain ⟨hl, hm⟩ := sctx_none hx
  have hnone := H.out x ⟨hl, hm⟩
  simp only [BWorld.fstep, hnone, needs, Option.isNone_none, if_true, usable_safe H hu, res_ok_bind]
  refine fine_bind (src_cases H (by rw [hn]; rfl) hu he) ?_
  rintro src ⟨hg, hd⟩
  rw [hn] at hd
  cases hd
  obtain ⟨f, hf⟩ := fgood_vals hg
  exact fine_stored (new_out H hal hl hg.1 (src := fun k m => src.it.deref m k) hf) (.inl rfl)

theorem fine_makeFrom [Nonempty α] (H : BHolds W S lost) (hal : GoodBlocks alloc) {x : Nat} {l : List (Option α)} {ext : List Nat} (hx : sctx S x = none)
    (hd : ext ≠ []) (hp : prod ext ≤ l.length) :
    XFine W S lost ((sctx S).upd x (some ext.length)) [x] (fun z => z ≠ x ∧ S.moved z ≠ none) False nx (W.fstep Arith.exact true nx T alloc (.makeFrom x l ext)) := by
  obtain ⟨hl, hm⟩ := sctx_none hx
  have hnone := H.out x ⟨hl, hm⟩
  simp only [BWorld.fstep, needs_ne hd, res_ok_bind]
  simp only [hnone, needs, Option.isNone_none, if_true, res_ok_bind]
  refine fine_stored (new_out H hal hl hd (src := fun k _ => pull l k) (f := fun i => (l[cmSum ext i]?).join) ?_) (.inl rfl)
  intro i hi m' _
  have := cmSum_lt hi
  have hv : l[cmSum ext i]? = some (l[cmSum ext i]'(by omega)) := List.getElem?_eq_getElem (by omega)
  simp only [pull, hv, Option.join_some]

theorem fine_makeFill [Nonempty α] (H : BHolds W S lost) (hal : GoodBlocks alloc) {x : Nat} {s : Sc α} {ext : List Nat} (hx : sctx S x = none)
    (hd : ext ≠ []) (hsc : scTyped (sctx S) s = true) (hu : ∀ z ∈ s.uses, S.moved z = none) (he : ScSteps s) :
    XFine W S lost ((sctx S).upd x (some ext.length)) [x] (fun z => z ≠ x ∧ S.moved z ≠ none) False nx
      (W.mstep Arith.exact true nx T alloc (.old (.makeFill x s ext))) := by
  obtain ⟨hl, hm⟩ := sctx_none hx
  have hnone := H.out x ⟨hl, hm⟩
  simp only [BWorld.mstep, needs_ne hd, usable_safe H hu, res_ok_bind]
  simp only [hnone, needs, Option.isNone_none, if_true, res_ok_bind]
  refine fine_bind (sc_cases H hsc hu he) ?_
  intro c hc
  obtain ⟨v, hv⟩ := hc W.pool.mem (keeps_refl _)
  refine fine_stored (new_out H hal hl hd (src := fun _ m => c.get m) (f := fun _ => some v) ?_) (.inl rfl)
  intro i _ m' hm
  exact scalar_keep (w := W.flat Arith.exact) hv hm

/-- An array in scope, moved-from or not. -/
theorem own_cases (H : BHolds W S lost) {x : Nat} {n : Nat} (h : sctx S x = some n) : ∃ p e, OldArr W S x p e ∧ e.length = n ∧ W.own x = .ok ⟨p, e⟩ := by
  unfold sctx at h
  cases hm : S.moved x with
  | some d =>
    rw [hm] at h
    have := oldArr_moved H hm
    exact ⟨none, d, this, Option.some.inj h, by simp [BWorld.own, this.1]⟩
  | none =>
    rw [hm] at h
    cases hl : S.live x with
    | none => rw [hl] at h; cases h
    | some a =>
      rw [hl] at h
      obtain ⟨p, hp⟩ := oldArr_live H hl
      exact ⟨p, a.ext, hp, Option.some.inj h, by simp [BWorld.own, hp.1]⟩

theorem fine_overlapWhole [Nonempty α] (H : BHolds W S lost) (hal : GoodBlocks alloc) {x n : Nat} {e : FEx α} (hx : sctx S x = some n)
    (hn : exOrder (sctx S) (shapeE e) = some n) (hu : ∀ z ∈ e.uses, S.moved z = none) (he : ExSteps (shapeE e)) :
    XFine W S lost (sctx S) [x] (fun z => z ≠ x ∧ S.moved z ≠ none) False nx (W.fstep Arith.exact true nx T alloc (.overlapWhole x e)) := by
  obtain ⟨p, d, hold, hlen, hown⟩ := own_cases H hx
  simp only [BWorld.fstep, hown, usable_safe H hu, res_ok_bind]
  refine fine_bind (src_cases H (by rw [hn]; rfl) hu he) ?_
  rintro src ⟨hg, hd⟩
  rw [hn] at hd
  have hd : n = src.dims.length := by cases hd; rfl
  have : sameRank ⟨p, d⟩ src.dims = .ok () := by simp [sameRank, hlen, hd]
  simp only [this, res_ok_bind]
  obtain ⟨f, hf⟩ := fgood_vals hg
  have := fine_stored (I := False) (overlapWhole_out (T := T) H hal (nx := nx) hold hg.1 hf) (.inl rfl)
  rwa [← hd, ctx_upd_same hx] at this

/-! ### Assignment to a whole array -/

/-- The elements of `x` have changed, then its extents. -/
theorem became_any [Nonempty α] (H : BHolds W S lost) {x : Nat} {a : AVal α} (ha : S.live x = some a) {p : Option Nat} (he : W.env x = some ⟨p, a.ext⟩)
    (hp : p = none → prod a.ext = 0) {d : List Nat} (hd : d ≠ []) (hsz : prod a.ext = prod d) {m' : Mem α} (hn : ∀ q, m' q = none ↔ W.pool.mem q = none)
    (hq : ∀ q, ¬ Covers (cells ⟨p.getD 0, a.ext⟩) q → m' q = W.pool.mem q) :
    ∃ A', (∀ ck, BHolds ⟨⟨m', W.pool.blocks, W.pool.ruined, ck⟩, putEnv W.env x (some ⟨p, d⟩), W.scopes⟩ ⟨A', S.moved⟩ lost) ∧
      sctx ⟨A', S.moved⟩ = (sctx S).upd x (some d.length) ∧ ∀ y, y ≠ x → A' y = S.live y := by
  have HF := bholds_flat H
  have hflat := flat_env he hp
  have hmx := bholds_live_moved H (x := x) (by rw [ha]; simp)
  have hcov : ∀ q, Covers (cells ⟨p.getD 0, a.ext⟩) q ↔ Covers (arrayView (p.getD 0) d) q := by
    intro q; rw [arrayView_covers, arrayView_covers]
    show _ ∧ _ < _ + prod a.ext ↔ _
    rw [hsz]
  have hdef : ∀ i, InB d i → m' ((arrayView (p.getD 0) d).pos i) ≠ none := by
    intro i hi h
    obtain ⟨j, hj, hje⟩ := (hcov _).2 ⟨i, hi, rfl⟩
    rw [← hje] at h
    exact alive_cells HF ha hflat j hj ((hn _).1 h)
  obtain ⟨A', hb⟩ := becomes_exists (A := S.live) x d (f := fun i => m' ((arrayView (p.getD 0) d).pos i)) hdef nonempty_ex
  obtain ⟨a', ha', hae, _⟩ := hb.2
  have hc : ∀ c', (W.flat Arith.exact).env x = some c' → c' = ⟨p.getD 0, a.ext⟩ := by intro c' h; rw [hflat] at h; cases h; rfl
  have hH := holds_replace HF (b := ⟨p.getD 0, d⟩) (m' := m') hd rfl (fun i _ => rfl)
    (by
      intro q hq'
      by_cases hcq : Covers (arrayView (p.getD 0) d) q
      · exact .inr hcq
      · exact .inl ⟨fun h => hq' ((hn q).2 h), fun c' e => by rw [hc c' e]; exact fun h => hcq ((hcov q).1 h)⟩)
    (by
      intro q _ hnn
      exact hq q (hnn _ hflat))
    (by
      intro q hq'
      exact .inl ⟨_, hflat, (hcov q).2 hq'⟩) hb
  refine ⟨A', fun ck => ?_, by rw [← hae]; exact sctx_became ha' hmx fun y hy => ⟨hb.1 y hy, rfl⟩, hb.1⟩
  rw [← unmove_same hmx]
  refine bholds_became H (q := p) (fun h => by rw [← hsz]; exact hp h) hd (k := 0) (holds_same hH rfl rfl) ?_ hb.1 ck
  cases p with
  | none => exact ledger_null (bholds_ledger H) (by rw [he]; exact noBlock_null _) (noBlock_null _)
  | some b => exact ledger_extents (bholds_ledger H) he hsz.symm

theorem fine_same [Nonempty α] (H : BHolds W S lost) {x : Nat} {a : AVal α} (ha : S.live x = some a) {p : Option Nat} (he : W.env x = some ⟨p, a.ext⟩)
    (hp : p = none → prod a.ext = 0) {src : FSrc α} (hg : FGood W.pool.mem src) (hsz : prod a.ext = prod src.dims) :
    XFine W S lost ((sctx S).upd x (some src.dims.length)) [x] (fun z => S.moved z ≠ none) I nx
      (W.stored x (setB Arith.exact T nx alloc ⟨p, a.ext⟩ src W.pool)) := by
  have hflat := flat_env he hp
  have hcnt := flive_count hg.2
  cases p with
  | none =>
    have h0 := hp rfl
    have : setB Arith.exact T nx alloc ⟨none, a.ext⟩ src W.pool = .ok ⟨none, src.dims⟩ W.pool := by
      simp only [setB, prodL_exact, if_pos hsz, hcnt]
      rw [if_neg (by omega), if_pos (by omega)]
      rfl
    rw [this]
    obtain ⟨A', h1, h2, h3⟩ := became_any H ha he hp hg.1 hsz (m' := W.pool.mem) (fun _ => Iff.rfl) (fun _ _ => rfl)
    exact ⟨rfl, _, lost, h1 W.pool.clock, h2, fun z hz => hz, fun y hy => ⟨h3 y (by simpa using hy), rfl⟩, .inl rfl⟩
  | some b =>
    have hps : ∀ q ∈ (List.range (prod src.dims)).map (b + ·), Covers (cells ⟨b, a.ext⟩) q := by
      intro q hq
      obtain ⟨i, hi, rfl⟩ := List.mem_map.1 hq
      have := List.mem_range.1 hi
      exact arrayView_covers.2 ⟨by show b ≤ b + i; omega, by show b + i < b + prod a.ext; omega⟩
    have hlive : ∀ q ∈ (List.range (prod src.dims)).map (b + ·), W.pool.mem q ≠ none :=
      fun q hq => (holds_intact (bholds_flat H)).live x _ q hflat (hps q hq)
    obtain ⟨m', ck, h1, h2, h3⟩ := loopB_live (T := T) (g := fun k _ m => src.value k m) (bl := W.pool.blocks) (ru := W.pool.ruined)
      ((List.range (prod src.dims)).map (b + ·)) 0 W.pool.mem W.pool.clock hlive
      (fun m' hm k _ _ hk _ => value_any hg hm (by simpa using hk))
    have hq : ∀ q, ¬ Covers (cells ⟨(some b).getD 0, a.ext⟩) q → m' q = W.pool.mem q := fun q hq => h3 q fun h => hq (hps q h)
    have hadd : ((List.range (prod src.dims)).map (Arith.exact.add b ·)) = (List.range (prod src.dims)).map (b + ·) := rfl
    have h1 : loopB T (fun k _ m => src.value k m) 0 ((List.range (prod src.dims)).map (b + ·)) W.pool = .ok () ⟨m', W.pool.blocks, W.pool.ruined, ck⟩ ∨
      loopB T (fun k _ m => src.value k m) 0 ((List.range (prod src.dims)).map (b + ·)) W.pool = .exn ⟨m', W.pool.blocks, W.pool.ruined, ck⟩ := h1
    rcases h1 with h1 | h1
    · have : setB Arith.exact T nx alloc ⟨some b, a.ext⟩ src W.pool = .ok ⟨some b, src.dims⟩ ⟨m', W.pool.blocks, W.pool.ruined, ck⟩ := by
        simp only [setB, prodL_exact, hsz, if_true, hcnt, Nat.lt_irrefl, if_false, hadd, bm_bind, BM.bind, h1, bm_pure]
      rw [this]
      obtain ⟨A', g1, g2, g3⟩ := became_any H ha he hp hg.1 hsz (m' := m') h2 hq
      exact ⟨rfl, _, lost, g1 ck, g2, fun z hz => hz, fun y hy => ⟨g3 y (by simpa using hy), rfl⟩, .inl rfl⟩
    · have : setB Arith.exact T nx alloc ⟨some b, a.ext⟩ src W.pool = .exn ⟨m', W.pool.blocks, W.pool.ruined, ck⟩ := by
        simp only [setB, prodL_exact, hsz, if_true, hcnt, Nat.lt_irrefl, if_false, hadd, bm_bind, BM.bind, h1]
      rw [this]
      obtain ⟨A', g1, g2, g3⟩ := touched H ha hflat rfl h2 hq
      exact ⟨rfl, _, lost, g1 ck, g2, fun z hz => hz, fun y hy => ⟨g3 y (by simpa using hy), rfl⟩, .inl rfl⟩

theorem fine_set [Nonempty α] (H : BHolds W S lost) (hal : GoodBlocks alloc) {x n : Nat} {e : FEx α} (hx : sctx S x = some n)
    (hn : exOrder (sctx S) (shapeE e) = some n) (hu : e ≠ .arr x [] → S.moved x = none ∧ ∀ z ∈ e.uses, S.moved z = none) (he : ExSteps (shapeE e)) :
    XFine W S lost (sctx S) [x] (fun z => S.moved z ≠ none) True nx (W.fstep Arith.exact true nx T alloc (.set x e)) := by
  obtain ⟨p, d, hold, hlen, hown⟩ := own_cases H hx
  by_cases hself : e = .arr x []
  · subst hself
    simp only [BWorld.fstep, hown, res_ok_bind, if_true]
    exact ⟨rfl, S, lost, H, rfl, fun z hz => hz, fun _ _ => ⟨rfl, rfl⟩, .inl rfl⟩
  obtain ⟨hmx, hu⟩ := hu hself
  obtain ⟨henv, ⟨a, ha, rfl, hp⟩ | ⟨hm, _⟩⟩ := hold
  · have hev := src_cases H (by rw [hn]; rfl) hu he
    have hus := usable_safe H hu
    have key : ∀ src, e.eval Arith.exact true (W.flat Arith.exact) = .ok src → FGood W.pool.mem src → exOrder (sctx S) (shapeE e) = some src.dims.length →
        XFine W S lost (sctx S) [x] (fun z => S.moved z ≠ none) True nx (W.fstep Arith.exact true nx T alloc (.set x e)) := by
      intro src h1 hg hd
      rw [hn] at hd
      have hd : n = src.dims.length := by cases hd; rfl
      rw [bstep_set true nx alloc hself henv hus h1 (by show src.dims.length = a.ext.length; omega)]
      by_cases hsz : prod a.ext = prod src.dims
      · have := fine_same (T := T) (alloc := alloc) (nx := nx) (I := True) H ha henv hp hg hsz
        rwa [← hd, ctx_upd_same hx] at this
      · obtain ⟨f, hf⟩ := fgood_vals hg
        have := fine_stored (I := True) (resize_out (T := T) H hal (nx := nx) ⟨henv, .inl ⟨a, ha, rfl, hp⟩⟩ hg.1 hsz hf) (.inr ⟨rfl, trivial⟩)
        rw [← hd, ctx_upd_same hx] at this
        exact fine_mono this (fun z hz => hz.2) id
    rcases hev with ⟨src, h1, hg, hd⟩ | h1
    · exact key src h1 hg hd
    · have : W.fstep Arith.exact true nx T alloc (.set x e) = .error .assert := by
        cases e with
        | arr y h =>
          cases h with
          | nil =>
            have hxy : x ≠ y := fun h => hself (by rw [h])
            have hu' : W.usable Arith.exact [y] = .ok () := hus
            simp only [BWorld.fstep, hown, res_ok_bind, if_neg hxy, hu', h1]; rfl
          | cons ix h => simp only [BWorld.fstep, hown, res_ok_bind, hus, h1]; rfl
        | _ => simp only [BWorld.fstep, hown, res_ok_bind, hus, h1]; rfl
      rw [this]; exact .inl rfl
  · rw [hmx] at hm; cases hm

/-! ### `overlap(view) = e` -/

theorem fine_overlap [Nonempty α] (H : BHolds W S lost) (hal : GoodBlocks alloc) {x : Nat} {h : List Ix} {e : FEx α} (h0 : h ≠ [])
    (hv : viewTyped (sctx S) x h (exOrder (sctx S) (shapeE e)) = true)
    (hx : S.moved x = none) (hu : ∀ z ∈ e.uses, S.moved z = none) (hs : StepsOK h) (he : ExSteps (shapeE e)) :
    XFine W S lost (sctx S) [x] (fun z => S.moved z ≠ none) False nx (W.fstep Arith.exact true nx T alloc (.overlap x h e)) := by
  obtain ⟨t1, t2⟩ := viewTyped_kind hv
  simp only [BWorld.fstep, needs_ne h0, usable_safe H (uses_moved hx hu), res_ok_bind]
  refine fine_bind (dest_cases H t1 hx hs) ?_
  rintro o ⟨a, c, ha, hc, hce, ho, hk⟩
  refine fine_bind (src_cases H t2 hu he) ?_
  rintro src ⟨hg, hd⟩
  rw [hd] at hv
  have hv := view_orders hk hv
  obtain ⟨d, hdim, hdl⟩ := dims_of hv
  obtain ⟨f, hf⟩ := fgood_vals hg
  rcases newB_vals H (T := T) hal (nx := nx) (d := src.dims) (src := fun k m => src.it.deref m k) hf with
    ⟨b, ys, ck, f1, f2, f3, f4, f5⟩ | ⟨ck', f1, f2⟩ | ⟨f1, f2, f3⟩
  · -- the temporary array has been constructed
    obtain ⟨ts, g1, g2, g3, g4⟩ := temp_src (α := α) hg.1 b
    have hfn := fresh_none f1 (inBlocks_of H)
    have hfr : ∀ q, W.pool.mem q ≠ none → ¬ (b ≤ q ∧ q < b + prod src.dims) := by
      intro q hq ⟨h1, h2⟩
      exact hq (by have := hfn (q - b) (by omega); rwa [show b + (q - b) = q by omega] at this)
    have hsd : ts.dims = src.dims := g2
    by_cases hdd : src.dims = d
    · have hb : (ts.dims == d) = true := by rw [hsd]; simpa using hdd
      have hl : ¬ ts.dims.length ≠ d.length := by rw [hsd, hdd]; simp
      rcases pos_cases ho (.inl (by rw [hv]; rfl)) with ⟨ps, p1, p2, p3⟩ | p1
      · have hlen := (p3 d hdim).2
        have hlv : ∀ p ∈ ps, W.pool.mem p ≠ none := fun p hp => (holds_intact (bholds_flat H)).live x c p hc (p2 p hp)
        have hlive : ∀ p ∈ ps, (W.pool.mem.setMany b ys) p ≠ none := by
          intro p hp
          rw [setMany_out (by rw [f2]; exact hfr p (hlv p hp))]; exact hlv p hp
        obtain ⟨m', ck', k1, k2, k3⟩ := loopB_live (T := T) (g := fun k _ m => ts.value k m) (bl := (b, prod src.dims) :: W.pool.blocks) (ru := W.pool.ruined)
          ps 0 (W.pool.mem.setMany b ys) ck hlive (by
            intro m' hm k p _ hk _
            have hkd : k < prod src.dims := by rw [hdd, ← hlen]; omega
            obtain ⟨i, hi, rfl, _⟩ := rank_exists hkd
            obtain ⟨v, hv⟩ := read_live (hm (b + cmSum src.dims i) (setMany_alive (by rw [f2]; exact hkd)))
            refine .inl ⟨(v, false), ?_⟩
            unfold FSrc.value
            rw [g4 i hi, hv]; rfl)
        have hclear := clearB_ok (m := m') (bl := (b, prod src.dims) :: W.pool.blocks) (b := b) (ext := src.dims) (by simp)
          (ledger_leak (bholds_ledger H) f1).bases (by
            intro i hi h
            exact setMany_alive (m := W.pool.mem) (b := b) (xs := ys) (by rw [f2]; exact hi) ((k2 _).1 h)) W.pool.ruined ck'
        rw [fresh_filter f1] at hclear
        have hfree : ∀ q, ¬ (b ≤ q ∧ q < b + prod src.dims) → (m'.free b (prod src.dims)) q = m' q := by
          intro q hq; unfold Mem.free; rw [if_neg hq]
        have hin : ∀ q, b ≤ q ∧ q < b + prod src.dims → (m'.free b (prod src.dims)) q = none ∧ W.pool.mem q = none := by
          intro q hq
          refine ⟨by unfold Mem.free; rw [if_pos hq], ?_⟩
          have := hfn (q - b) (by omega)
          rwa [show b + (q - b) = q by omega] at this
        obtain ⟨A', q1, q2, q3⟩ := touched H ha hc hce (m' := m'.free b (prod src.dims))
          (by
            intro q
            by_cases hq : b ≤ q ∧ q < b + prod src.dims
            · simp [hin q hq]
            · rw [hfree q hq, k2 q, setMany_out (by rw [f2]; exact hq)])
          (by
            intro q hcq
            by_cases hq : b ≤ q ∧ q < b + prod src.dims
            · rw [(hin q hq).1, (hin q hq).2]
            · rw [hfree q hq, k3 q (fun hp => hcq (p2 q hp)), setMany_out (by rw [f2]; exact hq)])
        have hcount : (ts.it.count == some ps.length) = true := by rw [g3, hlen, hdd]; simp
        refine fine_wrote (A' := A') (p := ⟨m'.free b (prod src.dims), W.pool.blocks, W.pool.ruined, ck'⟩) ?_ (q1 ck') q2 q3
        simp only [overlapB, bm_bind, BM.bind, f5, BM.finally, BM.reads, Option.getD_some, g1, assignB, hdim, if_neg hl, hb, dbg_any_true, p1]
        rcases k1 with k1 | k1
        · left; simp only [k1, hcount, dbg_any_true, hclear]
        · right; simp only [k1, hclear]
      · have : overlapB Arith.exact true T nx alloc o src W.pool = .fail .assert := by
          simp only [overlapB, bm_bind, BM.bind, f5, BM.finally, BM.reads, Option.getD_some, g1, assignB, hdim, if_neg hl, hb, dbg_any_true, p1]
        rw [this]; exact .inl rfl
    · have hb : (ts.dims == d) = false := by rw [hsd]; simpa using hdd
      have hl : ¬ ts.dims.length ≠ d.length := by rw [hsd, hdl]; simp
      have : overlapB Arith.exact true T nx alloc o src W.pool = .fail .assert := by
        simp only [overlapB, bm_bind, BM.bind, f5, BM.finally, BM.reads, Option.getD_some, g1, assignB, hdim, if_neg hl, hb]; rfl
      rw [this]; exact .inl rfl
  · have : overlapB Arith.exact true T nx alloc o src W.pool = .exn ⟨W.pool.mem, W.pool.blocks, W.pool.ruined, ck'⟩ := by
      simp only [overlapB, bm_bind, BM.bind, f1]
    rw [this]
    exact ⟨rfl, S, lost, bholds_clock H ck', rfl, fun z hz => hz, fun _ _ => ⟨rfl, rfl⟩, .inl rfl⟩
  · have : overlapB Arith.exact true T nx alloc o src W.pool = .fail .terminate := by
      simp only [overlapB, bm_bind, BM.bind, f1]
    rw [this]; exact .inr ⟨rfl, f2⟩

/-! ### Default construction and moves -/

theorem order_sctx {x n : Nat} (h : sctx S x = some n) : HasOrder S x n := by
  unfold sctx at h
  cases hm : S.moved x with
  | some d => rw [hm] at h; exact .inr ⟨d, hm, Option.some.inj h⟩
  | none =>
    rw [hm] at h
    cases hl : S.live x with
    | none => rw [hl] at h; cases h
    | some a => rw [hl] at h; exact .inl ⟨a, hl, Option.some.inj h⟩

theorem fine_declare [Nonempty α] (H : BHolds W S lost) {x n : Nat} (hx : sctx S x = none) (hn : n ≠ 0) :
    XFine W S lost ((sctx S).upd x (some n)) [x] (fun z => z ≠ x ∧ S.moved z ≠ none) False nx (W.mstep Arith.exact true nx T alloc (.declare x n)) := by
  have hl : MLegal S (.declare x n) := ⟨sctx_none hx, hn⟩
  obtain ⟨S', hS⟩ := meffect_exists (fun x d hx => (H.moved x d hx).1) hl
  obtain ⟨W', h1, h2, h3⟩ := declare_out (T := T) H hl true nx (alloc := alloc)
  have hB := h3 S' hS
  rw [h1]
  obtain ⟨e1, e2, a, e3, e4, _⟩ := hS
  have hm : S'.moved x = none := by rw [e1]; exact (sctx_none hx).2
  refine ⟨h2, S', lost, hB, ?_, ?_, ?_, .inl rfl⟩
  · have := sctx_became (S := S) (M := S'.moved) e3 hm fun y hy => ⟨e2 y hy, by rw [e1]⟩
    rw [e4, List.length_replicate] at this
    exact this
  · intro z hz
    refine ⟨?_, by rw [← e1]; exact hz⟩
    rintro rfl; exact hz hm
  · intro y hy
    exact ⟨e2 y (by simpa using hy), by rw [e1]⟩

theorem sctx_eq {S₁ S₂ : MStore α} {x y : Nat} (h1 : S₁.live x = S₂.live y) (h2 : S₁.moved x = S₂.moved y) : sctx S₁ x = sctx S₂ y := by
  unfold sctx; rw [h1, h2]

theorem fine_moveMake [Nonempty α] (H : BHolds W S lost) {x y : Nat} (hx : sctx S x = none) (hy : (sctx S y).isSome) :
    XFine W S lost ((sctx S).upd x (sctx S y)) [x, y] (fun z => if z = x then S.moved y ≠ none else z = y ∨ S.moved z ≠ none) False nx
      (W.mstep Arith.exact true nx T alloc (.moveMake x y)) := by
  obtain ⟨n, hn⟩ := Option.isSome_iff_exists.1 hy
  have hl : MLegal S (.moveMake x y) := ⟨sctx_none hx, n, order_sctx hn⟩
  obtain ⟨S', hS⟩ := meffect_exists (fun x d hx => (H.moved x d hx).1) hl
  obtain ⟨W', h1, h2, h3⟩ := moveMake_out (T := T) H hl true nx (alloc := alloc)
  have hB := h3 S' hS
  rw [h1]
  obtain ⟨e1, e2, e3, e4⟩ := hS
  have hxy : x ≠ y := by rintro rfl; rw [hx] at hy; cases hy
  refine ⟨h2, S', lost, hB, ?_, ?_, e1, .inl rfl⟩
  · funext z
    show sctx S' z = if z = x then sctx S y else sctx S z
    by_cases hzx : z = x
    · subst hzx; rw [if_pos rfl]; exact sctx_eq e2 e3
    · rw [if_neg hzx]
      by_cases hzy : z = y
      · subst hzy
        rcases e4 with ⟨d, q1, q2, q3⟩ | ⟨a, q1, q2⟩
        · simp [sctx, q1, q2]
        · have hm := bholds_live_moved H (x := z) (by rw [q1]; simp)
          split at q2
          · exact sctx_eq (q2.1.trans q1.symm) (q2.2.trans hm.symm)
          · simp [sctx, q1, q2.2, hm]
      · exact sctx_eq (e1 z (by simp [hzx, hzy])).1 (e1 z (by simp [hzx, hzy])).2
  · intro z hz
    show if z = x then S.moved y ≠ none else z = y ∨ S.moved z ≠ none
    by_cases hzx : z = x
    · subst hzx; rw [if_pos rfl, ← e3]; exact hz
    · rw [if_neg hzx]
      by_cases hzy : z = y
      · exact .inl hzy
      · right; rw [← (e1 z (by simp [hzx, hzy])).2]; exact hz

theorem fine_moveAssign [Nonempty α] (H : BHolds W S lost) {x y n : Nat} (hx : sctx S x = some n) (hy : sctx S y = some n) :
    XFine W S lost (sctx S) [x, y] (fun z => if z = x then S.moved y ≠ none else if z = y then S.moved x ≠ none else S.moved z ≠ none) False nx
      (W.mstep Arith.exact true nx T alloc (.old (.moveAssign x y))) := by
  by_cases hxy : x = y
  · have hb : (x != y) = false := by simpa using hxy
    have : W.mstep Arith.exact true nx T alloc (.old (.moveAssign x y)) = .error .assert := by
      simp only [BWorld.mstep, hb]; rfl
    rw [this]; exact .inl rfl
  have hl : MLegal S (.old (.moveAssign x y)) := ⟨hxy, n, order_sctx hx, order_sctx hy⟩
  obtain ⟨S', hS⟩ := meffect_exists (fun x d hx => (H.moved x d hx).1) hl
  obtain ⟨W', h1, h2, h3⟩ := moveAssign_out (T := T) H hl true nx (alloc := alloc)
  have hB := h3 S' hS
  rw [h1]
  obtain ⟨e1, e2, e3, e4, e5⟩ := hS
  refine ⟨h2, S', lost, hB, ?_, ?_, e1, .inl rfl⟩
  · funext z
    show sctx S' z = sctx S z
    by_cases hzx : z = x
    · subst hzx; rw [sctx_eq e2 e4, hx, hy]
    · by_cases hzy : z = y
      · subst hzy; rw [sctx_eq e3 e5, hx, hy]
      · exact sctx_eq (e1 z (by simp [hzx, hzy])).1 (e1 z (by simp [hzx, hzy])).2
  · intro z hz
    show if z = x then S.moved y ≠ none else if z = y then S.moved x ≠ none else S.moved z ≠ none
    by_cases hzx : z = x
    · subst hzx; rw [if_pos rfl, ← e4]; exact hz
    · rw [if_neg hzx]
      by_cases hzy : z = y
      · subst hzy; rw [if_pos rfl, ← e5]; exact hz
      · rw [if_neg hzy, ← (e1 z (by simp [hzx, hzy])).2]; exact hz

end
end Jules

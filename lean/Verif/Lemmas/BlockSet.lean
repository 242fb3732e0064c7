import Verif.Lemmas.BlockNew
/-
Lemmas for C86: `overlap(view) = e` and `x = e`.
-/
namespace Jules
open Spec Props

section
variable {α : Type} {W : BWorld α} {S : MStore α} {lost : List Nat} {T : Nat → Bool}

/-- The array just constructed, as a source. -/
theorem temp_src {d : List Nat} (hd : d ≠ []) (b : Nat) :
    ∃ ts : FSrc α, FSrc.ofObj Arith.exact (.cref b d) = .ok ts ∧ ts.dims = d ∧ ts.it.count = some (prod d) ∧
      ∀ (i : List Nat), InB d i → ∀ m : Mem α, ts.it.deref m (cmSum d i) = m.read (b + cmSum d i) := by
  have ho := array_observes b hd
  refine ⟨⟨d, .cells (arrayView b d).enum⟩, ?_, rfl, ?_, ?_⟩
  · simp only [FSrc.ofObj, observes_dims ho hd, ho.iterate]; rfl
  · simp only [FIt.count, enum_length]; rfl
  · intro i hi m
    have := enum_cmSum (v := arrayView b d) (i := i) hi
    have this : (arrayView b d).enum[cmSum d i]? = some ((arrayView b d).pos i) := this
    simp only [FIt.deref, this]; rfl

theorem fout_overlap [Nonempty α] (H : BHolds W S lost) {x : Nat} {h : List Ix} {e : FEx α} (hs : FLegal S.live (.overlap x h e)) (chk nx : Bool)
    {alloc : Nat → List (Nat × Nat) → Nat → Option Nat} (hal : GoodBlocks alloc) : FOut W S lost (.overlap x h e) chk nx T alloc := by
  obtain ⟨h0, a, v, ha, hc, hne, hinj, hl⟩ := hs
  have HF := bholds_flat H
  obtain ⟨c, o, h1, h2, h3, h4, h5⟩ := index_ok HF ha hc chk
  have h5 : ∀ i, InB v.ext i → W.pool.mem ((IView.toA c.base a.ext v).pos i) = some (a.elt (v.src i)) := h5
  obtain ⟨src, k1, hg⟩ := fex_ok HF hne chk hl
  have hdim := observes_dims h4 hne
  have hu := usable_ok H (uses_cons ha (fex_live hl))
  have hstep : W.fstep Arith.exact chk nx T alloc (.overlap x h e) = W.wrote (overlapB Arith.exact chk T nx alloc o src W.pool) := by
    simp only [BWorld.fstep, needs_ne h0, hu, h3, k1, res_ok_bind]
  have hct : ConstructThrows S.live (.overlap x h e) ↔ ∃ i, InB v.ext i ∧ fexVal S.live e i = none := by
    constructor
    · rintro ⟨d', hl', h⟩
      rw [exLegal_unique hl' hl] at h; exact h
    · exact fun h => ⟨_, hl, h⟩
  have hsd := hg.dims
  rcases newB_vals H (T := T) hal (nx := nx) (d := v.ext) (src := fun k m => src.it.deref m k) (gets_src H hg) with
    ⟨b, ys, ck, f1, f2, f3, f4, f5⟩ | ⟨ck', f1, f2⟩ | ⟨f1, f2, f3⟩
  · -- the temporary array has been constructed
    have hnc : ¬ ConstructThrows S.live (.overlap x h e) := by
      intro hh
      obtain ⟨i, hi, hn⟩ := hct.1 hh
      exact f4 i hi hn
    obtain ⟨ts, t1, t2, t3, t4⟩ := temp_src (α := α) hne b
    have hfn := fresh_none f1 (inBlocks_of H)
    have hfr : ∀ q, W.pool.mem q ≠ none → ¬ (b ≤ q ∧ q < b + prod v.ext) := by
      intro q hq ⟨h1, h2⟩
      exact hq (by have := hfn (q - b) (by omega); rwa [show b + (q - b) = q by omega] at this)
    have hvf : ∀ q, Covers (IView.toA c.base a.ext v) q → ¬ (b ≤ q ∧ q < b + prod v.ext) := by
      rintro q ⟨i, hi, rfl⟩; exact hfr _ (by rw [h5 i hi]; simp)
    have hkeep : ∀ q, Covers (IView.toA c.base a.ext v) q → (W.pool.mem.setMany b ys) q = W.pool.mem q := by
      intro q hq
      exact setMany_out (by rw [f2]; exact hvf q hq)
    obtain ⟨cut, hcut, hloop⟩ := loopB_cut (S := T) (fun k _ m => ts.value k m) (IView.toA c.base a.ext v).enum 0 (W.pool.mem.setMany b ys)
      ((b, prod v.ext) :: W.pool.blocks) W.pool.ruined ck
    obtain ⟨out', o1, o2, o3⟩ := cut_out (d := v.ext) (N := (IView.toA c.base a.ext v).enum.length) (by rw [enum_length]; rfl)
      (pos := (IView.toA c.base a.ext v).pos) (out := fun i => evaluated (fexVal S.live e i))
      (P := fun i m' => ∀ q, (∀ j, InB v.ext j → Before v.ext j i → q ≠ (IView.toA c.base a.ext v).pos j) → m' q = (W.pool.mem.setMany b ys) q)
      (fun _ _ => evaluated_none) (g := fun k _ m => ts.value k m)
      (by
        intro i hi _ m' hm
        apply value_res
        rw [t4 i hi, f3 i hi]
        have hlt := cmSum_lt hi
        have hcell : m' (b + cmSum v.ext i) = ys[cmSum v.ext i]? := by
          rw [hm]
          · exact setMany_in (by rw [f2]; exact hlt)
          · intro j hj _ he
            exact hvf _ ⟨j, hj, rfl⟩ (by rw [← he]; omega)
        unfold Mem.read
        rw [hcell, List.getElem?_eq_getElem (by omega)]
        rfl) hcut
    obtain ⟨m', t, e1, e2, e3, e4, e5⟩ := walk_until (v := IView.toA c.base a.ext v) (m := W.pool.mem.setMany b ys) (out := out') (toA_distinct hc hinj)
      (fun i hi => by rw [hkeep _ ⟨i, hi, rfl⟩, h5 i hi]; simp) o1 (g := cutAt cut fun k _ m => ts.value k m) o2
    obtain ⟨ck', hl'⟩ := hloop m' t e1
    have hclear := clearB_ok (m := m') (bl := (b, prod v.ext) :: W.pool.blocks) (b := b) (ext := v.ext) (by simp)
      (ledger_leak (bholds_ledger H) f1).bases (by
        intro i hi
        rw [e5]
        · exact setMany_alive (by omega)
        · intro hq
          exact hvf _ hq (by omega)) W.pool.ruined ck'
    rw [fresh_filter f1] at hclear
    obtain ⟨A', t', hw⟩ := until_exists ha hc.view hinj out'
    have hfree : ∀ q, ¬ (b ≤ q ∧ q < b + prod v.ext) → (m'.free b (prod v.ext)) q = m' q := by
      intro q hq; unfold Mem.free; rw [if_neg hq]
    obtain ⟨rfl, hH⟩ := until_store HF ha h1 h2 hc h5 (out := out') (m' := m'.free b (prod v.ext)) (t := t) e2
      (by
        intro i hi hv y hy
        rw [hfree _ (hvf _ ⟨i, hi, rfl⟩)]
        exact e3 i hi hv y hy)
      (by
        intro i hi hv
        rw [hfree _ (hvf _ ⟨i, hi, rfl⟩), e4 i hi hv, hkeep _ ⟨i, hi, rfl⟩]; rfl)
      (by
        intro q hq
        by_cases hb : b ≤ q ∧ q < b + prod v.ext
        · unfold Mem.free
          rw [if_pos hb]
          have := hfn (q - b) (by omega)
          rw [show b + (q - b) = q by omega] at this
          exact this.symm
        · rw [hfree q hb, e5 q hq, setMany_out (by rw [f2]; exact hb)]; rfl) 0 hw
    have hB : BHolds { W with pool := ⟨m'.free b (prod v.ext), W.pool.blocks, W.pool.ruined, ck'⟩ } ⟨A', S.moved⟩ lost := by
      refine bholds_wrote H hH ?_ ck'
      intro z
      by_cases hz : z = x
      · subst hz
        obtain ⟨_, a0, a', _, q1, q2, _⟩ := hw
        rw [q1, q2]; simp
      · rw [hw.1 z hz]
    have hsd' : (ts.dims == (IView.toA c.base a.ext v).ext) = true := by rw [t2]; simp [IView.toA]
    have hlen : ¬ ts.dims.length ≠ (IView.toA c.base a.ext v).ext.length := by rw [t2]; simp [IView.toA]
    have hcount : (ts.it.count == some (IView.toA c.base a.ext v).enum.length) = true := by
      rw [t3, enum_length]; simp [IView.toA]
    have hfin : W.fstep Arith.exact chk nx T alloc (.overlap x h e) =
        .ok ({ W with pool := ⟨m'.free b (prod v.ext), W.pool.blocks, W.pool.ruined, ck'⟩ }, t') := by
      rw [hstep]
      simp only [overlapB, bm_bind, BM.bind, hsd, f5, BM.finally, BM.reads, Option.getD_some, t1, assignB, hdim, if_neg hlen, hsd', dbg_any_true, h4.iterate, hl']
      cases t' <;> simp [hcount, dbg_any_true, hclear, BWorld.wrote, BM.bind]
    rcases o3 with ⟨_, rfl⟩ | ⟨hal', i, hi, rfl⟩
    · obtain ⟨rfl, hw'⟩ := (until_total (f := fexVal S.live e) ha hc.view (by
        intro i hi
        refine ⟨f4 i hi, ?_⟩
        obtain ⟨y, hy⟩ := Option.ne_none_iff_exists'.1 (f4 i hi)
        simp [hy, evaluated])).1 hw
      exact .inl ⟨_, A', hfin, fun h => hnc h.2, ⟨a, v, ha, hc.view, .inl ⟨rfl, f4, hw'⟩⟩, hB, rfl⟩
    · have ht : t' = true := by
        obtain ⟨_, a0, a', v0, q1, q2, q3, q4, q5, _⟩ := hw
        rw [ha] at q1; cases q1
        rw [hc.view] at q3; cases q3
        exact q5.2 (stopAt_thrown hi)
      subst ht
      exact .inr (.inl ⟨_, A', lost, 0, hfin, hB, rfl, rfl, .inr ⟨.inl hal', .inr ⟨a, v, i, ha, hc.view, hi, hw⟩, .inl rfl⟩⟩)
  · -- an exception while the temporary array is constructed
    have hfin : W.fstep Arith.exact chk nx T alloc (.overlap x h e) =
        .ok ({ W with pool := ⟨W.pool.mem, W.pool.blocks, W.pool.ruined, ck'⟩ }, true) := by
      rw [hstep]
      simp only [overlapB, bm_bind, BM.bind, hsd, f1, BWorld.wrote]
    refine .inr (.inl ⟨_, S.live, lost, 0, hfin, bholds_clock H ck', rfl, rfl, ?_⟩)
    rcases f2 with ⟨q1, q2⟩ | q1
    · exact .inl ⟨fun h => (by rw [q1] at h; cases h.1), ⟨a, v, ha, hc.view, .inr ⟨rfl, q2, rfl⟩⟩, not_resizes (by intro _ _ h; cases h)⟩
    · exact .inr ⟨q1, .inl rfl, .inl rfl⟩
  · refine .inr (.inr ⟨?_, f2, hct.2 f3⟩)
    rw [hstep]
    simp only [overlapB, bm_bind, BM.bind, hsd, f1, BWorld.wrote]

theorem stopAt_evaluated (i : List Nat) (f : List Nat → Option α) :
    stopAt i (fun j => evaluated (f j)) = fun j => evaluated (if j = i then none else f j) := by
  funext j
  unfold stopAt
  split <;> rfl

/-- `x = e` with the same number of elements. -/
theorem same_out [Nonempty α] (H : BHolds W S lost) {chk nx : Bool} {alloc : Nat → List (Nat × Nat) → Nat → Option Nat} {x : Nat} {a : AVal α} (ha : S.live x = some a)
    {e : FEx α} {src : FSrc α} (hd : src.dims ≠ []) (hg : Gets (W.flat Arith.exact) S.live src.dims e src) (hl : ExLegal S.live src.dims (shapeE e))
    (hsz : prod a.ext = prod src.dims) (hn : NoLateReadWhole S.live x a.ext src.dims (shapeE e))
    (hstep : ∀ o, W.env x = some o → W.fstep Arith.exact chk nx T alloc (.set x e) = W.stored x (setB Arith.exact T nx alloc o src W.pool)) :
    FOut W S lost (.set x e) chk nx T alloc := by
  have HF := bholds_flat H
  obtain ⟨p, he, hp⟩ := bholds_env H ha
  have hstep := hstep _ he
  have hflat := flat_env he hp
  have hmx := bholds_live_moved H (x := x) (by rw [ha]; simp)
  have hct : ¬ ConstructThrows S.live (.set x e) := by
    rintro ⟨a', d', q1, q2, q3, _⟩
    rw [ha] at q1; cases q1
    rw [exLegal_unique q2 hl] at q3
    exact q3 hsz
  have hres : Loss S (.wild (.set x e)) 0 := by
    refine .inr ⟨?_, rfl⟩
    rintro ⟨x', e', a', d', q1, q2, q3, q4⟩
    cases q1
    rw [ha] at q2; cases q2
    rw [exLegal_unique q3 hl] at q4
    exact q4 hsz
  have hcov : ∀ q, Covers (cells ⟨p.getD 0, a.ext⟩) q ↔ Covers (arrayView (p.getD 0) src.dims) q := by
    intro q; rw [arrayView_covers, arrayView_covers]
    show _ ∧ _ < _ + prod a.ext ↔ _
    rw [hsz]
  have hread : ∀ i, InB src.dims i → ∀ m1 : Mem α, (∀ q, (∀ j, InB src.dims j → Before src.dims j i → q ≠ (arrayView (p.getD 0) src.dims).pos j) →
      m1 q = W.pool.mem q) → src.value (cmSum src.dims i) m1 = (evaluated (fexVal S.live e i)).res := by
    intro i hi m1 hm1
    refine value_res (hg.deref m1 i hi ?_)
    rintro y k q hr ⟨b, c', r2, r3, r4, r5, r6⟩
    apply hm1
    intro j hj hb hq
    have hb : cmSum src.dims j < cmSum src.dims i := hb
    have hq : q = p.getD 0 + cmSum src.dims j := hq
    by_cases hxy : x = y
    · subst hxy
      rw [ha] at r2; cases r2
      rw [hflat] at r3; cases r3
      have := hn hsz i k hi r5 hr
      simp only at r6
      omega
    · exact HF.sep x y _ c' q hxy hflat r3 ((hcov q).2 ⟨j, hj, hq.symm⟩) ⟨k, by rw [cells, arrayView, r4]; exact r5, by rw [r6, cells, arrayView, r4]⟩
  cases p with
  | none =>
    have h0 := hp rfl
    have hno : ∀ i, ¬ InB src.dims i := by
      intro i hi
      have := cmSum_lt hi
      omega
    have hfin : W.fstep Arith.exact chk nx T alloc (.set x e) = .ok (W.put x (some ⟨none, src.dims⟩), false) := by
      rw [hstep]
      simp only [setB, prodL_exact, if_pos hsz, hg.count]
      rw [if_neg (by omega), if_pos (by omega)]
      rfl
    obtain ⟨A', hb⟩ := becomes_exists (A := S.live) x src.dims (f := fexVal S.live e) (fun i hi => (hno i hi).elim) nonempty_ex
    obtain ⟨m', t, e1, _, e3, _⟩ := flat_cells HF ha hflat rfl hd hsz (f := fexVal S.live e) (g := fun k _ m => src.value k m)
      (fun i hi _ m1 hm1 => hread i hi m1 hm1) 0
    have hm' : m' = W.pool.mem := by
      rw [show prod src.dims = 0 by omega] at e1
      simp only [List.range_zero, List.map_nil, stopLoop, Except.ok.injEq, Prod.mk.injEq] at e1
      exact e1.1.symm
    subst hm'
    refine .inl ⟨_, A', hfin, fun h => hct h.2, ⟨a, src.dims, ha, hl, ?_⟩, ?_, rfl⟩
    · rw [if_pos hsz]; exact .inl ⟨rfl, fun i hi => (hno i hi).elim, hb⟩
    · rw [← unmove_same hmx]
      exact bholds_became H (q := none) (fun _ => by omega) hd (k := 0) (holds_same (e3 A' (fun i hi => (hno i hi).elim) hb) rfl rfl)
        (ledger_null (bholds_ledger H) (by rw [he]; exact noBlock_null _) (noBlock_null _)) hb.1 W.pool.clock
  | some b =>
    simp only [Option.getD_some] at hread hcov hflat
    obtain ⟨cut, hcut, hloop⟩ := loopB_cut (S := T) (fun k _ m => src.value k m) ((List.range (prod src.dims)).map (b + ·)) 0 W.pool.mem
      W.pool.blocks W.pool.ruined W.pool.clock
    obtain ⟨out', o1, o2, o3⟩ := cut_out (d := src.dims) (N := ((List.range (prod src.dims)).map (b + ·)).length) (by simp)
      (pos := (arrayView b src.dims).pos) (out := fun i => evaluated (fexVal S.live e i))
      (P := fun i m' => ∀ q, (∀ j, InB src.dims j → Before src.dims j i → q ≠ (arrayView b src.dims).pos j) → m' q = W.pool.mem q)
      (fun _ _ => evaluated_none) (g := fun k _ m => src.value k m) (fun i hi _ m1 hm1 => hread i hi m1 hm1) hcut
    obtain ⟨f, rfl⟩ : ∃ f : List Nat → Option α, out' = fun i => evaluated (f i) := by
      rcases o3 with ⟨_, rfl⟩ | ⟨_, i, _, rfl⟩
      · exact ⟨_, rfl⟩
      · exact ⟨_, stopAt_evaluated i _⟩
    have o4 : (∀ i, InB src.dims i → f i = fexVal S.live e i) ∨
        (Alarm T ∧ ∃ i, InB src.dims i ∧ f = fun j => if j = i then none else fexVal S.live e j) := by
      have inj : ∀ u v : Option α, evaluated u = evaluated v → u = v := by
        intro u v h
        cases u <;> cases v <;> simp_all [evaluated]
      rcases o3 with ⟨_, h⟩ | ⟨h1, i, hi, h⟩
      · exact .inl fun i _ => inj _ _ (congrFun h i)
      · refine .inr ⟨h1, i, hi, ?_⟩
        rw [stopAt_evaluated] at h
        funext j
        exact inj _ _ (congrFun h j)
    obtain ⟨m', t, e1, e2, e3, e4⟩ := flat_cells HF ha hflat rfl hd hsz (f := f) (g := cutAt cut fun k _ m => src.value k m) o2 0
    obtain ⟨ck', hl'⟩ := hloop m' t e1
    have hset : setB Arith.exact T nx alloc ⟨some b, a.ext⟩ src W.pool =
        if t then .exn ⟨m', W.pool.blocks, W.pool.ruined, ck'⟩ else .ok ⟨some b, src.dims⟩ ⟨m', W.pool.blocks, W.pool.ruined, ck'⟩ := by
      have hl'' : loopB T (fun k _ m => src.value k m) 0 ((List.range (prod src.dims)).map (b + ·)) W.pool = _ := hl'
      have hadd : ((List.range (prod src.dims)).map (Arith.exact.add b ·)) = (List.range (prod src.dims)).map (b + ·) := rfl
      simp only [setB, prodL_exact, hsz, if_true, hg.count, Nat.lt_irrefl, if_false, hadd, bm_bind, BM.bind, hl'']
      cases t <;> rfl
    rw [hset] at hstep
    cases t with
    | false =>
      have hdef : ∀ i, InB src.dims i → f i ≠ none := by
        intro i hi hh
        have := e2.2 ⟨i, hi, hh⟩
        cases this
      have hf : ∀ i, InB src.dims i → f i = fexVal S.live e i := by
        rcases o4 with h | ⟨_, i, hi, rfl⟩
        · exact h
        · exact (hdef i hi (by simp)).elim
      have hdef' : ∀ i, InB src.dims i → fexVal S.live e i ≠ none := fun i hi => by rw [← hf i hi]; exact hdef i hi
      obtain ⟨A', hb⟩ := becomes_exists (A := S.live) x src.dims hdef' nonempty_ex
      refine .inl ⟨_, A', hstep, fun h => hct h.2, ⟨a, src.dims, ha, hl, ?_⟩, ?_, rfl⟩
      · rw [if_pos hsz]; exact .inl ⟨rfl, hdef', hb⟩
      · rw [← unmove_same hmx]
        exact bholds_became H (q := some b) (fun h => by cases h) hd (k := 0)
          (holds_same (e3 A' hdef (becomes_congr (fun i hi => (hf i hi).symm) hb)) rfl rfl)
          (ledger_extents (bholds_ledger H) he hsz.symm) hb.1 ck'
    | true =>
      obtain ⟨A', hh⟩ := halfway_exists (d := src.dims) ha f
      have hB := bholds_wrote H (e4 A' hh) (by
        intro z
        by_cases hz : z = x
        · subst hz
          obtain ⟨_, a0, a', q1, q2, _⟩ := hh
          rw [q1, q2]; simp
        · rw [hh.1 z hz]) ck'
      refine .inr (.inl ⟨_, A', lost, 0, hstep, hB, rfl, rfl, ?_⟩)
      rcases o4 with h | ⟨hal, i, hi, rfl⟩
      · refine .inl ⟨fun h => hct h.2, ⟨a, src.dims, ha, hl, ?_⟩, hres⟩
        rw [if_pos hsz]
        obtain ⟨i, hi, hn⟩ := e2.1 rfl
        refine .inr ⟨rfl, ⟨i, hi, by rw [← h i hi]; exact hn⟩, hh.1, ?_⟩
        obtain ⟨_, a0, a', q1, q2, q3, q4⟩ := hh
        refine ⟨a0, a', q1, q2, q3, ?_⟩
        intro i k hi hk hik
        obtain ⟨u1, u2⟩ := q4 i k hi hk hik
        refine ⟨fun h' => by rw [← h i hi]; exact u1 fun j hj hle => by rw [h j hj]; exact h' j hj hle, ?_⟩
        rintro ⟨j, hj, hle, hjn⟩
        exact u2 ⟨j, hj, hle, by rw [h j hj]; exact hjn⟩
      · refine .inr ⟨.inl hal, ⟨a, src.dims, ha, hl, ?_⟩, .inl rfl⟩
        rw [if_pos hsz]
        exact ⟨i, hi, hh⟩

/-- The assignment, when it is not a self-assignment. -/
theorem bstep_set (chk nx : Bool) (alloc : Nat → List (Nat × Nat) → Nat → Option Nat) {x : Nat} {e : FEx α} (he : e ≠ .arr x []) {o : Own} (ho : W.env x = some o)
    (hu : W.usable Arith.exact e.uses = .ok ()) {src : FSrc α} (h1 : e.eval Arith.exact chk (W.flat Arith.exact) = .ok src) (hlen : src.dims.length = o.ext.length) :
    W.fstep Arith.exact chk nx T alloc (.set x e) = W.stored x (setB Arith.exact T nx alloc o src W.pool) := by
  have hr : sameRank o src.dims = .ok () := by simp [sameRank, hlen]
  have hown : W.own x = .ok o := by simp only [BWorld.own, ho]
  cases e with
  | arr y h =>
    cases h with
    | nil =>
      have hxy : x ≠ y := fun h => he (by rw [h])
      have hu' : W.usable Arith.exact [y] = .ok () := hu
      simp only [BWorld.fstep, hown, res_ok_bind, if_neg hxy, hu', h1, hr]
    | cons ix h => simp only [BWorld.fstep, hown, res_ok_bind, hu, h1, hr]
  | _ => simp only [BWorld.fstep, hown, res_ok_bind, hu, h1, hr]

theorem fout_set [Nonempty α] (H : BHolds W S lost) {x : Nat} {e : FEx α} (hs : FLegal S.live (.set x e)) (chk nx : Bool)
    {alloc : Nat → List (Nat × Nat) → Nat → Option Nat} (hal : GoodBlocks alloc) : FOut W S lost (.set x e) chk nx T alloc := by
  obtain ⟨a, d, ha, hlen, hl, hn⟩ := hs
  have hane := (H.arr x a ha).1
  have hd : d ≠ [] := by
    intro h; subst h; exact hane (List.length_eq_zero_iff.1 hlen.symm)
  obtain ⟨src, h1, hg⟩ := fex_ok (bholds_flat H) hd chk hl
  obtain ⟨p, ho⟩ := oldArr_live H ha
  have hmx := bholds_live_moved H (x := x) (by rw [ha]; simp)
  have hu := usable_ok H (fex_live hl)
  by_cases hself : e = .arr x []
  · subst hself
    obtain ⟨a', v, q1, q2, rfl⟩ := hl
    rw [ha] at q1; cases q1
    have hv : v = ⟨a.ext, id⟩ := by
      have := q2.view
      simp only [imeaning] at this
      cases this; rfl
    subst hv
    have hx : exVal S.live (.arr x []) = fun i => some (a.elt i) := by
      funext i; simp only [exVal, ha, q2.view]; rfl
    have hfx : fexVal S.live (.arr x []) = fun i => some (a.elt i) := hx
    refine .inl ⟨W, S.live, ?_, ?_, ⟨a, a.ext, ha, ⟨a, _, ha, q2, rfl⟩, ?_⟩, H, rfl⟩
    · simp only [BWorld.fstep, BWorld.own, ho.1, res_ok_bind, if_true]
    · rintro ⟨_, _, _, _, _, _, i, _, hi⟩
      rw [hfx] at hi; cases hi
    · rw [if_pos rfl]
      exact .inl ⟨rfl, fun i _ => by rw [hfx]; simp, fun _ _ => rfl, a, ha, rfl, fun i _ => by rw [hfx]⟩
  have hdim := hg.dims
  subst hdim
  by_cases hsz : prod a.ext = prod src.dims
  · refine same_out H ha hd hg hl hsz hn fun o ho' => ?_
    rw [ho.1] at ho'; cases ho'
    exact bstep_set chk nx alloc hself ho.1 hu h1 hlen
  · have hres : Resizes S (.wild (.set x e)) := ⟨x, e, a, src.dims, rfl, ha, hl, hsz⟩
    refine fout_new H hmx (resize_out H hal ho hd hsz (gets_src H hg)) (bstep_set chk nx alloc hself ho.1 hu h1 hlen) ?_ ?_ ?_ (.inl ⟨hres, rfl⟩)
      (fun _ => ⟨rfl, x, src.dims, .inl ⟨e, rfl, hl⟩, .inl ⟨a, ha, hsz⟩⟩)
    · constructor
      · rintro ⟨a', d', _, hl', _, h⟩
        rw [exLegal_unique hl' hl] at h; exact h
      · exact fun h => ⟨a, _, ha, hl, hsz, h⟩
    · intro A' t h
      refine ⟨a, _, ha, hl, ?_⟩
      rw [if_neg hsz]; exact h
    · refine ⟨a, _, ha, hl, ?_⟩
      rw [if_neg hsz]

/-- Statements with functions that may throw. -/
theorem fout [Nonempty α] (H : BHolds W S lost) {s : FStmt α} (hs : FLegal S.live s) {x : Nat} (hx : target s = some x) (hmx : S.moved x = none) (chk nx : Bool)
    {alloc : Nat → List (Nat × Nat) → Nat → Option Nat} (hal : GoodBlocks alloc) : FOut W S lost s chk nx T alloc := by
  cases s with
  | plain s => cases hx
  | make y e => cases hx; exact fout_make H hs hmx chk nx hal
  | makeFrom y l ext => cases hx; exact fout_makeFrom H hs hmx chk nx hal
  | assign y h e => exact fout_assign H hs chk nx
  | inPlace y h op e => exact fout_inPlace H hs chk nx
  | inPlaceScalar y h op s => exact fout_inPlaceScalar H hs chk nx
  | apply y h f => exact fout_apply H hs chk nx
  | overlap y h e => exact fout_overlap H hs chk nx hal
  | overlapWhole y e => exact fout_overlapWhole H hs chk nx hal
  | set y e => exact fout_set H hs chk nx hal

end
end Jules

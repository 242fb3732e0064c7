import Verif.Lemmas.BlockMoves
/-
Lemmas for C86: statements without throwing functions.
-/
namespace Jules
open Spec Props

section
variable {α : Type} {W : BWorld α} {S : MStore α} {lost : List Nat} {T : Nat → Bool}

theorem fallible_total : ∀ e : PEx α, e.fallible = totalE e
  | .arr _ _ => rfl
  | .un f e => by simp only [PEx.fallible, totalE, fallible_total e]
  | .bin f a b => by simp only [PEx.fallible, totalE, fallible_total a, fallible_total b]
  | .scl f s e => by simp only [PEx.fallible, totalE, fallible_total e]
  | .scr f e s => by simp only [PEx.fallible, totalE, fallible_total e]

theorem construct_total {A : AStore α} {s : Stmt α} (hs : StmtLegal A s) : ¬ ConstructThrows A (totalS s) := by
  have hfe : ∀ e : PEx α, fexVal A (totalE e) = exVal A e := fun e => funext (fexVal_total e)
  cases s with
  | makeFrom x l ext =>
    obtain ⟨_, _, hl⟩ := hs
    rintro ⟨i, hi, hn⟩
    have := cmSum_lt hi
    rw [List.getElem?_map, List.getElem?_eq_getElem (by omega)] at hn
    cases hn
  | make x e => rintro ⟨d, hl, i, _, hn⟩; rw [hfe] at hn; exact exVal_some i ((exLegal_total d e).1 hl) hn
  | overlap x h e => rintro ⟨d, hl, i, _, hn⟩; rw [hfe] at hn; exact exVal_some i ((exLegal_total d e).1 hl) hn
  | overlapWhole x e => rintro ⟨d, hl, i, _, hn⟩; rw [hfe] at hn; exact exVal_some i ((exLegal_total d e).1 hl) hn
  | set x e => rintro ⟨_, d, _, hl, _, i, _, hn⟩; rw [hfe] at hn; exact exVal_some i ((exLegal_total d e).1 hl) hn
  | _ => exact fun h => h

/-- Statements about arrays that have not been moved from. -/
theorem mout_total [Nonempty α] (H : BHolds W S lost) {s : Stmt α} (hs : StmtLegal S.live s) {x : Nat} (hx : target (totalS s) = some x) (hmx : S.moved x = none)
    (chk nx : Bool) {alloc : Nat → List (Nat × Nat) → Nat → Option Nat} (hal : GoodBlocks alloc)
    (hstep : W.mstep Arith.exact chk nx T alloc (.old s) = W.fstep Arith.exact chk nx T alloc (totalS s))
    (he : ∀ A', Effect S.live s A' → MEffect S (.old s) ⟨A', S.moved⟩) (hst : ∀ A', FStops S.live (totalS s) A' → MStops S (.old s) ⟨A', S.moved⟩) :
    MOut W S lost (.old s) chk nx T alloc := by
  have hct := construct_total hs
  obtain ⟨t1, t2⟩ := C84_total (A := S.live) (s := s)
  rcases fout H (t1.2 hs) hx hmx chk nx hal (T := T) with ⟨W', A', h1, _, h3, h4, h5⟩ | ⟨W', A', lost', n, h1, h2, h3, h4, h5⟩ | ⟨_, _, h⟩
  · exact .inl ⟨W', _, by rw [hstep]; exact h1, he A' ((t2 hs A' false).1 h3).2, h4, h5⟩
  · rcases h5 with ⟨_, q2, _⟩ | ⟨q1, q2, q3⟩
    · exact absurd ((t2 hs A' true).1 q2).1 (by simp)
    · refine .inr ⟨W', _, lost', n, by rw [hstep]; exact h1, h2, h3, h4, q1, hst A' q2, q3.imp id ?_⟩
      rintro ⟨rfl, y, d, h, h'⟩
      refine ⟨rfl, y, d, .inr ?_, h'⟩
      rcases h with ⟨e, he, hl⟩ | ⟨e, he, _⟩
      · cases s <;> simp only [totalS, XStmt.wild.injEq, FStmt.set.injEq, reduceCtorEq] at he
        obtain ⟨rfl, rfl⟩ := he
        exact ⟨_, rfl, (exLegal_total d _).1 hl⟩
      · cases he
  · exact (hct h).elim

/-! ### Assignment of a scalar -/

/-- The memory after `n` of the positions have been filled. -/
def filled (m : Mem α) (ps : List Nat) (n : Nat) (y : α) : Mem α := fun q => if q ∈ ps.take n then some y else m q

theorem fill_loop {c : Scalar α} {y : α} : ∀ (ps : List Nat) (k : Nat) (m : Mem α) (bl : List (Nat × Nat)) (ru ck : Nat), (∀ q ∈ ps, m q ≠ none) → c.get m = .ok y →
    ∃ n t ck', n ≤ ps.length ∧ (t = false → n = ps.length) ∧ (t = true → n < ps.length ∧ Alarm T) ∧
      loopB T (fun _ _ m => scalarValue c m) k ps ⟨m, bl, ru, ck⟩ = if t then .exn ⟨filled m ps n y, bl, ru, ck'⟩ else .ok () ⟨filled m ps n y, bl, ru, ck'⟩
  | [], k, m, bl, ru, ck, _, _ => by
    refine ⟨0, false, ck, by simp, by simp, by simp, ?_⟩
    have : filled m [] 0 y = m := by funext q; simp [filled]
    rw [this]; rfl
  | q :: ps, k, m, bl, ru, ck, hv, hg => by
    have hsv : scalarValue c m = .ok (y, false) := by simp only [scalarValue, hg, res_ok_bind]
    rcases mayThrow_cases (S := T) m bl ru ck with ht | ⟨ht, ha⟩
    · obtain ⟨u, hu⟩ := Option.ne_none_iff_exists'.1 (hv q (by simp))
      have hw : m.write q y = .ok (m.set q y) := by simp only [Mem.write, hu]
      have hg' : c.get (m.set q y) = .ok y := by
        cases c with
        | val z => exact hg
        | cell p =>
          simp only [Scalar.get, Mem.read, Mem.set] at hg ⊢
          by_cases hpq : p = q
          · simp [hpq]
          · simpa [hpq] using hg
      obtain ⟨n, t, ck', h1, h2, h3, h4⟩ := fill_loop ps (k + 1) (m.set q y) bl ru (ck + 1) (by
        intro r hr
        simp only [Mem.set]
        split
        · simp
        · exact hv r (by simp [hr])) hg'
      refine ⟨n + 1, t, ck', by simp; omega, by intro ht; simp [h2 ht], by intro ht; have := h3 ht; simp [this], ?_⟩
      have hf : filled (m.set q y) ps n y = filled m (q :: ps) (n + 1) y := by
        funext r
        simp only [filled, List.take_succ_cons, List.mem_cons, Mem.set]
        by_cases hr : r ∈ ps.take n
        · simp [hr]
        · by_cases hrq : r = q <;> simp [hr, hrq]
      rw [hf] at h4
      simp only [loopB, bm_bind, BM.bind, BM.reads, hsv, ht, storeB, hw, Bool.false_eq_true, if_false, h4]
    · refine ⟨0, true, ck + 1, by simp, by simp, fun _ => ⟨by simp, ha⟩, ?_⟩
      have : filled m (q :: ps) 0 y = m := by funext q; simp [filled]
      simp only [loopB, bm_bind, BM.bind, BM.reads, hsv, ht, if_true, this]

theorem take_enum_iff {v : AView} {n q : Nat} : q ∈ v.enum.take n ↔ ∃ i, InB v.ext i ∧ cmSum v.ext i < n ∧ v.pos i = q := by
  rw [List.mem_iff_getElem?]
  constructor
  · rintro ⟨k, hk⟩
    rw [List.getElem?_take] at hk
    split at hk
    · next hkn =>
      have hlt : k < prod v.ext := by
        rw [← enum_length]
        exact (List.getElem?_eq_some_iff.1 hk).1
      obtain ⟨i, hi, rfl, _⟩ := rank_exists hlt
      rw [enum_cmSum hi] at hk
      exact ⟨i, hi, hkn, Option.some.inj hk⟩
    · cases hk
  · rintro ⟨i, hi, hn, rfl⟩
    exact ⟨cmSum v.ext i, by rw [List.getElem?_take, if_pos hn, enum_cmSum hi]⟩

theorem mout_fill (H : BHolds W S lost) {x : Nat} {h : List Ix} {s : Sc α} (hs : StmtLegal S.live (.fill x h s)) (chk nx : Bool)
    {alloc : Nat → List (Nat × Nat) → Nat → Option Nat} : MOut W S lost (.old (.fill x h s)) chk nx T alloc := by
  classical
  obtain ⟨h0, hl, a, v, ha, hc⟩ := hs
  have HF := bholds_flat H
  obtain ⟨c, o, h1, h2, h3, h4, h5⟩ := index_ok HF ha hc chk
  obtain ⟨sc, y, k1, k2, k3, _⟩ := sc_ok HF hl chk
  have hu := usable_ok H (uses_cons ha (sc_live hl))
  obtain ⟨n, t, ck', g1, g2, g3, g4⟩ := fill_loop (T := T) (c := sc) (y := y) (IView.toA c.base a.ext v).enum 0 W.pool.mem W.pool.blocks W.pool.ruined W.pool.clock
    (by
      intro q hq
      obtain ⟨i, hi, rfl⟩ := mem_enum.1 hq
      have := h5 i hi
      intro hn
      have hn : (W.flat Arith.exact).mem ((IView.toA c.base a.ext v).pos i) = none := hn
      rw [hn] at this; cases this) k2
  have g4 : loopB T (fun _ _ m => scalarValue sc m) 0 (IView.toA c.base a.ext v).enum W.pool = _ := g4
  let a' : AVal α := ⟨a.ext, fun j => if ∃ i, InB v.ext i ∧ cmSum v.ext i < n ∧ v.src i = j then y else a.elt j⟩
  let A' : AStore α := fun z => if z = x then some a' else S.live z
  have hother : ∀ z, z ≠ x → A' z = S.live z := fun z hz => by simp [A', hz]
  have hA'x : A' x = some a' := by simp [A']
  have hinj : ∀ i j, InB v.ext i → InB v.ext j → (IView.toA c.base a.ext v).pos i = (IView.toA c.base a.ext v).pos j → v.src i = v.src j := by
    intro i j hi hj he
    exact arrayView_distinct c.base a.ext _ _ (chain_in hc i hi) (chain_in hc j hj) he
  have hH : HoldsStore ⟨filled W.pool.mem (IView.toA c.base a.ext v).enum n y, (W.flat Arith.exact).env, 0⟩ A' := by
    refine holds_write HF ha h1 h2 hc (f := fun i => some (a'.elt (v.src i))) ?_ (by simp) ?_
      ⟨hother, a, a', v, ha, hA'x, hc.view, rfl, fun _ _ => rfl, ?_⟩
    · intro i hi
      have hv : InB (IView.toA c.base a.ext v).ext i := hi
      simp only [filled, take_enum_iff]
      by_cases hex : ∃ i', InB v.ext i' ∧ cmSum v.ext i' < n ∧ v.src i' = v.src i
      · have hex' : ∃ i', InB (IView.toA c.base a.ext v).ext i' ∧ cmSum (IView.toA c.base a.ext v).ext i' < n ∧
            (IView.toA c.base a.ext v).pos i' = (IView.toA c.base a.ext v).pos i := by
          obtain ⟨i', q1, q2, q3⟩ := hex
          exact ⟨i', q1, q2, by simp only [IView.toA, q3]⟩
        rw [if_pos hex']
        simp only [a', if_pos hex]
      · have hex' : ¬ ∃ i', InB (IView.toA c.base a.ext v).ext i' ∧ cmSum (IView.toA c.base a.ext v).ext i' < n ∧
            (IView.toA c.base a.ext v).pos i' = (IView.toA c.base a.ext v).pos i := by
          rintro ⟨i', q1, q2, q3⟩
          exact hex ⟨i', q1, q2, hinj i' i q1 hi q3⟩
        rw [if_neg hex']
        simp only [a', if_neg hex]
        exact h5 i hi
    · intro q hq
      simp only [filled]
      rw [if_neg]
      · rfl
      · intro hm
        obtain ⟨i, hi, _, rfl⟩ := take_enum_iff.1 hm
        exact hq ⟨i, hi, rfl⟩
    · intro j _ hn
      simp only [a']
      rw [if_neg]
      rintro ⟨i, hi, _, rfl⟩
      exact hn ⟨i, hi, rfl⟩
  have hB := bholds_wrote H hH (by
    intro z
    by_cases hz : z = x
    · rw [hz, hA'x, ha]; simp
    · rw [hother z hz]) ck'
  have hstep : W.mstep Arith.exact chk nx T alloc (.old (.fill x h s)) = .ok ({ W with pool := ⟨filled W.pool.mem (IView.toA c.base a.ext v).enum n y,
      W.pool.blocks, W.pool.ruined, ck'⟩ }, t) := by
    simp only [BWorld.mstep, needs_ne h0, hu, h3, k1, res_ok_bind, fillB, h4.iterate, bm_bind, BM.bind, BM.reads, g4]
    cases t <;> rfl
  cases t with
  | false =>
    have hn := g2 rfl
    rw [enum_length] at hn
    have hn : n = prod v.ext := hn
    refine .inl ⟨_, ⟨A', S.moved⟩, hstep, ⟨rfl, hother, a, a', v, ha, hA'x, hc.view, rfl, ?_, ?_⟩, hB, rfl⟩
    · intro i hi
      have hex : ∃ i', InB v.ext i' ∧ cmSum v.ext i' < n ∧ v.src i' = v.src i := ⟨i, hi, by rw [hn]; exact cmSum_lt hi, rfl⟩
      simp only [a', if_pos hex, k3]
    · intro j _ hnj
      simp only [a']
      rw [if_neg]
      rintro ⟨i, hi, _, rfl⟩
      exact hnj ⟨i, hi, rfl⟩
  | true =>
    obtain ⟨hn, hal⟩ := g3 rfl
    rw [enum_length] at hn
    have hn : n < prod v.ext := hn
    refine .inr ⟨_, ⟨A', S.moved⟩, lost, 0, hstep, hB, rfl, rfl, .inl hal, ⟨rfl, hother, a, a', v, n, ha, hA'x, hc.view, rfl, hn, ?_, ?_⟩, .inl rfl⟩
    · intro i hi hin
      have hex : ∃ i', InB v.ext i' ∧ cmSum v.ext i' < n ∧ v.src i' = v.src i := ⟨i, hi, hin, rfl⟩
      simp only [a', if_pos hex, k3]
    · intro j _ hnj
      simp only [a']
      rw [if_neg]
      rintro ⟨i, hi, hin, he⟩
      exact hnj i hi hin he

/-! ### New arrays, and new values for moved-from arrays -/

theorem new_total {alloc : Nat → List (Nat × Nat) → Nat → Option Nat} {x : Nat} {d : List Nat} {f : List Nat → Option α} {nx : Bool} {k : Nat} {R : BOut α Own} (hR : NewOut W S lost x d f nx T alloc k R)
    (hf : ∀ i, InB d i → f i ≠ none) :
    (∃ o p A', R = .ok o p ∧ Becomes S.live x d f A' ∧ BHolds (BWorld.put { W with pool := p } x (some o)) ⟨A', unmove S.moved x⟩ lost) ∨
    (∃ p lost' n, R = .exn p ∧ BHolds { W with pool := p } S lost' ∧ lost'.length = lost.length + n ∧ MayFail T alloc ∧ (n = 0 ∨ n = k)) := by
  rcases hR with ⟨o, p, A', h1, _, h3, h4⟩ | ⟨p, lost', n, h1, h2, h3, h4⟩ | ⟨_, _, i, hi, hn⟩
  · exact .inl ⟨o, p, A', h1, h3, h4⟩
  · rcases h4 with ⟨_, ⟨i, hi, hn⟩, _⟩ | ⟨h4, h5⟩
    · exact (hf i hi hn).elim
    · exact .inr ⟨p, lost', n, h1, h2, h3, h4, h5⟩
  · exact (hf i hi hn).elim

theorem mout_new {s : MStmt α} {x : Nat} {d : List Nat} {f : List Nat → Option α} {chk nx : Bool} {alloc : Nat → List (Nat × Nat) → Nat → Option Nat} {k : Nat}
    {R : BOut α Own} (hR : NewOut W S lost x d f nx T alloc k R) (hf : ∀ i, InB d i → f i ≠ none)
    (hstep : W.mstep Arith.exact chk nx T alloc s = W.stored x R) (he : ∀ A', Becomes S.live x d f A' → MEffect S s ⟨A', unmove S.moved x⟩)
    (hst : MStops S s S) (hk : k ≠ 0 → k = 1 ∧ Reallocates S (.calm s)) : MOut W S lost s chk nx T alloc := by
  rcases new_total hR hf with ⟨o, p, A', rfl, h2, h3⟩ | ⟨p, lost', n, rfl, h2, h3, h4, h5⟩
  · exact .inl ⟨_, _, hstep, he A' h2, h3, rfl⟩
  · refine .inr ⟨_, S, lost', n, hstep, h2, rfl, h3, h4, hst, ?_⟩
    by_cases hn : n = 0
    · exact .inl hn
    · rcases h5 with h | rfl
      · exact (hn h).elim
      · exact .inr (hk hn)

theorem scalar_keep {w : World α} {c : Scalar α} {y : α} (h : c.get w.mem = .ok y) {m' : Mem α} (hm : ∀ q, w.mem q ≠ none → m' q = w.mem q) : c.get m' = .ok y := by
  cases c with
  | val z => exact h
  | cell p =>
    have h' : w.mem p ≠ none := by
      intro hn
      simp only [Scalar.get, Mem.read, hn] at h
      cases h
    simp only [Scalar.get, Mem.read, hm p h'] at h ⊢
    exact h

theorem mout_makeFill [Nonempty α] (H : BHolds W S lost) {x : Nat} {s : Sc α} {ext : List Nat} (hmx : S.moved x = none) (hs : StmtLegal S.live (.makeFill x s ext))
    (chk nx : Bool) {alloc : Nat → List (Nat × Nat) → Nat → Option Nat} (hal : GoodBlocks alloc) : MOut W S lost (.old (.makeFill x s ext)) chk nx T alloc := by
  obtain ⟨hx, hd, hl⟩ := hs
  obtain ⟨sc, y, k1, k2, k3, _⟩ := sc_ok (bholds_flat H) hl chk
  have hu := usable_ok H (sc_live hl)
  have hn := H.out x ⟨hx, hmx⟩
  refine mout_new (new_out H hal hx hd (src := fun _ m => sc.get m) (f := fun _ => scVal S.live s) ?_) (fun i _ => scVal_some hl) ?_ ?_ rfl (fun h => (h rfl).elim)
  · intro i _ m' hm
    rw [k3]
    exact scalar_keep (w := W.flat Arith.exact) k2 hm
  · simp only [BWorld.mstep, needs_ne hd, res_ok_bind, hu, k1]
    simp only [hn, needs, Option.isNone_none, if_true, res_ok_bind]
  · intro A' h
    exact ⟨unmove_same hmx, h⟩

theorem others_became {x : Nat} {d : List Nat} {f : List Nat → Option α} {A' : AStore α} (h : Becomes S.live x d f A') :
    Others S [x] ⟨A', unmove S.moved x⟩ ∧ (unmove S.moved x) x = none := by
  refine ⟨fun z hz => ?_, by simp [unmove]⟩
  have hz : z ≠ x := by simpa using hz
  exact ⟨h.1 z hz, by simp [unmove, hz]⟩

theorem total_src (H : BHolds W S lost) {d : List Nat} {e : PEx α} {src : FSrc α} (hg : Gets (W.flat Arith.exact) S.live d (totalE e) src) :
    ∀ i, InB d i → ∀ m', (∀ q, W.pool.mem q ≠ none → m' q = W.pool.mem q) → src.it.deref m' (cmSum d i) = called (exVal S.live e i) := by
  intro i hi m' hm
  rw [← fexVal_total]
  exact gets_src H hg i hi m' hm

theorem mout_overlapWhole [Nonempty α] (H : BHolds W S lost) {x : Nat} {e : PEx α} (hs : MLegal S (.old (.overlapWhole x e))) (chk nx : Bool)
    {alloc : Nat → List (Nat × Nat) → Nat → Option Nat} (hal : GoodBlocks alloc) : MOut W S lost (.old (.overlapWhole x e)) chk nx T alloc := by
  rcases hs with hs | ⟨d, d', hm, hlen, hl⟩
  · have hs' := hs
    obtain ⟨a, _, ha, _⟩ := hs'
    have hmx := bholds_live_moved H (x := x) (by rw [ha]; simp)
    refine mout_total H hs (x := x) rfl hmx chk nx hal (by simp only [BWorld.mstep, fallible_total, totalS]) ?_ ?_
    · intro A' h
      have h' := h
      obtain ⟨d, _, hb⟩ := h'
      obtain ⟨o1, o2⟩ := others_became (S := S) hb
      rw [unmove_same hmx] at o1 o2
      exact ⟨o1, o2, h⟩
    · intro A' h
      refine .inr ⟨?_, rfl, h⟩
      rintro ⟨y, e', h1 | h1, h2⟩ <;> cases h1
      exact h2 hmx
  · have hdne := (H.moved x d hm).2.1
    have hd : d' ≠ [] := by rintro rfl; exact hdne (List.length_eq_zero_iff.1 hlen.symm)
    have hl' := (exLegal_total d' e).2 hl
    obtain ⟨src, h1, hg⟩ := fex_ok (bholds_flat H) hd chk hl'
    have hu := usable_ok H (fex_live hl')
    have ho := oldArr_moved H hm
    have hdim := hg.dims
    subst hdim
    refine mout_new (overlapWhole_out H hal ho hd (total_src H hg)) (fun i _ => exVal_some i hl) ?_ ?_ (.inl ⟨⟨x, e, .inr rfl, by rw [hm]; simp⟩, rfl⟩)
      (fun h => (h rfl).elim)
    · simp only [BWorld.mstep, fallible_total, BWorld.fstep, BWorld.own, ho.1, res_ok_bind, hu, h1, sameRank, hlen, if_true]
    · intro A' h
      obtain ⟨o1, o2⟩ := others_became (S := S) h
      exact ⟨o1, o2, _, hl, h⟩

theorem mout_set [Nonempty α] (H : BHolds W S lost) {x : Nat} {e : PEx α} (hs : MLegal S (.old (.set x e))) (chk nx : Bool)
    {alloc : Nat → List (Nat × Nat) → Nat → Option Nat} (hal : GoodBlocks alloc) : MOut W S lost (.old (.set x e)) chk nx T alloc := by
  rcases hs with hs | ⟨d, hm, hs⟩
  · have hs' := hs
    obtain ⟨a, _, ha, _⟩ := hs'
    have hmx := bholds_live_moved H (x := x) (by rw [ha]; simp)
    refine mout_total H hs (x := x) rfl hmx chk nx hal (by simp only [BWorld.mstep, fallible_total, totalS]) (fun A' h => .inl ⟨hmx, rfl, h⟩) ?_
    intro A' h
    refine .inr ⟨?_, rfl, h⟩
    rintro ⟨y, e', h1 | h1, h2⟩ <;> cases h1
    exact h2 hmx
  · obtain ⟨hlx, hdne, h0, _⟩ := H.moved x d hm
    have hm' : S.moved x ≠ none := by rw [hm]; simp
    have ho := oldArr_moved H hm
    rcases hs with rfl | ⟨d', hlen, hl, hsz⟩
    · refine .inl ⟨W, S, ?_, .inr (.inl ⟨hm', rfl, rfl, rfl⟩), H, rfl⟩
      simp only [BWorld.mstep, PEx.fallible, BWorld.fstep, BWorld.own, ho.1, res_ok_bind, if_true]
    · have hself : e ≠ .arr x [] := by
        rintro rfl
        obtain ⟨a, v, ha, _⟩ := hl
        rw [hlx] at ha; cases ha
      have hself' : totalE e ≠ .arr x [] := by
        intro h
        cases e <;> simp only [totalE, FEx.arr.injEq, reduceCtorEq] at h
        obtain ⟨rfl, rfl⟩ := h
        exact hself rfl
      have hd : d' ≠ [] := by rintro rfl; exact hdne (List.length_eq_zero_iff.1 hlen.symm)
      have hl' := (exLegal_total d' e).2 hl
      obtain ⟨src, h1, hg⟩ := fex_ok (bholds_flat H) hd chk hl'
      have hu := usable_ok H (fex_live hl')
      have hdim := hg.dims
      subst hdim
      refine mout_new (resize_out H hal ho hd hsz.symm (total_src H hg)) (fun i _ => exVal_some i hl) ?_ ?_ (.inl ⟨⟨x, e, .inl rfl, hm'⟩, rfl⟩)
        (fun _ => ⟨rfl, x, src.dims, .inr ⟨e, rfl, hl⟩, .inr ⟨d, hm, hsz.symm⟩⟩)
      · simp only [BWorld.mstep, fallible_total]
        exact bstep_set chk nx alloc hself' ho.1 hu h1 hlen
      · intro A' h
        obtain ⟨o1, o2⟩ := others_became (S := S) h
        exact .inr (.inr ⟨hm', hself, o1, o2, _, hl, h⟩)

/-- Statements without throwing functions. -/
theorem mout [Nonempty α] (H : BHolds W S lost) {s : MStmt α} (hs : MLegal S s) (chk nx : Bool) {alloc : Nat → List (Nat × Nat) → Nat → Option Nat} (hal : GoodBlocks alloc) :
    MOut W S lost s chk nx T alloc := by
  have easy : (∃ W', W.mstep Arith.exact chk nx T alloc s = .ok (W', false) ∧ W'.scopes = W.scopes ∧ ∀ S', MEffect S s S' → BHolds W' S' lost) →
      MOut W S lost s chk nx T alloc := by
    rintro ⟨W', h1, h2, h3⟩
    obtain ⟨S', he⟩ := meffect_exists (fun x d hx => (H.moved x d hx).1) hs
    exact .inl ⟨W', S', h1, he, h3 S' he, h2⟩
  have live : ∀ {x : Nat} {a : AVal α}, S.live x = some a → S.moved x = none := fun ha => bholds_live_moved H (by rw [ha]; simp)
  have nr : ∀ {s : Stmt α} {A' : AStore α}, (∀ x e, s ≠ .set x e) → (∀ x e, s ≠ .overlapWhole x e) → FStops S.live (totalS s) A' →
      (Revives S s ∧ (⟨A', S.moved⟩ : MStore α) = S) ∨ (¬ Revives S s ∧ (⟨A', S.moved⟩ : MStore α).moved = S.moved ∧ FStops S.live (totalS s) A') := by
    intro s A' h1 h2 h
    refine .inr ⟨?_, rfl, h⟩
    rintro ⟨x, e, he | he, _⟩
    · exact h1 x e he
    · exact h2 x e he
  cases s with
  | declare x n => exact easy (declare_out H hs chk nx)
  | moveMake x y => exact easy (moveMake_out H hs chk nx)
  | old s =>
    cases s with
    | make x e =>
      exact mout_total H hs.2 (x := x) rfl hs.1 chk nx hal (by simp only [BWorld.mstep, fallible_total, totalS]) (fun A' h => ⟨rfl, h⟩)
        (fun A' h => nr (by intro _ _ h; cases h) (by intro _ _ h; cases h) h)
    | makeFrom x l ext =>
      exact mout_total H hs.2 (x := x) rfl hs.1 chk nx hal rfl (fun A' h => ⟨rfl, h⟩)
        (fun A' h => nr (by intro _ _ h; cases h) (by intro _ _ h; cases h) h)
    | makeFill x s ext => exact mout_makeFill H hs.1 hs.2 chk nx hal
    | drop x => exact easy (drop_out H hs chk nx)
    | fill x h s => exact mout_fill H hs chk nx
    | assign x h e =>
      have hl : StmtLegal S.live (.assign x h e) := hs
      obtain ⟨_, a, v, ha, _⟩ := hs
      exact mout_total H hl (x := x) rfl (live ha) chk nx hal (by simp only [BWorld.mstep, fallible_total, totalS]) (fun A' h => ⟨rfl, h⟩)
        (fun A' h => nr (by intro _ _ h; cases h) (by intro _ _ h; cases h) h)
    | inPlace x h op e =>
      have hl : StmtLegal S.live (.inPlace x h op e) := hs
      obtain ⟨a, v, ha, _⟩ := hs
      exact mout_total H hl (x := x) rfl (live ha) chk nx hal (by simp only [BWorld.mstep, fallible_total, totalS]) (fun A' h => ⟨rfl, h⟩)
        (fun A' h => nr (by intro _ _ h; cases h) (by intro _ _ h; cases h) h)
    | inPlaceScalar x h op s =>
      have hl : StmtLegal S.live (.inPlaceScalar x h op s) := hs
      obtain ⟨_, a, v, ha, _⟩ := hs
      exact mout_total H hl (x := x) rfl (live ha) chk nx hal rfl (fun A' h => ⟨rfl, h⟩)
        (fun A' h => nr (by intro _ _ h; cases h) (by intro _ _ h; cases h) h)
    | apply x h f =>
      have hl : StmtLegal S.live (.apply x h f) := hs
      obtain ⟨a, v, ha, _⟩ := hs
      exact mout_total H hl (x := x) rfl (live ha) chk nx hal rfl (fun A' h => ⟨rfl, h⟩)
        (fun A' h => nr (by intro _ _ h; cases h) (by intro _ _ h; cases h) h)
    | overlap x h e =>
      have hl : StmtLegal S.live (.overlap x h e) := hs
      obtain ⟨_, a, v, ha, _⟩ := hs
      exact mout_total H hl (x := x) rfl (live ha) chk nx hal (by simp only [BWorld.mstep, fallible_total, totalS]) (fun A' h => ⟨rfl, h⟩)
        (fun A' h => nr (by intro _ _ h; cases h) (by intro _ _ h; cases h) h)
    | overlapWhole x e => exact mout_overlapWhole H hs chk nx hal
    | set x e => exact mout_set H hs chk nx hal
    | moveAssign x y => exact easy (moveAssign_out H hs chk nx)

end
end Jules

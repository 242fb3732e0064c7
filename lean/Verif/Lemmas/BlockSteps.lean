import Verif.Lemmas.BlockStmts
import Verif.Lemmas.Scopes
/-
Lemmas for C86: statements with functions that may throw.
-/
namespace Jules
open Spec Props

section
variable {α : Type} {W : BWorld α} {S : MStore α} {lost : List Nat} {T : Nat → Bool}

/-- How a statement with functions that may throw ends. -/
def FOut (W : BWorld α) (S : MStore α) (lost : List Nat) (s : FStmt α) (chk nx : Bool) (T : Nat → Bool) (alloc : Nat → List (Nat × Nat) → Nat → Option Nat) : Prop :=
  (∃ W' A', W.fstep Arith.exact chk nx T alloc s = .ok (W', false) ∧ ¬ (nx = true ∧ ConstructThrows S.live s) ∧ FEffect S.live s A' false ∧
    BHolds W' ⟨A', S.moved⟩ lost ∧ W'.scopes = W.scopes) ∨
  (∃ W' A' lost' n, W.fstep Arith.exact chk nx T alloc s = .ok (W', true) ∧ BHolds W' ⟨A', S.moved⟩ lost' ∧ W'.scopes = W.scopes ∧
    lost'.length = lost.length + n ∧
    ((¬ (nx = true ∧ ConstructThrows S.live s) ∧ FEffect S.live s A' true ∧ Loss S (.wild s) n) ∨
      (MayFail T alloc ∧ FStops S.live s A' ∧ (n = 0 ∨ n = 1 ∧ Reallocates S (.wild s))))) ∨
  (W.fstep Arith.exact chk nx T alloc s = .error .terminate ∧ nx = true ∧ ConstructThrows S.live s)

/-! ### Loops -/

/-- The loops over a view of an array. -/
theorem loop_out (H : BHolds W S lost) {x : Nat} {a : AVal α} (ha : S.live x = some a) {c : Arr} (hx : (W.flat Arith.exact).env x = some c)
    (hce : c.ext = a.ext) {h : List Ix} {v : IView} (hc : Chain a.ext h v) (hinj : v.Injective)
    (h5 : ∀ i, InB v.ext i → W.pool.mem ((IView.toA c.base a.ext v).pos i) = some (a.elt (v.src i))) {out : List Nat → AtElt α}
    (hnone : ∀ i, InB v.ext i → (out i).new = none → (out i).throws = true) {g : Nat → Nat → Mem α → Res (α × Bool)}
    (hg : ∀ i, InB v.ext i → Visited v.ext out i → ∀ m', (∀ q, (∀ j, InB v.ext j → Before v.ext j i → q ≠ (IView.toA c.base a.ext v).pos j) →
      m' q = W.pool.mem q) → g (cmSum v.ext i) ((IView.toA c.base a.ext v).pos i) m' = (out i).res) :
    ∃ A' t p, loopB T g 0 (IView.toA c.base a.ext v).enum W.pool = (if t then .exn p else .ok () p) ∧
      BHolds { W with pool := p } ⟨A', S.moved⟩ lost ∧
      (WritesUntil S.live x h out A' t ∨ (t = true ∧ MayFail T alloc ∧ Stopped S.live x h out A')) := by
  obtain ⟨cut, hcut, hloop⟩ := loopB_cut (S := T) g (IView.toA c.base a.ext v).enum 0 W.pool.mem W.pool.blocks W.pool.ruined W.pool.clock
  obtain ⟨out', o1, o2, o3⟩ := cut_out (d := v.ext) (N := (IView.toA c.base a.ext v).enum.length) (by rw [enum_length]; rfl)
    (pos := (IView.toA c.base a.ext v).pos)
    (P := fun i m' => ∀ q, (∀ j, InB v.ext j → Before v.ext j i → q ≠ (IView.toA c.base a.ext v).pos j) → m' q = W.pool.mem q) hnone hg hcut
  obtain ⟨m', t, e1, e2⟩ := until_holds (bholds_flat H) ha hx hce hc hinj h5 (out := out') o1 (g := cutAt cut g) o2 0
  obtain ⟨A', t', hw⟩ := until_exists ha hc.view hinj out'
  obtain ⟨rfl, hH⟩ := e2 A' t' hw
  obtain ⟨ck', hl⟩ := hloop m' t' e1
  refine ⟨A', t', _, hl, bholds_wrote H hH ?_ ck', ?_⟩
  · intro z
    by_cases hz : z = x
    · subst hz
      obtain ⟨_, a0, a', _, q1, q2, _⟩ := hw
      rw [q1, q2]; simp
    · rw [hw.1 z hz]
  · rcases o3 with ⟨_, rfl⟩ | ⟨hal, i, hi, rfl⟩
    · exact .inl hw
    · have ht : t' = true := by
        obtain ⟨_, a0, a', v0, q1, q2, q3, q4, q5, _⟩ := hw
        rw [ha] at q1; cases q1
        rw [hc.view] at q3; cases q3
        exact q5.2 (stopAt_thrown hi)
      subst ht
      exact .inr ⟨rfl, .inl hal, a, v, i, ha, hc.view, hi, hw⟩

theorem fout_loop {s : FStmt α} {chk nx : Bool} {alloc : Nat → List (Nat × Nat) → Nat → Option Nat} {x : Nat} {h : List Ix} {out : List Nat → AtElt α}
    (hct : ¬ ConstructThrows S.live s) (hnr : ¬ Resizes S (.wild s)) (he : ∀ A' t, WritesUntil S.live x h out A' t → FEffect S.live s A' t)
    (hst : ∀ A', Stopped S.live x h out A' → FStops S.live s A') {g : Nat → Nat → Mem α → Res (α × Bool)} {ps : List Nat}
    (L : ∃ A' t p, loopB T g 0 ps W.pool = (if t then .exn p else .ok () p) ∧ BHolds { W with pool := p } ⟨A', S.moved⟩ lost ∧
      (WritesUntil S.live x h out A' t ∨ (t = true ∧ MayFail T alloc ∧ Stopped S.live x h out A')))
    (hstep : ∀ t p, loopB T g 0 ps W.pool = (if t then .exn p else .ok () p) → W.fstep Arith.exact chk nx T alloc s = .ok ({ W with pool := p }, t)) :
    FOut W S lost s chk nx T alloc := by
  obtain ⟨A', t, p, h1, h2, h3⟩ := L
  have h4 := hstep t p h1
  cases t with
  | false =>
    rcases h3 with h3 | ⟨h, _⟩
    · exact .inl ⟨_, A', h4, fun h => hct h.2, he _ _ h3, h2, rfl⟩
    · cases h
  | true =>
    refine .inr (.inl ⟨_, A', lost, 0, h4, h2, rfl, rfl, ?_⟩)
    rcases h3 with h3 | ⟨_, h3, h5⟩
    · exact .inl ⟨fun h => hct h.2, he _ _ h3, .inr ⟨hnr, rfl⟩⟩
    · exact .inr ⟨h3, hst _ h5, .inl rfl⟩

theorem uses_cons {x : Nat} {a : AVal α} (ha : S.live x = some a) {xs : List Nat} (h : ∀ z ∈ xs, S.live z ≠ none) : ∀ z ∈ x :: xs, S.live z ≠ none := by
  intro z hz
  rcases List.mem_cons.1 hz with rfl | hz
  · rw [ha]; simp
  · exact h z hz

theorem fout_assign (H : BHolds W S lost) {x : Nat} {h : List Ix} {e : FEx α} (hs : FLegal S.live (.assign x h e)) (chk nx : Bool)
    {alloc : Nat → List (Nat × Nat) → Nat → Option Nat} : FOut W S lost (.assign x h e) chk nx T alloc := by
  obtain ⟨h0, a, v, ha, hc, hne, hinj, hl, hn⟩ := hs
  have HF := bholds_flat H
  obtain ⟨c, o, h1, h2, h3, h4, h5⟩ := index_ok HF ha hc chk
  obtain ⟨src, k1, hg⟩ := fex_ok HF hne chk hl
  have hdim := observes_dims h4 hne
  have hu := usable_ok H (uses_cons ha (fex_live hl))
  refine fout_loop (fun h => h) (by rintro ⟨_, _, _, _, h, _⟩; cases h) (fun _ _ h => h) (fun _ h => h)
    (loop_out H ha h1 h2 hc hinj h5 (out := fun i => evaluated (fexVal S.live e i)) (fun _ _ => evaluated_none)
      (g := fun k _ m => src.value k m) (fun i hi _ m' hm => value_res (hg.deref m' i hi (fnoLate HF ha h1 h2 hc hn hi hm)))) ?_
  intro t p hp
  have hsd : (src.dims == (IView.toA c.base a.ext v).ext) = true := by rw [hg.dims]; simp [IView.toA]
  have hlen : ¬ src.dims.length ≠ (IView.toA c.base a.ext v).ext.length := by rw [hg.dims]; simp [IView.toA]
  have hcount : (src.it.count == some (IView.toA c.base a.ext v).enum.length) = true := by
    rw [hg.count, enum_length]; simp [IView.toA]
  simp only [BWorld.fstep, needs_ne h0, hu, h3, k1, res_ok_bind, assignB, hdim, if_neg hlen, hsd, dbg_any_true, h4.iterate, bm_bind, BM.bind, BM.reads, hp]
  cases t <;> simp [BWorld.wrote, hcount, dbg_any_true]

theorem fout_inPlace (H : BHolds W S lost) {x : Nat} {h : List Ix} {op : α → α → α × Bool} {e : FEx α} (hs : FLegal S.live (.inPlace x h op e)) (chk nx : Bool)
    {alloc : Nat → List (Nat × Nat) → Nat → Option Nat} : FOut W S lost (.inPlace x h op e) chk nx T alloc := by
  obtain ⟨a, v, ha, hc, hne, hinj, hl, hn⟩ := hs
  have HF := bholds_flat H
  obtain ⟨c, o, h1, h2, h3, h4, h5⟩ := index_ok HF ha hc chk
  obtain ⟨src, k1, hg⟩ := fex_ok HF hne chk hl
  have hdim := observes_dims h4 hne
  have hd := toA_distinct (c := c) hc hinj
  have hu := usable_ok H (uses_cons ha (fex_live hl))
  refine fout_loop (fun h => h) (by rintro ⟨_, _, _, _, h, _⟩; cases h) (fun _ _ h => h) (fun _ h => h)
    (loop_out H ha h1 h2 hc hinj h5 (out := fun i => updated ((old S.live x h i).bind fun u => (fexVal S.live e i).map (op u))) (fun _ _ => updated_none)
      (g := fun k p m => src.update op k p m) ?_) ?_
  · intro i hi _ m' hm
    have hrd : m' ((IView.toA c.base a.ext v).pos i) = some (a.elt (v.src i)) := by
      rw [hm]
      · exact h5 i hi
      intro j hj hb he
      have := hd i j hi hj he
      subst this
      exact Nat.lt_irrefl _ hb
    have hde := hg.deref m' i hi (fnoLate HF ha h1 h2 hc hn hi hm)
    have ho : old S.live x h i = some (a.elt (v.src i)) := by simp only [old, exVal, ha, hc.view]
    simp only [FSrc.update, Mem.read, hrd, hde, ho, res_ok_bind, Option.bind_some]
    cases fexVal S.live e i <;> rfl
  intro t p hp
  have hsd : ((IView.toA c.base a.ext v).ext == src.dims) = true := by rw [hg.dims]; simp [IView.toA]
  have hlen : ¬ (IView.toA c.base a.ext v).ext.length ≠ src.dims.length := by rw [hg.dims]; simp [IView.toA]
  simp only [BWorld.fstep, hu, h3, k1, res_ok_bind, inPlaceB, hdim, if_neg hlen, hsd, dbg_any_true, h4.iterate, bm_bind, BM.bind, BM.reads, hp]
  cases t <;> simp [BWorld.wrote]

/-- A scalar that is not one of the elements being written. -/
theorem scalar_kept {w : World α} {A : AStore α} (H : HoldsStore w A) {x : Nat} {a : AVal α} {c : Arr} (ha : A x = some a) (h1 : w.env x = some c) (h2 : c.ext = a.ext)
    {h : List Ix} {v : IView} (hc : Chain a.ext h v) {s : Sc α} (hn : ¬ ScIn A x v s) {sc : Scalar α} {y : α} (k2 : sc.get w.mem = .ok y)
    (k4 : ∀ p, sc = .cell p → ∃ (y : Nat) (h : List Ix) (b : AVal α) (c : Arr) (v : IView), s = .elem y h ∧ A y = some b ∧ w.env y = some c ∧ c.ext = b.ext ∧
      Chain b.ext h v ∧ v.ext = [] ∧ p = c.base + cmSum b.ext (v.src [])) {m' : Mem α}
    (hm : ∀ q, (∀ j, InB v.ext j → q ≠ (IView.toA c.base a.ext v).pos j) → m' q = w.mem q) : sc.get m' = .ok y := by
  cases sc with
  | val z => exact k2
  | cell p =>
    have : m' p = w.mem p := by
      apply hm
      intro j hj hp
      obtain ⟨y', h', b, c', u, q1, q2, q3, q4, q5, q6, q7⟩ := k4 p rfl
      have hin : InB b.ext (u.src []) := chain_in q5 [] (by rw [q6]; trivial)
      have hc' := toA_covers h2 hc (q := p) ⟨j, hj, hp.symm⟩
      by_cases hxy : x = y'
      · subst hxy
        rw [ha] at q2; cases q2
        rw [h1] at q3; cases q3
        apply hn
        rw [q1]
        refine ⟨rfl, a, u, ha, q5.view, j, hj, ?_⟩
        rw [q7] at hp
        exact arrayView_distinct c.base a.ext _ _ (chain_in hc j hj) hin (by simp only [arrayView]; simp only [IView.toA] at hp; omega)
      · exact H.sep x y' c c' p hxy h1 q3 hc' ⟨u.src [], by rw [cells, arrayView, q4]; exact hin, by rw [q7, cells, arrayView, q4]⟩
    simp only [Scalar.get, Mem.read, this] at k2 ⊢
    exact k2

theorem fout_inPlaceScalar (H : BHolds W S lost) {x : Nat} {h : List Ix} {op : α → α → α × Bool} {s : Sc α} (hs : FLegal S.live (.inPlaceScalar x h op s))
    (chk nx : Bool) {alloc : Nat → List (Nat × Nat) → Nat → Option Nat} : FOut W S lost (.inPlaceScalar x h op s) chk nx T alloc := by
  obtain ⟨hl, a, v, ha, hc, hinj, hn⟩ := hs
  have HF := bholds_flat H
  obtain ⟨c, o, h1, h2, h3, h4, h5⟩ := index_ok HF ha hc chk
  obtain ⟨sc, y, k1, k2, k3, k4⟩ := sc_ok HF hl chk
  have hd := toA_distinct (c := c) hc hinj
  have hu := usable_ok H (uses_cons ha (sc_live hl))
  refine fout_loop (fun h => h) (by rintro ⟨_, _, _, _, h, _⟩; cases h) (fun _ _ h => h) (fun _ h => h)
    (loop_out H ha h1 h2 hc hinj h5 (out := fun i => updated ((old S.live x h i).bind fun u => (scVal S.live s).map (op u))) (fun _ _ => updated_none)
      (g := fun _ p m => scalarUpdate op sc p m) ?_) ?_
  · intro i hi _ m' hm
    have hrd : m' ((IView.toA c.base a.ext v).pos i) = some (a.elt (v.src i)) := by
      rw [hm]
      · exact h5 i hi
      intro j hj hb he
      have := hd i j hi hj he
      subst this
      exact Nat.lt_irrefl _ hb
    have hsc : sc.get m' = .ok y := scalar_kept HF ha h1 h2 hc hn k2 k4 (fun q hq => hm q fun j hj _ => hq j hj)
    have ho : old S.live x h i = some (a.elt (v.src i)) := by simp only [old, exVal, ha, hc.view]
    simp only [scalarUpdate, Mem.read, hrd, hsc, ho, k3, res_ok_bind, Option.bind_some, Option.map_some]
    rfl
  intro t p hp
  simp only [BWorld.fstep, hu, h3, k1, res_ok_bind, inPlaceScalarB, h4.iterate, bm_bind, BM.bind, BM.reads, hp]
  cases t <;> simp [BWorld.wrote]

theorem fout_apply (H : BHolds W S lost) {x : Nat} {h : List Ix} {f : α → α × Bool} (hs : FLegal S.live (.apply x h f)) (chk nx : Bool)
    {alloc : Nat → List (Nat × Nat) → Nat → Option Nat} : FOut W S lost (.apply x h f) chk nx T alloc := by
  obtain ⟨a, v, ha, hc, hne, hinj⟩ := hs
  have HF := bholds_flat H
  obtain ⟨c, o, h1, h2, h3, h4, h5⟩ := index_ok HF ha hc chk
  have hdim := observes_dims h4 hne
  have hd := toA_distinct (c := c) hc hinj
  have hu := usable_ok H (uses_cons ha (xs := []) (by simp))
  refine fout_loop (fun h => h) (by rintro ⟨_, _, _, _, h, _⟩; cases h) (fun _ _ h => h) (fun _ h => h)
    (loop_out H ha h1 h2 hc hinj h5 (out := fun i => updated ((old S.live x h i).map f)) (fun _ _ => updated_none)
      (g := fun _ p m => applyUpdate f p m) ?_) ?_
  · intro i hi _ m' hm
    have hrd : m' ((IView.toA c.base a.ext v).pos i) = some (a.elt (v.src i)) := by
      rw [hm]
      · exact h5 i hi
      intro j hj hb he
      have := hd i j hi hj he
      subst this
      exact Nat.lt_irrefl _ hb
    have ho : old S.live x h i = some (a.elt (v.src i)) := by simp only [old, exVal, ha, hc.view]
    simp only [applyUpdate, Mem.read, hrd, ho, res_ok_bind, Option.map_some]
    rfl
  intro t p hp
  simp only [BWorld.fstep, hu, h3, res_ok_bind, applyB, hdim, needs, Option.isSome_some, if_true, h4.iterate, bm_bind, BM.bind, BM.reads, hp]
  cases t <;> simp [BWorld.wrote]

end
end Jules

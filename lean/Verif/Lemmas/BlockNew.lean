import Verif.Lemmas.BlockSteps
/-
Lemmas for C86: statements that allocate.
-/
namespace Jules
open Spec Props

section
variable {α : Type} {W : BWorld α} {S : MStore α} {lost : List Nat} {T : Nat → Bool}

/-- The block and the extents of the array in scope, moved-from or not. -/
def OldArr (W : BWorld α) (S : MStore α) (x : Nat) (p : Option Nat) (e : List Nat) : Prop :=
  W.env x = some ⟨p, e⟩ ∧ ((∃ a, S.live x = some a ∧ a.ext = e ∧ (p = none → prod e = 0)) ∨ (S.moved x = some e ∧ p = none))

theorem oldArr_live (H : BHolds W S lost) {x : Nat} {a : AVal α} (ha : S.live x = some a) : ∃ p, OldArr W S x p a.ext := by
  obtain ⟨p, h1, h2⟩ := bholds_env H ha
  exact ⟨p, h1, .inl ⟨a, ha, rfl, h2⟩⟩

theorem oldArr_moved (H : BHolds W S lost) {x : Nat} {d : List Nat} (hd : S.moved x = some d) : OldArr W S x none d :=
  ⟨(H.moved x d hd).2.2.2, .inr ⟨hd, rfl⟩⟩

/-- A new block for `x`. -/
theorem install (H : BHolds W S lost) {x : Nat} {p : Option Nat} {e : List Nat} (ho : OldArr W S x p e) {d : List Nat} (hd : d ≠ []) {b : Nat}
    (hf : Fresh W.pool.blocks b (prod d)) {ys : List α} (hl : ys.length = prod d) :
    ∃ m' bl', (∀ ck, clearB Arith.exact ⟨p, e⟩ ⟨W.pool.mem.setMany b ys, (b, prod d) :: W.pool.blocks, W.pool.ruined, ck⟩ =
        .ok () ⟨m', bl', W.pool.ruined, ck⟩) ∧
      ∀ A', Becomes S.live x d (fun i => ys[cmSum d i]?) A' → ∀ ck,
        BHolds ⟨⟨m', bl', W.pool.ruined, ck⟩, putEnv W.env x (some ⟨some b, d⟩), W.scopes⟩ ⟨A', unmove S.moved x⟩ lost := by
  obtain ⟨he, ⟨a, ha, rfl, hp⟩ | ⟨hm, rfl⟩⟩ := ho
  · rw [unmove_same (bholds_live_moved H (by rw [ha]; simp))]
    exact bholds_replaced H ha he hp hd hf hl
  · exact ⟨_, _, fun ck => rfl, fun A' hb ck => bholds_made H (H.moved x e hm).1 hd hf hl hb ck⟩

/-- The outcome of a computation that gives `x` new elements; `k`: the number of blocks lost when constructing them throws. -/
def NewOut (W : BWorld α) (S : MStore α) (lost : List Nat) (x : Nat) (d : List Nat) (f : List Nat → Option α) (nx : Bool) (T : Nat → Bool)
    (alloc : Nat → List (Nat × Nat) → Nat → Option Nat) (k : Nat) (R : BOut α Own) : Prop :=
  (∃ o p A', R = .ok o p ∧ (∀ i, InB d i → f i ≠ none) ∧ Becomes S.live x d f A' ∧
    BHolds (BWorld.put { W with pool := p } x (some o)) ⟨A', unmove S.moved x⟩ lost) ∨
  (∃ p lost' n, R = .exn p ∧ BHolds { W with pool := p } S lost' ∧ lost'.length = lost.length + n ∧
    ((nx = false ∧ (∃ i, InB d i ∧ f i = none) ∧ n = k) ∨ (MayFail T alloc ∧ (n = 0 ∨ n = k)))) ∨
  (R = .fail .terminate ∧ nx = true ∧ ∃ i, InB d i ∧ f i = none)

theorem nonempty_ex [Nonempty α] : ∃ _ : α, True := ⟨Classical.choice ‹_›, trivial⟩

/-- The constructors. -/
theorem new_out [Nonempty α] (H : BHolds W S lost) {alloc : Nat → List (Nat × Nat) → Nat → Option Nat} (hal : GoodBlocks alloc) {nx : Bool} {x : Nat}
    (hx : S.live x = none) {d : List Nat} (hd : d ≠ []) {src : Nat → Mem α → Res α} {f : List Nat → Option α}
    (hsrc : ∀ i, InB d i → ∀ m', (∀ q, W.pool.mem q ≠ none → m' q = W.pool.mem q) → src (cmSum d i) m' = called (f i)) :
    NewOut W S lost x d f nx T alloc 0 (newB Arith.exact T nx alloc d src W.pool) := by
  rcases newB_vals H (T := T) hal (nx := nx) hsrc with ⟨b, ys, ck', h1, h2, h3, h4, h5⟩ | ⟨ck', h1, h2⟩ | ⟨h1, h2, h3⟩
  · obtain ⟨A', hb⟩ := becomes_exists (A := S.live) x d h4 nonempty_ex
    exact .inl ⟨_, _, A', h5, h4, hb, bholds_made H hx hd h1 h2 (becomes_congr h3 hb) ck'⟩
  · refine .inr (.inl ⟨_, lost, 0, h1, bholds_clock H ck', rfl, ?_⟩)
    exact h2.imp (fun h => ⟨h.1, h.2, rfl⟩) (fun h => ⟨h, .inl rfl⟩)
  · exact .inr (.inr ⟨h1, h2, h3⟩)

/-- `overlap(x) = e`. -/
theorem overlapWhole_out [Nonempty α] (H : BHolds W S lost) {alloc : Nat → List (Nat × Nat) → Nat → Option Nat} (hal : GoodBlocks alloc) {nx : Bool} {x : Nat}
    {p : Option Nat} {e : List Nat} (ho : OldArr W S x p e) {src : FSrc α} (hd : src.dims ≠ []) {f : List Nat → Option α}
    (hsrc : ∀ i, InB src.dims i → ∀ m', (∀ q, W.pool.mem q ≠ none → m' q = W.pool.mem q) → src.it.deref m' (cmSum src.dims i) = called (f i)) :
    NewOut W S lost x src.dims f nx T alloc 0 (overlapWholeB Arith.exact T nx alloc ⟨p, e⟩ src W.pool) := by
  rcases newB_vals H (T := T) hal (nx := nx) (src := fun k m => src.it.deref m k) hsrc with ⟨b, ys, ck', h1, h2, h3, h4, h5⟩ | ⟨ck', h1, h2⟩ | ⟨h1, h2, h3⟩
  · obtain ⟨A', hb⟩ := becomes_exists (A := S.live) x src.dims h4 nonempty_ex
    obtain ⟨m', bl', g1, g2⟩ := install H ho hd h1 h2
    refine .inl ⟨⟨some b, src.dims⟩, _, A', ?_, h4, hb, g2 A' (becomes_congr h3 hb) ck'⟩
    simp only [overlapWholeB, bm_bind, BM.bind, h5, g1, bm_pure]
  · refine .inr (.inl ⟨_, lost, 0, ?_, bholds_clock H ck', rfl, ?_⟩)
    · simp only [overlapWholeB, bm_bind, BM.bind, h1]
    · exact h2.imp (fun h => ⟨h.1, h.2, rfl⟩) (fun h => ⟨h, .inl rfl⟩)
  · exact .inr (.inr ⟨by simp only [overlapWholeB, bm_bind, BM.bind, h1], h2, h3⟩)

/-- The values as a function of the position. -/
theorem vals_exists (d : List Nat) (f : List Nat → Option α) : ∃ V : Nat → Option α, (∀ i, InB d i → V (cmSum d i) = f i) ∧
    ((∃ j, j < prod d ∧ V j = none) → ∃ i, InB d i ∧ f i = none) := by
  let V : Nat → Option α := fun j => ((multiIdx d)[j]?).bind f
  have hV : ∀ i, InB d i → V (cmSum d i) = f i := by
    intro i hi
    have := multiIdx_getElem? hi
    rw [cmPos_eq_sum (inB_length hi)] at this
    simp only [V, this, Option.bind_some]
  refine ⟨V, hV, ?_⟩
  rintro ⟨j, hj, hn⟩
  obtain ⟨i, hi, rfl, _⟩ := rank_exists hj
  exact ⟨i, hi, by rw [← hV i hi]; exact hn⟩

/-- `x = e` with another number of elements. -/
theorem resize_out [Nonempty α] (H : BHolds W S lost) {alloc : Nat → List (Nat × Nat) → Nat → Option Nat} (hal : GoodBlocks alloc) {nx : Bool} {x : Nat}
    {p : Option Nat} {e : List Nat} (ho : OldArr W S x p e) {src : FSrc α} (hd : src.dims ≠ []) (hsz : prod e ≠ prod src.dims) {f : List Nat → Option α}
    (hsrc : ∀ i, InB src.dims i → ∀ m', (∀ q, W.pool.mem q ≠ none → m' q = W.pool.mem q) → src.it.deref m' (cmSum src.dims i) = called (f i)) :
    NewOut W S lost x src.dims f nx T alloc 1 (setB Arith.exact T nx alloc ⟨p, e⟩ src W.pool) := by
  obtain ⟨V, hV, hex⟩ := vals_exists src.dims f
  rcases allocateB_cases (S := T) hal (prod src.dims) W.pool.mem W.pool.blocks W.pool.ruined W.pool.clock with ⟨b, hf, ha⟩ | ⟨ha, hS⟩
  · have ha' : allocateB T alloc (prod src.dims) W.pool = _ := ha
    rcases constructNB_cases (S := T) (nx := nx) (b := b) (N := prod src.dims) (src := fun k m => src.it.deref m k) (V := V) (m := W.pool.mem) (bl := W.pool.blocks)
      W.pool.ruined (W.pool.clock + 1)
      (by
        intro j hj m' hm
        obtain ⟨i, hi, rfl, _⟩ := rank_exists hj
        rw [hV i hi]; exact hsrc i hi m' hm) (fresh_none hf (inBlocks_of H)) with ⟨ys, ck', h1, h2, h3⟩ | ⟨ck', h1, h2, h3⟩ | ⟨h1, h2, h3⟩
    · have h4 : ∀ i, InB src.dims i → f i = ys[cmSum src.dims i]? := fun i hi => by rw [← hV i hi]; exact h2 _ (cmSum_lt hi)
      have h5 : ∀ i, InB src.dims i → f i ≠ none := by
        intro i hi hn
        rw [h4 i hi] at hn
        have := List.getElem?_eq_none_iff.1 hn
        have := cmSum_lt hi
        omega
      obtain ⟨A', hb⟩ := becomes_exists (A := S.live) x src.dims h5 nonempty_ex
      obtain ⟨m', bl', g1, g2⟩ := install H ho hd hf h1
      refine .inl ⟨⟨some b, src.dims⟩, _, A', ?_, h5, hb, g2 A' (becomes_congr h4 hb) ck'⟩
      simp only [setB, prodL_exact, if_neg hsz, bm_bind, BM.bind, ha', h3, g1, bm_pure]
    · refine .inr (.inl ⟨_, b :: lost, 1, ?_, bholds_leak H hf ck', by simp, ?_⟩)
      · simp only [setB, prodL_exact, if_neg hsz, bm_bind, BM.bind, ha', h1]
      · exact h3.imp (fun h => ⟨h2, hex h, rfl⟩) (fun h => ⟨.inl h, .inr rfl⟩)
    · refine .inr (.inr ⟨?_, h2, hex h3⟩)
      simp only [setB, prodL_exact, if_neg hsz, bm_bind, BM.bind, ha', h1]
  · have ha' : allocateB T alloc (prod src.dims) W.pool = _ := ha
    refine .inr (.inl ⟨_, lost, 0, ?_, bholds_clock H (W.pool.clock + 1), rfl, .inr ⟨hS, .inl rfl⟩⟩)
    simp only [setB, prodL_exact, if_neg hsz, bm_bind, BM.bind, ha']

/-- Statements whose effect is all or nothing. -/
theorem fout_new (H : BHolds W S lost) {s : FStmt α} {chk nx : Bool} {alloc : Nat → List (Nat × Nat) → Nat → Option Nat} {x : Nat} (hmx : S.moved x = none)
    {d : List Nat} {f : List Nat → Option α} {k : Nat} {R : BOut α Own} (hR : NewOut W S lost x d f nx T alloc k R)
    (hstep : W.fstep Arith.exact chk nx T alloc s = W.stored x R) (hct : ConstructThrows S.live s ↔ ∃ i, InB d i ∧ f i = none)
    (he : ∀ A' t, AllOrNothing S.live d f A' t (Becomes S.live x d f A') → FEffect S.live s A' t) (hst : FStops S.live s S.live)
    (hk : Loss S (.wild s) k) (hr : k ≠ 0 → k = 1 ∧ Reallocates S (.wild s)) : FOut W S lost s chk nx T alloc := by
  have hdef : (∀ i, InB d i → f i ≠ none) → ¬ ConstructThrows S.live s := by
    intro h hc
    obtain ⟨i, hi, hn⟩ := hct.1 hc
    exact h i hi hn
  rcases hR with ⟨o, p, A', rfl, h2, h3, h4⟩ | ⟨p, lost', n, rfl, h2, h3, h4⟩ | ⟨rfl, h2, h3⟩
  · rw [unmove_same hmx] at h4
    exact .inl ⟨_, A', hstep, fun h => hdef h2 h.2, he _ _ (.inl ⟨rfl, h2, h3⟩), h4, rfl⟩
  · refine .inr (.inl ⟨_, S.live, lost', n, hstep, h2, rfl, h3, ?_⟩)
    rcases h4 with ⟨q1, q2, rfl⟩ | ⟨q1, q2⟩
    · exact .inl ⟨fun h => (by rw [q1] at h; cases h.1), he _ _ (.inr ⟨rfl, q2, rfl⟩), hk⟩
    · refine .inr ⟨q1, hst, ?_⟩
      by_cases hn : n = 0
      · exact .inl hn
      · rcases q2 with h | rfl
        · exact (hn h).elim
        · exact .inr (hr hn)
  · exact .inr (.inr ⟨hstep, h2, hct.2 h3⟩)

theorem not_resizes {s : FStmt α} (h : ∀ x e, s ≠ .set x e) : Loss S (.wild s) 0 :=
  .inr ⟨by rintro ⟨x, e, _, _, hs, _⟩; cases hs; exact h _ _ rfl, rfl⟩

theorem fout_make [Nonempty α] (H : BHolds W S lost) {x : Nat} {e : FEx α} (hs : FLegal S.live (.make x e)) (hmx : S.moved x = none) (chk nx : Bool)
    {alloc : Nat → List (Nat × Nat) → Nat → Option Nat} (hal : GoodBlocks alloc) : FOut W S lost (.make x e) chk nx T alloc := by
  obtain ⟨hA, d, hd, hl⟩ := hs
  obtain ⟨src, h1, hg⟩ := fex_ok (bholds_flat H) hd chk hl
  have hx : W.env x = none := H.out x ⟨hA, hmx⟩
  have hu := usable_ok H (fex_live hl)
  have hdim := hg.dims
  subst hdim
  refine fout_new H hmx (new_out H hal hA hd (src := fun k m => src.it.deref m k) (gets_src H hg)) ?_ ?_ (fun A' t h => ⟨_, hl, h⟩) rfl
    (not_resizes (by intro _ _ h; cases h)) (fun h => (h rfl).elim)
  · simp only [BWorld.fstep, hx, needs, Option.isNone_none, if_true, res_ok_bind, hu, h1]
  · constructor
    · rintro ⟨d', hl', h⟩
      rw [exLegal_unique hl' hl] at h; exact h
    · exact fun h => ⟨_, hl, h⟩

theorem fout_makeFrom [Nonempty α] (H : BHolds W S lost) {x : Nat} {l : List (Option α)} {ext : List Nat} (hs : FLegal S.live (.makeFrom x l ext))
    (hmx : S.moved x = none) (chk nx : Bool) {alloc : Nat → List (Nat × Nat) → Nat → Option Nat} (hal : GoodBlocks alloc) :
    FOut W S lost (.makeFrom x l ext) chk nx T alloc := by
  obtain ⟨hA, hd, hl⟩ := hs
  have hx : W.env x = none := H.out x ⟨hA, hmx⟩
  refine fout_new H hmx (new_out H hal hA hd (src := fun k _ => pull l k) (f := fun i => (l[cmSum ext i]?).join) ?_) ?_ Iff.rfl (fun A' t h => h) rfl
    (not_resizes (by intro _ _ h; cases h)) (fun h => (h rfl).elim)
  · intro i hi m' _
    have := cmSum_lt hi
    have hv : l[cmSum ext i]? = some (l[cmSum ext i]'(by omega)) := List.getElem?_eq_getElem (by omega)
    simp only [pull, hv, Option.join_some]
  · simp only [BWorld.fstep, hx, needs_ne hd, res_ok_bind]
    simp only [needs, Option.isNone_none, if_true, res_ok_bind]

theorem fout_overlapWhole [Nonempty α] (H : BHolds W S lost) {x : Nat} {e : FEx α} (hs : FLegal S.live (.overlapWhole x e)) (chk nx : Bool)
    {alloc : Nat → List (Nat × Nat) → Nat → Option Nat} (hal : GoodBlocks alloc) : FOut W S lost (.overlapWhole x e) chk nx T alloc := by
  obtain ⟨a, d, ha, hlen, hl⟩ := hs
  have hane := (H.arr x a ha).1
  have hd : d ≠ [] := by
    intro h; subst h; exact hane (List.length_eq_zero_iff.1 hlen.symm)
  obtain ⟨src, h1, hg⟩ := fex_ok (bholds_flat H) hd chk hl
  obtain ⟨p, ho⟩ := oldArr_live H ha
  have hmx := bholds_live_moved H (x := x) (by rw [ha]; simp)
  have hu := usable_ok H (fex_live hl)
  have hdim := hg.dims
  subst hdim
  refine fout_new H hmx (overlapWhole_out H hal ho hd (gets_src H hg)) ?_ ?_ (fun A' t h => ⟨_, hl, h⟩) rfl
    (not_resizes (by intro _ _ h; cases h)) (fun h => (h rfl).elim)
  · simp only [BWorld.fstep, BWorld.own, ho.1, res_ok_bind, hu, h1, sameRank, hlen, if_true]
  · constructor
    · rintro ⟨d', hl', h⟩
      rw [exLegal_unique hl' hl] at h; exact h
    · exact fun h => ⟨_, hl, h⟩

end
end Jules

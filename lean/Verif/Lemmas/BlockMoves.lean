import Verif.Lemmas.BlockSet
/-
Lemmas for C86: default construction, moves and destruction.
-/
namespace Jules
open Spec Props

section
variable {α : Type} {W : BWorld α} {S : MStore α} {lost : List Nat} {T : Nat → Bool}

/-- How a statement without throwing functions ends. -/
def MOut (W : BWorld α) (S : MStore α) (lost : List Nat) (s : MStmt α) (chk nx : Bool) (T : Nat → Bool) (alloc : Nat → List (Nat × Nat) → Nat → Option Nat) : Prop :=
  (∃ W' S', W.mstep Arith.exact chk nx T alloc s = .ok (W', false) ∧ MEffect S s S' ∧ BHolds W' S' lost ∧ W'.scopes = W.scopes) ∨
  (∃ W' S' lost' n, W.mstep Arith.exact chk nx T alloc s = .ok (W', true) ∧ BHolds W' S' lost' ∧ W'.scopes = W.scopes ∧
    lost'.length = lost.length + n ∧ MayFail T alloc ∧ MStops S s S' ∧ (n = 0 ∨ n = 1 ∧ Reallocates S (.calm s)))

/-- The arrays under other names. -/
theorem bholds_perm (H : BHolds W S lost) {σ : Nat → Nat} (hσ : ∀ z, σ (σ z) = z) {W' : BWorld α} {S' : MStore α} (hp : W'.pool = W.pool)
    (he : ∀ z, W'.env z = W.env (σ z)) (hl : ∀ z, S'.live z = S.live (σ z)) (hm : ∀ z, S'.moved z = S.moved (σ z)) : BHolds W' S' lost := by
  have hown : ∀ x b d, OwnsAt W' x b d ↔ OwnsAt W (σ x) b d := fun x b d => by unfold OwnsAt; rw [he]
  constructor
  · intro x a ha
    rw [hl] at ha
    obtain ⟨h1, h2⟩ := H.arr _ a ha
    refine ⟨h1, ?_⟩
    rw [he, hp]
    exact h2.imp id fun ⟨b, h3, h4⟩ => ⟨b, (hown _ _ _).2 h3, h4⟩
  · intro x d hx
    rw [hm] at hx
    rw [hl, he]
    exact H.moved _ d hx
  · intro x hx
    rw [he]
    exact H.out _ ⟨by rw [← hl]; exact hx.1, by rw [← hm]; exact hx.2⟩
  · intro x b d hx
    rw [hp]
    exact H.own _ b d ((hown _ _ _).1 hx)
  · intro x y b d d' hx hy
    have := H.once _ _ b d d' ((hown _ _ _).1 hx) ((hown _ _ _).1 hy)
    rw [← hσ x, this, hσ]
  · rw [hp]; exact H.bases
  · rw [hp]; exact H.apart
  · intro q hq
    rw [hp] at hq
    obtain ⟨x, b, d, h1, h2⟩ := H.only q hq
    exact ⟨σ x, b, d, (hown _ _ _).2 (by rw [hσ]; exact h1), h2⟩
  · exact H.nodup
  · intro b
    rw [H.left b, hp]
    refine and_congr Iff.rfl ⟨fun h x d hx => h _ d ((hown _ _ _).1 hx), fun h x d hx => h (σ x) d ((hown _ _ _).2 (by rw [hσ]; exact hx))⟩
  · rw [hp]; exact H.ruined

/-- A new name, with a null pointer. -/
theorem bholds_null (H : BHolds W S lost) {y : Nat} (hy : Unused S y) {d : List Nat} (hd : d ≠ []) {W' : BWorld α} {S' : MStore α} (hp : W'.pool = W.pool)
    (he : W'.env = putEnv W.env y (some ⟨none, d⟩)) (ho : ∀ z, z ≠ y → S'.live z = S.live z ∧ S'.moved z = S.moved z)
    (hy' : (prod d = 0 ∧ S'.moved y = none ∧ ∃ a, S'.live y = some a ∧ a.ext = d) ∨ (prod d ≠ 0 ∧ S'.live y = none ∧ S'.moved y = some d)) :
    BHolds W' S' lost := by
  have hny := H.out y hy
  have L := ledger_null (bholds_ledger H) (x := y) (o := some ⟨none, d⟩) (by rw [hny]; exact noBlock_none) (noBlock_null d)
  rw [← he, ← hp] at L
  have hown : ∀ x b e, OwnsAt W' x b e ↔ OwnsAt W x b e := by
    intro x b e
    unfold OwnsAt
    rw [he]
    by_cases hx : x = y
    · rw [hx, put_at, hny]; simp
    · rw [put_other _ hx]
  constructor
  · intro x a ha
    by_cases hx : x = y
    · subst hx
      rcases hy' with ⟨h1, _, a', h2, h3⟩ | ⟨_, h2, _⟩
      · rw [ha] at h2; cases h2
        refine ⟨by rw [h3]; exact hd, .inl ⟨?_, by rw [h3]; exact h1⟩⟩
        rw [he, put_at, h3]
      · rw [ha] at h2; cases h2
    · rw [(ho x hx).1] at ha
      obtain ⟨h1, h2⟩ := H.arr x a ha
      refine ⟨h1, h2.imp ?_ ?_⟩
      · rintro ⟨h3, h4⟩; exact ⟨by rw [he, put_other _ hx]; exact h3, h4⟩
      · rintro ⟨b, h3, h4⟩; exact ⟨b, (hown _ _ _).2 h3, by rw [hp]; exact h4⟩
  · intro x e hx
    by_cases hxy : x = y
    · subst hxy
      rcases hy' with ⟨_, h2, _⟩ | ⟨h1, h2, h3⟩
      · rw [hx] at h2; cases h2
      · rw [hx] at h3; cases h3
        exact ⟨h2, hd, h1, by rw [he, put_at]⟩
    · rw [(ho x hxy).2] at hx
      obtain ⟨h1, h2, h3, h4⟩ := H.moved x e hx
      exact ⟨by rw [(ho x hxy).1]; exact h1, h2, h3, by rw [he, put_other _ hxy]; exact h4⟩
  · intro x hx
    by_cases hxy : x = y
    · subst hxy
      rcases hy' with ⟨_, _, a', h2, _⟩ | ⟨_, _, h3⟩
      · rw [hx.1] at h2; cases h2
      · rw [hx.2] at h3; cases h3
    · rw [he, put_other _ hxy]
      exact H.out x ⟨by rw [← (ho x hxy).1]; exact hx.1, by rw [← (ho x hxy).2]; exact hx.2⟩
  · exact L.own
  · exact L.once
  · exact L.bases
  · exact L.apart
  · intro q hq
    rw [hp] at hq
    obtain ⟨x, b, e, h1, h2⟩ := H.only q hq
    exact ⟨x, b, e, (hown _ _ _).2 h1, h2⟩
  · exact L.nodup
  · exact L.left
  · rw [hp]; exact H.ruined

/-- An array in scope, moved-from or not. -/
theorem order_own (H : BHolds W S lost) {x n : Nat} (h : HasOrder S x n) : ∃ p e, OldArr W S x p e ∧ e.length = n ∧ e ≠ [] := by
  rcases h with ⟨a, ha, hn⟩ | ⟨d, hd, hn⟩
  · obtain ⟨p, hp⟩ := oldArr_live H ha
    exact ⟨p, a.ext, hp, hn, (H.arr x a ha).1⟩
  · exact ⟨none, d, oldArr_moved H hd, hn, (H.moved x d hd).2.1⟩

theorem declare_out (H : BHolds W S lost) {x n : Nat} (hs : MLegal S (.declare x n)) (chk nx : Bool) {alloc : Nat → List (Nat × Nat) → Nat → Option Nat} :
    ∃ W', W.mstep Arith.exact chk nx T alloc (.declare x n) = .ok (W', false) ∧ W'.scopes = W.scopes ∧ ∀ S', MEffect S (.declare x n) S' → BHolds W' S' lost := by
  obtain ⟨hu, hn⟩ := hs
  have hx := H.out x hu
  refine ⟨W.put x (some ⟨none, List.replicate n 0⟩), ?_, rfl, ?_⟩
  · simp [BWorld.mstep, hx, needs, hn]
  · rintro S' ⟨h1, h2, a, h3, h4, _⟩
    have h0 : prod (List.replicate n 0) = 0 := by
      cases n with
      | zero => exact (hn rfl).elim
      | succ n => simp [List.replicate_succ, prod]
    exact bholds_null H hu (d := List.replicate n 0) (by simp [hn]) rfl rfl (fun z hz => ⟨h2 z hz, by rw [h1]⟩) (.inl ⟨h0, by rw [h1]; exact hu.2, a, h3, h4⟩)

/-- Exchange of two names. -/
def swapName (x y : Nat) : Nat → Nat := fun z => if z = x then y else if z = y then x else z

theorem swapName_swap (x y z : Nat) : swapName x y (swapName x y z) = z := by
  simp only [swapName]
  by_cases h1 : z = x
  · by_cases h2 : y = x <;> simp [h1, h2]
  · by_cases h2 : z = y <;> simp [h1, h2]

theorem moveAssign_out (H : BHolds W S lost) {x y : Nat} (hs : MLegal S (.old (.moveAssign x y))) (chk nx : Bool) {alloc : Nat → List (Nat × Nat) → Nat → Option Nat} :
    ∃ W', W.mstep Arith.exact chk nx T alloc (.old (.moveAssign x y)) = .ok (W', false) ∧ W'.scopes = W.scopes ∧
      ∀ S', MEffect S (.old (.moveAssign x y)) S' → BHolds W' S' lost := by
  obtain ⟨hxy, n, h1, h2⟩ := hs
  obtain ⟨p, e, ⟨hx, _⟩, hn, _⟩ := order_own H h1
  obtain ⟨p', e', ⟨hy, _⟩, hn', _⟩ := order_own H h2
  have hb : (x != y) = true := by simpa using hxy
  refine ⟨(W.put x (some ⟨p', e'⟩)).put y (some ⟨p, e⟩), ?_, rfl, ?_⟩
  · simp only [BWorld.mstep, hb, dbg_any_true, BWorld.own, hx, hy, res_ok_bind, sameRank, hn, hn', if_true]
  · rintro S' ⟨e1, e2, e3, e4, e5⟩
    refine bholds_perm H (σ := swapName x y) (swapName_swap x y) rfl ?_ ?_ ?_
    · intro z
      simp only [BWorld.put, swapName]
      by_cases hzy : z = y
      · have : ¬ z = x := by rintro rfl; exact hxy hzy
        rw [if_pos hzy, if_neg this, if_pos hzy, hx]
      · by_cases hzx : z = x
        · rw [if_neg hzy, if_pos hzx, if_pos hzx, hy]
        · rw [if_neg hzy, if_neg hzx, if_neg hzx, if_neg hzy]
    · intro z
      simp only [swapName]
      by_cases hzx : z = x
      · rw [if_pos hzx, hzx, e2]
      · by_cases hzy : z = y
        · rw [if_neg hzx, if_pos hzy, hzy, e3]
        · rw [if_neg hzx, if_neg hzy, (e1 z (by simp [hzx, hzy])).1]
    · intro z
      simp only [swapName]
      by_cases hzx : z = x
      · rw [if_pos hzx, hzx, e4]
      · by_cases hzy : z = y
        · rw [if_neg hzx, if_pos hzy, hzy, e5]
        · rw [if_neg hzx, if_neg hzy, (e1 z (by simp [hzx, hzy])).2]

theorem moveMake_out (H : BHolds W S lost) {x y : Nat} (hs : MLegal S (.moveMake x y)) (chk nx : Bool) {alloc : Nat → List (Nat × Nat) → Nat → Option Nat} :
    ∃ W', W.mstep Arith.exact chk nx T alloc (.moveMake x y) = .ok (W', false) ∧ W'.scopes = W.scopes ∧
      ∀ S', MEffect S (.moveMake x y) S' → BHolds W' S' lost := by
  obtain ⟨hu, n, hn⟩ := hs
  have hx := H.out x hu
  obtain ⟨p, e, ⟨hy, hor⟩, _, hne⟩ := order_own H hn
  have hxy : x ≠ y := by rintro rfl; rw [hx] at hy; cases hy
  refine ⟨(W.put x (some ⟨p, e⟩)).put y (some ⟨none, e⟩), ?_, rfl, ?_⟩
  · simp only [BWorld.mstep, hx, needs, Option.isNone_none, if_true, res_ok_bind, BWorld.own, hy]
  · rintro S' ⟨e1, e2, e3, e4⟩
    have H1 : BHolds ((W.put x (some ⟨p, e⟩)).put y none)
        ⟨fun z => if z = x then S.live y else if z = y then none else S.live z, fun z => if z = x then S.moved y else if z = y then none else S.moved z⟩ lost := by
      refine bholds_perm H (σ := swapName x y) (swapName_swap x y) rfl ?_ ?_ ?_
      · intro z
        simp only [BWorld.put, swapName]
        by_cases hzy : z = y
        · have : ¬ z = x := by rintro rfl; exact hxy hzy
          rw [if_pos hzy, if_neg this, if_pos hzy, hx]
        · by_cases hzx : z = x
          · rw [if_neg hzy, if_pos hzx, if_pos hzx, hy]
          · rw [if_neg hzy, if_neg hzx, if_neg hzx, if_neg hzy]
      · intro z
        simp only [swapName]
        by_cases hzx : z = x
        · rw [if_pos hzx, if_pos hzx]
        · by_cases hzy : z = y
          · rw [if_neg hzx, if_pos hzy, if_neg hzx, if_pos hzy, hu.1]
          · rw [if_neg hzx, if_neg hzy, if_neg hzx, if_neg hzy]
      · intro z
        simp only [swapName]
        by_cases hzx : z = x
        · rw [if_pos hzx, if_pos hzx]
        · by_cases hzy : z = y
          · rw [if_neg hzx, if_pos hzy, if_neg hzx, if_pos hzy, hu.2]
          · rw [if_neg hzx, if_neg hzy, if_neg hzx, if_neg hzy]
    refine bholds_null H1 (y := y) ⟨by simp [hxy.symm], by simp [hxy.symm]⟩ hne rfl ?_ ?_ ?_
    · funext z
      simp only [BWorld.put, putEnv]
      by_cases hzy : z = y
      · simp [hzy]
      · simp [hzy]
    · intro z hzy
      simp only [if_neg hzy]
      by_cases hzx : z = x
      · simp only [hzx, if_true]; exact ⟨e2, e3⟩
      · simp only [if_neg hzx]; exact e1 z (by simp [hzx, hzy])
    · rcases hor with ⟨a, ha, rfl, _⟩ | ⟨hm, _⟩
      · rcases e4 with ⟨d, q, _⟩ | ⟨a', q1, q2⟩
        · rw [bholds_live_moved H (by rw [ha]; simp)] at q; cases q
        · rw [ha] at q1; cases q1
          split at q2
          · next h0 => exact .inl ⟨h0, q2.2, a, q2.1, rfl⟩
          · next h0 => exact .inr ⟨h0, q2.1, q2.2⟩
      · obtain ⟨m1, _, m3, _⟩ := H.moved y e hm
        rcases e4 with ⟨d, q, q1, q2⟩ | ⟨a', q1, _⟩
        · rw [hm] at q; cases q
          exact .inr ⟨m3, q2, q1⟩
        · rw [m1] at q1; cases q1

theorem drop_out (H : BHolds W S lost) {x : Nat} (hs : MLegal S (.old (.drop x))) (chk nx : Bool) {alloc : Nat → List (Nat × Nat) → Nat → Option Nat} :
    ∃ W', W.mstep Arith.exact chk nx T alloc (.old (.drop x)) = .ok (W', false) ∧ W'.scopes = W.scopes ∧
      ∀ S', MEffect S (.old (.drop x)) S' → BHolds W' S' lost := by
  obtain ⟨n, hn⟩ := hs
  obtain ⟨p, e, ⟨hx, hor⟩, _, hne⟩ := order_own H hn
  have rest : ∀ {m' : Mem α} {bl' : List (Nat × Nat)} {S' : MStore α}, Others S [x] S' → Unused S' x → ∀ {k : Nat},
      HoldsStore ⟨m', (fun y => if y = x then none else (W.flat Arith.exact).env y), k⟩ S'.live → Ledger bl' (putEnv W.env x none) lost →
      BHolds (BWorld.put { W with pool := ⟨m', bl', W.pool.ruined, W.pool.clock⟩ } x none) S' lost := by
    intro m' bl' S' ho hu k hS L
    refine bholds_of (holds_same hS rfl ?_) L ?_ ?_ H.ruined
    · funext z
      show _ = if z = x then none else (W.flat Arith.exact).env z
      by_cases hz : z = x
      · rw [if_pos hz, hz]
        exact flat_out (by simp [BWorld.put])
      · rw [if_neg hz]
        simp only [BWorld.flat, BWorld.put, if_neg hz]
    · intro z d hz
      have hzx : z ≠ x := by rintro rfl; rw [hu.2] at hz; cases hz
      obtain ⟨o1, o2⟩ := ho z (by simpa using hzx)
      rw [o2] at hz
      obtain ⟨h1, h2, h3, h4⟩ := H.moved z d hz
      exact ⟨by rw [o1]; exact h1, h2, h3, by simp only [BWorld.put, if_neg hzx]; exact h4⟩
    · intro z hz
      by_cases hzx : z = x
      · simp [BWorld.put, hzx]
      · obtain ⟨o1, o2⟩ := ho z (by simpa using hzx)
        simp only [BWorld.put, if_neg hzx]
        exact H.out z ⟨by rw [← o1]; exact hz.1, by rw [← o2]; exact hz.2⟩
  cases p with
  | none =>
    refine ⟨BWorld.put W x none, ?_, rfl, ?_⟩
    · simp only [BWorld.mstep, BWorld.own, hx, res_ok_bind, clearB, bm_pure, BWorld.wrote]
    · rintro S' ⟨e1, e2⟩
      refine rest (bl' := W.pool.blocks) e1 e2 (k := 0) (m' := W.pool.mem) ?_ (ledger_null (bholds_ledger H) (by rw [hx]; exact noBlock_null _) noBlock_none)
      rcases hor with ⟨a, ha, rfl, h0⟩ | ⟨hm, _⟩
      · have h0 := h0 rfl
        refine holds_same (holds_drop (bholds_flat H) (flat_env hx fun _ => h0) (fun z hz => (e1 z (by simpa using hz)).1) e2.1) ?_ rfl
        show W.pool.mem = W.pool.mem.free _ (prod a.ext)
        rw [h0]
        funext q; unfold Mem.free; rw [if_neg (by omega)]
      · obtain ⟨m1, _, m3, _⟩ := H.moved x e hm
        have hlive : S'.live = S.live := by
          funext z
          by_cases hz : z = x
          · rw [hz, e2.1, m1]
          · exact (e1 z (by simpa using hz)).1
        rw [hlive]
        refine holds_same (bholds_flat H) rfl ?_
        funext z
        dsimp only
        by_cases hz : z = x
        · rw [if_pos hz, hz, flat_moved hx m3]
        · rw [if_neg hz]
  | some b =>
    obtain ⟨a, ha, rfl, _⟩ : ∃ a, S.live x = some a ∧ a.ext = e ∧ (some b = none → prod e = 0) := by
      rcases hor with h | ⟨_, h⟩
      · exact h
      · cases h
    have hflat := flat_env hx (fun h => by cases h)
    have hcl : clearB Arith.exact ⟨some b, a.ext⟩ W.pool = _ := clearB_ok (m := W.pool.mem) (H.own x b a.ext hx) H.bases (by
      intro i hi hn
      obtain ⟨j, hj, hjs, _⟩ := rank_exists hi
      have hal := alive_cells (bholds_flat H) ha hflat j hj
      have hpos : (cells ⟨(some b).getD 0, a.ext⟩).pos j = b + i := by simp only [cells, arrayView, hjs, Option.getD_some]
      rw [hpos] at hal
      exact hal hn) W.pool.ruined W.pool.clock
    refine ⟨BWorld.put { W with pool := ⟨W.pool.mem.free b (prod a.ext), W.pool.blocks.filter (fun y => y.1 != b), W.pool.ruined, W.pool.clock⟩ } x none, ?_, rfl, ?_⟩
    · simp only [BWorld.mstep, BWorld.own, hx, res_ok_bind, hcl, BWorld.wrote]
    · rintro S' ⟨e1, e2⟩
      exact rest e1 e2 (k := 0) (holds_same (holds_drop (bholds_flat H) hflat (fun z hz => (e1 z (by simpa using hz)).1) e2.1) rfl rfl)
        (ledger_remove (bholds_ledger H) hx noBlock_none)

end
end Jules

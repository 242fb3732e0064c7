import Verif.Lemmas.Ledger
/-
Lemmas for C86: the statements.
-/
namespace Jules
open Spec Props

section
variable {α : Type} {w : World α} {A : AStore α}

/-! ### Loops over arrays -/

/-- The store after a loop over a view, from the memory after it. -/
theorem until_store (H : HoldsStore w A) {x : Nat} {a : AVal α} (ha : A x = some a) {c : Arr} (hx : w.env x = some c) (hce : c.ext = a.ext)
    {h : List Ix} {v : IView} (hc : Chain a.ext h v)
    (h5 : ∀ i, InB v.ext i → w.mem ((IView.toA c.base a.ext v).pos i) = some (a.elt (v.src i))) {out : List Nat → AtElt α} {m' : Mem α} {t : Bool}
    (e2 : t = true ↔ Thrown v.ext out)
    (e3 : ∀ i, InB v.ext i → Visited v.ext out i → ∀ y, (out i).new = some y → m' ((IView.toA c.base a.ext v).pos i) = some y)
    (e4 : ∀ i, InB v.ext i → (Visited v.ext out i → (out i).new = none) → m' ((IView.toA c.base a.ext v).pos i) = w.mem ((IView.toA c.base a.ext v).pos i))
    (e5 : ∀ q, ¬ Covers (IView.toA c.base a.ext v) q → m' q = w.mem q) (k : Nat) {A' : AStore α} {t' : Bool} (hu : WritesUntil A x h out A' t') :
    t' = t ∧ HoldsStore ⟨m', w.env, k⟩ A' := by
  obtain ⟨u1, a0, a', v0, u2, u3, u4, u5, u6, u7, u8, u9⟩ := hu
  rw [ha] at u2; cases u2
  rw [hc.view] at u4; cases u4
  refine ⟨?_, ?_⟩
  · have hiff : t' = true ↔ t = true := u6.trans e2.symm
    cases t <;> cases t' <;> simp at hiff ⊢
  · refine holds_write H ha hx hce hc (f := fun i => some (a'.elt (v.src i))) ?_ (by simp) e5
      ⟨u1, a, a', v, ha, u3, hc.view, u5, fun _ _ => rfl, u9⟩
    intro i hi
    by_cases hv : Visited v.ext out i → (out i).new = none
    · rw [e4 i hi hv, h5 i hi, u8 i hi hv]
    · simp only [Classical.not_imp] at hv
      obtain ⟨y, hy⟩ := Option.ne_none_iff_exists'.1 hv.2
      rw [e3 i hi hv.1 y hy, u7 i hi hv.1 y hy]

/-- At the element `i` an exception is thrown before it is changed. -/
def stopAt (i : List Nat) (out : List Nat → AtElt α) : List Nat → AtElt α := fun j => if j = i then ⟨none, true⟩ else out j

/-- A loop in which something throws, as a loop in which an element throws. -/
theorem cut_out {d : List Nat} {N : Nat} (hN : N = prod d) {pos : List Nat → Nat} {P : List Nat → Mem α → Prop} {out : List Nat → AtElt α}
    (hnone : ∀ i, InB d i → (out i).new = none → (out i).throws = true) {g : Nat → Nat → Mem α → Res (α × Bool)}
    (hg : ∀ i, InB d i → Visited d out i → ∀ m', P i m' → g (cmSum d i) (pos i) m' = (out i).res) {Sch : Nat → Bool} {c : Option Nat}
    (hc : ∀ j, c = some j → 0 ≤ j ∧ j < 0 + N ∧ Alarm Sch) :
    ∃ out', (∀ i, InB d i → (out' i).new = none → (out' i).throws = true) ∧
      (∀ i, InB d i → Visited d out' i → ∀ m', P i m' → cutAt c g (cmSum d i) (pos i) m' = (out' i).res) ∧
      ((c = none ∧ out' = out) ∨ (Alarm Sch ∧ ∃ i, InB d i ∧ out' = stopAt i out)) := by
  cases c with
  | none =>
    refine ⟨out, hnone, ?_, .inl ⟨rfl, rfl⟩⟩
    intro i hi hv m' hm
    simp only [cutAt, reduceCtorEq, if_false]
    exact hg i hi hv m' hm
  | some j =>
    obtain ⟨_, hj, ha⟩ := hc j rfl
    obtain ⟨i, hi, rfl, _⟩ := rank_exists (d := d) (k := j) (by omega)
    refine ⟨stopAt i out, ?_, ?_, .inr ⟨ha, i, hi, rfl⟩⟩
    · intro k hk
      unfold stopAt
      split
      · intro _; rfl
      · exact hnone k hk
    · intro k hk hv m' hm
      unfold stopAt
      by_cases hki : k = i
      · subst hki
        simp only [cutAt, if_true]; rfl
      · have hne : ¬ (some (cmSum d i) = some (cmSum d k)) := by
          intro h
          exact hki (rank_inj hk hi (Option.some.inj h).symm)
        simp only [cutAt, if_neg hne, if_neg hki]
        refine hg k hk ?_ m' hm
        intro l hl hb
        have := hv l hl hb
        unfold stopAt at this
        split at this
        · cases this
        · exact this

theorem stopAt_thrown {d : List Nat} {out : List Nat → AtElt α} {i : List Nat} (hi : InB d i) : Thrown d (stopAt i out) := ⟨i, hi, by simp [stopAt]⟩

/-- `x = e` over the own cells of `x`. -/
theorem flat_cells (H : HoldsStore w A) {x : Nat} {a : AVal α} (ha : A x = some a) {c : Arr} (h1 : w.env x = some c) (h2 : c.ext = a.ext)
    {d : List Nat} (hd : d ≠ []) (hsz : prod a.ext = prod d) {f : List Nat → Option α} {g : Nat → Nat → Mem α → Res (α × Bool)}
    (hg : ∀ i, InB d i → Visited d (fun i => evaluated (f i)) i → ∀ m1, (∀ q, (∀ j, InB d j → Before d j i → q ≠ (arrayView c.base d).pos j) → m1 q = w.mem q) →
      g (cmSum d i) ((arrayView c.base d).pos i) m1 = (evaluated (f i)).res) (k : Nat) :
    ∃ m' t, stopLoop g 0 ((List.range (prod d)).map (c.base + ·)) w.mem = .ok (m', t) ∧ (t = true ↔ ∃ i, InB d i ∧ f i = none) ∧
      (∀ A', (∀ i, InB d i → f i ≠ none) → Becomes A x d f A' → HoldsStore (w.bind m' x (some ⟨c.base, d⟩)) A') ∧
      ∀ A', Halfway A x d f A' → HoldsStore ⟨m', w.env, k⟩ A' := by
  have hsz' : prod c.ext = prod d := by rw [h2]; exact hsz
  obtain ⟨hane, c0, q1, _, h6⟩ := H.arr x a ha
  rw [h1] at q1; cases q1
  have hcov : ∀ q, Covers (cells c) q ↔ Covers (arrayView c.base d) q := by
    intro q; rw [arrayView_covers, arrayView_covers, hsz']
  have hal' : Alive w.mem (arrayView c.base d) := by
    intro i hi
    obtain ⟨j, hj, he⟩ := (hcov ((arrayView c.base d).pos i)).2 ⟨i, hi, rfl⟩
    rw [← he]; exact alive_cells H ha h1 j hj
  obtain ⟨m', t, e1, e2, e3, e4, e5⟩ := walk_until (v := arrayView c.base d) (m := w.mem) (arrayView_distinct _ _) hal'
    (out := fun i => evaluated (f i)) (fun _ _ => evaluated_none) (g := g) hg
  have hvis : ∀ i, Visited d (fun i => evaluated (f i)) i ↔ ∀ j, InB d j → Before d j i → f j ≠ none := by
    intro i
    unfold Visited
    constructor <;> intro h j hj hb
    · intro hn; have := h j hj hb; simp [hn, evaluated] at this
    · have := h j hj hb
      cases hv : f j with
      | none => exact (this hv).elim
      | some y => simp [hv, evaluated]
  rw [array_enum] at e1
  refine ⟨m', t, e1, ?_, ?_, ?_⟩
  · rw [e2]
    constructor
    · rintro ⟨i, hi, hth⟩
      refine ⟨i, hi, ?_⟩
      cases hv : f i with
      | none => rfl
      | some y => simp [hv, evaluated] at hth
    · rintro ⟨i, hi, hn⟩
      exact ⟨i, hi, by simp [hn, evaluated]⟩
  · intro A' hdef w2
    have hc : ∀ c', w.env x = some c' → c' = c := by intro c' h; rw [h1] at h; cases h; rfl
    refine holds_replace H hd rfl (f := f) ?_ ?_ ?_ ?_ w2
    · intro i hi
      obtain ⟨z, hz⟩ := Option.ne_none_iff_exists'.1 (hdef i hi)
      rw [hz]
      exact e3 i hi ((hvis i).2 fun j hj _ => hdef j hj) z (by simp [hz, evaluated])
    · intro q hq
      by_cases hcq : Covers (arrayView c.base d) q
      · exact .inr hcq
      · have hq : m' q ≠ none := hq
        rw [e5 q hcq] at hq
        exact .inl ⟨hq, fun c' e => by rw [hc c' e]; exact fun h => hcq ((hcov q).1 h)⟩
    · intro q hq hnn
      exact e5 q fun h => hnn c h1 ((hcov q).2 h)
    · intro q hq
      exact .inl ⟨c, h1, (hcov q).2 hq⟩
  · intro A' w2
    obtain ⟨v1, a1, a', v2, v3, v4, v5⟩ := w2
    rw [ha] at v2; cases v2
    have hch : Chain a.ext [] ⟨a.ext, id⟩ := ⟨trivial, by simp [typeOf], rfl⟩
    refine holds_write H ha h1 h2 hch (f := fun k => some (a'.elt k)) ?_ (by simp) ?_
      ⟨v1, a, a', ⟨a.ext, id⟩, ha, v3, rfl, v4, fun _ _ => rfl, fun j hj hh => (hh ⟨j, hj, rfl⟩).elim⟩
    · intro k hk
      have hk : InB a.ext k := hk
      obtain ⟨i, hi, hik, _⟩ := rank_exists (d := d) (k := cmSum a.ext k) (by rw [← hsz]; exact cmSum_lt hk)
      show m' (c.base + cmSum a.ext k) = _
      obtain ⟨u1, u2⟩ := v5 i k hi hk hik
      have hpos : (arrayView c.base d).pos i = c.base + cmSum a.ext k := by simp only [arrayView, hik]
      rw [← hpos]
      by_cases hb : ∃ j, InB d j ∧ cmSum d j ≤ cmSum d i ∧ f j = none
      · rw [u2 hb, e4 i hi, hpos]
        · have := h6 k hk
          simp only [cells, arrayView, h2] at this
          exact this
        · intro hvi
          obtain ⟨j, hj, hle, hjn⟩ := hb
          rcases Nat.lt_or_eq_of_le hle with hlt | heq
          · exact ((hvis i).1 hvi j hj hlt hjn).elim
          · have := rank_inj hj hi heq
            subst this
            simp [hjn, evaluated]
      · have hall : ∀ j, InB d j → cmSum d j ≤ cmSum d i → f j ≠ none := fun j hj hle hjn => hb ⟨j, hj, hle, hjn⟩
        have hval := u1 hall
        exact e3 i hi ((hvis i).2 fun j hj hlt => hall j hj (Nat.le_of_lt hlt)) _ (by simp [hval, evaluated])
    · intro q hq
      apply e5
      intro hcq
      apply hq
      obtain ⟨k, hk, he⟩ := (hcov q).2 hcq
      exact ⟨k, by rw [← h2]; exact hk, by rw [← he]; simp [cells, arrayView, IView.toA, h2]⟩

end

section
variable {α : Type} {W : BWorld α} {S : MStore α} {lost : List Nat}

/-! ### New states -/

/-- Only elements have changed. -/
theorem bholds_wrote (H : BHolds W S lost) {m' : Mem α} {A' : AStore α} {k : Nat} (h : HoldsStore ⟨m', (W.flat Arith.exact).env, k⟩ A')
    (hn : ∀ z, A' z = none ↔ S.live z = none) (ck : Nat) :
    BHolds { W with pool := ⟨m', W.pool.blocks, W.pool.ruined, ck⟩ } ⟨A', S.moved⟩ lost :=
  bholds_of (W := { W with pool := ⟨m', W.pool.blocks, W.pool.ruined, ck⟩ }) (S := ⟨A', S.moved⟩) (holds_same h rfl rfl)
    (show Ledger W.pool.blocks W.env lost from bholds_ledger H)
    (fun x d hx => by
      obtain ⟨h1, h2⟩ := H.moved x d hx
      exact ⟨(hn x).2 h1, h2⟩)
    (fun x hx => H.out x ⟨(hn x).1 hx.1, hx.2⟩) H.ruined

theorem bholds_clock (H : BHolds W S lost) (ck : Nat) : BHolds { W with pool := ⟨W.pool.mem, W.pool.blocks, W.pool.ruined, ck⟩ } S lost :=
  bholds_wrote H (k := 0) (bholds_flat H) (fun _ => Iff.rfl) ck

/-- A block has been lost. -/
theorem bholds_leak (H : BHolds W S lost) {b n : Nat} (hf : Fresh W.pool.blocks b n) (ck : Nat) :
    BHolds { W with pool := ⟨W.pool.mem, (b, n) :: W.pool.blocks, W.pool.ruined, ck⟩ } S (b :: lost) :=
  bholds_of (W := { W with pool := ⟨W.pool.mem, (b, n) :: W.pool.blocks, W.pool.ruined, ck⟩ }) (holds_same (bholds_flat H) rfl rfl)
    (show Ledger ((b, n) :: W.pool.blocks) W.env (b :: lost) from ledger_leak (bholds_ledger H) hf) H.moved H.out H.ruined

/-- `x` is another array. -/
theorem flat_put {p : Pool α} {env : Nat → Option Own} {sc : List (List Nat)} {x : Nat} {q : Option Nat} {d : List Nat} (hq : q = none → prod d = 0) :
    (BWorld.flat Arith.exact ⟨p, putEnv env x (some ⟨q, d⟩), sc⟩).env =
      fun y => if y = x then some ⟨q.getD 0, d⟩ else (BWorld.flat Arith.exact ⟨p, env, sc⟩).env y := by
  funext y
  by_cases hy : y = x
  · subst hy
    rw [if_pos rfl]
    exact flat_env (W := ⟨p, putEnv env y (some ⟨q, d⟩), sc⟩) (put_at _ _ _) hq
  · rw [if_neg hy]
    simp only [BWorld.flat, put_other env hy]

/-- The moved-from arrays without `x`. -/
def unmove (M : Nat → Option (List Nat)) (x : Nat) : Nat → Option (List Nat) := fun z => if z = x then none else M z

theorem unmove_same {M : Nat → Option (List Nat)} {x : Nat} (h : M x = none) : unmove M x = M := by
  funext z; unfold unmove; split
  · next hz => rw [hz, h]
  · rfl

/-- `x` has become an array, with or without a block; nothing else has changed but memory. -/
theorem bholds_became (H : BHolds W S lost) {m' : Mem α} {bl' : List (Nat × Nat)} {x : Nat} {q : Option Nat} {d : List Nat} (hq : q = none → prod d = 0)
    (hd : d ≠ []) {k : Nat} {A' : AStore α}
    (h : HoldsStore ⟨m', (fun y => if y = x then some ⟨q.getD 0, d⟩ else (W.flat Arith.exact).env y), k⟩ A')
    (hl : Ledger bl' (putEnv W.env x (some ⟨q, d⟩)) lost) (ho : ∀ z, z ≠ x → A' z = S.live z) (ck : Nat) :
    BHolds ⟨⟨m', bl', W.pool.ruined, ck⟩, putEnv W.env x (some ⟨q, d⟩), W.scopes⟩ ⟨A', unmove S.moved x⟩ lost := by
  refine bholds_of (S := ⟨A', unmove S.moved x⟩) (holds_same h rfl (flat_put hq)) hl ?_ ?_ H.ruined
  · intro z e hz
    have hzx : z ≠ x := by
      rintro rfl
      simp [unmove] at hz
    simp only [unmove, if_neg hzx] at hz
    obtain ⟨h1, h2, h3, h4⟩ := H.moved z e hz
    exact ⟨by show A' z = none; rw [ho z hzx]; exact h1, h2, h3, by show putEnv _ _ _ _ = _; rw [put_other _ hzx]; exact h4⟩
  · rintro z ⟨h1, h2⟩
    have hzx : z ≠ x := by
      rintro rfl
      have := h.out z h1
      simp at this
    show putEnv _ _ _ _ = _
    rw [put_other _ hzx]
    refine H.out z ⟨by rw [← ho z hzx]; exact h1, ?_⟩
    simpa [unmove, hzx] using h2

/-- A new array, whose name was not in scope or moved from. -/
theorem bholds_made (H : BHolds W S lost) {x : Nat} (hx : S.live x = none) {d : List Nat} (hd : d ≠ []) {b : Nat} (hf : Fresh W.pool.blocks b (prod d))
    {ys : List α} (hl : ys.length = prod d) {A' : AStore α} (hb : Becomes S.live x d (fun i => ys[cmSum d i]?) A') (ck : Nat) :
    BHolds ⟨⟨W.pool.mem.setMany b ys, (b, prod d) :: W.pool.blocks, W.pool.ruined, ck⟩, putEnv W.env x (some ⟨some b, d⟩), W.scopes⟩
      ⟨A', unmove S.moved x⟩ lost := by
  obtain ⟨r, g1, g2⟩ := newFrom_holds (bholds_flat H) hx hd (l := ys) (by omega) (fresh := b) (fresh_none hf (inBlocks_of H))
  rw [newFrom, prodL_exact, if_neg (by omega), List.take_of_length_le (by omega)] at g1
  cases g1
  refine bholds_became H (q := some b) (by simp) hd (k := 0) (holds_same (g2 A' hb) rfl rfl) ?_ hb.1 ck
  refine ledger_add (bholds_ledger H) ?_ hf
  intro c e he
  cases hm : S.moved x with
  | none => rw [H.out x ⟨hx, hm⟩] at he; cases he
  | some e' => rw [(H.moved x e' hm).2.2.2] at he; cases he

/-- A new block for `x`, and the old one is freed. -/
theorem bholds_replaced (H : BHolds W S lost) {x : Nat} {a : AVal α} (ha : S.live x = some a) {p : Option Nat} (he : W.env x = some ⟨p, a.ext⟩)
    (hp : p = none → prod a.ext = 0) {d : List Nat} (hd : d ≠ []) {b : Nat} (hf : Fresh W.pool.blocks b (prod d)) {ys : List α} (hl : ys.length = prod d) :
    ∃ m' bl', (∀ ck, clearB Arith.exact ⟨p, a.ext⟩ ⟨W.pool.mem.setMany b ys, (b, prod d) :: W.pool.blocks, W.pool.ruined, ck⟩ =
        .ok () ⟨m', bl', W.pool.ruined, ck⟩) ∧
      ∀ A', Becomes S.live x d (fun i => ys[cmSum d i]?) A' → ∀ ck,
        BHolds ⟨⟨m', bl', W.pool.ruined, ck⟩, putEnv W.env x (some ⟨some b, d⟩), W.scopes⟩ ⟨A', S.moved⟩ lost := by
  have hF := bholds_flat H
  have hfn := fresh_none hf (inBlocks_of H)
  have hflat := flat_env he hp
  have hrep : ∀ A', Becomes S.live x d (fun i => ys[cmSum d i]?) A' → _ := fun A' hb => replaced_holds hF hd hl hfn ha hflat hb
  have hmx : S.moved x = none := bholds_live_moved H (by rw [ha]; simp)
  cases p with
  | none =>
    refine ⟨_, _, fun ck => rfl, fun A' hb ck => ?_⟩
    rw [← unmove_same hmx]
    refine bholds_became H (q := some b) (by simp) hd (k := 0) (holds_same (hrep A' hb) ?_ rfl) ?_ hb.1 ck
    · show W.pool.mem.setMany b ys = (W.pool.mem.setMany b ys).free 0 (prod a.ext)
      rw [hp rfl]
      funext q; unfold Mem.free; rw [if_neg (by omega)]
    · refine ledger_add (bholds_ledger H) ?_ hf
      rw [he]; exact noBlock_null _
  | some b0 =>
    have L := ledger_leak (bholds_ledger H) hf
    have hown := H.own x b0 a.ext he
    refine ⟨_, _, fun ck => clearB_ok (List.mem_cons_of_mem _ hown) L.bases ?_ _ _, fun A' hb ck => ?_⟩
    · intro i hi hn
      obtain ⟨j, hj, hjs, _⟩ := rank_exists hi
      have hal := alive_cells hF ha hflat j hj
      have hpos : (cells ⟨(some b0).getD 0, a.ext⟩).pos j = b0 + i := by simp only [cells, arrayView, hjs, Option.getD_some]
      rw [hpos] at hal
      rw [setMany_out] at hn
      · exact hal hn
      · intro h
        have := (hf _ hown).2
        simp only at this
        omega
    · rw [← unmove_same hmx]
      exact bholds_became H (q := some b) (by simp) hd (k := 0) (holds_same (hrep A' hb) rfl rfl) (ledger_replace (bholds_ledger H) he hf) hb.1 ck

/-! ### New arrays -/

/-- The constructors, with the values given by a function of the multi-index. -/
theorem newB_vals (H : BHolds W S lost) {T : Nat → Bool} {alloc : Nat → List (Nat × Nat) → Nat → Option Nat} (hal : GoodBlocks alloc) {nx : Bool} {d : List Nat}
    {src : Nat → Mem α → Res α} {f : List Nat → Option α}
    (hsrc : ∀ i, InB d i → ∀ m', (∀ q, W.pool.mem q ≠ none → m' q = W.pool.mem q) → src (cmSum d i) m' = called (f i)) :
    (∃ b ys ck', Fresh W.pool.blocks b (prod d) ∧ ys.length = prod d ∧ (∀ i, InB d i → f i = ys[cmSum d i]?) ∧ (∀ i, InB d i → f i ≠ none) ∧
      newB Arith.exact T nx alloc d src W.pool = .ok ⟨some b, d⟩ ⟨W.pool.mem.setMany b ys, (b, prod d) :: W.pool.blocks, W.pool.ruined, ck'⟩) ∨
    (∃ ck', newB Arith.exact T nx alloc d src W.pool = .exn ⟨W.pool.mem, W.pool.blocks, W.pool.ruined, ck'⟩ ∧
      ((nx = false ∧ ∃ i, InB d i ∧ f i = none) ∨ MayFail T alloc)) ∨
    (newB Arith.exact T nx alloc d src W.pool = .fail .terminate ∧ nx = true ∧ ∃ i, InB d i ∧ f i = none) := by
  let V : Nat → Option α := fun j => ((multiIdx d)[j]?).bind f
  have hV : ∀ i, InB d i → V (cmSum d i) = f i := by
    intro i hi
    have := multiIdx_getElem? hi
    rw [cmPos_eq_sum (inB_length hi)] at this
    simp only [V, this, Option.bind_some]
  have hex : (∃ j, j < prod d ∧ V j = none) → ∃ i, InB d i ∧ f i = none := by
    rintro ⟨j, hj, hn⟩
    obtain ⟨i, hi, rfl, _⟩ := rank_exists hj
    exact ⟨i, hi, by rw [← hV i hi]; exact hn⟩
  have := newB_cases (S := T) hal (nx := nx) (ext := d) (src := src) (V := V) W.pool.ruined W.pool.clock (inBlocks_of H) (by
    intro j hj m' hm
    obtain ⟨i, hi, rfl, _⟩ := rank_exists hj
    rw [hV i hi]; exact hsrc i hi m' hm)
  rcases this with ⟨b, ys, ck', h1, h2, h3, h4⟩ | ⟨ck', h1, h2⟩ | ⟨h1, h2, h3⟩
  · refine .inl ⟨b, ys, ck', h1, h2, fun i hi => by rw [← hV i hi]; exact h3 _ (cmSum_lt hi), fun i hi hn => ?_, h4⟩
    rw [← hV i hi, h3 _ (cmSum_lt hi)] at hn
    have := List.getElem?_eq_none_iff.1 hn
    have := cmSum_lt hi
    omega
  · exact .inr (.inl ⟨ck', h1, h2.imp (fun h => ⟨h.1, hex h.2⟩) id⟩)
  · exact .inr (.inr ⟨h1, h2, hex h3⟩)

/-- The source of the values does not read what has just been constructed. -/
theorem gets_src (H : BHolds W S lost) {d : List Nat} {e : FEx α} {src : FSrc α} (hg : Gets (W.flat Arith.exact) S.live d e src) :
    ∀ i, InB d i → ∀ m', (∀ q, W.pool.mem q ≠ none → m' q = W.pool.mem q) → src.it.deref m' (cmSum d i) = called (fexVal S.live e i) := by
  intro i hi m' hm
  refine hg.deref m' i hi ?_
  rintro x k p _ ⟨a, c, h1, h2, h3, h4, rfl⟩
  apply hm
  obtain ⟨_, c', k1, k2, k3⟩ := (bholds_flat H).arr x a h1
  rw [h2] at k1; cases k1
  have := k3 k h4
  simp only [cells, arrayView, h3] at this
  have this : W.pool.mem (c.base + cmSum a.ext k) = _ := this
  rw [this]; simp

theorem usable_ok (H : BHolds W S lost) {xs : List Nat} (h : ∀ x ∈ xs, S.live x ≠ none) : W.usable Arith.exact xs = .ok () := by
  unfold BWorld.usable
  rw [if_neg]
  rw [Bool.not_eq_true, List.any_eq_false]
  intro x hx
  obtain ⟨a, ha⟩ := Option.ne_none_iff_exists'.1 (h x hx)
  obtain ⟨p, he, hp⟩ := bholds_env H ha
  rw [he]
  simp only [Own.hollow, prodL_exact, Bool.and_eq_true, Option.isNone_iff_eq_none, bne_iff_ne, ne_eq, not_and, Decidable.not_not]
  exact hp

end
end Jules

import Verif.Lemmas.BlockThrowsProgs
/-
Lemmas for C90: programs in builds where failed checks throw.
-/
namespace Jules
open Spec Props

section
variable {α β : Type} {W : BWorld α} {S S' : MStore α} {lost : List Nat} {T : Nat → Bool} {alloc : Nat → List (Nat × Nat) → Nat → Option Nat} {nx : Bool} {U Q : Prop}

/-! ### One statement -/

/-- How a statement ends: as in a build where failed checks are fatal, or with an exception that leaves all as it was, or `std::terminate`. -/
def SafeOutT (S : MStore α) (lost : List Nat) (s : XStmt α) (Γ' : Ctx) (nx : Bool) (f : List Nat) (fs : List (List Nat)) : Res (BWorld α × Bool) → Prop
  | .ok r => SafeOut S lost s Γ' nx f fs (.ok r)
  | .error e => e = .terminate ∧ (nx = true ∨ XUncatchable S s)

theorem xstepT_fine [Nonempty α] (H : BHolds W S lost) (hal : GoodBlocks alloc) {s : XStmt α} {Γ' : Ctx} (hc : xcheck (sctx S) s = some Γ') (hp : XProvided s)
    (hd : ∀ x, S.moved x ≠ none → ¬ XMisuses x s) {f : List Nat} {fs : List (List Nat)} (hf : W.scopes = f :: fs) :
    SafeOutT S lost s Γ' nx f fs (W.stepT Arith.exactThrows nx T alloc s) := by
  have h := xstep_fine (T := T) (nx := nx) H hal hc hp hd hf
  rcases relB_step (T := T) (nx := nx) H hal hc hp hd with ⟨e, hn⟩ | ⟨_, ⟨ck, e⟩ | ⟨e, hu⟩⟩
  · rw [e]
    cases hr : W.step Arith.exact true nx T alloc s with
    | ok r => rw [hr] at h; exact h
    | error f =>
      rw [hr] at h hn
      rcases h with rfl | ⟨h1, h2⟩
      · exact (hn rfl).elim
      · exact ⟨h1, .inl h2⟩
  · rw [e]
    exact ⟨hf, S, lost, bholds_clock H ck, rfl, fun z hz => hz, fun _ _ => ⟨rfl, rfl⟩, .inl rfl⟩
  · rw [e]; exact ⟨rfl, .inr hu⟩

/-! ### Reading -/

theorem asserting_ok {γ δ : Type} (b : γ) (k : γ → Res (BWorld α × δ)) (out : δ) : W.asserting (.ok b) k out = k b := rfl

theorem asserting_throw {γ δ : Type} (k : γ → Res (BWorld α × δ)) (out : δ) : W.asserting (.error .assert) k out = .ok (W, out) := rfl

theorem good_cautious (H : BHolds W S lost) (h : NoFlatS S) {x : Nat} {k : List Ix} (he : ¬ EmptySel k) : Good (W.flat Arith.exact) x k := by
  refine .inr ⟨he, fun c hc hf => ?_⟩
  obtain ⟨a, ha, hce⟩ := flat_live H hc
  exact h x a ha (hce ▸ hf)

theorem read_cases (H : BHolds W S lost) {s : Sc α} (he : scTyped (sctx S) s = true) (hu : ∀ z ∈ s.uses, S.moved z = none) (hs : ScSteps s)
    (hU : ¬ U → AllGood W (scChains s)) :
    (∃ c, s.eval Arith.exactThrows true (W.flat Arith.exactThrows) = .ok c ∧ ∀ m', Keeps W.pool.mem m' → ∃ v, c.get m' = .ok v) ∨
      s.eval Arith.exactThrows true (W.flat Arith.exactThrows) = .error .assert ∨
      s.eval Arith.exactThrows true (W.flat Arith.exactThrows) = .error .terminate ∧ U := by
  rcases tw_scal H hU with ⟨e, _⟩ | ⟨_, e, h⟩
  · rw [e]
    rcases sc_cases H he hu hs with h | h
    · exact .inl h
    · exact .inr (.inl h)
  · exact .inr (.inr ⟨e, h⟩)

theorem elems_cases (H : BHolds W S lost) {e : FEx α} (he : (exOrder (sctx S) (shapeE e)).isSome) (hu : ∀ z ∈ e.uses, S.moved z = none)
    (hs : ExSteps (shapeE e)) (hU : ¬ U → AllGood W (exChains (shapeE e))) :
    (∃ src, e.eval Arith.exactThrows true (W.flat Arith.exactThrows) = .ok src ∧ FGood W.pool.mem src) ∨
      e.eval Arith.exactThrows true (W.flat Arith.exactThrows) = .error .assert ∨
      e.eval Arith.exactThrows true (W.flat Arith.exactThrows) = .error .terminate ∧ U := by
  rcases tw_src H hU with ⟨e', _⟩ | ⟨_, e', h⟩
  · rw [e']
    rcases src_cases H he hu hs with ⟨src, h1, h2, _⟩ | h
    · exact .inl ⟨src, h1, h2⟩
    · exact .inr (.inl h)
  · exact .inr (.inr ⟨e', h⟩)

theorem noFlat_left {P : Nat → Prop} {S₁ S₂ : MStore α} (hL : Left P S₁ S₂) (h : NoFlatS S₁) : NoFlatS S₂ := by
  intro x a ha
  by_cases hp : P x
  · rw [(hL.1 x hp).1] at ha; exact h x a ha
  · rw [(hL.2 x hp).1] at ha; cases ha

/-! ### Programs -/

/-- How a program ends. -/
def TRuns (Q : Prop) (exit : Ctx → Prop) (g : Nat → Prop) (S : MStore α) (lost : List Nat) (p : Body α β) (nx : Bool) (f : List Nat) (fs : List (List Nat)) :
    Res (BWorld α × Option β) → Prop
  | .ok r => ∃ S' lost' ns, BHolds r.1 S' lost' ∧ r.1.scopes = (ns ++ f) :: fs ∧ Adds S S' ns ∧ (∀ x, InScope S x → sctx S' x = sctx S x) ∧
      (r.2.isSome → exit (sctx S')) ∧ (∀ z, S'.moved z ≠ none → goneAt r.2.isNone g p z) ∧ lost.length ≤ lost'.length ∧
      (NoSet p → lost'.length = lost.length) ∧ (Q → NoFlatS S')
  | .error e => e = .terminate ∧ (nx = true ∨ ¬ Q)

/-- The rest of a program. -/
theorem truns_then {exit : Ctx → Prop} {g g' : Nat → Prop} {S₁ : MStore α} {lost₁ : List Nat} {p q : Body α β} {f f' : List Nat} {fs : List (List Nat)}
    {r : Res (BWorld α × Option β)} (h : TRuns Q exit g' S₁ lost₁ q nx (f' ++ f) fs r) (hA : Adds S S₁ f') (ho : ∀ x, InScope S x → sctx S₁ x = sctx S x)
    (hg : ∀ t z, goneAt t g' q z → goneAt t g p z) (hl : lost.length ≤ lost₁.length) (hn : NoSet p → NoSet q ∧ lost₁.length = lost.length) :
    TRuns Q exit g S lost p nx f fs r := by
  cases r with
  | error e => exact h
  | ok r =>
    obtain ⟨S', lost', ns, h1, h2, h3, h4, h5, h6, h7, h8, h9⟩ := h
    refine ⟨S', lost', ns ++ f', h1, by rw [h2, List.append_assoc], adds_trans hA h3, ?_, h5, fun z hz => hg _ z (h6 z hz), Nat.le_trans hl h7, ?_, h9⟩
    · intro x hx
      rw [h4 x ((hA.scope x).2 (.inl hx)), ho x hx]
    · intro hp
      rw [h8 (hn hp).1, (hn hp).2]

/-- A program as the body of a block. -/
theorem tinner {exit : Ctx → Prop} {g : Nat → Prop} {body : Body α β} {f : List Nat} {fs : List (List Nat)}
    (h : TRuns Q exit g S lost body nx [] W.scopes (W.enter.execT Arith.exactThrows nx T alloc body)) (hf : W.scopes = f :: fs) :
    (∃ W₁ r S₁ lost₁ ns, W.enter.execT Arith.exactThrows nx T alloc body = .ok (W₁, r) ∧ BHolds W₁ S₁ lost₁ ∧ W₁.scopes = ns :: W.scopes ∧ Adds S S₁ ns ∧
      (∀ x, InScope S x → sctx S₁ x = sctx S x) ∧ (r.isSome → exit (sctx S₁)) ∧ (∀ z, S₁.moved z ≠ none → goneAt r.isNone g body z) ∧
      lost.length ≤ lost₁.length ∧ (NoSet body → lost₁.length = lost.length) ∧ (Q → NoFlatS S₁) ∧
      ∃ S₂ W₂, W₁.leave Arith.exact true nx T alloc = .ok W₂ ∧ BHolds W₂ S₂ lost₁ ∧ W₂.scopes = f :: fs ∧ Adds S S₂ [] ∧ sctx S₂ = sctx S ∧
        (∀ z, S₂.moved z ≠ none → goneAt r.isNone g body z) ∧ (Q → NoFlatS S₂)) ∨
    (∃ e, W.enter.execT Arith.exactThrows nx T alloc body = .error e ∧ (e = .terminate ∧ (nx = true ∨ ¬ Q))) := by
  cases hr : W.enter.execT Arith.exactThrows nx T alloc body with
  | error e => rw [hr] at h; exact .inr ⟨e, rfl, h⟩
  | ok q =>
    rw [hr] at h
    obtain ⟨W₁, r⟩ := q
    obtain ⟨S₁, lost₁, ns, h1, h2, h3, h4, h5, h6, h7, h8, h9⟩ := h
    rw [List.append_nil] at h2
    obtain ⟨S₂, hL⟩ := left_exists (InScope S) S₁
    obtain ⟨W₂, k1, k2, k3⟩ := bleave_ok (T := T) h1 h3 h2 hL true nx (alloc := alloc)
    exact .inl ⟨W₁, r, S₁, lost₁, ns, rfl, h1, h2, h3, h4, h5, h6, h7, h8, h9, S₂, W₂, k1, k2, k3.trans hf, adds_left h3 hL, sctx_left h4 hL,
      fun z hz => h6 z (moved_left hL hz), fun q => noFlat_left hL (h9 q)⟩

theorem truns [Nonempty α] {Q : Prop} (hal : GoodBlocks alloc) : ∀ (p : Body α β) {exit : Ctx → Prop} {g : Nat → Prop} {W : BWorld α}
    {S : MStore α} {lost : List Nat} {f : List Nat} {fs : List (List Nat)}, CompilesB exit (sctx S) p → ProvidedB p → NoUseGone g p → (∀ z, S.moved z ≠ none → g z) →
    BHolds W S lost → W.scopes = f :: fs → (Q → CautiousB p ∧ NoFlatS S) → TRuns Q exit g S lost p nx f fs (W.execT Arith.exactThrows nx T alloc p) := by
  intro p
  induction p with
  | ret b =>
    intro exit g W S lost f fs hc _ _ hg H hf hQ
    exact ⟨S, lost, [], H, hf, adds_nil fun _ => Iff.rfl, fun _ _ => rfl, fun _ => hc, fun z hz => ⟨rfl, hg z hz⟩, Nat.le_refl _, fun _ => rfl, fun q => (hQ q).2⟩
  | throw =>
    intro exit g W S lost f fs hc _ _ hg H hf hQ
    exact ⟨S, lost, [], H, hf, adds_nil fun _ => Iff.rfl, fun _ _ => rfl, nofun, fun z hz => ⟨rfl, hg z hz⟩, Nat.le_refl _, fun _ => rfl, fun q => (hQ q).2⟩
  | exec s k ih =>
    intro exit g W S lost f fs hc hp hd hg H hf hQ
    obtain ⟨Γ', hc1, hc2⟩ := hc
    have hs := xstepT_fine (T := T) (nx := nx) H hal hc1 hp.1 (fun x hx => hd.1 x (hg x hx)) hf
    have hnz : Q → KeepsNZ (W.stepT Arith.exactThrows nx T alloc s) := fun q =>
      knz_step H hal hc1 hp.1 (fun x hx => hd.1 x (hg x hx)) (noFlat_b H (hQ q).2) (hQ q).1.1
    simp only [BWorld.execT]
    cases hr : W.stepT Arith.exactThrows nx T alloc s with
    | error e =>
      rw [hr] at hs
      exact ⟨hs.1, hs.2.imp id fun hu q => cautious_catchable (hQ q).2 (hQ q).1.1 hu⟩
    | ok r =>
      rw [hr] at hs
      obtain ⟨W₁, t⟩ := r
      rw [res_ok_bind]
      obtain ⟨h1, S₁, lost₁, h2, h3, h4, h5, h6⟩ := hs
      have hnf : Q → NoFlatS S₁ := fun q => noFlat_s h2 (hnz q _ hr)
      have hset : NoSet (.exec s k) → ¬ IsSet s := by
        rintro ⟨n1, n2, _⟩ (⟨x, e, h⟩ | ⟨x, e, h⟩)
        · exact n1 x e h
        · exact n2 x e h
      cases t with
      | true =>
        have h3 : sctx S₁ = sctx S := h3
        refine ⟨S₁, lost₁, [], h2, h1, adds_nil fun x => by rw [inScope_sctx, inScope_sctx, h3], fun x _ => by rw [h3], nofun,
          fun z hz => .inl ⟨rfl, hg z (h4 z hz)⟩, ?_, ?_, hnf⟩
        · rcases h6 with h6 | ⟨_, _, h6⟩ <;> omega
        · intro hn
          rcases h6 with h6 | ⟨_, h6, _⟩
          · exact h6
          · exact (hset hn h6).elim
      | false =>
        have h3 : sctx S₁ = Γ' := h3
        have h6 : lost₁.length = lost.length := by
          rcases h6 with h6 | ⟨h6, _⟩
          · exact h6
          · cases h6
        obtain ⟨a1, a2⟩ := adds_check hc1 h3
        refine truns_then (g' := xgone g s) (ih (by rw [h3]; exact hc2) hp.2 hd.2 (fun z hz => xgone_mono hg (h4 z hz)) h2 h1 fun q => ⟨(hQ q).1.2, hnf q⟩) a1 a2 (fun t z hz => .inr hz)
          (by omega) (fun hn => ⟨hn.2.2, h6⟩)
  | read s k ih =>
    intro exit g W S lost f fs hc hp hd hg H hf hQ
    have hu : ∀ z ∈ s.uses, S.moved z = none := fun z hz => by
      by_contra hn; exact hd.1 z (hg z hn) (uses_sc hz)
    simp only [BWorld.execT, usable_throws, usable_safe H hu, res_ok_bind]
    rcases read_cases H hc.1 hu hp.1 (U := ¬ Q) (fun q p hp => good_cautious H (hQ (not_not.1 q)).2 ((hQ (not_not.1 q)).1.1 p hp)) with ⟨c, e1, e2⟩ | e1 | ⟨e1, hq⟩
    · rw [e1, asserting_ok]
      obtain ⟨v, hv⟩ := e2 _ (keeps_refl _)
      rcases scalarB_out (T := T) (p := W.pool) hv with q | ⟨q, _⟩
      · rw [q]
        exact truns_then (g' := g) (f' := []) (ih v (W := { W with pool := ⟨W.pool.mem, W.pool.blocks, W.pool.ruined, W.pool.clock + 1⟩ })
          (hc.2 v) (hp.2 v) (hd.2 v) hg (bholds_clock H _) hf fun q => ⟨(hQ q).1.2 v, (hQ q).2⟩) (adds_nil fun _ => Iff.rfl) (fun _ _ => rfl) (fun t z hz => .inr ⟨v, hz⟩) (Nat.le_refl _)
          (fun hn => ⟨hn v, rfl⟩)
      · rw [q]
        exact ⟨S, lost, [], bholds_clock H _, hf, adds_nil fun _ => Iff.rfl, fun _ _ => rfl, nofun, fun z hz => .inl ⟨rfl, hg z hz⟩, Nat.le_refl _, fun _ => rfl, fun q => (hQ q).2⟩
    · rw [e1, asserting_throw]
      exact ⟨S, lost, [], H, hf, adds_nil fun _ => Iff.rfl, fun _ _ => rfl, nofun, fun z hz => .inl ⟨rfl, hg z hz⟩, Nat.le_refl _, fun _ => rfl, fun q => (hQ q).2⟩
    · rw [e1]; exact ⟨rfl, .inr hq⟩
  | elements e k ih =>
    intro exit g W S lost f fs hc hp hd hg H hf hQ
    have hu : ∀ z ∈ e.uses, S.moved z = none := fun z hz => by
      by_contra hn
      rw [fex_uses] at hz
      exact hd.1 z (hg z hn) (uses_operand hz)
    simp only [BWorld.execT, usable_throws, usable_safe H hu, res_ok_bind]
    rcases elems_cases H hc.1 hu hp.1 (U := ¬ Q) (fun q p hp => good_cautious H (hQ (not_not.1 q)).2 ((hQ (not_not.1 q)).1.1 p hp)) with ⟨src, e1, e2⟩ | e1 | ⟨e1, hq⟩
    · rw [e1, asserting_ok]
      obtain ⟨ck, h⟩ := copiesB_out (T := T) (src := src) (m := W.pool.mem) (bl := W.pool.blocks) (ru := W.pool.ruined) (prod src.dims) 0 W.pool.clock (fun j _ hj => by
        obtain ⟨o, ho⟩ := flive_deref e2.2 (keeps_refl _) (show j < prod src.dims by omega)
        rw [ho]
        cases o with
        | none => exact .inr ⟨_, rfl⟩
        | some v => exact .inl ⟨v, rfl⟩)
      have hel : elementsB T src W.pool = copiesB T src 0 (prod src.dims) ⟨W.pool.mem, W.pool.blocks, W.pool.ruined, W.pool.clock⟩ := by
        unfold elementsB
        rw [flive_count e2.2]
      rw [← hel] at h
      rcases h with ⟨xs, q, _⟩ | ⟨q, _⟩
      · rw [q]
        exact truns_then (g' := g) (f' := []) (ih src.dims xs (W := { W with pool := ⟨W.pool.mem, W.pool.blocks, W.pool.ruined, ck⟩ })
          (hc.2 _ xs) (hp.2 _ xs) (hd.2 _ xs) hg (bholds_clock H _) hf fun q => ⟨(hQ q).1.2 _ xs, (hQ q).2⟩) (adds_nil fun _ => Iff.rfl) (fun _ _ => rfl) (fun t z hz => .inr ⟨_, xs, hz⟩) (Nat.le_refl _)
          (fun hn => ⟨hn _ xs, rfl⟩)
      · rw [q]
        exact ⟨S, lost, [], bholds_clock H _, hf, adds_nil fun _ => Iff.rfl, fun _ _ => rfl, nofun, fun z hz => .inl ⟨rfl, hg z hz⟩, Nat.le_refl _, fun _ => rfl, fun q => (hQ q).2⟩
    · rw [e1, asserting_throw]
      exact ⟨S, lost, [], H, hf, adds_nil fun _ => Iff.rfl, fun _ _ => rfl, nofun, fun z hz => .inl ⟨rfl, hg z hz⟩, Nat.le_refl _, fun _ => rfl, fun q => (hQ q).2⟩
    · rw [e1]; exact ⟨rfl, .inr hq⟩
  | block body k ih ih' =>
    intro exit g W S lost f fs hc hp hd hg H hf hQ
    simp only [BWorld.execT]
    rcases tinner (ih (W := W.enter) (f := []) (fs := W.scopes) hc.1 hp.1 hd.1 hg (bholds_scopes H rfl rfl) rfl fun q => ⟨(hQ q).1.1, (hQ q).2⟩) hf with
      ⟨W₁, r, S₁, lost₁, ns, e1, _, _, _, _, _, _, e7, e8, _, S₂, W₂, k1, k2, k3, k4, k5, k6, k7⟩ | ⟨e, e1, e2⟩
    · simp only [e1, res_ok_bind, leave_throws, k1]
      cases r with
      | none =>
        exact ⟨S₂, lost₁, [], k2, k3, k4, fun x _ => by rw [k5], nofun, fun z hz => .inl ⟨rfl, k6 z hz⟩, e7, fun hn => e8 hn.1, k7⟩
      | some b =>
        exact truns_then (g' := goneAt false g body) (f' := []) (ih' b (by rw [k5]; exact hc.2 b) (hp.2 b) (hd.2 b) k6 k2 k3 fun q => ⟨(hQ q).1.2 b, k7 q⟩) k4 (fun x _ => by rw [k5])
          (fun t z hz => .inr ⟨b, hz⟩) e7 (fun hn => ⟨hn.2 b, e8 hn.1⟩)
    · rw [e1]; exact e2
  | call x y body k ih ih' =>
    intro exit g W S lost f fs hc hp hd hg H hf hQ
    obtain ⟨hx, hy, n, hc1, hc2⟩ := hc
    simp only [BWorld.execT]
    rcases tinner (ih (W := W.enter) (f := []) (fs := W.scopes) hc1 hp.1 hd.1 hg (bholds_scopes H rfl rfl) rfl fun q => ⟨(hQ q).1.1, (hQ q).2⟩) hf with
      ⟨W₁, r, S₁, lost₁, ns, e1, e2, e3, e4, e5, e6, e6', e7, e8, e9, S₂, W₂, k1, k2, k3, k4, k5, k6, k7⟩ | ⟨e, e1, e2⟩
    · rw [e1, res_ok_bind]
      cases r with
      | none =>
        simp only [leave_throws, k1, res_ok_bind]
        exact ⟨S₂, lost₁, [], k2, k3, k4, fun x _ => by rw [k5], nofun, fun z hz => .inl ⟨rfl, k6 z hz⟩, e7, fun hn => e8 hn.1, k7⟩
      | some b =>
        obtain ⟨hy1, hx1⟩ := e6 rfl
        have hm : MLegal S₁ (.moveMake x y) := ⟨sctx_none hx1, n, order_sctx hy1⟩
        have hyx : y ≠ x := by rintro rfl; rw [hx1] at hy1; cases hy1
        obtain ⟨S₃, he⟩ := meffect_exists (fun x d hx => (e2.moved x d hx).1) hm
        obtain ⟨S₄, hL'⟩ := left_exists (fun z => InScope S z ∨ z = x) S₃
        obtain ⟨⟨W₃, W₄, i1, i2, i3, i4⟩, i5⟩ := bgive_ok (T := T) e2 e4 e3 (sctx_none hy) hm he hL' true nx (alloc := alloc)
        obtain ⟨d1, d2, d3⟩ := bdeclare (i4.trans hf) (some x)
        simp only [give_throws, leave_throws, i1, i2, res_ok_bind]
        obtain ⟨m1, m2, m3, _⟩ := he
        have hmid : ∀ z, InScope S z → S₄.live z = S₁.live z ∧ S₄.moved z = S₁.moved z := by
          intro z hz
          have hzx : z ≠ x := by rintro rfl; exact (inScope_sctx.1 hz) hx
          have hzy : z ≠ y := by rintro rfl; exact (inScope_sctx.1 hz) hy
          obtain ⟨q1, q2⟩ := hL'.1 z (.inl hz)
          obtain ⟨q3, q4⟩ := m1 z (by simp [hzx, hzy])
          exact ⟨q1.trans q3, q2.trans q4⟩
        have hSx : S₄.live x = S₁.live y ∧ S₄.moved x = S₁.moved y := by
          obtain ⟨q1, q2⟩ := hL'.1 x (.inr rfl)
          exact ⟨q1.trans m2, q2.trans m3⟩
        have hctx : sctx S₄ = (sctx S).upd x (some n) := by
          funext z
          show _ = if z = x then some n else sctx S z
          by_cases hzx : z = x
          · rw [if_pos hzx, hzx, sctx_eq hSx.1 hSx.2, hy1]
          · rw [if_neg hzx]
            by_cases hz : InScope S z
            · rw [sctx_eq (hmid z hz).1 (hmid z hz).2, e5 z hz]
            · have hu : Unused S z := not_not.1 hz
              have := hL'.2 z (by simp [hz, hzx])
              exact sctx_eq (this.1.trans hu.1.symm) (this.2.trans hu.2.symm)
        have hmv : ∀ z, S₄.moved z ≠ none → if z = x then goneAt false g body y else goneAt false g body z := by
          intro z hz
          by_cases hzx : z = x
          · subst hzx; rw [if_pos rfl]; exact e6' y (by rw [← hSx.2]; exact hz)
          · rw [if_neg hzx]
            by_cases hzs : InScope S z
            · exact e6' z (by rw [← (hmid z hzs).2]; exact hz)
            · exact (hz (hL'.2 z (by simp [hzs, hzx])).2).elim
        have hnf : Q → NoFlatS S₄ := by
          intro q z a hz
          by_cases hzx : z = x
          · subst hzx; rw [hSx.1] at hz; exact e9 q _ _ hz
          · by_cases hzs : InScope S z
            · rw [(hmid z hzs).1] at hz; exact e9 q _ _ hz
            · rw [(hL'.2 z (by simp [hzs, hzx])).1] at hz; cases hz
        refine truns_then (f' := [x]) (ih' b (by rw [hctx]; exact hc2 b) (hp.2 b) (hd.2 b) hmv (bholds_scopes i3 d2 d3) d1 fun q => ⟨(hQ q).1.2 b, hnf q⟩) i5 ?_ (fun t z hz => .inr ⟨b, hz⟩) e7
          (fun hn => ⟨hn.2 b, e8 hn.1⟩)
        intro z hz
        rw [sctx_eq (hmid z hz).1 (hmid z hz).2, e5 z hz]
    · rw [e1]; exact e2
  | attempt body handler k ih ihh ih' =>
    intro exit g W S lost f fs hc hp hd hg H hf hQ
    obtain ⟨hc1, hc2, hc3⟩ := hc
    obtain ⟨hp1, hp2, hp3⟩ := hp
    obtain ⟨hd1, hd2, hd3, hd4⟩ := hd
    simp only [BWorld.execT]
    rcases tinner (ih (W := W.enter) (f := []) (fs := W.scopes) hc1 hp1 hd1 hg (bholds_scopes H rfl rfl) rfl fun q => ⟨(hQ q).1.1, (hQ q).2⟩) hf with
      ⟨W₁, r, S₁, lost₁, ns, e1, _, _, _, _, _, _, e7, e8, _, S₂, W₂, k1, k2, k3, k4, k5, k6, k7⟩ | ⟨e, e1, e2⟩
    · simp only [e1, res_ok_bind, leave_throws, k1]
      cases r with
      | some b =>
        exact truns_then (g' := goneAt false g body) (f' := []) (ih' b (by rw [k5]; exact hc3 b) (hp3 b) (hd2 b) k6 k2 k3 fun q => ⟨(hQ q).1.2.2 b, k7 q⟩) k4 (fun x _ => by rw [k5])
          (fun t z hz => .inl ⟨b, hz⟩) e7 (fun hn => ⟨hn.2.2 b, e8 hn.1⟩)
      | none =>
        rcases tinner (ihh (W := W₂.enter) (f := []) (fs := W₂.scopes) (by rw [k5]; exact hc2) hp2 hd3 k6 (bholds_scopes k2 rfl rfl) rfl fun q => ⟨(hQ q).1.2.1, k7 q⟩) k3 with
          ⟨W₃, r, S₃, lost₃, ns₃, i1, _, _, _, _, _, _, i7, i8, _, S₄, W₄, l1, l2, l3, l4, l5, l6, l7⟩ | ⟨e, i1, i2⟩
        · simp only [i1, res_ok_bind, leave_throws, l1]
          have hadd : Adds S S₄ [] := by simpa using adds_trans k4 l4
          have hctx : sctx S₄ = sctx S := l5.trans k5
          cases r with
          | none =>
            exact ⟨S₄, lost₃, [], l2, l3, hadd, fun x _ => by rw [hctx], nofun, fun z hz => .inr (.inl ⟨rfl, l6 z hz⟩), by omega,
              fun hn => by rw [i8 hn.2.1, e8 hn.1], l7⟩
          | some b =>
            exact truns_then (g' := goneAt false (goneAt true g body) handler) (f' := []) (ih' b (by rw [hctx]; exact hc3 b) (hp3 b) (hd4 b) l6 l2 l3 fun q => ⟨(hQ q).1.2.2 b, l7 q⟩) hadd
              (fun x _ => by rw [hctx]) (fun t z hz => .inr (.inr ⟨b, hz⟩)) (by omega) (fun hn => ⟨hn.2.2 b, by rw [i8 hn.2.1, e8 hn.1]⟩)
        · simp only [i1]; exact i2
    · rw [e1]; exact e2

/-! ### Runs in which no check fails -/

/-- A failed check, or the same result. -/
def SameRun (r r' : Res γ) : Prop := r = .error .assert ∨ r' = r

theorem sameRun_bind {γ δ : Type} {r r' : Res γ} {k k' : γ → Res δ} (h : SameRun r r') (hk : ∀ b, r = .ok b → SameRun (k b) (k' b)) : SameRun (r >>= k) (r' >>= k') := by
  rcases h with rfl | rfl
  · exact .inl rfl
  · cases r' with
    | error e => exact .inr rfl
    | ok b => exact hk b rfl

theorem sameRun_asserting {γ δ : Type} {r r' : Res γ} {k k' : γ → Res (BWorld α × δ)} {out : δ} (h : SameRun r r') (hk : ∀ b, r = .ok b → SameRun (k b) (k' b)) :
    SameRun (r >>= k) (W.asserting r' k' out) := by
  rcases h with rfl | rfl
  · exact .inl rfl
  · cases r' with
    | error e =>
      by_cases he : e = .assert
      · subst he; exact .inl rfl
      · refine .inr ?_
        cases e <;> first | exact (he rfl).elim | rfl
    | ok b => exact hk b rfl

theorem same_runs [Nonempty α] (hal : GoodBlocks alloc) : ∀ (p : Body α β) {exit : Ctx → Prop} {g : Nat → Prop} {W : BWorld α}
    {S : MStore α} {lost : List Nat} {f : List Nat} {fs : List (List Nat)}, CompilesB exit (sctx S) p → ProvidedB p → NoUseGone g p → (∀ z, S.moved z ≠ none → g z) →
    BHolds W S lost → W.scopes = f :: fs → SameRun (W.exec Arith.exact true nx T alloc p) (W.execT Arith.exactThrows nx T alloc p) := by
  intro p
  induction p with
  | ret b => intro exit g W S lost f fs _ _ _ _ _ _; exact .inr rfl
  | throw => intro exit g W S lost f fs _ _ _ _ _ _; exact .inr rfl
  | exec s k ih =>
    intro exit g W S lost f fs hc hp hd hg H hf
    obtain ⟨Γ', hc1, hc2⟩ := hc
    have hs := xstep_fine (T := T) (nx := nx) H hal hc1 hp.1 (fun x hx => hd.1 x (hg x hx)) hf
    simp only [BWorld.exec, BWorld.execT]
    refine sameRun_bind ?_ ?_
    · rcases relB_step (T := T) (nx := nx) H hal hc1 hp.1 (fun x hx => hd.1 x (hg x hx)) with ⟨e, _⟩ | ⟨e, _⟩
      · exact .inr e
      · exact .inl e
    · rintro ⟨W₁, t⟩ hr
      rw [hr] at hs
      obtain ⟨h1, S₁, lost₁, h2, h3, h4, h5, h6⟩ := hs
      cases t with
      | true => exact .inr rfl
      | false =>
        have h3 : sctx S₁ = Γ' := h3
        exact ih (by rw [h3]; exact hc2) hp.2 hd.2 (fun z hz => xgone_mono hg (h4 z hz)) h2 h1
  | read s k ih =>
    intro exit g W S lost f fs hc hp hd hg H hf
    have hu : ∀ z ∈ s.uses, S.moved z = none := fun z hz => by
      by_contra hn; exact hd.1 z (hg z hn) (uses_sc hz)
    simp only [BWorld.exec, BWorld.execT, usable_throws, usable_safe H hu, res_ok_bind]
    have tw := tw_scal H (s := s) (U := True) (fun h => (h trivial).elim)
    refine sameRun_asserting (by rcases tw with ⟨e, _⟩ | ⟨e, _⟩; exacts [.inr e, .inl e]) ?_
    intro c hc'
    rcases sc_cases H hc.1 hu hp.1 with ⟨c', e1, e2⟩ | e1
    · rw [e1] at hc'; cases hc'
      obtain ⟨v, hv⟩ := e2 _ (keeps_refl _)
      rcases scalarB_out (T := T) (p := W.pool) hv with q | ⟨q, _⟩
      · rw [q]
        exact ih v (W := { W with pool := ⟨W.pool.mem, W.pool.blocks, W.pool.ruined, W.pool.clock + 1⟩ })
          (hc.2 v) (hp.2 v) (hd.2 v) hg (bholds_clock H _) hf
      · rw [q]; exact .inr rfl
    · rw [e1] at hc'; cases hc'
  | elements e k ih =>
    intro exit g W S lost f fs hc hp hd hg H hf
    have hu : ∀ z ∈ e.uses, S.moved z = none := fun z hz => by
      by_contra hn
      rw [fex_uses] at hz
      exact hd.1 z (hg z hn) (uses_operand hz)
    simp only [BWorld.exec, BWorld.execT, usable_throws, usable_safe H hu, res_ok_bind]
    have tw := tw_src H (e := e) (U := True) (fun h => (h trivial).elim)
    refine sameRun_asserting (by rcases tw with ⟨e, _⟩ | ⟨e, _⟩; exacts [.inr e, .inl e]) ?_
    intro src hs'
    rcases src_cases H hc.1 hu hp.1 with ⟨src', e1, e2, _⟩ | e1
    · rw [e1] at hs'; cases hs'
      obtain ⟨ck, h⟩ := copiesB_out (T := T) (src := src) (m := W.pool.mem) (bl := W.pool.blocks) (ru := W.pool.ruined) (prod src.dims) 0 W.pool.clock (fun j _ hj => by
        obtain ⟨o, ho⟩ := flive_deref e2.2 (keeps_refl _) (show j < prod src.dims by omega)
        rw [ho]
        cases o with
        | none => exact .inr ⟨_, rfl⟩
        | some v => exact .inl ⟨v, rfl⟩)
      have hel : elementsB T src W.pool = copiesB T src 0 (prod src.dims) ⟨W.pool.mem, W.pool.blocks, W.pool.ruined, W.pool.clock⟩ := by
        unfold elementsB
        rw [flive_count e2.2]
      rw [← hel] at h
      rcases h with ⟨xs, q, _⟩ | ⟨q, _⟩
      · rw [q]
        exact ih src.dims xs (W := { W with pool := ⟨W.pool.mem, W.pool.blocks, W.pool.ruined, ck⟩ })
          (hc.2 _ xs) (hp.2 _ xs) (hd.2 _ xs) hg (bholds_clock H _) hf
      · rw [q]; exact .inr rfl
    · rw [e1] at hs'; cases hs'
  | block body k ih ih' =>
    intro exit g W S lost f fs hc hp hd hg H hf
    simp only [BWorld.exec, BWorld.execT]
    have hin := ih (W := W.enter) (f := []) (fs := W.scopes) hc.1 hp.1 hd.1 hg (bholds_scopes H rfl rfl) rfl
    refine sameRun_bind hin ?_
    rcases sinner (T := T) (sruns (T := T) (nx := nx) hal body (W := W.enter) (f := []) (fs := W.scopes) hc.1 hp.1 hd.1 hg (bholds_scopes H rfl rfl) rfl) hf with
      ⟨W₁, r, S₁, lost₁, ns, e1, _, _, _, _, _, _, e7, e8, S₂, W₂, k1, k2, k3, k4, k5, k6⟩ | ⟨e, e1, e2⟩
    · intro q hq
      rw [e1] at hq; cases hq
      simp only [leave_throws, k1, res_ok_bind]
      cases r with
      | none => exact .inr rfl
      | some b => exact ih' b (by rw [k5]; exact hc.2 b) (hp.2 b) (hd.2 b) k6 k2 k3
    · intro q hq; rw [e1] at hq; cases hq
  | call x y body k ih ih' =>
    intro exit g W S lost f fs hc hp hd hg H hf
    obtain ⟨hx, hy, n, hc1, hc2⟩ := hc
    simp only [BWorld.exec, BWorld.execT]
    have hin := ih (W := W.enter) (f := []) (fs := W.scopes) hc1 hp.1 hd.1 hg (bholds_scopes H rfl rfl) rfl
    refine sameRun_bind hin ?_
    rcases sinner (T := T) (sruns (T := T) (nx := nx) hal body (W := W.enter) (f := []) (fs := W.scopes) hc1 hp.1 hd.1 hg (bholds_scopes H rfl rfl) rfl) hf with
      ⟨W₁, r, S₁, lost₁, ns, e1, e2, e3, e4, e5, e6, e6', e7, e8, S₂, W₂, k1, k2, k3, k4, k5, k6⟩ | ⟨e, e1, e2⟩
    · intro q hq
      rw [e1] at hq; cases hq
      cases r with
      | none => exact .inr rfl
      | some b =>
        obtain ⟨hy1, hx1⟩ := e6 rfl
        have hm : MLegal S₁ (.moveMake x y) := ⟨sctx_none hx1, n, order_sctx hy1⟩
        have hyx : y ≠ x := by rintro rfl; rw [hx1] at hy1; cases hy1
        obtain ⟨S₃, he⟩ := meffect_exists (fun x d hx => (e2.moved x d hx).1) hm
        obtain ⟨S₄, hL'⟩ := left_exists (fun z => InScope S z ∨ z = x) S₃
        obtain ⟨⟨W₃, W₄, i1, i2, i3, i4⟩, i5⟩ := bgive_ok (T := T) e2 e4 e3 (sctx_none hy) hm he hL' true nx (alloc := alloc)
        obtain ⟨d1, d2, d3⟩ := bdeclare (i4.trans hf) (some x)
        simp only [give_throws, leave_throws, i1, i2, res_ok_bind]
        obtain ⟨m1, m2, m3, _⟩ := he
        have hmid : ∀ z, InScope S z → S₄.live z = S₁.live z ∧ S₄.moved z = S₁.moved z := by
          intro z hz
          have hzx : z ≠ x := by rintro rfl; exact (inScope_sctx.1 hz) hx
          have hzy : z ≠ y := by rintro rfl; exact (inScope_sctx.1 hz) hy
          obtain ⟨q1, q2⟩ := hL'.1 z (.inl hz)
          obtain ⟨q3, q4⟩ := m1 z (by simp [hzx, hzy])
          exact ⟨q1.trans q3, q2.trans q4⟩
        have hSx : S₄.live x = S₁.live y ∧ S₄.moved x = S₁.moved y := by
          obtain ⟨q1, q2⟩ := hL'.1 x (.inr rfl)
          exact ⟨q1.trans m2, q2.trans m3⟩
        have hctx : sctx S₄ = (sctx S).upd x (some n) := by
          funext z
          show _ = if z = x then some n else sctx S z
          by_cases hzx : z = x
          · rw [if_pos hzx, hzx, sctx_eq hSx.1 hSx.2, hy1]
          · rw [if_neg hzx]
            by_cases hz : InScope S z
            · rw [sctx_eq (hmid z hz).1 (hmid z hz).2, e5 z hz]
            · have hu : Unused S z := not_not.1 hz
              have := hL'.2 z (by simp [hz, hzx])
              exact sctx_eq (this.1.trans hu.1.symm) (this.2.trans hu.2.symm)
        have hmv : ∀ z, S₄.moved z ≠ none → if z = x then goneAt false g body y else goneAt false g body z := by
          intro z hz
          by_cases hzx : z = x
          · subst hzx; rw [if_pos rfl]; exact e6' y (by rw [← hSx.2]; exact hz)
          · rw [if_neg hzx]
            by_cases hzs : InScope S z
            · exact e6' z (by rw [← (hmid z hzs).2]; exact hz)
            · exact (hz (hL'.2 z (by simp [hzs, hzx])).2).elim
        exact ih' b (by rw [hctx]; exact hc2 b) (hp.2 b) (hd.2 b) hmv (bholds_scopes i3 d2 d3) d1
    · intro q hq; rw [e1] at hq; cases hq
  | attempt body handler k ih ihh ih' =>
    intro exit g W S lost f fs hc hp hd hg H hf
    obtain ⟨hc1, hc2, hc3⟩ := hc
    obtain ⟨hp1, hp2, hp3⟩ := hp
    obtain ⟨hd1, hd2, hd3, hd4⟩ := hd
    simp only [BWorld.exec, BWorld.execT]
    have hin := ih (W := W.enter) (f := []) (fs := W.scopes) hc1 hp1 hd1 hg (bholds_scopes H rfl rfl) rfl
    refine sameRun_bind hin ?_
    rcases sinner (T := T) (sruns (T := T) (nx := nx) hal body (W := W.enter) (f := []) (fs := W.scopes) hc1 hp1 hd1 hg (bholds_scopes H rfl rfl) rfl) hf with
      ⟨W₁, r, S₁, lost₁, ns, e1, _, _, _, _, _, _, e7, e8, S₂, W₂, k1, k2, k3, k4, k5, k6⟩ | ⟨e, e1, e2⟩
    · intro q hq
      rw [e1] at hq; cases hq
      simp only [leave_throws, k1, res_ok_bind]
      cases r with
      | some b => exact ih' b (by rw [k5]; exact hc3 b) (hp3 b) (hd2 b) k6 k2 k3
      | none =>
        have hin' := ihh (W := W₂.enter) (f := []) (fs := W₂.scopes) (by rw [k5]; exact hc2) hp2 hd3 k6 (bholds_scopes k2 rfl rfl) rfl
        refine sameRun_bind hin' ?_
        rcases sinner (T := T) (sruns (T := T) (nx := nx) hal handler (W := W₂.enter) (f := []) (fs := W₂.scopes) (by rw [k5]; exact hc2) hp2 hd3 k6
          (bholds_scopes k2 rfl rfl) rfl) k3 with
          ⟨W₃, r, S₃, lost₃, ns₃, i1, _, _, _, _, _, _, i7, i8, S₄, W₄, l1, l2, l3, l4, l5, l6⟩ | ⟨e, i1, i2⟩
        · intro q hq
          rw [i1] at hq; cases hq
          simp only [leave_throws, l1, res_ok_bind]
          have hctx : sctx S₄ = sctx S := l5.trans k5
          cases r with
          | none => exact .inr rfl
          | some b => exact ih' b (by rw [hctx]; exact hc3 b) (hp3 b) (hd4 b) l6 l2 l3
        · intro q hq; rw [i1] at hq; cases hq
    · intro q hq; rw [e1] at hq; cases hq

end
end Jules

import Verif.Lemmas.SafeBlockStmts
/-
Lemmas for C87: programs in checked builds.
-/
namespace Jules
open Spec Props

section
variable {α β : Type} {W : BWorld α} {S S' : MStore α} {lost : List Nat} {T : Nat → Bool} {alloc : Nat → List (Nat × Nat) → Nat → Option Nat} {nx : Bool}

theorem inScope_sctx {x : Nat} : InScope S x ↔ sctx S x ≠ none := by
  constructor
  · intro h hn
    exact h (sctx_none hn)
  · intro h hu
    exact h (by simp [sctx, hu.1, hu.2])

theorem goneAfter_mono {g g' : Nat → Prop} (h : ∀ z, g z → g' z) {t : MStmt α} : ∀ z, goneAfter g t z → goneAfter g' t z := by
  intro z hz
  cases t with
  | declare x n => exact ⟨hz.1, h z hz.2⟩
  | moveMake x y =>
    have hz : if z = x then g y else z = y ∨ g z := hz
    show if z = x then g' y else z = y ∨ g' z
    split at hz
    · next hx => rw [if_pos hx]; exact h y hz
    · next hx => rw [if_neg hx]; exact hz.imp id (h z)
  | old u =>
    cases u with
    | make x e => exact ⟨hz.1, h z hz.2⟩
    | makeFill x s e => exact ⟨hz.1, h z hz.2⟩
    | makeFrom x l e => exact ⟨hz.1, h z hz.2⟩
    | overlapWhole x e => exact ⟨hz.1, h z hz.2⟩
    | moveAssign x y =>
      have hz : if z = x then g y else if z = y then g x else g z := hz
      show if z = x then g' y else if z = y then g' x else g' z
      by_cases h1 : z = x
      · rw [if_pos h1] at hz ⊢; exact h _ hz
      · by_cases h2 : z = y
        · rw [if_neg h1, if_pos h2] at hz ⊢; exact h _ hz
        · rw [if_neg h1, if_neg h2] at hz ⊢; exact h _ hz
    | _ => exact h z hz

theorem xgone_mono {g g' : Nat → Prop} (h : ∀ z, g z → g' z) {s : XStmt α} {z : Nat} (hz : xgone g s z) : xgone g' s z := by
  obtain ⟨t, ht, hz⟩ := hz
  exact ⟨t, ht, goneAfter_mono h z hz⟩

/-! ### Names after a statement -/

theorem xcheck_names {Γ Γ' : Ctx} {s : XStmt α} (h : xcheck Γ s = some Γ') :
    (s.declares = none ∧ Γ' = Γ) ∨ ∃ x n, s.declares = some x ∧ Γ x = none ∧ Γ' = Γ.upd x (some n) := by
  unfold xcheck at h
  rw [Option.bind_eq_some_iff] at h
  obtain ⟨t, ht, h⟩ := h
  have mk : ∀ {x : Nat} {e : PEx α}, check Γ (.make x e) = some Γ' → ∃ n, Γ x = none ∧ Γ' = Γ.upd x (some n) := by
    intro x e h
    simp only [check, Spec.when] at h
    split at h
    · next hx =>
      simp only [Option.bind_some, Option.map_eq_some_iff] at h
      obtain ⟨n, hn, rfl⟩ := h
      exact ⟨n, by simpa using hx, rfl⟩
    · cases h
  have from_ : ∀ {x : Nat} {l : List α} {ext : List Nat}, check Γ (.makeFrom x l ext) = some Γ' → ∃ n, Γ x = none ∧ Γ' = Γ.upd x (some n) := by
    intro x l ext h
    obtain ⟨h1, rfl⟩ := check_when h
    simp only [Bool.and_eq_true, Option.isNone_iff_eq_none] at h1
    exact ⟨_, h1.1, rfl⟩
  cases s with
  | wild s =>
    simp only [erase, Option.map_eq_some_iff] at ht
    obtain ⟨u, hu, rfl⟩ := ht
    cases s <;> simp only [shapeS, Option.some.injEq, reduceCtorEq] at hu <;> subst hu
    · obtain ⟨n, h1, h2⟩ := mk h; exact .inr ⟨_, n, rfl, h1, h2⟩
    · obtain ⟨n, h1, h2⟩ := from_ (l := []) h; exact .inr ⟨_, n, rfl, h1, h2⟩
    all_goals exact .inl ⟨rfl, (check_when h).2⟩
  | calm t' =>
    cases t' with
    | declare x n =>
      cases ht
      obtain ⟨h1, rfl⟩ := check_when h
      simp only [Bool.and_eq_true, Option.isNone_iff_eq_none] at h1
      exact .inr ⟨_, _, rfl, h1.1, rfl⟩
    | moveMake x y =>
      cases ht
      obtain ⟨h1, rfl⟩ := check_when h
      simp only [Bool.and_eq_true, Option.isNone_iff_eq_none] at h1
      obtain ⟨n, hn⟩ := Option.isSome_iff_exists.1 h1.2
      exact .inr ⟨x, n, rfl, h1.1, by rw [hn]⟩
    | old u =>
      cases u with
      | drop x => cases ht
      | make x e => cases ht; obtain ⟨n, h1, h2⟩ := mk h; exact .inr ⟨_, n, rfl, h1, h2⟩
      | makeFrom x l e => cases ht; obtain ⟨n, h1, h2⟩ := from_ (l := []) h; exact .inr ⟨_, n, rfl, h1, h2⟩
      | makeFill x s e =>
        cases ht
        obtain ⟨h1, rfl⟩ := check_when h
        simp only [Bool.and_eq_true, Option.isNone_iff_eq_none] at h1
        exact .inr ⟨_, _, rfl, h1.1.1, rfl⟩
      | _ => cases ht; exact .inl ⟨rfl, (check_when h).2⟩

/-- The orders of the names in scope stay; the names declared are added. -/
theorem adds_check {s : XStmt α} {Γ' : Ctx} (h : xcheck (sctx S) s = some Γ') (hS : sctx S' = Γ') :
    Adds S S' s.declares.toList ∧ ∀ x, InScope S x → sctx S' x = sctx S x := by
  rcases xcheck_names h with ⟨h1, h2⟩ | ⟨x, n, h1, h2, h3⟩
  · rw [h1]
    exact ⟨adds_nil fun x => by rw [inScope_sctx, inScope_sctx, hS, h2], fun x _ => by rw [hS, h2]⟩
  · rw [h1]
    have hz : ∀ z, sctx S' z = if z = x then some n else sctx S z := fun z => by rw [hS, h3]; rfl
    refine ⟨⟨by simp, ?_, ?_⟩, ?_⟩
    · intro z hz
      have : z = x := by simpa using hz
      subst this
      exact sctx_none h2
    · intro z
      rw [inScope_sctx, inScope_sctx, hz z]
      by_cases hzx : z = x <;> simp [hzx]
    · intro z hs
      have : z ≠ x := by rintro rfl; exact (inScope_sctx.1 hs) h2
      rw [hz z, if_neg this]

/-- The orders after a block. -/
theorem sctx_left {S₁ S₂ : MStore α} (ho : ∀ x, InScope S x → sctx S₁ x = sctx S x) (hL : Left (InScope S) S₁ S₂) : sctx S₂ = sctx S := by
  funext z
  by_cases hz : InScope S z
  · rw [← ho z hz]; exact sctx_eq (hL.1 z hz).1 (hL.1 z hz).2
  · have hu : Unused S z := not_not.1 hz
    have := hL.2 z hz
    exact sctx_eq (this.1.trans hu.1.symm) (this.2.trans hu.2.symm)

theorem moved_left {P : Nat → Prop} {S₁ S₂ : MStore α} (hL : Left P S₁ S₂) {z : Nat} (hz : S₂.moved z ≠ none) : S₁.moved z ≠ none := by
  by_cases hp : P z
  · rw [← (hL.1 z hp).2]; exact hz
  · exact (hz (hL.2 z hp).2).elim

/-! ### Programs -/

/-- How a program ends. -/
def SRuns (exit : Ctx → Prop) (g : Nat → Prop) (S : MStore α) (lost : List Nat) (p : Body α β) (nx : Bool) (f : List Nat) (fs : List (List Nat)) :
    Res (BWorld α × Option β) → Prop
  | .ok r => ∃ S' lost' ns, BHolds r.1 S' lost' ∧ r.1.scopes = (ns ++ f) :: fs ∧ Adds S S' ns ∧ (∀ x, InScope S x → sctx S' x = sctx S x) ∧
      (r.2.isSome → exit (sctx S')) ∧ (∀ z, S'.moved z ≠ none → goneAt r.2.isNone g p z) ∧ lost.length ≤ lost'.length ∧
      (NoSet p → lost'.length = lost.length)
  | .error e => e = .assert ∨ e = .terminate ∧ nx = true

/-- The rest of a program. -/
theorem sruns_then {exit : Ctx → Prop} {g g' : Nat → Prop} {S₁ : MStore α} {lost₁ : List Nat} {p q : Body α β} {f f' : List Nat} {fs : List (List Nat)}
    {r : Res (BWorld α × Option β)} (h : SRuns exit g' S₁ lost₁ q nx (f' ++ f) fs r) (hA : Adds S S₁ f') (ho : ∀ x, InScope S x → sctx S₁ x = sctx S x)
    (hg : ∀ t z, goneAt t g' q z → goneAt t g p z) (hl : lost.length ≤ lost₁.length) (hn : NoSet p → NoSet q ∧ lost₁.length = lost.length) :
    SRuns exit g S lost p nx f fs r := by
  cases r with
  | error e => exact h
  | ok r =>
    obtain ⟨S', lost', ns, h1, h2, h3, h4, h5, h6, h7, h8⟩ := h
    refine ⟨S', lost', ns ++ f', h1, by rw [h2, List.append_assoc], adds_trans hA h3, ?_, h5, fun z hz => hg _ z (h6 z hz), Nat.le_trans hl h7, ?_⟩
    · intro x hx
      rw [h4 x ((hA.scope x).2 (.inl hx)), ho x hx]
    · intro hp
      rw [h8 (hn hp).1, (hn hp).2]

/-- A program as the body of a block. -/
theorem sinner {exit : Ctx → Prop} {g : Nat → Prop} {body : Body α β} {f : List Nat} {fs : List (List Nat)}
    (h : SRuns exit g S lost body nx [] W.scopes (W.enter.exec Arith.exact true nx T alloc body)) (hf : W.scopes = f :: fs) :
    (∃ W₁ r S₁ lost₁ ns, W.enter.exec Arith.exact true nx T alloc body = .ok (W₁, r) ∧ BHolds W₁ S₁ lost₁ ∧ W₁.scopes = ns :: W.scopes ∧ Adds S S₁ ns ∧
      (∀ x, InScope S x → sctx S₁ x = sctx S x) ∧ (r.isSome → exit (sctx S₁)) ∧ (∀ z, S₁.moved z ≠ none → goneAt r.isNone g body z) ∧
      lost.length ≤ lost₁.length ∧ (NoSet body → lost₁.length = lost.length) ∧
      ∃ S₂ W₂, W₁.leave Arith.exact true nx T alloc = .ok W₂ ∧ BHolds W₂ S₂ lost₁ ∧ W₂.scopes = f :: fs ∧ Adds S S₂ [] ∧ sctx S₂ = sctx S ∧
        ∀ z, S₂.moved z ≠ none → goneAt r.isNone g body z) ∨
    (∃ e, W.enter.exec Arith.exact true nx T alloc body = .error e ∧ (e = .assert ∨ e = .terminate ∧ nx = true)) := by
  cases hr : W.enter.exec Arith.exact true nx T alloc body with
  | error e => rw [hr] at h; exact .inr ⟨e, rfl, h⟩
  | ok q =>
    rw [hr] at h
    obtain ⟨W₁, r⟩ := q
    obtain ⟨S₁, lost₁, ns, h1, h2, h3, h4, h5, h6, h7, h8⟩ := h
    rw [List.append_nil] at h2
    obtain ⟨S₂, hL⟩ := left_exists (InScope S) S₁
    obtain ⟨W₂, k1, k2, k3⟩ := bleave_ok (T := T) h1 h3 h2 hL true nx (alloc := alloc)
    exact .inl ⟨W₁, r, S₁, lost₁, ns, rfl, h1, h2, h3, h4, h5, h6, h7, h8, S₂, W₂, k1, k2, k3.trans hf, adds_left h3 hL, sctx_left h4 hL,
      fun z hz => h6 z (moved_left hL hz)⟩

theorem sruns [Nonempty α] (hal : GoodBlocks alloc) : ∀ (p : Body α β) {exit : Ctx → Prop} {g : Nat → Prop} {W : BWorld α}
    {S : MStore α} {lost : List Nat} {f : List Nat} {fs : List (List Nat)}, CompilesB exit (sctx S) p → ProvidedB p → NoUseGone g p → (∀ z, S.moved z ≠ none → g z) →
    BHolds W S lost → W.scopes = f :: fs → SRuns exit g S lost p nx f fs (W.exec Arith.exact true nx T alloc p) := by
  intro p
  induction p with
  | ret b =>
    intro exit g W S lost f fs hc _ _ hg H hf
    exact ⟨S, lost, [], H, hf, adds_nil fun _ => Iff.rfl, fun _ _ => rfl, fun _ => hc, fun z hz => ⟨rfl, hg z hz⟩, Nat.le_refl _, fun _ => rfl⟩
  | throw =>
    intro exit g W S lost f fs hc _ _ hg H hf
    exact ⟨S, lost, [], H, hf, adds_nil fun _ => Iff.rfl, fun _ _ => rfl, nofun, fun z hz => ⟨rfl, hg z hz⟩, Nat.le_refl _, fun _ => rfl⟩
  | exec s k ih =>
    intro exit g W S lost f fs hc hp hd hg H hf
    obtain ⟨Γ', hc1, hc2⟩ := hc
    have hs := xstep_fine (T := T) (nx := nx) H hal hc1 hp.1 (fun x hx => hd.1 x (hg x hx)) hf
    simp only [BWorld.exec]
    cases hr : W.step Arith.exact true nx T alloc s with
    | error e => rw [hr] at hs; exact hs
    | ok r =>
      rw [hr] at hs
      obtain ⟨W₁, t⟩ := r
      rw [res_ok_bind]
      obtain ⟨h1, S₁, lost₁, h2, h3, h4, h5, h6⟩ := hs
      have hset : NoSet (.exec s k) → ¬ IsSet s := by
        rintro ⟨n1, n2, _⟩ (⟨x, e, h⟩ | ⟨x, e, h⟩)
        · exact n1 x e h
        · exact n2 x e h
      cases t with
      | true =>
        have h3 : sctx S₁ = sctx S := h3
        refine ⟨S₁, lost₁, [], h2, h1, adds_nil fun x => by rw [inScope_sctx, inScope_sctx, h3], fun x _ => by rw [h3], nofun,
          fun z hz => .inl ⟨rfl, hg z (h4 z hz)⟩, ?_, ?_⟩
        · rcases h6 with h6 | ⟨_, _, h6⟩ <;> omega
        · intro hn
          rcases h6 with h6 | ⟨_, h6, _⟩
          · exact h6
          · exact (hset hn h6).elim
      | false =>
        have h3 : sctx S₁ = Γ' := h3
        have h6 : lost₁.length = lost.length := by
          rcases h6 with h6 | ⟨h6, _⟩
          · exact h6
          · cases h6
        obtain ⟨a1, a2⟩ := adds_check hc1 h3
        refine sruns_then (g' := xgone g s) (ih (by rw [h3]; exact hc2) hp.2 hd.2 (fun z hz => xgone_mono hg (h4 z hz)) h2 h1) a1 a2 (fun t z hz => .inr hz)
          (by omega) (fun hn => ⟨hn.2.2, h6⟩)
  | read s k ih =>
    intro exit g W S lost f fs hc hp hd hg H hf
    have hu : ∀ z ∈ s.uses, S.moved z = none := fun z hz => by
      by_contra hn; exact hd.1 z (hg z hn) (uses_sc hz)
    simp only [BWorld.exec, usable_safe H hu, res_ok_bind]
    rcases sc_cases H hc.1 hu hp.1 with ⟨c, e1, e2⟩ | e1
    · rw [e1, res_ok_bind]
      obtain ⟨v, hv⟩ := e2 _ (keeps_refl _)
      rcases scalarB_out (T := T) (p := W.pool) hv with q | ⟨q, _⟩
      · rw [q]
        exact sruns_then (g' := g) (f' := []) (ih v (W := { W with pool := ⟨W.pool.mem, W.pool.blocks, W.pool.ruined, W.pool.clock + 1⟩ })
          (hc.2 v) (hp.2 v) (hd.2 v) hg (bholds_clock H _) hf) (adds_nil fun _ => Iff.rfl) (fun _ _ => rfl) (fun t z hz => .inr ⟨v, hz⟩) (Nat.le_refl _)
          (fun hn => ⟨hn v, rfl⟩)
      · rw [q]
        exact ⟨S, lost, [], bholds_clock H _, hf, adds_nil fun _ => Iff.rfl, fun _ _ => rfl, nofun, fun z hz => .inl ⟨rfl, hg z hz⟩, Nat.le_refl _, fun _ => rfl⟩
    · rw [e1]; exact .inl rfl
  | elements e k ih =>
    intro exit g W S lost f fs hc hp hd hg H hf
    have hu : ∀ z ∈ e.uses, S.moved z = none := fun z hz => by
      by_contra hn
      rw [fex_uses] at hz
      exact hd.1 z (hg z hn) (uses_operand hz)
    simp only [BWorld.exec, usable_safe H hu, res_ok_bind]
    rcases src_cases H hc.1 hu hp.1 with ⟨src, e1, e2, _⟩ | e1
    · rw [e1, res_ok_bind]
      obtain ⟨ck, h⟩ := copiesB_out (T := T) (src := src) (m := W.pool.mem) (bl := W.pool.blocks) (ru := W.pool.ruined) (prod src.dims) 0 W.pool.clock (fun j _ hj => by
        obtain ⟨o, ho⟩ := flive_deref e2.2 (keeps_refl _) (show j < prod src.dims by omega)
        rw [ho]
        cases o with
        | none => exact .inr ⟨_, rfl⟩
        | some v => exact .inl ⟨v, rfl⟩)
      have hel : elementsB T src W.pool = copiesB T src 0 (prod src.dims) ⟨W.pool.mem, W.pool.blocks, W.pool.ruined, W.pool.clock⟩ := by
        unfold elementsB
        rw [flive_count e2.2]
      rw [← hel] at h
      rcases h with ⟨xs, q, _⟩ | ⟨q, _⟩
      · rw [q]
        exact sruns_then (g' := g) (f' := []) (ih src.dims xs (W := { W with pool := ⟨W.pool.mem, W.pool.blocks, W.pool.ruined, ck⟩ })
          (hc.2 _ xs) (hp.2 _ xs) (hd.2 _ xs) hg (bholds_clock H _) hf) (adds_nil fun _ => Iff.rfl) (fun _ _ => rfl) (fun t z hz => .inr ⟨_, xs, hz⟩) (Nat.le_refl _)
          (fun hn => ⟨hn _ xs, rfl⟩)
      · rw [q]
        exact ⟨S, lost, [], bholds_clock H _, hf, adds_nil fun _ => Iff.rfl, fun _ _ => rfl, nofun, fun z hz => .inl ⟨rfl, hg z hz⟩, Nat.le_refl _, fun _ => rfl⟩
    · rw [e1]; exact .inl rfl
  | block body k ih ih' =>
    intro exit g W S lost f fs hc hp hd hg H hf
    simp only [BWorld.exec]
    rcases sinner (ih (W := W.enter) (f := []) (fs := W.scopes) hc.1 hp.1 hd.1 hg (bholds_scopes H rfl rfl) rfl) hf with
      ⟨W₁, r, S₁, lost₁, ns, e1, _, _, _, _, _, _, e7, e8, S₂, W₂, k1, k2, k3, k4, k5, k6⟩ | ⟨e, e1, e2⟩
    · simp only [e1, res_ok_bind, k1]
      cases r with
      | none =>
        exact ⟨S₂, lost₁, [], k2, k3, k4, fun x _ => by rw [k5], nofun, fun z hz => .inl ⟨rfl, k6 z hz⟩, e7, fun hn => e8 hn.1⟩
      | some b =>
        exact sruns_then (g' := goneAt false g body) (f' := []) (ih' b (by rw [k5]; exact hc.2 b) (hp.2 b) (hd.2 b) k6 k2 k3) k4 (fun x _ => by rw [k5])
          (fun t z hz => .inr ⟨b, hz⟩) e7 (fun hn => ⟨hn.2 b, e8 hn.1⟩)
    · rw [e1]; exact e2
  | call x y body k ih ih' =>
    intro exit g W S lost f fs hc hp hd hg H hf
    obtain ⟨hx, hy, n, hc1, hc2⟩ := hc
    simp only [BWorld.exec]
    rcases sinner (ih (W := W.enter) (f := []) (fs := W.scopes) hc1 hp.1 hd.1 hg (bholds_scopes H rfl rfl) rfl) hf with
      ⟨W₁, r, S₁, lost₁, ns, e1, e2, e3, e4, e5, e6, e6', e7, e8, S₂, W₂, k1, k2, k3, k4, k5, k6⟩ | ⟨e, e1, e2⟩
    · rw [e1, res_ok_bind]
      cases r with
      | none =>
        simp only [k1, res_ok_bind]
        exact ⟨S₂, lost₁, [], k2, k3, k4, fun x _ => by rw [k5], nofun, fun z hz => .inl ⟨rfl, k6 z hz⟩, e7, fun hn => e8 hn.1⟩
      | some b =>
        obtain ⟨hy1, hx1⟩ := e6 rfl
        have hm : MLegal S₁ (.moveMake x y) := ⟨sctx_none hx1, n, order_sctx hy1⟩
        have hyx : y ≠ x := by rintro rfl; rw [hx1] at hy1; cases hy1
        obtain ⟨S₃, he⟩ := meffect_exists (fun x d hx => (e2.moved x d hx).1) hm
        obtain ⟨S₄, hL'⟩ := left_exists (fun z => InScope S z ∨ z = x) S₃
        obtain ⟨⟨W₃, W₄, i1, i2, i3, i4⟩, i5⟩ := bgive_ok (T := T) e2 e4 e3 (sctx_none hy) hm he hL' true nx (alloc := alloc)
        obtain ⟨d1, d2, d3⟩ := bdeclare (i4.trans hf) (some x)
        simp only [i1, i2, res_ok_bind]
        obtain ⟨m1, m2, m3, _⟩ := he
        have hmid : ∀ z, InScope S z → S₄.live z = S₁.live z ∧ S₄.moved z = S₁.moved z := by
          intro z hz
          have hzx : z ≠ x := by rintro rfl; exact (inScope_sctx.1 hz) hx
          have hzy : z ≠ y := by rintro rfl; exact (inScope_sctx.1 hz) hy
          obtain ⟨q1, q2⟩ := hL'.1 z (.inl hz)
          obtain ⟨q3, q4⟩ := m1 z (by simp [hzx, hzy])
          exact ⟨q1.trans q3, q2.trans q4⟩
        have hSx : S₄.live x = S₁.live y ∧ S₄.moved x = S₁.moved y := by
          obtain ⟨q1, q2⟩ := hL'.1 x (.inr rfl)
          exact ⟨q1.trans m2, q2.trans m3⟩
        have hctx : sctx S₄ = (sctx S).upd x (some n) := by
          funext z
          show _ = if z = x then some n else sctx S z
          by_cases hzx : z = x
          · rw [if_pos hzx, hzx, sctx_eq hSx.1 hSx.2, hy1]
          · rw [if_neg hzx]
            by_cases hz : InScope S z
            · rw [sctx_eq (hmid z hz).1 (hmid z hz).2, e5 z hz]
            · have hu : Unused S z := not_not.1 hz
              have := hL'.2 z (by simp [hz, hzx])
              exact sctx_eq (this.1.trans hu.1.symm) (this.2.trans hu.2.symm)
        have hmv : ∀ z, S₄.moved z ≠ none → if z = x then goneAt false g body y else goneAt false g body z := by
          intro z hz
          by_cases hzx : z = x
          · subst hzx; rw [if_pos rfl]; exact e6' y (by rw [← hSx.2]; exact hz)
          · rw [if_neg hzx]
            by_cases hzs : InScope S z
            · exact e6' z (by rw [← (hmid z hzs).2]; exact hz)
            · exact (hz (hL'.2 z (by simp [hzs, hzx])).2).elim
        refine sruns_then (f' := [x]) (ih' b (by rw [hctx]; exact hc2 b) (hp.2 b) (hd.2 b) hmv (bholds_scopes i3 d2 d3) d1) i5 ?_ (fun t z hz => .inr ⟨b, hz⟩) e7
          (fun hn => ⟨hn.2 b, e8 hn.1⟩)
        intro z hz
        rw [sctx_eq (hmid z hz).1 (hmid z hz).2, e5 z hz]
    · rw [e1]; exact e2
  | attempt body handler k ih ihh ih' =>
    intro exit g W S lost f fs hc hp hd hg H hf
    obtain ⟨hc1, hc2, hc3⟩ := hc
    obtain ⟨hp1, hp2, hp3⟩ := hp
    obtain ⟨hd1, hd2, hd3, hd4⟩ := hd
    simp only [BWorld.exec]
    rcases sinner (ih (W := W.enter) (f := []) (fs := W.scopes) hc1 hp1 hd1 hg (bholds_scopes H rfl rfl) rfl) hf with
      ⟨W₁, r, S₁, lost₁, ns, e1, _, _, _, _, _, _, e7, e8, S₂, W₂, k1, k2, k3, k4, k5, k6⟩ | ⟨e, e1, e2⟩
    · simp only [e1, res_ok_bind, k1]
      cases r with
      | some b =>
        exact sruns_then (g' := goneAt false g body) (f' := []) (ih' b (by rw [k5]; exact hc3 b) (hp3 b) (hd2 b) k6 k2 k3) k4 (fun x _ => by rw [k5])
          (fun t z hz => .inl ⟨b, hz⟩) e7 (fun hn => ⟨hn.2.2 b, e8 hn.1⟩)
      | none =>
        rcases sinner (ihh (W := W₂.enter) (f := []) (fs := W₂.scopes) (by rw [k5]; exact hc2) hp2 hd3 k6 (bholds_scopes k2 rfl rfl) rfl) k3 with
          ⟨W₃, r, S₃, lost₃, ns₃, i1, _, _, _, _, _, _, i7, i8, S₄, W₄, l1, l2, l3, l4, l5, l6⟩ | ⟨e, i1, i2⟩
        · simp only [i1, res_ok_bind, l1]
          have hadd : Adds S S₄ [] := by simpa using adds_trans k4 l4
          have hctx : sctx S₄ = sctx S := l5.trans k5
          cases r with
          | none =>
            exact ⟨S₄, lost₃, [], l2, l3, hadd, fun x _ => by rw [hctx], nofun, fun z hz => .inr (.inl ⟨rfl, l6 z hz⟩), by omega,
              fun hn => by rw [i8 hn.2.1, e8 hn.1]⟩
          | some b =>
            exact sruns_then (g' := goneAt false (goneAt true g body) handler) (f' := []) (ih' b (by rw [hctx]; exact hc3 b) (hp3 b) (hd4 b) l6 l2 l3) hadd
              (fun x _ => by rw [hctx]) (fun t z hz => .inr (.inr ⟨b, hz⟩)) (by omega) (fun hn => ⟨hn.2.2 b, by rw [i8 hn.2.1, e8 hn.1]⟩)
        · simp only [i1]; exact i2
    · rw [e1]; exact e2

end
end Jules

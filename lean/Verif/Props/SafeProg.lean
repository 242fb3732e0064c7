import Verif.Spec.SafeProg
import Verif.Props.Sound
import Verif.Props.NoMemory
/-
C77: programs with control flow, moves and missing memory in checked builds.
-/
namespace Jules.Props
open Jules Spec

section
variable {α β : Type} {W : MWorld α}

/-! ### Names -/

theorem uses_sc {x : Nat} {s : Sc α} (h : x ∈ s.uses) : ScOf x s := by
  cases s with
  | const c => simp [Sc.uses] at h
  | elem y h' => simp only [Sc.uses, List.mem_singleton] at h; exact h.symm

theorem uses_operand {x : Nat} : ∀ {e : PEx α}, x ∈ e.uses → Operand x e
  | .arr y h, hx => by simp only [PEx.uses, List.mem_singleton] at hx; exact hx.symm
  | .un f e, hx => uses_operand (e := e) hx
  | .bin f a b, hx => (List.mem_append.1 hx).imp uses_operand uses_operand
  | .scl f s e, hx => (List.mem_append.1 hx).imp uses_sc uses_operand
  | .scr f e s, hx => (List.mem_append.1 hx).imp uses_operand uses_sc

theorem noneGone {xs : List Nat} (h : ∀ x, W.gone x ≠ none → x ∉ xs) : W.anyGone xs = false := by
  unfold MWorld.anyGone
  rw [List.any_eq_false]
  intro x hx
  cases hm : W.gone x with
  | none => simp
  | some d => exact (h x (by rw [hm]; simp) hx).elim

/-! ### Orders -/

/-- The orders, with those of the moved-from arrays. -/
def overlay (g : Nat → Option (List Nat)) (Γ : Ctx) : Ctx := fun x =>
  match g x with
  | some d => some d.length
  | none => Γ x

theorem overlay_live {g : Nat → Option (List Nat)} {Γ : Ctx} {x : Nat} (h : g x = none) : overlay g Γ x = Γ x := by simp [overlay, h]

theorem overlay_upd {g : Nat → Option (List Nat)} {Γ : Ctx} {x : Nat} {n : Option Nat} (h : g x = none) :
    (overlay g Γ).upd x n = overlay g (Γ.upd x n) := by
  funext z
  unfold Ctx.upd overlay
  by_cases hz : z = x
  · subst hz; simp [h]
  · simp [hz]

theorem overlay_mark {g : Nat → Option (List Nat)} {Γ : Ctx} {x : Nat} {n : Option Nat} :
    (overlay g Γ).upd x n = overlay (MWorld.mark g x none) (Γ.upd x n) := by
  funext z
  unfold Ctx.upd overlay
  by_cases hz : z = x
  · subst hz; simp [mark_eq]
  · simp [hz, mark_ne]

theorem chainKind_overlay {g : Nat → Option (List Nat)} {Γ : Ctx} {x : Nat} {h : List Ix} (hx : g x = none) :
    chainKind (overlay g Γ) x h = chainKind Γ x h := by
  unfold chainKind; rw [overlay_live hx]

theorem scTyped_overlay {g : Nat → Option (List Nat)} {Γ : Ctx} {s : Sc α} (hs : ∀ x ∈ s.uses, g x = none) : scTyped (overlay g Γ) s = scTyped Γ s := by
  cases s with
  | const c => rfl
  | elem x h => simp only [scTyped]; rw [chainKind_overlay (hs x (by simp [Sc.uses]))]

theorem exOrder_overlay {g : Nat → Option (List Nat)} {Γ : Ctx} : ∀ {e : PEx α}, (∀ x ∈ e.uses, g x = none) → exOrder (overlay g Γ) e = exOrder Γ e
  | .arr x h, hs => by simp only [exOrder]; rw [chainKind_overlay (hs x (by simp [PEx.uses]))]
  | .un f e, hs => exOrder_overlay (e := e) hs
  | .bin f a b, hs => by
    simp only [exOrder]
    rw [exOrder_overlay (e := a) fun x h => hs x (List.mem_append_left _ h), exOrder_overlay (e := b) fun x h => hs x (List.mem_append_right _ h)]
  | .scl f s e, hs => by
    simp only [exOrder]
    rw [scTyped_overlay (s := s) fun x h => hs x (List.mem_append_left _ h), exOrder_overlay (e := e) fun x h => hs x (List.mem_append_right _ h)]
  | .scr f e s, hs => by
    simp only [exOrder]
    rw [scTyped_overlay (s := s) fun x h => hs x (List.mem_append_right _ h), exOrder_overlay (e := e) fun x h => hs x (List.mem_append_left _ h)]

theorem viewTyped_overlay {g : Nat → Option (List Nat)} {Γ : Ctx} {x : Nat} {h : List Ix} {n : Option Nat} (hx : g x = none) :
    viewTyped (overlay g Γ) x h n = viewTyped Γ x h n := by
  unfold viewTyped; rw [chainKind_overlay hx]

theorem placeTyped_overlay {g : Nat → Option (List Nat)} {Γ : Ctx} {x : Nat} {h : List Ix} (hx : g x = none) :
    placeTyped (overlay g Γ) x h = placeTyped Γ x h := by
  unfold placeTyped; rw [chainKind_overlay hx]

theorem when_overlay {g : Nat → Option (List Nat)} {Γ : Ctx} {c : Bool} : Spec.when c (overlay g Γ) = (Spec.when c Γ).map (overlay g) := by
  unfold Spec.when; split <;> rfl

/-- A statement about arrays that have not been moved from. -/
theorem check_overlay {g : Nat → Option (List Nat)} {Γ : Ctx} {s : Stmt α} (hu : ∀ x ∈ s.uses, g x = none) (hc : ∀ x ∈ changes s, g x = none) :
    check (overlay g Γ) s = (check Γ s).map (overlay g) := by
  cases s with
  | make x e =>
    have hx := hc x (by simp [changes])
    simp only [check, overlay_live hx]
    by_cases h : Γ x = none
    · simp only [h, Option.isNone_none, Spec.when, if_true, Option.bind_some, exOrder_overlay hu]
      cases exOrder Γ e with
      | none => rfl
      | some n => simp only [Option.map_some, overlay_upd hx]
    · have : (Γ x).isNone = false := by cases hn : Γ x <;> simp_all
      simp [this, Spec.when]
  | makeFill x s ext =>
    have hx := hc x (by simp [changes])
    simp only [check, overlay_live hx, scTyped_overlay hu, overlay_upd hx, when_overlay]
  | makeFrom x l ext =>
    have hx := hc x (by simp [changes])
    simp only [check, overlay_live hx, overlay_upd hx, when_overlay]
  | drop x =>
    have hx := hc x (by simp [changes])
    simp only [check, overlay_live hx, overlay_upd hx, when_overlay]
  | fill x h s =>
    have hx := hc x (by simp [changes])
    simp only [check, placeTyped_overlay hx, scTyped_overlay fun z hz => hu z (List.mem_cons_of_mem _ hz), when_overlay]
  | assign x h e =>
    have hx := hc x (by simp [changes])
    simp only [check, viewTyped_overlay hx, exOrder_overlay fun z hz => hu z (List.mem_cons_of_mem _ hz), when_overlay]
  | inPlace x h op e =>
    have hx := hc x (by simp [changes])
    simp only [check, viewTyped_overlay hx, exOrder_overlay fun z hz => hu z (List.mem_cons_of_mem _ hz), when_overlay]
  | inPlaceScalar x h op s =>
    have hx := hc x (by simp [changes])
    simp only [check, placeTyped_overlay hx, scTyped_overlay fun z hz => hu z (List.mem_cons_of_mem _ hz), when_overlay]
  | apply x h f =>
    have hx := hc x (by simp [changes])
    simp only [check, chainKind_overlay hx, when_overlay]
  | overlap x h e =>
    have hx := hc x (by simp [changes])
    simp only [check, viewTyped_overlay hx, exOrder_overlay fun z hz => hu z (List.mem_cons_of_mem _ hz), when_overlay]
  | overlapWhole x e =>
    have hx := hc x (by simp [changes])
    simp only [check, overlay_live hx, exOrder_overlay hu, when_overlay]
  | set x e =>
    have hx := hc x (by simp [changes])
    simp only [check, overlay_live hx, exOrder_overlay hu, when_overlay]
  | moveAssign x y =>
    have hx := hc x (by simp [changes])
    have hy := hc y (by simp [changes])
    simp only [check, overlay_live hx, overlay_live hy, when_overlay]

theorem mctx_overlay (W : MWorld α) : mctx W = overlay W.gone (ctxOf W.w) := rfl

/-! ### Memory -/

/-- Arrays get other names. -/
theorem intact_map {w w' : World α} (H : Intact w) (hm : w'.mem = w.mem) (σ : Nat → Nat)
    (h1 : ∀ z c, w'.env z = some c → c.ext ≠ [] ∧ (w.env (σ z) = some c ∨ ∀ q, ¬ Covers (cells c) q))
    (h2 : ∀ z z', z ≠ z' → w'.env z ≠ none → w'.env z' ≠ none → σ z ≠ σ z')
    (h3 : ∀ z c q, w.env z = some c → Covers (cells c) q → ∃ z', w'.env z' = some c) : Intact w' := by
  refine ⟨fun z c hc => (h1 z c hc).1, ?_, ?_, ?_, ?_⟩
  · intro z c q hc hq
    rw [hm]
    rcases (h1 z c hc).2 with h | h
    · exact H.live _ c q h hq
    · exact (h q hq).elim
  · intro z z' c d q hzz hc hd hq hq'
    rcases (h1 z c hc).2 with h | h
    · rcases (h1 z' d hd).2 with h' | h'
      · exact H.sep _ _ c d q (h2 z z' hzz (by rw [hc]; simp) (by rw [hd]; simp)) h h' hq hq'
      · exact h' q hq'
    · exact h q hq
  · intro q hq
    rw [hm] at hq
    obtain ⟨z, c, hc, hcov⟩ := H.only q hq
    obtain ⟨z', hz'⟩ := h3 z c q hc hcov
    exact ⟨z', c, hz', hcov⟩
  · obtain ⟨B, hB⟩ := H.finite
    exact ⟨B, by rw [hm]; exact hB⟩

theorem empty_covers {b : Nat} {d : List Nat} (h : prod d = 0) (q : Nat) : ¬ Covers (cells ⟨b, d⟩) q := by
  rintro ⟨i, hi, _⟩
  have := cmSum_lt hi
  have hi' : InB d i := hi
  have := cmSum_lt hi'
  omega

/-- What a statement leaves. -/
structure FineM (W : MWorld α) (s : MStmt α) (W' : MWorld α) : Prop where
  intact : IntactM W'
  same : ∀ y, y ∉ mchanges s → SameArray W.w W'.w y ∧ W'.gone y = W.gone y
  types : mcheck (mctx W) s = some (mctx W')
  moved : ∀ x, W'.gone x ≠ none → after (fun z => W.gone z ≠ none) s x

theorem sameArray_refl (w : World α) (y : Nat) : SameArray w w y := ⟨rfl, fun _ _ _ _ => rfl⟩

/-- A statement that does not involve moved-from arrays. -/
theorem fineM_old (H : IntactM W) {s : Stmt α} (hs : Provided s) {alloc : Nat → Mem α → Nat → Nat} (hal : GoodAlloc alloc)
    (hu : ∀ x ∈ s.uses, W.gone x = none) (hc : ∀ x ∈ changes s, W.gone x = none)
    (ha : ∀ x, W.gone x ≠ none → after (fun z => W.gone z ≠ none) (.old s) x) :
    Safe ((mcheck (mctx W) (.old s)).isSome) (W.w.step Arith.exact true alloc s >>= fun w' => .ok ⟨w', W.gone⟩) (FineM W (.old s)) := by
  have hck : mcheck (mctx W) (.old s) = (check (ctxOf W.w) s).map (overlay W.gone) := check_overlay hu hc
  refine safe_bind (step_fine H.intact hs hal) (by rw [hck]; simp) ?_
  rintro w' ⟨h1, h2, h3⟩
  refine ⟨⟨h1, fun x d hx => ⟨?_, (H.gone x d hx).2⟩⟩, fun y hy => ⟨h2 y hy, rfl⟩, ?_, ha⟩
  · have hx' : x ∉ changes s := fun h => by rw [hc x h] at hx; cases hx
    rw [(h2 x hx').1]
    exact (H.gone x d hx).1
  · rw [hck, h3]; rfl

theorem safe_sameOrder {a : Arr} {d : List Nat} {T : Prop} (h : T → a.ext.length = d.length) : Safe T (sameOrder a d) (fun _ => a.ext.length = d.length) := by
  unfold sameOrder
  split
  · assumption
  · next hn => exact safe_ill fun t => hn (h t)

theorem mstep_fine (H : IntactM W) {s : MStmt α} (hs : ∀ t, s = .old t → Provided t) {alloc : Nat → Mem α → Nat → Nat} (hal : GoodAlloc alloc)
    (hd : ∀ x, W.gone x ≠ none → ¬ Misuses x s) :
    Safe ((mcheck (mctx W) s).isSome) (W.step Arith.exact true alloc s) (FineM W s) := by
  have env_none : ∀ {x}, (mctx W x).isNone = true → W.gone x = none ∧ W.w.env x = none := by
    intro x h
    unfold mctx ctxOf at h
    cases hg : W.gone x with
    | some d => simp [hg] at h
    | none =>
      simp only [hg] at h
      cases he : W.w.env x with
      | none => exact ⟨rfl, rfl⟩
      | some c => simp [he] at h
  have gone_ok : ∀ {x}, Safe ((mctx W x).isNone = true) (needs (W.gone x).isNone) (fun _ => W.gone x = none) := by
    intro x
    refine safe_mono (safe_needs _) (fun h => by rw [(env_none h).1]; rfl) fun _ h => by simpa using h
  have env_ok : ∀ {x}, Safe ((mctx W x).isNone = true) (needs (W.w.env x).isNone) (fun _ => W.w.env x = none) := by
    intro x
    refine safe_mono (safe_needs _) (fun h => by rw [(env_none h).2]; rfl) fun _ h => by simpa using h
  cases s with
  | declare x n =>
    have hT : (mcheck (mctx W) (.declare x n : MStmt α)).isSome → (mctx W x).isNone = true ∧ (n != 0) = true := by
      intro h; exact Bool.and_eq_true_iff.1 (when_isSome h)
    refine safe_bind gone_ok (fun h => (hT h).1) fun _ hg => safe_bind env_ok (fun h => (hT h).1) fun _ he => safe_bind (safe_needs _) (fun h => (hT h).2) fun _ hn => ?_
    have hn0 : n ≠ 0 := by simpa using hn
    have hne : List.replicate n 0 ≠ [] := by cases n with | zero => exact (hn0 rfl).elim | succ n => simp [List.replicate_succ]
    have h0 : prod (List.replicate n 0) = 0 := by cases n with | zero => exact (hn0 rfl).elim | succ n => simp [List.replicate_succ, prod]
    have hex : (W.w.bind W.w.mem x (some ⟨0, List.replicate n 0⟩)).env x = some ⟨0, List.replicate n 0⟩ := by simp [World.bind]
    have heo : ∀ z, z ≠ x → (W.w.bind W.w.mem x (some ⟨0, List.replicate n 0⟩)).env z = W.w.env z := by intro z hz; simp [World.bind, hz]
    refine ⟨⟨intact_map H.intact rfl (fun z => z) ?_ (fun z z' h _ _ => h) ?_, ?_⟩, ?_, ?_, fun x h => h⟩
    · intro z c hc
      by_cases hz : z = x
      · subst hz; rw [hex] at hc; cases hc
        exact ⟨hne, .inr (empty_covers h0)⟩
      · rw [heo z hz] at hc
        exact ⟨H.intact.order z c hc, .inl hc⟩
    · intro z c q hc _
      have : z ≠ x := by rintro rfl; rw [he] at hc; cases hc
      exact ⟨z, by rw [heo z this]; exact hc⟩
    · intro z d hz
      try dsimp only at hz ⊢
      obtain ⟨k1, k2⟩ := H.gone z d hz
      have : z ≠ x := by rintro rfl; rw [hg] at hz; cases hz
      exact ⟨by rw [heo z this]; exact k1, k2⟩
    · intro y hy
      have : y ≠ x := by simpa [mchanges] using hy
      exact ⟨⟨heo y this, fun _ _ _ _ => rfl⟩, rfl⟩
    · have hx : (mctx W x).isNone = true := by simp [mctx, hg, ctxOf, he]
      simp only [mcheck]
      rw [hx, hn, Bool.and_true, when_some rfl, mctx_overlay, overlay_upd hg, mctx_overlay]
      rw [ctx_bind]; simp
  | moveMake x y =>
    have hT : (mcheck (mctx W) (.moveMake x y : MStmt α)).isSome → (mctx W x).isNone = true ∧ (mctx W y).isSome = true := by
      intro h; exact Bool.and_eq_true_iff.1 (when_isSome h)
    refine safe_bind gone_ok (fun h => (hT h).1) fun _ hg => safe_bind env_ok (fun h => (hT h).1) fun _ he => ?_
    have hxn : (mctx W x).isNone = true := by simp [mctx, hg, ctxOf, he]
    cases hy : W.gone y with
    | some d =>
      have hxy : x ≠ y := by rintro rfl; rw [hg] at hy; cases hy
      have hyn : mctx W y = some d.length := by simp [mctx, hy]
      refine ⟨⟨H.intact, ?_⟩, ?_, ?_, ?_⟩
      · intro z d' hz
        try dsimp only at hz ⊢
        by_cases hzx : z = x
        · subst hzx
          rw [mark_eq] at hz; cases hz
          exact ⟨he, (H.gone y d hy).2⟩
        · rw [mark_ne _ hzx] at hz
          exact H.gone z d' hz
      · intro z hz
        try dsimp only at hz ⊢
        simp [mchanges] at hz
        exact ⟨sameArray_refl _ _, mark_ne _ hz.1 _⟩
      · simp only [mcheck]
        rw [hxn, hyn, Option.isSome_some, Bool.and_true, when_some rfl]
        congr 1
        funext z
        unfold Ctx.upd mctx
        by_cases hzx : z = x
        · subst hzx; simp [mark_eq]
        · simp [hzx, mark_ne]
      · intro z hz
        try dsimp only at hz ⊢
        show if z = x then _ else _
        by_cases hzx : z = x
        · rw [if_pos hzx]; rw [hy]; simp
        · rw [if_neg hzx]; right
          rwa [mark_ne _ hzx] at hz
    | none =>
      refine safe_bind (safe_get y) (fun h => ?_) ?_
      · have := (hT h).2
        simpa [mctx, hy] using this
      intro a ha
      have hxy : x ≠ y := by rintro rfl; rw [he] at ha; cases ha
      have hyn : mctx W y = some a.ext.length := by simp [mctx, hy, ctxOf, ha]
      have hae := H.intact.order y a ha
      try dsimp only
      by_cases h0 : prodL Arith.exact a.ext = 0
      · have h0' : (prodL Arith.exact a.ext == 0) = true := by simpa using h0
        rw [if_pos h0']
        rw [prodL_exact] at h0
        have e1 : ((W.w.bind W.w.mem x (some a)).bind W.w.mem y (some ⟨0, a.ext⟩)).env x = some a := by simp [World.bind, hxy]
        have e2 : ((W.w.bind W.w.mem x (some a)).bind W.w.mem y (some ⟨0, a.ext⟩)).env y = some ⟨0, a.ext⟩ := by simp [World.bind]
        have e3 : ∀ z, z ≠ x → z ≠ y → ((W.w.bind W.w.mem x (some a)).bind W.w.mem y (some ⟨0, a.ext⟩)).env z = W.w.env z := by
          intro z h1 h2; simp [World.bind, h1, h2]
        refine ⟨⟨intact_map H.intact rfl (fun z => z) ?_ (fun z z' h _ _ => h) ?_, ?_⟩, ?_, ?_, ?_⟩
        · intro z c hc
          by_cases hzx : z = x
          · subst hzx; rw [e1] at hc; cases hc; exact ⟨hae, .inr (empty_covers (b := a.base) h0)⟩
          · by_cases hzy : z = y
            · subst hzy; rw [e2] at hc; cases hc; exact ⟨hae, .inr (empty_covers h0)⟩
            · rw [e3 z hzx hzy] at hc; exact ⟨H.intact.order z c hc, .inl hc⟩
        · intro z c q hc hq
          have hzx : z ≠ x := by rintro rfl; rw [he] at hc; cases hc
          have hzy : z ≠ y := by rintro rfl; rw [ha] at hc; cases hc; exact empty_covers (b := a.base) h0 q hq
          exact ⟨z, by rw [e3 z hzx hzy]; exact hc⟩
        · intro z d hz
          try dsimp only at hz ⊢
          have hzx : z ≠ x := by rintro rfl; rw [hg] at hz; cases hz
          have hzy : z ≠ y := by rintro rfl; rw [hy] at hz; cases hz
          obtain ⟨k1, k2⟩ := H.gone z d hz
          exact ⟨by rw [e3 z hzx hzy]; exact k1, k2⟩
        · intro z hz
          try dsimp only at hz ⊢
          simp [mchanges] at hz
          exact ⟨⟨e3 z hz.1 hz.2, fun _ _ _ _ => rfl⟩, rfl⟩
        · simp only [mcheck]
          rw [hxn, hyn, Option.isSome_some, Bool.and_true, when_some rfl]
          congr 1
          funext z
          unfold Ctx.upd mctx ctxOf
          by_cases hzx : z = x
          · subst hzx; simp [hg, e1]
          · by_cases hzy : z = y
            · subst hzy; simp [hzx, hy, e2, ha]
            · simp [hzx, e3 z hzx hzy]
        · intro z hz
          try dsimp only at hz ⊢
          show if z = x then _ else _
          by_cases hzx : z = x
          · subst hzx; exact (hz hg).elim
          · rw [if_neg hzx]; exact .inr hz
      · have h0' : (prodL Arith.exact a.ext == 0) = false := by simpa using h0
        rw [h0', if_neg (by simp)]
        have e1 : ((W.w.bind W.w.mem x (some a)).bind W.w.mem y none).env x = some a := by simp [World.bind, hxy]
        have e2 : ((W.w.bind W.w.mem x (some a)).bind W.w.mem y none).env y = none := by simp [World.bind]
        have e3 : ∀ z, z ≠ x → z ≠ y → ((W.w.bind W.w.mem x (some a)).bind W.w.mem y none).env z = W.w.env z := by
          intro z h1 h2; simp [World.bind, h1, h2]
        refine ⟨⟨intact_map H.intact rfl (fun z => if z = x then y else z) ?_ ?_ ?_, ?_⟩, ?_, ?_, ?_⟩
        · intro z c hc
          by_cases hzx : z = x
          · subst hzx; rw [e1] at hc; cases hc; exact ⟨hae, .inl (by simpa using ha)⟩
          · by_cases hzy : z = y
            · subst hzy; rw [e2] at hc; cases hc
            · rw [e3 z hzx hzy] at hc; exact ⟨H.intact.order z c hc, .inl (by simpa [hzx] using hc)⟩
        · intro z z' hzz h1 h2
          have hz : z ≠ y := by rintro rfl; exact h1 e2
          have hz' : z' ≠ y := by rintro rfl; exact h2 e2
          by_cases hzx : z = x
          · subst hzx; simp only [if_true]; rw [if_neg (fun h => hzz h.symm)]; exact fun h => hz' h.symm
          · by_cases hzx' : z' = x
            · subst hzx'; simp only [if_true]; rw [if_neg hzx]; exact hz
            · simp only [hzx, hzx', if_false]; exact hzz
        · intro z c q hc hq
          have hzx : z ≠ x := by rintro rfl; rw [he] at hc; cases hc
          by_cases hzy : z = y
          · subst hzy; rw [ha] at hc; cases hc; exact ⟨x, e1⟩
          · exact ⟨z, by rw [e3 z hzx hzy]; exact hc⟩
        · intro z d hz
          try dsimp only at hz ⊢
          by_cases hzy : z = y
          · subst hzy; rw [mark_eq] at hz; cases hz; exact ⟨e2, hae⟩
          · rw [mark_ne _ hzy] at hz
            have hzx : z ≠ x := by rintro rfl; rw [hg] at hz; cases hz
            obtain ⟨k1, k2⟩ := H.gone z d hz
            exact ⟨by rw [e3 z hzx hzy]; exact k1, k2⟩
        · intro z hz
          try dsimp only at hz ⊢
          simp [mchanges] at hz
          exact ⟨⟨e3 z hz.1 hz.2, fun _ _ _ _ => rfl⟩, mark_ne _ hz.2 _⟩
        · simp only [mcheck]
          rw [hxn, hyn, Option.isSome_some, Bool.and_true, when_some rfl]
          congr 1
          funext z
          unfold Ctx.upd mctx ctxOf
          by_cases hzx : z = x
          · subst hzx; simp [mark_ne _ hxy, hg, e1]
          · by_cases hzy : z = y
            · subst hzy; simp [hzx, hy, mark_eq, ha]
            · simp [hzx, mark_ne _ hzy, e3 z hzx hzy]
        · intro z hz
          try dsimp only at hz ⊢
          show if z = x then _ else _
          by_cases hzx : z = x
          · subst hzx; rw [mark_ne _ hxy] at hz; exact (hz hg).elim
          · rw [if_neg hzx]
            by_cases hzy : z = y
            · exact .inl hzy
            · rw [mark_ne _ hzy] at hz; exact .inr hz
  | old s =>
    have hp : Provided s := hs s rfl
    have ordinary : (∀ x ∈ s.uses, W.gone x = none) → (∀ x ∈ changes s, x ∈ s.uses ∨ s.declares = some x) →
        (∀ x, W.gone x ≠ none → after (fun z => W.gone z ≠ none) (.old s) x) → (∀ x, s.declares = some x → (check (mctx W) s).isSome → (mctx W x).isNone = true) →
        Safe ((mcheck (mctx W) (.old s)).isSome)
          (if W.anyGone s.declares.toList then .error .illFormed else if W.anyGone s.uses then .error .ub else
            W.w.step Arith.exact true alloc s >>= fun w' => .ok ⟨w', W.gone⟩) (FineM W (.old s)) := by
      intro hu hch haf hdec
      by_cases hx : W.anyGone s.declares.toList = true
      · rw [if_pos hx]
        refine safe_ill fun h => ?_
        unfold MWorld.anyGone at hx
        rw [List.any_eq_true] at hx
        obtain ⟨x, h1, h2⟩ := hx
        have := hdec x (by simpa using h1) h
        rw [(env_none this).1] at h2; cases h2
      · rw [if_neg hx, noneGone (fun x h1 h2 => h1 (hu x h2)), if_neg (by simp)]
        refine fineM_old H hp hal hu ?_ haf
        intro x h
        rcases hch x h with h | h
        · exact hu x h
        · cases hg : W.gone x with
          | none => rfl
          | some d =>
            refine (hx ?_).elim
            unfold MWorld.anyGone
            rw [List.any_eq_true]
            exact ⟨x, by simp [h], by rw [hg]; rfl⟩
    have live_of : ∀ {x}, ¬ (W.gone x ≠ none) → W.gone x = none := fun h => not_not.1 h
    cases s with
    | make x e =>
      refine ordinary (fun z hz => live_of fun hg => hd z hg (uses_operand hz)) (by simp [changes, Stmt.declares]) (fun x h => h) ?_
      intro z hz hk
      simp only [Stmt.declares, Option.some.injEq] at hz; subst hz
      simp only [check] at hk
      cases hn : (mctx W x).isNone with
      | true => rfl
      | false => simp [hn, Spec.when] at hk
    | makeFill x s ext =>
      refine ordinary (fun z hz => live_of fun hg => hd z hg (uses_sc hz)) (by simp [changes, Stmt.declares]) (fun x h => h) ?_
      intro z hz hk
      simp only [Stmt.declares, Option.some.injEq] at hz; subst hz
      have := when_isSome hk
      simp only [Bool.and_eq_true] at this
      exact this.1.1
    | makeFrom x l ext =>
      refine ordinary (by simp [Stmt.uses]) (by simp [changes, Stmt.declares]) (fun x h => h) ?_
      intro z hz hk
      simp only [Stmt.declares, Option.some.injEq] at hz; subst hz
      have := when_isSome hk
      simp only [Bool.and_eq_true] at this
      exact this.1
    | fill x h s =>
      refine ordinary (fun z hz => live_of fun hg => hd z hg ?_) (by simp [changes, Stmt.uses]) (fun x h => h) nofun
      exact (List.mem_cons.1 hz).imp (fun h => h.symm) uses_sc
    | assign x h e =>
      refine ordinary (fun z hz => live_of fun hg => hd z hg ?_) (by simp [changes, Stmt.uses]) (fun x h => h) nofun
      exact (List.mem_cons.1 hz).imp (fun h => h.symm) uses_operand
    | inPlace x h op e =>
      refine ordinary (fun z hz => live_of fun hg => hd z hg ?_) (by simp [changes, Stmt.uses]) (fun x h => h) nofun
      exact (List.mem_cons.1 hz).imp (fun h => h.symm) uses_operand
    | inPlaceScalar x h op s =>
      refine ordinary (fun z hz => live_of fun hg => hd z hg ?_) (by simp [changes, Stmt.uses]) (fun x h => h) nofun
      exact (List.mem_cons.1 hz).imp (fun h => h.symm) uses_sc
    | apply x h f =>
      refine ordinary (fun z hz => live_of fun hg => hd z hg ?_) (by simp [changes, Stmt.uses]) (fun x h => h) nofun
      simp only [Stmt.uses, List.mem_singleton] at hz; exact hz.symm
    | overlap x h e =>
      refine ordinary (fun z hz => live_of fun hg => hd z hg ?_) (by simp [changes, Stmt.uses]) (fun x h => h) nofun
      exact (List.mem_cons.1 hz).imp (fun h => h.symm) uses_operand
    | drop x =>
      simp only [MWorld.step]
      cases hg : W.gone x with
      | none =>
        refine fineM_old H hp hal (by simp [Stmt.uses]) (by simpa [changes] using hg) fun z hz => ⟨?_, hz⟩
        rintro rfl; exact hz hg
      | some d =>
        refine ⟨⟨H.intact, ?_⟩, ?_, ?_, ?_⟩
        · intro z d' hz
          try dsimp only at hz ⊢
          have hzx : z ≠ x := by rintro rfl; rw [mark_eq] at hz; cases hz
          rw [mark_ne _ hzx] at hz
          exact H.gone z d' hz
        · intro z hz
          try dsimp only at hz ⊢
          have hzx : z ≠ x := by simpa [mchanges, changes] using hz
          exact ⟨sameArray_refl _ _, mark_ne _ hzx _⟩
        · simp only [mcheck, check]
          rw [when_some (by simp [mctx, hg])]
          congr 1
          funext z
          unfold Ctx.upd mctx ctxOf
          by_cases hzx : z = x
          · subst hzx; simp [mark_eq, (H.gone z d hg).1]
          · simp [hzx, mark_ne]
        · intro z hz
          try dsimp only at hz ⊢
          have hzx : z ≠ x := by rintro rfl; exact hz (mark_eq _ _ _)
          refine ⟨hzx, ?_⟩
          rwa [mark_ne _ hzx] at hz
    | overlapWhole x e =>
      have hu : ∀ z ∈ e.uses, W.gone z = none := fun z hz => live_of fun hg => hd z hg (uses_operand hz)
      have hng : W.anyGone e.uses = false := noneGone fun z h1 h2 => h1 (hu z h2)
      simp only [MWorld.step]
      cases hg : W.gone x with
      | none =>
        simp only [hng, Bool.false_eq_true, if_false]
        refine fineM_old H hp hal hu (by simpa [changes] using hg) fun z hz => ⟨?_, hz⟩
        rintro rfl; exact hz hg
      | some d =>
        simp only [hng, Bool.false_eq_true, if_false]
        obtain ⟨hx, hdn⟩ := H.gone x d hg
        have hmx : mctx W x = some d.length := by simp [mctx, hg]
        have heo : exOrder (mctx W) e = exOrder (ctxOf W.w) e := exOrder_overlay hu
        have hT : (mcheck (mctx W) (.old (.overlapWhole x e))).isSome → exOrder (ctxOf W.w) e = some d.length := by
          intro h
          have := when_isSome h
          rw [hmx, heo] at this
          simpa using this
        unfold MWorld.revive
        refine safe_bind (safe_ex H.intact hp) (fun h => by rw [hT h]; rfl) fun e' he' => ?_
        refine safe_bind he' (fun h => by rw [hT h]; rfl) ?_
        rintro src ⟨h1, h2⟩
        refine safe_bind (safe_sameOrder fun h => by rw [hT h] at h2; exact (Option.some.injEq _ _ ▸ h2)) ?_ ?_
        · exact fun h => h
        intro _ hlen
        simp only [Bool.false_and, Bool.false_eq_true, if_false]
        have hm : check (ctxOf W.w) (.make x e) = (exOrder (ctxOf W.w) e).map fun n => (ctxOf W.w).upd x (some n) := by
          simp [check, Spec.when, ctxOf, hx]
        refine safe_bind (step_fine H.intact (s := .make x e) hp hal) (fun h => by rw [hm, hT h]; rfl) ?_
        rintro w' ⟨k1, k2, k3⟩
        refine ⟨⟨k1, ?_⟩, ?_, ?_, ?_⟩
        · intro z d' hz
          try dsimp only at hz ⊢
          have hzx : z ≠ x := by rintro rfl; rw [mark_eq] at hz; cases hz
          rw [mark_ne _ hzx] at hz
          obtain ⟨q1, q2⟩ := H.gone z d' hz
          exact ⟨by rw [(k2 z (by simpa [changes] using hzx)).1]; exact q1, q2⟩
        · intro z hz
          try dsimp only at hz ⊢
          have hzx : z ≠ x := by simpa [mchanges, changes] using hz
          exact ⟨k2 z (by simpa [changes] using hzx), mark_ne _ hzx _⟩
        · have hlen' : d.length = src.dims.length := hlen
          rw [hm, h2, Option.map_some, Option.some.injEq] at k3
          simp only [mcheck, check]
          rw [when_some (by rw [hmx, heo, h2, ← hlen']; simp)]
          congr 1
          rw [mctx_overlay ⟨w', _⟩, ← k3]
          funext z
          unfold overlay Ctx.upd mctx
          by_cases hzx : z = x
          · subst hzx; simp [mark_eq, hg, hlen']
          · simp [hzx, mark_ne]; cases W.gone z <;> rfl
        · intro z hz
          try dsimp only at hz ⊢
          have hzx : z ≠ x := by rintro rfl; exact hz (mark_eq _ _ _)
          refine ⟨hzx, ?_⟩
          rwa [mark_ne _ hzx] at hz
    | set x e =>
      by_cases hself : e = .arr x []
      · subst hself
        simp only [MWorld.step]
        cases hg : W.gone x with
        | some d =>
          simp only [if_true]
          refine ⟨H, fun y _ => ⟨sameArray_refl _ _, rfl⟩, ?_, fun z h => h⟩
          have hmx : mctx W x = some d.length := by simp [mctx, hg]
          simp only [mcheck, check]
          rw [when_some]
          obtain ⟨k, hk⟩ : ∃ k, d.length = k + 1 := by
            cases d with
            | nil => exact ((H.gone x [] hg).2 rfl).elim
            | cons a l => exact ⟨l.length, rfl⟩
          simp [exOrder, chainKind, hmx, typeOf, viewOrder]
        | none =>
          have hng : W.anyGone (PEx.arr (α := α) x []).uses = false := noneGone fun z h1 h2 => by
            simp only [PEx.uses, List.mem_singleton] at h2; subst h2; exact h1 hg
          simp only [hng, Bool.false_eq_true, if_false]
          exact fineM_old H hp hal (by simpa [Stmt.uses, PEx.uses] using hg) (by simpa [changes] using hg) fun z h => h
      · have hx : W.gone x = none := live_of fun hg => hd x hg ⟨.inr rfl, hself⟩
        have hu : ∀ z ∈ e.uses, W.gone z = none := fun z hz => live_of fun hg => hd z hg ⟨.inl (uses_operand hz), hself⟩
        have hng : W.anyGone e.uses = false := noneGone fun z h1 h2 => h1 (hu z h2)
        simp only [MWorld.step, hx, hng, Bool.false_eq_true, if_false]
        exact fineM_old H hp hal hu (by simpa [changes] using hx) fun z h => h
    | moveAssign x y =>
      have hT : (mcheck (mctx W) (.old (.moveAssign x y) : MStmt α)).isSome → (mctx W x).isSome = true ∧ mctx W x = mctx W y := by
        intro h
        have := when_isSome h
        simpa using this
      simp only [MWorld.step]
      refine safe_bind (safe_dbg _ _) (fun h => h) fun _ hxy => ?_
      have hxy : x ≠ y := by simpa using hxy
      cases hgx : W.gone x with
      | none =>
        cases hgy : W.gone y with
        | none =>
          refine fineM_old H hp hal (by simp [Stmt.uses]) (by simp [changes, hgx, hgy]) fun z hz => ?_
          show if z = x then _ else _
          by_cases hzx : z = x
          · subst hzx; exact (hz hgx).elim
          · rw [if_neg hzx]
            by_cases hzy : z = y
            · subst hzy; exact (hz hgy).elim
            · rw [if_neg hzy]; exact hz
        | some d =>
          obtain ⟨hey, hdn⟩ := H.gone y d hgy
          have hmy : mctx W y = some d.length := by simp [mctx, hgy]
          refine safe_bind (safe_get x) (fun h => by simpa [mctx, hgx] using (hT h).1) fun a ha => ?_
          have hmx : mctx W x = some a.ext.length := by simp [mctx, hgx, ctxOf, ha]
          refine safe_bind (safe_sameOrder fun h => by have := (hT h).2; rw [hmx, hmy] at this; exact Option.some.inj this) (fun h => h) fun _ hlen => ?_
          have e1 : ((W.w.bind W.w.mem x none).bind W.w.mem y (some a)).env x = none := by simp [World.bind, hxy]
          have e2 : ((W.w.bind W.w.mem x none).bind W.w.mem y (some a)).env y = some a := by simp [World.bind]
          have e3 : ∀ z, z ≠ x → z ≠ y → ((W.w.bind W.w.mem x none).bind W.w.mem y (some a)).env z = W.w.env z := by
            intro z h1 h2; simp [World.bind, h1, h2]
          refine ⟨⟨intact_map H.intact rfl (fun z => if z = y then x else z) ?_ ?_ ?_, ?_⟩, ?_, ?_, ?_⟩
          · intro z c hc
            by_cases hzy : z = y
            · subst hzy; rw [e2] at hc; cases hc; exact ⟨H.intact.order x a ha, .inl (by simpa using ha)⟩
            · by_cases hzx : z = x
              · subst hzx; rw [e1] at hc; cases hc
              · rw [e3 z hzx hzy] at hc; exact ⟨H.intact.order z c hc, .inl (by simpa [hzy] using hc)⟩
          · intro z z' hzz h1 h2
            have hz : z ≠ x := by rintro rfl; exact h1 e1
            have hz' : z' ≠ x := by rintro rfl; exact h2 e1
            by_cases hzx : z = y
            · subst hzx; simp only [if_true]; rw [if_neg (fun h => hzz h.symm)]; exact fun h => hz' h.symm
            · by_cases hzx' : z' = y
              · subst hzx'; simp only [if_true]; rw [if_neg hzx]; exact hz
              · simp only [hzx, hzx', if_false]; exact hzz
          · intro z c q hc hq
            have hzy : z ≠ y := by rintro rfl; rw [hey] at hc; cases hc
            by_cases hzx : z = x
            · subst hzx; rw [ha] at hc; cases hc; exact ⟨y, e2⟩
            · exact ⟨z, by rw [e3 z hzx hzy]; exact hc⟩
          · intro z d' hz
            try dsimp only at hz ⊢
            have hzy : z ≠ y := by rintro rfl; rw [mark_eq] at hz; cases hz
            rw [mark_ne _ hzy] at hz
            by_cases hzx : z = x
            · subst hzx; rw [mark_eq] at hz; cases hz; exact ⟨e1, hdn⟩
            · rw [mark_ne _ hzx] at hz
              obtain ⟨k1, k2⟩ := H.gone z d' hz
              exact ⟨by rw [e3 z hzx hzy]; exact k1, k2⟩
          · intro z hz
            try dsimp only at hz ⊢
            simp [mchanges, changes] at hz
            exact ⟨⟨e3 z hz.1 hz.2, fun _ _ _ _ => rfl⟩, by rw [mark_ne _ hz.2, mark_ne _ hz.1]⟩
          · have hlen' : a.ext.length = d.length := hlen
            simp only [mcheck, check]
            rw [when_some (by rw [hmx, hmy, hlen']; simp)]
            congr 1
            funext z
            by_cases hzy : z = y
            · subst hzy; rw [hmy]; simp [mctx, mark_eq, ctxOf, e2, hlen']
            · by_cases hzx : z = x
              · subst hzx; rw [hmx]; simp [mctx, mark_ne _ hzy, mark_eq, hlen']
              · simp [mctx, mark_ne _ hzy, mark_ne _ hzx, ctxOf, e3 z hzx hzy]
          · intro z hz
            try dsimp only at hz ⊢
            have hzy : z ≠ y := by rintro rfl; exact hz (mark_eq _ _ _)
            rw [mark_ne _ hzy] at hz
            show if z = x then _ else _
            by_cases hzx : z = x
            · rw [if_pos hzx]; show W.gone y ≠ none; rw [hgy]; simp
            · rw [if_neg hzx, if_neg hzy]; rwa [mark_ne _ hzx] at hz
      | some d =>
        obtain ⟨hex, hdn⟩ := H.gone x d hgx
        have hmx : mctx W x = some d.length := by simp [mctx, hgx]
        cases hgy : W.gone y with
        | none =>
          refine safe_bind (safe_get y) (fun h => by have h1 := (hT h).1; rw [(hT h).2] at h1; simpa [mctx, hgy] using h1) fun b hb => ?_
          have hmy : mctx W y = some b.ext.length := by simp [mctx, hgy, ctxOf, hb]
          refine safe_bind (safe_sameOrder fun h => by have := (hT h).2; rw [hmx, hmy] at this; exact Option.some.inj this) (fun h => h) fun _ hlen => ?_
          have e1 : ((W.w.bind W.w.mem x (some b)).bind W.w.mem y none).env x = some b := by simp [World.bind, hxy]
          have e2 : ((W.w.bind W.w.mem x (some b)).bind W.w.mem y none).env y = none := by simp [World.bind]
          have e3 : ∀ z, z ≠ x → z ≠ y → ((W.w.bind W.w.mem x (some b)).bind W.w.mem y none).env z = W.w.env z := by
            intro z h1 h2; simp [World.bind, h1, h2]
          refine ⟨⟨intact_map H.intact rfl (fun z => if z = x then y else z) ?_ ?_ ?_, ?_⟩, ?_, ?_, ?_⟩
          · intro z c hc
            by_cases hzx : z = x
            · subst hzx; rw [e1] at hc; cases hc; exact ⟨H.intact.order y b hb, .inl (by simpa using hb)⟩
            · by_cases hzy : z = y
              · subst hzy; rw [e2] at hc; cases hc
              · rw [e3 z hzx hzy] at hc; exact ⟨H.intact.order z c hc, .inl (by simpa [hzx] using hc)⟩
          · intro z z' hzz h1 h2
            have hz : z ≠ y := by rintro rfl; exact h1 e2
            have hz' : z' ≠ y := by rintro rfl; exact h2 e2
            by_cases hzx : z = x
            · subst hzx; simp only [if_true]; rw [if_neg (fun h => hzz h.symm)]; exact fun h => hz' h.symm
            · by_cases hzx' : z' = x
              · subst hzx'; simp only [if_true]; rw [if_neg hzx]; exact hz
              · simp only [hzx, hzx', if_false]; exact hzz
          · intro z c q hc hq
            have hzx : z ≠ x := by rintro rfl; rw [hex] at hc; cases hc
            by_cases hzy : z = y
            · subst hzy; rw [hb] at hc; cases hc; exact ⟨x, e1⟩
            · exact ⟨z, by rw [e3 z hzx hzy]; exact hc⟩
          · intro z d' hz
            try dsimp only at hz ⊢
            by_cases hzy : z = y
            · subst hzy; rw [mark_eq] at hz; cases hz; exact ⟨e2, hdn⟩
            · rw [mark_ne _ hzy] at hz
              have hzx : z ≠ x := by rintro rfl; rw [mark_eq] at hz; cases hz
              rw [mark_ne _ hzx] at hz
              obtain ⟨k1, k2⟩ := H.gone z d' hz
              exact ⟨by rw [e3 z hzx hzy]; exact k1, k2⟩
          · intro z hz
            try dsimp only at hz ⊢
            simp [mchanges, changes] at hz
            exact ⟨⟨e3 z hz.1 hz.2, fun _ _ _ _ => rfl⟩, by rw [mark_ne _ hz.2, mark_ne _ hz.1]⟩
          · have hlen' : d.length = b.ext.length := hlen
            simp only [mcheck, check]
            rw [when_some (by rw [hmx, hmy, hlen']; simp)]
            congr 1
            funext z
            by_cases hzy : z = y
            · subst hzy; rw [hmy]; simp [mctx, mark_eq, hlen']
            · by_cases hzx : z = x
              · subst hzx; rw [hmx]; simp [mctx, mark_ne _ hzy, mark_eq, ctxOf, e1, hlen']
              · simp [mctx, mark_ne _ hzy, mark_ne _ hzx, ctxOf, e3 z hzx hzy]
          · intro z hz
            try dsimp only at hz ⊢
            show if z = x then _ else _
            by_cases hzx : z = x
            · subst hzx; rw [mark_ne _ hxy, mark_eq] at hz; exact (hz rfl).elim
            · rw [if_neg hzx]
              by_cases hzy : z = y
              · rw [if_pos hzy]; show W.gone x ≠ none; rw [hgx]; simp
              · rw [if_neg hzy]; rwa [mark_ne _ hzy, mark_ne _ hzx] at hz
        | some d' =>
          have hmy : mctx W y = some d'.length := by simp [mctx, hgy]
          refine safe_bind (safe_sameOrder fun h => by have := (hT h).2; rw [hmx, hmy] at this; exact Option.some.inj this) (fun h => h) fun _ hlen => ?_
          refine ⟨⟨H.intact, ?_⟩, ?_, ?_, ?_⟩
          · intro z d2 hz
            try dsimp only at hz ⊢
            by_cases hzy : z = y
            · subst hzy; rw [mark_eq] at hz; cases hz; exact ⟨(H.gone z d' hgy).1, hdn⟩
            · rw [mark_ne _ hzy] at hz
              by_cases hzx : z = x
              · subst hzx; rw [mark_eq] at hz; cases hz; exact ⟨hex, (H.gone y d' hgy).2⟩
              · rw [mark_ne _ hzx] at hz; exact H.gone z d2 hz
          · intro z hz
            try dsimp only at hz ⊢
            simp [mchanges, changes] at hz
            exact ⟨sameArray_refl _ _, by rw [mark_ne _ hz.2, mark_ne _ hz.1]⟩
          · have hlen' : d.length = d'.length := hlen
            simp only [mcheck, check]
            rw [when_some (by rw [hmx, hmy, hlen']; simp)]
            congr 1
            funext z
            by_cases hzy : z = y
            · subst hzy; rw [hmy]; simp [mctx, mark_eq, hlen']
            · by_cases hzx : z = x
              · subst hzx; rw [hmx]; simp [mctx, mark_ne _ hzy, mark_eq, hlen']
              · simp [mctx, mark_ne _ hzy, mark_ne _ hzx]
          · intro z hz
            try dsimp only at hz ⊢
            show if z = x then _ else _
            by_cases hzx : z = x
            · rw [if_pos hzx]; show W.gone y ≠ none; rw [hgy]; simp
            · rw [if_neg hzx]
              by_cases hzy : z = y
              · rw [if_pos hzy]; show W.gone x ≠ none; rw [hgx]; simp
              · rw [if_neg hzy]; rwa [mark_ne _ hzy, mark_ne _ hzx] at hz

/-! ### The theorems -/

theorem shaped_intact (H : IntactM W) : Shaped W.w := H.intact.order

/-- **C77.** One statement of any program, whichever allocations fail: memory stays intact, the arrays that are not mentioned keep their elements, and only the arrays
that were moved become moved-from; or it throws and has no effect; or an assertion fails; or it does not compile; or it is terminated for lack of memory. -/
theorem C77_step (H : IntactM W) {s : MStmt α} (hs : ∀ t, s = .old t → Provided t) (hd : ∀ x, W.gone x ≠ none → ¬ Misuses x s) (F : Nat → Bool)
    {alloc : Nat → Mem α → Nat → Nat} (hal : GoodAlloc alloc) (n : Nat) :
    (∃ W' n', W.stepO F Arith.exact true alloc n s = .ok W' n' ∧ n ≤ n' ∧ IntactM W' ∧
      (∀ y, y ∉ mchanges s → SameArray W.w W'.w y ∧ W'.gone y = W.gone y) ∧ mcheck (mctx W) s = some (mctx W') ∧
      ∀ x, W'.gone x ≠ none → after (fun z => W.gone z ≠ none) s x) ∨
    (∃ w' k, W.stepO F Arith.exact true alloc n s = .thrown w' (k + 1) ∧ n ≤ k ∧ F k = true ∧ w'.mem = W.w.mem ∧ w'.env = W.w.env) ∨
    W.stepO F Arith.exact true alloc n s = .fail .assert ∨
    (W.stepO F Arith.exact true alloc n s = .fail .illFormed ∧ mcheck (mctx W) s = none) ∨
    (W.stepO F Arith.exact true alloc n s = .fail .terminate ∧ ∃ k, n ≤ k ∧ F k = true) := by
  have hf := mstep_fine H hs hal hd
  rcases mstepO_ends (S := F) (A := Arith.exact) (chk := true) (alloc := alloc) (shaped_intact H) (fun x d h => (H.gone x d h).1) n s with
    ⟨w', n', g1, g2, g3, g4⟩ | ⟨j, g1, g2, g3, g4⟩ | ⟨j, g1, g2, g3, g4⟩ | ⟨e, g1, g2⟩
  · rw [g2] at hf
    have hf : FineM W s w' := hf
    exact .inl ⟨w', n', g1, g3, hf.intact, hf.same, hf.types, hf.moved⟩
  · exact .inr (.inl ⟨_, j, g1, g2, g3, rfl, rfl⟩)
  · exact .inr (.inr (.inr (.inr ⟨g1, j, g2, g3⟩)))
  · rw [g2] at hf
    rcases hf with rfl | ⟨rfl, h⟩
    · exact .inr (.inr (.inl g1))
    · refine .inr (.inr (.inr (.inl ⟨g1, ?_⟩)))
      cases hc : mcheck (mctx W) s with
      | none => rfl
      | some Γ => rw [hc] at h; exact (h rfl).elim

theorem after_mono {g g' : Nat → Prop} (h : ∀ x, g x → g' x) (s : MStmt α) : ∀ x, after g s x → after g' s x := by
  intro x
  cases s with
  | declare y n => exact h x
  | moveMake a b =>
    intro hx
    change (if x = a then g b else x = b ∨ g x) at hx
    show if x = a then g' b else x = b ∨ g' x
    split at hx
    · next hxa => rw [if_pos hxa]; exact h b hx
    · next hxa => rw [if_neg hxa]; exact hx.imp (fun h => h) (h x)
  | old s =>
    cases s with
    | drop y => exact fun hx => ⟨hx.1, h x hx.2⟩
    | overlapWhole y e => exact fun hx => ⟨hx.1, h x hx.2⟩
    | moveAssign a b =>
      intro hx
      change (if x = a then g b else if x = b then g a else g x) at hx
      show if x = a then g' b else if x = b then g' a else g' x
      split at hx
      · next hxa => rw [if_pos hxa]; exact h b hx
      · next hxa =>
        rw [if_neg hxa]
        split at hx
        · next hxb => rw [if_pos hxb]; exact h a hx
        · next hxb => rw [if_neg hxb]; exact h x hx
    | _ => exact h x

theorem intactM_clock (H : IntactM W) (k : Nat) : IntactM ⟨⟨W.w.mem, W.w.env, k⟩, W.gone⟩ :=
  ⟨⟨H.intact.order, H.intact.live, H.intact.sep, H.intact.only, H.intact.finite⟩, H.gone⟩

theorem mctx_clock (k : Nat) : mctx ⟨⟨W.w.mem, W.w.env, k⟩, W.gone⟩ = mctx W := rfl

theorem safe_elements {src : EObj α} {m : Mem α} (h : GoodSrc m src) : ∃ xs, src.elements m = .ok xs := by
  obtain ⟨xs, h1, _⟩ := mapM_exists (f := fun k => src.it.deref m k) (l := List.range (prod src.dims))
    fun k hk => h.2.2 m (keeps_refl m) k (List.mem_range.1 hk)
  exact ⟨xs, by unfold EObj.elements; rw [h.2.1]; exact h1⟩

/-- **C77.** Any program that compiles, does not use arrays it has moved from, and meets the two conditions the library does not check, in checked builds, from any
intact state and whichever allocations fail: it ends with intact memory, or an assertion reports an error, or it is terminated because an allocation failed. It has no undefined
behaviour. -/
theorem C77_run {p : GProg α β} {g : Nat → Prop} (hc : CompilesG (mctx W) p) (hp : ProvidedG p) (hd : DisciplinedG g p) (hg : ∀ x, W.gone x ≠ none → g x) (H : IntactM W)
    (F : Nat → Bool) {alloc : Nat → Mem α → Nat → Nat} (hal : GoodAlloc alloc) (n : Nat) :
    (∃ W' b n', W.execO F Arith.exact true alloc n p = .ok W' b n' ∧ IntactM W') ∨
    W.execO F Arith.exact true alloc n p = .fail .assert ∨
    (W.execO F Arith.exact true alloc n p = .fail .terminate ∧ ∃ k, n ≤ k ∧ F k = true) := by
  have later : ∀ {x : GOut α β} {i j : Nat}, i ≤ j →
      ((∃ W' b n', x = .ok W' b n' ∧ IntactM W') ∨ x = .fail .assert ∨ (x = .fail .terminate ∧ ∃ k, j ≤ k ∧ F k = true)) →
      (∃ W' b n', x = .ok W' b n' ∧ IntactM W') ∨ x = .fail .assert ∨ (x = .fail .terminate ∧ ∃ k, i ≤ k ∧ F k = true) := by
    intro x i j hij h
    exact h.imp (fun h => h) fun h => h.imp (fun h => h) fun ⟨h, k, hk, hF⟩ => ⟨h, k, by omega, hF⟩
  induction p generalizing W g n with
  | ret b => exact .inl ⟨W, b, n, rfl, H⟩
  | exec s k ih =>
    obtain ⟨Γ, hc1, hc2, hc3⟩ := hc
    obtain ⟨hp1, hp2⟩ := hp
    obtain ⟨hd1, hd2, hd3⟩ := hd
    rw [MWorld.execO]
    rcases C77_step H hp1 (fun x hx => hd1 x (hg x hx)) F hal n with
      ⟨W', n', h1, h2, h3, _, h5, h6⟩ | ⟨w', j, h1, h2, h3, h4, h5⟩ | h1 | ⟨h1, h2⟩ | ⟨h1, h2⟩
    · rw [h1]
      rw [hc1] at h5; cases h5
      exact later h2 (ih true hc2 (hp2 _) hd2 (fun x hx => after_mono hg s x (h6 x hx)) h3 n')
    · rw [h1]
      obtain ⟨m, e, c⟩ := w'
      cases h4; cases h5
      exact later (by omega) (ih false (W := ⟨⟨W.w.mem, W.w.env, c⟩, W.gone⟩) hc3 (hp2 _) hd3 hg (intactM_clock H c) (j + 1))
    · rw [h1]; exact .inr (.inl rfl)
    · rw [hc1] at h2; cases h2
    · rw [h1]; exact .inr (.inr ⟨rfl, h2⟩)
  | read s k ih =>
    have hu : ∀ x ∈ s.uses, W.gone x = none := by
      intro x hx
      by_cases h : W.gone x = none
      · exact h
      · exact (hd.1 x (hg x h) (uses_sc hx)).elim
    rw [MWorld.execO, noneGone (fun x h hx => h (hu x hx)), if_neg (by simp)]
    have hq := quiet_bind' (quiet_scO (S := F) (A := Arith.exact) (chk := true) (shaped_intact H) s) (fun c _ => quiet_lift (c.get W.w.mem))
    have ht : scTyped (ctxOf W.w) s = true := by rw [← scTyped_overlay (g := W.gone) hu]; exact hc.1
    have hs : Safe True (s.eval Arith.exact true W.w >>= fun c => c.get W.w.mem) (fun _ => True) := by
      refine safe_bind (safe_sc H.intact hp.1) (fun _ => ht) fun c hc => ?_
      obtain ⟨v, hv⟩ := hc.2 _ (keeps_refl _)
      rw [hv]; trivial
    rcases hq W.w.mem n with ⟨b, m', n', g1, g2, g3, _⟩ | ⟨j, g1, g2, g3, g4⟩ | ⟨j, g1, g2, g3, g4⟩ | ⟨e, g1, g2⟩
    · rw [g1]
      obtain ⟨v, _, hv⟩ := res_bind_ok.1 g2
      cases hv
      exact later g3 (ih _ (W := ⟨⟨W.w.mem, W.w.env, W.w.clock⟩, W.gone⟩) (hc.2 _) (hp.2 _) (hd.2 _) hg H n')
    · rw [g1]
      exact later (by omega) (ih _ (W := ⟨⟨W.w.mem, W.w.env, W.w.clock⟩, W.gone⟩) (hc.2 _) (hp.2 _) (hd.2 _) hg H (j + 1))
    · rw [g1]; exact .inr (.inr ⟨rfl, j, g2, g3⟩)
    · rw [g1]
      generalize (s.eval Arith.exact true W.w >>= fun c => c.get W.w.mem) = r at g2 hs
      cases r with
      | ok v => cases g2
      | error e' =>
        cases g2
        rcases hs with rfl | ⟨_, h⟩
        · exact .inr (.inl rfl)
        · exact (h trivial).elim
  | elements e k ih =>
    have hu : ∀ x ∈ e.uses, W.gone x = none := by
      intro x hx
      by_cases h : W.gone x = none
      · exact h
      · exact (hd.1 x (hg x h) (uses_operand hx)).elim
    rw [MWorld.execO, noneGone (fun x h hx => h (hu x hx)), if_neg (by simp)]
    have hq := quiet_bind' (quiet_exO (S := F) (A := Arith.exact) (chk := true) (shaped_intact H) e) (fun e' _ =>
      quiet_bind' (quiet_lift (e'.build Arith.exact true)) fun src _ => quiet_bind' (quiet_lift (src.elements W.w.mem)) fun xs _ => quiet_pure (src.dims, xs))
    have ht : (exOrder (ctxOf W.w) e).isSome := by rw [← exOrder_overlay (g := W.gone) hu]; exact hc.1
    have hs : Safe True (e.eval Arith.exact true W.w >>= fun e' => e'.build Arith.exact true >>= fun src => src.elements W.w.mem >>= fun xs => .ok (src.dims, xs))
        (fun _ => True) := by
      refine safe_bind (safe_ex H.intact hp.1) (fun _ => ht) fun e' he' => safe_bind he' (fun _ => ht) fun src hsrc => ?_
      obtain ⟨xs, hx⟩ := safe_elements hsrc.1
      rw [hx]; trivial
    rcases hq W.w.mem n with ⟨b, m', n', g1, g2, g3, _⟩ | ⟨j, g1, g2, g3, g4⟩ | ⟨j, g1, g2, g3, g4⟩ | ⟨e2, g1, g2⟩
    · rw [g1]
      obtain ⟨v, _, hv⟩ := res_bind_ok.1 g2
      cases hv
      exact later g3 (ih _ (W := ⟨⟨W.w.mem, W.w.env, W.w.clock⟩, W.gone⟩) (hc.2 _) (hp.2 _) (hd.2 _) hg H n')
    · rw [g1]
      exact later (by omega) (ih _ (W := ⟨⟨W.w.mem, W.w.env, W.w.clock⟩, W.gone⟩) (hc.2 _) (hp.2 _) (hd.2 _) hg H (j + 1))
    · rw [g1]; exact .inr (.inr ⟨rfl, j, g2, g3⟩)
    · rw [g1]
      generalize (e.eval Arith.exact true W.w >>= fun e' => e'.build Arith.exact true >>= fun src => src.elements W.w.mem >>= fun xs => Except.ok (src.dims, xs)) = r at g2 hs
      cases r with
      | ok v => cases g2
      | error e' =>
        cases g2
        rcases hs with rfl | ⟨_, h⟩
        · exact .inr (.inl rfl)
        · exact (h trivial).elim

theorem intactM_empty : IntactM (MWorld.empty : MWorld α) := ⟨intact_empty, nofun⟩

/-- **C77.** Whole programs: they end with intact memory, with a failed assertion, or, only if an allocation failed, by `std::terminate`. -/
theorem C77_program {p : GProg α β} (hc : CompilesG (fun _ => none) p) (hp : ProvidedG p) (hd : DisciplinedG (fun _ => False) p) (F : Nat → Bool)
    {alloc : Nat → Mem α → Nat → Nat} (hal : GoodAlloc alloc) :
    (∃ W' b n', MWorld.empty.execO F Arith.exact true alloc 0 p = .ok W' b n' ∧ IntactM W') ∨
    MWorld.empty.execO F Arith.exact true alloc 0 p = .fail .assert ∨
    (MWorld.empty.execO F Arith.exact true alloc 0 p = .fail .terminate ∧ ∃ k, F k = true) := by
  refine (C77_run (W := MWorld.empty) (g := fun _ => False) hc hp hd (fun x h => h rfl) intactM_empty F hal 0).imp (fun h => h) fun h => h.imp (fun h => h) ?_
  rintro ⟨h, k, _, hk⟩
  exact ⟨h, k, hk⟩

/-- **C77.** When all arrays have been destroyed or moved from, no memory is in use, whatever threw on the way. -/
theorem C77_no_leak (H : IntactM W) (h : ∀ x, W.w.env x = none) (q : Nat) : W.w.mem q = none := C68_no_leak H.intact h q

end

/-! ### Examples -/

/-- A vector is moved into another one; the position read from an element selects elements for a new value of the moved-from vector, which is then used again. -/
def exMoves : GProg Nat (Option Nat) :=
  .exec (.old (.makeFrom 0 [2, 7, 5] [3])) fun ok =>
    if ok then .exec (.moveMake 1 0) fun ok =>
      if ok then .read (.elem 1 [.at 0]) fun r =>
        .exec (.old (.overlapWhole 0 (.arr 1 [.rng [r.getD 0, 1]]))) fun ok =>
          if ok then .read (.elem 0 [.at 0]) .ret
          else .ret none
      else .ret none
    else .ret none

/-- The hypotheses are met. -/
theorem exMoves_meets : CompilesG (fun _ => none) exMoves ∧ ProvidedG exMoves ∧ DisciplinedG (fun _ => False) exMoves := by
  have st : ∀ i : Nat, StepsOK [.at i] := by intro i s m h; simp at h
  have st' : ∀ l, StepsOK [.rng l] := by intro i s m h; simp at h
  have split : ∀ {P : Bool → Prop}, P true → P false → ∀ b, P b := by intro P h1 h2 b; cases b <;> assumption
  refine ⟨⟨_, rfl, ⟨_, rfl, ⟨rfl, fun o => ⟨_, rfl, ⟨rfl, fun _ => trivial⟩, trivial⟩⟩, trivial⟩, trivial⟩, ?_, ?_⟩
  · refine ⟨?_, split ⟨nofun, split ⟨st 0, fun o => ⟨?_, split ⟨st 0, fun _ => trivial⟩ trivial⟩⟩ trivial⟩ trivial⟩
    · intro t ht; cases ht; exact Nat.le_refl 3
    · intro t ht; cases ht; exact st' _
  · refine ⟨fun _ h => h.elim, ⟨fun _ h => h.elim, ⟨?_, fun o => ⟨?_, ⟨?_, fun _ => trivial⟩, trivial⟩⟩, trivial⟩, trivial⟩
    · rintro x hx hs
      cases hs; exact hx
    · intro x hx hs
      have : x = 1 := hs.symm
      subst this
      exact hx
    · rintro x hx hs
      cases hs; exact hx.1 rfl

example (F : Nat → Bool) :
    (∃ W' b n', MWorld.empty.execO F Arith.exact true goodAlloc_exists.choose 0 exMoves = .ok W' b n' ∧ IntactM W') ∨
    MWorld.empty.execO F Arith.exact true goodAlloc_exists.choose 0 exMoves = .fail .assert ∨
    (MWorld.empty.execO F Arith.exact true goodAlloc_exists.choose 0 exMoves = .fail .terminate ∧ ∃ k, F k = true) :=
  C77_program exMoves_meets.1 exMoves_meets.2.1 exMoves_meets.2.2 F goodAlloc_exists.choose_spec

example : GOut.result (MWorld.empty.execO (fun _ => false) Arith.exact true exAlloc 0 exMoves) = some (some 5, 4) := by decide +kernel
example : GOut.result (MWorld.empty.execO (· == 2) Arith.exact true exAlloc 0 exMoves) = some (none, 3) := by decide +kernel

/-- Without the discipline, reading the moved-from array is undefined behaviour also in checked builds. -/
def exMisuse : GProg Nat (Option Nat) :=
  .exec (.old (.makeFrom 0 [2, 7, 5] [3])) fun _ => .exec (.moveMake 1 0) fun _ => .read (.elem 0 [.at 0]) .ret

/-- **C77.** The discipline is needed: the library does not detect the use of a moved-from array. -/
theorem C77_undisciplined : GOut.failure (MWorld.empty.execO (fun _ => false) Arith.exact true exAlloc 0 exMisuse) = some .ub := by decide +kernel

/-! ### The hypotheses hold in concrete cases -/

example (F : Nat → Bool) := C77_step (α := Nat) intactM_empty (s := .old (.makeFrom 0 [2, 7, 5] [3]))
  (by rintro t ⟨⟩; show prod [3] ≤ 3; decide) (fun x h => (h rfl).elim) F goodAlloc_exists.choose_spec 0
example (F : Nat → Bool) := C77_run (W := MWorld.empty) exMoves_meets.1 exMoves_meets.2.1 exMoves_meets.2.2 (fun x h => h rfl) intactM_empty F goodAlloc_exists.choose_spec 0
example := C77_no_leak (α := Nat) intactM_empty (fun _ => rfl)

end Jules.Props

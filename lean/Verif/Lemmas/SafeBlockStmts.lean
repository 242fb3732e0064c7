import Verif.Lemmas.SafeBlockNew
import Verif.Spec.DebugThrows
/-
Lemmas for C87: all statements in checked builds.
-/
namespace Jules
open Spec Props

section
variable {α : Type} {W : BWorld α} {S : MStore α} {lost : List Nat} {T : Nat → Bool} {alloc : Nat → List (Nat × Nat) → Nat → Option Nat} {nx : Bool}

/-- The same expression but for the functions. -/
structure LikeE (e : FEx α) (e' : PEx α) : Prop where
  order : ∀ Γ, exOrder Γ (shapeE e) = exOrder Γ e'
  steps : ExSteps e' → ExSteps (shapeE e)
  uses : ∀ z ∈ e.uses, Operand z e'
  self : ∀ x, e' = .arr x [] ↔ e = .arr x []
  chains : exChains (shapeE e) = exChains e'

theorem likeE_shape (e : FEx α) : LikeE e (shapeE e) where
  order _ := rfl
  steps h := h
  uses z hz := by rw [fex_uses] at hz; exact uses_operand hz
  self x := by cases e <;> simp [shapeE]
  chains := rfl

theorem exOrder_total (Γ : Ctx) : ∀ e : PEx α, exOrder Γ (shapeE (totalE e)) = exOrder Γ e
  | .arr x h => rfl
  | .un f e => exOrder_total Γ e
  | .bin f a b => by simp only [totalE, shapeE, exOrder, exOrder_total Γ a, exOrder_total Γ b]
  | .scl f s e => by simp only [totalE, shapeE, exOrder, exOrder_total Γ e]
  | .scr f e s => by simp only [totalE, shapeE, exOrder, exOrder_total Γ e]

theorem exSteps_total : ∀ e : PEx α, ExSteps e → ExSteps (shapeE (totalE e))
  | .arr x h, q => q
  | .un f e, q => exSteps_total e q
  | .bin f a b, q => ⟨exSteps_total a q.1, exSteps_total b q.2⟩
  | .scl f s e, q => ⟨q.1, exSteps_total e q.2⟩
  | .scr f e s, q => ⟨exSteps_total e q.1, q.2⟩

theorem operand_total {z : Nat} : ∀ e : PEx α, Operand z (shapeE (totalE e)) → Operand z e
  | .arr x h, q => q
  | .un f e, q => operand_total e q
  | .bin f a b, q => q.imp (operand_total a) (operand_total b)
  | .scl f s e, q => q.imp id (operand_total e)
  | .scr f e s, q => q.imp (operand_total e) id

theorem exChains_total : ∀ e : PEx α, exChains (shapeE (totalE e)) = exChains e
  | .arr x h => rfl
  | .un f e => exChains_total e
  | .bin f a b => by simp only [totalE, shapeE, exChains, exChains_total a, exChains_total b]
  | .scl f s e => by simp only [totalE, shapeE, exChains, exChains_total e]
  | .scr f e s => by simp only [totalE, shapeE, exChains, exChains_total e]

theorem likeE_total (e : PEx α) : LikeE (totalE e) e where
  order Γ := exOrder_total Γ e
  steps := exSteps_total e
  uses z hz := by rw [fex_uses] at hz; exact operand_total e (uses_operand hz)
  self x := by cases e <;> simp [totalE]
  chains := exChains_total e

/-- The same statement but for the functions. -/
inductive Alike {α : Type} : FStmt α → Stmt α → Prop
  | make {x e e'} : LikeE e e' → Alike (.make x e) (.make x e')
  | makeFrom {x l l' ext} : prod ext ≤ l.length → Alike (.makeFrom x l ext) (.makeFrom x l' ext)
  | assign {x h e e'} : LikeE e e' → Alike (.assign x h e) (.assign x h e')
  | inPlace {x h op op' e e'} : LikeE e e' → Alike (.inPlace x h op e) (.inPlace x h op' e')
  | inPlaceScalar {x h op op' s} : Alike (.inPlaceScalar x h op s) (.inPlaceScalar x h op' s)
  | apply {x h f f'} : Alike (.apply x h f) (.apply x h f')
  | overlap {x h e e'} : LikeE e e' → Alike (.overlap x h e) (.overlap x h e')
  | overlapWhole {x e e'} : LikeE e e' → Alike (.overlapWhole x e) (.overlapWhole x e')
  | set {x e e'} : LikeE e e' → Alike (.set x e) (.set x e')

theorem alike_shape {s : FStmt α} {t : Stmt α} (h : shapeS s = some t) (hp : XProvided (.wild s)) : Alike s t := by
  cases s <;> simp only [shapeS, Option.some.injEq, reduceCtorEq] at h <;> subst h
  · exact .make (likeE_shape _)
  · exact .makeFrom hp
  · exact .assign (likeE_shape _)
  · exact .inPlace (likeE_shape _)
  · exact .inPlaceScalar
  · exact .apply
  · exact .overlap (likeE_shape _)
  · exact .overlapWhole (likeE_shape _)
  · exact .set (likeE_shape _)

theorem check_when {c : Bool} {Γ Γ' : Ctx} (h : Spec.when c Γ = some Γ') : c = true ∧ Γ' = Γ := by
  unfold Spec.when at h
  split at h
  · next hc => exact ⟨hc, by cases h; rfl⟩
  · cases h

theorem alike_fine [Nonempty α] (H : BHolds W S lost) (hal : GoodBlocks alloc) {s : FStmt α} {t : Stmt α} (ha : Alike s t) {Γ' : Ctx}
    (hc : check (sctx S) t = some Γ') (hp : (∀ x l ext, t ≠ .makeFrom x l ext) → Provided t) (hd : ∀ x, S.moved x ≠ none → ¬ Misuses x (.old t)) :
    XFine W S lost Γ' (changes t) (goneAfter (fun z => S.moved z ≠ none) (.old t)) (∃ x e, s = .set x e) nx (W.fstep Arith.exact true nx T alloc s) := by
  have live : ∀ {x : Nat}, Misuses x (.old t) → S.moved x = none := fun h => by
    by_contra hn; exact hd _ hn h
  cases ha with
  | make he =>
    rename_i x e e'
    have hp : ExSteps e' := hp (by intro _ _ _ h; cases h)
    have hu : ∀ z ∈ e.uses, S.moved z = none := fun z hz => live (he.uses z hz)
    simp only [check, Spec.when] at hc
    split at hc
    · next hx =>
      simp only [Option.bind_some, Option.map_eq_some_iff] at hc
      obtain ⟨n, hn, rfl⟩ := hc
      exact fine_mono (fine_make H hal (by simpa using hx) (by rw [he.order]; exact hn) hu (he.steps hp)) (fun z hz => hz) False.elim
    · cases hc
  | makeFrom hl =>
    rename_i x l l' ext
    obtain ⟨h1, rfl⟩ := check_when hc
    simp only [Bool.and_eq_true, Option.isNone_iff_eq_none, decide_eq_true_eq] at h1
    exact fine_mono (fine_makeFrom H hal h1.1 h1.2 hl) (fun z hz => hz) False.elim
  | assign he =>
    rename_i x h e e'
    have hp : StepsOK h ∧ ExSteps e' := hp (by intro _ _ _ h; cases h)
    obtain ⟨h1, rfl⟩ := check_when hc
    simp only [Bool.and_eq_true] at h1
    exact fine_mono (fine_assign H (isEmpty_not h1.1) (by rw [he.order]; exact h1.2) (live (.inl rfl)) (fun z hz => live (.inr (he.uses z hz))) hp.1 (he.steps hp.2))
      (fun z hz => hz) False.elim
  | inPlace he =>
    rename_i x h op op' e e'
    have hp : StepsOK h ∧ ExSteps e' := hp (by intro _ _ _ h; cases h)
    obtain ⟨h1, rfl⟩ := check_when hc
    exact fine_mono (fine_inPlace H (by rw [he.order]; exact h1) (live (.inl rfl)) (fun z hz => live (.inr (he.uses z hz))) hp.1 (he.steps hp.2))
      (fun z hz => hz) False.elim
  | inPlaceScalar =>
    rename_i x h op op' s
    have hp : StepsOK h ∧ ScSteps s := hp (by intro _ _ _ h; cases h)
    obtain ⟨h1, rfl⟩ := check_when hc
    simp only [Bool.and_eq_true] at h1
    exact fine_mono (fine_inPlaceScalar H h1.1 h1.2 (live (.inl rfl)) (fun z hz => live (.inr (uses_sc hz))) hp.1 hp.2) (fun z hz => hz) False.elim
  | apply =>
    rename_i x h f f'
    have hp : StepsOK h := hp (by intro _ _ _ h; cases h)
    obtain ⟨h1, rfl⟩ := check_when hc
    exact fine_mono (fine_apply H h1 (live rfl) hp) (fun z hz => hz) False.elim
  | overlap he =>
    rename_i x h e e'
    have hp : StepsOK h ∧ ExSteps e' := hp (by intro _ _ _ h; cases h)
    obtain ⟨h1, rfl⟩ := check_when hc
    simp only [Bool.and_eq_true] at h1
    exact fine_mono (fine_overlap H hal (isEmpty_not h1.1) (by rw [he.order]; exact h1.2) (live (.inl rfl)) (fun z hz => live (.inr (he.uses z hz))) hp.1 (he.steps hp.2))
      (fun z hz => hz) False.elim
  | overlapWhole he =>
    rename_i x e e'
    have hp : ExSteps e' := hp (by intro _ _ _ h; cases h)
    obtain ⟨h1, rfl⟩ := check_when hc
    simp only [Bool.and_eq_true, beq_iff_eq] at h1
    obtain ⟨n, hn⟩ := Option.isSome_iff_exists.1 h1.1
    exact fine_mono (fine_overlapWhole H hal hn (by rw [he.order, h1.2, hn]) (fun z hz => live (he.uses z hz)) (he.steps hp)) (fun z hz => hz) False.elim
  | set he =>
    rename_i x e e'
    have hp : ExSteps e' := hp (by intro _ _ _ h; cases h)
    obtain ⟨h1, rfl⟩ := check_when hc
    simp only [Bool.and_eq_true, beq_iff_eq] at h1
    obtain ⟨n, hn⟩ := Option.isSome_iff_exists.1 h1.1
    refine fine_mono (fine_set H hal hn (by rw [he.order, h1.2, hn]) ?_ (he.steps hp)) (fun z hz => hz) (fun _ => ⟨x, e, rfl⟩)
    intro hne
    have hne' : e' ≠ .arr x [] := fun h => hne ((he.self x).1 h)
    exact ⟨live ⟨.inr rfl, hne'⟩, fun z hz => live ⟨.inl (he.uses z hz), hne'⟩⟩

theorem isSet_wild {s : FStmt α} (h : ∃ x e, s = .set x e) : IsSet (.wild s) := by
  obtain ⟨x, e, rfl⟩ := h
  exact .inl ⟨x, e, rfl⟩

/-- Statements without functions that throw. -/
theorem mstep_xfine [Nonempty α] (H : BHolds W S lost) (hal : GoodBlocks alloc) {t : MStmt α} (hnd : ¬ IsDrop t) {Γ' : Ctx} (hc : mcheck (sctx S) t = some Γ')
    (hp : XProvided (.calm t)) (hd : ∀ x, S.moved x ≠ none → ¬ Misuses x t) :
    XFine W S lost Γ' (mchanges t) (goneAfter (fun z => S.moved z ≠ none) t) (IsSet (.calm t)) nx (W.mstep Arith.exact true nx T alloc t) := by
  have live : ∀ {x : Nat}, Misuses x t → S.moved x = none := fun h => by
    by_contra hn; exact hd _ hn h
  cases t with
  | declare x n =>
    obtain ⟨h1, rfl⟩ := check_when hc
    simp only [Bool.and_eq_true, Option.isNone_iff_eq_none, bne_iff_ne] at h1
    exact fine_mono (fine_declare H h1.1 h1.2) (fun z hz => hz) False.elim
  | moveMake x y =>
    obtain ⟨h1, rfl⟩ := check_when hc
    simp only [Bool.and_eq_true, Option.isNone_iff_eq_none] at h1
    exact fine_mono (fine_moveMake H h1.1 h1.2) (fun z hz => hz) False.elim
  | old u =>
    have key : ∀ s : FStmt α, Alike s u → W.mstep Arith.exact true nx T alloc (.old u) = W.fstep Arith.exact true nx T alloc s →
        ((∃ x e, s = .set x e) → IsSet (.calm (.old u))) →
        XFine W S lost Γ' (mchanges (.old u)) (goneAfter (fun z => S.moved z ≠ none) (.old u)) (IsSet (.calm (.old u))) nx
          (W.mstep Arith.exact true nx T alloc (.old u)) := by
      intro s h1 h2 h3
      rw [h2]
      exact fine_mono (alike_fine H hal h1 hc (fun _ => hp) hd) (fun z hz => hz) h3
    cases u with
    | drop x => exact (hnd trivial).elim
    | moveAssign x y =>
      obtain ⟨h1, rfl⟩ := check_when hc
      simp only [Bool.and_eq_true, beq_iff_eq] at h1
      obtain ⟨n, hn⟩ := Option.isSome_iff_exists.1 h1.1
      exact fine_mono (fine_moveAssign H hn (by rw [← h1.2]; exact hn)) (fun z hz => hz) False.elim
    | makeFill x s ext =>
      obtain ⟨h1, rfl⟩ := check_when hc
      simp only [Bool.and_eq_true, Option.isNone_iff_eq_none, decide_eq_true_eq] at h1
      exact fine_mono (fine_makeFill H hal h1.1.1 h1.1.2 h1.2 (fun z hz => live (uses_sc hz)) hp) (fun z hz => hz) False.elim
    | fill x h s =>
      obtain ⟨h1, rfl⟩ := check_when hc
      simp only [Bool.and_eq_true] at h1
      exact fine_mono (fine_fill H (isEmpty_not h1.1.1) h1.1.2 h1.2 (live (.inl rfl)) (fun z hz => live (.inr (uses_sc hz))) hp.1 hp.2) (fun z hz => hz) False.elim
    | make x e => exact key _ (.make (likeE_total e)) (by simp only [BWorld.mstep, fallible_total]) (by rintro ⟨_, _, h⟩; cases h)
    | makeFrom x l ext => exact key _ (.makeFrom (by rw [List.length_map]; exact hp)) rfl (by rintro ⟨_, _, h⟩; cases h)
    | assign x h e => exact key _ (.assign (likeE_total e)) (by simp only [BWorld.mstep, fallible_total]) (by rintro ⟨_, _, h⟩; cases h)
    | inPlace x h op e => exact key (.inPlace x h (fun u y => (op u y, false)) (totalE e)) (.inPlace (likeE_total e)) (by simp only [BWorld.mstep, fallible_total]) (by rintro ⟨_, _, h⟩; cases h)
    | inPlaceScalar x h op s => exact key _ .inPlaceScalar rfl (by rintro ⟨_, _, h⟩; cases h)
    | apply x h f => exact key _ .apply rfl (by rintro ⟨_, _, h⟩; cases h)
    | overlap x h e => exact key _ (.overlap (likeE_total e)) (by simp only [BWorld.mstep, fallible_total]) (by rintro ⟨_, _, h⟩; cases h)
    | overlapWhole x e => exact key _ (.overlapWhole (likeE_total e)) (by simp only [BWorld.mstep, fallible_total]) (by rintro ⟨_, _, h⟩; cases h)
    | set x e => exact key _ (.set (likeE_total e)) (by simp only [BWorld.mstep, fallible_total]) (fun _ => .inr ⟨x, e, rfl⟩)

/-! ### One statement -/

/-- How a statement ends, including the names declared in the innermost block. -/
def SafeOut (S : MStore α) (lost : List Nat) (s : XStmt α) (Γ' : Ctx) (nx : Bool) (f : List Nat) (fs : List (List Nat)) : Res (BWorld α × Bool) → Prop
  | .ok r => r.1.scopes = ((if r.2 then [] else s.declares.toList) ++ f) :: fs ∧ ∃ S' lost', BHolds r.1 S' lost' ∧ (sctx S' = if r.2 then sctx S else Γ') ∧
      (∀ z, S'.moved z ≠ none → if r.2 then S.moved z ≠ none else xgone (fun z => S.moved z ≠ none) s z) ∧
      (∀ y, y ∉ xchanges s → S'.live y = S.live y ∧ S'.moved y = S.moved y) ∧
      (lost'.length = lost.length ∨ r.2 = true ∧ IsSet s ∧ lost'.length = lost.length + 1)
  | .error f => f = .assert ∨ f = .terminate ∧ nx = true

theorem sout_of {s : XStmt α} {t : MStmt α} (ht : erase s = some t) {Γ' : Ctx} {f : List Nat} {fs : List (List Nat)} (hf : W.scopes = f :: fs)
    {r : Res (BWorld α × Bool)} (h : XFine W S lost Γ' (mchanges t) (goneAfter (fun z => S.moved z ≠ none) t) (IsSet s) nx r) :
    SafeOut S lost s Γ' nx f fs (r >>= fun r => .ok (if r.2 then r else (r.1.declare s.declares, false))) := by
  cases r with
  | error f => exact h
  | ok r =>
    obtain ⟨W', t'⟩ := r
    obtain ⟨h1, S', lost', h2, h3, h4, h5, h6⟩ := h
    have hch : xchanges s = mchanges t := by simp [xchanges, ht]
    have hg : ∀ z, goneAfter (fun z => S.moved z ≠ none) t z → xgone (fun z => S.moved z ≠ none) s z := fun z hz => ⟨t, ht, hz⟩
    cases t' with
    | true => exact ⟨h1.trans hf, S', lost', h2, h3, h4, by rw [hch]; exact h5, h6⟩
    | false =>
      obtain ⟨d1, d2, d3⟩ := bdeclare (h1.trans hf) s.declares
      exact ⟨d1, S', lost', bholds_scopes h2 d2 d3, h3, fun z hz => hg z (h4 z hz), by rw [hch]; exact h5, h6⟩

theorem xstep_fine [Nonempty α] (H : BHolds W S lost) (hal : GoodBlocks alloc) {s : XStmt α} {Γ' : Ctx} (hc : xcheck (sctx S) s = some Γ') (hp : XProvided s)
    (hd : ∀ x, S.moved x ≠ none → ¬ XMisuses x s) {f : List Nat} {fs : List (List Nat)} (hf : W.scopes = f :: fs) :
    SafeOut S lost s Γ' nx f fs (W.step Arith.exact true nx T alloc s) := by
  unfold xcheck at hc
  rw [Option.bind_eq_some_iff] at hc
  obtain ⟨t, ht, hc⟩ := hc
  have hd' : ∀ x, S.moved x ≠ none → ¬ Misuses x t := fun x hx h => hd x hx ⟨t, ht, h⟩
  cases s with
  | wild s =>
    simp only [erase, Option.map_eq_some_iff] at ht
    obtain ⟨u, hu, rfl⟩ := ht
    have := sout_of (s := .wild s) (W := W) (t := .old u) (by simp [erase, hu]) hf
      (fine_mono (alike_fine (T := T) (nx := nx) H hal (alike_shape hu hp) hc (by
        intro hnf
        cases s with
        | makeFrom x l ext =>
          simp only [shapeS, Option.some.injEq] at hu
          exact (hnf _ _ _ hu.symm).elim
        | _ => exact hp _ hu) hd') (fun z hz => hz) isSet_wild)
    exact this
  | calm t' =>
    have hnd : ¬ IsDrop t' := by
      intro h
      cases t' with
      | old u =>
        cases u with
        | drop x => cases ht
        | _ => exact h
      | _ => exact h
    have htt : t = t' := by
      cases t' with
      | old u =>
        cases u with
        | drop x => cases ht
        | _ => cases ht; rfl
      | _ => cases ht; rfl
    subst htt
    rw [bstep_calm true nx alloc hnd]
    exact sout_of (s := .calm t) ht hf (mstep_xfine H hal hnd hc hp hd')

end
end Jules

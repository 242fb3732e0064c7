import Verif.Lemmas.Program64
import Verif.Spec.Whole64
import Verif.Props.SafeProg
import Verif.Props.Program64
/-
Statements of programs with moves: 64-bit and exact arithmetic agree (for C78).
-/
namespace Jules
open Spec Props

section
variable {α β γ : Type} {W : MWorld α} {alloc alloc' : Nat → Mem α → Nat → Nat}

theorem agr_ite {c : Prop} [Decidable c] {r r' t t' : Res β} {P : β → Prop} (h1 : c → Agr r r' P) (h2 : ¬ c → Agr t t' P) :
    Agr (if c then r else t) (if c then r' else t') P := by
  by_cases h : c
  · rw [if_pos h, if_pos h]; exact h1 h
  · rw [if_neg h, if_neg h]; exact h2 h

theorem belowM_mark (h : BelowM W) {w' : World α} (hw : Below w') {x : Nat} {d : Option (List Nat)}
    (hd : ∀ d', d = some d' → (∀ n ∈ d', n ≤ maxElems) ∧ prod d' ≤ maxElems) : BelowM ⟨w', MWorld.mark W.gone x d⟩ := by
  refine ⟨hw, fun z d' hz => ?_⟩
  dsimp only at hz
  by_cases hzx : z = x
  · subst hzx; rw [mark_eq] at hz; exact hd d' hz
  · rw [mark_ne _ hzx] at hz; exact h.moved z d' hz

theorem belowArr_small {c : Arr} (h : BelowArr c) : (∀ n ∈ c.ext, n ≤ maxElems) ∧ prod c.ext ≤ maxElems := ⟨h.1, by have := h.2; omega⟩

theorem belowArr_null {d : List Nat} (h : ∀ n ∈ d, n ≤ maxElems) (h0 : prod d = 0) : BelowArr ⟨0, d⟩ := ⟨h, by
  show 0 + prod d < maxElems
  rw [h0]; decide⟩

/-- What an allocation for the statement needs. -/
def AllocOK (w : World α) (alloc alloc' : Nat → Mem α → Nat → Nat) (s : Stmt α) : Prop :=
  alloc' w.clock w.mem (request (worldExts w) s) = alloc w.clock w.mem (request (worldExts w) s) ∧
    alloc w.clock w.mem (request (worldExts w) s) + request (worldExts w) s < maxElems

theorem revive_agr (hb : BelowM W) (hne : Shaped W.w) {x : Nat} {d : List Nat} (hx : W.gone x = some d) {e : PEx α}
    (he : ExFits (worldExts W.w) e) (hal : AllocOK W.w alloc alloc' (.make x e)) (into : Bool) :
    Agr (W.revive Arith.u64 true alloc x d e into) (W.revive Arith.exact true alloc' x d e into) BelowM := by
  unfold MWorld.revive
  refine agr_bind (ex_agr hb.live hne he) fun e' he' => agr_bind he' fun src hsrc => agr_bind agr_same fun _ _ => ?_
  rw [(prodL_fit (hb.moved x d hx).2).1, (prodL_fit (hb.moved x d hx).2).2, (prodL_fit hsrc.size).1, (prodL_fit hsrc.size).2]
  refine agr_ite (fun _ => agr_err) fun _ => agr_bind (step_agr hb.live hne (s := .make x e) he hal.1 hal.2) fun w' hw' => agr_ok ?_
  exact belowM_mark hb hw' nofun

theorem mstep_agr (hb : BelowM W) (hne : Shaped W.w) {s : MStmt α} (hs : ∀ t, s = .old t → IxsFit (worldExts W.w) t)
    (hal : ∀ t, s = .old t → AllocOK W.w alloc alloc' t) :
    Agr (W.step Arith.u64 true alloc s) (W.step Arith.exact true alloc' s) BelowM := by
  cases s with
  | declare x n =>
    refine agr_bind agr_same fun _ _ => agr_bind agr_same fun _ _ => agr_bind agr_same fun _ hn => agr_ok ⟨?_, hb.moved⟩
    refine below_bind hb.live _ _ fun c hc => ?_
    cases hc
    refine ⟨fun m hm => by rw [List.mem_replicate] at hm; omega, ?_⟩
    cases n with
    | zero => decide
    | succ n => show 0 + prod (List.replicate (n + 1) 0) < _; simp [List.replicate_succ, prod]; decide
  | moveMake x y =>
    refine agr_bind agr_same fun _ _ => agr_bind agr_same fun _ _ => ?_
    cases hy : W.gone y with
    | some d =>
      refine agr_ok (belowM_mark hb hb.live fun d' h => ?_)
      cases h
      exact hb.moved y d hy
    | none =>
      refine agr_bind (get_agr W.w y) fun a ha => ?_
      have hba := hb.live y a ha
      rw [(below_prodL hba).1, (below_prodL hba).2]
      refine agr_ite (fun h0 => agr_ok ⟨?_, hb.moved⟩) fun _ => agr_ok ?_
      · refine below_bind (below_bind hb.live _ _ fun c hc => ?_) _ _ fun c hc => ?_
        · cases hc; exact hba
        · cases hc; exact belowArr_null hba.1 (by simpa using h0)
      · refine belowM_mark hb (below_bind (below_bind hb.live _ _ fun c hc => ?_) _ _ (fun _ h => by cases h)) fun d' hd' => ?_
        · cases hc; exact hba
        · cases hd'; exact belowArr_small hba
  | old s =>
    have hs := hs s rfl
    have hal := hal s rfl
    have keep : Agr (W.w.step Arith.u64 true alloc s >>= fun w' => .ok (⟨w', W.gone⟩ : MWorld α)) (W.w.step Arith.exact true alloc' s >>= fun w' => .ok ⟨w', W.gone⟩) BelowM :=
      agr_bind (step_agr hb.live hne hs hal.1 hal.2) fun w' hw' => agr_ok ⟨hw', hb.moved⟩
    have other : Agr (if W.anyGone s.declares.toList then .error .illFormed else if W.anyGone s.uses then .error .ub else
          (W.w.step Arith.u64 true alloc s >>= fun w' => .ok (⟨w', W.gone⟩ : MWorld α)))
        (if W.anyGone s.declares.toList then .error .illFormed else if W.anyGone s.uses then .error .ub else
          (W.w.step Arith.exact true alloc' s >>= fun w' => .ok ⟨w', W.gone⟩)) BelowM :=
      agr_ite (fun _ => agr_err) fun _ => agr_ite (fun _ => agr_err) fun _ => keep
    cases s with
    | drop x =>
      simp only [MWorld.step]
      cases hx : W.gone x with
      | some d => exact agr_ok (belowM_mark hb hb.live nofun)
      | none => exact keep
    | moveAssign x y =>
      simp only [MWorld.step]
      refine agr_bind agr_same fun _ _ => ?_
      cases hx : W.gone x with
      | none =>
        cases hy : W.gone y with
        | none => exact keep
        | some d =>
          refine agr_bind (get_agr W.w x) fun a ha => agr_bind agr_same fun _ _ => agr_ok ?_
          refine belowM_mark (W := ⟨W.w, MWorld.mark W.gone x (some d)⟩) (belowM_mark hb hb.live fun d' h => ?_) ?_ nofun
          · cases h; exact hb.moved y d hy
          · refine below_bind (below_bind hb.live _ _ fun _ h => by cases h) _ _ fun c hc => ?_
            cases hc; exact hb.live x a ha
      | some d =>
        cases hy : W.gone y with
        | none =>
          refine agr_bind (get_agr W.w y) fun b hby => agr_bind agr_same fun _ _ => agr_ok ?_
          refine belowM_mark (W := ⟨W.w, MWorld.mark W.gone x none⟩) (belowM_mark hb hb.live nofun) ?_ fun d' h => ?_
          · refine below_bind (below_bind hb.live _ _ fun c hc => ?_) _ _ fun _ h => by cases h
            cases hc; exact hb.live y b hby
          · cases h; exact hb.moved x d hx
        | some d' =>
          refine agr_bind agr_same fun _ _ => agr_ok ?_
          refine belowM_mark (W := ⟨W.w, MWorld.mark W.gone x (some d')⟩) (belowM_mark hb hb.live fun d2 h => ?_) hb.live fun d2 h => ?_
          · cases h; exact hb.moved y d' hy
          · cases h; exact hb.moved x d hx
    | set x e =>
      have rev : ∀ d, W.gone x = some d → Agr (W.revive Arith.u64 true alloc x d e true) (W.revive Arith.exact true alloc' x d e true) BelowM :=
        fun d hd => revive_agr hb hne hd hs hal true
      cases hx : W.gone x with
      | none =>
        simp only [MWorld.step, hx]
        exact agr_ite (fun _ => agr_err) fun _ => keep
      | some d =>
        have gen : Agr (if W.anyGone e.uses then .error .ub else W.revive Arith.u64 true alloc x d e true)
            (if W.anyGone e.uses then .error .ub else W.revive Arith.exact true alloc' x d e true) BelowM :=
          agr_ite (fun _ => agr_err) fun _ => rev d hx
        cases e with
        | arr y h =>
          cases h with
          | nil =>
            simp only [MWorld.step, hx]
            exact agr_ite (fun _ => agr_ok hb) fun _ => agr_ite (fun _ => agr_err) fun _ => rev d hx
          | cons ix h => simp only [MWorld.step, hx]; exact gen
        | un f e => simp only [MWorld.step, hx]; exact gen
        | bin f a b => simp only [MWorld.step, hx]; exact gen
        | scl f s e => simp only [MWorld.step, hx]; exact gen
        | scr f e s => simp only [MWorld.step, hx]; exact gen
    | overlapWhole x e =>
      simp only [MWorld.step]
      cases hx : W.gone x with
      | none => exact agr_ite (fun _ => agr_err) fun _ => keep
      | some d => exact agr_ite (fun _ => agr_err) fun _ => revive_agr hb hne hx hs hal false
    | make x e => exact other
    | makeFill x s ext => exact other
    | makeFrom x l ext => exact other
    | fill x h s => exact other
    | assign x h e => exact other
    | inPlace x h op e => exact other
    | inPlaceScalar x h op s => exact other
    | apply x h f => exact other
    | overlap x h e => exact other

/-- Without checks: a statement that passes all checks does the same. -/
theorem weak_mstep (A : Arith) (alloc : Nat → Mem α → Nat → Nat) (W : MWorld α) (s : MStmt α) : Weak (W.step A true alloc s) (W.step A false alloc s) := by
  have ite : ∀ {c : Prop} [Decidable c] {r r' t t' : Res (MWorld α)}, Weak r r' → Weak t t' → Weak (if c then r else t) (if c then r' else t') := by
    intro c _ r r' t t' h1 h2
    split <;> assumption
  have keep : ∀ s : Stmt α, Weak (W.w.step A true alloc s >>= fun w' => .ok (⟨w', W.gone⟩ : MWorld α)) (W.w.step A false alloc s >>= fun w' => .ok ⟨w', W.gone⟩) :=
    fun s => weak_bind (weak_step A alloc W.w s) fun _ => .refl _
  have other : ∀ s : Stmt α, Weak (if W.anyGone s.declares.toList then .error .illFormed else if W.anyGone s.uses then .error .ub else
          (W.w.step A true alloc s >>= fun w' => .ok (⟨w', W.gone⟩ : MWorld α)))
        (if W.anyGone s.declares.toList then .error .illFormed else if W.anyGone s.uses then .error .ub else
          (W.w.step A false alloc s >>= fun w' => .ok ⟨w', W.gone⟩)) := fun s => ite (.refl _) (ite (.refl _) (keep s))
  have rev : ∀ x d e into, Weak (W.revive A true alloc x d e into) (W.revive A false alloc x d e into) := by
    intro x d e into
    unfold MWorld.revive
    exact weak_bind (weak_ex A W.w e) fun _ => weak_bind (weak_build A _) fun _ => weak_bind (.refl _) fun _ =>
      ite (.refl _) (weak_bind (weak_step A alloc W.w _) fun _ => .refl _)
  cases s with
  | declare x n => exact .refl _
  | moveMake x y => exact .refl _
  | old s =>
    cases s with
    | drop x => exact .refl _
    | moveAssign x y =>
      simp only [MWorld.step]
      refine weak_bind (weak_dbg _) fun _ => ?_
      cases W.gone x <;> cases W.gone y
      · exact keep _
      · exact .refl _
      · exact .refl _
      · exact .refl _
    | set x e =>
      cases hx : W.gone x with
      | none => simp only [MWorld.step, hx]; exact ite (.refl _) (keep _)
      | some d =>
        cases e with
        | arr y h =>
          cases h with
          | nil => simp only [MWorld.step, hx]; exact ite (.refl _) (ite (.refl _) (rev _ _ _ _))
          | cons ix h => simp only [MWorld.step, hx]; exact ite (.refl _) (rev _ _ _ _)
        | un f e => simp only [MWorld.step, hx]; exact ite (.refl _) (rev _ _ _ _)
        | bin f a b => simp only [MWorld.step, hx]; exact ite (.refl _) (rev _ _ _ _)
        | scl f s e => simp only [MWorld.step, hx]; exact ite (.refl _) (rev _ _ _ _)
        | scr f e s => simp only [MWorld.step, hx]; exact ite (.refl _) (rev _ _ _ _)
    | overlapWhole x e =>
      simp only [MWorld.step]
      cases W.gone x with
      | none => exact ite (.refl _) (keep _)
      | some d => exact ite (.refl _) (rev _ _ _ _)
    | make x e => exact other (.make x e)
    | makeFill x s ext => exact other (.makeFill x s ext)
    | makeFrom x l ext => exact other (.makeFrom x l ext)
    | fill x h s => exact other (.fill x h s)
    | assign x h e => exact other (.assign x h e)
    | inPlace x h op e => exact other (.inPlace x h op e)
    | inPlaceScalar x h op s => exact other (.inPlaceScalar x h op s)
    | apply x h f => exact other (.apply x h f)
    | overlap x h e => exact other (.overlap x h e)

end
end Jules

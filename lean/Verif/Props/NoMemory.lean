import Verif.Lemmas.NoMemory
import Verif.Props.Adaptive
/-
C76: programs that run out of memory.
-/
namespace Jules.Props
open Jules Spec

section
variable {α β : Type} {S : Nat → Bool} {A : Arith} {chk : Bool} {alloc : Nat → Mem α → Nat → Nat}

/-- A statement ends as `r` says, or throws or terminates the program because one of its allocations fails. -/
def Ends (S : Nat → Bool) (n : Nat) (w : World α) (x : ORes α β) (r : Res β) (P D : Prop) : Prop :=
  (∃ w' n', x = .ok w' n' ∧ r = .ok w' ∧ n ≤ n' ∧ ∀ k, n ≤ k → k < n' → S k = false) ∨
  (∃ k, x = .thrown ⟨w.mem, w.env, w.clock + 1⟩ (k + 1) ∧ n ≤ k ∧ S k = true ∧ P) ∨
  (∃ k, x = .fail .terminate ∧ n ≤ k ∧ S k = true ∧ D) ∨
  ∃ e, x = .fail e ∧ r = .error e

theorem ends_exec {w : World α} {n : Nat} {x : OM α (Mem α → World α)} {f : Mem α → Res (Mem α × (Mem α → World α))} {P D : Prop} (h : Acts S x f P D)
    {r : Res (World α)} (hr : r = (f w.mem >>= fun r => .ok (r.2 r.1))) : Ends S n w (w.execO n x) r P D := by
  subst hr
  unfold World.execO
  rcases h w.mem n with ⟨b, m', n', h1, h2, h3, h4⟩ | ⟨j, h1, h2, h3, h4⟩ | ⟨j, h1, h2, h3, h4⟩ | ⟨e, h1, h2⟩
  · rw [h1, h2]; exact .inl ⟨_, n', rfl, rfl, h3, h4⟩
  · rw [h1]; exact .inr (.inl ⟨j, rfl, h2, h3, h4⟩)
  · rw [h1]; exact .inr (.inr (.inl ⟨j, rfl, h2, h3, h4⟩))
  · rw [h1, h2]; exact .inr (.inr (.inr ⟨e, rfl, rfl⟩))

/-- Why a statement may allocate the elements of an array. -/
def NewElements (A : Arith) (chk : Bool) (w : World α) : Stmt α → Prop
  | .make _ _ => True
  | .makeFill _ _ _ => True
  | .makeFrom _ _ _ => True
  | .overlap _ _ _ => True
  | .overlapWhole _ _ => True
  | .set x e => e ≠ .arr x [] ∧ ∃ a e' src, w.env x = some a ∧ e.eval A chk w = .ok e' ∧ e'.build A chk = .ok src ∧ prodL A a.ext ≠ prodL A src.dims
  | _ => False

theorem get_env {w : World α} {x : Nat} {a : Arr} (h : w.get x = .ok a) : w.env x = some a := by
  unfold World.get at h
  split at h <;> cases h
  assumption

theorem stepO_ends {w : World α} (hw : Shaped w) (n : Nat) (s : Stmt α) :
    Ends S n w (w.stepO S A chk alloc n s) (w.step A chk alloc s) (Lists (chains s) ∨ NewElements A chk w s) (Fatals w (chains s)) := by
  have ex : ∀ {e : PEx α} {Q D : Prop} {cs}, (∀ p ∈ exChains e, p ∈ cs) → Quiet S (e.evalO S A chk w) (e.eval A chk w) (Lists cs ∨ Q) (Fatals w cs) :=
    fun h => acts_mono (quiet_exO hw _) (fun h' => .inl (lists_mono h h')) (fatals_mono h)
  have sc : ∀ {e : Sc α} {Q D : Prop} {cs}, (∀ p ∈ scChains e, p ∈ cs) → Quiet S (e.evalO S A chk w) (e.eval A chk w) (Lists cs ∨ Q) (Fatals w cs) :=
    fun h => acts_mono (quiet_scO hw _) (fun h' => .inl (lists_mono h h')) (fatals_mono h)
  have ixo : ∀ {x : Nat} {h : List Ix} {Q D : Prop} {cs}, (x, h) ∈ cs → Quiet S (w.indexO S A chk x h) (w.index A chk x h) (Lists cs ∨ Q) (Fatals w cs) :=
    fun h => acts_mono (quiet_indexO hw _ _) (fun h' => .inl (lists_mono (by simpa using h) h')) (fatals_mono (by simpa using h))
  cases s with
  | make x e =>
    simp only [World.stepO, World.step]
    cases w.env x with
    | some a => exact .inr (.inr (.inr ⟨_, rfl, rfl⟩))
    | none =>
      refine ends_exec (quiet_bind (ex (D := True) fun p h => h) fun e' _ => quiet_bind (quiet_lift _) fun src _ =>
        acts_bind (acts_newArrayO (.inr trivial)) fun b => silent_pure _) ?_
      simp only [bind_assoc, res_ok_bind]
  | makeFill x s ext =>
    simp only [World.stepO, World.step]
    cases w.env x with
    | some a => exact .inr (.inr (.inr ⟨_, rfl, rfl⟩))
    | none =>
      refine ends_exec (quiet_bind (quiet_lift _) fun _ _ => quiet_bind (sc (D := True) fun p h => h) fun c _ => quiet_bind (quiet_lift _) fun v _ =>
        quiet_bind (quiet_allocation (.inr trivial)) fun _ _ => acts_bind (silent_acts (silent_act _)) fun b => silent_pure _) ?_
      simp only [bind_assoc, res_ok_bind]
  | makeFrom x l ext =>
    simp only [World.stepO, World.step]
    cases w.env x with
    | some a => exact .inr (.inr (.inr ⟨_, rfl, rfl⟩))
    | none =>
      refine ends_exec (quiet_bind (quiet_lift _) fun _ _ =>
        quiet_bind (quiet_allocation (.inr trivial)) fun _ _ => acts_bind (silent_acts (silent_act _)) fun b => silent_pure _) ?_
      simp only [bind_assoc, res_ok_bind]
  | drop x =>
    simp only [World.stepO, World.step]
    refine ends_exec (quiet_bind (quiet_lift _) fun _ _ => silent_acts (silent_pure _)) ?_
    simp only [bind_assoc, res_ok_bind]
  | fill x h s =>
    simp only [World.stepO, World.step]
    refine ends_exec (quiet_bind (quiet_lift _) fun _ _ => quiet_bind (ixo (D := True) (by simp [chains])) fun o _ =>
      quiet_bind (sc (D := True) (fun p h => List.mem_cons_of_mem _ h)) fun c _ => silent_acts (silent_act _)) ?_
    simp only [bind_assoc, res_ok_bind]
    rfl
  | assign x h e =>
    simp only [World.stepO, World.step]
    refine ends_exec (quiet_bind (quiet_lift _) fun _ _ => quiet_bind (ixo (D := True) (by simp [chains])) fun o _ =>
      quiet_bind (ex (D := True) (fun p h => List.mem_cons_of_mem _ h)) fun c _ => silent_acts (silent_act _)) ?_
    simp only [bind_assoc, res_ok_bind]
    rfl
  | inPlace x h op e =>
    simp only [World.stepO, World.step]
    refine ends_exec (quiet_bind (ixo (D := True) (by simp [chains])) fun o _ =>
      quiet_bind (ex (D := True) (fun p h => List.mem_cons_of_mem _ h)) fun c _ => silent_acts (silent_act _)) ?_
    simp only [bind_assoc, res_ok_bind]
    rfl
  | inPlaceScalar x h op s =>
    simp only [World.stepO, World.step]
    refine ends_exec (quiet_bind (ixo (D := True) (by simp [chains])) fun o _ =>
      quiet_bind (sc (D := True) (fun p h => List.mem_cons_of_mem _ h)) fun c _ => silent_acts (silent_act _)) ?_
    simp only [bind_assoc, res_ok_bind]
    rfl
  | apply x h f =>
    simp only [World.stepO, World.step]
    refine ends_exec (quiet_bind (ixo (D := True) (by simp [chains])) fun o _ =>
      quiet_bind (quiet_lift _) fun c _ => silent_acts (silent_act _)) ?_
    simp only [bind_assoc, res_ok_bind]
    rfl
  | overlap x h e =>
    simp only [World.stepO, World.step]
    refine ends_exec (quiet_bind (quiet_lift _) fun _ _ => quiet_bind (ixo (D := True) (by simp [chains])) fun o _ =>
      quiet_bind (ex (D := True) (fun p h => List.mem_cons_of_mem _ h)) fun e' _ => quiet_bind (quiet_lift _) fun src _ =>
      acts_bind (acts_newArrayO (.inr trivial)) fun t => silent_scoped _ (silent_act _)) ?_
    simp only [bind_assoc, res_ok_bind, overlapView]
    refine bind_congr fun _ => bind_congr fun o => bind_congr fun e' => ?_
    cases hb : e'.build A chk with
    | error f => rfl
    | ok src => simp only [res_ok_bind]; rfl
  | overlapWhole x e =>
    simp only [World.stepO, World.step]
    refine ends_exec (quiet_bind (quiet_lift _) fun a _ => quiet_bind (ex (D := True) fun p h => h) fun e' _ => quiet_bind (quiet_lift _) fun src _ =>
      quiet_bind (quiet_lift _) fun _ _ => acts_bind (acts_newArrayO (.inr trivial)) fun b => silent_pure _) ?_
    simp only [bind_assoc, res_ok_bind, overlapArray]
    refine bind_congr fun _ => bind_congr fun e' => ?_
    cases hb : e'.build A chk with
    | error f => rfl
    | ok src => simp only [res_ok_bind]
  | moveAssign x y =>
    simp only [World.stepO, World.step]
    refine ends_exec (quiet_bind (quiet_lift _) fun _ _ => quiet_bind (quiet_lift _) fun _ _ => quiet_bind (quiet_lift _) fun _ _ =>
      quiet_bind (quiet_lift _) fun _ _ => silent_acts (silent_pure _)) ?_
    simp only [bind_assoc, res_ok_bind]
  | set x e =>
    have gen : ∀ {e : PEx α}, (∀ y, e ≠ .arr y []) →
        Ends S n w (w.stepO S A chk alloc n (.set x e)) (w.step A chk alloc (.set x e)) (Lists (chains (.set x e)) ∨ NewElements A chk w (.set x e))
          (Fatals w (chains (.set x e))) := by
      intro e he
      have e1 : w.stepO S A chk alloc n (.set x e) = w.execO n (do
          let a ← OM.lift (w.get x)
          let e' ← e.evalO S A chk w
          let src ← OM.lift (e'.build A chk)
          OM.lift (sameOrder a src.dims)
          let b' ← arrayAssignExprO S A a src fun m => alloc w.clock m (prodL A src.dims)
          pure fun m => w.bind m x (some b')) := by
        cases e with
        | arr y h =>
          cases h with
          | nil => exact (he y rfl).elim
          | cons ix h => rfl
        | _ => rfl
      have e2 : w.step A chk alloc (.set x e) = (do
          let a ← w.get x
          let e' ← e.eval A chk w
          let src ← e'.build A chk
          sameOrder a src.dims
          let r ← assignArray A chk a e' w.mem (alloc w.clock w.mem (prodL A src.dims))
          .ok (w.bind r.1 x (some r.2))) := by
        cases e with
        | arr y h =>
          cases h with
          | nil => exact (he y rfl).elim
          | cons ix h => rfl
        | _ => rfl
      rw [e1, e2]
      refine ends_exec (quiet_bind (quiet_lift _) fun a ha => quiet_bind (ex (D := True) fun p h => h) fun e' he' => quiet_bind (quiet_lift _) fun src hsrc =>
        quiet_bind (quiet_lift _) fun _ _ => acts_bind (acts_arrayAssignExprO fun hne => .inr ⟨he x, a, e', src, get_env ha, he', hsrc, hne⟩)
          fun b => silent_pure _) ?_
      simp only [bind_assoc, res_ok_bind, assignArray]
      refine bind_congr fun _ => bind_congr fun e' => ?_
      cases hb : e'.build A chk with
      | error f => rfl
      | ok src => simp only [res_ok_bind]
    by_cases hy : ∃ y, e = .arr y []
    · obtain ⟨y, rfl⟩ := hy
      simp only [World.stepO, World.step]
      by_cases hxy : x = y
      · subst hxy
        simp only [if_true]
        refine ends_exec (quiet_bind (quiet_lift _) fun a _ => quiet_bind (quiet_lift _) fun b _ => quiet_bind (quiet_lift _) fun _ _ => silent_acts (silent_pure _)) ?_
        simp only [bind_assoc, res_ok_bind, assignArrayCopy, beq_self_eq_true, if_true]
      · simp only [hxy, if_false]
        have f1 : PEx.arr (α := α) y [] ≠ .arr x [] := by
          intro h; injection h with h _; exact hxy h.symm
        have f2 : ∀ b, w.get y = .ok b → (PEx.arr y [] : PEx α).eval A chk w = .ok (.leaf (.cref b.base b.ext)) := by
          intro b hb; simp only [PEx.eval, World.index, hb, res_ok_bind]; rfl
        refine ends_exec (quiet_bind (quiet_lift _) fun a ha => quiet_bind (quiet_lift _) fun b hb => quiet_bind (quiet_lift _) fun _ _ =>
          acts_bind (acts_arrayAssignExprO fun hne => .inr ⟨f1, a, .leaf (.cref b.base b.ext),
            ⟨b.ext, .cells ((List.range (prodL A b.ext)).map (A.add b.base ·))⟩, get_env ha, f2 b hb, rfl, hne⟩) fun b => silent_pure _) ?_
        have : (x == y) = false := by simpa using hxy
        simp only [bind_assoc, res_ok_bind, assignArrayCopy, this, Bool.false_eq_true, if_false]
    · exact gen fun y h => hy ⟨y, h⟩

/-! ### Moved-from arrays -/

/-- Why a statement may allocate the elements of an array. -/
def NewElementsM (A : Arith) (chk : Bool) (W : MWorld α) : MStmt α → Prop
  | .old s => NewElements A chk W.w s ∨ ∃ x e d, s = .set x e ∧ W.gone x = some d ∧ e ≠ .arr x []
  | _ => False

theorem ends_keep {W : MWorld α} {n : Nat} {x : ORes α (World α)} {r : Res (World α)} {P D P' D' : Prop} (h : Ends S n W.w x r P D) (hP : P → P') (hD : D → D') :
    Ends S n W.w (W.keepGone x) (r >>= fun w' => .ok ⟨w', W.gone⟩) P' D' := by
  rcases h with ⟨w', n', rfl, rfl, h3, h4⟩ | ⟨k, rfl, h2, h3, h4⟩ | ⟨k, rfl, h2, h3, h4⟩ | ⟨e, rfl, rfl⟩
  · exact .inl ⟨_, n', rfl, rfl, h3, h4⟩
  · exact .inr (.inl ⟨k, rfl, h2, h3, hP h4⟩)
  · exact .inr (.inr (.inl ⟨k, rfl, h2, h3, hD h4⟩))
  · exact .inr (.inr (.inr ⟨e, rfl, rfl⟩))

theorem ends_direct {w : World α} {n : Nat} (r : Res (MWorld α)) {P D : Prop} : Ends S n w (MWorld.direct n r) r P D := by
  cases r with
  | ok W' => exact .inl ⟨W', n, rfl, rfl, Nat.le_refl _, fun k a b => absurd a (by omega)⟩
  | error e => exact .inr (.inr (.inr ⟨e, rfl, rfl⟩))

theorem ends_fail {w : World α} {n : Nat} {P D : Prop} (e : Fail) : Ends S n w (.fail e : ORes α β) (.error e) P D := .inr (.inr (.inr ⟨e, rfl, rfl⟩))

theorem acts_ite {γ : Type} {c : Prop} [Decidable c] {x y : OM α γ} {f g : Mem α → Res (Mem α × γ)} {P D : Prop} (hx : Acts S x f P D) (hy : Acts S y g P D) :
    Acts S (if c then x else y) (fun m => if c then f m else g m) P D := by
  by_cases h : c
  · simp only [if_pos h]; exact hx
  · simp only [if_neg h]; exact hy

/-- A moved-from array gets a new value. -/
theorem reviveO_ends {W : MWorld α} (hw : Shaped W.w) (n : Nat) {x : Nat} (hx : W.w.env x = none) (d : List Nat) (e : PEx α) (into : Bool) {P D : Prop} (hP : P)
    (hD : Fatals W.w (exChains e) → D) :
    Ends S n W.w (W.reviveO S A chk alloc n x d e into) (W.revive A chk alloc x d e into) P D := by
  have key : Ends S n W.w (W.w.execO n (do
      OM.lift (needs (W.w.env x).isNone)
      let e' ← e.evalO S A chk W.w
      let src ← OM.lift (e'.build A chk)
      OM.lift (sameOrder ⟨0, d⟩ src.dims)
      if into && prodL A d == prodL A src.dims then OM.lift (.error .ub)
      else do
        let b ← newArrayO S A src fun m => alloc W.w.clock m (prodL A src.dims)
        pure fun m => W.w.bind m x (some b)))
      (do
        let e' ← e.eval A chk W.w
        let src ← e'.build A chk
        sameOrder ⟨0, d⟩ src.dims
        if into && prodL A d == prodL A src.dims then .error .ub
        else W.w.step A chk alloc (.make x e)) P D := by
    refine ends_exec (quiet_bind (quiet_lift _) fun _ _ => quiet_bind (acts_mono (quiet_exO hw e) (fun _ => hP) hD) fun e' he' =>
      quiet_bind (quiet_lift _) fun src hsrc => quiet_bind (quiet_lift _) fun _ _ => acts_ite (quiet_lift _) (acts_bind (acts_newArrayO hP) fun b => silent_pure _)) ?_
    · simp only [needs, hx, Option.isNone_none, if_true, res_ok_bind, bind_assoc, World.step]
      cases he : e.eval A chk W.w with
      | error f => rfl
      | ok e' =>
        simp only [res_ok_bind]
        cases hb : e'.build A chk with
        | error f => rfl
        | ok src =>
          simp only [res_ok_bind]
          refine bind_congr fun _ => ?_
          split
          · rfl
          · simp only [bind_assoc, res_ok_bind]
  have e1 : W.revive A chk alloc x d e into = (do
        let e' ← e.eval A chk W.w
        let src ← e'.build A chk
        sameOrder ⟨0, d⟩ src.dims
        if into && prodL A d == prodL A src.dims then .error .ub
        else W.w.step A chk alloc (.make x e)) >>= fun w' => .ok ⟨w', MWorld.mark W.gone x none⟩ := by
    simp only [MWorld.revive, bind_assoc]
    refine bind_congr fun e' => bind_congr fun src => bind_congr fun _ => ?_
    split <;> rfl
  rw [e1]
  unfold MWorld.reviveO
  revert key
  generalize (W.w.execO n _) = y
  generalize (e.eval A chk W.w >>= _ : Res (World α)) = r
  rintro (⟨w', n', rfl, rfl, h3, h4⟩ | ⟨k, rfl, h2, h3, h4⟩ | ⟨k, rfl, h2, h3, h4⟩ | ⟨f, rfl, rfl⟩)
  · exact .inl ⟨_, n', rfl, rfl, h3, h4⟩
  · exact .inr (.inl ⟨k, rfl, h2, h3, h4⟩)
  · exact .inr (.inr (.inl ⟨k, rfl, h2, h3, h4⟩))
  · exact .inr (.inr (.inr ⟨f, rfl, rfl⟩))

theorem mstepO_ends {W : MWorld α} (hw : Shaped W.w) (hg : ∀ x d, W.gone x = some d → W.w.env x = none) (n : Nat) (s : MStmt α) :
    Ends S n W.w (W.stepO S A chk alloc n s) (W.step A chk alloc s) (Lists (mchains s) ∨ NewElementsM A chk W s) (Fatals W.w (mchains s)) := by
  have keep : ∀ s : Stmt α, Ends S n W.w (W.keepGone (W.w.stepO S A chk alloc n s)) (W.w.step A chk alloc s >>= fun w' => .ok ⟨w', W.gone⟩)
      (Lists (mchains (.old s)) ∨ NewElementsM A chk W (.old s)) (Fatals W.w (mchains (.old s))) :=
    fun s => ends_keep (stepO_ends hw n s) (fun h => h.imp (fun h => h) .inl) fun h => h
  cases s with
  | declare x k => exact ends_direct _
  | moveMake x y => exact ends_direct _
  | old s =>
    have other : Ends S n W.w
        (if W.anyGone s.declares.toList then .fail .illFormed else if W.anyGone s.uses then .fail .ub else W.keepGone (W.w.stepO S A chk alloc n s))
        (if W.anyGone s.declares.toList then .error .illFormed else if W.anyGone s.uses then .error .ub else
          W.w.step A chk alloc s >>= fun w' => .ok ⟨w', W.gone⟩) (Lists (mchains (.old s)) ∨ NewElementsM A chk W (.old s)) (Fatals W.w (mchains (.old s))) := by
      split
      · exact ends_fail _
      · split
        · exact ends_fail _
        · exact keep s
    cases s with
    | drop x => exact ends_direct _
    | moveAssign x y => exact ends_direct _
    | set x e =>
      have rev : ∀ {d}, W.gone x = some d → e ≠ .arr x [] → Ends S n W.w (if W.anyGone e.uses then .fail .ub else W.reviveO S A chk alloc n x d e true)
          (if W.anyGone e.uses then .error .ub else W.revive A chk alloc x d e true) (Lists (mchains (.old (.set x e))) ∨ NewElementsM A chk W (.old (.set x e)))
          (Fatals W.w (mchains (.old (.set x e)))) := by
        intro d hd hne
        split
        · exact ends_fail _
        · exact reviveO_ends hw n (hg x d hd) d e true (.inr (.inr ⟨x, e, d, rfl, hd, hne⟩)) fun h => h
      cases hd : W.gone x with
      | none =>
        have e1 : W.stepO S A chk alloc n (.old (.set x e)) = if W.anyGone e.uses then .fail .ub else W.keepGone (W.w.stepO S A chk alloc n (.set x e)) := by
          simp only [MWorld.stepO, hd]
        have e2 : W.step A chk alloc (.old (.set x e)) = if W.anyGone e.uses then .error .ub else W.w.step A chk alloc (.set x e) >>= fun w' => .ok ⟨w', W.gone⟩ := by
          simp only [MWorld.step, hd]
        rw [e1, e2]
        split
        · exact ends_fail _
        · exact keep _
      | some d =>
        have gen : (∀ y, e ≠ .arr y []) → Ends S n W.w (W.stepO S A chk alloc n (.old (.set x e))) (W.step A chk alloc (.old (.set x e)))
            (Lists (mchains (.old (.set x e))) ∨ NewElementsM A chk W (.old (.set x e))) (Fatals W.w (mchains (.old (.set x e)))) := by
          intro hy
          have := rev hd (hy x)
          cases e with
          | arr y h =>
            cases h with
            | nil => exact (hy y rfl).elim
            | cons ix h => simp only [MWorld.stepO, MWorld.step, hd]; exact this
          | _ => simp only [MWorld.stepO, MWorld.step, hd]; exact this
        by_cases hy : ∃ y, e = .arr y []
        · obtain ⟨y, rfl⟩ := hy
          by_cases hxy : x = y
          · subst hxy
            simp only [MWorld.stepO, MWorld.step, hd, if_true]
            exact .inl ⟨W, n, rfl, rfl, Nat.le_refl _, fun k a b => absurd a (by omega)⟩
          · have := rev hd (by intro h; injection h with h _; exact hxy h.symm)
            simp only [MWorld.stepO, MWorld.step, hd, hxy, if_false]
            exact this
        · exact gen fun y h => hy ⟨y, h⟩
    | overlapWhole x e =>
      cases hd : W.gone x with
      | none =>
        simp only [MWorld.stepO, MWorld.step, hd]
        split
        · exact ends_fail _
        · exact keep _
      | some d =>
        simp only [MWorld.stepO, MWorld.step, hd]
        split
        · exact ends_fail _
        · exact reviveO_ends hw n (hg x d hd) d e false (.inr (.inl trivial)) fun h => h
    | make x e => exact other
    | makeFill x s ext => exact other
    | makeFrom x l ext => exact other
    | fill x h s => exact other
    | assign x h e => exact other
    | inPlace x h op e => exact other
    | inPlaceScalar x h op s => exact other
    | apply x h f => exact other
    | overlap x h e => exact other

/-! ### Programs -/

variable {W : MWorld α} {T : MStore α}

theorem shaped_of (H : MHolds W T) : Shaped W.w := by
  intro x c hc
  cases hl : T.live x with
  | none => rw [H.store.out x hl] at hc; cases hc
  | some a =>
    obtain ⟨h1, c', h2, h3, _⟩ := H.store.arr x a hl
    rw [hc] at h2; cases h2
    rw [h3]; exact h1

theorem gone_of (H : MHolds W T) (x : Nat) (d : List Nat) (h : W.gone x = some d) : W.w.env x = none := by
  rw [H.gone] at h
  exact H.store.out x (H.moved x d h).1

theorem fatal_of (H : MHolds W T) {cs : List (Nat × List Ix)} (h : Fatals W.w cs) : Fatal T cs := by
  obtain ⟨x, k, c, h1, h2, h3⟩ := h
  cases hl : T.live x with
  | none => rw [H.store.out x hl] at h2; cases h2
  | some a =>
    obtain ⟨_, c', g2, g3, _⟩ := H.store.arr x a hl
    rw [h2] at g2; cases g2
    exact ⟨x, k, a, h1, hl, by rw [← g3]; exact h3⟩

theorem mayAllocate_of (H : MHolds W T) {s : MStmt α} (hs : MLegal T s) (h : Lists (mchains s) ∨ NewElementsM Arith.exact chk W s) : MayAllocate T s := by
  rcases h with h | h
  · exact .inl h
  · right
    cases s with
    | declare x k => exact h.elim
    | moveMake x y => exact h.elim
    | old s =>
      cases s with
      | set x e =>
        rcases h with ⟨hne, a, e', src, ha, he', hb, hsz⟩ | ⟨y, e2, d, h1, h2, h3⟩
        · refine ⟨hne, .inr ?_⟩
          rcases hs with ⟨a', d, h1, h2, h3, _⟩ | ⟨d, h1, _⟩
          · obtain ⟨g1, c', g2, g3, _⟩ := H.store.arr x a' h1
            rw [ha] at g2; cases g2
            have hd : d ≠ [] := by rintro rfl; exact g1 (List.length_eq_zero_iff.1 h2.symm)
            obtain ⟨e2, s, k1, hE⟩ := ex_ok H.store hd chk h3
            rw [he'] at k1; cases k1
            obtain ⟨src', k2, hy⟩ := build_ok (chk := chk) hE.denotes hE.exts
            rw [hb] at k2; cases k2
            rw [prodL_exact, prodL_exact, hy.dims, g3] at hsz
            exact ⟨a', d, h1, h3, fun h => hsz h.symm⟩
          · rw [gone_of H x d (by rw [H.gone, h1])] at ha; cases ha
        · cases h1
          exact ⟨h3, .inl ⟨d, by rw [← H.gone]; exact h2⟩⟩
      | make x e => trivial
      | makeFill x s ext => trivial
      | makeFrom x l ext => trivial
      | overlap x h e => trivial
      | overlapWhole x e => trivial
      | drop x => rcases h with h | ⟨_, _, _, h, _⟩; exacts [h.elim, by cases h]
      | moveAssign x y => rcases h with h | ⟨_, _, _, h, _⟩; exacts [h.elim, by cases h]
      | fill x h' s => rcases h with h | ⟨_, _, _, h, _⟩; exacts [h.elim, by cases h]
      | assign x h' e => rcases h with h | ⟨_, _, _, h, _⟩; exacts [h.elim, by cases h]
      | inPlace x h' op e => rcases h with h | ⟨_, _, _, h, _⟩; exacts [h.elim, by cases h]
      | inPlaceScalar x h' op s => rcases h with h | ⟨_, _, _, h, _⟩; exacts [h.elim, by cases h]
      | apply x h' f => rcases h with h | ⟨_, _, _, h, _⟩; exacts [h.elim, by cases h]

theorem mholds_clock (H : MHolds W T) {k : Nat} : MHolds ⟨⟨W.w.mem, W.w.env, k⟩, W.gone⟩ T := ⟨holds_same H.store rfl rfl, H.gone, H.moved⟩

/-- **C76.** Programs that may run out of memory. In any state that holds the arrays, and whichever allocations fail, a legal program runs without undefined behaviour or failed
assertions, in every build: each statement is executed completely, or, if it needs memory, throws and leaves all arrays and all memory as they were;
the program ends with a result and arrays that this allows. Only if it applies a plain index to a view of several dimensions selected by a list, it may be terminated
instead. -/
theorem C76_program_partial [Nonempty α] {p : GProg α β} (hp : LegalG T p) (H : MHolds W T) (F : Nat → Bool) (chk : Bool) {alloc : Nat → Mem α → Nat → Nat}
    (hal : GoodAlloc alloc) (n : Nat) :
    (∃ W' T' b n', W.execO F Arith.exact chk alloc n p = .ok W' b n' ∧ Ending T p T' b ∧ MHolds W' T') ∨
    (W.execO F Arith.exact chk alloc n p = .fail .terminate ∧ ¬ NoFatal T p ∧ ∃ k, n ≤ k ∧ F k = true) := by
  induction p generalizing W T n with
  | ret b => exact .inl ⟨W, T, b, n, rfl, .ret, H⟩
  | exec s k ih =>
    obtain ⟨hl, hk, hf⟩ := hp
    obtain ⟨T1, he⟩ := meffect_exists (fun x d hx => (H.moved x d hx).1) hl
    obtain ⟨W1, h1, h2⟩ := mstep_ok H hl chk hal
    rw [MWorld.execO]
    rcases mstepO_ends (S := F) (A := Arith.exact) (chk := chk) (alloc := alloc) (shaped_of H) (gone_of H) n s with
      ⟨w', n', g1, g2, g3, _⟩ | ⟨j, g1, g2, g3, g4⟩ | ⟨j, g1, g2, g3, g4⟩ | ⟨e, g1, g2⟩
    · rw [h1] at g2; cases g2
      rw [g1]
      rcases ih true (hk T1 he) (h2 _ he) n' with ⟨W', T', b, m, q1, q2, q3⟩ | ⟨q1, q2, j, q3, q4⟩
      · exact .inl ⟨W', T', b, m, q1, .done hl he q2, q3⟩
      · exact .inr ⟨q1, fun h => q2 (h.2.1 T1 he), j, by omega, q4⟩
    · rw [g1]
      rcases ih false hf (mholds_clock H (k := W.w.clock + 1)) (j + 1) with ⟨W', T', b, m, q1, q2, q3⟩ | ⟨q1, q2, i, q3, q4⟩
      · exact .inl ⟨W', T', b, m, q1, .failed hl (mayAllocate_of H hl g4) q2, q3⟩
      · exact .inr ⟨q1, fun h => q2 h.2.2, i, by omega, q4⟩
    · rw [g1]
      exact .inr ⟨rfl, fun h => h.1 (fatal_of H g4), j, g2, g3⟩
    · rw [h1] at g2; cases g2
  | read s k ih =>
    obtain ⟨hl, hk, hf⟩ := hp
    obtain ⟨sc, y, h1, h2, h3, _⟩ := sc_ok H.store hl chk
    rw [MWorld.execO, not_gone H (sc_live hl), if_neg (by simp)]
    have hq := quiet_bind' (quiet_scO (S := F) (A := Arith.exact) (chk := chk) (shaped_of H) s) (fun c _ => quiet_lift (c.get W.w.mem))
    rw [h1, res_ok_bind, h2] at hq
    rcases hq W.w.mem n with ⟨b, m', n', g1, g2, g3, _⟩ | ⟨j, g1, g2, g3, g4⟩ | ⟨j, g1, g2, g3, g4⟩ | ⟨e, g1, g2⟩
    · cases g2
      rw [g1]
      rcases ih (some y) (hk y h3) (mholds_clock H (k := W.w.clock)) n' with ⟨W', T', b, m, q1, q2, q3⟩ | ⟨q1, q2, i, q3, q4⟩
      · exact .inl ⟨W', T', b, m, q1, .read hl h3 q2, q3⟩
      · exact .inr ⟨q1, fun h => q2 (h.2.1 y h3), i, by omega, q4⟩
    · rw [g1]
      rcases ih none hf (mholds_clock H (k := W.w.clock)) (j + 1) with ⟨W', T', b, m, q1, q2, q3⟩ | ⟨q1, q2, i, q3, q4⟩
      · exact .inl ⟨W', T', b, m, q1, .unread hl g4 q2, q3⟩
      · exact .inr ⟨q1, fun h => q2 h.2.2, i, by omega, q4⟩
    · rw [g1]
      exact .inr ⟨rfl, fun h => h.1 (fatal_of H g4), j, g2, g3⟩
    · cases g2
  | elements e k ih =>
    obtain ⟨d, hd, he, hk, hf⟩ := hp
    obtain ⟨xs, hx⟩ := elements_exists he hd
    obtain ⟨h0, e', src, h1, h2, h3, h4⟩ := elements_ok H hx chk
    rw [MWorld.execO, h0, if_neg (by simp)]
    have hq := quiet_bind' (quiet_exO (S := F) (A := Arith.exact) (chk := chk) (shaped_of H) e) (fun e' _ =>
      quiet_bind' (quiet_lift (e'.build Arith.exact chk)) fun src _ => quiet_bind' (quiet_lift (src.elements W.w.mem)) fun xs _ => quiet_pure (src.dims, xs))
    rw [h1, res_ok_bind, h2, res_ok_bind, h4, res_ok_bind, h3] at hq
    rcases hq W.w.mem n with ⟨b, m', n', g1, g2, g3, _⟩ | ⟨j, g1, g2, g3, g4⟩ | ⟨j, g1, g2, g3, g4⟩ | ⟨e, g1, g2⟩
    · cases g2
      rw [g1]
      rcases ih (some (d, xs)) (hk xs hx) (mholds_clock H (k := W.w.clock)) n' with ⟨W', T', b, m, q1, q2, q3⟩ | ⟨q1, q2, i, q3, q4⟩
      · exact .inl ⟨W', T', b, m, q1, .elements hx q2, q3⟩
      · exact .inr ⟨q1, fun h => q2 (h.2.1 d xs hx), i, by omega, q4⟩
    · rw [g1]
      rcases ih none hf (mholds_clock H (k := W.w.clock)) (j + 1) with ⟨W', T', b, m, q1, q2, q3⟩ | ⟨q1, q2, i, q3, q4⟩
      · exact .inl ⟨W', T', b, m, q1, .unseen hd he g4 q2, q3⟩
      · exact .inr ⟨q1, fun h => q2 h.2.2, i, by omega, q4⟩
    · rw [g1]
      exact .inr ⟨rfl, fun h => h.1 (fatal_of H g4), j, g2, g3⟩
    · cases g2

/-- **C76.** Without such an index, the program is not terminated, whichever allocations fail. -/
theorem C76_survives_partial [Nonempty α] {p : GProg α β} (hp : LegalG T p) (hf : NoFatal T p) (H : MHolds W T) (F : Nat → Bool) (chk : Bool)
    {alloc : Nat → Mem α → Nat → Nat} (hal : GoodAlloc alloc) (n : Nat) :
    ∃ W' T' b n', W.execO F Arith.exact chk alloc n p = .ok W' b n' ∧ Ending T p T' b ∧ MHolds W' T' := by
  rcases C76_program_partial hp H F chk hal n with h | ⟨_, h, _⟩
  · exact h
  · exact (h hf).elim

/-- **C76.** One statement: it has its effect, and then none of its allocations failed; or it throws, and then an allocation failed, and everything is as before; or (with such an index) the
program is terminated, and then an allocation failed. -/
theorem C76_statement_partial (H : MHolds W T) {s : MStmt α} (hs : MLegal T s) (F : Nat → Bool) (chk : Bool) {alloc : Nat → Mem α → Nat → Nat} (hal : GoodAlloc alloc) (n : Nat) :
    (∃ W' n', W.stepO F Arith.exact chk alloc n s = .ok W' n' ∧ (∀ T', MEffect T s T' → MHolds W' T') ∧ ∀ k, n ≤ k → k < n' → F k = false) ∨
    (∃ w' k, W.stepO F Arith.exact chk alloc n s = .thrown w' (k + 1) ∧ n ≤ k ∧ F k = true ∧ MayAllocate T s ∧ w'.mem = W.w.mem ∧ w'.env = W.w.env) ∨
    (W.stepO F Arith.exact chk alloc n s = .fail .terminate ∧ Fatal T (mchains s) ∧ ∃ k, n ≤ k ∧ F k = true) := by
  obtain ⟨W1, h1, h2⟩ := mstep_ok H hs chk hal
  rcases mstepO_ends (S := F) (A := Arith.exact) (chk := chk) (alloc := alloc) (shaped_of H) (gone_of H) n s with
    ⟨w', n', g1, g2, g3, g4⟩ | ⟨j, g1, g2, g3, g4⟩ | ⟨j, g1, g2, g3, g4⟩ | ⟨e, g1, g2⟩
  · rw [h1] at g2; cases g2
    exact .inl ⟨W1, n', g1, h2, g4⟩
  · exact .inr (.inl ⟨_, j, g1, g2, g3, mayAllocate_of H hs g4, rfl, rfl⟩)
  · exact .inr (.inr ⟨g1, fatal_of H g4, j, g2, g3⟩)
  · rw [h1] at g2; cases g2

/-- **C76.** With enough memory, a program with handlers does what it does without them. -/
theorem C76_enough_memory [Nonempty α] {p : GProg α β} (hp : LegalG T p) (H : MHolds W T) {F : Nat → Bool} (chk : Bool) {alloc : Nat → Mem α → Nat → Nat}
    (hal : GoodAlloc alloc) {n : Nat} (hF : ∀ k, n ≤ k → F k = false) :
    ∃ W' T' b n', W.execO F Arith.exact chk alloc n p = .ok W' b n' ∧ W.exec Arith.exact chk alloc (trusting p) = .ok (W', b) ∧
      Computes T (trusting p) T' b ∧ MHolds W' T' := by
  have no : ∀ {j : Nat} {Q : Prop}, n ≤ j → F j = true → Q := fun h h' => by rw [hF _ h] at h'; cases h'
  induction p generalizing W T n with
  | ret b => exact ⟨W, T, b, n, rfl, rfl, .ret, H⟩
  | exec s k ih =>
    obtain ⟨hl, hk, hf⟩ := hp
    obtain ⟨T1, he⟩ := meffect_exists (fun x d hx => (H.moved x d hx).1) hl
    obtain ⟨W1, h1, h2⟩ := mstep_ok H hl chk hal
    rw [MWorld.execO]
    rcases mstepO_ends (S := F) (A := Arith.exact) (chk := chk) (alloc := alloc) (shaped_of H) (gone_of H) n s with
      ⟨w', n', g1, g2, g3, _⟩ | ⟨j, g1, g2, g3, g4⟩ | ⟨j, g1, g2, g3, g4⟩ | ⟨e, g1, g2⟩
    · rw [h1] at g2; cases g2
      rw [g1]
      obtain ⟨W', T', b, m, q1, q2, q3, q4⟩ := ih true (hk T1 he) (h2 _ he) (n := n') (fun k hk => hF k (by omega)) fun h h' => no (by omega) h'
      exact ⟨W', T', b, m, q1, by rw [trusting, MWorld.exec, h1, res_ok_bind, q2], .exec hl he q3, q4⟩
    · exact no g2 g3
    · exact no g2 g3
    · rw [h1] at g2; cases g2
  | read s k ih =>
    obtain ⟨hl, hk, hf⟩ := hp
    obtain ⟨sc, y, h1, h2, h3, _⟩ := sc_ok H.store hl chk
    rw [MWorld.execO, not_gone H (sc_live hl), if_neg (by simp)]
    have hq := quiet_bind' (quiet_scO (S := F) (A := Arith.exact) (chk := chk) (shaped_of H) s) (fun c _ => quiet_lift (c.get W.w.mem))
    rw [h1, res_ok_bind, h2] at hq
    rcases hq W.w.mem n with ⟨b, m', n', g1, g2, g3, _⟩ | ⟨j, g1, g2, g3, g4⟩ | ⟨j, g1, g2, g3, g4⟩ | ⟨e, g1, g2⟩
    · cases g2
      rw [g1]
      obtain ⟨W', T', b, m, q1, q2, q3, q4⟩ := ih (some y) (hk y h3) H (n := n') (fun k hk => hF k (by omega)) fun h h' => no (by omega) h'
      exact ⟨W', T', b, m, q1, by rw [trusting, MWorld.exec, not_gone H (sc_live hl), if_neg (by simp), h1, res_ok_bind, h2, res_ok_bind, q2], .read hl h3 q3, q4⟩
    · exact no g2 g3
    · exact no g2 g3
    · cases g2
  | elements e k ih =>
    obtain ⟨d, hd, he, hk, hf⟩ := hp
    obtain ⟨xs, hx⟩ := elements_exists he hd
    obtain ⟨h0, e', src, h1, h2, h3, h4⟩ := elements_ok H hx chk
    rw [MWorld.execO, h0, if_neg (by simp)]
    have hq := quiet_bind' (quiet_exO (S := F) (A := Arith.exact) (chk := chk) (shaped_of H) e) (fun e' _ =>
      quiet_bind' (quiet_lift (e'.build Arith.exact chk)) fun src _ => quiet_bind' (quiet_lift (src.elements W.w.mem)) fun xs _ => quiet_pure (src.dims, xs))
    rw [h1, res_ok_bind, h2, res_ok_bind, h4, res_ok_bind, h3] at hq
    rcases hq W.w.mem n with ⟨b, m', n', g1, g2, g3, _⟩ | ⟨j, g1, g2, g3, g4⟩ | ⟨j, g1, g2, g3, g4⟩ | ⟨e, g1, g2⟩
    · cases g2
      rw [g1]
      obtain ⟨W', T', b, m, q1, q2, q3, q4⟩ := ih (some (d, xs)) (hk xs hx) H (n := n') (fun k hk => hF k (by omega)) fun h h' => no (by omega) h'
      exact ⟨W', T', b, m, q1, by rw [trusting, MWorld.exec, h0, if_neg (by simp), h1, res_ok_bind, h2, res_ok_bind, h4, res_ok_bind, h3, q2], .elements hx q3, q4⟩
    · exact no g2 g3
    · exact no g2 g3
    · cases g2

/-! ### Failures are reported -/

/-- The fragment does not end normally. -/
def Never (x : OM α β) : Prop := ∀ m n b m' n', x m n ≠ .ok b m' n'

theorem never_bind {γ : Type} {x : OM α β} {k : β → OM α γ} (h : ∀ b, Never (k b)) : Never (x >>= k) := by
  intro m n b m' n'
  rw [om_bind]
  split
  · exact h _ _ _ _ _ _
  · intro h; cases h
  · intro h; cases h

theorem never_first {γ : Type} {x : OM α β} {k : β → OM α γ} (h : Never x) : Never (x >>= k) := by
  intro m n b m' n'
  rw [om_bind]
  cases hx : x m n with
  | ok c m1 n1 => exact (h _ _ _ _ _ hx).elim
  | thrown m1 n1 => intro h; cases h
  | fail f => intro h; cases h

theorem never_allocation : Never (OM.allocation (fun _ => true) : OM α Unit) := by
  intro m n b m' n' h
  simp [OM.allocation] at h

theorem never_newArrayO {src : EObj α} {fresh : Mem α → Nat} : Never (newArrayO (fun _ => true) A src fresh) := never_first never_allocation

theorem never_exec {w : World α} {n : Nat} {x : OM α (Mem α → World α)} (h : Never x) (w' : World α) (n' : Nat) : w.execO n x ≠ .ok w' n' := by
  unfold World.execO
  cases hx : x w.mem n with
  | ok c m1 n1 => exact (h _ _ _ _ _ hx).elim
  | thrown m1 n1 => intro h; cases h
  | fail f => intro h; cases h

/-- **C76.** Where there is no memory, that is reported: a statement that makes new elements throws (or, with a fatal index, terminates the program). -/
theorem C76_reported (H : MHolds W T) {s : MStmt α} (hs : MLegal T s) (chk : Bool) {alloc : Nat → Mem α → Nat → Nat} (hal : GoodAlloc alloc) (n : Nat)
    (hm : match s with
      | .old (.make _ _) => True
      | .old (.makeFill _ _ _) => True
      | .old (.makeFrom _ _ _) => True
      | .old (.overlap _ _ _) => True
      | .old (.overlapWhole _ _) => True
      | .old (.set x e) => e ≠ .arr x [] ∧ ((∃ d, T.moved x = some d) ∨ ∃ a d, T.live x = some a ∧ ExLegal T.live d e ∧ prod d ≠ prod a.ext)
      | _ => False) :
    (∃ w' n', W.stepO (fun _ => true) Arith.exact chk alloc n s = .thrown w' n') ∨
      (W.stepO (fun _ => true) Arith.exact chk alloc n s = .fail .terminate ∧ Fatal T (mchains s)) := by
  have never : ∀ W' n', W.stepO (fun _ => true) Arith.exact chk alloc n s ≠ .ok W' n' := by
    have keep : ∀ r : ORes α (World α), (∀ w' n', r ≠ .ok w' n') → ∀ W' n', W.keepGone r ≠ .ok W' n' := by
      intro r hr W' n' h
      cases r with
      | ok w' n1 => exact hr _ _ rfl
      | thrown w' n1 => cases h
      | fail f => cases h
    have other : ∀ s : Stmt α, (∀ w' n', W.w.stepO (fun _ => true) Arith.exact chk alloc n s ≠ .ok w' n') → ∀ W' n',
        (if W.anyGone s.declares.toList then .fail .illFormed else if W.anyGone s.uses then .fail .ub else
          W.keepGone (W.w.stepO (fun _ => true) Arith.exact chk alloc n s)) ≠ ORes.ok W' n' := by
      intro s hr W' n'
      split
      · intro h; cases h
      · split
        · intro h; cases h
        · exact keep _ hr _ _
    have revive : ∀ x d e into W' n', W.reviveO (fun _ => true) Arith.exact chk alloc n x d e into ≠ .ok W' n' := by
      intro x d e into W' n'
      unfold MWorld.reviveO
      generalize hx : W.w.execO n _ = r
      cases r with
      | ok w' n1 =>
        refine (never_exec ?_ _ _ hx).elim
        refine never_bind fun _ => never_bind fun _ => never_bind fun _ => never_bind fun _ => ?_
        split
        · intro m n b m' n' h; cases h
        · exact never_first never_newArrayO
      | thrown w' n1 => intro h; cases h
      | fail f => intro h; cases h
    cases s with
    | declare x k => exact hm.elim
    | moveMake x y => exact hm.elim
    | old s =>
      cases s with
      | make x e =>
        refine other _ fun w' n' => ?_
        simp only [World.stepO]
        split
        · intro h; cases h
        · exact never_exec (never_bind fun _ => never_bind fun _ => never_first never_newArrayO) _ _
      | makeFill x s ext =>
        refine other _ fun w' n' => ?_
        simp only [World.stepO]
        split
        · intro h; cases h
        · exact never_exec (never_bind fun _ => never_bind fun _ => never_bind fun _ => never_first never_allocation) _ _
      | makeFrom x l ext =>
        refine other _ fun w' n' => ?_
        simp only [World.stepO]
        split
        · intro h; cases h
        · exact never_exec (never_bind fun _ => never_first never_allocation) _ _
      | overlap x h e =>
        refine other (.overlap x h e) fun w' n' => ?_
        simp only [World.stepO]
        exact never_exec (never_bind fun _ => never_bind fun _ => never_bind fun _ => never_bind fun _ => never_first never_newArrayO) _ _
      | overlapWhole x e =>
        intro W' n'
        simp only [MWorld.stepO]
        cases hg : W.gone x with
        | some d =>
          dsimp only
          split
          · intro h; cases h
          · exact revive _ _ _ _ _ _
        | none =>
          dsimp only
          split
          · intro h; cases h
          · refine keep _ (fun w' n' => ?_) _ _
            simp only [World.stepO]
            exact never_exec (never_bind fun _ => never_bind fun _ => never_bind fun _ => never_bind fun _ => never_first never_newArrayO) _ _
      | set x e =>
        obtain ⟨hne, hm⟩ := hm
        have revive' : ∀ d W' n', (if W.anyGone e.uses then .fail .ub else W.reviveO (fun _ => true) Arith.exact chk alloc n x d e true) ≠ ORes.ok W' n' := by
          intro d W' n'
          split
          · intro h; cases h
          · exact revive _ _ _ _ _ _
        intro W' n'
        rcases hm with ⟨d, hd⟩ | ⟨a, d, ha, he, hsz⟩
        · have hg : W.gone x = some d := by rw [H.gone, hd]
          have := revive' d W' n'
          cases e with
          | arr y h =>
            cases h with
            | nil =>
              have hxy : x ≠ y := by rintro rfl; exact hne rfl
              simp only [MWorld.stepO, hg, hxy, if_false]
              exact this
            | cons ix h => simp only [MWorld.stepO, hg]; exact this
          | _ => simp only [MWorld.stepO, hg]; exact this
        · have hg : W.gone x = none := by rw [H.gone]; exact live_not_moved H (by rw [ha]; simp)
          have e1 : W.stepO (fun _ => true) Arith.exact chk alloc n (.old (.set x e)) = if W.anyGone e.uses then .fail .ub else
              W.keepGone (W.w.stepO (fun _ => true) Arith.exact chk alloc n (.set x e)) := by
            simp only [MWorld.stepO, hg]
          rw [e1]
          split
          · intro h; cases h
          · refine keep _ (fun w' n' hok => ?_) _ _
            -- the statement succeeds without allocations only if the sizes agree
            have hw := stepO_ends (S := fun _ => true) (A := Arith.exact) (chk := chk) (alloc := alloc) (shaped_of H) n (.set x e)
            obtain ⟨h1, c, h2, h3, _⟩ := H.store.arr x a ha
            have hget : W.w.get x = .ok c := by simp only [World.get, h2]
            have asg : ∀ (src : EObj α) (fresh : Mem α → Nat), src.dims = d → Never (arrayAssignExprO (fun _ => true) Arith.exact c src fresh) := by
              intro src fresh hs
              unfold arrayAssignExprO
              rw [if_neg (by rw [prodL_exact, prodL_exact, hs, h3]; exact fun h => hsz h.symm)]
              exact never_first never_newArrayO
            have hd : d ≠ [] := by
              rcases hs with ⟨a', d', g1, g2, g3, _⟩ | ⟨d', g1, _⟩
              · rw [ha] at g1; cases g1
                have := exLegal_unique he g3
                subst this
                rintro rfl; exact h1 (List.length_eq_zero_iff.1 g2.symm)
              · rw [live_not_moved H (by rw [ha]; simp)] at g1; cases g1
            obtain ⟨e', sv, k1, hE⟩ := ex_ok H.store hd chk he
            obtain ⟨src', k2, hy⟩ := build_ok (chk := chk) hE.denotes hE.exts
            have gen : ∀ {γ : Type} (k : Arr → OM α γ), Never (do
                let a ← OM.lift (W.w.get x)
                let e' ← e.evalO (fun _ => true) Arith.exact chk W.w
                let src ← OM.lift (e'.build Arith.exact chk)
                OM.lift (sameOrder a src.dims)
                let b' ← arrayAssignExprO (fun _ => true) Arith.exact a src fun m => alloc W.w.clock m (prodL Arith.exact src.dims)
                k b') := by
              intro γ k m n b m' n'
              rw [hget]
              simp only [om_bind, OM.lift]
              rcases quiet_exO (S := fun _ => true) (A := Arith.exact) (chk := chk) (shaped_of H) e m n with
                ⟨b, m1, n1, g1, g2, _⟩ | ⟨j, g1, _⟩ | ⟨j, g1, _⟩ | ⟨f, g1, _⟩
              · rw [k1] at g2; cases g2
                rw [g1]
                simp only [k2]
                cases sameOrder c src'.dims with
                | error f => intro h; cases h
                | ok u => exact never_first (asg _ _ hy.dims) _ _ _ _ _
              · rw [g1]; intro h; cases h
              · rw [g1]; intro h; cases h
              · rw [g1]; intro h; cases h
            have gen' : (∀ y, e ≠ .arr y []) → False := by
              intro hy
              refine never_exec (w := W.w) (n := n) (gen fun b' => pure fun m => W.w.bind m x (some b')) w' n' ?_
              rw [← hok]
              cases e with
              | arr y h =>
                cases h with
                | nil => exact (hy y rfl).elim
                | cons ix h => rfl
              | _ => rfl
            by_cases hy : ∃ y, e = .arr y []
            · obtain ⟨y, rfl⟩ := hy
              have hxy : x ≠ y := by rintro rfl; exact hne rfl
              obtain ⟨b, v, hb, hc, hv⟩ := he
              obtain ⟨_, c', q2, q3, _⟩ := H.store.arr y b hb
              have hv' : b.ext = d := by
                have := hc.view
                simp only [imeaning, List.foldl_nil] at this
                injection this with this
                rw [← hv, ← this]
              simp only [World.stepO, hxy, if_false] at hok
              refine never_exec ?_ _ _ hok
              rw [hget]
              have hget' : W.w.get y = .ok c' := by simp only [World.get, q2]
              rw [hget']
              intro m n b' m' n'
              simp only [om_bind, OM.lift]
              cases sameOrder c c'.ext with
              | error f => intro h; cases h
              | ok u => exact never_first (asg _ _ (by rw [← hv', ← q3])) _ _ _ _ _
            · exact gen' fun y h => hy ⟨y, h⟩
      | _ => exact hm.elim
  rcases C76_statement_partial H hs (fun _ => true) chk hal n with ⟨W', n', h, _⟩ | ⟨w', k, h, _⟩ | ⟨h, h', _⟩
  · exact (never _ _ h).elim
  · exact .inl ⟨w', _, h⟩
  · exact .inr ⟨h, h'⟩

end

/-! ### Examples, and the full claim refuted -/

/-- A 3×3 matrix; a vector is made from the first row of the part with the rows and columns 0 and 2; if that throws, one with the first row. -/
def exOom : GProg Nat (Bool × List Nat) :=
  .exec (.old (.makeFrom 0 [1, 2, 3, 4, 5, 6, 7, 8, 9] [3, 3])) fun ok =>
    if ok then .exec (.old (.make 1 (.arr 0 [.rng [0, 2], .rng [0, 2], .at 0]))) fun ok' =>
      if ok' then .elements (.arr 1 []) fun r => .ret (true, (r.map Prod.snd).getD [])
      else .elements (.arr 0 [.at 0]) fun r => .ret (false, (r.map Prod.snd).getD [])
    else .ret (false, [])

def GOut.result (o : GOut α β) : Option (β × Nat) :=
  match o with
  | .ok _ b n => some (b, n)
  | .fail _ => none

def GOut.failure (o : GOut α β) : Option Fail :=
  match o with
  | .ok _ _ _ => none
  | .fail f => some f

example : GOut.result (MWorld.empty.execO (fun _ => false) Arith.exact true exAlloc 0 exOom) = some ((true, [1, 7]), 6) := by decide +kernel
example : GOut.result (MWorld.empty.execO (· == 0) Arith.exact true exAlloc 0 exOom) = some ((false, []), 1) := by decide +kernel
example : GOut.result (MWorld.empty.execO (· == 1) Arith.exact true exAlloc 0 exOom) = some ((false, [1, 4, 7]), 2) := by decide +kernel
example : GOut.result (MWorld.empty.execO (· == 2) Arith.exact true exAlloc 0 exOom) = some ((false, [1, 4, 7]), 3) := by decide +kernel
example : GOut.result (MWorld.empty.execO (· == 5) Arith.exact true exAlloc 0 exOom) = some ((false, [1, 4, 7]), 6) := by decide +kernel

/-- The elements 0 and 2 of a vector in a new one; the program tells whether that was possible, and the elements of the vector it has. -/
def exOomLegal : GProg Nat (Bool × List Nat) :=
  .exec (.old (.makeFrom 0 [1, 2, 3] [3])) fun ok =>
    if ok then .exec (.old (.make 1 (.arr 0 [.rng [0, 2]]))) fun ok' =>
      .elements (.arr (if ok' then 1 else 0) []) fun r => .ret (ok', (r.map Prod.snd).getD [])
    else .ret (false, [])

/-- The hypotheses of the theorems are met: the program is legal and has no fatal index. -/
theorem exOomLegal_legal : LegalG ⟨fun _ => none, fun _ => none⟩ exOomLegal ∧ NoFatal ⟨fun _ => none, fun _ => none⟩ exOomLegal := by
  refine ⟨⟨⟨rfl, rfl, by decide, by decide⟩, ?_, trivial⟩, ⟨?_, ?_, trivial⟩⟩
  · rintro T1 ⟨hm, ho, a, ha, hx, _⟩
    have hn : T1.live 1 = none := ho 1 (by decide)
    have hc : ∃ v, Chain [3] [.rng [0, 2]] v ∧ v.ext = [2] := ⟨_, ⟨⟨⟨by decide, trivial, by decide, by decide⟩, trivial⟩, rfl, rfl⟩, rfl⟩
    obtain ⟨v, hc, hv⟩ := hc
    refine ⟨⟨by rw [hm], hn, [2], by decide, a, v, ha, by rw [hx]; exact hc, hv⟩, ?_, ?_⟩
    · rintro T2 ⟨_, d, hd, _, a2, h2, h3, _⟩
      have : d = [2] := exLegal_unique hd ⟨a, v, ha, by rw [hx]; exact hc, hv⟩
      subst this
      exact ⟨[2], by decide, ⟨a2, _, h2, by rw [h3]; exact chain_whole [2], rfl⟩, fun _ _ => trivial, trivial⟩
    · exact ⟨[3], by decide, ⟨a, _, ha, by rw [hx]; exact chain_whole [3], rfl⟩, fun _ _ => trivial, trivial⟩
  · rintro ⟨x, h, a, h1, _⟩; cases h1
  · rintro T1 ⟨hm, ho, a, ha, hx, _⟩
    have hnf : ∀ n, ¬ FatalChain n [] := by
      rintro n ⟨h1, i, h2, k, h, _⟩; simp at h
    refine ⟨?_, fun T2 _ => ⟨?_, fun _ _ _ => trivial, trivial⟩, ⟨?_, fun _ _ _ => trivial, trivial⟩⟩
    · rintro ⟨x, h, a, h1, _, h1', i, h2, k, h3, _⟩
      simp [mchains, chains, exChains] at h1
      obtain ⟨rfl, rfl⟩ := h1
      cases h1' with
      | nil => simp at h3
      | cons y l => simp at h3
    · rintro ⟨x, h, a, h1, _, h3⟩
      simp [exChains] at h1
      obtain ⟨_, rfl⟩ := h1
      exact hnf _ h3
    · rintro ⟨x, h, a, h1, _, h3⟩
      simp [exChains] at h1
      obtain ⟨_, rfl⟩ := h1
      exact hnf _ h3

example (F : Nat → Bool) : ∃ W' T' b n', MWorld.empty.execO F Arith.exact true goodAlloc_exists.choose 0 exOomLegal = .ok W' b n' ∧
    Ending ⟨fun _ => none, fun _ => none⟩ exOomLegal T' b ∧ MHolds W' T' :=
  C76_survives_partial exOomLegal_legal.1 exOomLegal_legal.2 mholds_empty F true goodAlloc_exists.choose_spec 0

/-- **C76** (the full claim is false). The handler is not always reached: `a[{0, 2}][{0, 2}][0]` allocates in a `noexcept` function (mapper.hpp:83), and the program is
terminated although it catches the exception. -/
theorem C76_terminated : GOut.failure (MWorld.empty.execO (· == 3) Arith.exact true exAlloc 0 exOom) = some .terminate ∧
    GOut.failure (MWorld.empty.execO (· == 4) Arith.exact false exAlloc 0 exOom) = some .terminate := by decide +kernel

/-! ### The hypotheses hold in concrete cases -/

example (F : Nat → Bool) := C76_program_partial exOomLegal_legal.1 mholds_empty F true goodAlloc_exists.choose_spec 0
example (F : Nat → Bool) := C76_statement_partial (α := Nat) mholds_empty (s := .old (.makeFrom 0 [1, 2, 3] [3])) exOomLegal_legal.1.1 F true goodAlloc_exists.choose_spec 0
example := C76_enough_memory exOomLegal_legal.1 mholds_empty (F := fun k => k == 7) true goodAlloc_exists.choose_spec (n := 8) (by intro k hk; simp; omega)

end Jules.Props

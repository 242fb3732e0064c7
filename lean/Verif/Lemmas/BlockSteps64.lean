import Verif.Lemmas.Blocks64
/-
Lemmas for C88: statements, blocks and programs do the same with 64-bit numbers as with all numbers.
-/
namespace Jules
open Spec Props

section
variable {α β : Type} {W : BWorld α} {w : World α} {T : Nat → Bool} {nx chk : Bool} {alloc : Nat → List (Nat × Nat) → Nat → Option Nat}

/-- The state is below 2^62. -/
def BelowR (r : BWorld α × β) : Prop := BelowB r.1

theorem stored_agr (h : BelowB W) {x : Nat} {R R' : BOut α Own} (hR : R = R') (hf : ∀ o p, R' = .ok o p → OwnFit o) :
    Agr (W.stored x R) (W.stored x R') BelowR := by
  subst hR
  refine ⟨rfl, fun r hr => ?_⟩
  unfold BWorld.stored at hr
  split at hr
  · next o p =>
    cases hr
    refine belowB_put (W := { W with pool := p }) (belowB_env h rfl) fun o' ho' => ?_
    cases ho'
    exact hf o p rfl
  · cases hr; exact belowB_env h rfl
  · cases hr

theorem wrote_agr (h : BelowB W) {R R' : BOut α Unit} (hR : R = R') : Agr (W.wrote R) (W.wrote R') BelowR := by
  subst hR
  refine ⟨rfl, fun r hr => ?_⟩
  unfold BWorld.wrote at hr
  split at hr
  · cases hr; exact belowB_env h rfl
  · cases hr; exact belowB_env h rfl
  · cases hr

theorem own_agr (h : BelowB W) (x : Nat) : Agr (W.own x) (W.own x) OwnFit := by
  unfold BWorld.own
  cases hx : W.env x with
  | none => exact agr_err
  | some o => exact agr_ok (h x o hx)

theorem usable_same (h : BelowB W) (xs : List Nat) : Agr (W.usable Arith.u64 xs) (W.usable Arith.exact xs) fun _ => True :=
  ⟨usable_agr h xs, fun _ _ => trivial⟩

theorem agr_any {r : Res β} : Agr r r fun _ => True := ⟨rfl, fun _ _ => trivial⟩

/-- `x = e`, not a self-assignment. -/
theorem set_agr (h : BelowB W) (hal : GoodBlocks64 alloc) {x : Nat} {e : FEx α} (hs : ExA (W.flat Arith.exact) chk e) :
    Agr (do
        let o ← W.own x
        W.usable Arith.u64 e.uses
        let src ← e.eval Arith.u64 chk (W.flat Arith.u64)
        sameRank o src.dims
        W.stored x (setB Arith.u64 T nx alloc o src W.pool))
      (do
        let o ← W.own x
        W.usable Arith.exact e.uses
        let src ← e.eval Arith.exact chk (W.flat Arith.exact)
        sameRank o src.dims
        W.stored x (setB Arith.exact T nx alloc o src W.pool)) BelowR := by
  rw [flat_agr h]
  refine agr_bind (own_agr h x) fun o ho => agr_bind (usable_same h _) fun _ _ => agr_bind hs fun src hsrc => agr_bind agr_any fun _ _ => ?_
  obtain ⟨h1, h2⟩ := setB_agr (T := T) (nx := nx) hal ho hsrc
  exact stored_agr h (by rw [h1]) fun o' p' hp => h2 _ o' p' hp

/-- Statements with functions that may throw. -/
theorem fstep_agr (h : BelowB W) (hal : GoodBlocks64 alloc) {s : FStmt α} (hs : FAgree (W.flat Arith.exact) chk s) :
    Agr (W.fstep Arith.u64 chk nx T alloc s) (W.fstep Arith.exact chk nx T alloc s) BelowR := by
  cases s with
  | plain s => exact agr_err
  | make x e =>
    simp only [BWorld.fstep, flat_agr h]
    refine agr_bind agr_any fun _ _ => agr_bind (usable_same h _) fun _ _ => agr_bind hs fun src hsrc => ?_
    exact stored_agr h (by rw [newB_agr hsrc]) fun o p hp => (newB_fit hal hsrc hp).1
  | makeFrom x l ext =>
    simp only [BWorld.fstep]
    refine agr_bind agr_any fun _ _ => agr_bind agr_same fun _ hne => ?_
    have hne : ext ≠ [] := by
      rintro rfl
      cases hne
    exact stored_agr h (by rw [newB_agr ⟨hne, hs⟩]) fun o p hp => (newB_fit hal ⟨hne, hs⟩ hp).1
  | assign x hh e =>
    simp only [BWorld.fstep, flat_agr h]
    refine agr_bind agr_any fun _ _ => agr_bind (usable_same h _) fun _ _ => agr_bind hs.1 fun o ho => agr_bind hs.2 fun src _ => ?_
    exact wrote_agr h (by rw [assignB_agr ho.1])
  | inPlace x hh op e =>
    simp only [BWorld.fstep, flat_agr h]
    refine agr_bind (usable_same h _) fun _ _ => agr_bind hs.1 fun o ho => agr_bind hs.2 fun src _ => ?_
    exact wrote_agr h (by rw [inPlaceB_agr ho.1])
  | inPlaceScalar x hh op s =>
    simp only [BWorld.fstep, flat_agr h]
    refine agr_bind (usable_same h _) fun _ _ => agr_bind hs.1 fun o ho => ?_
    rw [show s.eval Arith.u64 chk (W.flat Arith.exact) = _ from hs.2]
    exact agr_bind agr_any fun c _ => wrote_agr h (by rw [inPlaceScalarB_agr ho.1])
  | apply x hh f =>
    simp only [BWorld.fstep, flat_agr h]
    refine agr_bind (usable_same h _) fun _ _ => agr_bind hs fun o ho => ?_
    exact wrote_agr h (by rw [applyB_agr ho.1])
  | overlap x hh e =>
    simp only [BWorld.fstep, flat_agr h]
    refine agr_bind agr_any fun _ _ => agr_bind (usable_same h _) fun _ _ => agr_bind hs.1 fun o ho => agr_bind hs.2 fun src hsrc => ?_
    exact wrote_agr h (overlapB_agr hal ho.1 hsrc _)
  | overlapWhole x e =>
    simp only [BWorld.fstep, flat_agr h]
    refine agr_bind (own_agr h x) fun o ho => agr_bind (usable_same h _) fun _ _ => agr_bind hs fun src hsrc => agr_bind agr_any fun _ _ => ?_
    obtain ⟨h1, h2⟩ := overlapWholeB_agr (T := T) (nx := nx) hal ho hsrc
    exact stored_agr h (by rw [h1]) fun o' p' hp => h2 _ o' p' hp
  | set x e =>
    have general := set_agr (T := T) (nx := nx) (x := x) h hal hs
    cases e with
    | arr y hh =>
      cases hh with
      | nil =>
        simp only [BWorld.fstep, flat_agr h]
        refine agr_bind (own_agr h x) fun o ho => agr_ite (fun _ => agr_ok h) fun _ => ?_
        refine agr_bind (usable_same h _) fun _ _ => agr_bind hs fun src hsrc => agr_bind agr_any fun _ _ => ?_
        obtain ⟨h1, h2⟩ := setB_agr (T := T) (nx := nx) hal ho hsrc
        exact stored_agr h (by rw [h1]) fun o' p' hp => h2 _ o' p' hp
      | cons ix hh => exact general
    | un f e => exact general
    | bin f a b => exact general
    | scl f s e => exact general
    | scr f e s => exact general

theorem replicate_zero_prod {n : Nat} (hn : n ≠ 0) : prod (List.replicate n 0) = 0 := by
  cases n with
  | zero => exact (hn rfl).elim
  | succ n => simp [List.replicate_succ, prod]

theorem drop_agr (h : BelowB W) (x : Nat) :
    Agr (W.mstep Arith.u64 chk nx T alloc (.old (.drop x))) (W.mstep Arith.exact chk nx T alloc (.old (.drop x))) BelowR := by
  simp only [BWorld.mstep]
  refine agr_bind (own_agr h x) fun o ho => ?_
  rw [clearB_agr ho]
  refine agr_bind (wrote_agr h rfl) fun r hr => agr_ok ?_
  exact belowB_put (W := r.1) hr fun o' ho' => by cases ho'

theorem moveMake_agr (h : BelowB W) (x y : Nat) :
    Agr (W.mstep Arith.u64 chk nx T alloc (.moveMake x y)) (W.mstep Arith.exact chk nx T alloc (.moveMake x y)) BelowR := by
  simp only [BWorld.mstep]
  refine agr_bind agr_any fun _ _ => agr_bind (own_agr h y) fun o ho => agr_ok ?_
  refine belowB_put (belowB_put h fun o' ho' => by cases ho'; exact ho) fun o' ho' => ?_
  cases ho'
  exact ⟨ho.1, ho.2.1, ho.2.2.1, fun b hb => by cases hb⟩

/-- All statements without blocks. -/
theorem mstep64 (h : BelowB W) (hal : GoodBlocks64 alloc) {s : MStmt α} (hs : MAgree (W.flat Arith.exact) chk s) :
    Agr (W.mstep Arith.u64 chk nx T alloc s) (W.mstep Arith.exact chk nx T alloc s) BelowR := by
  cases s with
  | declare x n =>
    simp only [BWorld.mstep]
    refine agr_bind agr_any fun _ _ => agr_bind agr_same fun _ hn => agr_ok ?_
    have hn : n ≠ 0 := by
      rintro rfl
      cases hn
    refine belowB_put h fun o' ho' => ?_
    cases ho'
    refine ⟨by simpa using hn, fun k hk => ?_, ?_, fun b hb => by cases hb⟩
    · have := List.eq_of_mem_replicate hk
      omega
    · show prod (List.replicate n 0) ≤ _
      rw [replicate_zero_prod hn]; exact Nat.zero_le _
  | moveMake x y => exact moveMake_agr h x y
  | old s =>
    cases s with
    | make x e => simp only [BWorld.mstep, fallible_total]; exact fstep_agr h hal hs
    | makeFrom x l ext => exact fstep_agr (chk := chk) (nx := nx) h hal (s := .makeFrom x (l.map some) ext) hs
    | makeFill x s ext =>
      simp only [BWorld.mstep, flat_agr h]
      refine agr_bind agr_any fun _ _ => agr_bind agr_same fun _ hne => agr_bind (usable_same h _) fun _ _ => ?_
      have hne : ext ≠ [] := by
        rintro rfl
        cases hne
      rw [show s.eval Arith.u64 chk (W.flat Arith.exact) = _ from hs.1]
      refine agr_bind agr_any fun c _ => ?_
      exact stored_agr h (by rw [newB_agr ⟨hne, hs.2⟩]) fun o p hp => (newB_fit hal ⟨hne, hs.2⟩ hp).1
    | drop x => exact drop_agr h x
    | fill x hh s =>
      simp only [BWorld.mstep, flat_agr h]
      refine agr_bind agr_any fun _ _ => agr_bind (usable_same h _) fun _ _ => agr_bind hs.1 fun o ho => ?_
      rw [show s.eval Arith.u64 chk (W.flat Arith.exact) = _ from hs.2]
      exact agr_bind agr_any fun c _ => wrote_agr h (by rw [fillB_agr ho.1])
    | assign x hh e => simp only [BWorld.mstep, fallible_total]; exact fstep_agr h hal hs
    | inPlace x hh op e => simp only [BWorld.mstep, fallible_total]; exact fstep_agr h hal hs
    | inPlaceScalar x hh op s => exact fstep_agr (chk := chk) (nx := nx) h hal (s := .inPlaceScalar x hh (fun u y => (op u y, false)) s) hs
    | apply x hh f => exact fstep_agr (chk := chk) (nx := nx) h hal (s := .apply x hh (fun u => (f u, false))) hs
    | overlap x hh e => simp only [BWorld.mstep, fallible_total]; exact fstep_agr h hal hs
    | overlapWhole x e => simp only [BWorld.mstep, fallible_total]; exact fstep_agr h hal hs
    | set x e => simp only [BWorld.mstep, fallible_total]; exact fstep_agr h hal hs
    | moveAssign x y =>
      simp only [BWorld.mstep]
      refine agr_bind agr_any fun _ _ => agr_bind (own_agr h x) fun o ho => agr_bind (own_agr h y) fun o' ho' => agr_bind agr_any fun _ _ => agr_ok ?_
      exact belowB_put (belowB_put h fun o'' h' => by cases h'; exact ho') fun o'' h' => by cases h'; exact ho

theorem step64 (h : BelowB W) (hal : GoodBlocks64 alloc) {s : XStmt α} (hs : XAgree (W.flat Arith.exact) chk s) :
    Agr (W.step Arith.u64 chk nx T alloc s) (W.step Arith.exact chk nx T alloc s) BelowR := by
  have fin : ∀ (r : BWorld α × Bool) (d : Option Nat), BelowR r → BelowR (if r.2 then r else (r.1.declare d, false)) := by
    intro r d hr
    split
    · exact hr
    · exact belowB_declare hr d
  cases s with
  | calm s =>
    have hm := mstep64 (T := T) (nx := nx) h hal hs
    cases s with
    | declare x n => exact agr_bind hm fun r hr => agr_ok (fin r _ hr)
    | moveMake x y => exact agr_bind hm fun r hr => agr_ok (fin r _ hr)
    | old s =>
      cases s
      case drop x => exact agr_err
      all_goals exact agr_bind hm fun r hr => agr_ok (fin r _ hr)
  | wild s => exact agr_bind (fstep_agr h hal hs) fun r hr => agr_ok (fin r _ hr)

/-! ### Blocks -/

theorem leave64 (h : BelowB W) : Agr (W.leave Arith.u64 chk nx T alloc) (W.leave Arith.exact chk nx T alloc) BelowB := by
  unfold BWorld.leave
  cases W.scopes with
  | nil => exact agr_err
  | cons f fs =>
    dsimp only
    have : ∀ (f : List Nat) (W : BWorld α), BelowB W →
        Agr (f.foldlM (fun (W : BWorld α) x => do let r ← W.mstep Arith.u64 chk nx T alloc (.old (.drop x)); .ok r.1) W)
          (f.foldlM (fun (W : BWorld α) x => do let r ← W.mstep Arith.exact chk nx T alloc (.old (.drop x)); .ok r.1) W) BelowB := by
      intro f
      induction f with
      | nil => intro W h; exact agr_ok h
      | cons x f ih =>
        intro W h
        rw [List.foldlM_cons, List.foldlM_cons]
        exact agr_bind (agr_bind (drop_agr h x) fun r hr => agr_ok hr) fun W' hW' => ih W' hW'
    exact agr_bind (this f W h) fun W' hW' => agr_ok (belowB_env hW' rfl)

theorem give64 (h : BelowB W) (x y : Nat) : Agr (W.give Arith.u64 chk nx T alloc x y) (W.give Arith.exact chk nx T alloc x y) BelowB := by
  unfold BWorld.give
  exact agr_bind agr_any fun _ _ => agr_bind (moveMake_agr h x y) fun r hr => agr_ok hr

/-! ### Programs -/

/-- The evaluations agree along a run. -/
def AgreeRun (A : Arith) (chk nx : Bool) (T : Nat → Bool) (alloc : Nat → List (Nat × Nat) → Nat → Option Nat) (W : BWorld α) (p : Body α β) : Prop :=
  Along A chk nx T alloc (fun W s => BelowB W → XAgree (W.flat Arith.exact) chk s) (fun W s => BelowB W → ScA (W.flat Arith.exact) chk s)
    (fun W e => BelowB W → ExA (W.flat Arith.exact) chk e) W p

theorem exec64 {A : Arith} (hA : A = Arith.u64 ∨ A = Arith.exact) (hal : GoodBlocks64 alloc) : ∀ (p : Body α β) {W : BWorld α}, BelowB W → AgreeRun A chk nx T alloc W p →
    Agr (W.exec Arith.u64 chk nx T alloc p) (W.exec Arith.exact chk nx T alloc p) BelowR := by
  have pick : ∀ {β' : Type} {f : Arith → Res β'} {P : β' → Prop} (_ : Agr (f Arith.u64) (f Arith.exact) P) {b : β'}, f Arith.exact = .ok b → f A = .ok b := by
    intro β' f P h b hb
    rcases hA with rfl | rfl
    · rw [h.1]; exact hb
    · exact hb
  intro p
  induction p with
  | ret b => intro W h _; exact agr_ok h
  | throw => intro W h _; exact agr_ok h
  | exec s k ih =>
    intro W h hr
    have hs := step64 (T := T) (nx := nx) h hal (hr.1 h)
    simp only [BWorld.exec]
    refine agr_bind (P := fun r => BelowR r ∧ W.step Arith.exact chk nx T alloc s = .ok r) ⟨hs.1, fun r h' => ⟨hs.2 r h', h'⟩⟩ fun r hr' => ?_
    obtain ⟨W', t⟩ := r
    cases t with
    | true => exact agr_ok hr'.1
    | false => exact ih hr'.1 (hr.2 W' (pick (f := fun A => W.step A chk nx T alloc s) hs hr'.2))
  | read s k ih =>
    intro W h hr
    have hs : Agr (s.eval Arith.u64 chk (W.flat Arith.u64)) (s.eval Arith.exact chk (W.flat Arith.exact)) fun _ => True := by
      rw [flat_agr h]; exact ⟨hr.1 h, fun _ _ => trivial⟩
    simp only [BWorld.exec]
    refine agr_bind (usable_same h _) fun _ _ => agr_bind (P := fun c => s.eval Arith.exact chk (W.flat Arith.exact) = .ok c) ⟨hs.1, fun c h' => h'⟩ fun c hc => ?_
    cases hp : scalarB T c W.pool with
    | ok v p => exact ih v (W := { W with pool := p }) (belowB_env h rfl) (hr.2 c v p (pick (f := fun A => s.eval A chk (W.flat A)) hs hc) hp)
    | exn p => exact agr_ok (belowB_env h rfl)
    | fail f => exact agr_err
  | elements e k ih =>
    intro W h hr
    have hs : Agr (e.eval Arith.u64 chk (W.flat Arith.u64)) (e.eval Arith.exact chk (W.flat Arith.exact)) fun _ => True := by
      rw [flat_agr h]; exact ⟨(hr.1 h).1, fun _ _ => trivial⟩
    simp only [BWorld.exec]
    refine agr_bind (usable_same h _) fun _ _ => agr_bind (P := fun c => e.eval Arith.exact chk (W.flat Arith.exact) = .ok c) ⟨hs.1, fun c h' => h'⟩ fun src hc => ?_
    cases hp : elementsB T src W.pool with
    | ok xs p => exact ih src.dims xs (W := { W with pool := p }) (belowB_env h rfl) (hr.2 src xs p (pick (f := fun A => e.eval A chk (W.flat A)) hs hc) hp)
    | exn p => exact agr_ok (belowB_env h rfl)
    | fail f => exact agr_err
  | block body k ih ih' =>
    intro W h hr
    have hs := ih (W := W.enter) (belowB_env h rfl) hr.1
    simp only [BWorld.exec]
    refine agr_bind (P := fun r => BelowR r ∧ W.enter.exec Arith.exact chk nx T alloc body = .ok r) ⟨hs.1, fun r h' => ⟨hs.2 r h', h'⟩⟩ fun r hr' => ?_
    have hl := leave64 (T := T) (nx := nx) (chk := chk) (alloc := alloc) hr'.1
    refine agr_bind (P := fun W' => BelowB W' ∧ r.1.leave Arith.exact chk nx T alloc = .ok W') ⟨hl.1, fun r h' => ⟨hl.2 r h', h'⟩⟩ fun W' hW' => ?_
    obtain ⟨W₁, o⟩ := r
    cases o with
    | none => exact agr_ok hW'.1
    | some b =>
      exact ih' b hW'.1 (hr.2 W₁ W' b (pick (f := fun A => W.enter.exec A chk nx T alloc body) hs hr'.2)
        (pick (f := fun A => W₁.leave A chk nx T alloc) hl hW'.2))
  | call x y body k ih ih' =>
    intro W h hr
    have hs := ih (W := W.enter) (belowB_env h rfl) hr.1
    simp only [BWorld.exec]
    refine agr_bind (P := fun r => BelowR r ∧ W.enter.exec Arith.exact chk nx T alloc body = .ok r) ⟨hs.1, fun r h' => ⟨hs.2 r h', h'⟩⟩ fun r hr' => ?_
    obtain ⟨W₁, o⟩ := r
    cases o with
    | none => exact agr_bind (leave64 hr'.1) fun W' hW' => agr_ok hW'
    | some b =>
      have hg := give64 (T := T) (nx := nx) (chk := chk) (alloc := alloc) hr'.1 x y
      refine agr_bind (P := fun W' => BelowB W' ∧ W₁.give Arith.exact chk nx T alloc x y = .ok W') ⟨hg.1, fun r h' => ⟨hg.2 r h', h'⟩⟩ fun W₂ hW₂ => ?_
      have hl := leave64 (T := T) (nx := nx) (chk := chk) (alloc := alloc) hW₂.1
      refine agr_bind (P := fun W' => BelowB W' ∧ W₂.leave Arith.exact chk nx T alloc = .ok W') ⟨hl.1, fun r h' => ⟨hl.2 r h', h'⟩⟩ fun W' hW' => ?_
      exact ih' b (belowB_declare hW'.1 _) (hr.2 W₁ W₂ W' b (pick (f := fun A => W.enter.exec A chk nx T alloc body) hs hr'.2)
        (pick (f := fun A => W₁.give A chk nx T alloc x y) hg hW₂.2) (pick (f := fun A => W₂.leave A chk nx T alloc) hl hW'.2))
  | attempt body handler k ih ihh ih' =>
    intro W h hr
    obtain ⟨hr1, hr2, hr3⟩ := hr
    have hs := ih (W := W.enter) (belowB_env h rfl) hr1
    simp only [BWorld.exec]
    refine agr_bind (P := fun r => BelowR r ∧ W.enter.exec Arith.exact chk nx T alloc body = .ok r) ⟨hs.1, fun r h' => ⟨hs.2 r h', h'⟩⟩ fun r hr' => ?_
    have hl := leave64 (T := T) (nx := nx) (chk := chk) (alloc := alloc) hr'.1
    refine agr_bind (P := fun W' => BelowB W' ∧ r.1.leave Arith.exact chk nx T alloc = .ok W') ⟨hl.1, fun r h' => ⟨hl.2 r h', h'⟩⟩ fun W' hW' => ?_
    obtain ⟨W₁, o⟩ := r
    cases o with
    | some b =>
      exact ih' b hW'.1 (hr2 W₁ W' b (pick (f := fun A => W.enter.exec A chk nx T alloc body) hs hr'.2)
        (pick (f := fun A => W₁.leave A chk nx T alloc) hl hW'.2))
    | none =>
      obtain ⟨g1, g2⟩ := hr3 W₁ W' (pick (f := fun A => W.enter.exec A chk nx T alloc body) hs hr'.2)
        (pick (f := fun A => W₁.leave A chk nx T alloc) hl hW'.2)
      have hs' := ihh (W := W'.enter) (belowB_env hW'.1 rfl) g1
      refine agr_bind (P := fun r => BelowR r ∧ W'.enter.exec Arith.exact chk nx T alloc handler = .ok r) ⟨hs'.1, fun r h' => ⟨hs'.2 r h', h'⟩⟩ fun r hr'' => ?_
      have hl' := leave64 (T := T) (nx := nx) (chk := chk) (alloc := alloc) hr''.1
      refine agr_bind (P := fun W' => BelowB W' ∧ r.1.leave Arith.exact chk nx T alloc = .ok W') ⟨hl'.1, fun r h' => ⟨hl'.2 r h', h'⟩⟩ fun W'' hW'' => ?_
      obtain ⟨W₃, o⟩ := r
      cases o with
      | none => exact agr_ok hW''.1
      | some b =>
        exact ih' b hW''.1 (g2 W₃ W'' b (pick (f := fun A => W'.enter.exec A chk nx T alloc handler) hs' hr''.2)
          (pick (f := fun A => W₃.leave A chk nx T alloc) hl' hW''.2))

end
end Jules

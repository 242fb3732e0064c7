import Verif.Lemmas.BlockThrowsRuns
import Verif.Props.SafeBlocks
/-
C90: with JULES_DEBUG_THROWS, programs with blocks, calls, exceptions and handlers: a failed check is an exception like any other.
-/
namespace Jules.Props
open Jules Spec

section
variable {α β : Type} {W : BWorld α} {S : MStore α} {lost : List Nat} {T : Nat → Bool} {nx : Bool} {alloc : Nat → List (Nat × Nat) → Nat → Option Nat}

/-- **C90.** One statement that compiles and uses no moved-from array, where failed checks throw, whatever else throws (`T`) and whatever its indices are. It never
aborts and nothing is undefined: it ends, possibly with an exception, in a state that again holds arrays, each in a block of its own, and the arrays the
statement is not about have not changed; or it is terminated, which happens only with a type that cannot throw on construction or when the statement indexes
an empty selection, an array with a zero extent, or moves an array to itself. -/
theorem C90_step [Nonempty α] {s : XStmt α} {Γ' : Ctx} (hc : xcheck (sctx S) s = some Γ') (hp : XProvided s) (hd : ∀ x, S.moved x ≠ none → ¬ XMisuses x s)
    (H : BHolds W S lost) (hW : W.scopes ≠ []) (hal : GoodBlocks alloc) :
    match W.stepT Arith.exactThrows nx T alloc s with
    | .error f => f = .terminate ∧ (nx = true ∨ XUncatchable S s)
    | .ok (W', t) => ∃ S' lost', BHolds W' S' lost' ∧ (sctx S' = if t then sctx S else Γ') ∧
        (∀ y, y ∉ xchanges s → S'.live y = S.live y ∧ S'.moved y = S.moved y) ∧
        (∀ z, S'.moved z ≠ none → if t then S.moved z ≠ none else xgone (fun z => S.moved z ≠ none) s z) ∧
        (lost'.length = lost.length ∨ t = true ∧ IsSet s ∧ lost'.length = lost.length + 1) := by
  obtain ⟨f, fs, hf⟩ := List.exists_cons_of_ne_nil hW
  have := xstepT_fine (T := T) (nx := nx) H hal hc hp hd hf
  split
  · next e h => rw [h] at this; exact this
  · next W' t h =>
    rw [h] at this
    obtain ⟨_, S', lost', h1, h2, h3, h4, h5⟩ := this
    exact ⟨S', lost', h1, h2, h4, h3, h5⟩

/-- **C90.** Failed checks give the strong guarantee: a statement that would have been aborted by a failed check throws, and no array, element or block has changed. -/
theorem C90_strong [Nonempty α] {s : XStmt α} {Γ' : Ctx} (hc : xcheck (sctx S) s = some Γ') (hp : XProvided s) (hd : ∀ x, S.moved x ≠ none → ¬ XMisuses x s)
    (H : BHolds W S lost) (hal : GoodBlocks alloc) (h : W.step Arith.exact true nx T alloc s = .error .assert) :
    (∃ W', W.stepT Arith.exactThrows nx T alloc s = .ok (W', true) ∧ W'.pool.mem = W.pool.mem ∧ W'.pool.blocks = W.pool.blocks ∧
        W'.pool.ruined = W.pool.ruined ∧ W'.env = W.env ∧ W'.scopes = W.scopes) ∨
      W.stepT Arith.exactThrows nx T alloc s = .error .terminate ∧ XUncatchable S s := by
  rcases relB_step (T := T) (nx := nx) H hal hc hp hd with ⟨_, hn⟩ | ⟨_, ⟨ck, e⟩ | ⟨e, hu⟩⟩
  · exact (hn h).elim
  · exact .inl ⟨_, e, rfl, rfl, rfl, rfl, rfl⟩
  · exact .inr ⟨e, hu⟩

/-- **C90.** A statement that fails no check does the same in both kinds of builds. -/
theorem C90_same_step [Nonempty α] {s : XStmt α} {Γ' : Ctx} (hc : xcheck (sctx S) s = some Γ') (hp : XProvided s) (hd : ∀ x, S.moved x ≠ none → ¬ XMisuses x s)
    (H : BHolds W S lost) (hal : GoodBlocks alloc) (h : W.step Arith.exact true nx T alloc s ≠ .error .assert) :
    W.stepT Arith.exactThrows nx T alloc s = W.step Arith.exact true nx T alloc s := by
  rcases relB_step (T := T) (nx := nx) H hal hc hp hd with ⟨e, _⟩ | ⟨e, _⟩
  · exact e
  · exact (h e).elim

/-- **C90.** Programs that compile, whatever throws, whatever they read, compute and index, and whatever they do with it: they end, by a result or an
exception, in a state that again holds arrays, each in a block of its own (the names that were in scope before, with the same orders, and those declared
since), or in `std::terminate`. The latter never happens with a type that can throw on construction if the program is cautious (no empty selections, no zero
extents in two or more dimensions, no self-move) and began with no such arrays. -/
theorem C90_run [Nonempty α] {p : Body α β} {exit : Ctx → Prop} {g : Nat → Prop} (hc : CompilesB exit (sctx S) p) (hp : ProvidedB p) (hd : NoUseGone g p)
    (hg : ∀ x, S.moved x ≠ none → g x) (H : BHolds W S lost) (hW : W.scopes ≠ []) (hal : GoodBlocks alloc) :
    match W.execT Arith.exactThrows nx T alloc p with
    | .error f => f = .terminate ∧ (nx = true ∨ ¬ (CautiousB p ∧ ∀ x a, S.live x = some a → ¬ Flat a.ext))
    | .ok (W', r) => ∃ S' lost', BHolds W' S' lost' ∧ (∀ x, InScope S x → sctx S' x = sctx S x) ∧ (r.isSome → exit (sctx S')) ∧
        (∀ z, S'.moved z ≠ none → goneAt r.isNone g p z) ∧ lost.length ≤ lost'.length ∧ (NoSet p → lost'.length = lost.length) := by
  obtain ⟨f, fs, hf⟩ := List.exists_cons_of_ne_nil hW
  have := truns (T := T) (nx := nx) (Q := CautiousB p ∧ ∀ x a, S.live x = some a → ¬ Flat a.ext) hal p hc hp hd hg H hf id
  split
  · next e h => rw [h] at this; exact this
  · next W' r h =>
    rw [h] at this
    obtain ⟨S', lost', _, h1, _, _, h4, h5, h6, h7, h8, _⟩ := this
    exact ⟨S', lost', h1, h4, h5, h6, h7, h8⟩

/-- **C90.** Whole programs: at the end of `main`, by a result or by an exception (a failed check that was not caught is one), no array is in scope, every
element has been destroyed, none of them was lost by freeing or reusing its storage; and if the program has no assignments to whole arrays (other than
`overlap(x) = e`), every block has been freed. The only other way to end is `std::terminate`. -/
theorem C90_main [Nonempty α] {p : Body α β} (hc : CompilesB (fun _ => True) (fun _ => none) p) (hp : ProvidedB p) (hd : NoUseGone (fun _ => False) p)
    (hal : GoodBlocks alloc) :
    match BWorld.mainT Arith.exactThrows nx T alloc p with
    | .error f => f = .terminate ∧ (nx = true ∨ ¬ CautiousB p)
    | .ok (W', _) => (∀ x, W'.env x = none) ∧ (∀ q, W'.pool.mem q = none) ∧ W'.pool.ruined = 0 ∧ (NoSet p → W'.pool.blocks = []) := by
  unfold BWorld.mainT
  rcases tinner (truns (W := BWorld.empty.enter) (T := T) (nx := nx) (Q := CautiousB p) (lost := []) (S := noArrays) (f := []) (fs := BWorld.empty.scopes) hal p hc hp hd
    (fun z hz => (hz rfl).elim) (bholds_scopes bholds_empty rfl rfl) rfl fun q => ⟨q, fun x a h => by cases h⟩) (f := []) (fs := []) rfl with
    ⟨W₁, r', S₁, lost₁, ns, e1, _, _, _, _, _, _, _, e8, _, S₂, W₂, k1, k2, _, _, k5, _⟩ | ⟨e, e1, e2⟩
  · have hex : BWorld.empty.execT Arith.exactThrows nx T alloc (.block p .ret) = .ok (W₂, r') := by
      simp only [BWorld.execT, e1, res_ok_bind, leave_throws, k1]
      cases r' <;> rfl
    rw [hex]
    have hS : S₂ = noArrays := by
      obtain ⟨l, m⟩ := S₂
      have hu : ∀ x, l x = none ∧ m x = none := fun x => sctx_none (S := ⟨l, m⟩) (by rw [k5]; rfl)
      have q1 : l = fun _ => none := funext fun x => (hu x).1
      have q2 : m = fun _ => none := funext fun x => (hu x).2
      rw [q1, q2]; rfl
    subst hS
    have henv : ∀ x, W₂.env x = none := fun x => k2.out x ⟨rfl, rfl⟩
    refine ⟨henv, fun q => ?_, k2.ruined, fun hn => ?_⟩
    · by_contra hq
      obtain ⟨x, b, d, ho, _⟩ := k2.only q hq
      unfold OwnsAt at ho
      rw [henv x] at ho; cases ho
    · have := blocks_lost k2
      rw [List.length_eq_zero_iff.1 (e8 hn)] at this
      exact List.length_eq_zero_iff.1 this
  · have hex : BWorld.empty.execT Arith.exactThrows nx T alloc (.block p .ret) = .error e := by
      simp only [BWorld.execT, e1]; rfl
    rw [hex]
    exact e2

/-- **C90.** In particular, nothing is undefined, whatever throws. -/
theorem C90_safe [Nonempty α] {p : Body α β} (hc : CompilesB (fun _ => True) (fun _ => none) p) (hp : ProvidedB p) (hd : NoUseGone (fun _ => False) p)
    (hal : GoodBlocks alloc) : BWorld.mainT Arith.exactThrows nx T alloc p ≠ .error .ub := by
  intro h
  have := C90_main (T := T) (nx := nx) hc hp hd hal
  rw [h] at this
  cases this.1

/-- **C90.** Cautious programs over types that can throw on construction always come to their end: every failed check is an exception that a handler, or the caller
of `main`, can catch. -/
theorem C90_cautious [Nonempty α] {p : Body α β} (hc : CompilesB (fun _ => True) (fun _ => none) p) (hp : ProvidedB p) (hd : NoUseGone (fun _ => False) p)
    (hs : CautiousB p) (hal : GoodBlocks alloc) : ∃ W' r, BWorld.mainT Arith.exactThrows false T alloc p = .ok (W', r) := by
  have := C90_main (T := T) (nx := false) hc hp hd hal
  cases h : BWorld.mainT Arith.exactThrows false T alloc p with
  | ok r => exact ⟨r.1, r.2, rfl⟩
  | error e =>
    rw [h] at this
    rcases this.2 with q | q
    · cases q
    · exact (q hs).elim

/-- **C90.** A run in which no check fails is the same in both kinds of builds: what is proved about it where failed checks are fatal (C85, C87) holds
where they throw. -/
theorem C90_same [Nonempty α] {p : Body α β} (hc : CompilesB (fun _ => True) (fun _ => none) p) (hp : ProvidedB p) (hd : NoUseGone (fun _ => False) p)
    (hal : GoodBlocks alloc) (h : BWorld.main Arith.exact true nx T alloc p ≠ .error .assert) :
    BWorld.mainT Arith.exactThrows nx T alloc p = BWorld.main Arith.exact true nx T alloc p := by
  have hc' : CompilesB (fun Γ => Γ = fun _ => none) (sctx (noArrays : MStore α)) (.block p .ret) := ⟨hc, fun _ => rfl⟩
  rcases same_runs (W := BWorld.empty) (T := T) (nx := nx) (lost := []) (f := []) (fs := []) hal (.block p .ret) hc' ⟨hp, fun _ => trivial⟩ ⟨hd, fun _ => trivial⟩
    (fun z hz => (hz rfl).elim) bholds_empty rfl with e | e
  · exact (h e).elim
  · exact e

end

/-! ### Examples -/

/-- A program that catches a failed check:
`auto a = {1, 2, 3}; try { auto b = vector(7, 2); a[0] = 5; b[n] = 8; return b[n]; } catch (...) { a[1] = 9; 100 } + a[0] + a[1]` -/
def exCaught (n : Nat) : Body Nat Nat :=
  .exec (.calm (.old (.makeFrom 0 [1, 2, 3] [3]))) <|
  .attempt
    (.exec (.calm (.old (.makeFill 1 (.const 7) [2]))) (.exec (.calm (.old (.fill 0 [.at 0] (.const 5))))
      (.exec (.calm (.old (.fill 1 [.at n] (.const 8)))) (.read (.elem 1 [.at n]) fun v => .ret v))))
    (.exec (.calm (.old (.fill 0 [.at 1] (.const 9)))) (.ret 100)) fun r =>
  .read (.elem 0 [.at 0]) fun v =>
  .read (.elem 0 [.at 1]) fun w => .ret (r + v + w)

theorem exCaught_meets (n : Nat) : CompilesB (fun _ => True) (fun _ => none) (exCaught n) ∧ ProvidedB (exCaught n) ∧ NoUseGone (fun _ => False) (exCaught n) ∧
    CautiousB (exCaught n) ∧ NoSet (exCaught n) := by
  have steps : ∀ k, StepsOK [.at k] := fun k s m h => by simp at h
  have sel : ∀ k, ¬ EmptySel [.at k] := fun k h => by simp [EmptySel] at h
  have flat : ∀ k, ¬ Flat [k] := fun k h => h.1 rfl
  refine ⟨⟨_, rfl, ⟨_, rfl, _, rfl, _, rfl, rfl, fun _ => trivial⟩, ⟨_, rfl, trivial⟩, fun _ => ⟨rfl, fun _ => ⟨rfl, fun _ => trivial⟩⟩⟩, ?_, ?_, ?_, ?_⟩
  · exact ⟨Nat.le_refl 3, ⟨trivial, ⟨steps 0, trivial⟩, ⟨steps n, trivial⟩, steps n, fun _ => trivial⟩, ⟨⟨steps 1, trivial⟩, trivial⟩, fun _ =>
      ⟨steps 0, fun _ => ⟨steps 1, fun _ => trivial⟩⟩⟩
  · simp only [exCaught, NoUseGone, goneAt, xgone, erase, shapeS, goneAfter, XMisuses, Misuses, ScOf, Operand, Option.some.injEq, Option.map_some, exists_eq_left',
      false_and, and_false, or_false, false_or, exists_const, exists_false, false_implies, implies_true, and_true, true_and, if_true, ite_self, not_false_eq_true,
      reduceCtorEq, or_self]
  · have one : ∀ (x k : Nat), ∀ p ∈ [(x, [Ix.at k])], ¬ EmptySel p.2 := fun x k p hp => by
      rw [List.mem_singleton] at hp; subst hp; exact sel k
    refine ⟨fun t h => ?_, ⟨fun t h => ?_, fun t h => ?_, fun t h => ?_, one _ _, fun _ => trivial⟩, ⟨fun t h => ?_, trivial⟩, fun _ => ⟨one _ _, fun _ => ⟨one _ _, fun _ => trivial⟩⟩⟩
    all_goals first | cases h | skip
    · exact flat 3
    · exact ⟨fun p hp => by simp [scChains] at hp, flat 2⟩
    · exact one _ _
    · exact one _ _
    · exact one _ _
  · simp [exCaught, NoSet]

/-- The index exists: 8 + 5 + 2. -/
example : (BWorld.mainT Arith.exactThrows false (fun _ => false) exBlocks (exCaught 1)).map exSee = .ok (some 15, 0, []) := by decide +kernel

/-- It does not exist: the handler is executed, `a[0] = 5` stays, `b` is destroyed: 100 + 5 + 9. -/
example : (BWorld.mainT Arith.exactThrows false (fun _ => false) exBlocks (exCaught 2)).map exSee = .ok (some 114, 0, []) := by decide +kernel

/-- Where failed checks are fatal the program is aborted. -/
example : (BWorld.main Arith.exact true false (fun _ => false) exBlocks (exCaught 2)).map exSee = .error .assert := by decide +kernel

/-- A failed check that no handler catches: the exception leaves `main`, all arrays are destroyed and no block is in use. -/
example : (BWorld.mainT Arith.exactThrows false (fun _ => false) exBlocks (exIndexed 3)).map exSee = .ok (none, 0, []) := by decide +kernel

example (n : Nat) (T : Nat → Bool) (nx : Bool) := C90_main (T := T) (nx := nx) (exCaught_meets n).1 (exCaught_meets n).2.1 (exCaught_meets n).2.2.1 exBlocks_good
example (n : Nat) (T : Nat → Bool) (nx : Bool) := C90_safe (T := T) (nx := nx) (exCaught_meets n).1 (exCaught_meets n).2.1 (exCaught_meets n).2.2.1 exBlocks_good
example (n : Nat) (T : Nat → Bool) := C90_cautious (T := T) (exCaught_meets n).1 (exCaught_meets n).2.1 (exCaught_meets n).2.2.1 (exCaught_meets n).2.2.2.1 exBlocks_good
example (n : Nat) (T : Nat → Bool) (nx : Bool) := C90_run (T := T) (nx := nx) (W := BWorld.empty) (S := noArrays) (exCaught_meets n).1 (exCaught_meets n).2.1
  (exCaught_meets n).2.2.1 (fun x hx => hx rfl) bholds_empty ex_began exBlocks_good
example := C90_same (T := fun _ => false) (nx := false) (exCaught_meets 1).1 (exCaught_meets 1).2.1 (exCaught_meets 1).2.2.1 exBlocks_good (fun h => by
  have : (BWorld.main Arith.exact true false (fun _ => false) exBlocks (exCaught 1)).map exSee = .error .assert := by rw [h]; rfl
  exact absurd this (by decide +kernel))

/-- The hypotheses of `C90_strong` are met: after `auto a = {1, 2, 3};` the statement `a[7] = 7;` fails a check; and those of `C90_same_step` by `a[1] = 7`. -/
example : ∃ (W : BWorld Nat) (S : MStore Nat) (lost : List Nat), BHolds W S lost ∧ (∀ n, ∃ Γ', xcheck (sctx S) (.calm (.old (.fill 0 [.at n] (.const 7)))) = some Γ') ∧
    (∀ n, XProvided (.calm (.old (.fill 0 [.at n] (.const 7))) : XStmt Nat)) ∧
    (∀ n x, S.moved x ≠ none → ¬ XMisuses x (.calm (.old (.fill 0 [.at n] (.const 7))) : XStmt Nat)) ∧
    (W.step Arith.exact true false (fun _ => false) exBlocks (.calm (.old (.fill 0 [.at 7] (.const 7))))).map (fun _ => ()) = .error .assert ∧
    (W.step Arith.exact true false (fun _ => false) exBlocks (.calm (.old (.fill 0 [.at 1] (.const 7))))).map (fun _ => ()) = .ok () := by
  have hs := C90_step (T := fun _ => false) (nx := false) (W := BWorld.empty) (S := noArrays) (lost := [])
    (s := (.calm (.old (.makeFrom 0 [1, 2, 3] [3])) : XStmt Nat)) rfl (Nat.le_refl 3) (fun x hx => (hx rfl).elim) bholds_empty ex_began exBlocks_good
  have two : (BWorld.empty.stepT Arith.exactThrows false (fun _ => false) exBlocks (.calm (.old (.makeFrom 0 [1, 2, 3] [3])) : XStmt Nat) >>= fun r =>
      r.1.step Arith.exact true false (fun _ => false) exBlocks (.calm (.old (.fill 0 [.at 7] (.const 7))))).map (fun _ => ()) = .error .assert ∧
    (BWorld.empty.stepT Arith.exactThrows false (fun _ => false) exBlocks (.calm (.old (.makeFrom 0 [1, 2, 3] [3])) : XStmt Nat) >>= fun r =>
      r.1.step Arith.exact true false (fun _ => false) exBlocks (.calm (.old (.fill 0 [.at 1] (.const 7))))).map (fun _ => ()) = .ok () ∧
    (BWorld.empty.stepT Arith.exactThrows false (fun _ => false) exBlocks (.calm (.old (.makeFrom 0 [1, 2, 3] [3])) : XStmt Nat)).map (fun r => r.2) = .ok false := by
    refine ⟨?_, ?_, ?_⟩ <;> decide +kernel
  cases hr : BWorld.empty.stepT Arith.exactThrows false (fun _ => false) exBlocks (.calm (.old (.makeFrom 0 [1, 2, 3] [3])) : XStmt Nat) with
  | error e => rw [hr] at two; cases two.2.2
  | ok r =>
    obtain ⟨W, t⟩ := r
    rw [hr] at two hs
    obtain ⟨t1, t2, t3⟩ := two
    cases t3
    obtain ⟨S, lost, h1, h2, _, h4, _⟩ := hs
    have h2 : sctx S = Ctx.upd (fun _ => none) 0 (some 1) := h2
    refine ⟨W, S, lost, h1, fun n => ⟨sctx S, by rw [h2]; rfl⟩, fun n => ⟨fun s m h => by simp at h, trivial⟩, fun n x hx => ?_, t1, t2⟩
    have := h4 x hx
    simp [xgone, erase, goneAfter, noArrays] at this
example (T : Nat → Bool) (nx : Bool) := C90_step (T := T) (nx := nx) (W := BWorld.empty) (S := noArrays) (lost := [])
  (s := (.calm (.old (.makeFrom 0 [1, 2, 3] [3])) : XStmt Nat)) rfl (Nat.le_refl 3) (fun x hx => (hx rfl).elim) bholds_empty ex_began exBlocks_good

/-! ### What cannot be caught -/

/-- `auto a = matrix(7, 2, 3); try { s } catch (...) { return 1; } return 0;` -/
def exGuarded (s : Stmt Nat) : Body Nat Nat :=
  .exec (.calm (.old (.makeFill 0 (.const 7) [2, 3]))) <|
  .attempt (.exec (.calm (.old s)) (.ret 0)) (.ret 1) fun r => .ret r

/-- **C90.** A self-move and an index into an empty selection end the program although there is a handler: this is what `CautiousB` excludes. -/
theorem C90_uncatchable :
    (BWorld.mainT Arith.exactThrows false (fun _ => false) exBlocks (exGuarded (.moveAssign 0 0))).map exSee = .error .terminate ∧
    (BWorld.mainT Arith.exactThrows false (fun _ => false) exBlocks (exGuarded (.fill 0 [.rng [], .at 0] (.const 7)))).map exSee = .error .terminate ∧
    ¬ CautiousB (exGuarded (.moveAssign 0 0)) ∧ ¬ CautiousB (exGuarded (.fill 0 [.rng [], .at 0] (.const 7))) := by
  refine ⟨by decide +kernel, by decide +kernel, fun h => ?_, fun h => ?_⟩
  · exact h.2.1.1 _ rfl rfl
  · exact h.2.1.1 _ rfl (0, [.rng [], .at 0]) (by simp [chains, scChains]) (.inl (by simp))

/-- An index that does not exist, for comparison: the handler is executed. -/
example : (BWorld.mainT Arith.exactThrows false (fun _ => false) exBlocks (exGuarded (.fill 0 [.at 7] (.const 7)))).map exSee = .ok (some 1, 0, []) := by decide +kernel

/-- **C90.** With a type that cannot throw on construction a function that throws while elements are constructed ends the program, also here. -/
theorem C90_terminates : ∃ p : Body Nat Unit, CompilesB (fun _ => True) (fun _ => none) p ∧ ProvidedB p ∧ NoUseGone (fun _ => False) p ∧ CautiousB p ∧
    (BWorld.mainT Arith.exactThrows true (fun _ => false) exBlocks p).map exSee = .error .terminate := by
  refine ⟨.exec (.calm (.old (.makeFrom 0 [1, 2] [2]))) (.exec (.wild (.make 1 (.un (fun _ => none) (.arr 0 [])))) (.ret ())), ⟨_, rfl, _, rfl, trivial⟩,
    ⟨Nat.le_refl 2, (fun t h => by cases h; exact fun s m h => by simp at h), trivial⟩, ⟨fun _ h => h.elim, ?_, trivial⟩,
    ⟨fun t h => by cases h; exact fun h => h.1 rfl, fun t h => ?_, trivial⟩, by decide +kernel⟩
  · rintro x ⟨t, h, hg⟩
    cases h
    exact hg.2.elim
  · cases h
    intro p hp
    simp only [chains, exChains, shapeE, List.mem_singleton] at hp
    subst hp
    simp [EmptySel]

end Jules.Props

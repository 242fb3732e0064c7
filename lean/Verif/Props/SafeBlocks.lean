import Verif.Lemmas.SafeBlockProgs
import Verif.Props.Blocks
/-
C87: in checked builds, programs with blocks, calls, exceptions and handlers never damage memory, whatever throws and whatever they index.
-/
namespace Jules.Props
open Jules Spec

section
variable {α β : Type} {W : BWorld α} {S : MStore α} {lost : List Nat} {T : Nat → Bool} {nx : Bool} {alloc : Nat → List (Nat × Nat) → Nat → Option Nat}

/-- **C87.** One statement that compiles, in a checked build, whatever throws (`T`), whatever its indices are and whatever its functions return or throw. It
has no bounded slice with stride zero, its iterators have enough values, and it uses no moved-from array. It fails an assertion, or is
terminated (only with a type that cannot throw on construction), or it ends, possibly with an exception, in a state that again holds arrays, each in a block
of its own. Their orders are those of the types (those of before, if it throws), the arrays the statement is not about have not changed, and no memory has
been lost unless the statement is an assignment to a whole array and throws; then it is at most one block. -/
theorem C87_step [Nonempty α] {s : XStmt α} {Γ' : Ctx} (hc : xcheck (sctx S) s = some Γ') (hp : XProvided s) (hd : ∀ x, S.moved x ≠ none → ¬ XMisuses x s)
    (H : BHolds W S lost) (hW : W.scopes ≠ []) (hal : GoodBlocks alloc) :
    match W.step Arith.exact true nx T alloc s with
    | .error f => f = .assert ∨ f = .terminate ∧ nx = true
    | .ok (W', t) => ∃ S' lost', BHolds W' S' lost' ∧ (sctx S' = if t then sctx S else Γ') ∧
        (∀ y, y ∉ xchanges s → S'.live y = S.live y ∧ S'.moved y = S.moved y) ∧
        (∀ z, S'.moved z ≠ none → if t then S.moved z ≠ none else xgone (fun z => S.moved z ≠ none) s z) ∧
        (lost'.length = lost.length ∨ t = true ∧ IsSet s ∧ lost'.length = lost.length + 1) := by
  obtain ⟨f, fs, hf⟩ := List.exists_cons_of_ne_nil hW
  have := xstep_fine (T := T) (nx := nx) H hal hc hp hd hf
  split
  · next e h => rw [h] at this; exact this
  · next W' t h =>
    rw [h] at this
    obtain ⟨_, S', lost', h1, h2, h3, h4, h5⟩ := this
    exact ⟨S', lost', h1, h2, h4, h3, h5⟩

/-- **C87.** Programs that compile, in checked builds, whatever throws, whatever they read, compute and index, and whatever they do with it: a failed
assertion, `std::terminate` (only with a type that cannot throw on construction), or a state that again holds arrays, each in a block of its own: the names
that were in scope before, with the same orders, and those declared since. Without assignments to whole arrays no memory has been lost. -/
theorem C87_run [Nonempty α] {p : Body α β} {exit : Ctx → Prop} {g : Nat → Prop} (hc : CompilesB exit (sctx S) p) (hp : ProvidedB p) (hd : NoUseGone g p)
    (hg : ∀ x, S.moved x ≠ none → g x) (H : BHolds W S lost) (hW : W.scopes ≠ []) (hal : GoodBlocks alloc) :
    match W.exec Arith.exact true nx T alloc p with
    | .error f => f = .assert ∨ f = .terminate ∧ nx = true
    | .ok (W', r) => ∃ S' lost', BHolds W' S' lost' ∧ (∀ x, InScope S x → sctx S' x = sctx S x) ∧ (r.isSome → exit (sctx S')) ∧
        (∀ z, S'.moved z ≠ none → goneAt r.isNone g p z) ∧ lost.length ≤ lost'.length ∧ (NoSet p → lost'.length = lost.length) := by
  obtain ⟨f, fs, hf⟩ := List.exists_cons_of_ne_nil hW
  have := sruns (T := T) (nx := nx) hal p hc hp hd hg H hf
  split
  · next e h => rw [h] at this; exact this
  · next W' r h =>
    rw [h] at this
    obtain ⟨S', lost', _, h1, _, _, h4, h5, h6, h7, h8⟩ := this
    exact ⟨S', lost', h1, h4, h5, h6, h7, h8⟩

theorem sctx_noArrays : sctx (noArrays : MStore α) = fun _ => none := rfl

/-- **C87.** Whole programs: at the end of `main`, by a result or by an exception, no array is in scope, every element has been destroyed, none of them was
lost by freeing or reusing its storage; and if the program has no assignments to whole arrays (other than `overlap(x) = e`), every block has been freed. The
only other ways to end are a failed assertion and `std::terminate`. -/
theorem C87_main [Nonempty α] {p : Body α β} (hc : CompilesB (fun _ => True) (fun _ => none) p) (hp : ProvidedB p) (hd : NoUseGone (fun _ => False) p)
    (hal : GoodBlocks alloc) :
    match BWorld.main Arith.exact true nx T alloc p with
    | .error f => f = .assert ∨ f = .terminate ∧ nx = true
    | .ok (W', _) => (∀ x, W'.env x = none) ∧ (∀ q, W'.pool.mem q = none) ∧ W'.pool.ruined = 0 ∧ (NoSet p → W'.pool.blocks = []) := by
  have hc' : CompilesB (fun Γ => Γ = fun _ => none) (sctx (noArrays : MStore α)) (.block p .ret) := ⟨hc, fun _ => rfl⟩
  have := sruns (W := BWorld.empty) (T := T) (nx := nx) (lost := []) (f := []) (fs := []) hal (.block p .ret) hc' ⟨hp, fun _ => trivial⟩ ⟨hd, fun _ => trivial⟩
    (fun z hz => (hz rfl).elim) bholds_empty rfl
  unfold BWorld.main
  split
  · next e h => rw [h] at this; exact this
  · next W' r h =>
    rw [h] at this
    -- the only block has been left
    have hleft : ∃ S', ∃ lost' : List Nat, BHolds W' S' lost' ∧ sctx S' = (fun _ => none) ∧ (NoSet p → lost' = []) := by
      rcases sinner (sruns (W := BWorld.empty.enter) (T := T) (nx := nx) (lost := []) (S := noArrays) (f := []) (fs := BWorld.empty.scopes) hal p hc hp hd
        (fun z hz => (hz rfl).elim) (bholds_scopes bholds_empty rfl rfl) rfl) (f := []) (fs := []) rfl with
        ⟨W₁, r', S₁, lost₁, ns, e1, _, _, _, _, _, _, _, e8, S₂, W₂, k1, k2, _, _, k5, _⟩ | ⟨e, e1, _⟩
      · have hex : BWorld.empty.exec Arith.exact true nx T alloc (.block p .ret) = .ok (W₂, r') := by
          simp only [BWorld.exec, e1, res_ok_bind, k1]
          cases r' <;> rfl
        rw [hex] at h
        cases h
        exact ⟨S₂, lost₁, k2, k5, fun hn => List.length_eq_zero_iff.1 (e8 hn)⟩
      · have hex : BWorld.empty.exec Arith.exact true nx T alloc (.block p .ret) = .error e := by
          simp only [BWorld.exec, e1]; rfl
        rw [hex] at h; cases h
    obtain ⟨S', lost', h1, h2, h3⟩ := hleft
    have hS : S' = noArrays := by
      obtain ⟨l, m⟩ := S'
      have hu : ∀ x, l x = none ∧ m x = none := fun x => sctx_none (S := ⟨l, m⟩) (by rw [h2])
      have q1 : l = fun _ => none := funext fun x => (hu x).1
      have q2 : m = fun _ => none := funext fun x => (hu x).2
      rw [q1, q2]; rfl
    subst hS
    have henv : ∀ x, W'.env x = none := fun x => h1.out x ⟨rfl, rfl⟩
    refine ⟨henv, fun q => ?_, h1.ruined, fun hn => ?_⟩
    · by_contra hq
      obtain ⟨x, b, d, ho, _⟩ := h1.only q hq
      unfold OwnsAt at ho
      rw [henv x] at ho; cases ho
    · have := blocks_lost h1
      rw [h3 hn] at this
      exact List.length_eq_zero_iff.1 this

/-- **C87.** In particular, nothing is undefined, whatever throws. -/
theorem C87_safe [Nonempty α] {p : Body α β} (hc : CompilesB (fun _ => True) (fun _ => none) p) (hp : ProvidedB p) (hd : NoUseGone (fun _ => False) p)
    (hal : GoodBlocks alloc) : BWorld.main Arith.exact true nx T alloc p ≠ .error .ub := by
  intro h
  have := C87_main (T := T) (nx := nx) hc hp hd hal
  rw [h] at this
  rcases this with h | ⟨h, _⟩ <;> cases h

end

/-! ### An example -/

/-- A program that indexes with a number it has read:
`auto a = {1, 2, n}; try { auto b = a; apply(in_place, b, f); } catch (...) { a[2] = 9; } auto c = [] { auto d = vector(7, 2); return d; }();
c = a; e = std::move(c); return e[a[2]];` where `f` throws for 2. -/
def exIndexed (n : Nat) : Body Nat Nat :=
  .exec (.calm (.old (.makeFrom 0 [1, 2, n] [3]))) <|
  .attempt
    (.exec (.calm (.old (.make 1 (.arr 0 [])))) (.exec (.wild (.apply 1 [] fun u => (u, u == 2))) (.ret 0)))
    (.exec (.calm (.old (.fill 0 [.at 1] (.const 9)))) (.ret 1)) fun _ =>
  .call 2 3 (.exec (.calm (.old (.makeFill 3 (.const 7) [2]))) (.ret 0)) fun _ =>
  .exec (.calm (.old (.set 2 (.arr 0 [])))) <|
  .exec (.calm (.moveMake 4 2)) <|
  .read (.elem 0 [.at 2]) fun i =>
  .read (.elem 4 [.at i]) fun v => .ret v

/-- It compiles, gives the values it declares and uses nothing it has moved from. -/
theorem exIndexed_meets (n : Nat) :
    CompilesB (fun _ => True) (fun _ => none) (exIndexed n) ∧ ProvidedB (exIndexed n) ∧ NoUseGone (fun _ => False) (exIndexed n) := by
  have steps : ∀ k, StepsOK [.at k] := fun k s m h => by simp at h
  have noSteps : StepsOK [] := fun s m h => by simp at h
  refine ⟨⟨_, rfl, ⟨⟨_, rfl, _, rfl, trivial⟩, ⟨_, rfl, trivial⟩, fun _ => ⟨rfl, rfl, 1, ⟨_, rfl, rfl, rfl⟩, fun _ =>
    ⟨_, rfl, _, rfl, rfl, fun i => ⟨rfl, fun v => trivial⟩⟩⟩⟩⟩, ?_, ?_⟩
  · exact ⟨Nat.le_refl 3, ⟨noSteps, (fun t h => by cases h; exact noSteps), trivial⟩, ⟨⟨steps 1, trivial⟩, trivial⟩, fun _ =>
      ⟨⟨trivial, trivial⟩, fun _ => ⟨noSteps, trivial, steps 2, fun i => ⟨steps i, fun _ => trivial⟩⟩⟩⟩
  · have key : (∀ (x : Nat), (if x = 4 then False else x = 2) → ¬0 = x) ∧ ∀ (_ x : Nat), (if x = 4 then False else x = 2) → ¬4 = x := by
      refine ⟨fun x h => ?_, fun _ x h => ?_⟩ <;> split at h <;> first | exact h.elim | omega
    simp only [exIndexed, NoUseGone, goneAt, xgone, erase, shapeS, goneAfter, XMisuses, Misuses, ScOf, Operand, Option.some.injEq, Option.map_some, exists_eq_left',
      false_and, and_false, or_false, false_or, exists_const, exists_false, false_implies, implies_true, and_true, true_and, if_true, ite_self, not_false_eq_true,
      reduceCtorEq]
    exact ⟨fun _ _ => key, fun _ _ => key⟩

/-- Nothing throws but the function: the handler is executed, `a` is `{1, 9, 0}`; the result is `e[0]`. -/
example : (BWorld.main Arith.exact true false (fun _ => false) exBlocks (exIndexed 0)).map exSee = .ok (some 1, 0, []) := by decide +kernel

/-- The index that was read does not exist. -/
example : (BWorld.main Arith.exact true false (fun _ => false) exBlocks (exIndexed 3)).map exSee = .error .assert := by decide +kernel

/-- The construction of an element of `c` throws. -/
example : (BWorld.main Arith.exact true false (fun t => t == 12) exBlocks (exIndexed 0)).map exSee = .ok (none, 0, []) := by decide +kernel

/-- The construction of an element for `c = a` throws: a block has been lost. -/
example : (BWorld.main Arith.exact true false (fun t => t == 16) exBlocks (exIndexed 0)).map exSee = .ok (none, 1, []) := by decide +kernel

example (n : Nat) (T : Nat → Bool) (nx : Bool) := C87_main (T := T) (nx := nx) (exIndexed_meets n).1 (exIndexed_meets n).2.1 (exIndexed_meets n).2.2 exBlocks_good
example (n : Nat) (T : Nat → Bool) (nx : Bool) := C87_safe (T := T) (nx := nx) (exIndexed_meets n).1 (exIndexed_meets n).2.1 (exIndexed_meets n).2.2 exBlocks_good
example (n : Nat) (T : Nat → Bool) (nx : Bool) := C87_run (T := T) (nx := nx) (W := BWorld.empty) (S := noArrays) (exIndexed_meets n).1 (exIndexed_meets n).2.1
  (exIndexed_meets n).2.2 (fun x hx => hx rfl) bholds_empty ex_began exBlocks_good
example (T : Nat → Bool) (nx : Bool) := C87_step (T := T) (nx := nx) (W := BWorld.empty) (S := noArrays) (lost := [])
  (s := (.calm (.old (.makeFrom 0 [1, 2, 3] [3])) : XStmt Nat)) rfl (Nat.le_refl 3) (fun x hx => (hx rfl).elim) bholds_empty ex_began exBlocks_good

/-! ### What is needed -/

/-- **C87.** In builds without assertions the program is undefined for an index that does not exist. -/
theorem C87_release : BWorld.main Arith.exact false false (fun _ => false) exBlocks (exIndexed 3) = .error .ub := by
  have : (BWorld.main Arith.exact false false (fun _ => false) exBlocks (exIndexed 3)).map (fun _ => ()) = .error .ub := by decide +kernel
  cases h : BWorld.main Arith.exact false false (fun _ => false) exBlocks (exIndexed 3) with
  | ok r => rw [h] at this; cases this
  | error e => rw [h] at this; cases this; rfl

/-- `auto a = {1, 2}; try { auto b = std::move(a); throw; } catch (...) { } return a[0];` -/
def exMovedBlock : Body Nat Nat :=
  .exec (.calm (.old (.makeFrom 0 [1, 2] [2]))) <|
  .attempt (.exec (.calm (.moveMake 1 0)) .throw) (.ret 0) fun _ =>
  .read (.elem 0 [.at 0]) fun v => .ret v

/-- **C87.** Using an array moved from in a block that was left by an exception is undefined, in checked builds too: this is what `NoUseGone` excludes. -/
theorem C87_moved : CompilesB (fun _ => True) (fun _ => none) exMovedBlock ∧ ProvidedB exMovedBlock ∧ ¬ NoUseGone (fun _ => False) exMovedBlock ∧
    (BWorld.main Arith.exact true false (fun _ => false) exBlocks exMovedBlock).map exSee = .error .ub := by
  have steps : StepsOK [.at 0] := fun s m h => by simp at h
  refine ⟨⟨_, rfl, ⟨_, rfl, trivial⟩, trivial, fun _ => ⟨rfl, fun _ => trivial⟩⟩, ⟨Nat.le_refl 2, ⟨trivial, trivial⟩, trivial, fun _ => ⟨steps, fun _ => trivial⟩⟩, ?_,
    by decide +kernel⟩
  rintro ⟨_, _, _, _, h⟩
  refine (h 0).1 0 ⟨rfl, .inr ⟨rfl, _, rfl, ?_⟩⟩ rfl
  simp [goneAfter]

/-- **C87.** With a type that cannot throw on construction a function that throws while elements are constructed ends the program. -/
theorem C87_terminates : ∃ p : Body Nat Unit, CompilesB (fun _ => True) (fun _ => none) p ∧ ProvidedB p ∧ NoUseGone (fun _ => False) p ∧
    (BWorld.main Arith.exact true true (fun _ => false) exBlocks p).map exSee = .error .terminate := by
  refine ⟨.exec (.calm (.old (.makeFrom 0 [1, 2] [2]))) (.exec (.wild (.make 1 (.un (fun _ => none) (.arr 0 [])))) (.ret ())), ⟨_, rfl, _, rfl, trivial⟩,
    ⟨Nat.le_refl 2, (fun t h => by cases h; exact fun s m h => by simp at h), trivial⟩, ⟨fun _ h => h.elim, ?_, trivial⟩, by decide +kernel⟩
  rintro x ⟨t, h, hg⟩
  cases h
  exact hg.2.elim

end Jules.Props

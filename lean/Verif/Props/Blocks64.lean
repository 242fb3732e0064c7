import Verif.Lemmas.Modest64
import Verif.Props.SafeBlocks
/-
C88: programs with blocks, calls, exceptions and handlers on a 64-bit machine with a finite memory.
-/
namespace Jules.Props
open Jules Spec

section
variable {α β : Type} {W : BWorld α} {S : MStore α} {lost : List Nat} {T : Nat → Bool} {nx : Bool} {alloc : Nat → List (Nat × Nat) → Nat → Option Nat}

theorem goes64 [Nonempty α] {p : Body α β} (hp : LegalAny nx (MayFail T alloc) S p) (hf : FitsAny nx (MayFail T alloc) S p) (H : BHolds W S lost) (hb : BelowB W)
    (hW : W.scopes ≠ []) (hal : GoodBlocks64 alloc) (chk : Bool) :
    Agr (W.exec Arith.u64 chk nx T alloc p) (W.exec Arith.exact chk nx T alloc p) BelowR := by
  obtain ⟨f, fs, hfs⟩ := List.exists_cons_of_ne_nil hW
  exact exec64 (.inr rfl) hal p hb (legal_agrees chk hal.1 p hp hf H hfs)

/-- **C88.** The programs of C86 on a 64-bit machine. Whatever throws and when, whatever the allocator refuses and however little memory there is: a legal
program whose index expressions and extents fit into 64 bits runs without undefined behaviour or failed assertions, in every build. It ends with a result or
an exception that the specification (on numbers of any size) allows, in a state that holds exactly the arrays of the specification, each in a block of its
own below the address 2^62; or it is terminated as in C86. -/
theorem C88_run [Nonempty α] {p : Body α β} (hp : LegalAny nx (MayFail T alloc) S p) (hf : FitsAny nx (MayFail T alloc) S p) (H : BHolds W S lost) (hb : BelowB W)
    (hW : W.scopes ≠ []) (hal : GoodBlocks64 alloc) (chk : Bool) :
    (∃ W' r S' lost' n, W.exec Arith.u64 chk nx T alloc p = .ok (W', r) ∧ May nx (MayFail T alloc) S p S' (fate r) n ∧ BHolds W' S' lost' ∧ BelowB W' ∧
      lost'.length = lost.length + n) ∨
    (nx = true ∧ W.exec Arith.u64 chk nx T alloc p = .error .terminate ∧ ∃ S' n, May nx (MayFail T alloc) S p S' .aborted n) := by
  have hg := goes64 hp hf H hb hW hal chk
  rcases C86_run hp H hW chk hal.1 with ⟨W', r, S', lost', n, h1, h2, h3, h4⟩ | ⟨h0, h1, h2⟩
  · exact .inl ⟨W', r, S', lost', n, hg.1.trans h1, h2, h3, hg.2 _ h1, h4⟩
  · exact .inr ⟨h0, hg.1.trans h1, h2⟩

theorem below_empty : BelowB (BWorld.empty : BWorld α) := by
  intro x o h
  cases h

/-- **C88.** Whole programs on a 64-bit machine: at the end of `main`, whatever threw and however it ends, every element of every array has been destroyed,
none of them twice, none was lost by freeing or reusing its storage, and the blocks of memory that have not been freed are as many as the specification says. -/
theorem C88_main [Nonempty α] {p : Body α β} (hp : LegalAny nx (MayFail T alloc) noArrays p) (hf : FitsAny nx (MayFail T alloc) noArrays p)
    (hal : GoodBlocks64 alloc) (chk : Bool) :
    (∃ W' r S' n, BWorld.main Arith.u64 chk nx T alloc p = .ok (W', r) ∧ May nx (MayFail T alloc) noArrays p S' (fate r) n ∧
      W'.pool.blocks.length = n ∧ (∀ q, W'.pool.mem q = none) ∧ W'.pool.ruined = 0 ∧ ∀ x, W'.env x = none) ∨
    (nx = true ∧ BWorld.main Arith.u64 chk nx T alloc p = .error .terminate ∧ ∃ S' n, May nx (MayFail T alloc) noArrays p S' .aborted n) := by
  have hg := goes64 (W := BWorld.empty) (lost := []) (p := .block p .ret) ⟨hp, fun _ _ _ _ _ _ => trivial⟩ ⟨hf, fun _ _ _ _ _ _ => trivial⟩ bholds_empty
    below_empty (by simp [BWorld.empty]) hal chk
  have hm : BWorld.main Arith.u64 chk nx T alloc p = BWorld.main Arith.exact chk nx T alloc p := hg.1
  rw [hm]
  exact C86_main hp chk hal.1

/-- **C88.** Without assignments to whole arrays, everything is freed. -/
theorem C88_no_leak [Nonempty α] {p : Body α β} (hp : LegalAny nx (MayFail T alloc) noArrays p) (hf : FitsAny nx (MayFail T alloc) noArrays p) (hs : NoSet p)
    (hal : GoodBlocks64 alloc) (chk : Bool) :
    (∃ W' r, BWorld.main Arith.u64 chk nx T alloc p = .ok (W', r) ∧ W'.pool.blocks = [] ∧ ∀ q, W'.pool.mem q = none) ∨
    (nx = true ∧ BWorld.main Arith.u64 chk nx T alloc p = .error .terminate) := by
  rcases C88_main hp hf hal chk with ⟨W', r, S', n, h1, h2, h3, h4, _⟩ | ⟨h0, h1, _⟩
  · refine .inl ⟨W', r, h1, ?_, h4⟩
    rw [C86_no_loss h2 hs] at h3
    exact List.length_eq_zero_iff.1 h3
  · exact .inr ⟨h0, h1⟩

/-! ### Checked builds, any program -/

/-- **C88.** The programs of C87 on a 64-bit machine, in checked builds: not asking whether statements are legal, only that the numbers fit into 64 bits where
they are used. A failed assertion, `std::terminate` (only with a type that cannot throw on construction), or a state that again holds arrays, each in a block
of its own below the address 2^62. -/
theorem C88_checked [Nonempty α] {p : Body α β} {exit : Ctx → Prop} {g : Nat → Prop} (hc : CompilesB exit (sctx S) p) (hp : ProvidedB p) (hd : NoUseGone g p)
    (hg : ∀ x, S.moved x ≠ none → g x) (hf : FitsRunB nx T alloc W p) (H : BHolds W S lost) (hb : BelowB W) (hW : W.scopes ≠ []) (hal : GoodBlocks64 alloc) :
    match W.exec Arith.u64 true nx T alloc p with
    | .error f => f = .assert ∨ f = .terminate ∧ nx = true
    | .ok (W', r) => ∃ S' lost', BHolds W' S' lost' ∧ BelowB W' ∧ (∀ x, InScope S x → sctx S' x = sctx S x) ∧ (r.isSome → exit (sctx S')) ∧
        (∀ z, S'.moved z ≠ none → goneAt r.isNone g p z) ∧ lost.length ≤ lost'.length ∧ (NoSet p → lost'.length = lost.length) := by
  have ha := exec64 (.inl rfl) hal p hb (fitsRun_agrees hf)
  have := C87_run (T := T) (nx := nx) hc hp hd hg H hW hal.1
  rw [ha.1]
  split
  · next e h => rw [h] at this; exact this
  · next W' r h =>
    rw [h] at this
    obtain ⟨S', lost', h1, h2⟩ := this
    exact ⟨S', lost', h1, ha.2 _ h, h2⟩

/-- **C88.** Whole programs of C87 on a 64-bit machine, in checked builds. -/
theorem C88_checked_main [Nonempty α] {p : Body α β} (hc : CompilesB (fun _ => True) (fun _ => none) p) (hp : ProvidedB p) (hd : NoUseGone (fun _ => False) p)
    (hf : FitsRunB nx T alloc BWorld.empty (.block p .ret)) (hal : GoodBlocks64 alloc) :
    match BWorld.main Arith.u64 true nx T alloc p with
    | .error f => f = .assert ∨ f = .terminate ∧ nx = true
    | .ok (W', _) => (∀ x, W'.env x = none) ∧ (∀ q, W'.pool.mem q = none) ∧ W'.pool.ruined = 0 ∧ (NoSet p → W'.pool.blocks = []) := by
  have ha := exec64 (.inl rfl) hal (.block p .ret) below_empty (fitsRun_agrees hf)
  have hm : BWorld.main Arith.u64 true nx T alloc p = BWorld.main Arith.exact true nx T alloc p := ha.1
  rw [hm]
  exact C87_main hc hp hd hal.1

/-! ### Programs for which 64 bits are always enough -/

/-- **C88.** A legal program without lists of indices and without huge numbers in its text: 64 bits are enough, however many elements come together, because
the memory is finite. -/
theorem C88_modest [Nonempty α] {p : Body α β} (hp : LegalAny nx (MayFail T alloc) noArrays p) (hm : Modest p) (hal : GoodBlocks64 alloc) (chk : Bool) :
    (∃ W' r S' n, BWorld.main Arith.u64 chk nx T alloc p = .ok (W', r) ∧ May nx (MayFail T alloc) noArrays p S' (fate r) n ∧
      W'.pool.blocks.length = n ∧ (∀ q, W'.pool.mem q = none) ∧ W'.pool.ruined = 0 ∧ ∀ x, W'.env x = none) ∨
    (nx = true ∧ BWorld.main Arith.u64 chk nx T alloc p = .error .terminate ∧ ∃ S' n, May nx (MayFail T alloc) noArrays p S' .aborted n) :=
  C88_main hp (modest_any hm) hal chk

/-- **C88.** Any such program, legal or not, in checked builds: never undefined. -/
theorem C88_modest_checked [Nonempty α] {p : Body α β} (hc : CompilesB (fun _ => True) (fun _ => none) p) (hp : ProvidedB p) (hd : NoUseGone (fun _ => False) p)
    (hm : Modest p) (hal : GoodBlocks64 alloc) :
    match BWorld.main Arith.u64 true nx T alloc p with
    | .error f => f = .assert ∨ f = .terminate ∧ nx = true
    | .ok (W', _) => (∀ x, W'.env x = none) ∧ (∀ q, W'.pool.mem q = none) ∧ W'.pool.ruined = 0 ∧ (NoSet p → W'.pool.blocks = []) :=
  C88_checked_main hc hp hd (modest_run (p := .block p .ret) ⟨hm, fun _ => trivial⟩) hal

end

/-! ### Concrete cases -/

theorem exSmall_good64 {cap : Nat} (h : cap < maxElems) : GoodBlocks64 (exSmall cap) := by
  refine ⟨exSmall_good cap, fun k bl n a ha => ?_⟩
  simp only [exSmall] at ha
  split at ha
  · simp only [Option.some.injEq] at ha; omega
  · cases ha

theorem modest_whole : ModestChain [] := fun _ h => by cases h
theorem modest_at (i : Nat) : ModestChain [.at i] := fun ix h => by rw [List.mem_singleton.1 h]; trivial
theorem modest_three : ModestChain [.slice 0 3] := fun ix h => by rw [List.mem_singleton.1 h]; show 0 + 3 < 2 ^ 64; decide

theorem exTry_modest : Modest exTry :=
  ⟨(fun t h => by cases h; exact ⟨by decide, by decide⟩), ⟨(fun t h => by cases h; exact modest_three), trivial⟩, trivial, fun _ => ⟨modest_whole, fun _ _ => trivial⟩⟩

theorem exPure_modest : Modest exPure :=
  ⟨(fun t h => by cases h; exact ⟨by decide, by decide⟩), (fun t h => by cases h; exact modest_three), trivial⟩

theorem exIndexed_modest (n : Nat) : Modest (exIndexed n) :=
  ⟨(fun t h => by cases h; exact ⟨by simp [maxElems], by simp [prod, maxElems]⟩),
    ⟨(fun t h => by cases h; exact modest_whole), (fun t h => by cases h; exact modest_whole), trivial⟩,
    ⟨(fun t h => by cases h; exact ⟨modest_at 1, trivial⟩), trivial⟩, fun _ =>
    ⟨⟨(fun t h => by cases h; exact ⟨trivial, by simp [maxElems], by simp [prod, maxElems]⟩), trivial⟩, fun _ =>
      ⟨(fun t h => by cases h; exact modest_whole), (fun t h => by cases h), modest_at 2, fun i => ⟨modest_at i, fun _ => trivial⟩⟩⟩⟩

/-- Memory up to address 8: the second allocation is refused, the handler is executed, `a` is as before. -/
example : (BWorld.main Arith.u64 true false (fun _ => false) (exSmall 8) exTry).map exSee = .ok (some [6, 1, 2, 3, 4, 5, 6], 0, []) := by decide +kernel

/-- Memory up to address 11 is enough. -/
example : (BWorld.main Arith.u64 false false (fun _ => false) (exSmall 11) exTry).map exSee = .ok (some [3, 1, 2, 3], 0, []) := by decide +kernel

/-- The construction of the second new element throws: a block has been lost. -/
example : (BWorld.main Arith.u64 true false (fun t => t == 9) (exSmall 100) exTry).map exSee = .ok (some [6, 1, 2, 3, 4, 5, 6], 1, []) := by decide +kernel

/-- The index that was read does not exist, or does. -/
example : (BWorld.main Arith.u64 true false (fun _ => false) (exSmall 100) (exIndexed 3)).map exSee = .error .assert := by decide +kernel
example : (BWorld.main Arith.u64 true false (fun _ => false) (exSmall 100) (exIndexed 0)).map exSee = .ok (some 1, 0, []) := by decide +kernel

section
variable (T : Nat → Bool) (nx chk : Bool) (cap : Nat) (hc : cap < maxElems)
include hc
example := C88_run (T := T) (legalAny_less (fun _ => trivial) _ (exTry_legal nx)) (modest_any exTry_modest) bholds_empty below_empty ex_began (exSmall_good64 hc) chk
example := C88_main (T := T) (legalAny_less (fun _ => trivial) _ (exTry_legal nx)) (modest_any exTry_modest) (exSmall_good64 hc) chk
example := C88_modest (T := T) (legalAny_less (fun _ => trivial) _ (exTry_legal nx)) exTry_modest (exSmall_good64 hc) chk
example := C88_no_leak (T := T) (legalAny_less (fun _ => trivial) _ (exPure_legal nx)) (modest_any exPure_modest) exPure_noSet (exSmall_good64 hc) chk
example (n : Nat) := C88_checked (T := T) (nx := nx) (W := BWorld.empty) (S := noArrays) (exIndexed_meets n).1 (exIndexed_meets n).2.1
  (exIndexed_meets n).2.2 (fun x hx => hx rfl) (modest_run (exIndexed_modest n)) bholds_empty below_empty ex_began (exSmall_good64 hc)
example (n : Nat) := C88_checked_main (T := T) (nx := nx) (exIndexed_meets n).1 (exIndexed_meets n).2.1 (exIndexed_meets n).2.2
  (modest_run (p := .block (exIndexed n) .ret) ⟨exIndexed_modest n, fun _ => trivial⟩) (exSmall_good64 hc)
example (n : Nat) := C88_modest_checked (T := T) (nx := nx) (exIndexed_meets n).1 (exIndexed_meets n).2.1 (exIndexed_meets n).2.2 (exIndexed_modest n)
  (exSmall_good64 hc)
end

/-! ### What is needed -/

/-- `auto a = vector(m, n); return a[1][0];` -/
def exHuge (m n : Nat) : Body Nat Nat := .exec (.calm (.old (.makeFill 0 (.const 7) [m, n]))) (.read (.elem 0 [.at 1, .at 0]) .ret)

theorem exHuge_legal {m n : Nat} (hm : 1 < m) (hn : 0 < n) : LegalAny false True noArrays (exHuge m n) := by
  refine ⟨⟨⟨rfl, rfl, by simp, trivial⟩, fun h => h⟩, ?_⟩
  rintro S₁ ⟨_, hS, _, a, ha, he, _⟩
  refine ⟨⟨a, ⟨[], fun j => 1 :: 0 :: j⟩, ha, ?_, rfl⟩, fun _ _ => trivial⟩
  rw [he]
  refine ⟨⟨⟨?_, trivial, by simp [sel], ?_⟩, ⟨?_, trivial, by simp [sel], ?_⟩, trivial⟩, rfl, rfl⟩
  all_goals simp [arrayView, sel, astep, fixFirst]; try omega

/-- **C88.** Extents that fit into 64 bits one by one but not their product: a matrix of 2^32 × 2^32 elements gets no elements at all (the product wraps to
zero), nothing is refused, no assertion fails, and reading an element is undefined, also in checked builds. -/
theorem C88_wraps : LegalAny false True noArrays (exHuge (2 ^ 32) (2 ^ 32)) ∧ GoodBlocks64 (exSmall 100) ∧
    BWorld.main Arith.u64 true false (fun _ => false) (exSmall 100) (exHuge (2 ^ 32) (2 ^ 32)) = .error .ub := by
  refine ⟨exHuge_legal (by decide) (by decide), exSmall_good64 (by decide), ?_⟩
  have : (BWorld.main Arith.u64 true false (fun _ => false) (exSmall 100) (exHuge (2 ^ 32) (2 ^ 32))).map (fun _ => ()) = .error .ub := by decide +kernel
  cases h : BWorld.main Arith.u64 true false (fun _ => false) (exSmall 100) (exHuge (2 ^ 32) (2 ^ 32)) with
  | ok r => rw [h] at this; cases this
  | error e => rw [h] at this; cases this; rfl

/-- With numbers of any size the same program is refused the memory. -/
example : (BWorld.main Arith.exact true false (fun _ => false) (exSmall 100) (exHuge (2 ^ 32) (2 ^ 32))).map exSee = .ok (none, 0, []) := by decide +kernel

/-- A smaller one is fine. -/
example : (BWorld.main Arith.u64 true false (fun _ => false) (exSmall 100) (exHuge 2 3)).map exSee = .ok (some 7, 0, []) := by decide +kernel

end Jules.Props

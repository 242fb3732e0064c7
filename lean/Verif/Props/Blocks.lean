import Verif.Lemmas.BlockProgs
/-
C86: programs in which allocations, constructions, assignments and functions may throw at any time.
-/
namespace Jules.Props
open Jules Spec

section
variable {α β : Type} {W : BWorld α} {S S' : MStore α} {lost : List Nat} {T : Nat → Bool}

/-! ### Whole programs -/

theorem aborted_nx {nx : Bool} {Q : Prop} {p : Body α β} {r : Fate β} {n : Nat} (h : May nx Q S p S' r n) : r = .aborted → nx = true := by
  induction h with
  | @execAbort _ s _ _ hb =>
    intro _
    cases s with
    | calm s => exact hb.elim
    | wild s => exact hb.1
  | ret => intro h; cases h
  | throw => intro h; cases h
  | execThrow => intro h; cases h
  | execStop => intro h; cases h
  | readStop => intro h; cases h
  | elementsThrow => intro h; cases h
  | elementsStop => intro h; cases h
  | blockThrow => intro h; cases h
  | callThrow => intro h; cases h
  | again => intro h; cases h
  | exec _ _ _ _ ih => exact ih
  | read _ _ _ ih => exact ih
  | elements _ _ ih => exact ih
  | block _ _ _ _ ih => exact ih
  | blockAbort _ ih => exact ih
  | call _ _ _ _ _ _ _ ih => exact ih
  | callAbort _ ih => exact ih
  | attempt _ _ _ _ ih => exact ih
  | handled _ _ _ _ _ _ _ ih => exact ih
  | tryAbort _ ih => exact ih
  | handlerAbort _ _ _ _ ih => exact ih

/-- **C86.** Programs in which every allocation, construction and assignment of an element, every copy of an element and every call of a function may throw.
Whatever throws and when (`T`), and whatever the allocator refuses, a legal program runs without undefined behaviour or failed assertions, in every build and with every allocator: nothing
is used, destroyed or freed that is not there, nothing is destroyed twice. It ends with a result or an exception that the specification allows, in a
state that holds exactly the arrays of the specification, each in a block of its own; the blocks that belong to no array are those lost before and those
the specification says; or it is terminated because an element of a type that cannot throw on construction threw. -/
theorem C86_run [Nonempty α] {alloc : Nat → List (Nat × Nat) → Nat → Option Nat} {nx : Bool} {p : Body α β} (hp : LegalAny nx (MayFail T alloc) S p) (H : BHolds W S lost) (hW : W.scopes ≠ []) (chk : Bool)
    (hal : GoodBlocks alloc) :
    (∃ W' r S' lost' n, W.exec Arith.exact chk nx T alloc p = .ok (W', r) ∧ May nx (MayFail T alloc) S p S' (fate r) n ∧ BHolds W' S' lost' ∧
      lost'.length = lost.length + n) ∨
    (nx = true ∧ W.exec Arith.exact chk nx T alloc p = .error .terminate ∧ ∃ S' n, May nx (MayFail T alloc) S p S' .aborted n) := by
  obtain ⟨f, fs, hf⟩ := List.exists_cons_of_ne_nil hW
  rcases bruns (T := T) chk hal p hp H hf with ⟨W', r, S', lost', n, g, h1, h2, h3, h4, _⟩ | ⟨S', n, h1, h2⟩
  · exact .inl ⟨W', r, S', lost', n, h1, h2, h3, h4⟩
  · exact .inr ⟨aborted_nx h2 rfl, h1, S', n, h2⟩

/-- The empty state holds no arrays. -/
theorem bholds_empty : BHolds (BWorld.empty : BWorld α) noArrays [] where
  arr := fun x a h => by cases h
  moved := fun x d h => by cases h
  out := fun x _ => rfl
  own := fun x b d h => by cases h
  once := fun x y b d d' h => by cases h
  bases := by simp [BWorld.empty]
  apart := fun b hb => by simp [BWorld.empty] at hb
  only := fun q hq => (hq rfl).elim
  nodup := List.nodup_nil
  left := fun b => by simp [BWorld.empty]
  ruined := rfl

/-- When there are no arrays, the blocks in use are the lost ones. -/
theorem blocks_lost (H : BHolds W noArrays lost) : W.pool.blocks.length = lost.length := by
  have hno : ∀ x b d, ¬ OwnsAt W x b d := by
    intro x b d h
    unfold OwnsAt at h
    rw [H.out x ⟨rfl, rfl⟩] at h; cases h
  have hp : (W.pool.blocks.map Prod.fst).Perm lost := by
    rw [List.perm_ext_iff_of_nodup H.bases H.nodup]
    intro b
    rw [H.left b]
    exact ⟨fun h => ⟨h, fun x d => hno x b d⟩, fun h => h.1⟩
  have := hp.length_eq
  simpa using this

theorem left_noArrays {S₁ S₂ : MStore α} (h : Left (InScope (noArrays : MStore α)) S₁ S₂) : S₂ = noArrays := by
  have hno : ∀ x, ¬ InScope (noArrays : MStore α) x := fun x h => h ⟨rfl, rfl⟩
  obtain ⟨l, m⟩ := S₂
  have h1 : l = fun _ => none := funext fun x => (h.2 x (hno x)).1
  have h2 : m = fun _ => none := funext fun x => (h.2 x (hno x)).2
  rw [h1, h2]; rfl

/-- **C86.** Whole programs: at the end of `main`, whatever threw and however it ends, every element of every array has been destroyed, none of them twice,
none was lost by freeing or reusing its storage, and the blocks of memory that have not been freed are as many as the specification says. -/
theorem C86_main [Nonempty α] {alloc : Nat → List (Nat × Nat) → Nat → Option Nat} {nx : Bool} {p : Body α β} (hp : LegalAny nx (MayFail T alloc) noArrays p) (chk : Bool)
    (hal : GoodBlocks alloc) :
    (∃ W' r S' n, BWorld.main Arith.exact chk nx T alloc p = .ok (W', r) ∧ May nx (MayFail T alloc) noArrays p S' (fate r) n ∧
      W'.pool.blocks.length = n ∧ (∀ q, W'.pool.mem q = none) ∧ W'.pool.ruined = 0 ∧ ∀ x, W'.env x = none) ∨
    (nx = true ∧ BWorld.main Arith.exact chk nx T alloc p = .error .terminate ∧ ∃ S' n, May nx (MayFail T alloc) noArrays p S' .aborted n) := by
  have hp' : LegalAny nx (MayFail T alloc) noArrays (.block p .ret) := ⟨hp, fun _ _ _ _ _ _ => trivial⟩
  rcases C86_run hp' bholds_empty (by simp [BWorld.empty]) chk hal with ⟨W', r, S', lost', n, h1, h2, h3, h4⟩ | ⟨h0, h1, S', n, h2⟩
  · left
    have hfin : ∃ S₁ n', May nx (MayFail T alloc) noArrays p S₁ (fate r) n' ∧ n' = n ∧ S' = noArrays := by
      cases r with
      | none =>
        cases h2 with
        | blockThrow e hL => exact ⟨_, _, e, rfl, left_noArrays hL⟩
        | block _ _ e' => cases e'
      | some b =>
        cases h2 with
        | block e hL e' =>
          cases e'
          exact ⟨_, _, e, rfl, left_noArrays hL⟩
    obtain ⟨S₁, n', e1, rfl, rfl⟩ := hfin
    have henv : ∀ x, W'.env x = none := fun x => h3.out x ⟨rfl, rfl⟩
    refine ⟨W', r, S₁, n', h1, e1, by rw [blocks_lost h3, h4]; simp, fun q => ?_, h3.ruined, henv⟩
    by_contra hq
    obtain ⟨x, b, d, ho, _⟩ := h3.only q hq
    unfold OwnsAt at ho
    rw [henv x] at ho; cases ho
  · refine .inr ⟨h0, h1, ?_⟩
    cases h2 with
    | blockAbort e => exact ⟨_, _, e⟩
    | block _ _ e => cases e

/-- **C86.** A program without assignments to whole arrays (other than `overlap(x) = e`) loses no memory, whatever throws. -/
theorem C86_no_loss {nx : Bool} {Q : Prop} {p : Body α β} {r : Fate β} {n : Nat} (h : May nx Q S p S' r n) (hp : NoSet p) : n = 0 := by
  have stmt : ∀ {s : XStmt α} {S : MStore α}, (∀ x e, s ≠ .wild (.set x e)) → (∀ x e, s ≠ .calm (.old (.set x e))) → ¬ Reallocates S s := by
    rintro s S h1 h2 ⟨x, d, ⟨e, h, _⟩ | ⟨e, h, _⟩, _⟩
    · exact h1 x e h
    · exact h2 x e h
  induction h with
  | ret => rfl
  | throw => rfl
  | exec _ _ _ _ ih => exact ih hp.2.2
  | execThrow _ _ _ hn =>
    rcases hn with ⟨⟨x, e, _, _, rfl, _⟩, _⟩ | ⟨_, h⟩
    · exact (hp.1 x e rfl).elim
    · exact h
  | execStop _ _ _ hn =>
    rcases hn with h | ⟨_, h⟩
    · exact h
    · exact (stmt hp.1 hp.2.1 h).elim
  | execAbort => rfl
  | read _ _ _ ih => exact ih (hp _)
  | readStop => rfl
  | elements _ _ ih => exact ih (hp _ _)
  | elementsThrow => rfl
  | elementsStop => rfl
  | block _ _ _ ih ih' => rw [ih hp.1, ih' (hp.2 _)]
  | blockThrow _ _ ih => exact ih hp.1
  | blockAbort _ ih => exact ih hp.1
  | call _ _ _ _ _ _ ih ih' => rw [ih hp.1, ih' (hp.2 _)]
  | callThrow _ _ ih => exact ih hp.1
  | callAbort _ ih => exact ih hp.1
  | attempt _ _ _ ih ih' => rw [ih hp.1, ih' (hp.2.2 _)]
  | handled _ _ _ _ _ ih ih' ih'' => rw [ih hp.1, ih' hp.2.1, ih'' (hp.2.2 _)]
  | again _ _ _ _ ih ih' => rw [ih hp.1, ih' hp.2.1]
  | tryAbort _ ih => exact ih hp.1
  | handlerAbort _ _ _ ih ih' => rw [ih hp.1, ih' hp.2.1]

/-- **C86.** Such a program frees everything it allocates, whatever throws: at the end of `main` no block is in use. -/
theorem C86_no_leak [Nonempty α] {alloc : Nat → List (Nat × Nat) → Nat → Option Nat} {nx : Bool} {p : Body α β} (hp : LegalAny nx (MayFail T alloc) noArrays p) (hs : NoSet p) (chk : Bool)
    (hal : GoodBlocks alloc) :
    (∃ W' r, BWorld.main Arith.exact chk nx T alloc p = .ok (W', r) ∧ W'.pool.blocks = [] ∧ ∀ q, W'.pool.mem q = none) ∨
    (nx = true ∧ BWorld.main Arith.exact chk nx T alloc p = .error .terminate) := by
  rcases C86_main hp chk hal with ⟨W', r, S', n, h1, h2, h3, h4, _⟩ | ⟨h0, h1, _⟩
  · refine .inl ⟨W', r, h1, ?_, h4⟩
    rw [C86_no_loss h2 hs] at h3
    exact List.length_eq_zero_iff.1 h3
  · exact .inr ⟨h0, h1⟩

/-! ### Interrupted statements -/

theorem same_store (h1 : S'.live = S.live) (h2 : S'.moved = S.moved) : S' = S := by
  obtain ⟨l, m⟩ := S
  obtain ⟨l', m'⟩ := S'
  cases h1; cases h2; rfl

theorem resizes_reallocates {s : XStmt α} (h : Resizes S s) : Reallocates S s := by
  obtain ⟨x, e, a, d, rfl, ha, hl, hne⟩ := h
  exact ⟨x, d, .inl ⟨e, rfl, hl⟩, .inl ⟨a, ha, hne⟩⟩

theorem live_unmoved (hlm : ∀ x d, S.moved x = some d → S.live x = none) {x : Nat} {a : AVal α} (ha : S.live x = some a) : S.moved x = none := by
  cases hm : S.moved x with
  | none => rfl
  | some d => rw [hlm x d hm] at ha; cases ha

theorem reallocates_wild (hlm : ∀ x d, S.moved x = some d → S.live x = none) {x : Nat} {e : FEx α} {a : AVal α} {d : List Nat} (ha : S.live x = some a)
    (hd : ExLegal S.live d (shapeE e)) (h : Reallocates S (.wild (.set x e))) : prod a.ext ≠ prod d := by
  obtain ⟨y, d', ⟨e', h1, h2⟩ | ⟨e', h1, _⟩, h3⟩ := h
  · cases h1
    rw [exLegal_unique hd h2]
    rcases h3 with ⟨a', q1, q2⟩ | ⟨d'', q1, _⟩
    · rw [ha] at q1; cases q1; exact q2
    · rw [live_unmoved hlm ha] at q1; cases q1
  · cases h1

theorem aon_same {A A' : AStore α} {d : List Nat} {f : List Nat → Option α} {P : Prop} (h : AllOrNothing A d f A' true P) : A' = A := by
  rcases h with ⟨h1, _⟩ | ⟨_, _, h2⟩
  · cases h1
  · exact h2

/-- An exception that comes from the values. -/
theorem thrown_same (hlm : ∀ x d, S.moved x = some d → S.live x = none) {s : XStmt α} (hs : XLegal S s) (ha : AllOrNone S s) (he : XEffect S s S' true) : S' = S := by
  cases s with
  | calm s => cases he.1
  | wild s =>
    obtain ⟨hm, he⟩ := he
    refine same_store ?_ hm
    cases s with
    | make x e => obtain ⟨d, _, he⟩ := he; exact aon_same he
    | makeFrom x l ext => exact aon_same he
    | overlapWhole x e => obtain ⟨d, _, he⟩ := he; exact aon_same he
    | set x e =>
      obtain ⟨a, d, h1, h2, he⟩ := he
      have hr : Reallocates S (.wild (.set x e)) := by
        rcases ha with h | ⟨_, _, h⟩ | ⟨_, _, h⟩ | h
        · exact (h rfl).elim
        · cases h
        · cases h
        · exact h
      rw [if_neg (reallocates_wild hlm h1 h2 hr)] at he
      exact aon_same he
    | _ =>
      rcases ha with h | ⟨_, _, h⟩ | ⟨_, _, h⟩ | ⟨_, _, ⟨_, h, _⟩ | ⟨_, h, _⟩, _⟩
      · exact (h rfl).elim
      all_goals cases h

/-- Another exception. -/
theorem stopped_same (hlm : ∀ x d, S.moved x = some d → S.live x = none) {s : XStmt α} (hs : XLegal S s) (ha : AllOrNone S s) (he : XStops S s S') : S' = S := by
  have none_of : ∀ {s : XStmt α}, s.declares = none → (∀ x e, s ≠ .wild (.overlapWhole x e)) → (∀ x e, s ≠ .calm (.old (.overlapWhole x e))) →
      AllOrNone S s → Reallocates S s := by
    rintro s h1 h2 h3 (h | ⟨x, e, h⟩ | ⟨x, e, h⟩ | h)
    · exact (h h1).elim
    · exact (h2 x e h).elim
    · exact (h3 x e h).elim
    · exact h
  have no_realloc : ∀ {s : XStmt α}, (∀ x e, s ≠ .wild (.set x e)) → (∀ x e, s ≠ .calm (.old (.set x e))) → ¬ Reallocates S s := by
    rintro s h1 h2 ⟨x, d, ⟨e, h, _⟩ | ⟨e, h, _⟩, _⟩
    · exact h1 x e h
    · exact h2 x e h
  have never : ∀ {s : XStmt α} {P : Prop}, s.declares = none → (∀ x e, s ≠ .wild (.overlapWhole x e)) → (∀ x e, s ≠ .calm (.old (.overlapWhole x e))) →
      (∀ x e, s ≠ .wild (.set x e)) → (∀ x e, s ≠ .calm (.old (.set x e))) → AllOrNone S s → P := by
    intro s P h1 h2 h3 h4 h5 h
    exact (no_realloc h4 h5 (none_of h1 h2 h3 h)).elim
  cases s with
  | wild s =>
    obtain ⟨hm, he⟩ := he
    cases s with
    | plain s => exact he.elim
    | make x e => exact same_store he hm
    | makeFrom x l ext => exact same_store he hm
    | overlapWhole x e => exact same_store he hm
    | set x e =>
      obtain ⟨a, d, h1, h2, he⟩ := he
      have hr := none_of rfl (by intro _ _ h; cases h) (by intro _ _ h; cases h) ha
      rw [if_neg (reallocates_wild hlm h1 h2 hr)] at he
      exact same_store he hm
    | _ => exact never rfl (by intro _ _ h; cases h) (by intro _ _ h; cases h) (by intro _ _ h; cases h) (by intro _ _ h; cases h) ha
  | calm s =>
    cases s with
    | declare x n => exact he.elim
    | moveMake x y => exact he.elim
    | old s =>
      cases s with
      | drop x => exact he.elim
      | moveAssign x y => exact he.elim
      | makeFill x s ext => exact he
      | make x e =>
        rcases he with ⟨_, he⟩ | ⟨_, hm, he⟩
        · exact he
        · exact same_store he hm
      | makeFrom x l ext =>
        rcases he with ⟨_, he⟩ | ⟨_, hm, he⟩
        · exact he
        · exact same_store he hm
      | overlapWhole x e =>
        rcases he with ⟨_, he⟩ | ⟨_, hm, he⟩
        · exact he
        · exact same_store he hm
      | set x e =>
        rcases he with ⟨_, he⟩ | ⟨_, hm, a, d, h1, h2, he⟩
        · exact he
        · have hr := none_of rfl (by intro _ _ h; cases h) (by intro _ _ h; cases h) ha
          have hne : prod a.ext ≠ prod d := by
            obtain ⟨y, d', ⟨e', q1, _⟩ | ⟨e', q1, q2⟩, q3⟩ := hr
            · cases q1
            · cases q1
              rw [exLegal_unique ((exLegal_total d e).1 h2) q2]
              rcases q3 with ⟨a', g1, g2⟩ | ⟨d'', g1, _⟩
              · rw [h1] at g1; cases g1; exact g2
              · rw [live_unmoved hlm h1] at g1; cases g1
          rw [if_neg hne] at he
          exact same_store he hm
      | _ => exact never rfl (by intro _ _ h; cases h) (by intro _ _ h; cases h) (by intro _ _ h; cases h) (by intro _ _ h; cases h) ha

/-- **C86.** The strong guarantee: when a declaration, an assignment `overlap(x) = e` to a whole array or an assignment `x = e` that changes the number of
elements is left by an exception, whatever threw, all arrays are as before; a block of memory is lost only by the last kind of statement, and at most
one. -/
theorem C86_strong [Nonempty α] {nx : Bool} {s : XStmt α} (hs : XLegal S s) (ha : AllOrNone S s) (H : BHolds W S lost) (hW : W.scopes ≠ []) (chk : Bool)
    {alloc : Nat → List (Nat × Nat) → Nat → Option Nat} (hal : GoodBlocks alloc) {W' : BWorld α} (he : W.step Arith.exact chk nx T alloc s = .ok (W', true)) :
    ∃ lost', BHolds W' S lost' ∧ lost'.length ≤ lost.length + 1 ∧ (¬ Reallocates S s → lost'.length = lost.length) := by
  obtain ⟨f, fs, hf⟩ := List.exists_cons_of_ne_nil hW
  have hlm : ∀ x d, S.moved x = some d → S.live x = none := fun x d h => (H.moved x d h).1
  rcases xout (T := T) H hs hf chk nx hal with ⟨W₁, S₁, q1, _⟩ | ⟨W₁, S₁, lost', n, q1, q2, q3, q4, q5⟩ | ⟨q1, _⟩
  · rw [he] at q1; cases q1
  · rw [he] at q1; cases q1
    rcases q5 with ⟨_, e2, e3⟩ | ⟨_, e2, e3⟩
    · rw [thrown_same hlm hs ha e2] at q2
      refine ⟨lost', q2, ?_, fun h => ?_⟩
      · rcases e3 with ⟨_, h⟩ | ⟨_, h⟩ <;> omega
      · rcases e3 with ⟨h', _⟩ | ⟨_, h⟩
        · exact (h (resizes_reallocates h')).elim
        · omega
    · rw [stopped_same hlm hs ha e2] at q2
      refine ⟨lost', q2, ?_, fun h => ?_⟩
      · rcases e3 with h | ⟨h, _⟩ <;> omega
      · rcases e3 with h' | ⟨_, h'⟩
        · omega
        · exact (h h').elim
  · rw [he] at q1; cases q1

/-! ### When nothing throws by itself -/

/-- What a program may do when only the values make it throw. -/
def QuietMay {α β : Type} (nx : Bool) (S : MStore α) (p : Body α β) (S' : MStore α) (n : Nat) : Fate β → Prop
  | .value b => Does nx S p S' (some b) n
  | .thrown => Does nx S p S' none n
  | .aborted => Aborts nx S p

theorem may_quiet {nx : Bool} {p : Body α β} {r : Fate β} {n : Nat} (h : May nx False S p S' r n) : QuietMay nx S p S' n r := by
  induction h with
  | ret => exact .ret
  | throw => exact .throw
  | @exec S s S₁ k S' r n h1 h2 h3 _ ih =>
    cases r with
    | value b => exact .exec h1 h2 h3 ih
    | thrown => exact .exec h1 h2 h3 ih
    | aborted => exact .exec h1 h2 h3 ih
  | execThrow h1 h2 h3 h4 => exact .execThrow h1 h2 h3 h4
  | execStop _ h => exact h.elim
  | execAbort h1 h2 => exact .now h1 h2
  | @read S s v k S' r n h1 h2 _ ih =>
    cases r with
    | value b => exact .read h1 h2 ih
    | thrown => exact .read h1 h2 ih
    | aborted => exact .read h1 h2 ih
  | readStop _ h => exact h.elim
  | @elements S e d xs k S' r n h1 _ ih =>
    cases r with
    | value b => exact .elements h1 ih
    | thrown => exact .elements h1 ih
    | aborted => exact .elements h1 ih
  | elementsThrow h => exact .elementsThrow h
  | elementsStop _ _ h => exact h.elim
  | @block S body S₁ b n S₂ k S' r n' _ hL _ ih ih' =>
    cases r with
    | value b => exact .block ih hL ih'
    | thrown => exact .block ih hL ih'
    | aborted => exact .block ih hL ih'
  | blockThrow _ hL ih => exact .blockThrow ih hL
  | blockAbort _ ih => exact .inBlock ih
  | @call S body S₁ b n y x S₂ S₃ k S' r n' _ h1 h2 h3 h4 _ ih ih' =>
    cases r with
    | value b => exact .call ih h1 h2 h3 h4 ih'
    | thrown => exact .call ih h1 h2 h3 h4 ih'
    | aborted => exact .call ih h1 h2 h3 h4 ih'
  | callThrow _ hL ih => exact .callThrow ih hL
  | callAbort _ ih => exact .inCall ih
  | @attempt S body S₁ b n S₂ k S' r n' handler _ hL _ ih ih' =>
    cases r with
    | value b => exact .attempt ih hL ih'
    | thrown => exact .attempt ih hL ih'
    | aborted => exact .attempt ih hL ih'
  | @handled S body S₁ n S₂ handler S₃ b n' S₄ k S' r n'' _ hL _ hL' _ ih ih' ih'' =>
    cases r with
    | value b => exact .handled ih hL ih' hL' ih''
    | thrown => exact .handled ih hL ih' hL' ih''
    | aborted => exact .handled ih hL ih' hL' ih''
  | again _ hL _ hL' ih ih' => exact .again ih hL ih' hL'
  | tryAbort _ ih => exact .inTry ih
  | handlerAbort _ hL _ ih ih' => exact .inHandler ih hL ih'

theorem legalBody_any {nx : Bool} : ∀ (p : Body α β) {S : MStore α}, LegalBody nx S p → LegalAny nx False S p := by
  intro p
  induction p with
  | ret b => intro S _; trivial
  | throw => intro S _; trivial
  | exec s k ih => intro S h; exact ⟨h.1, fun S₁ he => ih (h.2 S₁ he)⟩
  | read s k ih => intro S h; exact ⟨h.1, fun v hv => ih v (h.2 v hv)⟩
  | elements e k ih =>
    intro S h
    obtain ⟨d, h1, h2, h3⟩ := h
    exact ⟨d, h1, h2, fun xs hx => ih d xs (h3 xs hx)⟩
  | block body k ih ih' => intro S h; exact ⟨ih h.1, fun S₁ S₂ b n hm hL => ih' b (h.2 S₁ S₂ b n (may_quiet hm) hL)⟩
  | call x y body k ih ih' =>
    intro S h
    refine ⟨ih h.1, h.2.1, fun S₁ b n hm => ?_⟩
    obtain ⟨h1, h2⟩ := h.2.2 S₁ b n (may_quiet hm)
    exact ⟨h1, fun S₂ S₃ he hL => ih' b (h2 S₂ S₃ he hL)⟩
  | attempt body handler k ih ihh ih' =>
    intro S h
    refine ⟨ih h.1, fun S₁ S₂ b n hm hL => ih' b (h.2.1 S₁ S₂ b n (may_quiet hm) hL), fun S₁ S₂ n hm hL => ?_⟩
    obtain ⟨h1, h2⟩ := h.2.2 S₁ S₂ n (may_quiet hm) hL
    exact ⟨ihh h1, fun S₃ S₄ b n' hm' hL' => ih' b (h2 S₃ S₄ b n' (may_quiet hm') hL')⟩

/-- **C86.** When no allocation, construction, assignment or copy throws, the programs of C85 do what C85 says: a legal program ends with the result or
exception and the arrays of its specification, and as many blocks are lost, or it is terminated as there. -/
theorem C86_quiet [Nonempty α] {nx : Bool} {p : Body α β} (hp : LegalBody nx S p) (H : BHolds W S lost) (hW : W.scopes ≠ []) (chk : Bool)
    {alloc : Nat → List (Nat × Nat) → Nat → Option Nat} (hal : GoodBlocks alloc) (hT : ∀ t, T t = false) (hA : ∀ k bl n, alloc k bl n ≠ none) :
    (∃ W' r S' lost' n, W.exec Arith.exact chk nx T alloc p = .ok (W', r) ∧ Does nx S p S' r n ∧ BHolds W' S' lost' ∧ lost'.length = lost.length + n) ∨
    (nx = true ∧ Aborts nx S p ∧ W.exec Arith.exact chk nx T alloc p = .error .terminate) := by
  have hQ : MayFail T alloc = False := by
    rw [eq_iff_iff, iff_false]
    rintro (⟨t, ht⟩ | ⟨k, bl, n, h⟩)
    · rw [hT t] at ht; cases ht
    · exact hA k bl n h
  have hp' : LegalAny nx (MayFail T alloc) S p := by rw [hQ]; exact legalBody_any p hp
  rcases C86_run hp' H hW chk hal with ⟨W', r, S', lost', n, h1, h2, h3, h4⟩ | ⟨h0, h1, S', n, h2⟩
  · rw [hQ] at h2
    refine .inl ⟨W', r, S', lost', n, h1, ?_, h3, h4⟩
    cases r with
    | none => exact may_quiet h2
    | some b => exact may_quiet h2
  · rw [hQ] at h2
    exact .inr ⟨h0, may_quiet h2, h1⟩

/-- **C86.** The same program in the model of C85 (in which memory is a map and blocks are only counted) ends with the same result. -/
theorem C86_same [Nonempty α] {nx : Bool} {p : Body α β} (hp : LegalBody nx S p) (H : BHolds W S lost) (hW : W.scopes ≠ []) (chk : Bool)
    {alloc : Nat → List (Nat × Nat) → Nat → Option Nat} (hal : GoodBlocks alloc) (hT : ∀ t, T t = false) (hA : ∀ k bl n, alloc k bl n ≠ none) {W₂ : SWorld α} (H₂ : MHolds W₂.m S) (hW₂ : W₂.scopes ≠ [])
    (chk₂ : Bool) {alloc₂ : Nat → Mem α → Nat → Nat} (hal₂ : GoodAlloc alloc₂) :
    (W.exec Arith.exact chk nx T alloc p).map Prod.snd = (W₂.exec Arith.exact chk₂ nx alloc₂ p).map Prod.snd := by
  rcases C86_quiet hp H hW chk hal hT hA with ⟨W', r, S', lost', n, h1, h2, _⟩ | ⟨_, h1, h2⟩
  · obtain ⟨W'', k1, _⟩ := C85_run h2 H₂ hW₂ chk₂ hal₂
    rw [h1, k1]; rfl
  · rw [h2, C85_aborts h1 chk₂ hal₂ H₂ hW₂]; rfl

/-! ### More may throw -/

theorem may_more {nx : Bool} {Q Q' : Prop} (hQ : Q → Q') {p : Body α β} {r : Fate β} {n : Nat} (h : May nx Q S p S' r n) : May nx Q' S p S' r n := by
  induction h with
  | ret => exact .ret
  | throw => exact .throw
  | exec h1 h2 h3 _ ih => exact .exec h1 h2 h3 ih
  | execThrow h1 h2 h3 h4 => exact .execThrow h1 h2 h3 h4
  | execStop h1 h2 h3 h4 => exact .execStop h1 (hQ h2) h3 h4
  | execAbort h1 h2 => exact .execAbort h1 h2
  | read h1 h2 _ ih => exact .read h1 h2 ih
  | readStop h1 h2 => exact .readStop h1 (hQ h2)
  | elements h1 _ ih => exact .elements h1 ih
  | elementsThrow h => exact .elementsThrow h
  | elementsStop h1 h2 h3 => exact .elementsStop h1 h2 (hQ h3)
  | block _ hL _ ih ih' => exact .block ih hL ih'
  | blockThrow _ hL ih => exact .blockThrow ih hL
  | blockAbort _ ih => exact .blockAbort ih
  | call _ h1 h2 h3 h4 _ ih ih' => exact .call ih h1 h2 h3 h4 ih'
  | callThrow _ hL ih => exact .callThrow ih hL
  | callAbort _ ih => exact .callAbort ih
  | attempt _ hL _ ih ih' => exact .attempt ih hL ih'
  | handled _ hL _ hL' _ ih ih' ih'' => exact .handled ih hL ih' hL' ih''
  | again _ hL _ hL' ih ih' => exact .again ih hL ih' hL'
  | tryAbort _ ih => exact .tryAbort ih
  | handlerAbort _ hL _ ih ih' => exact .handlerAbort ih hL ih'

theorem legalAny_less {nx : Bool} {Q Q' : Prop} (hQ : Q → Q') : ∀ (p : Body α β) {S : MStore α}, LegalAny nx Q' S p → LegalAny nx Q S p := by
  intro p
  induction p with
  | ret b => intro S _; trivial
  | throw => intro S _; trivial
  | exec s k ih => intro S h; exact ⟨h.1, fun S₁ he => ih (h.2 S₁ he)⟩
  | read s k ih => intro S h; exact ⟨h.1, fun v hv => ih v (h.2 v hv)⟩
  | elements e k ih =>
    intro S h
    obtain ⟨d, h1, h2, h3⟩ := h
    exact ⟨d, h1, h2, fun xs hx => ih d xs (h3 xs hx)⟩
  | block body k ih ih' => intro S h; exact ⟨ih h.1, fun S₁ S₂ b n hm hL => ih' b (h.2 S₁ S₂ b n (may_more hQ hm) hL)⟩
  | call x y body k ih ih' =>
    intro S h
    refine ⟨ih h.1, h.2.1, fun S₁ b n hm => ?_⟩
    obtain ⟨h1, h2⟩ := h.2.2 S₁ b n (may_more hQ hm)
    exact ⟨h1, fun S₂ S₃ he hL => ih' b (h2 S₂ S₃ he hL)⟩
  | attempt body handler k ih ihh ih' =>
    intro S h
    refine ⟨ih h.1, fun S₁ S₂ b n hm hL => ih' b (h.2.1 S₁ S₂ b n (may_more hQ hm) hL), fun S₁ S₂ n hm hL => ?_⟩
    obtain ⟨h1, h2⟩ := h.2.2 S₁ S₂ n (may_more hQ hm) hL
    exact ⟨ihh h1, fun S₃ S₄ b n' hm' hL' => ih' b (h2 S₃ S₄ b n' (may_more hQ hm') hL')⟩

/-- **C86.** A program that is legal when anything may throw never has undefined behaviour and fails no assertion, whatever throws and when: `main` ends
with a result, with an exception, or by `std::terminate`, the last only if the element type cannot throw on construction. -/
theorem C86_safe [Nonempty α] {nx : Bool} {p : Body α β} (hp : LegalAny nx True noArrays p) {alloc : Nat → List (Nat × Nat) → Nat → Option Nat} (hal : GoodBlocks alloc)
    (T : Nat → Bool) (chk : Bool) : (∃ W' r, BWorld.main Arith.exact chk nx T alloc p = .ok (W', r) ∧ (∀ q, W'.pool.mem q = none) ∧ W'.pool.ruined = 0) ∨
    (nx = true ∧ BWorld.main Arith.exact chk nx T alloc p = .error .terminate) := by
  rcases C86_main (legalAny_less (Q := MayFail T alloc) (fun _ => trivial) p hp) chk hal with ⟨W', r, S', n, h1, _, _, h4, h5, _⟩ | ⟨h0, h1, _⟩
  · exact .inl ⟨W', r, h1, h4, h5⟩
  · exact .inr ⟨h0, h1⟩

end

/-! ### Concrete cases -/

/-- An allocator: after everything in use. -/
def exBlocks : Nat → List (Nat × Nat) → Nat → Option Nat := fun _ bl _ => some ((bl.map fun b => b.1 + b.2).sum + 1)

theorem exBlocks_good : GoodBlocks exBlocks := by
  intro k bl n a ha b hb
  have := sum_bound bl b hb
  simp only [exBlocks, Option.some.injEq] at ha
  omega

/-- Memory up to the address `cap`: what does not fit is refused (`std::bad_alloc`). -/
def exSmall (cap : Nat) : Nat → List (Nat × Nat) → Nat → Option Nat := fun _ bl n =>
  if (bl.map fun b => b.1 + b.2).sum + 1 + n ≤ cap then some ((bl.map fun b => b.1 + b.2).sum + 1) else none

theorem exSmall_good (cap : Nat) : GoodBlocks (exSmall cap) := by
  intro k bl n a ha b hb
  have := sum_bound bl b hb
  simp only [exSmall] at ha
  split at ha
  · simp only [Option.some.injEq] at ha; omega
  · cases ha

/-- `auto a = {1..6}; try { a = a[slice(0, 3)]; } catch (...) {}`; the result are the extents and the elements of `a`. -/
def exTry : Body Nat (List Nat) :=
  .exec (.calm (.old (.makeFrom 0 [1, 2, 3, 4, 5, 6] [6]))) <|
  .attempt (.exec (.calm (.old (.set 0 (.arr 0 [.slice 0 3])))) (.ret [])) (.ret []) fun _ =>
  .elements (.arr 0 []) fun d xs => .ret (d ++ xs)

/-- The result, the number of blocks in use, the elements in memory. -/
def exSee {β : Type} (r : BWorld Nat × Option β) : Option β × Nat × List Nat := (r.2, r.1.pool.blocks.length, (List.range 100).filterMap r.1.pool.mem)

/-- Nothing throws. -/
example : (BWorld.main Arith.exact true false (fun _ => false) exBlocks exTry).map exSee = .ok (some [3, 1, 2, 3], 0, []) := by decide +kernel

/-- The first allocation throws. -/
example : (BWorld.main Arith.exact true false (fun t => t == 0) exBlocks exTry).map exSee = .ok (none, 0, []) := by decide +kernel

/-- The construction of the fourth element throws: the first three are destroyed, the block is freed. -/
example : (BWorld.main Arith.exact true false (fun t => t == 4) exBlocks exTry).map exSee = .ok (none, 0, []) := by decide +kernel

/-- The second allocation throws: the handler is executed, `a` is as before. -/
example : (BWorld.main Arith.exact true false (fun t => t == 7) exBlocks exTry).map exSee = .ok (some [6, 1, 2, 3, 4, 5, 6], 0, []) := by decide +kernel

/-- The construction of the second new element throws: the handler is executed, `a` is as before, and a block has been lost. -/
example : (BWorld.main Arith.exact true false (fun t => t == 9) exBlocks exTry).map exSee = .ok (some [6, 1, 2, 3, 4, 5, 6], 1, []) := by decide +kernel

/-- The copy of the second element throws, at the end. -/
example : (BWorld.main Arith.exact true false (fun t => t == 12) exBlocks exTry).map exSee = .ok (none, 0, []) := by decide +kernel

/-- Memory up to address 8: the second allocation is refused, the handler is executed, `a` is as before. -/
example : (BWorld.main Arith.exact true false (fun _ => false) (exSmall 8) exTry).map exSee = .ok (some [6, 1, 2, 3, 4, 5, 6], 0, []) := by decide +kernel

/-- Memory up to address 11 is enough. -/
example : (BWorld.main Arith.exact true false (fun _ => false) (exSmall 11) exTry).map exSee = .ok (some [3, 1, 2, 3], 0, []) := by decide +kernel

/-- Memory up to address 4: the first allocation is refused. -/
example : (BWorld.main Arith.exact true false (fun _ => false) (exSmall 4) exTry).map exSee = .ok (none, 0, []) := by decide +kernel

/-- The program of C85. -/
example : (BWorld.main Arith.exact true false (fun _ => false) exBlocks exScopes).map exSee = .ok (some [3, 22, 62, 12], 0, []) := by decide +kernel

/-- With a type that cannot throw on construction it is terminated when a function throws. -/
example : (BWorld.main Arith.exact true true (fun _ => false) exBlocks (.attempt (exLost fun _ => none) (.ret ()) .ret)).map exSee = .error .terminate := by
  decide +kernel

/-- The extents of `a` are those it has. -/
theorem ex_whole_legal {S : MStore Nat} {a : AVal Nat} (ha : S.live 0 = some a) : ExLegal S.live a.ext (.arr 0 []) := ⟨a, _, ha, chain_whole a.ext, rfl⟩

/-- `a = a[slice(0, 3)]` is legal for every array of six elements. -/
theorem ex_shrink_legal {S : MStore Nat} {a : AVal Nat} (ha : S.live 0 = some a) (he : a.ext = [6]) :
    XLegal S (.calm (.old (.set 0 (.arr 0 [.slice 0 3])))) := by
  refine ⟨.inl ⟨a, [3], ha, by rw [he]; rfl, ⟨a, _, ha, by rw [he]; exact ex_chain_three, rfl⟩, fun h => ?_⟩, fun h => h⟩
  rw [he] at h; cases h

/-- It is legal, whatever throws. -/
theorem exTry_legal (nx : Bool) : LegalAny nx True noArrays exTry := by
  refine ⟨exSix_legal, ?_⟩
  rintro S₁ ⟨_, hm, _, a, ha, he, _⟩
  have fin : ∀ {S₂ : MStore Nat}, (∃ a, S₂.live 0 = some a ∧ a.ext ≠ []) →
      LegalAny nx True S₂ (.elements (.arr 0 []) fun d xs => .ret (d ++ xs) : Body Nat (List Nat)) := by
    rintro S₂ ⟨a, ha, hne⟩
    exact ⟨a.ext, hne, ex_whole_legal ha, fun _ _ => trivial⟩
  have hin : InScope S₁ 0 := inScope_iff.2 (.inl (by rw [ha]; simp))
  have hex : ExLegal S₁.live [3] (.arr 0 [.slice 0 3]) := ⟨a, _, ha, by rw [he]; exact ex_chain_three, rfl⟩
  refine ⟨⟨ex_shrink_legal ha he, fun _ _ => trivial⟩, ?_, ?_⟩
  · intro S₂ S₃ b n hmay hL
    cases hmay with
    | exec _ _ heff hret =>
      cases hret
      obtain ⟨_, heff⟩ := heff
      refine fin ?_
      rw [(hL.1 0 hin).1]
      rcases heff with ⟨_, _, d, hd, _, a', h1, h2, _⟩ | ⟨h, _⟩ | ⟨h, _⟩
      · refine ⟨a', h1, ?_⟩
        rw [h2, exLegal_unique hd hex]; simp
      · exact (h (by rw [hm]; rfl)).elim
      · exact (h (by rw [hm]; rfl)).elim
  · intro S₂ S₃ n hmay hL
    have hS : S₂.live = S₁.live := by
      cases hmay with
      | exec _ _ _ hret => cases hret
      | execThrow _ _ heff => cases heff.1
      | execStop _ _ hst =>
        rcases hst with ⟨⟨_, _, _, h⟩, _⟩ | ⟨_, _, a', d, h1, h2, h3⟩
        · rw [hm] at h; exact (h rfl).elim
        · have : d = [3] := exLegal_unique ((exLegal_total d _).1 h2) hex
          rw [ha] at h1; cases h1
          rw [he, this] at h3
          exact h3
    refine ⟨trivial, fun S₄ S₅ b n' hmay' hL' => ?_⟩
    cases hmay'
    have h3 : S₃.live 0 = some a := by rw [(hL.1 0 hin).1, hS]; exact ha
    have hin' : InScope S₃ 0 := inScope_iff.2 (.inl (by rw [h3]; simp))
    refine fin ⟨a, ?_, by rw [he]; simp⟩
    rw [(hL'.1 0 hin').1]; exact h3

/-- **C86.** Memory is lost without any function throwing: when the construction of a new element throws in `a = a[slice(0, 3)]`, the block allocated for the
new elements is never freed, although every array has been destroyed. -/
theorem C86_lost : ∃ (T : Nat → Bool) (W' : BWorld Nat) (r : Option (List Nat)), LegalAny false (MayFail T exBlocks) noArrays exTry ∧
    BWorld.main Arith.exact true false T exBlocks exTry = .ok (W', r) ∧ W'.pool.blocks.length = 1 ∧ ∀ q, W'.pool.mem q = none := by
  refine ⟨fun t => t == 9, ?_⟩
  have hl : LegalAny false (MayFail (fun t => t == 9) exBlocks) noArrays exTry := legalAny_less (fun _ => trivial) _ (exTry_legal false)
  rcases C86_main hl true exBlocks_good with ⟨W', r, S', n, h1, _, _, h4, _⟩ | ⟨h0, _⟩
  · refine ⟨W', r, hl, h1, ?_, h4⟩
    have : (BWorld.main Arith.exact true false (fun t => t == 9) exBlocks exTry).map (fun r => r.1.pool.blocks.length) = .ok 1 := by decide +kernel
    rw [h1] at this
    exact Except.ok.inj this
  · cases h0

theorem ex_began : BWorld.empty (α := Nat).scopes ≠ [] := by simp [BWorld.empty]

/-- A program without assignments to whole arrays: `auto a = {1, 2, 3}; overlap(a) = a; throw`. -/
def exPure : Body Nat Unit :=
  .exec (.calm (.old (.makeFrom 0 [1, 2, 3, 4, 5, 6] [6]))) (.exec (.calm (.old (.overlapWhole 0 (.arr 0 [.slice 0 3])))) .throw)

theorem exPure_legal (nx : Bool) : LegalAny nx True noArrays exPure := by
  refine ⟨exSix_legal, ?_⟩
  rintro S₁ ⟨_, hm, _, a, ha, he, _⟩
  exact ⟨⟨.inl ⟨a, [3], ha, by rw [he]; rfl, ⟨a, _, ha, by rw [he]; exact ex_chain_three, rfl⟩⟩, fun h => h⟩, fun _ _ => trivial⟩

theorem exPure_noSet : NoSet exPure :=
  ⟨(fun _ _ h => by cases h), (fun _ _ h => by cases h), (fun _ _ h => by cases h), (fun _ _ h => by cases h), trivial⟩

example (T : Nat → Bool) (nx : Bool) := C86_run (T := T) (legalAny_less (fun _ => trivial) _ (exTry_legal nx)) bholds_empty ex_began true exBlocks_good
example (T : Nat → Bool) (nx : Bool) := C86_main (T := T) (legalAny_less (fun _ => trivial) _ (exTry_legal nx)) true exBlocks_good
example (T : Nat → Bool) (nx : Bool) := C86_no_leak (T := T) (legalAny_less (fun _ => trivial) _ (exPure_legal nx)) exPure_noSet true exBlocks_good
example (T : Nat → Bool) (nx : Bool) := C86_safe (exTry_legal nx) exBlocks_good T true
example (cap : Nat) (T : Nat → Bool) (nx : Bool) := C86_safe (exTry_legal nx) (exSmall_good cap) T true
example := C86_quiet (W := BWorld.empty) (T := fun _ => false) (ex_lost_legal_body true exTen) bholds_empty ex_began true exBlocks_good (fun _ => rfl) (by simp [exBlocks])
example := C86_same (W := BWorld.empty) (W₂ := SWorld.empty) (T := fun _ => false) (ex_lost_legal_body true exTen) bholds_empty ex_began true exBlocks_good
  (fun _ => rfl) (by simp [exBlocks]) mholds_empty ex_started false goodAlloc_exists.choose_spec

/-- The first statement, interrupted by the construction of the fourth element. -/
example : ∃ W', BWorld.step Arith.exact true false (fun t => t == 4) exBlocks BWorld.empty (.calm (.old (.makeFrom 0 [1, 2, 3, 4, 5, 6] [6]))) = .ok (W', true) ∧
    BHolds W' noArrays [] := by
  have h : (BWorld.step Arith.exact true false (fun t => t == 4) exBlocks BWorld.empty (.calm (.old (.makeFrom 0 [1, 2, 3, 4, 5, 6] [6])))).map Prod.snd =
      .ok true := by decide +kernel
  cases hr : BWorld.step Arith.exact true false (fun t => t == 4) exBlocks BWorld.empty (.calm (.old (.makeFrom 0 [1, 2, 3, 4, 5, 6] [6]))) with
  | error e => rw [hr] at h; cases h
  | ok r =>
    obtain ⟨W', t⟩ := r
    rw [hr] at h
    cases h
    obtain ⟨lost', h1, _, h3⟩ := C86_strong exSix_legal (.inl (by simp [XStmt.declares, Stmt.declares])) bholds_empty ex_began true exBlocks_good hr
    have : lost' = [] := List.length_eq_zero_iff.1 (h3 (by
      rintro ⟨x, d, ⟨e, h, _⟩ | ⟨e, h, _⟩, _⟩ <;> cases h))
    subst this
    exact ⟨W', rfl, h1⟩

/-- The first statement is interrupted. -/
theorem exPure_stops : May false True noArrays exPure noArrays .thrown 0 :=
  .execStop exSix_legal trivial (.inr ⟨(by rintro ⟨_, _, h | h, _⟩ <;> cases h), rfl, rfl⟩) (.inl rfl)

example : (0 : Nat) = 0 := C86_no_loss exPure_stops exPure_noSet

end Jules.Props

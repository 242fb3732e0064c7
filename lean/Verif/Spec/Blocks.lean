import Verif.Spec.Scopes
import Verif.Model.Blocks
/-
Specification of programs in which everything may throw: array values and names only (`May`), and what a state of the storage means (`BHolds`).
From the model only the syntax (`XStmt`, `Body`) and the state (`BWorld`) are used.
-/
namespace Jules.Spec

/-! ### Statements interrupted by an exception that does not come from the values -/

/-- The elements of the view `x[h]…` are visited in order, as described by `out`; at one of them an exception is thrown before it is changed (unless one
has been thrown before). -/
def Stopped (A : AStore α) (x : Nat) (h : List Ix) (out : List Nat → AtElt α) (A' : AStore α) : Prop :=
  ∃ a v i, A x = some a ∧ imeaning a.ext h = .view v ∧ InB v.ext i ∧ WritesUntil A x h (fun j => if j = i then ⟨none, true⟩ else out j) A' true

/-- The elements of the view that come before some point have been given the value `y`; nothing else has changed. -/
def FilledUntil (A : AStore α) (x : Nat) (h : List Ix) (y : Option α) (A' : AStore α) : Prop :=
  (∀ z, z ≠ x → A' z = A z) ∧ ∃ a a' v n, A x = some a ∧ A' x = some a' ∧ imeaning a.ext h = .view v ∧ a'.ext = a.ext ∧ n < prod v.ext ∧
    (∀ i, InB v.ext i → cmSum v.ext i < n → y = some (a'.elt (v.src i))) ∧
    ∀ j, InB a.ext j → (∀ i, InB v.ext i → cmSum v.ext i < n → v.src i ≠ j) → a'.elt j = a.elt j

/-- The arrays after a statement has been interrupted. Declarations, `overlap(x) = e` and assignments that change the size have no effect; the others
stop at some element. -/
def FStops (A : AStore α) (s : FStmt α) (A' : AStore α) : Prop :=
  match s with
  | .plain _ => False
  | .make _ _ | .makeFrom _ _ _ | .overlapWhole _ _ => A' = A
  | .assign x h e => Stopped A x h (fun i => evaluated (fexVal A e i)) A'
  | .inPlace x h op e => Stopped A x h (fun i => updated ((old A x h i).bind fun u => (fexVal A e i).map (op u))) A'
  | .inPlaceScalar x h op s => Stopped A x h (fun i => updated ((old A x h i).bind fun u => (scVal A s).map (op u))) A'
  | .apply x h f => Stopped A x h (fun i => updated ((old A x h i).map f)) A'
  | .overlap x h e => A' = A ∨ Stopped A x h (fun i => evaluated (fexVal A e i)) A'
  | .set x e => ∃ a d, A x = some a ∧ ExLegal A d (shapeE e) ∧
    if prod a.ext = prod d then ∃ i, InB d i ∧ Halfway A x d (fun j => if j = i then none else fexVal A e j) A' else A' = A

/-- The array a statement without throwing functions replaces, if it has been moved from. -/
def Revives (S : MStore α) (s : Stmt α) : Prop := ∃ x e, (s = .set x e ∨ s = .overlapWhole x e) ∧ S.moved x ≠ none

/-- The arrays after a statement without throwing functions has been interrupted. -/
def MStops (S : MStore α) (s : MStmt α) (S' : MStore α) : Prop :=
  match s with
  | .declare _ _ | .moveMake _ _ | .old (.drop _) | .old (.moveAssign _ _) => False
  | .old (.makeFill _ _ _) => S' = S
  | .old (.fill x h y) => S'.moved = S.moved ∧ FilledUntil S.live x h (scVal S.live y) S'.live
  | .old s => (Revives S s ∧ S' = S) ∨ (¬ Revives S s ∧ S'.moved = S.moved ∧ FStops S.live (totalS s) S'.live)

/-- The arrays after a statement has been interrupted. -/
def XStops (S : MStore α) (s : XStmt α) (S' : MStore α) : Prop :=
  match s with
  | .calm s => MStops S s S'
  | .wild s => S'.moved = S.moved ∧ FStops S.live s S'.live

/-- An assignment to a whole array (possibly moved-from) that changes the number of its elements. -/
def Reallocates (S : MStore α) (s : XStmt α) : Prop :=
  ∃ x d, ((∃ e, s = .wild (.set x e) ∧ ExLegal S.live d (shapeE e)) ∨ ∃ e, s = .calm (.old (.set x e)) ∧ ExLegal S.live d e) ∧
    ((∃ a, S.live x = some a ∧ prod a.ext ≠ prod d) ∨ ∃ d', S.moved x = some d' ∧ prod d' ≠ prod d)

/-- Declarations, `overlap(x) = e` for a whole array, and assignments to whole arrays that change the number of elements. -/
def AllOrNone (S : MStore α) (s : XStmt α) : Prop :=
  s.declares ≠ none ∨ (∃ x e, s = .wild (.overlapWhole x e)) ∨ (∃ x e, s = .calm (.old (.overlapWhole x e))) ∨ Reallocates S s

/-! ### Programs -/

/-- How a program ends. -/
inductive Fate (β : Type) where
  /-- With a result. -/
  | value (b : β)
  /-- By an exception. -/
  | thrown
  /-- `std::terminate`. -/
  | aborted

/-- A result, or an exception (`none`). -/
def fate : Option β → Fate β
  | some b => .value b
  | none => .thrown

/-- The program, started with the arrays `S`, may end with the arrays `S'` as said by `r`, having lost `n` blocks of memory. `Q`: things may throw that do
not have to because of the values. -/
inductive May {α β : Type} (nx : Bool) (Q : Prop) : MStore α → Body α β → MStore α → Fate β → Nat → Prop
  | ret : May nx Q S (.ret b) S (.value b) 0
  | throw : May nx Q S .throw S .thrown 0
  | exec : XLegal S s → ¬ Breaks nx S s → XEffect S s S₁ false → May nx Q S₁ k S' r n → May nx Q S (.exec s k) S' r n
  | execThrow : XLegal S s → ¬ Breaks nx S s → XEffect S s S' true → Loss S s n → May nx Q S (.exec s k) S' .thrown n
  | execStop : XLegal S s → Q → XStops S s S' → n = 0 ∨ n = 1 ∧ Reallocates S s → May nx Q S (.exec s k) S' .thrown n
  | execAbort : XLegal S s → Breaks nx S s → May nx Q S (.exec s k) S .aborted 0
  | read : ScLegal S.live s → scVal S.live s = some v → May nx Q S (k v) S' r n → May nx Q S (.read s k) S' r n
  | readStop : ScLegal S.live s → Q → May nx Q S (.read s k) S .thrown 0
  | elements : FElements S e d xs → May nx Q S (k d xs) S' r n → May nx Q S (.elements e k) S' r n
  | elementsThrow : FThrows S e → May nx Q S (.elements e k) S .thrown 0
  | elementsStop : d ≠ [] → ExLegal S.live d (shapeE e) → Q → May nx Q S (.elements e k) S .thrown 0
  | block : May nx Q S body S₁ (.value b) n → Left (InScope S) S₁ S₂ → May nx Q S₂ (k b) S' r n' → May nx Q S (.block body k) S' r (n + n')
  | blockThrow : May nx Q S body S₁ .thrown n → Left (InScope S) S₁ S' → May nx Q S (.block body k) S' .thrown n
  | blockAbort : May nx Q S body S' .aborted n → May nx Q S (.block body k) S' .aborted n
  | call : May nx Q S body S₁ (.value b) n → Unused S y → MLegal S₁ (.moveMake x y) → MEffect S₁ (.moveMake x y) S₂ →
      Left (fun z => InScope S z ∨ z = x) S₂ S₃ → May nx Q S₃ (k b) S' r n' → May nx Q S (.call x y body k) S' r (n + n')
  | callThrow : May nx Q S body S₁ .thrown n → Left (InScope S) S₁ S' → May nx Q S (.call x y body k) S' .thrown n
  | callAbort : May nx Q S body S' .aborted n → May nx Q S (.call x y body k) S' .aborted n
  | attempt : May nx Q S body S₁ (.value b) n → Left (InScope S) S₁ S₂ → May nx Q S₂ (k b) S' r n' → May nx Q S (.attempt body handler k) S' r (n + n')
  | handled : May nx Q S body S₁ .thrown n → Left (InScope S) S₁ S₂ → May nx Q S₂ handler S₃ (.value b) n' → Left (InScope S₂) S₃ S₄ →
      May nx Q S₄ (k b) S' r n'' → May nx Q S (.attempt body handler k) S' r (n + n' + n'')
  | again : May nx Q S body S₁ .thrown n → Left (InScope S) S₁ S₂ → May nx Q S₂ handler S₃ .thrown n' → Left (InScope S₂) S₃ S' →
      May nx Q S (.attempt body handler k) S' .thrown (n + n')
  | tryAbort : May nx Q S body S' .aborted n → May nx Q S (.attempt body handler k) S' .aborted n
  | handlerAbort : May nx Q S body S₁ .thrown n → Left (InScope S) S₁ S₂ → May nx Q S₂ handler S' .aborted n' →
      May nx Q S (.attempt body handler k) S' .aborted (n + n')

/-- Whatever values come out and whatever throws, the program only executes legal statements and only reads existing elements; a function returns one of its
own arrays. -/
def LegalAny (nx : Bool) (Q : Prop) (S : MStore α) : Body α β → Prop
  | .ret _ => True
  | .throw => True
  | .exec s k => XLegal S s ∧ ∀ S₁, XEffect S s S₁ false → LegalAny nx Q S₁ k
  | .read s k => ScLegal S.live s ∧ ∀ v, scVal S.live s = some v → LegalAny nx Q S (k v)
  | .elements e k => ∃ d, d ≠ [] ∧ ExLegal S.live d (shapeE e) ∧ ∀ xs, FElements S e d xs → LegalAny nx Q S (k d xs)
  | .block body k => LegalAny nx Q S body ∧ ∀ S₁ S₂ b n, May nx Q S body S₁ (.value b) n → Left (InScope S) S₁ S₂ → LegalAny nx Q S₂ (k b)
  | .call x y body k => LegalAny nx Q S body ∧ Unused S y ∧ ∀ S₁ b n, May nx Q S body S₁ (.value b) n → MLegal S₁ (.moveMake x y) ∧
      ∀ S₂ S₃, MEffect S₁ (.moveMake x y) S₂ → Left (fun z => InScope S z ∨ z = x) S₂ S₃ → LegalAny nx Q S₃ (k b)
  | .attempt body handler k => LegalAny nx Q S body ∧
      (∀ S₁ S₂ b n, May nx Q S body S₁ (.value b) n → Left (InScope S) S₁ S₂ → LegalAny nx Q S₂ (k b)) ∧
      ∀ S₁ S₂ n, May nx Q S body S₁ .thrown n → Left (InScope S) S₁ S₂ → LegalAny nx Q S₂ handler ∧
        ∀ S₃ S₄ b n', May nx Q S₂ handler S₃ (.value b) n' → Left (InScope S₂) S₃ S₄ → LegalAny nx Q S₄ (k b)

/-- The program has no assignment to a whole array by `x = …` (`overlap(x) = …` is another matter). -/
def NoSet : Body α β → Prop
  | .ret _ => True
  | .throw => True
  | .exec s k => (∀ x e, s ≠ .wild (.set x e)) ∧ (∀ x e, s ≠ .calm (.old (.set x e))) ∧ NoSet k
  | .read _ k => ∀ v, NoSet (k v)
  | .elements _ k => ∀ d xs, NoSet (k d xs)
  | .block body k => NoSet body ∧ ∀ b, NoSet (k b)
  | .call _ _ body k => NoSet body ∧ ∀ b, NoSet (k b)
  | .attempt body handler k => NoSet body ∧ NoSet handler ∧ ∀ b, NoSet (k b)

/-! ### What a state of the storage means -/

/-- The array `x` owns the block at the address `b`. -/
def OwnsAt (W : BWorld α) (x b : Nat) (d : List Nat) : Prop := W.env x = some ⟨some b, d⟩

/-- The state holds exactly the arrays of `S`, and the blocks at the addresses `lost` have been allocated but belong to no array:
* every array with a value has its extents and its elements, in column-major order, in a block of its own of exactly that size (or it has no elements and
  no block); a moved-from array has no block; the other names are not in scope;
* a block belongs to one array at most; the blocks that belong to none are those in `lost`; blocks do not overlap;
* an element exists only in the block of an array; no element has been lost without having been destroyed. -/
structure BHolds (W : BWorld α) (S : MStore α) (lost : List Nat) : Prop where
  arr : ∀ x a, S.live x = some a → a.ext ≠ [] ∧ ((W.env x = some ⟨none, a.ext⟩ ∧ prod a.ext = 0) ∨
    ∃ b, OwnsAt W x b a.ext ∧ ∀ i, InB a.ext i → W.pool.mem (b + cmSum a.ext i) = some (a.elt i))
  moved : ∀ x d, S.moved x = some d → S.live x = none ∧ d ≠ [] ∧ prod d ≠ 0 ∧ W.env x = some ⟨none, d⟩
  out : ∀ x, Unused S x → W.env x = none
  own : ∀ x b d, OwnsAt W x b d → (b, prod d) ∈ W.pool.blocks
  once : ∀ x y b d d', OwnsAt W x b d → OwnsAt W y b d' → x = y
  bases : (W.pool.blocks.map Prod.fst).Nodup
  apart : ∀ b ∈ W.pool.blocks, ∀ b' ∈ W.pool.blocks, b.1 ≠ b'.1 → b.1 + b.2 ≤ b'.1 ∨ b'.1 + b'.2 ≤ b.1
  only : ∀ q, W.pool.mem q ≠ none → ∃ x b d, OwnsAt W x b d ∧ b ≤ q ∧ q < b + prod d
  nodup : lost.Nodup
  left : ∀ b, b ∈ lost ↔ b ∈ W.pool.blocks.map Prod.fst ∧ ∀ x d, ¬ OwnsAt W x b d
  ruined : W.pool.ruined = 0

/-- When the allocator returns the address of a block, that block does not overlap with the blocks in use and is different from them. -/
def GoodBlocks (alloc : Nat → List (Nat × Nat) → Nat → Option Nat) : Prop :=
  ∀ (k : Nat) (bl : List (Nat × Nat)) (n a : Nat), alloc k bl n = some a → ∀ b ∈ bl, a ≠ b.1 ∧ (a + n ≤ b.1 ∨ b.1 + b.2 ≤ a)

/-- Something may throw that does not have to because of the values: an event of the schedule, or the allocator when it is asked for a block. -/
def MayFail (T : Nat → Bool) (alloc : Nat → List (Nat × Nat) → Nat → Option Nat) : Prop := (∃ t, T t = true) ∨ ∃ k bl n, alloc k bl n = none

end Jules.Spec

import Verif.Spec.SafeBlocks
import Verif.Spec.Whole64
/-
Specification for C88: programs with blocks, calls, exceptions and handlers on a 64-bit machine with a finite memory. From the model only the syntax
(`XStmt`, `Body`), the state (`BWorld`) and, for programs that need not be legal, what statements do.
-/
namespace Jules.Spec

/-- An allocator of a 64-bit machine: a block it returns is free and lies below the address 2^62 (in units of elements). It may refuse as it likes; a request
that does not fit below 2^62 it has to refuse. -/
def GoodBlocks64 (alloc : Nat → List (Nat × Nat) → Nat → Option Nat) : Prop :=
  GoodBlocks alloc ∧ ∀ k bl n a, alloc k bl n = some a → a + n < maxElems

/-- The arrays have at most 2^62 elements each (on a 64-bit machine they have). -/
def Held (E : Exts) : Prop := ∀ x e, E x = some e → prod e ≤ maxElems

/-- The number of elements promised by the extents written in the statement. -/
def written : Stmt α → Nat
  | .makeFill _ _ ext => prod ext
  | .makeFrom _ _ ext => prod ext
  | _ => 0

/-- 64 bits are enough for the numbers in the statement: its index expressions fit, and the extents written in it promise at most 2^62 elements. Nothing is
said about the memory that is available. -/
def XFits (E : Exts) (s : XStmt α) : Prop := Held E → ∀ t, erase s = some (.old t) → IxsFit E t ∧ written t ≤ maxElems

/-- The same for a legal program, whatever values come out and whatever throws. -/
def FitsAny (nx : Bool) (Q : Prop) (S : MStore α) : Body α β → Prop
  | .ret _ => True
  | .throw => True
  | .exec s k => XFits S.live.exts s ∧ ∀ S₁, XEffect S s S₁ false → FitsAny nx Q S₁ k
  | .read s k => (Held S.live.exts → ScFits S.live.exts s) ∧ ∀ v, scVal S.live s = some v → FitsAny nx Q S (k v)
  | .elements e k => (Held S.live.exts → ExFits S.live.exts (shapeE e)) ∧ ∀ d xs, FElements S e d xs → FitsAny nx Q S (k d xs)
  | .block body k => FitsAny nx Q S body ∧ ∀ S₁ S₂ b n, May nx Q S body S₁ (.value b) n → Left (InScope S) S₁ S₂ → FitsAny nx Q S₂ (k b)
  | .call x y body k => FitsAny nx Q S body ∧ ∀ S₁ S₂ S₃ b n, May nx Q S body S₁ (.value b) n → MEffect S₁ (.moveMake x y) S₂ →
      Left (fun z => InScope S z ∨ z = x) S₂ S₃ → FitsAny nx Q S₃ (k b)
  | .attempt body handler k => FitsAny nx Q S body ∧
      (∀ S₁ S₂ b n, May nx Q S body S₁ (.value b) n → Left (InScope S) S₁ S₂ → FitsAny nx Q S₂ (k b)) ∧
      ∀ S₁ S₂ n, May nx Q S body S₁ .thrown n → Left (InScope S) S₁ S₂ → FitsAny nx Q S₂ handler ∧
        ∀ S₃ S₄ b n', May nx Q S₂ handler S₃ (.value b) n' → Left (InScope S₂) S₃ S₄ → FitsAny nx Q S₄ (k b)

/-- Every array lies below the address 2^62, and no extents, not even those of moved-from arrays, promise more than 2^62 elements. -/
def BelowB (W : BWorld α) : Prop := ∀ x o, W.env x = some o → o.ext ≠ [] ∧ (∀ n ∈ o.ext, n ≤ maxElems) ∧ prod o.ext ≤ maxElems ∧
  ∀ b, o.ptr = some b → b + prod o.ext < maxElems

/-- When the program runs from the state `W`, `P` holds for each statement that is executed, `R` for each element that is read and `F` for each expression
whose elements are read, in the states in which this happens. -/
def Along (A : Arith) (chk nx : Bool) (T : Nat → Bool) (alloc : Nat → List (Nat × Nat) → Nat → Option Nat) (P : BWorld α → XStmt α → Prop)
    (R : BWorld α → Sc α → Prop) (F : BWorld α → FEx α → Prop) (W : BWorld α) : Body α β → Prop
  | .ret _ => True
  | .throw => True
  | .exec s k => P W s ∧ ∀ W', W.step A chk nx T alloc s = .ok (W', false) → Along A chk nx T alloc P R F W' k
  | .read s k => R W s ∧ ∀ c v p, s.eval A chk (W.flat A) = .ok c → scalarB T c W.pool = .ok v p → Along A chk nx T alloc P R F { W with pool := p } (k v)
  | .elements e k => F W e ∧ ∀ src xs p, e.eval A chk (W.flat A) = .ok src → elementsB T src W.pool = .ok xs p →
      Along A chk nx T alloc P R F { W with pool := p } (k src.dims xs)
  | .block body k => Along A chk nx T alloc P R F W.enter body ∧ ∀ W₁ W₂ b, W.enter.exec A chk nx T alloc body = .ok (W₁, some b) →
      W₁.leave A chk nx T alloc = .ok W₂ → Along A chk nx T alloc P R F W₂ (k b)
  | .call x y body k => Along A chk nx T alloc P R F W.enter body ∧ ∀ W₁ W₂ W₃ b, W.enter.exec A chk nx T alloc body = .ok (W₁, some b) →
      W₁.give A chk nx T alloc x y = .ok W₂ → W₂.leave A chk nx T alloc = .ok W₃ → Along A chk nx T alloc P R F (W₃.declare (some x)) (k b)
  | .attempt body handler k => Along A chk nx T alloc P R F W.enter body ∧
      (∀ W₁ W₂ b, W.enter.exec A chk nx T alloc body = .ok (W₁, some b) → W₁.leave A chk nx T alloc = .ok W₂ → Along A chk nx T alloc P R F W₂ (k b)) ∧
      ∀ W₁ W₂, W.enter.exec A chk nx T alloc body = .ok (W₁, none) → W₁.leave A chk nx T alloc = .ok W₂ →
        Along A chk nx T alloc P R F W₂.enter handler ∧ ∀ W₃ W₄ b, W₂.enter.exec A chk nx T alloc handler = .ok (W₃, some b) →
          W₃.leave A chk nx T alloc = .ok W₄ → Along A chk nx T alloc P R F W₄ (k b)

/-- The extents of the arrays whose elements can be used. -/
def blockExts (W : BWorld α) : Exts := worldExts (W.flat Arith.exact)

/-- 64 bits are enough for each statement that is executed when the program runs in a checked build from the state `W`. -/
def FitsRunB (nx : Bool) (T : Nat → Bool) (alloc : Nat → List (Nat × Nat) → Nat → Option Nat) (W : BWorld α) (p : Body α β) : Prop :=
  Along Arith.u64 true nx T alloc (fun W s => XFits (blockExts W) s) (fun W s => Held (blockExts W) → ScFits (blockExts W) s)
    (fun W e => Held (blockExts W) → ExFits (blockExts W) (shapeE e)) W p

/-! ### Programs for which 64 bits are always enough -/

/-- An index expression that fits whatever the extents are: its bounds are 64-bit numbers, it is no list of indices (which may repeat indices, so that a view
has more elements than the array), and its stride is one if it may select a single index. -/
def ModestIx : Ix → Prop
  | .slice s x => s + x < 2 ^ 64
  | .strided s x t => 0 < t ∧ (0 < x → s + (x - 1) * t < 2 ^ 64) ∧ (x = 1 → t = 1)
  | .bounded s _ => s < 2 ^ 64
  | .boundedStrided s _ t => s < 2 ^ 64 ∧ t = 1
  | .rng _ => False
  | _ => True

def ModestChain (h : List Ix) : Prop := ∀ ix ∈ h, ModestIx ix

def ModestSc : Sc α → Prop
  | .const _ => True
  | .elem _ h => ModestChain h

def ModestEx : PEx α → Prop
  | .arr _ h => ModestChain h
  | .un _ e => ModestEx e
  | .bin _ a b => ModestEx a ∧ ModestEx b
  | .scl _ s e => ModestSc s ∧ ModestEx e
  | .scr _ e s => ModestEx e ∧ ModestSc s

def ModestStmt : Stmt α → Prop
  | .make _ e => ModestEx e
  | .makeFill _ s ext => ModestSc s ∧ (∀ n ∈ ext, n ≤ maxElems) ∧ prod ext ≤ maxElems
  | .makeFrom _ _ ext => (∀ n ∈ ext, n ≤ maxElems) ∧ prod ext ≤ maxElems
  | .drop _ => True
  | .fill _ h s => ModestChain h ∧ ModestSc s
  | .assign _ h e => ModestChain h ∧ ModestEx e
  | .inPlace _ h _ e => ModestChain h ∧ ModestEx e
  | .inPlaceScalar _ h _ s => ModestChain h ∧ ModestSc s
  | .apply _ h _ => ModestChain h
  | .overlap _ h e => ModestChain h ∧ ModestEx e
  | .overlapWhole _ e => ModestEx e
  | .set _ e => ModestEx e
  | .moveAssign _ _ => True

/-- All index expressions and extents in the program are modest, whatever values come out. This says nothing about the states in which they are used. -/
def Modest : Body α β → Prop
  | .ret _ => True
  | .throw => True
  | .exec s k => (∀ t, erase s = some (.old t) → ModestStmt t) ∧ Modest k
  | .read s k => ModestSc s ∧ ∀ v, Modest (k v)
  | .elements e k => ModestEx (shapeE e) ∧ ∀ d xs, Modest (k d xs)
  | .block body k => Modest body ∧ ∀ b, Modest (k b)
  | .call _ _ body k => Modest body ∧ ∀ b, Modest (k b)
  | .attempt body handler k => Modest body ∧ Modest handler ∧ ∀ b, Modest (k b)

end Jules.Spec

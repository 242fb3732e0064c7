import Verif.Spec.Scopes
import Verif.Props.Fallible
import Verif.Props.Adaptive
/-
Lemmas for C85: which names are in scope; leaving a block.
-/
namespace Jules.Props
open Jules Spec

section
variable {α β : Type} {W : MWorld α} {S S' : MStore α}

theorem inScope_iff {x : Nat} : InScope S x ↔ S.live x ≠ none ∨ S.moved x ≠ none := by
  unfold InScope Unused
  constructor
  · intro h
    by_cases hl : S.live x = none
    · exact .inr fun hm => h ⟨hl, hm⟩
    · exact .inl hl
  · rintro (h | h) ⟨h1, h2⟩
    · exact h h1
    · exact h h2

theorem inScope_order {x : Nat} (h : InScope S x) : ∃ n, HasOrder S x n := by
  rcases inScope_iff.1 h with h | h
  · obtain ⟨a, ha⟩ := Option.ne_none_iff_exists'.1 h
    exact ⟨_, .inl ⟨a, ha, rfl⟩⟩
  · obtain ⟨d, hd⟩ := Option.ne_none_iff_exists'.1 h
    exact ⟨_, .inr ⟨d, hd, rfl⟩⟩

theorem order_inScope {x n : Nat} (h : HasOrder S x n) : InScope S x := by
  rcases h with ⟨a, ha, _⟩ | ⟨d, hd, _⟩
  · exact inScope_iff.2 (.inl (by rw [ha]; simp))
  · exact inScope_iff.2 (.inr (by rw [hd]; simp))

theorem inScope_same {x : Nat} (h1 : S'.live x = S.live x) (h2 : S'.moved x = S.moved x) : InScope S' x ↔ InScope S x := by
  rw [inScope_iff, inScope_iff, h1, h2]

/-- A statement that only changes the live array `x`. -/
theorem names_writes {x : Nat} (hm : S'.moved = S.moved) (ho : ∀ z, z ≠ x → S'.live z = S.live z) (h1 : S.live x ≠ none) (h2 : S'.live x ≠ none) (z : Nat) :
    InScope S' z ↔ InScope S z := by
  by_cases hz : z = x
  · subst hz
    exact ⟨fun _ => inScope_iff.2 (.inl h1), fun _ => inScope_iff.2 (.inl h2)⟩
  · exact inScope_same (ho z hz) (by rw [hm])

/-- A declaration of `x`. -/
theorem names_declare {x : Nat} (hm : S'.moved = S.moved) (ho : ∀ z, z ≠ x → S'.live z = S.live z) (h2 : S'.live x ≠ none) (z : Nat) :
    InScope S' z ↔ InScope S z ∨ some x = some z := by
  by_cases hz : z = x
  · subst hz
    exact ⟨fun _ => .inr rfl, fun _ => inScope_iff.2 (.inl h2)⟩
  · rw [inScope_same (ho z hz) (by rw [hm])]
    exact ⟨.inl, fun h => h.elim id fun h => (hz (Option.some.inj h).symm).elim⟩

theorem becomes_ne {A A' : AStore α} {x : Nat} {d : List Nat} {f : List Nat → Option α} (h : Becomes A x d f A') : A' x ≠ none := by
  obtain ⟨_, a', h, _⟩ := h
  rw [h]; simp

theorem writes_ne {A A' : AStore α} {x : Nat} {l : List Ix} {f : List Nat → Option α} (h : Writes A x l f A') : A x ≠ none ∧ A' x ≠ none := by
  obtain ⟨_, a, a', v, h1, h2, _⟩ := h
  rw [h1, h2]; simp

/-- Which names are in scope after a statement whose functions do not throw. -/
theorem mnames {s : MStmt α} (hs : MLegal S s) (hd : ¬ IsDrop s) (he : MEffect S s S') :
    (∀ z, InScope S' z ↔ InScope S z ∨ (XStmt.calm s).declares = some z) ∧ ∀ z, (XStmt.calm s).declares = some z → Unused S z := by
  have nodecl : (XStmt.calm s).declares = none → (∀ z, InScope S' z ↔ InScope S z) →
      (∀ z, InScope S' z ↔ InScope S z ∨ (XStmt.calm s).declares = some z) ∧ ∀ z, (XStmt.calm s).declares = some z → Unused S z := by
    intro h h'
    rw [h]
    exact ⟨fun z => by rw [h' z]; simp, fun z hz => by cases hz⟩
  have writes : ∀ {x : Nat} {l : List Ix} {f : List Nat → Option α}, S'.moved = S.moved → Writes S.live x l f S'.live → ∀ z, InScope S' z ↔ InScope S z :=
    fun hm hw => names_writes hm hw.1 (writes_ne hw).1 (writes_ne hw).2
  cases s with
  | declare x n =>
    refine ⟨names_declare he.1 he.2.1 (becomes_ne he.2), fun z hz => ?_⟩
    cases hz; exact hs.1
  | moveMake x y =>
    obtain ⟨hx, n, hn⟩ := hs
    obtain ⟨e1, e2, e3, e4⟩ := he
    have hy := order_inScope hn
    have hxy : x ≠ y := fun h => hy (h ▸ hx)
    refine ⟨fun z => ?_, fun z hz => by cases hz; exact hx⟩
    show InScope S' z ↔ InScope S z ∨ some x = some z
    by_cases hzx : z = x
    · subst hzx
      refine ⟨fun _ => .inr rfl, fun _ => ?_⟩
      rw [inScope_iff, e2, e3]; exact inScope_iff.1 hy
    · by_cases hzy : z = y
      · subst hzy
        refine ⟨fun _ => .inl hy, fun _ => inScope_iff.2 ?_⟩
        rcases e4 with ⟨d, _, q, _⟩ | ⟨a, _, q⟩
        · exact .inr (by rw [q]; simp)
        · split at q
          · exact .inl (by rw [q.1]; simp)
          · exact .inr (by rw [q.2]; simp)
      · have := e1 z (by simp [hzx, hzy])
        rw [inScope_same this.1 this.2]
        exact ⟨.inl, fun h => h.elim id fun h => (hzx (Option.some.inj h).symm).elim⟩
  | old s =>
    cases s with
    | make x e =>
      obtain ⟨hm, hl, _⟩ := hs
      obtain ⟨e1, d, _, e2⟩ := he
      exact ⟨names_declare e1 e2.1 (becomes_ne e2), fun z hz => by cases hz; exact ⟨hl, hm⟩⟩
    | makeFill x s ext =>
      obtain ⟨hm, hl, _⟩ := hs
      obtain ⟨e1, e2⟩ := he
      exact ⟨names_declare e1 e2.1 (becomes_ne e2), fun z hz => by cases hz; exact ⟨hl, hm⟩⟩
    | makeFrom x l ext =>
      obtain ⟨hm, hl, _⟩ := hs
      obtain ⟨e1, e2⟩ := he
      exact ⟨names_declare e1 e2.1 (becomes_ne e2), fun z hz => by cases hz; exact ⟨hl, hm⟩⟩
    | drop x => exact (hd trivial).elim
    | fill x h s => exact nodecl rfl (writes he.1 he.2)
    | assign x h e => exact nodecl rfl (writes he.1 he.2)
    | inPlace x h op e => exact nodecl rfl (writes he.1 he.2)
    | inPlaceScalar x h op s => exact nodecl rfl (writes he.1 he.2)
    | apply x h f => exact nodecl rfl (writes he.1 he.2)
    | overlap x h e => exact nodecl rfl (writes he.1 he.2)
    | overlapWhole x e =>
      obtain ⟨e1, e2, d, _, e3⟩ := he
      refine nodecl rfl fun z => ?_
      by_cases hz : z = x
      · subst hz
        refine ⟨fun _ => ?_, fun _ => inScope_iff.2 (.inl (becomes_ne e3))⟩
        rcases hs with ⟨a, d', ha, _⟩ | ⟨d, d', hd, _⟩
        · exact inScope_iff.2 (.inl (by rw [ha]; simp))
        · exact inScope_iff.2 (.inr (by rw [hd]; simp))
      · have := e1 z (by simpa using hz)
        exact inScope_same this.1 this.2
    | set x e =>
      refine nodecl rfl fun z => ?_
      rcases he with ⟨e1, e2, d, _, e3⟩ | ⟨e1, _, e2, e3⟩ | ⟨e1, _, e2, e3, d, _, e4⟩
      · have hx : S.live x ≠ none := by
          rcases hs with ⟨a, d', ha, _⟩ | ⟨d, hd, _⟩
          · rw [ha]; simp
          · rw [e1] at hd; cases hd
        exact names_writes e2 e3.1 hx (becomes_ne e3) z
      · exact inScope_same (by rw [e3]) (by rw [e2])
      · by_cases hz : z = x
        · subst hz
          exact ⟨fun _ => inScope_iff.2 (.inr e1), fun _ => inScope_iff.2 (.inl (becomes_ne e4))⟩
        · have := e2 z (by simpa using hz)
          exact inScope_same this.1 this.2
    | moveAssign x y =>
      obtain ⟨hxy, n, h1, h2⟩ := hs
      obtain ⟨e1, e2, e3, e4, e5⟩ := he
      refine nodecl rfl fun z => ?_
      by_cases hzx : z = x
      · subst hzx
        refine ⟨fun _ => order_inScope h1, fun _ => ?_⟩
        rw [inScope_iff, e2, e4]; exact inScope_iff.1 (order_inScope h2)
      · by_cases hzy : z = y
        · subst hzy
          refine ⟨fun _ => order_inScope h2, fun _ => ?_⟩
          rw [inScope_iff, e3, e5]; exact inScope_iff.1 (order_inScope h1)
        · have := e1 z (by simp [hzx, hzy])
          exact inScope_same this.1 this.2

/-- Which names are in scope after a statement whose functions may throw. -/
theorem fnames {s : FStmt α} {x : Nat} (hx : target s = some x) (hmx : S.moved x = none) (hs : FLegal S.live s) {t : Bool} (hm : S'.moved = S.moved)
    (he : FEffect S.live s S'.live t) :
    (∀ z, InScope S' z ↔ InScope S z ∨ (t = false ∧ s.declares = some z)) ∧ ∀ z, s.declares = some z → Unused S z := by
  have ho := effect_target hx he
  have decl : s.declares = some x → S.live x = none → (t = false → S'.live x ≠ none) → (t = true → S'.live = S.live) →
      (∀ z, InScope S' z ↔ InScope S z ∨ (t = false ∧ s.declares = some z)) ∧ ∀ z, s.declares = some z → Unused S z := by
    intro h1 h2 h3 h4
    rw [h1]
    refine ⟨fun z => ?_, fun z hz => by cases hz; exact ⟨h2, hmx⟩⟩
    cases t with
    | false => rw [names_declare hm ho (h3 rfl)]; simp
    | true => simpa using inScope_same (x := z) (by rw [h4 rfl]) (by rw [hm])
  have nodecl : s.declares = none → S.live x ≠ none → S'.live x ≠ none →
      (∀ z, InScope S' z ↔ InScope S z ∨ (t = false ∧ s.declares = some z)) ∧ ∀ z, s.declares = some z → Unused S z := by
    intro h1 h2 h3
    rw [h1]
    exact ⟨fun z => by rw [names_writes hm ho h2 h3 z]; simp, fun z hz => by cases hz⟩
  have until_ne : ∀ {h : List Ix} {out : List Nat → AtElt α}, WritesUntil S.live x h out S'.live t → S.live x ≠ none ∧ S'.live x ≠ none := by
    rintro h out ⟨_, a, a', v, h1, h2, _⟩
    rw [h1, h2]; simp
  have aon : ∀ {d : List Nat} {f : List Nat → Option α} {P : Prop}, AllOrNothing S.live d f S'.live t P → (t = false → P) ∧ (t = true → S'.live = S.live) := by
    rintro d f P (⟨h1, _, h2⟩ | ⟨h1, _, h2⟩)
    · exact ⟨fun _ => h2, fun h => by simp [h] at h1⟩
    · exact ⟨fun h => by simp [h] at h1, fun _ => h2⟩
  cases s <;> simp only [target, Option.some.injEq, reduceCtorEq] at hx <;> subst hx
  case make =>
    obtain ⟨d, _, he⟩ := he
    exact decl rfl hs.1 (fun h => becomes_ne ((aon he).1 h)) (aon he).2
  case makeFrom => exact decl rfl hs.1 (fun h => becomes_ne ((aon he).1 h)) (aon he).2
  case assign => exact nodecl rfl (until_ne he).1 (until_ne he).2
  case inPlace => exact nodecl rfl (until_ne he).1 (until_ne he).2
  case inPlaceScalar => exact nodecl rfl (until_ne he).1 (until_ne he).2
  case apply => exact nodecl rfl (until_ne he).1 (until_ne he).2
  case overlap x _ _ =>
    obtain ⟨a, v, ha, _, he⟩ := he
    have h1 : S.live x ≠ none := by rw [ha]; simp
    refine nodecl rfl h1 ?_
    cases t with
    | false => exact (writes_ne ((aon he).1 rfl)).2
    | true => rw [(aon he).2 rfl]; exact h1
  case overlapWhole x _ =>
    obtain ⟨a, d', ha, _⟩ := hs
    obtain ⟨d, _, he⟩ := he
    have h1 : S.live x ≠ none := by rw [ha]; simp
    refine nodecl rfl h1 ?_
    cases t with
    | false => exact becomes_ne ((aon he).1 rfl)
    | true => rw [(aon he).2 rfl]; exact h1
  case set x _ =>
    obtain ⟨a, d, ha, _, he⟩ := he
    have h1 : S.live x ≠ none := by rw [ha]; simp
    refine nodecl rfl h1 ?_
    split at he
    · rcases he with ⟨_, _, he⟩ | ⟨_, _, _, a1, a2, _, h, _⟩
      · exact becomes_ne he
      · rw [h]; simp
    · cases t with
      | false => exact becomes_ne ((aon he).1 rfl)
      | true => rw [(aon he).2 rfl]; exact h1

theorem fex_uses : ∀ (e : FEx α), e.uses = (shapeE e).uses
  | .arr _ _ => rfl
  | .un _ e => fex_uses e
  | .bin _ a b => by simp only [FEx.uses, shapeE, PEx.uses, fex_uses a, fex_uses b]
  | .scl _ _ e => by simp only [FEx.uses, shapeE, PEx.uses, fex_uses e]
  | .scr _ e _ => by simp only [FEx.uses, shapeE, PEx.uses, fex_uses e]

theorem fex_live {A : AStore α} {d : List Nat} {e : FEx α} (h : ExLegal A d (shapeE e)) : ∀ x ∈ e.uses, A x ≠ none := by
  rw [fex_uses]; exact ex_live h

theorem fuses_live {s : FStmt α} {x : Nat} (hx : target s = some x) {A : AStore α} (hs : FLegal A s) : ∀ z ∈ s.uses, A z ≠ none := by
  have cons : ∀ {x : Nat} {a : AVal α} {l : List Nat}, A x = some a → (∀ z ∈ l, A z ≠ none) → ∀ z ∈ x :: l, A z ≠ none := by
    intro x a l ha hl z hz
    rcases List.mem_cons.1 hz with rfl | hz
    · rw [ha]; simp
    · exact hl z hz
  cases s <;> simp only [target, Option.some.injEq, reduceCtorEq] at hx <;> subst hx
  case make => obtain ⟨_, d, _, h⟩ := hs; exact fex_live h
  case makeFrom => intro z hz; cases hz
  case assign => obtain ⟨_, a, v, ha, _, _, _, h, _⟩ := hs; exact cons ha (fex_live h)
  case inPlace => obtain ⟨a, v, ha, _, _, _, h, _⟩ := hs; exact cons ha (fex_live h)
  case inPlaceScalar => obtain ⟨h, a, v, ha, _⟩ := hs; exact cons ha (sc_live h)
  case apply => obtain ⟨a, v, ha, _⟩ := hs; exact cons ha (by simp)
  case overlap => obtain ⟨_, a, v, ha, _, _, _, h⟩ := hs; exact cons ha (fex_live h)
  case overlapWhole => obtain ⟨a, d, ha, _, h⟩ := hs; exact cons ha (fex_live h)
  case set => obtain ⟨a, d, ha, _, h, _⟩ := hs; exact cons ha (fex_live h)

/-- The elements of an expression. -/
theorem felements_ok (H : MHolds W S) {e : FEx α} {d : List Nat} {xs : List α} (hx : FElements S e d xs) (chk : Bool) :
    W.anyGone e.uses = false ∧ ∃ src, e.eval Arith.exact chk W.w = .ok src ∧ src.dims = d ∧ src.elements W.w.mem = .ok (some xs) := by
  obtain ⟨hd, he, hlen, hv⟩ := hx
  obtain ⟨src, h1, hg⟩ := fex_ok H.store hd chk he
  refine ⟨not_gone H (fex_live he), src, h1, hg.dims, ?_⟩
  obtain ⟨ys, g1, g2, g3⟩ := (gets_all hg).1 fun i hi hn => by
    obtain ⟨v, h, _⟩ := hv i hi; rw [hn] at h; cases h
  have : ys = xs := by
    refine List.ext_getElem? fun k => ?_
    by_cases hk : k < prod d
    · obtain ⟨i, hi, rfl, _⟩ := rank_exists hk
      obtain ⟨v, h1, h2⟩ := hv i hi
      rw [g2 i hi, h1, h2]
    · rw [List.getElem?_eq_none (by omega), List.getElem?_eq_none (by omega)]
  simp only [FSrc.elements, hg.count, g3, this]

theorem felements_throw (H : MHolds W S) {e : FEx α} (hx : FThrows S e) (chk : Bool) :
    W.anyGone e.uses = false ∧ ∃ src, e.eval Arith.exact chk W.w = .ok src ∧ src.elements W.w.mem = .ok none := by
  obtain ⟨d, hd, he, hex⟩ := hx
  obtain ⟨src, h1, hg⟩ := fex_ok H.store hd chk he
  refine ⟨not_gone H (fex_live he), src, h1, ?_⟩
  simp only [FSrc.elements, hg.count, (gets_all hg).2 hex]

theorem goodAlloc_any : ∃ alloc : Nat → Mem α → Nat → Nat, GoodAlloc alloc := by
  classical
  refine ⟨fun _ m _ => if h : ∃ B, ∀ q, B ≤ q → m q = none then h.choose else 0, ?_⟩
  intro k m n h i _
  simp only [dif_pos h]
  exact h.choose_spec _ (by omega)

/-! ### Leaving a block -/

theorem drop_ok (H : MHolds W S) {x : Nat} (hx : InScope S x) (chk : Bool) {alloc : Nat → Mem α → Nat → Nat} (hal : GoodAlloc alloc) :
    ∃ W', W.step Arith.exact chk alloc (.old (.drop x)) = .ok W' ∧
      MHolds W' ⟨fun z => if z = x then none else S.live z, fun z => if z = x then none else S.moved z⟩ := by
  obtain ⟨W', h1, h2⟩ := mstep_ok H (s := .old (.drop x)) (inScope_order hx) chk hal
  refine ⟨W', h1, h2 _ ⟨fun z hz => ?_, by simp [Unused]⟩⟩
  have : z ≠ x := by simpa using hz
  simp [this]

/-- Destroying the arrays of a block. -/
theorem drops_ok (chk : Bool) {alloc : Nat → Mem α → Nat → Nat} (hal : GoodAlloc alloc) : ∀ (f : List Nat) {W : MWorld α} {S : MStore α}, MHolds W S → f.Nodup →
    (∀ x ∈ f, InScope S x) → ∀ {P : Nat → Prop}, (∀ x, InScope S x → (P x ↔ x ∉ f)) → ∀ {S' : MStore α}, Left P S S' →
    ∃ W', f.foldlM (fun (m : MWorld α) x => m.step Arith.exact chk alloc (.old (.drop x))) W = .ok W' ∧ MHolds W' S'
  | [], W, S, H, _, _, P, hP, S', hL => by
    refine ⟨W, rfl, ?_⟩
    have : S' = S := by
      obtain ⟨l, m⟩ := S'
      have key : ∀ x, l x = S.live x ∧ m x = S.moved x := by
        intro x
        by_cases hx : InScope S x
        · exact hL.1 x ((hP x hx).2 (by simp))
        · have hu : Unused S x := by
            unfold InScope at hx
            exact not_not.1 hx
          by_cases hp : P x
          · exact hL.1 x hp
          · have := hL.2 x hp
            exact ⟨this.1.trans hu.1.symm, this.2.trans hu.2.symm⟩
      obtain ⟨sl, sm⟩ := S
      have h1 : l = sl := funext fun x => (key x).1
      have h2 : m = sm := funext fun x => (key x).2
      rw [h1, h2]
    rw [this]; exact H
  | x :: f, W, S, H, hnd, hin, P, hP, S', hL => by
    obtain ⟨W₁, h1, h2⟩ := drop_ok H (hin x (by simp)) chk hal
    have hnd' := List.nodup_cons.1 hnd
    have hsc : ∀ z, z ≠ x → (InScope (⟨fun z => if z = x then none else S.live z, fun z => if z = x then none else S.moved z⟩ : MStore α) z ↔ InScope S z) :=
      fun z hz => inScope_same (by simp [hz]) (by simp [hz])
    have hxn : ¬ P x := fun h => (hP x (hin x (by simp))).1 h (by simp)
    obtain ⟨W', h3, h4⟩ := drops_ok chk hal f h2 hnd'.2
      (fun z hz => (hsc z (by rintro rfl; exact hnd'.1 hz)).2 (hin z (by simp [hz])))
      (P := P) (fun z hz => by
        have hzx : z ≠ x := by
          rintro rfl
          exact hz ⟨by simp, by simp⟩
        rw [hP z ((hsc z hzx).1 hz)]
        simp [hzx]) (S' := S')
      ⟨fun z hz => by
        have hzx : z ≠ x := by rintro rfl; exact hxn hz
        have := hL.1 z hz
        simpa [hzx] using this, hL.2⟩
    refine ⟨W', ?_, h4⟩
    rw [List.foldlM_cons, h1]
    exact h3

theorem left_exists (P : Nat → Prop) (S₁ : MStore α) : ∃ S', Left P S₁ S' := by
  classical
  exact ⟨⟨fun x => if P x then S₁.live x else none, fun x => if P x then S₁.moved x else none⟩, fun x h => by simp [h], fun x h => by simp [h, Unused]⟩

theorem left_inScope {P : Nat → Prop} {S₁ S' : MStore α} (h : Left P S₁ S') (x : Nat) : InScope S' x ↔ P x ∧ InScope S₁ x := by
  by_cases hp : P x
  · rw [inScope_same (h.1 x hp).1 (h.1 x hp).2]; simp [hp]
  · simp only [hp, false_and, iff_false]
    exact fun h' => h' (h.2 x hp)

end
end Jules.Props

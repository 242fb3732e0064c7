import Verif.Lemmas.BlockCalm
import Verif.Props.Scopes
/-
Lemmas for C86: programs.
-/
namespace Jules
open Spec Props

section
variable {α β : Type} {W : BWorld α} {S S' : MStore α} {lost : List Nat} {T : Nat → Bool}

/-! ### Names after an interrupted statement -/

theorem until_names {A A' : AStore α} {x : Nat} {h : List Ix} {out : List Nat → AtElt α} {t : Bool} (hw : WritesUntil A x h out A' t) (z : Nat) :
    A' z = none ↔ A z = none := by
  obtain ⟨ho, a, a', v, h1, h2, _⟩ := hw
  by_cases hz : z = x
  · subst hz; rw [h1, h2]; simp
  · rw [ho z hz]

theorem stopped_names {A A' : AStore α} {x : Nat} {h : List Ix} {out : List Nat → AtElt α} (hs : Stopped A x h out A') (z : Nat) : A' z = none ↔ A z = none := by
  obtain ⟨_, _, _, _, _, _, hw⟩ := hs
  exact until_names hw z

theorem fstops_names {A A' : AStore α} {s : FStmt α} (hs : FStops A s A') (z : Nat) : A' z = none ↔ A z = none := by
  cases s with
  | plain s => exact hs.elim
  | make x e => rw [show A' = A from hs]
  | makeFrom x l ext => rw [show A' = A from hs]
  | overlapWhole x e => rw [show A' = A from hs]
  | assign x h e => exact stopped_names hs z
  | inPlace x h op e => exact stopped_names hs z
  | inPlaceScalar x h op s => exact stopped_names hs z
  | apply x h f => exact stopped_names hs z
  | overlap x h e =>
    rcases hs with hs | hs
    · rw [hs]
    · exact stopped_names hs z
  | set x e =>
    obtain ⟨a, d, ha, _, hs⟩ := hs
    split at hs
    · obtain ⟨i, _, ho, a1, a2, h1, h2, _⟩ := hs
      by_cases hz : z = x
      · subst hz; rw [h1, h2]; simp
      · rw [ho z hz]
    · rw [hs]

theorem stops_names {s : XStmt α} (hs : XStops S s S') (z : Nat) : InScope S' z ↔ InScope S z := by
  have key : S'.moved = S.moved → (S'.live z = none ↔ S.live z = none) → (InScope S' z ↔ InScope S z) := by
    intro hm hl
    unfold InScope Unused
    rw [hm, hl]
  cases s with
  | wild s => exact key hs.1 (fstops_names hs.2 z)
  | calm s =>
    have gen : ∀ {s : Stmt α}, ((Revives S s ∧ S' = S) ∨ (¬ Revives S s ∧ S'.moved = S.moved ∧ FStops S.live (totalS s) S'.live)) →
        (InScope S' z ↔ InScope S z) := by
      rintro s (⟨_, rfl⟩ | ⟨_, hm, h⟩)
      · exact Iff.rfl
      · exact key hm (fstops_names h z)
    cases s with
    | declare x n => exact hs.elim
    | moveMake x y => exact hs.elim
    | old s =>
      cases s with
      | drop x => exact hs.elim
      | moveAssign x y => exact hs.elim
      | makeFill x s ext => rw [show S' = S from hs]
      | fill x h y =>
        obtain ⟨hm, ho, a, a', _, _, h1, h2, _⟩ := hs
        refine key hm ?_
        by_cases hz : z = x
        · subst hz; rw [h1, h2]; simp
        · rw [ho z hz]
      | make x e => exact gen hs
      | makeFrom x l ext => exact gen hs
      | assign x h e => exact gen hs
      | inPlace x h op e => exact gen hs
      | inPlaceScalar x h op s => exact gen hs
      | apply x h f => exact gen hs
      | overlap x h e => exact gen hs
      | overlapWhole x e => exact gen hs
      | set x e => exact gen hs

/-! ### One statement -/

theorem bholds_scopes (H : BHolds W S lost) {W' : BWorld α} (hp : W'.pool = W.pool) (he : W'.env = W.env) : BHolds W' S lost := by
  obtain ⟨p, e, sc⟩ := W
  obtain ⟨p', e', sc'⟩ := W'
  cases hp; cases he
  exact ⟨H.arr, H.moved, H.out, H.own, H.once, H.bases, H.apart, H.only, H.nodup, H.left, H.ruined⟩

theorem bdeclare {f : List Nat} {fs : List (List Nat)} (h : W.scopes = f :: fs) (o : Option Nat) :
    (W.declare o).scopes = (o.toList ++ f) :: fs ∧ (W.declare o).pool = W.pool ∧ (W.declare o).env = W.env := by
  cases o with
  | none => exact ⟨h, rfl, rfl⟩
  | some x => simp [BWorld.declare, h]

theorem bstep_calm (chk nx : Bool) (alloc : Nat → List (Nat × Nat) → Nat → Option Nat) {s : MStmt α} (hd : ¬ IsDrop s) :
    W.step Arith.exact chk nx T alloc (.calm s) = (do
      let r ← W.mstep Arith.exact chk nx T alloc s
      .ok (if r.2 then r else (r.1.declare (XStmt.calm s).declares, false))) := by
  cases s with
  | old s =>
    cases s with
    | drop x => exact (hd trivial).elim
    | _ => rfl
  | _ => rfl

/-- How a statement ends. -/
def XOut (W : BWorld α) (S : MStore α) (lost : List Nat) (s : XStmt α) (chk nx : Bool) (T : Nat → Bool) (alloc : Nat → List (Nat × Nat) → Nat → Option Nat)
    (f : List Nat) (fs : List (List Nat)) : Prop :=
  (∃ W' S', W.step Arith.exact chk nx T alloc s = .ok (W', false) ∧ ¬ Breaks nx S s ∧ XEffect S s S' false ∧ BHolds W' S' lost ∧
    W'.scopes = (s.declares.toList ++ f) :: fs) ∨
  (∃ W' S' lost' n, W.step Arith.exact chk nx T alloc s = .ok (W', true) ∧ BHolds W' S' lost' ∧ W'.scopes = f :: fs ∧ lost'.length = lost.length + n ∧
    ((¬ Breaks nx S s ∧ XEffect S s S' true ∧ Loss S s n) ∨ (MayFail T alloc ∧ XStops S s S' ∧ (n = 0 ∨ n = 1 ∧ Reallocates S s)))) ∨
  (W.step Arith.exact chk nx T alloc s = .error .terminate ∧ Breaks nx S s)

theorem xout [Nonempty α] (H : BHolds W S lost) {s : XStmt α} (hs : XLegal S s) {f : List Nat} {fs : List (List Nat)} (hf : W.scopes = f :: fs) (chk nx : Bool)
    {alloc : Nat → List (Nat × Nat) → Nat → Option Nat} (hal : GoodBlocks alloc) : XOut W S lost s chk nx T alloc f fs := by
  cases s with
  | calm s =>
    obtain ⟨hl, hd⟩ := hs
    rcases mout (T := T) H hl chk nx hal with ⟨W', S', h1, h2, h3, h4⟩ | ⟨W', S', lost', n, h1, h2, h3, h4, h5, h6, h7⟩
    · obtain ⟨d1, d2, d3⟩ := bdeclare (h4.trans hf) (XStmt.calm s).declares
      refine .inl ⟨W'.declare (XStmt.calm s).declares, S', ?_, fun h => h, ⟨rfl, h2⟩, bholds_scopes h3 d2 d3, d1⟩
      rw [bstep_calm chk nx alloc hd, h1, res_ok_bind]; rfl
    · refine .inr (.inl ⟨W', S', lost', n, ?_, h2, h3.trans hf, h4, .inr ⟨h5, h6, h7⟩⟩)
      rw [bstep_calm chk nx alloc hd, h1, res_ok_bind]; rfl
  | wild s =>
    obtain ⟨hl, x, hx, hmx⟩ := hs
    rcases fout (T := T) H hl hx hmx chk nx hal with ⟨W', A', h1, h2, h3, h4, h5⟩ | ⟨W', A', lost', n, h1, h2, h3, h4, h5⟩ | ⟨h1, h2, h3⟩
    · obtain ⟨d1, d2, d3⟩ := bdeclare (h5.trans hf) s.declares
      refine .inl ⟨W'.declare s.declares, ⟨A', S.moved⟩, ?_, h2, ⟨rfl, h3⟩, bholds_scopes h4 d2 d3, d1⟩
      simp only [BWorld.step, h1, res_ok_bind, Bool.false_eq_true, if_false]
    · refine .inr (.inl ⟨W', ⟨A', S.moved⟩, lost', n, ?_, h2, h3.trans hf, h4, ?_⟩)
      · simp only [BWorld.step, h1, res_ok_bind, if_true]
      · rcases h5 with ⟨q1, q2, q3⟩ | ⟨q1, q2, q3⟩
        · exact .inl ⟨q1, ⟨rfl, q2⟩, q3⟩
        · exact .inr ⟨q1, ⟨rfl, q2⟩, q3⟩
    · refine .inr (.inr ⟨?_, h2, h3⟩)
      simp only [BWorld.step, h1]; rfl

/-! ### Reading -/

theorem scalarB_out {c : Scalar α} {v : α} {p : Pool α} (h : c.get p.mem = .ok v) :
    (scalarB T c p = .ok v ⟨p.mem, p.blocks, p.ruined, p.clock + 1⟩) ∨ (scalarB T c p = .exn ⟨p.mem, p.blocks, p.ruined, p.clock + 1⟩ ∧ Alarm T) := by
  obtain ⟨m, bl, ru, ck⟩ := p
  have h : c.get m = .ok v := h
  simp only [scalarB, bm_bind, BM.bind, BM.reads, h]
  rcases mayThrow_cases (S := T) m bl ru ck with q | ⟨q, ha⟩
  · left; simp only [q, bm_pure]
  · right; simp only [q]; exact ⟨trivial, ha⟩

/-- Copying elements: all of them, or up to the first that cannot be had, or up to an exception that does not come from the values. -/
theorem copiesB_out {src : FSrc α} {m : Mem α} {bl : List (Nat × Nat)} {ru : Nat} : ∀ (n k ck : Nat),
    (∀ j, k ≤ j → j < k + n → (∃ v, src.it.deref m j = .ok v) ∨ ∃ e, src.it.deref m j = .error (.exc e)) → ∃ ck',
    (∃ xs, copiesB T src k n ⟨m, bl, ru, ck⟩ = .ok xs ⟨m, bl, ru, ck'⟩ ∧ xs.length = n ∧ ∀ (j : Nat), j < n → ∃ v, src.it.deref m (k + j) = .ok v ∧ xs[j]? = some v) ∨
    (copiesB T src k n ⟨m, bl, ru, ck⟩ = .exn ⟨m, bl, ru, ck'⟩ ∧ ((∃ j e, k ≤ j ∧ j < k + n ∧ src.it.deref m j = .error (.exc e)) ∨ Alarm T))
  | 0, k, ck, _ => ⟨ck, .inl ⟨[], rfl, rfl, fun j hj => by omega⟩⟩
  | n + 1, k, ck, h => by
    rcases h k (by omega) (by omega) with ⟨v, hv⟩ | ⟨e, he⟩
    · rcases mayThrow_cases (S := T) m bl ru ck with q | ⟨q, ha⟩
      · obtain ⟨ck', ih⟩ := copiesB_out (src := src) (m := m) (bl := bl) (ru := ru) n (k + 1) (ck + 1) fun j h1 h2 => h j (by omega) (by omega)
        refine ⟨ck', ?_⟩
        rcases ih with ⟨xs, h1, h2, h3⟩ | ⟨h1, h2⟩
        · refine .inl ⟨v :: xs, ?_, by simp [h2], fun j hj => ?_⟩
          · simp only [copiesB, bm_bind, BM.bind, BM.reads, hv, q, h1, bm_pure]
          · cases j with
            | zero => exact ⟨v, hv, rfl⟩
            | succ j =>
              obtain ⟨w, q1, q2⟩ := h3 j (by omega)
              exact ⟨w, by rw [← q1]; congr 1; omega, by simpa using q2⟩
        · refine .inr ⟨?_, ?_⟩
          · simp only [copiesB, bm_bind, BM.bind, BM.reads, hv, q, h1]
          · rcases h2 with ⟨j, e, q1, q2, q3⟩ | h2
            · exact .inl ⟨j, e, by omega, by omega, q3⟩
            · exact .inr h2
      · refine ⟨ck + 1, .inr ⟨?_, .inr ha⟩⟩
        simp only [copiesB, bm_bind, BM.bind, BM.reads, hv, q]
    · refine ⟨ck, .inr ⟨?_, .inl ⟨k, e, Nat.le_refl _, by omega, he⟩⟩⟩
      simp only [copiesB, bm_bind, BM.bind, BM.reads, he]

/-- The elements of an expression. -/
theorem elementsB_out (H : BHolds W S lost) {e : FEx α} {d : List Nat} (hd : d ≠ []) (hl : ExLegal S.live d (shapeE e)) (chk : Bool) :
    ∃ src, W.usable Arith.exact e.uses = .ok () ∧ e.eval Arith.exact chk (W.flat Arith.exact) = .ok src ∧ src.dims = d ∧ ∃ ck,
    (∃ xs, elementsB T src W.pool = .ok xs ⟨W.pool.mem, W.pool.blocks, W.pool.ruined, ck⟩ ∧ FElements S e d xs) ∨
    (elementsB T src W.pool = .exn ⟨W.pool.mem, W.pool.blocks, W.pool.ruined, ck⟩ ∧ (FThrows S e ∨ MayFail T alloc)) := by
  obtain ⟨src, h1, hg⟩ := fex_ok (bholds_flat H) hd chk hl
  refine ⟨src, usable_ok H (fex_live hl), h1, hg.dims, ?_⟩
  have hval : ∀ i, InB d i → src.it.deref W.pool.mem (cmSum d i) = called (fexVal S.live e i) := fun i hi => hg.deref _ i hi fun _ _ _ _ _ => rfl
  obtain ⟨ck, h⟩ := copiesB_out (T := T) (src := src) (m := W.pool.mem) (bl := W.pool.blocks) (ru := W.pool.ruined) (prod d) 0 W.pool.clock (fun j _ hj => by
    obtain ⟨i, hi, rfl, _⟩ := rank_exists (show j < prod d by omega)
    rw [hval i hi]
    cases fexVal S.live e i with
    | none => exact .inr ⟨_, rfl⟩
    | some v => exact .inl ⟨v, rfl⟩)
  have hel : elementsB T src W.pool = copiesB T src 0 (prod d) ⟨W.pool.mem, W.pool.blocks, W.pool.ruined, W.pool.clock⟩ := by
    unfold elementsB
    rw [hg.count]
  refine ⟨ck, ?_⟩
  rw [hel]
  rcases h with ⟨xs, q1, q2, q3⟩ | ⟨q1, q2⟩
  · refine .inl ⟨xs, q1, hd, hl, q2, fun i hi => ?_⟩
    obtain ⟨v, g1, g2⟩ := q3 _ (cmSum_lt hi)
    rw [Nat.zero_add, hval i hi] at g1
    refine ⟨v, ?_, g2⟩
    cases hv : fexVal S.live e i with
    | none => rw [hv] at g1; cases g1
    | some w => rw [hv] at g1; cases g1; rfl
  · refine .inr ⟨q1, ?_⟩
    rcases q2 with ⟨j, ex, g1, g2, g3⟩ | g
    · left
      obtain ⟨i, hi, rfl, _⟩ := rank_exists (show j < prod d by omega)
      refine ⟨d, hd, hl, i, hi, ?_⟩
      rw [hval i hi] at g3
      cases hv : fexVal S.live e i with
      | none => rfl
      | some w => rw [hv] at g3; cases g3
    · exact .inr (.inl g)

/-! ### Leaving a block -/

theorem bdrop_ok (H : BHolds W S lost) {x : Nat} (hx : InScope S x) (chk nx : Bool) {alloc : Nat → List (Nat × Nat) → Nat → Option Nat} :
    ∃ W', W.mstep Arith.exact chk nx T alloc (.old (.drop x)) = .ok (W', false) ∧ W'.scopes = W.scopes ∧
      BHolds W' ⟨fun z => if z = x then none else S.live z, fun z => if z = x then none else S.moved z⟩ lost := by
  obtain ⟨W', h1, h2, h3⟩ := drop_out (T := T) H (x := x) (inScope_order hx) chk nx (alloc := alloc)
  refine ⟨W', h1, h2, h3 _ ⟨fun z hz => ?_, by simp [Unused]⟩⟩
  have : z ≠ x := by simpa using hz
  simp [this]

/-- Destroying the arrays of a block. -/
theorem bdrops_ok (chk nx : Bool) {alloc : Nat → List (Nat × Nat) → Nat → Option Nat} : ∀ (f : List Nat) {W : BWorld α} {S : MStore α}, BHolds W S lost → f.Nodup →
    (∀ x ∈ f, InScope S x) → ∀ {P : Nat → Prop}, (∀ x, InScope S x → (P x ↔ x ∉ f)) → ∀ {S' : MStore α}, Left P S S' →
    ∃ W', f.foldlM (fun (W : BWorld α) x => do let r ← W.mstep Arith.exact chk nx T alloc (.old (.drop x)); .ok r.1) W = .ok W' ∧ BHolds W' S' lost
  | [], W, S, H, _, _, P, hP, S', hL => by
    refine ⟨W, rfl, ?_⟩
    have : S' = S := by
      obtain ⟨l, m⟩ := S'
      have key : ∀ x, l x = S.live x ∧ m x = S.moved x := by
        intro x
        by_cases hx : InScope S x
        · exact hL.1 x ((hP x hx).2 (by simp))
        · have hu : Unused S x := by
            unfold InScope at hx
            exact not_not.1 hx
          by_cases hp : P x
          · exact hL.1 x hp
          · have := hL.2 x hp
            exact ⟨this.1.trans hu.1.symm, this.2.trans hu.2.symm⟩
      obtain ⟨sl, sm⟩ := S
      have h1 : l = sl := funext fun x => (key x).1
      have h2 : m = sm := funext fun x => (key x).2
      rw [h1, h2]
    rw [this]; exact H
  | x :: f, W, S, H, hnd, hin, P, hP, S', hL => by
    obtain ⟨W₁, h1, _, h2⟩ := bdrop_ok (T := T) H (hin x (by simp)) chk nx (alloc := alloc)
    have hnd' := List.nodup_cons.1 hnd
    have hsc : ∀ z, z ≠ x → (InScope (⟨fun z => if z = x then none else S.live z, fun z => if z = x then none else S.moved z⟩ : MStore α) z ↔ InScope S z) :=
      fun z hz => inScope_same (by simp [hz]) (by simp [hz])
    have hxn : ¬ P x := fun h => (hP x (hin x (by simp))).1 h (by simp)
    obtain ⟨W', h3, h4⟩ := bdrops_ok chk nx f h2 hnd'.2
      (fun z hz => (hsc z (by rintro rfl; exact hnd'.1 hz)).2 (hin z (by simp [hz])))
      (P := P) (fun z hz => by
        have hzx : z ≠ x := by
          rintro rfl
          exact hz ⟨by simp, by simp⟩
        rw [hP z ((hsc z hzx).1 hz)]
        simp [hzx]) (S' := S')
      ⟨fun z hz => by
        have hzx : z ≠ x := by rintro rfl; exact hxn hz
        have := hL.1 z hz
        simpa [hzx] using this, hL.2⟩
    refine ⟨W', ?_, h4⟩
    rw [List.foldlM_cons, h1]
    exact h3

/-- Leaving the block. -/
theorem bleave_ok {S₁ : MStore α} {g : List Nat} {fs : List (List Nat)} (H : BHolds W S₁ lost) (hA : Adds S S₁ g) (hf : W.scopes = g :: fs) (hL : Left (InScope S) S₁ S')
    (chk nx : Bool) {alloc : Nat → List (Nat × Nat) → Nat → Option Nat} : ∃ W', W.leave Arith.exact chk nx T alloc = .ok W' ∧ BHolds W' S' lost ∧ W'.scopes = fs := by
  obtain ⟨W₁, h1, h2⟩ := bdrops_ok (T := T) chk nx (alloc := alloc) g H hA.nodup (fun x hx => (hA.scope x).2 (.inr hx)) (P := InScope S)
    (fun x hx => by
      constructor
      · intro h h'; exact h (hA.fresh x h')
      · intro h; exact ((hA.scope x).1 hx).resolve_right h) hL
  refine ⟨{ W₁ with scopes := fs }, ?_, bholds_scopes h2 rfl rfl, rfl⟩
  unfold BWorld.leave
  rw [hf]
  show (g.foldlM (fun (W : BWorld α) x => do let r ← W.mstep Arith.exact chk nx T alloc (.old (.drop x)); .ok r.1) W >>= _) = _
  rw [h1, res_ok_bind]

/-- Returning an array, and leaving the block. -/
theorem bgive_ok {S₁ S₂ S₃ : MStore α} {g : List Nat} {fs : List (List Nat)} {x y : Nat} (H : BHolds W S₁ lost) (hA : Adds S S₁ g) (hf : W.scopes = g :: fs)
    (hy : Unused S y) (hl : MLegal S₁ (.moveMake x y)) (he : MEffect S₁ (.moveMake x y) S₂) (hL : Left (fun z => InScope S z ∨ z = x) S₂ S₃)
    (chk nx : Bool) {alloc : Nat → List (Nat × Nat) → Nat → Option Nat} :
    (∃ W₁ W', W.give Arith.exact chk nx T alloc x y = .ok W₁ ∧ W₁.leave Arith.exact chk nx T alloc = .ok W' ∧ BHolds W' S₃ lost ∧ W'.scopes = fs) ∧
    Adds S S₃ [x] := by
  obtain ⟨W₁, h1, hs1, h2⟩ := moveMake_out (T := T) H hl chk nx (alloc := alloc)
  have hyg : y ∈ g := by
    obtain ⟨_, n, hn⟩ := hl
    exact ((hA.scope y).1 (order_inScope hn)).resolve_left fun h => h hy
  have hnm := mnames hl (fun h => h) he
  have hux : Unused S₁ x := hl.1
  have hxS : Unused S x := by
    by_contra hn
    exact (hA.scope x).2 (.inl hn) hux
  have hxg : x ∉ g := fun h => (hA.scope x).2 (.inr h) hux
  have hsc2 : ∀ z, InScope S₂ z ↔ InScope S₁ z ∨ x = z := fun z => by
    rw [hnm.1 z]; simp [XStmt.declares]
  obtain ⟨W₂, h3, h4⟩ := bdrops_ok (T := T) chk nx (alloc := alloc) g (h2 S₂ he) hA.nodup (fun z hz => (hsc2 z).2 (.inl ((hA.scope z).2 (.inr hz))))
    (P := fun z => InScope S z ∨ z = x)
    (fun z hz => by
      constructor
      · rintro (h | rfl) h'
        · exact h (hA.fresh z h')
        · exact hxg h'
      · intro h
        rcases (hsc2 z).1 hz with hz | rfl
        · exact .inl (((hA.scope z).1 hz).resolve_right h)
        · exact .inr rfl) hL
  refine ⟨⟨W₁, { W₂ with scopes := fs }, ?_, ?_, bholds_scopes h4 rfl rfl, rfl⟩, ⟨by simp, by simpa using hxS, fun z => ?_⟩⟩
  · simp only [BWorld.give, hf, List.headD_cons, needs, List.contains_iff_mem, hyg, if_true, res_ok_bind, h1]
  · unfold BWorld.leave
    rw [hs1, hf]
    show (g.foldlM (fun (W : BWorld α) x => do let r ← W.mstep Arith.exact chk nx T alloc (.old (.drop x)); .ok r.1) W₁ >>= _) = _
    rw [h3, res_ok_bind]
  · rw [left_inScope hL, hsc2 z, hA.scope z, List.mem_singleton]
    constructor
    · rintro ⟨h, _⟩; exact h
    · rintro (h | rfl)
      · exact ⟨.inl h, .inl (.inl h)⟩
      · exact ⟨.inr rfl, .inr rfl⟩

/-! ### Programs -/

/-- How a program ends. -/
def BRuns (W : BWorld α) (S : MStore α) (lost : List Nat) (p : Body α β) (chk nx : Bool) (T : Nat → Bool) (alloc : Nat → List (Nat × Nat) → Nat → Option Nat)
    (f : List Nat) (fs : List (List Nat)) : Prop :=
  (∃ W' r S' lost' n g, W.exec Arith.exact chk nx T alloc p = .ok (W', r) ∧ May nx (MayFail T alloc) S p S' (fate r) n ∧ BHolds W' S' lost' ∧
    lost'.length = lost.length + n ∧ W'.scopes = (g ++ f) :: fs ∧ Adds S S' g) ∨
  (∃ S' n, W.exec Arith.exact chk nx T alloc p = .error .terminate ∧ May nx (MayFail T alloc) S p S' .aborted n)

/-- A program as the body of a block. -/
theorem binner {nx chk : Bool} {alloc : Nat → List (Nat × Nat) → Nat → Option Nat} {body : Body α β} {f : List Nat} {fs : List (List Nat)}
    (h : BRuns W.enter S lost body chk nx T alloc [] W.scopes) (hf : W.scopes = f :: fs) :
    (∃ W₁ r S₁ lost' n g, W.enter.exec Arith.exact chk nx T alloc body = .ok (W₁, r) ∧ May nx (MayFail T alloc) S body S₁ (fate r) n ∧ BHolds W₁ S₁ lost' ∧
      lost'.length = lost.length + n ∧ W₁.scopes = g :: W.scopes ∧ Adds S S₁ g ∧ ∃ S₂ W₂, Left (InScope S) S₁ S₂ ∧
        W₁.leave Arith.exact chk nx T alloc = .ok W₂ ∧ BHolds W₂ S₂ lost' ∧ W₂.scopes = f :: fs ∧ Adds S S₂ []) ∨
    (∃ S₁ n, W.enter.exec Arith.exact chk nx T alloc body = .error .terminate ∧ May nx (MayFail T alloc) S body S₁ .aborted n) := by
  rcases h with ⟨W₁, r, S₁, lost', n, g, h1, h2, h3, h4, h5, h6⟩ | h
  · rw [List.append_nil] at h5
    obtain ⟨S₂, hL⟩ := left_exists (InScope S) S₁
    obtain ⟨W₂, k1, k2, k3⟩ := bleave_ok (T := T) h3 h6 h5 hL chk nx (alloc := alloc)
    exact .inl ⟨W₁, r, S₁, lost', n, g, h1, h2, h3, h4, h5, h6, S₂, W₂, hL, k1, k2, k3.trans hf, adds_left h6 hL⟩
  · exact .inr h

theorem bruns [Nonempty α] {nx : Bool} (chk : Bool) {alloc : Nat → List (Nat × Nat) → Nat → Option Nat} (hal : GoodBlocks alloc) : ∀ (p : Body α β) {W : BWorld α}
    {S : MStore α} {lost : List Nat} {f : List Nat} {fs : List (List Nat)}, LegalAny nx (MayFail T alloc) S p → BHolds W S lost → W.scopes = f :: fs →
    BRuns W S lost p chk nx T alloc f fs := by
  intro p
  induction p with
  | ret b => intro W S lost f fs _ H hf; exact .inl ⟨W, some b, S, lost, 0, [], rfl, .ret, H, rfl, hf, adds_nil fun _ => Iff.rfl⟩
  | throw => intro W S lost f fs _ H hf; exact .inl ⟨W, none, S, lost, 0, [], rfl, .throw, H, rfl, hf, adds_nil fun _ => Iff.rfl⟩
  | exec s k ih =>
    intro W S lost f fs hl H hf
    obtain ⟨h1, h2⟩ := hl
    rcases xout (T := T) H h1 hf chk nx hal with ⟨W₁, S₁, q1, q2, q3, q4, q5⟩ | ⟨W₁, S₁, lost', n, q1, q2, q3, q4, q5⟩ | ⟨q1, q2⟩
    · have hex : W.exec Arith.exact chk nx T alloc (.exec s k) = W₁.exec Arith.exact chk nx T alloc k := by
        simp only [BWorld.exec, q1, res_ok_bind, Bool.false_eq_true, if_false]
      rcases ih (h2 S₁ q3) q4 q5 with ⟨W', r, S', lost', n, g, g1, g2, g3, g4, g5, g6⟩ | ⟨S', n, g1, g2⟩
      · exact .inl ⟨W', r, S', lost', n, g ++ s.declares.toList, hex.trans g1, .exec h1 q2 q3 g2, g3, g4, by rw [g5, List.append_assoc],
          adds_trans (adds_step h1 q3) g6⟩
      · exact .inr ⟨S', n, hex.trans g1, .exec h1 q2 q3 g2⟩
    · have hex : W.exec Arith.exact chk nx T alloc (.exec s k) = .ok (W₁, none) := by
        simp only [BWorld.exec, q1, res_ok_bind, if_true]
      rcases q5 with ⟨e1, e2, e3⟩ | ⟨e1, e2, e3⟩
      · exact .inl ⟨W₁, none, S₁, lost', n, [], hex, .execThrow h1 e1 e2 e3, q2, q4, q3, adds_step h1 e2⟩
      · exact .inl ⟨W₁, none, S₁, lost', n, [], hex, .execStop h1 e1 e2 e3, q2, q4, q3, adds_nil (stops_names e2)⟩
    · refine .inr ⟨S, 0, ?_, .execAbort h1 q2⟩
      simp only [BWorld.exec, q1]; rfl
  | read s k ih =>
    intro W S lost f fs hl H hf
    obtain ⟨h1, h2⟩ := hl
    obtain ⟨c, v, e1, e2, e3, _⟩ := sc_ok (bholds_flat H) h1 chk
    have hu := usable_ok H (sc_live h1)
    rcases scalarB_out (T := T) (p := W.pool) e2 with q | ⟨q, ha⟩
    · have hex : W.exec Arith.exact chk nx T alloc (.read s k) =
          BWorld.exec Arith.exact chk nx T alloc { W with pool := ⟨W.pool.mem, W.pool.blocks, W.pool.ruined, W.pool.clock + 1⟩ } (k v) := by
        simp only [BWorld.exec, hu, e1, res_ok_bind, q]
      rcases ih v (W := { W with pool := ⟨W.pool.mem, W.pool.blocks, W.pool.ruined, W.pool.clock + 1⟩ }) (h2 v e3) (bholds_clock H _) hf with
        ⟨W', r, S', lost', n, g, g1, g2, g3⟩ | ⟨S', n, g1, g2⟩
      · exact .inl ⟨W', r, S', lost', n, g, hex.trans g1, .read h1 e3 g2, g3⟩
      · exact .inr ⟨S', n, hex.trans g1, .read h1 e3 g2⟩
    · refine .inl ⟨{ W with pool := ⟨W.pool.mem, W.pool.blocks, W.pool.ruined, W.pool.clock + 1⟩ }, none, S, lost, 0, [], ?_, .readStop h1 (.inl ha), bholds_clock H _, rfl,
        hf, adds_nil fun _ => Iff.rfl⟩
      simp only [BWorld.exec, hu, e1, res_ok_bind, q]
  | elements e k ih =>
    intro W S lost f fs hl H hf
    obtain ⟨d, hd, he, h2⟩ := hl
    obtain ⟨src, hu, e1, e2, ck, q⟩ := elementsB_out (T := T) H hd he chk
    rcases q with ⟨xs, q1, q2⟩ | ⟨q1, q2⟩
    · have hex : W.exec Arith.exact chk nx T alloc (.elements e k) =
          BWorld.exec Arith.exact chk nx T alloc { W with pool := ⟨W.pool.mem, W.pool.blocks, W.pool.ruined, ck⟩ } (k d xs) := by
        simp only [BWorld.exec, hu, e1, res_ok_bind, q1, e2]
      rcases ih d xs (W := { W with pool := ⟨W.pool.mem, W.pool.blocks, W.pool.ruined, ck⟩ }) (h2 xs q2) (bholds_clock H _) hf with
        ⟨W', r, S', lost', n, g, g1, g2, g3⟩ | ⟨S', n, g1, g2⟩
      · exact .inl ⟨W', r, S', lost', n, g, hex.trans g1, .elements q2 g2, g3⟩
      · exact .inr ⟨S', n, hex.trans g1, .elements q2 g2⟩
    · have hex : W.exec Arith.exact chk nx T alloc (.elements e k) = .ok ({ W with pool := ⟨W.pool.mem, W.pool.blocks, W.pool.ruined, ck⟩ }, none) := by
        simp only [BWorld.exec, hu, e1, res_ok_bind, q1]
      refine .inl ⟨{ W with pool := ⟨W.pool.mem, W.pool.blocks, W.pool.ruined, ck⟩ }, none, S, lost, 0, [], hex, ?_, bholds_clock H _, rfl, hf, adds_nil fun _ => Iff.rfl⟩
      rcases q2 with q2 | q2
      · exact .elementsThrow q2
      · exact .elementsStop hd he q2
  | block body k ih ih' =>
    intro W S lost f fs hl H hf
    obtain ⟨h1, h2⟩ := hl
    rcases binner (ih (W := W.enter) (f := []) (fs := W.scopes) h1 (bholds_scopes H rfl rfl) rfl) hf with
      ⟨W₁, r, S₁, lost₁, n, g, e1, e2, _, e4, _, _, S₂, W₂, hL, k1, k2, k3, k4⟩ | ⟨S₁, n, e1, e2⟩
    · cases r with
      | none =>
        refine .inl ⟨W₂, none, S₂, lost₁, n, [], ?_, .blockThrow e2 hL, k2, e4, k3, k4⟩
        simp only [BWorld.exec, e1, res_ok_bind, k1]
      | some b =>
        have hex : W.exec Arith.exact chk nx T alloc (.block body k) = W₂.exec Arith.exact chk nx T alloc (k b) := by
          simp only [BWorld.exec, e1, res_ok_bind, k1]
        rcases ih' b (h2 S₁ S₂ b n e2 hL) k2 k3 with ⟨W', r, S', lost', n', g', q1, q2, q3, q4, q5, q6⟩ | ⟨S', n', q1, q2⟩
        · exact .inl ⟨W', r, S', lost', n + n', g', hex.trans q1, .block e2 hL q2, q3, by omega, q5, by simpa using adds_trans k4 q6⟩
        · exact .inr ⟨S', n + n', hex.trans q1, .block e2 hL q2⟩
    · refine .inr ⟨S₁, n, ?_, .blockAbort e2⟩
      simp only [BWorld.exec, e1]; rfl
  | call x y body k ih ih' =>
    intro W S lost f fs hl H hf
    obtain ⟨h1, hy, h2⟩ := hl
    rcases binner (ih (W := W.enter) (f := []) (fs := W.scopes) h1 (bholds_scopes H rfl rfl) rfl) hf with
      ⟨W₁, r, S₁, lost₁, n, g, e1, e2, e3, e4, e5, e6, S₂, W₂, hL, k1, k2, k3, k4⟩ | ⟨S₁, n, e1, e2⟩
    · cases r with
      | none =>
        refine .inl ⟨W₂, none, S₂, lost₁, n, [], ?_, .callThrow e2 hL, k2, e4, k3, k4⟩
        simp only [BWorld.exec, e1, res_ok_bind, k1]
      | some b =>
        obtain ⟨hm, h3⟩ := h2 S₁ b n e2
        obtain ⟨S₃, he⟩ := meffect_exists (fun x d hx => (e3.moved x d hx).1) hm
        obtain ⟨S₄, hL'⟩ := left_exists (fun z => InScope S z ∨ z = x) S₃
        obtain ⟨⟨W₃, W₄, i1, i2, i3, i4⟩, i5⟩ := bgive_ok (T := T) e3 e6 e5 hy hm he hL' chk nx (alloc := alloc)
        obtain ⟨d1, d2, d3⟩ := bdeclare (i4.trans hf) (some x)
        have hex : W.exec Arith.exact chk nx T alloc (.call x y body k) = (W₄.declare (some x)).exec Arith.exact chk nx T alloc (k b) := by
          simp only [BWorld.exec, e1, res_ok_bind, i1, i2]
        rcases ih' b (h3 S₃ S₄ he hL') (bholds_scopes i3 d2 d3) d1 with ⟨W', r, S', lost', n', g', q1, q2, q3, q4, q5, q6⟩ | ⟨S', n', q1, q2⟩
        · exact .inl ⟨W', r, S', lost', n + n', g' ++ [x], hex.trans q1, .call e2 hy hm he hL' q2, q3, by omega, by rw [q5]; simp, adds_trans i5 q6⟩
        · exact .inr ⟨S', n + n', hex.trans q1, .call e2 hy hm he hL' q2⟩
    · refine .inr ⟨S₁, n, ?_, .callAbort e2⟩
      simp only [BWorld.exec, e1]; rfl
  | attempt body handler k ih ihh ih' =>
    intro W S lost f fs hl H hf
    obtain ⟨h1, h2, h3⟩ := hl
    rcases binner (ih (W := W.enter) (f := []) (fs := W.scopes) h1 (bholds_scopes H rfl rfl) rfl) hf with
      ⟨W₁, r, S₁, lost₁, n, g, e1, e2, _, e4, _, _, S₂, W₂, hL, k1, k2, k3, k4⟩ | ⟨S₁, n, e1, e2⟩
    · cases r with
      | some b =>
        have hex : W.exec Arith.exact chk nx T alloc (.attempt body handler k) = W₂.exec Arith.exact chk nx T alloc (k b) := by
          simp only [BWorld.exec, e1, res_ok_bind, k1]
        rcases ih' b (h2 S₁ S₂ b n e2 hL) k2 k3 with ⟨W', r, S', lost', n', g', q1, q2, q3, q4, q5, q6⟩ | ⟨S', n', q1, q2⟩
        · exact .inl ⟨W', r, S', lost', n + n', g', hex.trans q1, .attempt e2 hL q2, q3, by omega, q5, by simpa using adds_trans k4 q6⟩
        · exact .inr ⟨S', n + n', hex.trans q1, .attempt e2 hL q2⟩
      | none =>
        obtain ⟨h4, h5⟩ := h3 S₁ S₂ n e2 hL
        rcases binner (ihh (W := W₂.enter) (f := []) (fs := W₂.scopes) h4 (bholds_scopes k2 rfl rfl) rfl) k3 with
          ⟨W₃, r, S₃, lost₃, n₃, g₃, i1, i2, _, i4, _, _, S₄, W₄, hL', l1, l2, l3, l4⟩ | ⟨S₃, n₃, i1, i2⟩
        · cases r with
          | none =>
            refine .inl ⟨W₄, none, S₄, lost₃, n + n₃, [], ?_, .again e2 hL i2 hL', l2, by omega, l3, by simpa using adds_trans k4 l4⟩
            simp only [BWorld.exec, e1, res_ok_bind, k1, i1, l1]
          | some b =>
            have hex : W.exec Arith.exact chk nx T alloc (.attempt body handler k) = W₄.exec Arith.exact chk nx T alloc (k b) := by
              simp only [BWorld.exec, e1, res_ok_bind, k1, i1, l1]
            rcases ih' b (h5 S₃ S₄ b n₃ i2 hL') l2 l3 with ⟨W', r, S', lost', n', g', q1, q2, q3, q4, q5, q6⟩ | ⟨S', n', q1, q2⟩
            · exact .inl ⟨W', r, S', lost', n + n₃ + n', g', hex.trans q1, .handled e2 hL i2 hL' q2, q3, by omega, q5,
                by simpa using adds_trans (adds_trans k4 l4) q6⟩
            · exact .inr ⟨S', n + n₃ + n', hex.trans q1, .handled e2 hL i2 hL' q2⟩
        · refine .inr ⟨S₃, n + n₃, ?_, .handlerAbort e2 hL i2⟩
          simp only [BWorld.exec, e1, res_ok_bind, k1, i1]; rfl
    · refine .inr ⟨S₁, n, ?_, .tryAbort e2⟩
      simp only [BWorld.exec, e1]; rfl

end
end Jules

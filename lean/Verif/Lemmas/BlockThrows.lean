import Verif.Model.BlockThrows
import Verif.Spec.BlockThrows
import Verif.Lemmas.SafeBlockProgs
import Verif.Props.DebugThrows
/-
Lemmas for C90: one statement in builds where failed checks throw, compared with the same statement where they are fatal.
-/
namespace Jules
open Spec Props

section
variable {α : Type} {W : BWorld α} {S : MStore α} {lost : List Nat} {T : Nat → Bool} {alloc : Nat → List (Nat × Nat) → Nat → Option Nat} {nx : Bool} {U : Prop}

/-! ### The same values -/

theorem flat_throws (W : BWorld α) : W.flat Arith.exactThrows = W.flat Arith.exact := rfl

theorem usable_throws (W : BWorld α) (xs : List Nat) : W.usable Arith.exactThrows xs = W.usable Arith.exact xs := rfl

theorem newB_throws (d : List Nat) (src : Nat → Mem α → Res α) : newB Arith.exactThrows T nx alloc d src = newB Arith.exact T nx alloc d src := rfl

theorem clearB_throws (o : Own) : (clearB Arith.exactThrows o : BM α Unit) = clearB Arith.exact o := rfl

theorem setB_throws (o : Own) (src : FSrc α) : setB Arith.exactThrows T nx alloc o src = setB Arith.exact T nx alloc o src := rfl

theorem overlapWholeB_throws (o : Own) (src : FSrc α) : overlapWholeB Arith.exactThrows T nx alloc o src = overlapWholeB Arith.exact T nx alloc o src := rfl

theorem fsrc_throws (o : Obj) : (FSrc.ofObj Arith.exactThrows o : Res (FSrc α)) = FSrc.ofObj Arith.exact o := by
  unfold FSrc.ofObj
  rw [positions_throws]

theorem tw_fex {w : World α} (H : Intact w) : ∀ {e : FEx α}, (¬ U → ∀ p ∈ exChains (shapeE e), Good w p.1 p.2) →
    Tw U (e.eval Arith.exact true w) (e.eval Arith.exactThrows true w) fun _ => True
  | .arr x h, hT => tw_bind (tw_windex H x h fun t => hT t (x, h) (by simp [shapeE, exChains])) fun o _ _ => by
      rw [fsrc_throws]; exact tw_refl' _
  | .un f e, hT => tw_bind (tw_fex H (e := e) hT) fun _ _ _ => tw_ok trivial
  | .bin f a b, hT => tw_bind (tw_fex H (e := a) fun t p hp => hT t p (by simp [shapeE, exChains, hp])) fun _ _ _ =>
      tw_bind (tw_fex H (e := b) fun t p hp => hT t p (by simp [shapeE, exChains, hp])) fun _ _ _ => tw_refl' _
  | .scl f s e, hT => tw_bind (tw_sc H fun t p hp => hT t p (by simp [shapeE, exChains, hp])) fun _ _ _ => tw_bind (tw_refl' _) fun _ _ _ =>
      tw_bind (tw_fex H (e := e) fun t p hp => hT t p (by simp [shapeE, exChains, hp])) fun _ _ _ => tw_ok trivial
  | .scr f e s, hT => tw_bind (tw_fex H (e := e) fun t p hp => hT t p (by simp [shapeE, exChains, hp])) fun _ _ _ =>
      tw_bind (tw_sc H fun t p hp => hT t p (by simp [shapeE, exChains, hp])) fun _ _ _ => tw_bind (tw_refl' _) fun _ _ _ => tw_ok trivial

/-! ### Computations without assertions -/

/-- No assertion can fail. -/
def BNA (x : BM α γ) : Prop := ∀ p, x p ≠ .fail .assert

theorem bna_pure (b : γ) : BNA (pure b : BM α γ) := fun p h => by cases h

theorem bna_bind {γ δ : Type} {x : BM α γ} {k : γ → BM α δ} (hx : BNA x) (hk : ∀ b, BNA (k b)) : BNA (x >>= k) := by
  intro p h
  simp only [bm_bind, BM.bind] at h
  cases hr : x p with
  | ok b p' => rw [hr] at h; exact hk b p' h
  | exn p' => rw [hr] at h; cases h
  | fail f => rw [hr] at h; exact hx p (by rw [hr]; simpa using h)

theorem bna_bind' {γ δ : Type} {x : BM α γ} {k : γ → BM α δ} (hx : BNA x) (hk : ∀ b, BNA (k b)) : BNA (BM.bind x k) := bna_bind hx hk

theorem bna_reads {γ : Type} {g : Mem α → Res γ} (h : ∀ m, NoAssert (g m)) : BNA (BM.reads g) := by
  intro p hp
  unfold BM.reads at hp
  cases hg : g p.mem with
  | ok b => rw [hg] at hp; cases hp
  | error f =>
    rw [hg] at hp
    cases f with
    | assert => exact h _ hg
    | _ => cases hp

theorem bna_die {γ : Type} {f : Fail} (h : f ≠ .assert) : BNA (BM.die f : BM α γ) := fun p hp => by
  unfold BM.die at hp; cases hp; exact h rfl

theorem bna_mayThrow : BNA (mayThrow T : BM α Unit) := by
  intro p h; unfold mayThrow at h; split at h <;> cases h

theorem bna_cleanup {γ : Type} {x : BM α γ} {c : BM α Unit} (hx : BNA x) (hc : BNA c) : BNA (x.cleanup c) := by
  intro p h
  unfold BM.cleanup at h
  cases hr : x p with
  | ok b p' => rw [hr] at h; cases h
  | fail f => rw [hr] at h; exact hx p (by rw [hr]; simpa using h)
  | exn p' =>
    rw [hr] at h
    exact bna_bind' hc (k := fun _ => fun q => .exn q) (fun _ q hq => by cases hq) p' h

theorem bna_noexcept {γ : Type} {x : BM α γ} (hx : BNA x) : BNA (x.noexcept nx) := by
  intro p h
  unfold BM.noexcept at h
  cases hr : x p with
  | ok b p' => rw [hr] at h; cases h
  | fail f => rw [hr] at h; exact hx p (by rw [hr]; simpa using h)
  | exn p' =>
    rw [hr] at h
    dsimp only at h
    split at h <;> cases h

theorem bna_construct (q : Nat) (v : α) : BNA (constructB T nx q v) := by
  intro p h
  unfold constructB at h
  split at h
  · split at h
    · cases h
    · cases hr : mayThrow T p with
      | ok b p' => rw [hr] at h; cases h
      | fail f => rw [hr] at h; exact bna_mayThrow (T := T) p (by rw [hr]; simpa using h)
      | exn p' => rw [hr] at h; cases h
  · cases h

theorem bna_destroyN : ∀ (n b : Nat), BNA (destroyNB b n : BM α Unit)
  | 0, _ => bna_pure _
  | n + 1, b => bna_bind (fun p h => by unfold destroyB at h; split at h <;> cases h) fun _ => bna_destroyN n _

theorem bna_deallocate (b : Nat) : BNA (deallocateB b : BM α Unit) := fun p h => by unfold deallocateB at h; split at h <;> cases h

theorem bna_loopC {b : Nat} {src : Nat → Mem α → Res α} (h : ∀ k m, NoAssert (src k m)) : ∀ (n k : Nat), BNA (constructLoopB T nx b src k n)
  | 0, _ => bna_pure _
  | n + 1, k => bna_bind (bna_cleanup (bna_bind' (bna_reads (h k)) fun v => bna_construct _ v) (bna_destroyN _ _)) fun _ => bna_loopC h n _

theorem bna_allocate (n : Nat) : BNA (allocateB T alloc n : BM α Nat) :=
  bna_bind bna_mayThrow fun _ p h => by unfold takeB at h; split at h <;> cases h

theorem bna_new {d : List Nat} {src : Nat → Mem α → Res α} (h : ∀ k m, NoAssert (src k m)) : BNA (newB Arith.exact T nx alloc d src) :=
  bna_bind (bna_allocate _) fun _ => bna_bind (bna_cleanup (bna_noexcept (bna_loopC h _ _)) (bna_deallocate _)) fun _ => bna_pure _

theorem bna_clear (o : Own) : BNA (clearB Arith.exact o : BM α Unit) := by
  unfold clearB
  split
  · exact bna_pure _
  · exact bna_bind (bna_destroyN _ _) fun _ => bna_deallocate _

theorem bna_store (q : Nat) (v : α) : BNA (storeB q v) := by
  intro p h
  unfold storeB at h
  cases hr : p.mem.write q v with
  | ok m => rw [hr] at h; cases h
  | error f => rw [hr] at h; exact na_write p.mem q v (by rw [hr]; simpa using h)

theorem bna_loop {g : Nat → Nat → Mem α → Res (α × Bool)} (h : ∀ k p m, NoAssert (g k p m)) : ∀ (ps : List Nat) (k : Nat), BNA (loopB T g k ps)
  | [], _ => bna_pure _
  | q :: ps, k => bna_bind (bna_reads (h k q)) fun r => bna_bind bna_mayThrow fun _ => bna_bind (bna_store _ _) fun _ => by
      split
      · exact fun p hp => by cases hp
      · exact bna_loop h ps _

theorem na_called (o : Option α) : NoAssert (called o) := by cases o <;> exact fun h => by cases h

theorem na_fderef (m : Mem α) : ∀ (it : FIt α) (k : Nat), NoAssert (it.deref m k)
  | .cells ps, k => by
    simp only [FIt.deref]; split
    · exact na_read _ _
    · exact na_err (by simp)
  | .map f it, k => na_bind (na_fderef m it k) fun _ _ => na_called _
  | .zip f l r, k => na_bind (na_fderef m l k) fun _ _ => na_bind (na_fderef m r k) fun _ _ => na_called _

theorem na_pull (l : List (Option α)) (k : Nat) : NoAssert (pull l k) := by
  unfold pull
  split
  · exact na_called _
  · exact na_err (by simp)

theorem na_value (src : FSrc α) (k : Nat) (m : Mem α) : NoAssert (src.value k m) := na_bind (na_fderef m _ _) fun _ _ => na_ok _

theorem na_update (src : FSrc α) (op : α → α → α × Bool) (k p : Nat) (m : Mem α) : NoAssert (src.update op k p m) :=
  na_bind (na_read _ _) fun _ _ => na_bind (na_fderef m _ _) fun _ _ => na_ok _

theorem bna_set (o : Own) (src : FSrc α) : BNA (setB Arith.exact T nx alloc o src) := by
  unfold setB
  split
  · split
    · exact bna_die (by simp)
    · split
      · exact bna_die (by simp)
      · split
        · split
          · exact bna_pure _
          · exact bna_die (by simp)
        · exact bna_bind (bna_loop (fun k _ m => na_value src k m) _ _) fun _ => bna_pure _
  · exact bna_bind (bna_allocate _) fun _ => bna_bind (bna_noexcept (bna_loopC (fun k m => na_fderef m _ k) _ _)) fun _ => bna_bind (bna_clear _) fun _ => bna_pure _

theorem bna_overlapWhole (o : Own) (src : FSrc α) : BNA (overlapWholeB Arith.exact T nx alloc o src) :=
  bna_bind (bna_new fun k m => na_fderef m _ k) fun _ => bna_bind (bna_clear _) fun _ => bna_pure _

theorem bna_fill (o : Obj) (c : Scalar α) : BNA (fillB Arith.exact T o c) :=
  bna_bind (bna_reads fun _ => na_positions o) fun _ => bna_loop (fun _ _ m => na_bind (na_get m c) fun _ _ => na_ok _) _ _

theorem bna_inPlaceScalar (o : Obj) (op : α → α → α × Bool) (c : Scalar α) : BNA (inPlaceScalarB Arith.exact T o op c) :=
  bna_bind (bna_reads fun _ => na_positions o) fun _ =>
    bna_loop (fun _ _ m => na_bind (na_read _ _) fun _ _ => na_bind (na_get m c) fun _ _ => na_ok _) _ _

theorem na_needs (b : Bool) : NoAssert (needs b) := by cases b <;> exact fun h => by cases h

theorem bna_apply (o : Obj) (f : α → α × Bool) : BNA (applyB Arith.exact T o f) :=
  bna_bind (bna_reads fun _ => na_needs _) fun _ => bna_bind (bna_reads fun _ => na_positions o) fun _ =>
    bna_loop (fun _ _ m => na_bind (na_read _ _) fun _ _ => na_ok _) _ _

/-! ### The relation between the two builds -/

/-- The state, some events later. -/
def BWorld.later (W : BWorld α) (ck : Nat) : BWorld α := { W with pool := ⟨W.pool.mem, W.pool.blocks, W.pool.ruined, ck⟩ }

theorem later_self (W : BWorld α) : W.later W.pool.clock = W := rfl

/-- The same, no assertion having failed; or an assertion that is fatal in the one throws in the other, leaving all as it was; or terminates, only if `U`. -/
def RelB (U : Prop) (W : BWorld α) (r r' : Res (BWorld α × Bool)) : Prop :=
  (r' = r ∧ r ≠ .error .assert) ∨ (r = .error .assert ∧ ((∃ ck, r' = .ok (W.later ck, true)) ∨ (r' = .error .terminate ∧ U)))

theorem relB_refl {r : Res (BWorld α × Bool)} (h : r ≠ .error .assert) : RelB U W r r := .inl ⟨rfl, h⟩

theorem relB_throw {r' : Res (BWorld α × Bool)} (h : r' = .ok (W, true)) : RelB U W (.error .assert) r' := .inr ⟨rfl, .inl ⟨W.pool.clock, h⟩⟩

theorem relB_pre {γ : Type} {r : Res γ} {g g' : γ → Res (BWorld α × Bool)} (hn : r ≠ .error .assert) (h : ∀ b, r = .ok b → RelB U W (g b) (g' b)) :
    RelB U W (r >>= g) (r >>= g') := by
  cases hr : r with
  | ok b => exact h b hr
  | error f => exact relB_refl fun h => hn (by rw [hr]; simpa using h)

theorem relB_asserting {γ : Type} {r r' : Res γ} {P : γ → Prop} (h : Tw U r r' P) {g g' : γ → Res (BWorld α × Bool)} (hg : ∀ b, r = .ok b → P b → RelB U W (g b) (g' b)) :
    RelB U W (r >>= g) (W.asserting r' g' true) := by
  rcases h with ⟨rfl, h⟩ | ⟨rfl, rfl, h⟩
  · cases hr : r' with
    | ok b => exact hg b hr (h b hr)
    | error f =>
      cases f with
      | assert => exact relB_throw rfl
      | _ => exact relB_refl (by simp)
  · exact .inr ⟨rfl, .inr ⟨rfl, h⟩⟩

theorem relB_stored {x : Nat} {m : BM α Own} (h : BNA m) : RelB U W (W.stored x (m W.pool)) (W.stored x (m W.pool)) := by
  refine relB_refl fun hr => ?_
  cases hm : m W.pool with
  | ok o p => rw [hm] at hr; cases hr
  | exn p => rw [hm] at hr; cases hr
  | fail f => rw [hm] at hr; exact h _ (by rw [hm]; simpa [BWorld.stored] using hr)

theorem relB_wrote {m : BM α Unit} (h : BNA m) : RelB U W (W.wrote (m W.pool)) (W.wrote (m W.pool)) := by
  refine relB_refl fun hr => ?_
  cases hm : m W.pool with
  | ok o p => rw [hm] at hr; cases hr
  | exn p => rw [hm] at hr; cases hr
  | fail f => rw [hm] at hr; exact h _ (by rw [hm]; simpa [BWorld.wrote] using hr)


/-! ### Statements that assign to views -/

/-- No chain of the statement is the reason of a fatal failure. -/
def AllGood (W : BWorld α) (l : List (Nat × List Ix)) : Prop := ∀ p ∈ l, Good (W.flat Arith.exact) p.1 p.2

theorem tw_dest (H : BHolds W S lost) {x : Nat} {h : List Ix} (hU : ¬ U → Good (W.flat Arith.exact) x h) :
    Tw U ((W.flat Arith.exact).index Arith.exact true x h) ((W.flat Arith.exactThrows).index Arith.exactThrows true x h) fun _ => True :=
  tw_windex (holds_intact (bholds_flat H)) x h hU

theorem tw_src (H : BHolds W S lost) {e : FEx α} (hU : ¬ U → AllGood W (exChains (shapeE e))) :
    Tw U (e.eval Arith.exact true (W.flat Arith.exact)) (e.eval Arith.exactThrows true (W.flat Arith.exactThrows)) fun _ => True :=
  tw_fex (holds_intact (bholds_flat H)) hU

theorem tw_scal (H : BHolds W S lost) {s : Sc α} (hU : ¬ U → AllGood W (scChains s)) :
    Tw U (s.eval Arith.exact true (W.flat Arith.exact)) (s.eval Arith.exactThrows true (W.flat Arith.exactThrows)) fun _ => True :=
  tw_sc (holds_intact (bholds_flat H)) hU

theorem asserts_ok : (BM.reads fun _ => dbg true true : BM α Unit) = pure () := rfl

/-- The assertions of `array_assign`: only the first can fail, before anything has changed. -/
theorem assign_rel {o : Obj} {c : Arr} (hg : GoodObj c o) {src : FSrc α} {m₀ : Mem α} (hs : FGood m₀ src) (p : Pool α) :
    (assignBT Arith.exactThrows T o src p = assignB Arith.exact true T o src p ∧ assignB Arith.exact true T o src p ≠ .fail .assert) ∨
      (assignB Arith.exact true T o src p = .fail .assert ∧ assignBT Arith.exactThrows T o src p = .exn p) := by
  unfold assignBT assignB
  cases hd : o.dims with
  | none => exact .inl ⟨rfl, fun h => by cases h⟩
  | some d =>
    by_cases hl : src.dims.length = d.length
    · simp only
      rw [if_neg (by simpa using hl), if_neg (by simpa using hl)]
      by_cases hdd : src.dims = d
      · have h1 : (src.dims == d) = true := by simpa using hdd
        rw [h1, positions_throws]
        left
        cases hps : o.positions Arith.exact with
        | error f =>
          have hf : f ≠ .assert := fun h => na_positions o (by rw [hps, h])
          cases f <;> first | exact (hf rfl).elim | exact ⟨rfl, fun h => by cases h⟩
        | ok ps =>
          unfold GoodObj at hg
          rw [hps] at hg
          have hpl := (hg.2.2 d hd).2
          have hcnt : (src.it.count == some ps.length) = true := by rw [flive_count hs.2, hpl, hdd]; simp
          have hn := bna_loop (T := T) (g := fun k _ m => src.value k m) (fun k _ m => na_value src k m) ps 0 p
          simp only [bm_bind, BM.bind, BM.assertT, BM.reads, dbg_any_true, if_true, bm_pure]
          cases hlp : loopB T (fun k _ m => src.value k m) 0 ps p with
          | ok b p' => simp only [hcnt, dbg_any_true, if_true]; exact ⟨rfl, fun h => by cases h⟩
          | exn p' => exact ⟨rfl, fun h => by cases h⟩
          | fail f =>
            refine ⟨rfl, fun h => hn ?_⟩
            rw [hlp]; simpa using h
      · have h1 : (src.dims == d) = false := by simpa using hdd
        rw [h1]
        exact .inr ⟨rfl, rfl⟩
    · simp only
      rw [if_pos hl, if_pos hl]
      exact .inl ⟨rfl, fun h => by cases h⟩

theorem inPlace_rel {o : Obj} {op : α → α → α × Bool} {src : FSrc α} (p : Pool α) :
    (inPlaceBT Arith.exactThrows T o op src p = inPlaceB Arith.exact true T o op src p ∧ inPlaceB Arith.exact true T o op src p ≠ .fail .assert) ∨
      (inPlaceB Arith.exact true T o op src p = .fail .assert ∧ inPlaceBT Arith.exactThrows T o op src p = .exn p) := by
  unfold inPlaceBT inPlaceB
  cases hd : o.dims with
  | none => exact .inl ⟨rfl, fun h => by cases h⟩
  | some d =>
    by_cases hl : d.length = src.dims.length
    · simp only
      rw [if_neg (by simpa using hl), if_neg (by simpa using hl)]
      by_cases hdd : d = src.dims
      · have h1 : (d == src.dims) = true := by simpa using hdd
        rw [h1, positions_throws]
        refine .inl ⟨rfl, ?_⟩
        exact bna_bind (x := pure ()) (bna_pure _) (fun _ => bna_bind (bna_reads fun _ => na_positions o) fun ps =>
          bna_loop (fun k q m => na_update src op k q m) _ _) p
      · have h1 : (d == src.dims) = false := by simpa using hdd
        rw [h1]
        exact .inr ⟨rfl, rfl⟩
    · simp only
      rw [if_pos hl, if_pos hl]
      exact .inl ⟨rfl, fun h => by cases h⟩

theorem relB_wrote' {x x' : BOut α Unit} (h : (x' = x ∧ x ≠ .fail .assert) ∨ (x = .fail .assert ∧ ∃ ck, x' = .exn ⟨W.pool.mem, W.pool.blocks, W.pool.ruined, ck⟩)) :
    RelB U W (W.wrote x) (W.wrote x') := by
  rcases h with ⟨rfl, h⟩ | ⟨rfl, ck, rfl⟩
  · refine relB_refl fun hr => h ?_
    cases x' with
    | ok b p => cases hr
    | exn p => cases hr
    | fail f => simp only [BWorld.wrote, Except.error.injEq] at hr; rw [hr]
  · exact .inr ⟨rfl, .inl ⟨ck, rfl⟩⟩

theorem setMany_free {m : Mem α} {b : Nat} {ys : List α} {n : Nat} (hl : ys.length = n) (hn : ∀ i, i < n → m (b + i) = none) : (m.setMany b ys).free b n = m := by
  funext q
  unfold Mem.free
  split
  · next hq =>
    have := hn (q - b) (by omega)
    rw [show b + (q - b) = q by omega] at this
    exact this.symm
  · next hq => exact setMany_out (by rw [hl]; exact hq)

theorem overlap_rel [Nonempty α] (H : BHolds W S lost) (hal : GoodBlocks alloc) {o : Obj} {c : Arr} (hg : GoodObj c o) {src : FSrc α} (hs : FGood W.pool.mem src) :
    (overlapBT Arith.exactThrows T nx alloc o src W.pool = overlapB Arith.exact true T nx alloc o src W.pool ∧
      overlapB Arith.exact true T nx alloc o src W.pool ≠ .fail .assert) ∨
    (overlapB Arith.exact true T nx alloc o src W.pool = .fail .assert ∧
      ∃ ck, overlapBT Arith.exactThrows T nx alloc o src W.pool = .exn ⟨W.pool.mem, W.pool.blocks, W.pool.ruined, ck⟩) := by
  obtain ⟨f, hf⟩ := fgood_vals hs
  unfold overlapBT overlapB
  rw [newB_throws]
  simp only [bm_bind, BM.bind]
  rcases newB_vals H (T := T) hal (nx := nx) (d := src.dims) (src := fun k m => src.it.deref m k) hf with
    ⟨b, ys, ck, f1, f2, f3, f4, f5⟩ | ⟨ck', f1, _⟩ | ⟨f1, f2, f3⟩
  · obtain ⟨ts, g1, g2, g3, g4⟩ := temp_src (α := α) hs.1 b
    have hfn := fresh_none f1 (inBlocks_of H)
    have htg : FGood (W.pool.mem.setMany b ys) ts := by
      have hd : (Obj.cref b src.dims).dims = some src.dims := rfl
      have hp : (Obj.cref b src.dims).positions Arith.exact = .ok ((List.range (prod src.dims)).map (b + ·)) := by
        simp only [Obj.positions, prodL_exact]; rfl
      unfold FSrc.ofObj at g1
      rw [hd, hp] at g1
      cases g1
      refine ⟨hs.1, by simp, ?_⟩
      intro p hp
      obtain ⟨i, hi, rfl⟩ := List.mem_map.1 hp
      exact setMany_alive (by rw [f2]; exact List.mem_range.1 hi)
    rw [f5]
    have hread : ∀ k : FSrc α → BM α Unit, ((BM.reads fun _ => (.ok ts : Res (FSrc α))) >>= k) = k ts := fun _ => rfl
    simp only [BM.finally, Option.getD_some, fsrc_throws, g1, clearB_throws, hread]
    rcases assign_rel (T := T) hg htg ⟨W.pool.mem.setMany b ys, (b, prod src.dims) :: W.pool.blocks, W.pool.ruined, ck⟩ with ⟨e1, e2⟩ | ⟨e1, e2⟩
    · rw [e1]
      refine .inl ⟨rfl, ?_⟩
      cases hr : assignB Arith.exact true T o ts ⟨W.pool.mem.setMany b ys, (b, prod src.dims) :: W.pool.blocks, W.pool.ruined, ck⟩ with
      | ok u p' => exact bna_bind' (bna_clear _) (k := fun _ => fun q => .ok u q) (fun _ q hq => by cases hq) p'
      | exn p' => exact bna_bind' (bna_clear _) (k := fun _ => fun q => .exn q) (fun _ q hq => by cases hq) p'
      | fail e => intro h; exact e2 (by rw [hr]; simpa using h)
    · rw [e1, e2]
      refine .inr ⟨rfl, ck, ?_⟩
      have hclear := clearB_ok (m := W.pool.mem.setMany b ys) (bl := (b, prod src.dims) :: W.pool.blocks) (b := b) (ext := src.dims) (by simp)
        (ledger_leak (bholds_ledger H) f1).bases (fun i hi => setMany_alive (by rw [f2]; exact hi)) W.pool.ruined ck
      rw [fresh_filter f1, setMany_free f2 hfn] at hclear
      simp only [BM.bind, hclear]
  · rw [f1]; exact .inl ⟨rfl, fun h => by cases h⟩
  · rw [f1]; exact .inl ⟨rfl, fun h => by cases h⟩

/-! ### Statements with functions that may throw -/

theorem usable_na (xs : List Nat) : W.usable Arith.exact xs ≠ .error .assert := by
  unfold BWorld.usable; split <;> exact fun h => by cases h

theorem own_na (x : Nat) : W.own x ≠ .error .assert := by
  unfold BWorld.own; split <;> exact fun h => by cases h

theorem sameRank_na (o : Own) (d : List Nat) : sameRank o d ≠ .error .assert := by
  unfold sameRank; split <;> exact fun h => by cases h

theorem relB_set (H : BHolds W S lost) {x : Nat} {e : FEx α} (hU : ¬ U → AllGood W (exChains (shapeE e))) :
    RelB U W (W.fstep Arith.exact true nx T alloc (.set x e)) (W.fstepT Arith.exactThrows nx T alloc (.set x e)) := by
  have main : ∀ o : Own, RelB U W (e.eval Arith.exact true (W.flat Arith.exact) >>= fun src => sameRank o src.dims >>= fun _ =>
      W.stored x (setB Arith.exact T nx alloc o src W.pool)) (W.asserting (e.eval Arith.exactThrows true (W.flat Arith.exactThrows))
        (fun src => sameRank o src.dims >>= fun _ => W.stored x (setB Arith.exactThrows T nx alloc o src W.pool)) true) := fun o =>
    relB_asserting (tw_src H hU) fun src _ _ => relB_pre (sameRank_na _ _) fun _ _ => relB_stored (bna_set o src)
  cases e with
  | arr y h =>
    cases h with
    | nil =>
      simp only [BWorld.fstep, BWorld.fstepT]
      refine relB_pre (own_na _) fun o _ => ?_
      split
      · exact relB_refl (by simp)
      · exact relB_pre (usable_na _) fun _ _ => main o
    | cons i h => exact relB_pre (own_na _) fun o _ => relB_pre (usable_na _) fun _ _ => main o
  | _ => exact relB_pre (own_na _) fun o _ => relB_pre (usable_na _) fun _ _ => main o

theorem relB_alike [Nonempty α] (H : BHolds W S lost) (hal : GoodBlocks alloc) {s : FStmt α} {t : Stmt α} (ha : Alike s t) {Γ' : Ctx}
    (hc : check (sctx S) t = some Γ') (hp : (∀ x l ext, t ≠ .makeFrom x l ext) → Provided t) (hd : ∀ x, S.moved x ≠ none → ¬ Misuses x (.old t))
    (hU : ¬ U → AllGood W (chains t)) :
    RelB U W (W.fstep Arith.exact true nx T alloc s) (W.fstepT Arith.exactThrows nx T alloc s) := by
  have live : ∀ {x : Nat}, Misuses x (.old t) → S.moved x = none := fun h => by
    by_contra hn; exact hd _ hn h
  cases ha with
  | make he =>
    exact relB_pre (na_needs _) fun _ _ => relB_pre (usable_na _) fun _ _ => relB_asserting (tw_src H fun u p hp => hU u p (by rw [he.chains] at hp; exact hp))
      fun src _ _ => relB_stored (bna_new fun k m => na_fderef m _ k)
  | makeFrom hl =>
    exact relB_pre (na_needs _) fun _ _ => relB_pre (na_needs _) fun _ _ => relB_stored (bna_new fun k _ => na_pull _ k)
  | assign he =>
    rename_i x h e e'
    have hp : StepsOK h ∧ ExSteps e' := hp (by intro _ _ _ h; cases h)
    obtain ⟨h1, rfl⟩ := check_when hc
    simp only [Bool.and_eq_true] at h1
    have hv := h1.2
    rw [← he.order] at hv
    obtain ⟨t1, t2⟩ := viewTyped_kind hv
    refine relB_pre (na_needs _) fun _ _ => relB_pre (usable_na _) fun _ _ => relB_asserting (tw_dest H fun u => hU u (x, h) (by simp [chains])) fun o ho _ =>
      relB_asserting (tw_src H fun u p hp => hU u p (by rw [he.chains] at hp; simp [chains, hp])) fun src hs _ => ?_
    rcases dest_cases H t1 (live (.inl rfl)) hp.1 with ⟨o', k1, a, c, _, _, _, hgo, _⟩ | k1
    · rw [ho] at k1; cases k1
      rcases src_cases H t2 (fun z hz => live (.inr (he.uses z hz))) (he.steps hp.2) with ⟨src', k2, hgs, _⟩ | k2
      · rw [hs] at k2; cases k2
        refine relB_wrote' ((assign_rel hgo hgs W.pool).imp id fun q => ⟨q.1, W.pool.clock, q.2⟩)
      · rw [hs] at k2; cases k2
    · rw [ho] at k1; cases k1
  | inPlace he =>
    rename_i x h op op' e e'
    exact relB_pre (usable_na _) fun _ _ => relB_asserting (tw_dest H fun u => hU u (x, h) (by simp [chains])) fun o _ _ =>
      relB_asserting (tw_src H fun u p hp => hU u p (by rw [he.chains] at hp; simp [chains, hp])) fun src _ _ =>
        relB_wrote' ((inPlace_rel W.pool).imp id fun q => ⟨q.1, W.pool.clock, q.2⟩)
  | inPlaceScalar =>
    rename_i x h op op' s
    refine relB_pre (usable_na _) fun _ _ => relB_asserting (tw_dest H fun u => hU u (x, h) (by simp [chains])) fun o _ _ =>
      relB_asserting (tw_scal H fun u p hp => hU u p (by simp [chains, hp])) fun c _ _ => ?_
    have : inPlaceScalarB Arith.exactThrows T o op c = inPlaceScalarB Arith.exact T o op c := by unfold inPlaceScalarB; rw [positions_throws]
    rw [this]
    exact relB_wrote (bna_inPlaceScalar o op c)
  | apply =>
    rename_i x h f f'
    refine relB_pre (usable_na _) fun _ _ => relB_asserting (tw_dest H fun u => hU u (x, h) (by simp [chains])) fun o _ _ => ?_
    have : applyB Arith.exactThrows T o f = applyB Arith.exact T o f := by unfold applyB; rw [positions_throws]
    rw [this]
    exact relB_wrote (bna_apply o f)
  | overlap he =>
    rename_i x h e e'
    have hp : StepsOK h ∧ ExSteps e' := hp (by intro _ _ _ h; cases h)
    obtain ⟨h1, rfl⟩ := check_when hc
    simp only [Bool.and_eq_true] at h1
    have hv := h1.2
    rw [← he.order] at hv
    obtain ⟨t1, t2⟩ := viewTyped_kind hv
    refine relB_pre (na_needs _) fun _ _ => relB_pre (usable_na _) fun _ _ => relB_asserting (tw_dest H fun u => hU u (x, h) (by simp [chains])) fun o ho _ =>
      relB_asserting (tw_src H fun u p hp => hU u p (by rw [he.chains] at hp; simp [chains, hp])) fun src hs _ => ?_
    rcases dest_cases H t1 (live (.inl rfl)) hp.1 with ⟨o', k1, a, c, _, _, _, hgo, _⟩ | k1
    · rw [ho] at k1; cases k1
      rcases src_cases H t2 (fun z hz => live (.inr (he.uses z hz))) (he.steps hp.2) with ⟨src', k2, hgs, _⟩ | k2
      · rw [hs] at k2; cases k2
        exact relB_wrote' (overlap_rel H hal hgo hgs)
      · rw [hs] at k2; cases k2
    · rw [ho] at k1; cases k1
  | overlapWhole he =>
    rename_i x e e'
    exact relB_pre (own_na _) fun o _ => relB_pre (usable_na _) fun _ _ =>
      relB_asserting (tw_src H fun u p hp => hU u p (by rw [he.chains] at hp; exact hp)) fun src _ _ =>
        relB_pre (sameRank_na _ _) fun _ _ => relB_stored (bna_overlapWhole o src)
  | set he => exact relB_set H fun u p hp => hU u p (by rw [he.chains] at hp; exact hp)

end
end Jules

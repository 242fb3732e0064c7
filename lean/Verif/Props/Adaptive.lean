import Verif.Spec.Adaptive
import Verif.Props.Program
import Mathlib.Data.Rat.Defs
import Mathlib.Algebra.Field.Rat
import Mathlib.Algebra.BigOperators.Group.List.Basic
import Mathlib.Algebra.Field.Basic
import Mathlib.Tactic.Set
/-
C75: programs with control flow, default-constructed and moved-from arrays.
-/
namespace Jules.Props
open Jules Spec

section
variable {α β : Type}

/-! ### States -/

theorem holds_same {w w' : World α} {A : AStore α} (H : HoldsStore w A) (hm : w'.mem = w.mem) (he : w'.env = w.env) : HoldsStore w' A := by
  obtain ⟨m, e, k⟩ := w
  obtain ⟨m', e', k'⟩ := w'
  cases hm; cases he
  exact holds_clock H k'

/-- The array `y` gets the name `x`. -/
theorem holds_rename {w w' : World α} {A A' : AStore α} (H : HoldsStore w A) {x y : Nat} (hxy : x ≠ y) (hAx : A x = none) {c : Arr}
    (hy : w.env y = some c) (hm : w'.mem = w.mem) (hex : w'.env x = some c) (hey : w'.env y = none)
    (heo : ∀ z, z ≠ x → z ≠ y → w'.env z = w.env z) (hx' : A' x = A y) (hy' : A' y = none) (ho : ∀ z, z ≠ x → z ≠ y → A' z = A z) :
    HoldsStore w' A' := by
  have back : ∀ z d, w'.env z = some d → z ≠ y ∧ w.env (if z = x then y else z) = some d := by
    intro z d hz
    have hzy : z ≠ y := by rintro rfl; rw [hey] at hz; cases hz
    refine ⟨hzy, ?_⟩
    by_cases hzx : z = x
    · rw [if_pos hzx, hy]; rw [hzx, hex] at hz; exact hz
    · rw [if_neg hzx, ← heo z hzx hzy, hz]
  constructor
  · intro z a ha
    by_cases hzx : z = x
    · subst hzx
      rw [hx'] at ha
      obtain ⟨h1, c', h2, h3, h4⟩ := H.arr y a ha
      rw [hy] at h2; cases h2
      exact ⟨h1, c, hex, h3, by rw [hm]; exact h4⟩
    · by_cases hzy : z = y
      · rw [hzy, hy'] at ha; cases ha
      · rw [ho z hzx hzy] at ha
        obtain ⟨h1, c', h2, h3, h4⟩ := H.arr z a ha
        exact ⟨h1, c', by rw [heo z hzx hzy, h2], h3, by rw [hm]; exact h4⟩
  · intro z hz
    by_cases hzx : z = x
    · rw [hzx, hx'] at hz
      rw [H.out y hz] at hy; cases hy
    · by_cases hzy : z = y
      · rw [hzy, hey]
      · rw [ho z hzx hzy] at hz
        rw [heo z hzx hzy, H.out z hz]
  · intro z1 z2 c1 c2 q hne h1 h2
    obtain ⟨n1, b1⟩ := back z1 c1 h1
    obtain ⟨n2, b2⟩ := back z2 c2 h2
    refine H.sep _ _ c1 c2 q ?_ b1 b2
    by_cases e1 : z1 = x
    · by_cases e2 : z2 = x
      · exact (hne (e1.trans e2.symm)).elim
      · rw [if_pos e1, if_neg e2]; exact fun h => n2 h.symm
    · by_cases e2 : z2 = x
      · rw [if_neg e1, if_pos e2]; exact n1
      · rw [if_neg e1, if_neg e2]; exact hne
  · intro q hq
    rw [hm] at hq
    obtain ⟨z, d, h1, h2⟩ := H.only q hq
    by_cases hzy : z = y
    · subst hzy
      rw [hy] at h1; cases h1
      exact ⟨x, c, hex, h2⟩
    · have hzx : z ≠ x := by rintro rfl; rw [H.out z hAx] at h1; cases h1
      exact ⟨z, d, by rw [heo z hzx hzy, h1], h2⟩
  · obtain ⟨B, hB⟩ := H.finite
    exact ⟨B, by rw [hm]; exact hB⟩

/-- A new name for an array without elements. -/
theorem holds_empty {w : World α} {A A' : AStore α} (H : HoldsStore w A) {x : Nat} (hA : A x = none) {d : List Nat} (hd : d ≠ []) (h0 : prod d = 0)
    {f : List Nat → Option α} (hw : Becomes A x d f A') (b : Nat) : HoldsStore (w.bind w.mem x (some ⟨b, d⟩)) A' := by
  have hx := H.out x hA
  have hno : ∀ i, ¬ InB d i := fun i hi => by have := cmSum_lt hi; omega
  have hcov : ∀ q, ¬ Covers (cells ⟨b, d⟩) q := fun q ⟨i, hi, _⟩ => hno i hi
  refine holds_replace H hd rfl (fun i hi => (hno i hi).elim) ?_ (fun _ _ _ => rfl) (fun q hq => (hcov q hq).elim) hw
  intro q hq
  exact .inl ⟨hq, by rw [hx]; intro c h; cases h⟩

theorem sc_live {A : AStore α} {s : Sc α} (h : ScLegal A s) : ∀ x ∈ s.uses, A x ≠ none := by
  cases s with
  | const c => simp [Sc.uses]
  | elem x h' => obtain ⟨a, v, ha, _⟩ := h; simp [Sc.uses, ha]

theorem ex_live {A : AStore α} {d : List Nat} : ∀ {e : PEx α}, ExLegal A d e → ∀ x ∈ e.uses, A x ≠ none
  | .arr x h, ⟨a, v, ha, _⟩ => by simp [PEx.uses, ha]
  | .un f e, h => ex_live (e := e) h
  | .bin f a b, ⟨h1, h2⟩ => by
    intro x hx
    rcases List.mem_append.1 hx with h | h
    · exact ex_live h1 x h
    · exact ex_live h2 x h
  | .scl f s e, ⟨h1, h2⟩ => by
    intro x hx
    rcases List.mem_append.1 hx with h | h
    · exact sc_live h1 x h
    · exact ex_live h2 x h
  | .scr f e s, ⟨h1, h2⟩ => by
    intro x hx
    rcases List.mem_append.1 hx with h | h
    · exact ex_live h1 x h
    · exact sc_live h2 x h

variable {W : MWorld α} {S : MStore α}

theorem not_gone (H : MHolds W S) {xs : List Nat} (h : ∀ x ∈ xs, S.live x ≠ none) : W.anyGone xs = false := by
  unfold MWorld.anyGone
  rw [List.any_eq_false]
  intro x hx
  rw [H.gone]
  cases hm : S.moved x with
  | none => simp
  | some d => exact (h x hx (H.moved x d hm).1).elim

theorem live_not_moved (H : MHolds W S) {x : Nat} (h : S.live x ≠ none) : S.moved x = none := by
  cases hm : S.moved x with
  | none => rfl
  | some d => exact (h (H.moved x d hm).1).elim

/-- Only the live arrays have changed. -/
theorem holds_live (H : MHolds W S) {w' : World α} {S' : MStore α} (h : HoldsStore w' S'.live) (hm : S'.moved = S.moved)
    (hn : ∀ x, S.live x = none → S.moved x ≠ none → S'.live x = none) : MHolds ⟨w', W.gone⟩ S' where
  store := h
  gone := by rw [hm]; exact H.gone
  moved x d hx := by
    rw [hm] at hx
    obtain ⟨h1, h2⟩ := H.moved x d hx
    exact ⟨hn x h1 (by rw [hx]; simp), h2⟩

theorem writes_names {A A' : AStore α} {x : Nat} {h : List Ix} {f : List Nat → Option α} (hw : Writes A x h f A') (z : Nat) (hz : A z = none) : A' z = none := by
  obtain ⟨h1, a, a', v, h2, _⟩ := hw
  have : z ≠ x := by rintro rfl; rw [hz] at h2; cases h2
  rw [h1 z this, hz]

/-- A statement that is legal on the live arrays and has no effect on which other names are in scope. -/
theorem mstep_old (H : MHolds W S) {s : Stmt α} (hs : StmtLegal S.live s) (chk : Bool) {alloc : Nat → Mem α → Nat → Nat} (hal : GoodAlloc alloc)
    (hn : ∀ A' z, Effect S.live s A' → S.live z = none → S.moved z ≠ none → A' z = none) :
    ∃ w', W.w.step Arith.exact chk alloc s = .ok w' ∧ ∀ S', S'.moved = S.moved → Effect S.live s S'.live → MHolds ⟨w', W.gone⟩ S' := by
  obtain ⟨w', h1, h2⟩ := stmt_ok H.store hs chk hal
  exact ⟨w', h1, fun S' hm he => holds_live H (h2 _ he) hm fun z => hn _ z he⟩

theorem mark_ne (g : Nat → Option (List Nat)) {x z : Nat} (h : z ≠ x) (d : Option (List Nat)) : MWorld.mark g x d z = g z := by
  simp [MWorld.mark, h]

theorem mark_eq (g : Nat → Option (List Nat)) (x : Nat) (d : Option (List Nat)) : MWorld.mark g x d x = d := by
  simp [MWorld.mark]

/-- The moved-from array `x` gets a new value. -/
theorem revive_ok (H : MHolds W S) {x : Nat} {d d' : List Nat} (hx : S.moved x = some d) {e : PEx α} (hlen : d'.length = d.length)
    (he : ExLegal S.live d' e) {into : Bool} (hsz : into = true → prod d' ≠ prod d) (chk : Bool) {alloc : Nat → Mem α → Nat → Nat} (hal : GoodAlloc alloc) :
    ∃ W', W.revive Arith.exact chk alloc x d e into = .ok W' ∧
      ∀ S', Others S [x] S' → S'.moved x = none → (∃ d, ExLegal S.live d e ∧ Becomes S.live x d (exVal S.live e) S'.live) → MHolds W' S' := by
  obtain ⟨hl, hne, _⟩ := H.moved x d hx
  have hd' : d' ≠ [] := by rintro rfl; exact hne (List.length_eq_zero_iff.1 hlen.symm)
  obtain ⟨e', s, h1, hE⟩ := ex_ok H.store hd' chk he
  obtain ⟨src, hb, hy⟩ := build_ok (chk := chk) hE.denotes hE.exts
  obtain ⟨w', g1, g2⟩ := stmt_ok H.store (s := .make x e) ⟨hl, d', hd', he⟩ chk hal
  refine ⟨⟨w', MWorld.mark W.gone x none⟩, ?_, fun S' ho hm hb => ⟨g2 _ hb, ?_, ?_⟩⟩
  · have hc : (into && prodL Arith.exact d == prodL Arith.exact d') = false := by
      cases into with
      | false => rfl
      | true => simp only [prodL_exact, Bool.true_and, beq_eq_false_iff_ne, ne_eq]; exact fun h => hsz rfl h.symm
    have hs : sameOrder ⟨0, d⟩ src.dims = .ok () := by simp [sameOrder, hy.dims, hlen]
    unfold MWorld.revive
    rw [h1, res_ok_bind, hb, res_ok_bind, hs, res_ok_bind, hy.dims, hc]
    simp only [Bool.false_eq_true, if_false, g1, res_ok_bind]
  · funext z
    dsimp only
    by_cases hz : z = x
    · rw [hz, mark_eq, hm]
    · rw [mark_ne _ hz, H.gone, (ho z (by simpa using hz)).2]
  · intro z dz hz
    have hzx : z ≠ x := by rintro rfl; rw [hm] at hz; cases hz
    have hoz := ho z (by simpa using hzx)
    rw [hoz.2] at hz
    rw [hoz.1]
    exact H.moved z dz hz

theorem order_get (H : MHolds W S) {x n : Nat} (h : HasOrder S x n) :
    (∃ a c, S.live x = some a ∧ S.moved x = none ∧ W.gone x = none ∧ W.w.env x = some c ∧ c.ext = a.ext ∧ a.ext.length = n ∧ a.ext ≠ []) ∨
    (∃ d, S.live x = none ∧ S.moved x = some d ∧ W.gone x = some d ∧ W.w.env x = none ∧ d.length = n) := by
  rcases h with ⟨a, ha, hn⟩ | ⟨d, hd, hn⟩
  · left
    have hm := live_not_moved H (x := x) (by rw [ha]; simp)
    obtain ⟨h1, c, h2, h3, _⟩ := H.store.arr x a ha
    exact ⟨a, c, ha, hm, by rw [H.gone, hm], h2, h3, hn, h1⟩
  · right
    have hl := (H.moved x d hd).1
    exact ⟨d, hl, hd, by rw [H.gone, hd], H.store.out x hl, hn⟩

/-- One statement. -/
theorem mstep_ok (H : MHolds W S) {s : MStmt α} (hs : MLegal S s) (chk : Bool) {alloc : Nat → Mem α → Nat → Nat} (hal : GoodAlloc alloc) :
    ∃ W', W.step Arith.exact chk alloc s = .ok W' ∧ ∀ S', MEffect S s S' → MHolds W' S' := by
  cases s with
  | declare x n =>
    obtain ⟨⟨hl, hm⟩, hn⟩ := hs
    have hx := H.store.out x hl
    refine ⟨⟨W.w.bind W.w.mem x (some ⟨0, List.replicate n 0⟩), W.gone⟩, ?_, ?_⟩
    · simp [MWorld.step, H.gone, hm, hx, needs, hn]
    · rintro S' ⟨h1, h2⟩
      have hne : List.replicate n 0 ≠ [] := by simp [hn]
      have h0 : prod (List.replicate n 0) = 0 := by
        cases n with
        | zero => exact (hn rfl).elim
        | succ n => simp [List.replicate_succ, prod]
      refine holds_live H (holds_empty H.store hl hne h0 h2 0) h1 fun z hz hmz => ?_
      have : z ≠ x := by rintro rfl; exact hmz hm
      rw [h2.1 z this, hz]
  | moveMake x y =>
    obtain ⟨⟨hl, hm⟩, n, hn⟩ := hs
    have hx := H.store.out x hl
    have hgx : W.gone x = none := by rw [H.gone, hm]
    rcases order_get H hn with ⟨a, c, ha, hmy, hgy, hcy, hce, _, hane⟩ | ⟨d, hly, hmy, hgy, hey, _⟩
    · have hxy : x ≠ y := by rintro rfl; rw [hl] at ha; cases ha
      by_cases h0 : prod a.ext = 0
      · refine ⟨⟨(W.w.bind W.w.mem x (some c)).bind W.w.mem y (some ⟨0, c.ext⟩), W.gone⟩, ?_, ?_⟩
        · simp [MWorld.step, hgx, hx, hgy, needs, World.get, hcy, prodL_exact, hce, h0]
        · rintro S' ⟨e1, e2, e3, e4⟩
          have hy' : S'.live y = some a ∧ S'.moved y = none := by
            rcases e4 with ⟨d, q, _⟩ | ⟨a', q1, q2⟩
            · rw [hmy] at q; cases q
            · rw [ha] at q1; cases q1; rw [if_pos h0] at q2; exact q2
          -- first `x` as an empty array, then exchange the two
          let A1 : AStore α := fun z => if z = x then some a else S.live z
          have hb : Becomes S.live x a.ext (fun _ => none) A1 :=
            ⟨fun z hz => by simp [A1, hz], a, by simp [A1], rfl, fun i hi => by have := cmSum_lt hi; omega⟩
          have H1 := holds_empty H.store hl hane h0 hb 0
          have hx1 : (W.w.bind W.w.mem x (some ⟨0, a.ext⟩)).env x = some ⟨0, a.ext⟩ := by simp [World.bind]
          have hy1 : (W.w.bind W.w.mem x (some ⟨0, a.ext⟩)).env y = some c := by simp [World.bind, hxy.symm, hcy]
          have H2 := holds_swap H1 hxy hx1 hy1 (A' := S'.live)
            (fun z hzx hzy => by rw [(e1 z (by simp [hzx, hzy])).1]; simp [A1, hzx])
            (by rw [e2]; simp [A1, hxy.symm]) (by rw [hy'.1]; simp [A1])
          have hm' : S'.moved = S.moved := by
            funext z
            by_cases hzx : z = x
            · rw [hzx, e3, hmy, hm]
            · by_cases hzy : z = y
              · rw [hzy, hy'.2, hmy]
              · exact (e1 z (by simp [hzx, hzy])).2
          refine holds_live H (holds_same H2 rfl ?_) hm' fun z hz hmz => ?_
          · funext z
            simp only [World.bind, hce]
            by_cases hzy : z = y
            · simp [hzy]
            · by_cases hzx : z = x
              · simp [hzx, hxy]
              · simp [hzy, hzx]
          · have hzx : z ≠ x := by rintro rfl; exact hmz hm
            have hzy : z ≠ y := by rintro rfl; rw [ha] at hz; cases hz
            rw [(e1 z (by simp [hzx, hzy])).1, hz]
      · refine ⟨⟨(W.w.bind W.w.mem x (some c)).bind W.w.mem y none, MWorld.mark W.gone y (some c.ext)⟩, ?_, ?_⟩
        · simp [MWorld.step, hgx, hx, hgy, needs, World.get, hcy, prodL_exact, hce, h0]
        · rintro S' ⟨e1, e2, e3, e4⟩
          have hy' : S'.live y = none ∧ S'.moved y = some a.ext := by
            rcases e4 with ⟨d, q, _⟩ | ⟨a', q1, q2⟩
            · rw [hmy] at q; cases q
            · rw [ha] at q1; cases q1; rw [if_neg h0] at q2; exact q2
          refine ⟨holds_rename H.store hxy hl hcy rfl (by simp [World.bind, hxy]) (by simp [World.bind])
            (fun z h1 h2 => by simp [World.bind, h1, h2]) e2 hy'.1 (fun z h1 h2 => (e1 z (by simp [h1, h2])).1), ?_, ?_⟩
          · funext z
            dsimp only
            by_cases hzy : z = y
            · rw [hzy, mark_eq, hy'.2, hce]
            · rw [mark_ne _ hzy, H.gone]
              by_cases hzx : z = x
              · rw [hzx, e3, hmy, hm]
              · rw [(e1 z (by simp [hzx, hzy])).2]
          · intro z dz hz
            by_cases hzy : z = y
            · rw [hzy, hy'.2] at hz; cases hz
              exact ⟨by rw [hzy, hy'.1], hane, h0⟩
            · by_cases hzx : z = x
              · rw [hzx, e3, hmy] at hz; cases hz
              · have ho := e1 z (by simp [hzx, hzy])
                rw [ho.2] at hz
                rw [ho.1]
                exact H.moved z dz hz
    · have hxy : x ≠ y := by rintro rfl; rw [hm] at hmy; cases hmy
      refine ⟨⟨W.w, MWorld.mark W.gone x (some d)⟩, ?_, ?_⟩
      · simp [MWorld.step, hgx, hx, hgy, needs]
      · rintro S' ⟨e1, e2, e3, e4⟩
        have hy' : S'.live y = none ∧ S'.moved y = some d := by
          rcases e4 with ⟨d', q, q1, q2⟩ | ⟨a', q1, q2⟩
          · rw [hmy] at q; cases q; exact ⟨q2, q1⟩
          · rw [hly] at q1; cases q1
        have hlive : S'.live = S.live := by
          funext z
          by_cases hzx : z = x
          · rw [hzx, e2, hly, hl]
          · by_cases hzy : z = y
            · rw [hzy, hy'.1, hly]
            · exact (e1 z (by simp [hzx, hzy])).1
        refine ⟨by rw [hlive]; exact H.store, ?_, ?_⟩
        · funext z
          dsimp only
          by_cases hzx : z = x
          · rw [hzx, mark_eq, e3, hmy]
          · rw [mark_ne _ hzx, H.gone]
            by_cases hzy : z = y
            · rw [hzy, hy'.2, hmy]
            · rw [(e1 z (by simp [hzx, hzy])).2]
        · intro z dz hz
          rw [hlive]
          by_cases hzx : z = x
          · subst hzx
            rw [e3, hmy] at hz; cases hz
            exact ⟨hl, (H.moved y d hmy).2⟩
          · by_cases hzy : z = y
            · subst hzy
              rw [hy'.2] at hz; cases hz
              exact H.moved z d hmy
            · rw [(e1 z (by simp [hzx, hzy])).2] at hz
              exact H.moved z dz hz
  | old s =>
    -- declarations and elementwise statements
    have declare : ∀ {x : Nat}, S.moved x = none → StmtLegal S.live s → s.declares = some x → (∀ z ∈ s.uses, S.live z ≠ none) →
        (∀ A', Effect S.live s A' → ∀ z, z ≠ x → A' z = S.live z) →
        ∃ w', (if W.anyGone s.declares.toList then Except.error .illFormed else if W.anyGone s.uses then .error .ub else do
          let w' ← W.w.step Arith.exact chk alloc s
          .ok (⟨w', W.gone⟩ : MWorld α)) = .ok ⟨w', W.gone⟩ ∧ ∀ S', S'.moved = S.moved → Effect S.live s S'.live → MHolds ⟨w', W.gone⟩ S' := by
      intro x hm hl hd hu ho
      have hdg : W.anyGone s.declares.toList = false := by
        rw [hd]; simp [MWorld.anyGone, H.gone, hm]
      obtain ⟨w', h1, h2⟩ := mstep_old H hl chk hal (fun A' z he hz hmz => by
        have : z ≠ x := by rintro rfl; exact hmz hm
        rw [ho A' he z this, hz])
      exact ⟨w', by rw [hdg, not_gone H hu, if_neg (by simp), if_neg (by simp), h1, res_ok_bind], h2⟩
    have write : StmtLegal S.live s → s.declares = none → (∀ z ∈ s.uses, S.live z ≠ none) →
        (∀ A', Effect S.live s A' → ∀ z, S.live z = none → A' z = none) →
        ∃ w', (if W.anyGone s.declares.toList then Except.error .illFormed else if W.anyGone s.uses then .error .ub else do
          let w' ← W.w.step Arith.exact chk alloc s
          .ok (⟨w', W.gone⟩ : MWorld α)) = .ok ⟨w', W.gone⟩ ∧ ∀ S', S'.moved = S.moved → Effect S.live s S'.live → MHolds ⟨w', W.gone⟩ S' := by
      intro hl hd hu ho
      have hdg : W.anyGone s.declares.toList = false := by rw [hd]; simp [MWorld.anyGone]
      obtain ⟨w', h1, h2⟩ := mstep_old H hl chk hal (fun A' z he hz _ => ho A' he z hz)
      exact ⟨w', by rw [hdg, not_gone H hu, if_neg (by simp), if_neg (by simp), h1, res_ok_bind], h2⟩
    cases s with
    | make x e =>
      obtain ⟨hm, hl⟩ := hs
      have hl' := hl
      obtain ⟨_, d, _, he⟩ := hl'
      obtain ⟨w', h1, h2⟩ := declare hm hl rfl (ex_live he) (fun A' ⟨d, _, hw⟩ z hz => hw.1 z hz)
      exact ⟨_, by rw [← h1]; rfl, fun S' ⟨a, b⟩ => h2 S' a b⟩
    | makeFill x s ext =>
      obtain ⟨hm, hl⟩ := hs
      obtain ⟨w', h1, h2⟩ := declare hm hl rfl (sc_live hl.2.2) (fun A' hw z hz => hw.1 z hz)
      exact ⟨_, by rw [← h1]; rfl, fun S' ⟨a, b⟩ => h2 S' a b⟩
    | makeFrom x l ext =>
      obtain ⟨hm, hl⟩ := hs
      obtain ⟨w', h1, h2⟩ := declare hm hl rfl (by simp [Stmt.uses]) (fun A' hw z hz => hw.1 z hz)
      exact ⟨_, by rw [← h1]; rfl, fun S' ⟨a, b⟩ => h2 S' a b⟩
    | fill x h s =>
      have hl : StmtLegal S.live (.fill x h s) := hs
      have hl' := hl
      obtain ⟨_, hsc, a, v, ha, _⟩ := hl'
      obtain ⟨w', h1, h2⟩ := write hl rfl
        (by intro z hz; rcases List.mem_cons.1 hz with rfl | hz; · rw [ha]; simp
            · exact sc_live hsc z hz)
        (fun A' hw z hz => writes_names hw z hz)
      exact ⟨_, by rw [← h1]; rfl, fun S' ⟨a, b⟩ => h2 S' a b⟩
    | assign x h e =>
      have hl : StmtLegal S.live (.assign x h e) := hs
      have hl' := hl
      obtain ⟨_, a, v, ha, _, _, _, hsc, _⟩ := hl'
      obtain ⟨w', h1, h2⟩ := write hl rfl
        (by intro z hz; rcases List.mem_cons.1 hz with rfl | hz; · rw [ha]; simp
            · exact ex_live hsc z hz)
        (fun A' hw z hz => writes_names hw z hz)
      exact ⟨_, by rw [← h1]; rfl, fun S' ⟨a, b⟩ => h2 S' a b⟩
    | inPlace x h op e =>
      have hl : StmtLegal S.live (.inPlace x h op e) := hs
      have hl' := hl
      obtain ⟨a, v, ha, _, _, _, hsc, _⟩ := hl'
      obtain ⟨w', h1, h2⟩ := write hl rfl
        (by intro z hz; rcases List.mem_cons.1 hz with rfl | hz; · rw [ha]; simp
            · exact ex_live hsc z hz)
        (fun A' hw z hz => writes_names hw z hz)
      exact ⟨_, by rw [← h1]; rfl, fun S' ⟨a, b⟩ => h2 S' a b⟩
    | inPlaceScalar x h op s =>
      have hl : StmtLegal S.live (.inPlaceScalar x h op s) := hs
      have hl' := hl
      obtain ⟨hsc, a, v, ha, _⟩ := hl'
      obtain ⟨w', h1, h2⟩ := write hl rfl
        (by intro z hz; rcases List.mem_cons.1 hz with rfl | hz; · rw [ha]; simp
            · exact sc_live hsc z hz)
        (fun A' hw z hz => writes_names hw z hz)
      exact ⟨_, by rw [← h1]; rfl, fun S' ⟨a, b⟩ => h2 S' a b⟩
    | apply x h f =>
      have hl : StmtLegal S.live (.apply x h f) := hs
      have hl' := hl
      obtain ⟨a, v, ha, _⟩ := hl'
      obtain ⟨w', h1, h2⟩ := write hl rfl (by simp [Stmt.uses, ha]) (fun A' hw z hz => writes_names hw z hz)
      exact ⟨_, by rw [← h1]; rfl, fun S' ⟨a, b⟩ => h2 S' a b⟩
    | overlap x h e =>
      have hl : StmtLegal S.live (.overlap x h e) := hs
      have hl' := hl
      obtain ⟨_, a, v, ha, _, _, _, hsc⟩ := hl'
      obtain ⟨w', h1, h2⟩ := write hl rfl
        (by intro z hz; rcases List.mem_cons.1 hz with rfl | hz; · rw [ha]; simp
            · exact ex_live hsc z hz)
        (fun A' hw z hz => writes_names hw z hz)
      exact ⟨_, by rw [← h1]; rfl, fun S' ⟨a, b⟩ => h2 S' a b⟩
    | drop x =>
      obtain ⟨n, hn⟩ := hs
      rcases order_get H hn with ⟨a, c, ha, hmx, hgx, hcx, hce, _, hane⟩ | ⟨d, hlx, hmx, hgx, hex, _⟩
      · obtain ⟨w', h1, h2⟩ := stmt_ok H.store (s := .drop x) (by show S.live x ≠ none; rw [ha]; simp) chk hal
        refine ⟨⟨w', W.gone⟩, by simp only [MWorld.step, hgx, h1, res_ok_bind], ?_⟩
        rintro S' ⟨e1, e2, e3⟩
        have hm : S'.moved = S.moved := by
          funext z
          by_cases hz : z = x
          · rw [hz, e3, hmx]
          · exact (e1 z (by simpa using hz)).2
        refine holds_live H (h2 _ ⟨fun z hz => (e1 z (by simpa using hz)).1, e2⟩) hm fun z hz _ => ?_
        by_cases hzx : z = x
        · rw [hzx, e2]
        · rw [(e1 z (by simpa using hzx)).1, hz]
      · refine ⟨⟨W.w, MWorld.mark W.gone x none⟩, by simp only [MWorld.step, hgx], ?_⟩
        rintro S' ⟨e1, e2, e3⟩
        have hlive : S'.live = S.live := by
          funext z
          by_cases hz : z = x
          · rw [hz, e2, hlx]
          · exact (e1 z (by simpa using hz)).1
        refine ⟨by rw [hlive]; exact H.store, ?_, ?_⟩
        · funext z
          dsimp only
          by_cases hz : z = x
          · rw [hz, mark_eq, e3]
          · rw [mark_ne _ hz, H.gone, (e1 z (by simpa using hz)).2]
        · intro z dz hz
          have hzx : z ≠ x := by rintro rfl; rw [e3] at hz; cases hz
          rw [(e1 z (by simpa using hzx)).2] at hz
          rw [hlive]
          exact H.moved z dz hz
    | moveAssign x y =>
      obtain ⟨hxy, n, hnx, hny⟩ := hs
      have hbne : (x != y) = true := by simpa using hxy
      rcases order_get H hnx with ⟨a, c, ha, hmx, hgx, hcx, hce, han, hane⟩ | ⟨d, hlx, hmx, hgx, hex, hdn⟩ <;>
      rcases order_get H hny with ⟨b, c', hb, hmy, hgy, hcy, hce', hbn, hbne'⟩ | ⟨d', hly, hmy, hgy, hey, hdn'⟩
      · obtain ⟨w', h1, h2⟩ := stmt_ok H.store (s := .moveAssign x y) ⟨hxy, a, b, ha, hb, by rw [han, hbn]⟩ chk hal
        refine ⟨⟨w', W.gone⟩, by simp only [MWorld.step, hgx, hgy, hbne, dbg_any_true, res_ok_bind, h1], ?_⟩
        rintro S' ⟨e1, e2, e3, e4, e5⟩
        have hm : S'.moved = S.moved := by
          funext z
          by_cases hzx : z = x
          · rw [hzx, e4, hmy, hmx]
          · by_cases hzy : z = y
            · rw [hzy, e5, hmy, hmx]
            · exact (e1 z (by simp [hzx, hzy])).2
        refine holds_live H (h2 _ ⟨fun z hzx hzy => (e1 z (by simp [hzx, hzy])).1, e2, e3⟩) hm fun z hz hmz => ?_
        have hzx : z ≠ x := by rintro rfl; rw [ha] at hz; cases hz
        have hzy : z ≠ y := by rintro rfl; rw [hb] at hz; cases hz
        rw [(e1 z (by simp [hzx, hzy])).1, hz]
      · -- `x` has a value, `y` has not
        have hs : sameOrder c d' = .ok () := by simp [sameOrder, hce, han, hdn']
        refine ⟨⟨(W.w.bind W.w.mem x none).bind W.w.mem y (some c), MWorld.mark (MWorld.mark W.gone x (some d')) y none⟩,
          by simp only [MWorld.step, hgx, hgy, hbne, dbg_any_true, res_ok_bind, World.get, hcx, hs], ?_⟩
        rintro S' ⟨e1, e2, e3, e4, e5⟩
        refine ⟨holds_rename H.store hxy.symm hly hcx rfl (by simp [World.bind]) (by simp [World.bind, hxy])
          (fun z h1 h2 => by simp [World.bind, h1, h2]) e3 (by rw [e2, hly]) (fun z h1 h2 => (e1 z (by simp [h1, h2])).1), ?_, ?_⟩
        · funext z
          dsimp only
          by_cases hzy : z = y
          · rw [hzy, mark_eq, e5, hmx]
          · rw [mark_ne _ hzy]
            by_cases hzx : z = x
            · rw [hzx, mark_eq, e4, hmy]
            · rw [mark_ne _ hzx, H.gone, (e1 z (by simp [hzx, hzy])).2]
        · intro z dz hz
          by_cases hzy : z = y
          · rw [hzy, e5, hmx] at hz; cases hz
          · by_cases hzx : z = x
            · subst hzx
              rw [e4, hmy] at hz; cases hz
              exact ⟨by rw [e2, hly], (H.moved y d' hmy).2⟩
            · have ho := e1 z (by simp [hzx, hzy])
              rw [ho.2] at hz
              rw [ho.1]
              exact H.moved z dz hz
      · have hs : sameOrder ⟨0, d⟩ c'.ext = .ok () := by simp [sameOrder, hce', hbn, hdn]
        refine ⟨⟨(W.w.bind W.w.mem x (some c')).bind W.w.mem y none, MWorld.mark (MWorld.mark W.gone x none) y (some d)⟩,
          by simp only [MWorld.step, hgx, hgy, hbne, dbg_any_true, res_ok_bind, World.get, hcy, hs], ?_⟩
        rintro S' ⟨e1, e2, e3, e4, e5⟩
        refine ⟨holds_rename H.store hxy hlx hcy rfl (by simp [World.bind, hxy]) (by simp [World.bind])
          (fun z h1 h2 => by simp [World.bind, h1, h2]) e2 (by rw [e3, hlx]) (fun z h1 h2 => (e1 z (by simp [h1, h2])).1), ?_, ?_⟩
        · funext z
          dsimp only
          by_cases hzy : z = y
          · rw [hzy, mark_eq, e5, hmx]
          · rw [mark_ne _ hzy]
            by_cases hzx : z = x
            · rw [hzx, mark_eq, e4, hmy]
            · rw [mark_ne _ hzx, H.gone, (e1 z (by simp [hzx, hzy])).2]
        · intro z dz hz
          by_cases hzy : z = y
          · subst hzy
            rw [e5, hmx] at hz; cases hz
            exact ⟨by rw [e3, hlx], (H.moved x d hmx).2⟩
          · by_cases hzx : z = x
            · rw [hzx, e4, hmy] at hz; cases hz
            · have ho := e1 z (by simp [hzx, hzy])
              rw [ho.2] at hz
              rw [ho.1]
              exact H.moved z dz hz
      · have hs : sameOrder ⟨0, d⟩ d' = .ok () := by simp [sameOrder, hdn', hdn]
        refine ⟨⟨W.w, MWorld.mark (MWorld.mark W.gone x (some d')) y (some d)⟩,
          by simp only [MWorld.step, hgx, hgy, hbne, dbg_any_true, res_ok_bind, hs], ?_⟩
        rintro S' ⟨e1, e2, e3, e4, e5⟩
        have hlive : S'.live = S.live := by
          funext z
          by_cases hzx : z = x
          · rw [hzx, e2, hly, hlx]
          · by_cases hzy : z = y
            · rw [hzy, e3, hlx, hly]
            · exact (e1 z (by simp [hzx, hzy])).1
        refine ⟨by rw [hlive]; exact H.store, ?_, ?_⟩
        · funext z
          dsimp only
          by_cases hzy : z = y
          · rw [hzy, mark_eq, e5, hmx]
          · rw [mark_ne _ hzy]
            by_cases hzx : z = x
            · rw [hzx, mark_eq, e4, hmy]
            · rw [mark_ne _ hzx, H.gone, (e1 z (by simp [hzx, hzy])).2]
        · intro z dz hz
          rw [hlive]
          by_cases hzy : z = y
          · subst hzy
            rw [e5, hmx] at hz; cases hz
            exact ⟨hly, (H.moved x d hmx).2⟩
          · by_cases hzx : z = x
            · subst hzx
              rw [e4, hmy] at hz; cases hz
              exact ⟨hlx, (H.moved y d' hmy).2⟩
            · rw [(e1 z (by simp [hzx, hzy])).2] at hz
              exact H.moved z dz hz
    | set x e =>
      rcases hs with hl | ⟨d, hd, hs⟩
      · have hl' := hl
        obtain ⟨a, d, ha, _, he, _⟩ := hl'
        have hmx := live_not_moved H (x := x) (by rw [ha]; simp)
        have hgx : W.gone x = none := by rw [H.gone, hmx]
        obtain ⟨w', h1, h2⟩ := stmt_ok H.store hl chk hal
        refine ⟨⟨w', W.gone⟩, by simp only [MWorld.step, hgx, not_gone H (ex_live he), Bool.false_eq_true, if_false, h1, res_ok_bind], ?_⟩
        rintro S' (⟨_, e1, e2⟩ | ⟨e0, _⟩ | ⟨e0, _⟩)
        · refine holds_live H (h2 _ e2) e1 fun z hz hmz => ?_
          obtain ⟨_, _, hb⟩ := e2
          have : z ≠ x := by rintro rfl; rw [ha] at hz; cases hz
          rw [hb.1 z this, hz]
        · exact (e0 hmx).elim
        · exact (e0 hmx).elim
      · have hgx : W.gone x = some d := by rw [H.gone, hd]
        rcases hs with rfl | ⟨d', hlen, he, hsz⟩
        · refine ⟨W, by simp only [MWorld.step, hgx, if_true], ?_⟩
          rintro S' (⟨e0, _⟩ | ⟨_, _, e1, e2⟩ | ⟨_, e0, _⟩)
          · rw [hd] at e0; cases e0
          · exact ⟨by rw [e2]; exact H.store, by rw [e1]; exact H.gone, by rw [e1, e2]; exact H.moved⟩
          · exact (e0 rfl).elim
        · have hxe : ∀ y, e = .arr y [] → x ≠ y := by
            rintro y rfl rfl
            obtain ⟨a, v, ha, _⟩ := he
            rw [(H.moved x d hd).1] at ha; cases ha
          obtain ⟨W', h1, h2⟩ := revive_ok H hd hlen he (into := true) (fun _ => hsz) chk hal
          refine ⟨W', ?_, ?_⟩
          · have hu := not_gone H (ex_live he)
            by_cases hy : ∃ y, e = .arr y []
            · obtain ⟨y, rfl⟩ := hy
              simp only [PEx.uses] at hu
              simp only [MWorld.step, hgx, hxe y rfl, if_false, hu, Bool.false_eq_true, h1]
            · have : W.step Arith.exact chk alloc (.old (.set x e)) =
                  if W.anyGone e.uses then .error .ub else W.revive Arith.exact chk alloc x d e true := by
                cases e with
                | arr y h =>
                  cases h with
                  | nil => exact (hy ⟨y, rfl⟩).elim
                  | cons ix h => simp only [MWorld.step, hgx]
                | _ => simp only [MWorld.step, hgx]
              rw [this, hu, if_neg (by simp), h1]
          · rintro S' (⟨e0, _⟩ | ⟨_, e0, _⟩ | ⟨_, _, e1, e2, e3⟩)
            · rw [hd] at e0; cases e0
            · exact (hxe x e0 rfl).elim
            · exact h2 S' e1 e2 e3
    | overlapWhole x e =>
      rcases hs with hl | ⟨d, d', hd, hlen, he⟩
      · have hl' := hl
        obtain ⟨a, d, ha, _, he⟩ := hl'
        have hmx := live_not_moved H (x := x) (by rw [ha]; simp)
        have hgx : W.gone x = none := by rw [H.gone, hmx]
        obtain ⟨w', h1, h2⟩ := stmt_ok H.store hl chk hal
        refine ⟨⟨w', W.gone⟩, by simp only [MWorld.step, hgx, not_gone H (ex_live he), Bool.false_eq_true, if_false, h1, res_ok_bind], ?_⟩
        rintro S' ⟨e1, e2, e3⟩
        have hm : S'.moved = S.moved := by
          funext z
          by_cases hz : z = x
          · rw [hz, e2, hmx]
          · exact (e1 z (by simpa using hz)).2
        refine holds_live H (h2 _ e3) hm fun z hz _ => ?_
        have : z ≠ x := by rintro rfl; rw [ha] at hz; cases hz
        rw [(e1 z (by simpa using this)).1, hz]
      · have hgx : W.gone x = some d := by rw [H.gone, hd]
        obtain ⟨W', h1, h2⟩ := revive_ok H hd hlen he (into := false) (by simp) chk hal
        exact ⟨W', by simp only [MWorld.step, hgx, not_gone H (ex_live he), Bool.false_eq_true, if_false, h1], fun S' ⟨e1, e2, e3⟩ => h2 S' e1 e2 e3⟩

/-! ### Elements -/

theorem elements_ok (H : MHolds W S) {e : PEx α} {d : List Nat} {xs : List α} (hx : Elements S e d xs) (chk : Bool) :
    W.anyGone e.uses = false ∧ ∃ e' src, e.eval Arith.exact chk W.w = .ok e' ∧ e'.build Arith.exact chk = .ok src ∧ src.dims = d ∧
      src.elements W.w.mem = .ok xs := by
  obtain ⟨hd, he, hlen, hv⟩ := hx
  obtain ⟨e', s, h1, hE⟩ := ex_ok H.store hd chk he
  obtain ⟨src, hb, hy⟩ := build_ok (chk := chk) hE.denotes hE.exts
  refine ⟨not_gone H (ex_live he), e', src, h1, hb, hy.dims, ?_⟩
  unfold EObj.elements
  rw [hy.count]
  simp only
  refine mapM_ok_of (by simp [hlen]) fun k a x hk hxk => ?_
  have hka : a = k := by
    have := (List.getElem?_eq_some_iff.1 hk).2
    simpa using this.symm
  subst hka
  have hlt : a < (multiIdx d).length := by
    have := (List.getElem?_eq_some_iff.1 hxk).1
    rw [multiIdx_length]; omega
  have hi := List.getElem?_eq_getElem hlt
  have hin : InB d (multiIdx d)[a] := mem_multiIdx.1 (List.getElem_mem hlt)
  have hpos : cmSum d (multiIdx d)[a] = a := by
    rw [← cmPos_eq_sum (inB_length hin)]
    have h1 := multiIdx_getElem? hin
    rw [List.getElem?_eq_some_iff] at h1
    obtain ⟨h2, h3⟩ := h1
    exact (List.nodup_iff_injective_get.1 (multiIdx_nodup d)).eq_iff (a := ⟨_, h2⟩) (b := ⟨a, hlt⟩) |>.1 h3 |> fun h => by simpa using h
  rw [hy.deref _ a _ hi, hE.val _ hin, hv _ hin, hpos, hxk]
  rfl

theorem elements_exists (he : ExLegal S.live d e) (hd : d ≠ []) : ∃ xs, Elements S e d xs := by
  have hsome : ∀ i, ∃ v, exVal S.live e i = some v := fun i => Option.ne_none_iff_exists'.1 (exVal_some i he)
  refine ⟨(multiIdx d).map fun i => (hsome i).choose, hd, he, by simp [multiIdx_length], fun i hi => ?_⟩
  rw [← cmPos_eq_sum (inB_length hi), map_multiIdx_getElem? _ hi]
  exact (hsome i).choose_spec

theorem elements_unique {e : PEx α} {d d' : List Nat} {xs ys : List α} (h1 : Elements S e d xs) (h2 : Elements S e d' ys) : d = d' ∧ xs = ys := by
  obtain ⟨a1, a2, a3, a4⟩ := h1
  obtain ⟨b1, b2, b3, b4⟩ := h2
  have := exLegal_unique a2 b2
  subst this
  refine ⟨rfl, List.ext_getElem? fun k => ?_⟩
  by_cases hk : k < prod d
  · have hlt : k < (multiIdx d).length := by rw [multiIdx_length]; exact hk
    have hin : InB d (multiIdx d)[k] := mem_multiIdx.1 (List.getElem_mem hlt)
    have hpos : cmSum d (multiIdx d)[k] = k := by
      rw [← cmPos_eq_sum (inB_length hin)]
      have h1 := multiIdx_getElem? hin
      rw [List.getElem?_eq_some_iff] at h1
      obtain ⟨h2, h3⟩ := h1
      exact (List.nodup_iff_injective_get.1 (multiIdx_nodup d)).eq_iff (a := ⟨_, h2⟩) (b := ⟨k, hlt⟩) |>.1 h3 |> fun h => by simpa using h
    have e1 := a4 _ hin
    have e2 := b4 _ hin
    rw [hpos] at e1 e2
    rw [← e1, e2]
  · rw [List.getElem?_eq_none (by omega), List.getElem?_eq_none (by omega)]

/-! ### Programs -/

/-- **C75.** Programs with control flow, default-constructed and moved-from arrays. If, on array values, the program returns `b` and leaves the arrays `S'`, then
started in any state that holds the arrays, it runs without undefined behaviour or failed assertions, in every build and with every allocator, returns
`b`, and leaves a state that holds exactly `S'`. -/
theorem C75_computes_partial {p : Prog α β} {S' : MStore α} {b : β} (hc : Computes S p S' b) (H : MHolds W S) (chk : Bool)
    {alloc : Nat → Mem α → Nat → Nat} (hal : GoodAlloc alloc) :
    ∃ W', W.exec Arith.exact chk alloc p = .ok (W', b) ∧ MHolds W' S' := by
  induction hc generalizing W with
  | ret => exact ⟨W, rfl, H⟩
  | exec hl he _ ih =>
    obtain ⟨W1, h1, h2⟩ := mstep_ok H hl chk hal
    obtain ⟨W', h3, h4⟩ := ih (h2 _ he)
    exact ⟨W', by rw [MWorld.exec, h1, res_ok_bind, h3], h4⟩
  | read hl hv _ ih =>
    obtain ⟨sc, y, h1, h2, h3, _⟩ := sc_ok H.store hl chk
    rw [hv] at h3; cases h3
    obtain ⟨W', h4, h5⟩ := ih H
    exact ⟨W', by rw [MWorld.exec, not_gone H (sc_live hl), if_neg (by simp), h1, res_ok_bind, h2, res_ok_bind, h4], h5⟩
  | elements hx _ ih =>
    obtain ⟨h0, e', src, h1, h2, h3, h4⟩ := elements_ok H hx chk
    obtain ⟨W', h5, h6⟩ := ih H
    exact ⟨W', by rw [MWorld.exec, h0, if_neg (by simp), h1, res_ok_bind, h2, res_ok_bind, h4, res_ok_bind, h3, h5], h6⟩

/-- A state with no arrays. -/
theorem mholds_empty : MHolds (MWorld.empty : MWorld α) ⟨fun _ => none, fun _ => none⟩ where
  store :=
    { arr := nofun
      out := fun _ _ => rfl
      sep := by intro x y c d q _ h; cases h
      only := fun _ h => (h rfl).elim
      finite := ⟨0, fun _ _ => rfl⟩ }
  gone := rfl
  moved := nofun

/-- **C75.** Whole programs, started with no arrays. -/
theorem C75_program_partial {p : Prog α β} {S' : MStore α} {b : β} (hc : Computes ⟨fun _ => none, fun _ => none⟩ p S' b) (chk : Bool)
    {alloc : Nat → Mem α → Nat → Nat} (hal : GoodAlloc alloc) :
    ∃ W', MWorld.empty.exec Arith.exact chk alloc p = .ok (W', b) ∧ MHolds W' S' := C75_computes_partial hc mholds_empty chk hal

/-- **C75.** The result of a program does not depend on the build, the allocator, or where the arrays are in memory. -/
theorem C75_determined {p : Prog α β} {S₁ S₂ : MStore α} {b₁ b₂ : β} (h1 : Computes S p S₁ b₁) (h2 : Computes S p S₂ b₂) (H : MHolds W S)
    {alloc : Nat → Mem α → Nat → Nat} (hal : GoodAlloc alloc) : b₁ = b₂ := by
  obtain ⟨W1, g1, _⟩ := C75_computes_partial h1 H true hal
  obtain ⟨W2, g2, _⟩ := C75_computes_partial h2 H true hal
  rw [g1] at g2
  cases g2
  rfl

/-! ### Legal programs run -/

open Classical in
/-- Every legal statement has an effect. -/
theorem meffect_exists [Nonempty α] (hmv : ∀ x d, S.moved x = some d → S.live x = none) {s : MStmt α} (hs : MLegal S s) : ∃ S', MEffect S s S' := by
  have hz : ∃ _ : α, True := ⟨Classical.choice ‹_›, trivial⟩
  cases s with
  | declare x n =>
    obtain ⟨A', h⟩ := becomes_exists (A := S.live) x (List.replicate n 0) (f := fun _ => none) (fun i hi => by
      cases n with
      | zero => exact (hs.2 rfl).elim
      | succ n => have := cmSum_lt hi; simp [List.replicate_succ, prod] at this) hz
    exact ⟨⟨A', S.moved⟩, rfl, h⟩
  | moveMake x y =>
    obtain ⟨⟨hl, hm⟩, n, hn⟩ := hs
    rcases hn with ⟨a, ha, _⟩ | ⟨d, hd, _⟩
    · have hxy : x ≠ y := by rintro rfl; rw [hl] at ha; cases ha
      have hmy : S.moved y = none := by
        cases h : S.moved y with
        | none => rfl
        | some d => rw [hmv y d h] at ha; cases ha
      by_cases h0 : prod a.ext = 0
      · refine ⟨⟨fun z => if z = x then some a else S.live z, S.moved⟩, ?_, ?_, ?_, .inr ⟨a, ha, ?_⟩⟩
        · intro z hz; simp at hz; simp [hz.1]
        · simp [ha]
        · simp [hm, hmy]
        · rw [if_pos h0]; simp [hxy.symm, ha, hmy]
      · refine ⟨⟨fun z => if z = x then some a else if z = y then none else S.live z, fun z => if z = y then some a.ext else S.moved z⟩, ?_, ?_, ?_, .inr ⟨a, ha, ?_⟩⟩
        · intro z hz; simp at hz; simp [hz.1, hz.2]
        · simp [ha]
        · simp [hm, hmy, hxy]
        · rw [if_neg h0]; simp [hxy.symm]
    · have hxy : x ≠ y := by rintro rfl; rw [hm] at hd; cases hd
      have hly := hmv y d hd
      refine ⟨⟨S.live, fun z => if z = x then some d else S.moved z⟩, ?_, ?_, ?_, .inl ⟨d, hd, ?_, hly⟩⟩
      · intro z hz; simp at hz; simp [hz.1]
      · rw [hl, hly]
      · simp [hd]
      · simp [hxy.symm, hd]
  | old s =>
    have lift : ∀ {s : Stmt α}, StmtLegal S.live s → ∃ S' : MStore α, S'.moved = S.moved ∧ Effect S.live s S'.live := by
      intro s hl
      obtain ⟨A', h⟩ := C65_progress hl
      exact ⟨⟨A', S.moved⟩, rfl, h⟩
    have revive : ∀ {x : Nat} {e : PEx α} {d : List Nat}, ExLegal S.live d e → ∃ S' : MStore α, Others S [x] S' ∧ S'.moved x = none ∧
        ∃ d, ExLegal S.live d e ∧ Becomes S.live x d (exVal S.live e) S'.live := by
      intro x e d he
      obtain ⟨A', h⟩ := becomes_exists (A := S.live) x d (f := exVal S.live e) (fun i _ => exVal_some i he) hz
      refine ⟨⟨A', fun z => if z = x then none else S.moved z⟩, ?_, by simp, d, he, h⟩
      intro z hz; simp at hz; exact ⟨h.1 z hz, by simp [hz]⟩
    cases s with
    | make x e => exact lift hs.2
    | makeFill x s ext => exact lift hs.2
    | makeFrom x l ext => exact lift hs.2
    | fill x h s => exact lift (s := .fill x h s) hs
    | assign x h e => exact lift (s := .assign x h e) hs
    | inPlace x h op e => exact lift (s := .inPlace x h op e) hs
    | inPlaceScalar x h op s => exact lift (s := .inPlaceScalar x h op s) hs
    | apply x h f => exact lift (s := .apply x h f) hs
    | overlap x h e => exact lift (s := .overlap x h e) hs
    | drop x =>
      refine ⟨⟨fun z => if z = x then none else S.live z, fun z => if z = x then none else S.moved z⟩, ?_, by simp [Unused]⟩
      intro z hz; simp at hz; simp [hz]
    | moveAssign x y =>
      have hxy : x ≠ y := hs.1
      refine ⟨⟨fun z => if z = x then S.live y else if z = y then S.live x else S.live z,
        fun z => if z = x then S.moved y else if z = y then S.moved x else S.moved z⟩, ?_, by simp, by simp [hxy.symm], by simp, by simp [hxy.symm]⟩
      intro z hz; simp at hz; simp [hz.1, hz.2]
    | set x e =>
      rcases hs with hl | ⟨d, hd, hs⟩
      · have hmx : S.moved x = none := by
          obtain ⟨a, _, ha, _⟩ := hl
          cases h : S.moved x with
          | none => rfl
          | some d => rw [hmv x d h] at ha; cases ha
        obtain ⟨S', h1, h2⟩ := lift hl
        exact ⟨S', .inl ⟨hmx, h1, h2⟩⟩
      · by_cases he0 : e = .arr x []
        · exact ⟨S, .inr (.inl ⟨by rw [hd]; simp, he0, rfl, rfl⟩)⟩
        · rcases hs with h | ⟨d', _, he, _⟩
          · exact (he0 h).elim
          · obtain ⟨S', h1, h2, h3⟩ := revive (x := x) he
            exact ⟨S', .inr (.inr ⟨by rw [hd]; simp, he0, h1, h2, h3⟩)⟩
    | overlapWhole x e =>
      rcases hs with ⟨a, d, _, _, he⟩ | ⟨d, d', hd, _, he⟩
      · obtain ⟨S', h1, h2, h3⟩ := revive (x := x) he
        exact ⟨S', h1, h2, h3⟩
      · obtain ⟨S', h1, h2, h3⟩ := revive (x := x) he
        exact ⟨S', h1, h2, h3⟩

/-- **C75.** A program that only executes legal statements, whatever values come out, runs to its end in every state that holds the arrays, and computes what it
computes on values. -/
theorem C75_legal_partial [Nonempty α] {p : Prog α β} (hp : LegalProg S p) (H : MHolds W S) (chk : Bool) {alloc : Nat → Mem α → Nat → Nat} (hal : GoodAlloc alloc) :
    ∃ W' S' b, W.exec Arith.exact chk alloc p = .ok (W', b) ∧ Computes S p S' b ∧ MHolds W' S' := by
  induction p generalizing W S with
  | ret b => exact ⟨W, S, b, rfl, .ret, H⟩
  | exec s k ih =>
    obtain ⟨hl, hk⟩ := hp
    obtain ⟨S1, he⟩ := meffect_exists (fun x d hx => (H.moved x d hx).1) hl
    obtain ⟨W1, h1, h2⟩ := mstep_ok H hl chk hal
    obtain ⟨W', S', b, g1, g2, g3⟩ := ih (hk S1 he) (h2 _ he)
    exact ⟨W', S', b, by rw [MWorld.exec, h1, res_ok_bind, g1], .exec hl he g2, g3⟩
  | read s k ih =>
    obtain ⟨hl, hk⟩ := hp
    obtain ⟨sc, y, h1, h2, h3, _⟩ := sc_ok H.store hl chk
    obtain ⟨W', S', b, g1, g2, g3⟩ := ih y (hk y h3) H
    exact ⟨W', S', b, by rw [MWorld.exec, not_gone H (sc_live hl), if_neg (by simp), h1, res_ok_bind, h2, res_ok_bind, g1], .read hl h3 g2, g3⟩
  | elements e k ih =>
    obtain ⟨d, hd, he, hk⟩ := hp
    obtain ⟨xs, hx⟩ := elements_exists he hd
    obtain ⟨h0, e', src, h1, h2, h3, h4⟩ := elements_ok H hx chk
    obtain ⟨W', S', b, g1, g2, g3⟩ := ih d xs (hk xs hx) H
    exact ⟨W', S', b, by rw [MWorld.exec, h0, if_neg (by simp), h1, res_ok_bind, h2, res_ok_bind, h4, res_ok_bind, h3, g1], .elements hx g2, g3⟩

/-! ### What is not allowed: moved-from arrays -/

/-- **C75** (what the legality of assignments excludes). Assigning to a moved-from array a value with the number of elements it reports is undefined behaviour, although the
assignment of any other value is fine: the array still reports its old extents, and the elements are copied to the null pointer. -/
theorem C75_moved_from_assign (H : MHolds W S) {x : Nat} {d d' : List Nat} (hx : S.moved x = some d) {e : PEx α} (hlen : d'.length = d.length)
    (he : ExLegal S.live d' e) (hsz : prod d' = prod d) (chk : Bool) (alloc : Nat → Mem α → Nat → Nat) :
    W.step Arith.exact chk alloc (.old (.set x e)) = .error .ub := by
  obtain ⟨hl, hne, _⟩ := H.moved x d hx
  have hgx : W.gone x = some d := by rw [H.gone, hx]
  have hd' : d' ≠ [] := by rintro rfl; exact hne (List.length_eq_zero_iff.1 hlen.symm)
  obtain ⟨e', s, h1, hE⟩ := ex_ok H.store hd' chk he
  obtain ⟨src, hb, hy⟩ := build_ok (chk := chk) hE.denotes hE.exts
  have hs : sameOrder ⟨0, d⟩ src.dims = .ok () := by simp [sameOrder, hy.dims, hlen]
  have hr : W.revive Arith.exact chk alloc x d e true = .error .ub := by
    unfold MWorld.revive
    rw [h1, res_ok_bind, hb, res_ok_bind, hs, res_ok_bind, hy.dims]
    simp [prodL_exact, hsz]
  have hu := not_gone H (ex_live he)
  cases e with
  | arr y h =>
    cases h with
    | nil =>
      have hxy : x ≠ y := by rintro rfl; obtain ⟨a, v, ha, _⟩ := he; rw [hl] at ha; cases ha
      simp only [PEx.uses] at hu
      simp only [MWorld.step, hgx, hxy, if_false, hu, Bool.false_eq_true, hr]
    | cons ix h => simp only [MWorld.step, hgx, hu, Bool.false_eq_true, if_false, hr]
  | _ => simp only [MWorld.step, hgx, hu, Bool.false_eq_true, if_false, hr]

theorem sc_of_uses {x : Nat} {s : Sc α} (h : ScOf x s) : x ∈ s.uses := by
  cases s with
  | const c => exact h.elim
  | elem y h' => simp [Sc.uses, show y = x from h]

theorem operand_uses {x : Nat} : ∀ {e : PEx α}, Operand x e → x ∈ e.uses
  | .arr y h, hx => by simp [PEx.uses, show y = x from hx]
  | .un f e, hx => operand_uses (e := e) hx
  | .bin f a b, hx => List.mem_append.2 (hx.imp operand_uses operand_uses)
  | .scl f s e, hx => List.mem_append.2 (hx.imp sc_of_uses operand_uses)
  | .scr f e s, hx => List.mem_append.2 (hx.imp operand_uses sc_of_uses)

theorem is_gone (H : MHolds W S) {x : Nat} (hx : S.moved x ≠ none) {xs : List Nat} (h : x ∈ xs) : W.anyGone xs = true := by
  unfold MWorld.anyGone
  rw [List.any_eq_true]
  exact ⟨x, h, by rw [H.gone]; cases hm : S.moved x with
    | none => exact (hx hm).elim
    | some d => rfl⟩

/-- **C75** (what the legality of reads excludes). Reading an element of a moved-from array is undefined behaviour, and so is going through the elements of an expression
with a moved-from operand. -/
theorem C75_moved_from_read (H : MHolds W S) {x : Nat} (hx : S.moved x ≠ none) (chk : Bool) (alloc : Nat → Mem α → Nat → Nat) :
    (∀ e : PEx α, Operand x e → ∀ k : List Nat → List α → Prog α β, W.exec Arith.exact chk alloc (.elements e k) = .error .ub) ∧
    ∀ s : Sc α, ScOf x s → ∀ k : α → Prog α β, W.exec Arith.exact chk alloc (.read s k) = .error .ub := by
  refine ⟨fun e he k => ?_, fun s hs k => ?_⟩
  · rw [MWorld.exec, is_gone H hx (operand_uses he), if_pos rfl]
  · rw [MWorld.exec, is_gone H hx (sc_of_uses hs), if_pos rfl]

/-- **C75** (what legality excludes). A statement that reads elements of a moved-from array, or writes them one by one, is undefined (or does not compile). -/
theorem C75_moved_from_touched (H : MHolds W S) {x : Nat} (hx : S.moved x ≠ none) {s : Stmt α} (hs : Touches x s) (chk : Bool)
    (alloc : Nat → Mem α → Nat → Nat) :
    W.step Arith.exact chk alloc (.old s) = .error .ub ∨ W.step Arith.exact chk alloc (.old s) = .error .illFormed := by
  have key : x ∈ s.uses →
      (if W.anyGone s.declares.toList then Except.error .illFormed else if W.anyGone s.uses then .error .ub else do
          let w' ← W.w.step Arith.exact chk alloc s
          .ok (⟨w', W.gone⟩ : MWorld α)) = .error .ub ∨
      (if W.anyGone s.declares.toList then Except.error .illFormed else if W.anyGone s.uses then .error .ub else do
          let w' ← W.w.step Arith.exact chk alloc s
          .ok (⟨w', W.gone⟩ : MWorld α)) = .error .illFormed := by
    intro hu
    rw [is_gone H hx hu]
    cases W.anyGone s.declares.toList
    · left; rfl
    · right; rfl
  cases s with
  | make y e => exact key (operand_uses (e := e) hs)
  | makeFill y s ext => exact key (sc_of_uses (s := s) hs)
  | makeFrom y l ext => exact hs.elim
  | drop y => exact hs.elim
  | moveAssign y z => exact hs.elim
  | fill y h s => exact key (List.mem_cons.2 (hs.imp Eq.symm sc_of_uses))
  | assign y h e => exact key (List.mem_cons.2 (hs.imp Eq.symm operand_uses))
  | inPlace y h op e => exact key (List.mem_cons.2 (hs.imp Eq.symm operand_uses))
  | inPlaceScalar y h op s => exact key (List.mem_cons.2 (hs.imp Eq.symm sc_of_uses))
  | apply y h f => exact key (List.mem_cons.2 (.inl (show y = x from hs).symm))
  | overlap y h e => exact key (List.mem_cons.2 (hs.imp Eq.symm operand_uses))
  | overlapWhole y e =>
    left
    have hu := is_gone H hx (operand_uses (e := e) hs)
    cases hg : W.gone y <;> simp only [MWorld.step, hg, hu, if_true]
  | set y e =>
    left
    obtain ⟨hs, hne⟩ := hs
    have hu := is_gone H hx (operand_uses hs)
    cases hg : W.gone y with
    | none => simp only [MWorld.step, hg, hu, if_true]
    | some d =>
      cases e with
      | arr z h =>
        cases h with
        | nil =>
          have hyz : y ≠ z := by rintro rfl; exact hne rfl
          simp only [PEx.uses] at hu
          simp only [MWorld.step, hg, hyz, if_false, hu, if_true]
        | cons ix h => simp only [MWorld.step, hg, hu, if_true]
      | _ => simp only [MWorld.step, hg, hu, if_true]

end

/-! ### Programs -/

/-- `auto s = sum(x); if (s == 0) return false; x /= s; return true;` on the vector `x`. -/
def normalise (x : Nat) : Prog ℚ Bool :=
  .elements (.arr x []) fun _ xs => if xs.sum = 0 then .ret false else .exec (.old (.inPlaceScalar x [] (· / ·) (.const xs.sum))) (.ret true)

theorem chain_whole (e : List Nat) : Chain e [] ⟨e, fun j => j⟩ := ⟨trivial, rfl, rfl⟩

/-- For every vector, in every state, build and with every allocator, `normalise` either reports that the sum is zero and changes nothing, or leaves the vector
with sum one, each element divided by the old sum, and every other array as it was. -/
theorem C75_demo_normalise {W : MWorld ℚ} {S : MStore ℚ} (H : MHolds W S) {x n : Nat} {a : AVal ℚ} (hx : S.live x = some a) (hn : a.ext = [n]) (chk : Bool)
    {alloc : Nat → Mem ℚ → Nat → Nat} (hal : GoodAlloc alloc) :
    ∃ W' S' b, W.exec Arith.exact chk alloc (normalise x) = .ok (W', b) ∧ MHolds W' S' ∧
      (b = false → S' = S ∧ ((List.range n).map fun i => a.elt [i]).sum = 0) ∧
      (b = true → Others S [x] S' ∧ ∃ a', S'.live x = some a' ∧ a'.ext = [n] ∧ ((List.range n).map fun i => a'.elt [i]).sum = 1 ∧
        ∀ i, i < n → a'.elt [i] = a.elt [i] / ((List.range n).map fun i => a.elt [i]).sum) := by
  have hel : ∀ {d xs}, Elements S (.arr x []) d xs → d = [n] ∧ xs = (List.range n).map fun i => a.elt [i] := by
    intro d xs hE
    have hd := exLegal_unique hE.2.1 (⟨a, _, hx, chain_whole a.ext, rfl⟩ : ExLegal S.live a.ext (.arr x []))
    rw [hn] at hd
    obtain ⟨_, _, hlen, hv⟩ := hE
    subst hd
    refine ⟨rfl, List.ext_getElem? fun k => ?_⟩
    have hp : prod [n] = n := by simp [prod]
    by_cases hk : k < n
    · have hin : InB [n] [k] := ⟨hk, trivial⟩
      have h1 := hv [k] hin
      have hc : cmSum [n] [k] = k := by simp [cmSum, prod]
      rw [hc] at h1
      rw [← h1]
      simp only [exVal, hx, imeaning, List.foldl_nil]
      simp [hk]
    · rw [List.getElem?_eq_none (by omega), List.getElem?_eq_none (by simp; omega)]
  have hp : LegalProg S (normalise x) := by
    refine ⟨a.ext, by simp [hn], ⟨a, _, hx, chain_whole a.ext, rfl⟩, fun xs hxs => ?_⟩
    dsimp only
    split
    · exact trivial
    · exact ⟨⟨trivial, a, _, hx, chain_whole a.ext, fun i j _ _ h => h, fun h => h⟩, fun _ _ => trivial⟩
  obtain ⟨W', S', b, h1, h2, h3⟩ := C75_legal_partial hp H chk hal
  refine ⟨W', S', b, h1, h3, ?_⟩
  cases h2 with
  | elements hE hk =>
    obtain ⟨rfl, hxs⟩ := hel hE
    subst hxs
    dsimp only at hk
    set t := ((List.range n).map fun i => a.elt [i]).sum with ht
    by_cases h0 : t = 0
    · rw [if_pos h0] at hk
      cases hk
      exact ⟨fun _ => ⟨rfl, h0⟩, fun h => by cases h⟩
    · rw [if_neg h0] at hk
      cases hk with
      | exec hl he hr =>
        cases hr
        refine ⟨fun h => (by cases h), fun _ => ?_⟩
        obtain ⟨hm, ho, a0, a', v, q1, q2, q3, q4, q5, _⟩ := he
        rw [hx] at q1; cases q1
        have hv : v = ⟨a.ext, fun j => j⟩ := by
          have : imeaning a.ext [] = .view ⟨a.ext, fun j => j⟩ := rfl
          rw [this] at q3; cases q3; rfl
        subst hv
        have hval : ∀ i, i < n → a'.elt [i] = a.elt [i] / t := by
          intro i hi
          have := q5 [i] (by rw [hn]; exact ⟨hi, trivial⟩)
          simp only [Spec.old, exVal, hx, imeaning, List.foldl_nil, scVal, Option.map_some, Option.bind_some, Option.some.injEq] at this
          exact this.symm
        refine ⟨fun z hz => ⟨ho z (by simpa using hz), by rw [hm]⟩, a', q2, by rw [q4, hn], ?_, hval⟩
        have hmap : ((List.range n).map fun i => a'.elt [i]) = ((List.range n).map fun i => a.elt [i]).map (· / t) := by
          rw [List.map_map]
          exact List.map_congr_left fun i hi => hval i (List.mem_range.1 hi)
        have hsum : ∀ l : List ℚ, (l.map (· / t)).sum = l.sum / t := by
          intro l
          induction l with
          | nil => simp
          | cons y l ih => simp only [List.map_cons, List.sum_cons, ih]; rw [add_div]
        rw [hmap, hsum]
        exact div_self h0

/-- A vector `{1, 2, 5}`, moved to a new name; the old name (which still reports three elements) gets two elements; then the vector is normalised. -/
def exAdaptive : Prog ℚ (List ℚ × List ℚ × Bool) :=
  .exec (.old (.makeFrom 0 [1, 2, 5] [3])) <| .exec (.declare 5 2) <| .exec (.moveMake 1 0) <| .exec (.old (.makeFrom 2 [7, 8] [2])) <|
    .exec (.old (.set 0 (.arr 2 []))) <|
    .elements (.arr 1 []) fun _ xs =>
      if xs.sum = 0 then .ret ([], [], false)
      else .exec (.old (.inPlaceScalar 1 [] (· / ·) (.const xs.sum))) <|
        .elements (.arr 1 []) fun _ ys => .elements (.arr 0 []) fun _ zs => .ret (ys, zs, true)

def exAllocQ : Nat → Mem ℚ → Nat → Nat := fun k _ _ => 20 * k

example : (MWorld.empty.exec Arith.exact true exAllocQ exAdaptive).map Prod.snd = .ok ([1 / 8, 1 / 4, 5 / 8], [7, 8], true) := by decide +kernel

/-- The state before the assignment: `MHolds` with a moved-from array. -/
def exMoved : MStore Nat := ⟨fun z => if z = 1 then some ⟨[3], fun i => 1 + cmSum [3] i⟩ else none, fun z => if z = 0 then some [3] else none⟩

theorem exMoved_effect : MEffect ⟨fun z => if z = 0 then some ⟨[3], fun i => 1 + cmSum [3] i⟩ else none, fun _ => none⟩ (MStmt.moveMake 1 0) exMoved := by
  refine ⟨fun z hz => ?_, rfl, rfl, .inr ⟨_, rfl, ?_⟩⟩
  · simp at hz; simp [exMoved, hz.1, hz.2]
  · rw [if_neg (by decide)]; exact ⟨rfl, rfl⟩

theorem exMoved_make : Computes ⟨fun _ => none, fun _ => none⟩ (.exec (.old (.makeFrom 0 [1, 2, 3] [3])) (.exec (.moveMake 1 0) (.ret ()))) exMoved () := by
  refine .exec ⟨rfl, rfl, by decide, by decide⟩ (S₁ := ⟨fun z => if z = 0 then some ⟨[3], fun i => 1 + cmSum [3] i⟩ else none, fun _ => none⟩) ⟨rfl, ?_⟩
    (.exec ⟨⟨rfl, rfl⟩, 1, .inl ⟨_, rfl, rfl⟩⟩ exMoved_effect .ret)
  refine ⟨fun y hy => by simp [hy], _, rfl, rfl, fun i hi => ?_⟩
  have : ∀ i ∈ multiIdx [3], [1, 2, 3][cmSum [3] i]? = some (1 + cmSum [3] i) := by decide
  exact this i (mem_multiIdx.2 hi)

/-- The hypotheses of `C75_moved_from_assign` are met: a state with a moved-from array of three elements, and one with a value of three elements. -/
example : ∃ W : MWorld Nat, MHolds W exMoved ∧ exMoved.moved 0 = some [3] ∧ ExLegal exMoved.live [3] (.arr 1 []) := by
  obtain ⟨W', _, h⟩ := C75_program_partial exMoved_make true (alloc := goodAlloc_exists.choose) goodAlloc_exists.choose_spec
  exact ⟨W', h, rfl, _, _, rfl, chain_whole [3], rfl⟩

/-- The assignment is undefined for the same number of elements, fine for another one, and fine with `overlap`. -/
example : (MWorld.empty.exec Arith.exact true exAlloc (.exec (.old (.makeFrom 0 [1, 2, 3] [3])) (.exec (.moveMake 1 0)
    (.exec (.old (.set 0 (.arr 1 []))) (.ret ()))))).map Prod.snd = .error .ub := by decide +kernel

example : (MWorld.empty.exec Arith.exact true exAlloc (.exec (.old (.makeFrom 0 [1, 2, 3] [3])) (.exec (.moveMake 1 0)
    (.exec (.old (.set 0 (.arr 1 [.slice 0 2]))) (.elements (.arr 0 []) fun d xs => .ret (d, xs)))))).map Prod.snd = .ok ([2], [1, 2]) := by decide +kernel

example : (MWorld.empty.exec Arith.exact true exAlloc (.exec (.old (.makeFrom 0 [1, 2, 3] [3])) (.exec (.moveMake 1 0)
    (.exec (.old (.overlapWhole 0 (.arr 1 []))) (.elements (.arr 0 []) fun d xs => .ret (d, xs)))))).map Prod.snd = .ok ([3], [1, 2, 3]) := by decide +kernel

/-- A state of memory that holds `exMoved`, for the hypotheses of the other theorems. -/
theorem exMoved_holds : ∃ W : MWorld Nat, MHolds W exMoved := by
  obtain ⟨W', _, h⟩ := C75_program_partial exMoved_make true (alloc := goodAlloc_exists.choose) goodAlloc_exists.choose_spec
  exact ⟨W', h⟩

-- A program on it: `x1 += 1` and a look at the elements; it computes, and it is legal.
theorem exMoved_computes : Computes exMoved (.elements (.arr 1 []) fun _ xs => .ret xs.length : Prog Nat Nat) exMoved 3 := by
  refine .elements (d := [3]) (xs := [1, 2, 3]) ⟨by decide, ⟨_, _, rfl, chain_whole [3], rfl⟩, rfl, fun i hi => ?_⟩ .ret
  have : ∀ i ∈ multiIdx [3], [1, 2, 3][cmSum [3] i]? = some (1 + cmSum [3] i) := by decide
  rw [this i (mem_multiIdx.2 hi)]
  rfl
example := C75_computes_partial exMoved_computes exMoved_holds.choose_spec true goodAlloc_exists.choose_spec
example := C75_determined exMoved_computes exMoved_computes exMoved_holds.choose_spec goodAlloc_exists.choose_spec
example := C75_legal_partial (S := exMoved) (p := .elements (.arr 1 []) fun _ xs => .ret xs.length)
  ⟨[3], by decide, ⟨_, _, rfl, chain_whole [3], rfl⟩, fun _ _ => trivial⟩ exMoved_holds.choose_spec true goodAlloc_exists.choose_spec
example := C75_moved_from_assign exMoved_holds.choose_spec (x := 0) rfl (e := .arr 1 []) (d' := [3]) rfl ⟨_, _, rfl, chain_whole [3], rfl⟩ rfl true
example := (C75_moved_from_read (β := Nat) exMoved_holds.choose_spec (x := 0) (by simp [exMoved]) true (fun _ _ _ => 0)).1 (.arr 0 []) rfl
example := C75_moved_from_touched exMoved_holds.choose_spec (x := 0) (by simp [exMoved]) (s := .assign 0 [.slice 0 2] (.arr 1 [.slice 0 2])) (.inl rfl) true

end Jules.Props

import Verif.Spec.Views
import Verif.Props.Program
/-
Lemmas for C80 and C81: statements with views are the statements with the index expressions written instead, in any arithmetic and build.
-/
namespace Jules.Props
open Spec

section
variable {α : Type} {V : VWorld α} {σ : Aliases} {chk : Bool} {A : Arith}

theorem world_index (w : World α) (x : Nat) (h : List Ix) {c : Arr} (hc : w.env x = some c) :
    w.index A chk x h = (Obj.cref c.base c.ext).run A chk h := by
  simp [World.index, World.get, hc]

/-- A view is an alias: indexing it is indexing the array it was taken from, with the index expressions of the view first. -/
theorem index_in (H : Aliased A chk V σ) {x y : Nat} {h g : List Ix} (hn : inName σ x h = some (y, g)) :
    V.index A chk x h = V.w.index A chk y g := by
  unfold inName at hn
  cases hv : σ x with
  | none =>
    rw [hv] at hn
    cases hn
    simp [VWorld.index, (H.scope x).2 hv]
  | some k =>
    rw [hv] at hn
    cases k with
    | dangling => cases hn
    | «alias» z k =>
      cases hn
      obtain ⟨_, c, o, hc, ho, hi⟩ := H.alias x _ k hv
      rw [world_index _ _ _ hc] at hi
      rw [world_index _ _ _ hc, run_append, hi, res_ok_bind]
      simp [VWorld.index, ho]

theorem sc_in (H : Aliased A chk V σ) {s s' : Sc α} (hs : inSc σ s = some s') : s.evalV A chk V = s'.eval A chk V.w := by
  cases s with
  | const c => cases hs; rfl
  | elem x h =>
    simp only [inSc, Option.map_eq_some_iff] at hs
    obtain ⟨n, hn, rfl⟩ := hs
    simp only [Sc.evalV, Sc.eval, index_in H hn]
    rfl

theorem ex_in (H : Aliased A chk V σ) : ∀ {e e' : PEx α}, inEx σ e = some e' → e.evalV A chk V = e'.eval A chk V.w
  | .arr x h, e', hs => by
    simp only [inEx, Option.map_eq_some_iff] at hs
    obtain ⟨n, hn, rfl⟩ := hs
    simp only [PEx.evalV, PEx.eval, index_in H hn]
  | .un f e, _, hs => by
    simp only [inEx, Option.map_eq_some_iff] at hs
    obtain ⟨n, hn, rfl⟩ := hs
    simp only [PEx.evalV, PEx.eval, ex_in H hn]
  | .bin f a b, _, hs => by
    simp only [inEx, Option.map_eq_some_iff, Option.bind_eq_some_iff] at hs
    obtain ⟨n, hn, m, hm, rfl⟩ := hs
    simp only [PEx.evalV, PEx.eval, ex_in H hn, ex_in H hm]
  | .scl f s e, _, hs => by
    simp only [inEx, Option.map_eq_some_iff, Option.bind_eq_some_iff] at hs
    obtain ⟨n, hn, m, hm, rfl⟩ := hs
    simp only [PEx.evalV, PEx.eval, sc_in H hn, ex_in H hm]
  | .scr f e s, _, hs => by
    simp only [inEx, Option.map_eq_some_iff, Option.bind_eq_some_iff] at hs
    obtain ⟨n, hn, m, hm, rfl⟩ := hs
    simp only [PEx.evalV, PEx.eval, ex_in H hn, sc_in H hm]

theorem arrayOnly_some {x : Nat} {β : Type} {r : Option β} {b : β} (h : arrayOnly σ x r = some b) : σ x = none ∧ r = some b := by
  unfold arrayOnly at h
  cases hv : σ x with
  | none => simp [hv] at h; exact ⟨rfl, h⟩
  | some k => simp [hv] at h

/-- The name that is written, and that it has index expressions if `x` is a view. -/
theorem isView_in (H : Aliased A chk V σ) {x y : Nat} {h g : List Ix} (hn : inName σ x h = some (y, g)) :
    (V.isView x || !h.isEmpty) = !g.isEmpty := by
  unfold inName at hn
  cases hv : σ x with
  | none =>
    rw [hv] at hn; cases hn
    simp [VWorld.isView, (H.scope x).2 hv]
  | some k =>
    rw [hv] at hn
    cases k with
    | dangling => cases hn
    | «alias» z k =>
      cases hn
      obtain ⟨hne, _, o, _, ho, _⟩ := H.alias x _ k hv
      simp [VWorld.isView, ho, hne]

theorem isFree_in (H : Aliased A chk V σ) {x : Nat} (hv : σ x = none) : V.isFree x = (V.w.env x).isNone := by
  simp [VWorld.isFree, (H.scope x).2 hv]

theorem notView_in (H : Aliased A chk V σ) {x : Nat} (hv : σ x = none) : V.isView x = false := by
  simp [VWorld.isView, (H.scope x).2 hv]

theorem res_map_bind {β γ δ : Type} (r : Res β) (f : β → Res γ) (g : γ → δ) : (r >>= f).map g = r >>= fun b => (f b).map g := by
  cases r <;> rfl

theorem needs_false {β : Type} (f : Unit → Res β) : (needs false >>= f) = .error .illFormed := rfl
theorem needs_true {β : Type} (f : Unit → Res β) : (needs true >>= f) = f () := rfl

theorem step_setA (chk : Bool) (alloc : Nat → Mem α → Nat → Nat) (w : World α) (x : Nat) {e : PEx α} (he : ∀ y, e ≠ .arr y []) :
    w.step A chk alloc (.set x e) = (do
      let a ← w.get x
      let e' ← e.eval A chk w
      let src ← e'.build A chk
      sameOrder a src.dims
      let r ← assignArray A chk a e' w.mem (alloc w.clock w.mem (prodL A src.dims))
      .ok (w.bind r.1 x (some r.2))) := by
  cases e with
  | arr y h =>
    cases h with
    | nil => exact (he y rfl).elim
    | cons ix h => rfl
  | _ => rfl

theorem step_set_arr (chk : Bool) (alloc : Nat → Mem α → Nat → Nat) (w : World α) (x y : Nat) {g : List Ix} (hg : g ≠ []) :
    w.step A chk alloc (.set x (.arr y g)) = (do
      let a ← w.get x
      let e' ← (PEx.arr (α := α) y g).eval A chk w
      let src ← e'.build A chk
      sameOrder a src.dims
      let r ← assignArray A chk a e' w.mem (alloc w.clock w.mem (prodL A src.dims))
      .ok (w.bind r.1 x (some r.2))) := by
  apply step_setA
  intro z hz
  cases hz
  exact hg rfl

/-- Views do not matter: a statement does what it does when the index expressions are written instead of the views (whether it
succeeds or fails). -/
theorem stmt_in (H : Aliased A chk V σ) {s s' : Stmt α} (hs : inStmt σ s = some s') (alloc : Nat → Mem α → Nat → Nat) :
    V.step A chk alloc (.stmt s) = (V.w.step A chk alloc s').map fun w' => ⟨w', V.view⟩ := by
  cases s with
  | make x e =>
    obtain ⟨hv, hs⟩ := arrayOnly_some hs
    simp only [Option.map_eq_some_iff] at hs
    obtain ⟨e', he, rfl⟩ := hs
    cases hx : V.w.env x with
    | some c => simp only [VWorld.step, World.step, isFree_in H hv, hx]; rfl
    | none =>
      simp only [VWorld.step, World.step, isFree_in H hv, hx, ex_in H he, Option.isNone_none, needs_true, res_map_bind]
      rfl
  | makeFill x s d =>
    obtain ⟨hv, hs⟩ := arrayOnly_some hs
    simp only [Option.map_eq_some_iff] at hs
    obtain ⟨e', he, rfl⟩ := hs
    cases hx : V.w.env x with
    | some c => simp only [VWorld.step, World.step, isFree_in H hv, hx]; rfl
    | none =>
      simp only [VWorld.step, World.step, isFree_in H hv, hx, sc_in H he, Option.isNone_none, needs_true, res_map_bind]
      rfl
  | makeFrom x l d =>
    obtain ⟨hv, hs⟩ := arrayOnly_some hs
    cases hs
    cases hx : V.w.env x with
    | some c => simp only [VWorld.step, World.step, isFree_in H hv, hx]; rfl
    | none =>
      simp only [VWorld.step, World.step, isFree_in H hv, hx, Option.isNone_none, needs_true, res_map_bind]
      rfl
  | drop x =>
    obtain ⟨hv, hs⟩ := arrayOnly_some hs
    cases hs
    simp only [VWorld.step, World.step, (H.scope x).2 hv, res_map_bind]
    rfl
  | fill x h s =>
    simp only [inStmt, Option.map_eq_some_iff, Option.bind_eq_some_iff] at hs
    obtain ⟨n, hn, m, hm, rfl⟩ := hs
    simp only [VWorld.step, World.step, isView_in H hn, index_in H hn, sc_in H hm, res_map_bind]
    rfl
  | assign x h e =>
    simp only [inStmt, Option.map_eq_some_iff, Option.bind_eq_some_iff] at hs
    obtain ⟨n, hn, m, hm, rfl⟩ := hs
    simp only [VWorld.step, World.step, isView_in H hn, index_in H hn, ex_in H hm, res_map_bind]
    rfl
  | inPlace x h op e =>
    simp only [inStmt, Option.map_eq_some_iff, Option.bind_eq_some_iff] at hs
    obtain ⟨n, hn, m, hm, rfl⟩ := hs
    simp only [VWorld.step, World.step, index_in H hn, ex_in H hm, res_map_bind]
    rfl
  | inPlaceScalar x h op s =>
    simp only [inStmt, Option.map_eq_some_iff, Option.bind_eq_some_iff] at hs
    obtain ⟨n, hn, m, hm, rfl⟩ := hs
    simp only [VWorld.step, World.step, index_in H hn, sc_in H hm, res_map_bind]
    rfl
  | apply x h f =>
    simp only [inStmt, Option.map_eq_some_iff] at hs
    obtain ⟨n, hn, rfl⟩ := hs
    simp only [VWorld.step, World.step, index_in H hn, res_map_bind]
    rfl
  | overlap x h e =>
    simp only [inStmt, Option.map_eq_some_iff, Option.bind_eq_some_iff] at hs
    obtain ⟨n, hn, m, hm, rfl⟩ := hs
    simp only [VWorld.step, World.step, isView_in H hn, index_in H hn, ex_in H hm, res_map_bind]
    rfl
  | overlapWhole x e =>
    obtain ⟨hv, hs⟩ := arrayOnly_some hs
    simp only [Option.map_eq_some_iff] at hs
    obtain ⟨e', he, rfl⟩ := hs
    simp only [VWorld.step, World.step, notView_in H hv, Bool.not_false, needs_true, ex_in H he, res_map_bind]
    rfl
  | set x e =>
    obtain ⟨hv, hs⟩ := arrayOnly_some hs
    simp only [Option.map_eq_some_iff] at hs
    obtain ⟨e', he, rfl⟩ := hs
    by_cases hy : ∃ y, e = .arr y []
    · obtain ⟨y, rfl⟩ := hy
      simp only [inEx, Option.map_eq_some_iff] at he
      obtain ⟨n, hn, rfl⟩ := he
      have hal := index_in H hn
      have hn' := hn
      unfold inName at hn
      cases hvy : σ y with
      | none =>
        rw [hvy] at hn; cases hn
        simp only [VWorld.step, World.step, notView_in H hv, Bool.not_false, needs_true, (H.scope y).2 hvy, res_map_bind]
        rfl
      | some k =>
        rw [hvy] at hn
        cases k with
        | dangling => cases hn
        | «alias» z k =>
          cases hn
          obtain ⟨hne, _, o, _, ho, hi⟩ := H.alias y _ k hvy
          rw [List.append_nil, step_set_arr _ _ _ _ _ hne]
          simp only [VWorld.step, notView_in H hv, Bool.not_false, needs_true, ho, PEx.eval, hi, res_ok_bind, res_map_bind]
          rfl
    · have hy' : ∀ y, e' ≠ .arr y [] := by
        rintro y rfl
        cases e with
        | arr z h =>
          simp only [inEx, Option.map_eq_some_iff] at he
          obtain ⟨n, hn, hn2⟩ := he
          have h2 : n.2 = [] := by injection hn2
          have := isView_in H (y := n.1) (g := n.2) hn
          rw [h2] at this
          cases h with
          | nil => exact hy ⟨z, rfl⟩
          | cons ix h => simp at this
        | un f e => simp [inEx] at he
        | bin f a b => simp [inEx, Option.bind_eq_some_iff] at he
        | scl f a b => simp [inEx, Option.bind_eq_some_iff] at he
        | scr f a b => simp [inEx, Option.bind_eq_some_iff] at he
      rw [step_setA _ _ _ _ hy']
      have hst : V.step A chk alloc (.stmt (.set x e)) = (do
          needs (!V.isView x)
          let a ← V.w.get x
          let e' ← e.evalV A chk V
          let src ← e'.build A chk
          sameOrder a src.dims
          let r ← assignArray A chk a e' V.w.mem (alloc V.w.clock V.w.mem (prodL A src.dims))
          .ok (V.bind r.1 x (some r.2))) := by
        cases e with
        | arr y h =>
          cases h with
          | nil => exact (hy ⟨y, rfl⟩).elim
          | cons ix h => rfl
        | _ => rfl
      simp only [hst, notView_in H hv, Bool.not_false, needs_true, ex_in H he, res_map_bind]
      rfl
  | moveAssign x y =>
    obtain ⟨hv, hs⟩ := arrayOnly_some hs
    obtain ⟨hv', hs⟩ := arrayOnly_some hs
    cases hs
    simp only [VWorld.step, World.step, notView_in H hv, notView_in H hv', Bool.not_false, Bool.and_self, needs_true, res_map_bind]
    rfl

theorem env_of_get {w : World α} {x : Nat} {a : Arr} (h : w.get x = .ok a) : w.env x = some a := by
  unfold World.get at h
  split at h
  · cases h; assumption
  · cases h

theorem assign_base {a : Arr} {src : EObj α} {m : Mem α} {f : Nat} {r : Mem α × Arr} (h : arrayAssignExpr A a src m f = .ok r) :
    r.2.ext = src.dims ∧ (prodL A a.ext = prodL A src.dims → r.2.base = a.base) ∧
      (prodL A a.ext ≠ prodL A src.dims → ∀ q, a.base ≤ q → q < a.base + prodL A a.ext → r.1 q = none) := by
  unfold arrayAssignExpr at h
  split at h
  · next he =>
    split at h
    · cases h
    · split at h
      · cases h
      · obtain ⟨m', _, h⟩ := res_bind_ok.1 h
        cases h
        exact ⟨rfl, fun _ => rfl, fun h => (h he).elim⟩
  · next hne =>
    obtain ⟨⟨m', b⟩, h1, h⟩ := res_bind_ok.1 h
    cases h
    obtain ⟨xs, _, h1⟩ := res_bind_ok.1 h1
    cases h1
    exact ⟨rfl, fun h => (hne h).elim, fun _ q h1 h2 => by simp [Mem.free, h1, h2]⟩

/-- An assignment to an array keeps its block when the number of elements does not change, and destroys it otherwise. -/
theorem set_base {w w' : World α} {alloc : Nat → Mem α → Nat → Nat} {x : Nat} {e : PEx α}
    (hs : w.step A chk alloc (.set x e) = .ok w') :
    (∀ y, y ≠ x → w'.env y = w.env y) ∧ ∃ c d, w.env x = some c ∧ w'.env x = some d ∧ (prodL A c.ext = prodL A d.ext → d.base = c.base) ∧
      (prodL A c.ext ≠ prodL A d.ext → ∀ q, c.base ≤ q → q < c.base + prodL A c.ext → w'.mem q = none) := by
  by_cases hy : ∃ y, e = .arr y []
  · obtain ⟨y, rfl⟩ := hy
    simp only [World.step] at hs
    obtain ⟨a, h1, hs⟩ := res_bind_ok.1 hs
    obtain ⟨b, h2, hs⟩ := res_bind_ok.1 hs
    obtain ⟨_, _, hs⟩ := res_bind_ok.1 hs
    obtain ⟨r, h3, hs⟩ := res_bind_ok.1 hs
    cases hs
    refine ⟨fun y hy => by simp [World.bind, hy], a, r.2, env_of_get h1, by simp [World.bind], ?_⟩
    unfold assignArrayCopy at h3
    split at h3
    · cases h3; exact ⟨fun _ => rfl, fun h => (h rfl).elim⟩
    · obtain ⟨h4, h5⟩ := assign_base h3
      rw [h4]; exact h5
  · rw [step_setA _ _ _ _ fun y h => hy ⟨y, h⟩] at hs
    obtain ⟨a, h1, hs⟩ := res_bind_ok.1 hs
    obtain ⟨e', h2, hs⟩ := res_bind_ok.1 hs
    obtain ⟨src, h2, hs⟩ := res_bind_ok.1 hs
    obtain ⟨_, _, hs⟩ := res_bind_ok.1 hs
    obtain ⟨r, h3, hs⟩ := res_bind_ok.1 hs
    cases hs
    refine ⟨fun y hy => by simp [World.bind, hy], a, r.2, env_of_get h1, by simp [World.bind], ?_⟩
    obtain ⟨src', _, h3⟩ := res_bind_ok.1 h3
    obtain ⟨h4, h5⟩ := assign_base h3
    rw [h4]; exact h5

/-- The blocks of the arrays after a statement are where `owner` says. -/
theorem env_step {w w' : World α} {alloc : Nat → Mem α → Nat → Nat} {s : Stmt α}
    (hs : w.step A chk alloc s = .ok w') {y z : Nat} {c : Arr} (hy : w.env y = some c)
    (ho : owner (worldExts w) (worldExts w') s y = some z) : w'.env z = some c := by
  cases s with
  | make x e =>
    cases ho
    cases hx : w.env x with
    | some d => simp [World.step, hx] at hs
    | none =>
      simp only [World.step, hx] at hs
      obtain ⟨_, _, hs⟩ := res_bind_ok.1 hs
      obtain ⟨_, _, hs⟩ := res_bind_ok.1 hs
      obtain ⟨_, _, hs⟩ := res_bind_ok.1 hs
      cases hs
      have : y ≠ x := by rintro rfl; rw [hx] at hy; cases hy
      simp [World.bind, this, hy]
  | makeFill x e d =>
    cases ho
    cases hx : w.env x with
    | some d => simp [World.step, hx] at hs
    | none =>
      simp only [World.step, hx] at hs
      obtain ⟨_, _, hs⟩ := res_bind_ok.1 hs
      obtain ⟨_, _, hs⟩ := res_bind_ok.1 hs
      obtain ⟨_, _, hs⟩ := res_bind_ok.1 hs
      obtain ⟨_, _, hs⟩ := res_bind_ok.1 hs
      cases hs
      have : y ≠ x := by rintro rfl; rw [hx] at hy; cases hy
      simp [World.bind, this, hy]
  | makeFrom x e d =>
    cases ho
    cases hx : w.env x with
    | some d => simp [World.step, hx] at hs
    | none =>
      simp only [World.step, hx] at hs
      obtain ⟨_, _, hs⟩ := res_bind_ok.1 hs
      obtain ⟨_, _, hs⟩ := res_bind_ok.1 hs
      cases hs
      have : y ≠ x := by rintro rfl; rw [hx] at hy; cases hy
      simp [World.bind, this, hy]
  | drop x =>
    simp only [owner] at ho
    split at ho
    · cases ho
    · next hn =>
      cases ho
      obtain ⟨_, _, hs⟩ := res_bind_ok.1 hs
      cases hs
      simp [World.bind, hn, hy]
  | fill x h e =>
    cases ho
    obtain ⟨_, _, hs⟩ := res_bind_ok.1 hs
    obtain ⟨_, _, hs⟩ := res_bind_ok.1 hs
    obtain ⟨_, _, hs⟩ := res_bind_ok.1 hs
    obtain ⟨_, _, hs⟩ := res_bind_ok.1 hs
    cases hs; exact hy
  | assign x h e =>
    cases ho
    obtain ⟨_, _, hs⟩ := res_bind_ok.1 hs
    obtain ⟨_, _, hs⟩ := res_bind_ok.1 hs
    obtain ⟨_, _, hs⟩ := res_bind_ok.1 hs
    obtain ⟨_, _, hs⟩ := res_bind_ok.1 hs
    cases hs; exact hy
  | inPlace x h op e =>
    cases ho
    obtain ⟨_, _, hs⟩ := res_bind_ok.1 hs
    obtain ⟨_, _, hs⟩ := res_bind_ok.1 hs
    obtain ⟨_, _, hs⟩ := res_bind_ok.1 hs
    cases hs; exact hy
  | inPlaceScalar x h op e =>
    cases ho
    obtain ⟨_, _, hs⟩ := res_bind_ok.1 hs
    obtain ⟨_, _, hs⟩ := res_bind_ok.1 hs
    obtain ⟨_, _, hs⟩ := res_bind_ok.1 hs
    cases hs; exact hy
  | apply x h f =>
    cases ho
    obtain ⟨_, _, hs⟩ := res_bind_ok.1 hs
    obtain ⟨_, _, hs⟩ := res_bind_ok.1 hs
    obtain ⟨_, _, hs⟩ := res_bind_ok.1 hs
    cases hs; exact hy
  | overlap x h e =>
    cases ho
    obtain ⟨_, _, hs⟩ := res_bind_ok.1 hs
    obtain ⟨_, _, hs⟩ := res_bind_ok.1 hs
    obtain ⟨_, _, hs⟩ := res_bind_ok.1 hs
    obtain ⟨_, _, hs⟩ := res_bind_ok.1 hs
    obtain ⟨_, _, hs⟩ := res_bind_ok.1 hs
    cases hs; exact hy
  | overlapWhole x e =>
    simp only [owner] at ho
    split at ho
    · cases ho
    · next hn =>
      cases ho
      obtain ⟨_, _, hs⟩ := res_bind_ok.1 hs
      obtain ⟨_, _, hs⟩ := res_bind_ok.1 hs
      obtain ⟨_, _, hs⟩ := res_bind_ok.1 hs
      obtain ⟨_, _, hs⟩ := res_bind_ok.1 hs
      obtain ⟨_, _, hs⟩ := res_bind_ok.1 hs
      cases hs
      simp [World.bind, hn, hy]
  | set x e =>
    simp only [owner] at ho
    split at ho
    · cases ho
    · next hn =>
      cases ho
      obtain ⟨h1, c', d, h2, h3, h4, _⟩ := set_base hs
      by_cases hyx : y = x
      · subst hyx
        have hn : worldExts w y = worldExts w' y := by
          by_contra h; exact hn ⟨rfl, h⟩
        rw [hy] at h2; cases h2
        simp only [worldExts, hy, h3, Option.map_some, Option.some.injEq] at hn
        rw [h3]
        have hb := h4 (by rw [hn])
        cases c; cases d
        simp only at hn hb
        rw [hn, hb]
      · rw [h1 y hyx, hy]
  | moveAssign x t =>
    obtain ⟨a, h1, hs⟩ := res_bind_ok.1 hs
    obtain ⟨b, h2, hs⟩ := res_bind_ok.1 hs
    obtain ⟨_, _, hs⟩ := res_bind_ok.1 hs
    obtain ⟨_, _, hs⟩ := res_bind_ok.1 hs
    have h1 := env_of_get h1
    have h2 := env_of_get h2
    cases hs
    simp only [owner] at ho
    split at ho
    · next h => cases ho; subst h; rw [hy] at h1; cases h1; simp [World.bind]
    · next hn =>
      split at ho
      · next h =>
        cases ho; subst h
        rw [hy] at h2; cases h2
        have : z ≠ y := fun h => hn h.symm
        simp [World.bind, this]
      · next hn' => cases ho; simp [World.bind, hn, hn', hy]

/-- A statement brings no new names into scope, except by declaring them. -/
theorem env_none {w w' : World α} {alloc : Nat → Mem α → Nat → Nat} {s : Stmt α} (hs : w.step A chk alloc s = .ok w') {x : Nat}
    (hx : w.env x = none) (hd : ∀ e d l v, s ≠ .make x e ∧ s ≠ .makeFill x v d ∧ s ≠ .makeFrom x l d) : w'.env x = none := by
  cases s with
  | make y e =>
    have hxy : x ≠ y := by rintro rfl; exact (hd e [] [] (.elem 0 [])).1 rfl
    simp only [World.step] at hs
    split at hs
    · cases hs
    · obtain ⟨_, _, hs⟩ := res_bind_ok.1 hs
      obtain ⟨_, _, hs⟩ := res_bind_ok.1 hs
      obtain ⟨_, _, hs⟩ := res_bind_ok.1 hs
      cases hs
      simp [World.bind, hxy, hx]
  | makeFill y v d =>
    have hxy : x ≠ y := by rintro rfl; exact (hd (.arr 0 []) d [] v).2.1 rfl
    simp only [World.step] at hs
    split at hs
    · cases hs
    · obtain ⟨_, _, hs⟩ := res_bind_ok.1 hs
      obtain ⟨_, _, hs⟩ := res_bind_ok.1 hs
      obtain ⟨_, _, hs⟩ := res_bind_ok.1 hs
      obtain ⟨_, _, hs⟩ := res_bind_ok.1 hs
      cases hs
      simp [World.bind, hxy, hx]
  | makeFrom y l d =>
    have hxy : x ≠ y := by rintro rfl; exact (hd (.arr 0 []) d l (.elem 0 [])).2.2 rfl
    simp only [World.step] at hs
    split at hs
    · cases hs
    · obtain ⟨_, _, hs⟩ := res_bind_ok.1 hs
      obtain ⟨_, _, hs⟩ := res_bind_ok.1 hs
      cases hs
      simp [World.bind, hxy, hx]
  | drop y =>
    obtain ⟨_, _, hs⟩ := res_bind_ok.1 hs
    cases hs
    simp only [World.bind]
    split
    · rfl
    · exact hx
  | overlapWhole y e =>
    obtain ⟨c, h1, hs⟩ := res_bind_ok.1 hs
    have h1 := env_of_get h1
    obtain ⟨_, _, hs⟩ := res_bind_ok.1 hs
    obtain ⟨_, _, hs⟩ := res_bind_ok.1 hs
    obtain ⟨_, _, hs⟩ := res_bind_ok.1 hs
    obtain ⟨_, _, hs⟩ := res_bind_ok.1 hs
    cases hs
    have hxy : x ≠ y := by rintro rfl; rw [hx] at h1; cases h1
    simp [World.bind, hxy, hx]
  | set y e =>
    obtain ⟨h1, c, d, h2, _⟩ := set_base hs
    rw [h1 x (by rintro rfl; rw [hx] at h2; cases h2), hx]
  | moveAssign y z =>
    obtain ⟨a, h1, hs⟩ := res_bind_ok.1 hs
    obtain ⟨b, h2, hs⟩ := res_bind_ok.1 hs
    have h1 := env_of_get h1
    have h2 := env_of_get h2
    obtain ⟨_, _, hs⟩ := res_bind_ok.1 hs
    obtain ⟨_, _, hs⟩ := res_bind_ok.1 hs
    cases hs
    have hxy : x ≠ y := by rintro rfl; rw [hx] at h1; cases h1
    have hxz : x ≠ z := by rintro rfl; rw [hx] at h2; cases h2
    simp [World.bind, hxy, hxz, hx]
  | fill y h v =>
    obtain ⟨_, _, hs⟩ := res_bind_ok.1 hs
    obtain ⟨_, _, hs⟩ := res_bind_ok.1 hs
    obtain ⟨_, _, hs⟩ := res_bind_ok.1 hs
    obtain ⟨_, _, hs⟩ := res_bind_ok.1 hs
    cases hs; exact hx
  | assign y h e =>
    obtain ⟨_, _, hs⟩ := res_bind_ok.1 hs
    obtain ⟨_, _, hs⟩ := res_bind_ok.1 hs
    obtain ⟨_, _, hs⟩ := res_bind_ok.1 hs
    obtain ⟨_, _, hs⟩ := res_bind_ok.1 hs
    cases hs; exact hx
  | inPlace y h op e =>
    obtain ⟨_, _, hs⟩ := res_bind_ok.1 hs
    obtain ⟨_, _, hs⟩ := res_bind_ok.1 hs
    obtain ⟨_, _, hs⟩ := res_bind_ok.1 hs
    cases hs; exact hx
  | inPlaceScalar y h op v =>
    obtain ⟨_, _, hs⟩ := res_bind_ok.1 hs
    obtain ⟨_, _, hs⟩ := res_bind_ok.1 hs
    obtain ⟨_, _, hs⟩ := res_bind_ok.1 hs
    cases hs; exact hx
  | apply y h f =>
    obtain ⟨_, _, hs⟩ := res_bind_ok.1 hs
    obtain ⟨_, _, hs⟩ := res_bind_ok.1 hs
    obtain ⟨_, _, hs⟩ := res_bind_ok.1 hs
    cases hs; exact hx
  | overlap y h e =>
    obtain ⟨_, _, hs⟩ := res_bind_ok.1 hs
    obtain ⟨_, _, hs⟩ := res_bind_ok.1 hs
    obtain ⟨_, _, hs⟩ := res_bind_ok.1 hs
    obtain ⟨_, _, hs⟩ := res_bind_ok.1 hs
    obtain ⟨_, _, hs⟩ := res_bind_ok.1 hs
    cases hs; exact hx

/-- Views go on standing for what they stand for when their array's block is still there. -/
theorem alias_kept {V' : VWorld α} (H : Aliased A chk V σ) {x z : Nat} {h : List Ix}
    {v : Nat} (hv : σ v = some (.alias x h)) (hview : V'.view v = V.view v)
    (he : ∀ c, V.w.env x = some c → V'.w.env z = some c) :
    h ≠ [] ∧ ∃ c o, V'.w.env z = some c ∧ V'.view v = some o ∧ V'.w.index A chk z h = .ok o := by
  obtain ⟨hne, c, o, hx, ho, hi⟩ := H.alias v x h hv
  have hz := he c hx
  exact ⟨hne, c, o, hz, by rw [hview, ho], by rw [world_index _ _ _ hz, ← world_index _ _ _ hx, hi]⟩

theorem follow_alias {own : Nat → Option Nat} {k : Kept} {z : Nat} {h : List Ix} (hk : k.follow own = .alias z h) :
    ∃ x, k = .alias x h ∧ own x = some z := by
  cases k with
  | dangling => cases hk
  | «alias» x g =>
    simp only [Kept.follow] at hk
    split at hk
    · next w hw => cases hk; exact ⟨x, rfl, hw⟩
    · cases hk

theorem inStmt_new {s s' : Stmt α} (h : inStmt σ s = some s') {x : Nat}
    (hx : (∃ e, s' = .make x e) ∨ (∃ v d, s' = .makeFill x v d) ∨ ∃ l d, s' = .makeFrom x l d) : σ x = none := by
  rcases hx with ⟨e, rfl⟩ | ⟨v, d, rfl⟩ | ⟨l, d, rfl⟩ <;> cases s with
  | make y e' =>
    obtain ⟨hv, h⟩ := arrayOnly_some h
    simp only [Option.map_eq_some_iff] at h
    obtain ⟨_, _, h⟩ := h
    cases h <;> exact hv
  | makeFill y v d =>
    obtain ⟨hv, h⟩ := arrayOnly_some h
    simp only [Option.map_eq_some_iff] at h
    obtain ⟨_, _, h⟩ := h
    cases h <;> exact hv
  | makeFrom y l d =>
    obtain ⟨hv, h⟩ := arrayOnly_some h
    cases h <;> exact hv
  | _ => simp [inStmt, arrayOnly, Option.bind_eq_some_iff] at h

/-- The views after a statement. -/
theorem aliased_stmt (H : Aliased A chk V σ) {s s' : Stmt α} (hin : inStmt σ s = some s') {alloc : Nat → Mem α → Nat → Nat} {w' : World α}
    (hw : V.w.step A chk alloc s' = .ok w') {σ' : Aliases}
    (hv : ∀ v, σ' v = (σ v).map (Kept.follow (owner (worldExts V.w) (worldExts w') s'))) : Aliased A chk ⟨w', V.view⟩ σ' := by
  refine ⟨?_, ?_, ?_⟩
  · intro x hx
    have hx0 : σ x ≠ none := by intro h; apply hx; rw [hv x, h]; rfl
    refine env_none hw (H.one x hx0) fun e d l v => ?_
    exact ⟨fun h => hx0 (inStmt_new hin (.inl ⟨e, h⟩)), fun h => hx0 (inStmt_new hin (.inr (.inl ⟨v, d, h⟩))),
      fun h => hx0 (inStmt_new hin (.inr (.inr ⟨l, d, h⟩)))⟩
  · intro x
    rw [hv x, H.scope x]; simp
  · intro v z h hz
    rw [hv v] at hz
    obtain ⟨k, hk, hf⟩ := Option.map_eq_some_iff.1 hz
    obtain ⟨x, rfl, hx⟩ := follow_alias hf
    exact alias_kept H hk rfl fun c hc => env_step hw hc hx

/-- A new view. -/
theorem aliased_view (H : Aliased A chk V σ) {v x y : Nat} {h g : List Ix} (hf : V.isFree v = true) (hn : inName σ x h = some (y, g))
    (hg : g ≠ []) {o : Obj} (ho : V.index A chk x h = .ok o) {σ' : Aliases} (h1 : ∀ z, z ≠ v → σ' z = σ z) (h2 : σ' v = some (.alias y g)) :
    Aliased A chk ⟨{ V.w with clock := V.w.clock + 1 }, fun y => if y = v then some o else V.view y⟩ σ' := by
  have hfe : V.w.env v = none := by
    simp only [VWorld.isFree, Bool.and_eq_true, Option.isNone_iff_eq_none] at hf; exact hf.2
  rw [index_in H hn] at ho
  refine ⟨?_, ?_, ?_⟩
  · intro z hz
    by_cases hzv : z = v
    · subst hzv; exact hfe
    · exact H.one z (by rwa [h1 z hzv] at hz)
  · intro z
    by_cases hzv : z = v
    · subst hzv; simp [h2]
    · simp [hzv, h1 z hzv, H.scope z]
  · intro z x' h' hz
    by_cases hzv : z = v
    · subst hzv
      rw [h2] at hz; cases hz
      obtain ⟨c, hc, _⟩ := res_bind_ok.1 ho
      exact ⟨hg, c, o, env_of_get hc, by simp, ho⟩
    · rw [h1 z hzv] at hz
      exact alias_kept H hz (by simp [hzv]) fun c hc => hc

/-- The end of a view. -/
theorem aliased_end (H : Aliased A chk V σ) {x : Nat} {σ' : Aliases} (hx : σ x ≠ none) (h1 : ∀ z, z ≠ x → σ' z = σ z) (h2 : σ' x = none) :
    Aliased A chk ⟨{ V.w with clock := V.w.clock + 1 }, fun y => if y = x then none else V.view y⟩ σ' := by
  refine ⟨?_, ?_, ?_⟩
  · intro z hz
    by_cases hzx : z = x
    · subst hzx; exact H.one z hx
    · exact H.one z (by rwa [h1 z hzx] at hz)
  · intro z
    by_cases hzx : z = x
    · subst hzx; simp [h2]
    · simp [hzx, h1 z hzx, H.scope z]
  · intro z x' h' hz
    by_cases hzx : z = x
    · subst hzx; rw [h2] at hz; cases hz
    · rw [h1 z hzx] at hz
      exact alias_kept H hz (by simp [hzx]) fun c hc => hc

/-- An array moved to a new variable. -/
theorem aliased_move (H : Aliased A chk V σ) {x y : Nat} {c : Arr} (hx : V.w.env x = some c) (hy : V.w.env y = none) (hvy : σ y = none) {σ' : Aliases}
    (hv : ∀ v, σ' v = (σ v).map (Kept.follow fun z => some (if z = x then y else z))) :
    Aliased A chk ((V.bind V.w.mem x none).bind V.w.mem y (some c)) σ' := by
  refine ⟨?_, ?_, ?_⟩
  · intro z hz
    have hz0 : σ z ≠ none := by intro h; apply hz; rw [hv z, h]; rfl
    have hzy : z ≠ y := by rintro rfl; exact hz0 hvy
    simp only [VWorld.bind, World.bind, hzy, if_false]
    split
    · rfl
    · exact H.one z hz0
  · intro z
    rw [hv z]
    show V.view z = none ↔ _
    rw [H.scope z]; simp
  · intro v z h hz
    rw [hv v] at hz
    obtain ⟨k, hk, hf⟩ := Option.map_eq_some_iff.1 hz
    obtain ⟨t, rfl, ht⟩ := follow_alias hf
    refine alias_kept H hk rfl fun c' hc' => ?_
    cases ht
    by_cases htx : t = x
    · subst htx
      rw [hx] at hc'; cases hc'
      simp [VWorld.bind, World.bind]
    · have hty : t ≠ y := by rintro rfl; rw [hy] at hc'; cases hc'
      simp [VWorld.bind, World.bind, htx, hty, hc']

end

end Jules.Props

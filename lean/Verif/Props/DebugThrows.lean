import Verif.Model.DebugThrows
import Verif.Model.Reshape
import Verif.Spec.DebugThrows
import Verif.Lemmas.Throws
import Verif.Props.Sound
/-
C69: builds where failed checks throw.
-/
namespace Jules.Props
open Spec

section
variable {α : Type} {w : World α} {T : Prop}

/-! ### Fragments without checks -/

def NoAssert (r : Res β) : Prop := r ≠ .error .assert

theorem na_ok (b : β) : NoAssert (.ok b) := fun h => by cases h

theorem na_bind {r : Res β} {g : β → Res γ} (h : NoAssert r) (hg : ∀ b, r = .ok b → NoAssert (g b)) : NoAssert (r >>= g) := by
  cases r with
  | ok b => exact hg b rfl
  | error f => exact fun hf => h (by cases hf; rfl)

theorem na_err {f : Fail} (h : f ≠ .assert) : NoAssert (.error f : Res β) := fun hf => by cases hf; exact h rfl

theorem na_map {r : Res β} (f : β → γ) (h : NoAssert r) : NoAssert (f <$> r) := by
  cases r with
  | ok b => exact na_ok _
  | error e => exact fun hf => h (by cases hf; rfl)

theorem na_mapM {f : β → Res γ} (h : ∀ b, NoAssert (f b)) : ∀ l : List β, NoAssert (l.mapM f)
  | [] => by rw [List.mapM_nil]; exact na_ok _
  | b :: l => by
    rw [List.mapM_cons]
    exact na_bind (h b) fun _ _ => na_bind (na_mapM h l) fun _ _ => na_ok _

theorem na_incr : ∀ e i : List Nat, NoAssert (incr e i)
  | [], i => by unfold incr; exact na_err (by simp)
  | [e], [] => by unfold incr; exact na_err (by simp)
  | [e], [i] => na_ok _
  | e :: e' :: es, [] => by unfold incr; exact na_err (by simp)
  | [e], i :: i' :: is => by
    rw [incr]
    · split
      · exact na_err (by simp)
      · simp only
        split
        · exact na_ok _
        · exact na_bind (na_incr [] (i' :: is)) fun _ _ => na_ok _
    · intro _ h; cases h
  | e :: e' :: es, i :: is => by
    rw [incr]
    · split
      · exact na_err (by simp)
      · simp only
        split
        · exact na_ok _
        · exact na_bind (na_incr (e' :: es) is) fun _ _ => na_ok _
    · intro h; cases h

theorem na_positions (o : Obj) : NoAssert (o.positions Arith.exact) := by
  cases o with
  | elem p => exact na_ok _
  | cref off ext => exact na_ok _
  | proxy off m a => exact na_err (by simp)
  | everyProxy off e M => exact na_err (by simp)
  | sref off m =>
    cases m with
    | vec d l => exact na_ok _
    | ident d =>
      refine na_bind ?_ fun _ _ => na_ok _
      have h1 : ∀ t s f p, NoAssert (iterOne Arith.exact t s f p) := by
        intro t s f
        induction f with
        | zero => intro p; exact na_err (by simp)
        | succ f ih =>
          intro p
          simp only [iterOne]
          split
          · exact na_ok _
          · exact na_bind (ih _) fun _ _ => na_ok _
      have h2 : ∀ f i, NoAssert (iterGen Arith.exact d f i) := by
        intro f
        induction f with
        | zero => intro p; exact na_err (by simp)
        | succ f ih =>
          intro i
          simp only [iterGen]
          split
          · exact na_ok _
          · exact na_bind (na_incr _ _) fun _ _ => na_bind (ih _) fun _ _ => na_ok _
      unfold SDesc.positions
      split
      · exact h1 _ _ _ _
      · exact na_err (by simp)
      · exact h2 _ _

theorem na_read (m : Mem α) (p : Nat) : NoAssert (m.read p) := by
  unfold Mem.read; split
  · exact na_ok _
  · exact na_err (by simp)

theorem na_write (m : Mem α) (p : Nat) (x : α) : NoAssert (m.write p x) := by
  unfold Mem.write; split
  · exact na_ok _
  · exact na_err (by simp)

theorem na_get (m : Mem α) (c : Scalar α) : NoAssert (c.get m) := by
  cases c with
  | val x => exact na_ok _
  | cell p => exact na_read m p

theorem na_deref (m : Mem α) : ∀ (it : It α) (k : Nat), NoAssert (it.deref m k)
  | .cells ps, k => by
    simp only [It.deref]; split
    · exact na_read _ _
    · exact na_err (by simp)
  | .map f it, k => na_map f (na_deref m it k)
  | .zip f l r, k => na_bind (na_deref m l k) fun _ _ => na_bind (na_deref m r k) fun _ _ => na_ok _

theorem na_updLoop {g : Nat → Nat → Mem α → Res α} (hg : ∀ k p m, NoAssert (g k p m)) : ∀ (ps : List Nat) (k : Nat) (m : Mem α),
    NoAssert (updLoop g k ps m)
  | [], _, _ => na_ok _
  | p :: ps, k, m => na_bind (hg k p m) fun _ _ => na_bind (na_write _ _ _) fun _ _ => na_updLoop hg ps _ _

theorem na_newArray (src : EObj α) (m : Mem α) (fresh : Nat) : NoAssert (newArray Arith.exact src m fresh) :=
  na_bind (na_mapM (fun k => na_deref m src.it k) _) fun _ _ => na_ok _

theorem na_arrayAssignExpr (a : Arr) (src : EObj α) (m : Mem α) (fresh : Nat) : NoAssert (arrayAssignExpr Arith.exact a src m fresh) := by
  unfold arrayAssignExpr
  split
  · split
    · exact na_err (by simp)
    · split
      · exact na_err (by simp)
      · exact na_bind (na_updLoop (fun k _ m => na_deref m src.it k) _ _ _) fun _ _ => na_ok _
  · exact na_bind (na_newArray _ _ _) fun _ _ => na_ok _

/-! ### The same values in both builds -/

theorem build_throws : ∀ e : Ex Obj α, e.build Arith.exactThrows true = e.build Arith.exact true
  | .leaf o => by simp only [Ex.build, positions_throws]
  | .un f e => by simp only [Ex.build, build_throws e]
  | .bin f a b => by simp only [Ex.build, build_throws a, build_throws b]

theorem tw_refl' (r : Res β) : Tw T r r fun _ => True := tw_refl fun _ _ => trivial

/-- The chain is not the reason of an uncatchable failure. -/
def Good (w : World α) (x : Nat) (h : List Ix) : Prop := h = [] ∨ ¬ EmptySel h ∧ ∀ c, w.env x = some c → ¬ Flat c.ext

theorem tw_windex (H : Intact w) (x : Nat) (h : List Ix) (hT : ¬ T → Good w x h) :
    Tw T (w.index Arith.exact true x h) (w.index Arith.exactThrows true x h) fun _ => True := by
  unfold World.index
  refine tw_bind (tw_refl' _) fun c hc _ => ?_
  have hc' : w.env x = some c := by
    unfold World.get at hc
    cases he : w.env x with
    | none => rw [he] at hc; cases hc
    | some c' => rw [he] at hc; cases hc; rfl
  by_cases hh : h = []
  · subst hh; exact tw_ok trivial
  · have hz : ¬ T → ¬ EmptySel h ∧ ∀ c, w.env x = some c → ¬ Flat c.ext := fun t => (hT t).resolve_left hh
    refine tw_mono (tw_run (H.order x c hc') (fun t hl y hy hy0 => (hz t).2 c hc' ⟨hl, hy0 ▸ hy⟩) fun t ix hix => ⟨?_, ?_⟩) fun _ _ _ => trivial
    · rintro rfl; exact (hz t).1 (.inl hix)
    · rintro s rfl; exact (hz t).1 (.inr ⟨s, hix⟩)

theorem tw_sc (H : Intact w) {s : Sc α} (hT : ¬ T → ∀ p ∈ scChains s, Good w p.1 p.2) :
    Tw T (s.eval Arith.exact true w) (s.eval Arith.exactThrows true w) fun _ => True := by
  cases s with
  | const c => exact tw_ok trivial
  | elem x h => exact tw_bind (tw_windex H x h fun t => hT t (x, h) (by simp [scChains])) fun o _ _ => tw_refl' _

theorem tw_ex (H : Intact w) : ∀ {e : PEx α}, (¬ T → ∀ p ∈ exChains e, Good w p.1 p.2) →
    Tw T (e.eval Arith.exact true w) (e.eval Arith.exactThrows true w) fun _ => True
  | .arr x h, hT => tw_bind (tw_windex H x h fun t => hT t (x, h) (by simp [exChains])) fun o _ _ => tw_ok trivial
  | .un f e, hT => tw_bind (tw_ex H hT) fun _ _ _ => tw_ok trivial
  | .bin f a b, hT => tw_bind (tw_ex H fun t p hp => hT t p (by simp [exChains, hp])) fun _ _ _ =>
      tw_bind (tw_ex H fun t p hp => hT t p (by simp [exChains, hp])) fun _ _ _ => tw_ok trivial
  | .scl f s e, hT => tw_bind (tw_sc H fun t p hp => hT t p (by simp [exChains, hp])) fun _ _ _ => tw_bind (tw_refl' _) fun _ _ _ =>
      tw_bind (tw_ex H fun t p hp => hT t p (by simp [exChains, hp])) fun _ _ _ => tw_ok trivial
  | .scr f e s, hT => tw_bind (tw_ex H fun t p hp => hT t p (by simp [exChains, hp])) fun _ _ _ =>
      tw_bind (tw_sc H fun t p hp => hT t p (by simp [exChains, hp])) fun _ _ _ => tw_bind (tw_refl' _) fun _ _ _ => tw_ok trivial

/-! ### The relation between a statement in the two builds -/

/-- The outcome with fatal checks and the outcome with checks that throw. -/
def RelX (T : Prop) (w : World α) (r : Res (World α)) (t : TOut α (Mem α → World α)) : Prop :=
  match r with
  | .ok w' => ∃ f m, t = .ok f m ∧ f m = w'
  | .error .assert => t = .thrown w.mem ∨ t = .fail .terminate ∧ T
  | .error f => t = .fail f

theorem tm_assoc (x : TM α β) (f : β → TM α γ) (g : γ → TM α δ) : (x >>= f) >>= g = x >>= fun b => f b >>= g := by
  funext m
  show TM.bind (TM.bind x f) g m = TM.bind x (fun b => TM.bind (f b) g) m
  unfold TM.bind
  cases x m <;> rfl

theorem act_ok {f : Mem α → Res (Mem α × β)} {m m' : Mem α} {b : β} (h : f m = .ok (m', b)) (k : β → TM α γ) :
    (TM.act f >>= k) m = k b m' := by
  show TM.bind _ _ m = _
  unfold TM.bind TM.act
  rw [h]

theorem act_err {f : Mem α → Res (Mem α × β)} {m : Mem α} {e : Fail} (h : f m = .error e) (k : β → TM α γ) :
    (TM.act f >>= k) m = .fail e := by
  show TM.bind _ _ m = _
  unfold TM.bind TM.act
  rw [h]

theorem lift_ok (b : β) (k : β → TM α γ) (m : Mem α) : (TM.lift (.ok b) >>= k) m = k b m := rfl

theorem relX_err {f : Fail} (h : f ≠ .assert) : RelX T w (.error f) (.fail f) := by
  unfold RelX
  cases f <;> first | rfl | exact (h rfl).elim

theorem relX_lift {r r' : Res β} {P : β → Prop} (h : Tw T r r' P) {g : β → Res (World α)} {k : β → TM α (Mem α → World α)}
    (hg : ∀ b, r = .ok b → P b → RelX T w (g b) (k b w.mem)) : RelX T w (r >>= g) ((TM.lift r' >>= k) w.mem) := by
  rcases h with ⟨rfl, h⟩ | ⟨rfl, rfl, h⟩
  · cases hr : r' with
    | ok b => exact hg b hr (h b hr)
    | error f =>
      by_cases hf : f = .assert
      · subst hf; exact .inl rfl
      · have : (TM.lift (.error f) >>= k) w.mem = .fail f := by cases f <;> first | rfl | exact (hf rfl).elim
        rw [this]
        exact relX_err hf
  · exact .inr ⟨rfl, h⟩

theorem relX_act {f f' : Mem α → Res (Mem α × β)} (hf : f' = f) (hn : NoAssert (f w.mem)) {g : Mem α × β → World α}
    {k : β → TM α (Mem α → World α)} (hk : ∀ m b, ∃ φ, k b m = .ok φ m ∧ φ m = g (m, b)) :
    RelX T w (f w.mem >>= fun r => .ok (g r)) ((TM.act f' >>= k) w.mem) := by
  subst hf
  have he : (TM.act f' >>= k) w.mem = match f' w.mem with | .ok (m', b) => k b m' | .error e => .fail e := by
    show TM.bind (TM.act f') k w.mem = _
    unfold TM.bind TM.act
    cases f' w.mem <;> rfl
  rw [he]
  cases h : f' w.mem with
  | ok r =>
    obtain ⟨φ, h1, h2⟩ := hk r.1 r.2
    exact ⟨φ, r.1, h1, h2⟩
  | error e => exact relX_err fun h' => hn (by rw [h, h'])

theorem relX_act' {r : Res (Mem α)} {f : Mem α → Res (Mem α)} (hf : f w.mem = r) (hn : NoAssert r) :
    RelX T w (r >>= fun m => .ok { w with mem := m, clock := w.clock + 1 })
      ((TM.act fun m => do let m' ← f m; .ok (m', w.wrote)) w.mem) := by
  simp only [TM.act, hf]
  cases r with
  | ok m' => exact ⟨_, _, rfl, rfl⟩
  | error e => exact relX_err fun h' => hn (by rw [h'])

/-! ### Assignments to views -/

/-- The target and the source of an assignment are as after `safe_index` and `safe_ex`. -/
theorem relX_assign {o : Obj} {c : Arr} (hg : GoodObj c o) {src : EObj α} (hs : GoodSrc w.mem src) :
    RelX T w (arrayAssign Arith.exact true o src w.mem >>= fun m => .ok { w with mem := m, clock := w.clock + 1 })
      ((arrayAssignT Arith.exactThrows o src >>= fun _ => pure w.wrote) w.mem) := by
  unfold arrayAssign arrayAssignT
  cases hd : o.dims with
  | none => exact relX_err (by simp)
  | some d =>
    by_cases hl : src.dims.length = d.length
    · simp only
      rw [if_neg (by simpa using hl), if_neg (by simpa using hl)]
      simp only [bind_assoc, tm_assoc]
      refine relX_lift (tw_refl' _) fun _ hdd _ => ?_
      have hdd : src.dims = d := by simpa [dbg_ok] using hdd
      rw [positions_throws]
      refine relX_lift (tw_refl' _) fun ps hps _ => ?_
      unfold GoodObj at hg
      rw [hps] at hg
      have hpl := (hg.2.2 d hd).2
      have hcnt : (src.it.count == some ps.length) = true := by rw [hs.2.1, hpl, hdd]; simp
      simp only [hcnt, dbg_any_true, res_ok_bind]
      have hn : NoAssert (updLoop (fun k _ m => src.it.deref m k) 0 ps w.mem) := na_updLoop (fun k _ m => na_deref m src.it k) _ _ _
      cases hu : updLoop (fun k _ m => src.it.deref m k) 0 ps w.mem with
      | ok m' =>
        refine ⟨w.wrote, m', ?_, rfl⟩
        rw [act_ok (m' := m') (b := ()) (by simp only [hu, res_ok_bind]), lift_ok]
        rfl
      | error f =>
        rw [act_err (e := f) (by simp only [hu, res_error_bind])]
        exact relX_err fun h => hn (by rw [hu, h])
    · simp only
      rw [if_pos hl, if_pos hl]
      exact relX_err (by simp)

/-- The same with a temporary that is destroyed in the end. -/
theorem relX_overlap {o : Obj} {c : Arr} (hg : GoodObj c o) {src : EObj α} {fresh : Nat} {xs : List α} (hx : xs.length = prod src.dims)
    (hf : ∀ i, i < prod src.dims → w.mem (fresh + i) = none) :
    RelX T w ((assignView Arith.exact true o (.leaf (.cref fresh src.dims)) (w.mem.setMany fresh xs) >>= fun m => .ok (m.free fresh (prod src.dims)))
        >>= fun m => .ok { w with mem := m, clock := w.clock + 1 })
      ((TM.scoped (fun m => m.free fresh (prodL Arith.exactThrows src.dims)) (do
        let tmp ← TM.lift ((Ex.leaf (.cref fresh src.dims) : Ex Obj α).build Arith.exactThrows true)
        arrayAssignT Arith.exactThrows o tmp
        pure w.wrote)) (w.mem.setMany fresh xs)) := by
  have hfree : (w.mem.setMany fresh xs).free fresh (prod src.dims) = w.mem := by
    funext q
    unfold Mem.free Mem.setMany
    by_cases h : fresh ≤ q ∧ q < fresh + prod src.dims
    · rw [if_pos h]
      have := hf (q - fresh) (by omega)
      rw [show fresh + (q - fresh) = q by omega] at this
      exact this.symm
    · rw [if_neg h, if_neg (by rwa [hx])]
  have hp : prodL Arith.exactThrows src.dims = prod src.dims := prodL_exact _
  have hb : (Ex.leaf (.cref fresh src.dims) : Ex Obj α).build Arith.exact true =
      .ok ⟨src.dims, .cells ((List.range (prod src.dims)).map (Arith.exact.add fresh ·))⟩ := by
    simp only [Ex.build, Obj.dims, Obj.positions, prodL_exact, res_ok_bind]
  rw [hp, build_throws]
  unfold assignView
  rw [hb]
  simp only [res_ok_bind]
  generalize hm : w.mem.setMany fresh xs = m at hfree
  unfold arrayAssign
  have hstart : ∀ k : TM α (Mem α → World α), (TM.scoped (fun m => m.free fresh (prod src.dims)) k) m =
      match k m with | .ok b m' => .ok b (m'.free fresh (prod src.dims)) | .thrown m' => .thrown (m'.free fresh (prod src.dims)) | .fail f => .fail f := by
    intro k; unfold TM.scoped; cases k m <;> rfl
  rw [hstart]
  have hl0 : ∀ k : EObj α → TM α (Mem α → World α), (TM.lift (.ok (⟨src.dims, .cells ((List.range (prod src.dims)).map (Arith.exact.add fresh ·))⟩ : EObj α)) >>= k) m =
      k ⟨src.dims, .cells ((List.range (prod src.dims)).map (Arith.exact.add fresh ·))⟩ m := fun k => rfl
  rw [hl0]
  unfold arrayAssignT
  cases hd : o.dims with
  | none => exact relX_err (by simp)
  | some d =>
    by_cases hl : src.dims.length = d.length
    · simp only
      rw [if_neg (by simpa using hl), if_neg (by simpa using hl)]
      simp only [bind_assoc, tm_assoc]
      by_cases hdd : src.dims = d
      · have h1 : (src.dims == d) = true := by simpa using hdd
        simp only [h1, dbg_any_true, res_ok_bind]
        rw [positions_throws]
        cases hps : o.positions Arith.exact with
        | error f =>
          have hf : f ≠ .assert := fun h => na_positions o (by rw [hps, h])
          cases f <;> first | exact (hf rfl).elim | rfl
        | ok ps =>
          unfold GoodObj at hg
          rw [hps] at hg
          have hpl := (hg.2.2 d hd).2
          simp only [res_ok_bind, It.count, List.length_map, List.length_range]
          have hcnt : ((some (prod src.dims) : Option Nat) == some ps.length) = true := by rw [hpl, hdd]; simp
          simp only [hcnt, dbg_any_true, res_ok_bind]
          have hn := na_updLoop (g := fun k _ m => (It.cells ((List.range (prod src.dims)).map (Arith.exact.add fresh ·)) : It α).deref m k)
            (fun k _ m => na_deref m _ k) ps 0 m
          cases hu : updLoop (fun k _ m => (It.cells ((List.range (prod src.dims)).map (Arith.exact.add fresh ·)) : It α).deref m k) 0 ps m with
          | ok m' =>
            refine ⟨w.wrote, m'.free fresh (prod src.dims), ?_, rfl⟩
            rw [lift_ok, lift_ok, act_ok (m' := m') (b := ()) (by simp only [hu, res_ok_bind]), hcnt, dbg_any_true, lift_ok]
            rfl
          | error f =>
            rw [lift_ok, lift_ok, act_err (e := f) (by simp only [hu, res_error_bind])]
            exact relX_err fun h => hn (by rw [hu, h])
      · have h1 : (src.dims == d) = false := by simpa using hdd
        simp only [h1, dbg_true_false, res_error_bind]
        refine .inl ?_
        show TOut.thrown _ = _
        rw [hfree]
    · simp only
      rw [if_pos hl, if_pos hl]
      exact relX_err (by simp)

/-! ### Statements -/

/-- The outcome of a statement with fatal checks and with checks that throw. -/
def RelW (T : Prop) (w : World α) (r : Res (World α)) (t : TRes α) : Prop :=
  match r with
  | .ok w' => t = .ok w'
  | .error .assert => (∃ w', t = .thrown w' ∧ SameState w w') ∨ t = .fail .terminate ∧ T
  | .error f => t = .fail f

theorem relW_exec {r : Res (World α)} {x : TM α (Mem α → World α)} (h : RelX T w r (x w.mem)) : RelW T w r (w.exec x) := by
  unfold World.exec
  cases r with
  | ok w' =>
    obtain ⟨f, m, h1, h2⟩ := h
    rw [h1]
    show TRes.ok (f m) = _
    rw [h2]
  | error f =>
    by_cases hf : f = .assert
    · subst hf
      rcases h with h | ⟨h, h'⟩
      · rw [h]; exact .inl ⟨_, rfl, rfl, rfl⟩
      · rw [h]; exact .inr ⟨rfl, h'⟩
    · have h : x w.mem = .fail f := by cases f <;> first | exact h | exact (hf rfl).elim
      rw [h]
      cases f <;> first | rfl | exact (hf rfl).elim

theorem safe_of {T' : Prop} {r : Res β} {P : β → Prop} (h : Safe T' r P) {b : β} (hb : r = .ok b) : P b := by
  subst hb; exact h

theorem relX_ok {w' : World α} {f : Mem α → World α} {m : Mem α} (h : f m = w') : RelX T w (.ok w') ((pure f : TM α _) m) := ⟨f, m, rfl, h⟩

theorem step_rel (H : Intact w) {s : Stmt α} (hs : Provided s) {alloc : Nat → Mem α → Nat → Nat} (hal : GoodAlloc alloc) :
    RelW (Uncatchable w s) w (w.step Arith.exact true alloc s) (w.stepT Arith.exactThrows alloc s) := by
  have hfree : ∀ n, ∀ i, i < n → w.mem (alloc w.clock w.mem n + i) = none := fun n => hal w.clock w.mem n H.finite
  have hc : ∀ p : Nat × List Ix, p ∈ chains s → ¬ Uncatchable w s → Good w p.1 p.2 := by
    rintro ⟨x, h⟩ hp hu
    by_cases hh : h = []
    · exact .inl hh
    · refine .inr ⟨fun h' => hu (.inl ⟨x, h, hp, hh, .inl h'⟩), fun c hc hfl => hu (.inl ⟨x, h, hp, hh, .inr ⟨c, hc, hfl⟩⟩)⟩
  generalize hT : Uncatchable w s = T at hc
  have hpl : ∀ d, prodL Arith.exactThrows d = prodL Arith.exact d := fun _ => rfl
  cases s with
  | make x e =>
    simp only [World.step, World.stepT]
    cases hx : w.env x with
    | some c => rfl
    | none =>
      refine relW_exec ?_
      refine relX_lift (tw_ex H fun t p hp => hc p hp t) fun e' _ _ => ?_
      rw [build_throws]
      refine relX_lift (tw_refl' _) fun src _ _ => ?_
      exact relX_act (f := fun m => newArray Arith.exact src m (alloc w.clock m (prodL Arith.exact src.dims))) rfl (na_newArray _ _ _)
        (g := fun r => w.bind r.1 x (some r.2)) fun m b => ⟨_, rfl, rfl⟩
  | makeFill x s ext =>
    simp only [World.step, World.stepT]
    cases hx : w.env x with
    | some c => rfl
    | none =>
      refine relW_exec ?_
      refine relX_lift (tw_refl' _) fun _ _ _ => ?_
      refine relX_lift (tw_sc H fun t p hp => hc p hp t) fun c _ _ => ?_
      refine relX_lift (tw_refl' _) fun v _ _ => ?_
      refine relX_act (f := fun m => newFrom Arith.exact ext (List.replicate (prodL Arith.exact ext) v) m (alloc w.clock m (prodL Arith.exact ext)))
        rfl ?_ (g := fun r => w.bind r.1 x (some r.2)) fun m b => ⟨_, rfl, rfl⟩
      unfold newFrom
      split
      · exact na_err (by simp)
      · exact na_ok _
  | makeFrom x l ext =>
    simp only [World.step, World.stepT]
    cases hx : w.env x with
    | some c => rfl
    | none =>
      refine relW_exec ?_
      refine relX_lift (tw_refl' _) fun _ _ _ => ?_
      refine relX_act (f := fun m => newFrom Arith.exact ext l m (alloc w.clock m (prodL Arith.exact ext))) rfl ?_
        (g := fun r => w.bind r.1 x (some r.2)) fun m b => ⟨_, rfl, rfl⟩
      unfold newFrom
      split
      · exact na_err (by simp)
      · exact na_ok _
  | drop x =>
    refine relW_exec ?_
    refine relX_lift (tw_refl' _) fun a _ _ => ?_
    exact relX_ok rfl
  | fill x h s =>
    refine relW_exec ?_
    refine relX_lift (tw_refl' _) fun _ _ _ => ?_
    refine relX_lift (tw_windex H x h fun t => hc (x, h) (by simp [chains]) t) fun o _ _ => ?_
    refine relX_lift (tw_sc H fun t p hp => hc p (by simp [chains, hp]) t) fun c _ _ => ?_
    have hv : fillView Arith.exactThrows o c = fillView Arith.exact o c := by funext m; unfold fillView; rw [positions_throws]
    rw [hv]
    exact relX_act' rfl (na_bind (na_positions o) fun ps _ => na_updLoop (fun _ _ m => na_get m c) _ _ _)
  | assign x h e =>
    refine relW_exec ?_
    refine relX_lift (tw_refl' _) fun _ _ _ => ?_
    refine relX_lift (tw_windex H x h fun t => hc (x, h) (by simp [chains]) t) fun o ho _ => ?_
    refine relX_lift (tw_ex H fun t p hp => hc p (by simp [chains, hp]) t) fun e' he' _ => ?_
    rw [build_throws]
    unfold assignView
    simp only [bind_assoc]
    refine relX_lift (tw_refl' _) fun src hsrc _ => ?_
    obtain ⟨c, _, hg, _⟩ := safe_of (safe_index H x hs.1) ho
    exact relX_assign hg (safe_of (safe_of (safe_ex H hs.2) he') hsrc).1
  | inPlace x h op e =>
    refine relW_exec ?_
    refine relX_lift (tw_windex H x h fun t => hc (x, h) (by simp [chains]) t) fun o ho _ => ?_
    refine relX_lift (tw_ex H fun t p hp => hc p (by simp [chains, hp]) t) fun e' he' _ => ?_
    rw [build_throws]
    unfold inPlaceExpr
    simp only [bind_assoc]
    refine relX_lift (tw_refl' _) fun src hsrc _ => ?_
    cases hd : o.dims with
    | none => exact relX_err (by simp)
    | some d =>
      by_cases hl : d.length = src.dims.length
      · simp only
        rw [if_neg (by simpa using hl), if_neg (by simpa using hl)]
        simp only [bind_assoc]
        refine relX_lift (tw_refl' _) fun _ _ _ => ?_
        rw [positions_throws]
        refine relX_lift (tw_refl' _) fun ps _ _ => ?_
        exact relX_act' (f := updLoop (fun k p m => do
            let a ← m.read p
            let b ← src.it.deref m k
            .ok (op a b)) 0 ps) rfl
          (na_updLoop (fun k p m => na_bind (na_read m p) fun _ _ => na_bind (na_deref m _ k) fun _ _ => na_ok _) _ _ _)
      · simp only
        rw [if_pos hl, if_pos hl]
        exact relX_err (by simp)
  | inPlaceScalar x h op s =>
    refine relW_exec ?_
    refine relX_lift (tw_windex H x h fun t => hc (x, h) (by simp [chains]) t) fun o _ _ => ?_
    refine relX_lift (tw_sc H fun t p hp => hc p (by simp [chains, hp]) t) fun c _ _ => ?_
    have hv : Jules.inPlaceScalar Arith.exactThrows o op c = Jules.inPlaceScalar Arith.exact o op c := by
      funext m; unfold Jules.inPlaceScalar; rw [positions_throws]
    rw [hv]
    exact relX_act' rfl (na_bind (na_positions o) fun ps _ =>
      na_updLoop (fun _ p m => na_bind (na_read m p) fun _ _ => na_bind (na_get m c) fun _ _ => na_ok _) _ _ _)
  | apply x h f =>
    refine relW_exec ?_
    refine relX_lift (tw_windex H x h fun t => hc (x, h) (by simp [chains]) t) fun o _ _ => ?_
    refine relX_lift (tw_refl' _) fun _ _ _ => ?_
    have hv : applyInPlace Arith.exactThrows o f = applyInPlace Arith.exact o f := by
      funext m; unfold applyInPlace; rw [positions_throws]
    rw [hv]
    exact relX_act' rfl (na_bind (na_positions o) fun ps _ => na_updLoop (fun _ p m => na_map f (na_read m p)) _ _ _)
  | overlap x h e =>
    refine relW_exec ?_
    refine relX_lift (tw_refl' _) fun _ _ _ => ?_
    refine relX_lift (tw_windex H x h fun t => hc (x, h) (by simp [chains]) t) fun o ho _ => ?_
    refine relX_lift (tw_ex H fun t p hp => hc p (by simp [chains, hp]) t) fun e' he' _ => ?_
    rw [build_throws]
    refine relX_lift (tw_refl' _) fun src hsrc _ => ?_
    obtain ⟨c, _, hg, _⟩ := safe_of (safe_index H x hs.1) ho
    obtain ⟨hgs, _⟩ := safe_of (safe_of (safe_ex H hs.2) he') hsrc
    obtain ⟨xs, k1, k2⟩ := newArray_good hgs (alloc w.clock w.mem (prod src.dims))
    unfold overlapView
    simp only [prodL_exact, hsrc, res_ok_bind, k1]
    rw [act_ok (m' := w.mem.setMany (alloc w.clock w.mem (prod src.dims)) xs) (b := ⟨alloc w.clock w.mem (prod src.dims), src.dims⟩)
      (by simp only [hpl, prodL_exact]; exact k1)]
    exact relX_overlap hg k2 (hfree _)
  | overlapWhole x e =>
    refine relW_exec ?_
    refine relX_lift (tw_refl' _) fun a _ _ => ?_
    refine relX_lift (tw_ex H fun t p hp => hc p (by simp [chains, hp]) t) fun e' he' _ => ?_
    rw [build_throws]
    refine relX_lift (tw_refl' _) fun src hsrc _ => ?_
    refine relX_lift (tw_refl' _) fun _ _ _ => ?_
    unfold overlapArray
    simp only [hsrc, res_ok_bind, bind_assoc]
    exact relX_act (f := fun m => newArray Arith.exact src m (alloc w.clock m (prodL Arith.exact src.dims))) rfl (na_newArray _ _ _)
      (g := fun r => w.bind (r.1.free a.base (prodL Arith.exact a.ext)) x (some r.2)) fun m b => ⟨_, rfl, rfl⟩
  | set x e =>
    by_cases hy : ∃ y, e = .arr y []
    · obtain ⟨y, rfl⟩ := hy
      refine relW_exec ?_
      refine relX_lift (tw_refl' _) fun a _ _ => ?_
      refine relX_lift (tw_refl' _) fun b _ _ => ?_
      refine relX_lift (tw_refl' _) fun _ _ _ => ?_
      refine relX_act (f := fun m => assignArrayCopy Arith.exact a b (x == y) m (alloc w.clock m (prodL Arith.exact b.ext))) rfl ?_
        (g := fun r => w.bind r.1 x (some r.2)) fun m b => ⟨_, rfl, rfl⟩
      unfold assignArrayCopy
      split
      · exact na_ok _
      · exact na_arrayAssignExpr _ _ _ _
    · have hy : ∀ y, e ≠ .arr y [] := fun y h => hy ⟨y, h⟩
      rw [step_set _ _ _ _ hy]
      have hT' : w.stepT Arith.exactThrows alloc (.set x e) = w.exec (do
          let a ← TM.lift (w.get x)
          let e' ← TM.lift (e.eval Arith.exactThrows true w)
          let src ← TM.lift (e'.build Arith.exactThrows true)
          TM.lift (sameOrder a src.dims)
          let b' ← TM.act fun m => arrayAssignExpr Arith.exactThrows a src m (alloc w.clock m (prodL Arith.exactThrows src.dims))
          pure fun m => w.bind m x (some b')) := by
        cases e with
        | arr y h =>
          cases h with
          | nil => exact (hy y rfl).elim
          | cons i h => rfl
        | _ => rfl
      rw [hT']
      refine relW_exec ?_
      refine relX_lift (tw_refl' _) fun a _ _ => ?_
      refine relX_lift (tw_ex H fun t p hp => hc p (by simp [chains, hp]) t) fun e' he' _ => ?_
      rw [build_throws]
      refine relX_lift (tw_refl' _) fun src hsrc _ => ?_
      refine relX_lift (tw_refl' _) fun _ _ _ => ?_
      unfold assignArray
      simp only [hsrc, res_ok_bind]
      exact relX_act (f := fun m => arrayAssignExpr Arith.exact a src m (alloc w.clock m (prodL Arith.exact src.dims))) rfl
        (na_arrayAssignExpr _ _ _ _) (g := fun r => w.bind r.1 x (some r.2)) fun m b => ⟨_, rfl, rfl⟩
  | moveAssign x y =>
    refine relW_exec ?_
    refine relX_lift (tw_refl' _) fun a _ _ => ?_
    refine relX_lift (tw_refl' _) fun b _ _ => ?_
    refine relX_lift (tw_refl' _) fun _ _ _ => ?_
    refine relX_lift (P := fun _ => True) ?_ fun _ _ _ => relX_ok rfl
    by_cases hxy : x = y
    · subst hxy
      have : (x != x) = false := by simp
      rw [this]
      exact .inr ⟨rfl, rfl, hT ▸ .inr ⟨x, rfl⟩⟩
    · have : (x != y) = true := by simpa using hxy
      rw [this]
      exact tw_ok trivial

/-! ### No zero extents -/

theorem wget_ok {x : Nat} {c : Arr} (h : w.get x = .ok c) : w.env x = some c := by
  unfold World.get at h
  cases he : w.env x with
  | none => rw [he] at h; cases h
  | some c' => rw [he] at h; cases h; rfl

/-- No array in scope has a zero extent (in two or more dimensions). -/
def NoFlat (w : World α) : Prop := ∀ x c, w.env x = some c → ¬ Flat c.ext

theorem not_flat {e : List Nat} : ¬ Flat e ↔ NZ e := by
  unfold Flat NZ
  constructor
  · intro h hl y hy hy0; exact h ⟨hl, hy0 ▸ hy⟩
  · rintro h ⟨hl, h0⟩; exact h hl 0 h0 rfl

theorem windex_nz (H : Intact w) (hf : NoFlat w) {x : Nat} {h : List Ix} (hh : ¬ EmptySel h) {o : Obj}
    (ho : w.index Arith.exact true x h = .ok o) {d : List Nat} (hd : o.dims = some d) : NZ d := by
  unfold World.index at ho
  obtain ⟨c, hc, ho⟩ := res_bind_ok.1 ho
  have hc := wget_ok hc
  have key := tw_run (T := False) (h := h) (o := .cref c.base c.ext) (H.order x c hc) (fun _ => not_flat.1 (hf x c hc)) fun _ ix hix => by
    refine ⟨?_, ?_⟩
    · rintro rfl; exact hh (.inl hix)
    · rintro s rfl; exact hh (.inr ⟨s, hix⟩)
  rcases key with ⟨_, k⟩ | ⟨_, _, k⟩
  · obtain ⟨k1, k2⟩ := k o ho
    cases o with
    | cref off ext => cases hd; exact k2 (fun h => h)
    | sref off m =>
      cases hd
      cases m with
      | ident d => exact k1.2.2.2
      | vec d l => exact k1.2.1.2.2.2
    | _ => cases hd
  · exact k.elim

theorem ex_nz (H : Intact w) (hf : NoFlat w) : ∀ {e : PEx α}, (∀ p ∈ exChains e, ¬ EmptySel p.2) → ∀ {e' : Ex Obj α},
    e.eval Arith.exact true w = .ok e' → ∀ {src : EObj α}, e'.build Arith.exact true = .ok src → NZ src.dims
  | .arr x h, hc, e', he, src, hs => by
    obtain ⟨o, ho, he⟩ := res_bind_ok.1 he
    cases he
    simp only [Ex.build] at hs
    cases hd : o.dims with
    | none => rw [hd] at hs; cases hs
    | some d =>
      rw [hd] at hs
      obtain ⟨ps, _, hs⟩ := res_bind_ok.1 hs
      cases hs
      exact windex_nz H hf (hc (x, h) (by simp [exChains])) ho hd
  | .un f e, hc, e', he, src, hs => by
    obtain ⟨e1, h1, he⟩ := res_bind_ok.1 he
    cases he
    obtain ⟨s1, h2, hs⟩ := res_bind_ok.1 hs
    cases hs
    exact ex_nz H hf (e := e) hc h1 (src := s1) h2
  | .bin f a b, hc, e', he, src, hs => by
    obtain ⟨e1, h1, he⟩ := res_bind_ok.1 he
    obtain ⟨e2, h2, he⟩ := res_bind_ok.1 he
    cases he
    simp only [Ex.build] at hs
    obtain ⟨s1, h3, hs⟩ := res_bind_ok.1 hs
    obtain ⟨s2, h4, hs⟩ := res_bind_ok.1 hs
    have := ex_nz H hf (e := a) (fun p hp => hc p (by simp [exChains, hp])) h1 h3
    split at hs
    · cases hs
    · obtain ⟨_, _, hs⟩ := res_bind_ok.1 hs
      cases hs
      exact this
  | .scl f s e, hc, e', he, src, hs => by
    obtain ⟨c, _, he⟩ := res_bind_ok.1 he
    obtain ⟨v, _, he⟩ := res_bind_ok.1 he
    obtain ⟨e1, h1, he⟩ := res_bind_ok.1 he
    cases he
    obtain ⟨s1, h2, hs⟩ := res_bind_ok.1 hs
    cases hs
    exact ex_nz H hf (e := e) (fun p hp => hc p (by simp [exChains, hp])) h1 (src := s1) h2
  | .scr f e s, hc, e', he, src, hs => by
    obtain ⟨e1, h1, he⟩ := res_bind_ok.1 he
    obtain ⟨c, _, he⟩ := res_bind_ok.1 he
    obtain ⟨v, _, he⟩ := res_bind_ok.1 he
    cases he
    obtain ⟨s1, h2, hs⟩ := res_bind_ok.1 hs
    cases hs
    exact ex_nz H hf (e := e) (fun p hp => hc p (by simp [exChains, hp])) h1 (src := s1) h2

theorem noFlat_bind (hf : NoFlat w) {m : Mem α} {x : Nat} {b : Arr} (hb : NZ b.ext) : NoFlat (w.bind m x (some b)) := by
  intro y c hc
  by_cases hy : y = x
  · subst hy
    simp only [World.bind, if_true, Option.some.injEq] at hc
    subst hc
    exact not_flat.2 hb
  · simp only [World.bind, hy, if_false] at hc
    exact hf y c hc

theorem newArray_ext {src : EObj α} {m : Mem α} {fresh : Nat} {r : Mem α × Arr} (h : newArray Arith.exact src m fresh = .ok r) :
    r.2.ext = src.dims := by
  unfold newArray at h
  obtain ⟨_, _, h⟩ := res_bind_ok.1 h
  cases h; rfl

theorem newFrom_ext {ext : List Nat} {l : List α} {m : Mem α} {fresh : Nat} {r : Mem α × Arr} (h : newFrom Arith.exact ext l m fresh = .ok r) :
    r.2.ext = ext := by
  unfold newFrom at h
  split at h
  · cases h
  · cases h; rfl

theorem arrayAssignExpr_ext {a : Arr} {src : EObj α} {m : Mem α} {fresh : Nat} {r : Mem α × Arr}
    (h : arrayAssignExpr Arith.exact a src m fresh = .ok r) : r.2.ext = src.dims := by
  unfold arrayAssignExpr at h
  split at h
  · split at h
    · cases h
    · split at h
      · cases h
      · obtain ⟨_, _, h⟩ := res_bind_ok.1 h
        cases h; rfl
  · obtain ⟨r', h1, h⟩ := res_bind_ok.1 h
    cases h
    exact newArray_ext (r := r') h1

theorem step_noFlat (H : Intact w) (hf : NoFlat w) {s : Stmt α} (hs : Cautious s) {alloc : Nat → Mem α → Nat → Nat} {w' : World α}
    (h : w.step Arith.exact true alloc s = .ok w') : NoFlat w' := by
  cases s with
  | make x e =>
    simp only [World.step] at h
    split at h
    · cases h
    · obtain ⟨e', h1, h⟩ := res_bind_ok.1 h
      obtain ⟨src, h2, h⟩ := res_bind_ok.1 h
      obtain ⟨r, h3, h⟩ := res_bind_ok.1 h
      cases h
      exact noFlat_bind hf (newArray_ext h3 ▸ ex_nz H hf hs h1 h2)
  | makeFill x s ext =>
    simp only [World.step] at h
    split at h
    · cases h
    · obtain ⟨_, _, h⟩ := res_bind_ok.1 h
      obtain ⟨_, _, h⟩ := res_bind_ok.1 h
      obtain ⟨_, _, h⟩ := res_bind_ok.1 h
      obtain ⟨r, h3, h⟩ := res_bind_ok.1 h
      cases h
      exact noFlat_bind hf (newFrom_ext h3 ▸ not_flat.1 hs.2)
  | makeFrom x l ext =>
    simp only [World.step] at h
    split at h
    · cases h
    · obtain ⟨_, _, h⟩ := res_bind_ok.1 h
      obtain ⟨r, h3, h⟩ := res_bind_ok.1 h
      cases h
      exact noFlat_bind hf (newFrom_ext h3 ▸ not_flat.1 hs)
  | drop x =>
    obtain ⟨a, _, h⟩ := res_bind_ok.1 h
    cases h
    intro y c hc
    by_cases hy : y = x
    · simp [World.bind, hy] at hc
    · simp only [World.bind, hy, if_false] at hc
      exact hf y c hc
  | fill x h' s =>
    obtain ⟨_, _, h⟩ := res_bind_ok.1 h
    obtain ⟨_, _, h⟩ := res_bind_ok.1 h
    obtain ⟨_, _, h⟩ := res_bind_ok.1 h
    obtain ⟨_, _, h⟩ := res_bind_ok.1 h
    cases h; exact hf
  | assign x h' e =>
    obtain ⟨_, _, h⟩ := res_bind_ok.1 h
    obtain ⟨_, _, h⟩ := res_bind_ok.1 h
    obtain ⟨_, _, h⟩ := res_bind_ok.1 h
    obtain ⟨_, _, h⟩ := res_bind_ok.1 h
    cases h; exact hf
  | inPlace x h' op e =>
    obtain ⟨_, _, h⟩ := res_bind_ok.1 h
    obtain ⟨_, _, h⟩ := res_bind_ok.1 h
    obtain ⟨_, _, h⟩ := res_bind_ok.1 h
    cases h; exact hf
  | inPlaceScalar x h' op s =>
    obtain ⟨_, _, h⟩ := res_bind_ok.1 h
    obtain ⟨_, _, h⟩ := res_bind_ok.1 h
    obtain ⟨_, _, h⟩ := res_bind_ok.1 h
    cases h; exact hf
  | apply x h' f =>
    obtain ⟨_, _, h⟩ := res_bind_ok.1 h
    obtain ⟨_, _, h⟩ := res_bind_ok.1 h
    obtain ⟨_, _, h⟩ := res_bind_ok.1 h
    cases h; exact hf
  | overlap x h' e =>
    obtain ⟨_, _, h⟩ := res_bind_ok.1 h
    obtain ⟨_, _, h⟩ := res_bind_ok.1 h
    obtain ⟨_, _, h⟩ := res_bind_ok.1 h
    obtain ⟨_, _, h⟩ := res_bind_ok.1 h
    obtain ⟨_, _, h⟩ := res_bind_ok.1 h
    cases h; exact hf
  | overlapWhole x e =>
    obtain ⟨a, _, h⟩ := res_bind_ok.1 h
    obtain ⟨e', h1, h⟩ := res_bind_ok.1 h
    obtain ⟨src, h2, h⟩ := res_bind_ok.1 h
    obtain ⟨_, _, h⟩ := res_bind_ok.1 h
    obtain ⟨r, h3, h⟩ := res_bind_ok.1 h
    cases h
    unfold overlapArray at h3
    rw [h2, res_ok_bind] at h3
    obtain ⟨r', h4, h3⟩ := res_bind_ok.1 h3
    cases h3
    exact noFlat_bind hf (newArray_ext h4 ▸ ex_nz H hf hs h1 h2)
  | set x e =>
    by_cases hy : ∃ y, e = .arr y []
    · obtain ⟨y, rfl⟩ := hy
      obtain ⟨a, ha, h⟩ := res_bind_ok.1 h
      obtain ⟨b, hb, h⟩ := res_bind_ok.1 h
      obtain ⟨_, _, h⟩ := res_bind_ok.1 h
      obtain ⟨r, h3, h⟩ := res_bind_ok.1 h
      cases h
      unfold assignArrayCopy at h3
      split at h3
      · cases h3
        exact noFlat_bind hf (not_flat.1 (hf x _ (wget_ok ha)))
      · exact noFlat_bind hf (arrayAssignExpr_ext h3 ▸ not_flat.1 (hf y b (wget_ok hb)))
    · rw [step_set _ _ _ _ fun y h => hy ⟨y, h⟩] at h
      obtain ⟨a, _, h⟩ := res_bind_ok.1 h
      obtain ⟨e', h1, h⟩ := res_bind_ok.1 h
      obtain ⟨src, h2, h⟩ := res_bind_ok.1 h
      obtain ⟨_, _, h⟩ := res_bind_ok.1 h
      obtain ⟨r, h3, h⟩ := res_bind_ok.1 h
      cases h
      unfold assignArray at h3
      rw [h2, res_ok_bind] at h3
      exact noFlat_bind hf (arrayAssignExpr_ext h3 ▸ ex_nz H hf hs h1 h2)
  | moveAssign x y =>
    obtain ⟨a, ha, h⟩ := res_bind_ok.1 h
    obtain ⟨b, hb, h⟩ := res_bind_ok.1 h
    obtain ⟨_, _, h⟩ := res_bind_ok.1 h
    obtain ⟨_, _, h⟩ := res_bind_ok.1 h
    cases h
    exact noFlat_bind (noFlat_bind hf (not_flat.1 (hf y b (wget_ok hb)))) (not_flat.1 (hf x a (wget_ok ha)))

theorem careful_catchable (hf : NoFlat w) {s : Stmt α} (hs : Cautious s) : ¬ Uncatchable w s := by
  rintro (⟨x, h, hp, hne, h' | ⟨c, hc, hfl⟩⟩ | ⟨x, rfl⟩)
  · cases s with
    | makeFill y s ext => exact hs.1 (x, h) hp h'
    | makeFrom y l ext => simp [chains] at hp
    | moveAssign y z => simp [chains] at hp
    | _ => exact hs (x, h) hp h'
  · exact hf x c hc hfl
  · exact hs rfl

theorem intact_same {w' : World α} (H : Intact w) (h : SameState w w') : Intact w' := by
  obtain ⟨h1, h2⟩ := h
  refine ⟨?_, ?_, ?_, ?_, ?_⟩ <;> simp only [h1, h2]
  · exact H.order
  · exact H.live
  · exact H.sep
  · exact H.only
  · exact H.finite

end

/-! ### C69 -/

section
variable {α : Type} {w : World α}

/-- **C69.** One statement, whatever it is, in a build where failed checks throw, and in any state with intact memory: it is executed, does
what it does in the builds where failed checks are fatal, leaves memory intact and every array it is not about unchanged; or it throws
(exactly when a check is fatal in those builds), and then no array and no memory has changed; or the throw is not allowed to leave a
function of the library and the program is terminated, which only happens to the statements of `Uncatchable`; or it does not compile.
(The full claim, without termination, is false: `C69_empty_index` and the theorems after it.) -/
theorem C69_step_partial (H : Intact w) {s : Stmt α} (hs : Provided s) {alloc : Nat → Mem α → Nat → Nat} (hal : GoodAlloc alloc) :
    (∃ w', w.stepT Arith.exactThrows alloc s = .ok w' ∧ w.step Arith.exact true alloc s = .ok w' ∧ Intact w' ∧
        ∀ y, y ∉ changes s → SameArray w w' y) ∨
      (∃ w', w.stepT Arith.exactThrows alloc s = .thrown w' ∧ w.step Arith.exact true alloc s = .error .assert ∧ SameState w w') ∨
      (w.stepT Arith.exactThrows alloc s = .fail .terminate ∧ w.step Arith.exact true alloc s = .error .assert ∧ Uncatchable w s) ∨
      (w.stepT Arith.exactThrows alloc s = .fail .illFormed ∧ check (ctxOf w) s = none) := by
  have hr := step_rel H hs hal
  rcases C68_step H hs hal with ⟨w', h1, h2, h3, _⟩ | h | ⟨h, h'⟩
  · rw [h1] at hr
    exact .inl ⟨w', hr, h1, h2, h3⟩
  · rw [h] at hr
    rcases hr with ⟨w', h1, h2⟩ | ⟨h1, h2⟩
    · exact .inr (.inl ⟨w', h1, h, h2⟩)
    · exact .inr (.inr (.inl ⟨h1, h, h2⟩))
  · rw [h] at hr
    exact .inr (.inr (.inr ⟨hr, h'⟩))

/-- **C69.** A program that catches the exceptions and goes on: it ends with intact memory, and every array that none of its statements is
about is unchanged; or it is terminated at a statement of `Uncatchable`; or a statement does not compile where it is. -/
theorem C69_run_partial {p : List (Stmt α)} {alloc : Nat → Mem α → Nat → Nat} (hal : GoodAlloc alloc) : ∀ {w : World α}, Intact w →
    (∀ s ∈ p, Provided s) →
    (∃ w', w.runCatch Arith.exactThrows alloc p = .ok w' ∧ Intact w' ∧ ∀ y, (∀ s ∈ p, y ∉ changes s) → SameArray w w' y) ∨
      (w.runCatch Arith.exactThrows alloc p = .fail .terminate ∧
        ∃ q s r w1, p = q ++ s :: r ∧ w.runCatch Arith.exactThrows alloc q = .ok w1 ∧ Uncatchable w1 s) ∨
      (w.runCatch Arith.exactThrows alloc p = .fail .illFormed ∧
        ∃ q s r w1, p = q ++ s :: r ∧ w.runCatch Arith.exactThrows alloc q = .ok w1 ∧ check (ctxOf w1) s = none) := by
  induction p with
  | nil => exact fun {w} H _ => .inl ⟨w, rfl, H, fun y _ => ⟨rfl, fun _ _ _ _ => rfl⟩⟩
  | cons s p ih =>
    intro w H hs
    have key : ∀ w1, (∀ q, w.runCatch Arith.exactThrows alloc (s :: q) = w1.runCatch Arith.exactThrows alloc q) → Intact w1 →
        (∀ y, y ∉ changes s → SameArray w w1 y) →
        (∃ w', w.runCatch Arith.exactThrows alloc (s :: p) = .ok w' ∧ Intact w' ∧ ∀ y, (∀ t ∈ s :: p, y ∉ changes t) → SameArray w w' y) ∨
        (w.runCatch Arith.exactThrows alloc (s :: p) = .fail .terminate ∧
          ∃ q t r w1, s :: p = q ++ t :: r ∧ w.runCatch Arith.exactThrows alloc q = .ok w1 ∧ Uncatchable w1 t) ∨
        (w.runCatch Arith.exactThrows alloc (s :: p) = .fail .illFormed ∧
          ∃ q t r w1, s :: p = q ++ t :: r ∧ w.runCatch Arith.exactThrows alloc q = .ok w1 ∧ check (ctxOf w1) t = none) := by
      intro w1 h1 h2 h3
      rw [h1]
      rcases ih h2 fun t ht => hs t (by simp [ht]) with ⟨w', k1, k2, k3⟩ | ⟨k, q, t, r, w2, k1, k2, k3⟩ | ⟨k, q, t, r, w2, k1, k2, k3⟩
      · refine .inl ⟨w', k1, k2, fun y hy => ?_⟩
        obtain ⟨a1, a2⟩ := h3 y (hy s (by simp))
        obtain ⟨b1, b2⟩ := k3 y fun t ht => hy t (by simp [ht])
        exact ⟨b1.trans a1, fun c q hc hq => (b2 c q (a1.trans hc) hq).trans (a2 c q hc hq)⟩
      · exact .inr (.inl ⟨k, s :: q, t, r, w2, by rw [k1]; rfl, by rw [h1]; exact k2, k3⟩)
      · exact .inr (.inr ⟨k, s :: q, t, r, w2, by rw [k1]; rfl, by rw [h1]; exact k2, k3⟩)
    rcases C69_step_partial H (hs s (by simp)) hal with ⟨w1, h1, _, h2, h3⟩ | ⟨w1, h1, _, h2⟩ | ⟨h1, _, h2⟩ | ⟨h1, h2⟩
    · exact key w1 (fun q => by rw [World.runCatch, h1]) h2 h3
    · exact key w1 (fun q => by rw [World.runCatch, h1]) (intact_same H h2) fun y _ => ⟨by rw [h2.2], fun _ _ _ _ => by rw [h2.1]⟩
    · exact .inr (.inl ⟨by rw [World.runCatch, h1], [], s, p, w, rfl, rfl, h2⟩)
    · exact .inr (.inr ⟨by rw [World.runCatch, h1], [], s, p, w, rfl, rfl, h2⟩)

/-- **C69.** Cautious programs are never terminated: if no array starts with a zero extent in two or more dimensions, none is created with
one, no statement selects nothing by an empty list or slice, and nothing is moved to itself, then every failed check can be caught, with
nothing changed. -/
theorem C69_cautious {p : List (Stmt α)} {alloc : Nat → Mem α → Nat → Nat} (hal : GoodAlloc alloc) : ∀ {w : World α}, Intact w →
    (∀ x c, w.env x = some c → ¬ Flat c.ext) → (∀ s ∈ p, Provided s ∧ Cautious s) →
    (∃ w', w.runCatch Arith.exactThrows alloc p = .ok w' ∧ Intact w') ∨
      (w.runCatch Arith.exactThrows alloc p = .fail .illFormed ∧
        ∃ q s r w1, p = q ++ s :: r ∧ w.runCatch Arith.exactThrows alloc q = .ok w1 ∧ check (ctxOf w1) s = none) := by
  induction p with
  | nil => exact fun {w} H _ _ => .inl ⟨w, rfl, H⟩
  | cons s p ih =>
    intro w H hf hs
    obtain ⟨hp, hcar⟩ := hs s (by simp)
    have key : ∀ w1, (∀ q, w.runCatch Arith.exactThrows alloc (s :: q) = w1.runCatch Arith.exactThrows alloc q) → Intact w1 → NoFlat w1 →
        (∃ w', w.runCatch Arith.exactThrows alloc (s :: p) = .ok w' ∧ Intact w') ∨
        (w.runCatch Arith.exactThrows alloc (s :: p) = .fail .illFormed ∧
          ∃ q t r w1, s :: p = q ++ t :: r ∧ w.runCatch Arith.exactThrows alloc q = .ok w1 ∧ check (ctxOf w1) t = none) := by
      intro w1 h1 h2 h3
      rw [h1]
      rcases ih h2 h3 fun t ht => hs t (by simp [ht]) with ⟨w', k1, k2⟩ | ⟨k, q, t, r, w2, k1, k2, k3⟩
      · exact .inl ⟨w', k1, k2⟩
      · exact .inr ⟨k, s :: q, t, r, w2, by rw [k1]; rfl, by rw [h1]; exact k2, k3⟩
    rcases C69_step_partial H hp hal with ⟨w1, h1, h0, h2, h3⟩ | ⟨w1, h1, _, h2⟩ | ⟨h1, _, h2⟩ | ⟨h1, h2⟩
    · exact key w1 (fun q => by rw [World.runCatch, h1]) h2 (step_noFlat H hf hcar h0)
    · exact key w1 (fun q => by rw [World.runCatch, h1]) (intact_same H h2) fun x c hc => hf x c (by rw [← h2.2]; exact hc)
    · exact (careful_catchable hf hcar h2).elim
    · exact .inr ⟨by rw [World.runCatch, h1], [], s, p, w, rfl, rfl, h2⟩

/-! ### Failed checks that cannot be caught -/

/-- **C69 (the full claim is false).** `x[std::vector<index_t>{}][0] = c` for an array of 2 × 3 elements terminates the program. -/
theorem C69_empty_index (c : α) (alloc : Nat → Mem α → Nat → Nat) :
    World.empty.runCatch Arith.exactThrows alloc [.makeFill 0 (.const c) [2, 3], .fill 0 [.rng [], .at 0] (.const c)] = .fail .terminate := rfl

/-- **C69.** A slice of an array of 0 × 3 elements terminates the program. -/
theorem C69_empty_array (c : α) (alloc : Nat → Mem α → Nat → Nat) :
    World.empty.runCatch Arith.exactThrows alloc [.makeFill 0 (.const c) [0, 3], .fill 0 [.strided 0 0 1, .at 0] (.const c)] = .fail .terminate := rfl

/-- **C69.** Self-move terminates the program. -/
theorem C69_self_move (c : α) (alloc : Nat → Mem α → Nat → Nat) :
    World.empty.runCatch Arith.exactThrows alloc [.makeFill 0 (.const c) [2], .moveAssign 0 0] = .fail .terminate := rfl

/-- **C69.** Reshaping a view to a different number of elements terminates the program. -/
theorem C69_reshape {off : Nat} {ext ext' : List Nat} (h : prod ext ≠ prod ext') :
    reshapeTo Arith.exactThrows true ext' (.cref off ext) = .error .terminate := by
  have : dbg true (prodL Arith.exactThrows ext == prodL Arith.exactThrows ext') = .error .assert := by
    have h' : (prodL Arith.exactThrows ext == prodL Arith.exactThrows ext') = false := by
      rw [show prodL Arith.exactThrows ext = prod ext from prodL_exact _, show prodL Arith.exactThrows ext' = prod ext' from prodL_exact _]
      simpa using h
    rw [h']; rfl
  simp only [reshapeTo, this]
  rfl

/-! ### A concrete program: two failed checks are caught, the rest of the program works -/

/-- Allocate at `100 * k`. -/
def hundreds : Nat → Mem Nat → Nat → Nat := fun k _ _ => 100 * k

/-- Index out of bounds, then an assignment of the wrong extents, then a legal assignment. -/
def catching : List (Stmt Nat) :=
  [.makeFill 0 (.const 7) [2, 3], .fill 0 [.at 2, .at 0] (.const 1), .assign 0 [.every, .at 0] (.arr 0 [.every, .slice 0 2]),
    .overlap 0 [.every, .at 0] (.arr 0 [.every, .slice 0 2]), .fill 0 [.at 1, .at 2] (.const 5)]

theorem catching_cautious : ∀ s ∈ catching, Provided s ∧ Cautious s := by
  intro s hs
  simp only [catching, List.mem_cons, List.not_mem_nil, or_false] at hs
  rcases hs with rfl | rfl | rfl | rfl | rfl <;>
    simp [Provided, Cautious, ScSteps, ExSteps, StepsOK, EmptySel, Flat, chains, scChains, exChains]

/-- What a user sees at the end: the values of the array `0`. -/
def TRes.values : TRes Nat → Option (List (Option Nat))
  | .ok w => (w.env 0).map fun a => (List.range (prod a.ext)).map fun k => w.mem (a.base + k)
  | _ => none

example : TRes.values (World.empty.runCatch Arith.exactThrows hundreds catching) = some [some 7, some 7, some 7, some 7, some 7, some 5] := by
  decide +kernel

/-- The second, third and fourth statements throw. -/
example : ∀ k ∈ [1, 2, 3], (World.empty.runCatch Arith.exactThrows hundreds (catching.take k) |> fun r => match r with
    | .ok w => (match catching[k]? with
      | some s => (match w.stepT Arith.exactThrows hundreds s with | .thrown _ => true | _ => false)
      | none => false)
    | _ => false) = true := by
  decide +kernel

/-- The hypotheses of the theorems are met by `catching`. -/
example := C69_step_partial (α := Nat) intact_empty (catching_cautious (.makeFill 0 (.const 7) [2, 3]) (by simp [catching])).1 goodAlloc_exists.choose_spec
example := C69_run_partial (α := Nat) goodAlloc_exists.choose_spec intact_empty (fun s hs => (catching_cautious s hs).1)
example := C69_cautious (α := Nat) goodAlloc_exists.choose_spec intact_empty (by intro x c h; cases h) catching_cautious

example := C69_reshape (off := 0) (ext := [2, 3]) (ext' := [4]) (by decide)

end
end Jules.Props

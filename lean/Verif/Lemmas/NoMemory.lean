import Verif.Spec.NoMemory
import Verif.Props.Types
import Verif.Lemmas.Program
/-
Fragments that may fail to allocate: what they do besides, and where they may fail.
-/
namespace Jules
open Spec Props

variable {α β γ : Type}

/-- The fragment does what `f` says, or throws having changed nothing (for the reason `P`), or terminates the program (for the reason `D`), both only if one of
its allocations fails. -/
def Acts (S : Nat → Bool) (x : OM α β) (f : Mem α → Res (Mem α × β)) (P D : Prop) : Prop := ∀ m n,
  (∃ b m' n', x m n = .ok b m' n' ∧ f m = .ok (m', b) ∧ n ≤ n' ∧ ∀ k, n ≤ k → k < n' → S k = false) ∨
  (∃ k, x m n = .thrown m (k + 1) ∧ n ≤ k ∧ S k = true ∧ P) ∨
  (∃ k, x m n = .fail .terminate ∧ n ≤ k ∧ S k = true ∧ D) ∨
  ∃ e, x m n = .fail e ∧ f m = .error e

/-- A fragment without effect. -/
def Quiet (S : Nat → Bool) (x : OM α β) (r : Res β) (P D : Prop) : Prop := Acts S x (fun m => r >>= fun b => .ok (m, b)) P D

/-- A fragment that does not allocate. -/
def Silent (x : OM α β) (f : Mem α → Res (Mem α × β)) : Prop := ∀ m n,
  (∃ b m', x m n = .ok b m' n ∧ f m = .ok (m', b)) ∨ ∃ e, x m n = .fail e ∧ f m = .error e

theorem om_bind (x : OM α β) (k : β → OM α γ) (m : Mem α) (n : Nat) : (x >>= k) m n =
    match x m n with | .ok b m' n' => k b m' n' | .thrown m' n' => .thrown m' n' | .fail f => .fail f := rfl

theorem om_pure (b : β) (m : Mem α) (n : Nat) : (pure b : OM α β) m n = .ok b m n := rfl

theorem acts_mono {S : Nat → Bool} {x : OM α β} {f : Mem α → Res (Mem α × β)} {P D P' D' : Prop} (h : Acts S x f P D) (hP : P → P') (hD : D → D') :
    Acts S x f P' D' := by
  intro m n
  rcases h m n with h | ⟨k, h1, h2, h3, h4⟩ | ⟨k, h1, h2, h3, h4⟩ | h
  · exact .inl h
  · exact .inr (.inl ⟨k, h1, h2, h3, hP h4⟩)
  · exact .inr (.inr (.inl ⟨k, h1, h2, h3, hD h4⟩))
  · exact .inr (.inr (.inr h))

theorem quiet_lift {S : Nat → Bool} (r : Res β) {P D : Prop} : Quiet S (OM.lift r : OM α β) r P D := by
  intro m n
  cases r with
  | ok b => exact .inl ⟨b, m, n, rfl, rfl, Nat.le_refl _, fun k h1 h2 => absurd h1 (by omega)⟩
  | error e => exact .inr (.inr (.inr ⟨e, rfl, rfl⟩))

theorem quiet_pure {S : Nat → Bool} (b : β) {P D : Prop} : Quiet S (pure b : OM α β) (.ok b) P D := quiet_lift (.ok b)

theorem quiet_allocation {S : Nat → Bool} {P D : Prop} (h : P) : Quiet S (OM.allocation S : OM α Unit) (.ok ()) P D := by
  intro m n
  unfold OM.allocation
  cases hs : S n with
  | true => exact .inr (.inl ⟨n, by simp, Nat.le_refl _, hs, h⟩)
  | false =>
    refine .inl ⟨(), m, n + 1, by simp, rfl, by omega, fun k h1 h2 => ?_⟩
    have : k = n := by omega
    rw [this, hs]

theorem silent_acts {S : Nat → Bool} {x : OM α β} {f : Mem α → Res (Mem α × β)} {P D : Prop} (h : Silent x f) : Acts S x f P D := by
  intro m n
  rcases h m n with ⟨b, m', h1, h2⟩ | h
  · exact .inl ⟨b, m', n, h1, h2, Nat.le_refl _, fun k a b => absurd a (by omega)⟩
  · exact .inr (.inr (.inr h))

theorem silent_act (f : Mem α → Res (Mem α × β)) : Silent (OM.act f) f := by
  intro m n
  unfold OM.act
  cases f m with
  | ok r => exact .inl ⟨r.2, r.1, rfl, rfl⟩
  | error e => exact .inr ⟨e, rfl, rfl⟩

theorem silent_pure (b : β) : Silent (pure b : OM α β) fun m => .ok (m, b) := fun m _ => .inl ⟨b, m, rfl, rfl⟩

theorem silent_lift (r : Res β) : Silent (OM.lift r : OM α β) fun m => r >>= fun b => .ok (m, b) := by
  intro m n
  cases r with
  | ok b => exact .inl ⟨b, m, rfl, rfl⟩
  | error e => exact .inr ⟨e, rfl, rfl⟩

theorem quiet_bind {S : Nat → Bool} {x : OM α β} {r : Res β} {k : β → OM α γ} {f : β → Mem α → Res (Mem α × γ)} {P D : Prop}
    (hx : Quiet S x r P D) (hk : ∀ b, r = .ok b → Acts S (k b) (f b) P D) : Acts S (x >>= k) (fun m => r >>= fun b => f b m) P D := by
  intro m n
  rw [om_bind]
  dsimp only
  rcases hx m n with ⟨b, m', n', h1, h2, h3, h4⟩ | ⟨j, h1, h2, h3, h4⟩ | ⟨j, h1, h2, h3, h4⟩ | ⟨e, h1, h2⟩
  · cases r with
    | error e => cases h2
    | ok b' =>
      cases h2
      rw [h1]
      simp only [res_ok_bind]
      rcases hk b rfl m n' with ⟨c, m2, n2, g1, g2, g3, g4⟩ | ⟨j, g1, g2, g3, g4⟩ | ⟨j, g1, g2, g3, g4⟩ | ⟨e, g1, g2⟩
      · refine .inl ⟨c, m2, n2, g1, g2, by omega, fun i a b => ?_⟩
        by_cases hi : i < n'
        · exact h4 i a hi
        · exact g4 i (by omega) b
      · exact .inr (.inl ⟨j, g1, by omega, g3, g4⟩)
      · exact .inr (.inr (.inl ⟨j, g1, by omega, g3, g4⟩))
      · exact .inr (.inr (.inr ⟨e, g1, g2⟩))
  · rw [h1]; exact .inr (.inl ⟨j, rfl, h2, h3, h4⟩)
  · rw [h1]; exact .inr (.inr (.inl ⟨j, rfl, h2, h3, h4⟩))
  · rw [h1]
    cases r with
    | ok b => cases h2
    | error e' => cases h2; exact .inr (.inr (.inr ⟨e, rfl, rfl⟩))

/-- Two fragments without effect. -/
theorem quiet_bind' {S : Nat → Bool} {x : OM α β} {r : Res β} {k : β → OM α γ} {rk : β → Res γ} {P D : Prop}
    (hx : Quiet S x r P D) (hk : ∀ b, r = .ok b → Quiet S (k b) (rk b) P D) : Quiet S (x >>= k) (r >>= rk) P D := by
  have := quiet_bind hx hk
  have e : (fun m => (r >>= rk) >>= fun b => (.ok (m, b) : Res (Mem α × γ))) = fun m => (r >>= fun b => rk b >>= fun b => .ok (m, b)) := by
    funext m; cases r <;> rfl
  unfold Quiet
  rw [e]
  exact this

theorem silent_bind {x : OM α β} {f : Mem α → Res (Mem α × β)} {k : β → OM α γ} {g : β → Mem α → Res (Mem α × γ)} (hx : Silent x f)
    (hk : ∀ b, Silent (k b) (g b)) : Silent (x >>= k) fun m => f m >>= fun r => g r.2 r.1 := by
  intro m n
  rw [om_bind]
  dsimp only
  rcases hx m n with ⟨b, m', h1, h2⟩ | ⟨e, h1, h2⟩
  · rw [h1, h2]; exact hk b m' n
  · rw [h1, h2]; exact .inr ⟨e, rfl, rfl⟩

theorem acts_bind {S : Nat → Bool} {x : OM α β} {f : Mem α → Res (Mem α × β)} {k : β → OM α γ} {g : β → Mem α → Res (Mem α × γ)} {P D : Prop}
    (hx : Acts S x f P D) (hk : ∀ b, Silent (k b) (g b)) : Acts S (x >>= k) (fun m => f m >>= fun r => g r.2 r.1) P D := by
  intro m n
  rw [om_bind]
  dsimp only
  rcases hx m n with ⟨b, m', n', h1, h2, h3, h4⟩ | ⟨j, h1, h2, h3, h4⟩ | ⟨j, h1, h2, h3, h4⟩ | ⟨e, h1, h2⟩
  · rw [h1, h2]
    rcases hk b m' n' with ⟨c, m2, g1, g2⟩ | ⟨e, g1, g2⟩
    · exact .inl ⟨c, m2, n', g1, g2, h3, h4⟩
    · exact .inr (.inr (.inr ⟨e, g1, g2⟩))
  · rw [h1]; exact .inr (.inl ⟨j, rfl, h2, h3, h4⟩)
  · rw [h1]; exact .inr (.inr (.inl ⟨j, rfl, h2, h3, h4⟩))
  · rw [h1, h2]; exact .inr (.inr (.inr ⟨e, rfl, rfl⟩))

theorem silent_scoped {x : OM α β} {f : Mem α → Res (Mem α × β)} (d : Mem α → Mem α) (hx : Silent x f) :
    Silent (OM.scoped d x) fun m => f m >>= fun r => .ok (d r.1, r.2) := by
  intro m n
  unfold OM.scoped
  dsimp only
  rcases hx m n with ⟨b, m', h1, h2⟩ | ⟨e, h1, h2⟩
  · rw [h1, h2]; exact .inl ⟨b, d m', rfl, rfl⟩
  · rw [h1, h2]; exact .inr ⟨e, rfl, rfl⟩

theorem quiet_newList {S : Nat → Bool} {P D : Prop} (h : P) : Quiet S (newList S : OM α Unit) (.ok ()) P D := by
  have := quiet_bind' (quiet_allocation (α := α) (S := S) (P := P) (D := D) h) (fun _ _ => quiet_allocation (α := α) (S := S) (P := P) (D := D) h)
  exact this

theorem quiet_noexcept {S : Nat → Bool} {x : OM α β} {r : Res β} {P Q D : Prop} (hx : Quiet S x r P D) (h : P → D) : Quiet S (OM.noexcept x) r Q D := by
  intro m n
  unfold OM.noexcept
  rcases hx m n with ⟨b, m', n', h1, h2, h3, h4⟩ | ⟨j, h1, h2, h3, h4⟩ | ⟨j, h1, h2, h3, h4⟩ | ⟨e, h1, h2⟩
  · rw [h1]; exact .inl ⟨b, m', n', rfl, h2, h3, h4⟩
  · rw [h1]; exact .inr (.inr (.inl ⟨j, rfl, h2, h3, h h4⟩))
  · rw [h1]; exact .inr (.inr (.inl ⟨j, rfl, h2, h3, h4⟩))
  · rw [h1]; exact .inr (.inr (.inr ⟨e, rfl, h2⟩))

/-! ### Index chains -/

/-- Elements are selected through a list of positions. -/
def byList : Kind → Bool
  | .strided _ l => l
  | .part _ _ l => l
  | _ => false

theorem byList_step {k k' : Kind} {ix : Ix} (h : typeStep k ix = some k') (hl : byList k' = true) : byList k = true ∨ isList ix = true := by
  cases k <;> cases ix <;> simp only [typeStep, given, Option.some.injEq, reduceCtorEq] at h <;>
    first
    | (subst h; revert hl; split <;> simp [byList, isList])
    | (split at h <;> simp only [Option.some.injEq, reduceCtorEq] at h <;> subst h <;> simp [byList] at hl)

theorem byList_of {k k' : Kind} : ∀ {h : List Ix}, h.foldlM typeStep k = some k' → byList k' = true → byList k = true ∨ ListSel h
  | [], h, hl => by cases h; exact .inl hl
  | ix :: h, he, hl => by
    simp only [List.foldlM_cons] at he
    cases hk : typeStep k ix with
    | none => rw [hk] at he; cases he
    | some k1 =>
      rw [hk] at he
      rcases byList_of he hl with h1 | ⟨l, h1⟩
      · rcases byList_step hk h1 with h2 | h2
        · exact .inl h2
        · right
          cases ix with
          | rng l => exact ⟨l, List.mem_cons_self⟩
          | _ => cases h2
      · exact .inr ⟨l, List.mem_cons_of_mem _ h1⟩

theorem run_snoc {A : Arith} {chk : Bool} {o r r' : Obj} {h : List Ix} {ix : Ix} (h1 : o.run A chk h = .ok r) (h2 : r.index A chk ix = .ok r') :
    o.run A chk (h ++ [ix]) = .ok r' := by
  simp only [Obj.run, List.foldlM_append, List.foldlM_cons, List.foldlM_nil] at *
  rw [h1, res_ok_bind, h2]
  rfl

theorem quiet_runO {S : Nat → Bool} {A : Arith} {chk : Bool} {b : Nat} {e : List Nat} (he : e ≠ []) : ∀ (h h1 : List Ix) (o : Obj),
    (Obj.cref b e).run A chk h1 = .ok o →
    Quiet S (o.runO S A chk h : OM α Obj) (o.run A chk h) (ListSel (h1 ++ h)) (FatalChain e.length (h1 ++ h))
  | [], h1, o, _ => quiet_pure o
  | ix :: h, h1, o, ho => by
    have : (o.run A chk (ix :: h)) = (o.index A chk ix >>= fun r => (.ok () : Res Unit) >>= fun _ => r.run A chk h) := by
      simp only [Obj.run, List.foldlM_cons]; rfl
    rw [this]
    refine quiet_bind' (quiet_lift _) fun r hr => ?_
    have hs := run_snoc ho hr
    have ih := quiet_runO (S := S) he h (h1 ++ [ix]) r hs
    rw [List.append_assoc] at ih
    refine quiet_bind' ?_ fun _ _ => ih
    have htr := C61_type A chk he hs
    have hto := C61_type A chk he ho
    have hstep : typeStep (kindOf o) ix = some (kindOf r) := by
      have := htr
      unfold typeOf at this hto
      rw [List.foldlM_append, hto] at this
      simpa [List.foldlM_cons, List.foldlM_nil] using this
    unfold indexList
    split
    · next off d idx =>
      have hlist : ListSel (h1 ++ ix :: h) := by
        have h2 := byList_of (k := .contiguous e.length) htr rfl
        rcases h2 with h2 | ⟨l, h2⟩
        · cases h2
        · exact ⟨l, by simp only [List.mem_append, List.mem_cons, List.not_mem_nil, or_false] at h2 ⊢; rcases h2 with h2 | h2 <;> simp [h2]⟩
      split
      · next off' m i =>
        refine quiet_noexcept (P := FatalChain e.length (h1 ++ Ix.at i :: h)) (quiet_newList ?_) (fun h => h)
        refine ⟨h1, i, h, m.desc.ext.length, rfl, ?_⟩
        cases m with
        | ident d' =>
          simp only [kindOf, typeStep, Option.some.injEq] at hstep
          split at hstep <;> simp at hstep
        | vec d' idx' =>
          simp only [kindOf, typeStep, Option.some.injEq] at hstep
          refine ⟨hto, ?_⟩
          intro h1
          simp only [Mapper.desc] at h1
          rw [if_pos h1] at hstep
          cases hstep
      · exact quiet_pure ()
      · exact quiet_newList hlist
    · exact quiet_pure ()

/-- The arrays of a state have dimensions. -/
def Shaped (w : World α) : Prop := ∀ x c, w.env x = some c → c.ext ≠ []

/-- Why making the operands `cs` may throw. -/
def Lists (cs : List (Nat × List Ix)) : Prop := ∃ x h, (x, h) ∈ cs ∧ ListSel h

/-- Why making the operands `cs` may terminate the program. -/
def Fatals (w : World α) (cs : List (Nat × List Ix)) : Prop := ∃ x h c, (x, h) ∈ cs ∧ w.env x = some c ∧ FatalChain c.ext.length h

theorem lists_mono {cs cs' : List (Nat × List Ix)} (h : ∀ p ∈ cs, p ∈ cs') : Lists cs → Lists cs' := fun ⟨x, k, h1, h2⟩ => ⟨x, k, h _ h1, h2⟩

theorem fatals_mono {w : World α} {cs cs' : List (Nat × List Ix)} (h : ∀ p ∈ cs, p ∈ cs') : Fatals w cs → Fatals w cs' :=
  fun ⟨x, k, c, h1, h2⟩ => ⟨x, k, c, h _ h1, h2⟩

section
variable {S : Nat → Bool} {A : Arith} {chk : Bool} {w : World α}

theorem quiet_indexO (hw : Shaped w) (x : Nat) (h : List Ix) :
    Quiet S (w.indexO S A chk x h) (w.index A chk x h) (Lists [(x, h)]) (Fatals w [(x, h)]) := by
  unfold World.indexO World.index
  refine quiet_bind' (quiet_lift _) fun a ha => ?_
  have hc : w.env x = some a := by
    unfold World.get at ha
    split at ha <;> cases ha
    assumption
  exact acts_mono (quiet_runO (hw x a hc) h [] _ rfl) (fun h' => ⟨x, h, by simp, h'⟩) (fun h' => ⟨x, h, a, by simp, hc, h'⟩)

theorem quiet_scO (hw : Shaped w) (s : Sc α) : Quiet S (s.evalO S A chk w) (s.eval A chk w) (Lists (scChains s)) (Fatals w (scChains s)) := by
  cases s with
  | const c => exact quiet_pure _
  | elem x h =>
    unfold Sc.evalO Sc.eval
    refine quiet_bind' (quiet_indexO hw x h) fun o _ => ?_
    cases o with
    | elem p => exact quiet_pure _
    | _ => exact quiet_lift _

theorem quiet_exO (hw : Shaped w) : ∀ e : PEx α, Quiet S (e.evalO S A chk w) (e.eval A chk w) (Lists (exChains e)) (Fatals w (exChains e))
  | .arr x h => by
    unfold PEx.evalO PEx.eval
    exact quiet_bind' (quiet_indexO hw x h) fun o _ => quiet_pure _
  | .un f e => by
    unfold PEx.evalO PEx.eval
    exact quiet_bind' (quiet_exO hw e) fun o _ => quiet_pure _
  | .bin f a b => by
    unfold PEx.evalO PEx.eval
    refine quiet_bind' (acts_mono (quiet_exO hw a) (lists_mono fun p h => List.mem_append_left _ h) (fatals_mono fun p h => List.mem_append_left _ h)) fun _ _ => ?_
    exact quiet_bind' (acts_mono (quiet_exO hw b) (lists_mono fun p h => List.mem_append_right _ h) (fatals_mono fun p h => List.mem_append_right _ h))
      fun _ _ => quiet_pure _
  | .scl f s e => by
    unfold PEx.evalO PEx.eval
    refine quiet_bind' (acts_mono (quiet_scO hw s) (lists_mono fun p h => List.mem_append_left _ h) (fatals_mono fun p h => List.mem_append_left _ h)) fun _ _ => ?_
    refine quiet_bind' (quiet_lift _) fun _ _ => ?_
    exact quiet_bind' (acts_mono (quiet_exO hw e) (lists_mono fun p h => List.mem_append_right _ h) (fatals_mono fun p h => List.mem_append_right _ h))
      fun _ _ => quiet_pure _
  | .scr f e s => by
    unfold PEx.evalO PEx.eval
    refine quiet_bind' (acts_mono (quiet_exO hw e) (lists_mono fun p h => List.mem_append_left _ h) (fatals_mono fun p h => List.mem_append_left _ h)) fun _ _ => ?_
    refine quiet_bind' (acts_mono (quiet_scO hw s) (lists_mono fun p h => List.mem_append_right _ h) (fatals_mono fun p h => List.mem_append_right _ h))
      fun _ _ => ?_
    exact quiet_bind' (quiet_lift _) fun _ _ => quiet_pure _

theorem acts_newArrayO {src : EObj α} {fresh : Mem α → Nat} {P D : Prop} (h : P) :
    Acts S (newArrayO S A src fresh) (fun m => newArray A src m (fresh m)) P D :=
  quiet_bind (quiet_allocation h) fun _ _ => silent_acts (silent_act _)

theorem acts_arrayAssignExprO {a : Arr} {src : EObj α} {fresh : Mem α → Nat} {P D : Prop} (h : prodL A a.ext ≠ prodL A src.dims → P) :
    Acts S (arrayAssignExprO S A a src fresh) (fun m => arrayAssignExpr A a src m (fresh m)) P D := by
  unfold arrayAssignExprO
  split
  · exact silent_acts (silent_act _)
  · next hne =>
    have := acts_bind (acts_newArrayO (S := S) (A := A) (src := src) (fresh := fresh) (D := D) (h hne))
      (fun b => silent_act fun m => .ok (m.free a.base (prodL A a.ext), b))
    have e : (fun m => arrayAssignExpr A a src m (fresh m)) = fun m => newArray A src m (fresh m) >>= fun r => .ok (r.1.free a.base (prodL A a.ext), r.2) := by
      funext m
      simp only [arrayAssignExpr, hne, if_false]
    rw [e]
    exact this

end

end Jules

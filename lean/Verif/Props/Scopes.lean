import Verif.Lemmas.Scopes
/-
C85: programs with blocks, calls, exceptions and handlers.
-/
namespace Jules.Props
open Jules Spec

section
variable {α β : Type} {W : SWorld α} {S S' : MStore α}

theorem declare_scopes {f : List Nat} {fs : List (List Nat)} (h : W.scopes = f :: fs) (o : Option Nat) :
    (W.declare o).scopes = (o.toList ++ f) :: fs ∧ (W.declare o).m = W.m ∧ (W.declare o).lost = W.lost := by
  cases o with
  | none => exact ⟨h, rfl, rfl⟩
  | some x => simp [SWorld.declare, h]

/-- What has to be shown of a statement. -/
def XDoes (W : SWorld α) (S : MStore α) (s : XStmt α) (chk nx : Bool) (alloc : Nat → Mem α → Nat → Nat) (f : List Nat) (fs : List (List Nat)) : Prop :=
  (Breaks nx S s → W.step Arith.exact chk nx alloc s = .error .terminate) ∧
  (¬ Breaks nx S s → ∃ W' t, W.step Arith.exact chk nx alloc s = .ok (W', t) ∧
    (t = false → W'.lost = W.lost ∧ W'.scopes = (s.declares.toList ++ f) :: fs) ∧
    (t = true → W'.scopes = f :: fs ∧ ∀ n, Loss S s n → W'.lost = W.lost + n) ∧
    ∀ S' t', XEffect S s S' t' → t' = t ∧ MHolds W'.m S')

theorem calm_step (chk nx : Bool) (alloc : Nat → Mem α → Nat → Nat) {s : MStmt α} (hd : ¬ IsDrop s) :
    W.step Arith.exact chk nx alloc (.calm s) = (do
      let m ← W.m.step Arith.exact chk alloc s
      .ok (({ W with m := m }).declare (XStmt.calm s).declares, false)) := by
  cases s with
  | old s =>
    cases s with
    | drop x => exact (hd trivial).elim
    | _ => rfl
  | _ => rfl

theorem wild_step (chk nx : Bool) (alloc : Nat → Mem α → Nat → Nat) {s : FStmt α} {x : Nat} (hx : target s = some x) :
    W.step Arith.exact chk nx alloc (.wild s) = (
    if W.m.anyGone s.declares.toList then .error .illFormed
    else if W.m.anyGone s.uses then .error .ub
    else do
      let r ← W.m.w.fstep Arith.exact chk nx alloc s
      if r.2 then do
        let n ← W.m.w.loses Arith.exact chk s
        .ok ({ W with m := ⟨r.1, W.m.gone⟩, lost := W.lost + n }, true)
      else .ok (({ W with m := ⟨r.1, W.m.gone⟩ }).declare s.declares, false)) := by
  cases s with
  | plain s => cases hx
  | _ => rfl

theorem loses_ok (H : MHolds W.m S) {s : FStmt α} (hs : FLegal S.live s) (chk : Bool) :
    ∃ n, W.m.w.loses Arith.exact chk s = .ok n ∧ ∀ n', Loss S (.wild s) n' → n' = n := by
  have other : (∀ x e, s ≠ .set x e) → W.m.w.loses Arith.exact chk s = .ok 0 → ∃ n, W.m.w.loses Arith.exact chk s = .ok n ∧ ∀ n', Loss S (.wild s) n' → n' = n := by
    intro h h'
    refine ⟨0, h', fun n' hn => ?_⟩
    rcases hn with ⟨⟨x, e, a, d, h1, _⟩, _⟩ | ⟨_, h1⟩
    · cases h1; exact (h x e rfl).elim
    · exact h1
  cases s with
  | set x e =>
    obtain ⟨a, d, ha, hlen, he, _⟩ := hs
    obtain ⟨hne, c, h1, h2, _⟩ := H.store.arr x a ha
    have hd : d ≠ [] := by rintro rfl; exact hne (List.length_eq_zero_iff.1 hlen.symm)
    obtain ⟨src, k1, hg⟩ := fex_ok H.store hd chk he
    refine ⟨if prod a.ext = prod d then 0 else 1, ?_, fun n' hn => ?_⟩
    · simp only [World.loses, World.get, h1, res_ok_bind, k1, hg.dims, prodL_exact, h2]
    · rcases hn with ⟨⟨x', e', a', d', q1, q2, q3, q4⟩, q5⟩ | ⟨q1, q2⟩
      · cases q1
        rw [ha] at q2; cases q2
        rw [exLegal_unique q3 he] at q4
        rw [if_neg q4, q5]
      · rw [if_pos, q2]
        by_contra hn
        exact q1 ⟨x, e, a, d, rfl, ha, he, hn⟩
  | _ => exact other (by intro x e h; cases h) rfl

/-- One statement. -/
theorem xstep_ok (H : MHolds W.m S) {s : XStmt α} (hs : XLegal S s) {f : List Nat} {fs : List (List Nat)} (hf : W.scopes = f :: fs) (chk nx : Bool)
    {alloc : Nat → Mem α → Nat → Nat} (hal : GoodAlloc alloc) : XDoes W S s chk nx alloc f fs := by
  cases s with
  | calm s =>
    obtain ⟨hl, hd⟩ := hs
    refine ⟨fun h => h.elim, fun _ => ?_⟩
    obtain ⟨m, h1, h2⟩ := mstep_ok H hl chk hal
    have hdec := declare_scopes (W := { W with m := m }) hf (XStmt.calm s).declares
    refine ⟨({ W with m := m }).declare (XStmt.calm s).declares, false, ?_, fun _ => ⟨hdec.2.2, hdec.1⟩, (fun h => by cases h), ?_⟩
    · rw [calm_step chk nx alloc hd, h1, res_ok_bind]
    · rintro S' t' ⟨rfl, he⟩
      exact ⟨rfl, by rw [hdec.2.1]; exact h2 S' he⟩
  | wild s =>
    obtain ⟨hl, x, hx, hmx⟩ := hs
    obtain ⟨d1, d2⟩ := fstmt_ok H.store hl chk nx hal
    have hg1 : W.m.anyGone s.declares.toList = false := by
      unfold MWorld.anyGone
      rw [List.any_eq_false]
      intro z hz
      have : z = x := by
        cases s <;> simp only [target, Option.some.injEq, reduceCtorEq] at hx <;> subst hx <;> simp [FStmt.declares] at hz
        all_goals exact hz
      rw [this, H.gone, hmx]; simp
    have hg2 := not_gone H (fuses_live hx hl)
    constructor
    · rintro ⟨h1, h2⟩
      rw [wild_step chk nx alloc hx, hg1, hg2]
      simp only [Bool.false_eq_true, if_false, d1 h1 h2]
      rfl
    · intro hb
      obtain ⟨w', t, e1, e2⟩ := d2 hb
      obtain ⟨n, l1, l2⟩ := loses_ok H hl chk
      have hnames : ∀ S' t', XEffect S (.wild s) S' t' → t' = t ∧ MHolds ⟨w', W.m.gone⟩ S' := by
        rintro S' t' ⟨q1, q2⟩
        obtain ⟨rfl, q3⟩ := e2 _ _ q2
        refine ⟨rfl, holds_live H q3 q1 fun z hz hmz => ?_⟩
        have : z ≠ x := by rintro rfl; exact hmz hmx
        rw [effect_target hx q2 z this, hz]
      cases t with
      | true =>
        refine ⟨{ W with m := ⟨w', W.m.gone⟩, lost := W.lost + n }, true, ?_, (fun h => by cases h), fun _ => ⟨hf, fun n' hn => by rw [l2 n' hn]⟩, hnames⟩
        rw [wild_step chk nx alloc hx, hg1, hg2]
        simp only [Bool.false_eq_true, if_false, e1, res_ok_bind, if_true, l1]
      | false =>
        have hdec := declare_scopes (W := { W with m := ⟨w', W.m.gone⟩ }) hf s.declares
        refine ⟨({ W with m := ⟨w', W.m.gone⟩ }).declare s.declares, false, ?_, fun _ => ⟨hdec.2.2, hdec.1⟩, (fun h => by cases h), ?_⟩
        · rw [wild_step chk nx alloc hx, hg1, hg2]
          simp only [Bool.false_eq_true, if_false, e1, res_ok_bind]
        · intro S' t' he
          rw [hdec.2.1]; exact hnames S' t' he

theorem xnames {s : XStmt α} (hs : XLegal S s) {t : Bool} (he : XEffect S s S' t) :
    (∀ z, InScope S' z ↔ InScope S z ∨ (t = false ∧ s.declares = some z)) ∧ ∀ z, s.declares = some z → Unused S z := by
  cases s with
  | calm s =>
    obtain ⟨rfl, he⟩ := he
    have := mnames hs.1 hs.2 he
    exact ⟨fun z => by rw [this.1 z]; simp, this.2⟩
  | wild s =>
    obtain ⟨hl, x, hx, hmx⟩ := hs
    exact fnames hx hmx hl he.1 he.2

/-! ### Names -/

/-- What a program adds to the names of the block it is executed in: `g` are the names declared, the last one first. -/
structure Adds (S S' : MStore α) (g : List Nat) : Prop where
  nodup : g.Nodup
  fresh : ∀ x ∈ g, Unused S x
  scope : ∀ x, InScope S' x ↔ InScope S x ∨ x ∈ g

theorem adds_nil (h : ∀ x, InScope S' x ↔ InScope S x) : Adds S S' [] := ⟨List.nodup_nil, by simp, fun x => by rw [h x]; simp⟩

theorem adds_step {s : XStmt α} (hs : XLegal S s) {t : Bool} (he : XEffect S s S' t) : Adds S S' (if t then [] else s.declares.toList) := by
  obtain ⟨h1, h2⟩ := xnames hs he
  cases t with
  | true => exact adds_nil fun x => by rw [h1 x]; simp
  | false =>
    refine ⟨?_, fun x hx => h2 x (by simpa using hx), fun x => by rw [h1 x]; simp⟩
    cases s.declares <;> simp

theorem adds_trans {S₁ : MStore α} {g h : List Nat} (h1 : Adds S S₁ g) (h2 : Adds S₁ S' h) : Adds S S' (h ++ g) where
  nodup := by
    rw [List.nodup_append]
    refine ⟨h2.nodup, h1.nodup, fun x hx y hy hxy => ?_⟩
    subst hxy
    exact (h1.scope x).2 (.inr hy) (h2.fresh x hx)
  fresh x hx := by
    rcases List.mem_append.1 hx with hx | hx
    · by_contra hn
      exact (h1.scope x).2 (.inl hn) (h2.fresh x hx)
    · exact h1.fresh x hx
  scope x := by
    rw [h2.scope x, h1.scope x, List.mem_append]
    constructor
    · rintro ((h | h) | h)
      · exact .inl h
      · exact .inr (.inr h)
      · exact .inr (.inl h)
    · rintro (h | h | h)
      · exact .inl (.inl h)
      · exact .inr h
      · exact .inl (.inr h)

theorem adds_left {S₁ : MStore α} {g : List Nat} (h1 : Adds S S₁ g) (h2 : Left (InScope S) S₁ S') : Adds S S' [] :=
  adds_nil fun x => by
    rw [left_inScope h2]
    exact ⟨fun h => h.1, fun h => ⟨h, (h1.scope x).2 (.inl h)⟩⟩

/-- Leaving the block. -/
theorem leave_ok {S₁ : MStore α} {g : List Nat} {fs : List (List Nat)} (H : MHolds W.m S₁) (hA : Adds S S₁ g) (hf : W.scopes = g :: fs) (hL : Left (InScope S) S₁ S')
    (chk : Bool) {alloc : Nat → Mem α → Nat → Nat} (hal : GoodAlloc alloc) :
    ∃ W', W.leave Arith.exact chk alloc = .ok W' ∧ MHolds W'.m S' ∧ W'.scopes = fs ∧ W'.lost = W.lost := by
  obtain ⟨m, h1, h2⟩ := drops_ok chk hal g H hA.nodup (fun x hx => (hA.scope x).2 (.inr hx)) (P := InScope S)
    (fun x hx => by
      constructor
      · intro h h'; exact h (hA.fresh x h')
      · intro h; exact ((hA.scope x).1 hx).resolve_right h) hL
  exact ⟨{ W with m := m, scopes := fs }, by simp only [SWorld.leave, hf, h1, res_ok_bind], h2, rfl, rfl⟩

/-- Returning an array, and leaving the block. -/
theorem give_ok {S₁ S₂ S₃ : MStore α} {g : List Nat} {fs : List (List Nat)} {x y : Nat} (H : MHolds W.m S₁) (hA : Adds S S₁ g) (hf : W.scopes = g :: fs)
    (hy : Unused S y) (hl : MLegal S₁ (.moveMake x y)) (he : MEffect S₁ (.moveMake x y) S₂) (hL : Left (fun z => InScope S z ∨ z = x) S₂ S₃)
    (chk : Bool) {alloc : Nat → Mem α → Nat → Nat} (hal : GoodAlloc alloc) :
    (∃ W₁ W', W.give Arith.exact chk alloc x y = .ok W₁ ∧ W₁.leave Arith.exact chk alloc = .ok W' ∧ MHolds W'.m S₃ ∧ W'.scopes = fs ∧ W'.lost = W.lost) ∧
    Adds S S₃ [x] := by
  obtain ⟨m₁, h1, h2⟩ := mstep_ok H hl chk hal
  have hyg : y ∈ g := by
    obtain ⟨_, n, hn⟩ := hl
    exact ((hA.scope y).1 (order_inScope hn)).resolve_left fun h => h hy
  have hnm := mnames hl (fun h => h) he
  have hux : Unused S₁ x := hl.1
  have hxS : Unused S x := by
    by_contra hn
    exact (hA.scope x).2 (.inl hn) hux
  have hxg : x ∉ g := fun h => (hA.scope x).2 (.inr h) hux
  have hsc2 : ∀ z, InScope S₂ z ↔ InScope S₁ z ∨ x = z := fun z => by
    rw [hnm.1 z]; simp [XStmt.declares]
  obtain ⟨m, h3, h4⟩ := drops_ok chk hal g (h2 S₂ he) hA.nodup (fun z hz => (hsc2 z).2 (.inl ((hA.scope z).2 (.inr hz)))) (P := fun z => InScope S z ∨ z = x)
    (fun z hz => by
      constructor
      · rintro (h | rfl) h'
        · exact h (hA.fresh z h')
        · exact hxg h'
      · intro h
        rcases (hsc2 z).1 hz with hz | rfl
        · exact .inl (((hA.scope z).1 hz).resolve_right h)
        · exact .inr rfl) hL
  refine ⟨⟨{ W with m := m₁ }, { W with m := m, scopes := fs }, ?_, ?_, h4, rfl, rfl⟩, ⟨by simp, by simpa using hxS, fun z => ?_⟩⟩
  · simp only [SWorld.give, hf, List.headD_cons, needs, List.contains_iff_mem, hyg, if_true, res_ok_bind, h1]
  · simp only [SWorld.leave, hf, h3, res_ok_bind]
  · rw [left_inScope hL, hsc2 z, hA.scope z, List.mem_singleton]
    constructor
    · rintro ⟨h, _⟩; exact h
    · rintro (h | rfl)
      · exact ⟨.inl h, .inl (.inl h)⟩
      · exact ⟨.inr rfl, .inr rfl⟩

/-! ### Programs -/

/-- What has to be shown of a program. -/
def Executes (W : SWorld α) (S : MStore α) (p : Body α β) (S' : MStore α) (r : Option β) (n : Nat) (chk nx : Bool) (alloc : Nat → Mem α → Nat → Nat)
    (f : List Nat) (fs : List (List Nat)) : Prop :=
  ∃ W' g, W.exec Arith.exact chk nx alloc p = .ok (W', r) ∧ MHolds W'.m S' ∧ W'.lost = W.lost + n ∧ W'.scopes = (g ++ f) :: fs ∧ Adds S S' g

/-- A program as the body of a block. -/
theorem inner {nx chk : Bool} {alloc : Nat → Mem α → Nat → Nat} (hal : GoodAlloc alloc) {W : SWorld α} {S S₁ S₂ : MStore α} {body : Body α β} {r : Option β} {n : Nat}
    (ih : ∀ {W : SWorld α} {f : List Nat} {fs : List (List Nat)}, MHolds W.m S → W.scopes = f :: fs → Executes W S body S₁ r n chk nx alloc f fs)
    (hL : Left (InScope S) S₁ S₂) (H : MHolds W.m S) : ∃ W₁ W₂, W.enter.exec Arith.exact chk nx alloc body = .ok (W₁, r) ∧
      W₁.leave Arith.exact chk alloc = .ok W₂ ∧ MHolds W₂.m S₂ ∧ W₂.scopes = W.scopes ∧ W₂.lost = W.lost + n ∧ Adds S S₂ [] := by
  obtain ⟨W₁, g, h1, h2, h3, h4, h5⟩ := ih (W := W.enter) (f := []) (fs := W.scopes) H rfl
  rw [List.append_nil] at h4
  obtain ⟨W₂, k1, k2, k3, k4⟩ := leave_ok h2 h5 h4 hL chk hal
  exact ⟨W₁, W₂, h1, k1, k2, k3, by rw [k4, h3]; rfl, adds_left h5 hL⟩

theorem executes {nx : Bool} {p : Body α β} {r : Option β} {n : Nat} (hd : Does nx S p S' r n) (chk : Bool) {alloc : Nat → Mem α → Nat → Nat}
    (hal : GoodAlloc alloc) : ∀ {W : SWorld α} {f : List Nat} {fs : List (List Nat)}, MHolds W.m S → W.scopes = f :: fs →
      Executes W S p S' r n chk nx alloc f fs := by
  induction hd with
  | ret => intro W f fs H hf; exact ⟨W, [], rfl, H, rfl, hf, adds_nil fun _ => Iff.rfl⟩
  | throw => intro W f fs H hf; exact ⟨W, [], rfl, H, rfl, hf, adds_nil fun _ => Iff.rfl⟩
  | exec hl hb he _ ih =>
    intro W f fs H hf
    obtain ⟨W₁, t, h1, h2, _, h4⟩ := (xstep_ok H hl hf chk nx hal).2 hb
    obtain ⟨rfl, H₁⟩ := h4 _ _ he
    obtain ⟨k1, k2⟩ := h2 rfl
    obtain ⟨W', g, q1, q2, q3, q4, q5⟩ := ih H₁ k2
    refine ⟨W', g ++ _, ?_, q2, by rw [q3, k1], by rw [q4, List.append_assoc]; rfl, adds_trans (adds_step hl he) q5⟩
    simp only [SWorld.exec, h1, res_ok_bind, Bool.false_eq_true, if_false, q1]
  | execThrow hl hb he hn =>
    intro W f fs H hf
    obtain ⟨W₁, t, h1, _, h3, h4⟩ := (xstep_ok H hl hf chk nx hal).2 hb
    obtain ⟨rfl, H₁⟩ := h4 _ _ he
    obtain ⟨k1, k2⟩ := h3 rfl
    refine ⟨W₁, [], ?_, H₁, k2 _ hn, k1, adds_step hl he⟩
    simp only [SWorld.exec, h1, res_ok_bind, if_true]
  | read hl hv _ ih =>
    intro W f fs H hf
    obtain ⟨sc, y, h1, h2, h3, _⟩ := sc_ok H.store hl chk
    rw [hv] at h3; cases h3
    obtain ⟨W', g, q1, q⟩ := ih H hf
    exact ⟨W', g, by simp only [SWorld.exec, not_gone H (sc_live hl), Bool.false_eq_true, if_false, h1, res_ok_bind, h2, q1], q⟩
  | elements hx _ ih =>
    intro W f fs H hf
    obtain ⟨h0, src, h1, h2, h3⟩ := felements_ok H hx chk
    obtain ⟨W', g, q1, q⟩ := ih H hf
    exact ⟨W', g, by simp only [SWorld.exec, h0, Bool.false_eq_true, if_false, h1, res_ok_bind, h3, h2, q1], q⟩
  | elementsThrow hx =>
    intro W f fs H hf
    obtain ⟨h0, src, h1, h3⟩ := felements_throw H hx chk
    exact ⟨W, [], by simp only [SWorld.exec, h0, Bool.false_eq_true, if_false, h1, res_ok_bind, h3], H, rfl, hf, adds_nil fun _ => Iff.rfl⟩
  | block _ hL _ ih ih' =>
    intro W f fs H hf
    obtain ⟨W₁, W₂, h1, h2, h3, h4, h5, h6⟩ := inner hal ih hL H
    obtain ⟨W', g, q1, q2, q3, q4, q5⟩ := ih' h3 (h4.trans hf)
    refine ⟨W', g, by simp only [SWorld.exec, h1, res_ok_bind, h2, q1], q2, by rw [q3, h5]; omega, q4, by simpa using adds_trans h6 q5⟩
  | blockThrow _ hL ih =>
    intro W f fs H hf
    obtain ⟨W₁, W₂, h1, h2, h3, h4, h5, h6⟩ := inner hal ih hL H
    exact ⟨W₂, [], by simp only [SWorld.exec, h1, res_ok_bind, h2], h3, h5, h4.trans hf, h6⟩
  | @call _ _ _ _ _ _ x _ _ _ _ _ _ _ hy hl he hL _ ih ih' =>
    intro W f fs H hf
    obtain ⟨W₁, g, h1, h2, h3, h4, h5⟩ := ih (W := W.enter) (f := []) (fs := W.scopes) H rfl
    rw [List.append_nil] at h4
    obtain ⟨⟨W₂, W₃, k1, k2, k3, k4, k5⟩, k6⟩ := give_ok h2 h5 h4 hy hl he hL chk hal
    have hdec := declare_scopes (k4.trans hf) (some x)
    obtain ⟨W', g', q1, q2, q3, q4, q5⟩ := ih' (by rw [hdec.2.1]; exact k3) hdec.1
    refine ⟨W', g' ++ _, by simp only [SWorld.exec, h1, res_ok_bind, k1, k2, q1], q2, ?_, by rw [q4]; simp, adds_trans k6 q5⟩
    rw [q3, hdec.2.2, k5, h3]
    show W.lost + _ + _ = _
    omega
  | callThrow _ hL ih =>
    intro W f fs H hf
    obtain ⟨W₁, W₂, h1, h2, h3, h4, h5, h6⟩ := inner hal ih hL H
    exact ⟨W₂, [], by simp only [SWorld.exec, h1, res_ok_bind, h2], h3, h5, h4.trans hf, h6⟩
  | attempt _ hL _ ih ih' =>
    intro W f fs H hf
    obtain ⟨W₁, W₂, h1, h2, h3, h4, h5, h6⟩ := inner hal ih hL H
    obtain ⟨W', g, q1, q2, q3, q4, q5⟩ := ih' h3 (h4.trans hf)
    refine ⟨W', g, by simp only [SWorld.exec, h1, res_ok_bind, h2, q1], q2, by rw [q3, h5]; omega, q4, by simpa using adds_trans h6 q5⟩
  | handled _ hL _ hL' _ ih ih' ih'' =>
    intro W f fs H hf
    obtain ⟨W₁, W₂, h1, h2, h3, h4, h5, h6⟩ := inner hal ih hL H
    obtain ⟨W₃, W₄, i1, i2, i3, i4, i5, i6⟩ := inner hal ih' hL' h3
    obtain ⟨W', g, q1, q2, q3, q4, q5⟩ := ih'' i3 ((i4.trans h4).trans hf)
    refine ⟨W', g, by simp only [SWorld.exec, h1, res_ok_bind, h2, i1, i2, q1], q2, by rw [q3, i5, h5]; omega, q4, ?_⟩
    simpa using adds_trans (adds_trans h6 i6) q5
  | again _ hL _ hL' ih ih' =>
    intro W f fs H hf
    obtain ⟨W₁, W₂, h1, h2, h3, h4, h5, h6⟩ := inner hal ih hL H
    obtain ⟨W₃, W₄, i1, i2, i3, i4, i5, i6⟩ := inner hal ih' hL' h3
    refine ⟨W₄, [], by simp only [SWorld.exec, h1, res_ok_bind, h2, i1, i2], i3, by rw [i5, h5]; omega, (i4.trans h4).trans hf, ?_⟩
    simpa using adds_trans h6 i6

/-- **C85.** Programs with blocks, calls, exceptions and handlers. If, on array values, the program ends with the arrays `S'` and the result `r` (or is left
by an exception, `none`), having lost `n` blocks of memory, then, started in any state that holds the arrays, it runs without undefined behaviour or
failed assertions, in every build and with every allocator, ends with that result or that exception, leaves a state that holds exactly the arrays `S'`,
and has lost `n` blocks. -/
theorem C85_run {nx : Bool} {p : Body α β} {r : Option β} {n : Nat} (hd : Does nx S p S' r n) (H : MHolds W.m S) (hW : W.scopes ≠ []) (chk : Bool)
    {alloc : Nat → Mem α → Nat → Nat} (hal : GoodAlloc alloc) :
    ∃ W', W.exec Arith.exact chk nx alloc p = .ok (W', r) ∧ MHolds W'.m S' ∧ W'.lost = W.lost + n := by
  obtain ⟨f, fs, hf⟩ := List.exists_cons_of_ne_nil hW
  obtain ⟨W', g, h1, h2, h3, _⟩ := executes hd chk hal H hf
  exact ⟨W', h1, h2, h3⟩

/-- **C85.** Leaving a block, normally or by an exception, destroys exactly the arrays declared in it: afterwards the names in scope are those that were
in scope before, and there is nothing in memory but the elements of the arrays with these names. -/
theorem C85_block {nx : Bool} {p : Body α β} {r : Option β} {n : Nat} (hd : Does nx S p S' r n) (H : MHolds W.m S) (hW : W.scopes ≠ []) (chk : Bool)
    {alloc : Nat → Mem α → Nat → Nat} (hal : GoodAlloc alloc) :
    ∃ W', W.exec Arith.exact chk nx alloc (.block p .ret) = .ok (W', r) ∧ W'.lost = W.lost + n ∧ W'.scopes = W.scopes ∧
      (∀ x, (W'.m.w.env x ≠ none ∨ W'.m.gone x ≠ none) ↔ InScope S x) ∧
      (∀ x a, InScope S x → S'.live x = some a → ∃ c, W'.m.w.env x = some c ∧ c.ext = a.ext ∧ ∀ i, InB a.ext i → W'.m.w.mem ((cells c).pos i) = some (a.elt i)) ∧
      ∀ q, W'.m.w.mem q ≠ none → ∃ x c, InScope S x ∧ W'.m.w.env x = some c ∧ Covers (cells c) q := by
  obtain ⟨S'', hL⟩ := left_exists (InScope S) S'
  obtain ⟨f, fs, hf⟩ := List.exists_cons_of_ne_nil hW
  have hblock : Does nx S (.block p .ret) S'' r n := by
    cases r with
    | none => exact .blockThrow hd hL
    | some b => exact .block hd hL .ret
  obtain ⟨W', g, h1, h2, h3, h4, h5⟩ := executes hblock chk hal H hf
  obtain ⟨W₀, g₀, _, _, _, _, hA₀⟩ := executes hd chk hal H hf
  have hA := adds_left hA₀ hL
  have hgnil : g = [] := by
    cases hg : g with
    | nil => rfl
    | cons x g' =>
      have hx : x ∈ g := by rw [hg]; simp
      exact (((hA.scope x).1 ((h5.scope x).2 (.inr hx))).resolve_right (by simp) (h5.fresh x hx)).elim
  have hname : ∀ x, InScope S'' x ↔ InScope S x := fun x => by rw [hA.scope x]; simp
  have hworld : ∀ x, (W'.m.w.env x ≠ none ∨ W'.m.gone x ≠ none) ↔ InScope S'' x := by
    intro x
    rw [inScope_iff, h2.gone]
    have : W'.m.w.env x ≠ none ↔ S''.live x ≠ none := by
      constructor
      · intro h hn; exact h (h2.store.out x hn)
      · intro h
        obtain ⟨a, ha⟩ := Option.ne_none_iff_exists'.1 h
        obtain ⟨_, c, hc, _⟩ := h2.store.arr x a ha
        rw [hc]; simp
    rw [this]
  refine ⟨W', h1, h3, by rw [h4, hgnil, hf]; rfl, fun x => (hworld x).trans (hname x), ?_, ?_⟩
  · intro x a hx ha
    rw [← (hL.1 x hx).1] at ha
    exact (h2.store.arr x a ha).2
  · intro q hq
    obtain ⟨x, c, hc, hcov⟩ := h2.store.only q hq
    exact ⟨x, c, (hname x).1 ((hworld x).1 (.inl (by rw [hc]; simp))), hc, hcov⟩

/-- **C85.** Whole programs: at the end of `main`, however it ends, every element of every array has been destroyed; no more blocks of memory are lost than
resizing assignments that threw. -/
theorem C85_main {nx : Bool} {p : Body α β} {r : Option β} {n : Nat} (hd : Does nx noArrays p S' r n) (chk : Bool) {alloc : Nat → Mem α → Nat → Nat}
    (hal : GoodAlloc alloc) :
    ∃ W', SWorld.main Arith.exact chk nx alloc p = .ok (W', r) ∧ W'.lost = n ∧ (∀ q, W'.m.w.mem q = none) ∧ ∀ x, W'.m.w.env x = none ∧ W'.m.gone x = none := by
  obtain ⟨W', h1, h2, _, h4, _, h6⟩ := C85_block (W := SWorld.empty) hd mholds_empty (by simp [SWorld.empty]) chk hal
  have hno : ∀ x, ¬ InScope (noArrays : MStore α) x := fun x h => h ⟨rfl, rfl⟩
  refine ⟨W', h1, by rw [h2]; simp [SWorld.empty], fun q => ?_, fun x => ?_⟩
  · by_contra hq
    obtain ⟨x, _, hx, _⟩ := h6 q hq
    exact hno x hx
  · constructor
    · by_contra h; exact hno x ((h4 x).1 (.inl h))
    · by_contra h; exact hno x ((h4 x).1 (.inr h))

/-- **C85.** A program that constructs an element of a type that cannot throw on construction, and throws, is terminated, whatever blocks and handlers there
are around. -/
theorem C85_aborts {nx : Bool} {p : Body α β} (hd : Aborts nx S p) (chk : Bool) {alloc : Nat → Mem α → Nat → Nat} (hal : GoodAlloc alloc) :
    ∀ {W : SWorld α}, MHolds W.m S → W.scopes ≠ [] → W.exec Arith.exact chk nx alloc p = .error .terminate := by
  have ne : ∀ {W : SWorld α}, W.enter.scopes ≠ [] := by simp [SWorld.enter]
  have after : ∀ {W : SWorld α} {S S₁ S₂ : MStore α} {body : Body α β} {r : Option β} {n : Nat}, Does nx S body S₁ r n → Left (InScope S) S₁ S₂ → MHolds W.m S →
      ∃ W₁ W₂, W.enter.exec Arith.exact chk nx alloc body = .ok (W₁, r) ∧ W₁.leave Arith.exact chk alloc = .ok W₂ ∧ MHolds W₂.m S₂ ∧ W₂.scopes = W.scopes := by
    intro W S S₁ S₂ body r n hd hL H
    obtain ⟨W₁, W₂, h1, h2, h3, h4, _⟩ := inner hal (fun H hf => executes hd chk hal H hf) hL H
    exact ⟨W₁, W₂, h1, h2, h3, h4⟩
  induction hd with
  | now hl hb =>
    intro W H hW
    obtain ⟨f, fs, hf⟩ := List.exists_cons_of_ne_nil hW
    simp only [SWorld.exec, (xstep_ok H hl hf chk nx hal).1 hb]
    rfl
  | exec hl hb he _ ih =>
    intro W H hW
    obtain ⟨f, fs, hf⟩ := List.exists_cons_of_ne_nil hW
    obtain ⟨W₁, t, h1, h2, _, h4⟩ := (xstep_ok H hl hf chk nx hal).2 hb
    obtain ⟨rfl, H₁⟩ := h4 _ _ he
    simp only [SWorld.exec, h1, res_ok_bind, Bool.false_eq_true, if_false]
    exact ih H₁ (by rw [(h2 rfl).2]; simp)
  | read hl hv _ ih =>
    intro W H hW
    obtain ⟨sc, y, h1, h2, h3, _⟩ := sc_ok H.store hl chk
    rw [hv] at h3; cases h3
    simp only [SWorld.exec, not_gone H (sc_live hl), Bool.false_eq_true, if_false, h1, res_ok_bind, h2]
    exact ih H hW
  | elements hx _ ih =>
    intro W H hW
    obtain ⟨h0, src, h1, h2, h3⟩ := felements_ok H hx chk
    simp only [SWorld.exec, h0, Bool.false_eq_true, if_false, h1, res_ok_bind, h3, h2]
    exact ih H hW
  | inBlock _ ih | inCall _ ih | inTry _ ih =>
    intro W H hW
    simp only [SWorld.exec, ih (W := W.enter) H ne]
    rfl
  | block hd hL _ ih | attempt hd hL _ ih =>
    intro W H hW
    obtain ⟨W₁, W₂, h1, h2, h3, h4⟩ := after hd hL H
    simp only [SWorld.exec, h1, res_ok_bind, h2]
    exact ih h3 (by rw [h4]; exact hW)
  | @call _ _ _ _ _ _ x _ _ _ hd hy hl he hL _ ih =>
    intro W H hW
    obtain ⟨f, fs, hf⟩ := List.exists_cons_of_ne_nil hW
    obtain ⟨W₁, g, h1, h2, h3, h4, h5⟩ := executes hd chk hal (W := W.enter) (f := []) (fs := W.scopes) H rfl
    rw [List.append_nil] at h4
    obtain ⟨⟨W₂, W₃, k1, k2, k3, k4, k5⟩, k6⟩ := give_ok h2 h5 h4 hy hl he hL chk hal
    have hdec := declare_scopes (k4.trans hf) (some x)
    simp only [SWorld.exec, h1, res_ok_bind, k1, k2]
    exact ih (by rw [hdec.2.1]; exact k3) (by rw [hdec.1]; simp)
  | inHandler hd hL _ ih =>
    intro W H hW
    obtain ⟨W₁, W₂, h1, h2, h3, h4⟩ := after hd hL H
    simp only [SWorld.exec, h1, res_ok_bind, h2, ih (W := W₂.enter) h3 ne]
    rfl
  | handled hd hL hd' hL' _ ih =>
    intro W H hW
    obtain ⟨W₁, W₂, h1, h2, h3, h4⟩ := after hd hL H
    obtain ⟨W₃, W₄, i1, i2, i3, i4⟩ := after hd' hL' h3
    simp only [SWorld.exec, h1, res_ok_bind, h2, i1, i2]
    exact ih i3 (by rw [i4, h4]; exact hW)

/-- What happens does not depend on anything but the arrays. -/
theorem same_of_holds {w : World α} {A B : AStore α} (h1 : HoldsStore w A) (h2 : HoldsStore w B) : SameStore A B := by
  intro x
  constructor
  · constructor
    · intro h
      by_contra hn
      obtain ⟨b, hb⟩ := Option.ne_none_iff_exists'.1 hn
      obtain ⟨_, c, hc, _⟩ := h2.arr x b hb
      rw [h1.out x h] at hc; cases hc
    · intro h
      by_contra hn
      obtain ⟨a, ha⟩ := Option.ne_none_iff_exists'.1 hn
      obtain ⟨_, c, hc, _⟩ := h1.arr x a ha
      rw [h2.out x h] at hc; cases hc
  · intro a b ha hb
    obtain ⟨_, c, hc, e1, e2⟩ := h1.arr x a ha
    obtain ⟨_, c', hc', e3, e4⟩ := h2.arr x b hb
    rw [hc] at hc'; cases hc'
    refine ⟨e1.symm.trans e3, fun i hi => ?_⟩
    have := e2 i hi
    rw [e4 i (by rw [← e3, e1]; exact hi)] at this
    exact (Option.some.inj this).symm

/-- **C85.** The result, the exceptions, the arrays and the blocks lost do not depend on the build, the allocator, or where the arrays are in memory. -/
theorem C85_determined {nx : Bool} {p : Body α β} {S₁ S₂ : MStore α} {r₁ r₂ : Option β} {n₁ n₂ : Nat} (h1 : Does nx S p S₁ r₁ n₁) (h2 : Does nx S p S₂ r₂ n₂)
    (hS : ∃ W : MWorld α, MHolds W S) : r₁ = r₂ ∧ n₁ = n₂ ∧ SameStore S₁.live S₂.live ∧ S₁.moved = S₂.moved := by
  obtain ⟨W, H⟩ := hS
  obtain ⟨alloc, hal⟩ : ∃ alloc : Nat → Mem α → Nat → Nat, GoodAlloc alloc := goodAlloc_any
  obtain ⟨W₁, a1, a2, a3⟩ := C85_run (W := ⟨W, [[]], 0⟩) h1 H (by simp) true hal
  obtain ⟨W₂, b1, b2, b3⟩ := C85_run (W := ⟨W, [[]], 0⟩) h2 H (by simp) true hal
  rw [a1] at b1
  cases b1
  refine ⟨rfl, by omega, same_of_holds a2.store b2.store, by rw [← a2.gone, ← b2.gone]⟩

theorem felements_cases (H : MHolds W.m S) {e : FEx α} {d : List Nat} (hd : d ≠ []) (he : ExLegal S.live d (shapeE e)) :
    (∃ xs, FElements S e d xs) ∨ FThrows S e := by
  rcases defined_or (d := d) (fexVal S.live e) with h | h
  · obtain ⟨src, _, hg⟩ := fex_ok H.store hd true he
    obtain ⟨xs, h1, h2, _⟩ := (gets_all hg).1 h
    refine .inl ⟨xs, hd, he, h1, fun i hi => ?_⟩
    obtain ⟨v, hv⟩ := Option.ne_none_iff_exists'.1 (h i hi)
    exact ⟨v, hv, by rw [h2 i hi, hv]⟩
  · exact .inr ⟨d, hd, he, h⟩

theorem xeffect_exists [Nonempty α] (H : MHolds W.m S) {s : XStmt α} (hs : XLegal S s) : ∃ S' t, XEffect S s S' t := by
  cases s with
  | calm s =>
    obtain ⟨S', h⟩ := meffect_exists (fun x d hx => (H.moved x d hx).1) hs.1
    exact ⟨S', false, rfl, h⟩
  | wild s =>
    obtain ⟨A', t, h⟩ := C84_progress hs.1
    exact ⟨⟨A', S.moved⟩, t, rfl, h⟩

/-- Every legal program ends, or is terminated. -/
theorem does_exists [Nonempty α] {nx : Bool} : ∀ (p : Body α β) {S : MStore α} {W : SWorld α}, LegalBody nx S p → MHolds W.m S →
    (∃ S' r n, Does nx S p S' r n) ∨ Aborts nx S p := by
  obtain ⟨alloc, hal⟩ : ∃ alloc : Nat → Mem α → Nat → Nat, GoodAlloc alloc := goodAlloc_any
  have after : ∀ {S S₁ S₂ : MStore α} {W : SWorld α} {body : Body α β} {r : Option β} {n : Nat}, Does nx S body S₁ r n → Left (InScope S) S₁ S₂ → MHolds W.m S →
      ∃ W₂ : SWorld α, MHolds W₂.m S₂ := by
    intro S S₁ S₂ W body r n hd hL H
    obtain ⟨_, W₂, _, _, h3, _⟩ := inner (chk := true) hal (fun H hf => executes hd true hal H hf) hL H
    exact ⟨W₂, h3⟩
  intro p
  induction p with
  | ret b => intro S W _ _; exact .inl ⟨S, _, 0, .ret⟩
  | throw => intro S W _ _; exact .inl ⟨S, _, 0, .throw⟩
  | exec s k ih =>
    intro S W hl H
    obtain ⟨h1, h2⟩ := hl
    by_cases hb : Breaks nx S s
    · exact .inr (.now h1 hb)
    · obtain ⟨S₁, t, he⟩ := xeffect_exists H h1
      cases t with
      | true =>
        by_cases hr : Resizes S s
        · exact .inl ⟨S₁, none, 1, .execThrow h1 hb he (.inl ⟨hr, rfl⟩)⟩
        · exact .inl ⟨S₁, none, 0, .execThrow h1 hb he (.inr ⟨hr, rfl⟩)⟩
      | false =>
        obtain ⟨W₁, t, _, _, _, h4⟩ := (xstep_ok (W := { W with scopes := [[]] }) H h1 rfl true nx hal).2 hb
        obtain ⟨rfl, H₁⟩ := h4 _ _ he
        rcases ih (h2 S₁ he) H₁ with ⟨S', r, n, h⟩ | h
        · exact .inl ⟨S', r, n, .exec h1 hb he h⟩
        · exact .inr (.exec h1 hb he h)
  | read s k ih =>
    intro S W hl H
    obtain ⟨h1, h2⟩ := hl
    obtain ⟨v, hv⟩ := Option.ne_none_iff_exists'.1 (scVal_some h1)
    rcases ih v (h2 v hv) H with ⟨S', r, n, h⟩ | h
    · exact .inl ⟨S', r, n, .read h1 hv h⟩
    · exact .inr (.read h1 hv h)
  | elements e k ih =>
    intro S W hl H
    obtain ⟨d, hd, he, h2⟩ := hl
    rcases felements_cases H hd he with ⟨xs, hx⟩ | ht
    · rcases ih d xs (h2 xs hx) H with ⟨S', r, n, h⟩ | h
      · exact .inl ⟨S', r, n, .elements hx h⟩
      · exact .inr (.elements hx h)
    · exact .inl ⟨S, none, 0, .elementsThrow ht⟩
  | block body k ih ih' =>
    intro S W hl H
    obtain ⟨h1, h2⟩ := hl
    rcases ih h1 H with ⟨S₁, r, n, h⟩ | h
    · obtain ⟨S₂, hL⟩ := left_exists (InScope S) S₁
      cases r with
      | none => exact .inl ⟨S₂, none, n, .blockThrow h hL⟩
      | some b =>
        obtain ⟨W₂, H₂⟩ := after h hL H
        rcases ih' b (h2 S₁ S₂ b n h hL) H₂ with ⟨S', r, n', h'⟩ | h'
        · exact .inl ⟨S', r, _, .block h hL h'⟩
        · exact .inr (.block h hL h')
    · exact .inr (.inBlock h)
  | call x y body k ih ih' =>
    intro S W hl H
    obtain ⟨h1, hy, h2⟩ := hl
    rcases ih h1 H with ⟨S₁, r, n, h⟩ | h
    · cases r with
      | none =>
        obtain ⟨S₂, hL⟩ := left_exists (InScope S) S₁
        exact .inl ⟨S₂, none, n, .callThrow h hL⟩
      | some b =>
        obtain ⟨hm, h3⟩ := h2 S₁ b n h
        obtain ⟨W₁, g, _, g2, _, g4, g5⟩ := executes h true hal (W := W.enter) (f := []) (fs := W.scopes) H rfl
        rw [List.append_nil] at g4
        obtain ⟨S₂, he⟩ := meffect_exists (fun x d hx => (g2.moved x d hx).1) hm
        obtain ⟨S₃, hL⟩ := left_exists (fun z => InScope S z ∨ z = x) S₂
        obtain ⟨⟨_, W₃, _, _, k3, _⟩, _⟩ := give_ok g2 g5 g4 hy hm he hL true hal
        rcases ih' b (h3 S₂ S₃ he hL) k3 with ⟨S', r, n', h'⟩ | h'
        · exact .inl ⟨S', r, _, .call h hy hm he hL h'⟩
        · exact .inr (.call h hy hm he hL h')
    · exact .inr (.inCall h)
  | attempt body handler k ih ihh ih' =>
    intro S W hl H
    obtain ⟨h1, h2, h3⟩ := hl
    rcases ih h1 H with ⟨S₁, r, n, h⟩ | h
    · obtain ⟨S₂, hL⟩ := left_exists (InScope S) S₁
      obtain ⟨W₂, H₂⟩ := after h hL H
      cases r with
      | some b =>
        rcases ih' b (h2 S₁ S₂ b n h hL) H₂ with ⟨S', r, n', h'⟩ | h'
        · exact .inl ⟨S', r, _, .attempt h hL h'⟩
        · exact .inr (.attempt h hL h')
      | none =>
        obtain ⟨h4, h5⟩ := h3 S₁ S₂ n h hL
        rcases ihh h4 H₂ with ⟨S₃, r, n', h'⟩ | h'
        · obtain ⟨S₄, hL'⟩ := left_exists (InScope S₂) S₃
          obtain ⟨W₄, H₄⟩ := after h' hL' H₂
          cases r with
          | none => exact .inl ⟨S₄, none, _, .again h hL h' hL'⟩
          | some b =>
            rcases ih' b (h5 S₃ S₄ b n' h' hL') H₄ with ⟨S', r, n'', h''⟩ | h''
            · exact .inl ⟨S', r, _, .handled h hL h' hL' h''⟩
            · exact .inr (.handled h hL h' hL' h'')
        · exact .inr (.inHandler h hL h')
    · exact .inr (.inTry h)

/-- **C85.** A legal program never has undefined behaviour and fails no assertion: it ends, normally or by an exception, in a state that holds the arrays the
specification gives, or it is terminated because an element of a type that cannot throw on construction threw. -/
theorem C85_legal [Nonempty α] {nx : Bool} {p : Body α β} (hp : LegalBody nx S p) (H : MHolds W.m S) (hW : W.scopes ≠ []) (chk : Bool)
    {alloc : Nat → Mem α → Nat → Nat} (hal : GoodAlloc alloc) :
    (∃ W' r S' n, W.exec Arith.exact chk nx alloc p = .ok (W', r) ∧ Does nx S p S' r n ∧ MHolds W'.m S' ∧ W'.lost = W.lost + n) ∨
    (nx = true ∧ Aborts nx S p ∧ W.exec Arith.exact chk nx alloc p = .error .terminate) := by
  rcases does_exists p hp H with ⟨S', r, n, hd⟩ | ha
  · obtain ⟨W', h1, h2, h3⟩ := C85_run hd H hW chk hal
    exact .inl ⟨W', r, S', n, h1, hd, h2, h3⟩
  · refine .inr ⟨?_, ha, C85_aborts ha chk hal H hW⟩
    clear hp H hW
    induction ha with
    | @now _ s _ _ hb =>
      cases s with
      | calm s => exact hb.elim
      | wild s => exact hb.1
    | _ => assumption

/-- **C85.** No memory is lost by a program without assignments to whole arrays whose functions may throw. -/
theorem C85_no_loss {nx : Bool} {p : Body α β} {r : Option β} {n : Nat} (hd : Does nx S p S' r n) (hp : NoWholeAssign p) : n = 0 := by
  induction hd with
  | ret => rfl
  | throw => rfl
  | exec _ _ _ _ ih => exact ih hp.2
  | execThrow _ _ _ hn =>
    rcases hn with ⟨⟨x, e, _, _, rfl, _⟩, _⟩ | ⟨_, h⟩
    · exact (hp.1 x e rfl).elim
    · exact h
  | read _ _ _ ih => exact ih (hp _)
  | elements _ _ ih => exact ih (hp _ _)
  | elementsThrow _ => rfl
  | block _ _ _ ih ih' => rw [ih hp.1, ih' (hp.2 _)]
  | blockThrow _ _ ih => exact ih hp.1
  | call _ _ _ _ _ _ ih ih' => rw [ih hp.1, ih' (hp.2 _)]
  | callThrow _ _ ih => exact ih hp.1
  | attempt _ _ _ ih ih' => rw [ih hp.1, ih' (hp.2.2 _)]
  | handled _ _ _ _ _ ih ih' ih'' => rw [ih hp.1, ih' hp.2.1, ih'' (hp.2.2 _)]
  | again _ _ _ _ ih ih' => rw [ih hp.1, ih' hp.2.1]

end

/-! ### Concrete cases -/

/-- `auto a = {1..6}` (2×3); `try { auto b = a; a = f(a); }` throws at the fourth element; the handler increments `a`; `auto c = g();` where `g` makes
two arrays and returns one; the elements of `c + c` are the result. -/
def exScopes : Body Nat (List Nat) :=
  .exec (.calm (.old (.makeFrom 0 [1, 2, 3, 4, 5, 6] [2, 3]))) <|
  .attempt (.exec (.calm (.old (.make 1 (.arr 0 [])))) (.exec (.wild (.set 0 (.un exTen (.arr 0 [])))) (.ret [])))
    (.exec (.calm (.old (.apply 0 [] (· + 1)))) (.ret [])) fun _ =>
  .call 1 3 (.exec (.wild (.make 2 (.arr 0 [.at 0]))) (.exec (.calm (.moveMake 3 2)) (.ret []))) fun _ =>
  .elements (.bin (fun x y => some (x + y)) (.arr 1 []) (.arr 1 [])) fun d xs => .ret (d ++ xs)

/-- The state of the arrays and what is in memory. -/
def exShow (r : SWorld Nat × Option (List Nat)) : Option (List Nat) × List (List Nat) × List Nat :=
  (r.2, r.1.scopes, r.1.lost :: (List.range 200).filterMap r.1.m.w.mem)

example : (SWorld.empty.exec Arith.exact true false exAlloc exScopes).map exShow =
    .ok (some [3, 22, 62, 12], [[1, 0]], [0, 11, 21, 31, 5, 6, 7, 11, 31, 6]) := by decide +kernel

example : (SWorld.main Arith.exact true false exAlloc exScopes).map exShow = .ok (some [3, 22, 62, 12], [[]], [0]) := by decide +kernel

/-- `auto a = {1..6}; a = f(a[slice(0, 3)])`, uncaught: `f` throws, and the block allocated for the three elements is lost. -/
def exLost (f : Nat → Option Nat) : Body Nat Unit :=
  .exec (.calm (.old (.makeFrom 0 [1, 2, 3, 4, 5, 6] [6]))) (.exec (.wild (.set 0 (.un f (.arr 0 [.slice 0 3])))) (.ret ()))

example : (SWorld.main Arith.exact true false exAlloc (exLost fun _ => none)).map (fun r => (r.2, r.1.lost, (List.range 200).filterMap r.1.m.w.mem)) =
    .ok (none, 1, []) := by decide +kernel

/-- With a type that cannot throw on construction the program is terminated, although there is a handler. -/
example : (SWorld.main Arith.exact true true exAlloc (.attempt (exLost fun _ => none) (.ret ()) .ret)).map (fun r => r.2) = .error .terminate := by decide +kernel

/-- After the first statement of `exLost`. -/
def exSix : MStore Nat := ⟨fun z => if z = 0 then some ⟨[6], fun i => 1 + cmSum [6] i⟩ else none, fun _ => none⟩

theorem exSix_effect : XEffect noArrays (.calm (.old (.makeFrom 0 [1, 2, 3, 4, 5, 6] [6]))) exSix false := by
  refine ⟨rfl, rfl, fun y hy => by simp [exSix, noArrays, hy], _, rfl, rfl, fun i hi => ?_⟩
  have : ∀ i ∈ multiIdx [6], [1, 2, 3, 4, 5, 6][cmSum [6] i]? = some (1 + cmSum [6] i) := by decide
  exact this i (mem_multiIdx.2 hi)

theorem exSix_legal : XLegal noArrays (.calm (.old (.makeFrom 0 [1, 2, 3, 4, 5, 6] [6])) : XStmt Nat) := ⟨⟨rfl, rfl, by decide, by decide⟩, fun h => h⟩

theorem ex_chain_three : Chain [6] [.slice 0 3] ⟨[3], fun j => choose [[0, 1, 2]] j⟩ :=
  ⟨⟨⟨by decide, trivial, by decide, by decide⟩, trivial⟩, by decide, by rfl⟩

/-- `a = f(a[slice(0, 3)])` is legal for every array of six elements. -/
theorem ex_lost_legal (f : Nat → Option Nat) {S : MStore Nat} {a : AVal Nat} (ha : S.live 0 = some a) (he : a.ext = [6]) (hm : S.moved 0 = none) :
    XLegal S (.wild (.set 0 (.un f (.arr 0 [.slice 0 3])))) := by
  refine ⟨⟨a, [3], ha, by rw [he]; rfl, ⟨a, _, ha, by rw [he]; exact ex_chain_three, rfl⟩, fun h => ?_⟩, 0, rfl, hm⟩
  rw [he] at h; cases h

theorem ex_three_legal : ExLegal exSix.live [3] (shapeE (.un (fun _ => none) (.arr 0 [.slice 0 3]))) := ⟨_, _, rfl, ex_chain_three, rfl⟩

/-- `f` throws: the array is unchanged and one block is lost. -/
theorem ex_lost_does : Does false noArrays (exLost fun _ => none) exSix none 1 :=
  .exec exSix_legal (fun h => h) exSix_effect (.execThrow (ex_lost_legal _ rfl rfl rfl) (fun h => by cases h.1)
    ⟨rfl, _, [3], rfl, ex_three_legal, .inr ⟨rfl, ⟨[0], by decide, rfl⟩, rfl⟩⟩ (.inl ⟨⟨0, _, _, [3], rfl, rfl, ex_three_legal, by decide⟩, rfl⟩))

/-- **C85.** Memory is lost: after `auto a = {1..6}; a = f(a[slice(0, 3)])`, where `f` throws, the block allocated for the new elements is never freed, although
every array has been destroyed. -/
theorem C85_lost {alloc : Nat → Mem Nat → Nat → Nat} (hal : GoodAlloc alloc) (chk : Bool) :
    ∃ W', SWorld.main Arith.exact chk false alloc (exLost fun _ => none) = .ok (W', none) ∧ W'.lost = 1 ∧ ∀ q, W'.m.w.mem q = none := by
  obtain ⟨W', h1, h2, h3, _⟩ := C85_main ex_lost_does chk hal
  exact ⟨W', h1, h2, h3⟩

/-- It is a legal program, whatever `f` does. -/
theorem ex_lost_legal_body (nx : Bool) (f : Nat → Option Nat) : LegalBody nx noArrays (exLost f) := by
  refine ⟨exSix_legal, ?_⟩
  rintro S₁ ⟨_, hm, _, a, ha, he, _⟩
  exact ⟨ex_lost_legal f ha he (by rw [hm]; rfl), fun _ _ => trivial⟩

/-- With a type that cannot throw on construction it is terminated. -/
theorem ex_lost_aborts : Aborts true noArrays (.attempt (exLost fun _ => none) (.ret ()) .ret) :=
  .inTry (.exec exSix_legal (fun h => h) exSix_effect (.now (ex_lost_legal _ rfl rfl rfl) ⟨rfl, _, [3], rfl, ex_three_legal, by decide, [0], by decide, rfl⟩))

/-- `auto a = g();` where `g` makes an array and returns it; then an exception is thrown and handled. -/
def exCall : Body Nat Unit :=
  .call 0 1 (.exec (.calm (.old (.makeFrom 1 [1, 2, 3] [3]))) (.ret ())) fun _ => .attempt .throw (.ret ()) .ret

/-- One array of three elements, with the name `x`. -/
def exOne (x : Nat) : MStore Nat := ⟨fun z => if z = x then some ⟨[3], fun i => 1 + cmSum [3] i⟩ else none, fun _ => none⟩

theorem ex_call_does : Does false noArrays exCall (exOne 0) (some ()) 0 := by
  have hself : Left (InScope (exOne 0)) (exOne 0) (exOne 0) := ⟨fun _ _ => ⟨rfl, rfl⟩, fun x h => not_not.1 h⟩
  refine Does.call (S₁ := exOne 1) (S₂ := ⟨(exOne 0).live, fun z => if z = 1 then some [3] else none⟩) (S₃ := exOne 0) (n := 0) (n' := 0 + 0 + 0)
    (.exec (S₁ := exOne 1) ⟨⟨rfl, rfl, by decide, by decide⟩, fun h => h⟩ (fun h => h) ⟨rfl, rfl, fun y hy => by simp [exOne, noArrays, hy], _, rfl, rfl, fun i hi => ?_⟩ .ret)
    ⟨rfl, rfl⟩ ⟨⟨rfl, rfl⟩, 1, .inl ⟨_, rfl, rfl⟩⟩
    ⟨fun z hz => ?_, rfl, rfl, .inr ⟨_, rfl, ?_⟩⟩ ⟨?_, ?_⟩ (.handled .throw hself .ret hself .ret)
  · have : ∀ i ∈ multiIdx [3], [1, 2, 3][cmSum [3] i]? = some (1 + cmSum [3] i) := by decide
    exact this i (mem_multiIdx.2 hi)
  · have h0 : z ≠ 0 := by rintro rfl; simp at hz
    have h1 : z ≠ 1 := by rintro rfl; simp at hz
    simp [exOne, h0, h1]
  · rw [if_neg (show ¬ prod [3] = 0 by decide)]
    exact ⟨rfl, rfl⟩
  · rintro x (h | rfl)
    · exact (h ⟨rfl, rfl⟩).elim
    · exact ⟨rfl, rfl⟩
  · intro x hx
    have : x ≠ 0 := fun h => hx (.inr h)
    exact ⟨by simp [exOne, this], rfl⟩

theorem ex_started : SWorld.empty (α := Nat).scopes ≠ [] := by simp [SWorld.empty]

example := C85_run (W := SWorld.empty) ex_call_does mholds_empty ex_started true goodAlloc_exists.choose_spec
example := C85_run (W := SWorld.empty) ex_lost_does mholds_empty ex_started true goodAlloc_exists.choose_spec
example := C85_block (W := SWorld.empty) ex_call_does mholds_empty ex_started true goodAlloc_exists.choose_spec
example := C85_main ex_call_does true goodAlloc_exists.choose_spec
example := C85_aborts ex_lost_aborts true goodAlloc_exists.choose_spec (W := SWorld.empty) mholds_empty ex_started
example := C85_determined ex_call_does ex_call_does ⟨_, mholds_empty⟩
example := C85_legal (W := SWorld.empty) (ex_lost_legal_body true exTen) mholds_empty ex_started true goodAlloc_exists.choose_spec
example : (0 : Nat) = 0 := C85_no_loss ex_call_does ⟨⟨(fun _ _ h => by cases h), trivial⟩, fun _ => ⟨trivial, trivial, fun _ => trivial⟩⟩
example := C85_lost goodAlloc_exists.choose_spec true

end Jules.Props

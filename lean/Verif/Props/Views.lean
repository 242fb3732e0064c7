import Verif.Lemmas.Views
import Verif.Props.Program64
/-
C80: programs that keep views in variables.
-/
namespace Jules.Props
open Spec

section
variable {α : Type} {V : VWorld α} {S : VStore α} {chk : Bool}

/-- **C80.** A view is an alias: indexing it is indexing the array it was taken from, with the index expressions of the view first. -/
theorem C80_alias {A : Arith} {σ : Aliases} (H : Aliased A chk V σ) {x y : Nat} {h g : List Ix} (hn : inName σ x h = some (y, g)) :
    V.index A chk x h = V.w.index A chk y g := index_in H hn

/-- **C80.** Views do not matter: a statement does what it does when the index expressions are written instead of the views, whether it
succeeds or fails, in every build, with unbounded and with 64-bit integers. -/
theorem C80_inlined {A : Arith} {σ : Aliases} (H : Aliased A chk V σ) {s s' : Stmt α} (hs : inStmt σ s = some s')
    (alloc : Nat → Mem α → Nat → Nat) :
    V.step A chk alloc (.stmt s) = (V.w.step A chk alloc s').map fun w' => ⟨w', V.view⟩ := stmt_in H hs alloc

/-- **C80.** And afterwards the views stand for what they follow. -/
theorem C80_followed {A : Arith} {σ : Aliases} (H : Aliased A chk V σ) {s s' : Stmt α} (hs : inStmt σ s = some s')
    {alloc : Nat → Mem α → Nat → Nat} {V' : VWorld α} (hV : V.step A chk alloc (.stmt s) = .ok V') :
    Aliased A chk V' fun v => (σ v).map (Kept.follow (owner (worldExts V.w) (worldExts V'.w) s')) := by
  rw [stmt_in H hs] at hV
  cases hw : V.w.step A chk alloc s' with
  | error e => rw [hw] at hV; cases hV
  | ok w' => rw [hw] at hV; cases hV; exact aliased_stmt H hs hw fun _ => rfl

/-- A block that changes its name. -/
theorem holds_moved_name {w : World α} {A A' : AStore α} (H : HoldsStore w A) {x y : Nat} {c : Arr} (hx : w.env x = some c) (hy : w.env y = none)
    (h1 : ∀ z, z ≠ x → z ≠ y → A' z = A z) (h2 : A' y = A x) (h3 : A' x = none) :
    HoldsStore ((w.bind w.mem x none).bind w.mem y (some c)) A' := by
  have hxy : x ≠ y := by rintro rfl; rw [hx] at hy; cases hy
  have ey : ((w.bind w.mem x none).bind w.mem y (some c)).env y = some c := by simp [World.bind]
  have ex : ((w.bind w.mem x none).bind w.mem y (some c)).env x = none := by simp [World.bind, hxy]
  have ez : ∀ z, z ≠ x → z ≠ y → ((w.bind w.mem x none).bind w.mem y (some c)).env z = w.env z := by
    intro z hzx hzy; simp [World.bind, hzx, hzy]
  -- the former name
  have former : ∀ z d, ((w.bind w.mem x none).bind w.mem y (some c)).env z = some d →
      ∃ z0, w.env z0 = some d ∧ A' z = A z0 ∧ (z0 = if z = y then x else z) ∧ z ≠ x := by
    intro z d hz
    by_cases hzy : z = y
    · subst hzy; rw [ey] at hz; cases hz; exact ⟨x, hx, h2, by simp, Ne.symm hxy⟩
    · by_cases hzx : z = x
      · subst hzx; rw [ex] at hz; cases hz
      · rw [ez z hzx hzy] at hz; exact ⟨z, hz, h1 z hzx hzy, by simp [hzy], hzx⟩
  refine ⟨?_, ?_, ?_, ?_, H.finite⟩
  · intro z a ha
    by_cases hzy : z = y
    · subst hzy
      rw [h2] at ha
      obtain ⟨e1, c', e2, e3, e4⟩ := H.arr x a ha
      rw [hx] at e2; cases e2
      exact ⟨e1, c, ey, e3, e4⟩
    · by_cases hzx : z = x
      · subst hzx; rw [h3] at ha; cases ha
      · rw [h1 z hzx hzy] at ha
        obtain ⟨e1, c', e2, e3, e4⟩ := H.arr z a ha
        exact ⟨e1, c', by rw [ez z hzx hzy, e2], e3, e4⟩
  · intro z ha
    by_cases hzy : z = y
    · subst hzy
      rw [h2] at ha
      rw [H.out x ha] at hx; cases hx
    · by_cases hzx : z = x
      · subst hzx; exact ex
      · rw [ez z hzx hzy]; exact H.out z (by rw [← h1 z hzx hzy, ha])
  · intro z t d e q hzt hz ht
    obtain ⟨z0, g1, _, g2, g4⟩ := former z d hz
    obtain ⟨t0, k1, _, k2, k4⟩ := former t e ht
    refine H.sep z0 t0 d e q ?_ g1 k1
    rw [g2, k2]
    by_cases a1 : z = y <;> by_cases a2 : t = y <;> simp [a1, a2] <;> try omega
    all_goals (first | (rw [a1, a2] at hzt; exact (hzt rfl).elim) | (intro h; first | exact k4 h.symm | exact g4 h | exact hzt h))
  · intro q hq
    obtain ⟨z, d, hz, hc⟩ := H.only q hq
    by_cases hzx : z = x
    · subst hzx; rw [hx] at hz; cases hz; exact ⟨y, c, ey, hc⟩
    · by_cases hzy : z = y
      · subst hzy; rw [hy] at hz; cases hz
      · exact ⟨z, d, by rw [ez z hzx hzy, hz], hc⟩

/-- **C80.** One statement. -/
theorem C80_statement (H : VHolds chk V S) {s : VStmt α} (hs : VLegal S s) {alloc : Nat → Mem α → Nat → Nat} (hal : GoodAlloc alloc) :
    ∃ V', V.step Arith.exact chk alloc s = .ok V' ∧ ∀ S', VEffect S s S' → VHolds chk V' S' := by
  cases s with
  | view v x h =>
    obtain ⟨h1, h2, y, g, a, u, hn, hg, ha, hc, hu⟩ := hs
    obtain ⟨c, o, k1, k2, k3, k4, k5⟩ := index_ok H.arr ha hc chk
    have hdim := observes_dims k4 hu
    have hfree : V.isFree v = true := by rw [isFree_in H.views h2, H.arr.out v h1]; rfl
    refine ⟨_, by simp only [VWorld.step, hfree, needs_true, index_in H.views hn, k3, res_ok_bind, hdim, Option.isSome_some]; rfl, ?_⟩
    rintro S' ⟨e1, e2, y', g', e3, e4⟩
    rw [hn] at e3; cases e3
    refine ⟨by rw [e1]; exact holds_clock H.arr _, aliased_view H.views hfree hn hg (by rw [index_in H.views hn, k3]) e2 e4, ?_⟩
    intro z x' h' hz
    rw [e1]
    by_cases hzv : z = v
    · subst hzv; rw [e4] at hz; cases hz; exact ⟨a, u, ha, hc, hu⟩
    · rw [e2 z hzv] at hz; exact H.legal z x' h' hz
  | moveMake y x =>
    obtain ⟨h1, h2, h3, h4⟩ := hs
    obtain ⟨a, ha⟩ := Option.ne_none_iff_exists'.1 h4
    obtain ⟨_, c, hx, hce, hval⟩ := H.arr.arr x a ha
    have hfree : V.isFree y = true := by rw [isFree_in H.views h2, H.arr.out y h1]; rfl
    refine ⟨_, by simp only [VWorld.step, hfree, needs_true, notView_in H.views h3, Bool.not_false, World.get, hx, res_ok_bind]; rfl, ?_⟩
    rintro S' ⟨e1, e2, e3, e4⟩
    refine ⟨holds_moved_name H.arr hx (H.arr.out y h1) e1 e2 e3, aliased_move H.views hx (H.arr.out y h1) h2 e4, ?_⟩
    intro v z h hz
    rw [e4 v] at hz
    obtain ⟨k, hk, hf⟩ := Option.map_eq_some_iff.1 hz
    obtain ⟨t, rfl, ht⟩ := follow_alias hf
    obtain ⟨b, u, hb, hu⟩ := H.legal v t h hk
    cases ht
    refine ⟨b, u, ?_, hu⟩
    by_cases htx : t = x
    · subst htx; simp [e2, hb]
    · have hty : t ≠ y := by rintro rfl; rw [h1] at hb; cases hb
      simp [htx, e1 t htx hty, hb]
  | stmt s =>
    rcases hs with ⟨x, rfl, hx⟩ | ⟨s', hin, hl⟩
    · have hvx : ∃ o, V.view x = some o := by
        apply Option.ne_none_iff_exists'.1
        intro h; exact hx ((H.views.scope x).1 h)
      obtain ⟨o, ho⟩ := hvx
      refine ⟨_, by simp only [VWorld.step, ho]; rfl, ?_⟩
      rintro S' (⟨y, hy, _, e1, e2, e3⟩ | ⟨s', hin, _⟩)
      · cases hy
        refine ⟨by rw [e1]; exact holds_clock H.arr _, aliased_end H.views hx e3 e2, ?_⟩
        intro z x' h' hz
        rw [e1]
        by_cases hzx : z = x
        · subst hzx; rw [e2] at hz; cases hz
        · rw [e3 z hzx] at hz; exact H.legal z x' h' hz
      · obtain ⟨h, _⟩ := arrayOnly_some hin
        exact (hx h).elim
    · obtain ⟨w', hw, hpost⟩ := stmt_ok H.arr hl chk hal
      refine ⟨⟨w', V.view⟩, by rw [stmt_in H.views hin, hw]; rfl, ?_⟩
      rintro S' (⟨y, rfl, hy, _⟩ | ⟨s'', hin', he, hv⟩)
      · obtain ⟨h, _⟩ := arrayOnly_some hin
        exact (hy h).elim
      · rw [hin] at hin'; cases hin'
        have H' := hpost _ he
        rw [← holds_exts H.arr, ← holds_exts H'] at hv
        refine ⟨H', aliased_stmt H.views hin hw hv, ?_⟩
        intro v z h hz
        rw [hv v] at hz
        obtain ⟨k, hk, hf⟩ := Option.map_eq_some_iff.1 hz
        obtain ⟨x, rfl, hx⟩ := follow_alias hf
        obtain ⟨a, u, ha, hc, hu⟩ := H.legal v x h hk
        obtain ⟨_, c, h1, h2, _⟩ := H.arr.arr x a ha
        have hz := env_step hw h1 hx
        cases ha' : S'.arr z with
        | none => rw [H'.out z ha'] at hz; cases hz
        | some a' =>
          obtain ⟨_, c', g1, g2, _⟩ := H'.arr z a' ha'
          rw [hz] at g1; cases g1
          exact ⟨a', u, rfl, by rw [← g2, h2]; exact hc, hu⟩

/-- **C80.** Programs: any sequence of legal statements runs, in every build and with every allocator, and ends in a state that holds the
resulting arrays and views. -/
theorem C80_run {p : List (VStmt α)} {S' : VStore α} (hr : VRuns S p S') (H : VHolds chk V S) {alloc : Nat → Mem α → Nat → Nat}
    (hal : GoodAlloc alloc) : ∃ V', V.run Arith.exact chk alloc p = .ok V' ∧ VHolds chk V' S' := by
  induction hr generalizing V with
  | nil => exact ⟨V, rfl, H⟩
  | cons hl he _ ih =>
    obtain ⟨V1, h1, h2⟩ := C80_statement H hl hal
    obtain ⟨V', h3, h4⟩ := ih (h2 _ he)
    exact ⟨V', by rw [VWorld.run, h1, res_ok_bind, h3], h4⟩

theorem aliased_start (A : Arith) (chk : Bool) : Aliased A chk (VWorld.empty : VWorld α) fun _ => none where
  one := fun _ h => (h rfl).elim
  scope := fun _ => ⟨fun _ => rfl, fun _ => rfl⟩
  «alias» := by intro v x h hv; cases hv

theorem vholds_start : VHolds chk (VWorld.empty : VWorld α) ⟨fun _ => none, fun _ => none⟩ where
  arr := holdsStore_start
  views := aliased_start _ _
  legal := by intro v x h hv; cases hv

/-- **C80.** Whole programs. -/
theorem C80_program {p : List (VStmt α)} {S' : VStore α} (hr : VRuns ⟨fun _ => none, fun _ => none⟩ p S') (chk : Bool)
    {alloc : Nat → Mem α → Nat → Nat} (hal : GoodAlloc alloc) :
    ∃ V', VWorld.empty.run Arith.exact chk alloc p = .ok V' ∧ VHolds chk V' S' :=
  C80_run hr vholds_start hal

/-- **C80.** What the user sees through a view that does not dangle: the present elements of the array, where the index expression puts
them. -/
theorem C80_observed (H : VHolds chk V S) {v x : Nat} {h : List Ix} (hv : S.view v = some (.alias x h)) :
    ∃ a u o, S.arr x = some a ∧ Chain a.ext h u ∧ V.view v = some o ∧ o.dims = some u.ext ∧
      ∀ i, InB u.ext i → Reads V.w.mem o i (some (a.elt (u.src i))) := by
  obtain ⟨a, u, ha, hc, hu⟩ := H.legal v x h hv
  obtain ⟨_, _, o, _, ho, hi⟩ := H.views.alias v x h hv
  obtain ⟨c, o', k1, k2, k3, k4, k5⟩ := index_ok H.arr ha hc chk
  rw [hi] at k3; cases k3
  refine ⟨a, u, o, ha, hc, ho, observes_dims k4 hu, fun i hi => ⟨_, k4.element i hi, k5 i hi⟩⟩

/-! ### The specification is not vacuous -/

/-- **C80.** Every legal statement has an effect. -/
theorem C80_progress [Nonempty α] {s : VStmt α} (hs : VLegal S s) : ∃ S', VEffect S s S' := by
  cases s with
  | view v x h =>
    obtain ⟨_, _, y, g, _, _, hn, _⟩ := hs
    exact ⟨⟨S.arr, fun z => if z = v then some (.alias y g) else S.view z⟩, rfl, fun z hz => by simp [hz], y, g, hn, by simp⟩
  | moveMake y x =>
    obtain ⟨h1, _, _, h4⟩ := hs
    have hxy : x ≠ y := by rintro rfl; exact h4 h1
    exact ⟨⟨fun z => if z = y then S.arr x else if z = x then none else S.arr z, _⟩, fun z hzx hzy => by simp [hzx, hzy], by simp,
      by simp [hxy], fun _ => rfl⟩
  | stmt s =>
    rcases hs with ⟨x, rfl, hx⟩ | ⟨s', hin, hl⟩
    · exact ⟨⟨S.arr, fun z => if z = x then none else S.view z⟩, .inl ⟨x, rfl, hx, rfl, by simp, fun z hz => by simp [hz]⟩⟩
    · obtain ⟨A', he⟩ := C65_progress hl
      exact ⟨⟨A', fun v => (S.view v).map (Kept.follow (owner S.arr.exts (AStore.exts A') s'))⟩, .inr ⟨s', hin, he, fun _ => rfl⟩⟩

theorem same_ext {A B : AStore α} (h : SameStore A B) (x : Nat) : A.exts x = B.exts x := by
  unfold AStore.exts
  cases ha : A x with
  | none => rw [(h x).1.1 ha]
  | some a =>
    cases hb : B x with
    | none => rw [(h x).1.2 hb] at ha; cases ha
    | some b => simp [((h x).2 a b ha hb).1]

/-- **C80.** The effect is determined. -/
theorem C80_determined {s : VStmt α} {S₁ S₂ : VStore α} (h1 : VEffect S s S₁) (h2 : VEffect S s S₂) :
    SameStore S₁.arr S₂.arr ∧ S₁.view = S₂.view := by
  cases s with
  | view v x h =>
    obtain ⟨a1, a2, y, g, a3, a4⟩ := h1
    obtain ⟨b1, b2, y', g', b3, b4⟩ := h2
    rw [a3] at b3; cases b3
    refine ⟨by rw [a1, b1]; exact same_refl _, ?_⟩
    funext z
    by_cases hz : z = v
    · subst hz; rw [a4, b4]
    · rw [a2 z hz, b2 z hz]
  | moveMake y x =>
    obtain ⟨a1, a2, a3, a4⟩ := h1
    obtain ⟨b1, b2, b3, b4⟩ := h2
    have : S₁.arr = S₂.arr := by
      funext z
      by_cases hx : z = x
      · subst hx; rw [a3, b3]
      · by_cases hy : z = y
        · subst hy; rw [a2, b2]
        · rw [a1 z hx hy, b1 z hx hy]
    exact ⟨by rw [this]; exact same_refl _, by funext v; rw [a4 v, b4 v]⟩
  | stmt s =>
    rcases h1 with ⟨x, rfl, hx, a1, a2, a3⟩ | ⟨s', hin, he, hv⟩
    · rcases h2 with ⟨x', hx', _, b1, b2, b3⟩ | ⟨s', hin, _⟩
      · cases hx'
        refine ⟨by rw [a1, b1]; exact same_refl _, ?_⟩
        funext z
        by_cases hz : z = x
        · subst hz; rw [a2, b2]
        · rw [a3 z hz, b3 z hz]
      · exact (hx (arrayOnly_some hin).1).elim
    · rcases h2 with ⟨x', rfl, hx', b1, b2, b3⟩ | ⟨s'', hin', he', hv'⟩
      · exact (hx' (arrayOnly_some hin).1).elim
      · rw [hin] at hin'; cases hin'
        have hsame := C65_determined he he'
        refine ⟨hsame, ?_⟩
        have : owner S.arr.exts S₁.arr.exts s' = owner S.arr.exts S₂.arr.exts s' := by
          funext y
          cases s' with
          | set x e => simp only [owner, same_ext hsame x]
          | _ => rfl
        funext v
        rw [hv v, hv' v, this]

/-! ### Dangling views -/

/-- What reading through a view that is kept gives after a statement that destroys its array: nothing (undefined behaviour). -/
theorem gone_reads {V' : VWorld α} (H : VHolds chk V S) {v x : Nat} {h : List Ix} (hv : S.view v = some (.alias x h)) {c : Arr}
    (hx : V.w.env x = some c) (hg : ∀ q, Covers (cells c) q → V'.w.mem q = none) (hvv : V'.view v = V.view v) :
    ∃ o u, V'.view v = some o ∧ o.dims = some u ∧ ∀ i, InB u i → Reads V'.w.mem o i none := by
  obtain ⟨a, u, ha, hc, hu⟩ := H.legal v x h hv
  obtain ⟨_, _, o, _, ho, hi⟩ := H.views.alias v x h hv
  obtain ⟨c', o', k1, k2, k3, k4, k5⟩ := index_ok H.arr ha hc chk
  rw [hi] at k3; cases k3
  rw [hx] at k1; cases k1
  refine ⟨o, u.ext, by rw [hvv, ho], observes_dims k4 hu, fun i hi => ⟨_, k4.element i hi, hg _ ?_⟩⟩
  exact toA_covers k2 hc ⟨i, hi, rfl⟩

theorem free_gone {m : Mem α} {c : Arr} {q : Nat} (hq : Covers (cells c) q) : (m.free c.base (prodL Arith.exact c.ext)) q = none := by
  have hq := arrayView_covers.1 hq
  simp [Mem.free, prodL_exact, hq]

/-- **C80.** When a view becomes dangling, its elements have been destroyed: the view is still there, and reading any of its elements is
undefined behaviour. The exception is an assignment that changes the extents but not the number of elements (`C80_reshaped`). -/
theorem C80_dangling (H : VHolds chk V S) {s : VStmt α} (hl : VLegal S s) {alloc : Nat → Mem α → Nat → Nat} (hal : GoodAlloc alloc) {V' : VWorld α}
    (hs : V.step Arith.exact chk alloc s = .ok V') {S' : VStore α} (he : VEffect S s S') {v x : Nat} {h : List Ix}
    (hv : S.view v = some (.alias x h)) (hv' : S'.view v = some .dangling)
    (hsize : ∀ a a' e, s = .stmt (.set x e) → S.arr x = some a → S'.arr x = some a' → prod a.ext ≠ prod a'.ext) :
    ∃ o u, V'.view v = some o ∧ o.dims = some u ∧ ∀ i, InB u i → Reads V'.w.mem o i none := by
  obtain ⟨V1, hs1, hpost⟩ := C80_statement H hl hal
  rw [hs] at hs1; cases hs1
  have H' := hpost _ he
  obtain ⟨a, u, ha, _⟩ := H.legal v x h hv
  obtain ⟨_, c, hx, hce, _⟩ := H.arr.arr x a ha
  cases s with
  | view v' x' h' =>
    obtain ⟨_, h2, _⟩ := hl
    obtain ⟨_, e2, y, g, _, e4⟩ := he
    by_cases hvv : v = v'
    · subst hvv; rw [hv] at h2; cases h2
    · rw [e2 v hvv, hv] at hv'; cases hv'
  | moveMake y x' =>
    obtain ⟨_, _, _, e4⟩ := he
    rw [e4 v, hv] at hv'
    cases hv'
  | stmt s =>
    rcases he with ⟨x', rfl, hx', e1, e2, e3⟩ | ⟨s', hin, he, hve⟩
    · by_cases hvx : v = x'
      · subst hvx; rw [e2] at hv'; cases hv'
      · rw [e3 v hvx, hv] at hv'; cases hv'
    · rw [stmt_in H.views hin] at hs
      obtain ⟨w', hw, hw2⟩ : ∃ w', V.w.step Arith.exact chk alloc s' = .ok w' ∧ V' = ⟨w', V.view⟩ := by
        cases hw : V.w.step Arith.exact chk alloc s' with
        | error e => rw [hw] at hs; cases hs
        | ok w' => rw [hw] at hs; cases hs; exact ⟨w', rfl, rfl⟩
      subst hw2
      rw [hve v, hv] at hv'
      simp only [Option.map_some, Kept.follow, Option.some.injEq] at hv'
      have hown : owner S.arr.exts S'.arr.exts s' x = none := by
        cases ho : owner S.arr.exts S'.arr.exts s' x with
        | none => rfl
        | some z => rw [ho] at hv'; cases hv'
      refine gone_reads H hv hx ?_ rfl
      intro q hq
      cases s' with
      | drop y =>
        simp only [owner] at hown
        split at hown
        · next h =>
          subst h
          obtain ⟨c', h1, hw⟩ := res_bind_ok.1 hw
          have h1 := env_of_get h1
          rw [hx] at h1; cases h1
          cases hw
          exact free_gone hq
        · cases hown
      | overlapWhole y e =>
        simp only [owner] at hown
        split at hown
        · next h =>
          subst h
          obtain ⟨c', h1, hw⟩ := res_bind_ok.1 hw
          have h1 := env_of_get h1
          rw [hx] at h1; cases h1
          obtain ⟨_, _, hw⟩ := res_bind_ok.1 hw
          obtain ⟨_, _, hw⟩ := res_bind_ok.1 hw
          obtain ⟨_, _, hw⟩ := res_bind_ok.1 hw
          obtain ⟨r, h3, hw⟩ := res_bind_ok.1 hw
          cases hw
          obtain ⟨_, _, h3⟩ := res_bind_ok.1 h3
          obtain ⟨⟨m', t⟩, _, h3⟩ := res_bind_ok.1 h3
          cases h3
          exact free_gone hq
        · cases hown
      | set y e =>
        simp only [owner] at hown
        split at hown
        · next h =>
          obtain ⟨h, hext⟩ := h
          subst h
          obtain ⟨_, c', d, hx', hd, _, hfree⟩ := set_base hw
          rw [hx] at hx'; cases hx'
          cases ha' : S'.arr x with
          | none => rw [H'.arr.out x ha'] at hd; cases hd
          | some a' =>
            obtain ⟨_, d', hd', hde, _⟩ := H'.arr.arr x a' ha'
            rw [hd] at hd'; cases hd'
            have hq := arrayView_covers.1 hq
            refine hfree ?_ q hq.1 (by rw [prodL_exact]; exact hq.2)
            rw [prodL_exact, prodL_exact, hce, hde]
            cases s with
            | set y e' =>
              obtain ⟨_, hin⟩ := arrayOnly_some hin
              simp only [Option.map_eq_some_iff] at hin
              obtain ⟨_, _, hin⟩ := hin
              cases hin
              exact hsize a a' e' rfl ha ha'
            | _ => simp [inStmt, arrayOnly, Option.bind_eq_some_iff] at hin
        · cases hown
      | moveAssign y z =>
        simp only [owner] at hown
        split at hown
        · cases hown
        · split at hown <;> cases hown
      | _ => cases hown

/-- **C80.** After an assignment that keeps the number of elements, a view of the array shows the new elements at the same places of the
column-major sequence, whatever the new extents are. -/
theorem C80_reshaped (H : VHolds chk V S) {x : Nat} {e : PEx α} (hl : VLegal S (.stmt (.set x e))) {alloc : Nat → Mem α → Nat → Nat}
    (hal : GoodAlloc alloc) {V' : VWorld α} (hs : V.step Arith.exact chk alloc (.stmt (.set x e)) = .ok V') {S' : VStore α}
    (he : VEffect S (.stmt (.set x e)) S') {v : Nat} {h : List Ix} (hv : S.view v = some (.alias x h)) {a a' : AVal α} (ha : S.arr x = some a)
    (ha' : S'.arr x = some a') (hsize : prod a.ext = prod a'.ext) :
    ∃ o u, V'.view v = some o ∧ Chain a.ext h u ∧ o.dims = some u.ext ∧ ∀ i j, InB u.ext i → InB a'.ext j →
      cmSum a'.ext j = cmSum a.ext (u.src i) → Reads V'.w.mem o i (some (a'.elt j)) := by
  obtain ⟨V1, hs1, hpost⟩ := C80_statement H hl hal
  rw [hs] at hs1; cases hs1
  have H' := hpost _ he
  obtain ⟨a0, u, ha0, hc, hu⟩ := H.legal v x h hv
  obtain ⟨_, _, o, _, ho, hi⟩ := H.views.alias v x h hv
  rw [ha] at ha0; cases ha0
  obtain ⟨c, o', k1, k2, k3, k4, k5⟩ := index_ok H.arr ha hc chk
  rw [hi] at k3; cases k3
  rcases he with ⟨x', h0, _⟩ | ⟨s', hin, he, hve⟩
  · cases h0
  · rw [stmt_in H.views hin] at hs
    obtain ⟨w', hw, hw2⟩ : ∃ w', V.w.step Arith.exact chk alloc s' = .ok w' ∧ V' = ⟨w', V.view⟩ := by
      cases hw : V.w.step Arith.exact chk alloc s' with
      | error e => rw [hw] at hs; cases hs
      | ok w' => rw [hw] at hs; cases hs; exact ⟨w', rfl, rfl⟩
    subst hw2
    obtain ⟨_, hin⟩ := arrayOnly_some hin
    simp only [Option.map_eq_some_iff] at hin
    obtain ⟨_, _, hin⟩ := hin
    cases hin
    obtain ⟨_, c', d, k1', hd, hbase, _⟩ := set_base hw
    rw [k1] at k1'; cases k1'
    obtain ⟨_, d', hd', hde, hval⟩ := H'.arr.arr x a' ha'
    rw [hd] at hd'; cases hd'
    have hb := hbase (by rw [prodL_exact, prodL_exact, k2, hde, hsize])
    refine ⟨o, u, ho, hc, observes_dims k4 hu, fun i j hi hj hij => ⟨_, k4.element i hi, ?_⟩⟩
    rw [← hval j hj]
    show w'.mem (c.base + cmSum a.ext (u.src i)) = w'.mem (d.base + cmSum d.ext j)
    rw [hb, hde, hij]

end

/-! ### Concrete cases -/

/-- `a = {1..6}` (2×3); `v = a[1]`; `v = 9`; `u = v[slice(0, 2, 2)]`; `u += v[1]`; `b = std::move(a)`; `b[every][0] = 7`; `v[2] = 0`. -/
def exKept : List (VStmt Nat) :=
  [.stmt (.makeFrom 0 [1, 2, 3, 4, 5, 6] [2, 3]), .view 1 0 [.at 1], .stmt (.fill 1 [] (.const 9)), .view 2 1 [.strided 0 2 2],
   .stmt (.inPlaceScalar 2 [] (· + ·) (.elem 1 [.at 1])), .moveMake 3 0, .stmt (.fill 3 [.every, .at 0] (.const 7)),
   .stmt (.fill 1 [.at 2] (.const 0))]

/-- The writes through the views and through the array are seen everywhere. -/
example : (VWorld.empty.run Arith.exact true exAlloc exKept).map (fun V => (V.w.env 0, V.w.env 3, (List.range 6).map V.w.mem)) =
    .ok (none, some ⟨0, [2, 3]⟩, [some 7, some 7, some 3, some 9, some 5, some 0]) := by decide +kernel

/-- After `b` is destroyed, reading `v[0]` is undefined behaviour. -/
example : (VWorld.empty.run Arith.exact true exAlloc (exKept ++ [.stmt (.drop 3), .stmt (.makeFill 4 (.elem 1 [.at 0]) [1])])).map (fun _ => ()) =
    .error .ub := by decide +kernel

/-- The store after the first two statements. -/
def exKS : VStore Nat := ⟨fun x => if x = 0 then some exA else none, fun x => if x = 1 then some (.alias 0 [.at 1]) else none⟩

theorem exKS_runs : VRuns ⟨fun _ => none, fun _ => none⟩ [.stmt (.makeFrom 0 [1, 2, 3, 4, 5, 6] [2, 3]), .view 1 0 [.at 1]] exKS := by
  refine .cons (S₁ := ⟨fun x => if x = 0 then some exA else none, fun _ => none⟩) (.inr ⟨_, rfl, rfl, by decide, by decide⟩)
    (.inr ⟨_, rfl, ex_make, fun _ => rfl⟩) (.cons ⟨rfl, rfl, 0, [.at 1], exA, _, rfl, by decide, rfl, ex_chain_row, by decide⟩ ?_ .nil)
  exact ⟨rfl, fun z hz => by simp [exKS, hz], 0, [.at 1], rfl, rfl⟩

theorem exKS_fill : VLegal exKS (.stmt (.fill 1 [] (.const 9))) :=
  .inr ⟨.fill 0 [.at 1] (.const 9), rfl, by decide, trivial, exA, _, rfl, ex_chain_row⟩

theorem exKS_drop : VLegal exKS (.stmt (.drop 0)) := .inr ⟨.drop 0, rfl, by simp [StmtLegal, exKS]⟩

/-- `a = a`: as many elements. -/
theorem exKS_self : VLegal exKS (.stmt (.set 0 (.arr 0 []))) := by
  refine .inr ⟨.set 0 (.arr 0 []), rfl, exA, [2, 3], rfl, rfl, ⟨exA, ⟨[2, 3], id⟩, rfl, ⟨trivial, by decide, rfl⟩, rfl⟩, ?_⟩
  intro _ i k _ _ hr
  have : exReads exKS.arr (.arr 0 []) i = [(0, i)] := rfl
  rw [this] at hr
  simp only [List.mem_singleton, Prod.mk.injEq, true_and] at hr
  rw [hr]; exact Nat.le_refl _

theorem exKV : ∃ V', VWorld.empty.run Arith.exact true goodAlloc_exists.choose
    [.stmt (.makeFrom 0 [1, 2, 3, 4, 5, 6] [2, 3]), .view 1 0 [.at 1]] = .ok V' ∧ VHolds true V' exKS :=
  C80_program exKS_runs true goodAlloc_exists.choose_spec

example := C80_alias (x := 1) (h := [.at 2]) (y := 0) (g := [.at 1, .at 2]) exKV.choose_spec.2.views rfl
example := C80_inlined (s := .fill 1 [] (.const 9)) exKV.choose_spec.2.views rfl exAlloc
example := C80_statement exKV.choose_spec.2 exKS_fill goodAlloc_exists.choose_spec
example := C80_run exKS_runs (vholds_start (chk := false)) goodAlloc_exists.choose_spec
example := C80_observed (v := 1) exKV.choose_spec.2 rfl
example := C80_progress exKS_fill
example := C80_determined (C80_progress exKS_fill).choose_spec (C80_progress exKS_fill).choose_spec

example : ∃ V' : VWorld Nat, ∃ o u, V'.view 1 = some o ∧ o.dims = some u ∧ ∀ i, InB u i → Reads V'.w.mem o i none := by
  obtain ⟨V', h, _⟩ := C80_statement exKV.choose_spec.2 exKS_drop goodAlloc_exists.choose_spec
  obtain ⟨S', he⟩ := C80_progress exKS_drop
  refine ⟨V', C80_dangling exKV.choose_spec.2 exKS_drop goodAlloc_exists.choose_spec h he (v := 1) (x := 0) rfl ?_ ?_⟩
  · rcases he with ⟨x, hx, hn, _⟩ | ⟨s', hin, _, hv⟩
    · cases hx; exact (hn rfl).elim
    · cases hin; rw [hv 1]; rfl
  · intro _ _ _ hs; cases hs

example : ∃ V' S', ∃ o u, V'.view 1 = some o ∧ Chain [2, 3] [.at 1] u ∧ o.dims = some u.ext ∧ ∃ a', (S' : VStore Nat).arr 0 = some a' ∧ ∀ i j,
    InB u.ext i → InB a'.ext j → cmSum a'.ext j = cmSum [2, 3] (u.src i) → Reads (V' : VWorld Nat).w.mem o i (some (a'.elt j)) := by
  obtain ⟨V', h, _⟩ := C80_statement exKV.choose_spec.2 exKS_self goodAlloc_exists.choose_spec
  obtain ⟨S', he⟩ := C80_progress exKS_self
  obtain ⟨a', ha', hd⟩ : ∃ a', S'.arr 0 = some a' ∧ a'.ext = [2, 3] := by
    rcases he with ⟨x, hx, _⟩ | ⟨s', hin, he, _⟩
    · cases hx
    · cases hin
      obtain ⟨d, hd, _, a', ha', hx, _⟩ := he
      obtain ⟨b, u, hb, hc, hu⟩ := hd
      cases hb
      have := hc.view
      simp only [imeaning, List.foldl_nil, IObj.view.injEq] at this
      exact ⟨a', ha', by rw [hx, ← hu, ← this]; rfl⟩
  obtain ⟨o, u, h1, h2, h3, h4⟩ := C80_reshaped exKV.choose_spec.2 exKS_self goodAlloc_exists.choose_spec h he (v := 1) rfl rfl ha'
    (by rw [hd]; rfl)
  exact ⟨V', S', o, u, h1, h2, h3, a', ha', h4⟩

example : ∃ V' : VWorld Nat, ∃ σ, Aliased Arith.exact true V' σ ∧ σ 1 = some .dangling := by
  obtain ⟨V', h, _⟩ := C80_statement exKV.choose_spec.2 exKS_drop goodAlloc_exists.choose_spec
  exact ⟨V', _, C80_followed (s' := .drop 0) exKV.choose_spec.2.views rfl h, rfl⟩

theorem every_tail {A : Arith} {chk : Bool} {b : Nat} {e : List Nat} : ∀ (k M : Nat), M + k + 1 = e.length →
    (Obj.everyProxy b e M).run A chk (List.replicate (k + 1) .every) = .ok (.cref b e)
  | 0, M, h => by
    have : M = e.length - 1 := by omega
    simp [Obj.run, List.replicate, Obj.index, everyIndex, this]
  | k + 1, M, h => by
    have hm : M ≠ e.length - 1 := by omega
    have := every_tail (A := A) (chk := chk) (b := b) (e := e) k (M + 1) (by omega)
    rw [List.replicate_succ]
    show ((Obj.everyProxy b e M).index A chk .every >>= fun o => o.run A chk _) = _
    have h2 : (Obj.everyProxy b e M).index A chk .every = .ok (.everyProxy b e (M + 1)) := by simp [Obj.index, everyIndex, hm]
    rw [h2]
    exact this

/-- **C80.** `x[every]…[every]` is the whole array as a view (a `ref_array` of `x`), in every build and arithmetic: so a `ref_array` variable for
the whole of `x` is the view kept from this index expression. -/
theorem C80_whole {α : Type} {w : World α} {A : Arith} {chk : Bool} {x : Nat} {a : Arr} (hx : w.env x = some a) (ha : a.ext ≠ []) :
    w.index A chk x (List.replicate a.ext.length .every) = .ok (.cref a.base a.ext) := by
  have hg : w.index A chk x (List.replicate a.ext.length .every) = (Obj.cref a.base a.ext).run A chk (List.replicate a.ext.length .every) := by
    unfold World.index World.get; rw [hx]; rfl
  rw [hg]
  cases hl : a.ext.length with
  | zero => exact (ha (List.length_eq_zero_iff.1 hl)).elim
  | succ n =>
    cases n with
    | zero => simp [Obj.run, Obj.index, crefIndex, hl]
    | succ k =>
      rw [List.replicate_succ]
      show ((Obj.cref a.base a.ext).index A chk .every >>= fun o => o.run A chk _) = _
      have h2 : (Obj.cref a.base a.ext).index A chk .every = .ok (.everyProxy a.base a.ext 1) := by
        simp [Obj.index, crefIndex, hl]
      rw [h2]
      exact every_tail k 1 (by omega)
example := C80_whole (w := (⟨fun _ => some (0 : Nat), fun _ => some ⟨0, [2, 3]⟩, 0⟩ : World Nat)) (A := Arith.exact) (chk := true) (x := 0) rfl (by simp)

end Jules.Props

import Verif.Spec.ViewsSound
import Verif.Props.Views
/-
C81: checked programs with kept views, and programs with kept views on a 64-bit machine.
-/
namespace Jules.Props
open Spec

section
variable {α : Type} {V : VWorld α} {σ : Aliases} {chk : Bool} {A : Arith} {alloc : Nat → Mem α → Nat → Nat}

/-- The statement can be written without views. -/
def Written (σ : Aliases) : VStmt α → Prop
  | .view _ x h => ∃ y g, inName σ x h = some (y, g) ∧ g ≠ []
  | .moveMake _ _ => True
  | .stmt s => (∃ x, s = .drop x ∧ σ x ≠ none) ∨ ∃ s', inStmt σ s = some s'

theorem prudent_written {Γ : Ctx} {s : VStmt α} (h : Prudent Γ σ s) : Written σ s := by
  cases s with
  | view v x h' => obtain ⟨_, _, y, g, h1, h2, _⟩ := h; exact ⟨y, g, h1, h2⟩
  | moveMake y x => trivial
  | stmt s =>
    rcases h with h | ⟨s', h, _⟩
    · exact .inl h
    · exact .inr ⟨s', h⟩

theorem legal_written {S : VStore α} {s : VStmt α} (h : VLegal S s) : Written S.view s := by
  cases s with
  | view v x h' => obtain ⟨_, _, y, g, _, _, h1, h2, _⟩ := h; exact ⟨y, g, h1, h2⟩
  | moveMake y x => trivial
  | stmt s =>
    rcases h with h | ⟨s', h, _⟩
    · exact .inl h
    · exact .inr ⟨s', h⟩

theorem inStmt_drop_view {x : Nat} (h : σ x ≠ none) : inStmt σ (.drop x : Stmt α) = none := by
  obtain ⟨k, hk⟩ := Option.ne_none_iff_exists'.1 h
  simp [inStmt, arrayOnly, hk]

theorem nextViews_stmt {E E' : Exts} {s s' : Stmt α} (h : inStmt σ s = some s') (v : Nat) :
    nextViews E E' σ (.stmt s) v = (σ v).map (Kept.follow (owner E E' s')) := by
  simp only [nextViews, h]

theorem nextViews_end {E E' : Exts} {x : Nat} (h : σ x ≠ none) (v : Nat) :
    nextViews E E' σ (.stmt (.drop x : Stmt α)) v = if v = x then none else σ v := by
  simp only [nextViews, inStmt_drop_view h]

/-- The views after a statement. -/
theorem aliased_next (H : Aliased A chk V σ) {s : VStmt α} (hw : Written σ s) {V' : VWorld α} (hs : V.step A chk alloc s = .ok V') :
    Aliased A chk V' (nextViews (worldExts V.w) (worldExts V'.w) σ s) := by
  cases s with
  | view v x h =>
    obtain ⟨y, g, hn, hg⟩ := hw
    simp only [VWorld.step] at hs
    obtain ⟨_, h1, hs⟩ := res_bind_ok.1 hs
    obtain ⟨o, h2, hs⟩ := res_bind_ok.1 hs
    obtain ⟨_, h3, hs⟩ := res_bind_ok.1 hs
    cases hs
    have hf : V.isFree v = true := by
      cases hf : V.isFree v with
      | true => rfl
      | false => rw [hf] at h1; cases h1
    exact aliased_view H hf hn hg h2 (fun z hz => by simp [nextViews, hz]) (by simp [nextViews, hn])
  | moveMake y x =>
    simp only [VWorld.step] at hs
    obtain ⟨_, h1, hs⟩ := res_bind_ok.1 hs
    obtain ⟨_, h2, hs⟩ := res_bind_ok.1 hs
    obtain ⟨c, h3, hs⟩ := res_bind_ok.1 hs
    cases hs
    have hf : V.isFree y = true := by
      cases hf : V.isFree y with
      | true => rfl
      | false => rw [hf] at h1; cases h1
    simp only [VWorld.isFree, Bool.and_eq_true, Option.isNone_iff_eq_none] at hf
    exact aliased_move H (env_of_get h3) hf.2 ((H.scope y).1 hf.1) fun _ => rfl
  | stmt s =>
    rcases hw with ⟨x, rfl, hx⟩ | ⟨s', hin⟩
    · have hvx : ∃ o, V.view x = some o := by
        apply Option.ne_none_iff_exists'.1
        intro h; exact hx ((H.scope x).1 h)
      obtain ⟨o, ho⟩ := hvx
      simp only [VWorld.step, ho] at hs
      cases hs
      refine aliased_end H hx (fun z hz => ?_) ?_
      · rw [nextViews_end hx, if_neg hz]
      · rw [nextViews_end hx, if_pos rfl]
    · rw [stmt_in H hin] at hs
      cases hw : V.w.step A chk alloc s' with
      | error e => rw [hw] at hs; cases hs
      | ok w' => rw [hw] at hs; cases hs; exact aliased_stmt H hin hw (nextViews_stmt hin)

theorem intact_clock {w : World α} (H : Intact w) (k : Nat) : Intact ⟨w.mem, w.env, k⟩ := ⟨H.order, H.live, H.sep, H.only, H.finite⟩

/-- A block that changes its name. -/
theorem intact_moved_name {w : World α} (H : Intact w) {x y : Nat} {c : Arr} (hx : w.env x = some c) (hy : w.env y = none) :
    Intact ((w.bind w.mem x none).bind w.mem y (some c)) := by
  have hxy : x ≠ y := by rintro rfl; rw [hx] at hy; cases hy
  have ey : ((w.bind w.mem x none).bind w.mem y (some c)).env y = some c := by simp [World.bind]
  have ex : ((w.bind w.mem x none).bind w.mem y (some c)).env x = none := by simp [World.bind, hxy]
  have ez : ∀ z, z ≠ x → z ≠ y → ((w.bind w.mem x none).bind w.mem y (some c)).env z = w.env z := by
    intro z hzx hzy; simp [World.bind, hzx, hzy]
  have former : ∀ z d, ((w.bind w.mem x none).bind w.mem y (some c)).env z = some d → w.env (if z = y then x else z) = some d ∧ z ≠ x := by
    intro z d hz
    by_cases hzy : z = y
    · subst hzy; rw [ey] at hz; cases hz; exact ⟨by simp [hx], Ne.symm hxy⟩
    · by_cases hzx : z = x
      · subst hzx; rw [ex] at hz; cases hz
      · rw [ez z hzx hzy] at hz; exact ⟨by simp [hzy, hz], hzx⟩
  refine ⟨?_, ?_, ?_, ?_, H.finite⟩
  · intro z d hz; exact H.order _ d (former z d hz).1
  · intro z d q hz hq; exact H.live _ d q (former z d hz).1 hq
  · intro z t d e q hzt hz ht
    obtain ⟨g1, g2⟩ := former z d hz
    obtain ⟨k1, k2⟩ := former t e ht
    refine H.sep _ _ d e q ?_ g1 k1
    by_cases a1 : z = y <;> by_cases a2 : t = y <;> simp [a1, a2]
    · rw [a1, a2] at hzt; exact (hzt rfl).elim
    · exact fun h => k2 h.symm
    · exact g2
    · exact hzt
  · intro q hq
    obtain ⟨z, d, hz, hc⟩ := H.only q hq
    by_cases hzx : z = x
    · subst hzx; rw [hx] at hz; cases hz; exact ⟨y, c, ey, hc⟩
    · by_cases hzy : z = y
      · subst hzy; rw [hy] at hz; cases hz
      · exact ⟨z, d, by rw [ez z hzx hzy, hz], hc⟩

theorem same_array_refl (w : World α) (k : Nat) (y : Nat) : SameArray w ⟨w.mem, w.env, k⟩ y := ⟨rfl, fun _ _ _ _ => rfl⟩

/-- **C81.** One statement of a checked program, legal or not, that uses no dangling view: it is executed, leaves memory intact, the views
standing for what they follow, and every array that it is not about (directly or through a view) unchanged; or an assertion reports an
error. -/
theorem C81_step (H : Intact V.w) (HA : Aliased Arith.exact true V σ) {s : VStmt α} (hp : Prudent (ctxOf V.w) σ s) (hal : GoodAlloc alloc) :
    (∃ V', V.step Arith.exact true alloc s = .ok V' ∧ Intact V'.w ∧
        Aliased Arith.exact true V' (nextViews (worldExts V.w) (worldExts V'.w) σ s) ∧ ∀ y, y ∉ vchanges σ s → SameArray V.w V'.w y) ∨
      V.step Arith.exact true alloc s = .error .assert := by
  have hwr := prudent_written hp
  suffices h : (∃ V', V.step Arith.exact true alloc s = .ok V' ∧ Intact V'.w ∧ ∀ y, y ∉ vchanges σ s → SameArray V.w V'.w y) ∨
      V.step Arith.exact true alloc s = .error .assert by
    rcases h with ⟨V', h1, h2, h3⟩ | h
    · exact .inl ⟨V', h1, h2, aliased_next HA hwr h1, h3⟩
    · exact .inr h
  cases s with
  | view v x h =>
    obtain ⟨h1, h2, y, g, hn, hg, hst, hk⟩ := hp
    have hfree : V.isFree v = true := by
      rw [isFree_in HA h2]
      simp only [ctxOf, Option.map_eq_none_iff] at h1
      simp [h1]
    have hsafe := safe_index H y hst
    simp only [VWorld.step, hfree, needs_true, index_in HA hn]
    cases hi : V.w.index Arith.exact true y g with
    | error f =>
      rw [hi] at hsafe
      rcases hsafe with rfl | ⟨_, h'⟩
      · exact .inr rfl
      · refine (h' ?_).elim
        cases hc : chainKind (ctxOf V.w) y g with
        | none => rw [hc] at hk; cases hk
        | some k => rfl
    | ok o =>
      rw [hi] at hsafe
      obtain ⟨c, _, _, ht⟩ := hsafe
      rw [ht, Option.bind_some, kind_dims, Option.isSome_map] at hk
      refine .inl ⟨⟨{ V.w with clock := V.w.clock + 1 }, fun y => if y = v then some o else V.view y⟩, by rw [res_ok_bind, hk, needs_true],
        intact_clock H _, fun y _ => same_array_refl _ _ _⟩
  | moveMake y x =>
    obtain ⟨h1, h2, h3, h4⟩ := hp
    simp only [ctxOf, Option.map_eq_none_iff] at h1
    simp only [ctxOf, Option.isSome_map] at h4
    obtain ⟨c, hx⟩ := Option.isSome_iff_exists.1 h4
    have hfree : V.isFree y = true := by rw [isFree_in HA h2, h1]; rfl
    refine .inl ⟨(V.bind V.w.mem x none).bind V.w.mem y (some c), by
      simp only [VWorld.step, hfree, needs_true, notView_in HA h3, Bool.not_false, World.get, hx, res_ok_bind],
      intact_moved_name H hx h1, fun z hz => ⟨?_, fun _ _ _ _ => rfl⟩⟩
    simp only [vchanges, List.mem_cons, List.not_mem_nil, or_false, not_or] at hz
    simp [VWorld.bind, World.bind, hz.1, hz.2]
  | stmt s =>
    rcases hp with ⟨x, rfl, hx⟩ | ⟨s', hin, hpr, hck⟩
    · have hvx : ∃ o, V.view x = some o := by
        apply Option.ne_none_iff_exists'.1
        intro h; exact hx ((HA.scope x).1 h)
      obtain ⟨o, ho⟩ := hvx
      exact .inl ⟨⟨{ V.w with clock := V.w.clock + 1 }, fun y => if y = x then none else V.view y⟩, by simp only [VWorld.step, ho],
        intact_clock H _, fun y _ => same_array_refl _ _ _⟩
    · rw [stmt_in HA hin]
      rcases C68_step H hpr hal with ⟨w', h1, h2, h3, _⟩ | h1 | ⟨_, h1⟩
      · refine .inl ⟨⟨w', V.view⟩, by rw [h1]; rfl, h2, fun y hy => h3 y ?_⟩
        simpa only [vchanges, hin] using hy
      · exact .inr (by rw [h1]; rfl)
      · rw [h1] at hck; cases hck

/-- **C81.** Programs. -/
theorem C81_run {p : List (VStmt α)} (hal : GoodAlloc alloc) : ∀ {V : VWorld α} {σ : Aliases}, Intact V.w → Aliased Arith.exact true V σ →
    PrudentRun Arith.exact alloc V σ p →
    (∃ V', V.run Arith.exact true alloc p = .ok V' ∧ Intact V'.w ∧ Aliased Arith.exact true V' (viewsAfter Arith.exact alloc V σ p)) ∨
      V.run Arith.exact true alloc p = .error .assert := by
  induction p with
  | nil => exact fun {V σ} H HA _ => .inl ⟨V, rfl, H, HA⟩
  | cons s p ih =>
    intro V σ H HA ⟨hp, hrest⟩
    rcases C81_step H HA hp hal with ⟨V1, h1, h2, h3, _⟩ | h
    · rw [VWorld.run, h1, res_ok_bind]
      simp only [viewsAfter, h1]
      exact ih h2 h3 (hrest V1 h1)
    · exact .inr (by rw [VWorld.run, h]; rfl)

/-- **C81.** Whole programs. -/
theorem C81_program {p : List (VStmt α)} (hal : GoodAlloc alloc) (hp : PrudentRun Arith.exact alloc VWorld.empty (fun _ => none) p) :
    (∃ V', VWorld.empty.run Arith.exact true alloc p = .ok V' ∧ Intact V'.w ∧
        Aliased Arith.exact true V' (viewsAfter Arith.exact alloc VWorld.empty (fun _ => none) p)) ∨
      VWorld.empty.run Arith.exact true alloc p = .error .assert :=
  C81_run hal intact_empty (aliased_start _ _) hp

/-- **C81.** In such a state every view that does not dangle has all its elements, whether the index expression it stands for is
legal or only passed the checks. -/
theorem C81_alive (H : Intact V.w) (HA : Aliased Arith.exact true V σ) {v x : Nat} {h : List Ix} (hv : σ v = some (.alias x h)) :
    ∃ o, V.view v = some o ∧ ∀ d, o.dims = some d → ∃ ps, o.positions Arith.exact = .ok ps ∧ ps.length = prod d ∧
      ∀ p ∈ ps, ∃ c, V.w.env x = some c ∧ Covers (cells c) p ∧ V.w.mem p ≠ none := by
  obtain ⟨_, c, o, hc, ho, hi⟩ := HA.alias v x h hv
  rw [world_index _ _ _ hc] at hi
  have hg := goodObj_run (H.order x c hc) hi
  refine ⟨o, ho, fun d hd => ?_⟩
  unfold GoodObj at hg
  cases hp : o.positions Arith.exact with
  | error f =>
    rw [hp] at hg
    cases o with
    | elem p => cases hd
    | cref off ext => cases hp
    | sref off m =>
      rcases hg with h1 | ⟨_, h1⟩
      · subst h1
        have := goodObj_run (H.order x c hc) hi
        obtain ⟨wf, s, adm⟩ := run_meaning (H.order x c hc) hi
        rw [← toA_imeaning] at s
        unfold imeaning at s
        generalize h.foldl istep (.view ⟨c.ext, id⟩) = I at s
        cases I with
        | view v => have := (observes wf s).iterate; rw [hp] at this; cases this
        | part v sels => exact s.elim
      · cases m <;> simp [kindOf, viewOrder] at h1
    | proxy off m a => cases hd
    | everyProxy off m a => cases hd
  | ok ps =>
    rw [hp] at hg
    obtain ⟨_, h2, h3⟩ := hg
    exact ⟨ps, rfl, (h3 d hd).2, fun p hp => ⟨c, hc, h2 p hp, H.live x c p hc (h2 p hp)⟩⟩

/-! ### 64 bits -/

variable {B : Nat}

/-- The 64-bit step and the step with unlimited integers and memory. -/
theorem vsame_unlimited (H : Intact V.w) (hb : Below V.w) (H1 : Aliased Arith.exact true V σ) (H2 : Aliased Arith.u64 true V σ) {s : VStmt α}
    (hw : Written σ s) (hf : VFits B (worldExts V.w) σ s) (hal : GoodAlloc64 B alloc) :
    Agr (V.step Arith.u64 true alloc s) (V.step Arith.exact true (unlimited B alloc) s) fun V' => Below V'.w := by
  cases s with
  | view v x h =>
    obtain ⟨y, g, hn, hg⟩ := hw
    simp only [VWorld.step, index_in H1 hn, index_in H2 hn]
    refine agr_bind agr_same fun _ _ => agr_bind (index_agr hb H.order (hf y g hn)) fun o _ => agr_bind agr_same fun _ _ => agr_ok hb
  | moveMake y x =>
    refine ⟨rfl, fun V' hs => ?_⟩
    simp only [VWorld.step] at hs
    obtain ⟨_, h1, hs⟩ := res_bind_ok.1 hs
    obtain ⟨_, h2, hs⟩ := res_bind_ok.1 hs
    obtain ⟨c, h3, hs⟩ := res_bind_ok.1 hs
    cases hs
    exact below_bind (below_bind hb _ _ fun c h => by cases h) _ _ fun c' h => by cases h; exact hb x _ (env_of_get h3)
  | stmt s =>
    rcases hw with ⟨x, rfl, hx⟩ | ⟨s', hin⟩
    · have hvx : ∃ o, V.view x = some o := by
        apply Option.ne_none_iff_exists'.1
        intro h; exact hx ((H1.scope x).1 h)
      obtain ⟨o, ho⟩ := hvx
      simp only [VWorld.step, ho]
      exact agr_ok hb
    · rw [stmt_in H1 hin, stmt_in H2 hin]
      obtain ⟨k1, k2⟩ := same_unlimited H hb (hf s' hin) hal
      rw [k1]
      cases hr : V.w.step Arith.exact true (unlimited B alloc) s' with
      | error f => exact agr_err
      | ok w' => exact agr_ok (k2 w' hr)

/-- **C81.** Checked programs on a 64-bit machine, legal or not: as `C81_run`. -/
theorem C81_any64 {p : List (VStmt α)} (hal : GoodAlloc64 B alloc) : ∀ {V : VWorld α} {σ : Aliases}, Intact V.w → Below V.w →
    Aliased Arith.exact true V σ → Aliased Arith.u64 true V σ → PrudentRun Arith.u64 alloc V σ p → VFitsRun B alloc V σ p →
    (∃ V', V.run Arith.u64 true alloc p = .ok V' ∧ Intact V'.w ∧ Below V'.w ∧ Aliased Arith.exact true V' (viewsAfter Arith.u64 alloc V σ p) ∧
        Aliased Arith.u64 true V' (viewsAfter Arith.u64 alloc V σ p)) ∨
      V.run Arith.u64 true alloc p = .error .assert := by
  induction p with
  | nil => exact fun {V σ} H hb H1 H2 _ _ => .inl ⟨V, rfl, H, hb, H1, H2⟩
  | cons s p ih =>
    intro V σ H hb H1 H2 ⟨hp, hrest⟩ ⟨hf, hfrest⟩
    obtain ⟨k1, k2⟩ := vsame_unlimited H hb H1 H2 (prudent_written hp) hf hal
    rcases C81_step H H1 hp (unlimited_good hal) with ⟨V1, h1, h2, h3, _⟩ | h
    · have hu := k1.trans h1
      rw [VWorld.run, hu, res_ok_bind]
      simp only [viewsAfter, hu]
      exact ih h2 (k2 V1 h1) h3 (aliased_next H2 (prudent_written hp) hu) (hrest V1 hu) (hfrest V1 hu)
    · exact .inr (by rw [VWorld.run, k1.trans h]; rfl)

/-- **C81.** Whole programs. -/
theorem C81_program64 {p : List (VStmt α)} (hal : GoodAlloc64 B alloc) (hp : PrudentRun Arith.u64 alloc VWorld.empty (fun _ => none) p)
    (hf : VFitsRun B alloc VWorld.empty (fun _ => none) p) :
    (∃ V', VWorld.empty.run Arith.u64 true alloc p = .ok V' ∧ Intact V'.w) ∨ VWorld.empty.run Arith.u64 true alloc p = .error .assert := by
  rcases C81_any64 hal intact_empty below_start (aliased_start _ _) (aliased_start _ _) hp hf with ⟨V', h1, h2, _⟩ | h
  · exact .inl ⟨V', h1, h2⟩
  · exact .inr h

theorem aliased_weak (H : Aliased A true V σ) (chk : Bool) : Aliased A chk V σ := by
  cases chk
  · refine ⟨H.one, H.scope, fun v x h hv => ?_⟩
    obtain ⟨h1, c, o, h2, h3, h4⟩ := H.alias v x h hv
    exact ⟨h1, c, o, h2, h3, weak_wIndex A V.w x h o h4⟩
  · exact H

theorem vstep_weak (H : Aliased A true V σ) {s : VStmt α} (hw : Written σ s) {V' : VWorld α} (hs : V.step A true alloc s = .ok V') (chk : Bool) :
    V.step A chk alloc s = .ok V' := by
  cases chk
  · cases s with
    | view v x h =>
      obtain ⟨y, g, hn, _⟩ := hw
      simp only [VWorld.step, index_in H hn] at hs
      simp only [VWorld.step, index_in (aliased_weak H false) hn]
      obtain ⟨_, h1, hs⟩ := res_bind_ok.1 hs
      obtain ⟨o, h2, hs⟩ := res_bind_ok.1 hs
      exact res_bind_ok.2 ⟨_, h1, res_bind_ok.2 ⟨o, weak_wIndex A V.w y g o h2, hs⟩⟩
    | moveMake y x => exact hs
    | stmt s =>
      rcases hw with ⟨x, rfl, hx⟩ | ⟨s', hin⟩
      · have hvx : ∃ o, V.view x = some o := by
          apply Option.ne_none_iff_exists'.1
          intro h; exact hx ((H.scope x).1 h)
        obtain ⟨o, ho⟩ := hvx
        simp only [VWorld.step, ho] at hs ⊢
        exact hs
      · rw [stmt_in H hin] at hs
        rw [stmt_in (aliased_weak H false) hin]
        cases hr : V.w.step A true alloc s' with
        | error f => rw [hr] at hs; cases hs
        | ok w' => rw [hr] at hs; rw [weak_step A alloc V.w s' w' hr]; exact hs
  · exact hs

/-- **C81.** C80 on a 64-bit machine: a sequence of legal statements for which 64 bits are enough does, in every build, what its
specification says. -/
theorem C81_legal64 {p : List (VStmt α)} {S S' : VStore α} (hr : VRuns64 B S p S') (hal : GoodAlloc64 B alloc) (chk : Bool) :
    ∀ {V : VWorld α}, VHolds true V S → Below V.w → Aliased Arith.u64 true V S.view →
    ∃ V', V.run Arith.u64 chk alloc p = .ok V' ∧ VHolds true V' S' ∧ Below V'.w ∧ Aliased Arith.u64 true V' S'.view := by
  induction hr with
  | nil => exact fun H hb H2 => ⟨_, rfl, H, hb, H2⟩
  | @cons S s S₁ p S' hl hf he _ ih =>
    intro V H hb H2
    rw [← holds_exts H.arr] at hf
    obtain ⟨V1, h1, h2⟩ := C80_statement H hl (unlimited_good hal)
    obtain ⟨k1, k2⟩ := vsame_unlimited (holds_intact H.arr) hb H.views H2 (legal_written hl) hf hal
    have hu := k1.trans h1
    have H' := h2 _ he
    have hnext := aliased_next H2 (legal_written hl) hu
    have hsame : nextViews (worldExts V.w) (worldExts V1.w) S.view s = S₁.view := by
      rw [holds_exts H.arr, holds_exts H'.arr]
      funext z
      cases s with
      | view v x h =>
        obtain ⟨_, e2, y, g, e3, e4⟩ := he
        simp only [nextViews, e3, Option.map_some]
        split
        · next h => subst h; exact e4.symm
        · next h => exact (e2 z h).symm
      | moveMake y x => exact (he.2.2.2 z).symm
      | stmt s =>
        rcases he with ⟨x, rfl, hx, _, e2, e3⟩ | ⟨s', hin, _, hv⟩
        · rw [nextViews_end hx]
          split
          · next h => subst h; exact e2.symm
          · next h => exact (e3 z h).symm
        · rw [nextViews_stmt hin]; exact (hv z).symm
    rw [hsame] at hnext
    obtain ⟨V2, q1, q2⟩ := ih H' (k2 V1 h1) hnext
    exact ⟨V2, by rw [VWorld.run, vstep_weak H2 (legal_written hl) hu chk, res_ok_bind, q1], q2⟩

/-- **C81.** Whole programs. -/
theorem C81_legal_program64 {p : List (VStmt α)} {S' : VStore α} (hr : VRuns64 B ⟨fun _ => none, fun _ => none⟩ p S') (hal : GoodAlloc64 B alloc)
    (chk : Bool) : ∃ V', VWorld.empty.run Arith.u64 chk alloc p = .ok V' ∧ VHolds true V' S' := by
  obtain ⟨V', h1, h2, _⟩ := C81_legal64 hr hal chk vholds_start below_start (aliased_start _ _)
  exact ⟨V', h1, h2⟩

end

/-! ### Dangling views -/

/-- `a = {1, 2, 3}; v = a[slice(0, 2)];` and the end of `a`. -/
def exDangle : List (VStmt Nat) := [.stmt (.makeFrom 0 [1, 2, 3] [3]), .view 1 0 [.slice 0 2], .stmt (.drop 0)]

/-- **C81 is false without the condition on dangling views**: no check finds them. In a checked build, writing through the view after the end
of the array is undefined behaviour, and when the memory has been given to another array in the meantime (`b = {0, 0, 0}`), it quietly
changes that one. -/
theorem C81_undetected :
    (VWorld.empty.run Arith.exact true exAlloc (exDangle ++ [.stmt (.fill 1 [] (.const 9))])).map (fun _ => ()) = .error .ub ∧
    (VWorld.empty.run Arith.exact true (fun _ _ _ => 0) (exDangle ++ [.stmt (.makeFill 2 (.const 0) [3]), .stmt (.fill 1 [] (.const 9))])).map
      (fun V => (V.w.env 2, (List.range 4).map V.w.mem)) = .ok (some ⟨0, [3]⟩, [some 9, some 9, some 0, none]) := by
  constructor <;> decide +kernel

/-! ### The hypotheses hold in concrete cases -/

/-- `a = {1..6}` (2×3); `v = a[1]`; `v[slice(1, 5)] = 7`, which is out of bounds: not legal, but prudent. -/
def exOut : List (VStmt Nat) := [.stmt (.makeFrom 0 [1, 2, 3, 4, 5, 6] [2, 3]), .view 1 0 [.at 1], .stmt (.fill 1 [.slice 1 5] (.const 7))]

/-- The states of that program. -/
theorem exOut_states {A : Arith} (hA : A = Arith.exact ∨ A = Arith.u64) {alloc : Nat → Mem Nat → Nat → Nat} {V1 : VWorld Nat}
    (h1 : VWorld.empty.step A true alloc (.stmt (.makeFrom 0 [1, 2, 3, 4, 5, 6] [2, 3])) = .ok V1) :
    V1.w.env = (fun x => if x = 0 then some ⟨alloc 0 (fun _ => none) 6, [2, 3]⟩ else none) ∧ ∀ V2,
      V1.step A true alloc (.view 1 0 [.at 1]) = .ok V2 → V2.w.env = V1.w.env := by
  refine ⟨?_, ?_⟩
  · rcases hA with rfl | rfl <;> cases h1 <;> rfl
  · intro V2 h2
    simp only [VWorld.step] at h2
    obtain ⟨_, _, h2⟩ := res_bind_ok.1 h2
    obtain ⟨_, _, h2⟩ := res_bind_ok.1 h2
    obtain ⟨_, _, h2⟩ := res_bind_ok.1 h2
    cases h2; rfl

theorem exOut_prudent {A : Arith} (hA : A = Arith.exact ∨ A = Arith.u64) (alloc : Nat → Mem Nat → Nat → Nat) :
    PrudentRun A alloc VWorld.empty (fun _ => none) exOut := by
  refine ⟨.inr ⟨_, rfl, by show prod [2, 3] ≤ 6; decide, rfl⟩, fun V1 h1 => ?_⟩
  obtain ⟨e1, e2⟩ := exOut_states hA h1
  have c1 : ctxOf V1.w = fun x => if x = 0 then some 2 else none := by funext x; simp only [ctxOf, e1]; split <;> rfl
  refine ⟨⟨by rw [c1]; rfl, rfl, 0, [.at 1], rfl, by decide, by simp [StepsOK], by rw [c1]; rfl⟩, fun V2 h2 => ?_⟩
  have c2 : ctxOf V2.w = fun x => if x = 0 then some 2 else none := by rw [← c1]; funext x; simp only [ctxOf, e2 V2 h2]
  refine ⟨.inr ⟨.fill 0 [.at 1, .slice 1 5] (.const 7), rfl, ⟨by simp [StepsOK], trivial⟩, by rw [c2]; rfl⟩, fun _ _ => trivial⟩

theorem exOut_fits (alloc : Nat → Mem Nat → Nat → Nat) : VFitsRun (2 ^ 30) alloc VWorld.empty (fun _ => none) exOut := by
  refine ⟨?_, fun V1 h1 => ?_⟩
  · intro s' hs'
    cases hs'
    exact ⟨by show ∀ n ∈ [2, 3], n ≤ maxElems; decide, 0, ⟨[], fun x h => (h rfl).elim, by decide⟩, by show 0 + prod [2, 3] ≤ 2 ^ 30; decide⟩
  obtain ⟨e1, e2⟩ := exOut_states (.inr rfl) h1
  have c1 : worldExts V1.w = fun x => if x = 0 then some [2, 3] else none := by funext x; simp only [worldExts, e1]; split <;> rfl
  refine ⟨?_, fun V2 h2 => ⟨?_, fun _ _ => trivial⟩⟩
  · intro y g hn e he
    cases hn
    rw [c1] at he
    cases he
    refine ⟨trivial, fun _ => ⟨?_, trivial⟩⟩
    show prod _ ≤ maxElems
    decide
  · have c2 : worldExts V2.w = fun x => if x = 0 then some [2, 3] else none := by rw [← c1]; funext x; simp only [worldExts, e2 V2 h2]
    intro s' hs'
    cases hs'
    refine ⟨⟨?_, trivial⟩, 6, ⟨[0], ?_, ?_⟩, by show 6 + 0 ≤ 2 ^ 30; decide⟩
    · intro e he
      rw [c2] at he
      cases he
      refine ⟨trivial, fun _ => ⟨by show prod _ ≤ maxElems; decide, ?_⟩⟩
      refine ⟨by show 1 + 5 < 2 ^ 64; decide, fun _ => ⟨by show prod _ ≤ maxElems; decide, trivial⟩⟩
    · intro x hx
      rw [c2] at hx
      by_cases h : x = 0
      · simp [h]
      · exact (hx (by simp [h])).elim
    · simp [elems, c2, prod]

example := C81_step (α := Nat) intact_empty (aliased_start _ _) (exOut_prudent (.inl rfl) goodAlloc_exists.choose).1 goodAlloc_exists.choose_spec
example := C81_run (α := Nat) goodAlloc_exists.choose_spec intact_empty (aliased_start _ _) (exOut_prudent (.inl rfl) goodAlloc_exists.choose)
example := C81_program (α := Nat) goodAlloc_exists.choose_spec (exOut_prudent (.inl rfl) goodAlloc_exists.choose)
example := C81_any64 (α := Nat) C71_allocator intact_empty below_start (aliased_start _ _) (aliased_start _ _) (exOut_prudent (.inr rfl) firstFit)
  (exOut_fits firstFit)
example := C81_program64 (α := Nat) C71_allocator (exOut_prudent (.inr rfl) firstFit) (exOut_fits firstFit)
example := C81_alive (v := 1) (holds_intact exKV.choose_spec.2.arr) exKV.choose_spec.2.views rfl

/-- It ends in an assertion, on both machines; its first two statements do not. -/
example : (VWorld.empty.run Arith.u64 true exAlloc exOut).map (fun _ => ()) = .error .assert ∧
    (VWorld.empty.run Arith.exact true exAlloc exOut).map (fun _ => ()) = .error .assert ∧
    (VWorld.empty.run Arith.u64 true exAlloc (exOut.take 2)).map (fun V => V.view 1) = .ok (some (.sref 0 (.ident ⟨1, [3], [2]⟩))) := by
  decide +kernel

theorem exKS_runs64 : VRuns64 (2 ^ 30) ⟨fun _ => none, fun _ => none⟩ [.stmt (.makeFrom 0 [1, 2, 3, 4, 5, 6] [2, 3]), .view 1 0 [.at 1]] exKS := by
  refine .cons (S₁ := ⟨fun x => if x = 0 then some exA else none, fun _ => none⟩) (.inr ⟨_, rfl, rfl, by decide, by decide⟩) ?_
    (.inr ⟨_, rfl, ex_make, fun _ => rfl⟩) (.cons ⟨rfl, rfl, 0, [.at 1], exA, _, rfl, by decide, rfl, ex_chain_row, by decide⟩ ?_ ?_ .nil)
  · intro s' hs'
    cases hs'
    exact ⟨by show ∀ n ∈ [2, 3], n ≤ maxElems; decide, 0, ⟨[], fun x h => (h rfl).elim, by decide⟩, by show 0 + prod [2, 3] ≤ 2 ^ 30; decide⟩
  · intro y g hn e he
    cases hn
    cases he
    exact ⟨trivial, fun _ => ⟨by show prod _ ≤ maxElems; decide, trivial⟩⟩
  · exact ⟨rfl, fun z hz => by simp [exKS, hz], 0, [.at 1], rfl, rfl⟩

example := C81_legal64 exKS_runs64 C71_allocator false vholds_start below_start (aliased_start _ _)
example := C81_legal_program64 exKS_runs64 C71_allocator true

end Jules.Props

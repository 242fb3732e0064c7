import Verif.Lemmas.Whole64
/-
C78: whole programs on a 64-bit machine.
-/
namespace Jules.Props
open Jules Spec

section
variable {α β : Type} {W : MWorld α} {T : MStore α} {B : Nat} {alloc : Nat → Mem α → Nat → Nat}

theorem holds_intactM (H : MHolds W T) : IntactM W :=
  ⟨holds_intact H.store, fun x d h => ⟨gone_of H x d h, (H.moved x d (by rw [← H.gone]; exact h)).2.1⟩⟩

theorem allocOK_of (H : Intact W.w) {s : MStmt α} (hs : MStmtFits B (worldExts W.w) s) (hal : GoodAlloc64 B alloc) :
    (∀ t, s = .old t → IxsFit (worldExts W.w) t) ∧ (∀ t, s = .old t → AllocOK W.w alloc (unlimited B alloc) t) ∧ ∀ t, s = .old t → AllocOK W.w alloc alloc t := by
  refine ⟨?_, ?_, ?_⟩
  · rintro t rfl; exact hs.1
  · rintro t rfl
    obtain ⟨h1, n, h2, h3⟩ := hs
    exact ⟨unlimited_eq (alive_of H.only h2) h3, (hal _ _ n _ (alive_of H.only h2) h3).2⟩
  · rintro t rfl
    obtain ⟨h1, n, h2, h3⟩ := hs
    exact ⟨rfl, (hal _ _ n _ (alive_of H.only h2) h3).2⟩

theorem msame_unlimited (H : IntactM W) (hb : BelowM W) {s : MStmt α} (hs : MStmtFits B (worldExts W.w) s) (hal : GoodAlloc64 B alloc) :
    Agr (W.step Arith.u64 true alloc s) (W.step Arith.exact true (unlimited B alloc) s) BelowM := by
  obtain ⟨h1, h2, _⟩ := allocOK_of H.intact hs hal
  exact mstep_agr hb H.intact.order h1 h2

/-- **C78.** One statement (also with moved-from arrays), legal or not, for which 64 bits are enough, has the same outcome in 64-bit arithmetic and with unlimited
integers (in a checked build). -/
theorem C78_same (H : IntactM W) (hb : BelowM W) {s : MStmt α} (hs : MStmtFits B (worldExts W.w) s) (hal : GoodAlloc64 B alloc) :
    W.step Arith.u64 true alloc s = W.step Arith.exact true alloc s ∧ ∀ W', W.step Arith.u64 true alloc s = .ok W' → BelowM W' := by
  obtain ⟨h1, _, h2⟩ := allocOK_of H.intact hs hal
  obtain ⟨k1, k2⟩ := mstep_agr hb H.intact.order h1 h2
  exact ⟨k1, fun W' hW => k2 W' (k1 ▸ hW)⟩

/-! ### Legal programs -/

theorem mstep64_ok (H : MHolds W T) (hb : BelowM W) {s : MStmt α} (hs : MLegal T s) (hf : MStmtFits B T.live.exts s) (hal : GoodAlloc64 B alloc) (chk : Bool) :
    ∃ W', W.step Arith.u64 chk alloc s = .ok W' ∧ (∀ T', MEffect T s T' → MHolds W' T') ∧ BelowM W' := by
  rw [← holds_exts H.store] at hf
  obtain ⟨W1, h1, h2⟩ := mstep_ok H hs true (unlimited_good hal)
  obtain ⟨k1, k2⟩ := msame_unlimited (holds_intactM H) hb hf hal
  have hu := k1.trans h1
  refine ⟨W1, ?_, h2, k2 W1 h1⟩
  cases chk
  · exact weak_mstep Arith.u64 alloc W s W1 hu
  · exact hu

theorem sc64_ok (H : MHolds W T) (hb : BelowM W) {s : Sc α} (hl : ScLegal T.live s) (hf : ScFits T.live.exts s) (chk : Bool) :
    ∃ c v, s.eval Arith.u64 chk W.w = .ok c ∧ c.get W.w.mem = .ok v ∧ scVal T.live s = some v := by
  rw [← holds_exts H.store] at hf
  obtain ⟨c, v, h1, h2, h3, _⟩ := sc_ok H.store hl true
  have hu := (sc_agr hb.live (shaped_of H) hf).trans h1
  refine ⟨c, v, ?_, h2, h3⟩
  cases chk
  · exact weak_sc Arith.u64 W.w s c hu
  · exact hu

theorem ex64_ok {e : PEx α} (H : MHolds W T) (hb : BelowM W) (hf : ExFits T.live.exts e) {e' : Ex Obj α} {src : EObj α} (h1 : e.eval Arith.exact true W.w = .ok e')
    (h2 : e'.build Arith.exact true = .ok src) (chk : Bool) :
    e.eval Arith.u64 chk W.w = .ok e' ∧ e'.build Arith.u64 chk = .ok src ∧ prod src.dims ≤ maxElems := by
  rw [← holds_exts H.store] at hf
  obtain ⟨k1, k2⟩ := ex_agr hb.live (shaped_of H) hf
  obtain ⟨k3, k4⟩ := k2 e' h1
  have hu := k1.trans h1
  have hu2 := k3.trans h2
  cases chk
  · exact ⟨weak_ex Arith.u64 W.w e e' hu, weak_build Arith.u64 e' src hu2, (k4 src h2).size⟩
  · exact ⟨hu, hu2, (k4 src h2).size⟩

theorem newElements64 (H : MHolds W T) (hb : BelowM W) {s : MStmt α} (hs : MLegal T s) (hf : MStmtFits B T.live.exts s) {chk : Bool}
    (h : NewElementsM Arith.u64 chk W s) : NewElementsM Arith.exact true W s := by
  cases s with
  | declare x k => exact h.elim
  | moveMake x y => exact h.elim
  | old s =>
    cases s with
    | set x e =>
      rcases h with ⟨hne, a, e', src, ha, he', hbd, hsz⟩ | h
      · refine .inl ⟨hne, a, ?_⟩
        rcases hs with ⟨a', d, g1, g2, g3, _⟩ | ⟨d, g1, _⟩
        · obtain ⟨q1, c', q2, q3, _⟩ := H.store.arr x a' g1
          rw [ha] at q2; cases q2
          have hd : d ≠ [] := by rintro rfl; exact q1 (List.length_eq_zero_iff.1 g2.symm)
          obtain ⟨e2, s, k1, hE⟩ := ex_ok H.store hd true g3
          obtain ⟨src', k2, hy⟩ := build_ok (chk := true) hE.denotes hE.exts
          obtain ⟨z1, z2, z3⟩ := ex64_ok H hb hf.1 k1 k2 chk
          rw [he'] at z1; cases z1
          rw [hbd] at z2; cases z2
          rw [(below_prodL (hb.live x a ha)).1, (prodL_fit z3).1] at hsz
          exact ⟨e', src, ha, k1, k2, by rw [(below_prodL (hb.live x a ha)).2, (prodL_fit z3).2]; exact hsz⟩
        · rw [gone_of H x d (by rw [H.gone, g1])] at ha; cases ha
      · exact .inr h
    | make x e => exact .inl trivial
    | makeFill x s ext => exact .inl trivial
    | makeFrom x l ext => exact .inl trivial
    | overlap x h e => exact .inl trivial
    | overlapWhole x e => exact .inl trivial
    | drop x => rcases h with h | ⟨_, _, _, h, _⟩; exacts [h.elim, by cases h]
    | moveAssign x y => rcases h with h | ⟨_, _, _, h, _⟩; exacts [h.elim, by cases h]
    | fill x h' s => rcases h with h | ⟨_, _, _, h, _⟩; exacts [h.elim, by cases h]
    | assign x h' e => rcases h with h | ⟨_, _, _, h, _⟩; exacts [h.elim, by cases h]
    | inPlace x h' op e => rcases h with h | ⟨_, _, _, h, _⟩; exacts [h.elim, by cases h]
    | inPlaceScalar x h' op s => rcases h with h | ⟨_, _, _, h, _⟩; exacts [h.elim, by cases h]
    | apply x h' f => rcases h with h | ⟨_, _, _, h, _⟩; exacts [h.elim, by cases h]

/-- **C78.** One legal statement on a 64-bit machine, in every build and whichever allocations fail: it has its effect, or throws and leaves everything as it was, or (C76) is terminated. -/
theorem C78_statement_partial (H : MHolds W T) (hb : BelowM W) {s : MStmt α} (hs : MLegal T s) (hf : MStmtFits B T.live.exts s) (F : Nat → Bool) (chk : Bool)
    (hal : GoodAlloc64 B alloc) (n : Nat) :
    (∃ W' n', W.stepO F Arith.u64 chk alloc n s = .ok W' n' ∧ (∀ T', MEffect T s T' → MHolds W' T') ∧ BelowM W' ∧ n ≤ n' ∧ ∀ k, n ≤ k → k < n' → F k = false) ∨
    (∃ w' k, W.stepO F Arith.u64 chk alloc n s = .thrown w' (k + 1) ∧ n ≤ k ∧ F k = true ∧ MayAllocate T s ∧ w'.mem = W.w.mem ∧ w'.env = W.w.env) ∨
    (W.stepO F Arith.u64 chk alloc n s = .fail .terminate ∧ Fatal T (mchains s) ∧ ∃ k, n ≤ k ∧ F k = true) := by
  obtain ⟨W1, h1, h2, h3⟩ := mstep64_ok H hb hs hf hal chk
  rcases mstepO_ends (S := F) (A := Arith.u64) (chk := chk) (alloc := alloc) (shaped_of H) (gone_of H) n s with
    ⟨w', n', g1, g2, g3, g4⟩ | ⟨j, g1, g2, g3, g4⟩ | ⟨j, g1, g2, g3, g4⟩ | ⟨e, g1, g2⟩
  · rw [h1] at g2; cases g2
    exact .inl ⟨W1, n', g1, h2, h3, g3, g4⟩
  · exact .inr (.inl ⟨_, j, g1, g2, g3, mayAllocate_of (chk := true) H hs (g4.imp (fun h => h) (newElements64 H hb hs hf)), rfl, rfl⟩)
  · exact .inr (.inr ⟨g1, fatal_of H g4, j, g2, g3⟩)
  · rw [h1] at g2; cases g2

theorem belowM_clock (hb : BelowM W) (k : Nat) : BelowM ⟨⟨W.w.mem, W.w.env, k⟩, W.gone⟩ := ⟨hb.live, hb.moved⟩

/-- **C78.** C75 and C76 on a 64-bit machine: a legal program for which 64 bits are enough ends, in every build and whichever allocations fail, with a result and arrays
that its specification allows (or is terminated, as in C76). -/
theorem C78_program_partial [Nonempty α] {p : GProg α β} (hp : LegalG T p) (hfit : FitsG B T p) (H : MHolds W T) (hb : BelowM W) (F : Nat → Bool) (chk : Bool)
    (hal : GoodAlloc64 B alloc) (n : Nat) :
    (∃ W' T' b n', W.execO F Arith.u64 chk alloc n p = .ok W' b n' ∧ Ending T p T' b ∧ MHolds W' T' ∧ BelowM W') ∨
    (W.execO F Arith.u64 chk alloc n p = .fail .terminate ∧ ¬ NoFatal T p ∧ ∃ k, n ≤ k ∧ F k = true) := by
  induction p generalizing W T n with
  | ret b => exact .inl ⟨W, T, b, n, rfl, .ret, H, hb⟩
  | exec s k ih =>
    obtain ⟨hl, hk, hf⟩ := hp
    obtain ⟨ft, fk, ff⟩ := hfit
    obtain ⟨T1, he⟩ := meffect_exists (fun x d hx => (H.moved x d hx).1) hl
    rw [MWorld.execO]
    rcases C78_statement_partial H hb hl ft F chk hal n with ⟨W1, n', g1, g2, g3, g4, _⟩ | ⟨w', j, g1, g2, g3, g4, g5, g6⟩ | ⟨g1, g2, j, g3, g4⟩
    · rw [g1]
      rcases ih true (hk T1 he) (fk T1 he) (g2 _ he) g3 n' with ⟨W', T', b, m, q1, q2, q3⟩ | ⟨q1, q2, j, q3, q4⟩
      · exact .inl ⟨W', T', b, m, q1, .done hl he q2, q3⟩
      · exact .inr ⟨q1, fun h => q2 (h.2.1 T1 he), j, by omega, q4⟩
    · rw [g1]
      obtain ⟨m, e, c⟩ := w'
      cases g5; cases g6
      rcases ih false (W := ⟨⟨W.w.mem, W.w.env, c⟩, W.gone⟩) hf ff (mholds_clock H) (belowM_clock hb c) (j + 1) with ⟨W', T', b, m, q1, q2, q3⟩ | ⟨q1, q2, i, q3, q4⟩
      · exact .inl ⟨W', T', b, m, q1, .failed hl g4 q2, q3⟩
      · exact .inr ⟨q1, fun h => q2 h.2.2, i, by omega, q4⟩
    · rw [g1]
      exact .inr ⟨rfl, fun h => h.1 g2, j, g3, g4⟩
  | read s k ih =>
    obtain ⟨hl, hk, hf⟩ := hp
    obtain ⟨ft, fk, ff⟩ := hfit
    obtain ⟨sc, y, h1, h2, h3⟩ := sc64_ok H hb hl ft chk
    rw [MWorld.execO, not_gone H (sc_live hl), if_neg (by simp)]
    have hq := quiet_bind' (quiet_scO (S := F) (A := Arith.u64) (chk := chk) (shaped_of H) s) (fun c _ => quiet_lift (c.get W.w.mem))
    rw [h1, res_ok_bind, h2] at hq
    rcases hq W.w.mem n with ⟨b, m', n', g1, g2, g3, _⟩ | ⟨j, g1, g2, g3, g4⟩ | ⟨j, g1, g2, g3, g4⟩ | ⟨e, g1, g2⟩
    · cases g2
      rw [g1]
      rcases ih (some y) (hk y h3) (fk y h3) (mholds_clock H (k := W.w.clock)) hb n' with ⟨W', T', b, m, q1, q2, q3⟩ | ⟨q1, q2, i, q3, q4⟩
      · exact .inl ⟨W', T', b, m, q1, .read hl h3 q2, q3⟩
      · exact .inr ⟨q1, fun h => q2 (h.2.1 y h3), i, by omega, q4⟩
    · rw [g1]
      rcases ih none hf ff (mholds_clock H (k := W.w.clock)) hb (j + 1) with ⟨W', T', b, m, q1, q2, q3⟩ | ⟨q1, q2, i, q3, q4⟩
      · exact .inl ⟨W', T', b, m, q1, .unread hl g4 q2, q3⟩
      · exact .inr ⟨q1, fun h => q2 h.2.2, i, by omega, q4⟩
    · rw [g1]
      exact .inr ⟨rfl, fun h => h.1 (fatal_of H g4), j, g2, g3⟩
    · cases g2
  | elements e k ih =>
    obtain ⟨d, hd, he, hk, hf⟩ := hp
    obtain ⟨ft, fk, ff⟩ := hfit
    obtain ⟨xs, hx⟩ := elements_exists he hd
    obtain ⟨h0, e', src, h1, h2, h3, h4⟩ := elements_ok H hx true
    obtain ⟨h1, h2, _⟩ := ex64_ok H hb ft h1 h2 chk
    rw [MWorld.execO, h0, if_neg (by simp)]
    have hq := quiet_bind' (quiet_exO (S := F) (A := Arith.u64) (chk := chk) (shaped_of H) e) (fun e' _ =>
      quiet_bind' (quiet_lift (e'.build Arith.u64 chk)) fun src _ => quiet_bind' (quiet_lift (src.elements W.w.mem)) fun xs _ => quiet_pure (src.dims, xs))
    rw [h1, res_ok_bind, h2, res_ok_bind, h4, res_ok_bind, h3] at hq
    rcases hq W.w.mem n with ⟨b, m', n', g1, g2, g3, _⟩ | ⟨j, g1, g2, g3, g4⟩ | ⟨j, g1, g2, g3, g4⟩ | ⟨e, g1, g2⟩
    · cases g2
      rw [g1]
      rcases ih (some (d, xs)) (hk xs hx) (fk d xs hx) (mholds_clock H (k := W.w.clock)) hb n' with ⟨W', T', b, m, q1, q2, q3⟩ | ⟨q1, q2, i, q3, q4⟩
      · exact .inl ⟨W', T', b, m, q1, .elements hx q2, q3⟩
      · exact .inr ⟨q1, fun h => q2 (h.2.1 d xs hx), i, by omega, q4⟩
    · rw [g1]
      rcases ih none hf ff (mholds_clock H (k := W.w.clock)) hb (j + 1) with ⟨W', T', b, m, q1, q2, q3⟩ | ⟨q1, q2, i, q3, q4⟩
      · exact .inl ⟨W', T', b, m, q1, .unseen hd he g4 q2, q3⟩
      · exact .inr ⟨q1, fun h => q2 h.2.2, i, by omega, q4⟩
    · rw [g1]
      exact .inr ⟨rfl, fun h => h.1 (fatal_of H g4), j, g2, g3⟩
    · cases g2

/-- **C78.** Without failing allocations, the program computes its result (C75), in 64 bits. -/
theorem C78_computes_partial [Nonempty α] {p : GProg α β} (hp : LegalG T p) (hfit : FitsG B T p) (H : MHolds W T) (hb : BelowM W) {F : Nat → Bool} (chk : Bool)
    (hal : GoodAlloc64 B alloc) {n : Nat} (hF : ∀ k, n ≤ k → F k = false) :
    ∃ W' T' b n', W.execO F Arith.u64 chk alloc n p = .ok W' b n' ∧ Computes T (trusting p) T' b ∧ MHolds W' T' := by
  have no : ∀ {j : Nat} {Q : Prop}, n ≤ j → F j = true → Q := fun h h' => by rw [hF _ h] at h'; cases h'
  induction p generalizing W T n with
  | ret b => exact ⟨W, T, b, n, rfl, .ret, H⟩
  | exec s k ih =>
    obtain ⟨hl, hk, hf⟩ := hp
    obtain ⟨ft, fk, ff⟩ := hfit
    obtain ⟨T1, he⟩ := meffect_exists (fun x d hx => (H.moved x d hx).1) hl
    rw [MWorld.execO]
    rcases C78_statement_partial H hb hl ft F chk hal n with ⟨W1, n', g1, g2, g3, g4, _⟩ | ⟨w', j, g1, g2, g3, g4, g5, g6⟩ | ⟨g1, g2, j, g3, g4⟩
    · rw [g1]
      obtain ⟨W', T', b, m, q1, q2, q3⟩ := ih true (hk T1 he) (fk T1 he) (g2 _ he) g3 (n := n') (fun k hk => hF k (by omega)) fun h h' => no (by omega) h'
      exact ⟨W', T', b, m, q1, .exec hl he q2, q3⟩
    · exact no g2 g3
    · exact no g3 g4
  | read s k ih =>
    obtain ⟨hl, hk, hf⟩ := hp
    obtain ⟨ft, fk, ff⟩ := hfit
    obtain ⟨sc, y, h1, h2, h3⟩ := sc64_ok H hb hl ft chk
    rw [MWorld.execO, not_gone H (sc_live hl), if_neg (by simp)]
    have hq := quiet_bind' (quiet_scO (S := F) (A := Arith.u64) (chk := chk) (shaped_of H) s) (fun c _ => quiet_lift (c.get W.w.mem))
    rw [h1, res_ok_bind, h2] at hq
    rcases hq W.w.mem n with ⟨b, m', n', g1, g2, g3, _⟩ | ⟨j, g1, g2, g3, g4⟩ | ⟨j, g1, g2, g3, g4⟩ | ⟨e, g1, g2⟩
    · cases g2
      rw [g1]
      obtain ⟨W', T', b, m, q1, q2, q3⟩ := ih (some y) (hk y h3) (fk y h3) (mholds_clock H (k := W.w.clock)) hb (n := n') (fun k hk => hF k (by omega)) fun h h' => no (by omega) h'
      exact ⟨W', T', b, m, q1, .read hl h3 q2, q3⟩
    · exact no g2 g3
    · exact no g2 g3
    · cases g2
  | elements e k ih =>
    obtain ⟨d, hd, he, hk, hf⟩ := hp
    obtain ⟨ft, fk, ff⟩ := hfit
    obtain ⟨xs, hx⟩ := elements_exists he hd
    obtain ⟨h0, e', src, h1, h2, h3, h4⟩ := elements_ok H hx true
    obtain ⟨h1, h2, _⟩ := ex64_ok H hb ft h1 h2 chk
    rw [MWorld.execO, h0, if_neg (by simp)]
    have hq := quiet_bind' (quiet_exO (S := F) (A := Arith.u64) (chk := chk) (shaped_of H) e) (fun e' _ =>
      quiet_bind' (quiet_lift (e'.build Arith.u64 chk)) fun src _ => quiet_bind' (quiet_lift (src.elements W.w.mem)) fun xs _ => quiet_pure (src.dims, xs))
    rw [h1, res_ok_bind, h2, res_ok_bind, h4, res_ok_bind, h3] at hq
    rcases hq W.w.mem n with ⟨b, m', n', g1, g2, g3, _⟩ | ⟨j, g1, g2, g3, g4⟩ | ⟨j, g1, g2, g3, g4⟩ | ⟨e, g1, g2⟩
    · cases g2
      rw [g1]
      obtain ⟨W', T', b, m, q1, q2, q3⟩ := ih (some (d, xs)) (hk xs hx) (fk d xs hx) (mholds_clock H (k := W.w.clock)) hb (n := n') (fun k hk => hF k (by omega))
        fun h h' => no (by omega) h'
      exact ⟨W', T', b, m, q1, .elements hx q2, q3⟩
    · exact no g2 g3
    · exact no g2 g3
    · cases g2

/-! ### Any program, in checked builds -/

/-- **C78.** C77 on a 64-bit machine: any program that compiles and does not use what it moved from, as long as its index expressions and arrays fit, ends in a checked build with
intact memory, or in an assertion, or by `std::terminate` after a failed allocation. -/
theorem C78_safe {p : GProg α β} {g : Nat → Prop} (hc : CompilesG (mctx W) p) (hp : ProvidedG p) (hd : DisciplinedG g p) (hg : ∀ x, W.gone x ≠ none → g x) (H : IntactM W)
    (hb : BelowM W) (F : Nat → Bool) (hal : GoodAlloc64 B alloc) (hfit : FitsRunG B alloc W p) (n : Nat) :
    (∃ W' b n', W.execO F Arith.u64 true alloc n p = .ok W' b n' ∧ IntactM W' ∧ BelowM W') ∨
    W.execO F Arith.u64 true alloc n p = .fail .assert ∨
    (W.execO F Arith.u64 true alloc n p = .fail .terminate ∧ ∃ k, n ≤ k ∧ F k = true) := by
  have later : ∀ {x : GOut α β} {i j : Nat}, i ≤ j →
      ((∃ W' b n', x = .ok W' b n' ∧ IntactM W' ∧ BelowM W') ∨ x = .fail .assert ∨ (x = .fail .terminate ∧ ∃ k, j ≤ k ∧ F k = true)) →
      (∃ W' b n', x = .ok W' b n' ∧ IntactM W' ∧ BelowM W') ∨ x = .fail .assert ∨ (x = .fail .terminate ∧ ∃ k, i ≤ k ∧ F k = true) := by
    intro x i j hij h
    exact h.imp (fun h => h) fun h => h.imp (fun h => h) fun ⟨h, k, hk, hF⟩ => ⟨h, k, by omega, hF⟩
  induction p generalizing W g n with
  | ret b => exact .inl ⟨W, b, n, rfl, H, hb⟩
  | exec s k ih =>
    obtain ⟨Γ, hc1, hc2, hc3⟩ := hc
    obtain ⟨hp1, hp2⟩ := hp
    obtain ⟨hd1, hd2, hd3⟩ := hd
    obtain ⟨ft, fk, ff⟩ := hfit
    obtain ⟨k1, k2⟩ := msame_unlimited H hb ft hal
    have hf := mstep_fine H hp1 (unlimited_good hal) (fun x hx => hd1 x (hg x hx))
    rw [MWorld.execO]
    rcases mstepO_ends (S := F) (A := Arith.u64) (chk := true) (alloc := alloc) (shaped_intact H) (fun x d h => (H.gone x d h).1) n s with
      ⟨w', n', g1, g2, g3, g4⟩ | ⟨j, g1, g2, g3, g4⟩ | ⟨j, g1, g2, g3, g4⟩ | ⟨e, g1, g2⟩
    · have g2' := k1 ▸ g2
      rw [g2'] at hf
      have hf : FineM W s w' := hf
      rw [g1]
      have ht := hf.types
      rw [hc1] at ht; cases ht
      exact later g3 (ih true hc2 (hp2 _) hd2 (fun x hx => after_mono hg s x (hf.moved x hx)) hf.intact (k2 _ g2') (fk _ g2) n')
    · rw [g1]
      exact later (by omega) (ih false (W := ⟨⟨W.w.mem, W.w.env, W.w.clock + 1⟩, W.gone⟩) hc3 (hp2 _) hd3 hg (intactM_clock H _) (belowM_clock hb _) ff (j + 1))
    · rw [g1]; exact .inr (.inr ⟨rfl, j, g2, g3⟩)
    · rw [k1] at g2
      rw [g2] at hf
      rcases hf with rfl | ⟨rfl, h⟩
      · rw [g1]; exact .inr (.inl rfl)
      · rw [hc1] at h; exact (h rfl).elim
  | read s k ih =>
    have hu : ∀ x ∈ s.uses, W.gone x = none := by
      intro x hx
      by_cases h : W.gone x = none
      · exact h
      · exact (hd.1 x (hg x h) (uses_sc hx)).elim
    rw [MWorld.execO, noneGone (fun x h hx => h (hu x hx)), if_neg (by simp)]
    have hq := quiet_bind' (quiet_scO (S := F) (A := Arith.u64) (chk := true) (shaped_intact H) s) (fun c _ => quiet_lift (c.get W.w.mem))
    rw [sc_agr hb.live H.intact.order hfit.1] at hq
    have ht : scTyped (ctxOf W.w) s = true := by rw [← scTyped_overlay (g := W.gone) hu]; exact hc.1
    have hs : Safe True (s.eval Arith.exact true W.w >>= fun c => c.get W.w.mem) (fun _ => True) := by
      refine safe_bind (safe_sc H.intact hp.1) (fun _ => ht) fun c hc => ?_
      obtain ⟨v, hv⟩ := hc.2 _ (keeps_refl _)
      rw [hv]; trivial
    rcases hq W.w.mem n with ⟨b, m', n', g1, g2, g3, _⟩ | ⟨j, g1, g2, g3, g4⟩ | ⟨j, g1, g2, g3, g4⟩ | ⟨e, g1, g2⟩
    · rw [g1]
      obtain ⟨v, _, hv⟩ := res_bind_ok.1 g2
      cases hv
      exact later g3 (ih _ (W := ⟨⟨W.w.mem, W.w.env, W.w.clock⟩, W.gone⟩) (hc.2 _) (hp.2 _) (hd.2 _) hg H hb (hfit.2 _) n')
    · rw [g1]
      exact later (by omega) (ih _ (W := ⟨⟨W.w.mem, W.w.env, W.w.clock⟩, W.gone⟩) (hc.2 _) (hp.2 _) (hd.2 _) hg H hb (hfit.2 _) (j + 1))
    · rw [g1]; exact .inr (.inr ⟨rfl, j, g2, g3⟩)
    · rw [g1]
      generalize (s.eval Arith.exact true W.w >>= fun c => c.get W.w.mem) = r at g2 hs
      cases r with
      | ok v => cases g2
      | error e' =>
        cases g2
        rcases hs with rfl | ⟨_, h⟩
        · exact .inr (.inl rfl)
        · exact (h trivial).elim
  | elements e k ih =>
    have hu : ∀ x ∈ e.uses, W.gone x = none := by
      intro x hx
      by_cases h : W.gone x = none
      · exact h
      · exact (hd.1 x (hg x h) (uses_operand hx)).elim
    rw [MWorld.execO, noneGone (fun x h hx => h (hu x hx)), if_neg (by simp)]
    have hq := quiet_bind' (quiet_exO (S := F) (A := Arith.u64) (chk := true) (shaped_intact H) e) (fun e' _ =>
      quiet_bind' (quiet_lift (e'.build Arith.u64 true)) fun src _ => quiet_bind' (quiet_lift (src.elements W.w.mem)) fun xs _ => quiet_pure (src.dims, xs))
    have hagr : (e.eval Arith.u64 true W.w >>= fun e' => e'.build Arith.u64 true >>= fun src => src.elements W.w.mem >>= fun xs => Except.ok (src.dims, xs)) =
        (e.eval Arith.exact true W.w >>= fun e' => e'.build Arith.exact true >>= fun src => src.elements W.w.mem >>= fun xs => Except.ok (src.dims, xs)) :=
      (agr_bind (Q := fun _ => True) (ex_agr hb.live H.intact.order hfit.1) fun e' he' => agr_bind he' fun src _ => agr_mono agr_same fun _ _ => trivial).1
    rw [hagr] at hq
    have ht : (exOrder (ctxOf W.w) e).isSome := by rw [← exOrder_overlay (g := W.gone) hu]; exact hc.1
    have hs : Safe True (e.eval Arith.exact true W.w >>= fun e' => e'.build Arith.exact true >>= fun src => src.elements W.w.mem >>= fun xs => .ok (src.dims, xs))
        (fun _ => True) := by
      refine safe_bind (safe_ex H.intact hp.1) (fun _ => ht) fun e' he' => safe_bind he' (fun _ => ht) fun src hsrc => ?_
      obtain ⟨xs, hx⟩ := safe_elements hsrc.1
      rw [hx]; trivial
    rcases hq W.w.mem n with ⟨b, m', n', g1, g2, g3, _⟩ | ⟨j, g1, g2, g3, g4⟩ | ⟨j, g1, g2, g3, g4⟩ | ⟨e2, g1, g2⟩
    · rw [g1]
      obtain ⟨v, _, hv⟩ := res_bind_ok.1 g2
      cases hv
      exact later g3 (ih _ (W := ⟨⟨W.w.mem, W.w.env, W.w.clock⟩, W.gone⟩) (hc.2 _) (hp.2 _) (hd.2 _) hg H hb (hfit.2 _) n')
    · rw [g1]
      exact later (by omega) (ih _ (W := ⟨⟨W.w.mem, W.w.env, W.w.clock⟩, W.gone⟩) (hc.2 _) (hp.2 _) (hd.2 _) hg H hb (hfit.2 _) (j + 1))
    · rw [g1]; exact .inr (.inr ⟨rfl, j, g2, g3⟩)
    · rw [g1]
      generalize (e.eval Arith.exact true W.w >>= fun e' => e'.build Arith.exact true >>= fun src => src.elements W.w.mem >>= fun xs => Except.ok (src.dims, xs)) = r at g2 hs
      cases r with
      | ok v => cases g2
      | error e' =>
        cases g2
        rcases hs with rfl | ⟨_, h⟩
        · exact .inr (.inl rfl)
        · exact (h trivial).elim

theorem belowM_empty : BelowM (MWorld.empty : MWorld α) := ⟨fun _ _ h => by (cases h), fun _ _ h => by (cases h)⟩

/-- **C78.** Whole legal programs on a 64-bit machine, started without arrays. -/
theorem C78_whole_partial [Nonempty α] {p : GProg α β} (hp : LegalG ⟨fun _ => none, fun _ => none⟩ p) (hfit : FitsG B ⟨fun _ => none, fun _ => none⟩ p) (F : Nat → Bool) (chk : Bool)
    (hal : GoodAlloc64 B alloc) :
    (∃ W' T' b n', MWorld.empty.execO F Arith.u64 chk alloc 0 p = .ok W' b n' ∧ Ending ⟨fun _ => none, fun _ => none⟩ p T' b ∧ MHolds W' T') ∨
    (MWorld.empty.execO F Arith.u64 chk alloc 0 p = .fail .terminate ∧ ¬ NoFatal ⟨fun _ => none, fun _ => none⟩ p ∧ ∃ k, F k = true) := by
  rcases C78_program_partial hp hfit mholds_empty belowM_empty F chk hal 0 with ⟨W', T', b, n', h1, h2, h3, _⟩ | ⟨h1, h2, k, _, h3⟩
  · exact .inl ⟨W', T', b, n', h1, h2, h3⟩
  · exact .inr ⟨h1, h2, k, h3⟩

/-- **C78.** Any program that compiles and does not use what it moved from, in a checked build on a 64-bit machine, started without arrays. -/
theorem C78_safe_whole {p : GProg α β} (hc : CompilesG (fun _ => none) p) (hp : ProvidedG p) (hd : DisciplinedG (fun _ => False) p) (F : Nat → Bool)
    (hal : GoodAlloc64 B alloc) (hfit : FitsRunG B alloc MWorld.empty p) :
    (∃ W' b n', MWorld.empty.execO F Arith.u64 true alloc 0 p = .ok W' b n' ∧ IntactM W') ∨
    MWorld.empty.execO F Arith.u64 true alloc 0 p = .fail .assert ∨
    (MWorld.empty.execO F Arith.u64 true alloc 0 p = .fail .terminate ∧ ∃ k, F k = true) := by
  rcases C78_safe (W := MWorld.empty) (g := fun _ => False) hc hp hd (fun x h => h rfl) intactM_empty belowM_empty F hal hfit 0 with ⟨W', b, n', h1, h2, _⟩ | h | ⟨h, k, _, hk⟩
  · exact .inl ⟨W', b, n', h1, h2⟩
  · exact .inr (.inl h)
  · exact .inr (.inr ⟨h, k, hk⟩)

end

/-! ### Examples -/

theorem total_none : TotalAtMost (fun _ => none) 0 := ⟨[], fun x h => (h rfl).elim, by decide⟩

/-- The program of C76's example fits. -/
theorem exOomLegal_fits : FitsG (2 ^ 30) ⟨fun _ => none, fun _ => none⟩ exOomLegal := by
  refine ⟨⟨by show ∀ n ∈ [3], n ≤ maxElems; decide, 0, ⟨[], fun x h => (h rfl).elim, by decide⟩, by show 0 + prod [3] ≤ 2 ^ 30; decide⟩, ?_, trivial⟩
  rintro T1 ⟨hm, ho, a, ha, hx, _⟩
  have hE : T1.live.exts = fun x => if x = 0 then some [3] else none := by
    funext x
    by_cases h : x = 0
    · subst h; simp [AStore.exts, ha, hx]
    · have h0 : T1.live x = none := ho x h
      simp [AStore.exts, h0, h]
  have whole : ∀ (E : Exts) x, ChainFits E x [] := fun _ _ _ _ => trivial
  refine ⟨⟨?_, 3, ⟨[0], ?_, ?_⟩, ?_⟩, fun T2 _ => ⟨whole _ _, fun _ _ _ => trivial, trivial⟩, whole _ _, fun _ _ _ => trivial, trivial⟩
  · intro e he
    rw [hE] at he
    cases he
    refine ⟨trivial, fun _ => ⟨?_, trivial⟩⟩
    show prod _ ≤ maxElems
    decide
  · intro x hx
    rw [hE] at hx
    by_cases h : x = 0
    · simp [h]
    · simp [h] at hx
  · rw [hE]; decide
  · show 3 + prod (exExt T1.live.exts _) ≤ 2 ^ 30
    rw [hE]; decide

example (F : Nat → Bool) (chk : Bool) :
    (∃ W' T' b n', MWorld.empty.execO F Arith.u64 chk firstFit 0 exOomLegal = .ok W' b n' ∧ Ending ⟨fun _ => none, fun _ => none⟩ exOomLegal T' b ∧ MHolds W' T') :=
  (C78_whole_partial exOomLegal_legal.1 exOomLegal_fits F chk C71_allocator).resolve_right fun h => h.2.1 exOomLegal_legal.2

example : GOut.result (MWorld.empty.execO (fun _ => false) Arith.u64 true exAlloc 0 exOomLegal) = some ((true, [1, 3]), 4) := by decide +kernel
example : GOut.result (MWorld.empty.execO (· == 2) Arith.u64 true exAlloc 0 exOomLegal) = some ((false, [1, 2, 3]), 3) := by decide +kernel

/-- A vector is moved; the target is then assigned to outside its bounds. -/
def exMovedOut (i n : Nat) : GProg Nat Unit :=
  .exec (.old (.makeFill 0 (.const 1) [8])) fun ok =>
    if ok then .exec (.moveMake 1 0) fun ok =>
      if ok then .exec (.old (.fill 1 [.slice i n] (.const 7))) fun _ => .ret ()
      else .ret ()
    else .ret ()

theorem exMovedOut_meets (i n : Nat) : CompilesG (fun _ => none) (exMovedOut i n) ∧ ProvidedG (exMovedOut i n) ∧ DisciplinedG (fun _ => False) (exMovedOut i n) := by
  have split : ∀ {P : Bool → Prop}, P true → P false → ∀ b, P b := by intro P h1 h2 b; cases b <;> assumption
  refine ⟨⟨_, rfl, ⟨_, rfl, ⟨_, rfl, trivial, trivial⟩, trivial⟩, trivial⟩, ?_, ?_⟩
  · refine ⟨?_, split ⟨nofun, split ⟨?_, fun _ => trivial⟩ trivial⟩ trivial⟩
    · intro t ht; cases ht; exact trivial
    · intro t ht; cases ht
      refine ⟨?_, trivial⟩
      intro i s m; simp at m
  · refine ⟨fun _ h => h.elim, ⟨fun _ h => h.elim, ⟨?_, trivial, trivial⟩, trivial⟩, trivial⟩
    intro x hx hs
    have : x = 1 ∨ x ≠ 1 := by omega
    rcases this with rfl | h
    · exact hx
    · rcases hs with h' | h'
      · exact h h'.symm
      · cases h'

/-- `C78_safe_whole` applies to it, although (for `i = 7`, `n = 2`) it is not legal. -/
theorem exMovedOut_fits {alloc : Nat → Mem Nat → Nat → Nat} (hal : GoodAlloc64 (2 ^ 30) alloc) : FitsRunG (2 ^ 30) alloc MWorld.empty (exMovedOut 7 2) := by
  have f1 : ∀ E : Exts, E = (fun _ => none) → MStmtFits (2 ^ 30) E (.old (.makeFill 0 (.const 1) [8])) := by
    rintro E rfl
    exact ⟨⟨trivial, by show ∀ n ∈ [8], n ≤ maxElems; decide⟩, 0, total_none, by show 0 + prod [8] ≤ 2 ^ 30; decide⟩
  have l1 : MLegal (α := Nat) ⟨fun _ => none, fun _ => none⟩ (.old (.makeFill 0 (.const 1) [8])) := ⟨rfl, rfl, by decide, trivial⟩
  refine ⟨f1 _ rfl, fun W1 h1 => ⟨trivial, fun W2 h2 => ⟨?_, fun _ _ => trivial, trivial⟩, trivial⟩, trivial⟩
  obtain ⟨T1, e1⟩ := meffect_exists (by intro x d h; cases h) l1
  obtain ⟨W1', g1, k1, b1⟩ := mstep64_ok mholds_empty belowM_empty l1 (f1 _ rfl) hal true
  rw [h1] at g1; cases g1
  have H1 := k1 _ e1
  obtain ⟨hm1, ho1, a, ha, hx, _⟩ := e1
  have l2 : MLegal T1 (.moveMake 1 0) := ⟨⟨ho1 1 (by decide), by rw [hm1]⟩, 1, .inl ⟨a, ha, by rw [hx]; rfl⟩⟩
  obtain ⟨T2, e2⟩ := meffect_exists (by intro x d h; rw [hm1] at h; cases h) l2
  obtain ⟨W2', g2, k2, b2⟩ := mstep64_ok H1 b1 l2 trivial hal true
  rw [h2] at g2; cases g2
  have H2 := k2 _ e2
  obtain ⟨ho2, hl2, _, ⟨d, hd, _⟩ | ⟨a', ha', hz⟩⟩ := e2
  · rw [hm1] at hd; cases hd
  rw [ha] at ha'; cases ha'
  have hp : prod a.ext ≠ 0 := by rw [hx]; decide
  rw [if_neg hp] at hz
  have hE : worldExts W2.w = fun x => if x = 1 then some [8] else none := by
    rw [holds_exts H2.store]
    funext x
    by_cases h1 : x = 1
    · subst h1; simp [AStore.exts, hl2, ha, hx]
    · by_cases h0 : x = 0
      · subst h0; simp [AStore.exts, hz.1]
      · have := (ho2 x (by simp [h0, h1])).1
        have h' : T1.live x = none := ho1 x h0
        simp [AStore.exts, this, h', h1]
  rw [hE]
  refine ⟨⟨?_, trivial⟩, 8, ⟨[1], ?_, by decide⟩, by show 8 + 0 ≤ 2 ^ 30; decide⟩
  · intro e he
    cases he
    exact ⟨by show 7 + 2 < 2 ^ 64; decide, fun _ => ⟨by show prod _ ≤ maxElems; decide, trivial⟩⟩
  · intro x hx
    by_cases h : x = 1
    · simp [h]
    · simp [h] at hx

example (F : Nat → Bool) :
    (∃ W' b n', MWorld.empty.execO F Arith.u64 true firstFit 0 (exMovedOut 7 2) = .ok W' b n' ∧ IntactM W') ∨
    MWorld.empty.execO F Arith.u64 true firstFit 0 (exMovedOut 7 2) = .fail .assert ∨
    (MWorld.empty.execO F Arith.u64 true firstFit 0 (exMovedOut 7 2) = .fail .terminate ∧ ∃ k, F k = true) :=
  C78_safe_whole (exMovedOut_meets 7 2).1 (exMovedOut_meets 7 2).2.1 (exMovedOut_meets 7 2).2.2 F C71_allocator (exMovedOut_fits C71_allocator)

/-- The full C77 fails in 64 bits (C05's wrap-around): without the condition that the bounds of slices fit, a checked build writes outside the vector. -/
theorem C78_wraparound : GOut.failure (MWorld.empty.execO (fun _ => false) Arith.u64 true exAlloc 0 (exMovedOut (2 ^ 64 - 1) 2)) = some .ub ∧
    GOut.failure (MWorld.empty.execO (fun _ => false) Arith.exact true exAlloc 0 (exMovedOut (2 ^ 64 - 1) 2)) = some .assert ∧
    GOut.failure (MWorld.empty.execO (fun _ => false) Arith.u64 true exAlloc 0 (exMovedOut 7 2)) = some .assert := by decide +kernel

/-! ### The hypotheses hold in concrete cases -/

example := C78_same (α := Nat) intactM_empty belowM_empty (exMovedOut_fits C71_allocator).1 C71_allocator
example (F : Nat → Bool) := C78_statement_partial (α := Nat) mholds_empty belowM_empty exOomLegal_legal.1.1 exOomLegal_fits.1 F true C71_allocator 0
example (F : Nat → Bool) := C78_program_partial exOomLegal_legal.1 exOomLegal_fits mholds_empty belowM_empty F true C71_allocator 0
example := C78_computes_partial exOomLegal_legal.1 exOomLegal_fits mholds_empty belowM_empty (F := fun _ => false) true C71_allocator (n := 0) (fun _ _ => rfl)
example (F : Nat → Bool) := C78_safe (W := MWorld.empty) (exMovedOut_meets 7 2).1 (exMovedOut_meets 7 2).2.1 (exMovedOut_meets 7 2).2.2 (fun x h => h rfl) intactM_empty belowM_empty F C71_allocator
  (exMovedOut_fits C71_allocator) 0

end Jules.Props

import Verif.Lemmas.BlockThrows
/-
Lemmas for C90: statements and programs in builds where failed checks throw.
-/
namespace Jules
open Spec Props

section
variable {α β : Type} {W : BWorld α} {S : MStore α} {lost : List Nat} {T : Nat → Bool} {alloc : Nat → List (Nat × Nat) → Nat → Option Nat} {nx : Bool} {U : Prop}

theorem relB_mstep [Nonempty α] (H : BHolds W S lost) (hal : GoodBlocks alloc) {t : MStmt α} (hnd : ¬ IsDrop t) {Γ' : Ctx} (hc : mcheck (sctx S) t = some Γ')
    (hp : XProvided (.calm t)) (hd : ∀ x, S.moved x ≠ none → ¬ Misuses x t) (hU : ¬ U → AllGood W (mchains t)) (hU' : ∀ x, t = .old (.moveAssign x x) → U) :
    RelB U W (W.mstep Arith.exact true nx T alloc t) (W.mstepT Arith.exactThrows nx T alloc t) := by
  cases t with
  | declare x n =>
    refine relB_refl fun h => ?_
    exact na_bind (na_needs _) (fun _ _ => na_bind (na_needs _) fun _ _ => na_ok _) h
  | moveMake x y =>
    refine relB_refl fun h => ?_
    exact na_bind (na_needs _) (fun _ _ => na_bind (own_na _) fun _ _ => na_ok _) h
  | old u =>
    have key : ∀ s : FStmt α, Alike s u → W.mstep Arith.exact true nx T alloc (.old u) = W.fstep Arith.exact true nx T alloc s →
        W.mstepT Arith.exactThrows nx T alloc (.old u) = W.fstepT Arith.exactThrows nx T alloc s →
        RelB U W (W.mstep Arith.exact true nx T alloc (.old u)) (W.mstepT Arith.exactThrows nx T alloc (.old u)) := by
      intro s h1 h2 h3
      rw [h2, h3]
      exact relB_alike H hal h1 hc (fun _ => hp) hd hU
    cases u with
    | drop x => exact (hnd trivial).elim
    | moveAssign x y =>
      by_cases hxy : x = y
      · subst hxy
        have h1 : (x != x) = false := by simp
        refine .inr ⟨?_, .inr ⟨?_, hU' x rfl⟩⟩
        · simp only [BWorld.mstep, h1]; rfl
        · simp only [BWorld.mstepT, h1]; rfl
      · have h1 : (x != y) = true := by simpa using hxy
        simp only [BWorld.mstep, BWorld.mstepT, h1, dbg_any_true, res_ok_bind]
        refine relB_refl fun h => ?_
        exact na_bind (own_na _) (fun _ _ => na_bind (own_na _) fun _ _ => na_bind (sameRank_na _ _) fun _ _ => na_ok _) h
    | makeFill x s ext =>
      exact relB_pre (na_needs _) fun _ _ => relB_pre (na_needs _) fun _ _ => relB_pre (usable_na _) fun _ _ => relB_asserting (tw_scal H hU) fun c _ _ =>
        relB_stored (bna_new fun _ m => na_get m c)
    | fill x h s =>
      refine relB_pre (na_needs _) fun _ _ => relB_pre (usable_na _) fun _ _ => relB_asserting (tw_dest H fun u => hU u (x, h) (by simp [mchains, chains])) fun o _ _ =>
        relB_asserting (tw_scal H fun u p hp => hU u p (by simp [mchains, chains, hp])) fun c _ _ => ?_
      have : fillB Arith.exactThrows T o c = fillB Arith.exact T o c := by unfold fillB; rw [positions_throws]
      rw [this]
      exact relB_wrote (bna_fill o c)
    | make x e => exact key _ (.make (likeE_total e)) (by simp only [BWorld.mstep, fallible_total]) (by simp only [BWorld.mstepT, fallible_total])
    | makeFrom x l ext => exact key _ (.makeFrom (by rw [List.length_map]; exact hp)) rfl rfl
    | assign x h e => exact key _ (.assign (likeE_total e)) (by simp only [BWorld.mstep, fallible_total]) (by simp only [BWorld.mstepT, fallible_total])
    | inPlace x h op e => exact key (.inPlace x h (fun u y => (op u y, false)) (totalE e)) (.inPlace (likeE_total e)) (by simp only [BWorld.mstep, fallible_total]) (by simp only [BWorld.mstepT, fallible_total])
    | inPlaceScalar x h op s => exact key _ .inPlaceScalar rfl rfl
    | apply x h f => exact key _ .apply rfl rfl
    | overlap x h e => exact key _ (.overlap (likeE_total e)) (by simp only [BWorld.mstep, fallible_total]) (by simp only [BWorld.mstepT, fallible_total])
    | overlapWhole x e => exact key _ (.overlapWhole (likeE_total e)) (by simp only [BWorld.mstep, fallible_total]) (by simp only [BWorld.mstepT, fallible_total])
    | set x e => exact key _ (.set (likeE_total e)) (by simp only [BWorld.mstep, fallible_total]) (by simp only [BWorld.mstepT, fallible_total])

/-- An array in the state is one in the specification. -/
theorem flat_live (H : BHolds W S lost) {x : Nat} {c : Arr} (h : (W.flat Arith.exact).env x = some c) : ∃ a, S.live x = some a ∧ c.ext = a.ext := by
  have HF := bholds_flat H
  cases hl : S.live x with
  | none => rw [HF.out x hl] at h; cases h
  | some a =>
    obtain ⟨_, c', k1, k2, _⟩ := HF.arr x a hl
    rw [h] at k1; cases k1
    exact ⟨a, rfl, k2⟩

theorem good_of (H : BHolds W S lost) {x : Nat} {h : List Ix} (hs : ¬ StuckChain S x h) : Good (W.flat Arith.exact) x h := by
  by_cases h0 : h = []
  · exact .inl h0
  · refine .inr ⟨fun he => hs ⟨h0, .inl he⟩, fun c hc hf => ?_⟩
    obtain ⟨a, ha, he⟩ := flat_live H hc
    exact hs ⟨h0, .inr ⟨a, ha, he ▸ hf⟩⟩

theorem relB_declare {r r' : Res (BWorld α × Bool)} (h : RelB U W r r') (d : Option Nat) :
    RelB U W (r >>= fun r => .ok (if r.2 then r else (r.1.declare d, false))) (r' >>= fun r => .ok (if r.2 then r else (r.1.declare d, false))) := by
  rcases h with ⟨rfl, h⟩ | ⟨rfl, ⟨ck, rfl⟩ | ⟨rfl, h⟩⟩
  · refine relB_refl fun hr => ?_
    cases r' with
    | ok q => cases hr
    | error f => exact h (by simpa using hr)
  · exact .inr ⟨rfl, .inl ⟨ck, rfl⟩⟩
  · exact .inr ⟨rfl, .inr ⟨rfl, h⟩⟩

theorem bstepT_calm {s : MStmt α} (hd : ¬ IsDrop s) (A : Arith) :
    W.stepT A nx T alloc (.calm s) = (do
      let r ← W.mstepT A nx T alloc s
      .ok (if r.2 then r else (r.1.declare (XStmt.calm s).declares, false))) := by
  cases s with
  | old s =>
    cases s with
    | drop x => exact (hd trivial).elim
    | _ => rfl
  | _ => rfl

/-- One statement in the two builds. -/
theorem relB_step [Nonempty α] (H : BHolds W S lost) (hal : GoodBlocks alloc) {s : XStmt α} {Γ' : Ctx} (hc : xcheck (sctx S) s = some Γ') (hp : XProvided s)
    (hd : ∀ x, S.moved x ≠ none → ¬ XMisuses x s) :
    RelB (XUncatchable S s) W (W.step Arith.exact true nx T alloc s) (W.stepT Arith.exactThrows nx T alloc s) := by
  unfold xcheck at hc
  rw [Option.bind_eq_some_iff] at hc
  obtain ⟨t, ht, hc⟩ := hc
  have hd' : ∀ x, S.moved x ≠ none → ¬ Misuses x t := fun x hx h => hd x hx ⟨t, ht, h⟩
  have hU : ¬ XUncatchable S s → AllGood W (mchains t) := fun hu p hp => good_of H fun hst => hu ⟨t, ht, .inl ⟨p.1, p.2, hp, hst⟩⟩
  have hU' : ∀ x, t = .old (.moveAssign x x) → XUncatchable S s := fun x hx => ⟨t, ht, .inr ⟨x, hx⟩⟩
  cases s with
  | wild s =>
    simp only [erase, Option.map_eq_some_iff] at ht
    obtain ⟨u, hu, rfl⟩ := ht
    refine relB_declare (d := s.declares) (relB_alike (T := T) (nx := nx) H hal (alike_shape hu hp) hc ?_ hd' hU)
    intro hnf
    cases s with
    | makeFrom x l ext =>
      simp only [shapeS, Option.some.injEq] at hu
      exact (hnf _ _ _ hu.symm).elim
    | _ => exact hp _ hu
  | calm t' =>
    have hnd : ¬ IsDrop t' := by
      intro h
      cases t' with
      | old u =>
        cases u with
        | drop x => cases ht
        | _ => exact h
      | _ => exact h
    have htt : t = t' := by
      cases t' with
      | old u =>
        cases u with
        | drop x => cases ht
        | _ => cases ht; rfl
      | _ => cases ht; rfl
    subst htt
    rw [bstep_calm true nx alloc hnd, bstepT_calm hnd]
    exact relB_declare (relB_mstep H hal hnd hc hp hd' hU hU') _

/-! ### Leaving blocks -/

theorem leave_throws : W.leave Arith.exactThrows true nx T alloc = W.leave Arith.exact true nx T alloc := rfl

theorem give_throws (x y : Nat) : W.give Arith.exactThrows true nx T alloc x y = W.give Arith.exact true nx T alloc x y := rfl


/-! ### No zero extents -/

/-- No array with elements that can be used has a zero extent, in two or more dimensions. -/
def NoFlatS (S : MStore α) : Prop := ∀ x a, S.live x = some a → ¬ Flat a.ext

/-- The same for all arrays in scope. -/
def NoFlatB (W : BWorld α) : Prop := ∀ x o, W.env x = some o → NZ o.ext

theorem nz_of_prod {d : List Nat} (h : prod d ≠ 0) : NZ d := fun _ x hx h0 => h (by
  subst h0
  exact prod_zero_mem hx)

theorem noFlat_b (H : BHolds W S lost) (h : NoFlatS S) : NoFlatB W := by
  intro x o ho
  cases hl : S.live x with
  | some a =>
    obtain ⟨p, he, _⟩ := bholds_env H hl
    rw [ho] at he; cases he
    exact not_flat.1 (h x a hl)
  | none =>
    cases hm : S.moved x with
    | none => rw [H.out x ⟨hl, hm⟩] at ho; cases ho
    | some d =>
      obtain ⟨_, _, h3, h4⟩ := H.moved x d hm
      rw [ho] at h4; cases h4
      exact nz_of_prod h3

theorem noFlat_s (H : BHolds W S lost) (h : NoFlatB W) : NoFlatS S := by
  intro x a ha
  obtain ⟨p, he, _⟩ := bholds_env H ha
  exact not_flat.2 (h x _ he)

theorem noFlat_flat (h : NoFlatB W) : NoFlat (W.flat Arith.exact) := by
  intro x c hc
  have hc : (W.env x).bind (fun o => if o.hollow Arith.exact then none else some (⟨o.ptr.getD 0, o.ext⟩ : Arr)) = some c := hc
  rw [Option.bind_eq_some_iff] at hc
  obtain ⟨o, h1, h2⟩ := hc
  split at h2
  · cases h2
  · cases h2; exact not_flat.2 (h x o h1)

theorem fex_nz {w : World α} (H : Intact w) (hf : NoFlat w) : ∀ {e : FEx α}, (∀ p ∈ exChains (shapeE e), ¬ EmptySel p.2) → ∀ {src : FSrc α},
    e.eval Arith.exact true w = .ok src → NZ src.dims
  | .arr x h, hc, src, hs => by
    obtain ⟨o, ho, hs⟩ := res_bind_ok.1 hs
    unfold FSrc.ofObj at hs
    cases hd : o.dims with
    | none => rw [hd] at hs; cases hs
    | some d =>
      rw [hd] at hs
      obtain ⟨ps, _, hs⟩ := res_bind_ok.1 hs
      cases hs
      exact windex_nz H hf (hc (x, h) (by simp [shapeE, exChains])) ho hd
  | .un f e, hc, src, hs => by
    obtain ⟨s1, h1, hs⟩ := res_bind_ok.1 hs
    cases hs
    exact fex_nz H hf (e := e) hc (src := s1) h1
  | .bin f a b, hc, src, hs => by
    obtain ⟨s1, h1, hs⟩ := res_bind_ok.1 hs
    obtain ⟨s2, h2, hs⟩ := res_bind_ok.1 hs
    have := fex_nz H hf (e := a) (fun p hp => hc p (by simp [shapeE, exChains, hp])) h1
    unfold FSrc.zip at hs
    split at hs
    · cases hs
    · obtain ⟨_, _, hs⟩ := res_bind_ok.1 hs
      cases hs
      exact this
  | .scl f s e, hc, src, hs => by
    obtain ⟨c, _, hs⟩ := res_bind_ok.1 hs
    obtain ⟨v, _, hs⟩ := res_bind_ok.1 hs
    obtain ⟨s1, h1, hs⟩ := res_bind_ok.1 hs
    cases hs
    exact fex_nz H hf (e := e) (fun p hp => hc p (by simp [shapeE, exChains, hp])) (src := s1) h1
  | .scr f e s, hc, src, hs => by
    obtain ⟨s1, h1, hs⟩ := res_bind_ok.1 hs
    obtain ⟨c, _, hs⟩ := res_bind_ok.1 hs
    obtain ⟨v, _, hs⟩ := res_bind_ok.1 hs
    cases hs
    exact fex_nz H hf (e := e) (fun p hp => hc p (by simp [shapeE, exChains, hp])) (src := s1) h1

/-- The extents of the result. -/
def BExt (d : List Nat) (m : BM α Own) : Prop := ∀ p o p', m p = .ok o p' → o.ext = d

theorem bext_pure (p : Option Nat) (d : List Nat) : BExt d (pure ⟨p, d⟩ : BM α Own) := fun _ _ _ h => by cases h; rfl

theorem bext_bind {γ : Type} {d : List Nat} {x : BM α γ} {k : γ → BM α Own} (h : ∀ b, BExt d (k b)) : BExt d (x >>= k) := by
  intro p o p' hp
  simp only [bm_bind, BM.bind] at hp
  cases hx : x p with
  | ok b p1 => rw [hx] at hp; exact h b _ _ _ hp
  | exn p1 => rw [hx] at hp; cases hp
  | fail f => rw [hx] at hp; cases hp

theorem bext_die (d : List Nat) (f : Fail) : BExt d (BM.die f : BM α Own) := fun _ _ _ h => by cases h

theorem bext_new (d : List Nat) (src : Nat → Mem α → Res α) : BExt d (newB Arith.exact T nx alloc d src) :=
  bext_bind fun _ => bext_bind fun _ => bext_pure _ _

theorem bext_overlapWhole (o : Own) (src : FSrc α) : BExt src.dims (overlapWholeB Arith.exact T nx alloc o src) := by
  intro p o' p' h
  unfold overlapWholeB at h
  simp only [bm_bind, BM.bind] at h
  cases hx : newB Arith.exact T nx alloc src.dims (fun k m => src.it.deref m k) p with
  | ok b p1 =>
    rw [hx] at h
    dsimp only at h
    cases hy : clearB Arith.exact o p1 with
    | ok b' p2 => rw [hy] at h; cases h; exact bext_new _ _ _ _ _ hx
    | exn p1 => rw [hy] at h; cases h
    | fail f => rw [hy] at h; cases h
  | exn p1 => rw [hx] at h; cases h
  | fail f => rw [hx] at h; cases h

theorem bext_set (o : Own) (src : FSrc α) : BExt src.dims (setB Arith.exact T nx alloc o src) := by
  unfold setB
  split
  · split
    · exact bext_die _ _
    · split
      · exact bext_die _ _
      · split
        · split
          · exact bext_pure _ _
          · exact bext_die _ _
        · exact bext_bind fun _ => bext_pure _ _
  · exact bext_bind fun _ => bext_bind fun _ => bext_bind fun _ => bext_pure _ _

theorem noFlatB_put {W' : BWorld α} (h : NoFlatB W') {x : Nat} {o : Own} (ho : NZ o.ext) : NoFlatB (W'.put x (some o)) := by
  intro y o' hy
  have hy : (if y = x then some o else W'.env y) = some o' := hy
  split at hy
  · cases hy; exact ho
  · exact h y o' hy

/-- What a statement leaves. -/
def KeepsNZ (r : Res (BWorld α × Bool)) : Prop := ∀ q, r = .ok q → NoFlatB q.1

theorem knz_bind {γ : Type} {r : Res γ} {g : γ → Res (BWorld α × Bool)} (h : ∀ b, r = .ok b → KeepsNZ (g b)) : KeepsNZ (r >>= g) := by
  intro q hq
  obtain ⟨b, h1, h2⟩ := res_bind_ok.1 hq
  exact h b h1 q h2

theorem knz_stored (hW : NoFlatB W) {x : Nat} {d : List Nat} (hd : NZ d) {m : BM α Own} (hm : BExt d m) : KeepsNZ (W.stored x (m W.pool)) := by
  intro q hq
  cases hr : m W.pool with
  | ok o p => rw [hr] at hq; cases hq; exact noFlatB_put (W' := { W with pool := p }) hW (by rw [hm _ _ _ hr]; exact hd)
  | exn p => rw [hr] at hq; cases hq; exact hW
  | fail f => rw [hr] at hq; cases hq

theorem knz_wrote (hW : NoFlatB W) (r : BOut α Unit) : KeepsNZ (W.wrote r) := by
  intro q hq
  cases r with
  | ok o p => cases hq; exact hW
  | exn p => cases hq; exact hW
  | fail f => cases hq

theorem own_nz (hW : NoFlatB W) {x : Nat} {o : Own} (h : W.own x = .ok o) : NZ o.ext := by
  unfold BWorld.own at h
  cases he : W.env x with
  | none => rw [he] at h; cases h
  | some o' => rw [he] at h; cases h; exact hW x _ he

theorem knz_alike (H : BHolds W S lost) (hW : NoFlatB W) {s : FStmt α} {t : Stmt α} (ha : Alike s t) (hs : Cautious t) :
    KeepsNZ (W.fstep Arith.exact true nx T alloc s) := by
  have hx : ∀ {e : FEx α} {src : FSrc α}, (∀ p ∈ exChains (shapeE e), ¬ EmptySel p.2) → e.eval Arith.exact true (W.flat Arith.exact) = .ok src → NZ src.dims :=
    fun hc he => fex_nz (holds_intact (bholds_flat H)) (noFlat_flat hW) hc he
  cases ha with
  | make he => exact knz_bind fun _ _ => knz_bind fun _ _ => knz_bind fun src hsrc =>
      knz_stored hW (hx (fun p hp => hs p (by rw [he.chains] at hp; exact hp)) hsrc) (bext_new _ _)
  | makeFrom hl => exact knz_bind fun _ _ => knz_bind fun _ _ => knz_stored hW (not_flat.1 hs) (bext_new _ _)
  | assign he => exact knz_bind fun _ _ => knz_bind fun _ _ => knz_bind fun _ _ => knz_bind fun _ _ => knz_wrote hW _
  | inPlace he => exact knz_bind fun _ _ => knz_bind fun _ _ => knz_bind fun _ _ => knz_wrote hW _
  | inPlaceScalar => exact knz_bind fun _ _ => knz_bind fun _ _ => knz_bind fun _ _ => knz_wrote hW _
  | apply => exact knz_bind fun _ _ => knz_bind fun _ _ => knz_wrote hW _
  | overlap he => exact knz_bind fun _ _ => knz_bind fun _ _ => knz_bind fun _ _ => knz_bind fun _ _ => knz_wrote hW _
  | overlapWhole he =>
    refine knz_bind fun o _ => knz_bind fun _ _ => knz_bind fun src hsrc => knz_bind fun _ _ => ?_
    exact knz_stored hW (hx (fun p hp => hs p (by rw [he.chains] at hp; exact hp)) hsrc) (bext_overlapWhole _ _)
  | set he =>
    rename_i x e e'
    have hc : ∀ p ∈ exChains (shapeE e), ¬ EmptySel p.2 := fun p hp => hs p (by rw [he.chains] at hp; exact hp)
    have main : ∀ o : Own, KeepsNZ (e.eval Arith.exact true (W.flat Arith.exact) >>= fun src => sameRank o src.dims >>= fun _ =>
        W.stored x (setB Arith.exact T nx alloc o src W.pool)) := fun o =>
      knz_bind fun src hsrc => knz_bind fun _ _ => knz_stored hW (hx hc hsrc) (bext_set _ _)
    cases e with
    | arr y h =>
      cases h with
      | nil =>
        simp only [BWorld.fstep]
        refine knz_bind fun o _ => ?_
        split
        · intro q hq; cases hq; exact hW
        · exact knz_bind fun _ _ => main o
      | cons i h => exact knz_bind fun o _ => knz_bind fun _ _ => main o
    | _ => exact knz_bind fun o _ => knz_bind fun _ _ => main o

theorem knz_mstep (H : BHolds W S lost) (hW : NoFlatB W) {t : MStmt α} (hnd : ¬ IsDrop t) (hp : XProvided (.calm t)) (hs : XCautious (.calm t)) :
    KeepsNZ (W.mstep Arith.exact true nx T alloc t) := by
  cases t with
  | declare x n =>
    have hn : n = 1 := hs _ rfl
    subst hn
    refine knz_bind fun _ _ => knz_bind fun _ _ => ?_
    intro q hq; cases hq
    exact noFlatB_put hW fun h => (h rfl).elim
  | moveMake x y =>
    refine knz_bind fun _ _ => knz_bind fun o ho => ?_
    intro q hq; cases hq
    have hz := own_nz hW ho
    exact noFlatB_put (noFlatB_put hW hz) hz
  | old u =>
    have key : ∀ s : FStmt α, Alike s u → Cautious u → W.mstep Arith.exact true nx T alloc (.old u) = W.fstep Arith.exact true nx T alloc s →
        KeepsNZ (W.mstep Arith.exact true nx T alloc (.old u)) := by
      intro s h1 hs h2
      rw [h2]
      exact knz_alike H hW h1 hs
    cases u with
    | drop x => exact (hnd trivial).elim
    | moveAssign x y =>
      refine knz_bind fun _ _ => knz_bind fun o ho => knz_bind fun o' ho' => knz_bind fun _ _ => ?_
      intro q hq; cases hq
      exact noFlatB_put (noFlatB_put hW (own_nz hW ho')) (own_nz hW ho)
    | makeFill x s ext =>
      have hs : Cautious (.makeFill x s ext : Stmt α) := hs _ rfl
      exact knz_bind fun _ _ => knz_bind fun _ _ => knz_bind fun _ _ => knz_bind fun _ _ => knz_stored hW (not_flat.1 hs.2) (bext_new _ _)
    | fill x h s => exact knz_bind fun _ _ => knz_bind fun _ _ => knz_bind fun _ _ => knz_bind fun _ _ => knz_wrote hW _
    | make x e => exact key _ (.make (likeE_total e)) (hs _ rfl) (by simp only [BWorld.mstep, fallible_total])
    | makeFrom x l ext => exact key _ (.makeFrom (by rw [List.length_map]; exact hp)) (hs _ rfl) rfl
    | assign x h e => exact key _ (.assign (likeE_total e)) (hs _ rfl) (by simp only [BWorld.mstep, fallible_total])
    | inPlace x h op e => exact key (.inPlace x h (fun u y => (op u y, false)) (totalE e)) (.inPlace (likeE_total e)) (hs _ rfl) (by simp only [BWorld.mstep, fallible_total])
    | inPlaceScalar x h op s => exact key _ .inPlaceScalar (hs _ rfl) rfl
    | apply x h f => exact key _ .apply (hs _ rfl) rfl
    | overlap x h e => exact key _ (.overlap (likeE_total e)) (hs _ rfl) (by simp only [BWorld.mstep, fallible_total])
    | overlapWhole x e => exact key _ (.overlapWhole (likeE_total e)) (hs _ rfl) (by simp only [BWorld.mstep, fallible_total])
    | set x e => exact key _ (.set (likeE_total e)) (hs _ rfl) (by simp only [BWorld.mstep, fallible_total])

theorem declare_env (W : BWorld α) (d : Option Nat) : (W.declare d).env = W.env := by
  cases d with
  | none => rfl
  | some x => unfold BWorld.declare; cases W.scopes <;> rfl

theorem knz_declare {r : Res (BWorld α × Bool)} (h : KeepsNZ r) (d : Option Nat) :
    KeepsNZ (r >>= fun r => .ok (if r.2 then r else (r.1.declare d, false))) := by
  refine knz_bind fun q hq => ?_
  intro q' hq'
  cases hq'
  cases hb : q.2 with
  | true => exact h q hq
  | false =>
    intro x o ho
    have ho : (q.1.declare d).env x = some o := ho
    rw [declare_env] at ho
    exact h q hq x o ho

theorem knz_step [Nonempty α] (H : BHolds W S lost) (hal : GoodBlocks alloc) {s : XStmt α} {Γ' : Ctx} (hc : xcheck (sctx S) s = some Γ') (hp : XProvided s)
    (hd : ∀ x, S.moved x ≠ none → ¬ XMisuses x s) (hW : NoFlatB W) (hs : XCautious s) : KeepsNZ (W.stepT Arith.exactThrows nx T alloc s) := by
  have hstep : KeepsNZ (W.step Arith.exact true nx T alloc s) := by
    unfold xcheck at hc
    rw [Option.bind_eq_some_iff] at hc
    obtain ⟨t, ht, _⟩ := hc
    cases s with
    | wild s =>
      simp only [erase, Option.map_eq_some_iff] at ht
      obtain ⟨u, hu, rfl⟩ := ht
      exact knz_declare (knz_alike H hW (alike_shape hu hp) (hs (.old u) (by simp [erase, hu]))) s.declares
    | calm t' =>
      have hnd : ¬ IsDrop t' := by
        intro h
        cases t' with
        | old u =>
          cases u with
          | drop x => cases ht
          | _ => exact h
        | _ => exact h
      rw [bstep_calm true nx alloc hnd]
      exact knz_declare (knz_mstep H hW hnd hp hs) _
  intro q hq
  rcases relB_step (T := T) (nx := nx) H hal hc hp hd with ⟨e, _⟩ | ⟨_, ⟨ck, e⟩ | ⟨e, _⟩⟩
  · rw [e] at hq; exact hstep q hq
  · rw [e] at hq; cases hq; exact hW
  · rw [e] at hq; cases hq

/-- A cautious statement is not uncatchable. -/
theorem cautious_catchable (h : NoFlatS S) {s : XStmt α} (hs : XCautious s) : ¬ XUncatchable S s := by
  rintro ⟨t, ht, hu⟩
  have hc := hs t ht
  cases t with
  | declare x n => rcases hu with ⟨_, _, hm, _⟩ | ⟨_, hm⟩ <;> cases hm
  | moveMake x y => rcases hu with ⟨_, _, hm, _⟩ | ⟨_, hm⟩ <;> cases hm
  | old u =>
    have hc : Cautious u := hc
    rcases hu with ⟨x, k, hm, _, he | ⟨a, ha, hf⟩⟩ | ⟨x, hm⟩
    · have hm : (x, k) ∈ chains u := hm
      cases u <;> first | exact hc _ hm he | (simp only [chains] at hm; first | exact hc.1 _ hm he | cases hm)
    · exact h x a ha hf
    · cases hm; exact hc rfl

end
end Jules

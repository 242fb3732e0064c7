import Verif.Lemmas.BlockSteps64
import Verif.Props.Blocks
import Verif.Props.Program64
/-
Lemmas for C88: programs that fit.
-/
namespace Jules
open Spec Props

section
variable {α β : Type} {W : BWorld α} {w : World α} {S : MStore α} {lost : List Nat} {T : Nat → Bool} {nx chk : Bool}
  {alloc : Nat → List (Nat × Nat) → Nat → Option Nat}

/-! ### Checked builds -/

theorem exFits_total {E : Exts} : ∀ {e : PEx α}, ExFits E e → ExFits E (shapeE (totalE e))
  | .arr _ _, h => h
  | .un _ e, h => exFits_total (e := e) h
  | .bin _ _ _, h => ⟨exFits_total h.1, exFits_total h.2⟩
  | .scl _ _ _, h => ⟨h.1, exFits_total h.2⟩
  | .scr _ _ _, h => ⟨exFits_total h.1, h.2⟩

theorem held_of_below (h : BelowB W) : Held (blockExts W) := by
  intro x e hx
  simp only [blockExts, worldExts, Option.map_eq_some_iff] at hx
  obtain ⟨c, hc, rfl⟩ := hx
  obtain ⟨o, h1, h2, _⟩ := flat_own hc
  rw [← h2]
  exact (h x o h1).2.2.1

theorem xagree_checked (h : BelowB W) {s : XStmt α} (hf : XFits (blockExts W) s) : XAgree (W.flat Arith.exact) true s := by
  have hb := flat_below h
  have hne := flat_shaped h
  cases s with
  | calm s =>
    cases s with
    | declare x n => trivial
    | moveMake x y => trivial
    | old s =>
      cases s
      case drop x => trivial
      all_goals obtain ⟨h1, h2⟩ := hf (held_of_below h) _ rfl
      case make x e => exact exA_of hb hne (exFits_total h1)
      case makeFill x s ext => exact ⟨sc_agr hb hne h1.1, h1.2, h2⟩
      case makeFrom x l ext => exact ⟨h1, h2⟩
      case fill x hh s => exact ⟨ixA_of hb hne h1.1, sc_agr hb hne h1.2⟩
      case assign x hh e => exact ⟨ixA_of hb hne h1.1, exA_of hb hne (exFits_total h1.2)⟩
      case inPlace x hh op e => exact ⟨ixA_of hb hne h1.1, exA_of hb hne (exFits_total h1.2)⟩
      case inPlaceScalar x hh op s => exact ⟨ixA_of hb hne h1.1, sc_agr hb hne h1.2⟩
      case apply x hh f => exact ixA_of hb hne h1
      case overlap x hh e => exact ⟨ixA_of hb hne h1.1, exA_of hb hne (exFits_total h1.2)⟩
      case overlapWhole x e => exact exA_of hb hne (exFits_total h1)
      case set x e => exact exA_of hb hne (exFits_total h1)
      case moveAssign x y => trivial
  | wild s =>
    cases s
    case plain s => trivial
    all_goals obtain ⟨h1, h2⟩ := hf (held_of_below h) _ rfl
    case make x e => exact exA_of hb hne h1
    case makeFrom x l ext => exact ⟨h1, h2⟩
    case assign x hh e => exact ⟨ixA_of hb hne h1.1, exA_of hb hne h1.2⟩
    case inPlace x hh op e => exact ⟨ixA_of hb hne h1.1, exA_of hb hne h1.2⟩
    case inPlaceScalar x hh op s => exact ⟨ixA_of hb hne h1.1, sc_agr hb hne h1.2⟩
    case apply x hh f => exact ixA_of hb hne h1
    case overlap x hh e => exact ⟨ixA_of hb hne h1.1, exA_of hb hne h1.2⟩
    case overlapWhole x e => exact exA_of hb hne h1
    case set x e => exact exA_of hb hne h1

/-- Weaker conditions along a run. -/
theorem along_mono {A : Arith} {P P' : BWorld α → XStmt α → Prop} {R R' : BWorld α → Sc α → Prop} {F F' : BWorld α → FEx α → Prop}
    (hP : ∀ W s, P W s → P' W s) (hR : ∀ W s, R W s → R' W s) (hF : ∀ W e, F W e → F' W e) : ∀ (p : Body α β) {W : BWorld α},
    Along A chk nx T alloc P R F W p → Along A chk nx T alloc P' R' F' W p := by
  intro p
  induction p with
  | ret b => intro W _; trivial
  | throw => intro W _; trivial
  | exec s k ih => intro W h; exact ⟨hP _ _ h.1, fun W' hW' => ih (h.2 W' hW')⟩
  | read s k ih => intro W h; exact ⟨hR _ _ h.1, fun c v p h1 h2 => ih v (h.2 c v p h1 h2)⟩
  | elements e k ih => intro W h; exact ⟨hF _ _ h.1, fun src xs p h1 h2 => ih _ _ (h.2 src xs p h1 h2)⟩
  | block body k ih ih' => intro W h; exact ⟨ih h.1, fun W₁ W₂ b h1 h2 => ih' b (h.2 W₁ W₂ b h1 h2)⟩
  | call x y body k ih ih' => intro W h; exact ⟨ih h.1, fun W₁ W₂ W₃ b h1 h2 h3 => ih' b (h.2 W₁ W₂ W₃ b h1 h2 h3)⟩
  | attempt body handler k ih ihh ih' =>
    intro W h
    refine ⟨ih h.1, fun W₁ W₂ b h1 h2 => ih' b (h.2.1 W₁ W₂ b h1 h2), fun W₁ W₂ h1 h2 => ?_⟩
    obtain ⟨q1, q2⟩ := h.2.2 W₁ W₂ h1 h2
    exact ⟨ihh q1, fun W₃ W₄ b h3 h4 => ih' b (q2 W₃ W₄ b h3 h4)⟩

theorem fitsRun_agrees {p : Body α β} (h : FitsRunB nx T alloc W p) : AgreeRun Arith.u64 true nx T alloc W p :=
  along_mono (fun _ _ hf h => xagree_checked h hf) (fun _ _ hf h => sc_agr (flat_below h) (flat_shaped h) (hf (held_of_below h)))
    (fun _ _ hf h => exA_of (flat_below h) (flat_shaped h) (hf (held_of_below h))) p h

/-! ### Legal programs, in both builds -/

theorem weak_fex (A : Arith) (w : World α) : ∀ e : FEx α, Weak (e.eval A true w) (e.eval A false w)
  | .arr x h => weak_bind (weak_wIndex A w x h) fun _ => .refl _
  | .un _ e => weak_bind (weak_fex A w e) fun _ => .refl _
  | .bin _ a b => weak_bind (weak_fex A w a) fun _ => weak_bind (weak_fex A w b) fun _ => by
    unfold FSrc.zip
    split
    · exact .refl _
    · exact weak_bind (fun u _ => rfl) fun _ => .refl _
  | .scl _ s e => weak_bind (weak_sc A w s) fun _ => weak_bind (.refl _) fun _ => weak_bind (weak_fex A w e) fun _ => .refl _
  | .scr _ e s => weak_bind (weak_fex A w e) fun _ => weak_bind (weak_sc A w s) fun _ => weak_bind (.refl _) fun _ => .refl _

/-- What succeeds with checks agrees without them. -/
theorem agr_loose {γ : Type} {f : Arith → Bool → Res γ} {P : γ → Prop} (h : Agr (f Arith.u64 true) (f Arith.exact true) P)
    (hw : ∀ A, Weak (f A true) (f A false)) {b : γ} (hb : f Arith.exact true = .ok b) : ∀ chk, Agr (f Arith.u64 chk) (f Arith.exact chk) P
  | true => h
  | false => by
    rw [hw Arith.exact b hb, hw Arith.u64 b (h.1.trans hb)]
    exact agr_ok (h.2 b hb)

theorem ixA_legal (H : HoldsStore w A) {x : Nat} {a : AVal α} (ha : A x = some a) {h : List Ix} {v : IView} (hc : Chain a.ext h v) (hi : IxA w true x h) (chk : Bool) :
    IxA w chk x h := by
  obtain ⟨c, o, _, _, h3, _⟩ := index_ok H ha hc true
  exact agr_loose (f := fun A chk => w.index A chk x h) hi (fun A => weak_wIndex A w x h) h3 chk

theorem scA_legal (H : HoldsStore w A) {s : Sc α} (hs : ScLegal A s) (hi : ScA w true s) (chk : Bool) : ScA w chk s := by
  obtain ⟨c, _, h1, _⟩ := sc_ok H hs true
  exact (agr_loose (f := fun A chk => s.eval A chk w) (P := fun _ => True) ⟨hi, fun _ _ => trivial⟩ (fun A => weak_sc A w s) h1 chk).1

theorem exA_legal (H : HoldsStore w A) {d : List Nat} (hd : d ≠ []) {e : FEx α} (he : ExLegal A d (shapeE e)) (hi : ExA w true e) (chk : Bool) : ExA w chk e := by
  obtain ⟨src, h1, _⟩ := fex_ok H hd true he
  exact agr_loose (f := fun A chk => e.eval A chk w) hi (fun A => weak_fex A w e) h1 chk

theorem ne_nil_of_len {a b : List Nat} (h : a.length = b.length) (hb : b ≠ []) : a ≠ [] := by
  rintro rfl
  exact hb (List.length_eq_zero_iff.1 h.symm)

theorem fagree_legal (H : HoldsStore w S.live) {s : FStmt α} (hl : FLegal S.live s) (hp : ∀ t, s ≠ .plain t) (hi : FAgree w true s) (chk : Bool) : FAgree w chk s := by
  cases s with
  | plain s => exact (hp s rfl).elim
  | make x e => obtain ⟨_, d, hd, he⟩ := hl; exact exA_legal H hd he hi chk
  | makeFrom x l ext => exact hi
  | assign x h e =>
    obtain ⟨_, a, v, ha, hc, hv, _, he, _⟩ := hl
    exact ⟨ixA_legal H ha hc hi.1 chk, exA_legal H hv he hi.2 chk⟩
  | inPlace x h op e =>
    obtain ⟨a, v, ha, hc, hv, _, he, _⟩ := hl
    exact ⟨ixA_legal H ha hc hi.1 chk, exA_legal H hv he hi.2 chk⟩
  | inPlaceScalar x h op s =>
    obtain ⟨hs, a, v, ha, hc, _⟩ := hl
    exact ⟨ixA_legal H ha hc hi.1 chk, scA_legal H hs hi.2 chk⟩
  | apply x h f =>
    obtain ⟨a, v, ha, hc, _⟩ := hl
    exact ixA_legal H ha hc hi chk
  | overlap x h e =>
    obtain ⟨_, a, v, ha, hc, hv, _, he⟩ := hl
    exact ⟨ixA_legal H ha hc hi.1 chk, exA_legal H hv he hi.2 chk⟩
  | overlapWhole x e =>
    obtain ⟨a, d, ha, hd, he⟩ := hl
    exact exA_legal H (ne_nil_of_len hd (H.arr x a ha).1) he hi chk
  | set x e =>
    obtain ⟨a, d, ha, hd, he, _⟩ := hl
    exact exA_legal H (ne_nil_of_len hd (H.arr x a ha).1) he hi chk

/-- The whole array, whatever it is. -/
theorem exA_whole (h : BelowB W) (x : Nat) (chk : Bool) : ExA (W.flat Arith.exact) chk (.arr x []) := by
  have : ExA (W.flat Arith.exact) true (.arr x []) := exA_of (flat_below h) (flat_shaped h) (e := .arr x []) fun e _ => trivial
  cases chk with
  | true => exact this
  | false => exact this

theorem xagree_legal (H : BHolds W S lost) (h : BelowB W) {s : XStmt α} (hl : XLegal S s) (hf : XFits S.live.exts s) (chk : Bool) : XAgree (W.flat Arith.exact) chk s := by
  have HF := bholds_flat H
  have hi : XAgree (W.flat Arith.exact) true s := xagree_checked h (by rw [blockExts, holds_exts HF]; exact hf)
  cases s with
  | wild s =>
    refine fagree_legal HF hl.1 ?_ hi chk
    rintro t rfl
    obtain ⟨_, x, hx, _⟩ := hl
    cases hx
  | calm s =>
    cases s with
    | declare x n => trivial
    | moveMake x y => trivial
    | old s =>
      obtain ⟨hl, _⟩ := hl
      cases s with
      | make x e => obtain ⟨_, _, d, hd, he⟩ := hl; exact exA_legal HF hd ((exLegal_total d e).2 he) hi chk
      | makeFill x s ext => exact ⟨scA_legal HF hl.2.2.2 hi.1 chk, hi.2⟩
      | makeFrom x l ext => exact hi
      | drop x => trivial
      | fill x hh s =>
        obtain ⟨_, hs, a, v, ha, hc⟩ := hl
        exact ⟨ixA_legal HF ha hc hi.1 chk, scA_legal HF hs hi.2 chk⟩
      | assign x hh e =>
        obtain ⟨_, a, v, ha, hc, hv, _, he, _⟩ := hl
        exact ⟨ixA_legal HF ha hc hi.1 chk, exA_legal HF hv ((exLegal_total _ e).2 he) hi.2 chk⟩
      | inPlace x hh op e =>
        obtain ⟨a, v, ha, hc, hv, _, he, _⟩ := hl
        exact ⟨ixA_legal HF ha hc hi.1 chk, exA_legal HF hv ((exLegal_total _ e).2 he) hi.2 chk⟩
      | inPlaceScalar x hh op s =>
        obtain ⟨hs, a, v, ha, hc, _⟩ := hl
        exact ⟨ixA_legal HF ha hc hi.1 chk, scA_legal HF hs hi.2 chk⟩
      | apply x hh f =>
        obtain ⟨a, v, ha, hc, _⟩ := hl
        exact ixA_legal HF ha hc hi chk
      | overlap x hh e =>
        obtain ⟨_, a, v, ha, hc, hv, _, he⟩ := hl
        exact ⟨ixA_legal HF ha hc hi.1 chk, exA_legal HF hv ((exLegal_total _ e).2 he) hi.2 chk⟩
      | overlapWhole x e =>
        rcases hl with ⟨a, d, ha, hd, he⟩ | ⟨d, d', hm, hd, he⟩
        · exact exA_legal HF (ne_nil_of_len hd (HF.arr x a ha).1) ((exLegal_total _ e).2 he) hi chk
        · exact exA_legal HF (ne_nil_of_len hd (H.moved x d hm).2.1) ((exLegal_total _ e).2 he) hi chk
      | set x e =>
        rcases hl with ⟨a, d, ha, hd, he, _⟩ | ⟨d, hm, rfl | ⟨d', hd, he, _⟩⟩
        · exact exA_legal HF (ne_nil_of_len hd (HF.arr x a ha).1) ((exLegal_total _ e).2 he) hi chk
        · exact exA_whole h x chk
        · exact exA_legal HF (ne_nil_of_len hd (H.moved x d hm).2.1) ((exLegal_total _ e).2 he) hi chk
      | moveAssign x y => trivial

/-- A legal program that fits. -/
theorem legal_agrees [Nonempty α] {nx : Bool} (chk : Bool) {alloc : Nat → List (Nat × Nat) → Nat → Option Nat} (hal : GoodBlocks alloc) : ∀ (p : Body α β) {W : BWorld α}
    {S : MStore α} {lost : List Nat} {f : List Nat} {fs : List (List Nat)}, LegalAny nx (MayFail T alloc) S p → FitsAny nx (MayFail T alloc) S p →
    BHolds W S lost → W.scopes = f :: fs → AgreeRun Arith.exact chk nx T alloc W p := by
  intro p
  induction p with
  | ret b => intro W S lost f fs _ _ _ _; trivial
  | throw => intro W S lost f fs _ _ _ _; trivial
  | exec s k ih =>
    intro W S lost f fs hl hg H hf
    obtain ⟨h1, h2⟩ := hl
    refine ⟨fun h => xagree_legal H h h1 hg.1 chk, fun W' hW' => ?_⟩
    rcases xout (T := T) H h1 hf chk nx hal with ⟨W₁, S₁, q1, q2, q3, q4, q5⟩ | ⟨W₁, S₁, lost', n, q1, q2, q3, q4, q5⟩ | ⟨q1, q2⟩
    · rw [q1] at hW'
      cases hW'
      exact ih (h2 S₁ q3) (hg.2 S₁ q3) q4 q5
    · rw [q1] at hW'; cases hW'
    · rw [q1] at hW'; cases hW'
  | read s k ih =>
    intro W S lost f fs hl hg H hf
    obtain ⟨h1, h2⟩ := hl
    have HF := bholds_flat H
    refine ⟨fun h => scA_legal HF h1 (sc_agr (flat_below h) (flat_shaped h) (by rw [holds_exts HF]; exact hg.1 (by rw [← holds_exts HF]; exact held_of_below h))) chk, fun c' v' p' hc' hp' => ?_⟩
    obtain ⟨c, v, e1, e2, e3, _⟩ := sc_ok (bholds_flat H) h1 chk
    rw [e1] at hc'
    cases hc'
    rcases scalarB_out (T := T) (p := W.pool) e2 with q | ⟨q, ha⟩
    · rw [q] at hp'
      cases hp'
      exact ih v' (h2 v' e3) (hg.2 v' e3) (bholds_clock H _) hf
    · rw [q] at hp'; cases hp'
  | elements e k ih =>
    intro W S lost f fs hl hg H hf
    obtain ⟨d, hd, he, h2⟩ := hl
    have HF := bholds_flat H
    refine ⟨fun h => exA_legal HF hd he (exA_of (flat_below h) (flat_shaped h) (by rw [holds_exts HF]; exact hg.1 (by rw [← holds_exts HF]; exact held_of_below h))) chk, fun src' xs' p' hc' hp' => ?_⟩
    obtain ⟨src, hu, e1, e2, ck, q⟩ := elementsB_out (T := T) (alloc := alloc) H hd he chk
    rw [e1] at hc'
    cases hc'
    rcases q with ⟨xs, q1, q2⟩ | ⟨q1, q2⟩
    · rw [q1] at hp'
      cases hp'
      rw [e2]
      exact ih d xs' (h2 xs' q2) (hg.2 d xs' q2) (bholds_clock H _) hf
    · rw [q1] at hp'; cases hp'
  | block body k ih ih' =>
    intro W S lost f fs hl hg H hf
    obtain ⟨h1, h2⟩ := hl
    refine ⟨ih (W := W.enter) h1 hg.1 (bholds_scopes H rfl rfl) rfl, fun W₁' W₂' b' hx1 hx2 => ?_⟩
    rcases binner (bruns (W := W.enter) (T := T) chk hal body (f := []) (fs := W.scopes) h1 (bholds_scopes H rfl rfl) rfl) hf with
      ⟨W₁, r, S₁, lost₁, n, g, e1, e2, _, e4, _, _, S₂, W₂, hL, k1, k2, k3, k4⟩ | ⟨S₁, n, e1, e2⟩
    · rw [e1] at hx1
      cases hx1
      rw [k1] at hx2
      cases hx2
      exact ih' b' (h2 S₁ S₂ b' n e2 hL) (hg.2 S₁ S₂ b' n e2 hL) k2 k3
    · rw [e1] at hx1; cases hx1
  | call x y body k ih ih' =>
    intro W S lost f fs hl hg H hf
    obtain ⟨h1, hy, h2⟩ := hl
    refine ⟨ih (W := W.enter) h1 hg.1 (bholds_scopes H rfl rfl) rfl, fun W₁' W₂' W₃' b' hx1 hx2 hx3 => ?_⟩
    rcases binner (bruns (W := W.enter) (T := T) chk hal body (f := []) (fs := W.scopes) h1 (bholds_scopes H rfl rfl) rfl) hf with
      ⟨W₁, r, S₁, lost₁, n, g, e1, e2, e3, e4, e5, e6, S₂, W₂, hL, k1, k2, k3, k4⟩ | ⟨S₁, n, e1, e2⟩
    · rw [e1] at hx1
      cases hx1
      obtain ⟨hm, h3⟩ := h2 S₁ b' n e2
      obtain ⟨S₃, he⟩ := meffect_exists (fun x d hx => (e3.moved x d hx).1) hm
      obtain ⟨S₄, hL'⟩ := left_exists (fun z => InScope S z ∨ z = x) S₃
      obtain ⟨⟨W₃, W₄, i1, i2, i3, i4⟩, i5⟩ := bgive_ok (T := T) e3 e6 e5 hy hm he hL' chk nx (alloc := alloc)
      obtain ⟨d1, d2, d3⟩ := bdeclare (i4.trans hf) (some x)
      rw [i1] at hx2
      cases hx2
      rw [i2] at hx3
      cases hx3
      exact ih' b' (h3 S₃ S₄ he hL') (hg.2 S₁ S₃ S₄ b' n e2 he hL') (bholds_scopes i3 d2 d3) d1
    · rw [e1] at hx1; cases hx1
  | attempt body handler k ih ihh ih' =>
    intro W S lost f fs hl hg H hf
    obtain ⟨h1, h2, h3⟩ := hl
    have hin := binner (bruns (W := W.enter) (T := T) chk hal body (f := []) (fs := W.scopes) h1 (bholds_scopes H rfl rfl) rfl) hf
    refine ⟨ih (W := W.enter) h1 hg.1 (bholds_scopes H rfl rfl) rfl, fun W₁' W₂' b' hx1 hx2 => ?_, fun W₁' W₂' hx1 hx2 => ?_⟩
    · rcases hin with ⟨W₁, r, S₁, lost₁, n, g, e1, e2, _, e4, _, _, S₂, W₂, hL, k1, k2, k3, k4⟩ | ⟨S₁, n, e1, e2⟩
      · rw [e1] at hx1
        cases hx1
        rw [k1] at hx2
        cases hx2
        exact ih' b' (h2 S₁ S₂ b' n e2 hL) (hg.2.1 S₁ S₂ b' n e2 hL) k2 k3
      · rw [e1] at hx1; cases hx1
    · rcases hin with ⟨W₁, r, S₁, lost₁, n, g, e1, e2, _, e4, _, _, S₂, W₂, hL, k1, k2, k3, k4⟩ | ⟨S₁, n, e1, e2⟩
      · rw [e1] at hx1
        cases hx1
        rw [k1] at hx2
        cases hx2
        obtain ⟨h4, h5⟩ := h3 S₁ S₂ n e2 hL
        obtain ⟨g4, g5⟩ := hg.2.2 S₁ S₂ n e2 hL
        refine ⟨ihh (W := W₂'.enter) h4 g4 (bholds_scopes k2 rfl rfl) rfl, fun W₃' W₄' b' hx3 hx4 => ?_⟩
        rcases binner (bruns (W := W₂'.enter) (T := T) chk hal handler (f := []) (fs := W₂'.scopes) h4 (bholds_scopes k2 rfl rfl) rfl) k3 with
          ⟨W₃, r, S₃, lost₃, n₃, g₃, i1, i2, _, i4, _, _, S₄, W₄, hL', l1, l2, l3, l4⟩ | ⟨S₃, n₃, i1, i2⟩
        · rw [i1] at hx3
          cases hx3
          rw [l1] at hx4
          cases hx4
          exact ih' b' (h5 S₃ S₄ b' n₃ i2 hL') (g5 S₃ S₄ b' n₃ i2 hL') l2 l3
        · rw [i1] at hx3; cases hx3
      · rw [e1] at hx1; cases hx1

end
end Jules

import Verif.Spec.Sound
import Verif.Lemmas.Program
import Verif.Lemmas.Safety
import Verif.Lemmas.Types
import Verif.Props.Program
/-
Checked programs keep memory intact, whatever they do.
-/
namespace Jules
open Spec Props

/-- A value with the property `P`, a failed assertion, or (only if `T` is false) a program that does not compile. -/
def Safe (T : Prop) (r : Res β) (P : β → Prop) : Prop :=
  match r with
  | .ok b => P b
  | .error f => f = .assert ∨ f = .illFormed ∧ ¬ T

theorem safe_ok {T : Prop} {b : β} {P : β → Prop} (h : P b) : Safe T (.ok b) P := h

theorem safe_ill {T : Prop} {P : β → Prop} (h : ¬ T) : Safe T (.error .illFormed : Res β) P := .inr ⟨rfl, h⟩

theorem safe_bind {T T' : Prop} {r : Res β} {g : β → Res γ} {P : β → Prop} {Q : γ → Prop} (hr : Safe T r P) (ht : T' → T)
    (hg : ∀ b, P b → Safe T' (g b) Q) : Safe T' (r >>= g) Q := by
  cases r with
  | ok b => exact hg b hr
  | error f =>
    rcases hr with h | ⟨h, h'⟩
    · exact .inl h
    · exact .inr ⟨h, fun t => h' (ht t)⟩

theorem safe_mono {T T' : Prop} {r : Res β} {P Q : β → Prop} (hr : Safe T r P) (ht : T' → T) (h : ∀ b, P b → Q b) : Safe T' r Q := by
  cases r with
  | ok b => exact h b hr
  | error f =>
    rcases hr with h | ⟨h, h'⟩
    · exact .inl h
    · exact .inr ⟨h, fun t => h' (ht t)⟩

theorem safe_dbg (T : Prop) (c : Bool) : Safe T (dbg true c) (fun _ => c = true) := by
  cases c
  · exact .inl rfl
  · rfl

theorem safe_needs (c : Bool) : Safe (c = true) (needs c) (fun _ => c = true) := by
  cases c
  · exact .inr ⟨rfl, by simp⟩
  · rfl

theorem safe_total {T : Prop} {r : Res β} {P : β → Prop} (h : ∃ b, r = .ok b ∧ P b) : Safe T r P := by
  obtain ⟨b, rfl, hb⟩ := h
  exact hb

/-! ### Views of accepted chains lie inside the array -/

/-- Elements of the meaning are elements of the array. -/
def IIn' (e : List Nat) : IObj → Prop
  | .view v => ∀ i, InB v.ext i → InB e (v.src i)
  | .part v _ => ∀ i, InB v.ext i → InB e (v.src i)

theorem iin_adm {off : Nat} {e : List Nat} {o : IObj} {ix : Ix} (hb : IIn' e o) (hl : Admissible (IObj.toA off e o) ix) : IIn' e (istep o ix) := by
  have key : ∀ (v : IView) sels, (∀ i, InB v.ext i → InB e (v.src i)) → (sels.length = v.ext.length → selsInside v.ext sels) →
      IIn' e (iclose v sels) := by
    intro v sels h1 h2
    unfold iclose
    by_cases hl : sels.length = v.ext.length
    · rw [if_pos hl]
      intro j hj
      exact h1 _ (inside_choose (selsInside_inside hl (h2 hl)) hj)
    · rw [if_neg hl]; exact h1
  cases o with
  | view v =>
    have hb : ∀ i, InB v.ext i → InB e (v.src i) := hb
    by_cases hx : ∃ i, ix = .at i
    · obtain ⟨i, rfl⟩ := hx
      have hl : i < v.ext.headD 0 := hl
      intro t ht
      have ht : InB v.ext.tail t := ht
      apply hb
      cases he : v.ext with
      | nil => simp [he] at hl
      | cons d ds => rw [he] at hl ht; exact ⟨hl, ht⟩
    · have h1 : istep (.view v) ix = iclose v [sel (v.ext.headD 0) ix] := by
        cases ix <;> first | rfl | exact (hx ⟨_, rfl⟩).elim
      have h2 : v.ext.length = 1 → selsInside v.ext [sel (v.ext.headD 0) ix] := by
        cases ix <;> first | exact hl | exact (hx ⟨_, rfl⟩).elim
      rw [h1]
      exact key v _ hb fun h => h2 h.symm
  | part v sels =>
    exact key v _ hb fun h => hl (by simpa [IView.toA] using h)

theorem iin_admAll {off : Nat} {e : List Nat} : ∀ {h : List Ix} {o : IObj}, IIn' e o → AdmAll (IObj.toA off e o) h → IIn' e (h.foldl istep o)
  | [], _, hb, _ => hb
  | ix :: h, o, hb, ⟨h1, h2⟩ => by
    rw [List.foldl_cons]
    rw [← toA_istep] at h2
    exact iin_admAll (iin_adm hb h1) h2

/-- An object whose elements are elements of the array `c`. -/
def GoodObj (c : Arr) (o : Obj) : Prop :=
  Safe ((viewOrder (kindOf o)).isSome ∨ kindOf o = .element) (o.positions Arith.exact) fun ps =>
    ((viewOrder (kindOf o)).isSome ∨ kindOf o = .element) ∧ (∀ p ∈ ps, Covers (cells c) p) ∧
      ∀ d, o.dims = some d → d ≠ [] ∧ ps.length = prod d

theorem kind_dims (o : Obj) : viewOrder (kindOf o) = o.dims.map List.length := by
  cases o with
  | sref off m => cases m <;> rfl
  | _ => rfl

theorem goodObj_run {c : Arr} (hne : c.ext ≠ []) {h : List Ix} {o : Obj} (hr : (Obj.cref c.base c.ext).run Arith.exact true h = .ok o) :
    GoodObj c o := by
  obtain ⟨wf, s, adm⟩ := run_meaning hne hr
  have hin := iin_admAll (off := c.base) (e := c.ext) (h := h) (o := .view ⟨c.ext, id⟩) (fun i hi => hi) adm
  rw [← toA_imeaning] at s
  unfold imeaning at s
  generalize h.foldl istep (.view ⟨c.ext, id⟩) = I at hin s
  cases I with
  | view v =>
    have ho := observes wf s
    unfold GoodObj
    rw [ho.iterate]
    refine ⟨?_, ?_, ?_⟩
    · cases o with
      | sref off m => cases m <;> exact .inl rfl
      | elem p => exact .inr rfl
      | cref off ext => exact .inl rfl
      | proxy off m a => exact s.elim
      | everyProxy off m a => exact s.elim
    · intro p hp
      obtain ⟨i, hi, rfl⟩ := mem_enum.1 hp
      exact ⟨v.src i, hin i hi, rfl⟩
    · intro d hd
      have hdv := ho.dims
      rw [hd] at hdv
      have hdv : d = v.ext := hdv
      refine ⟨?_, by rw [hdv]; exact enum_length _⟩
      cases o with
      | cref off ext => cases hd; exact wf
      | sref off m => cases hd; exact (Mapper.WF.desc wf).2.1
      | elem p => cases hd
      | proxy off m a => cases hd
      | everyProxy off m a => cases hd
  | part v sels =>
    cases o with
    | elem p => exact s.elim
    | cref off ext => exact s.elim
    | sref off m => exact s.elim
    | proxy off m a => exact .inr ⟨rfl, by simp [kindOf, viewOrder]⟩
    | everyProxy off m a => exact .inr ⟨rfl, by simp [kindOf, viewOrder]⟩

section
variable {α : Type} {w : World α}

theorem ctxOf_some {x : Nat} {c : Arr} (h : w.env x = some c) : ctxOf w x = some c.ext.length := by simp [ctxOf, h]

theorem safe_get (x : Nat) : Safe ((ctxOf w x).isSome) (w.get x) (fun c => w.env x = some c) := by
  unfold World.get
  cases h : w.env x with
  | none => exact .inr ⟨rfl, by simp [ctxOf, h]⟩
  | some c => rfl

theorem safe_index (H : Intact w) (x : Nat) {h : List Ix} (hs : StepsOK h) :
    Safe ((chainKind (ctxOf w) x h).isSome) (w.index Arith.exact true x h)
      (fun o => ∃ c, w.env x = some c ∧ GoodObj c o ∧ chainKind (ctxOf w) x h = some (kindOf o)) := by
  unfold World.index
  refine safe_bind (safe_get x) ?_ ?_
  · intro h; revert h
    unfold chainKind
    cases ctxOf w x <;> simp
  · intro c hc
    have hne := H.order x c hc
    have hk : chainKind (ctxOf w) x h = typeOf c.ext.length h := by simp [chainKind, ctxOf, hc]
    rw [hk]
    cases hr : (Obj.cref c.base c.ext).run Arith.exact true h with
    | ok o => exact ⟨c, hc, goodObj_run hne hr, C61_type _ _ hne hr⟩
    | error f =>
      have hub := noUB_run (o := .cref c.base c.ext) (h := h) hne (fun ix hix hz => by
        cases ix with
        | boundedStrided s m t =>
          have hz : t = 0 := hz
          subst hz
          exact hs s m hix
        | _ => exact hz) f hr
      rcases hub with rfl | rfl
      · exact .inl rfl
      · exact .inr ⟨rfl, fun ht => (C61_compiles Arith.exact true (off := c.base) hne h).1 ht hr⟩

/-! ### Scalars and expressions -/

/-- `m'` has all the elements of `m`. -/
def Keeps (m m' : Mem α) : Prop := ∀ q, m q ≠ none → m' q ≠ none

theorem keeps_refl (m : Mem α) : Keeps m m := fun _ h => h

theorem read_live {m : Mem α} {p : Nat} (h : m p ≠ none) : ∃ v, m.read p = .ok v := by
  unfold Mem.read
  cases hm : m p with
  | none => exact (h hm).elim
  | some v => exact ⟨v, rfl⟩

theorem safe_sc (H : Intact w) {s : Sc α} (hs : ScSteps s) :
    Safe (scTyped (ctxOf w) s = true) (s.eval Arith.exact true w)
      (fun c => scTyped (ctxOf w) s = true ∧ ∀ m', Keeps w.mem m' → ∃ v, c.get m' = .ok v) := by
  cases s with
  | const v => exact ⟨rfl, fun _ _ => ⟨v, rfl⟩⟩
  | elem x h =>
    refine safe_bind (safe_index H x hs) ?_ ?_
    · intro h; simp only [scTyped, beq_iff_eq] at h; simp [h]
    · rintro o ⟨c, hc, hg, hk⟩
      cases o with
      | elem p =>
        refine ⟨by simp [scTyped, hk, kindOf], fun m' hm' => ?_⟩
        exact read_live (hm' p (H.live x c p hc (hg.2.1 p (by simp))))
      | cref off ext => exact safe_ill (by simp [scTyped, hk, kindOf])
      | sref off m => exact safe_ill (by cases m <;> simp [scTyped, hk, kindOf])
      | proxy off m a => exact safe_ill (by simp [scTyped, hk, kindOf])
      | everyProxy off m a => exact safe_ill (by simp [scTyped, hk, kindOf])

/-- An iterator over `n` elements that can be read. -/
def GoodIt (m : Mem α) (it : It α) (n : Nat) : Prop :=
  it.count = some n ∧ ∀ m', Keeps m m' → ∀ k, k < n → ∃ v, it.deref m' k = .ok v

/-- A source whose elements can be read. -/
def GoodSrc (m : Mem α) (src : EObj α) : Prop := src.dims ≠ [] ∧ GoodIt m src.it (prod src.dims)

theorem goodIt_cells {m : Mem α} {ps : List Nat} (h : ∀ p ∈ ps, m p ≠ none) : GoodIt m (.cells ps) ps.length := by
  refine ⟨rfl, fun m' hm' k hk => ?_⟩
  simp only [It.deref, List.getElem?_eq_getElem hk]
  exact read_live (hm' _ (h _ (List.getElem_mem hk)))

theorem goodSrc_map {m : Mem α} {src : EObj α} (h : GoodSrc m src) (f : α → α) : GoodSrc m ⟨src.dims, .map f src.it⟩ := by
  refine ⟨h.1, h.2.1, fun m' hm' k hk => ?_⟩
  obtain ⟨v, hv⟩ := h.2.2 m' hm' k hk
  exact ⟨f v, by simp only [It.deref, hv]; rfl⟩

theorem goodSrc_zip {m : Mem α} {s t : EObj α} (h : GoodSrc m s) (h' : GoodSrc m t) (hd : s.dims = t.dims) (f : α → α → α) :
    GoodSrc m ⟨s.dims, .zip f s.it t.it⟩ := by
  have h'2 := h'.2
  rw [← hd] at h'2
  refine ⟨h.1, by simp [It.count, h.2.1, h'2.1], fun m' hm' k hk => ?_⟩
  obtain ⟨v, hv⟩ := h.2.2 m' hm' k hk
  obtain ⟨u, hu⟩ := h'2.2 m' hm' k hk
  exact ⟨f v u, by simp only [It.deref, hv, hu, res_ok_bind]⟩

/-- Building the expression object gives a good source (of order `n`). -/
def GoodEx (w : World α) (n : Option Nat) (e : Ex Obj α) : Prop :=
  Safe (n.isSome) (e.build Arith.exact true) (fun src => GoodSrc w.mem src ∧ n = some src.dims.length)

theorem safe_ex (H : Intact w) : ∀ {e : PEx α}, ExSteps e →
    Safe ((exOrder (ctxOf w) e).isSome) (e.eval Arith.exact true w) (GoodEx w (exOrder (ctxOf w) e))
  | .arr x h, hs => by
    refine safe_bind (safe_index H x hs) ?_ ?_
    · simp only [exOrder]
      cases chainKind (ctxOf w) x h <;> simp
    · rintro o ⟨c, hc, hg, hk⟩
      show GoodEx w _ _
      have ho : exOrder (ctxOf w) (.arr x h : PEx α) = o.dims.map List.length := by
        simp only [exOrder, hk, Option.bind_some, kind_dims]
      rw [ho]
      unfold GoodEx Ex.build
      cases hd : o.dims with
      | none => exact safe_ill (by simp)
      | some d =>
        refine safe_bind hg (fun _ => .inl (by rw [kind_dims, hd]; rfl)) ?_
        rintro ps ⟨_, h1, h2⟩
        obtain ⟨h2, h3⟩ := h2 d hd
        refine ⟨⟨h2, ?_⟩, rfl⟩
        have := goodIt_cells (m := w.mem) (ps := ps) fun p hp => H.live x c p hc (h1 p hp)
        rw [h3] at this
        exact this
  | .un f e, hs => by
    refine safe_bind (safe_ex H (e := e) hs) (fun h => h) ?_
    intro e' he'
    refine safe_bind he' (fun h => h) ?_
    rintro src ⟨h1, h2⟩
    exact ⟨goodSrc_map h1 f, h2⟩
  | .bin f a b, hs => by
    have hord : (exOrder (ctxOf w) (.bin f a b)).isSome → (exOrder (ctxOf w) a).isSome ∧ (exOrder (ctxOf w) b).isSome := by
      simp only [exOrder]
      cases exOrder (ctxOf w) a <;> cases exOrder (ctxOf w) b <;> simp
    refine safe_bind (safe_ex H (e := a) hs.1) (fun h => (hord h).1) ?_
    intro a' ha'
    refine safe_bind (safe_ex H (e := b) hs.2) (fun h => (hord h).2) ?_
    intro b' hb'
    refine safe_bind ha' (fun h => (hord h).1) ?_
    rintro s ⟨h1, h2⟩
    refine safe_bind hb' (fun h => (hord h).2) ?_
    rintro t ⟨k1, k2⟩
    by_cases hl : s.dims.length = t.dims.length
    · rw [if_neg (by simpa using hl)]
      refine safe_bind (safe_dbg _ _) (fun h => h) ?_
      intro _ hd
      have hd : s.dims = t.dims := by simpa using hd
      exact ⟨goodSrc_zip h1 k1 hd f, by simp [exOrder, h2, k2, hl]⟩
    · rw [if_pos hl]
      exact safe_ill (by simp [exOrder, h2, k2, hl])
  | .scl f s e, hs => by
    have hord : (exOrder (ctxOf w) (.scl f s e)).isSome → scTyped (ctxOf w) s = true ∧ (exOrder (ctxOf w) e).isSome := by
      simp only [exOrder]
      cases scTyped (ctxOf w) s <;> simp
    refine safe_bind (safe_sc H hs.1) (fun h => (hord h).1) ?_
    rintro c ⟨ht, hc⟩
    obtain ⟨v, hv⟩ := hc w.mem (keeps_refl _)
    rw [hv, res_ok_bind]
    refine safe_bind (safe_ex H (e := e) hs.2) (fun h => (hord h).2) ?_
    intro e' he'
    refine safe_bind he' (fun h => (hord h).2) ?_
    rintro src ⟨h1, h2⟩
    exact ⟨goodSrc_map h1 _, by simp [exOrder, ht, h2]⟩
  | .scr f e s, hs => by
    have hord : (exOrder (ctxOf w) (.scr f e s)).isSome → scTyped (ctxOf w) s = true ∧ (exOrder (ctxOf w) e).isSome := by
      simp only [exOrder]
      cases scTyped (ctxOf w) s <;> simp
    refine safe_bind (safe_ex H (e := e) hs.1) (fun h => (hord h).2) ?_
    intro e' he'
    refine safe_bind (safe_sc H hs.2) (fun h => (hord h).1) ?_
    rintro c ⟨ht, hc⟩
    obtain ⟨v, hv⟩ := hc w.mem (keeps_refl _)
    rw [hv, res_ok_bind]
    refine safe_bind he' (fun h => (hord h).2) ?_
    rintro src ⟨h1, h2⟩
    exact ⟨goodSrc_map h1 _, by simp [exOrder, ht, h2]⟩

/-! ### Writing -/

/-- The loops write to live elements only and leave the others. -/
theorem updLoop_live (g : Nat → Nat → Mem α → Res α) : ∀ (ps : List Nat) (k0 : Nat) (m : Mem α), (∀ p ∈ ps, m p ≠ none) →
    (∀ m', Keeps m m' → ∀ k p, k0 ≤ k → k < k0 + ps.length → p ∈ ps → ∃ v, g k p m' = .ok v) →
    ∃ m', updLoop g k0 ps m = .ok m' ∧ (∀ q, m' q = none ↔ m q = none) ∧ ∀ q, q ∉ ps → m' q = m q
  | [], _, m, _, _ => ⟨m, rfl, fun _ => Iff.rfl, fun _ _ => rfl⟩
  | p :: ps, k0, m, hl, hg => by
    obtain ⟨v, hv⟩ := hg m (keeps_refl m) k0 p (Nat.le_refl _) (by simp) (by simp)
    have hw : m.write p v = .ok (m.set p v) := by
      unfold Mem.write
      cases h : m p with
      | none => exact (hl p (by simp) h).elim
      | some _ => rfl
    have hn : ∀ q, (m.set p v) q = none ↔ m q = none := by
      intro q
      unfold Mem.set
      split
      · next h => subst h; simp [hl q (by simp)]
      · rfl
    obtain ⟨m', h1, h2, h3⟩ := updLoop_live g ps (k0 + 1) (m.set p v) (fun q hq => fun h => hl q (by simp [hq]) ((hn q).1 h))
      (fun m' hm' k q hk1 hk2 hq => hg m' (fun r hr => hm' r fun h => hr ((hn r).1 h)) k q (by omega) (by simp; omega) (by simp [hq]))
    refine ⟨m', by simp only [updLoop, hv, hw, res_ok_bind, h1], fun q => (h2 q).trans (hn q), fun q hq => ?_⟩
    simp only [List.mem_cons, not_or] at hq
    rw [h3 q hq.2, Mem.set, if_neg hq.1]

theorem updLoop_keeps {m m' : Mem α} (h : ∀ q, m' q = none ↔ m q = none) : Keeps m m' := fun q hq hn => hq ((h q).1 hn)

/-- What the statements that write elements of `x` leave. -/
theorem intact_write (H : Intact w) {x : Nat} {c : Arr} (hx : w.env x = some c) {m' : Mem α} (h1 : ∀ q, m' q = none ↔ w.mem q = none)
    (h2 : ∀ q, ¬ Covers (cells c) q → m' q = w.mem q) (k : Nat) :
    Intact ⟨m', w.env, k⟩ ∧ ∀ y, y ≠ x → SameArray w ⟨m', w.env, k⟩ y := by
  refine ⟨⟨H.order, fun x c q h hq hn => H.live x c q h hq ((h1 q).1 hn), H.sep, fun q hq => H.only q fun h => hq ((h1 q).2 h), ?_⟩, ?_⟩
  · obtain ⟨B, hB⟩ := H.finite
    exact ⟨B, fun q hq => (h1 q).2 (hB q hq)⟩
  · intro y hy
    exact ⟨rfl, fun d q hd hq => h2 q (H.sep y x d c q hy hd hx hq)⟩

/-- What the statements that replace the array `x` (or create it) leave. -/
theorem intact_replace (H : Intact w) {x : Nat} {b : Arr} {m' : Mem α} (hbe : b.ext ≠ [])
    (h1 : ∀ q, Covers (cells b) q → m' q ≠ none)
    (h2 : ∀ q, m' q ≠ none → (w.mem q ≠ none ∧ ∀ c, w.env x = some c → ¬ Covers (cells c) q) ∨ Covers (cells b) q)
    (h3 : ∀ q, w.mem q ≠ none → (∀ c, w.env x = some c → ¬ Covers (cells c) q) → m' q = w.mem q)
    (h4 : ∀ q, Covers (cells b) q → (∃ c, w.env x = some c ∧ Covers (cells c) q) ∨ w.mem q = none) :
    Intact (w.bind m' x (some b)) ∧ ∀ y, y ≠ x → SameArray w (w.bind m' x (some b)) y := by
  have hxb : (w.bind m' x (some b)).env x = some b := by simp [World.bind]
  have hyb : ∀ y, y ≠ x → (w.bind m' x (some b)).env y = w.env y := by intro y hy; simp [World.bind, hy]
  have hkeep : ∀ y d q, y ≠ x → w.env y = some d → Covers (cells d) q → m' q = w.mem q := fun y d q hy hd hq =>
    h3 q (H.live y d q hd hq) fun c hc hcov => H.sep y x d c q hy hd hc hq hcov
  have hdis : ∀ y d q, y ≠ x → w.env y = some d → Covers (cells d) q → ¬ Covers (cells b) q := by
    intro y d q hy hd hq hb
    rcases h4 q hb with ⟨c, hc, hcov⟩ | hn
    · exact H.sep y x d c q hy hd hc hq hcov
    · exact H.live y d q hd hq hn
  refine ⟨⟨?_, ?_, ?_, ?_, ?_⟩, ?_⟩
  · intro y c hc
    by_cases hy : y = x
    · subst hy; rw [hxb] at hc; cases hc; exact hbe
    · rw [hyb y hy] at hc; exact H.order y c hc
  · intro y c q hc hq
    show m' q ≠ none
    by_cases hy : y = x
    · subst hy; rw [hxb] at hc; cases hc; exact h1 q hq
    · rw [hyb y hy] at hc; rw [hkeep y c q hy hc hq]; exact H.live y c q hc hq
  · intro y z c d q hyz hc hd hq
    by_cases hy : y = x
    · subst hy
      have hz : z ≠ y := fun h => hyz h.symm
      rw [hxb] at hc; cases hc
      rw [hyb z hz] at hd
      exact fun hq' => hdis z d q hz hd hq' hq
    · rw [hyb y hy] at hc
      by_cases hz : z = x
      · subst hz; rw [hxb] at hd; cases hd; exact hdis y c q hy hc hq
      · rw [hyb z hz] at hd; exact H.sep y z c d q hyz hc hd hq
  · intro q hq
    have hq : m' q ≠ none := hq
    rcases h2 q hq with ⟨hm, hn⟩ | hb
    · obtain ⟨y, c, hc, hcov⟩ := H.only q hm
      have hy : y ≠ x := fun h => hn c (h ▸ hc) hcov
      exact ⟨y, c, by rw [hyb y hy]; exact hc, hcov⟩
    · exact ⟨x, b, hxb, hb⟩
  · obtain ⟨B, hB⟩ := H.finite
    refine ⟨max B (b.base + prod b.ext), fun q hq => ?_⟩
    show m' q = none
    by_cases hm : m' q = none
    · exact hm
    · rcases h2 q hm with ⟨h, _⟩ | h
      · exact (h (hB q (by omega))).elim
      · have := (arrayView_covers (b := b.base) (d := b.ext)).1 h
        omega
  · intro y hy
    exact ⟨hyb y hy, fun d q hd hq => hkeep y d q hy hd hq⟩

end

end Jules

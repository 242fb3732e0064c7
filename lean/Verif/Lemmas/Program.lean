import Verif.Spec.Program
import Verif.Lemmas.Memory
import Verif.Lemmas.Complete
import Verif.Props.Assign
import Verif.Props.Indexing
import Verif.Props.Types
/-
Programs over arrays: the layout-free meaning of index chains, and preservation of the relation between stores and states.
-/
namespace Jules
open Spec Props

/-- The view in memory, when the array is stored from `off`. -/
def IView.toA (off : Nat) (e : List Nat) (v : IView) : AView := ⟨v.ext, fun i => off + cmSum e (v.src i)⟩

def IObj.toA (off : Nat) (e : List Nat) : IObj → AObj
  | .view v => .view (IView.toA off e v)
  | .part v sels => .part (IView.toA off e v) sels

theorem toA_close (off : Nat) (e : List Nat) (v : IView) (sels : List (List Nat)) :
    IObj.toA off e (iclose v sels) = close (IView.toA off e v) sels := by
  unfold iclose close
  have : (IView.toA off e v).ext = v.ext := rfl
  rw [this]
  split <;> rfl

theorem toA_istep (off : Nat) (e : List Nat) (o : IObj) (ix : Ix) : IObj.toA off e (istep o ix) = astep (IObj.toA off e o) ix := by
  cases o with
  | view v =>
    cases ix <;> first | rfl | exact toA_close _ _ _ _
  | part v sels => exact toA_close _ _ _ _

theorem toA_foldl (off : Nat) (e : List Nat) : ∀ (h : List Ix) (o : IObj),
    IObj.toA off e (h.foldl istep o) = h.foldl astep (IObj.toA off e o)
  | [], _ => rfl
  | ix :: h, o => by rw [List.foldl_cons, List.foldl_cons, toA_foldl off e h, toA_istep]

theorem toA_imeaning (off : Nat) (e : List Nat) (h : List Ix) : IObj.toA off e (imeaning e h) = meaning off e h :=
  toA_foldl off e h _

theorem legal_toA (off off' : Nat) (e : List Nat) (o : IObj) (ix : Ix) :
    Legal (IObj.toA off e o) ix ↔ Legal (IObj.toA off' e o) ix := by
  cases o <;> exact Iff.rfl

theorem legalAll_toA (off off' : Nat) (e : List Nat) : ∀ (h : List Ix) (o : IObj),
    LegalAll (IObj.toA off e o) h → LegalAll (IObj.toA off' e o) h
  | [], _, _ => trivial
  | ix :: h, o, ⟨h1, h2⟩ => by
    refine ⟨(legal_toA off off' e o ix).1 h1, ?_⟩
    rw [← toA_istep] at h2 ⊢
    exact legalAll_toA off off' e h _ h2

/-- Elements of the meaning are elements of the array. -/
def IIn (e : List Nat) : IObj → Prop
  | .view v => ∀ i, InB v.ext i → InB e (v.src i)
  | .part v sels => (∀ i, InB v.ext i → InB e (v.src i)) ∧ selsInside v.ext sels

theorem iin_close {e : List Nat} {v : IView} {sels : List (List Nat)} (hb : ∀ i, InB v.ext i → InB e (v.src i))
    (hi : selsInside v.ext sels) : IIn e (iclose v sels) := by
  unfold iclose
  split
  · next hl =>
    intro j hj
    exact hb _ (inside_choose (selsInside_inside hl hi) hj)
  · exact ⟨hb, hi⟩

theorem iin_istep {e : List Nat} {o : IObj} {ix : Ix} (hb : IIn e o) (hl : Legal (IObj.toA 0 e o) ix) : IIn e (istep o ix) := by
  cases o with
  | view v =>
    have hl : (∀ x ∈ v.ext, x ≠ 0) ∧ LegalIx (v.ext.headD 0) ix := hl
    have hb : ∀ i, InB v.ext i → InB e (v.src i) := hb
    by_cases hx : ∃ i, ix = .at i
    · obtain ⟨i, rfl⟩ := hx
      intro t ht
      have ht : InB v.ext.tail t := ht
      have hi : i < v.ext.headD 0 := hl.2.2.2 i (by simp [sel])
      apply hb
      cases he : v.ext with
      | nil => simp [he] at hi
      | cons d ds => rw [he] at hi ht; exact ⟨hi, ht⟩
    · have : istep (.view v) ix = iclose v [sel (v.ext.headD 0) ix] := by
        cases ix <;> first | rfl | exact (hx ⟨_, rfl⟩).elim
      rw [this]
      apply iin_close hb
      intro k l d hk hd i hi
      match k with
      | 0 =>
        simp only [List.getElem?_cons_zero, Option.some.injEq] at hk
        subst hk
        have : v.ext.headD 0 = d := by
          cases he : v.ext with
          | nil => simp [he] at hd
          | cons d' ds => simpa [he] using hd
        rw [← this]
        exact hl.2.2.2 i hi
      | k + 1 => simp at hk
  | part v sels =>
    have hl : (∀ x ∈ v.ext, x ≠ 0) ∧ LegalIx (v.ext.getD sels.length 0) ix := hl
    obtain ⟨hb, hs⟩ : (∀ i, InB v.ext i → InB e (v.src i)) ∧ selsInside v.ext sels := hb
    show IIn e (iclose v (sels ++ [sel (v.ext.getD sels.length 0) ix]))
    apply iin_close hb
    intro k l d hk hd i hi
    rcases Nat.lt_or_ge k sels.length with hlt | hge
    · rw [List.getElem?_append_left hlt] at hk
      exact hs k l d hk hd i hi
    · rw [List.getElem?_append_right hge] at hk
      have hk0 : k - sels.length = 0 := by
        rcases Nat.eq_zero_or_pos (k - sels.length) with h | h
        · exact h
        · obtain ⟨j, hj⟩ := Nat.exists_eq_add_of_lt h
          rw [hj] at hk; simp at hk
      have hk1 : k = sels.length := by omega
      subst hk1
      simp only [Nat.sub_self, List.getElem?_cons_zero, Option.some.injEq] at hk
      subst hk
      have : v.ext.getD sels.length 0 = d := by rw [List.getD_eq_getElem?_getD, hd]; rfl
      rw [← this]
      exact hl.2.2.2 i hi

theorem iin_foldl {e : List Nat} : ∀ {h : List Ix} {o : IObj}, IIn e o → LegalAll (IObj.toA 0 e o) h → IIn e (h.foldl istep o)
  | [], _, hb, _ => hb
  | ix :: h, o, hb, ⟨h1, h2⟩ => by
    rw [List.foldl_cons]
    rw [← toA_istep] at h2
    exact iin_foldl (iin_istep hb h1) h2

theorem chain_in {e : List Nat} {h : List Ix} {v : IView} (hc : Chain e h v) : ∀ i, InB v.ext i → InB e (v.src i) := by
  have := iin_foldl (e := e) (h := h) (o := .view ⟨e, id⟩) (fun i hi => hi) hc.legal
  have hv := hc.view
  unfold imeaning at hv
  rw [hv] at this
  exact this

/-- A legal chain is accepted, in every build, and behaves as its meaning. -/
theorem chain_run {e : List Nat} (he : e ≠ []) {h : List Ix} {v : IView} (hc : Chain e h v) (off : Nat) (chk : Bool) :
    ∃ o, (Obj.cref off e).run Arith.exact chk h = .ok o ∧ Observes o (IView.toA off e v) := by
  have hl : LegalAll (.view (arrayView off e)) h := legalAll_toA 0 off e h (.view ⟨e, id⟩) hc.legal
  rcases run_complete (o := .cref off e) he trivial (a := .view (arrayView off e)) (arrayView_same off e) trivial hl with ⟨o, ho⟩ | hi
  · have hv := toA_imeaning off e h
    rw [hc.view] at hv
    obtain ⟨w, s, adm⟩ := run_refines (o := .cref off e) he ho
    have hs := (foldl_astep_congr (h := h) (a := (Obj.cref off e).abs) (b := .view (arrayView off e)) (arrayView_same off e) adm).1
    have : SameObj o.abs (.view (IView.toA off e v)) := by
      have := s.trans hs
      unfold meaning at hv
      rw [← hv] at this
      exact this
    refine ⟨o, ?_, observes w this⟩
    cases chk
    · exact C10_unchecked_agrees _ _ _ _ ho
    · exact ho
  · exact ((C61_compiles Arith.exact true he h).1 hc.compiles hi).elim

/-! ### Evaluation -/

section
variable {α : Type} {w : World α} {A : AStore α}

theorem index_ok (H : HoldsStore w A) {x : Nat} {a : AVal α} (ha : A x = some a) {h : List Ix} {v : IView} (hc : Chain a.ext h v)
    (chk : Bool) : ∃ c o, w.env x = some c ∧ c.ext = a.ext ∧ w.index Arith.exact chk x h = .ok o ∧
      Observes o (IView.toA c.base a.ext v) ∧
      ∀ i, InB v.ext i → w.mem ((IView.toA c.base a.ext v).pos i) = some (a.elt (v.src i)) := by
  obtain ⟨hne, c, h1, h2, h3⟩ := H.arr x a ha
  obtain ⟨o, ho, hobs⟩ := chain_run hne hc c.base chk
  refine ⟨c, o, h1, h2, ?_, hobs, ?_⟩
  · simp only [World.index, World.get, h1, res_ok_bind, h2, ho]
  · intro i hi
    have := h3 _ (chain_in hc i hi)
    simp only [cells, arrayView, h2] at this
    exact this

theorem observes_elem {o : Obj} {v : AView} (ho : Observes o v) (hv : v.ext = []) : o = .elem (v.pos []) := by
  have := ho.element [] (by rw [hv]; trivial)
  simpa [Obj.run] using this

theorem sc_ok (H : HoldsStore w A) {s : Sc α} (hs : ScLegal A s) (chk : Bool) :
    ∃ sc y, s.eval Arith.exact chk w = .ok sc ∧ sc.get w.mem = .ok y ∧ scVal A s = some y ∧
      ∀ p, sc = .cell p → ∃ x h a c v, s = .elem x h ∧ A x = some a ∧ w.env x = some c ∧ c.ext = a.ext ∧ Chain a.ext h v ∧ v.ext = [] ∧
        p = c.base + cmSum a.ext (v.src []) := by
  cases s with
  | const y => exact ⟨.val y, y, rfl, rfl, rfl, by intro p hp; cases hp⟩
  | elem x h =>
    obtain ⟨a, v, ha, hc, hv⟩ := hs
    obtain ⟨c, o, h1, h2, h3, h4, h5⟩ := index_ok H ha hc chk
    have ho := observes_elem h4 hv
    subst ho
    refine ⟨.cell ((IView.toA c.base a.ext v).pos []), a.elt (v.src []), by simp only [Sc.eval, h3, res_ok_bind], ?_, ?_, ?_⟩
    · have := h5 [] (by rw [hv]; trivial)
      simp only [Scalar.get, Mem.read, this]
    · simp only [scVal, ha, hc.view]
    · intro p hp
      cases hp
      exact ⟨x, h, a, c, v, rfl, ha, h1, h2, hc, hv, rfl⟩

/-- What evaluating an expression gives. -/
structure Evals (w : World α) (A : AStore α) (d : List Nat) (e : PEx α) (e' : Ex Obj α) (s : Ex AView α) : Prop where
  denotes : Denotes e' s
  exts : ∀ x ∈ exts s, x = d
  val : ∀ i, InB d i → valAt w.mem s i = exVal A e i
  defd : ∀ i, InB d i → exVal A e i ≠ none
  reads : ∀ i, InB d i → ∀ p ∈ cellsAt s i, ∃ x k a c, (x, k) ∈ exReads A e i ∧ A x = some a ∧ w.env x = some c ∧
    c.ext = a.ext ∧ InB a.ext k ∧ p = c.base + cmSum a.ext k

theorem ex_ok (H : HoldsStore w A) {d : List Nat} (hd : d ≠ []) (chk : Bool) : ∀ {e : PEx α}, ExLegal A d e →
    ∃ e' s, e.eval Arith.exact chk w = .ok e' ∧ Evals w A d e e' s
  | .arr x h, hl => by
    obtain ⟨a, v, ha, hc, hv⟩ := hl
    obtain ⟨c, o, h1, h2, h3, h4, h5⟩ := index_ok H ha hc chk
    refine ⟨.leaf o, .leaf (IView.toA c.base a.ext v), by simp only [PEx.eval, h3, res_ok_bind], ?_⟩
    refine ⟨.leaf h4 (by rw [← hv] at hd; exact hd), ?_, ?_, ?_, ?_⟩
    · simp [Spec.exts, IView.toA, hv]
    · intro i hi
      rw [← hv] at hi
      simp only [valAt, exVal, ha, hc.view, h5 i hi]
    · intro i _
      simp [exVal, ha, hc.view]
    · intro i hi p hp
      simp only [cellsAt, List.mem_singleton] at hp
      refine ⟨x, v.src i, a, c, by simp [exReads, ha, hc.view], ha, h1, h2, chain_in hc i (by rw [hv]; exact hi), hp⟩
  | .un f e, hl => by
    obtain ⟨e', s, h1, h2⟩ := ex_ok H hd chk (e := e) hl
    refine ⟨.un f e', .un f s, by simp only [PEx.eval, h1, res_ok_bind], .un h2.denotes, h2.exts, ?_, ?_, h2.reads⟩
    · intro i hi; simp only [valAt, exVal, h2.val i hi]
    · intro i hi; simpa [exVal] using h2.defd i hi
  | .bin f a b, ⟨hl1, hl2⟩ => by
    obtain ⟨e1, s1, h1, h2⟩ := ex_ok H hd chk (e := a) hl1
    obtain ⟨e2, s2, g1, g2⟩ := ex_ok H hd chk (e := b) hl2
    refine ⟨.bin f e1 e2, .bin f s1 s2, by simp only [PEx.eval, h1, g1, res_ok_bind], .bin h2.denotes g2.denotes, ?_, ?_, ?_, ?_⟩
    · intro x hx
      simp only [Spec.exts, List.mem_append] at hx
      exact hx.elim (h2.exts x) (g2.exts x)
    · intro i hi; simp only [valAt, exVal, h2.val i hi, g2.val i hi]
    · intro i hi
      obtain ⟨x, hx⟩ := Option.ne_none_iff_exists'.1 (h2.defd i hi)
      obtain ⟨y, hy⟩ := Option.ne_none_iff_exists'.1 (g2.defd i hi)
      simp [exVal, hx, hy]
    · intro i hi p hp
      simp only [cellsAt, List.mem_append] at hp
      rcases hp with hp | hp
      · obtain ⟨x, k, a, c, q1, q⟩ := h2.reads i hi p hp
        exact ⟨x, k, a, c, by simp [exReads, q1], q⟩
      · obtain ⟨x, k, a, c, q1, q⟩ := g2.reads i hi p hp
        exact ⟨x, k, a, c, by simp [exReads, q1], q⟩
  | .scl f s e, ⟨hl1, hl2⟩ => by
    obtain ⟨sc, y, k1, k2, k3, _⟩ := sc_ok H hl1 chk
    obtain ⟨e', s', h1, h2⟩ := ex_ok H hd chk (e := e) hl2
    refine ⟨.scalarLeft f y e', .un (leftOperation y f) s', by simp only [PEx.eval, k1, k2, h1, res_ok_bind], .un h2.denotes, h2.exts,
      ?_, ?_, h2.reads⟩
    · intro i hi
      simp only [valAt, exVal, h2.val i hi, k3, Option.bind_some]
      rfl
    · intro i hi; simpa [exVal, k3] using h2.defd i hi
  | .scr f e s, ⟨hl1, hl2⟩ => by
    obtain ⟨sc, y, k1, k2, k3, _⟩ := sc_ok H hl2 chk
    obtain ⟨e', s', h1, h2⟩ := ex_ok H hd chk (e := e) hl1
    refine ⟨.scalarRight f e' y, .un (rightOperation y f) s', by simp only [PEx.eval, k1, k2, h1, res_ok_bind], .un h2.denotes, h2.exts,
      ?_, ?_, h2.reads⟩
    · intro i hi
      simp only [valAt, exVal, h2.val i hi, k3, Option.map_some, Option.bind_some]
      cases exVal A e i <;> rfl
    · intro i hi
      obtain ⟨x, hx⟩ := Option.ne_none_iff_exists'.1 (h2.defd i hi)
      simp [exVal, k3, hx]

/-! ### Preservation -/

theorem toA_covers {c : Arr} {a : AVal α} (hce : c.ext = a.ext) {h : List Ix} {v : IView} (hc : Chain a.ext h v) {q : Nat}
    (hq : Covers (IView.toA c.base a.ext v) q) : Covers (cells c) q := by
  obtain ⟨i, hi, rfl⟩ := hq
  exact ⟨v.src i, by rw [cells, arrayView, hce]; exact chain_in hc i hi, by simp [cells, arrayView, hce, IView.toA]⟩

theorem cells_inj {c : Arr} {i j : List Nat} (hi : InB c.ext i) (hj : InB c.ext j) (h : c.base + cmSum c.ext i = c.base + cmSum c.ext j) :
    i = j := arrayView_distinct c.base c.ext i j hi hj h

theorem holds_write (H : HoldsStore w A) {x : Nat} {a : AVal α} (ha : A x = some a) {c : Arr} (hx : w.env x = some c) (hce : c.ext = a.ext)
    {h : List Ix} {v : IView} (hc : Chain a.ext h v) {m' : Mem α} {f : List Nat → Option α} {k : Nat}
    (h1 : ∀ i, InB v.ext i → m' ((IView.toA c.base a.ext v).pos i) = f i) (h1' : ∀ i, InB v.ext i → f i ≠ none)
    (h2 : ∀ q, ¬ Covers (IView.toA c.base a.ext v) q → m' q = w.mem q) {A' : AStore α} (hw : Writes A x h f A') :
    HoldsStore ⟨m', w.env, k⟩ A' := by
  obtain ⟨hoth, a0, a', v0, e1, e2, e3, e4, e5, e6⟩ := hw
  rw [ha] at e1; cases e1
  rw [hc.view] at e3; cases e3
  obtain ⟨hne, c0, f1, f2, f3⟩ := H.arr x a ha
  rw [hx] at f1; cases f1
  refine ⟨?_, ?_, H.sep, ?_, ?_⟩
  · intro y b hb
    by_cases hy : y = x
    · subst hy
      rw [e2] at hb; cases hb
      refine ⟨by rw [e4]; exact hne, c, hx, by rw [hce, e4], ?_⟩
      intro i hi
      rw [e4] at hi
      show m' ((cells c).pos i) = _
      by_cases hh : v.Has i
      · obtain ⟨j, hj, rfl⟩ := hh
        rw [← e5 j hj, ← h1 j hj]
        simp [cells, arrayView, IView.toA, hce]
      · rw [h2, e6 i hi hh]
        · exact f3 i hi
        · rintro ⟨j, hj, hp⟩
          apply hh
          refine ⟨j, hj, ?_⟩
          have := chain_in hc j hj
          rw [← hce] at this hi
          apply cells_inj (c := c) this hi
          simpa [cells, arrayView, IView.toA, hce] using hp
    · rw [hoth y hy] at hb
      obtain ⟨g1, d, g2, g3, g4⟩ := H.arr y b hb
      refine ⟨g1, d, g2, g3, ?_⟩
      intro i hi
      show m' _ = _
      rw [h2]
      · exact g4 i hi
      · intro hq
        exact H.sep x y c d _ (fun h => hy h.symm) hx g2 (toA_covers hce hc hq) ⟨i, by rw [cells, arrayView, g3]; exact hi, rfl⟩
  · intro y hy
    by_cases hyx : y = x
    · subst hyx; rw [e2] at hy; cases hy
    · rw [hoth y hyx] at hy; exact H.out y hy
  · intro q hq
    by_cases hcov : Covers (IView.toA c.base a.ext v) q
    · exact ⟨x, c, hx, toA_covers hce hc hcov⟩
    · have hq : m' q ≠ none := hq
      rw [h2 q hcov] at hq
      exact H.only q hq
  · obtain ⟨B, hB⟩ := H.finite
    refine ⟨max B (c.base + prod c.ext), fun q hq => ?_⟩
    show m' q = none
    rw [h2]
    · exact hB q (by omega)
    · intro hcov
      have := arrayView_covers.1 (toA_covers hce hc hcov)
      omega

/-- A variable gets a new array; its old one (if any) is gone. -/
theorem holds_replace (H : HoldsStore w A) {x : Nat} {b : Arr} {m' : Mem α} {d : List Nat} (hd : d ≠ []) (hbe : b.ext = d)
    {f : List Nat → Option α}
    (h1 : ∀ i, InB d i → m' ((cells b).pos i) = f i)
    (h2 : ∀ q, m' q ≠ none → (w.mem q ≠ none ∧ ∀ c, w.env x = some c → ¬ Covers (cells c) q) ∨ Covers (cells b) q)
    (h3 : ∀ q, w.mem q ≠ none → (∀ c, w.env x = some c → ¬ Covers (cells c) q) → m' q = w.mem q)
    (h4 : ∀ q, Covers (cells b) q → (∃ c, w.env x = some c ∧ Covers (cells c) q) ∨ w.mem q = none)
    {A' : AStore α} (hw : Becomes A x d f A') : HoldsStore (w.bind m' x (some b)) A' := by
  obtain ⟨hoth, a', e1, e2, e3⟩ := hw
  have hxb : (w.bind m' x (some b)).env x = some b := by simp [World.bind]
  have hyb : ∀ y, y ≠ x → (w.bind m' x (some b)).env y = w.env y := by intro y hy; simp [World.bind, hy]
  have alive : ∀ y d, w.env y = some d → ∀ q, Covers (cells d) q → w.mem q ≠ none := by
    intro y d hy q hq
    cases hA : A y with
    | none => rw [H.out y hA] at hy; cases hy
    | some a =>
      obtain ⟨_, d', g2, g3, g4⟩ := H.arr y a hA
      rw [hy] at g2; cases g2
      obtain ⟨i, hi, rfl⟩ := hq
      rw [g4 i (by rw [← g3]; exact hi)]; simp
  have hsep : ∀ y d q, y ≠ x → w.env y = some d → Covers (cells d) q → ¬ Covers (cells b) q := by
    intro y d q hy hd hq hb
    rcases h4 q hb with ⟨c, hc, hcq⟩ | hn
    · exact H.sep x y c d q (fun h => hy h.symm) hc hd hcq hq
    · exact alive y d hd q hq hn
  refine ⟨?_, ?_, ?_, ?_, ?_⟩
  · intro y a hA
    by_cases hy : y = x
    · subst hy
      rw [e1] at hA; cases hA
      exact ⟨by rw [e2]; exact hd, b, hxb, by rw [hbe, e2], fun i hi => by rw [e2] at hi; rw [← e3 i hi, ← h1 i hi]; rfl⟩
    · rw [hoth y hy] at hA
      obtain ⟨g1, d', g2, g3, g4⟩ := H.arr y a hA
      refine ⟨g1, d', by rw [hyb y hy, g2], g3, ?_⟩
      intro i hi
      have hcov : Covers (cells d') ((cells d').pos i) := ⟨i, by rw [cells, arrayView, g3]; exact hi, rfl⟩
      show m' _ = _
      rw [h3 _ (alive y d' g2 _ hcov) fun c hc hcq => H.sep x y c d' _ (fun h => hy h.symm) hc g2 hcq hcov, g4 i hi]
  · intro y hy
    by_cases hyx : y = x
    · subst hyx; rw [e1] at hy; cases hy
    · rw [hoth y hyx] at hy; rw [hyb y hyx]; exact H.out y hy
  · intro y z c d' q hyz hc hd' hcq
    by_cases hy : y = x
    · subst hy
      rw [hxb] at hc; cases hc
      rw [hyb z fun h => hyz h.symm] at hd'
      exact fun h => hsep z d' q (fun h => hyz h.symm) hd' h hcq
    · rw [hyb y hy] at hc
      by_cases hz : z = x
      · subst hz
        rw [hxb] at hd'; cases hd'
        exact hsep y c q hy hc hcq
      · rw [hyb z hz] at hd'
        exact H.sep y z c d' q hyz hc hd' hcq
  · intro q hq
    rcases h2 q hq with ⟨h, hn⟩ | h
    · obtain ⟨y, c, hy, hcq⟩ := H.only q h
      refine ⟨y, c, ?_, hcq⟩
      rw [hyb y ?_, hy]
      rintro rfl
      exact hn c hy hcq
    · exact ⟨x, b, hxb, h⟩
  · obtain ⟨B, hB⟩ := H.finite
    refine ⟨max B (b.base + prod b.ext), fun q hq => ?_⟩
    show m' q = none
    by_cases hm : m' q = none
    · exact hm
    · rcases h2 q hm with ⟨h, _⟩ | h
      · exact (h (hB q (by omega))).elim
      · have := arrayView_covers.1 h
        omega

theorem holds_drop (H : HoldsStore w A) {x : Nat} {c : Arr} (hx : w.env x = some c) {A' : AStore α}
    (hoth : ∀ y, y ≠ x → A' y = A y) (hA : A' x = none) :
    HoldsStore (w.bind (w.mem.free c.base (prod c.ext)) x none) A' := by
  have hxb : (w.bind (w.mem.free c.base (prod c.ext)) x none).env x = none := by simp [World.bind]
  have hyb : ∀ y, y ≠ x → (w.bind (w.mem.free c.base (prod c.ext)) x none).env y = w.env y := by intro y hy; simp [World.bind, hy]
  have hin : ∀ q, Covers (cells c) q → (w.mem.free c.base (prod c.ext)) q = none := by
    intro q hq; rw [Mem.free, if_pos (arrayView_covers.1 hq)]
  have hout : ∀ q, ¬ Covers (cells c) q → (w.mem.free c.base (prod c.ext)) q = w.mem q := by
    intro q hq; rw [Mem.free, if_neg fun h => hq (arrayView_covers.2 h)]
  refine ⟨?_, ?_, ?_, ?_, ?_⟩
  · intro y a hy
    by_cases hyx : y = x
    · subst hyx; rw [hA] at hy; cases hy
    · rw [hoth y hyx] at hy
      obtain ⟨g1, d, g2, g3, g4⟩ := H.arr y a hy
      refine ⟨g1, d, by rw [hyb y hyx, g2], g3, fun i hi => ?_⟩
      show (w.mem.free c.base (prod c.ext)) _ = _
      rw [hout _ fun h => H.sep x y c d _ (fun h => hyx h.symm) hx g2 h ⟨i, by rw [cells, arrayView, g3]; exact hi, rfl⟩, g4 i hi]
  · intro y hy
    by_cases hyx : y = x
    · subst hyx; exact hxb
    · rw [hyb y hyx]; rw [hoth y hyx] at hy; exact H.out y hy
  · intro y z c1 c2 q hyz h1 h2
    by_cases hy : y = x
    · subst hy; rw [hxb] at h1; cases h1
    · by_cases hz : z = x
      · subst hz; rw [hxb] at h2; cases h2
      · rw [hyb y hy] at h1; rw [hyb z hz] at h2
        exact H.sep y z c1 c2 q hyz h1 h2
  · intro q hq
    have hq : (w.mem.free c.base (prod c.ext)) q ≠ none := hq
    by_cases hcq : Covers (cells c) q
    · exact (hq (hin q hcq)).elim
    · rw [hout q hcq] at hq
      obtain ⟨y, d, hy, hdq⟩ := H.only q hq
      refine ⟨y, d, ?_, hdq⟩
      rw [hyb y ?_, hy]
      rintro rfl
      rw [hx] at hy; cases hy
      exact hcq hdq
  · obtain ⟨B, hB⟩ := H.finite
    refine ⟨B, fun q hq => ?_⟩
    show (w.mem.free c.base (prod c.ext)) q = none
    unfold Mem.free
    split
    · rfl
    · exact hB q hq

theorem holds_clock (H : HoldsStore w A) (k : Nat) : HoldsStore ⟨w.mem, w.env, k⟩ A := ⟨H.arr, H.out, H.sep, H.only, H.finite⟩

theorem holds_swap (H : HoldsStore w A) {x y : Nat} (hxy : x ≠ y) {c d : Arr} (hx : w.env x = some c) (hy : w.env y = some d) {A' : AStore α}
    (h1 : ∀ z, z ≠ x → z ≠ y → A' z = A z) (h2 : A' x = A y) (h3 : A' y = A x) :
    HoldsStore ((w.bind w.mem x (some d)).bind w.mem y (some c)) A' := by
  -- the present name of an array is `σ` of the former one
  let σ : Nat → Nat := fun z => if z = x then y else if z = y then x else z
  have hσ : ∀ z, σ (σ z) = z := by
    intro z; simp only [σ]
    by_cases hz : z = x
    · subst hz; simp [Ne.symm hxy]
    · by_cases hz' : z = y
      · subst hz'; simp [hz]
      · simp [hz, hz']
  have henv : ∀ z, ((w.bind w.mem x (some d)).bind w.mem y (some c)).env z = w.env (σ z) := by
    intro z; simp only [World.bind, σ]
    by_cases hz : z = x
    · subst hz; simp [hxy, hy]
    · by_cases hz' : z = y
      · subst hz'; simp [hz, hx]
      · simp [hz, hz']
  have hA : ∀ z, A' z = A (σ z) := by
    intro z; simp only [σ]
    by_cases hz : z = x
    · subst hz; simp [h2]
    · by_cases hz' : z = y
      · subst hz'; simp [hz, h3]
      · simp [hz, hz', h1 z hz hz']
  refine ⟨?_, ?_, ?_, ?_, H.finite⟩
  · intro z a hz
    rw [hA] at hz
    obtain ⟨g1, e, g2, g3, g4⟩ := H.arr _ a hz
    exact ⟨g1, e, by rw [henv, g2], g3, g4⟩
  · intro z hz
    rw [hA] at hz
    rw [henv]; exact H.out _ hz
  · intro z z' e e' q hne hz hz'
    rw [henv] at hz hz'
    exact H.sep _ _ e e' q (fun h => hne (by rw [← hσ z, h, hσ])) hz hz'
  · intro q hq
    obtain ⟨z, e, hz, hzq⟩ := H.only q hq
    exact ⟨σ z, e, by rw [henv, hσ]; exact hz, hzq⟩

end

end Jules

import Verif.Spec.Fallible
import Verif.Props.Program
/-
Lemmas for C84: expressions and loops that stop at an exception.
-/
namespace Jules
open Spec Props

section
variable {α : Type} {w : World α} {A : AStore α}

/-- The outcome of one step of a loop. -/
def _root_.Jules.Spec.AtElt.res : AtElt α → Res (α × Bool)
  | ⟨some y, t⟩ => .ok (y, t)
  | ⟨none, _⟩ => .error (.exc .user)

theorem stopLoop_ok (g : Nat → Nat → Mem α → Res (α × Bool)) : ∀ (ps : List Nat) (R : Nat → AtElt α) (k0 : Nat) (m : Mem α),
    ps.Nodup → (∀ p ∈ ps, m p ≠ none) → (∀ j, (R j).new = none → (R j).throws = true) →
    (∀ (j p : Nat), ps[j]? = some p → (∀ j', j' < j → (R j').throws = false) → ∀ m', (∀ q, q ∉ ps.take j → m' q = m q) →
      g (k0 + j) p m' = (R j).res) →
    ∃ m' t, stopLoop g k0 ps m = .ok (m', t) ∧ (t = true ↔ ∃ j, j < ps.length ∧ (R j).throws = true) ∧
      (∀ (j p : Nat), ps[j]? = some p → (∀ j', j' < j → (R j').throws = false) → ∀ y, (R j).new = some y → m' p = some y) ∧
      (∀ (j p : Nat), ps[j]? = some p → ((∀ j', j' < j → (R j').throws = false) → (R j).new = none) → m' p = m p) ∧
      ∀ q, q ∉ ps → m' q = m q
  | [], R, k0, m, _, _, _, _ => ⟨m, false, rfl, by simp, by simp, by simp, by simp⟩
  | p :: ps, R, k0, m, hn, hv, hR, hg => by
    have h0 : g k0 p m = (R 0).res := by
      have := hg 0 p rfl (by intro j h; omega) m (by simp)
      simpa using this
    obtain ⟨hp, hn⟩ := List.nodup_cons.1 hn
    have hmp := hv p (by simp)
    cases hnew : (R 0).new with
    | none =>
      have ht := hR 0 hnew
      have hres : (R 0).res = .error (.exc .user) := by
        rcases hh : R 0 with ⟨_ | y, t⟩
        · rfl
        · rw [hh] at hnew; cases hnew
      refine ⟨m, true, by simp only [stopLoop, h0, hres], by simp; exact ⟨0, by omega, ht⟩, ?_, fun _ _ _ _ => rfl, fun _ _ => rfl⟩
      intro j q hj hb y hy
      cases j with
      | zero => rw [hnew] at hy; cases hy
      | succ j => rw [hb 0 (by omega)] at ht; cases ht
    | some y0 =>
      have hres : (R 0).res = .ok (y0, (R 0).throws) := by
        rcases hh : R 0 with ⟨_ | y, t⟩
        · rw [hh] at hnew; cases hnew
        · rw [hh] at hnew; cases hnew; rfl
      have hw : m.write p y0 = .ok (m.set p y0) := by
        unfold Mem.write
        cases hmm : m p with
        | none => exact (hmp hmm).elim
        | some _ => rfl
      by_cases ht : (R 0).throws = true
      · refine ⟨m.set p y0, true, by simp only [stopLoop, h0, hres, hw, res_ok_bind, ht, if_true], by simp; exact ⟨0, by omega, ht⟩, ?_, ?_, ?_⟩
        · intro j q hj hb y hy
          cases j with
          | zero =>
            simp only [List.getElem?_cons_zero, Option.some.injEq] at hj
            subst hj
            rw [hnew] at hy; cases hy
            simp [Mem.set]
          | succ j => rw [hb 0 (by omega)] at ht; cases ht
        · intro j q hj hb
          cases j with
          | zero => rw [hb (by intro j h; omega)] at hnew; cases hnew
          | succ j =>
            have : q ∈ ps := List.mem_iff_getElem?.2 ⟨j, by simpa using hj⟩
            have hqp : q ≠ p := fun h => hp (h ▸ this)
            simp [Mem.set, hqp]
        · intro q hq
          have : q ≠ p := fun h => hq (by simp [h])
          simp [Mem.set, this]
      · have htf : (R 0).throws = false := by simpa using ht
        obtain ⟨m', t, e1, e2, e3, e4, e5⟩ := stopLoop_ok g ps (fun j => R (j + 1)) (k0 + 1) (m.set p y0) hn
          (by
            intro q hq
            simp only [Mem.set]
            split
            · simp
            · exact hv q (by simp [hq]))
          (fun j => hR (j + 1))
          (by
            intro j q hq hb m1 hm1
            have := hg (j + 1) q (by simpa using hq) (by
              intro j' hj'
              cases j' with
              | zero => exact htf
              | succ j' => exact hb j' (by omega)) m1 (by
              intro r hr
              simp only [List.take_succ_cons, List.mem_cons, not_or] at hr
              rw [hm1 r hr.2]
              simp [Mem.set, hr.1])
            rw [← this]
            congr 1
            omega)
        have hpast : ∀ j, (∀ j', j' < j + 1 → (R j').throws = false) ↔ ∀ j', j' < j → (R (j' + 1)).throws = false := by
          intro j
          constructor
          · intro h j' hj'; exact h _ (by omega)
          · intro h j' hj'
            cases j' with
            | zero => exact htf
            | succ j' => exact h j' (by omega)
        refine ⟨m', t, by simp only [stopLoop, h0, hres, hw, res_ok_bind, htf, Bool.false_eq_true, if_false, e1], ?_, ?_, ?_, ?_⟩
        · rw [e2]
          constructor
          · rintro ⟨j, h1, h2⟩; exact ⟨j + 1, by simp; exact h1, h2⟩
          · rintro ⟨j, h1, h2⟩
            cases j with
            | zero => exact (ht h2).elim
            | succ j => exact ⟨j, by simpa using h1, h2⟩
        · intro j q hj hb y hy
          cases j with
          | zero =>
            simp only [List.getElem?_cons_zero, Option.some.injEq] at hj
            subst hj
            rw [hnew] at hy; cases hy
            rw [e5 p hp]
            simp [Mem.set]
          | succ j => exact e3 j q (by simpa using hj) ((hpast j).1 hb) y hy
        · intro j q hj hb
          cases j with
          | zero => rw [hb (by intro j h; omega)] at hnew; cases hnew
          | succ j =>
            have hq : ps[j]? = some q := by simpa using hj
            rw [e4 j q hq (fun h => hb ((hpast j).2 h))]
            have : q ∈ ps := List.mem_iff_getElem?.2 ⟨j, hq⟩
            have hqp : q ≠ p := fun h => hp (h ▸ this)
            simp [Mem.set, hqp]
        · intro q hq
          simp only [List.mem_cons, not_or] at hq
          rw [e5 q hq.2]
          simp [Mem.set, hq.1]

/-! ### Expressions -/

/-- The cells of an element. -/
def eltCell (w : World α) (A : AStore α) (x : Nat) (k : List Nat) (p : Nat) : Prop :=
  ∃ a c, A x = some a ∧ w.env x = some c ∧ c.ext = a.ext ∧ InB a.ext k ∧ p = c.base + cmSum a.ext k

/-- A source that yields the values of the expression, as long as the elements it reads have not changed. -/
structure Gets (w : World α) (A : AStore α) (d : List Nat) (e : FEx α) (src : FSrc α) : Prop where
  dims : src.dims = d
  count : src.it.count = some (prod d)
  deref : ∀ (m : Mem α) (i : List Nat), InB d i → (∀ x k p, (x, k) ∈ exReads A (shapeE e) i → eltCell w A x k p → m p = w.mem p) →
    src.it.deref m (cmSum d i) = called (fexVal A e i)

theorem enum_cmSum {v : AView} {i : List Nat} (h : InB v.ext i) : v.enum[cmSum v.ext i]? = some (v.pos i) := by
  rw [← cmPos_eq_sum (inB_length h)]; exact enum_getElem? h

theorem fex_ok (H : HoldsStore w A) {d : List Nat} (hd : d ≠ []) (chk : Bool) : ∀ {e : FEx α}, ExLegal A d (shapeE e) →
    ∃ src, e.eval Arith.exact chk w = .ok src ∧ Gets w A d e src
  | .arr x h, hl => by
    obtain ⟨a, v, ha, hc, hv⟩ := hl
    obtain ⟨c, o, h1, h2, h3, h4, h5⟩ := index_ok H ha hc chk
    have hdim := observes_dims h4 (by show v.ext ≠ []; rw [hv]; exact hd)
    refine ⟨⟨v.ext, .cells (IView.toA c.base a.ext v).enum⟩, ?_, hv, ?_, ?_⟩
    · simp only [FEx.eval, h3, res_ok_bind, FSrc.ofObj, hdim, h4.iterate]; rfl
    · simp only [FIt.count, enum_length]; rw [← hv]; rfl
    · intro m i hi hm
      rw [← hv] at hi ⊢
      have := enum_cmSum (v := IView.toA c.base a.ext v) hi
      have hce : (IView.toA c.base a.ext v).ext = v.ext := rfl
      rw [hce] at this
      have hcell : eltCell w A x (v.src i) ((IView.toA c.base a.ext v).pos i) := ⟨a, c, ha, h1, h2, chain_in hc i hi, rfl⟩
      have hm' := hm x (v.src i) _ (by simp [shapeE, exReads, ha, hc.view]) hcell
      simp only [FIt.deref, this, Mem.read, hm', h5 i hi, fexVal, exVal, ha, hc.view, called]
  | .un f e, hl => by
    obtain ⟨src, h1, h2⟩ := fex_ok H hd chk (e := e) hl
    refine ⟨⟨src.dims, .map f src.it⟩, by simp only [FEx.eval, h1, res_ok_bind], h2.dims, h2.count, ?_⟩
    intro m i hi hm
    simp only [FIt.deref, h2.deref m i hi hm, fexVal]
    cases fexVal A e i <;> rfl
  | .bin f a b, ⟨hl1, hl2⟩ => by
    obtain ⟨s1, h1, h2⟩ := fex_ok H hd chk (e := a) hl1
    obtain ⟨s2, g1, g2⟩ := fex_ok H hd chk (e := b) hl2
    refine ⟨⟨s1.dims, .zip f s1.it s2.it⟩, ?_, h2.dims, by simp [FIt.count, h2.count, g2.count], ?_⟩
    · simp [FEx.eval, h1, g1, res_ok_bind, FSrc.zip, h2.dims, g2.dims]
    intro m i hi hm
    simp only [FIt.deref, h2.deref m i hi (fun x k p hx => hm x k p (by simp [shapeE, exReads, hx])),
      g2.deref m i hi (fun x k p hx => hm x k p (by simp [shapeE, exReads, hx])), fexVal]
    cases fexVal A a i <;> cases fexVal A b i <;> rfl
  | .scl f s e, ⟨hl1, hl2⟩ => by
    obtain ⟨sc, y, k1, k2, k3, _⟩ := sc_ok H hl1 chk
    obtain ⟨src, h1, h2⟩ := fex_ok H hd chk (e := e) hl2
    refine ⟨⟨src.dims, .map (fun z => f y z) src.it⟩, by simp only [FEx.eval, k1, k2, h1, res_ok_bind], h2.dims, h2.count, ?_⟩
    intro m i hi hm
    simp only [FIt.deref, h2.deref m i hi hm, fexVal, k3]
    cases fexVal A e i <;> rfl
  | .scr f e s, ⟨hl1, hl2⟩ => by
    obtain ⟨sc, y, k1, k2, k3, _⟩ := sc_ok H hl2 chk
    obtain ⟨src, h1, h2⟩ := fex_ok H hd chk (e := e) hl1
    refine ⟨⟨src.dims, .map (fun z => f z y) src.it⟩, by simp only [FEx.eval, k1, k2, h1, res_ok_bind], h2.dims, h2.count, ?_⟩
    intro m i hi hm
    simp only [FIt.deref, h2.deref m i hi hm, fexVal, k3]
    cases fexVal A e i <;> rfl

/-- All the values, or an exception. -/
theorem gets_all {d : List Nat} {e : FEx α} {src : FSrc α} (hg : Gets w A d e src) :
    ((∀ i, InB d i → fexVal A e i ≠ none) → ∃ xs : List α, xs.length = prod d ∧ (∀ i, InB d i → xs[cmSum d i]? = fexVal A e i) ∧
      (List.range (prod d)).mapM (fun k => src.it.deref w.mem k) = .ok xs) ∧
    ((∃ i, InB d i ∧ fexVal A e i = none) → (List.range (prod d)).mapM (fun k => src.it.deref w.mem k) = .error (.exc .user)) := by
  have hk : ∀ k, k < prod d → ∃ i, InB d i ∧ cmSum d i = k := by
    intro k hk
    have hlt : k < (multiIdx d).length := by rw [multiIdx_length]; exact hk
    refine ⟨(multiIdx d)[k], mem_multiIdx.1 (List.getElem_mem _), ?_⟩
    have hin : InB d (multiIdx d)[k] := mem_multiIdx.1 (List.getElem_mem _)
    have e2 := (List.getElem?_eq_some_iff.1 (multiIdx_getElem? hin))
    rw [← cmPos_eq_sum (inB_length hin)]
    exact (multiIdx_nodup d).getElem_inj_iff.1 e2.2
  constructor
  · intro hv
    have := filterMap_total (F := fexVal A e) (l := multiIdx d) fun a ha => hv a (mem_multiIdx.1 ha)
    refine ⟨_, by rw [this.1, multiIdx_length], ?_, ?_⟩
    · intro i hi
      have h2 := this.2 (cmPos d i) i (multiIdx_getElem? hi)
      rw [cmPos_eq_sum (inB_length hi)] at h2
      exact h2
    · apply mapM_ok_of (by rw [this.1, multiIdx_length]; simp)
      intro k a x hka hx
      have hak : a = k := by
        have := (List.getElem?_eq_some_iff.1 hka).2
        simp at this; exact this.symm
      subst hak
      have hlt : a < prod d := by
        have := (List.getElem?_eq_some_iff.1 hka).1
        simpa using this
      obtain ⟨i, hi, rfl⟩ := hk a hlt
      rw [hg.deref w.mem i hi (fun _ _ _ _ _ => rfl)]
      have h2 := this.2 (cmPos d i) i (multiIdx_getElem? hi)
      rw [cmPos_eq_sum (inB_length hi)] at h2
      rw [← h2, hx]; rfl
  · intro hex
    have hstep : ∀ (l : List Nat), (∀ k ∈ l, k < prod d) → (∃ k ∈ l, ∀ i, InB d i → cmSum d i = k → fexVal A e i = none) →
        l.mapM (fun k => src.it.deref w.mem k) = .error (.exc .user) := by
      intro l
      induction l with
      | nil => rintro _ ⟨k, h, _⟩; cases h
      | cons k l ih =>
        intro hl hk'
        obtain ⟨i, hi, hik⟩ := hk k (hl k (by simp))
        have hde := hg.deref w.mem i hi (fun _ _ _ _ _ => rfl)
        rw [hik] at hde
        rw [List.mapM_cons, hde]
        cases hfe : fexVal A e i with
        | none => rfl
        | some y =>
          rw [ih (fun k hk => hl k (by simp [hk]))]
          · rfl
          · obtain ⟨k', hk1, hk2⟩ := hk'
            rcases List.mem_cons.1 hk1 with rfl | hk1
            · rw [hk2 i hi hik] at hfe; cases hfe
            · exact ⟨k', hk1, hk2⟩
    apply hstep
    · intro k hk; simpa using hk
    · obtain ⟨i, hi, hn⟩ := hex
      refine ⟨cmSum d i, by simpa using cmSum_lt hi, ?_⟩
      intro j hj he
      have : j = i := arrayView_distinct 0 d j i hj hi (by simp [arrayView, he])
      rw [this]; exact hn

/-! ### Loops over the cells of a view -/

theorem rank_exists {d : List Nat} {k : Nat} (hk : k < prod d) : ∃ i, InB d i ∧ cmSum d i = k ∧ (multiIdx d)[k]? = some i := by
  have hlt : k < (multiIdx d).length := by rw [multiIdx_length]; exact hk
  have hin : InB d (multiIdx d)[k] := mem_multiIdx.1 (List.getElem_mem _)
  refine ⟨(multiIdx d)[k], hin, ?_, List.getElem?_eq_getElem hlt⟩
  have e2 := (List.getElem?_eq_some_iff.1 (multiIdx_getElem? hin))
  rw [← cmPos_eq_sum (inB_length hin)]
  exact (multiIdx_nodup d).getElem_inj_iff.1 e2.2

theorem rank_inj {d i j : List Nat} (hi : InB d i) (hj : InB d j) (h : cmSum d i = cmSum d j) : i = j :=
  arrayView_distinct 0 d i j hi hj (by simp [arrayView, h])

theorem walk_until {m : Mem α} {v : AView} (hdis : Distinct v) (hal : Alive m v) {out : List Nat → AtElt α}
    (hnone : ∀ i, InB v.ext i → (out i).new = none → (out i).throws = true) {g : Nat → Nat → Mem α → Res (α × Bool)}
    (hg : ∀ i, InB v.ext i → Visited v.ext out i → ∀ m', (∀ q, (∀ j, InB v.ext j → Before v.ext j i → q ≠ v.pos j) → m' q = m q) →
      g (cmSum v.ext i) (v.pos i) m' = (out i).res) :
    ∃ m' t, stopLoop g 0 v.enum m = .ok (m', t) ∧ (t = true ↔ Thrown v.ext out) ∧
      (∀ i, InB v.ext i → Visited v.ext out i → ∀ y, (out i).new = some y → m' (v.pos i) = some y) ∧
      (∀ i, InB v.ext i → (Visited v.ext out i → (out i).new = none) → m' (v.pos i) = m (v.pos i)) ∧
      ∀ q, ¬ Covers v q → m' q = m q := by
  let R : Nat → AtElt α := fun k => match (multiIdx v.ext)[k]? with
    | some i => out i
    | none => ⟨none, true⟩
  have hR : ∀ i, InB v.ext i → R (cmSum v.ext i) = out i := by
    intro i hi
    have := multiIdx_getElem? hi
    rw [cmPos_eq_sum (inB_length hi)] at this
    simp only [R, this]
  have hvis : ∀ i, InB v.ext i → (Visited v.ext out i ↔ ∀ k, k < cmSum v.ext i → (R k).throws = false) := by
    intro i hi
    have hlt := cmSum_lt hi
    constructor
    · intro h k hk
      obtain ⟨j, hj, rfl, _⟩ := rank_exists (d := v.ext) (k := k) (by omega)
      rw [hR j hj]; exact h j hj hk
    · intro h j hj hb
      rw [← hR j hj]; exact h _ hb
  have hat : ∀ k p, v.enum[k]? = some p → ∃ i, InB v.ext i ∧ k = cmSum v.ext i ∧ p = v.pos i := by
    intro k p hp
    obtain ⟨i, hi, hk, hp, _⟩ := enum_getElem?_some hp
    exact ⟨i, hi, by rw [hk, cmPos_eq_sum (inB_length hi)], hp⟩
  obtain ⟨m', t, e1, e2, e3, e4, e5⟩ := stopLoop_ok g v.enum R 0 m (distinct_nodup hdis) (alive_enum hal)
    (by
      intro k hk
      simp only [R] at hk ⊢
      cases hm : (multiIdx v.ext)[k]? with
      | none => rfl
      | some i =>
        rw [hm] at hk
        exact hnone i (mem_multiIdx.1 (List.mem_iff_getElem?.2 ⟨k, hm⟩)) hk)
    (by
      intro k p hp hb m1 hm1
      obtain ⟨i, hi, rfl, rfl⟩ := hat k p hp
      rw [Nat.zero_add, hR i hi]
      apply hg i hi ((hvis i hi).2 hb)
      intro q hq
      apply hm1
      intro hq'
      obtain ⟨j, hj, hlt, rfl⟩ := mem_take_enum hq'
      exact hq j hj (by rw [cmPos_eq_sum (inB_length hj)] at hlt; exact hlt) rfl)
  refine ⟨m', t, e1, ?_, ?_, ?_, fun q hq => e5 q (fun h => hq (mem_enum.1 h))⟩
  · rw [e2]
    constructor
    · rintro ⟨k, hk, ht⟩
      rw [enum_length] at hk
      obtain ⟨i, hi, rfl, _⟩ := rank_exists hk
      exact ⟨i, hi, by rw [← hR i hi]; exact ht⟩
    · rintro ⟨i, hi, ht⟩
      exact ⟨cmSum v.ext i, by rw [enum_length]; exact cmSum_lt hi, by rw [hR i hi]; exact ht⟩
  · intro i hi hv y hy
    exact e3 _ _ (enum_cmSum hi) ((hvis i hi).1 hv) y (by rw [hR i hi]; exact hy)
  · intro i hi hv
    exact e4 _ _ (enum_cmSum hi) (fun h => by rw [hR i hi]; exact hv ((hvis i hi).2 h))

/-- The loop over a view of an array: the store after it. -/
theorem until_holds (H : HoldsStore w A) {x : Nat} {a : AVal α} (ha : A x = some a) {c : Arr} (hx : w.env x = some c) (hce : c.ext = a.ext)
    {h : List Ix} {v : IView} (hc : Chain a.ext h v) (hinj : v.Injective)
    (h5 : ∀ i, InB v.ext i → w.mem ((IView.toA c.base a.ext v).pos i) = some (a.elt (v.src i))) {out : List Nat → AtElt α}
    (hnone : ∀ i, InB v.ext i → (out i).new = none → (out i).throws = true) {g : Nat → Nat → Mem α → Res (α × Bool)}
    (hg : ∀ i, InB v.ext i → Visited v.ext out i → ∀ m', (∀ q, (∀ j, InB v.ext j → Before v.ext j i → q ≠ (IView.toA c.base a.ext v).pos j) →
      m' q = w.mem q) → g (cmSum v.ext i) ((IView.toA c.base a.ext v).pos i) m' = (out i).res) (k : Nat) :
    ∃ m' t, stopLoop g 0 (IView.toA c.base a.ext v).enum w.mem = .ok (m', t) ∧
      ∀ A' t', WritesUntil A x h out A' t' → t' = t ∧ HoldsStore ⟨m', w.env, k⟩ A' := by
  obtain ⟨m', t, e1, e2, e3, e4, e5⟩ := walk_until (v := IView.toA c.base a.ext v) (m := w.mem) (out := out) (toA_distinct hc hinj)
    (fun i hi => by rw [h5 i hi]; simp) hnone hg
  refine ⟨m', t, e1, ?_⟩
  rintro A' t' ⟨u1, a0, a', v0, u2, u3, u4, u5, u6, u7, u8, u9⟩
  rw [ha] at u2; cases u2
  rw [hc.view] at u4; cases u4
  refine ⟨?_, ?_⟩
  · have hiff : t' = true ↔ t = true := u6.trans e2.symm
    cases t <;> cases t' <;> simp at hiff ⊢
  · refine holds_write H ha hx hce hc (f := fun i => some (a'.elt (v.src i))) ?_ (by simp) e5
      ⟨u1, a, a', v, ha, u3, hc.view, u5, fun _ _ => rfl, u9⟩
    intro i hi
    by_cases hv : Visited v.ext out i → (out i).new = none
    · rw [e4 i hi hv, h5 i hi, u8 i hi hv]
    · simp only [Classical.not_imp] at hv
      obtain ⟨y, hy⟩ := Option.ne_none_iff_exists'.1 hv.2
      rw [e3 i hi hv.1 y hy, u7 i hi hv.1 y hy]

/-! ### New blocks -/

theorem replaced_holds (H : HoldsStore w A) {x : Nat} {d : List Nat} (hd : d ≠ []) {xs : List α} (hl : xs.length = prod d)
    {fresh : Nat} (hf : ∀ i, i < prod d → w.mem (fresh + i) = none) {a : AVal α} (ha : A x = some a) {c : Arr} (hx : w.env x = some c)
    {A' : AStore α} (hw : Becomes A x d (fun i => xs[cmSum d i]?) A') :
    HoldsStore (w.bind ((w.mem.setMany fresh xs).free c.base (prod c.ext)) x (some ⟨fresh, d⟩)) A' := by
  have hout : ∀ q, ¬ Covers (arrayView fresh d) q → (w.mem.setMany fresh xs) q = w.mem q := by
    intro q hq; apply setMany_out; rwa [hl, ← arrayView_covers]
  have hfr : ∀ q, Covers (arrayView fresh d) q → w.mem q = none := by
    intro q hq
    have := arrayView_covers.1 hq
    have h2 := hf (q - fresh) (by omega)
    rwa [show fresh + (q - fresh) = q by omega] at h2
  have hal := alive_cells H ha hx
  have hapart : ∀ q, Covers (cells c) q → ¬ Covers (arrayView fresh d) q := by
    rintro q ⟨i, hi, rfl⟩ hq
    exact hal i hi (hfr _ hq)
  have hfree : ∀ q, ¬ Covers (cells c) q → ((w.mem.setMany fresh xs).free c.base (prod c.ext)) q = (w.mem.setMany fresh xs) q := by
    intro q hq
    have : ¬ (c.base ≤ q ∧ q < c.base + prod c.ext) := fun h => hq (arrayView_covers.2 h)
    simp only [Mem.free, this, if_false]
  have hc : ∀ c', w.env x = some c' → c' = c := by intro c' h; rw [hx] at h; cases h; rfl
  refine holds_replace H hd rfl ?_ ?_ ?_ ?_ hw
  · intro i hi
    have hlt := cmSum_lt hi
    show ((w.mem.setMany fresh xs).free c.base (prod c.ext)) (fresh + cmSum d i) = _
    rw [hfree (fresh + cmSum d i) (fun hq => hapart _ hq ⟨i, hi, rfl⟩), setMany_in (by rw [hl]; exact hlt)]
  · intro q hq
    by_cases hcq : Covers (cells c) q
    · have : c.base ≤ q ∧ q < c.base + prod c.ext := arrayView_covers.1 hcq
      simp [Mem.free, this] at hq
    · rw [hfree q hcq] at hq
      by_cases hcf : Covers (arrayView fresh d) q
      · exact .inr hcf
      · rw [hout q hcf] at hq
        exact .inl ⟨hq, fun c' e => by rw [hc c' e]; exact hcq⟩
  · intro q hq hn
    rw [hfree q (hn c hx)]
    exact hout q fun h => hq (hfr q h)
  · intro q hq
    exact .inr (hfr q hq)

end
end Jules

import Verif.Lemmas.Observe
import Verif.Spec.Expr
import Mathlib.Data.List.Nodup
/-
Lemmas about elementwise writes and expression evaluation.
-/
namespace Jules
open Spec

theorem write_ok {m : Mem α} {p : Nat} {x : α} (h : m p ≠ none) : m.write p x = .ok (m.set p x) := by
  simp only [Mem.write]
  cases hm : m p with
  | none => exact (h hm).elim
  | some => rfl

/-- The general fact about elementwise updates: when the value for the `j`-th cell does not depend on the
cells written before it, every cell gets the value computed from the initial memory. -/
theorem updLoop_ok (g : Nat → Nat → Mem α → Res α) : ∀ (ps : List Nat) (xs : List α) (k0 : Nat) (m : Mem α),
    ps.length = xs.length → ps.Nodup → (∀ p ∈ ps, m p ≠ none) →
    (∀ (j p : Nat) (x : α), ps[j]? = some p → xs[j]? = some x → ∀ m', (∀ q, q ∉ ps.take j → m' q = m q) →
      g (k0 + j) p m' = .ok x) →
    ∃ m', updLoop g k0 ps m = .ok m' ∧
      (∀ (j p : Nat) (x : α), ps[j]? = some p → xs[j]? = some x → m' p = some x) ∧
      ∀ q, q ∉ ps → m' q = m q
  | [], [], k0, m, _, _, _, _ => ⟨m, rfl, by simp, by simp⟩
  | p :: ps, x :: xs, k0, m, hl, hn, hv, hg => by
    have h0 : g k0 p m = .ok x := by
      have := hg 0 p x rfl rfl m (by simp)
      simpa using this
    obtain ⟨hp, hn⟩ := List.nodup_cons.1 hn
    obtain ⟨m', h1, h2, h3⟩ := updLoop_ok g ps xs (k0 + 1) (m.set p x) (by simpa using hl) hn
      (by
        intro q hq
        simp only [Mem.set]
        split
        · simp
        · exact hv q (by simp [hq]))
      (by
        intro j q y hq hy m' hm'
        have := hg (j + 1) q y (by simpa using hq) (by simpa using hy) m' (by
          intro r hr
          simp only [List.take_succ_cons, List.mem_cons, not_or] at hr
          rw [hm' r hr.2]
          simp [Mem.set, hr.1])
        rw [show k0 + 1 + j = k0 + (j + 1) by omega]
        exact this)
    refine ⟨m', ?_, ?_, ?_⟩
    · rw [updLoop, h0, res_ok_bind, write_ok (hv p (by simp)), res_ok_bind, h1]
    · intro j q y hq hy
      cases j with
      | zero =>
        simp only [List.getElem?_cons_zero, Option.some.injEq] at hq hy
        subst hq hy
        rw [h3 p hp]; simp [Mem.set]
      | succ j => exact h2 j q y (by simpa using hq) (by simpa using hy)
    · intro q hq
      simp only [List.mem_cons, not_or] at hq
      rw [h3 q hq.2]; simp [Mem.set, hq.1]
  | [], _ :: _, _, _, hl, _, _, _ => by simp at hl
  | _ :: _, [], _, _, hl, _, _, _ => by simp at hl

/-- As `updLoop_ok`, when the value for the `j`-th cell may depend on the values already written. -/
theorem updLoop_seq (g : Nat → Nat → Mem α → Res α) : ∀ (ps : List Nat) (xs : List α) (k0 : Nat) (m : Mem α),
    ps.length = xs.length → ps.Nodup → (∀ p ∈ ps, m p ≠ none) →
    (∀ (j p : Nat) (x : α), ps[j]? = some p → xs[j]? = some x → ∀ m', (∀ q, q ∉ ps.take j → m' q = m q) →
      (∀ (j' p' : Nat) (x' : α), j' < j → ps[j']? = some p' → xs[j']? = some x' → m' p' = some x') → g (k0 + j) p m' = .ok x) →
    ∃ m', updLoop g k0 ps m = .ok m' ∧
      (∀ (j p : Nat) (x : α), ps[j]? = some p → xs[j]? = some x → m' p = some x) ∧
      ∀ q, q ∉ ps → m' q = m q
  | [], [], k0, m, _, _, _, _ => ⟨m, rfl, by simp, by simp⟩
  | p :: ps, x :: xs, k0, m, hl, hn, hv, hg => by
    have h0 : g k0 p m = .ok x := by
      have := hg 0 p x rfl rfl m (by simp) (by intro j' _ _ h; omega)
      simpa using this
    obtain ⟨hp, hn⟩ := List.nodup_cons.1 hn
    obtain ⟨m', h1, h2, h3⟩ := updLoop_seq g ps xs (k0 + 1) (m.set p x) (by simpa using hl) hn
      (by
        intro q hq
        simp only [Mem.set]
        split
        · simp
        · exact hv q (by simp [hq]))
      (by
        intro j q y hq hy m' hm' hw
        have := hg (j + 1) q y (by simpa using hq) (by simpa using hy) m' (by
          intro r hr
          simp only [List.take_succ_cons, List.mem_cons, not_or] at hr
          rw [hm' r hr.2]
          simp [Mem.set, hr.1]) (by
          intro j' p' x' hj' hp' hx'
          cases j' with
          | zero =>
            simp only [List.getElem?_cons_zero, Option.some.injEq] at hp' hx'
            subst hp' hx'
            rw [hm' p fun h => hp (List.mem_of_mem_take h)]; simp [Mem.set]
          | succ j' => exact hw j' p' x' (by omega) (by simpa using hp') (by simpa using hx'))
        rw [show k0 + 1 + j = k0 + (j + 1) by omega]
        exact this)
    refine ⟨m', ?_, ?_, ?_⟩
    · rw [updLoop, h0, res_ok_bind, write_ok (hv p (by simp)), res_ok_bind, h1]
    · intro j q y hq hy
      cases j with
      | zero =>
        simp only [List.getElem?_cons_zero, Option.some.injEq] at hq hy
        subst hq hy
        rw [h3 p hp]; simp [Mem.set]
      | succ j => exact h2 j q y (by simpa using hq) (by simpa using hy)
    · intro q hq
      simp only [List.mem_cons, not_or] at hq
      rw [h3 q hq.2]; simp [Mem.set, hq.1]
  | [], _ :: _, _, _, hl, _, _, _ => by simp at hl
  | _ :: _, [], _, _, hl, _, _, _ => by simp at hl

/-- Writing one value everywhere; cells may repeat. -/
theorem updLoop_const (g : Nat → Nat → Mem α → Res α) (x : α) : ∀ (ps : List Nat) (k0 : Nat) (m : Mem α),
    (∀ p ∈ ps, m p ≠ none) →
    (∀ (k p : Nat) m', (∀ q, m' q = m q ∨ q ∈ ps ∧ m' q = some x) → g k p m' = .ok x) →
    ∃ m', updLoop g k0 ps m = .ok m' ∧ (∀ p ∈ ps, m' p = some x) ∧ ∀ q, q ∉ ps → m' q = m q
  | [], k0, m, _, _ => ⟨m, rfl, by simp, by simp⟩
  | p :: ps, k0, m, hv, hg => by
    have h0 : g k0 p m = .ok x := hg k0 p m fun q => .inl rfl
    obtain ⟨m', h1, h2, h3⟩ := updLoop_const g x ps (k0 + 1) (m.set p x)
      (by
        intro q hq
        simp only [Mem.set]
        split
        · simp
        · exact hv q (by simp [hq]))
      (by
        intro k q m' hm'
        apply hg
        intro r
        rcases hm' r with h | ⟨h, h'⟩
        · simp only [Mem.set] at h
          split at h
          · next hr => exact .inr ⟨by simp [hr], h⟩
          · exact .inl h
        · exact .inr ⟨by simp [h], h'⟩)
    refine ⟨m', ?_, ?_, ?_⟩
    · rw [updLoop, h0, res_ok_bind, write_ok (hv p (by simp)), res_ok_bind, h1]
    · intro q hq
      by_cases hqs : q ∈ ps
      · exact h2 q hqs
      · rw [h3 q hqs]
        rcases List.mem_cons.1 hq with rfl | h
        · simp [Mem.set]
        · exact (hqs h).elim
    · intro q hq
      simp only [List.mem_cons, not_or] at hq
      rw [h3 q hq.2]; simp [Mem.set, hq.1]

/-! ### Views as lists of cells -/

theorem enum_length (v : AView) : v.enum.length = prod v.ext := by
  simp [AView.enum, multiIdx_length]

theorem mem_enum {v : AView} {p : Nat} : p ∈ v.enum ↔ Covers v p := by
  simp [AView.enum, Covers, mem_multiIdx]

theorem enum_getElem? {v : AView} {i : List Nat} (h : InB v.ext i) :
    v.enum[cmPos v.ext i]? = some (v.pos i) := map_multiIdx_getElem? v.pos h

theorem enum_getElem?_some {v : AView} {k p : Nat} (h : v.enum[k]? = some p) :
    ∃ i, InB v.ext i ∧ k = cmPos v.ext i ∧ p = v.pos i ∧ (multiIdx v.ext)[k]? = some i := by
  simp only [AView.enum, List.getElem?_map, Option.map_eq_some_iff] at h
  obtain ⟨i, hi, hp⟩ := h
  have hin : InB v.ext i := mem_multiIdx.1 (List.mem_of_getElem? hi)
  refine ⟨i, hin, ?_, hp.symm, hi⟩
  have h1 := multiIdx_getElem? hin
  have hlt : k < (multiIdx v.ext).length := (List.getElem?_eq_some_iff.1 hi).1
  have hlt' := (List.getElem?_eq_some_iff.1 h1).1
  exact (List.nodup_iff_injective_get.1 (multiIdx_nodup v.ext)
    (a₁ := ⟨k, hlt⟩) (a₂ := ⟨_, hlt'⟩) (by
      have e1 := (List.getElem?_eq_some_iff.1 hi).2
      have e2 := (List.getElem?_eq_some_iff.1 h1).2
      simp [e1, e2]) |> fun h => by simpa using h)

theorem distinct_nodup {v : AView} (h : Distinct v) : v.enum.Nodup := by
  unfold AView.enum
  apply List.Nodup.map_on _ (multiIdx_nodup _)
  intro i hi j hj he
  exact h i j (mem_multiIdx.1 hi) (mem_multiIdx.1 hj) he

theorem alive_enum {m : Mem α} {v : AView} (h : Alive m v) : ∀ p ∈ v.enum, m p ≠ none := by
  intro p hp
  obtain ⟨i, hi, rfl⟩ := mem_enum.1 hp
  exact h i hi

theorem mem_take_enum {v : AView} {k q : Nat} (h : q ∈ v.enum.take k) :
    ∃ i, InB v.ext i ∧ cmPos v.ext i < k ∧ v.pos i = q := by
  obtain ⟨j, hj⟩ := List.mem_iff_getElem?.1 h
  have hjk : j < k := by
    have := (List.getElem?_eq_some_iff.1 hj).1
    simp at this; omega
  rw [List.getElem?_take_of_lt hjk] at hj
  obtain ⟨i, hi, hk, hp, _⟩ := enum_getElem?_some hj
  exact ⟨i, hi, by omega, hp.symm⟩

/-! ### Expressions -/

/-- An absent value is undefined behaviour. -/
def toRes : Option α → Res α
  | some x => .ok x
  | none => .error .ub

theorem read_toRes (m : Mem α) (p : Nat) : m.read p = toRes (m p) := by
  unfold Mem.read toRes; cases m p <;> rfl

theorem valAt_congr {m m' : Mem α} : ∀ {s : Ex AView α} {i : List Nat},
    (∀ c ∈ cellsAt s i, m' c = m c) → valAt m' s i = valAt m s i
  | .leaf v, i, h => h _ (by simp [cellsAt])
  | .un f e, i, h => by
    simp only [valAt]; rw [valAt_congr (s := e) h]
  | .bin f a b, i, h => by
    simp only [valAt]
    rw [valAt_congr (s := a) fun c hc => h c (by simp [cellsAt, hc]),
      valAt_congr (s := b) fun c hc => h c (by simp [cellsAt, hc])]

/-- A source object that yields, in column-major order of the extents `d`, the values `s` has. -/
structure Yields (src : EObj α) (d : List Nat) (s : Ex AView α) : Prop where
  dims : src.dims = d
  count : src.it.count = some (prod d)
  deref : ∀ (m : Mem α) (k : Nat) (i : List Nat), (multiIdx d)[k]? = some i →
    src.it.deref m k = toRes (valAt m s i)

theorem observes_dims {o : Obj} {v : AView} (h : Observes o v) (hne : v.ext ≠ []) : o.dims = some v.ext := by
  have := h.dims
  cases hd : o.dims with
  | none => rw [hd] at this; exact (hne this.symm).elim
  | some d => rw [hd] at this; simpa using this

theorem build_ok {chk : Bool} {d : List Nat} : ∀ {e : Ex Obj α} {s : Ex AView α}, Denotes e s →
    (∀ x ∈ exts s, x = d) → ∃ src, e.build Arith.exact chk = .ok src ∧ Yields src d s
  | _, _, .leaf (o := o) (v := v) h hne, hd => by
    have he : v.ext = d := hd _ (by simp [exts])
    refine ⟨⟨v.ext, .cells v.enum⟩, ?_, he, ?_, ?_⟩
    · simp [Ex.build, observes_dims h hne, h.iterate]
    · simp [It.count, enum_length, he]
    · intro m k i hi
      rw [← he] at hi
      simp [It.deref, AView.enum, hi, valAt, read_toRes]
  | _, _, .un (f := f) h, hd => by
    obtain ⟨src, h1, h2, h3, h4⟩ := build_ok (chk := chk) h hd
    refine ⟨⟨src.dims, .map f src.it⟩, by simp [Ex.build, h1], h2, h3, ?_⟩
    intro m k i hi
    simp only [It.deref, h4 m k i hi, valAt]
    rename_i s
    cases valAt m s i <;> rfl
  | _, _, .bin (s := s) (t := t) (f := f) ha hb, hd => by
    obtain ⟨x, a1, a2, a3, a4⟩ := build_ok (chk := chk) ha fun x hx => hd x (by simp [exts, hx])
    obtain ⟨y, b1, b2, b3, b4⟩ := build_ok (chk := chk) hb fun x hx => hd x (by simp [exts, hx])
    refine ⟨⟨x.dims, .zip f x.it y.it⟩, by simp [Ex.build, a1, b1, a2, b2], a2, by simp [It.count, a3, b3], ?_⟩
    intro m k i hi
    simp only [It.deref, a4 m k i hi, b4 m k i hi, valAt]
    cases valAt m s i <;> cases valAt m t i <;> rfl

/-- The result of `build` is described by the extents even when they differ. -/
theorem build_mismatch {n : Nat} : ∀ {e : Ex Obj α} {s : Ex AView α}, Denotes e s →
    (∀ x ∈ exts s, x.length = n) → (¬ ∃ d, ∀ x ∈ exts s, x = d) →
    e.build Arith.exact true = .error .assert
  | _, _, .leaf (v := v) h hne, _, hd => (hd ⟨v.ext, by simp [exts]⟩).elim
  | _, _, .un h, hn, hd => by simp [Ex.build, build_mismatch h hn hd]
  | _, _, .bin (s := s) (t := t) ha hb, hn, hd => by
    have hna : ∀ x ∈ exts s, x.length = n := fun x hx => hn x (by simp [exts, hx])
    have hnb : ∀ x ∈ exts t, x.length = n := fun x hx => hn x (by simp [exts, hx])
    by_cases h1 : ∃ d, ∀ x ∈ exts s, x = d
    · obtain ⟨d1, h1⟩ := h1
      obtain ⟨x, a1, a2, _, _⟩ := build_ok (chk := true) ha h1
      by_cases h2 : ∃ d, ∀ x ∈ exts t, x = d
      · obtain ⟨d2, h2⟩ := h2
        obtain ⟨y, b1, b2, _, _⟩ := build_ok (chk := true) hb h2
        have hne : ∀ u : Ex AView α, ∃ x, x ∈ exts u := by
          intro u
          induction u with
          | leaf v => exact ⟨_, by simp [exts]; rfl⟩
          | un f e ih => exact ih
          | bin f a b iha _ => obtain ⟨x, hx⟩ := iha; exact ⟨x, by simp [exts, hx]⟩
        have hx : x.dims.length = n := by
          obtain ⟨z, hz⟩ := hne s
          rw [a2, ← h1 z hz]; exact hna z hz
        have hy : y.dims.length = n := by
          obtain ⟨z, hz⟩ := hne t
          rw [b2, ← h2 z hz]; exact hnb z hz
        have hxy : x.dims ≠ y.dims := by
          rw [a2, b2]
          intro he
          apply hd
          refine ⟨d1, fun z hz => ?_⟩
          simp only [exts, List.mem_append] at hz
          rcases hz with hz | hz
          · exact h1 z hz
          · rw [h2 z hz, he]
        simp [Ex.build, a1, b1, hx, hy, hxy, dbg]
      · simp [Ex.build, a1, build_mismatch hb hnb h2]
    · simp [Ex.build, build_mismatch ha hna h1]

end Jules

namespace Jules
open Spec

theorem filterMap_total {F : β → Option α} : ∀ {l : List β}, (∀ a ∈ l, F a ≠ none) →
    (l.filterMap F).length = l.length ∧ ∀ (k : Nat) (a : β), l[k]? = some a → (l.filterMap F)[k]? = F a
  | [], _ => by simp
  | b :: l, h => by
    obtain ⟨h1, h2⟩ := filterMap_total (F := F) (l := l) fun a ha => h a (by simp [ha])
    cases hb : F b with
    | none => exact (h b (by simp) hb).elim
    | some x =>
      rw [List.filterMap_cons_some hb]
      refine ⟨by simp [h1], ?_⟩
      intro k a hk
      cases k with
      | zero => simp only [List.getElem?_cons_zero, Option.some.injEq] at hk ⊢; rw [← hk, hb]
      | succ k => simpa using h2 k a (by simpa using hk)

theorem mapM_ok_of {f : β → Res α} : ∀ {l : List β} {xs : List α}, l.length = xs.length →
    (∀ (k : Nat) (a : β) (x : α), l[k]? = some a → xs[k]? = some x → f a = .ok x) → l.mapM f = .ok xs
  | [], [], _, _ => rfl
  | a :: l, x :: xs, hl, h => by
    have := mapM_ok_of (f := f) (l := l) (xs := xs) (by simpa using hl) fun k a x h1 h2 =>
      h (k + 1) a x (by simpa using h1) (by simpa using h2)
    simp [List.mapM_cons, h 0 a x rfl rfl, this]
  | [], _ :: _, hl, _ => by simp at hl
  | _ :: _, [], hl, _ => by simp at hl

/-- The values of `s` on the extents `d`, in column-major order. -/
theorem values_exist {m : Mem α} {s : Ex AView α} {d : List Nat} (h : ∀ i, InB d i → valAt m s i ≠ none) :
    ∃ xs : List α, xs.length = prod d ∧
      ∀ (k : Nat) (i : List Nat), (multiIdx d)[k]? = some i → xs[k]? = valAt m s i := by
  have := filterMap_total (F := valAt m s) (l := multiIdx d) fun a ha => h a (mem_multiIdx.1 ha)
  exact ⟨_, by rw [this.1, multiIdx_length], this.2⟩

theorem newArray_ok {src : EObj α} {d : List Nat} {s : Ex AView α} (hy : Yields src d s) (m : Mem α)
    (fresh : Nat) {xs : List α} (hl : xs.length = prod d)
    (hx : ∀ (k : Nat) (i : List Nat), (multiIdx d)[k]? = some i → xs[k]? = valAt m s i) :
    newArray Arith.exact src m fresh = .ok (m.setMany fresh xs, ⟨fresh, d⟩) := by
  have : (List.range (prod d)).mapM (fun k => src.it.deref m k) = .ok xs := by
    apply mapM_ok_of (by simp [hl])
    intro k a x hk hxk
    have hka : a = k := by
      have := (List.getElem?_eq_some_iff.1 hk).2
      simpa using this.symm
    subst hka
    have hlt : a < (multiIdx d).length := by
      have := (List.getElem?_eq_some_iff.1 hxk).1
      rw [multiIdx_length]; omega
    have hi := List.getElem?_eq_getElem hlt
    rw [hy.deref m a _ hi, ← hx a _ hi, hxk]; rfl
  simp [newArray, prodL_exact, hy.dims, this]

theorem setMany_in {m : Mem α} {b : Nat} {xs : List α} {k : Nat} (h : k < xs.length) :
    m.setMany b xs (b + k) = xs[k]? := by
  simp [Mem.setMany, h]

theorem setMany_out {m : Mem α} {b : Nat} {xs : List α} {q : Nat} (h : ¬ (b ≤ q ∧ q < b + xs.length)) :
    m.setMany b xs q = m q := by
  simp only [Mem.setMany, if_neg h]

theorem array_observes (b : Nat) {d : List Nat} (hne : d ≠ []) : Observes (.cref b d) (arrayView b d) :=
  observes (o := .cref b d) hne (arrayView_same b d)

theorem cmSum_lt {d i : List Nat} (h : InB d i) : cmSum d i < prod d := by
  rw [← cmPos_eq_sum (inB_length h)]; exact cmPos_lt h

theorem arrayView_distinct (b : Nat) (d : List Nat) : Distinct (arrayView b d) := by
  intro i j hi hj h
  have hi' : InB d i := hi
  have hj' : InB d j := hj
  have h : b + cmSum d i = b + cmSum d j := h
  rw [← cmPos_eq_sum (inB_length hi'), ← cmPos_eq_sum (inB_length hj')] at h
  exact cmPos_inj hi' hj' (by omega)

theorem arrayView_covers {b : Nat} {d : List Nat} {q : Nat} : Covers (arrayView b d) q ↔ b ≤ q ∧ q < b + prod d := by
  constructor
  · rintro ⟨i, hi, rfl⟩
    have := cmSum_lt (d := d) hi
    simp only [arrayView]; omega
  · rintro ⟨h1, h2⟩
    have hlt : q - b < prod d := by omega
    refine ⟨unflatten d (q - b), unflatten_inB hlt, ?_⟩
    simp only [arrayView]
    rw [← cmPos_eq_sum (inB_length (unflatten_inB hlt)), cmPos_unflatten hlt]; omega

/-- Elementwise assignment over a list of distinct cells from a source that never reads a cell written
before. -/
theorem assign_cells {m : Mem α} {src : EObj α} {d : List Nat} {s : Ex AView α} {v : AView}
    (hy : Yields src d s) (hd : prod v.ext = prod d) (hdis : Distinct v) (hal : Alive m v)
    {xs : List α} (hl : xs.length = prod d)
    (hx : ∀ (k : Nat) (i : List Nat), (multiIdx d)[k]? = some i → xs[k]? = valAt m s i)
    (hord : ∀ i j, InB d i → InB v.ext j → cmSum v.ext j < cmSum d i → v.pos j ∉ cellsAt s i) :
    ∃ m', updLoop (fun k _ m => src.it.deref m k) 0 v.enum m = .ok m' ∧
      (∀ (k p : Nat) (x : α), v.enum[k]? = some p → xs[k]? = some x → m' p = some x) ∧
      ∀ q, ¬ Covers v q → m' q = m q := by
  obtain ⟨m', h1, h2, h3⟩ := updLoop_ok (fun k _ m => src.it.deref m k) v.enum xs 0 m
    (by rw [enum_length, hl, hd]) (distinct_nodup hdis) (alive_enum hal) (by
      intro k p x hp hxk m1 hm1
      have hlt : k < (multiIdx d).length := by
        have := (List.getElem?_eq_some_iff.1 hxk).1
        rw [multiIdx_length]; omega
      have hi := List.getElem?_eq_getElem hlt
      rw [Nat.zero_add, hy.deref m1 k _ hi]
      have hin : InB d (multiIdx d)[k] := mem_multiIdx.1 (List.getElem_mem _)
      rw [valAt_congr (m := m), ← hx k _ hi, hxk]; rfl
      intro c hc
      apply hm1
      intro hct
      obtain ⟨j, hj, hjk, hjc⟩ := mem_take_enum hct
      have hki : k = cmPos d (multiIdx d)[k] := by
        have := multiIdx_getElem? hin
        have e2 := (List.getElem?_eq_some_iff.1 this)
        exact ((multiIdx_nodup d).getElem_inj_iff.1 e2.2).symm
      refine hord _ j hin hj ?_ (hjc ▸ hc)
      rw [← cmPos_eq_sum (inB_length hj), ← cmPos_eq_sum (inB_length hin), ← hki]; exact hjk)
  exact ⟨m', h1, h2, fun q hq => h3 q fun h => hq (mem_enum.1 h)⟩

end Jules

import Verif.Lemmas.WrapRun
import Verif.Lemmas.Chains
import Verif.Lemmas.Unchecked
/-
C55: the library computes positions in 64-bit unsigned arithmetic; the theorems about chains of index expressions (C03 - C11) are
about exact arithmetic. Here: for arrays of fewer than 2^62 elements and index expressions whose own bounds are 64-bit numbers
(Spec/Fits), both give the same.
-/
namespace Jules
open Spec

/-! ### Ordinary chains fit -/

theorem sel_length_le {d : Nat} {ix : Ix} (h : LegalIx d ix) (hl : NotList ix) : (sel d ix).length ≤ d := by
  obtain ⟨hs, hne, hin⟩ := h
  cases ix with
  | «at» i => have := hin i (by simp [sel]); simp [sel]; omega
  | slice s x =>
    simp only [sel, List.length_map, List.length_range]
    rcases Nat.eq_zero_or_pos x with h0 | h0
    · omega
    · have := hin (s + (x - 1)) (by simp only [sel, List.mem_map, List.mem_range]; exact ⟨x - 1, by omega, rfl⟩)
      omega
  | strided s x t =>
    have ht : 0 < t := hs
    simp only [sel, List.length_map, List.length_range]
    rcases Nat.eq_zero_or_pos x with h0 | h0
    · omega
    · have := hin (s + (x - 1) * t) (by simp only [sel, List.mem_map, List.mem_range]; exact ⟨x - 1, by omega, rfl⟩)
      have h1 : (x - 1) * 1 ≤ (x - 1) * t := Nat.mul_le_mul_left _ ht
      omega
  | every => simp [sel]
  | bounded s m =>
    simp only [sel, List.length_take]
    have := List.length_filter_le (fun k => decide (s ≤ k)) (List.range d)
    simp only [List.length_range] at this
    omega
  | boundedStrided s m t =>
    simp only [sel, List.length_take]
    have := List.length_filter_le (fun k => decide (s ≤ k ∧ (k - s) % t = 0)) (List.range d)
    simp only [List.length_range] at this
    omega
  | rng l => exact hl.elim

theorem prod_le_prod : ∀ {a b : List Nat}, List.Forall₂ (· ≤ ·) a b → prod a ≤ prod b
  | _, _, .nil => Nat.le_refl _
  | _, _, .cons h t => Nat.mul_le_mul h (prod_le_prod t)

/-- Invariant of ordinary chains: no dimension grows. -/
def Small (n : Nat) : AObj → Prop
  | .view v => prod v.ext ≤ n
  | .part v sels => prod v.ext ≤ n ∧ List.Forall₂ (· ≤ ·) (sels.map List.length) (v.ext.take sels.length) ∧ sels.length < v.ext.length

theorem small_close {n : Nat} {v : AView} {sels : List (List Nat)} {l : List Nat} (hp : prod v.ext ≤ n)
    (hs : List.Forall₂ (· ≤ ·) (sels.map List.length) (v.ext.take sels.length)) (hlt : sels.length < v.ext.length)
    (hl : l.length ≤ v.ext.getD sels.length 0) : Small n (close v (sels ++ [l])) := by
  have hall : List.Forall₂ (· ≤ ·) ((sels ++ [l]).map List.length) (v.ext.take (sels.length + 1)) := by
    rw [take_snoc_getD hlt, List.map_append]
    exact List.rel_append hs (.cons hl .nil)
  unfold close
  split
  · next heq =>
    have ht : v.ext.take (sels.length + 1) = v.ext := List.take_of_length_le (by simp at heq; omega)
    rw [ht] at hall
    exact Nat.le_trans (prod_le_prod hall) hp
  · next hne => exact ⟨hp, by simpa using hall, by simp at hne ⊢; omega⟩

theorem small_astep {n : Nat} {a : AObj} {ix : Ix} (h : Small n a) (hl : Legal a ix) (hn : NotList ix) : Small n (astep a ix) := by
  cases a with
  | view v =>
    obtain ⟨hz, hl⟩ := hl
    have h : prod v.ext ≤ n := h
    by_cases hx : ∃ i, ix = .at i
    · obtain ⟨i, rfl⟩ := hx
      show prod v.ext.tail ≤ n
      cases he : v.ext with
      | nil => rw [he] at h; exact h
      | cons x es =>
        rw [he] at h hz
        exact Nat.le_trans (Nat.le_mul_of_pos_left _ (Nat.pos_of_ne_zero (hz x (by simp)))) h
    · have hx : ∀ i, ix ≠ .at i := fun i hi => hx ⟨i, hi⟩
      rw [astep_view_notAt hx]
      have hne : 0 < v.ext.length := by
        rcases List.eq_nil_or_concat v.ext with h0 | ⟨l, x, h0⟩
        · have := sel_length_le hl hn
          have h2 := hl.2.1
          rw [h0] at this h2
          exact absurd (List.length_eq_zero_iff.1 (Nat.le_zero.1 this)) h2
        · rw [h0]; simp
      refine small_close (sels := []) h .nil hne ?_
      have := sel_length_le hl hn
      cases he : v.ext with
      | nil => rw [he] at hne; simp at hne
      | cons x es => rw [he] at this; simpa using this
  | part v sels =>
    obtain ⟨hp, hs, hlt⟩ := h
    exact small_close hp hs hlt (sel_length_le hl.2 hn)

theorem legal_fits {d : Nat} {ix : Ix} (hd : d ≤ maxElems) (h : LegalIx d ix) (hs : LoneStrideOK d ix) : IxFits d ix := by
  have hM : maxElems < 2 ^ 64 := by decide
  obtain ⟨ht, hne, hin⟩ := h
  cases ix with
  | «at» i => trivial
  | every => trivial
  | rng l => trivial
  | slice s x =>
    show s + x < 2 ^ 64
    rcases Nat.eq_zero_or_pos x with h0 | h0
    · subst h0; exact absurd rfl hne
    · have := hin (s + (x - 1)) (by simp only [sel, List.mem_map, List.mem_range]; exact ⟨x - 1, by omega, rfl⟩)
      omega
  | strided s x t =>
    refine ⟨fun h0 => ?_, fun h1 => Nat.le_trans (hs h1) (Nat.le_max_right _ _)⟩
    have := hin (s + (x - 1) * t) (by simp only [sel, List.mem_map, List.mem_range]; exact ⟨x - 1, by omega, rfl⟩)
    omega
  | bounded s m =>
    show s < 2 ^ 64
    obtain ⟨k, hk⟩ := List.exists_mem_of_ne_nil _ hne
    have h1 := hin k hk
    have h2 := (List.mem_filter.1 (List.mem_of_mem_take hk)).2
    have h2 : s ≤ k := by simpa using h2
    omega
  | boundedStrided s m t =>
    refine ⟨?_, fun h1 => Nat.le_trans (hs h1) (Nat.le_max_right _ _)⟩
    obtain ⟨k, hk⟩ := List.exists_mem_of_ne_nil _ hne
    have h1 := hin k hk
    have h2 := (List.mem_filter.1 (List.mem_of_mem_take hk)).2
    have h2 : s ≤ k := by simp only [decide_eq_true_eq] at h2; exact h2.1
    omega

theorem ordinary_fits : ∀ {h : List Ix} {a : AObj}, Small maxElems a → OrdinaryAll a h → FitsAll maxElems a h
  | [], _, _, _ => trivial
  | ix :: h, a, hs, ⟨hl, hn, hst, hr⟩ => by
    have hdim : nextDim a ≤ maxElems := by
      cases a with
      | view v =>
        show v.ext.headD 0 ≤ _
        cases he : v.ext with
        | nil => simp
        | cons x es =>
          have h1 : prod v.ext ≤ maxElems := hs
          have hz := hl.1
          exact Nat.le_trans (le_prod hz (by rw [he]; simp)) h1
      | part v sels =>
        obtain ⟨h1, _, h3⟩ := hs
        show v.ext.getD sels.length 0 ≤ _
        rw [List.getD_eq_getElem?_getD, List.getElem?_eq_getElem h3]
        exact Nat.le_trans (le_prod hl.1 (List.getElem_mem h3)) h1
    have hL : LegalIx (nextDim a) ix := by
      cases a with
      | view v => exact hl.2
      | part v sels => exact hl.2
    have hs' := small_astep hs hl hn
    refine ⟨legal_fits hdim hL hst, fun _ => ⟨?_, ordinary_fits hs' hr⟩⟩
    cases hx : astep a ix with
    | view v => rw [hx] at hs'; exact hs'
    | part v sels => trivial

end Jules

namespace Jules.Props
open Jules Spec

theorem root_fit {e : List Nat} (he : ∀ x ∈ e, x ≤ maxElems) (hp : prod e < maxElems) : OFit maxElems (.cref 0 e) :=
  ⟨he, by omega⟩

theorem root_agree {e : List Nat} {h : List Ix} (hne : e ≠ []) (he : ∀ x ∈ e, x ≤ maxElems) (hp : prod e < maxElems)
    (hf : FitsAll maxElems (.view (arrayView 0 e)) h) :
    Agree maxElems ((Obj.cref 0 e).run Arith.u64 true h) ((Obj.cref 0 e).run Arith.exact true h) :=
  run_agree (by decide) (by decide) (o := .cref 0 e) hne (root_fit he hp) (fitsAll_congr (a := .view (arrayView 0 e)) (b := .view (contig 0 e)) (arrayView_same 0 e).symm hf)

/-! ### C55 -/

/-- **C55.** A chain of index expressions that fits, applied in a checked build to an array of fewer than 2^62 elements, has the
same outcome in 64-bit arithmetic as in exact arithmetic: the same view or element, or the same assertion. -/
theorem C55_chain {e : List Nat} {h : List Ix} (hne : e ≠ []) (he : ∀ x ∈ e, x ≤ maxElems) (hp : prod e < maxElems)
    (hf : FitsAll maxElems (.view (arrayView 0 e)) h) :
    (Obj.cref 0 e).run Arith.u64 true h = (Obj.cref 0 e).run Arith.exact true h :=
  (root_agree hne he hp hf).1

-- A chain that meets these hypotheses, used in the examples below.
theorem fitsEx : FitsAll maxElems (.view (arrayView 0 [5, 4, 6])) [.every, .rng [3, 0, 3], .boundedStrided 1 100 2] := by
  simp [FitsAll, IxFits, nextDim, arrayView, astep, close, restrict, sel, SizeAtMost, prod, maxElems, stridedCount, List.range_succ]
example := C55_chain (e := [5, 4, 6]) (by decide) (by decide) (by decide) fitsEx

/-- **C55.** The view obtained in 64-bit arithmetic has the dimensions of, and visits exactly the positions of, the view the chain
means, all of them inside the array. -/
theorem C55_view {e : List Nat} {h : List Ix} (hne : e ≠ []) (he : ∀ x ∈ e, x ≤ maxElems) (hp : prod e < maxElems)
    (hf : FitsAll maxElems (.view (arrayView 0 e)) h) {o : Obj} {v : AView}
    (hr : (Obj.cref 0 e).run Arith.u64 true h = .ok o) (hm : meaning 0 e h = .view v) :
    o.dims.getD [] = v.ext ∧ o.positions Arith.u64 = .ok v.enum ∧ ∀ p ∈ v.enum, p < prod e := by
  obtain ⟨h1, h2⟩ := root_agree hne he hp hf
  rw [h1] at hr
  obtain ⟨w, s⟩ := viewOf_wf (e := e) (h := h) (v := v) ⟨hne, hr, hm⟩
  have hobs := observes w s
  have hpos := positions_agree (by decide) (by decide) w (h2 o hr)
  refine ⟨hobs.dims, hpos.trans hobs.iterate, ?_⟩
  intro p hpm
  obtain ⟨_, s', a⟩ := run_meaning hne hr
  have hb : Bounded (prod e) (.view (arrayView 0 e)) := by
    have h1 := bounded_root 0 e
    rw [Nat.zero_add] at h1
    exact bounded_congr (a := .view (contig 0 e)) (b := .view (arrayView 0 e)) (arrayView_same 0 e) h1
  have hb' := bounded_run hb a
  unfold meaning at hm
  rw [hm] at hb'
  obtain ⟨i, hi, rfl⟩ := List.mem_map.1 hpm
  exact hb' i (mem_multiIdx.1 hi)

example := C55_view (e := [5, 4, 6]) (by decide) (by decide) (by decide) fitsEx rfl rfl

/-- **C05** in 64-bit arithmetic, for chains that fit (`C05_wraparound_1d` and `C05_wraparound_strided` show chains that do not): every
element of the view lies inside the memory of the array. -/
theorem C05_in_bounds_64_partial {e : List Nat} {h : List Ix} (hne : e ≠ []) (he : ∀ x ∈ e, x ≤ maxElems) (hp : prod e < maxElems)
    (hf : FitsAll maxElems (.view (arrayView 0 e)) h) {o : Obj} {ps : List Nat} (hr : (Obj.cref 0 e).run Arith.u64 true h = .ok o)
    (hps : o.positions Arith.u64 = .ok ps) : ∀ p ∈ ps, p < prod e := by
  cases hm : meaning 0 e h with
  | view v =>
    obtain ⟨_, h2, h3⟩ := C55_view hne he hp hf hr hm
    rw [h2] at hps
    cases hps
    exact h3
  | part v sels =>
    obtain ⟨h1, _⟩ := root_agree hne he hp hf
    rw [h1] at hr
    obtain ⟨_, s, _⟩ := run_meaning hne hr
    have s : SameObj o.abs (.part v sels) := hm ▸ s
    cases o with
    | elem p => exact s.elim
    | cref off ext => exact s.elim
    | sref off m => exact s.elim
    | proxy off m args => cases hps
    | everyProxy off ext M => cases hps

example := C05_in_bounds_64_partial (e := [5, 4, 6]) (by decide) (by decide) (by decide) fitsEx rfl rfl

/-- **C55.** In a build without assertions the accepted chains give the same object. -/
theorem C55_unchecked {e : List Nat} {h : List Ix} (hne : e ≠ []) (he : ∀ x ∈ e, x ≤ maxElems) (hp : prod e < maxElems)
    (hf : FitsAll maxElems (.view (arrayView 0 e)) h) {o : Obj} (hr : (Obj.cref 0 e).run Arith.exact true h = .ok o) :
    (Obj.cref 0 e).run Arith.u64 false h = .ok o := by
  have h1 := C55_chain hne he hp hf
  rw [hr] at h1
  exact weak_run Arith.u64 h (.cref 0 e) o h1

example := C55_unchecked (e := [5, 4, 6]) (by decide) (by decide) (by decide) fitsEx rfl

/-- **C55.** For an array of fewer than 2^62 elements every legal chain of indices and slices (no explicit lists of indices, no
one-element strided slice with a stride beyond its dimension) is computed exactly. -/
theorem C55_ordinary {e : List Nat} {h : List Ix} (hne : e ≠ []) (hz : ∀ x ∈ e, x ≠ 0) (hp : prod e < maxElems)
    (ho : OrdinaryAll (.view (arrayView 0 e)) h) :
    (Obj.cref 0 e).run Arith.u64 true h = (Obj.cref 0 e).run Arith.exact true h :=
  C55_chain hne (fun x hx => Nat.le_trans (le_prod hz hx) (Nat.le_of_lt hp)) hp
    (ordinary_fits (a := .view (arrayView 0 e)) (Nat.le_of_lt hp) ho)

/-- A chain with every kind of index expression meets the hypotheses of `C55_chain`. -/
example : FitsAll maxElems (.view (arrayView 0 [5, 4, 6])) [.every, .rng [3, 0, 3], .boundedStrided 1 100 2, .at 4, .strided 0 2 2] := by
  simp [FitsAll, IxFits, nextDim, arrayView, astep, close, restrict, sel, SizeAtMost, prod, fixFirst, maxElems, stridedCount,
    List.range_succ]

example : (Obj.cref 0 [5, 4, 6]).run Arith.u64 true [.every, .rng [3, 0, 3], .boundedStrided 1 100 2, .at 4, .strided 0 2 2] =
    .ok (.proxy 0 (.vec ⟨0, [3, 3], [1, 3]⟩ [39, 24, 39, 79, 64, 79, 119, 104, 119]) [.slice 0 2 2]) := by decide +kernel

/-- And an ordinary chain on a large matrix those of `C55_ordinary`. -/
example : OrdinaryAll (.view (arrayView 0 [2 ^ 30, 2 ^ 30])) [.at 7, .strided 5 1000 (2 ^ 20)] := by
  refine ⟨⟨by simp [arrayView], trivial, by simp [sel], by simp [sel, arrayView]⟩, trivial, trivial, ?_⟩
  refine ⟨⟨by simp [arrayView, fixFirst, astep], (by show 0 < 2 ^ 20; decide), ?_, ?_⟩, trivial, by simp [LoneStrideOK], trivial⟩
  · intro h0
    have := congrArg List.length h0
    simp only [sel, List.length_map, List.length_range, List.length_nil] at this
    omega
  intro i hi
  simp only [sel, List.mem_map, List.mem_range] at hi
  obtain ⟨k, hk, rfl⟩ := hi
  show _ < 2 ^ 30
  omega

/-- **C55 is false without the condition on one-element strided slices**: `m[0][slice(0, 1, 2^60)]` on a 16×2 matrix is accepted
and has size one, but the stride `16 * 2^60` is 0 in 64-bit arithmetic and iterating the view visits nothing. -/
theorem C55_lone_stride_wraps :
    (Obj.cref 0 [16, 2]).run Arith.u64 true [.at 0, .strided 0 1 (2 ^ 60)] = .ok (.sref 0 (.ident ⟨0, [1], [0]⟩)) ∧
      (Obj.sref 0 (.ident ⟨0, [1], [0]⟩)).positions Arith.u64 = .ok [] ∧
      (Obj.cref 0 [16, 2]).run Arith.exact true [.at 0, .strided 0 1 (2 ^ 60)] = .ok (.sref 0 (.ident ⟨0, [1], [2 ^ 64]⟩)) ∧
      (Obj.sref 0 (.ident ⟨0, [1], [2 ^ 64]⟩)).positions Arith.exact = .ok [0] := by
  decide +kernel

end Jules.Props

import Verif.Lemmas.IterArith
import Verif.Lemmas.Observe
import Verif.Props.Indexing
/-
C60: arithmetic of the iterators of arrays and views.
-/
namespace Jules.Props
open Jules Spec

/-- **C60 (partial: forward arithmetic).** For every view a checked build produces, with `n` elements and while what its iterators refer to
is alive: `begin() + k`, `k ≤ n`, are defined; `begin() + n` is `end()`; `begin() + k` refers to the `k`-th element in column-major order;
`(begin() + k) + j` is `begin() + (k + j)`; `++` is `+ 1`; `begin() + k == begin() + j` only if `k = j`; and
`(begin() + j) - (begin() + k)` is `j - k` if `k ≤ j`, after at most `j - k` steps. -/
theorem C60_forward_partial {e : List Nat} {h : List Ix} {o : Obj} {v : AView} (hv : ViewOf e h o v) (hne : v.ext ≠ []) (obj : Nat) :
    ∃ src, leafSrc Arith.exact obj o = .ok src ∧ ∀ σ : Store α, Usable σ (.leaf obj o) →
      ∀ k, k ≤ prod v.ext → ∃ it, src.first.plus Arith.exact σ k = .ok it ∧
        (k = 0 → it = src.first) ∧ (k = prod v.ext → it = src.last) ∧
        (∀ i, (multiIdx v.ext)[k]? = some i → ∀ m, it.deref Arith.exact σ m = m.read (v.pos i)) ∧
        (k < prod v.ext → it.next Arith.exact σ = it.plus Arith.exact σ 1) ∧
        (∀ j, k + j ≤ prod v.ext → it.plus Arith.exact σ j = src.first.plus Arith.exact σ (k + j)) ∧
        ∀ j it', j ≤ prod v.ext → src.first.plus Arith.exact σ j = .ok it' →
          it.eq it' = decide (k = j) ∧
          (k ≤ j → ∀ fuel, j - k < fuel → it'.minusIt Arith.exact σ fuel it = .ok ((j : Int) - k)) := by
  obtain ⟨w, s⟩ := viewOf_wf hv
  have ho := observes w s
  have hd := observes_dims ho hne
  obtain ⟨src, h1, h2⟩ := leaf_arith (α := α) w hd obj
  obtain ⟨src', h1', _, h3, _⟩ := leaf_src (α := α) ho hne obj
  rw [h1] at h1'
  cases h1'
  refine ⟨src, h1, fun σ hu k hk => ?_⟩
  obtain ⟨it, ha, h0, hl, _⟩ := h2 σ hu
  have hp : ∀ j, src.first.plus Arith.exact σ j = .ok (it j) := fun j => by rw [← h0, ha.plus, Nat.zero_add]
  refine ⟨it k, hp k, fun hk => by rw [hk, h0], fun hk => by rw [hk, hl], fun i hi m => ?_, fun _ => by rw [ha.walk.next, ha.plus], fun j _ => by rw [ha.plus, hp],
    fun j it' _ hj => ?_⟩
  · have := runs_walk ha.walk (h3 σ hu) 0 h0.symm k (fun m => m.read (v.pos i)) (by simp [AView.enum, hi]) m
    rwa [Nat.zero_add] at this
  · rw [hp] at hj
    cases hj
    exact ⟨ha.walk.eq k j, fun hkj fuel hf => ha.dist k j fuel hkj hf⟩

/-- **C60 (partial: both directions).** The iterators of contiguous views and of views selected by lists of indices also go backwards: `(begin() + k) - j` is
`begin() + (k - j)` and differences may be negative. -/
theorem C60_backward_partial {e : List Nat} {h : List Ix} {o : Obj} {v : AView} (hv : ViewOf e h o v) (hne : v.ext ≠ [])
    (hc : ¬ ∃ off d, o = .sref off (.ident d)) (obj : Nat) :
    ∃ src, leafSrc Arith.exact obj o = .ok src ∧ ∀ σ : Store α, Usable σ (.leaf obj o) →
      ∀ k it, k ≤ prod v.ext → src.first.plus Arith.exact σ k = .ok it →
        (∀ j, j ≤ k → it.minus j = src.first.plus Arith.exact σ (k - j)) ∧
        ∀ j it' fuel, j ≤ prod v.ext → src.first.plus Arith.exact σ j = .ok it' → it'.minusIt Arith.exact σ fuel it = .ok ((j : Int) - k) := by
  obtain ⟨w, s⟩ := viewOf_wf hv
  obtain ⟨src, h1, h2⟩ := leaf_arith (α := α) w (observes_dims (observes w s) hne) obj
  refine ⟨src, h1, fun σ hu k i hk hi => ?_⟩
  obtain ⟨it, ha, h0, _, _, hb⟩ := h2 σ hu
  have hp : ∀ j, src.first.plus Arith.exact σ j = .ok (it j) := fun j => by rw [← h0, ha.plus, Nat.zero_add]
  rw [hp] at hi
  cases hi
  refine ⟨fun j hj => by rw [(hb hc k).1 j hj, hp], fun j it' fuel _ hj => ?_⟩
  rw [hp] at hj
  cases hj
  exact (hb hc j).2 k fuel

/-- **C60 is false for strided views.** Whenever the view is strided (and not selected by a list), subtracting a positive number from any of its
iterators is undefined and the difference of two iterators in the wrong order is never computed: the loop does not end. -/
theorem C60_strided_backward {e : List Nat} {h : List Ix} {off : Nat} {d : SDesc} {v : AView} (hv : ViewOf e h (.sref off (.ident d)) v)
    (hne : v.ext ≠ []) (obj : Nat) :
    ∃ src, leafSrc Arith.exact obj (.sref off (.ident d)) = .ok src ∧ ∀ σ : Store α, Usable σ (.leaf obj (.sref off (.ident d))) →
      ∀ k it, k ≤ prod v.ext → src.first.plus Arith.exact σ k = .ok it →
        (∀ j, 0 < j → it.minus j = .error .ub) ∧
        ∀ j it', j < k → src.first.plus Arith.exact σ j = .ok it' → ∀ fuel, it'.minusIt Arith.exact σ fuel it = .error .outOfFuel := by
  obtain ⟨w, s⟩ := viewOf_wf hv
  obtain ⟨src, h1, h2⟩ := leaf_arith (α := α) w (observes_dims (observes w s) hne) obj
  refine ⟨src, h1, fun σ hu k i hk hi => ?_⟩
  obtain ⟨it, ha, h0, _, hb, _⟩ := h2 σ hu
  have hp : ∀ j, src.first.plus Arith.exact σ j = .ok (it j) := fun j => by rw [← h0, ha.plus, Nat.zero_add]
  rw [hp] at hi
  cases hi
  refine ⟨fun j hj => (hb ⟨_, _, rfl⟩ k).1 j hj, fun j it' hj hji fuel => ?_⟩
  rw [hp] at hji
  cases hji
  exact (hb ⟨_, _, rfl⟩ j).2 k fuel hj

/-! Concrete cases: `a` is 4 by 3, `a[slice(1, 2)][every]` is strided with elements at 1, 2, 5, 6, 9, 10; `a[1][…]`, `a` contiguous. -/

def strided : Obj := .sref 0 (.ident ⟨1, [2, 3], [1, 4]⟩)

theorem strided_viewOf : ∃ v, ViewOf [4, 3] [.slice 1 2, .every] strided v ∧ v.ext = [2, 3] := by
  refine ⟨_, ⟨by simp, by decide +kernel, rfl⟩, by decide +kernel⟩

example (obj : Nat) := strided_viewOf.imp fun _ h => C60_forward_partial (α := Int) h.1 (by simp [h.2]) obj
example (obj : Nat) := strided_viewOf.imp fun _ h => C60_strided_backward (α := Int) h.1 (by simp [h.2]) obj
example (obj : Nat) := C60_backward_partial (α := Int) (e := [4, 3]) (h := []) ⟨by simp, rfl, rfl⟩ (by simp [arrayView]) (by simp) obj

/-- `*(begin() + 3)` is the element at position 6; `end() - begin()` is 6; `begin() - end()` is still counting after 50 steps. -/
example : (leafSrc Arith.exact 7 strided >>= fun src => do
      let σ : Store Nat := fun i => if i = 7 then some (.desc ⟨1, [2, 3], [1, 4]⟩) else none
      let it ← src.first.plus Arith.exact σ 3
      let x ← it.deref Arith.exact σ (fun p => if p < 12 then some (100 + p) else none)
      let n ← src.last.minusIt Arith.exact σ 50 src.first
      .ok (x, n)) = .ok (106, 6) ∧
    (leafSrc Arith.exact 7 strided >>= fun src => src.first.minusIt Arith.exact (fun i => if i = 7 then some (Rep.desc (α := Nat) ⟨1, [2, 3], [1, 4]⟩) else none) 50 src.last) =
      .error .outOfFuel := by decide +kernel

end Jules.Props

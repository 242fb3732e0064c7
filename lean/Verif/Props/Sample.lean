import Verif.Model.Sample
import Mathlib.Algebra.Order.Field.Rat
import Mathlib.Tactic.NormNum
/-
C64: sampling from a distribution.
-/
namespace Jules.Props

/-- Specification: `n` draws one after another, with the state in between. -/
def draws (d : Sampler S V) : Nat → S → List V × S
  | 0, s => ([], s)
  | n + 1, s =>
    let (v, s) := d.one s
    let (vs, s) := draws d n s
    (v :: vs, s)

theorem collect_eq (d : Sampler S V) (n : Nat) : ∀ (s : S) (acc : List V),
    GenN.collect d n ⟨n, none, s⟩ acc = .ok (acc ++ (draws d n s).1, (draws d n s).2) := by
  induction n with
  | zero => intro s acc; simp [GenN.collect, draws]
  | succ n ih =>
    intro s acc
    simp only [GenN.collect, Nat.add_eq_zero_iff, one_ne_zero, and_false, if_false, GenN.read, GenN.next, Nat.add_sub_cancel, ih, draws, Sampler.one]
    simp

theorem draws_add (d : Sampler S V) (m n : Nat) : ∀ s, draws d (m + n) s =
    ((draws d m s).1 ++ (draws d n (draws d m s).2).1, (draws d n (draws d m s).2).2) := by
  induction m with
  | zero => intro s; simp [draws]
  | succ m ih => intro s; rw [Nat.succ_add]; simp only [draws, ih]; rfl

theorem draws_length (d : Sampler S V) (n : Nat) : ∀ s, (draws d n s).1.length = n := by
  induction n with
  | zero => intro s; rfl
  | succ n ih => intro s; simp [draws, ih]

theorem draws_mem (d : Sampler S V) (n : Nat) : ∀ s, ∀ v ∈ (draws d n s).1, ∃ s', v = (d.call s').1 := by
  induction n with
  | zero => intro s v hv; simp [draws] at hv
  | succ n ih =>
    intro s v hv
    simp only [draws, Sampler.one, List.mem_cons] at hv
    rcases hv with rfl | hv
    · exact ⟨_, rfl⟩
    · exact ih _ v hv

/-- **C64.** `sample(n, dist, g)` gives the values of `n` calls of `sample(dist, g)`, in order, and leaves the distribution and the generator in the state these calls leave them in:
exactly `n` calls are made, none skipped and none in advance. For every distribution, generator and state. -/
theorem C64_many_is_repeated (d : Sampler S V) (n : Nat) (s : S) : d.many n s = .ok (draws d n s) := by
  unfold Sampler.many
  rw [collect_eq]
  simp

/-- **C64.** Sampling `m` and then `n` values is sampling `m + n` values. -/
theorem C64_split (d : Sampler S V) (m n : Nat) (s : S) :
    ∃ a b t u, d.many m s = .ok (a, t) ∧ d.many n t = .ok (b, u) ∧ d.many (m + n) s = .ok (a ++ b, u) ∧ a.length = m ∧ b.length = n := by
  refine ⟨_, _, _, _, C64_many_is_repeated d m s, C64_many_is_repeated d n _, ?_, draws_length .., draws_length ..⟩
  rw [C64_many_is_repeated, draws_add]

/-- **C64 (partial: at least one weight).** `discrete_index_sample(n, weights)` gives `n` positions of `weights`, all of positive weight, for every `std::discrete_distribution`
that keeps to its contract. -/
theorem C64_discrete_partial (w : List ℚ) (hw : w ≠ []) (d : Sampler S Nat) (hd : DiscreteFor w d) (n : Nat) (s : S) :
    ∃ vs t, d.many n s = .ok (vs, t) ∧ vs.length = n ∧ ∀ v ∈ vs, ∃ x, w[v]? = some x ∧ 0 < x := by
  refine ⟨_, _, C64_many_is_repeated d n s, draws_length .., fun v hv => ?_⟩
  obtain ⟨s', rfl⟩ := draws_mem d n s v hv
  have := hd s'
  rwa [discreteWeights, if_neg hw] at this

/-- **C64 is false without weights**: nothing is reported, and every index that comes out is 0, which is not a position of the empty list. -/
theorem C64_no_weights (d : Sampler S Nat) (hd : DiscreteFor [] d) (n : Nat) (s : S) :
    ∃ t, d.many n s = .ok (List.replicate n 0, t) := by
  refine ⟨(draws d n s).2, (C64_many_is_repeated d n s).trans ?_⟩
  congr 1
  refine Prod.ext ?_ rfl
  refine List.eq_replicate_iff.2 ⟨draws_length .., fun v hv => ?_⟩
  obtain ⟨s', rfl⟩ := draws_mem d n s v hv
  obtain ⟨x, h1, -⟩ := hd s'
  cases h : (d.call s').1 with
  | zero => rfl
  | succ k => rw [h] at h1; simp [discreteWeights] at h1

/-! Concrete cases: a generator that counts, and the distribution with weights 1, 0, 2 that takes the positions in turn. -/
def counter : Sampler Nat Nat := ⟨fun s => (if s % 2 = 0 then 0 else 2, s + 1)⟩

example : counter.many 3 1 = .ok ([2, 0, 2], 4) := by decide +kernel

theorem counter_discrete : DiscreteFor [1, 0, 2] counter := by
  intro s
  by_cases h : s % 2 = 0
  · exact ⟨1, by simp [counter, h, discreteWeights], by norm_num⟩
  · exact ⟨2, by simp [counter, h, discreteWeights], by norm_num⟩

example : DiscreteFor [] (⟨fun s => (0, s + 1)⟩ : Sampler Nat Nat) := fun _ => ⟨1, by simp [discreteWeights], by norm_num⟩

example := C64_discrete_partial [1, 0, 2] (by decide) counter counter_discrete 3 1

end Jules.Props

import Verif.Lemmas.ConstVectorThreads
/-
C82: const_vectors in several threads.
-/
namespace Jules.Props
open Jules.Spec

variable {α : Type} [DecidableEq α]

/-! ### C82

A sequential program (any history `ops` of C38) creates const_vectors; `who` gives each of its variables to a thread or leaves it shared; thread
`i` then executes `progs i`, which may create, copy, move, assign and destroy variables of its own, copy shared variables, and read the elements
and sizes of both and compare them. `S` is what the variables hold by the specification of C38, and `finals i` is how thread `i` sv_ends when it is
executed alone. All interleavings of the single steps are considered. -/

/-- The threads are started after the history `ops`; alone, thread `i` would end as `finals i`. -/
structure SVStarted (ops : List (CVOp α)) (who : Nat → Option (Fin n)) (progs : Fin n → List (SVOp α)) (finals : Fin n → SVAlone α) (σ₀ : SVSys α n) : Prop where
  history : CSpec.okAll [] ops
  state : ∃ s, CVState.init.run ops = .ok s ∧ σ₀ = SVSys.start s who progs
  runs : ∀ i, SVRuns (keepVals (fun x => decide (who x = none)) (ops.foldl CSpec.step [])) ⟨keepVals (fun x => decide (who x = some i)) (ops.foldl CSpec.step []), []⟩
    (progs i) (finals i)

theorem svStarted_inv {ops : List (CVOp α)} {who : Nat → Option (Fin n)} {progs : Fin n → List (SVOp α)} {finals : Fin n → SVAlone α} {σ₀ σ : SVSys α n}
    (h : SVStarted ops who progs finals σ₀) (hr : σ₀.Reach σ) :
    SVInv (keepVals (fun x => decide (who x = none)) (ops.foldl CSpec.step [])) finals σ ∧ SVFinite σ := by
  obtain ⟨s', h1, rfl⟩ := h.state
  obtain ⟨s, h2, h3, h4⟩ := run_ok (inv_init (α := α)) (ops := ops) h.history
  rw [h1] at h2
  cases h2
  have h4 : absCV s' = ops.foldl CSpec.step [] := h4
  have hruns := h.runs
  rw [← h4] at hruns ⊢
  exact ⟨sv_inv_reach (sv_inv_start h3 who progs finals hruns) hr, sv_finite_reach (sv_finite_start s' who progs) hr⟩

/-- Such threads exist for every legal history and division of its variables. -/
theorem C82_start (ops : List (CVOp α)) (h : CSpec.okAll [] ops) (who : Nat → Option (Fin n)) (progs : Fin n → List (SVOp α)) (finals : Fin n → SVAlone α)
    (hr : ∀ i, SVRuns (keepVals (fun x => decide (who x = none)) (ops.foldl CSpec.step [])) ⟨keepVals (fun x => decide (who x = some i)) (ops.foldl CSpec.step []), []⟩
      (progs i) (finals i)) : ∃ σ₀, SVStarted ops who progs finals σ₀ := by
  obtain ⟨s, h2, _, _⟩ := run_ok (inv_init (α := α)) (ops := ops) h
  exact ⟨_, h, ⟨s, h2, rfl⟩, hr⟩

/-- There is no data race: never is one thread about to destroy elements another is about to use. -/
theorem C82_no_race {ops : List (CVOp α)} {who : Nat → Option (Fin n)} {progs : Fin n → List (SVOp α)} {finals : Fin n → SVAlone α} {σ₀ σ : SVSys α n}
    (h : SVStarted ops who progs finals σ₀) (hr : σ₀.Reach σ) : ¬ σ.Race := sv_no_race (svStarted_inv h hr).1

/-- No thread ever uses memory that has been freed, or waits for another: as long as it has something to do, it can go on. -/
theorem C82_progress {ops : List (CVOp α)} {who : Nat → Option (Fin n)} {progs : Fin n → List (SVOp α)} {finals : Fin n → SVAlone α} {σ₀ σ : SVSys α n}
    (h : SVStarted ops who progs finals σ₀) (hr : σ₀.Reach σ) (i : Fin n) (hn : ¬ σ.finished i) : ∃ τ, σ.Step i τ := by
  obtain ⟨hi, N, hN⟩ := svStarted_inv h hr
  exact sv_progress hi ⟨N, hN N le_rfl⟩ i hn

/-- There are no infinite executions. -/
theorem C82_ends {ops : List (CVOp α)} {who : Nat → Option (Fin n)} {progs : Fin n → List (SVOp α)} {finals : Fin n → SVAlone α} {σ₀ : SVSys α n}
    (h : SVStarted ops who progs finals σ₀) : ¬ ∃ f : Nat → SVSys α n, f 0 = σ₀ ∧ ∀ k, ∃ i, (f k).Step i (f (k + 1)) := by
  rintro ⟨f, h0, hf⟩
  have hacc := sv_ends (svStarted_inv h .refl).1
  rw [← h0] at hacc
  suffices ∀ x, Acc (fun τ υ : SVSys α n => ∃ i, υ.Step i τ) x → ∀ k, x ≠ f k from this _ hacc 0 rfl
  intro x hx
  induction hx with
  | intro x _ ih =>
    rintro k rfl
    obtain ⟨i, hi⟩ := hf k
    exact ih _ ⟨i, hi⟩ (k + 1) rfl

/-- At any time, also while other threads are running: a thread that has finished has seen what it sees when executed alone, and its variables
have the values they have when it is executed alone; the shared variables have their values. -/
theorem C82_values {ops : List (CVOp α)} {who : Nat → Option (Fin n)} {progs : Fin n → List (SVOp α)} {finals : Fin n → SVAlone α} {σ₀ σ : SVSys α n}
    (h : SVStarted ops who progs finals σ₀) (hr : σ₀.Reach σ) :
    ShowsAll σ.blocks σ.shared (keepVals (fun x => decide (who x = none)) (ops.foldl CSpec.step [])) ∧
    ∀ i, σ.finished i → (σ.threads i).log = (finals i).log ∧ ShowsAll σ.blocks (σ.threads i).vars (finals i).own := by
  obtain ⟨hi, _⟩ := svStarted_inv h hr
  refine ⟨hi.shared, fun i hf => ?_⟩
  obtain ⟨T, obs, a1, a2, a3, a4⟩ := hi.follows i
  rw [hf.1] at a2
  rw [hf.2] at a4
  cases a2
  cases a4
  exact ⟨by simpa using a3.symm, a1⟩

/-- When all threads have finished, exactly the vectors some variable refers to exist, with the right use counts: nothing is leaked, and each has
been freed by one thread only. -/
theorem C82_storage {ops : List (CVOp α)} {who : Nat → Option (Fin n)} {progs : Fin n → List (SVOp α)} {finals : Fin n → SVAlone α} {σ₀ σ : SVSys α n}
    (h : SVStarted ops who progs finals σ₀) (hr : σ₀.Reach σ) (hf : ∀ i, σ.finished i) (b : Nat) :
    (σ.blocks b ≠ none ↔ Referred σ b) ∧ (∀ l c, σ.blocks b = some (l, c) → c = refCount σ b) := by
  obtain ⟨hi, _⟩ := svStarted_inv h hr
  obtain ⟨h1, h2⟩ := sv_inv_end hi hf b
  have hpos : Referred σ b ↔ refCount σ b ≠ 0 := by
    rw [refCount_eq]
    constructor
    · rintro (hs | ⟨i, hs⟩)
      · have : 0 < owners σ.shared b := List.count_pos_iff.2 hs
        omega
      · have : 0 < owners (σ.threads i).vars b := List.count_pos_iff.2 hs
        have := Finset.single_le_sum (f := fun i => owners (σ.threads i).vars b) (fun j _ => Nat.zero_le _) (Finset.mem_univ i)
        omega
    · intro hne
      by_cases hs : owners σ.shared b = 0
      · have : ∑ i, owners (σ.threads i).vars b ≠ 0 := by omega
        obtain ⟨i, _, hi⟩ := Finset.exists_ne_zero_of_sum_ne_zero this
        exact .inr ⟨i, List.count_pos_iff.1 (Nat.pos_of_ne_zero hi)⟩
      · exact .inl (List.count_pos_iff.1 (Nat.pos_of_ne_zero hs))
  refine ⟨?_, fun l c hb => by rw [← h1, cntOf, hb]⟩
  rw [hpos, ← h1]
  unfold cntOf zerOf at *
  cases hb : σ.blocks b with
  | none => simp
  | some v =>
    rw [hb] at h2
    obtain ⟨l, c⟩ := v
    cases c with
    | zero => simp at h2
    | succ c => simp

/-- A vector exists as long as some variable refers to it, at any time. -/
theorem C82_alive {ops : List (CVOp α)} {who : Nat → Option (Fin n)} {progs : Fin n → List (SVOp α)} {finals : Fin n → SVAlone α} {σ₀ σ : SVSys α n}
    (h : SVStarted ops who progs finals σ₀) (hr : σ₀.Reach σ) (b : Nat) (hb : Referred σ b) : σ.blocks b ≠ none := by
  obtain ⟨hi, _⟩ := svStarted_inv h hr
  intro hn
  obtain ⟨h1, h2⟩ := sv_unused hi (b := b) (by simp [cntOf, hn])
  rcases hb with hs | ⟨i, hs⟩
  · have : 0 < owners σ.shared b := List.count_pos_iff.2 hs
    omega
  · have : 0 < owners (σ.threads i).vars b := List.count_pos_iff.2 hs
    have := (h2 i).1
    omega

theorem sv_reach_trans {σ τ υ : SVSys α n} (h : σ.Reach τ) (h' : τ.Reach υ) : σ.Reach υ := by
  induction h' with
  | refl => exact h
  | tail _ hs ih => exact .tail ih hs

/-- From every state that can be reached, all threads can finish. -/
theorem C82_completes {ops : List (CVOp α)} {who : Nat → Option (Fin n)} {progs : Fin n → List (SVOp α)} {finals : Fin n → SVAlone α} {σ₀ σ : SVSys α n}
    (h : SVStarted ops who progs finals σ₀) (hr : σ₀.Reach σ) : ∃ τ, σ.Reach τ ∧ ∀ i, τ.finished i := by
  have hacc := sv_ends (svStarted_inv h hr).1
  induction hacc with
  | intro σ _ ih =>
    by_cases hall : ∀ i, σ.finished i
    · exact ⟨σ, .refl, hall⟩
    · obtain ⟨i, hn⟩ := not_forall.1 hall
      obtain ⟨τ, hs⟩ := C82_progress h hr i hn
      obtain ⟨υ, h1, h2⟩ := ih τ ⟨i, hs⟩ (.tail hr hs)
      exact ⟨υ, sv_reach_trans (.tail .refl hs) h1, h2⟩

/-! Two threads: one variable is shared, each thread begins with a copy of its own. The first drops its copy, copies the shared variable and compares;
the second reads an element, moves its variable over a new one, and drops it. -/

/-- The sequential part. -/
def exSVOps : List (CVOp Nat) := [.make [1, 2, 3], .copyInit 0, .copyInit 0]
/-- Who gets which variable. -/
def exSVWho : Nat → Option (Fin 2)
  | 1 => some 0
  | 2 => some 1
  | _ => none
/-- The programs. -/
def exSVProgs : Fin 2 → List (SVOp Nat)
  | 0 => [.local (.destroy 1), .copyShared 0, .equal (.own 3) (.shared 0), .local (.destroy 3)]
  | 1 => [.read (.own 2) 1, .local (.make [7]), .local (.moveAssign 3 2), .size (.own 3), .local (.destroy 3)]
/-- How they end. -/
def exSVEnds : Fin 2 → SVAlone Nat
  | 0 => ⟨[.gone, .gone, .gone, .gone], [.equal true]⟩
  | 1 => ⟨[.gone, .gone, .movedFrom, .gone], [.elem 2, .size 3]⟩

example : ∃ σ₀, SVStarted exSVOps exSVWho exSVProgs exSVEnds σ₀ := by
  refine C82_start exSVOps (show CSpec.okAll [] exSVOps from ⟨trivial, ⟨_, rfl, nofun⟩, ⟨_, rfl, nofun⟩, trivial⟩) _ _ _ fun i => ?_
  match i with
  | 0 =>
    exact .cons ⟨_, rfl, nofun⟩ .local (.cons ⟨_, rfl, nofun⟩ .copyShared (.cons ⟨_, _, rfl, rfl⟩ (.equal (l := [1, 2, 3]) (m := [1, 2, 3]) rfl rfl)
      (.cons ⟨_, rfl, nofun⟩ .local .nil)))
  | 1 =>
    exact .cons ⟨_, rfl, by decide⟩ (.read rfl rfl) (.cons trivial .local (.cons ⟨⟨_, rfl, nofun⟩, ⟨_, rfl, nofun⟩⟩ .local
      (.cons ⟨_, rfl⟩ (.size (l := [1, 2, 3]) rfl) (.cons ⟨_, rfl, nofun⟩ .local .nil))))

end Jules.Props

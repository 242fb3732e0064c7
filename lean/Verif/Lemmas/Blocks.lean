import Verif.Spec.Blocks
import Verif.Props.Scopes
import Verif.Lemmas.Concurrent
/-
Lemmas for C86: allocations, constructions and destructions, each of which may throw.
-/
namespace Jules
open Spec Props

section
variable {α : Type} {S : Nat → Bool}

/-- Something may throw. -/
def Alarm (S : Nat → Bool) : Prop := ∃ t, S t = true

theorem bm_bind {β γ : Type} (x : BM α β) (f : β → BM α γ) (p : Pool α) : (x >>= f) p = BM.bind x f p := rfl

theorem bm_pure {β : Type} (b : β) (p : Pool α) : (pure b : BM α β) p = .ok b p := rfl

theorem mayThrow_cases (m : Mem α) (bl : List (Nat × Nat)) (ru ck : Nat) :
    (mayThrow S ⟨m, bl, ru, ck⟩ = .ok () ⟨m, bl, ru, ck + 1⟩) ∨ (mayThrow S ⟨m, bl, ru, ck⟩ = .exn ⟨m, bl, ru, ck + 1⟩ ∧ Alarm S) := by
  unfold mayThrow
  by_cases h : S ck = true
  · right; simp only [h, if_true, true_and]; exact ⟨ck, h⟩
  · left; simp only [h, if_false, Bool.false_eq_true]

/-! ### Loops -/

/-- The loop in which element `c` throws. -/
def cutAt (c : Option Nat) (g : Nat → Nat → Mem α → Res (α × Bool)) : Nat → Nat → Mem α → Res (α × Bool) := fun k q m =>
  if c = some k then .error (.exc .user) else g k q m

theorem loopB_cut (g : Nat → Nat → Mem α → Res (α × Bool)) : ∀ (ps : List Nat) (k : Nat) (m : Mem α) (bl : List (Nat × Nat)) (ru ck : Nat),
    ∃ c : Option Nat, (∀ j, c = some j → k ≤ j ∧ j < k + ps.length ∧ Alarm S) ∧ ∀ m' t, stopLoop (cutAt c g) k ps m = .ok (m', t) →
      ∃ ck', loopB S g k ps ⟨m, bl, ru, ck⟩ = if t then .exn ⟨m', bl, ru, ck'⟩ else .ok () ⟨m', bl, ru, ck'⟩
  | [], k, m, bl, ru, ck => by
    refine ⟨none, by simp, ?_⟩
    intro m' t h
    simp only [stopLoop, Except.ok.injEq, Prod.mk.injEq] at h
    obtain ⟨rfl, rfl⟩ := h
    exact ⟨ck, rfl⟩
  | q :: ps, k, m, bl, ru, ck => by
    rcases mayThrow_cases (S := S) m bl ru ck with ht | ⟨ht, ha⟩
    · -- not here
      cases hg : g k q m with
      | error f =>
        refine ⟨none, by simp, ?_⟩
        intro m' t h
        simp only [stopLoop, cutAt, reduceCtorEq, if_false, hg] at h
        cases f <;> simp only [Except.ok.injEq, Prod.mk.injEq, reduceCtorEq] at h
        obtain ⟨rfl, rfl⟩ := h
        refine ⟨ck, ?_⟩
        simp only [loopB, bm_bind, BM.bind, BM.reads, hg, if_true]
      | ok r =>
        cases hw : m.write q r.1 with
        | error f =>
          refine ⟨none, by simp, ?_⟩
          intro m' t h
          simp only [stopLoop, cutAt, reduceCtorEq, if_false, hg, hw] at h
          cases h
        | ok m1 =>
          by_cases hr : r.2 = true
          · refine ⟨none, by simp, ?_⟩
            intro m' t h
            simp only [stopLoop, cutAt, reduceCtorEq, if_false, hg, hw, res_ok_bind, hr, if_true, Except.ok.injEq, Prod.mk.injEq] at h
            obtain ⟨rfl, rfl⟩ := h
            refine ⟨ck + 1, ?_⟩
            simp only [loopB, bm_bind, BM.bind, BM.reads, hg, ht, storeB, hw, hr, if_true, BM.raise]
          · obtain ⟨c, h1, h2⟩ := loopB_cut g ps (k + 1) m1 bl ru (ck + 1)
            refine ⟨c, ?_, ?_⟩
            · intro j hj
              obtain ⟨a, b, d⟩ := h1 j hj
              exact ⟨by omega, by simp; omega, d⟩
            · intro m' t h
              have hck : c ≠ some k := by
                intro hc
                have := (h1 k hc).1
                omega
              simp only [stopLoop, cutAt, hck, if_false, hg, hw, res_ok_bind, hr, Bool.false_eq_true] at h
              obtain ⟨ck', h3⟩ := h2 m' t h
              refine ⟨ck', ?_⟩
              simp only [loopB, bm_bind, BM.bind, BM.reads, hg, ht, storeB, hw, hr, Bool.false_eq_true, if_false, h3]
    · -- the schedule says that it throws here
      cases hg : g k q m with
      | error f =>
        refine ⟨none, by simp, ?_⟩
        intro m' t h
        simp only [stopLoop, cutAt, reduceCtorEq, if_false, hg] at h
        cases f <;> simp only [Except.ok.injEq, Prod.mk.injEq, reduceCtorEq] at h
        obtain ⟨rfl, rfl⟩ := h
        refine ⟨ck, ?_⟩
        simp only [loopB, bm_bind, BM.bind, BM.reads, hg, if_true]
      | ok r =>
        refine ⟨some k, ?_, ?_⟩
        · intro j hj; cases hj; exact ⟨by omega, by simp, ha⟩
        · intro m' t h
          simp only [stopLoop, cutAt, if_true, Except.ok.injEq, Prod.mk.injEq] at h
          obtain ⟨rfl, rfl⟩ := h
          refine ⟨ck + 1, ?_⟩
          simp only [loopB, bm_bind, BM.bind, BM.reads, hg, ht, if_true]

/-! ### Constructing and destroying -/

theorem destroyNB_ok : ∀ (n b : Nat) (m : Mem α) (bl : List (Nat × Nat)) (ru ck : Nat), (∀ i, i < n → m (b + i) ≠ none) →
    destroyNB b n ⟨m, bl, ru, ck⟩ = .ok () ⟨m.free b n, bl, ru, ck⟩
  | 0, b, m, bl, ru, ck, _ => by
    have : m.free b 0 = m := by
      funext q; unfold Mem.free; rw [if_neg (by omega)]
    rw [this]; rfl
  | n + 1, b, m, bl, ru, ck, h => by
    obtain ⟨v, hv⟩ := Option.ne_none_iff_exists'.1 (h 0 (by omega))
    rw [Nat.add_zero] at hv
    have hrec := destroyNB_ok n (b + 1) (m.free b 1) bl ru ck (by
      intro i hi
      unfold Mem.free
      rw [if_neg (by omega), show b + 1 + i = b + (i + 1) by omega]
      exact h (i + 1) (by omega))
    have hm : (m.free b 1).free (b + 1) n = m.free b (n + 1) := by
      funext q; unfold Mem.free
      by_cases h1 : b ≤ q ∧ q < b + (n + 1)
      · rw [if_pos h1]
        by_cases h2 : b + 1 ≤ q ∧ q < b + 1 + n
        · rw [if_pos h2]
        · rw [if_neg h2, if_pos (by omega)]
      · rw [if_neg h1, if_neg (by omega), if_neg (by omega)]
    rw [hm] at hrec
    simp only [destroyNB, bm_bind, BM.bind, destroyB, hv, hrec]

theorem free_setMany {m : Mem α} {b n : Nat} {xs : List α} (hn : ∀ i, i < n → m (b + i) = none) (hl : xs.length ≤ n) : (m.setMany b xs).free b n = m := by
  funext q
  unfold Mem.free Mem.setMany
  by_cases h : b ≤ q ∧ q < b + n
  · rw [if_pos h]
    have := hn (q - b) (by omega)
    rw [show b + (q - b) = q by omega] at this
    exact this.symm
  · rw [if_neg h, if_neg (by omega)]

theorem setMany_alive {m : Mem α} {b : Nat} {xs : List α} {i : Nat} (h : i < xs.length) : m.setMany b xs (b + i) ≠ none := by
  rw [setMany_in h]; simp [h]

theorem inside_block {m : Mem α} {b n ru ck i : Nat} {bl : List (Nat × Nat)} (h : i < n) : Pool.inside (⟨m, (b, n) :: bl, ru, ck⟩ : Pool α) (b + i) = true := by
  simp [Pool.inside, h]

theorem constructLoopB_ok {nx : Bool} {b N : Nat} {src : Nat → Mem α → Res α} {V : Nat → Option α} {m0 : Mem α} {bl : List (Nat × Nat)} {ru : Nat}
    (hsrc : ∀ j, j < N → ∀ m, (∀ q, m0 q ≠ none → m q = m0 q) → src j m = called (V j)) (h0 : ∀ i, i < N → m0 (b + i) = none) :
    ∀ (n k ck : Nat) (xs : List α), k + n = N → xs.length = k → (∀ j, j < k → V j = xs[j]?) →
      (∃ ys ck', ys.length = N ∧ (∀ j, j < N → V j = ys[j]?) ∧ constructLoopB S nx b src k n ⟨m0.setMany b xs, (b, N) :: bl, ru, ck⟩ =
        .ok () ⟨m0.setMany b ys, (b, N) :: bl, ru, ck'⟩) ∨
      (∃ ck', constructLoopB S nx b src k n ⟨m0.setMany b xs, (b, N) :: bl, ru, ck⟩ = .exn ⟨m0, (b, N) :: bl, ru, ck'⟩ ∧
        ((∃ j, j < N ∧ V j = none) ∨ (nx = false ∧ Alarm S)))
  | 0, k, ck, xs, hk, hl, hx => by
    left
    exact ⟨xs, ck, by omega, fun j hj => hx j (by omega), rfl⟩
  | n + 1, k, ck, xs, hk, hl, hx => by
    have hs := hsrc k (by omega) (m0.setMany b xs) (by
      intro q hq
      apply setMany_out
      intro h
      have := h0 (q - b) (by omega)
      rw [show b + (q - b) = q by omega] at this
      exact hq this)
    have hfree : (m0.setMany b xs).free b k = m0 := free_setMany (fun i hi => h0 i (by omega)) (by omega)
    have hdes : ∀ ck, destroyNB b k ⟨m0.setMany b xs, (b, N) :: bl, ru, ck⟩ = .ok () ⟨m0, (b, N) :: bl, ru, ck⟩ := by
      intro ck
      rw [destroyNB_ok k b _ _ _ _ (fun i hi => setMany_alive (by omega)), hfree]
    cases hv : V k with
    | none =>
      right
      refine ⟨ck, ?_, .inl ⟨k, by omega, hv⟩⟩
      simp only [hv, called] at hs
      simp only [constructLoopB, bm_bind, BM.bind, BM.cleanup, BM.reads, hs, hdes]
    | some v =>
      simp only [hv, called] at hs
      have hin : ∀ ck, Pool.inside (⟨m0.setMany b xs, (b, N) :: bl, ru, ck⟩ : Pool α) (b + k) = true := fun ck => inside_block (by omega)
      have hpl : ∀ ck, Pool.place ⟨m0.setMany b xs, (b, N) :: bl, ru, ck⟩ (b + k) v = ⟨m0.setMany b (xs ++ [v]), (b, N) :: bl, ru, ck⟩ := by
        intro ck
        have hnone : m0.setMany b xs (b + k) = none := by
          rw [setMany_out (by omega)]; exact h0 k (by omega)
        simp only [Pool.place, hnone, Option.isSome_none, Bool.false_eq_true, if_false, Nat.add_zero]
        rw [← hl, setMany_snoc]
      have hnext := fun ck => constructLoopB_ok (nx := nx) (bl := bl) (ru := ru) hsrc h0 n (k + 1) ck (xs ++ [v]) (by omega) (by simp [hl]) (by
        intro j hj
        by_cases hjk : j = k
        · subst hjk; rw [hv, List.getElem?_append_right (by omega)]; simp [hl]
        · rw [List.getElem?_append_left (by omega)]; exact hx j (by omega))
      cases nx with
      | true =>
        have hstep : constructLoopB S true b src k (n + 1) ⟨m0.setMany b xs, (b, N) :: bl, ru, ck⟩ =
            constructLoopB S true b src (k + 1) n ⟨m0.setMany b (xs ++ [v]), (b, N) :: bl, ru, ck⟩ := by
          simp only [constructLoopB, bm_bind, BM.bind, BM.cleanup, BM.reads, hs, constructB, hin, if_true, hpl]
        rw [hstep]; exact hnext ck
      | false =>
        rcases mayThrow_cases (S := S) (m0.setMany b xs) ((b, N) :: bl) ru ck with ht | ⟨ht, ha⟩
        · have hstep : constructLoopB S false b src k (n + 1) ⟨m0.setMany b xs, (b, N) :: bl, ru, ck⟩ =
              constructLoopB S false b src (k + 1) n ⟨m0.setMany b (xs ++ [v]), (b, N) :: bl, ru, ck + 1⟩ := by
            simp only [constructLoopB, bm_bind, BM.bind, BM.cleanup, BM.reads, hs, constructB, hin, if_true, Bool.false_eq_true, if_false, ht, hpl]
          rw [hstep]; exact hnext (ck + 1)
        · right
          refine ⟨ck + 1, ?_, .inr ⟨rfl, ha⟩⟩
          simp only [constructLoopB, bm_bind, BM.bind, BM.cleanup, BM.reads, hs, constructB, hin, if_true, Bool.false_eq_true, if_false, ht, hdes]

/-- A block that does not overlap with the others. -/
def Fresh (bl : List (Nat × Nat)) (b n : Nat) : Prop := ∀ c ∈ bl, b ≠ c.1 ∧ (b + n ≤ c.1 ∨ c.1 + c.2 ≤ b)

/-- There are elements in blocks only. -/
def InBlocks (m : Mem α) (bl : List (Nat × Nat)) : Prop := ∀ q, m q ≠ none → ∃ c ∈ bl, c.1 ≤ q ∧ q < c.1 + c.2

theorem fresh_none {m : Mem α} {bl : List (Nat × Nat)} {b n : Nat} (hf : Fresh bl b n) (hin : InBlocks m bl) : ∀ i, i < n → m (b + i) = none := by
  intro i hi
  by_contra h
  obtain ⟨c, hc, h1, h2⟩ := hin _ h
  have := (hf c hc).2
  omega

theorem fresh_filter {bl : List (Nat × Nat)} {b n : Nat} (hf : Fresh bl b n) : ((b, n) :: bl).filter (fun y => y.1 != b) = bl := by
  rw [List.filter_cons]
  simp only [bne_self_eq_false, Bool.false_eq_true, if_false]
  rw [List.filter_eq_self]
  intro c hc
  simp only [bne_iff_ne, ne_eq]
  exact fun h => (hf c hc).1 h.symm

theorem allocateB_cases {alloc : Nat → List (Nat × Nat) → Nat → Option Nat} (hal : GoodBlocks alloc) (n : Nat) (m : Mem α) (bl : List (Nat × Nat)) (ru ck : Nat) :
    (∃ b, Fresh bl b n ∧ allocateB S alloc n ⟨m, bl, ru, ck⟩ = .ok b ⟨m, (b, n) :: bl, ru, ck + 1⟩) ∨
    (allocateB S alloc n ⟨m, bl, ru, ck⟩ = .exn ⟨m, bl, ru, ck + 1⟩ ∧ MayFail S alloc) := by
  rcases mayThrow_cases (S := S) m bl ru ck with ht | ⟨ht, ha⟩
  · cases hb : alloc (ck + 1) bl n with
    | some b =>
      left
      refine ⟨b, fun c hc => hal _ _ _ _ hb c hc, ?_⟩
      simp only [allocateB, bm_bind, BM.bind, ht, takeB, hb]
    | none =>
      right
      refine ⟨?_, .inr ⟨_, _, _, hb⟩⟩
      simp only [allocateB, bm_bind, BM.bind, ht, takeB, hb]
  · right
    refine ⟨?_, .inl ha⟩
    simp only [allocateB, bm_bind, BM.bind, ht, takeB]

theorem constructNB_cases {nx : Bool} {b N : Nat} {src : Nat → Mem α → Res α} {V : Nat → Option α} {m : Mem α} {bl : List (Nat × Nat)} (ru ck : Nat)
    (hsrc : ∀ j, j < N → ∀ m', (∀ q, m q ≠ none → m' q = m q) → src j m' = called (V j)) (h0 : ∀ i, i < N → m (b + i) = none) :
    (∃ ys ck', ys.length = N ∧ (∀ j, j < N → V j = ys[j]?) ∧ constructNB S nx b N src ⟨m, (b, N) :: bl, ru, ck⟩ =
        .ok () ⟨m.setMany b ys, (b, N) :: bl, ru, ck'⟩) ∨
    (∃ ck', constructNB S nx b N src ⟨m, (b, N) :: bl, ru, ck⟩ = .exn ⟨m, (b, N) :: bl, ru, ck'⟩ ∧ nx = false ∧ ((∃ j, j < N ∧ V j = none) ∨ Alarm S)) ∨
    (constructNB S nx b N src ⟨m, (b, N) :: bl, ru, ck⟩ = .fail .terminate ∧ nx = true ∧ ∃ j, j < N ∧ V j = none) := by
  have := constructLoopB_ok (S := S) (nx := nx) (bl := bl) (ru := ru) hsrc h0 N 0 ck [] (by omega) rfl (by intro j h; omega)
  rw [setMany_nil] at this
  rcases this with ⟨ys, ck', h1, h2, h3⟩ | ⟨ck', h1, h2⟩
  · exact .inl ⟨ys, ck', h1, h2, by simp only [constructNB, BM.noexcept, h3]⟩
  · cases nx with
    | false => exact .inr (.inl ⟨ck', by simp only [constructNB, BM.noexcept, h1, Bool.false_eq_true, if_false], rfl, h2.imp id And.right⟩)
    | true =>
      refine .inr (.inr ⟨by simp only [constructNB, BM.noexcept, h1, if_true], rfl, ?_⟩)
      rcases h2 with h | ⟨h, _⟩
      · exact h
      · cases h

theorem deallocateB_fresh {m : Mem α} {bl : List (Nat × Nat)} {b n : Nat} (hf : Fresh bl b n) (hn : ∀ i, i < n → m (b + i) = none) (ru ck : Nat) :
    deallocateB b ⟨m, (b, n) :: bl, ru, ck⟩ = .ok () ⟨m, bl, ru, ck⟩ := by
  have hfree : m.free b n = m := by
    have := free_setMany (xs := ([] : List α)) hn (by simp)
    rwa [setMany_nil] at this
  have hz : ((List.range n).filter fun i => (m (b + i)).isSome) = [] := by
    rw [List.filter_eq_nil_iff]
    intro i hi
    rw [hn i (by simpa using hi)]; simp
  simp only [deallocateB, List.find?_cons, beq_self_eq_true, fresh_filter hf, hfree, hz, List.length_nil, Nat.add_zero]

/-- The constructors. -/
theorem newB_cases {alloc : Nat → List (Nat × Nat) → Nat → Option Nat} (hal : GoodBlocks alloc) {nx : Bool} {ext : List Nat} {src : Nat → Mem α → Res α}
    {V : Nat → Option α} {m : Mem α} {bl : List (Nat × Nat)} (ru ck : Nat) (hin : InBlocks m bl)
    (hsrc : ∀ j, j < prod ext → ∀ m', (∀ q, m q ≠ none → m' q = m q) → src j m' = called (V j)) :
    (∃ b ys ck', Fresh bl b (prod ext) ∧ ys.length = prod ext ∧ (∀ j, j < prod ext → V j = ys[j]?) ∧
      newB Arith.exact S nx alloc ext src ⟨m, bl, ru, ck⟩ = .ok ⟨some b, ext⟩ ⟨m.setMany b ys, (b, prod ext) :: bl, ru, ck'⟩) ∨
    (∃ ck', newB Arith.exact S nx alloc ext src ⟨m, bl, ru, ck⟩ = .exn ⟨m, bl, ru, ck'⟩ ∧
      ((nx = false ∧ ∃ j, j < prod ext ∧ V j = none) ∨ MayFail S alloc)) ∨
    (newB Arith.exact S nx alloc ext src ⟨m, bl, ru, ck⟩ = .fail .terminate ∧ nx = true ∧ ∃ j, j < prod ext ∧ V j = none) := by
  rcases allocateB_cases (S := S) hal (prod ext) m bl ru ck with ⟨b, hf, ha⟩ | ⟨ha, hS⟩
  · have hn := fresh_none hf hin
    rcases constructNB_cases (S := S) (nx := nx) (bl := bl) ru (ck + 1) hsrc hn with ⟨ys, ck', h1, h2, h3⟩ | ⟨ck', h1, h2, h3⟩ | ⟨h1, h2, h3⟩
    · exact .inl ⟨b, ys, ck', hf, h1, h2, by simp only [newB, bm_bind, BM.bind, prodL_exact, ha, BM.cleanup, h3, bm_pure]⟩
    · refine .inr (.inl ⟨ck', ?_, h3.imp (⟨h2, ·⟩) .inl⟩)
      simp only [newB, bm_bind, BM.bind, prodL_exact, ha, BM.cleanup, h1, deallocateB_fresh hf hn]
    · refine .inr (.inr ⟨?_, h2, h3⟩)
      simp only [newB, bm_bind, BM.bind, prodL_exact, ha, BM.cleanup, h1]
  · right; left
    refine ⟨ck + 1, ?_, .inr hS⟩
    simp only [newB, bm_bind, BM.bind, prodL_exact, ha]

/-- The destructor. -/
theorem clearB_ok {m : Mem α} {bl : List (Nat × Nat)} {b : Nat} {ext : List Nat} (hb : (b, prod ext) ∈ bl) (hnd : (bl.map Prod.fst).Nodup)
    (hv : ∀ i, i < prod ext → m (b + i) ≠ none) (ru ck : Nat) :
    clearB Arith.exact ⟨some b, ext⟩ ⟨m, bl, ru, ck⟩ = .ok () ⟨m.free b (prod ext), bl.filter (fun y => y.1 != b), ru, ck⟩ := by
  have hfind : bl.find? (fun x => x.1 == b) = some (b, prod ext) := by
    have huniq : ∀ c ∈ bl, c.1 = b → c = (b, prod ext) := by
      intro c hc hcb
      exact List.inj_on_of_nodup_map hnd hc hb hcb
    cases hf : bl.find? (fun x => x.1 == b) with
    | none =>
      rw [List.find?_eq_none] at hf
      exact (hf _ hb (by simp)).elim
    | some c =>
      have h1 := List.mem_of_find?_eq_some hf
      have h2 := List.find?_some hf
      rw [huniq c h1 (by simpa using h2)]
  have hz : ((List.range (prod ext)).filter fun i => ((m.free b (prod ext)) (b + i)).isSome) = [] := by
    rw [List.filter_eq_nil_iff]
    intro i hi
    have : i < prod ext := by simpa using hi
    simp [Mem.free, this]
  have hff : (m.free b (prod ext)).free b (prod ext) = m.free b (prod ext) := by
    funext q; unfold Mem.free; split <;> rfl
  simp only [clearB, prodL_exact, bm_bind, BM.bind, destroyNB_ok _ b m bl ru ck hv, deallocateB, hfind, hz, hff, List.length_nil, Nat.add_zero]

end
end Jules

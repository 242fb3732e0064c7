import Verif.Spec.SafeBlocks
import Verif.Lemmas.BlockProgs
import Verif.Props.SafeProg
import Verif.Props.Program64
/-
Lemmas for C87: statements, legal or not, in checked builds.
-/
namespace Jules
open Spec Props

section
variable {α : Type} {W : BWorld α} {S : MStore α} {lost : List Nat} {T : Nat → Bool}

theorem safe_cases {β : Type} {Q : Prop} {r : Res β} {P : β → Prop} (h : Safe Q r P) (hq : Q) : (∃ b, r = .ok b ∧ P b) ∨ r = .error .assert := by
  cases r with
  | ok b => exact .inl ⟨b, rfl, h⟩
  | error f =>
    rcases h with rfl | ⟨_, h⟩
    · exact .inr rfl
    · exact (h hq).elim

/-! ### Expressions -/

/-- An iterator over `n` elements, all of whose cells are alive. -/
def FLive (m : Mem α) (n : Nat) : FIt α → Prop
  | .cells ps => ps.length = n ∧ ∀ p ∈ ps, m p ≠ none
  | .map _ it => FLive m n it
  | .zip _ l r => FLive m n l ∧ FLive m n r

theorem flive_count {m : Mem α} {n : Nat} : ∀ {it : FIt α}, FLive m n it → it.count = some n
  | .cells ps, h => by simp [FIt.count, h.1]
  | .map _ it, h => by simp only [FIt.count]; exact flive_count (it := it) h
  | .zip _ l r, h => by simp [FIt.count, flive_count h.1, flive_count h.2]

theorem flive_deref {m : Mem α} {n : Nat} : ∀ {it : FIt α}, FLive m n it → ∀ {m' : Mem α}, Keeps m m' → ∀ {k : Nat}, k < n → ∃ o, it.deref m' k = called o
  | .cells ps, h, m', hm, k, hk => by
    have hk' : k < ps.length := by rw [h.1]; exact hk
    simp only [FIt.deref, List.getElem?_eq_getElem hk']
    obtain ⟨v, hv⟩ := read_live (hm _ (h.2 _ (List.getElem_mem hk')))
    exact ⟨some v, hv⟩
  | .map f it, h, m', hm, k, hk => by
    obtain ⟨o, ho⟩ := flive_deref (it := it) h hm hk
    simp only [FIt.deref, ho]
    cases o with
    | none => exact ⟨none, rfl⟩
    | some v => exact ⟨f v, rfl⟩
  | .zip f l r, h, m', hm, k, hk => by
    obtain ⟨o, ho⟩ := flive_deref h.1 hm hk
    obtain ⟨o', ho'⟩ := flive_deref h.2 hm hk
    simp only [FIt.deref, ho, ho']
    cases o with
    | none => exact ⟨none, rfl⟩
    | some v =>
      cases o' with
      | none => exact ⟨none, rfl⟩
      | some u => exact ⟨f v u, rfl⟩

theorem flive_same {m : Mem α} {n : Nat} : ∀ {it : FIt α}, FLive m n it → ∀ {m' : Mem α}, (∀ q, m q ≠ none → m' q = m q) → ∀ {k : Nat}, k < n →
    it.deref m' k = it.deref m k
  | .cells ps, h, m', hm, k, hk => by
    have hk' : k < ps.length := by rw [h.1]; exact hk
    simp only [FIt.deref, List.getElem?_eq_getElem hk', Mem.read]
    rw [hm _ (h.2 _ (List.getElem_mem hk'))]
  | .map f it, h, m', hm, k, hk => by simp only [FIt.deref, flive_same (it := it) h hm hk]
  | .zip f l r, h, m', hm, k, hk => by simp only [FIt.deref, flive_same h.1 hm hk, flive_same h.2 hm hk]

/-- A source whose elements can be read. -/
def FGood (m : Mem α) (src : FSrc α) : Prop := src.dims ≠ [] ∧ FLive m (prod src.dims) src.it

theorem safe_fex {w : World α} (H : Intact w) : ∀ {e : FEx α}, ExSteps (shapeE e) →
    Safe ((exOrder (ctxOf w) (shapeE e)).isSome) (e.eval Arith.exact true w)
      (fun src => FGood w.mem src ∧ exOrder (ctxOf w) (shapeE e) = some src.dims.length)
  | .arr x h, hs => by
    refine safe_bind (safe_index H x hs) ?_ ?_
    · simp only [shapeE, exOrder]
      cases chainKind (ctxOf w) x h <;> simp
    · rintro o ⟨c, hc, hg, hk⟩
      have ho : exOrder (ctxOf w) (shapeE (.arr x h : FEx α)) = o.dims.map List.length := by
        simp only [shapeE, exOrder, hk, Option.bind_some, kind_dims]
      rw [ho]
      unfold FSrc.ofObj
      cases hd : o.dims with
      | none => exact safe_ill (by simp)
      | some d =>
        refine safe_bind hg (fun _ => .inl (by rw [kind_dims, hd]; rfl)) ?_
        rintro ps ⟨_, h1, h2⟩
        obtain ⟨h2, h3⟩ := h2 d hd
        exact ⟨⟨h2, h3, fun p hp => H.live x c p hc (h1 p hp)⟩, rfl⟩
  | .un f e, hs => by
    refine safe_bind (safe_fex H (e := e) hs) (fun h => h) ?_
    rintro src ⟨⟨h1, h2⟩, h3⟩
    exact ⟨⟨h1, h2⟩, h3⟩
  | .bin f a b, hs => by
    have hord : (exOrder (ctxOf w) (shapeE (.bin f a b))).isSome → (exOrder (ctxOf w) (shapeE a)).isSome ∧ (exOrder (ctxOf w) (shapeE b)).isSome := by
      simp only [shapeE, exOrder]
      cases exOrder (ctxOf w) (shapeE a) <;> cases exOrder (ctxOf w) (shapeE b) <;> simp
    refine safe_bind (safe_fex H (e := a) hs.1) (fun h => (hord h).1) ?_
    rintro s ⟨h1, h2⟩
    refine safe_bind (safe_fex H (e := b) hs.2) (fun h => (hord h).2) ?_
    rintro t ⟨k1, k2⟩
    unfold FSrc.zip
    by_cases hl : s.dims.length = t.dims.length
    · rw [if_neg (by simpa using hl)]
      refine safe_bind (safe_dbg _ _) (fun h => h) ?_
      intro _ hd
      have hd : s.dims = t.dims := by simpa using hd
      refine ⟨⟨h1.1, h1.2, ?_⟩, by simp [shapeE, exOrder, h2, k2, hl]⟩
      show FLive w.mem (prod s.dims) t.it
      rw [hd]; exact k1.2
    · rw [if_pos hl]
      exact safe_ill (by simp [shapeE, exOrder, h2, k2, hl])
  | .scl f s e, hs => by
    have hord : (exOrder (ctxOf w) (shapeE (.scl f s e))).isSome → scTyped (ctxOf w) s = true ∧ (exOrder (ctxOf w) (shapeE e)).isSome := by
      simp only [shapeE, exOrder]
      cases scTyped (ctxOf w) s <;> simp
    refine safe_bind (safe_sc H hs.1) (fun h => (hord h).1) ?_
    rintro c ⟨ht, hc⟩
    obtain ⟨v, hv⟩ := hc w.mem (keeps_refl _)
    rw [hv, res_ok_bind]
    refine safe_bind (safe_fex H (e := e) hs.2) (fun h => (hord h).2) ?_
    rintro src ⟨⟨h1, h2⟩, h3⟩
    exact ⟨⟨h1, h2⟩, by simp [shapeE, exOrder, ht, h3]⟩
  | .scr f e s, hs => by
    have hord : (exOrder (ctxOf w) (shapeE (.scr f e s))).isSome → scTyped (ctxOf w) s = true ∧ (exOrder (ctxOf w) (shapeE e)).isSome := by
      simp only [shapeE, exOrder]
      cases scTyped (ctxOf w) s <;> simp
    refine safe_bind (safe_fex H (e := e) hs.1) (fun h => (hord h).2) ?_
    rintro src ⟨⟨h1, h2⟩, h3⟩
    refine safe_bind (safe_sc H hs.2) (fun h => (hord h).1) ?_
    rintro c ⟨ht, hc⟩
    obtain ⟨v, hv⟩ := hc w.mem (keeps_refl _)
    rw [hv, res_ok_bind]
    exact ⟨⟨h1, h2⟩, by simp [shapeE, exOrder, ht, h3]⟩

/-- The values of a source, as a function of the multi-index. -/
theorem fgood_vals {m : Mem α} {src : FSrc α} (h : FGood m src) : ∃ f : List Nat → Option α, ∀ i, InB src.dims i → ∀ m', (∀ q, m q ≠ none → m' q = m q) →
    src.it.deref m' (cmSum src.dims i) = called (f i) := by
  have hex : ∀ i, ∃ o, InB src.dims i → src.it.deref m (cmSum src.dims i) = called o := by
    intro i
    by_cases hi : InB src.dims i
    · obtain ⟨o, ho⟩ := flive_deref h.2 (keeps_refl m) (cmSum_lt hi)
      exact ⟨o, fun _ => ho⟩
    · exact ⟨none, fun h => (hi h).elim⟩
  obtain ⟨f, hf⟩ := Classical.axiomOfChoice hex
  exact ⟨f, fun i hi m' hm => (flive_same h.2 hm (cmSum_lt hi)).trans (hf i hi)⟩

/-! ### Loops -/

/-- A loop over live elements with values that can be had. -/
theorem loopB_live {g : Nat → Nat → Mem α → Res (α × Bool)} {bl : List (Nat × Nat)} {ru : Nat} : ∀ (ps : List Nat) (k0 : Nat) (m : Mem α) (ck : Nat), (∀ p ∈ ps, m p ≠ none) →
    (∀ m', Keeps m m' → ∀ k p, k0 ≤ k → k < k0 + ps.length → p ∈ ps → (∃ r, g k p m' = .ok r) ∨ ∃ e, g k p m' = .error (.exc e)) →
    ∃ m' ck', (loopB T g k0 ps ⟨m, bl, ru, ck⟩ = .ok () ⟨m', bl, ru, ck'⟩ ∨ loopB T g k0 ps ⟨m, bl, ru, ck⟩ = .exn ⟨m', bl, ru, ck'⟩) ∧
      (∀ q, m' q = none ↔ m q = none) ∧ ∀ q, q ∉ ps → m' q = m q
  | [], _, m, ck, _, _ => ⟨m, ck, .inl rfl, fun _ => Iff.rfl, fun _ _ => rfl⟩
  | p :: ps, k0, m, ck, hl, hg => by
    rcases hg m (keeps_refl m) k0 p (Nat.le_refl _) (by simp) (by simp) with ⟨r, hr⟩ | ⟨e, he⟩
    · rcases mayThrow_cases (S := T) m bl ru ck with ht | ⟨ht, _⟩
      · have hw : m.write p r.1 = .ok (m.set p r.1) := by
          unfold Mem.write
          cases h : m p with
          | none => exact (hl p (by simp) h).elim
          | some _ => rfl
        have hn : ∀ q, (m.set p r.1) q = none ↔ m q = none := by
          intro q
          unfold Mem.set
          split
          · next h => subst h; simp [hl q (by simp)]
          · rfl
        by_cases hr2 : r.2 = true
        · refine ⟨m.set p r.1, ck + 1, .inr ?_, hn, fun q hq => ?_⟩
          · simp only [loopB, bm_bind, BM.bind, BM.reads, hr, ht, storeB, hw, hr2, if_true, BM.raise]
          · simp only [List.mem_cons, not_or] at hq
            rw [Mem.set, if_neg hq.1]
        · obtain ⟨m', ck', h1, h2, h3⟩ := loopB_live ps (k0 + 1) (m.set p r.1) (ck + 1)
            (fun q hq => fun h => hl q (by simp [hq]) ((hn q).1 h))
            (fun m' hm' k q hk1 hk2 hq => hg m' (fun s hs => hm' s fun h => hs ((hn s).1 h)) k q (by omega) (by simp; omega) (by simp [hq]))
          have hstep : loopB T g k0 (p :: ps) ⟨m, bl, ru, ck⟩ = loopB T g (k0 + 1) ps ⟨m.set p r.1, bl, ru, ck + 1⟩ := by
            simp only [loopB, bm_bind, BM.bind, BM.reads, hr, ht, storeB, hw, hr2, Bool.false_eq_true, if_false]
          refine ⟨m', ck', by rw [hstep]; exact h1, fun q => (h2 q).trans (hn q), fun q hq => ?_⟩
          simp only [List.mem_cons, not_or] at hq
          rw [h3 q hq.2, Mem.set, if_neg hq.1]
      · refine ⟨m, ck + 1, .inr ?_, fun _ => Iff.rfl, fun _ _ => rfl⟩
        simp only [loopB, bm_bind, BM.bind, BM.reads, hr, ht]
    · refine ⟨m, ck, .inr ?_, fun _ => Iff.rfl, fun _ _ => rfl⟩
      simp only [loopB, bm_bind, BM.bind, BM.reads, he]

theorem value_any {m m' : Mem α} {src : FSrc α} (h : FGood m src) (hm : Keeps m m') {k : Nat} (hk : k < prod src.dims) :
    (∃ r, src.value k m' = .ok r) ∨ ∃ e, src.value k m' = .error (.exc e) := by
  obtain ⟨o, ho⟩ := flive_deref h.2 hm hk
  unfold FSrc.value
  rw [ho]
  cases o with
  | none => exact .inr ⟨_, rfl⟩
  | some v => exact .inl ⟨_, rfl⟩

theorem update_any {m m' : Mem α} {src : FSrc α} (h : FGood m src) (op : α → α → α × Bool) (hm : Keeps m m') {k p : Nat} (hk : k < prod src.dims) (hp : m p ≠ none) :
    (∃ r, src.update op k p m' = .ok r) ∨ ∃ e, src.update op k p m' = .error (.exc e) := by
  obtain ⟨o, ho⟩ := flive_deref h.2 hm hk
  obtain ⟨u, hu⟩ := read_live (hm p hp)
  unfold FSrc.update
  rw [hu, res_ok_bind, ho]
  cases o with
  | none => exact .inr ⟨_, rfl⟩
  | some v => exact .inl ⟨_, rfl⟩

end
end Jules

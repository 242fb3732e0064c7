import Verif.Lemmas.Sound
/-
C68: in a checked build no program can damage memory; well-typed programs only fail by assertions.
-/
namespace Jules.Props
open Spec

section
variable {α : Type} {w : World α}

theorem ctx_bind (m : Mem α) (x : Nat) (b : Arr) : ctxOf (w.bind m x (some b)) = (ctxOf w).upd x (some b.ext.length) := by
  funext y
  by_cases h : y = x <;> simp [ctxOf, World.bind, Ctx.upd, h]

theorem ctx_upd_same {Γ : Ctx} {x : Nat} {n : Option Nat} (h : Γ x = n) : Γ.upd x n = Γ := by
  funext y
  by_cases hy : y = x
  · subst hy; simp [Ctx.upd, h]
  · simp [Ctx.upd, hy]

theorem mapM_exists {f : β → Res γ} : ∀ {l : List β}, (∀ b ∈ l, ∃ v, f b = .ok v) → ∃ xs, l.mapM f = .ok xs ∧ xs.length = l.length
  | [], _ => ⟨[], rfl, rfl⟩
  | b :: l, h => by
    obtain ⟨v, hv⟩ := h b (by simp)
    obtain ⟨xs, h1, h2⟩ := mapM_exists (f := f) (l := l) fun b hb => h b (by simp [hb])
    exact ⟨v :: xs, by simp [List.mapM_cons, hv, h1], by simp [h2]⟩

theorem newArray_good {src : EObj α} {m : Mem α} (h : GoodSrc m src) (fresh : Nat) :
    ∃ xs : List α, newArray Arith.exact src m fresh = .ok (m.setMany fresh xs, ⟨fresh, src.dims⟩) ∧ xs.length = prod src.dims := by
  obtain ⟨xs, h1, h2⟩ := mapM_exists (f := fun k => src.it.deref m k) (l := List.range (prod src.dims))
    fun k hk => h.2.2 m (keeps_refl m) k (by simpa using hk)
  refine ⟨xs, ?_, by simpa using h2⟩
  simp only [newArray, prodL_exact, h1, res_ok_bind]

open Classical in
/-- A new array in free memory. -/
theorem intact_new (H : Intact w) {x : Nat} {d : List Nat} (hd : d ≠ []) {xs : List α} (hl : xs.length = prod d) {fresh : Nat}
    (hf : ∀ i, i < prod d → w.mem (fresh + i) = none) (m' : Mem α)
    (hm : ∀ q, m' q = if ∃ c, w.env x = some c ∧ Covers (cells c) q then none else w.mem.setMany fresh xs q) :
    Intact (w.bind m' x (some ⟨fresh, d⟩)) ∧ ∀ y, y ≠ x → SameArray w (w.bind m' x (some ⟨fresh, d⟩)) y := by
  have hfr : ∀ q, Covers (arrayView fresh d) q → w.mem q = none := by
    intro q hq
    have := arrayView_covers.1 hq
    have h2 := hf (q - fresh) (by omega)
    rwa [show fresh + (q - fresh) = q by omega] at h2
  have hout : ∀ q, ¬ Covers (arrayView fresh d) q → (w.mem.setMany fresh xs) q = w.mem q := by
    intro q hq; apply setMany_out; rwa [hl, ← arrayView_covers]
  apply intact_replace H hd
  · intro q hq
    rw [hm q, if_neg]
    · obtain ⟨h1, h2⟩ := (arrayView_covers (b := fresh) (d := d)).1 hq
      have : q = fresh + (q - fresh) := by omega
      rw [this, setMany_in (by rw [hl]; omega), List.getElem?_eq_getElem (by rw [hl]; omega)]
      simp
    · rintro ⟨c, hc, hcov⟩
      exact H.live x c q hc hcov (hfr q hq)
  · intro q hq
    rw [hm q] at hq
    by_cases hc : ∃ c, w.env x = some c ∧ Covers (cells c) q
    · rw [if_pos hc] at hq; exact (hq rfl).elim
    · rw [if_neg hc] at hq
      by_cases hb : Covers (arrayView fresh d) q
      · exact .inr hb
      · rw [hout q hb] at hq
        exact .inl ⟨hq, fun c h1 h2 => hc ⟨c, h1, h2⟩⟩
  · intro q hq hn
    rw [hm q, if_neg (by rintro ⟨c, h1, h2⟩; exact hn c h1 h2)]
    exact hout q fun h => hq (hfr q h)
  · intro q hq
    exact .inr (hfr q hq)

theorem intact_fresh (H : Intact w) {x : Nat} (hx : w.env x = none) {d : List Nat} (hd : d ≠ []) {xs : List α} (hl : xs.length = prod d)
    {fresh : Nat} (hf : ∀ i, i < prod d → w.mem (fresh + i) = none) :
    Intact (w.bind (w.mem.setMany fresh xs) x (some ⟨fresh, d⟩)) ∧
      ∀ y, y ≠ x → SameArray w (w.bind (w.mem.setMany fresh xs) x (some ⟨fresh, d⟩)) y :=
  intact_new H hd hl hf _ fun q => by rw [if_neg]; rintro ⟨c, hc, _⟩; rw [hx] at hc; cases hc

theorem intact_free (H : Intact w) {x : Nat} {a : Arr} (hx : w.env x = some a) {d : List Nat} (hd : d ≠ []) {xs : List α}
    (hl : xs.length = prod d) {fresh : Nat} (hf : ∀ i, i < prod d → w.mem (fresh + i) = none) :
    Intact (w.bind ((w.mem.setMany fresh xs).free a.base (prod a.ext)) x (some ⟨fresh, d⟩)) ∧
      ∀ y, y ≠ x → SameArray w (w.bind ((w.mem.setMany fresh xs).free a.base (prod a.ext)) x (some ⟨fresh, d⟩)) y :=
  intact_new H hd hl hf _ fun q => by
    unfold Mem.free
    by_cases h : Covers (cells a) q
    · rw [if_pos (arrayView_covers.1 h), if_pos ⟨a, hx, h⟩]
    · rw [if_neg (fun h' => h (arrayView_covers.2 h')), if_neg]
      rintro ⟨c, hc, hcov⟩
      rw [hx] at hc; cases hc
      exact h hcov

theorem intact_drop (H : Intact w) {x : Nat} {a : Arr} (hx : w.env x = some a) :
    Intact (w.bind (w.mem.free a.base (prod a.ext)) x none) ∧
      ∀ y, y ≠ x → SameArray w (w.bind (w.mem.free a.base (prod a.ext)) x none) y := by
  have hyb : ∀ y, y ≠ x → (w.bind (w.mem.free a.base (prod a.ext)) x none).env y = w.env y := by intro y hy; simp [World.bind, hy]
  have hxb : (w.bind (w.mem.free a.base (prod a.ext)) x none).env x = none := by simp [World.bind]
  have hm : ∀ q, ¬ Covers (cells a) q → (w.mem.free a.base (prod a.ext)) q = w.mem q := by
    intro q hq
    rw [Mem.free, if_neg (fun h => hq (arrayView_covers.2 h))]
  have hkeep : ∀ y d q, y ≠ x → w.env y = some d → Covers (cells d) q → (w.mem.free a.base (prod a.ext)) q = w.mem q :=
    fun y d q hy hd hq => hm q (H.sep y x d a q hy hd hx hq)
  have hne : ∀ y c, (w.bind (w.mem.free a.base (prod a.ext)) x none).env y = some c → y ≠ x ∧ w.env y = some c := by
    intro y c hc
    have hy : y ≠ x := by rintro rfl; rw [hxb] at hc; cases hc
    exact ⟨hy, by rwa [hyb y hy] at hc⟩
  refine ⟨⟨?_, ?_, ?_, ?_, ?_⟩, fun y hy => ⟨hyb y hy, fun d q hd hq => hkeep y d q hy hd hq⟩⟩
  · intro y c hc; exact H.order y c (hne y c hc).2
  · intro y c q hc hq
    obtain ⟨hy, hc⟩ := hne y c hc
    show (w.mem.free a.base (prod a.ext)) q ≠ none
    rw [hkeep y c q hy hc hq]; exact H.live y c q hc hq
  · intro y z c d q hyz hc hd hq
    exact H.sep y z c d q hyz (hne y c hc).2 (hne z d hd).2 hq
  · intro q hq
    have hq : (w.mem.free a.base (prod a.ext)) q ≠ none := hq
    have hnc : ¬ Covers (cells a) q := by
      intro h; apply hq; rw [Mem.free, if_pos (arrayView_covers.1 h)]
    rw [hm q hnc] at hq
    obtain ⟨y, c, hc, hcov⟩ := H.only q hq
    have hy : y ≠ x := by rintro rfl; rw [hx] at hc; cases hc; exact hnc hcov
    exact ⟨y, c, by rw [hyb y hy]; exact hc, hcov⟩
  · obtain ⟨B, hB⟩ := H.finite
    refine ⟨B, fun q hq => ?_⟩
    show (w.mem.free a.base (prod a.ext)) q = none
    unfold Mem.free
    split
    · rfl
    · exact hB q hq

theorem intact_swap (H : Intact w) {x y : Nat} (hxy : x ≠ y) {a b : Arr} (hx : w.env x = some a) (hy : w.env y = some b) :
    Intact ((w.bind w.mem x (some b)).bind w.mem y (some a)) ∧
      ∀ z, z ≠ x → z ≠ y → SameArray w ((w.bind w.mem x (some b)).bind w.mem y (some a)) z := by
  let σ : Nat → Nat := fun z => if z = x then y else if z = y then x else z
  have hyx : y ≠ x := fun h => hxy h.symm
  have henv : ∀ z, ((w.bind w.mem x (some b)).bind w.mem y (some a)).env z = w.env (σ z) := by
    intro z
    simp only [World.bind, σ]
    by_cases h1 : z = x
    · subst h1; simp [hxy, hy]
    · by_cases h2 : z = y
      · subst h2; simp [h1, hx]
      · simp [h1, h2]
  have hσ : ∀ z, σ (σ z) = z := by
    intro z
    simp only [σ]
    by_cases h1 : z = x
    · subst h1; simp [hyx]
    · by_cases h2 : z = y
      · subst h2; simp [h1]
      · simp [h1, h2]
  refine ⟨⟨?_, ?_, ?_, ?_, H.finite⟩, ?_⟩
  · intro z c hc; rw [henv] at hc; exact H.order _ c hc
  · intro z c q hc hq; rw [henv] at hc; exact H.live _ c q hc hq
  · intro z z' c d q hzz hc hd hq
    rw [henv] at hc hd
    exact H.sep (σ z) (σ z') c d q (fun h => hzz (by rw [← hσ z, h, hσ])) hc hd hq
  · intro q hq
    obtain ⟨z, c, hc, hcov⟩ := H.only q hq
    exact ⟨σ z, c, by rw [henv, hσ]; exact hc, hcov⟩
  · intro z h1 h2
    refine ⟨?_, fun _ _ _ _ => rfl⟩
    rw [henv]; simp [σ, h1, h2]

/-- The result of a statement on intact memory. -/
def Fine (w : World α) (s : Stmt α) (w' : World α) : Prop :=
  Intact w' ∧ (∀ y, y ∉ changes s → SameArray w w' y) ∧ check (ctxOf w) s = some (ctxOf w')

theorem when_some {c : Bool} {Γ : Ctx} (h : c = true) : Spec.when c Γ = some Γ := by simp [Spec.when, h]

theorem when_isSome {c : Bool} {Γ : Ctx} (h : (Spec.when c Γ).isSome = true) : c = true := by
  unfold Spec.when at h
  split at h
  · assumption
  · cases h

/-- Views as targets. -/
theorem covers_live (H : Intact w) {x : Nat} {c : Arr} (hx : w.env x = some c) {ps : List Nat} (h : ∀ p ∈ ps, Covers (cells c) p) :
    ∀ p ∈ ps, w.mem p ≠ none := fun p hp => H.live x c p hx (h p hp)

theorem write_fine (H : Intact w) {x : Nat} {c : Arr} (hx : w.env x = some c) {ps : List Nat} (hps : ∀ p ∈ ps, Covers (cells c) p)
    {m' : Mem α} (h1 : ∀ q, m' q = none ↔ w.mem q = none) (h2 : ∀ q, q ∉ ps → m' q = w.mem q) {s : Stmt α} (hs : changes s = [x])
    (ht : check (ctxOf w) s = some (ctxOf w)) : Fine w s { w with mem := m', clock := w.clock + 1 } := by
  obtain ⟨k1, k2⟩ := intact_write H hx h1 (fun q hq => h2 q fun h => hq (hps q h)) (w.clock + 1)
  exact ⟨k1, fun y hy => k2 y (by rw [hs] at hy; simpa using hy), ht⟩

theorem replace_fine {m' : Mem α} {x : Nat} {b : Arr}
    (h : Intact (w.bind m' x (some b)) ∧ ∀ y, y ≠ x → SameArray w (w.bind m' x (some b)) y) {s : Stmt α} (hs : changes s = [x])
    (ht : check (ctxOf w) s = some ((ctxOf w).upd x (some b.ext.length))) : Fine w s (w.bind m' x (some b)) :=
  ⟨h.1, fun y hy => h.2 y (by rw [hs] at hy; simpa using hy), by rw [ht, ctx_bind]⟩

/-- The assignment of a source to the array `x`. -/
theorem assignExpr_fine (H : Intact w) {x : Nat} {a : Arr} (hx : w.env x = some a) {src : EObj α} (hg : GoodSrc w.mem src) {fresh : Nat}
    (hf : ∀ i, i < prod src.dims → w.mem (fresh + i) = none) {s : Stmt α} (hs : changes s = [x])
    (ht : check (ctxOf w) s = some ((ctxOf w).upd x (some src.dims.length))) :
    ∃ r, arrayAssignExpr Arith.exact a src w.mem fresh = .ok r ∧ Fine w s (w.bind r.1 x (some r.2)) := by
  by_cases hsz : prod a.ext = prod src.dims
  · have hcov : ∀ q, Covers (cells a) q ↔ Covers (cells ⟨a.base, src.dims⟩) q := by
      intro q
      rw [cells, cells, arrayView_covers, arrayView_covers, hsz]
    have hmem : ∀ p, p ∈ (List.range (prod src.dims)).map (Arith.exact.add a.base ·) ↔ Covers (cells a) p := by
      intro p
      rw [cells, arrayView_covers, hsz]
      simp only [List.mem_map, List.mem_range]
      constructor
      · rintro ⟨k, hk, rfl⟩
        show a.base ≤ a.base + k ∧ a.base + k < _
        omega
      · rintro ⟨h1, h2⟩
        refine ⟨p - a.base, by omega, ?_⟩
        show a.base + (p - a.base) = p
        omega
    obtain ⟨m', h1, h2, h3⟩ := updLoop_live (fun k _ m => src.it.deref m k) ((List.range (prod src.dims)).map (Arith.exact.add a.base ·)) 0 w.mem
      (fun p hp => H.live x a p hx ((hmem p).1 hp))
      (fun m' hm' k p _ hk _ => hg.2.2 m' hm' k (by simpa using hk))
    refine ⟨(m', ⟨a.base, src.dims⟩), ?_, ?_⟩
    · rw [arrayAssignExpr, if_pos (by rw [prodL_exact, prodL_exact]; exact hsz), hg.2.1]
      simp only [prodL_exact, hsz, Nat.lt_irrefl, if_false, h1, res_ok_bind]
    · refine replace_fine (intact_replace H hg.1 ?_ ?_ ?_ ?_) hs ht
      · intro q hq
        exact fun hn => H.live x a q hx ((hcov q).2 hq) ((h2 q).1 hn)
      · intro q hq
        by_cases hc : Covers (cells a) q
        · exact .inr ((hcov q).1 hc)
        · exact .inl ⟨fun h => hq ((h2 q).2 h), fun c hc' => by rw [hx] at hc'; cases hc'; exact hc⟩
      · intro q hq hn
        exact h3 q fun h => hn a hx ((hmem q).1 h)
      · intro q hq
        exact .inl ⟨a, hx, (hcov q).2 hq⟩
  · obtain ⟨xs, h1, h2⟩ := newArray_good hg fresh
    refine ⟨((w.mem.setMany fresh xs).free a.base (prod a.ext), ⟨fresh, src.dims⟩), ?_, ?_⟩
    · rw [arrayAssignExpr, if_neg (by rw [prodL_exact, prodL_exact]; exact hsz), h1, res_ok_bind, prodL_exact]
    · exact replace_fine (intact_free H hx hg.1 h2 hf) hs ht

theorem view_or_place {Γ : Ctx} {x : Nat} {h : List Ix} {k : Kind} (hk : chainKind Γ x h = some k) :
    placeTyped Γ x h = true ↔ ((viewOrder k).isSome ∨ k = .element) := by
  simp [placeTyped, hk]

theorem viewTyped_iff {Γ : Ctx} {x : Nat} {h : List Ix} {k : Kind} (hk : chainKind Γ x h = some k) {n : Option Nat} :
    viewTyped Γ x h n = true ↔ ((viewOrder k).isSome ∧ viewOrder k = n) := by
  simp [viewTyped, hk]

theorem place_isSome {Γ : Ctx} {x : Nat} {h : List Ix} (ht : placeTyped Γ x h = true) : (chainKind Γ x h).isSome := by
  unfold placeTyped at ht
  cases hk : chainKind Γ x h with
  | none => simp [hk] at ht
  | some k => rfl

theorem viewTyped_isSome {Γ : Ctx} {x : Nat} {h : List Ix} {n : Option Nat} (ht : viewTyped Γ x h n = true) :
    (chainKind Γ x h).isSome ∧ n.isSome := by
  unfold viewTyped at ht
  cases hk : chainKind Γ x h with
  | none => simp [hk] at ht
  | some k =>
    simp only [hk, Option.bind_some, Bool.and_eq_true, beq_iff_eq] at ht
    exact ⟨rfl, ht.2 ▸ ht.1⟩

theorem isEmpty_not {h : List β} : (!h.isEmpty) = true → h ≠ [] := by
  cases h <;> simp

/-- The loops of `array_assign`, from a good source of the same extents. -/
theorem assign_loop (H : Intact w) {x : Nat} {c : Arr} (hx : w.env x = some c) {ps : List Nat} (hps : ∀ p ∈ ps, Covers (cells c) p)
    {m : Mem α} (hm : Keeps w.mem m) {g : Nat → Nat → Mem α → Res α}
    (hg : ∀ m', Keeps m m' → ∀ k p, k < ps.length → p ∈ ps → ∃ v, g k p m' = .ok v) :
    ∃ m', updLoop g 0 ps m = .ok m' ∧ (∀ q, m' q = none ↔ m q = none) ∧ ∀ q, q ∉ ps → m' q = m q :=
  updLoop_live g ps 0 m (fun p hp => hm p (H.live x c p hx (hps p hp))) fun m' hm' k p _ hk hp => hg m' hm' k p (by omega) hp

theorem step_fine (H : Intact w) {s : Stmt α} (hs : Provided s) {alloc : Nat → Mem α → Nat → Nat} (hal : GoodAlloc alloc) :
    Safe ((check (ctxOf w) s).isSome) (w.step Arith.exact true alloc s) (Fine w s) := by
  have hfree : ∀ n, ∀ i, i < n → w.mem (alloc w.clock w.mem n + i) = none := fun n => hal w.clock w.mem n H.finite
  cases s with
  | make x e =>
    simp only [World.step]
    cases hx : w.env x with
    | some c => exact safe_ill (by simp [check, Spec.when, ctxOf, hx])
    | none =>
      have hc : check (ctxOf w) (.make x e) = (exOrder (ctxOf w) e).map fun n => (ctxOf w).upd x (some n) := by
        simp [check, Spec.when, ctxOf, hx]
      have ht : (check (ctxOf w) (.make x e)).isSome → (exOrder (ctxOf w) e).isSome := by rw [hc]; simp
      refine safe_bind (safe_ex H hs) ht ?_
      intro e' he'
      refine safe_bind he' ht ?_
      rintro src ⟨h1, h2⟩
      obtain ⟨xs, k1, k2⟩ := newArray_good h1 (alloc w.clock w.mem (prod src.dims))
      rw [prodL_exact, k1, res_ok_bind]
      exact replace_fine (intact_fresh H hx h1.1 k2 (hfree _)) rfl (by rw [hc, h2]; rfl)
  | makeFill x s ext =>
    simp only [World.step]
    cases hx : w.env x with
    | some c => exact safe_ill (by simp [check, Spec.when, ctxOf, hx])
    | none =>
      refine safe_bind (safe_needs _) ?_ ?_
      · intro h
        have := when_isSome h
        simp only [Bool.and_eq_true, decide_eq_true_eq] at this
        cases ext with
        | nil => exact (this.1.2 rfl).elim
        | cons a l => rfl
      · intro _ hne
        have hne := isEmpty_not hne
        refine safe_bind (safe_sc H hs) (fun h => (Bool.and_eq_true_iff.1 (when_isSome h)).2) ?_
        rintro c ⟨ht, hc⟩
        obtain ⟨v, hv⟩ := hc w.mem (keeps_refl _)
        have hlen : (List.replicate (prod ext) v).length = prod ext := by simp
        simp only [hv, res_ok_bind, newFrom, prodL_exact, hlen, Nat.lt_irrefl, if_false]
        have htk : (List.replicate (prod ext) v).take (prod ext) = List.replicate (prod ext) v := by simp
        rw [htk]
        exact replace_fine (intact_fresh H hx hne hlen (hfree _)) rfl (by simp [check, Spec.when, ctxOf, hx, hne, ht] <;> exact ht)
  | makeFrom x l ext =>
    simp only [World.step]
    cases hx : w.env x with
    | some c => exact safe_ill (by simp [check, Spec.when, ctxOf, hx])
    | none =>
      refine safe_bind (safe_needs _) ?_ ?_
      · intro h
        have := when_isSome h
        simp only [Bool.and_eq_true, decide_eq_true_eq] at this
        cases ext with
        | nil => exact (this.2 rfl).elim
        | cons a l => rfl
      · intro _ hne
        have hne := isEmpty_not hne
        have hs : prod ext ≤ l.length := hs
        have hlen : (l.take (prod ext)).length = prod ext := by simp [hs]
        rw [newFrom, prodL_exact, if_neg (by omega), res_ok_bind]
        exact replace_fine (intact_fresh H hx hne hlen (hfree _)) rfl (by simp [check, Spec.when, ctxOf, hx, hne])
  | drop x =>
    refine safe_bind (safe_get x) (fun h => when_isSome h) ?_
    intro c hc
    rw [prodL_exact]
    obtain ⟨k1, k2⟩ := intact_drop H hc
    refine ⟨k1, fun y hy => k2 y (by simpa [changes] using hy), ?_⟩
    simp only [check, Spec.when, ctxOf_some hc, Option.isSome_some, if_true, Option.some.injEq]
    funext y
    by_cases hy : y = x <;> simp [Ctx.upd, ctxOf, World.bind, hy]
  | fill x h s =>
    have hT : (check (ctxOf w) (.fill x h s)).isSome → (!h.isEmpty) = true ∧ placeTyped (ctxOf w) x h = true ∧ scTyped (ctxOf w) s = true := by
      intro h; simpa [and_assoc] using when_isSome h
    refine safe_bind (safe_needs _) (fun h => (hT h).1) fun _ hne => ?_
    refine safe_bind (safe_index H x hs.1) (fun h => place_isSome (hT h).2.1) ?_
    rintro o ⟨c, hc, hg, hk⟩
    refine safe_bind (safe_sc H hs.2) (fun h => (hT h).2.2) ?_
    rintro sc ⟨ht, hsc⟩
    unfold fillView
    refine safe_bind (P := fun m' => Fine w (.fill x h s) { w with mem := m', clock := w.clock + 1 }) (T := _) ?_ (fun h => h) fun m' hm' => hm'
    refine safe_bind hg (fun h => (view_or_place hk).1 (hT h).2.1) ?_
    rintro ps ⟨hp, hps, _⟩
    obtain ⟨m', h1, h2, h3⟩ := assign_loop H hc hps (keeps_refl w.mem) (g := fun _ _ m => sc.get m) fun m' hm' _ _ _ _ => hsc m' hm'
    exact safe_total ⟨m', h1, write_fine H hc hps h2 h3 rfl (when_some (by rw [hne, (view_or_place hk).2 hp, ht]; rfl))⟩
  | assign x h e =>
    have hT : (check (ctxOf w) (.assign x h e)).isSome → (!h.isEmpty) = true ∧ viewTyped (ctxOf w) x h (exOrder (ctxOf w) e) = true := by
      intro h; simpa [and_assoc] using when_isSome h
    refine safe_bind (safe_needs _) (fun h => (hT h).1) fun _ hne => ?_
    refine safe_bind (safe_index H x hs.1) (fun h => (viewTyped_isSome (hT h).2).1) ?_
    rintro o ⟨c, hc, hg, hk⟩
    have hv := fun h => (viewTyped_iff hk).1 (hT h).2
    refine safe_bind (safe_ex H hs.2) (fun h => (viewTyped_isSome (hT h).2).2) ?_
    intro e' he'
    refine safe_bind (P := fun m' => Fine w (.assign x h e) { w with mem := m', clock := w.clock + 1 }) (T := _) ?_ (fun h => h) fun m' hm' => hm'
    refine safe_bind he' (fun h => (viewTyped_isSome (hT h).2).2) ?_
    rintro src ⟨h1, h2⟩
    rw [kind_dims, h2] at hv
    unfold arrayAssign
    cases hd : o.dims with
    | none => exact safe_ill fun h => by simpa [hd] using (hv h).1
    | some d =>
      rw [hd] at hv
      by_cases hl : src.dims.length = d.length
      · simp only
        rw [if_neg (by simpa using hl)]
        refine safe_bind (safe_dbg _ _) (fun h => h) fun _ hdd => ?_
        have hdd : src.dims = d := by simpa using hdd
        refine safe_bind hg (fun h => .inl (by rw [kind_dims, hd]; rfl)) ?_
        rintro ps ⟨hp, hps, hpd⟩
        have hpl : ps.length = prod src.dims := by rw [(hpd d hd).2, hdd]
        obtain ⟨m', k1, k2, k3⟩ := assign_loop H hc hps (keeps_refl w.mem) (g := fun k _ m => src.it.deref m k) fun m' hm' k _ hk _ =>
          h1.2.2 m' hm' k (by omega)
        rw [k1, res_ok_bind]
        refine safe_bind (safe_dbg _ _) (fun h => h) fun _ _ => ?_
        exact write_fine H hc hps k2 k3 rfl (when_some (by
          rw [hne, (viewTyped_iff hk).2 ⟨by rw [kind_dims, hd]; rfl, by rw [kind_dims, hd, h2, hl]; rfl⟩]; rfl))
      · simp only
        rw [if_pos hl]
        exact safe_ill fun h => hl (by simpa using (hv h).2.symm)
  | inPlace x h op e =>
    have hT : (check (ctxOf w) (.inPlace x h op e)).isSome → viewTyped (ctxOf w) x h (exOrder (ctxOf w) e) = true := fun h => when_isSome h
    refine safe_bind (safe_index H x hs.1) (fun h => (viewTyped_isSome (hT h)).1) ?_
    rintro o ⟨c, hc, hg, hk⟩
    have hv := fun h => (viewTyped_iff hk).1 (hT h)
    refine safe_bind (safe_ex H hs.2) (fun h => (viewTyped_isSome (hT h)).2) ?_
    intro e' he'
    refine safe_bind (P := fun m' => Fine w (.inPlace x h op e) { w with mem := m', clock := w.clock + 1 }) (T := _) ?_ (fun h => h) fun m' hm' => hm'
    refine safe_bind he' (fun h => (viewTyped_isSome (hT h)).2) ?_
    rintro src ⟨h1, h2⟩
    rw [kind_dims, h2] at hv
    cases hd : o.dims with
    | none => exact safe_ill fun h => by simpa [hd] using (hv h).1
    | some d =>
      rw [hd] at hv
      by_cases hl : d.length = src.dims.length
      · simp only
        rw [if_neg (by simpa using hl)]
        refine safe_bind (safe_dbg _ _) (fun h => h) fun _ hdd => ?_
        have hdd : d = src.dims := by simpa using hdd
        refine safe_bind hg (fun h => .inl (by rw [kind_dims, hd]; rfl)) ?_
        rintro ps ⟨hp, hps, hpd⟩
        have hpl : ps.length = prod src.dims := by rw [(hpd d hd).2, hdd]
        obtain ⟨m', k1, k2, k3⟩ := assign_loop H hc hps (keeps_refl w.mem) (g := fun k p m => do
            let a ← m.read p
            let b ← src.it.deref m k
            .ok (op a b)) fun m' hm' k p hk hp => by
          obtain ⟨u, hu⟩ := read_live (hm' p (H.live x c p hc (hps p hp)))
          obtain ⟨v, hv⟩ := h1.2.2 m' hm' k (by omega)
          exact ⟨op u v, by simp only [hu, hv, res_ok_bind]⟩
        exact safe_total ⟨m', k1, write_fine H hc hps k2 k3 rfl (when_some (by
          rw [(viewTyped_iff hk).2 ⟨by rw [kind_dims, hd]; rfl, by rw [kind_dims, hd, h2, ← hl]; rfl⟩]))⟩
      · simp only
        rw [if_pos hl]
        exact safe_ill fun h => hl (by simpa using (hv h).2)
  | inPlaceScalar x h op s =>
    have hT : (check (ctxOf w) (.inPlaceScalar x h op s)).isSome → placeTyped (ctxOf w) x h = true ∧ scTyped (ctxOf w) s = true := by
      intro h; simpa [and_assoc] using when_isSome h
    refine safe_bind (safe_index H x hs.1) (fun h => place_isSome (hT h).1) ?_
    rintro o ⟨c, hc, hg, hk⟩
    refine safe_bind (safe_sc H hs.2) (fun h => (hT h).2) ?_
    rintro sc ⟨ht, hsc⟩
    unfold Jules.inPlaceScalar
    refine safe_bind (P := fun m' => Fine w (.inPlaceScalar x h op s) { w with mem := m', clock := w.clock + 1 }) (T := _) ?_ (fun h => h) fun m' hm' => hm'
    refine safe_bind hg (fun h => (view_or_place hk).1 (hT h).1) ?_
    rintro ps ⟨hp, hps, _⟩
    obtain ⟨m', h1, h2, h3⟩ := assign_loop H hc hps (keeps_refl w.mem) (g := fun _ p m => do
        let a ← m.read p
        let b ← sc.get m
        .ok (op a b)) fun m' hm' k p hk hp => by
      obtain ⟨u, hu⟩ := read_live (hm' p (H.live x c p hc (hps p hp)))
      obtain ⟨v, hv⟩ := hsc m' hm'
      exact ⟨op u v, by simp only [hu, hv, res_ok_bind]⟩
    exact safe_total ⟨m', h1, write_fine H hc hps h2 h3 rfl (when_some (by rw [(view_or_place hk).2 hp, ht]; rfl))⟩
  | apply x h f =>
    have hT : (check (ctxOf w) (.apply x h f)).isSome → ((chainKind (ctxOf w) x h).bind viewOrder).isSome = true := fun h => when_isSome h
    refine safe_bind (safe_index H x hs) (fun ht => ?_) ?_
    · have := hT ht
      cases hk : chainKind (ctxOf w) x h with
      | none => simp [hk] at this
      | some k => rfl
    · rintro o ⟨c, hc, hg, hk⟩
      have hv : ∀ h, o.dims.isSome = true := fun h => by simpa [hk, kind_dims] using hT h
      refine safe_bind (safe_needs _) hv fun _ hd => ?_
      unfold applyInPlace
      refine safe_bind (P := fun m' => Fine w (.apply x h f) { w with mem := m', clock := w.clock + 1 }) (T := _) ?_ (fun h => h) fun m' hm' => hm'
      refine safe_bind hg (fun _ => .inl (by rw [kind_dims]; simpa using hd)) ?_
      rintro ps ⟨hp, hps, _⟩
      obtain ⟨m', h1, h2, h3⟩ := assign_loop H hc hps (keeps_refl w.mem) (g := fun _ p m => f <$> m.read p) fun m' hm' k p hk hp => by
        obtain ⟨u, hu⟩ := read_live (hm' p (H.live x c p hc (hps p hp)))
        exact ⟨f u, by rw [hu]; rfl⟩
      exact safe_total ⟨m', h1, write_fine H hc hps h2 h3 rfl (when_some (by rw [hk, Option.bind_some, kind_dims]; simpa using hd))⟩
  | overlap x h e =>
    have hT : (check (ctxOf w) (.overlap x h e)).isSome → (!h.isEmpty) = true ∧ viewTyped (ctxOf w) x h (exOrder (ctxOf w) e) = true := by
      intro h; simpa [and_assoc] using when_isSome h
    refine safe_bind (safe_needs _) (fun h => (hT h).1) fun _ hne => ?_
    refine safe_bind (safe_index H x hs.1) (fun h => (viewTyped_isSome (hT h).2).1) ?_
    rintro o ⟨c, hc, hg, hk⟩
    have hv := fun h => (viewTyped_iff hk).1 (hT h).2
    refine safe_bind (safe_ex H hs.2) (fun h => (viewTyped_isSome (hT h).2).2) ?_
    intro e' he'
    cases hb : e'.build Arith.exact true with
    | error f =>
      unfold GoodEx at he'
      rw [hb] at he'
      refine (?_ : Safe _ (.error f : Res (World α)) _)
      rcases he' with h | ⟨h, h'⟩
      · exact .inl h
      · exact .inr ⟨h, fun t => h' (viewTyped_isSome (hT t).2).2⟩
    | ok src =>
      unfold GoodEx at he'
      rw [hb] at he'
      obtain ⟨h1, h2⟩ := he'
      rw [res_ok_bind, prodL_exact]
      unfold overlapView
      rw [hb, res_ok_bind]
      obtain ⟨xs, g1, g2⟩ := newArray_good h1 (alloc w.clock w.mem (prod src.dims))
      simp only [g1, res_ok_bind, assignView, Ex.build, Obj.dims, Obj.positions, prodL_exact]
      rw [kind_dims, h2] at hv
      have hfr := hfree (prod src.dims)
      generalize alloc w.clock w.mem (prod src.dims) = fresh at *
      have hcovf : ∀ q, Covers (arrayView fresh src.dims) q → w.mem q = none := by
        intro q hq
        have := arrayView_covers.1 hq
        have h2 := hfr (q - fresh) (by omega)
        rwa [show fresh + (q - fresh) = q by omega] at h2
      have hout : ∀ q, ¬ Covers (arrayView fresh src.dims) q → (w.mem.setMany fresh xs) q = w.mem q := by
        intro q hq; apply setMany_out; rwa [g2, ← arrayView_covers]
      have hin : ∀ q, Covers (arrayView fresh src.dims) q → (w.mem.setMany fresh xs) q ≠ none := by
        intro q hq
        obtain ⟨h1, h2⟩ := arrayView_covers.1 hq
        have : q = fresh + (q - fresh) := by omega
        rw [this, setMany_in (by rw [g2]; omega), List.getElem?_eq_getElem (by rw [g2]; omega)]
        simp
      have hkeep : Keeps w.mem (w.mem.setMany fresh xs) := by
        intro q hq
        rw [hout q fun hc => hq (hcovf q hc)]
        exact hq
      refine safe_bind (P := fun m' => Fine w (.overlap x h e) { w with mem := m', clock := w.clock + 1 }) (T := _) ?_ (fun h => h) fun m' hm' => hm'
      refine safe_bind (T := (check (ctxOf w) (.overlap x h e)).isSome = true)
        (P := fun m' => Fine w (.overlap x h e) { w with mem := m'.free fresh (prod src.dims), clock := w.clock + 1 }) ?_ (fun h => h) fun m' hm' => safe_ok hm'
      unfold arrayAssign
      cases hd : o.dims with
      | none => exact safe_ill fun h => by simpa [hd] using (hv h).1
      | some d =>
        rw [hd] at hv
        by_cases hl : src.dims.length = d.length
        · simp only
          rw [if_neg (by simpa using hl)]
          refine safe_bind (safe_dbg _ _) (fun h => h) fun _ hdd => ?_
          have hdd : src.dims = d := by simpa using hdd
          refine safe_bind hg (fun h => .inl (by rw [kind_dims, hd]; rfl)) ?_
          rintro ps ⟨hp, hps, hpd⟩
          have hpl : ps.length = prod src.dims := by rw [(hpd d hd).2, hdd]
          have hit := goodIt_cells (m := w.mem.setMany fresh xs) (ps := (List.range (prod src.dims)).map (Arith.exact.add fresh ·)) (by
            intro p hp
            apply hin p
            rw [arrayView_covers]
            simp only [List.mem_map, List.mem_range] at hp
            obtain ⟨k, hk, rfl⟩ := hp
            show fresh ≤ fresh + k ∧ fresh + k < _
            omega)
          obtain ⟨m', k1, k2, k3⟩ := assign_loop H hc hps hkeep (g := fun k _ m => (It.cells ((List.range (prod src.dims)).map (Arith.exact.add fresh ·))).deref m k)
            fun m' hm' k _ hk _ => hit.2 m' hm' k (by simp; omega)
          rw [k1, res_ok_bind]
          refine safe_bind (safe_dbg _ _) (fun h => h) fun _ _ => ?_
          refine write_fine H hc hps ?_ ?_ rfl (when_some (by
            rw [hne, (viewTyped_iff hk).2 ⟨by rw [kind_dims, hd]; rfl, by rw [kind_dims, hd, h2, hl]; rfl⟩]; rfl))
          · intro q
            unfold Mem.free
            by_cases hq : Covers (arrayView fresh src.dims) q
            · rw [if_pos (arrayView_covers.1 hq)]; simp [hcovf q hq]
            · rw [if_neg (fun h => hq (arrayView_covers.2 h)), k2 q, hout q hq]
          · intro q hqp
            unfold Mem.free
            by_cases hq : Covers (arrayView fresh src.dims) q
            · rw [if_pos (arrayView_covers.1 hq)]; exact (hcovf q hq).symm
            · rw [if_neg (fun h => hq (arrayView_covers.2 h)), k3 q hqp, hout q hq]
        · simp only
          rw [if_pos hl]
          exact safe_ill fun h => hl (by simpa using (hv h).2.symm)
  | overlapWhole x e =>
    have hT : (check (ctxOf w) (.overlapWhole x e)).isSome → (ctxOf w x).isSome = true ∧ exOrder (ctxOf w) e = ctxOf w x := by
      intro h; simpa using when_isSome h
    refine safe_bind (safe_get x) (fun h => (hT h).1) fun a ha => ?_
    have hTe : (check (ctxOf w) (.overlapWhole x e)).isSome → (exOrder (ctxOf w) e).isSome := fun h => by rw [(hT h).2]; exact (hT h).1
    refine safe_bind (safe_ex H hs) hTe fun e' he' => ?_
    cases hb : e'.build Arith.exact true with
    | error f =>
      unfold GoodEx at he'
      rw [hb] at he'
      rcases he' with h | ⟨h, h'⟩
      · exact .inl h
      · exact .inr ⟨h, fun t => h' (hTe t)⟩
    | ok src =>
      unfold GoodEx at he'
      rw [hb] at he'
      obtain ⟨h1, h2⟩ := he'
      rw [res_ok_bind, prodL_exact]
      unfold sameOrder
      by_cases hl : a.ext.length = src.dims.length
      · rw [if_pos hl, res_ok_bind]
        unfold overlapArray
        obtain ⟨xs, g1, g2⟩ := newArray_good h1 (alloc w.clock w.mem (prod src.dims))
        rw [hb, res_ok_bind, g1, res_ok_bind, prodL_exact]
        refine replace_fine (intact_free H ha h1.1 g2 (hfree _)) rfl ?_
        have hx := ctxOf_some ha
        rw [check, when_some (by rw [hx, h2, hl]; simp), ctx_upd_same (by rw [hx, hl])]
      · rw [if_neg hl]
        refine safe_ill fun h => hl ?_
        have := (hT h).2
        rw [h2, ctxOf_some ha] at this
        simpa using this.symm
  | set x e =>
    have hT : (check (ctxOf w) (.set x e)).isSome → (ctxOf w x).isSome = true ∧ exOrder (ctxOf w) e = ctxOf w x := by
      intro h; simpa using when_isSome h
    have hTe : (check (ctxOf w) (.set x e)).isSome → (exOrder (ctxOf w) e).isSome := fun h => by rw [(hT h).2]; exact (hT h).1
    by_cases hy : ∃ y, e = .arr y []
    · obtain ⟨y, rfl⟩ := hy
      have hord : exOrder (ctxOf w) (.arr y [] : PEx α) = ctxOf w y := by
        simp only [exOrder, chainKind, typeOf, List.foldlM_nil]
        cases ctxOf w y <;> rfl
      simp only [World.step]
      refine safe_bind (safe_get x) (fun h => (hT h).1) fun a ha => ?_
      refine safe_bind (safe_get y) (fun h => by rw [← hord, (hT h).2]; exact (hT h).1) fun b hb => ?_
      unfold sameOrder
      by_cases hl : a.ext.length = b.ext.length
      · rw [if_pos hl, res_ok_bind]
        have hchk : check (ctxOf w) (.set x (.arr y [] : PEx α)) = some ((ctxOf w).upd x (some b.ext.length)) := by
          rw [check, when_some (by rw [hord, ctxOf_some ha, ctxOf_some hb, hl]; simp), ctx_upd_same (by rw [ctxOf_some ha, hl])]
        unfold assignArrayCopy
        by_cases hxy : x = y
        · subst hxy
          rw [ha] at hb; cases hb
          simp only [BEq.rfl, if_true, res_ok_bind]
          refine replace_fine ?_ rfl hchk
          refine intact_replace H (H.order x a ha) (fun q hq => H.live x a q ha hq) ?_ (fun _ _ _ => rfl) (fun q hq => .inl ⟨a, ha, hq⟩)
          intro q hq
          by_cases hc : Covers (cells a) q
          · exact .inr hc
          · exact .inl ⟨hq, fun c hc' => by rw [ha] at hc'; cases hc'; exact hc⟩
        · rw [show (x == y) = false by simpa using hxy]
          simp only [Bool.false_eq_true, if_false, prodL_exact]
          have hlive : ∀ p ∈ (List.range (prod b.ext)).map (Arith.exact.add b.base ·), w.mem p ≠ none := by
            intro p hp
            apply H.live y b p hb
            rw [cells, arrayView_covers]
            simp only [List.mem_map, List.mem_range] at hp
            obtain ⟨k, hk, rfl⟩ := hp
            show b.base ≤ b.base + k ∧ b.base + k < _
            omega
          have hg : GoodSrc w.mem (⟨b.ext, .cells ((List.range (prod b.ext)).map (Arith.exact.add b.base ·))⟩ : EObj α) := by
            refine ⟨H.order y b hb, ?_⟩
            have := goodIt_cells hlive
            simpa using this
          obtain ⟨r, h1, h2⟩ := assignExpr_fine H ha hg (hfree (prod b.ext)) (s := .set x (.arr y [])) rfl hchk
          rw [h1, res_ok_bind]
          exact h2
      · rw [if_neg hl]
        refine safe_ill fun h => hl ?_
        have := (hT h).2
        rw [hord, ctxOf_some ha, ctxOf_some hb] at this
        simpa using this.symm
    · rw [step_set _ _ _ _ fun y h => hy ⟨y, h⟩]
      refine safe_bind (safe_get x) (fun h => (hT h).1) fun a ha => ?_
      refine safe_bind (safe_ex H hs) hTe fun e' he' => ?_
      cases hb : e'.build Arith.exact true with
      | error f =>
        unfold GoodEx at he'
        rw [hb] at he'
        rcases he' with h | ⟨h, h'⟩
        · exact .inl h
        · exact .inr ⟨h, fun t => h' (hTe t)⟩
      | ok src =>
        unfold GoodEx at he'
        rw [hb] at he'
        obtain ⟨h1, h2⟩ := he'
        rw [res_ok_bind, prodL_exact]
        unfold sameOrder
        by_cases hl : a.ext.length = src.dims.length
        · rw [if_pos hl, res_ok_bind]
          unfold assignArray
          rw [hb, res_ok_bind]
          have hx := ctxOf_some ha
          obtain ⟨r, h1, h2⟩ := assignExpr_fine H ha h1 (hfree (prod src.dims)) (s := .set x e) rfl (by
            rw [check, when_some (by rw [hx, h2, hl]; simp), ctx_upd_same (by rw [hx, hl])])
          rw [h1, res_ok_bind]
          exact h2
        · rw [if_neg hl]
          refine safe_ill fun h => hl ?_
          have := (hT h).2
          rw [h2, ctxOf_some ha] at this
          simpa using this.symm
  | moveAssign x y =>
    have hT : (check (ctxOf w) (.moveAssign x y : Stmt α)).isSome → (ctxOf w x).isSome = true ∧ ctxOf w x = ctxOf w y := by
      intro h; simpa using when_isSome h
    refine safe_bind (safe_get x) (fun h => (hT h).1) fun a ha => ?_
    refine safe_bind (safe_get y) (fun h => by rw [← (hT h).2]; exact (hT h).1) fun b hb => ?_
    unfold sameOrder
    by_cases hl : a.ext.length = b.ext.length
    · rw [if_pos hl, res_ok_bind]
      refine safe_bind (safe_dbg _ _) (fun h => h) fun _ hne => ?_
      have hne : x ≠ y := by simpa using hne
      obtain ⟨k1, k2⟩ := intact_swap H hne ha hb
      refine ⟨k1, fun z hz => ?_, ?_⟩
      · simp only [changes, List.mem_cons, List.not_mem_nil, or_false, not_or] at hz
        exact k2 z hz.1 hz.2
      · rw [ctx_bind, ctx_bind, check, when_some (by rw [ctxOf_some ha, ctxOf_some hb, hl]; simp), ctx_upd_same (x := x) (by rw [ctxOf_some ha, hl]),
          ctx_upd_same (by rw [ctxOf_some hb, hl])]
    · rw [if_neg hl]
      refine safe_ill fun h => hl ?_
      have := (hT h).2
      rw [ctxOf_some ha, ctxOf_some hb] at this
      simpa using this


/-- **C68.** One statement, whatever it is, in a checked build and in any state with intact memory: it is executed and leaves memory intact
and every array it is not about unchanged; or an assertion reports an error; or it does not compile, and then the type checker rejects it.
(There is no other outcome: no undefined behaviour.) The type checker accepts every statement that is executed and gives the orders of
the arrays afterwards. -/
theorem C68_step (H : Intact w) {s : Stmt α} (hs : Provided s) {alloc : Nat → Mem α → Nat → Nat} (hal : GoodAlloc alloc) :
    (∃ w', w.step Arith.exact true alloc s = .ok w' ∧ Intact w' ∧ (∀ y, y ∉ changes s → SameArray w w' y) ∧
        check (ctxOf w) s = some (ctxOf w')) ∨
      w.step Arith.exact true alloc s = .error .assert ∨
      (w.step Arith.exact true alloc s = .error .illFormed ∧ check (ctxOf w) s = none) := by
  have h := step_fine H hs hal
  cases hr : w.step Arith.exact true alloc s with
  | ok w' => rw [hr] at h; exact .inl ⟨w', rfl, h⟩
  | error f =>
    rw [hr] at h
    rcases h with rfl | ⟨rfl, h⟩
    · exact .inr (.inl rfl)
    · exact .inr (.inr ⟨rfl, by simpa using h⟩)

/-- **C68.** Any sequence of statements: it is executed to the end, leaves memory intact and every array it never mentions unchanged; or
an assertion reports an error; or it does not compile. -/
theorem C68_run {p : List (Stmt α)} {alloc : Nat → Mem α → Nat → Nat} (hal : GoodAlloc alloc) : ∀ {w : World α}, Intact w →
    (∀ s ∈ p, Provided s) →
    (∃ w', w.run Arith.exact true alloc p = .ok w' ∧ Intact w' ∧ (∀ y, (∀ s ∈ p, y ∉ changes s) → SameArray w w' y) ∧
        checkAll (ctxOf w) p = some (ctxOf w')) ∨
      w.run Arith.exact true alloc p = .error .assert ∨
      (w.run Arith.exact true alloc p = .error .illFormed ∧ checkAll (ctxOf w) p = none) := by
  induction p with
  | nil => exact fun {w} H _ => .inl ⟨w, rfl, H, fun y _ => ⟨rfl, fun _ _ _ _ => rfl⟩, rfl⟩
  | cons s p ih =>
    intro w H hs
    rcases C68_step H (hs s (by simp)) hal with ⟨w1, h1, h2, h3, h4⟩ | h | ⟨h, h'⟩
    · have hrun : w.run Arith.exact true alloc (s :: p) = w1.run Arith.exact true alloc p := by rw [World.run, h1, res_ok_bind]
      have hchk : checkAll (ctxOf w) (s :: p) = checkAll (ctxOf w1) p := by rw [checkAll, h4, Option.bind_some]
      rw [hrun, hchk]
      rcases ih h2 fun t ht => hs t (by simp [ht]) with ⟨w', k1, k2, k3, k4⟩ | h | h
      · refine .inl ⟨w', k1, k2, fun y hy => ?_, k4⟩
        obtain ⟨a1, a2⟩ := h3 y (hy s (by simp))
        obtain ⟨b1, b2⟩ := k3 y fun t ht => hy t (by simp [ht])
        exact ⟨b1.trans a1, fun c q hc hq => (b2 c q (a1.trans hc) hq).trans (a2 c q hc hq)⟩
      · exact .inr (.inl h)
      · exact .inr (.inr h)
    · exact .inr (.inl (by rw [World.run, h]; rfl))
    · exact .inr (.inr ⟨by rw [World.run, h]; rfl, by rw [checkAll, h']; rfl⟩)

theorem intact_empty : Intact (World.empty : World α) where
  order := nofun
  live := nofun
  sep := by intro x y c d q _ h; cases h
  only := fun _ h => (h rfl).elim
  finite := ⟨0, fun _ _ => rfl⟩

/-- **C68.** Whole programs that compile: they end with intact memory or an assertion reports an error. -/
theorem C68_program {p : List (Stmt α)} {alloc : Nat → Mem α → Nat → Nat} (hal : GoodAlloc alloc) (hs : ∀ s ∈ p, Provided s)
    (ht : (checkAll (fun _ => none) p).isSome) :
    (∃ w', World.empty.run Arith.exact true alloc p = .ok w' ∧ Intact w' ∧ checkAll (fun _ => none) p = some (ctxOf w')) ∨
      World.empty.run Arith.exact true alloc p = .error .assert := by
  have hc : ctxOf (World.empty : World α) = fun _ => none := rfl
  rcases C68_run hal intact_empty hs with ⟨w', h1, h2, _, h4⟩ | h | ⟨_, h⟩
  · exact .inl ⟨w', h1, h2, h4⟩
  · exact .inr h
  · rw [hc] at h; rw [h] at ht; cases ht

/-- **C68.** When all arrays of a program have been destroyed, no memory is in use. -/
theorem C68_no_leak {w : World α} (H : Intact w) (h : ∀ x, w.env x = none) (q : Nat) : w.mem q = none := by
  by_cases hq : w.mem q = none
  · exact hq
  · obtain ⟨x, c, hc, _⟩ := H.only q hq
    rw [h x] at hc; cases hc

/-- **C68.** Statements that are legal in the sense of C65 compile. -/
theorem C68_legal_compiles {A : AStore α} {w : World α} (H : HoldsStore w A) {s : Stmt α} (hl : StmtLegal A s) (hs : Provided s)
    {alloc : Nat → Mem α → Nat → Nat} (hal : GoodAlloc alloc) : (check (ctxOf w) s).isSome := by
  have hI : Intact w := {
    order := fun x c hc => by
      cases hA : A x with
      | none => rw [H.out x hA] at hc; cases hc
      | some a =>
        obtain ⟨h1, c', h2, h3, _⟩ := H.arr x a hA
        rw [hc] at h2; cases h2
        rw [h3]; exact h1
    live := fun x c q hc hq => by
      cases hA : A x with
      | none => rw [H.out x hA] at hc; cases hc
      | some a =>
        obtain ⟨i, hi, rfl⟩ := hq
        exact alive_cells H hA hc i hi
    sep := H.sep
    only := H.only
    finite := H.finite }
  obtain ⟨w', h1, _⟩ := stmt_ok H hl true hal
  rcases C68_step hI hs hal with ⟨w1, _, _, _, h4⟩ | h | ⟨h, _⟩
  · rw [h4]; rfl
  · rw [h1] at h; cases h
  · rw [h1] at h; cases h

end

/-! ### Concrete cases -/

/-- A program that compiles; an assertion reports its last statement (the index is out of range). -/
def exBad : List (Stmt Nat) :=
  [.makeFrom 0 [1, 2, 3, 4, 5, 6] [2, 3], .make 1 (.arr 0 [.at 1]), .assign 0 [.at 0] (.bin (· + ·) (.arr 0 [.at 1]) (.arr 1 [])),
   .fill 0 [.at 1, .at 3] (.const 7)]

example : (checkAll (fun _ => none) exBad).isSome = true := by decide +kernel

example : World.empty.run Arith.exact true exAlloc exBad = .error .assert := by rfl

example : (World.empty.run Arith.exact true exAlloc (exBad.take 3)).map (fun w => (List.range 6).map w.mem) =
    .ok [some 4, some 2, some 8, some 4, some 12, some 6] := by decide +kernel

/-- `Provided` holds of it. -/
theorem exBad_provided : ∀ s ∈ exBad, Provided s := by
  intro s hs
  simp only [exBad, List.mem_cons, List.not_mem_nil, or_false] at hs
  rcases hs with rfl | rfl | rfl | rfl
  · show prod [2, 3] ≤ 6; decide
  · show StepsOK _; intro s m; simp
  · exact ⟨fun s m => by simp, fun s m => by simp, fun s m => by simp⟩
  · exact ⟨fun s m => by simp, trivial⟩

/-- Programs that do not compile: an incomplete chain as target, a matrix for a vector, a name that is not in scope. -/
example : checkAll (fun _ => none) ([.makeFill 0 (.const 1) [2, 2], .fill 0 [.every] (.const 7)] : List (Stmt Nat)) = none := by decide +kernel
example : checkAll (fun _ => none) ([.makeFill 0 (.const 1) [2, 2], .makeFill 1 (.const 1) [4], .set 1 (.arr 0 [])] : List (Stmt Nat)) = none := by
  decide +kernel
example : checkAll (fun _ => none) ([.drop 0] : List (Stmt Nat)) = none := by decide +kernel

/-- **C68, what is not checked.** A bounded slice with stride zero divides by zero, and an iterator with too few values is read past its
end: the two hypotheses of C68 are needed. -/
theorem C68_unchecked :
    (World.empty.run Arith.exact true exAlloc [.makeFill 0 (.const 1) [4], .fill 0 [.boundedStrided 0 2 0] (.const 7)] = .error .ub) ∧
      World.empty.run Arith.exact true exAlloc [.makeFrom 0 [1, 2, 3] [4]] = .error .ub := by
  constructor <;> rfl

/-- **C68, unchecked builds.** Without assertions the same program writes outside its array. -/
theorem C68_release : World.empty.run Arith.exact false (fun _ _ _ => 0) ([.makeFill 0 (.const 1) [4], .fill 0 [.at 4] (.const 7)] : List (Stmt Nat)) =
    .error .ub := by rfl

/-! ### The hypotheses hold in concrete cases -/

example := C68_step (α := Nat) intact_empty (s := .makeFrom 0 [1, 2, 3, 4, 5, 6] [2, 3]) (by show prod [2, 3] ≤ 6; decide) goodAlloc_exists.choose_spec
example := C68_run goodAlloc_exists.choose_spec intact_empty exBad_provided
example := C68_program goodAlloc_exists.choose_spec exBad_provided (by decide +kernel)
example := C68_no_leak (α := Nat) intact_empty (fun _ => rfl)

end Jules.Props

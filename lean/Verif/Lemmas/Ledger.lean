import Verif.Lemmas.Blocks
/-
Lemmas for C86: which block belongs to which array.
-/
namespace Jules
open Spec Props

section
variable {α : Type} {W : BWorld α} {S : MStore α} {lost : List Nat}

/-- The blocks in use and the arrays they belong to. -/
structure Ledger (bl : List (Nat × Nat)) (env : Nat → Option Own) (lost : List Nat) : Prop where
  own : ∀ x b d, env x = some ⟨some b, d⟩ → (b, prod d) ∈ bl
  once : ∀ x y b d d', env x = some ⟨some b, d⟩ → env y = some ⟨some b, d'⟩ → x = y
  bases : (bl.map Prod.fst).Nodup
  apart : ∀ b ∈ bl, ∀ b' ∈ bl, b.1 ≠ b'.1 → b.1 + b.2 ≤ b'.1 ∨ b'.1 + b'.2 ≤ b.1
  nodup : lost.Nodup
  left : ∀ b, b ∈ lost ↔ b ∈ bl.map Prod.fst ∧ ∀ x d, env x ≠ some ⟨some b, d⟩

theorem bholds_ledger (H : BHolds W S lost) : Ledger W.pool.blocks W.env lost := ⟨H.own, H.once, H.bases, H.apart, H.nodup, H.left⟩

theorem bholds_live_moved (H : BHolds W S lost) {x : Nat} (h : S.live x ≠ none) : S.moved x = none := by
  cases hm : S.moved x with
  | none => rfl
  | some d => exact (h (H.moved x d hm).1).elim

/-- The extents of an array in scope. -/
theorem bholds_env (H : BHolds W S lost) {x : Nat} {a : AVal α} (ha : S.live x = some a) : ∃ p, W.env x = some ⟨p, a.ext⟩ ∧ (p = none → prod a.ext = 0) := by
  rcases (H.arr x a ha).2 with ⟨h1, h2⟩ | ⟨b, h1, _⟩
  · exact ⟨none, h1, fun _ => h2⟩
  · exact ⟨some b, h1, fun h => by cases h⟩

theorem flat_env {x : Nat} {p : Option Nat} {d : List Nat} (h : W.env x = some ⟨p, d⟩) (h' : p = none → prod d = 0) :
    (W.flat Arith.exact).env x = some ⟨p.getD 0, d⟩ := by
  simp only [BWorld.flat, h, Option.bind_some, Own.hollow, prodL_exact]
  cases p with
  | none => simp [h' rfl]
  | some b => simp

theorem flat_moved {x : Nat} {d : List Nat} (h : W.env x = some ⟨none, d⟩) (h' : prod d ≠ 0) : (W.flat Arith.exact).env x = none := by
  simp [BWorld.flat, h, Own.hollow, prodL_exact, h']

theorem flat_out {x : Nat} (h : W.env x = none) : (W.flat Arith.exact).env x = none := by
  simp [BWorld.flat, h]

/-- Conversely. -/
theorem flat_some {x : Nat} {c : Arr} (h : (W.flat Arith.exact).env x = some c) :
    ∃ p, W.env x = some ⟨p, c.ext⟩ ∧ (p = none → prod c.ext = 0) ∧ c.base = p.getD 0 := by
  simp only [BWorld.flat] at h
  cases he : W.env x with
  | none => rw [he] at h; cases h
  | some o =>
    rw [he, Option.bind_some] at h
    split at h
    · cases h
    · next hh =>
      cases h
      refine ⟨o.ptr, rfl, ?_, rfl⟩
      intro hp
      simp only [Own.hollow, prodL_exact, hp, Option.isNone_none, Bool.true_and, bne_iff_ne, ne_eq, Decidable.not_not] at hh
      exact hh

theorem inBlocks_of (H : BHolds W S lost) : InBlocks W.pool.mem W.pool.blocks := by
  intro q hq
  obtain ⟨x, b, d, h1, h2, h3⟩ := H.only q hq
  exact ⟨_, H.own x b d h1, h2, h3⟩

theorem sum_bound : ∀ (l : List (Nat × Nat)) (c : Nat × Nat), c ∈ l → c.1 + c.2 ≤ (l.map fun b => b.1 + b.2).sum
  | b :: l, c, h => by
    rcases List.mem_cons.1 h with rfl | h
    · simp
    · have := sum_bound l c h
      simp only [List.map_cons, List.sum_cons]; omega

theorem covers_lt {p : Option Nat} {d : List Nat} {q : Nat} (h : Covers (cells ⟨p.getD 0, d⟩) q) (hp : p = none → prod d = 0) :
    ∃ b, p = some b ∧ b ≤ q ∧ q < b + prod d := by
  have := arrayView_covers.1 h
  cases p with
  | none => have := hp rfl; simp at *; omega
  | some b => exact ⟨b, rfl, this.1, this.2⟩

theorem bholds_flat (H : BHolds W S lost) : HoldsStore (W.flat Arith.exact) S.live where
  arr x a ha := by
    refine ⟨(H.arr x a ha).1, ?_⟩
    rcases (H.arr x a ha).2 with ⟨h1, h2⟩ | ⟨b, h1, h2⟩
    · refine ⟨_, flat_env h1 (fun _ => h2), rfl, fun i hi => ?_⟩
      have := cmSum_lt hi; omega
    · exact ⟨_, flat_env h1 (fun h => by cases h), rfl, h2⟩
  out x hx := by
    cases hm : S.moved x with
    | none => exact flat_out (H.out x ⟨hx, hm⟩)
    | some d =>
      obtain ⟨_, _, h2, h3⟩ := H.moved x d hm
      exact flat_moved h3 h2
  sep x y c d q hxy hc hd h1 h2 := by
    obtain ⟨p, e1, e2, e3⟩ := flat_some hc
    obtain ⟨p', f1, f2, f3⟩ := flat_some hd
    obtain ⟨cb, ce⟩ := c
    obtain ⟨db, de⟩ := d
    simp only at e1 e2 e3 f1 f2 f3
    rw [e3] at h1
    rw [f3] at h2
    obtain ⟨b, rfl, g1, g2⟩ := covers_lt h1 e2
    obtain ⟨b', rfl, k1, k2⟩ := covers_lt h2 f2
    by_cases hb : b = b'
    · subst hb; exact hxy (H.once x y b _ _ e1 f1)
    · have := H.apart _ (H.own x b _ e1) _ (H.own y b' _ f1) hb
      simp only at this
      omega
  only q hq := by
    obtain ⟨x, b, d, h1, h2, h3⟩ := H.only q hq
    exact ⟨x, _, flat_env h1 (fun h => by cases h), arrayView_covers.2 ⟨h2, h3⟩⟩
  finite := by
    refine ⟨(W.pool.blocks.map fun b => b.1 + b.2).sum, fun q hq => ?_⟩
    by_contra h
    obtain ⟨c, hc, h1, h2⟩ := inBlocks_of H q h
    have := sum_bound _ c hc
    omega

theorem bholds_of (h : HoldsStore (W.flat Arith.exact) S.live) (hl : Ledger W.pool.blocks W.env lost)
    (hm : ∀ x d, S.moved x = some d → S.live x = none ∧ d ≠ [] ∧ prod d ≠ 0 ∧ W.env x = some ⟨none, d⟩)
    (ho : ∀ x, Unused S x → W.env x = none) (hr : W.pool.ruined = 0) : BHolds W S lost where
  arr x a ha := by
    obtain ⟨h1, c, h2, h3, h4⟩ := h.arr x a ha
    refine ⟨h1, ?_⟩
    obtain ⟨p, e1, e2, e3⟩ := flat_some h2
    rw [h3] at e1 e2
    cases p with
    | none => exact .inl ⟨e1, e2 rfl⟩
    | some b =>
      refine .inr ⟨b, e1, fun i hi => ?_⟩
      have := h4 i hi
      simp only [cells, arrayView, e3, h3, Option.getD_some] at this
      exact this
  moved := hm
  out := ho
  own := hl.own
  once := hl.once
  bases := hl.bases
  apart := hl.apart
  only q hq := by
    obtain ⟨x, c, h1, h2⟩ := h.only q hq
    obtain ⟨p, e1, e2, e3⟩ := flat_some h1
    obtain ⟨cb, ce⟩ := c
    simp only at e1 e2 e3
    rw [e3] at h2
    obtain ⟨b, rfl, g1, g2⟩ := covers_lt h2 e2
    exact ⟨x, b, _, e1, g1, g2⟩
  nodup := hl.nodup
  left := hl.left
  ruined := hr

/-! ### Changes -/

/-- The environment with another array `x`. -/
def putEnv (env : Nat → Option Own) (x : Nat) (o : Option Own) : Nat → Option Own := fun y => if y = x then o else env y

/-- No block belongs to `x`. -/
def NoBlock (o : Option Own) : Prop := ∀ b d, o ≠ some ⟨some b, d⟩

theorem noBlock_none : NoBlock none := fun _ _ h => by cases h

theorem noBlock_null (d : List Nat) : NoBlock (some ⟨none, d⟩) := fun _ _ h => by cases h

variable {bl : List (Nat × Nat)} {env : Nat → Option Own}

theorem put_own {x y b : Nat} {d : List Nat} {o : Option Own} (h : putEnv env x o y = some ⟨some b, d⟩) :
    (y = x ∧ o = some ⟨some b, d⟩) ∨ (y ≠ x ∧ env y = some ⟨some b, d⟩) := by
  unfold putEnv at h
  split at h
  · next hy => exact .inl ⟨hy, h⟩
  · next hy => exact .inr ⟨hy, h⟩

theorem put_at (env : Nat → Option Own) (x : Nat) (o : Option Own) : putEnv env x o x = o := by simp [putEnv]

theorem put_other (env : Nat → Option Own) {x y : Nat} (h : y ≠ x) (o : Option Own) : putEnv env x o y = env y := by simp [putEnv, h]

/-- Blocks owned are the same, possibly under another name. -/
theorem ledger_rename (L : Ledger bl env lost) {env' : Nat → Option Own} (σ : Nat → Nat)
    (h1 : ∀ x b d, env' x = some ⟨some b, d⟩ → ∃ d', prod d' = prod d ∧ env (σ x) = some ⟨some b, d'⟩)
    (hσ : ∀ x y b d b' d', env' x = some ⟨some b, d⟩ → env' y = some ⟨some b', d'⟩ → σ x = σ y → x = y)
    (h2 : ∀ x b d, env x = some ⟨some b, d⟩ → ∃ y d', env' y = some ⟨some b, d'⟩) : Ledger bl env' lost where
  own x b d h := by
    obtain ⟨d', e1, e2⟩ := h1 x b d h
    rw [← e1]; exact L.own _ b d' e2
  once x y b d d' hx hy := by
    obtain ⟨_, _, e1⟩ := h1 x b d hx
    obtain ⟨_, _, e2⟩ := h1 y b d' hy
    exact hσ x y b d b d' hx hy (L.once _ _ b _ _ e1 e2)
  bases := L.bases
  apart := L.apart
  nodup := L.nodup
  left b := by
    rw [L.left b]
    refine and_congr Iff.rfl ⟨fun h x d he => ?_, fun h x d he => ?_⟩
    · obtain ⟨d', _, e⟩ := h1 x b d he
      exact h _ _ e
    · obtain ⟨y, d', e⟩ := h2 x b d he
      exact h _ _ e

/-- Something without a block instead of something without a block. -/
theorem ledger_null (L : Ledger bl env lost) {x : Nat} {o : Option Own} (h : NoBlock (env x)) (ho : NoBlock o) : Ledger bl (putEnv env x o) lost := by
  refine ledger_rename L id ?_ (fun _ _ _ _ _ _ _ _ h => h) ?_
  · intro y b d hy
    rcases put_own hy with ⟨_, h⟩ | ⟨_, h⟩
    · exact (ho _ _ h).elim
    · exact ⟨d, rfl, h⟩
  · intro y b d hy
    have : y ≠ x := by rintro rfl; exact h _ _ hy
    exact ⟨y, d, by rw [put_other env this]; exact hy⟩

/-- Other extents. -/
theorem ledger_extents (L : Ledger bl env lost) {x b : Nat} {d d' : List Nat} (h : env x = some ⟨some b, d⟩) (hd : prod d' = prod d) :
    Ledger bl (putEnv env x (some ⟨some b, d'⟩)) lost := by
  refine ledger_rename L id ?_ (fun _ _ _ _ _ _ _ _ h => h) ?_
  · intro y c e hy
    rcases put_own hy with ⟨rfl, h'⟩ | ⟨_, h'⟩
    · cases h'
      exact ⟨d, hd.symm, h⟩
    · exact ⟨e, rfl, h'⟩
  · intro y c e hy
    by_cases hyx : y = x
    · subst hyx
      rw [h] at hy; cases hy
      exact ⟨y, d', put_at _ _ _⟩
    · exact ⟨y, e, by rw [put_other env hyx]; exact hy⟩

/-- A new block that belongs to no array. -/
theorem ledger_leak (L : Ledger bl env lost) {b n : Nat} (hf : Fresh bl b n) : Ledger ((b, n) :: bl) env (b :: lost) := by
  have hb : b ∉ bl.map Prod.fst := by
    intro h
    obtain ⟨c, hc, rfl⟩ := List.mem_map.1 h
    exact (hf c hc).1 rfl
  refine ⟨fun x b d h => List.mem_cons_of_mem _ (L.own x b d h), L.once, ?_, ?_, ?_, ?_⟩
  · rw [List.map_cons, List.nodup_cons]; exact ⟨hb, L.bases⟩
  · intro c hc c' hc' hne
    rcases List.mem_cons.1 hc with rfl | hc <;> rcases List.mem_cons.1 hc' with rfl | hc'
    · exact (hne rfl).elim
    · exact (hf c' hc').2
    · exact (hf c hc).2.symm
    · exact L.apart c hc c' hc' hne
  · rw [List.nodup_cons]
    exact ⟨fun h => hb ((L.left b).1 h).1, L.nodup⟩
  · intro c
    simp only [List.mem_cons, List.map_cons]
    rw [L.left c]
    constructor
    · rintro (rfl | ⟨h1, h2⟩)
      · refine ⟨.inl rfl, fun x d h => hb ?_⟩
        exact List.mem_map.2 ⟨_, L.own x c d h, rfl⟩
      · exact ⟨.inr h1, h2⟩
    · rintro ⟨h1 | h1, h2⟩
      · exact .inl h1
      · exact .inr ⟨h1, h2⟩

/-- A new block for `x`. -/
theorem ledger_add (L : Ledger bl env lost) {x b : Nat} {d : List Nat} (hx : NoBlock (env x)) (hf : Fresh bl b (prod d)) :
    Ledger ((b, prod d) :: bl) (putEnv env x (some ⟨some b, d⟩)) lost := by
  have L' := ledger_leak L hf
  have hb : ∀ y e, env y ≠ some ⟨some b, e⟩ := ((L'.left b).1 (by simp)).2
  refine ⟨?_, ?_, L'.bases, L'.apart, L.nodup, ?_⟩
  · intro y c e hy
    rcases put_own hy with ⟨_, h⟩ | ⟨_, h⟩
    · cases h; simp
    · exact L'.own y c e h
  · intro y z c e e' hy hz
    rcases put_own hy with ⟨rfl, h⟩ | ⟨hyx, h⟩ <;> rcases put_own hz with ⟨rfl, h'⟩ | ⟨hzx, h'⟩
    · rfl
    · cases h; exact (hb _ _ h').elim
    · cases h'; exact (hb _ _ h).elim
    · exact L.once y z c e e' h h'
  · intro c
    have hbl := (List.nodup_cons.1 L'.nodup).1
    simp only [List.map_cons, List.mem_cons]
    rw [L.left c]
    constructor
    · rintro ⟨h1, h2⟩
      refine ⟨.inr h1, fun y e h0 => ?_⟩
      rcases put_own h0 with ⟨_, h⟩ | ⟨_, h⟩
      · cases h
        obtain ⟨c', hc', he⟩ := List.mem_map.1 h1
        exact (hf c' hc').1 he.symm
      · exact h2 _ _ h
    · rintro ⟨h1, h2⟩
      have hcb : c ≠ b := by
        rintro rfl
        exact h2 x d (put_at _ _ _)
      refine ⟨h1.resolve_left hcb, fun y e h => ?_⟩
      by_cases hyx : y = x
      · subst hyx; exact hx _ _ h
      · exact h2 y e (by rw [put_other env hyx]; exact h)

/-- The block of `x` is freed. -/
theorem ledger_remove (L : Ledger bl env lost) {x b : Nat} {d : List Nat} (hx : env x = some ⟨some b, d⟩) {o : Option Own} (ho : NoBlock o) :
    Ledger (bl.filter fun y => y.1 != b) (putEnv env x o) lost := by
  have hmem : ∀ c : Nat × Nat, c ∈ bl.filter (fun y => y.1 != b) ↔ c ∈ bl ∧ c.1 ≠ b := by
    intro c; simp [List.mem_filter]
  have back : ∀ y c e, putEnv env x o y = some ⟨some c, e⟩ → y ≠ x ∧ env y = some ⟨some c, e⟩ ∧ c ≠ b := by
    intro y c e h
    rcases put_own h with ⟨_, h⟩ | ⟨hy, h⟩
    · exact (ho _ _ h).elim
    · refine ⟨hy, h, ?_⟩
      rintro rfl
      exact hy (L.once y x c _ _ h hx)
  refine ⟨?_, ?_, ?_, ?_, L.nodup, ?_⟩
  · intro y c e h
    obtain ⟨_, h1, h2⟩ := back y c e h
    exact (hmem _).2 ⟨L.own y c e h1, h2⟩
  · intro y z c e e' hy hz
    exact L.once y z c e e' (back y c e hy).2.1 (back z c e' hz).2.1
  · exact L.bases.sublist ((List.filter_sublist (l := bl)).map _)
  · intro c hc c' hc' hne
    exact L.apart c ((hmem c).1 hc).1 c' ((hmem c').1 hc').1 hne
  · intro c
    rw [L.left c]
    constructor
    · rintro ⟨h1, h2⟩
      have hcb : c ≠ b := by rintro rfl; exact h2 x d hx
      obtain ⟨c', hc', rfl⟩ := List.mem_map.1 h1
      exact ⟨List.mem_map.2 ⟨c', (hmem c').2 ⟨hc', hcb⟩, rfl⟩, fun y e h => h2 y e (back y _ e h).2.1⟩
    · rintro ⟨h1, h2⟩
      obtain ⟨c', hc', rfl⟩ := List.mem_map.1 h1
      obtain ⟨k1, k2⟩ := (hmem c').1 hc'
      refine ⟨List.mem_map.2 ⟨c', k1, rfl⟩, fun y e h => ?_⟩
      by_cases hyx : y = x
      · subst hyx
        rw [hx] at h
        simp only [Option.some.injEq, Own.mk.injEq] at h
        exact k2 h.1.symm
      · exact h2 y e (by rw [put_other env hyx]; exact h)

theorem put_put (env : Nat → Option Own) (x : Nat) (o o' : Option Own) : putEnv (putEnv env x o) x o' = putEnv env x o' := by
  funext y; unfold putEnv; split <;> rfl

/-- A new block for `x` instead of the old one. -/
theorem ledger_replace (L : Ledger bl env lost) {x b b' : Nat} {d d' : List Nat} (hx : env x = some ⟨some b, d⟩) (hf : Fresh bl b' (prod d')) :
    Ledger (((b', prod d') :: bl).filter fun y => y.1 != b) (putEnv env x (some ⟨some b', d'⟩)) lost := by
  have L1 := ledger_remove L hx noBlock_none
  have hne : b' ≠ b := (hf _ (L.own x b d hx)).1
  have hfl : (((b', prod d') :: bl).filter fun y => y.1 != b) = (b', prod d') :: bl.filter fun y => y.1 != b := by
    rw [List.filter_cons, if_pos (by simpa using hne)]
  have L2 := ledger_add L1 (x := x) (b := b') (d := d') (by rw [put_at]; exact noBlock_none)
    (fun c hc => hf c (List.mem_of_mem_filter hc))
  rw [put_put] at L2
  rw [hfl]; exact L2

end
end Jules

import Verif.Model.Random
import Verif.Lemmas.Double
import Mathlib.Data.Rat.Defs
import Mathlib.Algebra.Order.Field.Rat
import Mathlib.Data.Nat.Choose.Basic
import Mathlib.Data.Nat.Cast.Order.Field
import Mathlib.Algebra.BigOperators.Group.List.Basic
import Mathlib.Tactic.Ring
import Mathlib.Tactic.Linarith
import Mathlib.Tactic.FieldSimp
import Mathlib.Tactic.LinearCombination
import Mathlib.Tactic.Positivity
/-
C34: sampling indices.
-/
namespace Jules.Props

/-! ### C34 -/

theorem rem_eq {e t : Nat} (ht : t ≤ e) (he : e < W64) : (e + (W64 - t)) % W64 = e - t := by
  have : e + (W64 - t) = (e - t) + W64 := by omega
  rw [this, Nat.add_mod_right, Nat.mod_eq_of_lt (by omega)]

theorem succ_mod {e t : Nat} (ht : t < e) (he : e < W64) : (t + 1) % W64 = t + 1 := Nat.mod_eq_of_lt (by omega)

/-- The loop from any point at which enough indices are left. -/
theorem selLoop_ok {C : Type} (less : Nat → C → Nat → Bool) (canon : Nat → C)
    (hless : ∀ rem k need, 0 < rem → rem ≤ need → less rem (canon k) need = true) (n e : Nat) (he : e < W64) :
    ∀ (fuel k t m : Nat), m ≤ n → n - m ≤ e - t → t ≤ e → e - t ≤ fuel →
      ∃ S, selLoop less canon n e fuel k t m = .ok S ∧ S.length = n - m ∧ S.Pairwise (· < ·) ∧ ∀ i ∈ S, t ≤ i ∧ i < e := by
  intro fuel
  induction fuel with
  | zero =>
    intro k t m hm hn ht hf
    refine ⟨[], ?_, by simp; omega, .nil, by simp⟩
    rw [selLoop, if_neg (by omega)]
  | succ fuel ih =>
    intro k t m hm hn ht hf
    by_cases hmn : m < n
    · have hte : t < e := by omega
      rw [selLoop, if_pos hmn, rem_eq ht he, succ_mod hte he]
      cases hl : less (e - t) (canon k) (n - m) with
      | true =>
        obtain ⟨S, h1, h2, h3, h4⟩ := ih (k + 1) (t + 1) (m + 1) (by omega) (by omega) (by omega) (by omega)
        refine ⟨t :: S, by rw [if_pos rfl, h1]; rfl, by rw [List.length_cons, h2]; omega, ?_, ?_⟩
        · exact List.pairwise_cons.2 ⟨fun i hi => by have := (h4 i hi).1; omega, h3⟩
        · intro i hi
          rcases List.mem_cons.1 hi with rfl | hi
          · exact ⟨le_refl _, hte⟩
          · have := h4 i hi; exact ⟨by omega, this.2⟩
      | false =>
        have hlt : n - m < e - t := by
          by_contra hc
          have := hless (e - t) k (n - m) (by omega) (by omega)
          rw [this] at hl; cases hl
        obtain ⟨S, h1, h2, h3, h4⟩ := ih (k + 1) (t + 1) m hm (by omega) (by omega) (by omega)
        refine ⟨S, by rw [if_neg (by simp), h1], h2, h3, ?_⟩
        intro i hi
        have := h4 i hi; exact ⟨by omega, this.2⟩
    · refine ⟨[], by rw [selLoop, if_neg hmn], by simp; omega, .nil, by simp⟩

/-- Sampling `n ≤ end` indices without replacement: whatever the random generator yields, the loop ends after at most `end`
iterations, with exactly `n` indices, strictly increasing (so distinct), all less than `end`. The test `(end - t) * c < n - m` may
be computed in any arithmetic, provided it says yes when `end - t ≤ n - m`. -/
theorem C34_no_replacement {C : Type} (less : Nat → C → Nat → Bool) (canon : Nat → C)
    (hless : ∀ rem k need, 0 < rem → rem ≤ need → less rem (canon k) need = true) (n e fuel : Nat) (hn : n ≤ e) (he : e < W64)
    (hf : e ≤ fuel) :
    ∃ S, sampleNoRepl less canon n e fuel = .ok S ∧ S.length = n ∧ S.Pairwise (· < ·) ∧ ∀ i ∈ S, i < e := by
  obtain ⟨S, h1, h2, h3, h4⟩ := selLoop_ok less canon hless n e he fuel 0 0 0 (by omega) (by omega) (by omega) (by omega)
  exact ⟨S, h1, h2, h3, fun i hi => (h4 i hi).2⟩

/-- The proviso holds in exact arithmetic for a generator with values in [0, 1). -/
theorem lessExact_ok (canon : Nat → Rat) (hc : ∀ k, 0 ≤ canon k ∧ canon k < 1) (rem k need : Nat) (h0 : 0 < rem) (h : rem ≤ need) :
    lessExact rem (canon k) need = true := by
  have h1 : (0 : Rat) < rem := Nat.cast_pos.2 h0
  have h2 : (rem : Rat) ≤ need := Nat.cast_le.2 h
  have h3 := hc k
  simp only [lessExact, decide_eq_true_eq]
  nlinarith

/-- The same in exact arithmetic. -/
theorem C34_no_replacement_exact (canon : Nat → Rat) (hc : ∀ k, 0 ≤ canon k ∧ canon k < 1) (n e : Nat) (hn : n ≤ e) (he : e < W64) :
    ∃ S, sampleNoRepl lessExact canon n e e = .ok S ∧ S.length = n ∧ S.Pairwise (· < ·) ∧ ∀ i ∈ S, i < e :=
  C34_no_replacement lessExact canon (lessExact_ok canon hc) n e e hn he (le_refl _)

/-- The proviso holds in `double`, for every correct rounding and every generator of `double`s in [0, 1). -/
theorem lessDouble_ok {rnd : Rat → Rat} (hr : Spec.Nearest rnd) (canon : Nat → Rat) (hc : ∀ k, Spec.IsDouble (canon k) ∧ 0 ≤ canon k ∧ canon k < 1)
    (rem k need : Nat) (h0 : 0 < rem) (h : rem ≤ need) : lessDouble rnd rem (canon k) need = true := by
  simp only [lessDouble, decide_eq_true_eq]
  have h1 : (1 : Rat) ≤ rnd rem := by
    rw [← hr.fix Spec.isDouble_one]
    exact hr.mono (by exact_mod_cast h0)
  exact lt_of_lt_of_le (hr.mul_lt (hr _).1 h1 (hc k).1 (hc k).2.2) (hr.mono (by exact_mod_cast h))

/-- **C34 as the code computes it, in IEEE double arithmetic**: the conversions of the 64-bit indices to `double` (inexact beyond 2^53) and the product are
rounded, in whatever way ties are resolved; still exactly `n` strictly increasing indices below `end` come out after at most `end` steps, for every `end < 2^64` and every
outcome of the generator. -/
theorem C34_no_replacement_double {rnd : Rat → Rat} (hr : Spec.Nearest rnd) (canon : Nat → Rat)
    (hc : ∀ k, Spec.IsDouble (canon k) ∧ 0 ≤ canon k ∧ canon k < 1) (n e : Nat) (hn : n ≤ e) (he : e < W64) :
    ∃ S, sampleNoRepl (lessDouble rnd) canon n e e = .ok S ∧ S.length = n ∧ S.Pairwise (· < ·) ∧ ∀ i ∈ S, i < e :=
  C34_no_replacement (lessDouble rnd) canon (lessDouble_ok hr canon hc) n e e hn he (le_refl _)

/-- Not vacuous: there is a correct rounding, and 1/2 is a `double`. -/
example : ∃ S, sampleNoRepl (lessDouble Spec.roundDouble) (fun _ => 1 / 2) 3 (2 ^ 63 + 1) (2 ^ 63 + 1) = .ok S ∧ S.length = 3 ∧ S.Pairwise (· < ·) ∧
    ∀ i ∈ S, i < 2 ^ 63 + 1 :=
  C34_no_replacement_double Spec.roundDouble_nearest _ (fun _ => ⟨⟨1, -1, by norm_num, by norm_num, by norm_num⟩, by norm_num, by norm_num⟩) _ _
    (by norm_num) (by decide)

/-- Asking for more indices than there are is not rejected in any build: asked for `end + 1`, the function returns `0, ..., end`,
whatever the generator yields, and `end` is out of range. -/
theorem C34_too_many (canon : Nat → Rat) (hc : ∀ k, 0 ≤ canon k ∧ canon k < 1) (e : Nat) (he : e < W64) :
    sampleNoRepl lessExact canon (e + 1) e (e + 1) = .ok (List.range (e + 1)) := by
  have key : ∀ fuel t : Nat, t + fuel = e + 1 → selLoop lessExact canon (e + 1) e fuel t t t = .ok ((List.range' t fuel)) := by
    intro fuel
    induction fuel with
    | zero => intro t ht; rw [selLoop, if_neg (by omega)]; rfl
    | succ fuel ih =>
      intro t ht
      have htrue : lessExact (e - t) (canon t) (e + 1 - t) = true := by
        rcases Nat.eq_zero_or_pos (e - t) with h0 | h0
        · simp only [lessExact, h0, Nat.cast_zero, zero_mul, decide_eq_true_eq]
          exact Nat.cast_pos.2 (by omega)
        · exact lessExact_ok canon hc _ _ _ h0 (by omega)
      rw [selLoop, if_pos (by omega), rem_eq (by omega) he, if_pos htrue]
      rcases Nat.lt_or_ge t e with hte | hte
      · rw [succ_mod hte he, ih (t + 1) (by omega)]; rfl
      · have : fuel = 0 := by omega
        subst this
        rw [selLoop, if_neg (by omega)]; rfl
  have := key (e + 1) 0 (by omega)
  rw [List.range_eq_range']
  exact this

/-- If the generator may return 1 (as some implementations of `generate_canonical` could before LWG 2524 was settled), the index
`end` can come out. -/
theorem C34_canonical_one : sampleNoRepl lessExact (fun _ => 1) 1 1 5 = .ok [1] := by decide +kernel

/-- With replacement, for `end > 0`: `n` indices less than `end`, whatever a correct `uniform_int_distribution` yields. -/
theorem C34_with_replacement (draw : Nat → Nat → Nat → Nat) (hd : ∀ k a b, a ≤ b → a ≤ draw k a b ∧ draw k a b ≤ b) (n e : Nat)
    (h0 : 0 < e) (he : e < W64) : (sampleRepl draw n e).length = n ∧ ∀ i ∈ sampleRepl draw n e, i < e := by
  have hm : (e + (W64 - 1)) % W64 = e - 1 := by
    have : e + (W64 - 1) = (e - 1) + W64 := by unfold W64 at *; omega
    rw [this, Nat.add_mod_right, Nat.mod_eq_of_lt (by omega)]
  refine ⟨by simp [sampleRepl], ?_⟩
  intro i hi
  simp only [sampleRepl, List.mem_map, hm] at hi
  obtain ⟨k, -, rfl⟩ := hi
  have := hd k 0 (e - 1) (by omega)
  omega

/-- With replacement from an empty range nothing is rejected: the bound wraps, and every 64-bit number may be drawn. -/
theorem C34_with_replacement_empty (n : Nat) (x : Nat) (hx : x < W64) :
    ∃ draw : Nat → Nat → Nat → Nat, (∀ k a b, a ≤ b → a ≤ draw k a b ∧ draw k a b ≤ b) ∧ sampleRepl draw n 0 = List.replicate n x := by
  refine ⟨fun _ a b => if a ≤ x ∧ x ≤ b then x else a, ?_, ?_⟩
  · intro k a b hab
    dsimp only
    split <;> omega
  · have hm : (0 + (W64 - 1)) % W64 = W64 - 1 := by decide
    simp only [sampleRepl, hm]
    rw [if_pos ⟨by omega, by omega⟩]
    simp

example : sampleNoRepl lessExact (fun k => if k = 0 then 9 / 10 else 1 / 3) 2 4 4 = .ok [1, 2] := by decide +kernel

/-! Every outcome is equally likely (exact arithmetic): the generator values leading to a given outcome `S` are those in a box whose
volume is `1 / (end choose n)`. -/

/-- The probability with which index `u` has to be taken, given that the indices of `S` from `u` on are still to come. -/
def pTake (S : List Nat) (e u : Nat) : Rat := (S.countP (fun i => decide (u ≤ i)) : Rat) / ((e : Rat) - u)

/-- The interval of generator values at index `u`. -/
def box (S : List Nat) (e u : Nat) : Rat × Rat := if u ∈ S then (0, pTake S e u) else (pTake S e u, 1)

theorem volume (e : Nat) : ∀ (r t : Nat) (S : List Nat), t + r = e → S.Pairwise (· < ·) → (∀ i ∈ S, i < e) →
    ((List.range' t r).map fun u => (box S e u).2 - (box S e u).1).prod * (r.choose (S.countP (fun i => decide (t ≤ i))) : Rat) = 1 ∧
    S.countP (fun i => decide (t ≤ i)) ≤ r := by
  intro r
  induction r with
  | zero =>
    intro t S ht hs hi
    have h0 : S.countP (fun i => decide (t ≤ i)) = 0 := by
      rw [List.countP_eq_zero]
      intro a ha
      have := hi a ha
      simp; omega
    simp [h0]
  | succ r ih =>
    intro t S ht hs hi
    obtain ⟨ih1, ih2⟩ := ih (t + 1) S (by omega) hs hi
    have hcount : S.countP (fun i => decide (t ≤ i)) = S.countP (fun i => decide (t + 1 ≤ i)) + if t ∈ S then 1 else 0 := by
      clear ih ih1 ih2 hi
      induction S with
      | nil => simp
      | cons a S ihS =>
        obtain ⟨h1, h2⟩ := List.pairwise_cons.1 hs
        have := ihS h2
        rw [List.countP_cons, List.countP_cons, this]
        by_cases hat : t = a
        · subst hat
          have : t ∉ S := fun hm => by have := h1 t hm; omega
          simp [this]
        · have e1 : (t ∈ a :: S) ↔ t ∈ S := by simp [hat]
          have e2 : decide (t ≤ a) = decide (t + 1 ≤ a) := by congr 1; apply propext; constructor <;> omega
          simp only [e1, e2]
          omega
    generalize hK : S.countP (fun i => decide (t + 1 ≤ i)) = K at *
    have hr : ((e : Rat) - t) = (r : Rat) + 1 := by
      have : (e : Rat) = (t : Rat) + ((r : Rat) + 1) := by rw [← ht]; push_cast; ring
      rw [this]; ring
    have hr0 : ((r : Rat) + 1) ≠ 0 := by positivity
    rw [List.range'_succ, List.map_cons, List.prod_cons]
    by_cases hm : t ∈ S
    · have hp : (box S e t).2 - (box S e t).1 = ((K : Rat) + 1) / ((r : Rat) + 1) := by
        simp [box, hm, pTake, hcount, hr]
      rw [hp, hcount, if_pos hm]
      refine ⟨?_, by omega⟩
      have hch : ((r.choose K : Nat) : Rat) * ((r : Rat) + 1) = ((r + 1).choose (K + 1) : Rat) * ((K : Rat) + 1) := by
        have := Nat.add_one_mul_choose_eq r K
        have h2 : (((r + 1) * r.choose K : Nat) : Rat) = ((r + 1).choose (K + 1) * (K + 1) : Nat) := by rw [this]
        push_cast at h2
        linarith
      have : ((K : Rat) + 1) / ((r : Rat) + 1) * ((List.range' (t + 1) r).map fun u => (box S e u).2 - (box S e u).1).prod * ((r + 1).choose (K + 1) : Rat) =
          ((List.range' (t + 1) r).map fun u => (box S e u).2 - (box S e u).1).prod * (r.choose K : Rat) := by
        field_simp
        linear_combination (-((List.range' (t + 1) r).map fun u => (box S e u).2 - (box S e u).1).prod) * hch
      rw [this]
      exact ih1
    · have hp : (box S e t).2 - (box S e t).1 = ((r : Rat) + 1 - K) / ((r : Rat) + 1) := by
        simp only [box, hm, if_false, pTake, hcount, Nat.add_zero, hr]
        field_simp
      have hcount' : S.countP (fun i => decide (t ≤ i)) = K := by rw [hcount, if_neg hm]; rfl
      rw [hp, hcount']
      refine ⟨?_, by omega⟩
      have hch : ((r.choose K : Nat) : Rat) * ((r : Rat) + 1) = ((r + 1).choose K : Rat) * ((r : Rat) + 1 - K) := by
        have := Nat.choose_mul_succ_eq r K
        have h2 : ((r.choose K * (r + 1) : Nat) : Rat) = ((r + 1).choose K * (r + 1 - K) : Nat) := by rw [this]
        rw [Nat.cast_mul, Nat.cast_mul, Nat.cast_sub (by omega)] at h2
        push_cast at h2
        exact h2
      have : ((r : Rat) + 1 - K) / ((r : Rat) + 1) * ((List.range' (t + 1) r).map fun u => (box S e u).2 - (box S e u).1).prod * ((r + 1).choose K : Rat) =
          ((List.range' (t + 1) r).map fun u => (box S e u).2 - (box S e u).1).prod * (r.choose K : Rat) := by
        field_simp
        linear_combination (-((List.range' (t + 1) r).map fun u => (box S e u).2 - (box S e u).1).prod) * hch
      rw [this]
      exact ih1

/-- The outcome is `S` exactly when the generator values lie in the box of `S`. -/
theorem outcome_iff (canon : Nat → Rat) (hc : ∀ k, 0 ≤ canon k ∧ canon k < 1) (n e : Nat) (he : e < W64) (S : List Nat) :
    ∀ (r t m : Nat) (S' : List Nat), t + r = e → m + S'.length = n → S'.Pairwise (· < ·) → (∀ i ∈ S', t ≤ i ∧ i < e) →
      (∀ u, t ≤ u → (u ∈ S ↔ u ∈ S') ∧ S.countP (fun i => decide (u ≤ i)) = S'.countP (fun i => decide (u ≤ i))) →
      (selLoop lessExact canon n e r t t m = .ok S' ↔ ∀ u, t ≤ u → u < e → (box S e u).1 ≤ canon u ∧ canon u < (box S e u).2) := by
  intro r
  induction r with
  | zero =>
    intro t m S' ht hm hs hi hS
    have : S' = [] := by
      apply List.eq_nil_iff_forall_not_mem.2
      intro a ha
      have := hi a ha
      omega
    subst this
    constructor
    · intro _ u hu1 hu2; omega
    · intro _; rw [selLoop, if_neg (by simp at hm; omega)]
  | succ r ih =>
    intro t m S' ht hm hs hi hS
    have hte : t < e := by omega
    have hrem : ((e - t : Nat) : Rat) = (e : Rat) - t := Nat.cast_sub (by omega)
    have hrpos : (0 : Rat) < (e : Rat) - t := by rw [← hrem]; exact Nat.cast_pos.2 (by omega)
    have hcount : S.countP (fun i => decide (t ≤ i)) = S'.length := by
      rw [(hS t (le_refl _)).2, List.countP_eq_length]
      intro a ha
      simpa using (hi a ha).1
    have hp : pTake S e t = (S'.length : Rat) / ((e : Rat) - t) := by unfold pTake; rw [hcount]
    have hneed : n - m = S'.length := by omega
    have hlt : lessExact (e - t) (canon t) (n - m) = true ↔ canon t < pTake S e t := by
      simp only [lessExact, decide_eq_true_eq]
      rw [hneed, hp, lt_div_iff₀ hrpos, hrem, mul_comm]
    have hsplit : (∀ u, t ≤ u → u < e → (box S e u).1 ≤ canon u ∧ canon u < (box S e u).2) ↔
        ((box S e t).1 ≤ canon t ∧ canon t < (box S e t).2) ∧ ∀ u, t + 1 ≤ u → u < e → (box S e u).1 ≤ canon u ∧ canon u < (box S e u).2 := by
      constructor
      · intro h; exact ⟨h t (le_refl _) hte, fun u hu1 hu2 => h u (by omega) hu2⟩
      · rintro ⟨h1, h2⟩ u hu1 hu2
        rcases Nat.eq_or_lt_of_le hu1 with rfl | h
        · exact h1
        · exact h2 u h hu2
    rw [hsplit]
    by_cases hmn : m < n
    · rw [selLoop, if_pos hmn, rem_eq (by omega) he, succ_mod hte he]
      by_cases hin : t ∈ S
      · -- t is taken
        have hin' := (hS t (le_refl _)).1.1 hin
        obtain ⟨a, S'', rfl⟩ := List.exists_cons_of_ne_nil (List.ne_nil_of_mem hin')
        obtain ⟨hs1, hs2⟩ := List.pairwise_cons.1 hs
        have hat : a = t := by
          rcases List.mem_cons.1 hin' with h | h
          · exact h.symm
          · have h1 := hs1 t h; have h2 := (hi a List.mem_cons_self).1; omega
        subst hat
        have ih' := ih (a + 1) (m + 1) S'' (by omega) (by simp at hm; omega) hs2
          (fun i hi' => ⟨hs1 i hi', (hi i (List.mem_cons_of_mem _ hi')).2⟩)
          (fun u hu => by
            obtain ⟨q1, q2⟩ := hS u (by omega)
            refine ⟨?_, ?_⟩
            · rw [q1, List.mem_cons]
              constructor
              · rintro (h | h)
                · omega
                · exact h
              · exact .inr
            · rw [q2, List.countP_cons, if_neg (by simp; omega), Nat.add_zero])
        have hb : ((box S e a).1 ≤ canon a ∧ canon a < (box S e a).2) ↔ canon a < pTake S e a := by
          simp only [box, hin, if_true]
          exact ⟨fun h => h.2, fun h => ⟨(hc a).1, h⟩⟩
        rw [hb, ← ih', ← hlt]
        cases hl : lessExact (e - a) (canon a) (n - m) with
        | true =>
          rw [if_pos rfl]
          cases hsel : selLoop lessExact canon n e r (a + 1) (a + 1) (m + 1) with
          | ok L => simp
          | error x => simp
        | false =>
          rw [if_neg (by simp)]
          simp only [Bool.false_eq_true, false_and, iff_false]
          intro hsel
          have h2 : ∀ (fuel k t m : Nat), t + fuel ≤ e → ∀ L, selLoop lessExact canon n e fuel k t m = .ok L → ∀ i ∈ L, t ≤ i := by
            intro fuel
            induction fuel with
            | zero =>
              intro k t m _ L hL i hi
              rw [selLoop] at hL
              split at hL
              · cases hL
              · injection hL with hL; subst hL; cases hi
            | succ fuel ihf =>
              intro k t m hb L hL i hi
              rw [selLoop, succ_mod (e := e) (by omega) he] at hL
              split at hL
              · split at hL
                · cases hr : selLoop lessExact canon n e fuel (k + 1) (t + 1) (m + 1) with
                  | error x => rw [hr] at hL; cases hL
                  | ok L' =>
                    rw [hr] at hL
                    injection hL with hL
                    subst hL
                    rcases List.mem_cons.1 hi with rfl | hi
                    · exact le_refl _
                    · have := ihf (k + 1) (t + 1) (m + 1) (by omega) L' hr i hi
                      omega
                · have := ihf (k + 1) (t + 1) m (by omega) L hL i hi
                  omega
              · injection hL with hL; subst hL; cases hi
          have := h2 r (a + 1) (a + 1) m (by omega) _ hsel a List.mem_cons_self
          omega
      · -- t is not taken
        have hin' : t ∉ S' := fun h => hin ((hS t (le_refl _)).1.2 h)
        have ih' := ih (t + 1) m S' (by omega) hm hs
          (fun i hi' => ⟨by
            have h1 := (hi i hi').1
            have : i ≠ t := fun h => hin' (h ▸ hi')
            omega, (hi i hi').2⟩)
          (fun u hu => hS u (by omega))
        have hb : ((box S e t).1 ≤ canon t ∧ canon t < (box S e t).2) ↔ ¬ canon t < pTake S e t := by
          simp only [box, hin, if_false]
          exact ⟨fun h => not_lt.2 h.1, fun h => ⟨not_lt.1 h, (hc t).2⟩⟩
        rw [hb, ← ih', ← hlt]
        cases hl : lessExact (e - t) (canon t) (n - m) with
        | true =>
          rw [if_pos rfl]
          simp only [not_true_eq_false, false_and, iff_false]
          cases hsel : selLoop lessExact canon n e r (t + 1) (t + 1) (m + 1) with
          | ok L =>
            intro h
            injection h with h
            exact hin' (h ▸ List.mem_cons_self)
          | error x => intro h; cases h
        | false => simp
    · have hS0 : S' = [] := List.eq_nil_of_length_eq_zero (by omega)
      subst hS0
      rw [selLoop, if_neg hmn]
      have hall : ∀ u, t ≤ u → u < e → (box S e u).1 ≤ canon u ∧ canon u < (box S e u).2 := by
        intro u hu _
        obtain ⟨q1, q2⟩ := hS u hu
        have hnot : u ∉ S := fun h => by simpa using q1.1 h
        simp only [box, hnot, if_false, pTake, q2, List.countP_nil, Nat.cast_zero, zero_div]
        exact hc u
      simp only [true_iff]
      exact hsplit.1 hall

/-- Every set `S` of `n` indices below `end` (in increasing order) is returned exactly for the generator values in a box of volume
`1 / (end choose n)`: with independent uniform generator values all outcomes are equally likely. -/
theorem C34_uniform (n e : Nat) (he : e < W64) (S : List Nat) (hlen : S.length = n) (hs : S.Pairwise (· < ·)) (hi : ∀ i ∈ S, i < e) :
    ∃ lo hi : Nat → Rat,
      (∀ canon : Nat → Rat, (∀ k, 0 ≤ canon k ∧ canon k < 1) →
        (sampleNoRepl lessExact canon n e e = .ok S ↔ ∀ u, u < e → lo u ≤ canon u ∧ canon u < hi u)) ∧
      (∀ u, u < e → 0 ≤ lo u ∧ lo u ≤ hi u ∧ hi u ≤ 1) ∧
      ((List.range e).map fun u => hi u - lo u).prod = 1 / (e.choose n : Rat) := by
  refine ⟨fun u => (box S e u).1, fun u => (box S e u).2, ?_, ?_, ?_⟩
  · intro canon hc
    have := outcome_iff canon hc n e he S e 0 0 S (by omega) (by omega) hs (fun i h => ⟨by omega, hi i h⟩) (fun u _ => ⟨Iff.rfl, rfl⟩)
    unfold sampleNoRepl
    rw [this]
    exact ⟨fun h u hu => h u (by omega) hu, fun h u _ hu => h u hu⟩
  · intro u hu
    have hb := (volume e (e - u) u S (by omega) hs hi).2
    have hpos : (0 : Rat) < (e : Rat) - u := by
      rw [← Nat.cast_sub (by omega)]; exact Nat.cast_pos.2 (by omega)
    have h0 : 0 ≤ pTake S e u := div_nonneg (Nat.cast_nonneg _) (le_of_lt hpos)
    have h1 : pTake S e u ≤ 1 := by
      unfold pTake
      rw [div_le_one hpos, ← Nat.cast_sub (by omega)]
      exact Nat.cast_le.2 hb
    unfold box
    beta_reduce
    split
    · exact ⟨le_refl _, h0, h1⟩
    · exact ⟨h0, h1, le_refl _⟩
  · have := (volume e e 0 S (by omega) hs hi).1
    have hc0 : S.countP (fun i => decide (0 ≤ i)) = n := by
      rw [← hlen, List.countP_eq_length]; simp
    rw [hc0, ← List.range_eq_range'] at this
    have hne : (e.choose n : Rat) ≠ 0 := fun h => by rw [h, mul_zero] at this; exact zero_ne_one this
    rw [eq_div_iff hne]
    exact this

/-- Non-vacuous: one of the six pairs out of four. -/
example : ∃ lo hi : Nat → Rat, ((List.range 4).map fun u => hi u - lo u).prod = 1 / 6 ∧
    (∀ canon : Nat → Rat, (∀ k, 0 ≤ canon k ∧ canon k < 1) →
      (sampleNoRepl lessExact canon 2 4 4 = .ok [1, 2] ↔ ∀ u, u < 4 → lo u ≤ canon u ∧ canon u < hi u)) := by
  obtain ⟨lo, hi, h1, -, h3⟩ := C34_uniform 2 4 (by decide) [1, 2] rfl (by decide) (by decide)
  exact ⟨lo, hi, by rw [h3]; norm_num [Nat.choose], h1⟩

/-! ### The hypotheses hold in concrete cases -/

example := C34_no_replacement (C := Rat) lessExact (fun _ => 1 / 3)
  (by
    intro rem k need h0 h
    have h1 : (0 : Rat) < rem := by exact_mod_cast h0
    have h2 : (rem : Rat) ≤ need := by exact_mod_cast h
    simp only [lessExact, decide_eq_true_eq]
    linarith) 2 4 4 (by decide) (by decide) (by decide)
example := C34_no_replacement_exact (fun _ => 1 / 3) (by intro k; norm_num) 2 4 (by decide) (by decide)
example := C34_too_many (fun _ => 1 / 3) (by intro k; norm_num) 4 (by decide)
example := C34_with_replacement (fun _ a _ => a) (by intro k a b h; exact ⟨Nat.le_refl _, h⟩) 3 5 (by decide) (by decide)

end Jules.Props

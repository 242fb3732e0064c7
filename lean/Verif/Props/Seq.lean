import Verif.Model.Cat
import Mathlib.Tactic.Linarith
import Mathlib.Tactic.Positivity
import Mathlib.Tactic.Ring
import Mathlib.Algebra.Order.Ring.Int
/-
C28: seq.
-/
namespace Jules.Props

/-! ### C28 -/

theorem seqLoop_length (step : Int) : ∀ n i, (seqLoop step n i).length = n
  | 0, _ => rfl
  | n + 1, i => by simp [seqLoop, seqLoop_length step n]

/-- The elements of the loop, as long as they stay in the unsigned range. -/
theorem seqLoop_get {step : Int} : ∀ {n i : Nat} {k : Nat}, k < n → i < W64 → (∀ j : Nat, j < n → 0 ≤ (i : Int) + j * step ∧ (i : Int) + j * step < W64) →
    ∃ x : Nat, (seqLoop step n i)[k]? = some x ∧ (x : Int) = i + k * step
  | n + 1, i, 0, _, _, _ => ⟨i, rfl, by simp⟩
  | n + 1, i, k + 1, hk, hi, hr => by
    have h1 := hr 1 (by omega)
    simp only [Nat.cast_one, one_mul] at h1
    have he : (((i + toU64 step) % W64 : Nat) : Int) = i + step := by
      rw [Int.natCast_mod, Int.natCast_add]
      have : ((toU64 step : Nat) : Int) = step % (W64 : Int) := Int.toNat_of_nonneg (Int.emod_nonneg _ (by decide))
      rw [this, Int.add_emod_emod]
      exact Int.emod_eq_of_lt h1.1 h1.2
    obtain ⟨x, hx1, hx2⟩ := seqLoop_get (step := step) (n := n) (i := (i + toU64 step) % W64) (k := k) (by omega)
      (Nat.mod_lt _ (by decide)) (by
        intro j hj
        have := hr (j + 1) (by omega)
        rw [he]
        have e : ((j + 1 : Nat) : Int) * step = step + j * step := by push_cast; ring
        rw [e] at this
        constructor <;> omega)
    exact ⟨x, hx1, by rw [hx2, he]; push_cast; ring⟩

theorem toSigned_small {n : Nat} (h : n < 2 ^ 63) : toSigned n = n := by
  have : n % W64 = n := Nat.mod_eq_of_lt (by unfold W64; omega)
  rw [toSigned, this, if_pos h]

/-- The number of elements of `seq` (specification): how many multiples of `|step|` fit between the ends, plus one. -/
def seqCount (start stop : Nat) (step : Int) : Nat := ((stop : Int) - start).natAbs / step.natAbs + 1

/-- `step` leads from `start` to `stop`. -/
def Toward (start stop : Nat) (step : Int) : Prop := step ≠ 0 ∧ (start < stop → 0 < step) ∧ (stop < start → step < 0)

theorem tdiv_eq_count {start stop : Nat} {step : Int} (hd : Toward start stop step) :
    ((stop : Int) - start).tdiv step + 1 = seqCount start stop step := by
  unfold seqCount
  obtain ⟨h0, h1, h2⟩ := hd
  rcases Nat.lt_trichotomy start stop with h | h | h
  · have hs := h1 h
    rw [Int.tdiv_eq_ediv_of_nonneg (by omega)]
    push_cast
    rw [abs_of_pos hs, abs_of_pos (by omega)]
  · subst h; simp
  · have hs := h2 h
    have : ((stop : Int) - start).tdiv step = (-((stop : Int) - start)).tdiv (-step) := by rw [Int.neg_tdiv, Int.tdiv_neg, neg_neg]
    rw [this, Int.tdiv_eq_ediv_of_nonneg (by omega)]
    push_cast
    rw [abs_of_neg hs, abs_of_neg (by omega)]

theorem between_iff {start stop : Nat} {step : Int} (hd : Toward start stop step) (i : Nat) :
    (min (start : Int) stop ≤ start + i * step ∧ start + i * step ≤ max (start : Int) stop) ↔ i < seqCount start stop step := by
  unfold seqCount
  obtain ⟨h0, h1, h2⟩ := hd
  have hpos : 0 < step.natAbs := by omega
  rw [Nat.lt_succ_iff, Nat.le_div_iff_mul_le hpos]
  rcases Nat.lt_trichotomy start stop with h | h | h
  · have hs := h1 h
    have e1 : ((step.natAbs : Nat) : Int) = step := by omega
    have e2 : ((i * step.natAbs : Nat) : Int) = i * step := by rw [Nat.cast_mul, e1]
    have e3 : 0 ≤ (i : Int) * step := by positivity
    omega
  · subst h
    simp only [min_self, max_self, sub_self, Int.natAbs_zero, Nat.le_zero, Nat.mul_eq_zero]
    constructor
    · intro ⟨a, b⟩
      have : (i : Int) * step = 0 := by omega
      rcases mul_eq_zero.1 this with h | h
      · left; exact_mod_cast h
      · exact (h0 h).elim
    · rintro (h | h)
      · subst h; simp
      · omega
  · have hs := h2 h
    have e1 : ((step.natAbs : Nat) : Int) = -step := by omega
    have e2 : ((i * step.natAbs : Nat) : Int) = -(i * step) := by rw [Nat.cast_mul, e1]; ring
    have e3 : 0 ≤ -((i : Int) * step) := by
      have : 0 ≤ (i : Int) * (-step) := mul_nonneg (by positivity) (by omega)
      linarith [mul_neg (i : Int) step]
    omega

/-- **C28.** For bounds below 2^63 and a non-zero step leading from `start` to `stop`, `seq(start, stop, step)` is the list of exactly
the numbers `start + i*step` (`i = 0, 1, …`) that lie between `start` and `stop` inclusive, in that order; it has
`⌊|stop - start| / |step|⌋ + 1` elements. (If there are more than a vector can hold, `std::length_error` is
thrown; exactly 2^63 elements are a signed overflow, see `C28_overflow`.) -/
theorem C28_seq {chk : Bool} {start stop : Nat} {step : Int} (hstart : start < 2 ^ 63) (hstop : stop < 2 ^ 63)
    (hd : Toward start stop step) :
    (seqCount start stop step < 2 ^ 60 → ∃ l, seqV chk start stop step = .ok l ∧ l.length = seqCount start stop step ∧
      ∀ (i x : Nat), l[i]? = some x ↔ (x : Int) = start + i * step ∧ min start stop ≤ x ∧ x ≤ max start stop) ∧
    (2 ^ 60 ≤ seqCount start stop step → seqCount start stop step < 2 ^ 63 → seqV chk start stop step = .error (.exc .logic)) := by
  by_cases hlt : seqCount start stop step < 2 ^ 63
  swap
  · constructor
    · intro h; exact (hlt (by omega)).elim
    · intro _ h; exact (hlt h).elim
  have hq := tdiv_eq_count hd
  have hq0 : ((stop : Int) - start).tdiv step = (seqCount start stop step : Int) - 1 := by omega
  have e1 : (dbg chk (step != 0) : Res Unit) = .ok () := by
    have : (step != 0) = true := by simpa using hd.1
    simp [this]
  have e2 : (dbg chk (decide (start ≤ stop) || decide (step < 0)) : Res Unit) = .ok () := by
    have : (decide (start ≤ stop) || decide (step < 0)) = true := by
      by_cases h : start ≤ stop
      · simp [h]
      · simp [hd.2.2 (by omega)]
    simp [this]
  have e3 : (dbg chk (decide (start ≥ stop) || decide (step > 0)) : Res Unit) = .ok () := by
    have : (decide (start ≥ stop) || decide (step > 0)) = true := by
      by_cases h : start ≥ stop
      · simp [h]
      · simp [hd.2.1 (by omega)]
    simp [this]
  have e4 : i64 (toSigned stop - toSigned start) = .ok ((stop : Int) - start) := by
    rw [toSigned_small hstart, toSigned_small hstop, i64, fitsI64]
    simp; omega
  have e5 : i64 (((stop : Int) - start).tdiv step) = .ok ((seqCount start stop step : Int) - 1) := by
    rw [hq0, i64, fitsI64]; simp; omega
  have e6 : i64 ((seqCount start stop step : Int) - 1 + 1) = .ok (seqCount start stop step : Int) := by
    rw [Int.sub_add_cancel, i64, fitsI64]; simp; omega
  have e7 : toU64 (seqCount start stop step : Int) = seqCount start stop step := by
    unfold toU64
    rw [Int.emod_eq_of_lt (by omega) (by unfold W64; omega)]; simp
  have hval : seqV chk start stop step = if seqCount start stop step > vecMax then .error (.exc .logic)
      else .ok (seqLoop step (seqCount start stop step) start) := by
    simp only [seqV, e1, e2, e3, e4, e5, e6, e7, res_ok_bind, if_neg hd.1]
  have hmax : vecMax = 2 ^ 60 - 1 := rfl
  constructor
  · intro hle
    refine ⟨_, by rw [hval, if_neg (by omega)], seqLoop_length _ _ _, ?_⟩
    have hb : ∀ j : Nat, j < seqCount start stop step → 0 ≤ (start : Int) + j * step ∧ (start : Int) + j * step < W64 := by
      intro j hj
      have := (between_iff hd j).2 hj
      unfold W64; omega
    intro i x
    by_cases hi : i < seqCount start stop step
    · obtain ⟨y, hy1, hy2⟩ := seqLoop_get hi (by unfold W64; omega) hb
      rw [hy1]
      have hbt := (between_iff hd i).2 hi
      constructor
      · intro he
        obtain rfl := Option.some.inj he
        exact ⟨hy2, by omega, by omega⟩
      · rintro ⟨h1, _⟩
        have : x = y := by omega
        rw [this]
    · rw [List.getElem?_eq_none (by rw [seqLoop_length]; omega)]
      constructor
      · intro h; cases h
      · rintro ⟨h1, h2, h3⟩
        exact (hi ((between_iff hd i).1 (by omega))).elim
  · intro hgt _
    rw [hval, if_pos (by omega)]

/-- **C28.** In checked builds a zero step, or one that leads away from `stop`, is reported. -/
theorem C28_reject {start stop : Nat} {step : Int} (hd : ¬ Toward start stop step) :
    seqV true start stop step = .error .assert := by
  by_cases h0 : step = 0
  · simp [seqV, h0, dbg]
  · rcases Nat.lt_trichotomy start stop with h | h | h
    · have : ¬ 0 < step := fun hs => hd ⟨h0, fun _ => hs, fun h' => by omega⟩
      have hneg : step < 0 := by omega
      have h1 : ¬ stop ≤ start := by omega
      simp [seqV, h0, dbg, hneg, h1, this]
    · exact (hd ⟨h0, fun h' => by omega, fun h' => by omega⟩).elim
    · have : ¬ step < 0 := fun hs => hd ⟨h0, fun h' => by omega, fun _ => hs⟩
      have h1 : ¬ start ≤ stop := by omega
      simp [seqV, h0, dbg, this, h1]

/-- **C28.** Without checks a zero step is undefined behaviour (division by zero). -/
theorem C28_zero_step_unchecked {start stop : Nat} : seqV false start stop 0 = .error .ub := by
  unfold seqV i64
  split <;> simp

/-- **C28.** The only bounds below 2^63 with an undefined result: 2^63 elements. -/
theorem C28_overflow : seqV true 0 (2 ^ 63 - 1) 1 = .error .ub := by decide +kernel

/-- **C28.** With bounds from 2^63 on, the sequence is that of the bounds as signed numbers: from 0 down to `-2^63`. -/
theorem C28_wrapped : seqV false 0 (2 ^ 63) (-2 ^ 62) = .ok [0, 2 ^ 64 - 2 ^ 62, 2 ^ 63] := by decide +kernel

/-- **C28.** `seq(0, n - 1)` with `n = 0` (so that `n - 1` is the largest index) is empty. -/
theorem C28_empty : seqV true 0 (2 ^ 64 - 1) 1 = .ok [] := by decide +kernel

example : seqV true 2 11 3 = .ok [2, 5, 8, 11] := by decide +kernel
example : seqV true 10 1 (-4) = .ok [10, 6, 2] := by decide +kernel
example : Toward 10 1 (-4) := by unfold Toward; omega
example : seqV true 7 7 (-4) = .ok [7] := by decide +kernel

example := C28_seq (chk := true) (start := 10) (stop := 1) (step := -4) (by decide) (by decide) (by unfold Toward; omega)
example := C28_reject (start := 10) (stop := 1) (step := 4) (by unfold Toward; omega)

end Jules.Props

import Verif.Props.Column
/-
C52: columns of doubles converted to integral types, exactly.
-/
namespace Jules.Props

/-- The integral part of a finite double that is not negative. -/
theorem truncQ_nonneg {q : Rat} (h : 0 ≤ q) : truncQ q = ⌊q⌋ := by unfold truncQ; rw [if_neg (not_lt.2 h)]

/-- **C52** (doubles to `index_t`). Negative values (and minus infinity) are refused with `std::invalid_argument`, also those above -1; minus zero is 0;
values in `[0, 2^64)` give their integral part; everything else - larger values, infinity, NaN - is undefined. -/
theorem C52_double_to_index (fp : Fp) : ∃ f, convFn (julesRules fp) JTy.numeric JTy.index = some f ∧
    (∀ q : Rat, q < 0 → f (Dbl.fin q) = .error (.exc .invalidArgument)) ∧ f (Dbl.inf true) = .error (.exc .invalidArgument) ∧
    (∀ q : Rat, 0 ≤ q → q < 2 ^ 64 → ∃ n : UInt64, f (Dbl.fin q) = .ok n ∧ (n.toNat : Rat) ≤ q ∧ q < n.toNat + 1) ∧ f Dbl.negZero = .ok (0 : UInt64) ∧
    (∀ q : Rat, 2 ^ 64 ≤ q → f (Dbl.fin q) = .error .ub) ∧ f (Dbl.inf false) = .error .ub ∧ ∀ s, f (Dbl.nan s) = .error .ub := by
  refine ⟨_, rfl, ?_, rfl, ?_, rfl, ?_, rfl, fun s => rfl⟩
  · intro q h
    show (if Dbl.isNeg (.fin q) then _ else _) = _
    rw [if_pos (by simpa [Dbl.isNeg] using h)]
  · intro q h0 h1
    have hf0 : (0 : Int) ≤ ⌊q⌋ := Int.floor_nonneg.2 h0
    have hf1 : ⌊q⌋ < 2 ^ 64 := by rw [Int.floor_lt]; exact_mod_cast h1
    refine ⟨UInt64.ofNat ⌊q⌋.toNat, ?_, ?_⟩
    · show (if Dbl.isNeg (.fin q) then _ else _) = _
      rw [if_neg (by simpa [Dbl.isNeg] using h0)]
      simp only [dblToInt, truncQ_nonneg h0, hf0, hf1, and_self, if_true, res_ok_bind]
    · have e : (UInt64.ofNat ⌊q⌋.toNat).toNat = ⌊q⌋.toNat := by
        rw [UInt64.toNat_ofNat']; exact Nat.mod_eq_of_lt (by omega)
      have e2 : ((UInt64.ofNat ⌊q⌋.toNat).toNat : Rat) = (⌊q⌋ : Rat) := by
        rw [e]; exact_mod_cast Int.toNat_of_nonneg hf0
      rw [e2]
      exact ⟨Int.floor_le q, Int.lt_floor_add_one q⟩
  · intro q h
    have h0 : 0 ≤ q := le_trans (by norm_num) h
    have hf1 : ¬ ⌊q⌋ < 2 ^ 64 := by rw [Int.floor_lt, not_lt]; exact_mod_cast h
    show (if Dbl.isNeg (.fin q) then _ else _) = _
    rw [if_neg (by simpa [Dbl.isNeg] using h0)]
    simp only [dblToInt, truncQ_nonneg h0, hf1, and_false, if_false]
    rfl

/-- **C52** (doubles to unsigned integers): likewise, with 2^32 in place of 2^64. -/
theorem C52_double_to_unsigned (fp : Fp) : ∃ f, convFn (julesRules fp) JTy.numeric JTy.uinteger = some f ∧
    (∀ q : Rat, q < 0 → f (Dbl.fin q) = .error (.exc .invalidArgument)) ∧ f (Dbl.inf true) = .error (.exc .invalidArgument) ∧
    (∀ q : Rat, 0 ≤ q → q < 2 ^ 32 → ∃ n : UInt32, f (Dbl.fin q) = .ok n ∧ (n.toNat : Rat) ≤ q ∧ q < n.toNat + 1) ∧ f Dbl.negZero = .ok (0 : UInt32) ∧
    (∀ q : Rat, 2 ^ 32 ≤ q → f (Dbl.fin q) = .error .ub) ∧ f (Dbl.inf false) = .error .ub ∧ ∀ s, f (Dbl.nan s) = .error .ub := by
  refine ⟨_, rfl, ?_, rfl, ?_, rfl, ?_, rfl, fun s => rfl⟩
  · intro q h
    show (if Dbl.isNeg (.fin q) then _ else _) = _
    rw [if_pos (by simpa [Dbl.isNeg] using h)]
  · intro q h0 h1
    have hf0 : (0 : Int) ≤ ⌊q⌋ := Int.floor_nonneg.2 h0
    have hf1 : ⌊q⌋ < 2 ^ 32 := by rw [Int.floor_lt]; exact_mod_cast h1
    refine ⟨UInt32.ofNat ⌊q⌋.toNat, ?_, ?_⟩
    · show (if Dbl.isNeg (.fin q) then _ else _) = _
      rw [if_neg (by simpa [Dbl.isNeg] using h0)]
      simp only [dblToInt, truncQ_nonneg h0, hf0, hf1, and_self, if_true, res_ok_bind]
    · have e : (UInt32.ofNat ⌊q⌋.toNat).toNat = ⌊q⌋.toNat := by
        rw [UInt32.toNat_ofNat']; exact Nat.mod_eq_of_lt (by omega)
      have e2 : ((UInt32.ofNat ⌊q⌋.toNat).toNat : Rat) = (⌊q⌋ : Rat) := by
        rw [e]; exact_mod_cast Int.toNat_of_nonneg hf0
      rw [e2]
      exact ⟨Int.floor_le q, Int.lt_floor_add_one q⟩
  · intro q h
    have h0 : 0 ≤ q := le_trans (by norm_num) h
    have hf1 : ¬ ⌊q⌋ < 2 ^ 32 := by rw [Int.floor_lt, not_lt]; exact_mod_cast h
    show (if Dbl.isNeg (.fin q) then _ else _) = _
    rw [if_neg (by simpa [Dbl.isNeg] using h0)]
    simp only [dblToInt, truncQ_nonneg h0, hf1, and_false, if_false]
    rfl

/-- **C52** (doubles to signed integers): values whose integral part fits 32 bits give it (rounding towards zero); everything else is undefined, nothing is
refused. -/
theorem C52_double_to_integer (fp : Fp) : ∃ f, convFn (julesRules fp) JTy.numeric JTy.integer = some f ∧
    (∀ q : Rat, -2 ^ 31 - 1 < q → q < 2 ^ 31 → ∃ z : Int32, f (Dbl.fin q) = .ok z ∧
      (0 ≤ q → (z.toInt : Rat) ≤ q ∧ q < z.toInt + 1) ∧ (q < 0 → (z.toInt : Rat) - 1 < q ∧ q ≤ z.toInt)) ∧ f Dbl.negZero = .ok (0 : Int32) ∧
    (∀ q : Rat, q ≤ -2 ^ 31 - 1 ∨ 2 ^ 31 ≤ q → f (Dbl.fin q) = .error .ub) ∧ (∀ s, f (Dbl.inf s) = .error .ub) ∧ ∀ s, f (Dbl.nan s) = .error .ub := by
  have hneg : ∀ q : Rat, q < 0 → truncQ q = -⌊-q⌋ := fun q h => by unfold truncQ; rw [if_pos h]
  refine ⟨_, rfl, ?_, rfl, ?_, fun s => rfl, fun s => rfl⟩
  · intro q h0 h1
    have hb : -2 ^ 31 ≤ truncQ q ∧ truncQ q < 2 ^ 31 := by
      by_cases h : q < 0
      · rw [hneg q h]
        have a1 : ⌊-q⌋ < 2 ^ 31 + 1 := by rw [Int.floor_lt]; push_cast; linarith
        have a2 : (0 : Int) ≤ ⌊-q⌋ := Int.floor_nonneg.2 (by linarith)
        omega
      · have h := not_lt.1 h
        rw [truncQ_nonneg h]
        have a1 : ⌊q⌋ < 2 ^ 31 := by rw [Int.floor_lt]; exact_mod_cast h1
        have a2 : (0 : Int) ≤ ⌊q⌋ := Int.floor_nonneg.2 h
        omega
    refine ⟨Int32.ofInt (truncQ q), ?_, ?_⟩
    · show (dblToInt _ _ _ >>= _) = _
      simp only [dblToInt, if_pos hb, res_ok_bind]
    · have e : (Int32.ofInt (truncQ q)).toInt = truncQ q := Int32.toInt_ofInt_of_le (by omega) (by omega)
      rw [e]
      constructor
      · intro h; rw [truncQ_nonneg h]; exact ⟨Int.floor_le q, Int.lt_floor_add_one q⟩
      · intro h
        rw [hneg q h]
        have a1 := Int.floor_le (-q)
        have a2 := Int.lt_floor_add_one (-q)
        push_cast
        exact ⟨by linarith, by linarith⟩
  · intro q h
    have hb : ¬ (-2 ^ 31 ≤ truncQ q ∧ truncQ q < 2 ^ 31) := by
      rcases h with h | h
      · rw [hneg q (by linarith)]
        have : 2 ^ 31 + 1 ≤ ⌊-q⌋ := by rw [Int.le_floor]; push_cast; linarith
        omega
      · rw [truncQ_nonneg (by linarith)]
        have : 2 ^ 31 ≤ ⌊q⌋ := by rw [Int.le_floor]; exact_mod_cast h
        omega
    show (dblToInt _ _ _ >>= _) = _
    simp only [dblToInt, if_neg hb]
    rfl

/-- Non-vacuous: 7/2 becomes 3. -/
example : dblToInt 0 (2 ^ 64) (.fin (7 / 2)) = .ok 3 := by decide +kernel
example : dblToInt (-2 ^ 31) (2 ^ 31) (.fin (-7 / 2)) = .ok (-3) := by decide +kernel
example (fp : Fp) := (C52_double_to_index fp).choose_spec.2.2.2.1 (7 / 2) (by norm_num) (by norm_num)
example (fp : Fp) := (C52_double_to_integer fp).choose_spec.2.1 (-2 ^ 31 - 1 / 2) (by norm_num) (by norm_num)

end Jules.Props

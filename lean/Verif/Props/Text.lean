import Verif.Lemmas.Text
import Verif.Props.ReadWrite
/-
C73: doubles through text.
-/
namespace Jules.Props
open Jules Spec

/-! ### The text of a number -/

/-- The numeral that is written. -/
def numeralOf (s : Bool) (n : ℕ) : Numeral :=
  ⟨if s then some '-' else none, toStringNat (n / 10 ^ 6), some (pad6 (n % 10 ^ 6)), none⟩

theorem toStringNat_digits (n : ℕ) : ∀ c ∈ toStringNat n, c.isDigit = true := fun _ hc => Nat.isDigit_of_mem_toDigits (by decide) (by decide) hc

theorem pad6_digits (m : ℕ) : ∀ c ∈ pad6 m, c.isDigit = true := by
  intro c hc
  rcases List.mem_append.1 hc with h | h
  · rw [(List.mem_replicate.1 h).2]; decide
  · exact toStringNat_digits m c h

theorem pad6_length {m : ℕ} (h : m < 10 ^ 6) : (pad6 m).length = 6 := by
  have := (Nat.length_toDigits_le_iff (b := 10) (n := m) (k := 6) (by decide) (by decide)).2 h
  unfold pad6
  rw [List.length_append, List.length_replicate]
  unfold toStringNat
  omega

theorem pad6_value (m : ℕ) : Nat.ofDigitChars 10 (pad6 m) 0 = m := by
  unfold pad6
  rw [Nat.ofDigitChars_append, Nat.ofDigitChars_replicate_zero, Nat.mul_zero]
  exact Nat.ofDigitChars_ten_toDigits

theorem numeralOf_ok (s : Bool) (n : ℕ) : (numeralOf s n).Ok := by
  refine ⟨?_, toStringNat_digits _, ?_, Or.inl Nat.toDigits_ne_nil, by intro e s d h; cases h⟩
  · intro c hc
    unfold numeralOf at hc
    cases s <;> simp at hc
    exact Or.inl hc.symm
  · intro f hf
    cases hf
    exact pad6_digits _

theorem digits_value (n : ℕ) : Nat.ofDigitChars 10 (toStringNat (n / 10 ^ 6) ++ pad6 (n % 10 ^ 6)) 0 = n := by
  rw [Nat.ofDigitChars_append, Nat.ofDigitChars_eq_ofDigitChars_zero, pad6_value, pad6_length (Nat.mod_lt _ (by decide))]
  have : Nat.ofDigitChars 10 (toStringNat (n / 10 ^ 6)) 0 = n / 10 ^ 6 := Nat.ofDigitChars_ten_toDigits
  rw [this]
  exact Nat.div_add_mod n (10 ^ 6)

theorem numeralOf_magnitude (s : Bool) (n : ℕ) : (numeralOf s n).magnitude = (n : ℚ) / 10 ^ 6 := by
  unfold Numeral.magnitude numeralOf
  simp only [Option.getD_some, mul_one]
  rw [digits_value, pad6_length (Nat.mod_lt _ (by decide))]

theorem numeralOf_value (s : Bool) (n : ℕ) : (numeralOf s n).value = if s then -((n : ℚ) / 10 ^ 6) else (n : ℚ) / 10 ^ 6 := by
  unfold Numeral.value
  rw [numeralOf_magnitude]
  cases s <;> simp [numeralOf]

theorem numeralOf_text (s : Bool) (n : ℕ) : (numeralOf s n).text = signText s ++ (toStringNat (n / 10 ^ 6) ++ '.' :: pad6 (n % 10 ^ 6)) := by
  unfold Numeral.text numeralOf signText
  cases s <;> simp

theorem toStr_finite {x : Dbl} {q : ℚ} (h : numberOf x = some q) : dblToString x = (numeralOf (signBit x) (micro q)).text := by
  rw [numeralOf_text]
  cases x with
  | nan => cases h
  | inf => cases h
  | negZero => cases h; simp [dblToString, signBit, fixed6, micro]
  | fin p => cases h; rfl

/-- **C73** (the text). The text of a finite double: a minus sign exactly if the sign bit is set, digits, a point and six digits; the number
written is, among the numbers with six decimals, one that is nearest to the double, with an even last digit if two are. -/
theorem C73_text (L : FpLib) (x : Dbl) (q : ℚ) (hx : numberOf x = some q) :
    ∃ ip fp : List Char, (libFp L).toStr x = (if signBit x then ['-'] else []) ++ ip ++ '.' :: fp ∧ ip ≠ [] ∧ fp.length = 6 ∧
      (∀ c ∈ ip ++ fp, c.isDigit = true) ∧
      (∀ k : ℤ, |(|q| - (Nat.ofDigitChars 10 (ip ++ fp) 0 : ℚ) / 10 ^ 6)| ≤ |(|q| - k / 10 ^ 6)|) ∧
      (∀ k : ℤ, k ≠ Nat.ofDigitChars 10 (ip ++ fp) 0 → |(|q| - (Nat.ofDigitChars 10 (ip ++ fp) 0 : ℚ) / 10 ^ 6)| = |(|q| - k / 10 ^ 6)| →
        Nat.ofDigitChars 10 (ip ++ fp) 0 % 2 = 0) := by
  refine ⟨toStringNat (micro q / 10 ^ 6), pad6 (micro q % 10 ^ 6), ?_, Nat.toDigits_ne_nil, pad6_length (Nat.mod_lt _ (by decide)), ?_, ?_, ?_⟩
  · show dblToString x = _
    rw [toStr_finite hx, numeralOf_text]
    unfold signText
    simp
  · intro c hc
    rcases List.mem_append.1 hc with h | h
    · exact toStringNat_digits _ c h
    · exact pad6_digits _ c h
  all_goals rw [digits_value]
  all_goals
    have hs : ∀ k : ℚ, |(|q| - k / 10 ^ 6)| = |(|q| * 10 ^ 6 - k)| / 10 ^ 6 := by
      intro k
      rw [show |q| - k / 10 ^ 6 = (|q| * 10 ^ 6 - k) / 10 ^ 6 by ring, abs_div]
      norm_num
  · intro k
    rw [hs, hs]
    exact div_le_div_of_nonneg_right (HE_nearest (micro_HE q) k) (by norm_num)
  · intro k hk he
    rw [hs, hs, div_left_inj' (by norm_num)] at he
    apply (micro_HE q).2
    -- two integers at the same distance
    have h1 := (micro_HE q).1
    have h2 : (1 : ℚ) ≤ |(micro q : ℚ) - k| := by
      have : (1 : ℤ) ≤ |(micro q : ℤ) - k| := Int.one_le_abs (by omega)
      exact_mod_cast this
    have h3 : |(micro q : ℚ) - k| ≤ |(|q| * 10 ^ 6 - micro q)| + |(|q| * 10 ^ 6 - k)| := by
      rw [show (micro q : ℚ) - k = -(|q| * 10 ^ 6 - micro q) + (|q| * 10 ^ 6 - k) by ring]
      exact (abs_add_le _ _).trans (by rw [abs_neg])
    rw [← he] at h3
    have h4 := h2.trans h3
    revert h1 h4
    generalize |(|q| * 10 ^ 6 - (micro q : ℚ))| = A
    intro h1 h4
    linarith

/-! ### Reading a number -/

theorem rnd_zero {L : FpLib} (hL : LibOk L) : L.rnd 0 = 0 := hL.1.fix isDouble_zero

/-- **C73** (reading). A decimal number, with any white space before it and anything after it that cannot belong to it, is read as a double
nearest to it, with its sign, unless the number is too large for a double or underflow is reported: then `out_of_range` is thrown. -/
theorem C73_read (L : FpLib) (hL : LibOk L) (n : Numeral) (hn : n.Ok) (w rest : Txt) (hw : ∀ c ∈ w, isSpaceC c = true) (hrest : Stops rest) :
    (∀ y, (libFp L).stod (w ++ n.text ++ rest) = .ok y →
      ∃ p, numberOf y = some p ∧ IsF64 y ∧ (signBit y = true ↔ n.sign = some '-') ∧ ∀ d, IsDouble d → |n.value - p| ≤ |n.value - d|) ∧
    (∀ e, (libFp L).stod (w ++ n.text ++ rest) = .error e →
      e = .exc .outOfRange ∧ (2 ^ 1024 ≤ |L.rnd n.value| ∨ (n.value ≠ 0 ∧ |n.value| < (2 : ℚ) ^ (-1022 : ℤ)))) := by
  have hm0 : 0 ≤ n.magnitude := by
    unfold Numeral.magnitude
    refine mul_nonneg (by positivity) ?_
    split
    · split <;> positivity
    · norm_num
  have hva : |n.value| = n.magnitude := by
    unfold Numeral.value
    split
    · rw [abs_neg, abs_of_nonneg hm0]
    · rw [abs_of_nonneg hm0]
  show (∀ y, stodLib L _ = _ → _) ∧ (∀ e, stodLib L _ = _ → _)
  rw [stodLib_numeral L n hn w hw rest hrest]
  split
  · rename_i h
    exact ⟨fun y hy => (by cases hy), fun e he => (by cases he; exact ⟨rfl, Or.inl h⟩)⟩
  · rename_i hfin
    split
    · rename_i h
      refine ⟨fun y hy => (by cases hy), fun e he => ?_⟩
      cases he
      obtain ⟨a, b⟩ := hL.2 _ h
      refine ⟨rfl, Or.inr ⟨?_, ?_⟩⟩
      · intro h0
        rw [h0, abs_zero] at hva
        exact a hva.symm
      · rwa [abs_of_nonneg hm0, ← hva] at b
    · split
      · rename_i h
        refine ⟨fun y hy => ?_, fun e he => (by cases he)⟩
        cases hy
        refine ⟨0, rfl, trivial, ⟨fun _ => h.1, fun _ => rfl⟩, ?_⟩
        rw [← h.2]
        exact (hL.1 n.value).2
      · rename_i h
        refine ⟨fun y hy => ?_, fun e he => (by cases he)⟩
        cases hy
        refine ⟨_, rfl, ⟨(hL.1 n.value).1, not_le.1 hfin⟩, ?_, (hL.1 n.value).2⟩
        simp only [signBit, decide_eq_true_eq]
        constructor
        · intro hneg
          by_contra hc
          have : n.value = n.magnitude := by unfold Numeral.value; rw [if_neg hc]
          rw [this] at hneg
          have := rnd_nonneg_of hL.1 hm0
          linarith
        · intro hs
          have : n.value = -n.magnitude := by unfold Numeral.value; rw [if_pos hs]
          have h2 : L.rnd n.value ≤ 0 := rnd_neg_of hL.1 (by rw [this]; linarith)
          exact lt_of_le_of_ne h2 fun h0 => h ⟨hs, h0⟩

/-! ### There and back -/

/-- The result of the round trip. -/
def cyc (L : FpLib) (x : Dbl) : Dbl :=
  match numberOf x with
  | none => x
  | some q => if signBit x = true ∧ L.rnd (six q) = 0 then .negZero else .fin (L.rnd (six q))

theorem signBit_nonneg {x : Dbl} {q : ℚ} (h : numberOf x = some q) : (signBit x = true → q ≤ 0) ∧ (signBit x = false → 0 ≤ q) := by
  cases x with
  | nan => cases h
  | inf => cases h
  | negZero => cases h; exact ⟨fun _ => le_rfl, fun _ => le_rfl⟩
  | fin p =>
    cases h
    simp only [signBit, decide_eq_true_eq, decide_eq_false_iff_not]
    exact ⟨fun h => h.le, fun h => le_of_not_gt h⟩

theorem signed_six {x : Dbl} {q : ℚ} (h : numberOf x = some q) :
    (if signBit x then -((micro q : ℚ) / 10 ^ 6) else (micro q : ℚ) / 10 ^ 6) = six q := by
  cases x with
  | nan => cases h
  | inf => cases h
  | negZero =>
    cases h
    have : micro 0 = 0 := by decide +kernel
    simp [signBit, six, this]
  | fin p =>
    cases h
    simp only [signBit, decide_eq_true_eq]
    rfl

theorem isF64_number {x : Dbl} {q : ℚ} (hx : IsF64 x) (h : numberOf x = some q) : IsDouble q ∧ |q| < 2 ^ 1024 := by
  cases x with
  | nan => cases h
  | inf => cases h
  | negZero => cases h; exact ⟨isDouble_zero, by norm_num⟩
  | fin p => cases h; exact hx

theorem rnd_six_bound {L : FpLib} (hL : LibOk L) {q : ℚ} (hd : IsDouble q) (hb : |q| < 2 ^ 1024) : |L.rnd (six q)| < 2 ^ 1024 := by
  by_cases hbig : 2 ^ 33 ≤ |q|
  · rw [rnd_six_large hL.1 hd hbig]; exact hb
  · clear hb
    have e1 := six_err q
    have e2 := (hL.1 (six q)).2 q hd
    have h3 : |L.rnd (six q)| ≤ |q| + 1 / 10 ^ 6 := by
      have : L.rnd (six q) = q + (-(q - six q) + -(six q - L.rnd (six q))) := by ring
      rw [this]
      refine (abs_add_le _ _).trans ?_
      have := abs_add_le (-(q - six q)) (-(six q - L.rnd (six q)))
      rw [abs_neg, abs_neg] at this
      rw [abs_sub_comm (six q) q] at e2
      have : (1 : ℚ) / 2 / 10 ^ 6 + 1 / 2 / 10 ^ 6 = 1 / 10 ^ 6 := by norm_num
      linarith
    have h4 : |L.rnd (six q)| < 2 ^ 34 := by push Not at hbig; linarith
    exact h4.trans (pow_lt_pow_right₀ (by norm_num) (by norm_num))

theorem cyc_ok {L : FpLib} (hL : LibOk L) {x : Dbl} (hx : IsF64 x) : ThroughText L x (cyc L x) := by
  unfold ThroughText cyc
  show stodLib L (dblToString x) = _
  cases hq : numberOf x with
  | none =>
    cases x with
    | nan neg => cases neg <;> rfl
    | inf neg => cases neg <;> rfl
    | negZero => cases hq
    | fin => cases hq
  | some q =>
    obtain ⟨hd, hb⟩ := isF64_number hx hq
    have h := stodLib_numeral L (numeralOf (signBit x) (micro q)) (numeralOf_ok _ _) [] (by simp) [] (by intro c hc; cases hc)
    rw [List.nil_append, List.append_nil, ← toStr_finite hq, numeralOf_value, signed_six hq, numeralOf_magnitude] at h
    rw [h, if_neg (not_le.2 (rnd_six_bound hL hd hb)), if_neg]
    · have : (numeralOf (signBit x) (micro q)).sign = some '-' ↔ signBit x = true := by cases signBit x <;> simp [numeralOf]
      simp only [this]
      split <;> rfl
    · intro hu
      obtain ⟨h0, h1⟩ := hL.2 _ hu
      have hne : micro q ≠ 0 := by rintro h; exact h0 (by rw [h]; simp)
      have : (1 : ℚ) ≤ micro q := by exact_mod_cast Nat.one_le_iff_ne_zero.2 hne
      rw [abs_of_nonneg (by positivity)] at h1
      have h2 : (2 : ℚ) ^ (-1022 : ℤ) ≤ (2 : ℚ) ^ (-30 : ℤ) := zpow_le_zpow_right₀ (by norm_num) (by norm_num)
      have h3 : (2 : ℚ) ^ (-30 : ℤ) = 1 / 1073741824 := by norm_num
      rw [h3] at h2
      have h4 : (1 : ℚ) / 10 ^ 6 ≤ (micro q : ℚ) / 10 ^ 6 := div_le_div_of_nonneg_right this (by norm_num)
      have h5 : (1 : ℚ) / 1073741824 < 1 / 10 ^ 6 := by norm_num
      linarith

theorem through_eq {L : FpLib} (hL : LibOk L) {x y : Dbl} (hx : IsF64 x) (h : ThroughText L x y) : y = cyc L x := by
  have := cyc_ok hL hx
  unfold ThroughText at this h
  rw [this] at h
  cases h
  rfl

theorem cyc_number {L : FpLib} {x : Dbl} {q : ℚ} (h : numberOf x = some q) : numberOf (cyc L x) = some (L.rnd (six q)) := by
  unfold cyc
  rw [h]
  simp only
  split
  · rename_i hc; rw [hc.2]; rfl
  · rfl

theorem six_sign (q : ℚ) : (q ≤ 0 → six q ≤ 0) ∧ (0 ≤ q → 0 ≤ six q) := by
  have h0 : six 0 = 0 := six_of_six ⟨0, by simp⟩
  constructor
  · intro h; have := six_mono h; rwa [h0] at this
  · intro h; have := six_mono h; rwa [h0] at this

theorem cyc_sign {L : FpLib} (hL : LibOk L) (x : Dbl) : signBit (cyc L x) = signBit x := by
  unfold cyc
  cases hq : numberOf x with
  | none => rfl
  | some q =>
    simp only
    obtain ⟨h1, h2⟩ := signBit_nonneg hq
    split
    · rename_i hc; rw [hc.1]; rfl
    · rename_i hc
      cases hs : signBit x with
      | true =>
        simp only [signBit, decide_eq_true_eq]
        have := rnd_neg_of hL.1 ((six_sign q).1 (h1 hs))
        exact lt_of_le_of_ne this fun h => hc ⟨hs, h⟩
      | false =>
        simp only [signBit, decide_eq_false_iff_not, not_lt]
        exact rnd_nonneg_of hL.1 ((six_sign q).2 (h2 hs))

theorem cyc_f64 {L : FpLib} (hL : LibOk L) {x : Dbl} (hx : IsF64 x) : IsF64 (cyc L x) := by
  unfold cyc
  cases hq : numberOf x with
  | none => exact hx
  | some q =>
    simp only
    obtain ⟨hd, hb⟩ := isF64_number hx hq
    split
    · trivial
    · exact ⟨(hL.1 _).1, rnd_six_bound hL hd hb⟩

/-- **C73.** A double that is written as text and read again: reading never throws, an infinity, a NaN and the sign (also of zero) come back as
they were, and a finite double comes back within one millionth. -/
theorem C73_close (L : FpLib) (hL : LibOk L) (x : Dbl) (hx : IsF64 x) :
    ∃ y, ThroughText L x y ∧ IsF64 y ∧ signBit y = signBit x ∧ (numberOf x = none → y = x) ∧
      ∀ q, numberOf x = some q → ∃ p, numberOf y = some p ∧ |p - q| ≤ 1 / 10 ^ 6 := by
  refine ⟨cyc L x, cyc_ok hL hx, cyc_f64 hL hx, cyc_sign hL x, ?_, ?_⟩
  · intro h; unfold cyc; rw [h]
  · intro q hq
    obtain ⟨hd, -⟩ := isF64_number hx hq
    refine ⟨_, cyc_number hq, ?_⟩
    have e1 := six_err q
    have e2 := (hL.1 (six q)).2 q hd
    rw [abs_sub_comm (six q) q] at e2
    have : L.rnd (six q) - q = (-(q - six q) + -(six q - L.rnd (six q))) := by ring
    rw [this]
    have := abs_add_le (-(q - six q)) (-(six q - L.rnd (six q)))
    rw [abs_neg, abs_neg] at this
    have : (1 : ℚ) / 2 / 10 ^ 6 + 1 / 2 / 10 ^ 6 = 1 / 10 ^ 6 := by norm_num
    linarith

theorem dbl_ext {x y : Dbl} {q : ℚ} (hx : numberOf x = some q) (hy : numberOf y = some q) (hs : signBit x = signBit y) : x = y := by
  cases x with
  | nan => cases hx
  | inf => cases hx
  | negZero =>
    cases hx
    cases y with
    | nan => cases hy
    | inf => cases hy
    | negZero => rfl
    | fin p => cases hy; simp [signBit] at hs
  | fin p =>
    cases hx
    cases y with
    | nan => cases hy
    | inf => cases hy
    | negZero => cases hy; simp [signBit] at hs
    | fin p => cases hy; rfl

/-- The second rounding to six decimals finds the same number. -/
theorem micro_rnd {L : FpLib} (hL : LibOk L) {z : ℚ} (hz : SixDecimals z) (hb : |z| ≤ 2 ^ 33) : (micro (L.rnd z) : ℚ) / 10 ^ 6 = |z| :=
  micro_of_near hz (rnd_small_err hL.1 hb)

theorem six_small {q : ℚ} (h : |q| < 2 ^ 33) : |six q| ≤ 2 ^ 33 := by
  have h33 : SixDecimals (2 ^ 33) := ⟨2 ^ 33 * 10 ^ 6, by push_cast; norm_num⟩
  have h33' : SixDecimals (-2 ^ 33) := ⟨-(2 ^ 33 * 10 ^ 6), by push_cast; norm_num⟩
  obtain ⟨a, b⟩ := abs_lt.1 h
  rw [abs_le]
  constructor
  · have := six_mono a.le; rwa [six_of_six h33'] at this
  · have := six_mono b.le; rwa [six_of_six h33] at this

theorem micro_cyc {L : FpLib} (hL : LibOk L) {q : ℚ} (hd : IsDouble q) : micro (L.rnd (six q)) = micro q := by
  by_cases hbig : 2 ^ 33 ≤ |q|
  · rw [rnd_six_large hL.1 hd hbig]
  · have := micro_rnd hL (six_isSix q) (six_small (not_le.1 hbig))
    rw [six_abs, div_left_inj' (by norm_num)] at this
    exact_mod_cast this

/-- **C73.** After one round trip the text no longer changes, and neither does the double: writing, reading and writing gives the same text, and
every further round trip gives the same double. -/
theorem C73_stable (L : FpLib) (hL : LibOk L) (x y : Dbl) (hx : IsF64 x) (h : ThroughText L x y) :
    (libFp L).toStr y = (libFp L).toStr x ∧ ThroughText L y y := by
  have hxy := through_eq hL hx h
  have htext : (libFp L).toStr y = (libFp L).toStr x := by
    show dblToString y = dblToString x
    subst hxy
    cases hq : numberOf x with
    | none => unfold cyc; rw [hq]
    | some q =>
      rw [toStr_finite (cyc_number (L := L) hq), toStr_finite hq, cyc_sign hL, micro_cyc hL (isF64_number hx hq).1]
  refine ⟨htext, ?_⟩
  unfold ThroughText at h ⊢
  rw [htext]
  exact h

/-- **C73.** Exactly the doubles nearest to numbers with at most six decimals come back unchanged. -/
theorem C73_exact_iff (L : FpLib) (hL : LibOk L) (x : Dbl) (q : ℚ) (hx : IsF64 x) (hq : numberOf x = some q) :
    ThroughText L x x ↔ ∃ z, SixDecimals z ∧ q = L.rnd z := by
  obtain ⟨hd, hb⟩ := isF64_number hx hq
  constructor
  · intro h
    have := through_eq hL hx h
    have h2 := cyc_number (L := L) hq
    rw [← this, hq] at h2
    exact ⟨six q, six_isSix q, by simpa using h2⟩
  · rintro ⟨z, hz, rfl⟩
    have he : L.rnd (six (L.rnd z)) = L.rnd z := by
      by_cases hbig : 2 ^ 33 ≤ |L.rnd z|
      · exact rnd_six_large hL.1 (hL.1 z).1 hbig
      · push Not at hbig
        have hz33 : |z| ≤ 2 ^ 33 := by
          by_contra hc
          push Not at hc
          have h33 : IsDouble (2 ^ 33 : ℚ) := ⟨1, 33, by norm_num, by norm_num, by norm_num⟩
          rcases le_or_gt 0 z with h0 | h0
          · rw [abs_of_nonneg h0] at hc
            have := hL.1.mono hc.le
            rw [hL.1.fix h33] at this
            have := le_abs_self (L.rnd z)
            linarith
          · rw [abs_of_neg h0] at hc
            have := hL.1.mono (show z ≤ -2 ^ 33 by linarith)
            rw [hL.1.fix (isDouble_neg h33)] at this
            have := neg_le_abs (L.rnd z)
            linarith
        have h1 := micro_rnd hL hz hz33
        have h2 : six (L.rnd z) = z := by
          unfold six
          rw [h1]
          split
          · rename_i hneg
            have : z < 0 := by
              by_contra hc
              have := rnd_nonneg_of hL.1 (not_lt.1 hc)
              linarith
            rw [abs_of_neg this]; ring
          · rename_i hneg
            rcases le_or_gt 0 z with h0 | h0
            · rw [abs_of_nonneg h0]
            · exfalso
              -- a negative number with six decimals does not round to zero
              have h3 : L.rnd z = 0 := le_antisymm (rnd_neg_of hL.1 h0.le) (not_lt.1 hneg)
              rw [h3] at h1
              have h4 : micro 0 = 0 := by decide +kernel
              rw [h4] at h1
              have := abs_pos.2 h0.ne
              simp only [Nat.cast_zero, zero_div] at h1
              linarith
        rw [h2]
    have hc : cyc L x = x := by
      have h1 := cyc_number (L := L) hq
      rw [he] at h1
      exact dbl_ext h1 hq (cyc_sign hL x)
    have := cyc_ok hL hx
    rwa [hc] at this

/-- C73: integers and fractions of 64 come back unchanged, and so do all doubles from 2^33 on. -/
theorem C73_exact (L : FpLib) (hL : LibOk L) (x : Dbl) (q : ℚ) (hx : IsF64 x) (hq : numberOf x = some q)
    (h : (∃ k : ℤ, q = k / 64) ∨ 2 ^ 33 ≤ |q|) : ThroughText L x x := by
  rw [C73_exact_iff L hL x q hx hq]
  obtain ⟨hd, -⟩ := isF64_number hx hq
  rcases h with ⟨k, hk⟩ | h
  · refine ⟨q, ⟨k * 15625, ?_⟩, (hL.1.fix hd).symm⟩
    rw [hk]; push_cast; ring
  · exact ⟨six q, six_isSix q, (rnd_six_large hL.1 hd h).symm⟩

/-- **C73.** The round trip keeps the order: a smaller number does not come back larger. -/
theorem C73_monotone (L : FpLib) (hL : LibOk L) (x x' y y' : Dbl) (p q p' q' : ℚ) (hx : IsF64 x) (hx' : IsF64 x') (h : ThroughText L x y)
    (h' : ThroughText L x' y') (hp : numberOf x = some p) (hq : numberOf x' = some q) (hp' : numberOf y = some p') (hq' : numberOf y' = some q')
    (hle : p ≤ q) : p' ≤ q' := by
  rw [through_eq hL hx h, cyc_number hp] at hp'
  rw [through_eq hL hx' h', cyc_number hq] at hq'
  cases hp'
  cases hq'
  exact hL.1.mono (six_mono hle)

/-- C73, refuted: a double does not in general come back unchanged. 2^-22 comes back as zero: different
doubles can have the same text. -/
theorem C73_lossy (L : FpLib) (hL : LibOk L) :
    (∃ x y : Dbl, IsF64 x ∧ ThroughText L x y ∧ numberOf x = some (1 / 2 ^ 22) ∧ numberOf y = some 0) ∧
    (∃ x y : Dbl, IsF64 x ∧ IsF64 y ∧ x ≠ y ∧ (libFp L).toStr x = (libFp L).toStr y) := by
  have hd : IsF64 (.fin (1 / 2 ^ 22)) := ⟨⟨1, -22, by norm_num, by norm_num, by norm_num⟩, by
    have : |(1 : ℚ) / 2 ^ 22| < 1 := by rw [abs_of_pos (by norm_num)]; norm_num
    exact this.trans (one_lt_pow₀ (by norm_num) (by norm_num))⟩
  have h6 : six (1 / 2 ^ 22) = 0 := by decide +kernel
  refine ⟨⟨.fin (1 / 2 ^ 22), .fin 0, hd, ?_, rfl, rfl⟩, ⟨.fin (1 / 2 ^ 22), .fin 0, hd, ⟨isDouble_zero, by norm_num⟩, ?_, ?_⟩⟩
  · have := cyc_ok hL hd
    have he : cyc L (.fin (1 / 2 ^ 22)) = .fin 0 := by
      unfold cyc
      simp only [numberOf, h6, rnd_zero hL]
      rw [if_neg]
      rintro ⟨h, -⟩
      revert h
      decide +kernel
    rwa [he] at this
  · intro h; injection h with h; norm_num at h
  · have : dblToString (.fin (1 / 2 ^ 22)) = dblToString (.fin 0) := by decide +kernel
    exact this

/-! ### Columns and data frames -/

/-- The library's conversions satisfy what the theorems about an arbitrary library assume. -/
theorem C73_contract (L : FpLib) (hL : LibOk L) : (libFp L).Ok := by
  refine ⟨?_, ?_, ?_, ?_⟩
  · intro z h1 h2
    show Dbl.fin (L.rnd z) = _
    rw [hL.1.fix (isDouble_int (abs_le.2 ⟨h1, h2⟩))]
  · intro s e h
    replace h : stodLib L s = .error e := h
    unfold stodLib at h
    simp only at h
    split at h
    · cases h; exact ⟨_, rfl⟩
    · cases h
    · cases h
    · rename_i v _
      generalize L.rnd _ = y at h
      split at h
      · cases h; exact ⟨_, rfl⟩
      · split at h
        · cases h; exact ⟨_, rfl⟩
        · split at h <;> cases h
  · intro x
    show dblToString x ≠ []
    cases hq : numberOf x with
    | none =>
      cases x with
      | nan neg => cases neg <;> decide
      | inf neg => cases neg <;> decide
      | negZero => cases hq
      | fin => cases hq
    | some q =>
      rw [toStr_finite hq, numeralOf_text]
      simp
  · intro x c hc
    replace hc : c ∈ dblToString x := hc
    cases hq : numberOf x with
    | none =>
      cases x with
      | nan neg => revert c; cases neg <;> decide
      | inf neg => revert c; cases neg <;> decide
      | negZero => cases hq
      | fin => cases hq
    | some q =>
      rw [toStr_finite hq, numeralOf_text] at hc
      have hdig : ∀ {c : Char}, c.isDigit = true → c ≠ '\t' ∧ c ≠ '\n' := fun h => ⟨isDigit_ne h (by decide), isDigit_ne h (by decide)⟩
      rcases List.mem_append.1 hc with h | h
      · unfold signText at h
        split at h
        · simp only [List.mem_singleton] at h; subst h; decide
        · cases h
      · rcases List.mem_append.1 h with h | h
        · exact hdig (toStringNat_digits _ c h)
        · rcases List.mem_cons.1 h with rfl | h
          · decide
          · exact hdig (pad6_digits _ c h)

/-- **C73** (columns). A numeric column coerced to text and back: both coercions succeed, and every element is what reading its text gives. -/
theorem C73_column (L : FpLib) (hL : LibOk L) (xs : List Dbl) (hx : ∀ x ∈ xs, IsF64 x) :
    ∃ ts ys, (Column.ofList (C := julesRules (libFp L)) JTy.numeric xs).coerce JTy.string = (.ok (), Column.ofList (C := julesRules (libFp L)) JTy.string ts) ∧
      (Column.ofList (C := julesRules (libFp L)) JTy.string ts).coerce JTy.numeric = (.ok (), Column.ofList (C := julesRules (libFp L)) JTy.numeric ys) ∧
      ts = xs.map (libFp L).toStr ∧ List.Forall₂ (ThroughText L) xs ys := by
  refine ⟨xs.map (libFp L).toStr, xs.map (cyc L), ?_, ?_, rfl, ?_⟩
  · rw [C39_coerce_ok]
    refine ⟨fun x => .ok ((libFp L).toStr x), _, rfl, rfl, by simp, fun k x hk => ⟨(libFp L).toStr x, ?_, rfl⟩⟩
    rw [List.getElem?_map, hk]; rfl
  · rw [C39_coerce_ok]
    refine ⟨(libFp L).stod, _, rfl, rfl, by simp, fun k t hk => ?_⟩
    rw [List.getElem?_map, Option.map_eq_some_iff] at hk
    obtain ⟨x, hx', rfl⟩ := hk
    exact ⟨cyc L x, by rw [List.getElem?_map, hx']; rfl, cyc_ok hL (hx x (List.mem_of_getElem? hx'))⟩
  · rw [List.forall₂_map_right_iff, List.forall₂_same]
    exact fun x h => cyc_ok hL (hx x h)

/-- A data frame with these names and numeric columns. -/
def IsNumericFrame (fp : Fp) (d : DF (julesRules fp)) (names : List Txt) (cols : List (List Dbl)) : Prop :=
  names.length = cols.length ∧ (∀ c ∈ cols, c.length = d.rows) ∧
    d.elems = (List.range names.length).map fun j => ⟨names.getD j [], Column.ofList (C := julesRules fp) JTy.numeric (cols.getD j [])⟩

/-- **C73** (data frames). A data frame of numeric columns (at least one column and one row; distinct names without tabs and line breaks, the last
one not empty) that is written and read again has the same names and number of rows; its columns can be coerced to numeric, and every element is
then what reading its text gives (`C73_close`: within one millionth). -/
theorem C73_frame (L : FpLib) (hL : LibOk L) (d : DF (julesRules (libFp L))) (names : List Txt) (cols : List (List Dbl))
    (hd : IsNumericFrame (libFp L) d names cols) (hne : names ≠ []) (hrows : 0 < d.rows) (hdist : DistinctNames names)
    (hsep : ∀ x ∈ names, '\n' ∉ x ∧ '\t' ∉ x) (hlast : names.getLast? ≠ some []) (hx : ∀ c ∈ cols, ∀ x ∈ c, IsF64 x) :
    ∃ t d', d.write (libFp L) {} = .ok t ∧ DF.read (libFp L) {} (some t) = .ok d' ∧ d'.rows = d.rows ∧ d'.names = names ∧
      ∀ (j : Nat) c, cols[j]? = some c → ∃ e ys, d'.elems[j]? = some e ∧
        e.col.coerce JTy.numeric = (.ok (), Column.ofList (C := julesRules (libFp L)) JTy.numeric ys) ∧ List.Forall₂ (ThroughText L) c ys := by
  have hok := C73_contract L hL
  obtain ⟨h1, h2, h3⟩ := hd
  let texts : List (List Txt) := cols.map fun c => c.map (libFp L).toStr
  let textElems : List (Named (julesRules (libFp L))) :=
    (List.range names.length).map fun j => ⟨names.getD j [], Column.ofList (C := julesRules (libFp L)) JTy.string (texts.getD j [])⟩
  let dT : DF (julesRules (libFp L)) := ⟨d.rows, textElems, d.index⟩
  have hget : ∀ j, texts.getD j [] = (cols.getD j []).map (libFp L).toStr := by
    intro j
    simp only [texts, List.getD_eq_getElem?_getD, List.getElem?_map]
    cases cols[j]? <;> rfl
  have hframe : IsTextFrame (libFp L) dT names texts := by
    refine ⟨by simp [texts, h1], ?_, rfl⟩
    intro c hc
    obtain ⟨c', hc', rfl⟩ := List.mem_map.1 hc
    rw [List.length_map]
    exact h2 c' hc'
  -- what is written is the text frame
  have hw : d.write (libFp L) {} = dT.write (libFp L) {} := by
    have htext : ∀ c : List Dbl, columnText (libFp L) (Column.ofList (C := julesRules (libFp L)) JTy.numeric c) = .ok (c.map (libFp L).toStr) := by
      intro c
      rw [C47_column_text (libFp L) JTy.numeric c, C39_coerce_ok]
      refine ⟨fun x => .ok ((libFp L).toStr x), _, rfl, rfl, by simp, fun k x hk => ⟨(libFp L).toStr x, ?_, rfl⟩⟩
      rw [List.getElem?_map, hk]; rfl
    let tt : Named (julesRules (libFp L)) → List Txt := fun e => match columnText (libFp L) e.col with | .ok l => l | .error _ => []
    rw [C47_typed (libFp L) {} d tt]
    · congr 1
      simp only [dT, DF.mk.injEq, and_true, true_and]
      rw [h3, List.map_map]
      apply List.map_congr_left
      intro j hj
      simp only [Function.comp_apply, tt, htext, hget]
    · intro e he
      rw [h3] at he
      obtain ⟨j, -, rfl⟩ := List.mem_map.1 he
      simp only [tt, htext]
  have hcell : ∀ c ∈ texts, ∀ x ∈ c, ('\n' ∉ x ∧ '\t' ∉ x) ∧ x ≠ [] := by
    intro c hc x hxc
    obtain ⟨c', hc', rfl⟩ := List.mem_map.1 hc
    obtain ⟨v, hv, rfl⟩ := List.mem_map.1 hxc
    exact ⟨⟨fun h => (hok.toStr_sep v _ h).2 rfl, fun h => (hok.toStr_sep v _ h).1 rfl⟩, hok.toStr_ne v⟩
  obtain ⟨t, d', e1, e2, e3, e4⟩ := (C47_roundtrip_iff (libFp L) '\n' '\t' (by decide) dT names texts hframe hne hrows hdist hsep
    (fun c hc x hx => (hcell c hc x hx).1)).2 ⟨hlast, fun c hc x hx => (hcell c (List.mem_of_getLast? hc) x hx).2⟩
  refine ⟨t, d', by rw [hw]; exact e1, e2, e4, ?_, ?_⟩
  · unfold DF.names
    rw [e3]
    simp only [dT, textElems, List.map_map]
    apply List.ext_getElem?
    intro k
    rw [List.getElem?_map]
    by_cases hk : k < names.length
    · rw [List.getElem?_range hk]; simp [hk]
    · rw [List.getElem?_eq_none (by simp; omega), List.getElem?_eq_none (by omega)]; rfl
  · intro j c hc
    have hj : j < names.length := by rw [h1]; exact (List.getElem?_eq_some_iff.1 hc).1
    obtain ⟨ts, ys, -, f2, rfl, f4⟩ := C73_column L hL c (hx c (List.mem_of_getElem? hc))
    refine ⟨⟨names.getD j [], Column.ofList (C := julesRules (libFp L)) JTy.string (c.map (libFp L).toStr)⟩, ys, ?_, f2, f4⟩
    rw [e3]
    simp only [dT, textElems, List.getElem?_map, List.getElem?_range hj, Option.map_some, hget]
    rw [List.getD_eq_getElem?_getD, List.getD_eq_getElem?_getD, hc]
    rfl

/-! ### Texts that are not numbers -/

theorem stod_invalid {L : FpLib} (s : Txt) : stodLib L s = .error (.exc .invalidArgument) ↔ scanMagnitude (splitSign (s.dropWhile isSpaceC)).2 = none := by
  unfold stodLib
  simp only
  cases h : scanMagnitude (splitSign (s.dropWhile isSpaceC)).2 with
  | none => simp
  | some m =>
    simp only [reduceCtorEq, iff_false]
    cases m with
    | inf => simp
    | nan => simp
    | num v =>
      simp only
      generalize L.rnd _ = y
      split
      · simp
      · split
        · simp
        · split <;> simp

theorem scanMantissa_none (t : Txt) : scanMantissa Char.isDigit t = none ↔
    ¬ ((∃ c u, t = c :: u ∧ c.isDigit = true) ∨ ∃ c u, t = '.' :: c :: u ∧ c.isDigit = true) := by
  cases t with
  | nil => simp [scanMantissa]
  | cons c u =>
    by_cases hc : c.isDigit = true
    · simp [scanMantissa, hc]
    · by_cases hdot : c = '.'
      · subst hdot
        cases u with
        | nil => simp [scanMantissa, hc]
        | cons d u =>
          by_cases hd : d.isDigit = true <;> simp [scanMantissa, hc, hd]
      · simp [scanMantissa, hc, hdot]

theorem scanDec_none (t : Txt) : scanDec t = none ↔ scanMantissa Char.isDigit t = none := by
  unfold scanDec
  cases scanMantissa Char.isDigit t <;> simp

theorem scanMagnitude_none (t : Txt) : scanMagnitude t = none ↔
    ¬ ((∃ c u, t = c :: u ∧ c.isDigit = true) ∨ (∃ c u, t = '.' :: c :: u ∧ c.isDigit = true) ∨
      ∃ a b c u, t = a :: b :: c :: u ∧ ([a.toLower, b.toLower, c.toLower] = ['i', 'n', 'f'] ∨ [a.toLower, b.toLower, c.toLower] = ['n', 'a', 'n'])) := by
  have hword : ∀ x y z : Char, (t.take 3).map Char.toLower = [x, y, z] ↔ ∃ a b c u, t = a :: b :: c :: u ∧ [a.toLower, b.toLower, c.toLower] = [x, y, z] := by
    intro x y z
    match t with
    | [] => simp
    | [a] => simp
    | [a, b] => simp
    | a :: b :: c :: u => simp
  unfold scanMagnitude
  by_cases h1 : (t.take 3).map Char.toLower = ['i', 'n', 'f']
  · rw [if_pos h1]
    simp only [reduceCtorEq, false_iff, not_not]
    obtain ⟨a, b, c, u, e, h⟩ := (hword _ _ _).1 h1
    exact Or.inr (Or.inr ⟨a, b, c, u, e, Or.inl h⟩)
  rw [if_neg h1]
  by_cases h2 : (t.take 3).map Char.toLower = ['n', 'a', 'n']
  · rw [if_pos h2]
    simp only [reduceCtorEq, false_iff, not_not]
    obtain ⟨a, b, c, u, e, h⟩ := (hword _ _ _).1 h2
    exact Or.inr (Or.inr ⟨a, b, c, u, e, Or.inr h⟩)
  rw [if_neg h2]
  have h3 : ¬ ∃ a b c u, t = a :: b :: c :: u ∧ ([a.toLower, b.toLower, c.toLower] = ['i', 'n', 'f'] ∨ [a.toLower, b.toLower, c.toLower] = ['n', 'a', 'n']) := by
    rintro ⟨a, b, c, u, e, h | h⟩
    · exact h1 ((hword _ _ _).2 ⟨a, b, c, u, e, h⟩)
    · exact h2 ((hword _ _ _).2 ⟨a, b, c, u, e, h⟩)
  have h4 : ((∃ c u, t = c :: u ∧ c.isDigit = true) ∨ (∃ c u, t = '.' :: c :: u ∧ c.isDigit = true) ∨
      ∃ a b c u, t = a :: b :: c :: u ∧ ([a.toLower, b.toLower, c.toLower] = ['i', 'n', 'f'] ∨ [a.toLower, b.toLower, c.toLower] = ['n', 'a', 'n'])) ↔
      ((∃ c u, t = c :: u ∧ c.isDigit = true) ∨ ∃ c u, t = '.' :: c :: u ∧ c.isDigit = true) := by
    constructor
    · rintro (h | h | h)
      · exact Or.inl h
      · exact Or.inr h
      · exact absurd h h3
    · rintro (h | h)
      · exact Or.inl h
      · exact Or.inr (Or.inl h)
  rw [h4, ← scanMantissa_none, ← scanDec_none]
  by_cases h5 : (t.take 2).map Char.toLower = ['0', 'x']
  · rw [if_pos h5]
    have hsome : scanDec t ≠ none := by
      rw [Ne, scanDec_none, scanMantissa_none, not_not]
      left
      clear hword h4 h3 h2 h1
      match t, h5 with
      | [], h5 => simp at h5
      | [a], h5 => simp at h5
      | a :: b :: u, h5 =>
        simp only [List.take_succ_cons, List.take_zero, List.map_cons, List.map_nil, List.cons.injEq, and_true] at h5
        refine ⟨a, _, rfl, ?_⟩
        have ha : a.toLower = '0' := h5.1
        unfold Char.toLower at ha
        split at ha
        · exfalso
          rename_i hh
          have h9 := congrArg Char.val ha
          have h10 : ('0' : Char).val = 48 := rfl
          simp only [h10] at h9
          have h11 : 65 ≤ a.val.toNat := UInt32.le_iff_toNat_le.1 hh.1
          have h12 : a.val.toNat ≤ 90 := UInt32.le_iff_toNat_le.1 hh.2
          have h13 := congrArg UInt32.toNat h9
          have h14 : ('a'.val - 'A'.val).toNat = 32 := by decide
          rw [UInt32.toNat_add, h14] at h13
          have h15 : (48 : UInt32).toNat = 48 := rfl
          rw [h15] at h13
          omega
        · rw [ha]; decide
    cases hh : scanHex (t.drop 2) with
    | some v => simp [hsome]
    | none => simp
  · rw [if_neg h5]
    simp

/-- **C73** (texts that are not numbers). `invalid_argument` is thrown exactly for texts that do not start with a number. -/
theorem C73_invalid_iff (L : FpLib) (s : Txt) : (libFp L).stod s = .error (.exc .invalidArgument) ↔ ¬ StartsWithNumber s := by
  show stodLib L s = _ ↔ _
  rw [stod_invalid, scanMagnitude_none, not_iff_not]
  constructor
  · intro h
    refine ⟨s.takeWhile isSpaceC, ?_⟩
    have hs : s.takeWhile isSpaceC ++ s.dropWhile isSpaceC = s := List.takeWhile_append_dropWhile
    have hw : ∀ c ∈ s.takeWhile isSpaceC, isSpaceC c = true := fun c hc => by
      have := List.all_takeWhile (p := isSpaceC) (l := s)
      exact List.all_eq_true.1 this c hc
    generalize s.takeWhile isSpaceC = w at hs hw
    generalize s.dropWhile isSpaceC = r at hs h
    cases r with
    | nil => simp [splitSign] at h
    | cons c u =>
      by_cases h1 : c = '-'
      · subst h1
        exact ⟨some '-', u, by rw [← hs]; simp, hw, by rintro c ⟨⟩; exact Or.inl rfl, h⟩
      · by_cases h2 : c = '+'
        · subst h2
          exact ⟨some '+', u, by rw [← hs]; simp, hw, by rintro c ⟨⟩; exact Or.inr rfl, h⟩
        · refine ⟨none, c :: u, by rw [← hs]; simp, hw, by rintro c ⟨⟩, ?_⟩
          have : splitSign (c :: u) = (false, c :: u) := by simp [splitSign, h1, h2]
          rw [this] at h
          exact h
  · rintro ⟨w, sign, u, rfl, hw, hsign, hu⟩
    have hhead : ∀ c, u.head? = some c → isSpaceC c = false ∧ c ≠ '-' ∧ c ≠ '+' := by
      intro c hc
      rcases hu with ⟨d, t, rfl, hd⟩ | ⟨d, t, rfl, hd⟩ | ⟨a, b, d, t, rfl, hd⟩
      · simp only [List.head?_cons, Option.some.injEq] at hc
        subst hc
        exact isDigit_not_space hd
      · simp only [List.head?_cons, Option.some.injEq] at hc
        subst hc
        decide
      · simp only [List.head?_cons, Option.some.injEq] at hc
        subst hc
        have hl : a.toLower = 'i' ∨ a.toLower = 'n' := by
          rcases hd with hd | hd
          · injection hd with hd _; exact Or.inl hd
          · injection hd with hd _; exact Or.inr hd
        refine ⟨?_, ?_, ?_⟩
        · by_contra hc
          have : isSpaceC a = true := by simpa using hc
          unfold isSpaceC at this
          simp only [Bool.or_eq_true, beq_iff_eq] at this
          rcases this with ((((rfl | rfl) | rfl) | rfl) | rfl) | rfl <;> revert hl <;> decide
        · rintro rfl; revert hl; decide
        · rintro rfl; revert hl; decide
    have hdrop : (w ++ sign.toList ++ u).dropWhile isSpaceC = sign.toList ++ u := by
      rw [List.append_assoc]
      refine (takeWhile_append_stop hw ?_).2
      intro c hc
      cases sign with
      | none => exact (hhead c hc).1
      | some s =>
        simp only [Option.toList_some, List.cons_append, List.head?_cons, Option.some.injEq] at hc
        subst hc
        rcases hsign s rfl with rfl | rfl <;> decide
    rw [hdrop, splitSign_toList sign u hsign (fun c hc => (hhead c hc).2)]
    exact hu

/-! Concrete cases. -/

/-- A library that satisfies the assumptions: rounding to nearest, and underflow reported for every non-zero number in the subnormal range. -/
def libEx : FpLib := ⟨roundDouble, fun v => decide (v ≠ 0 ∧ |v| < (2 : ℚ) ^ (-1022 : ℤ))⟩

theorem libEx_ok : LibOk libEx := ⟨roundDouble_nearest, fun v h => by simpa [libEx] using h⟩

example : dblToString (.fin (-5 / 2)) = "-2.500000".toList := by decide +kernel
example : dblToString .negZero = "-0.000000".toList := by decide +kernel
example : dblToString (.fin (1 / 128)) = "0.007812".toList := by decide +kernel
example : dblToString (.fin (3 / 128)) = "0.023438".toList := by decide +kernel
example : dblToString (.inf true) = "-inf".toList := by decide +kernel
example : scanMagnitude "1.25e2,".toList = some (.num 125) := by decide +kernel
example : scanMagnitude "0x1.8p1".toList = some (.num 3) := by decide +kernel
example : scanMagnitude "0xg".toList = some (.num 0) := by decide +kernel
example : scanMagnitude "Infinity".toList = some .inf := by decide +kernel
example : scanMagnitude ".".toList = none := by decide +kernel

/-- A numeral with all parts. -/
def numeralEx : Numeral := ⟨some '-', ['1'], some ['2', '5'], some ('e', some '+', ['2'])⟩

theorem numeralEx_ok : numeralEx.Ok ∧ numeralEx.text = "-1.25e+2".toList ∧ numeralEx.value = -125 := by
  refine ⟨⟨by rintro c ⟨⟩; decide, by decide, by rintro f ⟨⟩; decide, by decide, by rintro e s d ⟨⟩; exact ⟨Or.inl rfl, by rintro c ⟨⟩; decide, by decide, by decide⟩⟩,
    by decide, by decide +kernel⟩

example : ∃ y, ThroughText libEx (.fin (1 / 64)) y ∧ y = .fin (1 / 64) :=
  ⟨_, C73_exact libEx libEx_ok _ (1 / 64) ⟨⟨1, -6, by norm_num, by norm_num, by norm_num⟩, by
    have : |(1 : ℚ) / 64| < 1 := by rw [abs_of_pos (by norm_num)]; norm_num
    exact this.trans (one_lt_pow₀ (by norm_num) (by norm_num))⟩ rfl (Or.inl ⟨1, by norm_num⟩), rfl⟩

example : (libFp libEx).stod "abc".toList = .error (.exc .invalidArgument) := by
  have h : scanMagnitude (splitSign ("abc".toList.dropWhile isSpaceC)).2 = none := by decide +kernel
  exact (stod_invalid (L := libEx) _).2 h

/-- A data frame with one numeric column. -/
def frameEx : DF (julesRules (libFp libEx)) := ⟨2, [⟨['a'], Column.ofList (C := julesRules (libFp libEx)) JTy.numeric [.negZero, .fin (1 / 64)]⟩], [(['a'], 0)]⟩

theorem frameEx_ok : IsNumericFrame (libFp libEx) frameEx [['a']] [[.negZero, .fin (1 / 64)]] ∧ 0 < frameEx.rows ∧ DistinctNames [['a']] ∧
    (∀ x ∈ [['a']], '\n' ∉ x ∧ '\t' ∉ x) ∧ [['a']].getLast? ≠ some [] := by
  refine ⟨⟨rfl, by decide, rfl⟩, by decide, ?_, by decide, by decide⟩
  intro i j x h1 h2 _
  have h3 := (List.getElem?_eq_some_iff.1 h1).1
  have h4 := (List.getElem?_eq_some_iff.1 h2).1
  simp only [List.length_cons, List.length_nil] at h3 h4
  omega

/-! ### The hypotheses hold in concrete cases -/

theorem f64_64 : IsF64 (.fin (1 / 64)) := ⟨⟨1, -6, by norm_num, by norm_num, by norm_num⟩, by
    have : |(1 : ℚ) / 64| < 1 := by rw [abs_of_pos (by norm_num)]; norm_num
    exact this.trans (one_lt_pow₀ (by norm_num) (by norm_num))⟩

example := C73_text libEx (.fin (1 / 64)) (1 / 64) rfl
example := C73_read libEx libEx_ok numeralEx numeralEx_ok.1 [' '] [','] (by decide) (by simp [Stops])
example := C73_close libEx libEx_ok _ f64_64
example := C73_stable libEx libEx_ok _ _ f64_64 (cyc_ok libEx_ok f64_64)
example := C73_exact_iff libEx libEx_ok _ (1 / 64) f64_64 rfl
example := C73_monotone libEx libEx_ok _ _ _ _ (1 / 64) (1 / 64) _ _ f64_64 f64_64 (C73_close libEx libEx_ok _ f64_64).choose_spec.1 (C73_close libEx libEx_ok _ f64_64).choose_spec.1
  rfl rfl ((C73_close libEx libEx_ok _ f64_64).choose_spec.2.2.2.2 _ rfl).choose_spec.1 ((C73_close libEx libEx_ok _ f64_64).choose_spec.2.2.2.2 _ rfl).choose_spec.1 (le_refl _)
example := C73_lossy libEx libEx_ok
example := C73_contract libEx libEx_ok
example := C73_column libEx libEx_ok [.negZero, .fin (1 / 64)] (by intro x hx; rcases List.mem_pair.1 hx with rfl | rfl; exact trivial; exact f64_64)
example := C73_frame libEx libEx_ok frameEx _ _ frameEx_ok.1 (by decide) frameEx_ok.2.1 frameEx_ok.2.2.1 frameEx_ok.2.2.2.1 frameEx_ok.2.2.2.2
  (by intro c hc x hx; rw [List.mem_singleton.1 hc] at hx; rcases List.mem_pair.1 hx with rfl | rfl; exact trivial; exact f64_64)

end Jules.Props

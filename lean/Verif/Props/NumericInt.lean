import Verif.Props.Numeric
import Mathlib.Data.Int.ModEq
/-
C30, C31: integers (products, variances) and the minimum of numbers with NaNs among them.
-/
namespace Jules.Props

/-- With NaNs among the elements (and a start that is a number, as the default is), `min` is the minimum of the numbers. -/
theorem C30_min_nan {α : Type} [LinearOrder α] (l : List (Option α)) (init : α) :
    minL (ltNaN α) l (some init) = some (minL (ltOf α) (l.filterMap id) init) := by
  induction l generalizing init with
  | nil => rfl
  | cons y ys ih =>
    cases y with
    | none => simp only [minL, ltNaN]; simpa using ih init
    | some y =>
      by_cases h : y < init
      · simpa [minL, ltNaN, h] using ih y
      · simpa [minL, ltNaN, h] using ih init

example : minL (ltNaN Int) [none, some 3, none, some (-2)] (some 9) = some (-2) := by decide

theorem whichMax_nan {α : Type} [LinearOrder α] (s0 : α) (l : List (Option α)) : ∀ (start : α) (pos best : Nat), s0 ≤ start →
    whichMaxLoop (ltNaN α) l (some start) pos best = whichMaxLoop (ltOf α) (l.map fun o => o.getD s0) start pos best := by
  induction l with
  | nil => intros; rfl
  | cons y ys ih =>
    intro start pos best h0
    cases y with
    | none =>
      have : ¬ start < s0 := not_lt.2 h0
      simp only [whichMaxLoop, ltNaN, List.map_cons, Option.getD_none, decide_false]
      simpa [this] using ih start (pos + 1) best h0
    | some y =>
      by_cases h : start < y
      · simpa [whichMaxLoop, ltNaN, h] using ih y (pos + 1) pos (le_trans h0 (le_of_lt h))
      · simpa [whichMaxLoop, ltNaN, h] using ih start (pos + 1) best h0

theorem whichMin_nan {α : Type} [LinearOrder α] (s0 : α) (l : List (Option α)) : ∀ (start : α) (pos best : Nat), start ≤ s0 →
    whichMinLoop (ltNaN α) l (some start) pos best = whichMinLoop (ltOf α) (l.map fun o => o.getD s0) start pos best := by
  induction l with
  | nil => intros; rfl
  | cons y ys ih =>
    intro start pos best h0
    cases y with
    | none =>
      have : ¬ s0 < start := not_lt.2 h0
      simp only [whichMinLoop, ltNaN, List.map_cons, Option.getD_none, decide_false]
      simpa [this] using ih start (pos + 1) best h0
    | some y =>
      by_cases h : y < start
      · simpa [whichMinLoop, ltNaN, h] using ih y (pos + 1) pos (le_trans (le_of_lt h) h0)
      · simpa [whichMinLoop, ltNaN, h] using ih start (pos + 1) best h0

/-- With NaNs among the elements: if a number is above the start, `which_max` is the first position of the greatest number; otherwise it is 0, also
when the element there is a NaN. -/
theorem C30_which_max_nan {α : Type} [LinearOrder α] (l : List (Option α)) (start : α) :
    ((∃ x, some x ∈ l ∧ start < x) → ∃ m, l[whichMax (ltNaN α) l (some start)]? = some (some m) ∧ (∀ x, some x ∈ l → x ≤ m) ∧
      ∀ q y, q < whichMax (ltNaN α) l (some start) → l[q]? = some (some y) → y < m) ∧
    ((∀ x, some x ∈ l → x ≤ start) → whichMax (ltNaN α) l (some start) = 0) := by
  unfold whichMax
  rw [whichMax_nan start l start 0 0 (le_refl _)]
  have hmem : ∀ x, some x ∈ l → x ∈ l.map (fun o => o.getD start) := fun x hx => List.mem_map.2 ⟨some x, hx, rfl⟩
  rcases whichMaxLoop_spec (l.map fun o => o.getD start) start 0 0 with ⟨e, hx⟩ | ⟨p, m, e, hp, hm, hx, hq⟩
  · exact ⟨fun ⟨x, h1, h2⟩ => absurd (hx x (hmem x h1)) (not_le.2 h2), fun _ => e⟩
  · rw [e, Nat.zero_add]
    rw [List.getElem?_map] at hp
    have hl : l[p]? = some (some m) := by
      cases hlp : l[p]? with
      | none => rw [hlp] at hp; cases hp
      | some o =>
        rw [hlp] at hp
        cases o with
        | none => simp at hp; exact absurd hm (by rw [hp]; exact lt_irrefl _)
        | some z => simp at hp; rw [hp]
    refine ⟨fun _ => ⟨m, hl, fun x h => hx x (hmem x h), fun q y h1 h2 => hq q y h1 (by rw [List.getElem?_map, h2]; rfl)⟩, fun h => ?_⟩
    exact absurd (h m (List.mem_of_getElem? hl)) (not_le.2 hm)

/-- `which_min` likewise. -/
theorem C30_which_min_nan {α : Type} [LinearOrder α] (l : List (Option α)) (start : α) :
    ((∃ x, some x ∈ l ∧ x < start) → ∃ m, l[whichMin (ltNaN α) l (some start)]? = some (some m) ∧ (∀ x, some x ∈ l → m ≤ x) ∧
      ∀ q y, q < whichMin (ltNaN α) l (some start) → l[q]? = some (some y) → m < y) ∧
    ((∀ x, some x ∈ l → start ≤ x) → whichMin (ltNaN α) l (some start) = 0) := by
  unfold whichMin
  rw [whichMin_nan start l start 0 0 (le_refl _)]
  have hmem : ∀ x, some x ∈ l → x ∈ l.map (fun o => o.getD start) := fun x hx => List.mem_map.2 ⟨some x, hx, rfl⟩
  rcases whichMinLoop_spec (l.map fun o => o.getD start) start 0 0 with ⟨e, hx⟩ | ⟨p, m, e, hp, hm, hx, hq⟩
  · exact ⟨fun ⟨x, h1, h2⟩ => absurd (hx x (hmem x h1)) (not_le.2 h2), fun _ => e⟩
  · rw [e, Nat.zero_add]
    rw [List.getElem?_map] at hp
    have hl : l[p]? = some (some m) := by
      cases hlp : l[p]? with
      | none => rw [hlp] at hp; cases hp
      | some o =>
        rw [hlp] at hp
        cases o with
        | none => simp at hp; exact absurd hm (by rw [hp]; exact lt_irrefl _)
        | some z => simp at hp; rw [hp]
    refine ⟨fun _ => ⟨m, hl, fun x h => hx x (hmem x h), fun q y h1 h2 => hq q y h1 (by rw [List.getElem?_map, h2]; rfl)⟩, fun h => ?_⟩
    exact absurd (h m (List.mem_of_getElem? hl)) (not_le.2 hm)

/-- Non-vacuous: the greatest number after two NaNs; and a range whose only number equals the start, so that the position of a NaN is returned. -/
example : whichMax (ltNaN Int) [none, some 3, none, some 8, some 8] (some 0) = 3 := by decide
example : whichMin (ltNaN Int) [none, some 3, none, some (-8), some (-8)] (some 9) = 3 := by decide
example : whichMax (ltNaN Int) [none, some 0] (some 0) = 0 := (C30_which_max_nan [none, some 0] (0 : Int)).2 (by simp)

/-- The limits of the signed types: a one-element sum is defined exactly when the element is at least `-2^(w-1)` and less than `2^(w-1)`. -/
theorem C31_signed_limits (w : Nat) (x : Int) : sumL (signedOps w) [x] 0 = .ok x ↔ -2 ^ (w - 1) ≤ x ∧ x < 2 ^ (w - 1) := by
  have hs : sumL (signedOps w) [x] 0 = (do let s ← signed w (0 + x); .ok s) := rfl
  rw [hs, Int.zero_add]
  unfold signed fitsS
  by_cases h : -2 ^ (w - 1) ≤ x ∧ x < 2 ^ (w - 1)
  · simp [h.1, h.2]
  · have : (decide (-2 ^ (w - 1) ≤ x) && decide (x < 2 ^ (w - 1))) = false := by
      rw [Bool.eq_false_iff]; simpa using h
    rw [this]
    simp [h]

example : sumL (signedOps 32) [-2147483648] 0 = .ok (-2147483648) := (C31_signed_limits 32 _).2 (by decide)

/-- Signed integers: the product is exact as long as every partial product is representable; otherwise the behaviour is undefined. -/
theorem C31_prod_signed (w : Nat) (l : List Int) (start : Int) :
    ((∀ k, 1 ≤ k → k ≤ l.length → fitsS w (start * (l.take k).prod) = true) → prodLoop (signedOps w) l start = .ok (start * l.prod)) ∧
    ((∃ k, 1 ≤ k ∧ k ≤ l.length ∧ fitsS w (start * (l.take k).prod) = false) → prodLoop (signedOps w) l start = .error .ub) := by
  induction l generalizing start with
  | nil =>
    refine ⟨fun _ => by simp [prodLoop], ?_⟩
    rintro ⟨k, h1, h2, -⟩
    simp at h2; omega
  | cons x xs ih =>
    have hs : prodLoop (signedOps w) (x :: xs) start = (do let s ← signed w (start * x); prodLoop (signedOps w) xs s) := rfl
    cases hf : fitsS w (start * x) with
    | false =>
      have : signed w (start * x) = .error .ub := by simp [signed, hf]
      rw [hs, this]
      refine ⟨fun h => ?_, fun _ => rfl⟩
      have := h 1 (by omega) (by simp)
      simp [hf] at this
    | true =>
      have : signed w (start * x) = .ok (start * x) := by simp [signed, hf]
      rw [hs, this]
      obtain ⟨ih1, ih2⟩ := ih (start * x)
      refine ⟨fun h => ?_, ?_⟩
      · have := ih1 (fun k hk hkl => by
          have := h (k + 1) (by omega) (by simpa using hkl)
          simpa [List.take_succ_cons, mul_assoc] using this)
        simpa [mul_assoc] using this
      · rintro ⟨k, hk1, hk2, hkf⟩
        cases k with
        | zero => omega
        | succ k =>
          cases k with
          | zero => simp [hf] at hkf
          | succ k => exact ih2 ⟨k + 1, by omega, by simpa using hk2, by simpa [List.take_succ_cons, mul_assoc] using hkf⟩

example : prodLoop (signedOps 32) [-3, 5, 7] 1 = .ok (-105) := (C31_prod_signed 32 [-3, 5, 7] 1).1 (by decide)
example : prodLoop (signedOps 32) [65536, 65536] 1 = .error .ub := (C31_prod_signed 32 [65536, 65536] 1).2 ⟨2, by decide, by decide, by decide⟩

theorem devLoop_unsigned (mu : Nat) (hmu : mu < W64) (l : List Nat) (r : Nat) (hr : r < W64) :
    ∃ v, devLoop unsignedOps mu l r = .ok v ∧ v < W64 ∧ (v : Int) = ((r : Int) + (l.map fun (x : Nat) => ((x : Int) - mu) ^ 2).sum) % 2 ^ 64 := by
  have hW : (W64 : Int) = 2 ^ 64 := by decide
  induction l generalizing r with
  | nil =>
    refine ⟨r, rfl, hr, ?_⟩
    simp only [List.map_nil, List.sum_nil, add_zero]
    rw [Int.emod_eq_of_lt (by omega)]
    rw [← hW]; exact_mod_cast hr
  | cons x xs ih =>
    have hs : devLoop unsignedOps mu (x :: xs) r =
        devLoop unsignedOps mu xs ((r + ((x + (W64 - mu % W64)) % W64 * ((x + (W64 - mu % W64)) % W64)) % W64) % W64) := rfl
    obtain ⟨v, h1, h2, h3⟩ := ih _ (Nat.mod_lt (r + ((x + (W64 - mu % W64)) % W64 * ((x + (W64 - mu % W64)) % W64)) % W64) (by decide))
    refine ⟨v, by rw [hs, h1], h2, ?_⟩
    rw [h3, List.map_cons, List.sum_cons]
    have hmod : ∀ n : Nat, ((n % W64 : Nat) : Int) ≡ (n : Int) [ZMOD 2 ^ 64] := fun n => by
      rw [Int.natCast_mod, hW]
      exact Int.mod_modEq _ _
    have hd : (((x + (W64 - mu % W64)) % W64 : Nat) : Int) ≡ (x : Int) - mu [ZMOD 2 ^ 64] := by
      refine (hmod _).trans ?_
      rw [Nat.mod_eq_of_lt hmu, Nat.cast_add, Nat.cast_sub hmu.le, hW, ← add_sub_assoc, add_sub_right_comm]
      exact Int.add_modEq_right
    generalize (x + (W64 - mu % W64)) % W64 = d at hd
    show _ ≡ _ [ZMOD 2 ^ 64]
    rw [← add_assoc]
    refine Int.ModEq.add_right _ ?_
    refine (hmod _).trans ?_
    rw [Nat.cast_add]
    refine Int.ModEq.add_left _ ?_
    refine (hmod _).trans ?_
    rw [sq, Nat.cast_mul]
    exact hd.mul hd

/-- **C31** (variance of unsigned integers). Of at least two numbers whose sum does not wrap: the squared deviations from the mean rounded down are
added modulo 2^64 (differences below zero wrap, but their squares are right modulo 2^64) and divided, rounding down, by one less than the number
of elements. -/
theorem C31_var_unsigned (l : List Nat) (h : 2 ≤ l.length) (hlen : l.length < 2 ^ 64) (hs : l.sum < 2 ^ 64) :
    ∃ v, var unsignedOps l 0 = .ok v ∧
      (v : Int) = ((l.map fun (x : Nat) => ((x : Int) - (l.sum / l.length : Nat)) ^ 2).sum % 2 ^ 64) / ((l.length : Int) - 1) := by
  have hW : W64 = 2 ^ 64 := by decide
  have hne : l ≠ [] := by rintro rfl; simp at h
  have hmu : l.sum / l.length < W64 := lt_of_le_of_lt (Nat.div_le_self _ _) (by rw [hW]; exact hs)
  obtain ⟨r, h1, h2, h3⟩ := devLoop_unsigned (l.sum / l.length) hmu l 0 (by decide)
  have hm := (C31_mean_unsigned l hne (by rw [hW]; exact hlen) (by rw [hW]; exact hs)).1
  have e : toU64 ((l.length : Int) - 1) = l.length - 1 := by
    unfold toU64
    rw [Int.emod_eq_of_lt (by omega)]
    · omega
    · have : (W64 : Int) = 2 ^ 64 := by decide
      rw [this]; omega
  have hz : ((l.length : Int) - 1) ≠ 0 := by omega
  have hv : var unsignedOps l 0 = .ok (r / (l.length - 1)) := by
    unfold var
    rw [hm, res_ok_bind, h1, res_ok_bind]
    show (if (l.length : Int) - 1 = 0 then _ else _) = _
    rw [if_neg hz, e]
  refine ⟨_, hv, ?_⟩
  rw [Int.natCast_ediv, h3, Nat.cast_zero, zero_add]
  congr 1
  omega

/-- The wrapped differences do no harm: the variance of `{1, 5, 9}` is 16. -/
example : ∃ v, var unsignedOps [1, 5, 9] 0 = .ok v ∧ (v : Int) = 16 := by
  obtain ⟨v, h1, h2⟩ := C31_var_unsigned [1, 5, 9] (by decide) (by decide) (by decide)
  exact ⟨v, h1, by rw [h2]; decide +kernel⟩

theorem wrapS_small (w : Nat) (hw1 : 1 ≤ w) (x : Int) (h0 : 0 ≤ x) (h1 : x < 2 ^ (w - 1)) : wrapS w x = x := by
  obtain ⟨v, rfl⟩ : ∃ v, w = v + 1 := ⟨w - 1, by omega⟩
  unfold wrapS
  rw [Nat.add_sub_cancel] at h1
  have h2 : ((2 ^ (v + 1) : Nat) : Int) = 2 * 2 ^ v := by push_cast; ring
  rw [Int.bmod_def, h2]
  rw [Int.emod_eq_of_lt h0 (by omega), if_pos (by omega)]

theorem sum_sq_nonneg (mu : Int) (l : List Int) : 0 ≤ (l.map fun x => (x - mu) ^ 2).sum := by
  induction l with
  | nil => simp
  | cons x xs ih => rw [List.map_cons, List.sum_cons]; have := sq_nonneg (x - mu); omega

theorem devLoop_signed (w : Nat) (hw1 : 1 ≤ w) (hw : w ≤ 64) (mu : Int) (l : List Int) (r : Int) (hr : 0 ≤ r)
    (hs : r + (l.map fun x => (x - mu) ^ 2).sum < 2 ^ (w - 1)) :
    devLoop (signedOps w) mu l r = .ok (r + (l.map fun x => (x - mu) ^ 2).sum) := by
  have hp : (2 : Int) ^ (w - 1) ≤ 2 ^ 63 := by
    have : (2 : Nat) ^ (w - 1) ≤ 2 ^ 63 := Nat.pow_le_pow_right (by omega) (by omega)
    exact_mod_cast this
  induction l generalizing r with
  | nil => simp [devLoop]
  | cons x xs ih =>
    have hn : 0 ≤ (xs.map fun x => (x - mu) ^ 2).sum := sum_sq_nonneg _ _
    simp only [List.map_cons, List.sum_cons] at hs ⊢
    have hq : 0 ≤ (x - mu) ^ 2 := sq_nonneg _
    have hd : |x - mu| ≤ (x - mu) ^ 2 := by
      rw [← sq_abs]
      have h0 : 0 ≤ |x - mu| := abs_nonneg _
      rcases h0.eq_or_lt with h0 | h0
      · rw [← h0]; decide
      · nlinarith
    have hd' := abs_le.1 hd
    have s1 : signed 64 (x - mu) = .ok (x - mu) := by
      have : fitsS 64 (x - mu) = true := by
        simp only [fitsS, Bool.and_eq_true, decide_eq_true_eq]; omega
      simp [signed, this]
    have s2 : signed 64 ((x - mu) * (x - mu)) = .ok ((x - mu) ^ 2) := by
      have : fitsS 64 ((x - mu) ^ 2) = true := by
        simp only [fitsS, Bool.and_eq_true, decide_eq_true_eq]; omega
      rw [← sq]; simp [signed, this]
    have s3 : signed 64 (r + (x - mu) ^ 2) = .ok (r + (x - mu) ^ 2) := by
      have : fitsS 64 (r + (x - mu) ^ 2) = true := by
        simp only [fitsS, Bool.and_eq_true, decide_eq_true_eq]; omega
      simp [signed, this]
    have s4 : wrapS w (r + (x - mu) ^ 2) = r + (x - mu) ^ 2 := wrapS_small w hw1 _ (by omega) (by omega)
    have hstep : devLoop (signedOps w) mu (x :: xs) r = devLoop (signedOps w) mu xs (r + (x - mu) ^ 2) := by
      simp only [devLoop, signedOps, s1, s2, s3, s4, res_ok_bind]
    rw [hstep, ih _ (by omega) (by omega), add_assoc]

/-- **C31** (variance of signed integers). Of at least two numbers: if the sums and the total of the squared deviations fit the type, `var` is that
total, of the deviations from the mean rounded towards zero, divided by one less than the number of elements and rounded down. -/
theorem C31_var_signed (w : Nat) (hw1 : 1 ≤ w) (hw : w ≤ 64) (l : List Int) (h : 2 ≤ l.length)
    (hf : ∀ k, 1 ≤ k → k ≤ l.length → fitsS w (l.take k).sum = true)
    (hs : (l.map fun x => (x - l.sum.tdiv l.length) ^ 2).sum < 2 ^ (w - 1)) :
    var (signedOps w) l 0 = .ok ((l.map fun x => (x - l.sum.tdiv l.length) ^ 2).sum / ((l.length : Int) - 1)) := by
  have hne : l ≠ [] := by rintro rfl; simp at h
  have h1 := devLoop_signed w hw1 hw (l.sum.tdiv l.length) l 0 (le_refl _) (by simpa using hs)
  have hz : ((l.length : Int) - 1) ≠ 0 := by omega
  have hn : 0 ≤ (l.map fun x => (x - l.sum.tdiv l.length) ^ 2).sum := sum_sq_nonneg _ _
  unfold var
  rw [C31_mean_signed w l hne hf, res_ok_bind, h1, res_ok_bind, zero_add]
  show (if (l.length : Int) - 1 = 0 then _ else _) = _
  rw [if_neg hz, Int.tdiv_eq_ediv_of_nonneg hn]

/-- The variance of `{-7, 1, 2}`: the mean is -4/3, rounded to -1; (36 + 4 + 9) / 2 is 24. -/
example : var (signedOps 32) [-7, 1, 2] 0 = .ok 24 := by
  rw [C31_var_signed 32 (by decide) (by decide) [-7, 1, 2] (by decide) (by decide) (by decide)]; decide

end Jules.Props

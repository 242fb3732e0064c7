import Verif.Spec.Double
/-
Facts about rounding to nearest.
-/
namespace Jules.Spec

theorem Nearest.mono {rnd : ℚ → ℚ} (h : Nearest rnd) {x y : ℚ} (hxy : x ≤ y) : rnd x ≤ rnd y := by
  rcases hxy.eq_or_lt with rfl | hlt
  · exact le_refl _
  by_contra hc
  push Not at hc
  have h1 := (h x).2 _ (h y).1
  have h2 := (h y).2 _ (h x).1
  rcases le_total x (rnd y) with ha | ha
  · -- x ≤ ry < rx
    rw [abs_of_nonpos (by linarith), abs_of_nonpos (by linarith)] at h1
    linarith
  · rcases le_total (rnd x) y with hb | hb
    · rw [abs_of_nonneg (by linarith), abs_of_nonneg (by linarith)] at h2
      linarith
    · rw [abs_of_nonpos (a := y - rnd x) (by linarith), abs_of_nonneg (by linarith)] at h2
      rcases le_total x (rnd x) with hd | hd
      · rw [abs_of_nonpos (by linarith), abs_of_nonneg (by linarith)] at h1
        linarith
      · linarith

theorem Nearest.fix {rnd : ℚ → ℚ} (h : Nearest rnd) {x : ℚ} (hx : IsDouble x) : rnd x = x := by
  have := (h x).2 x hx
  rw [sub_self, abs_zero] at this
  have := abs_nonpos_iff.1 this
  linarith

theorem isDouble_zero : IsDouble 0 := ⟨0, 0, by norm_num, by norm_num, by simp⟩

theorem isDouble_one : IsDouble 1 := ⟨1, 0, by norm_num, by norm_num, by simp⟩

/-- A `double` less than 1 is at most 1 - 2⁻⁵³. -/
theorem IsDouble.lt_one {c : ℚ} (hc : IsDouble c) (h : c < 1) : c ≤ 1 - (2 : ℚ) ^ (-53 : ℤ) := by
  obtain ⟨m, e, hm, -, rfl⟩ := hc
  have hm' : m < 2 ^ 53 := lt_of_le_of_lt (le_abs_self m) hm
  have h53 : (2 : ℚ) ^ (-53 : ℤ) = 1 / 2 ^ 53 := by norm_num
  rcases le_or_gt m 0 with h0 | h0
  · have : (m : ℚ) * (2 : ℚ) ^ e ≤ 0 := mul_nonpos_of_nonpos_of_nonneg (by exact_mod_cast h0) (by positivity)
    rw [h53]
    refine this.trans ?_
    norm_num
  rcases le_or_gt e (-53) with he | he
  · have h1 : (2 : ℚ) ^ e ≤ (2 : ℚ) ^ (-53 : ℤ) := zpow_le_zpow_right₀ (by norm_num) he
    have h2 : (m : ℚ) ≤ 2 ^ 53 - 1 := by
      have : m ≤ 2 ^ 53 - 1 := by omega
      exact_mod_cast this
    have h3 : (0 : ℚ) ≤ (m : ℚ) := by exact_mod_cast h0.le
    calc (m : ℚ) * (2 : ℚ) ^ e ≤ (2 ^ 53 - 1) * (2 : ℚ) ^ (-53 : ℤ) := mul_le_mul h2 h1 (by positivity) (by norm_num)
      _ = 1 - (2 : ℚ) ^ (-53 : ℤ) := by rw [h53]; norm_num
  · -- -53 < e < 0
    have he0 : e < 0 := by
      by_contra hc
      push Not at hc
      have h1 : (1 : ℚ) ≤ (2 : ℚ) ^ e := one_le_zpow₀ (by norm_num) hc
      have h2 : (1 : ℚ) ≤ m := by exact_mod_cast h0
      nlinarith
    obtain ⟨k, rfl⟩ : ∃ k : ℕ, e = -(k : ℤ) := ⟨e.natAbs, by omega⟩
    have hk : k ≤ 53 := by omega
    have hp : (0 : ℚ) < (2 : ℚ) ^ k := by positivity
    rw [zpow_neg, zpow_natCast, ← div_eq_mul_inv] at h ⊢
    rw [div_lt_one hp] at h
    have h1 : m < 2 ^ k := by exact_mod_cast h
    have h2 : (m : ℚ) ≤ 2 ^ k - 1 := by
      have : m ≤ 2 ^ k - 1 := by omega
      exact_mod_cast this
    rw [div_le_iff₀ hp, h53]
    have h3 : (2 : ℚ) ^ k ≤ 2 ^ 53 := pow_le_pow_right₀ (by norm_num) hk
    have h4 : (1 : ℚ) / 2 ^ 53 * 2 ^ k ≤ 1 := by
      rw [div_mul_eq_mul_div, one_mul, div_le_one (by norm_num)]
      exact h3
    linarith

/-- A positive `double` at least 1 with a full significand. -/
theorem IsDouble.normal {d : ℚ} (hd : IsDouble d) (h : 1 ≤ d) : ∃ m e : ℤ, 2 ^ 52 ≤ m ∧ m < 2 ^ 53 ∧ -52 ≤ e ∧ d = m * (2 : ℚ) ^ e := by
  obtain ⟨m, e, hm, -, rfl⟩ := hd
  have h0 : 0 < m := by
    by_contra hc
    push Not at hc
    have : (m : ℚ) * (2 : ℚ) ^ e ≤ 0 := mul_nonpos_of_nonpos_of_nonneg (by exact_mod_cast hc) (by positivity)
    linarith
  have hm' : m < 2 ^ 53 := lt_of_le_of_lt (le_abs_self m) hm
  -- shift the significand
  obtain ⟨n, rfl⟩ : ∃ n : ℕ, m = n := ⟨m.natAbs, by omega⟩
  have hn0 : n ≠ 0 := by omega
  have hn : n < 2 ^ 53 := by exact_mod_cast hm'
  set k := Nat.log 2 n with hk
  have hk1 : 2 ^ k ≤ n := Nat.pow_log_le_self 2 hn0
  have hk2 : n < 2 ^ (k + 1) := Nat.lt_pow_succ_log_self (by norm_num) n
  have hk3 : k ≤ 52 := by
    by_contra hc
    push Not at hc
    have : 2 ^ 53 ≤ 2 ^ k := Nat.pow_le_pow_right (by norm_num) hc
    omega
  have hpow : 2 ^ k * 2 ^ (52 - k) = 2 ^ 52 := by rw [← pow_add]; congr 1; omega
  have hpow' : 2 ^ (k + 1) * 2 ^ (52 - k) = 2 ^ 53 := by rw [← pow_add]; congr 1; omega
  have hval : ((n : ℤ) : ℚ) * (2 : ℚ) ^ e = ((n * 2 ^ (52 - k) : ℕ) : ℤ) * (2 : ℚ) ^ (e - (52 - k : ℕ)) := by
    rw [zpow_sub₀ (by norm_num), zpow_natCast]
    push_cast
    field_simp
  have hge : 2 ^ 52 ≤ n * 2 ^ (52 - k) := by rw [← hpow]; exact Nat.mul_le_mul_right _ hk1
  have hlt : n * 2 ^ (52 - k) < 2 ^ 53 := by rw [← hpow']; exact Nat.mul_lt_mul_of_pos_right hk2 (by positivity)
  refine ⟨((n * 2 ^ (52 - k) : ℕ) : ℤ), e - (52 - k : ℕ), by exact_mod_cast hge, by exact_mod_cast hlt, ?_, hval⟩
  by_contra hc
  push Not at hc
  have h1 : (2 : ℚ) ^ (e - (52 - k : ℕ)) ≤ (2 : ℚ) ^ (-53 : ℤ) := zpow_le_zpow_right₀ (by norm_num) (by omega)
  have h2 : (((n * 2 ^ (52 - k) : ℕ) : ℤ) : ℚ) < 2 ^ 53 := by exact_mod_cast hlt
  rw [hval] at h
  have h3 : (((n * 2 ^ (52 - k) : ℕ) : ℤ) : ℚ) * (2 : ℚ) ^ (e - (52 - k : ℕ)) < 2 ^ 53 * (2 : ℚ) ^ (-53 : ℤ) := by
    apply mul_lt_mul h2 h1 (by positivity) (by norm_num)
  norm_num at h3
  norm_num at h
  linarith

/-- The rounded product of a `double` at least 1 and a `double` in [0, 1) is less than the former. -/
theorem Nearest.mul_lt {rnd : ℚ → ℚ} (hr : Nearest rnd) {d c : ℚ} (hd : IsDouble d) (h1 : 1 ≤ d) (hc : IsDouble c) (hc1 : c < 1) :
    rnd (d * c) < d := by
  obtain ⟨m, e, hm1, hm2, he, rfl⟩ := hd.normal h1
  have hcl := hc.lt_one hc1
  set u : ℚ := (2 : ℚ) ^ e with hu
  have hu0 : 0 < u := by positivity
  set D : ℚ := m * u with hD
  have hm1' : (2 : ℚ) ^ 52 ≤ m := by exact_mod_cast hm1
  -- the distance from the exact product to D is at least half a unit
  have hdist : u / 2 ≤ D - D * c := by
    have h53 : (2 : ℚ) ^ (-53 : ℤ) = 1 / 2 ^ 53 := by norm_num
    rw [h53] at hcl
    have : D * (1 / 2 ^ 53) ≤ D * (1 - c) := mul_le_mul_of_nonneg_left (by linarith) (by linarith)
    have h2 : u / 2 ≤ D * (1 / 2 ^ 53) := by
      rw [hD]
      have : (2 : ℚ) ^ 52 * u ≤ m * u := mul_le_mul_of_nonneg_right hm1' hu0.le
      have h3 : u / 2 = (2 : ℚ) ^ 52 * u * (1 / 2 ^ 53) := by ring
      rw [h3]
      exact mul_le_mul_of_nonneg_right this (by norm_num)
    linarith
  by_contra hlt
  push Not at hlt
  have hpd : IsDouble (((m - 1 : ℤ) : ℚ) * u) := ⟨m - 1, e, by rw [abs_of_nonneg (by omega)]; omega, by omega, rfl⟩
  have hp : ((m - 1 : ℤ) : ℚ) * u = D - u := by rw [hD]; push_cast; ring
  rw [hp] at hpd
  have hn := (hr (D * c)).2 _ hpd
  rw [abs_of_nonpos (a := D * c - rnd (D * c)) (by linarith)] at hn
  rcases le_total (D * c) (D - u) with hx | hx
  · rw [abs_of_nonpos (by linarith)] at hn
    linarith
  · rw [abs_of_nonneg (by linarith)] at hn
    -- exactly half way: then the product itself is a double
    have hhalf : D * c = D - u / 2 := by linarith
    by_cases hmm : m = 2 ^ 52
    · have hself : IsDouble (D * c) := by
        refine ⟨2 ^ 53 - 1, e - 1, by norm_num, by omega, ?_⟩
        rw [hhalf, hD, hmm, zpow_sub₀ (by norm_num), ← hu]
        push_cast
        ring
      rw [hr.fix hself] at hlt
      linarith
    · have hm3 : (2 : ℚ) ^ 52 + 1 ≤ m := by
        have : (2 : ℤ) ^ 52 + 1 ≤ m := by omega
        exact_mod_cast this
      have h53 : (2 : ℚ) ^ (-53 : ℤ) = 1 / 2 ^ 53 := by norm_num
      rw [h53] at hcl
      have h2 : D * (1 / 2 ^ 53) ≤ D * (1 - c) := mul_le_mul_of_nonneg_left (by linarith) (by linarith)
      have h3 : u / 2 + u / 2 ^ 53 ≤ D * (1 / 2 ^ 53) := by
        rw [hD]
        have : ((2 : ℚ) ^ 52 + 1) * u ≤ m * u := mul_le_mul_of_nonneg_right hm3 hu0.le
        have h4 : u / 2 + u / 2 ^ 53 = ((2 : ℚ) ^ 52 + 1) * u * (1 / 2 ^ 53) := by ring
        rw [h4]
        exact mul_le_mul_of_nonneg_right this (by norm_num)
      have h5 : 0 < u / 2 ^ 53 := by positivity
      linarith

/-- The exponent of the unit in the last place. -/
def ulpExp (x : ℚ) : ℤ := max (-1074) (Int.log 2 |x| - 52)

/-- Rounding to nearest, ties upwards. -/
def roundDouble (x : ℚ) : ℚ := round (x / (2 : ℚ) ^ ulpExp x) * (2 : ℚ) ^ ulpExp x

theorem roundDouble_grid (x : ℚ) (z : ℤ) : |x - roundDouble x| ≤ |x - z * (2 : ℚ) ^ ulpExp x| := by
  unfold roundDouble
  generalize hu : (2 : ℚ) ^ ulpExp x = u
  have hu0 : 0 < u := by rw [← hu]; positivity
  have h1 : x - round (x / u) * u = (x / u - round (x / u)) * u := by field_simp
  have h2 : x - z * u = (x / u - z) * u := by field_simp
  rw [h1, h2, abs_mul, abs_mul]
  exact mul_le_mul_of_nonneg_right (round_le _ _) (abs_nonneg _)

/-- There is a correct rounding: the theorems about all of them are not vacuous. -/
theorem roundDouble_nearest : Nearest roundDouble := by
  intro x
  by_cases hx0 : x = 0
  · have : roundDouble x = 0 := by simp [roundDouble, hx0]
    rw [this]
    refine ⟨isDouble_zero, fun y _ => by rw [hx0]; simp⟩
  have hax : 0 < |x| := abs_pos.2 hx0
  have hlt : |x| < (2 : ℚ) ^ (ulpExp x + 53) := by
    have h1 := Int.lt_zpow_succ_log_self (b := 2) (by norm_num) |x|
    refine lt_of_lt_of_le (by exact_mod_cast h1) (zpow_le_zpow_right₀ (by norm_num) ?_)
    unfold ulpExp
    omega
  constructor
  · -- the significand has at most 53 bits, or is 2^53
    have hb : |round (x / (2 : ℚ) ^ ulpExp x)| ≤ 2 ^ 53 := by
      have hq : |x / (2 : ℚ) ^ ulpExp x| ≤ 2 ^ 53 := by
        rw [abs_div, abs_of_pos (a := (2 : ℚ) ^ ulpExp x) (by positivity), div_le_iff₀ (by positivity)]
        rw [zpow_add₀ (by norm_num)] at hlt
        have : (2 : ℚ) ^ (53 : ℤ) = 2 ^ 53 := by norm_num
        rw [this] at hlt
        linarith
      rw [abs_le] at hq ⊢
      have hmono : ∀ a b : ℚ, a ≤ b → round a ≤ round b := by
        intro a b hab
        rw [round_eq, round_eq]
        exact Int.floor_le_floor (by linarith)
      constructor
      · have := hmono _ _ hq.1
        have e1 : round (-(2 : ℚ) ^ 53) = -2 ^ 53 := by
          have : (-(2 : ℚ) ^ 53) = ((-2 ^ 53 : ℤ) : ℚ) := by norm_num
          rw [this, round_intCast]
        rw [e1] at this
        exact this
      · have := hmono _ _ hq.2
        have e1 : round ((2 : ℚ) ^ 53) = 2 ^ 53 := by
          have : ((2 : ℚ) ^ 53) = ((2 ^ 53 : ℤ) : ℚ) := by norm_num
          rw [this, round_intCast]
        rw [e1] at this
        exact this
    have hge : -1074 ≤ ulpExp x := le_max_left _ _
    rcases hb.lt_or_eq with hlt53 | heq
    · exact ⟨_, _, hlt53, hge, rfl⟩
    · have hsh : (2 : ℚ) ^ (ulpExp x + 1) = 2 * (2 : ℚ) ^ ulpExp x := by rw [zpow_add₀ (by norm_num)]; ring
      rcases abs_eq (by norm_num : (0 : ℤ) ≤ 2 ^ 53) |>.1 heq with h | h
      · refine ⟨2 ^ 52, ulpExp x + 1, by norm_num, by omega, ?_⟩
        unfold roundDouble
        rw [h, hsh]; push_cast; ring
      · refine ⟨-2 ^ 52, ulpExp x + 1, by norm_num, by omega, ?_⟩
        unfold roundDouble
        rw [h, hsh]; push_cast; ring
  · rintro y ⟨m, e, hm, he, rfl⟩
    rcases le_or_gt (ulpExp x) e with hee | hee
    · -- y is on the grid of x
      obtain ⟨k, hk⟩ : ∃ k : ℕ, e = ulpExp x + k := ⟨(e - ulpExp x).natAbs, by omega⟩
      have : (m : ℚ) * (2 : ℚ) ^ e = ((m * 2 ^ k : ℤ) : ℚ) * (2 : ℚ) ^ ulpExp x := by
        rw [hk, zpow_add₀ (by norm_num), zpow_natCast]; push_cast; ring
      rw [this]
      exact roundDouble_grid x _
    · -- y is smaller in magnitude than the power of two below x
      have hu : ulpExp x = Int.log 2 |x| - 52 := by
        unfold ulpExp at hee ⊢
        omega
      have hp : (2 : ℚ) ^ (ulpExp x + 52) ≤ |x| := by
        rw [hu, sub_add_cancel]
        exact_mod_cast Int.zpow_log_le_self (b := 2) (by norm_num) hax
      have hy : |(m : ℚ) * (2 : ℚ) ^ e| ≤ (2 : ℚ) ^ (ulpExp x + 52) := by
        rw [abs_mul, abs_of_pos (a := (2 : ℚ) ^ e) (by positivity)]
        have h1 : (|(m : ℚ)| : ℚ) ≤ 2 ^ 53 := by exact_mod_cast hm.le
        have h2 : (2 : ℚ) ^ e ≤ (2 : ℚ) ^ (ulpExp x - 1) := zpow_le_zpow_right₀ (by norm_num) (by omega)
        calc |(m : ℚ)| * (2 : ℚ) ^ e ≤ 2 ^ 53 * (2 : ℚ) ^ (ulpExp x - 1) := mul_le_mul h1 h2 (by positivity) (by norm_num)
          _ = (2 : ℚ) ^ (ulpExp x + 52) := by
            rw [show (2 : ℚ) ^ 53 = (2 : ℚ) ^ (53 : ℤ) by norm_num, ← zpow_add₀ (by norm_num)]
            congr 1; ring
      have hgrid : (2 : ℚ) ^ (ulpExp x + 52) = ((2 ^ 52 : ℤ) : ℚ) * (2 : ℚ) ^ ulpExp x := by
        rw [zpow_add₀ (by norm_num)]; norm_num [mul_comm]
      rw [abs_le] at hy
      rcases le_total 0 x with hxs | hxs
      · rw [abs_of_nonneg hxs] at hp
        refine (roundDouble_grid x (2 ^ 52)).trans ?_
        rw [← hgrid, abs_of_nonneg (by linarith), abs_of_nonneg (by linarith)]
        linarith
      · rw [abs_of_nonpos hxs] at hp
        refine (roundDouble_grid x (-2 ^ 52)).trans ?_
        have : ((-2 ^ 52 : ℤ) : ℚ) * (2 : ℚ) ^ ulpExp x = -(2 : ℚ) ^ (ulpExp x + 52) := by rw [hgrid]; push_cast; ring
        rw [this, abs_of_nonpos (by linarith), abs_of_nonpos (by linarith)]
        linarith

end Jules.Spec

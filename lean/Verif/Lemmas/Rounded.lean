import Verif.Spec.Rounded
import Verif.Lemmas.Double
import Verif.Model.Rounded
/-
Errors of rounded operations and sums.
-/
namespace Jules
open Spec

theorem unit_pos : 0 < unit := by unfold unit; positivity
theorem tiny_pos : 0 < tiny := by unfold tiny; positivity

section
variable {rnd : ℚ → ℚ} (hr : Nearest rnd)
include hr

/-- The error is at most half the unit in the last place. -/
theorem err_ulp (x : ℚ) : |rnd x - x| ≤ (2 : ℚ) ^ ulpExp x / 2 := by
  have h1 := (hr x).2 _ (roundDouble_nearest x).1
  rw [abs_sub_comm]
  refine h1.trans ?_
  unfold roundDouble
  generalize hu : (2 : ℚ) ^ ulpExp x = u
  have hu0 : 0 < u := by rw [← hu]; positivity
  have h2 : x - round (x / u) * u = (x / u - round (x / u)) * u := by field_simp
  rw [h2, abs_mul, abs_of_pos hu0]
  have := abs_sub_round (x / u)
  nlinarith

theorem err_normal {x : ℚ} (h : smallest ≤ |x|) : |rnd x - x| ≤ unit * |x| := by
  have hx : 0 < |x| := lt_of_lt_of_le (by unfold smallest; positivity) h
  have hlog : -1022 ≤ Int.log 2 |x| := by
    have : Int.log 2 ((2 : ℚ) ^ (-1022 : ℤ)) = -1022 := by exact_mod_cast Int.log_zpow (R := ℚ) (b := 2) (by norm_num) (-1022)
    rw [← this]
    exact Int.log_mono_right (by positivity) h
  have hu : ulpExp x = Int.log 2 |x| - 52 := by unfold ulpExp; omega
  refine (err_ulp hr x).trans ?_
  rw [hu]
  have h2 : (2 : ℚ) ^ (Int.log 2 |x| - 52) / 2 = unit * (2 : ℚ) ^ Int.log 2 |x| := by
    unfold unit
    rw [zpow_sub₀ (by norm_num)]
    norm_num
    ring
  rw [h2]
  have h3 : (2 : ℚ) ^ Int.log 2 |x| ≤ |x| := by exact_mod_cast Int.zpow_log_le_self (b := 2) (by norm_num) hx
  exact mul_le_mul_of_nonneg_left h3 unit_pos.le

theorem err_small {x : ℚ} (h : |x| < smallest) : |rnd x - x| ≤ tiny := by
  by_cases hx0 : x = 0
  · rw [hx0, hr.fix isDouble_zero, sub_self, abs_zero]; exact tiny_pos.le
  refine (err_ulp hr x).trans ?_
  have hu : ulpExp x = -1074 := by
    unfold ulpExp
    have hx : 0 < |x| := abs_pos.2 hx0
    have : Int.log 2 |x| < -1022 := by
      by_contra hc
      push Not at hc
      have h3 : (2 : ℚ) ^ Int.log 2 |x| ≤ |x| := by exact_mod_cast Int.zpow_log_le_self (b := 2) (by norm_num) hx
      have h4 : smallest ≤ (2 : ℚ) ^ Int.log 2 |x| := zpow_le_zpow_right₀ (by norm_num) hc
      linarith
    omega
  rw [hu]
  unfold tiny
  rw [show (-1074 : ℤ) = -1075 + 1 by norm_num, zpow_add₀ (by norm_num)]
  norm_num

theorem err (x : ℚ) : |rnd x - x| ≤ unit * |x| + tiny := by
  rcases le_or_gt smallest |x| with h | h
  · have := err_normal hr h
    have := tiny_pos
    linarith
  · have := err_small hr h
    have : 0 ≤ unit * |x| := mul_nonneg unit_pos.le (abs_nonneg _)
    linarith

/-- Every `double` is a multiple of the smallest one. -/
theorem grid {a : ℚ} (h : IsDouble a) : ∃ k : ℤ, a = k * (2 : ℚ) ^ (-1074 : ℤ) := by
  obtain ⟨m, e, _, he, rfl⟩ := h
  obtain ⟨n, hn⟩ : ∃ n : ℕ, e = -1074 + n := ⟨(e + 1074).toNat, by omega⟩
  refine ⟨m * 2 ^ n, ?_⟩
  rw [hn, zpow_add₀ (by norm_num), zpow_natCast]
  push_cast
  ring

/-- Sums of `double`s do not suffer from underflow. -/
theorem err_add {a b : ℚ} (ha : IsDouble a) (hb : IsDouble b) : |rnd (a + b) - (a + b)| ≤ unit * |a + b| := by
  rcases le_or_gt smallest |a + b| with h | h
  · exact err_normal hr h
  · obtain ⟨k, hk⟩ := grid hr ha
    obtain ⟨l, hl⟩ := grid hr hb
    have hs : a + b = ((k + l : ℤ) : ℚ) * (2 : ℚ) ^ (-1074 : ℤ) := by rw [hk, hl]; push_cast; ring
    have hd : IsDouble (a + b) := by
      refine ⟨k + l, -1074, ?_, le_refl _, hs⟩
      rw [hs, abs_mul, abs_of_pos (a := (2 : ℚ) ^ (-1074 : ℤ)) (by positivity)] at h
      have h2 : smallest = (2 : ℚ) ^ 52 * (2 : ℚ) ^ (-1074 : ℤ) := by
        unfold smallest
        rw [show (-1022 : ℤ) = 52 + -1074 by norm_num, zpow_add₀ (by norm_num)]
        norm_num
      rw [h2] at h
      have h3 := lt_of_mul_lt_mul_right h (by positivity)
      have h4 : |k + l| < 2 ^ 52 := by exact_mod_cast h3
      omega
    rw [hr.fix hd, sub_self, abs_zero]
    exact mul_nonneg unit_pos.le (abs_nonneg _)

end

theorem isDouble_neg {a : ℚ} (h : IsDouble a) : IsDouble (-a) := by
  obtain ⟨m, e, h1, h2, rfl⟩ := h
  exact ⟨-m, e, by simpa using h1, h2, by push_cast; ring⟩

theorem isDouble_int {z : ℤ} (h : |z| ≤ 2 ^ 53) : IsDouble (z : ℚ) := by
  rcases h.lt_or_eq with h | h
  · exact ⟨z, 0, h, by norm_num, by simp⟩
  · rcases abs_eq (by norm_num : (0 : ℤ) ≤ 2 ^ 53) |>.1 h with h | h
    · exact ⟨2 ^ 52, 1, by norm_num, by norm_num, by rw [h]; norm_num⟩
    · exact ⟨-2 ^ 52, 1, by norm_num, by norm_num, by rw [h]; norm_num⟩

theorem toFl_some {rnd : ℚ → ℚ} {x y : ℚ} (h : toFl rnd x = some y) : y = rnd x ∧ |rnd x| < 2 ^ 1024 := by
  unfold toFl at h
  split at h
  · next h' => cases h; exact ⟨rfl, h'⟩
  · cases h

theorem fl2_some {rnd : ℚ → ℚ} {f : ℚ → ℚ → ℚ} {a b : Fl} {y : ℚ} (h : fl2 rnd f a b = some y) :
    ∃ p q, a = some p ∧ b = some q ∧ y = rnd (f p q) := by
  cases a with
  | none => cases h
  | some p =>
    cases b with
    | none => cases h
    | some q => exact ⟨p, q, rfl, rfl, (toFl_some h).1⟩

/-- A sum from left to right. -/
def flSum (rnd : ℚ → ℚ) (s : Fl) (ts : List Fl) : Fl := ts.foldl (fl2 rnd (· + ·)) s

theorem flSum_none (rnd : ℚ → ℚ) : ∀ ts : List Fl, flSum rnd none ts = none
  | [] => rfl
  | _ :: ts => flSum_none rnd ts

theorem flSum_all {rnd : ℚ → ℚ} : ∀ {ts : List Fl} {s : Fl} {y : ℚ}, flSum rnd s ts = some y → ∃ qs : List ℚ, ts = qs.map some
  | [], _, _, _ => ⟨[], rfl⟩
  | t :: ts, s, y, h => by
    have h : flSum rnd (fl2 rnd (· + ·) s t) ts = some y := h
    obtain ⟨qs, hq⟩ := flSum_all h
    cases hz : fl2 rnd (· + ·) s t with
    | none => rw [hz, flSum_none] at h; cases h
    | some z =>
      obtain ⟨_, q, _, h2, _⟩ := fl2_some hz
      exact ⟨q :: qs, by rw [h2, hq]; rfl⟩

theorem asum_nonneg (xs : List ℚ) : 0 ≤ asum xs := by
  unfold asum
  apply List.sum_nonneg
  simp only [List.mem_map, forall_exists_index, and_imp, forall_apply_eq_imp_iff₂]
  intro a _; exact abs_nonneg a

theorem abs_sum_le (xs : List ℚ) : |xs.sum| ≤ asum xs := by
  induction xs with
  | nil => simp [asum]
  | cons x xs ih =>
    have : asum (x :: xs) = |x| + asum xs := by simp [asum]
    rw [List.sum_cons, this]
    exact (abs_add_le _ _).trans (by linarith)

theorem asum_cons (x : ℚ) (xs : List ℚ) : asum (x :: xs) = |x| + asum xs := by simp [asum]

theorem rel_nonneg (k : ℕ) : 0 ≤ rel k := by
  unfold rel
  have : 1 ≤ (1 + unit) ^ k := one_le_pow₀ (by linarith [unit_pos])
  linarith

theorem rel_succ (k : ℕ) : rel (k + 1) = (1 + unit) * rel k + unit := by unfold rel; rw [pow_succ]; ring

theorem rel_mono {j k : ℕ} (h : j ≤ k) : rel j ≤ rel k := by
  unfold rel
  have : (1 + unit) ^ j ≤ (1 + unit) ^ k := pow_le_pow_right₀ (by linarith [unit_pos]) h
  linarith

section
variable {rnd : ℚ → ℚ} (hr : Nearest rnd)
include hr

/-- The error of a sum. -/
theorem flSum_err : ∀ {qs : List ℚ} {s y : ℚ}, IsDouble s → (∀ q ∈ qs, IsDouble q) → flSum rnd (some s) (qs.map some) = some y →
    IsDouble y ∧ |y - (s + qs.sum)| ≤ rel qs.length * (|s| + asum qs)
  | [], s, y, hs, _, h => by
    cases h
    refine ⟨hs, ?_⟩
    simp [rel]
  | q :: qs, s, y, hs, hq, h => by
    have h : flSum rnd (fl2 rnd (· + ·) (some s) (some q)) (qs.map some) = some y := h
    cases hz : fl2 rnd (· + ·) (some s) (some q) with
    | none => rw [hz, flSum_none] at h; cases h
    | some z =>
      rw [hz] at h
      obtain ⟨_, _, h1, h2, rfl⟩ := fl2_some hz
      cases h1; cases h2
      have he := err_add hr hs (hq q (by simp))
      obtain ⟨k1, k2⟩ := flSum_err (hr _).1 (fun q' hq' => hq q' (by simp [hq'])) h
      refine ⟨k1, ?_⟩
      rw [List.length_cons, rel_succ, List.sum_cons, asum_cons]
      have hR := rel_nonneg qs.length
      have hu := unit_pos
      have hB := asum_nonneg qs
      have hA : |s + q| ≤ |s| + |q| := abs_add_le _ _
      have hz' : |rnd (s + q)| ≤ (1 + unit) * (|s| + |q|) := by
        have : |rnd (s + q)| ≤ |rnd (s + q) - (s + q)| + |s + q| := by
          have := abs_add_le (rnd (s + q) - (s + q)) (s + q)
          simpa using this
        nlinarith
      have htri : |y - (s + (q + qs.sum))| ≤ |y - (rnd (s + q) + qs.sum)| + |rnd (s + q) - (s + q)| := by
        have he : y - (s + (q + qs.sum)) = (y - (rnd (s + q) + qs.sum)) + (rnd (s + q) - (s + q)) := by ring
        rw [he]
        exact abs_add_le _ _
      refine htri.trans ?_
      have e1 : rel qs.length * (|rnd (s + q)| + asum qs) ≤ rel qs.length * ((1 + unit) * (|s| + |q|) + asum qs) :=
        mul_le_mul_of_nonneg_left (by linarith) hR
      have e2 : |rnd (s + q) - (s + q)| ≤ unit * (|s| + |q|) := he.trans (mul_le_mul_of_nonneg_left hA hu.le)
      have e3 : 0 ≤ unit * rel qs.length * asum qs := mul_nonneg (mul_nonneg hu.le hR) hB
      have e4 : 0 ≤ unit * asum qs := mul_nonneg hu.le hB
      nlinarith

/-- The sum from zero: the first addition is exact. -/
theorem flSum_err0 {qs : List ℚ} {y : ℚ} (hq : ∀ q ∈ qs, IsDouble q) (h : flSum rnd (some 0) (qs.map some) = some y) :
    IsDouble y ∧ |y - qs.sum| ≤ rel (qs.length - 1) * asum qs := by
  cases qs with
  | nil => cases h; exact ⟨isDouble_zero, by simp [asum]⟩
  | cons q qs =>
    have h' : flSum rnd (fl2 rnd (· + ·) (some 0) (some q)) (qs.map some) = some y := h
    cases hz : fl2 rnd (· + ·) (some 0) (some q) with
    | none => rw [hz, flSum_none] at h'; cases h'
    | some z =>
      rw [hz] at h'
      obtain ⟨_, _, h1, h2, hz⟩ := fl2_some hz
      cases h1; cases h2
      rw [zero_add, hr.fix (hq q (by simp))] at hz
      subst hz
      have := flSum_err hr (hq _ List.mem_cons_self) (fun q' hq' => hq q' (List.mem_cons_of_mem _ hq')) h'
      simpa [asum_cons] using this

/-- Finite when the bound is. -/
theorem flSum_finite : ∀ {qs : List ℚ} {s : ℚ}, IsDouble s → (∀ q ∈ qs, IsDouble q) → (1 + unit) ^ qs.length * (|s| + asum qs) < 2 ^ 1024 →
    ∃ y, flSum rnd (some s) (qs.map some) = some y
  | [], s, _, _, _ => ⟨s, rfl⟩
  | q :: qs, s, hs, hq, h => by
    have he := err_add hr hs (hq q (by simp))
    have hu := unit_pos
    have hB := asum_nonneg qs
    have hA : |s + q| ≤ |s| + |q| := abs_add_le _ _
    have hz' : |rnd (s + q)| ≤ (1 + unit) * (|s| + |q|) := by
      have : |rnd (s + q)| ≤ |rnd (s + q) - (s + q)| + |s + q| := by
        have := abs_add_le (rnd (s + q) - (s + q)) (s + q)
        simpa using this
      nlinarith
    rw [asum_cons, List.length_cons, pow_succ] at h
    have hp : 1 ≤ (1 + unit) ^ qs.length := one_le_pow₀ (by linarith)
    have hbig : (1 + unit) ^ qs.length * (|rnd (s + q)| + asum qs) < 2 ^ 1024 := by
      refine lt_of_le_of_lt ?_ h
      rw [mul_assoc]
      refine mul_le_mul_of_nonneg_left ?_ (by linarith)
      nlinarith
    have hfin : |rnd (s + q)| < 2 ^ 1024 := by
      refine lt_of_le_of_lt ?_ hbig
      have : |rnd (s + q)| ≤ |rnd (s + q)| + asum qs := by linarith
      have h0 : 0 ≤ |rnd (s + q)| + asum qs := by have := abs_nonneg (rnd (s + q)); linarith
      nlinarith
    obtain ⟨y, hy⟩ := flSum_finite (s := rnd (s + q)) (hr _).1 (fun q' hq' => hq q' (by simp [hq'])) hbig
    refine ⟨y, ?_⟩
    show flSum rnd (fl2 rnd (· + ·) (some s) (some q)) (qs.map some) = some y
    simp only [fl2, toFl]
    rw [if_pos hfin]
    exact hy

/-- Sums of integers are exact. -/
theorem flSum_int : ∀ {zs : List ℤ} {s : ℤ}, |s| + (zs.map fun z => |z|).sum ≤ 2 ^ 53 →
    flSum rnd (some (s : ℚ)) ((zs.map (Int.cast : ℤ → ℚ)).map some) = some ((s + zs.sum : ℤ) : ℚ)
  | [], s, _ => by simp [flSum]
  | z :: zs, s, h => by
    simp only [List.map_cons, List.sum_cons] at h
    have hB : 0 ≤ (zs.map fun z => |z|).sum := List.sum_nonneg (by
      simp only [List.mem_map, forall_exists_index, and_imp, forall_apply_eq_imp_iff₂]
      intro a _; exact abs_nonneg a)
    have hA : |s + z| ≤ |s| + |z| := abs_add_le _ _
    have hb : |s + z| ≤ 2 ^ 53 := by omega
    have hd := hr.fix (isDouble_int hb)
    have ih := flSum_int (zs := zs) (s := s + z) (by omega)
    show flSum rnd (fl2 rnd (· + ·) (some (s : ℚ)) (some (z : ℚ))) _ = _
    simp only [fl2, toFl]
    rw [show (s : ℚ) + (z : ℚ) = ((s + z : ℤ) : ℚ) by push_cast; rfl, hd, if_pos]
    · rw [ih, List.sum_cons]; congr 2; ring
    · have : |((s + z : ℤ) : ℚ)| ≤ 2 ^ 53 := by exact_mod_cast hb
      exact lt_of_le_of_lt this (pow_lt_pow_right₀ (by norm_num) (by norm_num))

end

/-! ### Sums of rounded terms, divisions, products -/

theorem asum_le_of {β : Type} (f g : β → ℚ) (c d : ℚ) (h : ∀ b, |f b| ≤ c * |g b| + d) : ∀ l : List β,
    asum (l.map f) ≤ c * asum (l.map g) + l.length * d
  | [] => by simp [asum]
  | b :: l => by
    have := asum_le_of f g c d h l
    have hb := h b
    simp only [List.map_cons, asum_cons, List.length_cons]
    push_cast
    linarith

theorem sum_sub_map {β : Type} (f g : β → ℚ) (l : List β) : (l.map f).sum - (l.map g).sum = (l.map fun b => f b - g b).sum := by
  induction l with
  | nil => simp
  | cons b l ih => simp only [List.map_cons, List.sum_cons]; rw [← ih]; ring

theorem rel_add (j k : ℕ) : rel (j + k) = rel j * (1 + rel k) + rel k := by unfold rel; rw [pow_add]; ring

section
variable {rnd : ℚ → ℚ} (hr : Nearest rnd)
include hr

/-- The sum of terms that have been rounded `j` times. -/
theorem flSum_terms {β : Type} (q E : β → ℚ) (j : ℕ) (l : List β) (hq : ∀ b, IsDouble (q b)) (he : ∀ b, |q b - E b| ≤ rel j * |E b| + tiny)
    {y : ℚ} (h : flSum rnd (some 0) ((l.map q).map some) = some y) :
    IsDouble y ∧ |y - (l.map E).sum| ≤ rel (l.length - 1 + j) * asum (l.map E) + (1 + unit) ^ (l.length - 1) * (l.length * tiny) := by
  have hd : ∀ x ∈ l.map q, IsDouble x := by
    intro x hx
    obtain ⟨b, _, rfl⟩ := List.mem_map.1 hx
    exact hq b
  obtain ⟨h1, h2⟩ := flSum_err0 hr hd h
  refine ⟨h1, ?_⟩
  rw [List.length_map] at h2
  have hS := asum_nonneg (l.map E)
  have hR := rel_nonneg (l.length - 1)
  have h3 : asum (l.map q) ≤ (1 + rel j) * asum (l.map E) + l.length * tiny := by
    apply asum_le_of
    intro b
    have := he b
    have h4 : |q b| ≤ |q b - E b| + |E b| := by
      have := abs_add_le (q b - E b) (E b)
      simpa using this
    linarith
  have h5 : |(l.map q).sum - (l.map E).sum| ≤ rel j * asum (l.map E) + l.length * tiny := by
    rw [sum_sub_map]
    exact (abs_sum_le _).trans (asum_le_of _ _ _ _ (fun b => by simpa using he b) l)
  have h6 : |y - (l.map E).sum| ≤ |y - (l.map q).sum| + |(l.map q).sum - (l.map E).sum| := by
    have he : y - (l.map E).sum = (y - (l.map q).sum) + ((l.map q).sum - (l.map E).sum) := by ring
    rw [he]
    exact abs_add_le _ _
  have h7 : rel (l.length - 1) * asum (l.map q) ≤ rel (l.length - 1) * ((1 + rel j) * asum (l.map E) + l.length * tiny) :=
    mul_le_mul_of_nonneg_left h3 hR
  have h8 : (1 + unit) ^ (l.length - 1) = 1 + rel (l.length - 1) := by unfold rel; ring
  rw [rel_add, h8]
  nlinarith

/-- Division by a count. -/
theorem div_err {y Y S c : ℚ} {k : ℕ} {N : ℤ} {v : ℚ} (hN : 0 < N) (hN' : N ≤ 2 ^ 53) (hY : |Y| ≤ S) (hy : |y - Y| ≤ rel k * S + c)
    (h : flDiv rnd (some y) N = some v) :
    IsDouble v ∧ v = rnd (y / N) ∧ |v - Y / N| ≤ rel (k + 1) * (S / N) + (1 + unit) * (c / N) + tiny := by
  have hfix : rnd (N : ℚ) = N := hr.fix (isDouble_int (by rw [abs_of_pos hN]; exact hN'))
  have hNq : (0 : ℚ) < N := by exact_mod_cast hN
  have hv : v = rnd (y / N) := by
    unfold flDiv toFl at h
    rw [hfix] at h
    split at h
    · next a d ha hd =>
      cases ha
      split at hd
      · cases hd
        rw [if_neg hNq.ne'] at h
        split at h
        · cases h; rfl
        · cases h
      · cases hd
    · cases h
  refine ⟨hv ▸ (hr _).1, hv, ?_⟩
  have he := err hr (y / N)
  rw [← hv] at he
  have hu := unit_pos
  have h1 : |y / N| ≤ ((1 + rel k) * S + c) / N := by
    rw [abs_div, abs_of_pos hNq]
    apply div_le_div_of_nonneg_right _ hNq.le
    have : |y| ≤ |y - Y| + |Y| := by
      have := abs_add_le (y - Y) Y
      simpa using this
    linarith
  have h2 : |y / N - Y / N| ≤ (rel k * S + c) / N := by
    rw [← sub_div, abs_div, abs_of_pos hNq]
    exact div_le_div_of_nonneg_right hy hNq.le
  have h3 : |v - Y / N| ≤ |v - y / N| + |y / N - Y / N| := by
    have he : v - Y / N = (v - y / N) + (y / N - Y / N) := by ring
    rw [he]
    exact abs_add_le _ _
  rw [rel_succ]
  have h4 : unit * |y / N| ≤ unit * (((1 + rel k) * S + c) / N) := mul_le_mul_of_nonneg_left h1 hu.le
  have h5 : unit * (((1 + rel k) * S + c) / N) + (rel k * S + c) / N = ((1 + unit) * rel k + unit) * (S / N) + (1 + unit) * (c / N) := by
    field_simp
    ring
  linarith

/-- A product of several factors without underflow. -/
theorem prod_err : ∀ {qs : List ℚ} {s y : ℚ}, IsDouble s → (∀ q ∈ qs, IsDouble q) →
    (∀ k < qs.length, smallest ≤ (1 - unit) ^ k * |s * (qs.take (k + 1)).prod|) →
    (qs.map some).foldl (fl2 rnd (· * ·)) (some s) = some y → IsDouble y ∧ |y - s * qs.prod| ≤ rel qs.length * |s * qs.prod|
  | [], s, y, hs, _, _, h => by
    cases h
    exact ⟨hs, by simp [rel]⟩
  | q :: qs, s, y, hs, hq, hk, h => by
    have h : (qs.map some).foldl (fl2 rnd (· * ·)) (fl2 rnd (· * ·) (some s) (some q)) = some y := h
    have hnone : ∀ l : List Fl, l.foldl (fl2 rnd (· * ·)) none = none := by
      intro l; induction l with
      | nil => rfl
      | cons a l ih => exact ih
    cases hz : fl2 rnd (· * ·) (some s) (some q) with
    | none => rw [hz, hnone] at h; cases h
    | some z =>
      rw [hz] at h
      obtain ⟨_, _, h1, h2, rfl⟩ := fl2_some hz
      cases h1; cases h2
      have hu := unit_pos
      have hu1 : 0 ≤ 1 - unit := by
        unfold unit
        norm_num
      have hbig : smallest ≤ |s * q| := by simpa using hk 0 (by simp)
      have he := err_normal hr hbig
      have hlow : (1 - unit) * |s * q| ≤ |rnd (s * q)| := by
        have : |s * q| ≤ |rnd (s * q)| + |rnd (s * q) - s * q| := by
          have := abs_sub_abs_le_abs_sub (s * q) (rnd (s * q))
          rw [abs_sub_comm] at this
          linarith
        linarith
      obtain ⟨k1, k2⟩ := prod_err (s := rnd (s * q)) (hr _).1 (fun q' hq' => hq q' (by simp [hq'])) (fun k hk' => by
        have := hk (k + 1) (by simpa using hk')
        rw [List.take_succ_cons, List.prod_cons, ← mul_assoc, abs_mul, pow_succ] at this
        rw [abs_mul]
        refine this.trans ?_
        have h0 : 0 ≤ |(qs.take (k + 1)).prod| := abs_nonneg _
        have h3 : (1 - unit) * |s * q| * |(qs.take (k + 1)).prod| ≤ |rnd (s * q)| * |(qs.take (k + 1)).prod| := mul_le_mul_of_nonneg_right hlow h0
        calc (1 - unit) ^ k * (1 - unit) * (|s * q| * |(qs.take (k + 1)).prod|)
            = (1 - unit) ^ k * ((1 - unit) * |s * q| * |(qs.take (k + 1)).prod|) := by ring
          _ ≤ _ := mul_le_mul_of_nonneg_left h3 (pow_nonneg hu1 k)) h
      refine ⟨k1, ?_⟩
      rw [List.length_cons, rel_succ, List.prod_cons, ← mul_assoc]
      have hR := rel_nonneg qs.length
      have hP := abs_nonneg qs.prod
      have hup : |rnd (s * q)| ≤ (1 + unit) * |s * q| := by
        have := abs_add_le (rnd (s * q) - s * q) (s * q)
        rw [sub_add_cancel] at this
        linarith
      have h3 : |y - s * q * qs.prod| ≤ |y - rnd (s * q) * qs.prod| + |rnd (s * q) - s * q| * |qs.prod| := by
        have he : y - s * q * qs.prod = (y - rnd (s * q) * qs.prod) + (rnd (s * q) - s * q) * qs.prod := by ring
        rw [he, ← abs_mul]
        exact abs_add_le _ _
      rw [abs_mul] at k2
      rw [abs_mul (s * q)]
      have h4 : |rnd (s * q) - s * q| * |qs.prod| ≤ unit * |s * q| * |qs.prod| := mul_le_mul_of_nonneg_right he hP
      have h5 : rel qs.length * (|rnd (s * q)| * |qs.prod|) ≤ rel qs.length * ((1 + unit) * |s * q| * |qs.prod|) :=
        mul_le_mul_of_nonneg_left (mul_le_mul_of_nonneg_right hup hP) hR
      nlinarith

/-- A squared deviation. -/
theorem sq_err {x m : ℚ} (hx : IsDouble x) (hm : IsDouble m) :
    |rnd (rnd (x - m) * rnd (x - m)) - (x - m) ^ 2| ≤ rel 3 * |(x - m) ^ 2| + tiny := by
  have h1 : |rnd (x - m) - (x - m)| ≤ unit * |x - m| := by
    have := err_add hr hx (isDouble_neg hm)
    simpa [sub_eq_add_neg] using this
  set e := x - m
  set d := rnd e
  have h2 := err hr (d * d)
  have hu := unit_pos
  have he := abs_nonneg e
  have hd : |d| ≤ (1 + unit) * |e| := by
    have := abs_add_le (d - e) e
    rw [sub_add_cancel] at this
    linarith
  have hdd : |d * d| ≤ (1 + unit) ^ 2 * e ^ 2 := by
    rw [abs_mul, ← sq_abs e]
    have := mul_le_mul hd hd (abs_nonneg d) (by positivity)
    nlinarith
  have h3 : |d * d - e ^ 2| ≤ ((1 + unit) ^ 2 - 1) * e ^ 2 := by
    have h4 : d * d - e ^ 2 = (d - e) * (d + e) := by ring
    have h5 : |d + e| ≤ (2 + unit) * |e| := by
      have := abs_add_le d e
      linarith
    rw [h4, abs_mul, ← sq_abs e]
    have := mul_le_mul h1 h5 (abs_nonneg _) (by positivity)
    nlinarith
  have h6 : |rnd (d * d) - e ^ 2| ≤ |rnd (d * d) - d * d| + |d * d - e ^ 2| := by
    have he : rnd (d * d) - e ^ 2 = (rnd (d * d) - d * d) + (d * d - e ^ 2) := by ring
    rw [he]
    exact abs_add_le _ _
  rw [abs_of_nonneg (sq_nonneg e)]
  have h7 : unit * |d * d| ≤ unit * ((1 + unit) ^ 2 * e ^ 2) := mul_le_mul_of_nonneg_left hdd hu.le
  unfold rel
  nlinarith

/-! ### Results of particular roundings -/

/-- Large `double`s are multiples of a power of two. -/
theorem isDouble_grid {a : ℚ} (h : IsDouble a) {e : ℤ} (ha : (2 : ℚ) ^ (e + 52) ≤ |a|) : ∃ k : ℤ, a = k * (2 : ℚ) ^ e := by
  obtain ⟨m, f, hm, _, rfl⟩ := h
  rcases le_or_gt e f with hf | hf
  · obtain ⟨n, hn⟩ : ∃ n : ℕ, f = e + n := ⟨(f - e).toNat, by omega⟩
    refine ⟨m * 2 ^ n, ?_⟩
    rw [hn, zpow_add₀ (by norm_num), zpow_natCast]
    push_cast
    ring
  · exfalso
    rw [abs_mul, abs_of_pos (a := (2 : ℚ) ^ f) (by positivity)] at ha
    have h1 : (|(m : ℚ)| : ℚ) < 2 ^ 53 := by exact_mod_cast hm
    have h2 : (2 : ℚ) ^ f ≤ (2 : ℚ) ^ (e - 1) := zpow_le_zpow_right₀ (by norm_num) (by omega)
    have h3 : |(m : ℚ)| * (2 : ℚ) ^ f < 2 ^ 53 * (2 : ℚ) ^ (e - 1) := mul_lt_mul h1 h2 (by positivity) (by norm_num)
    have h4 : (2 : ℚ) ^ 53 * (2 : ℚ) ^ (e - 1) = (2 : ℚ) ^ (e + 52) := by
      rw [show (2 : ℚ) ^ 53 = (2 : ℚ) ^ (53 : ℤ) by norm_num, ← zpow_add₀ (by norm_num)]
      congr 1; ring
    linarith

theorem near_unique {x : ℚ} (e k : ℤ) (hy : IsDouble (k * (2 : ℚ) ^ e)) (h1 : |x - k * (2 : ℚ) ^ e| < (2 : ℚ) ^ e / 2)
    (h2 : (2 : ℚ) ^ (e + 52) + (2 : ℚ) ^ e ≤ |x|) : rnd x = k * (2 : ℚ) ^ e := by
  have hn := (hr x).2 _ hy
  have hp : (0 : ℚ) < (2 : ℚ) ^ e := by positivity
  have hbig : (2 : ℚ) ^ (e + 52) ≤ |rnd x| := by
    have := abs_sub_abs_le_abs_sub x (rnd x)
    linarith
  obtain ⟨j, hj⟩ := isDouble_grid hr (hr x).1 hbig
  have hjk : |(j : ℚ) - k| < 1 := by
    have h3 : |rnd x - k * (2 : ℚ) ^ e| ≤ |x - rnd x| + |x - k * (2 : ℚ) ^ e| := by
      have he : rnd x - k * (2 : ℚ) ^ e = -(x - rnd x) + (x - k * (2 : ℚ) ^ e) := by ring
      rw [he]
      exact (abs_add_le _ _).trans (by rw [abs_neg])
    rw [hj, ← sub_mul, abs_mul, abs_of_pos hp] at h3
    rw [hj] at hn
    by_contra hc
    push Not at hc
    nlinarith
  have : j = k := by
    have h4 : |j - k| < 1 := by exact_mod_cast hjk
    rw [Int.abs_lt_one_iff] at h4
    omega
  rw [hj, this]

end

/-! ### The loops of the library are such sums -/

theorem sumL_double (rnd : ℚ → ℚ) : ∀ (l : List Fl) (s : Fl), sumL (doubleOps rnd) l s = .ok (flSum rnd s l)
  | [], _ => rfl
  | x :: l, s => sumL_double rnd l _

theorem devLoop_double (rnd : ℚ → ℚ) (mu : Fl) : ∀ (l : List Fl) (s : Fl),
    devLoop (doubleOps rnd) mu l s = .ok (flSum rnd s (l.map fun x => fl2 rnd (· * ·) (fl2 rnd (· - ·) x mu) (fl2 rnd (· - ·) x mu)))
  | [], _ => rfl
  | x :: l, s => devLoop_double rnd mu l _

end Jules

import Verif.Spec.Text
import Verif.Lemmas.Double
import Verif.Lemmas.Rounded
import Verif.Props.Column
/-
Rounding to six decimals and back.
-/
namespace Jules
open Spec

/-- `h` is the rounding of `x` to an integer, ties to even. -/
def HE (x : ℚ) (h : ℕ) : Prop := |x - h| ≤ 1 / 2 ∧ (|x - h| = 1 / 2 → h % 2 = 0)

theorem HE_mono {x y : ℚ} {h k : ℕ} (hx : HE x h) (hy : HE y k) (hxy : x ≤ y) : h ≤ k := by
  by_contra hc
  have h1 : (k : ℚ) + 1 ≤ h := by exact_mod_cast Nat.lt_of_not_ge hc
  have a := abs_le.1 hx.1
  have b := abs_le.1 hy.1
  have e1 : x - h = -(1 / 2) := by linarith
  have e2 : y - k = 1 / 2 := by linarith
  have e3 : (h : ℚ) = k + 1 := by linarith
  have e4 : h = k + 1 := by exact_mod_cast e3
  have p1 := hx.2 (by rw [e1]; norm_num)
  have p2 := hy.2 (by rw [e2]; norm_num)
  omega

theorem HE_unique {x : ℚ} {h k : ℕ} (hx : HE x h) (hy : HE x k) : h = k :=
  le_antisymm (HE_mono hx hy le_rfl) (HE_mono hy hx le_rfl)

theorem HE_near {x : ℚ} {h : ℕ} (hx : |x - h| < 1 / 2) : HE x h := ⟨hx.le, fun h => absurd h hx.ne⟩

theorem HE_nearest {x : ℚ} {h : ℕ} (hx : HE x h) (k : ℤ) : |x - h| ≤ |x - k| := by
  by_cases hk : k = h
  · rw [hk]; simp
  have h1 : (1 : ℚ) ≤ |(h : ℚ) - k| := by
    have : (1 : ℤ) ≤ |(h : ℤ) - k| := Int.one_le_abs (by omega)
    exact_mod_cast this
  have h2 : |(h : ℚ) - k| ≤ |x - h| + |x - k| := by
    have : (h : ℚ) - k = -(x - h) + (x - k) := by ring
    rw [this]
    exact (abs_add_le _ _).trans (by rw [abs_neg])
  have := hx.1
  linarith

theorem halfEven_HE (n d : ℕ) (hd : 0 < d) : HE ((n : ℚ) / d) (halfEven n d) := by
  have hdq : (0 : ℚ) < d := by exact_mod_cast hd
  have hm : (n : ℚ) = d * (n / d : ℕ) + (n % d : ℕ) := by exact_mod_cast (Nat.div_add_mod n d).symm
  have hx : (n : ℚ) / d = (n / d : ℕ) + ((n % d : ℕ) : ℚ) / d := by
    rw [eq_comm, add_comm, ← sub_eq_zero]
    have : (n : ℚ) / d = (n / d : ℕ) + ((n % d : ℕ) : ℚ) / d := by
      conv_lhs => rw [hm]
      rw [add_div, mul_comm, mul_div_assoc, div_self hdq.ne', mul_one]
    rw [this]; ring
  rw [hx]
  generalize hq : n / d = q
  have hr : n % d < d := Nat.mod_lt _ hd
  unfold halfEven
  simp only [hq]
  generalize n % d = r at *
  have hr0 : (0 : ℚ) ≤ (r : ℚ) / d := by positivity
  have hr1 : (r : ℚ) / d < 1 := by rw [div_lt_one hdq]; exact_mod_cast hr
  split
  · rename_i h
    have h2 : (r : ℚ) / d < 1 / 2 := by
      rw [div_lt_iff₀ hdq]
      have : (2 : ℚ) * r < d := by exact_mod_cast h
      linarith
    apply HE_near
    rw [add_sub_cancel_left, abs_of_nonneg hr0]
    exact h2
  · rename_i h
    split
    · rename_i h'
      have h2 : 1 / 2 < (r : ℚ) / d := by
        rw [lt_div_iff₀ hdq]
        have : (d : ℚ) < 2 * r := by exact_mod_cast h'
        linarith
      apply HE_near
      push_cast
      rw [show (q : ℚ) + r / d - (q + 1) = -(1 - r / d) by ring, abs_neg, abs_of_nonneg (by linarith)]
      linarith
    · rename_i h'
      have h2 : (r : ℚ) / d = 1 / 2 := by
        rw [div_eq_iff hdq.ne']
        have : (2 : ℚ) * r = d := by exact_mod_cast (show 2 * r = d by omega)
        linarith
      rw [h2]
      split
      · rename_i he
        exact ⟨by rw [add_sub_cancel_left]; norm_num, fun _ => he⟩
      · refine ⟨?_, fun _ => by omega⟩
        push_cast
        rw [show (q : ℚ) + 1 / 2 - (q + 1) = -(1 / 2) by ring]
        norm_num

/-- The magnitude in units of the sixth decimal. -/
def micro (q : ℚ) : ℕ := halfEven (|q|.num.natAbs * 10 ^ 6) |q|.den

theorem micro_HE (q : ℚ) : HE (|q| * 10 ^ 6) (micro q) := by
  have h := halfEven_HE (|q|.num.natAbs * 10 ^ 6) |q|.den |q|.pos
  have he : ((|q|.num.natAbs * 10 ^ 6 : ℕ) : ℚ) / |q|.den = |q| * 10 ^ 6 := by
    have h0 : 0 ≤ |q|.num := Rat.num_nonneg.2 (abs_nonneg q)
    have h1 : ((|q|.num.natAbs : ℕ) : ℚ) = (|q|.num : ℚ) := by
      rw [Nat.cast_natAbs, abs_of_nonneg h0]
    push_cast
    rw [h1, mul_div_right_comm, Rat.num_div_den]
    norm_num
  rw [he] at h
  exact h

/-- The rounding to six decimals. -/
def six (q : ℚ) : ℚ := if q < 0 then -((micro q : ℚ) / 10 ^ 6) else (micro q : ℚ) / 10 ^ 6

theorem six_abs (q : ℚ) : |six q| = (micro q : ℚ) / 10 ^ 6 := by
  unfold six
  have : (0 : ℚ) ≤ (micro q : ℚ) / 10 ^ 6 := by positivity
  split
  · rw [abs_neg, abs_of_nonneg this]
  · rw [abs_of_nonneg this]

theorem six_err (q : ℚ) : |q - six q| ≤ 1 / 2 / 10 ^ 6 := by
  have h := (micro_HE q).1
  have h1 : |q - six q| = |(|q| * 10 ^ 6 - micro q)| / 10 ^ 6 := by
    unfold six
    split
    · rename_i hq
      rw [abs_of_neg hq]
      rw [show q - -((micro q : ℚ) / 10 ^ 6) = -((-q * 10 ^ 6 - micro q) / 10 ^ 6) by ring, abs_neg, abs_div]
      norm_num
    · rename_i hq
      rw [abs_of_nonneg (le_of_not_gt hq)]
      rw [show q - ((micro q : ℚ) / 10 ^ 6) = ((q * 10 ^ 6 - micro q) / 10 ^ 6) by ring, abs_div]
      norm_num
  rw [h1]
  exact div_le_div_of_nonneg_right h (by norm_num)

theorem six_isSix (q : ℚ) : SixDecimals (six q) := by
  unfold six
  split
  · exact ⟨-micro q, by push_cast; ring⟩
  · exact ⟨micro q, by push_cast; ring⟩

theorem micro_of_near {q z : ℚ} (hz : SixDecimals z) (h : |q - z| < 1 / 2 / 10 ^ 6) : (micro q : ℚ) / 10 ^ 6 = |z| := by
  obtain ⟨k, rfl⟩ := hz
  have h1 : HE (|q| * 10 ^ 6) k.natAbs := by
    apply HE_near
    have e : ((k.natAbs : ℕ) : ℚ) = |(k : ℚ) / 10 ^ 6| * 10 ^ 6 := by
      rw [abs_div, Nat.cast_natAbs]
      norm_num
    rw [e, ← sub_mul, abs_mul]
    have := abs_abs_sub_abs_le q ((k : ℚ) / 10 ^ 6)
    have h3 : |(10 : ℚ) ^ 6| = 10 ^ 6 := by norm_num
    rw [h3]
    have h4 : |(|q| - |(k : ℚ) / 10 ^ 6|)| < 1 / 2 / 10 ^ 6 := lt_of_le_of_lt this h
    calc _ < 1 / 2 / 10 ^ 6 * 10 ^ 6 := mul_lt_mul_of_pos_right h4 (by norm_num)
      _ = 1 / 2 := by norm_num
  rw [HE_unique (micro_HE q) h1, abs_div, Nat.cast_natAbs]
  norm_num

theorem micro_mono {p q : ℚ} (h : |p| ≤ |q|) : micro p ≤ micro q :=
  HE_mono (micro_HE p) (micro_HE q) (by nlinarith)

theorem six_mono {p q : ℚ} (h : p ≤ q) : six p ≤ six q := by
  have h0 : ∀ q, (0 : ℚ) ≤ (micro q : ℚ) / 10 ^ 6 := fun q => by positivity
  unfold six
  split
  · rename_i hp
    split
    · rename_i hq
      have := micro_mono (p := q) (q := p) (by rw [abs_of_neg hp, abs_of_neg hq]; linarith)
      have : (micro q : ℚ) ≤ micro p := by exact_mod_cast this
      have := div_le_div_of_nonneg_right this (show (0 : ℚ) ≤ 10 ^ 6 by norm_num)
      linarith
    · have := h0 p; have := h0 q; linarith
  · rename_i hp
    rw [if_neg (by linarith)]
    have := micro_mono (p := p) (q := q) (by rw [abs_of_nonneg (by linarith), abs_of_nonneg (by linarith)]; linarith)
    have : (micro p : ℚ) ≤ micro q := by exact_mod_cast this
    exact div_le_div_of_nonneg_right this (show (0 : ℚ) ≤ 10 ^ 6 by norm_num)

theorem six_of_six {q : ℚ} (h : SixDecimals q) : six q = q := by
  have := micro_of_near h (q := q) (by rw [sub_self, abs_zero]; norm_num)
  unfold six
  rw [this]
  split
  · rename_i hq; rw [abs_of_neg hq]; ring
  · rename_i hq; rw [abs_of_nonneg (by linarith)]

section
variable {rnd : ℚ → ℚ} (hr : Nearest rnd)
include hr

/-- Large doubles survive. -/
theorem rnd_six_large {x : ℚ} (hx : IsDouble x) (h : 2 ^ 33 ≤ |x|) : rnd (six x) = x := by
  have e1 := six_err x
  have e2 := (hr (six x)).2 x hx
  rw [abs_sub_comm (six x) x] at e2
  have e3 : |x - rnd (six x)| ≤ 1 / 10 ^ 6 := by
    have : x - rnd (six x) = (x - six x) + (six x - rnd (six x)) := by ring
    rw [this]
    refine (abs_add_le _ _).trans ?_
    have : (1 : ℚ) / 2 / 10 ^ 6 + 1 / 2 / 10 ^ 6 = 1 / 10 ^ 6 := by norm_num
    linarith
  obtain ⟨k, hk⟩ := isDouble_grid hr hx (e := -19) (by norm_num; norm_num at h; exact h)
  have hu : (2 : ℚ) ^ (-19 : ℤ) = 1 / 524288 := by norm_num
  by_cases hb : 2 ^ 33 ≤ |rnd (six x)|
  · obtain ⟨j, hj⟩ := isDouble_grid hr (hr (six x)).1 (e := -19) (by norm_num; norm_num at hb; exact hb)
    have : |(k : ℚ) - j| < 1 := by
      rw [hj, hu] at e3
      conv at e3 => lhs; rw [hk, hu, ← sub_mul, abs_mul, abs_of_pos (show (0 : ℚ) < 1 / 524288 by norm_num)]
      linarith
    have h4 : |k - j| < 1 := by exact_mod_cast this
    rw [Int.abs_lt_one_iff] at h4
    rw [hj, show j = k by omega, ← hk]
  · exfalso
    push Not at hb
    have h5 : |x| < 2 ^ 33 + 1 / 10 ^ 6 := by
      have := abs_sub_abs_le_abs_sub x (rnd (six x))
      linarith
    -- then `|x|` is 2^33, which is an integer
    have h6 : |x| = 2 ^ 33 := by
      rw [hk, hu, abs_mul, abs_of_pos (show (0 : ℚ) < 1 / 524288 by norm_num)] at h5 h ⊢
      have i1 : (2 : ℚ) ^ 52 ≤ |(k : ℚ)| := by linarith
      have i2 : |(k : ℚ)| < 2 ^ 52 + 1 := by linarith
      have i3 : (2 : ℤ) ^ 52 ≤ |k| := by exact_mod_cast i1
      have i4 : |k| < 2 ^ 52 + 1 := by exact_mod_cast i2
      have i5 : |k| = 2 ^ 52 := by omega
      have i6 : |(k : ℚ)| = 2 ^ 52 := by exact_mod_cast i5
      rw [i6]; norm_num
    have h7 : SixDecimals x := by
      rcases abs_choice x with hc | hc
      · exact ⟨2 ^ 33 * 10 ^ 6, by rw [← hc, h6]; push_cast; norm_num⟩
      · exact ⟨-(2 ^ 33 * 10 ^ 6), by rw [show x = -|x| by rw [hc]; ring, h6]; push_cast; norm_num⟩
    rw [six_of_six h7, hr.fix hx] at hb
    linarith

/-- Numbers with six decimals that are not too large are recovered from the nearest double. -/
theorem rnd_small_err {z : ℚ} (h : |z| ≤ 2 ^ 33) : |rnd z - z| < 1 / 2 / 10 ^ 6 := by
  rcases h.lt_or_eq with h | h
  · refine lt_of_le_of_lt (err_ulp hr z) ?_
    have hu : ulpExp z ≤ -20 := by
      unfold ulpExp
      by_cases hz : z = 0
      · subst hz; simp
      have : Int.log 2 |z| < 33 := by
        rw [← Int.lt_zpow_iff_log_lt (by norm_num) (abs_pos.2 hz)]
        norm_num; norm_num at h; exact h
      omega
    have : (2 : ℚ) ^ ulpExp z ≤ (2 : ℚ) ^ (-20 : ℤ) := zpow_le_zpow_right₀ (by norm_num) hu
    have h20 : (2 : ℚ) ^ (-20 : ℤ) = 1 / 1048576 := by norm_num
    rw [h20] at this
    linarith
  · have : IsDouble z := by
      rcases abs_choice z with hc | hc
      · exact ⟨1, 33, by norm_num, by norm_num, by rw [← hc, h]; norm_num⟩
      · exact ⟨-1, 33, by norm_num, by norm_num, by rw [show z = -|z| by rw [hc]; ring, h]; norm_num⟩
    rw [hr.fix this]
    norm_num

theorem rnd_neg_of {z : ℚ} (h : z ≤ 0) : rnd z ≤ 0 := by
  have := hr.mono h
  rwa [hr.fix isDouble_zero] at this

theorem rnd_nonneg_of {z : ℚ} (h : 0 ≤ z) : 0 ≤ rnd z := by
  have := hr.mono h
  rwa [hr.fix isDouble_zero] at this

end

/-! ### Scanning -/

theorem takeWhile_append_stop {p : α → Bool} {l : List α} (h : ∀ x ∈ l, p x = true) {r : List α} (hr : ∀ c, r.head? = some c → p c = false) :
    (l ++ r).takeWhile p = l ∧ (l ++ r).dropWhile p = r := by
  induction l with
  | nil =>
    cases r with
    | nil => exact ⟨rfl, rfl⟩
    | cons c r => simp [List.takeWhile_cons, List.dropWhile_cons, hr c rfl]
  | cons a l ih =>
    have := ih (fun x hx => h x (by simp [hx]))
    simp [List.takeWhile_cons, List.dropWhile_cons, h a (by simp), this.1, this.2]

/-- Characters after which a number cannot go on. -/
def Stops (rest : Txt) : Prop :=
  ∀ c, rest.head? = some c → c.isDigit = false ∧ c ≠ '.' ∧ c ≠ 'e' ∧ c ≠ 'E' ∧ c ≠ 'x' ∧ c ≠ 'X' ∧ c ≠ '+' ∧ c ≠ '-'

theorem isDigit_ne {c d : Char} (h : c.isDigit = true) (hd : d.isDigit = false) : c ≠ d := by rintro rfl; rw [h] at hd; cases hd

/-- The text after the digits before the point. -/
def Numeral.tail (n : Numeral) : Txt :=
  (match n.frac with | some f => '.' :: f | none => []) ++ (match n.exp with | some (e, s, d) => e :: (s.toList ++ d) | none => [])

/-- The exponent text. -/
def Numeral.expText (n : Numeral) : Txt := match n.exp with | some (e, s, d) => e :: (s.toList ++ d) | none => []

/-- The exponent. -/
def Numeral.expVal (n : Numeral) : ℤ :=
  match n.exp with
  | some (_, s, d) => if s = some '-' then -(Nat.ofDigitChars 10 d 0 : ℤ) else Nat.ofDigitChars 10 d 0
  | none => 0

theorem splitSign_toList (s : Option Char) (t : Txt) (hs : ∀ c, s = some c → c = '-' ∨ c = '+') (ht : ∀ c, t.head? = some c → c ≠ '-' ∧ c ≠ '+') :
    splitSign (s.toList ++ t) = (decide (s = some '-'), t) := by
  cases s with
  | none =>
    cases t with
    | nil => rfl
    | cons c t =>
      obtain ⟨h1, h2⟩ := ht c rfl
      simp [splitSign, h1, h2]
  | some c =>
    rcases hs c rfl with rfl | rfl
    · rfl
    · rfl

theorem scanExponent_eq (n : Numeral) (hn : n.Ok) (rest : Txt) (hrest : Stops rest) :
    scanExponent (fun c => c == 'e' || c == 'E') (Numeral.expText n ++ rest) = Numeral.expVal n := by
  obtain ⟨-, -, -, -, h5⟩ := hn
  unfold Numeral.expText Numeral.expVal
  cases he : n.exp with
  | none =>
    simp only [List.nil_append]
    cases rest with
    | nil => rfl
    | cons c r =>
      obtain ⟨-, -, h1, h2, -⟩ := hrest c rfl
      simp [scanExponent, h1, h2]
  | some p =>
    obtain ⟨e, s, d⟩ := p
    obtain ⟨h1, h2, h3, h4⟩ := h5 e s d he
    have hE : (e == 'e' || e == 'E') = true := by rcases h1 with rfl | rfl <;> decide
    simp only [List.cons_append, scanExponent, hE, if_true, List.append_assoc]
    have hsp : splitSign (s.toList ++ (d ++ rest)) = (decide (s = some '-'), d ++ rest) := by
      apply splitSign_toList s _ h2
      intro c hc
      cases d with
      | nil => exact absurd rfl h3
      | cons a d =>
        simp only [List.cons_append, List.head?_cons, Option.some.injEq] at hc
        subst hc
        have := h4 a (by simp)
        exact ⟨isDigit_ne this (by decide), isDigit_ne this (by decide)⟩
    rw [hsp]
    simp only
    rw [(takeWhile_append_stop h4 (fun c hc => (hrest c hc).1)).1]
    simp only [decide_eq_true_eq]

theorem scanMantissa_eq (n : Numeral) (hn : n.Ok) (rest : Txt) (hrest : Stops rest) :
    scanMantissa Char.isDigit (n.whole ++ (Numeral.tail n ++ rest)) =
      some (n.whole ++ n.frac.getD [], (n.frac.getD []).length, Numeral.expText n ++ rest) := by
  obtain ⟨-, h2, h3, h4, h5⟩ := hn
  have hexp : ∀ c, (Numeral.expText n ++ rest).head? = some c → c.isDigit = false ∧ c ≠ '.' := by
    intro c hc
    unfold Numeral.expText at hc
    cases he : n.exp with
    | none => rw [he] at hc; exact ⟨(hrest c hc).1, (hrest c hc).2.1⟩
    | some p =>
      obtain ⟨e, s, d⟩ := p
      rw [he] at hc
      simp only [List.cons_append, List.head?_cons, Option.some.injEq] at hc
      subst hc
      rcases (h5 e s d he).1 with rfl | rfl <;> decide
  cases hf : n.frac with
  | none =>
    have ht : Numeral.tail n = Numeral.expText n := by unfold Numeral.tail Numeral.expText; rw [hf]; rfl
    rw [ht]
    obtain ⟨a, b⟩ := takeWhile_append_stop (p := Char.isDigit) (l := n.whole) h2 (r := Numeral.expText n ++ rest) (fun c hc => (hexp c hc).1)
    unfold scanMantissa
    rw [a, b]
    have hne : n.whole ≠ [] := by
      rcases h4 with h | ⟨f, h, -⟩
      · exact h
      · rw [hf] at h; cases h
    have hdot : ∀ t, Numeral.expText n ++ rest ≠ '.' :: t := by
      intro t ht
      exact absurd rfl (hexp '.' (by rw [ht]; rfl)).2
    generalize Numeral.expText n ++ rest = r at hdot
    match r, hdot with
    | [], _ => simp [hne]
    | c :: u, hdot =>
      have hc : c ≠ '.' := by rintro rfl; exact hdot u rfl
      simp [hne, hc]
  | some f =>
    have ht : Numeral.tail n = '.' :: (f ++ Numeral.expText n) := by unfold Numeral.tail Numeral.expText; rw [hf]; rfl
    rw [ht]
    simp only [List.cons_append, List.append_assoc]
    obtain ⟨a, b⟩ := takeWhile_append_stop (p := Char.isDigit) (l := n.whole) h2 (r := '.' :: (f ++ (Numeral.expText n ++ rest)))
      (fun c hc => by simp only [List.head?_cons, Option.some.injEq] at hc; subst hc; decide)
    obtain ⟨a', b'⟩ := takeWhile_append_stop (p := Char.isDigit) (l := f) (h3 f hf) (r := Numeral.expText n ++ rest) (fun c hc => (hexp c hc).1)
    unfold scanMantissa
    rw [a, b]
    simp only [a', b']
    have hne : n.whole ++ f ≠ [] := by
      rcases h4 with h | ⟨g, h, h'⟩
      · simp [h]
      · rw [hf] at h; cases h; simp [h']
    rw [if_neg hne]
    simp

theorem expVal_pow (n : Numeral) : (10 : ℚ) ^ Numeral.expVal n =
    (match n.exp with
      | some (_, s, d) => if s = some '-' then 1 / (10 : ℚ) ^ Nat.ofDigitChars 10 d 0 else (10 : ℚ) ^ Nat.ofDigitChars 10 d 0
      | none => 1) := by
  unfold Numeral.expVal
  cases n.exp with
  | none => simp
  | some p =>
    obtain ⟨e, s, d⟩ := p
    simp only
    split
    · rw [zpow_neg, zpow_natCast, one_div]
    · rw [zpow_natCast]

theorem scanDec_eq (n : Numeral) (hn : n.Ok) (rest : Txt) (hrest : Stops rest) :
    scanDec (n.whole ++ (Numeral.tail n ++ rest)) = some n.magnitude := by
  unfold scanDec
  rw [scanMantissa_eq n hn rest hrest]
  simp only [scanExponent_eq n hn rest hrest]
  unfold Numeral.magnitude
  rw [expVal_pow]
  cases n.exp <;> rfl

theorem toLower_digit {c : Char} (h : c.isDigit = true) : c.toLower = c := by
  unfold Char.toLower
  rw [dif_neg]
  intro hc
  unfold Char.isDigit at h
  simp only [Bool.and_eq_true, decide_eq_true_eq] at h
  obtain ⟨h1, h2⟩ := hc
  have h3 : c.val ≤ 57 := h.2
  have h4 : 65 ≤ c.val := h1
  exact absurd (UInt32.le_trans h4 h3) (by decide)

theorem scanMagnitude_eq (n : Numeral) (hn : n.Ok) (rest : Txt) (hrest : Stops rest) :
    scanMagnitude (n.whole ++ (Numeral.tail n ++ rest)) = some (.num n.magnitude) := by
  -- the first character is a digit or the point
  have hfirst : ∃ c t, n.whole ++ (Numeral.tail n ++ rest) = c :: t ∧ (c.isDigit = true ∨ c = '.') := by
    obtain ⟨-, h2, h3, h4, -⟩ := hn
    cases hw : n.whole with
    | nil =>
      rcases h4 with h | ⟨f, h, -⟩
      · exact absurd hw h
      · unfold Numeral.tail
        rw [h]
        exact ⟨'.', _, rfl, Or.inr rfl⟩
    | cons a w =>
      exact ⟨a, _, rfl, Or.inl (h2 a (by rw [hw]; simp))⟩
  -- the second one is not an `x`
  have hsecond : ∀ c d t, n.whole ++ (Numeral.tail n ++ rest) = c :: d :: t → c = '0' → d.toLower ≠ 'x' := by
    obtain ⟨-, h2, h3, h4, h5⟩ := hn
    intro c d t h hc
    cases hw : n.whole with
    | nil =>
      exfalso
      rcases h4 with h' | ⟨f, h', -⟩
      · exact h' hw
      · rw [hw] at h
        unfold Numeral.tail at h
        rw [h'] at h
        injection h with h _
        rw [← h] at hc
        exact absurd hc (by decide)
    | cons a w =>
      rw [hw] at h
      injection h with _ h
      cases w with
      | cons b w =>
        injection h with h _
        have := h2 b (by rw [hw]; simp)
        rw [← h, toLower_digit this]
        exact isDigit_ne this (by decide)
      | nil =>
        replace h : Numeral.tail n ++ rest = d :: t := h
        unfold Numeral.tail at h
        cases hf : n.frac with
        | some f =>
          rw [hf] at h
          injection h with h _
          rw [← h]; decide
        | none =>
          rw [hf] at h
          cases he : n.exp with
          | some p =>
            obtain ⟨e, s, dd⟩ := p
            rw [he] at h
            injection h with h _
            rw [← h]
            rcases (h5 e s dd he).1 with rfl | rfl <;> decide
          | none =>
            rw [he] at h
            replace h : rest = d :: t := h
            obtain ⟨-, -, -, -, hx, hX, -⟩ := hrest d (by rw [h]; rfl)
            intro hl
            unfold Char.toLower at hl
            split at hl
            · apply hX
              rename_i hcond
              have : d.val = 88 := by
                have h9 := congrArg Char.val hl
                simp only at h9
                have h10 : ('x' : Char).val = 120 := rfl
                rw [h10] at h9
                have : d.val = d.val + ('a'.val - 'A'.val) - ('a'.val - 'A'.val) := by simp
                rw [this, h9]; decide
              exact Char.ext this
            · exact hx hl
  have hdec := scanDec_eq n hn rest hrest
  revert hdec hsecond hfirst
  generalize n.whole ++ (Numeral.tail n ++ rest) = t
  rintro ⟨c, u, rfl, hc⟩ hsecond hdec
  have hcl : c.toLower = c ∧ c ≠ 'i' ∧ c ≠ 'n' := by
    rcases hc with hc | rfl
    · exact ⟨toLower_digit hc, isDigit_ne hc (by decide), isDigit_ne hc (by decide)⟩
    · decide
  unfold scanMagnitude
  rw [if_neg (by simp [hcl]), if_neg (by simp [hcl]), if_neg, hdec]
  · rfl
  · intro h
    cases u with
    | nil => simp at h
    | cons d u =>
      simp only [List.take_succ_cons, List.take_zero, List.map_cons, List.map_nil, List.cons.injEq, and_true, hcl.1] at h
      exact hsecond c d u rfl h.1 h.2

theorem numeral_text (n : Numeral) : n.text = n.sign.toList ++ (n.whole ++ Numeral.tail n) := by
  unfold Numeral.text Numeral.tail
  simp only [List.append_assoc]
  cases n.frac <;> cases n.exp <;> rfl

/-- Reading a decimal number. -/
theorem stodLib_numeral (L : FpLib) (n : Numeral) (hn : n.Ok) (w : Txt) (hw : ∀ c ∈ w, isSpaceC c = true) (rest : Txt) (hrest : Stops rest) :
    stodLib L (w ++ n.text ++ rest) =
      if 2 ^ 1024 ≤ |L.rnd n.value| then .error (.exc .outOfRange)
      else if L.under n.magnitude then .error (.exc .outOfRange)
      else if n.sign = some '-' ∧ L.rnd n.value = 0 then .ok .negZero
      else .ok (.fin (L.rnd n.value)) := by
  have hmag := scanMagnitude_eq n hn rest hrest
  obtain ⟨h1, h2, h3, h4, -⟩ := hn
  have hhead : ∀ c, (n.whole ++ (Numeral.tail n ++ rest)).head? = some c → isSpaceC c = false ∧ c ≠ '-' ∧ c ≠ '+' := by
    intro c hc
    cases hw : n.whole with
    | nil =>
      rcases h4 with h | ⟨f, h, -⟩
      · exact absurd hw h
      · rw [hw] at hc
        unfold Numeral.tail at hc
        rw [h] at hc
        simp only [List.nil_append, List.cons_append, List.head?_cons, Option.some.injEq] at hc
        subst hc
        decide
    | cons a u =>
      rw [hw] at hc
      simp only [List.cons_append, List.head?_cons, Option.some.injEq] at hc
      subst hc
      exact Props.isDigit_not_space (h2 a (by rw [hw]; simp))
  have hdrop : (w ++ n.text ++ rest).dropWhile isSpaceC = n.sign.toList ++ (n.whole ++ (Numeral.tail n ++ rest)) := by
    rw [numeral_text]
    simp only [List.append_assoc]
    refine (takeWhile_append_stop hw ?_).2
    intro c hc
    cases hs : n.sign with
    | none => rw [hs] at hc; exact (hhead c hc).1
    | some s =>
      rw [hs] at hc
      simp only [Option.toList_some, List.cons_append, List.head?_cons, Option.some.injEq] at hc
      subst hc
      rcases h1 s hs with rfl | rfl <;> decide
  unfold stodLib
  rw [hdrop, splitSign_toList n.sign _ h1 (fun c hc => (hhead c hc).2)]
  simp only [hmag]
  unfold Numeral.value
  simp only [decide_eq_true_eq]

end Jules

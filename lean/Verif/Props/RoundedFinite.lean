import Verif.Props.Rounded
/-
C70: when the reductions of `double`s do not overflow. With these theorems the error bounds of `C70_sum`, `C70_mean`, `C70_var`, `C70_dot`
and `C70_product` hold of every container that is not enormous: up to 2⁵² values of up to 2⁴³⁰ (up to 2⁴⁸⁰ for products).
-/
namespace Jules.Props
open Spec

section
variable {rnd : ℚ → ℚ} (hr : Nearest rnd)

/-- Powers of two are `double`s (or, from 2¹⁰²⁴ on, would be without the bound of the exponent). -/
theorem isDouble_pow (k : ℕ) : IsDouble ((2 : ℚ) ^ k) := ⟨1, k, by norm_num, by omega, by simp⟩

/-- The roundings of up to 2⁵² additions do not double a sum. -/
theorem growth_le_two {n : ℕ} (hn : n ≤ 2 ^ 52) : (1 + unit) ^ n ≤ 2 := by
  have hu := unit_pos
  have h1 : 1 + (n : ℚ) * (-unit) ≤ (1 + -unit) ^ n := one_add_mul_le_pow (by unfold unit; norm_num) n
  have h2 : (n : ℚ) * unit ≤ 1 / 2 := by
    have : (n : ℚ) ≤ 2 ^ 52 := by exact_mod_cast hn
    have : (n : ℚ) * unit ≤ 2 ^ 52 * unit := mul_le_mul_of_nonneg_right this hu.le
    have : (2 : ℚ) ^ 52 * unit = 1 / 2 := by unfold unit; norm_num
    linarith
  have h3 : (1 + unit) ^ n * (1 + -unit) ^ n ≤ 1 := by
    rw [← mul_pow]
    apply pow_le_one₀
    · have : unit < 1 := by unfold unit; norm_num
      nlinarith
    · nlinarith [sq_nonneg unit]
  have h4 : 0 < (1 + unit) ^ n := by positivity
  nlinarith

theorem asum_le_bound {B : ℚ} : ∀ {qs : List ℚ}, (∀ q ∈ qs, |q| ≤ B) → asum qs ≤ qs.length * B
  | [], _ => by simp [asum]
  | q :: qs, h => by
    have h1 := h q (by simp)
    have h2 := asum_le_bound (B := B) (qs := qs) fun x hx => h x (by simp [hx])
    rw [asum_cons, List.length_cons]
    push_cast
    linarith

theorem abs_isum_le : ∀ zs : List ℤ, |zs.sum| ≤ (zs.map fun z => |z|).sum
  | [] => by simp
  | z :: zs => by
    simp only [List.sum_cons, List.map_cons]
    have := abs_isum_le zs
    exact (abs_add_le _ _).trans (by omega)

include hr

/-- Rounding does not pass a power of two. -/
theorem rnd_le_pow {x : ℚ} {k : ℕ} (h : |x| ≤ 2 ^ k) : |rnd x| ≤ 2 ^ k := by
  obtain ⟨h1, h2⟩ := abs_le.1 h
  have h3 := hr.mono h1
  have h4 := hr.mono h2
  rw [hr.fix (isDouble_neg (isDouble_pow k))] at h3
  rw [hr.fix (isDouble_pow k)] at h4
  exact abs_le.2 ⟨h3, h4⟩

theorem toFl_pow {x : ℚ} {k : ℕ} (hk : k < 1024) (h : |x| ≤ 2 ^ k) : toFl rnd x = some (rnd x) :=
  if_pos (lt_of_le_of_lt (rnd_le_pow hr h) (pow_lt_pow_right₀ (by norm_num) hk))

/-- A sum of up to 2⁵² numbers of up to 2ᵏ. -/
theorem flSum_pow {qs : List ℚ} {k : ℕ} (hk : k + 53 < 1024) (hq : ∀ q ∈ qs, IsDouble q) (hb : ∀ q ∈ qs, |q| ≤ 2 ^ k) (hn : qs.length ≤ 2 ^ 52) :
    ∃ y, flSum rnd (some 0) (qs.map some) = some y ∧ IsDouble y ∧ |y| ≤ 2 ^ (k + 53) := by
  have hA : asum qs ≤ 2 ^ 52 * 2 ^ k := by
    refine (asum_le_bound hb).trans (mul_le_mul_of_nonneg_right ?_ (by positivity))
    exact_mod_cast hn
  have hA0 := asum_nonneg qs
  have hg : ∀ n, n ≤ 2 ^ 52 → (1 + unit) ^ n * asum qs ≤ 2 ^ (k + 53) := by
    intro n hn
    have := growth_le_two hn
    calc (1 + unit) ^ n * asum qs ≤ 2 * asum qs := mul_le_mul_of_nonneg_right this hA0
      _ ≤ 2 * (2 ^ 52 * 2 ^ k) := by linarith
      _ = 2 ^ (k + 53) := by rw [pow_add]; ring
  obtain ⟨y, hy⟩ := flSum_finite hr isDouble_zero hq (by
    rw [abs_zero, zero_add]
    exact lt_of_le_of_lt (hg _ hn) (pow_lt_pow_right₀ (by norm_num) hk))
  obtain ⟨k1, k2⟩ := flSum_err0 hr hq hy
  refine ⟨y, hy, k1, ?_⟩
  have h3 : |y| ≤ |y - qs.sum| + |qs.sum| := by
    have := abs_add_le (y - qs.sum) qs.sum
    simpa using this
  have h4 := abs_sum_le qs
  have h5 := hg (qs.length - 1) (by omega)
  unfold rel at k2
  linarith

/-- A division by a count does not overflow. -/
theorem flDiv_pow {y : ℚ} {k : ℕ} {N : ℤ} (hk : k < 1024) (hy : |y| ≤ 2 ^ k) (hN : 0 < N) (hN' : N ≤ 2 ^ 53) :
    ∃ v, flDiv rnd (some y) N = some v ∧ |v| ≤ 2 ^ k := by
  have hfix : rnd (N : ℚ) = N := hr.fix (isDouble_int (by rw [abs_of_pos hN]; exact hN'))
  have hNq : (1 : ℚ) ≤ N := by exact_mod_cast hN
  have hle : |(N : ℚ)| ≤ 2 ^ 53 := by
    rw [abs_of_nonneg (by linarith)]
    exact_mod_cast hN'
  have hd : |y / N| ≤ 2 ^ k := by
    rw [abs_div, abs_of_pos (by linarith : (0 : ℚ) < N), div_le_iff₀ (by linarith)]
    nlinarith [abs_nonneg y, (by positivity : (0 : ℚ) ≤ 2 ^ k)]
  refine ⟨rnd (y / N), ?_, rnd_le_pow hr hd⟩
  unfold flDiv
  rw [toFl_pow hr (k := 53) (by omega) hle, hfix]
  show (if (N : ℚ) = 0 then none else toFl rnd (y / N)) = _
  rw [if_neg (by linarith), toFl_pow hr hk hd]

/-- **C70.** `sum` of up to 2⁵² values of up to 2⁴³⁰ is finite. -/
theorem C70_sum_bounded {xs : List ℚ} (hx : ∀ x ∈ xs, IsDouble x) (hb : ∀ x ∈ xs, |x| ≤ 2 ^ 430) (hn : xs.length ≤ 2 ^ 52) :
    ∃ s, sumL (doubleOps rnd) (xs.map some) (some 0) = .ok (some s) := by
  obtain ⟨y, hy, _⟩ := flSum_pow hr (by norm_num) hx hb hn
  exact ⟨y, by rw [sumL_double, hy]⟩

/-- **C70.** `mean` of up to 2⁵² values of up to 2⁴³⁰ (at least one) is finite. -/
theorem C70_mean_bounded {xs : List ℚ} (hx : ∀ x ∈ xs, IsDouble x) (hb : ∀ x ∈ xs, |x| ≤ 2 ^ 430) (h0 : xs ≠ []) (hn : xs.length ≤ 2 ^ 52) :
    ∃ m, meanIter (doubleOps rnd) (xs.map some) (some 0) = .ok (some m) ∧ |m| ≤ 2 ^ 483 := by
  obtain ⟨y, hy, _, hyb⟩ := flSum_pow hr (by norm_num) hx hb hn
  have hpos : 0 < xs.length := List.length_pos_of_ne_nil h0
  obtain ⟨v, hv, hvb⟩ := flDiv_pow hr (N := xs.length) (by norm_num) hyb (by exact_mod_cast hpos) (by
    have : (xs.length : ℤ) ≤ 2 ^ 52 := by exact_mod_cast hn
    exact this.trans (by norm_num))
  exact ⟨v, by rw [mean_double hr, hy, hv], hvb⟩

/-- **C70.** `var` of up to 2⁵² values of up to 2⁴³⁰ (at least two) is finite. -/
theorem C70_var_bounded {xs : List ℚ} (hx : ∀ x ∈ xs, IsDouble x) (hb : ∀ x ∈ xs, |x| ≤ 2 ^ 430) (h2 : 2 ≤ xs.length) (hn : xs.length ≤ 2 ^ 52) :
    ∃ v, var (doubleOps rnd) (xs.map some) (some 0) = .ok (some v) := by
  have h0 : xs ≠ [] := by rintro rfl; simp at h2
  obtain ⟨m, hm, hmb⟩ := C70_mean_bounded hr hx hb h0 hn
  have hdev : ∀ x ∈ xs, |x - m| ≤ 2 ^ 484 := by
    intro x hxx
    have h1 := hb x hxx
    have h2 := abs_sub x m
    have h4 : (2 : ℚ) ^ 430 ≤ 2 ^ 483 := pow_le_pow_right₀ (by norm_num) (by norm_num)
    have h3 : (2 : ℚ) ^ 430 + 2 ^ 483 ≤ 2 ^ 484 := by
      refine (add_le_add_left h4 _).trans (le_of_eq ?_)
      rw [pow_succ _ 483, mul_two]
    exact h2.trans ((add_le_add h1 hmb).trans h3)
  have hsq : ∀ x ∈ xs, |rnd (x - m) * rnd (x - m)| ≤ 2 ^ 968 := by
    intro x hxx
    have h1 := rnd_le_pow hr (hdev x hxx)
    rw [abs_mul, show (2 : ℚ) ^ 968 = 2 ^ 484 * 2 ^ 484 by rw [← pow_add]]
    exact mul_le_mul h1 h1 (abs_nonneg _) (by positivity)
  have hterms : (xs.map some).map (fun x => fl2 rnd (· * ·) (fl2 rnd (· - ·) x (some m)) (fl2 rnd (· - ·) x (some m))) =
      (xs.map fun x => rnd (rnd (x - m) * rnd (x - m))).map some := by
    rw [List.map_map, List.map_map]
    apply List.map_congr_left
    intro x hxx
    have e1 : fl2 rnd (· - ·) (some x) (some m) = some (rnd (x - m)) := toFl_pow hr (k := 484) (by omega) (hdev x hxx)
    show fl2 rnd (· * ·) (fl2 rnd (· - ·) (some x) (some m)) (fl2 rnd (· - ·) (some x) (some m)) = some _
    rw [e1]
    exact toFl_pow hr (k := 968) (by omega) (hsq x hxx)
  obtain ⟨y, hy, _, hyb⟩ := flSum_pow hr (qs := xs.map fun x => rnd (rnd (x - m) * rnd (x - m))) (k := 968) (by norm_num)
    (by simp only [List.mem_map]; rintro _ ⟨x, _, rfl⟩; exact (hr _).1)
    (by simp only [List.mem_map]; rintro _ ⟨x, hxx, rfl⟩; exact rnd_le_pow hr (hsq x hxx))
    (by rw [List.length_map]; exact hn)
  obtain ⟨v, hv, _⟩ := flDiv_pow hr (N := (xs.length : ℤ) - 1) (by norm_num) hyb (by omega) (by
    have : (xs.length : ℤ) ≤ 2 ^ 52 := by exact_mod_cast hn
    have : (2 : ℤ) ^ 52 ≤ 2 ^ 53 := by norm_num
    linarith)
  refine ⟨v, ?_⟩
  unfold var
  rw [hm]
  simp only [res_ok_bind]
  rw [devLoop_double, hterms, hy]
  simp only [res_ok_bind, doubleOps, List.length_map]
  rw [hv]

/-- A product, factor by factor. -/
theorem foldl_mul_pow {k : ℕ} : ∀ {xs : List ℚ} {s : ℚ} {j : ℕ}, (∀ x ∈ xs, |x| ≤ 2 ^ k) → |s| ≤ 2 ^ j → j + k * xs.length < 1024 →
    ∃ p, (xs.map some).foldl (fl2 rnd (· * ·)) (some s) = some p ∧ |p| ≤ 2 ^ (j + k * xs.length)
  | [], s, j, _, hs, _ => ⟨s, rfl, by simpa using hs⟩
  | x :: xs, s, j, hx, hs, hj => by
    have h1 : |s * x| ≤ 2 ^ (j + k) := by
      rw [abs_mul, pow_add]
      exact mul_le_mul hs (hx x (by simp)) (abs_nonneg _) (by positivity)
    have hl : j + k + k * xs.length = j + k * (x :: xs).length := by rw [List.length_cons, Nat.mul_succ]; omega
    obtain ⟨p, hp, hb⟩ := foldl_mul_pow (xs := xs) (fun y hy => hx y (by simp [hy])) (rnd_le_pow hr h1) (by omega)
    refine ⟨p, ?_, by rwa [hl] at hb⟩
    have e : fl2 rnd (· * ·) (some s) (some x) = some (rnd (s * x)) := toFl_pow hr (by omega) h1
    rw [List.map_cons, List.foldl_cons, e, hp]

/-- **C70.** `prod` of `n` values of up to 2ᵏ is finite when `k * n < 1024`, and at most 2 to the power of `k * n`. -/
theorem C70_prod_bounded {xs : List ℚ} {k : ℕ} (hb : ∀ x ∈ xs, |x| ≤ 2 ^ k) (hn : k * xs.length < 1024) :
    ∃ p, prodLoop (doubleOps rnd) (xs.map some) (some 1) = .ok (some p) ∧ |p| ≤ 2 ^ (k * xs.length) := by
  obtain ⟨p, hp, hpb⟩ := foldl_mul_pow hr (s := 1) (j := 0) hb (by simp) (by simpa using hn)
  exact ⟨p, by rw [prodLoop_double hr, hp], by simpa using hpb⟩

/-- **C70.** Inner products of up to 2⁵² pairs of numbers of up to 2⁴⁸⁰ are finite. -/
theorem C70_dot_bounded (k : ℕ) (hk : k ≤ 2 ^ 52) (x y : ℕ → ℚ) (hx : ∀ t, t < k → |x t| ≤ 2 ^ 480) (hy : ∀ t, t < k → |y t| ≤ 2 ^ 480) :
    ∃ s, dot (fl2 rnd (· + ·)) (fl2 rnd (· * ·)) (some 0) k (fun t => some (x t)) (fun t => some (y t)) = some s := by
  have hfold : ∀ (l : List ℕ) (s : Fl), l.foldl (fun acc t => fl2 rnd (· + ·) acc (fl2 rnd (· * ·) (some (x t)) (some (y t)))) s =
      flSum rnd s (l.map fun t => toFl rnd (x t * y t)) := by
    intro l
    induction l with
    | nil => intro s; rfl
    | cons t l ih => intro s; exact ih _
  have hxy : ∀ t ∈ List.range k, |x t * y t| ≤ 2 ^ 960 := by
    intro t ht
    have ht := List.mem_range.1 ht
    rw [abs_mul, show (2 : ℚ) ^ 960 = 2 ^ 480 * 2 ^ 480 by rw [← pow_add]]
    exact mul_le_mul (hx t ht) (hy t ht) (abs_nonneg _) (by positivity)
  have hterm : (List.range k).map (fun t => toFl rnd (x t * y t)) = ((List.range k).map fun t => rnd (x t * y t)).map some := by
    rw [List.map_map]
    apply List.map_congr_left
    intro t ht
    exact toFl_pow hr (k := 960) (by omega) (hxy t ht)
  obtain ⟨s, hs, _⟩ := flSum_pow hr (qs := (List.range k).map fun t => rnd (x t * y t)) (k := 960) (by norm_num)
    (by simp only [List.mem_map]; rintro _ ⟨t, _, rfl⟩; exact (hr _).1)
    (by simp only [List.mem_map]; rintro _ ⟨t, ht, rfl⟩; exact rnd_le_pow hr (hxy t ht))
    (by simpa using hk)
  refine ⟨s, ?_⟩
  unfold dot
  rw [hfold, hterm, hs]

/-- **C70.** `product(a, b)` of matrices with numbers of up to 2⁴⁸⁰ (and up to 2⁵² columns in the first): every element of the result is finite
and within the error bound. -/
theorem C70_product_bounded {chk : Bool} {m : Mem Fl} {o₁ o₂ : Obj} {v₁ v₂ : AView}
    {off₁ off₂ : Nat} {e₁ e₂ : List Nat} {h₁ h₂ : List Ix} (hv₁ : ViewAt off₁ e₁ h₁ o₁ v₁) (hv₂ : ViewAt off₂ e₂ h₂ o₂ v₂)
    (hnv : ∀ off d idx, o₂ ≠ .sref off (.vec d idx)) {r k p : Nat} {a b : Nat → Nat → ℚ} (ha : Shows m v₁ r k fun i t => some (a i t))
    (hb : Shows m v₂ k p fun t j => some (b t j)) (hr0 : r ≠ 0) (hk : k ≠ 0) (hp : p ≠ 0) (hk' : k ≤ 2 ^ 52)
    (hab : ∀ i t, i < r → t < k → |a i t| ≤ 2 ^ 480) (hbb : ∀ t j, t < k → j < p → |b t j| ≤ 2 ^ 480) (fresh : Nat) :
    ∃ m', product Arith.exact chk (fl2 rnd (· + ·)) (fl2 rnd (· * ·)) (some 0) m o₁ o₂ fresh = .ok (m', ⟨fresh, [r, p]⟩) ∧
      ∀ i j, i < r → j < p → ∃ s : ℚ, Reads m' (.cref fresh [r, p]) [i, j] (some (some s)) ∧
        |s - ((List.range k).map fun t => a i t * b t j).sum| ≤
          rel k * ((List.range k).map fun t => |a i t| * |b t j|).sum + (1 + unit) ^ (k - 1) * (k * tiny) := by
  obtain ⟨m', k1, k2, _⟩ := C29_product (chk := chk) (add := fl2 rnd (· + ·)) (mul := fl2 rnd (· * ·)) (zero := some 0) hv₁ hv₂ hnv ha hb hr0 hk hp fresh
  refine ⟨m', k1, fun i j hi hj => ?_⟩
  obtain ⟨s, hs⟩ := C70_dot_bounded hr k hk' (fun t => a i t) (fun t => b t j) (fun t ht => hab i t hi ht) (fun t ht => hbb t j ht hj)
  have := k2 i j hi hj
  rw [hs] at this
  exact ⟨s, this, C70_dot hr k _ _ hs⟩

/-! ### Means and variances of integers -/

/-- **C70.** The mean of integers (stored as `double`s, absolute values adding up to at most 2⁵³) is the exact mean rounded once. -/
theorem C70_mean_integers (zs : List ℤ) (h0 : zs ≠ []) (h : (zs.map fun z => |z|).sum ≤ 2 ^ 53) (hn : zs.length ≤ 2 ^ 53) :
    meanIter (doubleOps rnd) ((zs.map (Int.cast : ℤ → ℚ)).map some) (some 0) = .ok (some (rnd ((zs.sum : ℚ) / zs.length))) := by
  have hs := C70_sum_integers hr zs h
  rw [sumL_double] at hs
  have hs : flSum rnd (some 0) ((zs.map (Int.cast : ℤ → ℚ)).map some) = some (zs.sum : ℚ) := by simpa using hs
  rw [mean_double hr, hs, List.length_map]
  have hpos : 0 < zs.length := List.length_pos_of_ne_nil h0
  have hsb : |zs.sum| ≤ 2 ^ 53 := (abs_isum_le zs).trans h
  have hq : |(zs.sum : ℚ)| ≤ 2 ^ 53 := by exact_mod_cast hsb
  have hNq : (1 : ℚ) ≤ zs.length := by exact_mod_cast hpos
  have hd : |(zs.sum : ℚ) / zs.length| ≤ 2 ^ 53 := by
    rw [abs_div, abs_of_pos (by linarith : (0 : ℚ) < zs.length), div_le_iff₀ (by linarith)]
    nlinarith [abs_nonneg (zs.sum : ℚ)]
  have hl : |((zs.length : ℤ) : ℚ)| ≤ 2 ^ 53 := by
    rw [Int.cast_natCast, abs_of_nonneg (by linarith)]
    exact_mod_cast hn
  have hfix : rnd ((zs.length : ℤ) : ℚ) = (zs.length : ℤ) := hr.fix (isDouble_int (by rw [abs_of_nonneg (by omega)]; exact_mod_cast hn))
  unfold flDiv
  rw [toFl_pow hr (k := 53) (by omega) hl, hfix]
  show Except.ok (if ((zs.length : ℤ) : ℚ) = 0 then none else toFl rnd ((zs.sum : ℚ) / ((zs.length : ℤ) : ℚ))) = _
  rw [Int.cast_natCast, if_neg (by linarith), toFl_pow hr (k := 53) (by omega) hd]

/-- **C70.** So the mean of such integers lies between any bounds of them that are `double`s (the smallest and the largest, for instance). -/
theorem C70_mean_within_integers {zs : List ℤ} (h0 : zs ≠ []) (h : (zs.map fun z => |z|).sum ≤ 2 ^ 53) (hn : zs.length ≤ 2 ^ 53) {lo hi : ℚ}
    (hlo : IsDouble lo) (hhi : IsDouble hi) (hz : ∀ z ∈ zs, lo ≤ z ∧ (z : ℚ) ≤ hi) :
    ∃ m, meanIter (doubleOps rnd) ((zs.map (Int.cast : ℤ → ℚ)).map some) (some 0) = .ok (some m) ∧ lo ≤ m ∧ m ≤ hi := by
  refine ⟨_, C70_mean_integers hr zs h0 h hn, ?_⟩
  have hNq : (0 : ℚ) < zs.length := by exact_mod_cast List.length_pos_of_ne_nil h0
  have hb : lo * zs.length ≤ zs.sum ∧ (zs.sum : ℚ) ≤ hi * zs.length := by
    clear h0 h hn hNq
    induction zs with
    | nil => simp
    | cons z zs ih =>
      obtain ⟨i1, i2⟩ := ih fun y hy => hz y (by simp [hy])
      obtain ⟨h1, h2⟩ := hz z (by simp)
      rw [List.sum_cons, List.length_cons, Int.cast_add, Nat.cast_succ]
      constructor <;> linarith
  have h1 := hr.mono ((le_div_iff₀ hNq).2 hb.1)
  have h2 := hr.mono ((div_le_iff₀ hNq).2 hb.2)
  rw [hr.fix hlo] at h1
  rw [hr.fix hhi] at h2
  exact ⟨h1, h2⟩

/-- **C70.** And the variance of equal integers is 0, as long as `n` times their absolute value is at most 2⁵³ (it need not be 0 beyond:
`C70_mean_not_within`). -/
theorem C70_var_equal_integers (z : ℤ) (n : ℕ) (h2 : 2 ≤ n) (hn : n ≤ 2 ^ 52) (h : n * |z| ≤ 2 ^ 53) :
    meanIter (doubleOps rnd) (List.replicate n (some (z : ℚ))) (some 0) = .ok (some (z : ℚ)) ∧
      var (doubleOps rnd) (List.replicate n (some (z : ℚ))) (some 0) = .ok (some 0) := by
  have hz : IsDouble (z : ℚ) := isDouble_int (by nlinarith [abs_nonneg z, (by exact_mod_cast h2 : (2 : ℤ) ≤ n)])
  have hnq : (n : ℚ) ≠ 0 := by have : (2 : ℚ) ≤ n := by exact_mod_cast h2
                               linarith
  have hm : meanIter (doubleOps rnd) (List.replicate n (some (z : ℚ))) (some 0) = .ok (some (z : ℚ)) := by
    have := C70_mean_integers hr (List.replicate n z) (by intro e; have := congrArg List.length e; simp at this; omega)
      (by simpa using h) (by simpa using hn.trans (by norm_num))
    rw [List.map_replicate, List.map_replicate, List.sum_replicate, List.length_replicate] at this
    rw [this]
    have e : ((n • z : ℤ) : ℚ) / n = z := by
      rw [nsmul_eq_mul]; push_cast; field_simp
    rw [e, hr.fix hz]
  refine ⟨hm, ?_⟩
  have h00 : toFl rnd 0 = some 0 := by
    have := toFl_pow hr (x := 0) (k := 0) (by omega) (by simp)
    rwa [hr.fix isDouble_zero] at this
  have hsum : ∀ k, flSum rnd (some 0) (List.replicate k (some 0)) = some 0 := by
    intro k
    induction k with
    | zero => rfl
    | succ k ih =>
      rw [List.replicate_succ]
      show flSum rnd (toFl rnd (0 + 0)) _ = _
      rw [zero_add, h00, ih]
  have hterm : fl2 rnd (· * ·) (fl2 rnd (· - ·) (some (z : ℚ)) (some (z : ℚ))) (fl2 rnd (· - ·) (some (z : ℚ)) (some (z : ℚ))) = some 0 := by
    have e1 : fl2 rnd (· - ·) (some (z : ℚ)) (some (z : ℚ)) = some 0 := by
      show toFl rnd ((z : ℚ) - z) = _
      rw [sub_self, h00]
    rw [e1]
    show toFl rnd (0 * 0) = _
    rw [mul_zero, h00]
  unfold var
  rw [hm]
  simp only [res_ok_bind]
  rw [devLoop_double, List.map_replicate, hterm, hsum]
  simp only [res_ok_bind, doubleOps, List.length_replicate]
  obtain ⟨v, hv, -⟩ := flDiv_pow hr (y := 0) (k := 0) (N := (n : ℤ) - 1) (by omega) (by simp) (by omega) (by
    have : (n : ℤ) ≤ 2 ^ 52 := by exact_mod_cast hn
    have : (2 : ℤ) ^ 52 ≤ 2 ^ 53 := by norm_num
    linarith)
  obtain ⟨_, hv2, _⟩ := div_err hr (y := 0) (Y := 0) (S := 0) (c := 0) (k := 0) (N := (n : ℤ) - 1) (by omega) (by
    have : (n : ℤ) ≤ 2 ^ 52 := by exact_mod_cast hn
    have : (2 : ℤ) ^ 52 ≤ 2 ^ 53 := by norm_num
    linarith) (by simp) (by simp) hv
  rw [hv, hv2, zero_div, hr.fix isDouble_zero]

/-! ### Order -/

theorem flSum_mono : ∀ {xs ys : List ℚ} {a b s t : ℚ}, List.Forall₂ (· ≤ ·) xs ys → a ≤ b → flSum rnd (some a) (xs.map some) = some s →
    flSum rnd (some b) (ys.map some) = some t → s ≤ t
  | _, _, a, b, s, t, .nil, hab, h1, h2 => by cases h1; cases h2; exact hab
  | _, _, a, b, s, t, .cons (a := x) (b := y) (l₁ := xs) (l₂ := ys) hxy hl, hab, h1, h2 => by
    simp only [List.map_cons] at h1 h2
    have h1 : flSum rnd (toFl rnd (a + x)) (xs.map some) = some s := h1
    have h2 : flSum rnd (toFl rnd (b + y)) (ys.map some) = some t := h2
    cases e1 : toFl rnd (a + x) with
    | none => rw [e1, flSum_none] at h1; cases h1
    | some u =>
      cases e2 : toFl rnd (b + y) with
      | none => rw [e2, flSum_none] at h2; cases h2
      | some v =>
        rw [e1] at h1
        rw [e2] at h2
        refine flSum_mono hl ?_ h1 h2
        rw [(toFl_some e1).1, (toFl_some e2).1]
        exact hr.mono (add_le_add hab hxy)

/-- **C70.** Sums respect the order: larger elements do not give a smaller sum. -/
theorem C70_sum_monotone {xs ys : List ℚ} (hxy : List.Forall₂ (· ≤ ·) xs ys) {s t : ℚ} (hs : sumL (doubleOps rnd) (xs.map some) (some 0) = .ok (some s))
    (ht : sumL (doubleOps rnd) (ys.map some) (some 0) = .ok (some t)) : s ≤ t := by
  rw [sumL_double] at hs ht
  exact flSum_mono hr hxy (le_refl 0) (by simpa using hs) (by simpa using ht)

theorem flDiv_rnd {y v : ℚ} {N : ℕ} (hN : 0 < N) (hN' : N ≤ 2 ^ 53) (h : flDiv rnd (some y) N = some v) : v = rnd (y / N) := by
  have hNz : (0 : ℤ) < N := by exact_mod_cast hN
  have hNz' : (N : ℤ) ≤ 2 ^ 53 := by exact_mod_cast hN'
  obtain ⟨_, h2, _⟩ := div_err hr (y := y) (Y := y) (S := |y|) (c := 0) (k := 0) hNz hNz' (le_refl _) (by simp [rel]) h
  simpa using h2

/-- **C70.** Means respect the order as well. -/
theorem C70_mean_monotone {xs ys : List ℚ} (hxy : List.Forall₂ (· ≤ ·) xs ys) (h0 : xs ≠ []) (hn : xs.length ≤ 2 ^ 53) {s t : ℚ}
    (hs : meanIter (doubleOps rnd) (xs.map some) (some 0) = .ok (some s))
    (ht : meanIter (doubleOps rnd) (ys.map some) (some 0) = .ok (some t)) : s ≤ t := by
  rw [mean_double hr] at hs ht
  have hs : flDiv rnd (flSum rnd (some 0) (xs.map some)) xs.length = some s := by simpa using hs
  have ht : flDiv rnd (flSum rnd (some 0) (ys.map some)) ys.length = some t := by simpa using ht
  obtain ⟨u, hu⟩ := flDiv_some hr hs
  obtain ⟨v, hv⟩ := flDiv_some hr ht
  have huv := flSum_mono hr hxy (le_refl 0) hu hv
  have hl := hxy.length_eq
  have hpos : 0 < xs.length := List.length_pos_of_ne_nil h0
  rw [hu] at hs
  rw [hv, ← hl] at ht
  rw [flDiv_rnd hr hpos hn hs, flDiv_rnd hr hpos hn ht]
  exact hr.mono (div_le_div_of_nonneg_right huv (Nat.cast_nonneg _))

theorem flSum_ge : ∀ {xs : List ℚ} {a s : ℚ}, IsDouble a → 0 ≤ a → (∀ x ∈ xs, IsDouble x ∧ 0 ≤ x) → flSum rnd (some a) (xs.map some) = some s →
    a ≤ s ∧ ∀ x ∈ xs, x ≤ s
  | [], a, s, _, _, _, h => by cases h; exact ⟨le_refl _, by simp⟩
  | x :: xs, a, s, hd, ha, hx, h => by
    simp only [List.map_cons] at h
    have h : flSum rnd (toFl rnd (a + x)) (xs.map some) = some s := h
    cases e1 : toFl rnd (a + x) with
    | none => rw [e1, flSum_none] at h; cases h
    | some u =>
      rw [e1] at h
      obtain ⟨hxd, hx0⟩ := hx x (by simp)
      have hu := (toFl_some e1).1
      have h1 : a ≤ u := by
        rw [hu, ← hr.fix hd]
        refine hr.mono ?_
        rw [hr.fix hd]; linarith
      have h2 : x ≤ u := by
        rw [hu, ← hr.fix hxd]
        refine hr.mono ?_
        rw [hr.fix hxd]; linarith
      obtain ⟨k1, k2⟩ := flSum_ge (hu ▸ (hr _).1) (ha.trans h1) (fun y hy => hx y (by simp [hy])) h
      refine ⟨h1.trans k1, ?_⟩
      intro y hy
      rcases List.mem_cons.1 hy with rfl | hy
      · exact h2.trans k1
      · exact k2 y hy

/-- **C70.** The sum of values that are not negative is not less than any of them. -/
theorem C70_sum_at_least {xs : List ℚ} (hx : ∀ x ∈ xs, IsDouble x ∧ 0 ≤ x) {s : ℚ} (hs : sumL (doubleOps rnd) (xs.map some) (some 0) = .ok (some s)) :
    0 ≤ s ∧ ∀ x ∈ xs, x ≤ s := by
  rw [sumL_double] at hs
  exact flSum_ge hr isDouble_zero (le_refl 0) hx (by simpa using hs)

end

example := C70_sum_bounded roundDouble_nearest (xs := [2 ^ 430, -(2 ^ 430), 3])
  (by
    intro x hx
    simp only [List.mem_cons, List.not_mem_nil, or_false] at hx
    rcases hx with rfl | rfl | rfl
    · exact isDouble_pow _
    · exact isDouble_neg (isDouble_pow _)
    · exact ⟨3, 0, by norm_num, by norm_num, by norm_num⟩)
  (by decide +kernel) (by decide)
example := C70_mean_bounded roundDouble_nearest ints_double (by decide +kernel) (by decide) (by decide)
example := C70_var_bounded roundDouble_nearest ints_double (by decide +kernel) (by decide) (by decide)
example := C70_prod_bounded roundDouble_nearest (xs := [2 ^ 340, -(2 ^ 341), 3]) (k := 341) (by decide +kernel) (by decide)
example := C70_dot_bounded roundDouble_nearest 3 (by decide) (fun t => t + 1 / 2) (fun _ => -(2 ^ 480))
  (by have : ∀ t : Fin 3, |((t.val : ℚ) + 1 / 2)| ≤ 2 ^ 480 := by decide +kernel
      intro t ht; exact this ⟨t, ht⟩) (by intro t _; rw [abs_neg, abs_of_nonneg (by positivity)])
example := C70_product_bounded roundDouble_nearest (chk := true) (m := fun q => ([some 1, some 3, some (1 / 2), some 7] : List Fl)[q]?) (off₁ := 0) (e₁ := [1, 2]) (h₁ := []) (off₂ := 2) (e₂ := [2, 1]) (h₂ := [])
  ⟨by decide, rfl, rfl⟩ ⟨by decide, rfl, rfl⟩ nofun (r := 1) (k := 2) (p := 1) (a := fun _ t => if t = 0 then 1 else 3) (b := fun t _ => if t = 0 then 1 / 2 else 7)
  ⟨rfl, by
    have : ∀ i : Fin 1, ∀ t : Fin 2, ([some 1, some 3, some (1 / 2), some 7] : List Fl)[(arrayView 0 [1, 2]).pos [i.val, t.val]]? = some (some (if t.val = 0 then 1 else 3)) := by decide +kernel
    intro i t hi ht; exact this ⟨i, hi⟩ ⟨t, ht⟩⟩
  ⟨rfl, by
    have : ∀ i : Fin 2, ∀ t : Fin 1, ([some 1, some 3, some (1 / 2), some 7] : List Fl)[(arrayView 2 [2, 1]).pos [i.val, t.val]]? = some (some (if i.val = 0 then 1 / 2 else 7)) := by decide +kernel
    intro i t hi ht; exact this ⟨i, hi⟩ ⟨t, ht⟩⟩ (by decide) (by decide) (by decide) (by decide)
  (by intro i t _ _; split <;> decide +kernel) (by intro t j _ _; split <;> decide +kernel) 4

example := C70_mean_integers roundDouble_nearest [3, -1, 2, 2 ^ 50] (by decide) (by decide) (by decide)
example := C70_mean_within_integers roundDouble_nearest (zs := [3, -1, 2]) (by decide) (by decide) (by decide) (lo := -1) (hi := 3)
  (isDouble_neg isDouble_one) ⟨3, 0, by norm_num, by norm_num, by norm_num⟩ (by decide +kernel)
example := C70_var_equal_integers roundDouble_nearest (-7) 5 (by decide) (by decide) (by decide)

example := C70_sum_monotone roundDouble_nearest (xs := [3, -1, 2]) (ys := [3, 0, 5]) (by simp; norm_num) (s := 4) (t := 8) (by decide +kernel) (by decide +kernel)
example := C70_mean_monotone roundDouble_nearest (xs := [3, -1, 2, 0]) (ys := [3, 0, 5, 0]) (by simp; norm_num) (by decide) (by decide) (s := 1) (t := 2) (by decide +kernel) (by decide +kernel)
example := C70_sum_at_least roundDouble_nearest (xs := [3, 1, 2]) (by
  intro x hx
  simp only [List.mem_cons, List.not_mem_nil, or_false] at hx
  rcases hx with rfl | rfl | rfl
  · exact ⟨⟨3, 0, by norm_num, by norm_num, by norm_num⟩, by norm_num⟩
  · exact ⟨isDouble_one, by norm_num⟩
  · exact ⟨⟨2, 0, by norm_num, by norm_num, by norm_num⟩, by norm_num⟩) (s := 6) (by decide +kernel)

end Jules.Props

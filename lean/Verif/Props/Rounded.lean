import Verif.Lemmas.Rounded
import Verif.Props.Product
import Verif.Props.Numeric
/-
C70: sums, products, means, variances and matrix products of `double`s.
-/
namespace Jules.Props
open Spec

section
variable {rnd : ℚ → ℚ} (hr : Nearest rnd)
include hr

/-! ### Sums -/

/-- **C70.** `sum(x₁, …, xₙ)`: if the result is finite, it differs from the exact sum by at most the relative error of `n - 1` roundings of the
sum of the absolute values. -/
theorem C70_sum {xs : List ℚ} (hx : ∀ x ∈ xs, IsDouble x) {s : ℚ} (h : sumL (doubleOps rnd) (xs.map some) (some 0) = .ok (some s)) :
    |s - xs.sum| ≤ rel (xs.length - 1) * asum xs := by
  rw [sumL_double] at h
  exact (flSum_err0 hr hx (by simpa using h)).2

/-- **C70.** A sum is finite unless the values are too large. -/
theorem C70_sum_finite {xs : List ℚ} (hx : ∀ x ∈ xs, IsDouble x) (h : (1 + unit) ^ xs.length * asum xs < 2 ^ 1024) :
    ∃ s, sumL (doubleOps rnd) (xs.map some) (some 0) = .ok (some s) := by
  obtain ⟨s, hs⟩ := flSum_finite hr isDouble_zero hx (by simpa using h)
  exact ⟨s, by rw [sumL_double, hs]⟩

/-- **C70.** Sums of integers are exact, as long as the absolute values add up to at most 2⁵³. -/
theorem C70_sum_integers (zs : List ℤ) (h : (zs.map fun z => |z|).sum ≤ 2 ^ 53) :
    sumL (doubleOps rnd) ((zs.map (Int.cast : ℤ → ℚ)).map some) (some 0) = .ok (some (zs.sum : ℚ)) := by
  rw [sumL_double]
  have := flSum_int hr (zs := zs) (s := 0) (by simpa using h)
  simp only [Int.cast_zero, zero_add] at this
  rw [this]

/-- **C70.** Something that is not finite is not lost: a sum with it is not finite. -/
theorem C70_sum_infinite {l : List Fl} (h : none ∈ l) : sumL (doubleOps rnd) l (some 0) = .ok none := by
  rw [sumL_double]
  cases hs : flSum rnd (some 0) l with
  | none => rfl
  | some s =>
    obtain ⟨qs, rfl⟩ := flSum_all hs
    simp at h

/-! ### Products -/

theorem prodLoop_double : ∀ (l : List Fl) (s : Fl), prodLoop (doubleOps rnd) l s = .ok (l.foldl (fl2 rnd (· * ·)) s)
  | [], _ => rfl
  | x :: l, s => prodLoop_double l _

/-- **C70.** `prod(x₁, …, xₙ)`, when no partial product is too small: the relative error is at most that of `n` roundings. -/
theorem C70_prod {xs : List ℚ} (hx : ∀ x ∈ xs, IsDouble x)
    (hk : ∀ k < xs.length, smallest ≤ (1 - unit) ^ k * |(xs.take (k + 1)).prod|) {p : ℚ}
    (h : prodLoop (doubleOps rnd) (xs.map some) (some 1) = .ok (some p)) : |p - xs.prod| ≤ rel xs.length * |xs.prod| := by
  rw [prodLoop_double hr] at h
  have := (prod_err hr isDouble_one hx (by simpa using hk) (by simpa using h)).2
  simpa using this

/-! ### Means -/

theorem mean_double (xs : List ℚ) : meanIter (doubleOps rnd) (xs.map some) (some 0) = .ok (flDiv rnd (flSum rnd (some 0) (xs.map some)) xs.length) := by
  unfold meanIter
  rw [sumL_double]
  simp [doubleOps]

theorem flDiv_some {a : Fl} {n : ℤ} {v : ℚ} (h : flDiv rnd a n = some v) : ∃ y, a = some y := by
  cases a with
  | none => unfold flDiv at h; cases h
  | some y => exact ⟨y, rfl⟩

/-- **C70.** `mean(x₁, …, xₙ)` (both overloads are the same for `double`): the error is at most that of `n` roundings relative to the mean of
the absolute values, plus the error of one number that is too small. -/
theorem C70_mean {xs : List ℚ} (hx : ∀ x ∈ xs, IsDouble x) (h0 : xs ≠ []) (hn : xs.length ≤ 2 ^ 53) {m : ℚ}
    (h : meanIter (doubleOps rnd) (xs.map some) (some 0) = .ok (some m)) :
    IsDouble m ∧ |m - exactMean xs| ≤ rel xs.length * (asum xs / xs.length) + tiny := by
  rw [mean_double hr] at h
  have h : flDiv rnd (flSum rnd (some 0) (xs.map some)) xs.length = some m := by simpa using h
  obtain ⟨y, hy⟩ := flDiv_some hr h
  rw [hy] at h
  have hpos : 0 < xs.length := List.length_pos_of_ne_nil h0
  obtain ⟨k1, k2⟩ := flSum_err0 hr hx hy
  obtain ⟨v1, _, v3⟩ := div_err hr (c := 0) (by exact_mod_cast hpos) (by exact_mod_cast hn) (abs_sum_le xs) (by simpa using k2) h
  refine ⟨v1, ?_⟩
  rw [Nat.sub_add_cancel hpos] at v3
  simpa [exactMean] using v3

/-- **C70.** Both overloads of `mean` give the same result for `double`s (they do not for integers: `C31_mean_overloads_disagree`). -/
theorem C70_mean_overloads (l : List Fl) (start : Fl) : meanRng (doubleOps rnd) l start = meanIter (doubleOps rnd) l start := rfl

/-! ### Variances -/

omit hr in
theorem attach_vals {α β : Type} (l : List α) (f : α → β) : l.attach.map (fun x => f x.1) = l.map f := by
  have h : l.attach.map (fun x => f x.1) = (l.attach.map Subtype.val).map f := by rw [List.map_map]; rfl
  rw [h, List.attach_map_subtype_val]

/-- Squared deviations from any number. -/
theorem dev_identity (xs : List ℚ) (h0 : xs ≠ []) (m : ℚ) :
    (xs.map fun x => (x - m) ^ 2).sum = (xs.map fun x => (x - exactMean xs) ^ 2).sum + xs.length * (m - exactMean xs) ^ 2 := by
  have hn : (xs.length : ℚ) ≠ 0 := by simpa using h0
  have hsum : xs.sum = xs.length * exactMean xs := by unfold exactMean; field_simp
  generalize exactMean xs = μ at *
  have key : ∀ l : List ℚ, (l.map fun x => (x - m) ^ 2).sum =
      (l.map fun x => (x - μ) ^ 2).sum + 2 * (μ - m) * (l.sum - l.length * μ) + l.length * (m - μ) ^ 2 := by
    intro l
    induction l with
    | nil => simp
    | cons x l ih =>
      simp only [List.map_cons, List.sum_cons, List.length_cons]
      rw [ih]
      push_cast
      ring
  rw [key, hsum]
  ring

theorem sqs_nonneg (xs : List ℚ) (m : ℚ) : 0 ≤ (xs.map fun x => (x - m) ^ 2).sum := by
  apply List.sum_nonneg
  simp only [List.mem_map, forall_exists_index, and_imp, forall_apply_eq_imp_iff₂]
  intro a _; exact sq_nonneg _

theorem asum_sqs (xs : List ℚ) (m : ℚ) : asum (xs.map fun x => (x - m) ^ 2) = (xs.map fun x => (x - m) ^ 2).sum := by
  unfold asum
  rw [List.map_map]
  congr 1
  apply List.map_congr_left
  intro x _
  exact abs_of_nonneg (sq_nonneg _)

/-- **C70.** `var(x₁, …, xₙ)`: never negative; its error is at most that of `n + 3` roundings relative to the exact variance, plus the
square of the error of the mean (and of numbers that are too small), a little enlarged. -/
theorem C70_var {xs : List ℚ} (hx : ∀ x ∈ xs, IsDouble x) (h2 : 2 ≤ xs.length) (hn : xs.length ≤ 2 ^ 53) {v : ℚ}
    (h : var (doubleOps rnd) (xs.map some) (some 0) = .ok (some v)) :
    ∃ m, meanIter (doubleOps rnd) (xs.map some) (some 0) = .ok (some m) ∧ 0 ≤ v ∧
      |v - exactVar xs| ≤ rel (xs.length + 3) * exactVar xs +
        (1 + unit) ^ (xs.length + 3) * (xs.length / ((xs.length : ℚ) - 1)) * ((m - exactMean xs) ^ 2 + tiny) + tiny := by
  have h0 : xs ≠ [] := by rintro rfl; simp at h2
  unfold var at h
  obtain ⟨mu, hmu, h⟩ := res_bind_ok.1 h
  rw [devLoop_double] at h
  simp only [res_ok_bind, doubleOps, List.length_map, Except.ok.injEq] at h
  obtain ⟨y, hy⟩ := flDiv_some hr h
  rw [hy] at h
  -- the mean is finite
  have hm : ∃ m, mu = some m := by
    obtain ⟨qs, hqs⟩ := flSum_all hy
    obtain ⟨x, xs', rfl⟩ : ∃ x xs', xs = x :: xs' := List.exists_cons_of_ne_nil h0
    cases qs with
    | nil => cases hqs
    | cons q qs =>
      simp only [List.map_cons, List.cons.injEq] at hqs
      obtain ⟨_, _, h1, _, _⟩ := fl2_some hqs.1
      obtain ⟨_, m, _, h2, _⟩ := fl2_some h1
      exact ⟨m, h2⟩
  obtain ⟨m, rfl⟩ := hm
  refine ⟨m, hmu, ?_⟩
  obtain ⟨hmd, -⟩ := C70_mean hr hx h0 hn hmu
  -- the terms
  have hterms : ∀ l : List ℚ, ∀ {s y : Fl}, flSum rnd s ((l.map some).map fun x => fl2 rnd (· * ·) (fl2 rnd (· - ·) x (some m)) (fl2 rnd (· - ·) x (some m))) = y →
      y ≠ none → flSum rnd s ((l.map fun x => rnd (rnd (x - m) * rnd (x - m))).map some) = y := by
    intro l
    induction l with
    | nil => intro s y h _; exact h
    | cons x l ih =>
      intro s y h hy
      have hh : fl2 rnd (· * ·) (fl2 rnd (· - ·) (some x) (some m)) (fl2 rnd (· - ·) (some x) (some m)) = some (rnd (rnd (x - m) * rnd (x - m))) := by
        cases hz : fl2 rnd (· * ·) (fl2 rnd (· - ·) (some x) (some m)) (fl2 rnd (· - ·) (some x) (some m)) with
        | none =>
          exfalso
          apply hy
          rw [← h]
          simp only [List.map_cons]
          rw [hz]
          cases hq : flSum rnd s (none :: (l.map some).map fun x => fl2 rnd (· * ·) (fl2 rnd (· - ·) x (some m)) (fl2 rnd (· - ·) x (some m))) with
          | none => rfl
          | some q =>
            obtain ⟨qs, hqs⟩ := flSum_all hq
            cases qs <;> cases hqs
        | some z =>
          obtain ⟨p, q, h1, h2, h3⟩ := fl2_some hz
          obtain ⟨p', q', e1, e2, e3⟩ := fl2_some h1
          rw [h1] at h2
          cases e1; cases e2; cases h2
          rw [h3, e3]
      simp only [List.map_cons] at h ⊢
      rw [hh] at h
      exact ih h hy
  have hy' := hterms xs hy (by simp)
  -- one list of doubles
  have hsq : ∀ x ∈ xs, |rnd (rnd (x - m) * rnd (x - m)) - (x - m) ^ 2| ≤ rel 3 * |(x - m) ^ 2| + tiny := fun x hxx => sq_err hr (hx x hxx) hmd
  obtain ⟨t1, t2⟩ := flSum_terms hr (β := {x // x ∈ xs}) (fun x => rnd (rnd (x.1 - m) * rnd (x.1 - m))) (fun x => (x.1 - m) ^ 2) 3 xs.attach
    (fun _ => (hr _).1) (fun x => hsq x.1 x.2) (y := y) (by
      rw [show xs.attach.map (fun x => rnd (rnd (x.1 - m) * rnd (x.1 - m))) = xs.map (fun x => rnd (rnd (x - m) * rnd (x - m))) from
        attach_vals xs fun x => rnd (rnd (x - m) * rnd (x - m))]
      exact hy')
  rw [show xs.attach.map (fun x => (x.1 - m) ^ 2) = xs.map (fun x => (x - m) ^ 2) from attach_vals xs fun x => (x - m) ^ 2,
    List.length_attach] at t2
  rw [asum_sqs hr] at t2
  have hD := sqs_nonneg hr xs m
  set D := (xs.map fun x => (x - m) ^ 2).sum
  obtain ⟨_, v2, v3⟩ := div_err hr (N := (xs.length : ℤ) - 1) (by omega) (by omega) (le_of_eq (abs_of_nonneg hD)) t2 h
  have hu := unit_pos
  have ht := tiny_pos
  constructor
  · -- not negative
    have hy0 : 0 ≤ y := by
      have : ∀ l : List ℚ, ∀ {s y : ℚ}, 0 ≤ s → flSum rnd (some s) ((l.map fun x => rnd (rnd (x - m) * rnd (x - m))).map some) = some y → 0 ≤ y := by
        intro l
        induction l with
        | nil => intro s y hs h; cases h; exact hs
        | cons x l ih =>
          intro s y hs h
          simp only [List.map_cons] at h
          have h : flSum rnd (fl2 rnd (· + ·) (some s) (some (rnd (rnd (x - m) * rnd (x - m))))) ((l.map fun x => rnd (rnd (x - m) * rnd (x - m))).map some) = some y := h
          cases hz : fl2 rnd (· + ·) (some s) (some (rnd (rnd (x - m) * rnd (x - m)))) with
          | none => rw [hz, flSum_none] at h; cases h
          | some z =>
            rw [hz] at h
            obtain ⟨_, _, h1, h2, rfl⟩ := fl2_some hz
            cases h1; cases h2
            have q0 : 0 ≤ rnd (rnd (x - m) * rnd (x - m)) := by
              have := hr.mono (mul_self_nonneg (rnd (x - m)))
              rwa [hr.fix isDouble_zero] at this
            refine ih ?_ h
            have := hr.mono (add_nonneg hs q0)
            rwa [hr.fix isDouble_zero] at this
      exact this xs (le_refl 0) hy'
    have hN : (0 : ℚ) ≤ ((xs.length : ℤ) - 1 : ℤ) := by exact_mod_cast (by omega : (0 : ℤ) ≤ (xs.length : ℤ) - 1)
    have := hr.mono (div_nonneg hy0 hN)
    rw [hr.fix isDouble_zero] at this
    rw [v2]; exact this
  · have hnq : (2 : ℚ) ≤ xs.length := by exact_mod_cast h2
    have hN : (((xs.length : ℤ) - 1 : ℤ) : ℚ) = (xs.length : ℚ) - 1 := by push_cast; rfl
    rw [hN] at v3
    have hNpos : (0 : ℚ) < (xs.length : ℚ) - 1 := by linarith
    have hDV : D / ((xs.length : ℚ) - 1) = exactVar xs + xs.length / ((xs.length : ℚ) - 1) * (m - exactMean xs) ^ 2 := by
      unfold exactVar
      rw [show D = _ from dev_identity hr xs h0 m]
      field_simp
    set c := (xs.length : ℚ) / ((xs.length : ℚ) - 1)
    have hc : 0 < c := div_pos (by linarith) hNpos
    set e2 := (m - exactMean xs) ^ 2
    have he2 : 0 ≤ e2 := sq_nonneg _
    rw [hDV, show xs.length - 1 + 3 + 1 = xs.length + 3 by omega] at v3
    have hce : 0 ≤ c * e2 := mul_nonneg hc.le he2
    have h3 : |v - exactVar xs| ≤ |v - (exactVar xs + c * e2)| + c * e2 := by
      have he : v - exactVar xs = (v - (exactVar xs + c * e2)) + c * e2 := by ring
      calc |v - exactVar xs| = |(v - (exactVar xs + c * e2)) + c * e2| := by rw [← he]
        _ ≤ _ := (abs_add_le _ _).trans (by rw [abs_of_nonneg hce])
    have hp : (1 + unit) * ((1 + unit) ^ (xs.length - 1) * (xs.length * tiny) / ((xs.length : ℚ) - 1)) = (1 + unit) ^ xs.length * (c * tiny) := by
      have : (1 + unit) ^ xs.length = (1 + unit) * (1 + unit) ^ (xs.length - 1) := by
        rw [← pow_succ']; congr 1; omega
      rw [this]
      simp only [c]
      field_simp
    rw [hp] at v3
    have hpow : (1 + unit) ^ xs.length ≤ (1 + unit) ^ (xs.length + 3) := pow_le_pow_right₀ (by linarith) (by omega)
    have h4 : (1 + unit) ^ xs.length * (c * tiny) ≤ (1 + unit) ^ (xs.length + 3) * (c * tiny) :=
      mul_le_mul_of_nonneg_right hpow (mul_nonneg hc.le ht.le)
    have h5 : (1 + unit) ^ (xs.length + 3) = 1 + rel (xs.length + 3) := by unfold rel; ring
    rw [h5] at h4 ⊢
    nlinarith

/-! ### Matrix products -/

/-- **C70.** Inner products, and with `C29_product` the elements of matrix products: the error is at most that of `k` roundings relative to the
sum of the absolute values of the products, plus that of `k` numbers that are too small. -/
theorem C70_dot (k : ℕ) (x y : ℕ → ℚ) {s : ℚ}
    (h : dot (fl2 rnd (· + ·)) (fl2 rnd (· * ·)) (some 0) k (fun t => some (x t)) (fun t => some (y t)) = some s) :
    |s - ((List.range k).map fun t => x t * y t).sum| ≤
      rel k * ((List.range k).map fun t => |x t| * |y t|).sum + (1 + unit) ^ (k - 1) * (k * tiny) := by
  have hfold : ∀ (l : List ℕ) (s : Fl), l.foldl (fun acc t => fl2 rnd (· + ·) acc (fl2 rnd (· * ·) (some (x t)) (some (y t)))) s =
      flSum rnd s (l.map fun t => toFl rnd (x t * y t)) := by
    intro l
    induction l with
    | nil => intro s; rfl
    | cons t l ih => intro s; exact ih _
  unfold dot at h
  rw [hfold] at h
  obtain ⟨qs, hqs⟩ := flSum_all h
  have hterm : (List.range k).map (fun t => toFl rnd (x t * y t)) = ((List.range k).map fun t => rnd (x t * y t)).map some := by
    rw [List.map_map]
    apply List.map_congr_left
    intro t ht
    have : toFl rnd (x t * y t) ∈ qs.map some := by
      rw [← hqs]; exact List.mem_map.2 ⟨t, ht, rfl⟩
    obtain ⟨q, _, hq⟩ := List.mem_map.1 this
    rw [← hq, (toFl_some hq.symm).1]
    rfl
  rw [hterm] at h
  obtain ⟨_, h2⟩ := flSum_terms hr (fun t => rnd (x t * y t)) (fun t => x t * y t) 1 (List.range k) (fun _ => (hr _).1)
    (fun t => by
      have := err hr (x t * y t)
      simpa [rel] using this) h
  rw [List.length_range] at h2
  have hab : asum ((List.range k).map fun t => x t * y t) = ((List.range k).map fun t => |x t| * |y t|).sum := by
    unfold asum
    rw [List.map_map]
    congr 1
    apply List.map_congr_left
    intro t _
    exact abs_mul _ _
  rw [hab] at h2
  cases k with
  | zero => simpa [rel] using h2
  | succ k => exact h2

/-- **C70.** `product(a, b)` of matrices of `double`s: every element that is finite is within the error bound of `C70_dot`. -/
theorem C70_product {chk : Bool} {m : Mem Fl} {o₁ o₂ : Obj} {v₁ v₂ : AView}
    {off₁ off₂ : Nat} {e₁ e₂ : List Nat} {h₁ h₂ : List Ix} (hv₁ : ViewAt off₁ e₁ h₁ o₁ v₁) (hv₂ : ViewAt off₂ e₂ h₂ o₂ v₂)
    (hnv : ∀ off d idx, o₂ ≠ .sref off (.vec d idx)) {r k p : Nat} {a b : Nat → Nat → ℚ} (ha : Shows m v₁ r k fun i t => some (a i t))
    (hb : Shows m v₂ k p fun t j => some (b t j)) (hr0 : r ≠ 0) (hk : k ≠ 0) (hp : p ≠ 0) (fresh : Nat) :
    ∃ m', product Arith.exact chk (fl2 rnd (· + ·)) (fl2 rnd (· * ·)) (some 0) m o₁ o₂ fresh = .ok (m', ⟨fresh, [r, p]⟩) ∧
      ∀ i j, i < r → j < p → ∃ c : Fl, Reads m' (.cref fresh [r, p]) [i, j] (some c) ∧
        ∀ s, c = some s → |s - ((List.range k).map fun t => a i t * b t j).sum| ≤
          rel k * ((List.range k).map fun t => |a i t| * |b t j|).sum + (1 + unit) ^ (k - 1) * (k * tiny) := by
  obtain ⟨m', k1, k2, _⟩ := C29_product (chk := chk) (add := fl2 rnd (· + ·)) (mul := fl2 rnd (· * ·)) (zero := some 0) hv₁ hv₂ hnv ha hb hr0 hk hp fresh
  exact ⟨m', k1, fun i j hi hj => ⟨_, k2 i j hi hj, fun s hs => C70_dot hr k _ _ hs⟩⟩

/-! ### Frequencies -/

/-- **C70.** `freq`: rounded once; between 0 and 1; 0 exactly when nothing, and 1 exactly when everything is counted. -/
theorem C70_freq (l : List Bool) (h0 : l ≠ []) (hn : l.length < 2 ^ 53) :
    ∃ f : ℚ, freq (doubleOps rnd) (fun n => toFl rnd n) l = .ok (some f) ∧ |f - (l.count true : ℚ) / l.length| ≤ unit * ((l.count true : ℚ) / l.length) ∧
      0 ≤ f ∧ f ≤ 1 ∧ (f = 0 ↔ ∀ b ∈ l, b = false) ∧ (f = 1 ↔ ∀ b ∈ l, b = true) := by
  have hcnt : count l = l.count true := by
    have := (C32_which_count (fun b : Bool => b) l).2.2.2
    rw [List.map_id'] at this
    rw [this, List.count_eq_countP]
    congr 1
    funext b
    cases b <;> rfl
  have hcl : l.count true ≤ l.length := List.count_le_length
  have hczero : (∀ b ∈ l, b = false) ↔ l.count true = 0 := by
    rw [List.count_eq_zero]
    constructor
    · intro h ht; simpa using h _ ht
    · intro h b hb
      cases b with
      | false => rfl
      | true => exact (h hb).elim
  have hcall : (∀ b ∈ l, b = true) ↔ l.count true = l.length := by
    rw [List.count_eq_length]
    constructor
    · intro h b hb; exact (h b hb).symm
    · intro h b hb; exact (h b hb).symm
  generalize l.count true = c at *
  have hpos : 0 < l.length := List.length_pos_of_ne_nil h0
  have hlq : (0 : ℚ) < l.length := by exact_mod_cast hpos
  have hcq : (c : ℚ) ≤ l.length := by exact_mod_cast hcl
  have hbig : (2 : ℚ) ^ 53 < 2 ^ 1024 := pow_lt_pow_right₀ (by norm_num) (by norm_num)
  have hfix : ∀ n : ℕ, n ≤ 2 ^ 53 → toFl rnd (n : ℚ) = some (n : ℚ) := by
    intro n hn
    have h1 : rnd (n : ℚ) = n := by
      have := hr.fix (isDouble_int (z := n) (by rw [abs_of_nonneg (by omega)]; exact_mod_cast hn))
      simpa using this
    unfold toFl
    rw [h1, if_pos]
    rw [abs_of_nonneg (Nat.cast_nonneg n)]
    have : (n : ℚ) ≤ 2 ^ 53 := by exact_mod_cast hn
    exact lt_of_le_of_lt this hbig
  have hq0 : 0 ≤ (c : ℚ) / l.length := div_nonneg (Nat.cast_nonneg c) hlq.le
  have hq1 : (c : ℚ) / l.length ≤ 1 := by rw [div_le_one hlq]; exact hcq
  have hf0 : 0 ≤ rnd ((c : ℚ) / l.length) := by
    have := hr.mono hq0
    rwa [hr.fix isDouble_zero] at this
  have hf1 : rnd ((c : ℚ) / l.length) ≤ 1 := by
    have := hr.mono hq1
    rwa [hr.fix isDouble_one] at this
  have hlen53 : (l.length : ℚ) ≤ 2 ^ 53 := by exact_mod_cast hn.le
  have herr : |rnd ((c : ℚ) / l.length) - (c : ℚ) / l.length| ≤ unit * ((c : ℚ) / l.length) := by
    by_cases hc0 : c = 0
    · rw [hc0]; simp [hr.fix isDouble_zero]
    · have hc1 : (1 : ℚ) ≤ c := by exact_mod_cast Nat.one_le_iff_ne_zero.2 hc0
      have hge : smallest ≤ |(c : ℚ) / l.length| := by
        rw [abs_of_nonneg hq0, le_div_iff₀ hlq]
        have h1 : smallest * l.length ≤ smallest * 2 ^ 53 := mul_le_mul_of_nonneg_left hlen53 (by unfold smallest; positivity)
        have h2 : smallest * 2 ^ 53 ≤ 1 := by
          unfold smallest
          rw [show (2 : ℚ) ^ 53 = (2 : ℚ) ^ (53 : ℤ) by norm_num, ← zpow_add₀ (by norm_num)]
          exact zpow_le_one_of_nonpos₀ (by norm_num) (by norm_num)
        linarith
      have := err_normal hr hge
      rwa [abs_of_nonneg hq0] at this
  refine ⟨rnd ((c : ℚ) / l.length), ?_, herr, hf0, hf1, ?_, ?_⟩
  · have hlt : |rnd ((c : ℚ) / l.length)| < 2 ^ 1024 := by
      rw [abs_of_nonneg hf0]
      exact lt_of_le_of_lt hf1 (one_lt_pow₀ (by norm_num) (by norm_num))
    have hq : toFl rnd ((c : ℚ) / l.length) = some (rnd ((c : ℚ) / l.length)) := by unfold toFl; exact if_pos hlt
    have hd : flDiv rnd (some (c : ℚ)) (l.length : ℤ) = toFl rnd ((c : ℚ) / l.length) := by
      unfold flDiv
      rw [Int.cast_natCast, hfix l.length hn.le]
      exact if_neg hlq.ne'
    have hf : freq (doubleOps rnd) (fun n => toFl rnd n) l = .ok (flDiv rnd (toFl rnd (count l : ℕ)) (l.length : ℤ)) := by
      unfold freq doubleOps; rfl
    rw [hf, hcnt, hfix c (hcl.trans hn.le), hd, hq]
  · rw [hczero]
    constructor
    · intro hf
      by_contra hc0
      rw [hf] at herr
      have hqp : 0 < (c : ℚ) / l.length := div_pos (by exact_mod_cast Nat.pos_of_ne_zero hc0) hlq
      rw [zero_sub, abs_neg, abs_of_pos hqp] at herr
      have : unit < 1 := by unfold unit; norm_num
      nlinarith
    · intro h; rw [h]; simp [hr.fix isDouble_zero]
  · rw [hcall]
    constructor
    · intro hf
      by_contra hne
      have hlt : c + 1 ≤ l.length := by omega
      have h1 : (c : ℚ) / l.length ≤ 1 - (2 : ℚ) ^ (-53 : ℤ) := by
        have h2 : (c : ℚ) + 1 ≤ l.length := by exact_mod_cast hlt
        rw [div_le_iff₀ hlq]
        have h3 : (2 : ℚ) ^ (-53 : ℤ) * l.length ≤ 1 := by
          have : (2 : ℚ) ^ (-53 : ℤ) = 1 / 2 ^ 53 := by norm_num
          rw [this, div_mul_eq_mul_div, one_mul, div_le_one (by norm_num)]
          exact hlen53
        linarith
      have h4 : IsDouble (1 - (2 : ℚ) ^ (-53 : ℤ)) := ⟨2 ^ 53 - 1, -53, by norm_num, by norm_num, by norm_num⟩
      have h5 := hr.mono h1
      rw [hr.fix h4, hf] at h5
      have : (0 : ℚ) < (2 : ℚ) ^ (-53 : ℤ) := by positivity
      linarith
    · intro h
      rw [h, div_self hlq.ne']
      exact hr.fix isDouble_one

/-! ### What does not hold -/

theorem fl_of {x y : ℚ} (h : rnd x = y) (hy : |y| ≤ 2 ^ 100) : toFl rnd x = some y := by
  unfold toFl
  rw [h]
  exact if_pos (lt_of_le_of_lt hy (pow_lt_pow_right₀ (by norm_num) (by norm_num)))

/-- **C70.** The mean of equal values need not be that value; it can be outside the range of the values (here: below the smallest), and then
the variance of equal values is not 0. This happens on every machine that rounds to nearest. -/
theorem C70_mean_not_within : let x : ℚ := 2 ^ 53 - 1
    IsDouble x ∧
    meanIter (doubleOps rnd) (List.replicate 5 (some x)) (some 0) = .ok (some (x - 1)) ∧
    var (doubleOps rnd) (List.replicate 5 (some x)) (some 0) = .ok (some (5 / 4)) := by
  intro x
  have hx : IsDouble x := ⟨2 ^ 53 - 1, 0, by norm_num, by norm_num, by norm_num [x]⟩
  have e1 : toFl rnd (0 + x) = some x := fl_of hr (by rw [zero_add]; exact hr.fix hx) (by norm_num [x])
  have e2 : toFl rnd (x + x) = some (2 ^ 54 - 2) := fl_of hr (by
    have : IsDouble (x + x) := ⟨2 ^ 53 - 1, 1, by norm_num, by norm_num, by norm_num [x]⟩
    rw [hr.fix this]; norm_num [x]) (by norm_num)
  have e3 : toFl rnd ((2 ^ 54 - 2) + x) = some (3 * 2 ^ 53 - 4) := fl_of hr (by
    rw [near_unique hr 2 (3 * 2 ^ 51 - 1) ⟨_, _, by norm_num, by norm_num, rfl⟩ (by norm_num [x]) (by norm_num [x])]; norm_num) (by norm_num)
  have e4 : toFl rnd ((3 * 2 ^ 53 - 4) + x) = some (2 ^ 55 - 4) := fl_of hr (by
    rw [near_unique hr 2 (2 ^ 53 - 1) ⟨_, _, by norm_num, by norm_num, rfl⟩ (by norm_num [x]) (by norm_num [x])]; norm_num) (by norm_num)
  have e5 : toFl rnd ((2 ^ 55 - 4) + x) = some (5 * 2 ^ 53 - 8) := fl_of hr (by
    rw [near_unique hr 3 (5 * 2 ^ 50 - 1) ⟨_, _, by norm_num, by norm_num, rfl⟩ (by norm_num [x]) (by norm_num [x])]; norm_num) (by norm_num)
  have e6 : toFl rnd ((5 * 2 ^ 53 - 8) / 5) = some (x - 1) := fl_of hr (by
    rw [near_unique hr 0 (2 ^ 53 - 2) ⟨_, _, by norm_num, by norm_num, rfl⟩ (by norm_num [x]) (by norm_num [x])]; norm_num [x]) (by norm_num [x])
  have hi : ∀ z : ℤ, |z| ≤ 100 → toFl rnd (z : ℚ) = some (z : ℚ) := fun z hz => fl_of hr (hr.fix (isDouble_int (hz.trans (by norm_num)))) (by
    have : |(z : ℚ)| ≤ 100 := by exact_mod_cast hz
    exact this.trans (by norm_num))
  have i1 : toFl rnd 1 = some 1 := by simpa using hi 1 (by norm_num)
  have i2 : toFl rnd 2 = some 2 := by simpa using hi 2 (by norm_num)
  have i3 : toFl rnd 3 = some 3 := by simpa using hi 3 (by norm_num)
  have i4 : toFl rnd 4 = some 4 := by simpa using hi 4 (by norm_num)
  have i5 : toFl rnd 5 = some 5 := by simpa using hi 5 (by norm_num)
  have hm : meanIter (doubleOps rnd) (List.replicate 5 (some x)) (some 0) = .ok (some (x - 1)) := by
    unfold meanIter
    rw [sumL_double]
    have : flSum rnd (some 0) (List.replicate 5 (some x)) = some (5 * 2 ^ 53 - 8) := by
      simp only [flSum, List.replicate, List.foldl, fl2]
      rw [e1]; simp only [fl2]
      rw [e2]; simp only [fl2]
      rw [e3]; simp only [fl2]
      rw [e4]; simp only [fl2]
      rw [e5]
    rw [this]
    have hd : flDiv rnd (some (5 * 2 ^ 53 - 8)) 5 = some (x - 1) := by
      unfold flDiv
      rw [show (((5 : ℤ)) : ℚ) = 5 by norm_num, i5]
      simp only
      rw [if_neg (by norm_num), e6]
    simpa [doubleOps] using hd
  refine ⟨hx, hm, ?_⟩
  unfold var
  rw [hm, res_ok_bind, devLoop_double, res_ok_bind]
  have d1 : toFl rnd (x - (x - 1)) = some 1 := by rw [sub_sub_cancel]; exact i1
  have d2 : fl2 rnd (· * ·) (some 1) (some 1) = some 1 := by simp only [fl2, mul_one]; exact i1
  have hs : flSum rnd (some 0) ((List.replicate 5 (some x)).map fun y =>
      fl2 rnd (· * ·) (fl2 rnd (· - ·) y (some (x - 1))) (fl2 rnd (· - ·) y (some (x - 1)))) = some 5 := by
    have ht : fl2 rnd (· * ·) (fl2 rnd (· - ·) (some x) (some (x - 1))) (fl2 rnd (· - ·) (some x) (some (x - 1))) = some 1 := by
      have : fl2 rnd (· - ·) (some x) (some (x - 1)) = some 1 := d1
      rw [this, d2]
    rw [List.map_replicate, ht]
    simp only [flSum, List.replicate, List.foldl, fl2]
    rw [zero_add, i1]; simp only [fl2]
    rw [show (1 : ℚ) + 1 = 2 by norm_num, i2]; simp only [fl2]
    rw [show (2 : ℚ) + 1 = 3 by norm_num, i3]; simp only [fl2]
    rw [show (3 : ℚ) + 1 = 4 by norm_num, i4]; simp only [fl2]
    rw [show (4 : ℚ) + 1 = 5 by norm_num, i5]
  rw [hs]
  have hd : flDiv rnd (some 5) 4 = some (5 / 4) := by
    unfold flDiv
    rw [show (((4 : ℤ)) : ℚ) = 4 by norm_num, i4]
    simp only
    rw [if_neg (by norm_num)]
    refine fl_of hr (hr.fix ⟨5, -2, by norm_num, by norm_num, by norm_num⟩) (by norm_num)
  simpa [doubleOps] using hd

/-- **C70.** The sum of the same values depends on their order, on every machine that rounds to nearest. -/
theorem C70_sum_order : let b : ℚ := 2 ^ 54 + 8
    IsDouble b ∧
    sumL (doubleOps rnd) [some b, some 1, some 1, some 1, some 1] (some 0) = .ok (some b) ∧
    sumL (doubleOps rnd) [some 1, some 1, some 1, some 1, some b] (some 0) = .ok (some (b + 4)) := by
  intro b
  have hb : IsDouble b := ⟨2 ^ 52 + 2, 2, by norm_num, by norm_num, by norm_num [b]⟩
  have hi : ∀ z : ℤ, |z| ≤ 100 → toFl rnd (z : ℚ) = some (z : ℚ) := fun z hz => fl_of hr (hr.fix (isDouble_int (hz.trans (by norm_num)))) (by
    have : |(z : ℚ)| ≤ 100 := by exact_mod_cast hz
    exact this.trans (by norm_num))
  have i1 : toFl rnd 1 = some 1 := by simpa using hi 1 (by norm_num)
  have i2 : toFl rnd 2 = some 2 := by simpa using hi 2 (by norm_num)
  have i3 : toFl rnd 3 = some 3 := by simpa using hi 3 (by norm_num)
  have i4 : toFl rnd 4 = some 4 := by simpa using hi 4 (by norm_num)
  have b0 : toFl rnd (0 + b) = some b := fl_of hr (by rw [zero_add]; exact hr.fix hb) (by norm_num [b])
  have b1 : toFl rnd (b + 1) = some b := fl_of hr (by
    rw [near_unique hr 2 (2 ^ 52 + 2) ⟨_, _, by norm_num, by norm_num, rfl⟩ (by norm_num [b]) (by norm_num [b])]; norm_num [b]) (by norm_num [b])
  have b4 : toFl rnd (4 + b) = some (b + 4) := fl_of hr (by
    rw [hr.fix ⟨2 ^ 52 + 3, 2, by norm_num, by norm_num, by norm_num [b]⟩]; ring) (by norm_num [b])
  refine ⟨hb, ?_, ?_⟩
  · rw [sumL_double]
    simp only [flSum, List.foldl, fl2]
    rw [b0]; simp only [fl2]
    rw [b1]; simp only [fl2]
    rw [b1]; simp only [fl2]
    rw [b1]; simp only [fl2]
    rw [b1]
  · rw [sumL_double]
    simp only [flSum, List.foldl, fl2]
    rw [zero_add, i1]; simp only [fl2]
    rw [show (1 : ℚ) + 1 = 2 by norm_num, i2]; simp only [fl2]
    rw [show (2 : ℚ) + 1 = 3 by norm_num, i3]; simp only [fl2]
    rw [show (3 : ℚ) + 1 = 4 by norm_num, i4]; simp only [fl2]
    rw [b4]

end

/-! ### Concrete cases -/

/-- `roundDouble` rounds to nearest, so the hypotheses can be met. -/
example : Nearest roundDouble := roundDouble_nearest

/-- A sum of integers. -/
example : sumL (doubleOps roundDouble) (([3, -1, 2 ^ 40].map (Int.cast : ℤ → ℚ)).map some) (some 0) = .ok (some ((2 ^ 40 + 2 : ℤ) : ℚ)) := by
  have := C70_sum_integers roundDouble_nearest [3, -1, 2 ^ 40] (by decide)
  rw [this]
  rfl

/-- A mean that is rounded: 1/3. -/
example : ∃ m : ℚ, meanIter (doubleOps roundDouble) ([0, 0, 1].map some) (some 0) = .ok (some m) ∧ |m - 1 / 3| ≤ rel 3 / 3 + tiny := by
  have hint := C70_sum_integers roundDouble_nearest [0, 0, 1] (by decide)
  have hm := mean_double roundDouble_nearest [0, 0, 1]
  have hs : flSum roundDouble (some 0) (([0, 0, 1] : List ℚ).map some) = some 1 := by
    rw [sumL_double] at hint
    simpa using hint
  have h3 : toFl roundDouble 3 = some 3 := fl_of roundDouble_nearest (by
    have := roundDouble_nearest.fix (isDouble_int (z := 3) (by norm_num)); simpa using this) (by norm_num)
  have hle : |roundDouble (1 / 3)| ≤ 2 ^ 100 := by
    have h1 : roundDouble (1 / 3) ≤ 1 := by
      have := roundDouble_nearest.mono (show (1 / 3 : ℚ) ≤ 1 by norm_num)
      rwa [roundDouble_nearest.fix isDouble_one] at this
    have h0 : 0 ≤ roundDouble (1 / 3) := by
      have := roundDouble_nearest.mono (show (0 : ℚ) ≤ 1 / 3 by norm_num)
      rwa [roundDouble_nearest.fix isDouble_zero] at this
    rw [abs_of_nonneg h0]
    exact h1.trans (by norm_num)
  have hd : flDiv roundDouble (some 1) 3 = some (roundDouble (1 / 3)) := by
    unfold flDiv
    rw [show (((3 : ℤ)) : ℚ) = 3 by norm_num, h3]
    simp only
    rw [if_neg (by norm_num)]
    exact fl_of roundDouble_nearest rfl hle
  rw [hs] at hm
  simp only [List.length_cons, List.length_nil] at hm
  norm_num at hm
  rw [hd] at hm
  refine ⟨_, hm, ?_⟩
  have hdd : ∀ x ∈ ([0, 0, 1] : List ℚ), IsDouble x := by
    intro x hx
    simp only [List.mem_cons, List.not_mem_nil, or_false] at hx
    rcases hx with rfl | rfl | rfl
    · exact isDouble_zero
    · exact isDouble_zero
    · exact isDouble_one
  have := (C70_mean roundDouble_nearest (xs := [0, 0, 1]) hdd (by simp) (by norm_num) hm).2
  norm_num [exactMean, asum] at this
  linarith

/-! ### The hypotheses hold in concrete cases -/

/-- Small integers. -/
theorem ints_double : ∀ x ∈ ([3, -1, 2] : List ℚ), IsDouble x := by
  intro x hx
  simp only [List.mem_cons, List.not_mem_nil, or_false] at hx
  rcases hx with rfl | rfl | rfl
  · exact ⟨3, 0, by norm_num, by norm_num, by norm_num⟩
  · exact ⟨-1, 0, by norm_num, by norm_num, by norm_num⟩
  · exact ⟨2, 0, by norm_num, by norm_num, by norm_num⟩

example := C70_sum roundDouble_nearest ints_double (s := 4) (by decide +kernel)
example := C70_sum_finite roundDouble_nearest ints_double (by decide +kernel)
example := C70_sum_infinite roundDouble_nearest (l := [some 1, none]) (by decide)
example := C70_prod roundDouble_nearest ints_double
  (by
    have : ∀ k : Fin 3, smallest ≤ (1 - unit) ^ k.val * |(([3, -1, 2] : List ℚ).take (k.val + 1)).prod| := by decide +kernel
    intro k hk
    exact this ⟨k, hk⟩) (p := -6) (by decide +kernel)
example := C70_mean_overloads roundDouble_nearest [some 1, none, some 3] (some 0)
example := C70_var roundDouble_nearest ints_double (by decide) (by decide) (v := (var (doubleOps roundDouble) ([3, -1, 2].map some) (some 0) |>.toOption.bind id).getD 0) (by decide +kernel)
example := C70_dot roundDouble_nearest 2 (fun t => t + 1) (fun _ => 1 / 2) (s := 3 / 2) (by decide +kernel)

/-- A 1 by 2 matrix at 0 and a 2 by 1 matrix at 2. -/
example := C70_product roundDouble_nearest (chk := true) (m := fun q => ([some 1, some 3, some (1 / 2), some 7] : List Fl)[q]?) (off₁ := 0) (e₁ := [1, 2]) (h₁ := []) (off₂ := 2) (e₂ := [2, 1]) (h₂ := [])
  ⟨by decide, rfl, rfl⟩ ⟨by decide, rfl, rfl⟩ nofun (r := 1) (k := 2) (p := 1) (a := fun _ t => if t = 0 then 1 else 3) (b := fun t _ => if t = 0 then 1 / 2 else 7)
  ⟨rfl, by
    have : ∀ i : Fin 1, ∀ t : Fin 2, ([some 1, some 3, some (1 / 2), some 7] : List Fl)[(arrayView 0 [1, 2]).pos [i.val, t.val]]? = some (some (if t.val = 0 then 1 else 3)) := by decide +kernel
    intro i t hi ht; exact this ⟨i, hi⟩ ⟨t, ht⟩⟩
  ⟨rfl, by
    have : ∀ i : Fin 2, ∀ t : Fin 1, ([some 1, some 3, some (1 / 2), some 7] : List Fl)[(arrayView 2 [2, 1]).pos [i.val, t.val]]? = some (some (if i.val = 0 then 1 / 2 else 7)) := by decide +kernel
    intro i t hi ht; exact this ⟨i, hi⟩ ⟨t, ht⟩⟩ (by decide) (by decide) (by decide) 4
example := C70_freq roundDouble_nearest [true, false, true] (by decide) (by decide)
example := C70_mean_not_within roundDouble_nearest

end Jules.Props

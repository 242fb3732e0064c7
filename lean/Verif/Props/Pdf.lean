import Verif.Model.Pdf
import Verif.Props.Assign
import Mathlib.Probability.Distributions.Gaussian.Real
import Mathlib.Analysis.Real.Pi.Bounds
/-
C63: `normal_pdf` is the density of the normal distribution. The specification is Mathlib's `gaussianPDFReal`.
-/
namespace Jules.Props
open Jules Spec ProbabilityTheory MeasureTheory
open scoped NNReal

/-- The density of the normal distribution with mean `mu` and standard deviation `sigma`. -/
noncomputable def density (mu sigma x : ℝ) : ℝ := gaussianPDFReal mu ⟨sigma ^ 2, sq_nonneg sigma⟩ x

theorem density_eq (mu sigma x : ℝ) : density mu sigma x = (Real.sqrt (2 * Real.pi * sigma ^ 2))⁻¹ * Real.exp (-(x - mu) ^ 2 / (2 * sigma ^ 2)) := rfl

theorem piLiteral_pos : 0 < piLiteral := by unfold piLiteral; positivity

theorem piLiteral_close : |Real.sqrt (Real.pi / piLiteral) - 1| ≤ 1 / 10 ^ 19 := by
  have h1 := Real.pi_gt_d20
  have h2 := Real.pi_lt_d20
  have hp := piLiteral_pos
  have hlo : (1 - 1 / 10 ^ 19) ^ 2 ≤ Real.pi / piLiteral := by
    rw [le_div_iff₀ hp]
    unfold piLiteral
    refine le_trans ?_ h1.le
    norm_num
  have hhi : Real.pi / piLiteral ≤ (1 + 1 / 10 ^ 19) ^ 2 := by
    rw [div_le_iff₀ hp]
    unfold piLiteral
    refine h2.le.trans ?_
    norm_num
  rw [abs_le]
  constructor
  · have := Real.le_sqrt_of_sq_le hlo
    linarith
  · have := Real.sqrt_le_iff.2 ⟨by positivity, hhi⟩
    linarith

theorem normalPdf_eq (mu sigma x : ℝ) : realOps.normalPdf x mu sigma = Real.sqrt (Real.pi / piLiteral) * density mu sigma x := by
  have hp := piLiteral_pos
  have hpi := Real.pi_pos
  rw [density_eq]
  simp only [PdfOps.normalPdf, PdfOps.square, realOps]
  have e1 : -((x - mu) * (x - mu)) / (2 * (sigma * sigma)) = -(x - mu) ^ 2 / (2 * sigma ^ 2) := by ring
  have e2 : (Real.sqrt (2 * (sigma * sigma) * piLiteral))⁻¹ = Real.sqrt (Real.pi / piLiteral) * (Real.sqrt (2 * Real.pi * sigma ^ 2))⁻¹ := by
    rw [← Real.sqrt_inv, ← Real.sqrt_inv, ← Real.sqrt_mul (by positivity)]
    congr 1
    by_cases hs : sigma = 0
    · simp [hs]
    · field_simp
  rw [e1, div_eq_mul_inv, e2]
  ring

theorem density_nonneg (mu sigma x : ℝ) : 0 ≤ density mu sigma x := gaussianPDFReal_nonneg ..

/-- **C63 (partial: floating point arguments, as real numbers).** For every `x`, `mu` and `sigma ≠ 0`, `normal_pdf(x, mu, sigma)` is the density of the normal distribution, up to
a factor that differs from 1 by at most 10⁻¹⁹ (the error of the literal for π). -/
theorem C63_density_partial (x mu sigma : ℝ) (_hs : sigma ≠ 0) :
    |realOps.normalPdf x mu sigma - density mu sigma x| ≤ 1 / 10 ^ 19 * density mu sigma x := by
  rw [normalPdf_eq, show Real.sqrt (Real.pi / piLiteral) * density mu sigma x - density mu sigma x =
    (Real.sqrt (Real.pi / piLiteral) - 1) * density mu sigma x by ring, abs_mul, abs_of_nonneg (density_nonneg ..)]
  exact mul_le_mul_of_nonneg_right piLiteral_close (density_nonneg ..)

/-- **C63 (partial).** It is positive and integrates to 1, up to the error of the literal. -/
theorem C63_normalised_partial (mu sigma : ℝ) (hs : sigma ≠ 0) :
    (∀ x, 0 < realOps.normalPdf x mu sigma) ∧ |(∫ x, realOps.normalPdf x mu sigma) - 1| ≤ 1 / 10 ^ 19 := by
  have hv : (⟨sigma ^ 2, sq_nonneg sigma⟩ : ℝ≥0) ≠ 0 := by
    intro h
    have := congrArg NNReal.toReal h
    change sigma ^ 2 = 0 at this
    exact hs (pow_eq_zero_iff two_ne_zero |>.1 this)
  have hp := piLiteral_pos
  have hpi := Real.pi_pos
  constructor
  · intro x
    rw [normalPdf_eq]
    exact mul_pos (Real.sqrt_pos.2 (by positivity)) (gaussianPDFReal_pos _ _ _ hv)
  · have : (∫ x, realOps.normalPdf x mu sigma) = Real.sqrt (Real.pi / piLiteral) := by
      simp only [normalPdf_eq, integral_const_mul]
      rw [show (∫ x, density mu sigma x) = 1 from integral_gaussianPDFReal_eq_one mu hv, mul_one]
    rw [this]
    exact piLiteral_close

/-- **C63 (partial).** It is symmetric about `mu` and largest there. -/
theorem C63_shape_partial (mu sigma : ℝ) (hs : sigma ≠ 0) :
    (∀ t, realOps.normalPdf (mu + t) mu sigma = realOps.normalPdf (mu - t) mu sigma) ∧
      ∀ x, x ≠ mu → realOps.normalPdf x mu sigma < realOps.normalPdf mu mu sigma := by
  constructor
  · intro t
    simp only [PdfOps.normalPdf, PdfOps.square, realOps]
    congr 2
    ring
  · intro x hx
    simp only [PdfOps.normalPdf, PdfOps.square, realOps]
    have hd : x - mu ≠ 0 := sub_ne_zero.2 hx
    have h1 : 0 < (x - mu) * (x - mu) := mul_self_pos.2 hd
    have h2 : 0 < 2 * (sigma * sigma) := mul_pos two_pos (mul_self_pos.2 hs)
    have h3 := piLiteral_pos
    apply div_lt_div_of_pos_right _ (Real.sqrt_pos.2 (by positivity))
    apply Real.exp_lt_exp.2
    rw [sub_self, mul_zero, neg_zero, zero_div]
    exact div_neg_of_neg_of_pos (by linarith) h2

/-- **C63.** Of an array: a lazy expression whose elements are the densities at the elements. -/
theorem C63_array_partial {e : Ex Obj ℝ} {s : Ex AView ℝ} (he : Denotes e s) {d : List Nat} (hd0 : d ≠ []) (hd : ∀ x ∈ exts s, x = d)
    {m : Mem ℝ} (hval : ∀ i, InB d i → valAt m s i ≠ none) {fresh : Nat} (hf : ∀ k, k < prod d → m (fresh + k) = none) (chk : Bool)
    (mu sigma : ℝ) (hs : sigma ≠ 0) :
    ∃ m' a, ((arrayPdf e mu sigma).build Arith.exact chk >>= fun src => newArray Arith.exact src m fresh) = .ok (m', a) ∧ a.ext = d ∧
      ∀ i, InB d i → ∃ x y, valAt m s i = some x ∧ Reads m' (.cref a.base a.ext) i (some y) ∧
        |y - density mu sigma x| ≤ 1 / 10 ^ 19 * density mu sigma x := by
  have hval' : ∀ i, InB d i → valAt m (.un (fun x => realOps.normalPdf x mu sigma) s) i ≠ none := by
    intro i hi
    cases h : valAt m s i with
    | none => exact (hval i hi h).elim
    | some x => simp [valAt, h]
  obtain ⟨m', a, h1, h2, h3, _⟩ := C20_elementwise (e := arrayPdf e mu sigma) (.un he) hd0 (by simpa [exts] using hd) hval' hf chk
  refine ⟨m', a, h1, h2, fun i hi => ?_⟩
  have hr := h3 i hi
  cases h : valAt m s i with
  | none => exact (hval i hi h).elim
  | some x =>
    refine ⟨x, realOps.normalPdf x mu sigma, rfl, ?_, C63_density_partial x mu sigma hs⟩
    simpa [valAt, h] using hr

/-- **C63 is false for integer arguments**: `pi<int>` is 3, so that at the mean the value is too large for every standard deviation; and the exponent is an integer division, so
that one standard deviation away from the mean the value is the same as at the mean (for standard deviation 1: `normal_pdf(1, 0, 1) == normal_pdf(0, 0, 1)`). -/
theorem C63_integer (mu sigma : ℤ) (hs : sigma ≠ 0) :
    density mu sigma mu * (1 + 1 / 100) < intOps.normalPdf mu mu sigma ∧ intOps.normalPdf (mu + sigma) mu sigma = intOps.normalPdf mu mu sigma := by
  constructor
  · have hs2 : (0 : ℝ) < (sigma : ℝ) ^ 2 := by
      have : (sigma : ℝ) ≠ 0 := by exact_mod_cast hs
      positivity
    have hpi := Real.pi_gt_d2
    have hl : intOps.normalPdf mu mu sigma = (Real.sqrt (6 * (sigma : ℝ) ^ 2))⁻¹ := by
      simp only [PdfOps.normalPdf, PdfOps.square, intOps]
      have e1 : Int.tdiv (-((mu - mu) * (mu - mu))) (2 * (sigma * sigma)) = 0 := by simp
      have e2 : ((2 * (sigma * sigma) * 3 : ℤ) : ℝ) = 6 * (sigma : ℝ) ^ 2 := by push_cast; ring
      rw [e1, e2, Int.cast_zero, Real.exp_zero, one_div]
    have hr : density mu sigma mu = (Real.sqrt (2 * Real.pi * (sigma : ℝ) ^ 2))⁻¹ := by
      rw [density_eq, sub_self]
      simp only [ne_eq, OfNat.ofNat_ne_zero, not_false_eq_true, zero_pow, neg_zero, zero_div, Real.exp_zero, mul_one]
    rw [hl, hr]
    have h1 : Real.sqrt (6 * (sigma : ℝ) ^ 2) * (1 + 1 / 100) < Real.sqrt (2 * Real.pi * (sigma : ℝ) ^ 2) := by
      have : Real.sqrt (6 * (sigma : ℝ) ^ 2) * (1 + 1 / 100) = Real.sqrt ((6 * (sigma : ℝ) ^ 2) * (1 + 1 / 100) ^ 2) := by
        rw [Real.sqrt_mul (by positivity) ((1 + 1 / 100) ^ 2), Real.sqrt_sq (by norm_num)]
      rw [this]
      apply Real.sqrt_lt_sqrt (by positivity)
      nlinarith
    have h2 : 0 < Real.sqrt (6 * (sigma : ℝ) ^ 2) := Real.sqrt_pos.2 (by positivity)
    have h3 : 0 < Real.sqrt (2 * Real.pi * (sigma : ℝ) ^ 2) := Real.sqrt_pos.2 (by positivity)
    rw [inv_mul_lt_iff₀ h3, ← div_eq_mul_inv, lt_div_iff₀ h2, mul_comm]
    exact h1
  · simp only [PdfOps.normalPdf, PdfOps.square, intOps]
    congr 2
    have h0 : (0 : ℤ) < sigma * sigma := mul_self_pos.2 hs
    rw [show mu + sigma - mu = sigma by ring, show mu - mu = 0 by ring]
    have h1 : Int.tdiv (-(sigma * sigma)) (2 * (sigma * sigma)) = 0 := by
      rw [Int.neg_tdiv, Int.tdiv_eq_zero_of_lt h0.le (by linarith), neg_zero]
    rw [h1]
    simp

/-! Concrete cases. -/
example := C63_density_partial 3 1 (-2) (by norm_num)
example := C63_normalised_partial 0 1 one_ne_zero
example := C63_integer 0 1 one_ne_zero

/-- The standard normal density at 0. -/
example : density 0 1 0 = (Real.sqrt (2 * Real.pi))⁻¹ := by
  rw [density_eq]
  norm_num

example := C63_shape_partial 3 (-2) (by norm_num)

/-- The density at the elements of the vector (1, 2, 3). -/
example := C63_array_partial (e := .leaf (.cref 0 [3])) (.leaf (array_observes 0 (by simp)) (by simp [arrayView])) (d := [3]) (by decide) (by simp [exts, arrayView])
  (m := fun p => [(1 : ℝ), 2, 3][p]?)
  (by
    intro i hi
    obtain ⟨k, t, rfl, hk, ht⟩ := inB_cons.1 hi
    have ht : InB [] t := ht
    rw [inB_nil] at ht
    subst ht
    match k, hk with
    | 0, _ => exact nofun
    | 1, _ => exact nofun
    | 2, _ => exact nofun) (fresh := 3) (by intro k _; simp) true 0 1 one_ne_zero

end Jules.Props

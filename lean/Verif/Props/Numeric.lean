import Verif.Model.Numeric
import Mathlib.Order.Defs.LinearOrder
import Mathlib.Order.BoundedOrder.Basic
import Mathlib.Algebra.BigOperators.Group.List.Basic
import Mathlib.Algebra.Field.Basic
import Mathlib.Algebra.CharZero.Defs
import Mathlib.Algebra.Field.Rat
import Mathlib.Data.Nat.Cast.Order.Field
import Mathlib.Data.List.Sort
import Mathlib.Tactic.Ring
import Mathlib.Tactic.Linarith
/-
C30-C33: the reductions of base/numeric.hpp.
-/
namespace Jules.Props

/-! ### C30: max, min, which_max, which_min -/

/-- The order of the element type as the `<` of the code. -/
abbrev ltOf (α : Type) [LinearOrder α] : α → α → Bool := fun a b => decide (a < b)

/-- `max(rng, init)` is the greatest of `init` and the elements: it is one of them, and none is greater. -/
theorem C30_max {α : Type} [LinearOrder α] (l : List α) (init : α) :
    (maxL (ltOf α) l init = init ∨ maxL (ltOf α) l init ∈ l) ∧
    init ≤ maxL (ltOf α) l init ∧ ∀ x ∈ l, x ≤ maxL (ltOf α) l init := by
  induction l generalizing init with
  | nil => simp [maxL]
  | cons y ys ih =>
    simp only [maxL, decide_eq_true_eq]
    split
    · rename_i h
      obtain ⟨a, b, c⟩ := ih y
      refine ⟨.inr ?_, le_trans (le_of_lt h) b, ?_⟩
      · rcases a with a | a
        · rw [a]; exact List.mem_cons_self
        · exact List.mem_cons_of_mem _ a
      · intro x hx
        rcases List.mem_cons.1 hx with rfl | hx
        · exact b
        · exact c x hx
    · rename_i h
      obtain ⟨a, b, c⟩ := ih init
      refine ⟨a.imp_right (List.mem_cons_of_mem _), b, ?_⟩
      intro x hx
      rcases List.mem_cons.1 hx with rfl | hx
      · exact le_trans (not_lt.1 h) b
      · exact c x hx

/-- `min(rng, init)` is the least of `init` and the elements. -/
theorem C30_min {α : Type} [LinearOrder α] (l : List α) (init : α) :
    (minL (ltOf α) l init = init ∨ minL (ltOf α) l init ∈ l) ∧
    minL (ltOf α) l init ≤ init ∧ ∀ x ∈ l, minL (ltOf α) l init ≤ x := by
  induction l generalizing init with
  | nil => simp [minL]
  | cons y ys ih =>
    simp only [minL, decide_eq_true_eq]
    split
    · rename_i h
      obtain ⟨a, b, c⟩ := ih y
      refine ⟨.inr ?_, le_trans b (le_of_lt h), ?_⟩
      · rcases a with a | a
        · rw [a]; exact List.mem_cons_self
        · exact List.mem_cons_of_mem _ a
      · intro x hx
        rcases List.mem_cons.1 hx with rfl | hx
        · exact b
        · exact c x hx
    · rename_i h
      obtain ⟨a, b, c⟩ := ih init
      refine ⟨a.imp_right (List.mem_cons_of_mem _), b, ?_⟩
      intro x hx
      rcases List.mem_cons.1 hx with rfl | hx
      · exact le_trans b (not_lt.1 h)
      · exact c x hx

/-- `p` is the first position of a greatest element of `l`. -/
def FirstMax {α : Type} [LinearOrder α] (l : List α) (p : Nat) : Prop :=
  ∃ m, l[p]? = some m ∧ (∀ x ∈ l, x ≤ m) ∧ ∀ q y, q < p → l[q]? = some y → y < m

/-- `p` is the first position of a least element of `l`. -/
def FirstMin {α : Type} [LinearOrder α] (l : List α) (p : Nat) : Prop :=
  ∃ m, l[p]? = some m ∧ (∀ x ∈ l, m ≤ x) ∧ ∀ q y, q < p → l[q]? = some y → m < y

/-- What the loop returns: the position of the first maximum of the rest, if it beats `start`. -/
theorem whichMaxLoop_spec {α : Type} [LinearOrder α] (l : List α) (start : α) (pos best : Nat) :
    (whichMaxLoop (ltOf α) l start pos best = best ∧ ∀ x ∈ l, x ≤ start) ∨
    ∃ p m, whichMaxLoop (ltOf α) l start pos best = pos + p ∧ l[p]? = some m ∧ start < m ∧ (∀ x ∈ l, x ≤ m) ∧
      ∀ q y, q < p → l[q]? = some y → y < m := by
  induction l generalizing start pos best with
  | nil => left; simp [whichMaxLoop]
  | cons y ys ih =>
    simp only [whichMaxLoop, decide_eq_true_eq]
    split
    · rename_i h
      right
      rcases ih y (pos + 1) pos with ⟨e, hx⟩ | ⟨p, m, e, hp, hm, hx, hq⟩
      · refine ⟨0, y, by rw [e]; rfl, rfl, h, ?_, ?_⟩
        · intro x hxm
          rcases List.mem_cons.1 hxm with rfl | hxm
          · exact le_refl _
          · exact hx x hxm
        · intro q z hq; omega
      · refine ⟨p + 1, m, by rw [e]; omega, by simpa using hp, lt_trans h hm, ?_, ?_⟩
        · intro x hxm
          rcases List.mem_cons.1 hxm with rfl | hxm
          · exact le_of_lt hm
          · exact hx x hxm
        · intro q z hqp hz
          cases q with
          | zero => simp only [List.getElem?_cons_zero, Option.some.injEq] at hz; rw [← hz]; exact hm
          | succ q => exact hq q z (by omega) (by simpa using hz)
    · rename_i h
      rcases ih start (pos + 1) best with ⟨e, hx⟩ | ⟨p, m, e, hp, hm, hx, hq⟩
      · left
        refine ⟨e, ?_⟩
        intro x hxm
        rcases List.mem_cons.1 hxm with rfl | hxm
        · exact not_lt.1 h
        · exact hx x hxm
      · right
        refine ⟨p + 1, m, by rw [e]; omega, by simpa using hp, hm, ?_, ?_⟩
        · intro x hxm
          rcases List.mem_cons.1 hxm with rfl | hxm
          · exact le_trans (not_lt.1 h) (le_of_lt hm)
          · exact hx x hxm
        · intro q z hqp hz
          cases q with
          | zero =>
            simp only [List.getElem?_cons_zero, Option.some.injEq] at hz; rw [← hz]; exact lt_of_le_of_lt (not_lt.1 h) hm
          | succ q => exact hq q z (by omega) (by simpa using hz)

theorem whichMinLoop_spec {α : Type} [LinearOrder α] (l : List α) (start : α) (pos best : Nat) :
    (whichMinLoop (ltOf α) l start pos best = best ∧ ∀ x ∈ l, start ≤ x) ∨
    ∃ p m, whichMinLoop (ltOf α) l start pos best = pos + p ∧ l[p]? = some m ∧ m < start ∧ (∀ x ∈ l, m ≤ x) ∧
      ∀ q y, q < p → l[q]? = some y → m < y := by
  induction l generalizing start pos best with
  | nil => left; simp [whichMinLoop]
  | cons y ys ih =>
    simp only [whichMinLoop, decide_eq_true_eq]
    split
    · rename_i h
      right
      rcases ih y (pos + 1) pos with ⟨e, hx⟩ | ⟨p, m, e, hp, hm, hx, hq⟩
      · refine ⟨0, y, by rw [e]; rfl, rfl, h, ?_, ?_⟩
        · intro x hxm
          rcases List.mem_cons.1 hxm with rfl | hxm
          · exact le_refl _
          · exact hx x hxm
        · intro q z hq; omega
      · refine ⟨p + 1, m, by rw [e]; omega, by simpa using hp, lt_trans hm h, ?_, ?_⟩
        · intro x hxm
          rcases List.mem_cons.1 hxm with rfl | hxm
          · exact le_of_lt hm
          · exact hx x hxm
        · intro q z hqp hz
          cases q with
          | zero => simp only [List.getElem?_cons_zero, Option.some.injEq] at hz; rw [← hz]; exact hm
          | succ q => exact hq q z (by omega) (by simpa using hz)
    · rename_i h
      rcases ih start (pos + 1) best with ⟨e, hx⟩ | ⟨p, m, e, hp, hm, hx, hq⟩
      · left
        refine ⟨e, ?_⟩
        intro x hxm
        rcases List.mem_cons.1 hxm with rfl | hxm
        · exact not_lt.1 h
        · exact hx x hxm
      · right
        refine ⟨p + 1, m, by rw [e]; omega, by simpa using hp, hm, ?_, ?_⟩
        · intro x hxm
          rcases List.mem_cons.1 hxm with rfl | hxm
          · exact le_trans (le_of_lt hm) (not_lt.1 h)
          · exact hx x hxm
        · intro q z hqp hz
          cases q with
          | zero =>
            simp only [List.getElem?_cons_zero, Option.some.injEq] at hz; rw [← hz]; exact lt_of_lt_of_le hm (not_lt.1 h)
          | succ q => exact hq q z (by omega) (by simpa using hz)

/-- `which_max(rng)` of a non-empty range, called without a start (so the start is the least value `⊥` of the type), is the first
position of a greatest element. -/
theorem C30_which_max {α : Type} [LinearOrder α] [OrderBot α] (l : List α) (h : l ≠ []) :
    FirstMax l (whichMax (ltOf α) l ⊥) := by
  rcases whichMaxLoop_spec l ⊥ 0 0 with ⟨e, hx⟩ | ⟨p, m, e, hp, hm, hx, hq⟩
  · obtain ⟨y, ys, rfl⟩ := List.exists_cons_of_ne_nil h
    unfold whichMax
    rw [e]
    refine ⟨y, rfl, fun x hxm => le_trans (hx x hxm) bot_le, fun q _ hq => by omega⟩
  · unfold whichMax
    rw [e, Nat.zero_add]
    exact ⟨m, hp, hx, hq⟩

/-- `which_min(rng)` likewise, from the greatest value `⊤` of the type. -/
theorem C30_which_min {α : Type} [LinearOrder α] [OrderTop α] (l : List α) (h : l ≠ []) :
    FirstMin l (whichMin (ltOf α) l ⊤) := by
  rcases whichMinLoop_spec l ⊤ 0 0 with ⟨e, hx⟩ | ⟨p, m, e, hp, hm, hx, hq⟩
  · obtain ⟨y, ys, rfl⟩ := List.exists_cons_of_ne_nil h
    unfold whichMin
    rw [e]
    refine ⟨y, rfl, fun x hxm => le_trans le_top (hx x hxm), fun q _ hq => by omega⟩
  · unfold whichMin
    rw [e, Nat.zero_add]
    exact ⟨m, hp, hx, hq⟩

/-- With an explicit start: the first position of a greatest element if some element is greater than the start, else 0. -/
theorem C30_which_max_start {α : Type} [LinearOrder α] (l : List α) (start : α) :
    ((∃ x ∈ l, start < x) → FirstMax l (whichMax (ltOf α) l start)) ∧
    ((∀ x ∈ l, x ≤ start) → whichMax (ltOf α) l start = 0) := by
  unfold whichMax
  rcases whichMaxLoop_spec l start 0 0 with ⟨e, hx⟩ | ⟨p, m, e, hp, hm, hx, hq⟩
  · refine ⟨?_, fun _ => e⟩
    rintro ⟨x, hxm, hlt⟩
    exact absurd (hx x hxm) (not_le.2 hlt)
  · rw [e, Nat.zero_add]
    refine ⟨fun _ => ⟨m, hp, hx, hq⟩, fun h => absurd (h m (List.mem_of_getElem? hp)) (not_le.2 hm)⟩

theorem C30_which_min_start {α : Type} [LinearOrder α] (l : List α) (start : α) :
    ((∃ x ∈ l, x < start) → FirstMin l (whichMin (ltOf α) l start)) ∧
    ((∀ x ∈ l, start ≤ x) → whichMin (ltOf α) l start = 0) := by
  unfold whichMin
  rcases whichMinLoop_spec l start 0 0 with ⟨e, hx⟩ | ⟨p, m, e, hp, hm, hx, hq⟩
  · refine ⟨?_, fun _ => e⟩
    rintro ⟨x, hxm, hlt⟩
    exact absurd (hx x hxm) (not_le.2 hlt)
  · rw [e, Nat.zero_add]
    refine ⟨fun _ => ⟨m, hp, hx, hq⟩, fun h => absurd (h m (List.mem_of_getElem? hp)) (not_le.2 hm)⟩

/-- The comparison of a floating point type with an unordered value (`none`, a NaN): every comparison with it is false. -/
def ltNaN (α : Type) [LinearOrder α] : Option α → Option α → Bool
  | some a, some b => decide (a < b)
  | _, _ => false

/-- With NaNs among the elements (and a start that is a number, as the default is), `max` is the maximum of the numbers. -/
theorem C30_max_nan {α : Type} [LinearOrder α] (l : List (Option α)) (init : α) :
    maxL (ltNaN α) l (some init) = some (maxL (ltOf α) (l.filterMap id) init) := by
  induction l generalizing init with
  | nil => rfl
  | cons y ys ih =>
    cases y with
    | none => simp only [maxL, ltNaN]; simpa using ih init
    | some y =>
      by_cases h : init < y
      · simpa [maxL, ltNaN, h] using ih y
      · simpa [maxL, ltNaN, h] using ih init

/-- Non-vacuous: the first of two maxima is reported; the doc comment's claim for empty ranges (`unbounded_min`) does not hold for
positions: the result is 0. -/
example : whichMax (ltOf Nat) [3, 7, 1, 7] ⊥ = 1 ∧ maxL (ltOf Nat) [3, 7, 1, 7] 0 = 7 ∧ whichMin (ltOf Nat) [3, 1, 7, 1] 9 = 1 ∧
    minL (ltOf Nat) [3, 1, 7, 1] 9 = 1 := by decide

theorem C30_which_max_empty {α : Type} [LinearOrder α] (start : α) : whichMax (ltOf α) [] start = 0 ∧ whichMin (ltOf α) [] start = 0 :=
  ⟨rfl, rfl⟩

/-! ### C31: sum, prod, mean, var, sd, meansd -/

section Field
variable {K : Type} [Field K] [DecidableEq K]

/-- In exact arithmetic `sum` is the sum of all elements, from `start`. -/
theorem C31_sum (l : List K) (start : K) : sumL (fieldOps K) l start = .ok (start + l.sum) := by
  induction l generalizing start with
  | nil => simp [sumL]
  | cons x xs ih =>
    show sumL (fieldOps K) xs (start + x) = _
    rw [ih, List.sum_cons, add_assoc]

/-- In exact arithmetic `prod` is the product of all elements, from `start`. -/
theorem C31_prod (l : List K) (start : K) : prodLoop (fieldOps K) l start = .ok (start * l.prod) := by
  induction l generalizing start with
  | nil => simp [prodLoop]
  | cons x xs ih =>
    show prodLoop (fieldOps K) xs (start * x) = _
    rw [ih, List.prod_cons, mul_assoc]

/-- The order of the elements is irrelevant. -/
theorem C31_order_insensitive (l l' : List K) (h : l.Perm l') (start : K) :
    sumL (fieldOps K) l start = sumL (fieldOps K) l' start ∧ prodLoop (fieldOps K) l start = prodLoop (fieldOps K) l' start := by
  rw [C31_sum, C31_sum, C31_prod, C31_prod, h.sum_eq, h.prod_eq]
  exact ⟨rfl, rfl⟩

theorem devLoop_field (mu : K) (l : List K) (r : K) :
    devLoop (fieldOps K) mu l r = .ok (r + (l.map fun x => (x - mu) * (x - mu)).sum) := by
  induction l generalizing r with
  | nil => simp [devLoop]
  | cons x xs ih =>
    show devLoop (fieldOps K) mu xs (r + (x - mu) * (x - mu)) = _
    rw [ih, List.map_cons, List.sum_cons, add_assoc]

/-- Of a non-empty range, in exact arithmetic (characteristic 0): the mean (by either overload) times the number of elements is
their sum. -/
theorem C31_mean [CharZero K] (l : List K) (h : l ≠ []) :
    ∃ mu, meanIter (fieldOps K) l 0 = .ok mu ∧ meanRng (fieldOps K) l 0 = .ok mu ∧ mu * (l.length : K) = l.sum := by
  have hn : l.length ≠ 0 := by simpa using h
  have hk : (l.length : K) ≠ 0 := Nat.cast_ne_zero.2 hn
  have e1 : meanIter (fieldOps K) l 0 = .ok (l.sum / (l.length : K)) := by
    unfold meanIter
    rw [C31_sum]
    simp [fieldOps, hn, h]
  have e2 : meanRng (fieldOps K) l 0 = .ok (l.sum / (l.length : K)) := by
    unfold meanRng
    rw [C31_sum]
    simp [fieldOps, hn, h]
  exact ⟨_, e1, e2, div_mul_cancel₀ _ hk⟩

/-- Of at least two elements, in exact arithmetic: with `mu` the mean, `var * (n - 1)` is the sum of the squared deviations from
`mu`; `sd` is the square root of the variance; `meansd` returns the mean and `sd`. -/
theorem C31_var [CharZero K] {R : Type} (sqrt : K → R) (l : List K) (h : 2 ≤ l.length) :
    ∃ mu v, meanIter (fieldOps K) l 0 = .ok mu ∧ var (fieldOps K) l 0 = .ok v ∧
      v * ((l.length : K) - 1) = (l.map fun x => (x - mu) ^ 2).sum ∧
      sd (fieldOps K) sqrt l 0 = .ok (sqrt v) ∧ meansd (fieldOps K) sqrt l 0 = .ok (mu, sqrt v) := by
  obtain ⟨mu, e1, -, -⟩ := C31_mean l (by intro e; subst e; simp at h)
  have hz : ((l.length : Int) - 1) ≠ 0 := by omega
  have hk : ((l.length : K) - 1) ≠ 0 := by
    have : ((l.length : Int) - 1 : Int) ≠ 0 := hz
    have h2 : (((l.length : Int) - 1 : Int) : K) ≠ 0 := Int.cast_ne_zero.2 this
    simpa using h2
  have e2 : var (fieldOps K) l 0 = .ok ((l.map fun x => (x - mu) * (x - mu)).sum / ((l.length : K) - 1)) := by
    unfold var
    rw [e1]
    show (do let r ← devLoop (fieldOps K) mu l 0; _) = _
    rw [devLoop_field]
    simp [fieldOps, hz]
  refine ⟨mu, _, e1, e2, ?_, ?_, ?_⟩
  · rw [div_mul_cancel₀ _ hk]
    congr 1
    exact List.map_congr_left fun x _ => by ring
  · unfold sd; rw [e2]; rfl
  · unfold meansd
    rw [e1]
    show (do let r ← devLoop (fieldOps K) mu l 0; _) = _
    rw [devLoop_field]
    simp [fieldOps, hz]

/-- The boundary: a mean of no elements and a variance of one element have no finite value (0/0), which no build reports. -/
theorem C31_boundary (x : K) : meanIter (fieldOps K) [] 0 = .error .ub ∧ meanRng (fieldOps K) [] 0 = .error .ub ∧
    var (fieldOps K) [x] 0 = .error .ub := by
  refine ⟨by simp [meanIter, sumL, fieldOps], by simp [meanRng, sumL, fieldOps], ?_⟩
  simp [var, meanIter, sumL, devLoop, fieldOps]

end Field

example : meanIter (fieldOps Rat) [1, 2, 3, 4] 0 = .ok (5 / 2) ∧ var (fieldOps Rat) [1, 2, 3, 4] 0 = .ok (5 / 3) := by
  decide +kernel

/-- **C31.** For integers the mean of no elements is a division by zero, which is undefined; so is the variance of fewer than two elements. -/
theorem C31_boundary_integers (w : Nat) (x : Int) (y : Nat) (hx : fitsS w x = true) (hy : y < W64) :
    meanIter (signedOps w) [] 0 = .error .ub ∧ meanRng (signedOps w) [] 0 = .error .ub ∧ meanIter unsignedOps [] 0 = .error .ub ∧
      meanRng unsignedOps [] 0 = .error .ub ∧ var (signedOps w) [] 0 = .error .ub ∧ var unsignedOps [] 0 = .error .ub ∧
      var (signedOps w) [x] 0 = .error .ub ∧ var unsignedOps [y] 0 = .error .ub := by
  refine ⟨rfl, rfl, rfl, rfl, rfl, rfl, ?_, ?_⟩
  · have h1 : signed w x = .ok x := by simp [signed, hx]
    have h0 : signed 64 0 = .ok 0 := by decide
    simp [var, meanIter, sumL, signedOps, h1, devLoop, h0]
  · have h1 : y % W64 = y := Nat.mod_eq_of_lt hy
    simp [var, meanIter, sumL, unsignedOps, devLoop]

example := C31_boundary_integers 32 7 9 (by decide) (by decide)

/-- Signed integers: the sum is exact as long as every partial sum is representable; otherwise the behaviour is undefined. -/
theorem C31_sum_signed (w : Nat) (l : List Int) (start : Int) :
    ((∀ k, 1 ≤ k → k ≤ l.length → fitsS w (start + (l.take k).sum) = true) → sumL (signedOps w) l start = .ok (start + l.sum)) ∧
    ((∃ k, 1 ≤ k ∧ k ≤ l.length ∧ fitsS w (start + (l.take k).sum) = false) → sumL (signedOps w) l start = .error .ub) := by
  induction l generalizing start with
  | nil =>
    refine ⟨fun _ => by simp [sumL], ?_⟩
    rintro ⟨k, h1, h2, -⟩
    simp at h2; omega
  | cons x xs ih =>
    have hs : sumL (signedOps w) (x :: xs) start = (do let s ← signed w (start + x); sumL (signedOps w) xs s) := rfl
    cases hf : fitsS w (start + x) with
    | false =>
      have : signed w (start + x) = .error .ub := by simp [signed, hf]
      rw [hs, this]
      refine ⟨fun h => ?_, fun _ => rfl⟩
      have := h 1 (by omega) (by simp)
      simp [hf] at this
    | true =>
      have : signed w (start + x) = .ok (start + x) := by simp [signed, hf]
      rw [hs, this]
      obtain ⟨ih1, ih2⟩ := ih (start + x)
      refine ⟨fun h => ?_, ?_⟩
      · have := ih1 (fun k hk hkl => by
          have := h (k + 1) (by omega) (by simpa using hkl)
          simpa [List.take_succ_cons, add_assoc] using this)
        simpa [add_assoc] using this
      · rintro ⟨k, hk1, hk2, hkf⟩
        cases k with
        | zero => omega
        | succ k =>
          cases k with
          | zero => simp [hf] at hkf
          | succ k => exact ih2 ⟨k + 1, by omega, by simpa using hk2, by simpa [List.take_succ_cons, add_assoc] using hkf⟩

/-- Signed integers, iterator overload: the mean is the sum divided by the number of elements, rounded towards zero. -/
theorem C31_mean_signed (w : Nat) (l : List Int) (h : l ≠ [])
    (hf : ∀ k, 1 ≤ k → k ≤ l.length → fitsS w (l.take k).sum = true) :
    meanIter (signedOps w) l 0 = .ok (l.sum.tdiv l.length) := by
  have := (C31_sum_signed w l 0).1 (by simpa using hf)
  have hn : l.length ≠ 0 := by simpa using h
  unfold meanIter
  rw [this]
  simp [signedOps, hn, h]

/-- Signed integers, range overload: the same when the sum is not negative. -/
theorem C31_mean_signed_range_partial (w : Nat) (l : List Int) (h : l ≠ []) (hw : w ≤ 64)
    (hf : ∀ k, 1 ≤ k → k ≤ l.length → fitsS w (l.take k).sum = true) (hs : 0 ≤ l.sum) :
    meanRng (signedOps w) l 0 = .ok (l.sum.tdiv l.length) := by
  have := (C31_sum_signed w l 0).1 (by simpa using hf)
  have hn : l.length ≠ 0 := by simpa using h
  have hfit : l.sum < W64 := by
    have h1 := hf l.length (by omega) (le_refl _)
    simp only [List.take_length, fitsS, Bool.and_eq_true, decide_eq_true_eq] at h1
    have h2 : (2 : Int) ^ (w - 1) ≤ 2 ^ 63 := by
      have : (2 : Nat) ^ (w - 1) ≤ 2 ^ 63 := Nat.pow_le_pow_right (by omega) (by omega)
      exact_mod_cast this
    have h3 : (2 : Int) ^ 63 ≤ (W64 : Int) := by decide
    exact lt_of_lt_of_le h1.2 (le_trans h2 h3)
  unfold meanRng
  rw [this]
  have e : toU64 l.sum = l.sum.toNat := by unfold toU64; rw [Int.emod_eq_of_lt hs hfit]
  simp only [signedOps, res_ok_bind, zero_add, e]
  rw [if_neg hn]
  congr 1
  rw [Int.tdiv_eq_ediv_of_nonneg hs]
  push_cast
  rw [Int.toNat_of_nonneg hs]

/-- Signed integers, range overload, negative sum: the sum is converted to an unsigned number first, so the result is a large positive number: for
every such list (shorter than 2^63) the two overloads disagree. -/
theorem C31_mean_range_negative (w : Nat) (l : List Int) (hw : w ≤ 64) (hlen : l.length < 2 ^ 63)
    (hf : ∀ k, 1 ≤ k → k ≤ l.length → fitsS w (l.take k).sum = true) (hs : l.sum < 0) :
    meanRng (signedOps w) l 0 = .ok ((2 ^ 64 + l.sum) / l.length) ∧ meanRng (signedOps w) l 0 ≠ meanIter (signedOps w) l 0 := by
  have h : l ≠ [] := by rintro rfl; simp at hs
  have hsum := (C31_sum_signed w l 0).1 (by simpa using hf)
  have hn : l.length ≠ 0 := by simpa using h
  have hfit : -(2 ^ 63 : Int) ≤ l.sum := by
    have h1 := hf l.length (by omega) (le_refl _)
    simp only [List.take_length, fitsS, Bool.and_eq_true, decide_eq_true_eq] at h1
    have h2 : (2 : Int) ^ (w - 1) ≤ 2 ^ 63 := by
      have : (2 : Nat) ^ (w - 1) ≤ 2 ^ 63 := Nat.pow_le_pow_right (by omega) (by omega)
      exact_mod_cast this
    omega
  have e : toU64 l.sum = (2 ^ 64 + l.sum).toNat := by
    unfold toU64
    congr 1
    have : (W64 : Int) = 2 ^ 64 := by decide
    rw [this]
    omega
  have hr : meanRng (signedOps w) l 0 = .ok ((2 ^ 64 + l.sum) / l.length) := by
    unfold meanRng
    rw [hsum]
    simp only [signedOps, res_ok_bind, zero_add, e]
    rw [if_neg hn]
    congr 1
    push_cast
    rw [Int.toNat_of_nonneg (by omega)]
  refine ⟨hr, ?_⟩
  rw [hr, C31_mean_signed w l h hf]
  intro he
  have he : (2 ^ 64 + l.sum) / (l.length : Int) = l.sum.tdiv l.length := by injection he
  have h1 : l.sum.tdiv l.length ≤ 0 := by
    have := Int.tdiv_nonneg (a := -l.sum) (b := l.length) (by omega) (by omega)
    rw [Int.neg_tdiv] at this
    omega
  have h2 : 1 ≤ (2 ^ 64 + l.sum) / (l.length : Int) := by
    apply (Int.le_ediv_iff_mul_le (by omega)).2
    omega
  omega

/-- The two overloads disagree for a negative sum: the mean of `{-1, -1}` is -1 by iterators and 2^63 - 1 for the range. -/
theorem C31_mean_overloads_disagree : meanIter (signedOps 32) [-1, -1] 0 = .ok (-1) ∧
    meanRng (signedOps 32) [-1, -1] 0 = .ok (2 ^ 63 - 1) := by decide +kernel

/-- Integer element types: the variance is computed from a truncated mean, and truncated; for `{1, 2}` it is 1 instead of 1/2. A
single element divides by zero. -/
theorem C31_var_integer_refuted : var (signedOps 32) [1, 2] 0 = .ok 1 ∧ var (fieldOps Rat) [1, 2] 0 = .ok (1 / 2) ∧
    var (signedOps 32) [5] 0 = .error .ub := by decide +kernel

/-- Unsigned integers: sum and product are the exact ones modulo 2^64. -/
theorem C31_unsigned (l : List Nat) (start : Nat) (hs : start < W64) :
    sumL unsignedOps l start = .ok ((start + l.sum) % W64) ∧ prodLoop unsignedOps l start = .ok ((start * l.prod) % W64) := by
  induction l generalizing start with
  | nil => simp [sumL, prodLoop, Nat.mod_eq_of_lt hs]
  | cons x xs ih =>
    constructor
    · show sumL unsignedOps xs ((start + x) % W64) = _
      rw [(ih _ (Nat.mod_lt _ (by decide))).1, List.sum_cons, Nat.mod_add_mod, Nat.add_assoc]
    · show prodLoop unsignedOps xs ((start * x) % W64) = _
      rw [(ih _ (Nat.mod_lt _ (by decide))).2, List.prod_cons, Nat.mod_mul_mod, Nat.mul_assoc]

/-- Unsigned integers: both overloads of the mean give the sum (when it does not wrap) divided by the number of elements, rounded down. -/
theorem C31_mean_unsigned (l : List Nat) (h : l ≠ []) (hlen : l.length < W64) (hs : l.sum < W64) :
    meanIter unsignedOps l 0 = .ok (l.sum / l.length) ∧ meanRng unsignedOps l 0 = .ok (l.sum / l.length) := by
  have hn : l.length ≠ 0 := by simpa using h
  have e : toU64 (l.length : Int) = l.length := by
    unfold toU64
    rw [Int.emod_eq_of_lt (by omega) (by exact_mod_cast hlen)]
    rfl
  unfold meanIter meanRng
  rw [(C31_unsigned l 0 (by decide)).1, Nat.zero_add, Nat.mod_eq_of_lt hs]
  constructor
  · simp [unsignedOps, hn, h, e]
  · simp [unsignedOps, hn, h]

/-! ### C32: count, which, all, any, none, freq -/

theorem countLoop_eq (l : List Bool) (n : Nat) : countLoop l n = n + l.count true := by
  induction l generalizing n with
  | nil => simp [countLoop]
  | cons b bs ih => cases b <;> simp [countLoop, ih]; omega

theorem whichLoop_mem (l : List Bool) (i k : Nat) : k ∈ whichLoop l i ↔ ∃ j, k = i + j ∧ l[j]? = some true := by
  induction l generalizing i with
  | nil => simp [whichLoop]
  | cons b bs ih =>
    have key : (∃ j, k = i + 1 + j ∧ bs[j]? = some true) ↔ ∃ j, k = i + (j + 1) ∧ (b :: bs)[j + 1]? = some true := by
      simp only [List.getElem?_cons_succ]
      exact ⟨fun ⟨j, h1, h2⟩ => ⟨j, by omega, h2⟩, fun ⟨j, h1, h2⟩ => ⟨j, by omega, h2⟩⟩
    have split : (∃ j, k = i + j ∧ (b :: bs)[j]? = some true) ↔ (k = i ∧ b = true) ∨ ∃ j, k = i + (j + 1) ∧ (b :: bs)[j + 1]? = some true := by
      constructor
      · rintro ⟨j, h1, h2⟩
        cases j with
        | zero => left; exact ⟨by omega, by simpa using h2⟩
        | succ j => right; exact ⟨j, h1, h2⟩
      · rintro (⟨h1, h2⟩ | ⟨j, h1, h2⟩)
        · exact ⟨0, by omega, by simp [h2]⟩
        · exact ⟨j + 1, h1, h2⟩
    rw [split, ← key, ← ih]
    cases b <;> simp [whichLoop]

theorem whichLoop_ge (l : List Bool) (i k : Nat) (h : k ∈ whichLoop l i) : i ≤ k := by
  obtain ⟨j, h1, -⟩ := (whichLoop_mem l i k).1 h
  omega

theorem whichLoop_sorted (l : List Bool) (i : Nat) : (whichLoop l i).Pairwise (· < ·) := by
  induction l generalizing i with
  | nil => simp [whichLoop]
  | cons b bs ih =>
    cases b
    · simpa [whichLoop] using ih (i + 1)
    · simp only [whichLoop, if_true, List.pairwise_cons]
      exact ⟨fun k hk => by have := whichLoop_ge _ _ _ hk; omega, ih (i + 1)⟩

theorem whichLoop_length (l : List Bool) (i : Nat) : (whichLoop l i).length = l.count true := by
  induction l generalizing i with
  | nil => rfl
  | cons b bs ih => cases b <;> simp [whichLoop, ih]

/-- For a range and a predicate `p` on its elements: `which` is strictly increasing and holds exactly the positions of the elements
that satisfy `p`; `count` is their number. -/
theorem C32_which_count {α : Type} (p : α → Bool) (l : List α) :
    (which (l.map p)).Pairwise (· < ·) ∧ (∀ k, k ∈ which (l.map p) ↔ ∃ x, l[k]? = some x ∧ p x = true) ∧
    count (l.map p) = (which (l.map p)).length ∧ count (l.map p) = l.countP p := by
  refine ⟨whichLoop_sorted _ 0, fun k => ?_, ?_, ?_⟩
  · unfold which
    rw [whichLoop_mem]
    constructor
    · rintro ⟨j, h1, h2⟩
      rw [List.getElem?_map] at h2
      obtain ⟨x, hx, hp⟩ := Option.map_eq_some_iff.1 h2
      exact ⟨x, by rw [h1, Nat.zero_add]; exact hx, hp⟩
    · rintro ⟨x, hx, hp⟩
      exact ⟨k, by omega, by rw [List.getElem?_map, hx]; simp [hp]⟩
  · unfold count which
    rw [countLoop_eq, whichLoop_length, Nat.zero_add]
  · unfold count
    rw [countLoop_eq, Nat.zero_add, List.count_eq_countP, List.countP_map]
    congr 1
    funext x
    simp

/-- `all`, `any` and `none` are the quantifiers over the elements. -/
theorem C32_quantifiers {α : Type} (p : α → Bool) (l : List α) :
    (allL (l.map p) = true ↔ ∀ x ∈ l, p x = true) ∧ (anyL (l.map p) = true ↔ ∃ x ∈ l, p x = true) ∧
    (noneL (l.map p) = true ↔ ∀ x ∈ l, p x = false) := by
  induction l with
  | nil => simp [allL, anyL, noneL]
  | cons y ys ih =>
    obtain ⟨h1, h2, h3⟩ := ih
    cases hy : p y <;> simp [allL, anyL, noneL, hy, h1, h2, h3]

/-- `none = not any`, `all p = none (not p)`, and both in terms of `count`. -/
theorem C32_laws {α : Type} (p : α → Bool) (l : List α) :
    noneL (l.map p) = !anyL (l.map p) ∧ allL (l.map p) = noneL (l.map fun x => !p x) ∧
    (anyL (l.map p) = true ↔ 0 < count (l.map p)) ∧ (allL (l.map p) = true ↔ count (l.map p) = l.length) := by
  refine ⟨?_, ?_, ?_, ?_⟩
  · induction l with
    | nil => rfl
    | cons y ys ih => cases hy : p y <;> simp [anyL, noneL, hy, ih]
  · induction l with
    | nil => rfl
    | cons y ys ih => cases hy : p y <;> simp [allL, noneL, hy, ih]
  · rw [(C32_quantifiers p l).2.1, (C32_which_count p l).2.2.2, List.countP_pos_iff]
  · rw [(C32_quantifiers p l).1, (C32_which_count p l).2.2.2, List.countP_eq_length]

/-- `freq` is the count divided by the number of elements (exact arithmetic, non-empty range), so it lies between 0 and 1. -/
theorem C32_freq {α : Type} (p : α → Bool) (l : List α) (h : l ≠ []) :
    ∃ f : Rat, freq (fieldOps Rat) (fun n => (n : Rat)) (l.map p) = .ok f ∧ f * l.length = (l.countP p : Rat) ∧ 0 ≤ f ∧ f ≤ 1 := by
  have hn : l.length ≠ 0 := by simpa using h
  have hk : (l.length : Rat) ≠ 0 := Nat.cast_ne_zero.2 hn
  have hpos : (0 : Rat) < l.length := Nat.cast_pos.2 (by omega)
  refine ⟨(l.countP p : Rat) / l.length, ?_, div_mul_cancel₀ _ hk, ?_, ?_⟩
  · unfold freq
    rw [(C32_which_count p l).2.2.2]
    simp [fieldOps, hn, h]
  · exact div_nonneg (Nat.cast_nonneg _) (le_of_lt hpos)
  · rw [div_le_one hpos]
    exact Nat.cast_le.2 List.countP_le_length

example : which [false, true, true, false, true] = [1, 2, 4] ∧ count [false, true, true] = 2 ∧ allL [true, false] = false ∧
    anyL [false, true] = true ∧ noneL [false, false] = true ∧ freq (fieldOps Rat) (fun n => (n : Rat)) [true, false] = .ok (1 / 2) := by
  decide +kernel

/-! ### C33: nth -/

theorem counts_of_partition {β : Type} [LinearOrder β] (o : List β) (n : Nat) (x : β) (hx : o[n]? = some x)
    (hlo : ∀ (i : Nat) y, i < n → o[i]? = some y → y ≤ x) (hhi : ∀ (i : Nat) y, n < i → o[i]? = some y → x ≤ y) :
    o.countP (· < x) ≤ n ∧ n + 1 ≤ o.countP (· ≤ x) := by
  obtain ⟨hn, hxe⟩ := List.getElem?_eq_some_iff.1 hx
  have hsplit : o = o.take n ++ x :: o.drop (n + 1) := by
    rw [← hxe, List.getElem_cons_drop, List.take_append_drop]
  have hlen : (o.take n).length = n := by rw [List.length_take]; omega
  have h1 : (o.drop (n + 1)).countP (· < x) = 0 := by
    rw [List.countP_eq_zero]
    intro y hy
    obtain ⟨i, hi⟩ := List.getElem?_of_mem hy
    rw [List.getElem?_drop] at hi
    simpa using hhi _ y (by omega) hi
  have h2 : (o.take n).countP (· ≤ x) = n := by
    refine Eq.trans (List.countP_eq_length.2 ?_) hlen
    intro y hy
    obtain ⟨i, hi⟩ := List.getElem?_of_mem hy
    have hin : i < n := by
      obtain ⟨h, -⟩ := List.getElem?_eq_some_iff.1 hi
      omega
    rw [List.getElem?_take_of_lt hin] at hi
    simpa using hlo i y hin hi
  rw [hsplit]
  simp only [List.countP_append, List.countP_cons, lt_irrefl, decide_false, le_refl, decide_true, if_true]
  rw [h1, h2]
  refine ⟨?_, by omega⟩
  have := List.countP_le_length (p := fun a => decide (a < x)) (l := o.take n)
  simp only [Bool.false_eq_true, if_false]
  omega

theorem rank_unique {β : Type} [LinearOrder β] (l : List β) (n : Nat) (x y : β) (hx1 : l.countP (· < x) ≤ n)
    (hx2 : n + 1 ≤ l.countP (· ≤ x)) (hy1 : l.countP (· < y) ≤ n) (hy2 : n + 1 ≤ l.countP (· ≤ y)) : x = y := by
  have key : ∀ a b : β, a < b → l.countP (· ≤ a) ≤ l.countP (· < b) := by
    intro a b hab
    refine List.countP_mono_left fun z _ hz => ?_
    simp only [decide_eq_true_eq] at hz ⊢
    exact lt_of_le_of_lt hz hab
  rcases lt_trichotomy x y with h | h | h
  · have := key x y h; omega
  · exact h
  · have := key y x h; omega

/-- `nth(rng, n, cmp)` for `n` less than the number of elements and every comparison `cmp` that is a strict weak order (given by a
key in a linear order; for the default `std::less` the key is the element), with every implementation of `std::nth_element` that
meets its contract: the result is an element of the range; at most `n` elements come before it, at least `n + 1` come not after
it, and its key stands at position `n` of the sorted keys. -/
theorem C33_nth {α β : Type} [LinearOrder β] (key : α → β) (ne : List α → Nat → List α)
    (hne : NthContract (fun a b => decide (key a < key b)) ne) (l : List α) (n : Nat) (h : n < l.length) :
    ∃ x, nth ne l n = .ok x ∧ x ∈ l ∧ l.countP (fun a => decide (key a < key x)) ≤ n ∧
      n + 1 ≤ l.countP (fun a => decide (key a ≤ key x)) ∧ ((l.map key).mergeSort (· ≤ ·))[n]? = some (key x) := by
  obtain ⟨x, hx⟩ : ∃ x, (ne l n)[n]? = some x := by
    have hp : (ne l n).Perm l := by
      obtain ⟨y, -⟩ := List.exists_mem_of_length_pos (by omega : 0 < l.length)
      exact (hne l n y h).1
    exact ⟨(ne l n)[n]'(by rw [hp.length_eq]; exact h), List.getElem?_eq_getElem _⟩
  obtain ⟨hp, hc⟩ := hne l n x h
  obtain ⟨hc1, hc2⟩ := hc hx
  have hcounts := counts_of_partition ((ne l n).map key) n (key x) (by rw [List.getElem?_map, hx]; rfl)
    (by
      intro i z hi hz
      rw [List.getElem?_map] at hz
      obtain ⟨y, hy, rfl⟩ := Option.map_eq_some_iff.1 hz
      have := hc1 i y hi hy
      simpa using this)
    (by
      intro i z hi hz
      rw [List.getElem?_map] at hz
      obtain ⟨y, hy, rfl⟩ := Option.map_eq_some_iff.1 hz
      have := hc2 i y hi hy
      simpa using this)
  have hpm : ((ne l n).map key).Perm (l.map key) := hp.map key
  rw [hpm.countP_eq, hpm.countP_eq] at hcounts
  have hlen : ((l.map key).mergeSort (· ≤ ·)).length = l.length := by simp
  obtain ⟨y, hy⟩ : ∃ y, ((l.map key).mergeSort (· ≤ ·))[n]? = some y :=
    ⟨_, List.getElem?_eq_getElem (by rw [hlen]; exact h)⟩
  have hsorted : ((l.map key).mergeSort (· ≤ ·)).Pairwise (fun a b => a ≤ b) := by
    have := List.pairwise_mergeSort (le := fun a b : β => decide (a ≤ b)) (by simpa using fun a b c => le_trans) (by simpa using le_total) (l.map key)
    simpa using this
  have hs := counts_of_partition _ n y hy
    (by
      intro i z hi hz
      obtain ⟨h1, e1⟩ := List.getElem?_eq_some_iff.1 hz
      obtain ⟨h2, e2⟩ := List.getElem?_eq_some_iff.1 hy
      rw [← e1, ← e2]
      exact List.pairwise_iff_getElem.1 hsorted _ _ h1 h2 hi)
    (by
      intro i z hi hz
      obtain ⟨h1, e1⟩ := List.getElem?_eq_some_iff.1 hz
      obtain ⟨h2, e2⟩ := List.getElem?_eq_some_iff.1 hy
      rw [← e1, ← e2]
      exact List.pairwise_iff_getElem.1 hsorted _ _ h2 h1 hi)
  have hsp := List.mergeSort_perm (l.map key) (fun a b => decide (a ≤ b))
  rw [hsp.countP_eq, hsp.countP_eq] at hs
  have hxy := rank_unique _ n (key x) y hcounts.1 hcounts.2 hs.1 hs.2
  refine ⟨x, ?_, hp.mem_iff.1 (List.mem_of_getElem? hx), ?_, ?_, by rw [hxy]; exact hy⟩
  · unfold nth; rw [if_pos h, hx]
  · have := hcounts.1; rwa [List.countP_map] at this
  · have := hcounts.2; rwa [List.countP_map] at this

/-- Beyond the last element nothing is checked, in any build: the behaviour is undefined. -/
theorem C33_nth_out_of_range {α : Type} (ne : List α → Nat → List α) (l : List α) (n : Nat) (h : l.length ≤ n) :
    nth ne l n = .error .ub := by
  unfold nth; rw [if_neg (by omega)]

/-- Sorting meets the contract of `nth_element`. -/
theorem C33_contract_satisfiable : NthContract (fun a b : Nat => decide (a < b)) (fun l _ => l.mergeSort (· ≤ ·)) := by
  intro l n x _
  refine ⟨List.mergeSort_perm _ _, fun hx => ?_⟩
  have hsorted : (l.mergeSort (· ≤ ·)).Pairwise (fun a b => a ≤ b) := by
    have := List.pairwise_mergeSort (le := fun a b : Nat => decide (a ≤ b)) (by simpa using fun a b c => le_trans) (by simpa using Nat.le_total) l
    simpa using this
  obtain ⟨h2, e2⟩ := List.getElem?_eq_some_iff.1 hx
  refine ⟨fun i y hi hy => ?_, fun i y hi hy => ?_⟩
  · obtain ⟨h1, e1⟩ := List.getElem?_eq_some_iff.1 hy
    have := List.pairwise_iff_getElem.1 hsorted _ _ h1 h2 hi
    rw [e1, e2] at this
    simpa using this
  · obtain ⟨h1, e1⟩ := List.getElem?_eq_some_iff.1 hy
    have := List.pairwise_iff_getElem.1 hsorted _ _ h2 h1 hi
    rw [e1, e2] at this
    simpa using this

example : nth (fun l _ => l.mergeSort (· ≤ ·)) [5, 1, 4, 1] 2 = .ok 4 := by
  simp [nth, List.mergeSort, List.MergeSort.Internal.splitInTwo, List.merge]

/-! ### The hypotheses hold in concrete cases -/

example := C30_which_max [3, 7, 1, 7] (by decide)
example := C30_which_min [(3 : WithTop Nat), 1, 7, 1] (by decide)
example := C31_order_insensitive [(1 : Rat), 2, 3] [2, 3, 1] (by decide) 0
example := C31_mean [(1 : Rat), 2, 4] (by decide)
example := C31_var (R := Rat) id [(1 : Rat), 2, 4] (by decide)
example := C31_mean_signed 32 [-7, 3, -2] (by decide) (by
  intro k h1 h2
  have : ∀ k ∈ List.range 4, 1 ≤ k → fitsS 32 ([-7, 3, -2].take k).sum = true := by decide
  exact this k (List.mem_range.2 (Nat.lt_succ_of_le h2)) h1)
example := C31_mean_signed_range_partial 32 [7, 3, -2] (by decide) (by decide) (by
  intro k h1 h2
  have : ∀ k ∈ List.range 4, 1 ≤ k → fitsS 32 ([7, 3, -2].take k).sum = true := by decide
  exact this k (List.mem_range.2 (Nat.lt_succ_of_le h2)) h1) (by decide)
example := C31_mean_range_negative 32 [-7, 3, -2] (by decide) (by decide) (by
  intro k h1 h2
  have : ∀ k ∈ List.range 4, 1 ≤ k → fitsS 32 ([-7, 3, -2].take k).sum = true := by decide
  exact this k (List.mem_range.2 (Nat.lt_succ_of_le h2)) h1) (by decide)
example := C31_unsigned [2 ^ 63, 2 ^ 63, 5] 1 (by decide)
example := C31_mean_unsigned [1, 2, 6] (by decide) (by decide) (by decide)
example := C33_nth (id : Nat → Nat) _ C33_contract_satisfiable [5, 1, 4, 1] 2 (by decide)
example := C33_nth_out_of_range (fun l _ => l.mergeSort (· ≤ ·)) [5, 1, 4, 1] 4 (by decide)

end Jules.Props

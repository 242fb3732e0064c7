import Verif.Lemmas.Refine
/-
Bounded slices: the evaluated extents select what the specification says.
-/
namespace Jules
open Spec

theorem take_map_range (f : Nat → α) (m n : Nat) :
    ((List.range n).map f).take m = (List.range (min m n)).map f := by
  rw [← List.map_take, List.take_range]

theorem filter_ge_range (s d : Nat) :
    ((List.range d).filter fun k => s ≤ k) = (List.range (d - s)).map (s + ·) := by
  induction d with
  | zero => simp
  | succ d ih =>
    rw [List.range_succ, List.filter_append, ih]
    by_cases h : s ≤ d
    · have : d + 1 - s = (d - s) + 1 := by omega
      rw [this, List.range_succ, List.map_append]
      simp [h]
    · have h1 : d + 1 - s = 0 := by omega
      have h2 : d - s = 0 := by omega
      simp [h, h1, h2]

theorem ceil_step {q t : Nat} (ht : 0 < t) :
    (q + t) / t = (q + (t - 1)) / t + (if q % t = 0 then 1 else 0) := by
  rw [Nat.add_div_right _ ht]
  have hq := Nat.div_add_mod q t
  have hm := Nat.mod_lt q ht
  split
  · next h =>
    have : (q + (t - 1)) / t = q / t := by
      have e : q + (t - 1) = (t - 1) + t * (q / t) := by omega
      rw [e, Nat.add_mul_div_left _ _ ht, Nat.div_eq_of_lt (by omega)]; omega
    omega
  · next h =>
    have : (q + (t - 1)) / t = q / t + 1 := by
      have e : q + (t - 1) = (q % t - 1) + t * (q / t + 1) := by rw [Nat.mul_add]; omega
      rw [e, Nat.add_mul_div_left _ _ ht, Nat.div_eq_of_lt (by omega)]; omega
    omega

theorem filter_stride_range (s d t : Nat) (ht : 0 < t) :
    ((List.range d).filter fun k => s ≤ k ∧ (k - s) % t = 0) =
      (List.range (if s < d then (d - s + (t - 1)) / t else 0)).map fun k => s + k * t := by
  induction d with
  | zero => simp
  | succ d ih =>
    rw [List.range_succ, List.filter_append, ih]
    by_cases h : s ≤ d
    · have hlt : s < d + 1 := by omega
      rw [if_pos hlt]
      have e1 : d + 1 - s + (t - 1) = (d - s) + t := by omega
      have e2 : (if s < d then (d - s + (t - 1)) / t else 0) = (d - s + (t - 1)) / t := by
        split
        · rfl
        · have : d - s = 0 := by omega
          rw [this, Nat.zero_add, Nat.div_eq_of_lt (by omega)]
      rw [e1, ceil_step ht, e2]
      by_cases hm : (d - s) % t = 0
      · rw [if_pos hm, List.range_succ, List.map_append]
        congr 1
        have : (d - s + (t - 1)) / t = (d - s) / t := by
          have hq := Nat.div_add_mod (d - s) t
          have e : d - s + (t - 1) = (t - 1) + t * ((d - s) / t) := by omega
          rw [e, Nat.add_mul_div_left _ _ ht, Nat.div_eq_of_lt (by omega)]; omega
        rw [this]
        have hq := Nat.div_add_mod (d - s) t
        have e3 : (d - s) / t * t = d - s := by rw [Nat.mul_comm]; omega
        have e4 : s + (d - s) = d := by omega
        simp [h, hm, e3, e4]
      · simp [hm]
    · have h1 : ¬ s < d + 1 := by omega
      have h2 : ¬ s < d := by omega
      simp [h, h1, h2]

theorem stridedCount_le (s d t : Nat) (ht : 0 < t) :
    stridedCount s d t ≤ if s < d then (d - s + (t - 1)) / t else 0 := by
  unfold stridedCount
  split
  · apply Nat.div_le_div_right
    split
    · omega
    · next h =>
      have : t ≠ 1 := by intro h1; subst h1; exact h (Nat.mod_one _)
      omega
  · exact Nat.le_refl _

theorem sel_slice (d s x : Nat) : Arg.sel (.slice s x 1) = sel d (.slice s x) := by
  simp [Arg.sel, sel]

theorem sel_strided (d s x t : Nat) : Arg.sel (.slice s x t) = sel d (.strided s x t) := rfl

theorem sel_every (d : Nat) : Arg.sel (.slice 0 d 1) = sel d .every := by
  simp [Arg.sel, sel]

theorem sel_bounded (d s m : Nat) : Arg.sel (.slice s (boundedExtent s m d) 1) = sel d (.bounded s m) := by
  simp only [Arg.sel, sel, Nat.mul_one, filter_ge_range, take_map_range, boundedExtent]
  congr 3
  split <;> omega

theorem sel_boundedStrided {d s m t x : Nat}
    (h : boundedStridedExtent Arith.exact s m t d = .ok x) :
    Arg.sel (.slice s x t) = sel d (.boundedStrided s m t) := by
  simp only [boundedStridedExtent, res_bind_ok, Except.ok.injEq] at h
  obtain ⟨c, h1, rfl⟩ := h
  by_cases hs : s < d
  · rw [if_pos hs] at h1
    simp only [seqSize, Arith.exact_add] at h1
    split at h1
    · cases h1
    · next ht =>
      have ht : 0 < t := by omega
      simp only [Except.ok.injEq] at h1
      have hc : c = stridedCount s d t := by rw [stridedCount, if_pos hs]; exact h1.symm
      have hle := stridedCount_le s d t ht
      rw [if_pos hs] at hle
      simp only [sel]
      rw [filter_stride_range s d t ht, take_map_range, if_pos hs, hc]
      have : min (min m (stridedCount s d t)) ((d - s + (t - 1)) / t) = min m (stridedCount s d t) := by
        omega
      rw [this]; rfl
  · rw [if_neg hs] at h1
    simp only [Except.ok.injEq] at h1
    subst h1
    have h0 : stridedCount s d t = 0 := by simp [stridedCount, hs]
    simp only [sel, Arg.sel, h0]
    simp

end Jules

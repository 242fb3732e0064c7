import Verif.Lemmas.Iterate
/-
C01 (column-major layout) and C02 (iteration of strided views).
-/
namespace Jules.Props
open Jules Spec

/-- **C01.** The memory position of a multi-index is `Σ_k i_k · Π_{j<k} e_j`. -/
theorem C01_position {e i : List Nat} (h : InB e i) :
    Desc.pos Arith.exact e i = cmSum e i := by
  rw [desc_pos_exact (inB_length h), cmPos_eq_sum (inB_length h)]

example : Desc.pos Arith.exact [3, 4, 2] [2, 1, 1] = cmSum [3, 4, 2] [2, 1, 1] := C01_position (by decide)

/-- **C01.** Positions of valid multi-indices are below `size()`. -/
theorem C01_in_range {e i : List Nat} (h : InB e i) :
    Desc.pos Arith.exact e i < prodL Arith.exact e := by
  rw [desc_pos_exact (inB_length h), prodL_exact]
  exact cmPos_lt h

example : Desc.pos Arith.exact [3, 4, 2] [2, 3, 1] < prodL Arith.exact [3, 4, 2] := C01_in_range (by decide)

/-- **C01.** Every position below `size()` is the position of exactly one multi-index. -/
theorem C01_bijection (e : List Nat) (n : Nat) (hn : n < prodL Arith.exact e) :
    ∃ i, (InB e i ∧ Desc.pos Arith.exact e i = n) ∧
      ∀ j, InB e j ∧ Desc.pos Arith.exact e j = n → j = i := by
  rw [prodL_exact] at hn
  refine ⟨unflatten e n, ⟨unflatten_inB hn, ?_⟩, ?_⟩
  · rw [desc_pos_exact (inB_length (unflatten_inB hn)), cmPos_unflatten hn]
  · rintro j ⟨hj, hjn⟩
    rw [desc_pos_exact (inB_length hj)] at hjn
    exact cmPos_inj hj (unflatten_inB hn) (by rw [hjn, cmPos_unflatten hn])

example := C01_bijection [3, 4, 2] 17 (by decide)

/-- **C01.** `size()` is the number of multi-indices. -/
theorem C01_size (e : List Nat) : prodL Arith.exact e = (multiIdx e).length := by
  rw [prodL_exact, multiIdx_length]

/-- **C01.** The `if constexpr` fast paths for orders one and two agree with the general loop, also
in wrap-around arithmetic. -/
theorem C01_fast_paths_agree (e i : List Nat) (hl : i.length = e.length)
    (hi : ∀ x ∈ i, x < W64) (he : ∀ x ∈ e, x < W64) :
    Desc.pos Arith.u64 e i = Desc.posLoop Arith.u64 e i 1 0 ∧
      Desc.pos Arith.exact e i = Desc.posLoop Arith.exact e i 1 0 := by
  unfold Desc.pos
  split
  · next a b =>
    have := hi b (by simp)
    simp [Desc.posLoop, Arith.u64, Nat.mod_eq_of_lt this]
  · next a b c d =>
    have h1 := hi c (by simp)
    have h2 := he a (by simp)
    simp [Desc.posLoop, Arith.u64, Nat.mod_eq_of_lt h1, Nat.mod_eq_of_lt h2]
  · exact ⟨rfl, rfl⟩

example : InB [3, 4, 2] [2, 1, 1] ∧ Desc.pos Arith.exact [3, 4, 2] [2, 1, 1] = 17 := by decide

/-- **C02.** Iterating a strided descriptor from `begin()` to `end()` terminates (within `size() + 1`
tests of the loop condition) and visits the positions of all multi-indices, in column-major order. -/
theorem C02_iteration (d : SDesc) (hrank : d.ext.length = d.strides.length) (hpos : d.ext ≠ [])
    (h1 : d.ext.length = 1 → ∀ t ∈ d.strides, 0 < t)
    (hN : d.ext.length ≠ 1 → ∀ x ∈ d.ext, x ≠ 0)
    (fuel : Nat) (hf : d.size Arith.exact < fuel) :
    d.positions Arith.exact fuel = .ok ((multiIdx d.ext).map (d.pos Arith.exact)) := by
  rw [sdesc_size_exact] at hf
  exact positions_spec ⟨hrank, hpos, h1, hN⟩ hf

example := C02_iteration ⟨5, [2, 3], [1, 4]⟩ rfl (by decide) (by decide) (by decide) 7 (by decide)

/-- **C02.** The enumeration contains each valid multi-index exactly once, and nothing else. -/
theorem C02_each_once (e : List Nat) :
    (multiIdx e).Nodup ∧ (∀ i, i ∈ multiIdx e ↔ InB e i) ∧
      (multiIdx e).length = prodL Arith.exact e :=
  ⟨multiIdx_nodup e, fun _ => mem_multiIdx, by rw [prodL_exact, multiIdx_length]⟩

example : (⟨5, [2, 3], [1, 4]⟩ : SDesc).positions Arith.exact 7 = .ok [5, 6, 9, 10, 13, 14] := by
  decide
example : (⟨5, [3], [2]⟩ : SDesc).positions Arith.exact 4 = .ok [5, 7, 9] := by decide
example : (⟨5, [0], [2]⟩ : SDesc).positions Arith.exact 1 = .ok [] := by decide

theorem incr_zero_keeps : ∀ {a b i i' : List Nat}, b ≠ [] → incr (a ++ 0 :: b) i = .ok i' →
    i'.drop a.length = i.drop a.length
  | [], [], _, _, h, _ => absurd rfl h
  | [], _ :: _, [], _, _, h => by simp [incr] at h
  | [], _ :: _, _ :: _, _, _, h => by simp [incr] at h
  | x :: a, b, [], _, hb, h => by cases a <;> simp [incr] at h
  | x :: a, b, k :: is, i', hb, h => by
    have hab : a ++ 0 :: b ≠ [] := by simp
    obtain ⟨y, ys, hys⟩ : ∃ y ys, a ++ 0 :: b = y :: ys := by
      cases hc : a ++ 0 :: b with
      | nil => exact absurd hc hab
      | cons y ys => exact ⟨y, ys, rfl⟩
    rw [List.cons_append, incr] at h
    · split at h
      · cases h
      · simp only at h
        split at h
        · cases h; simp
        · obtain ⟨r, h1, h2⟩ := res_bind_ok.1 h
          cases h2
          have := incr_zero_keeps hb h1
          simpa using this
    · simp

/-- **C02, excluded case.** If some extent other than the last is zero while the last is not, the
iteration never reaches its end: for every amount of fuel the loop does not finish normally
(`begin() != end()` although `size() == 0`; incrementing computes a remainder modulo zero). This is
why C02 requires non-zero extents for orders above one; checked builds refuse to build such views. -/
theorem C02_zero_inner_extent_never_ends (s : Nat) (a b ts : List Nat) (l : Nat) (hl : l ≠ 0)
    (fuel : Nat) (r : List Nat) :
    (⟨s, a ++ 0 :: (b ++ [l]), ts⟩ : SDesc).positions Arith.exact fuel ≠ .ok r := by
  have key : ∀ (fuel : Nat) (d : SDesc), d.ext = a ++ 0 :: (b ++ [l]) →
      ∀ (i r : List Nat), (∀ x ∈ i.drop a.length, x = 0) → iterGen Arith.exact d fuel i ≠ .ok r := by
    intro fuel d hd
    induction fuel with
    | zero => intro i r _ h; simp [iterGen] at h
    | succ n ih =>
      intro i r hi h
      unfold iterGen at h
      split at h
      · next heq =>
        have hlast : ∀ (q : List Nat), endIndex (q ++ [l]) = q.map (fun _ => 0) ++ [l] := by
          intro q
          induction q with
          | nil => rfl
          | cons x xs ih2 =>
            cases hx : xs ++ [l] with
            | nil => simp at hx
            | cons y ys =>
              have : endIndex (x :: (xs ++ [l])) = 0 :: endIndex (xs ++ [l]) := by rw [hx]; rfl
              simp [this, ih2]
        have e1 : a ++ 0 :: (b ++ [l]) = (a ++ 0 :: b) ++ [l] := by simp
        rw [hd, e1, hlast] at heq
        have : l ∈ i.drop a.length := by
          rw [heq]; simp
        exact hl (hi l this)
      · obtain ⟨i', h1, h2⟩ := res_bind_ok.1 h
        obtain ⟨r', h3, _⟩ := res_bind_ok.1 h2
        rw [hd] at h1
        exact ih i' r' (by rw [incr_zero_keeps (by simp) h1]; exact hi) h3
  unfold SDesc.positions
  split
  · next e t he ht => cases a <;> simp at he
  · next he => simp at he
  · refine key fuel _ rfl _ _ ?_
    intro x hx
    obtain ⟨y, _, rfl⟩ := List.mem_map.1 (List.mem_of_mem_drop hx)
    rfl

example : (⟨0, [0, 2], [1, 0]⟩ : SDesc).positions Arith.exact 5 = .error .ub := by decide

/-- **C02, excluded case.** A one-dimensional view with stride zero visits nothing, whatever its
length (checked builds refuse a zero stride). -/
theorem C02_zero_stride_visits_nothing (s e fuel : Nat) :
    (⟨s, [e], [0]⟩ : SDesc).positions Arith.exact (fuel + 1) = .ok [] := by
  simp [SDesc.positions, iterOne]

end Jules.Props

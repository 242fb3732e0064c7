import Verif.Model.Alloc
import Verif.Lemmas.Wrap
/-
C53 (allocation size) and C54 (relative slices).
-/
namespace Jules.Props
open Spec

/-! ### C53 -/

/-- `size()` of the array, computed in 64-bit arithmetic from the extents. -/
def reportedSize (dims : List TInt) : Nat := prodL Arith.u64 (dimsExtents dims)

/-- The type `index_t`. -/
def indexTy : IntTy := ⟨64, false⟩

theorem toIndex_cast (z : Int) : (((z % 2 ^ 64).toNat : Nat) : Int) = z % 2 ^ 64 := Int.toNat_of_nonneg (Int.emod_nonneg _ (by decide))

theorem common_index {s : IntTy} (hs : s.Ok) : s.common indexTy = indexTy := by
  obtain ⟨b, sg⟩ := s
  unfold IntTy.Ok at hs
  simp only at hs
  rcases hs with rfl | rfl | rfl | rfl <;> cases sg <;> decide

/-- **C53.** If the last extent is given as an `index_t` (whatever the types of the others), the number of elements allocated is
exactly the `size()` the array reports, also when the product exceeds 2^64. -/
theorem C53_index_extents (dims : List TInt) (last : TInt) (hok : ∀ d ∈ dims, d.ty.Ok) (hl : last.ty = indexTy) (hv : indexTy.holds last.val = true) :
    allocSize (dims ++ [last]) = .ok (reportedSize (dims ++ [last])) := by
  have key : ∀ dims : List TInt, (∀ d ∈ dims, d.ty.Ok) → ∃ r : TInt, prodArgs (dims ++ [last]) = .ok r ∧ r.ty = indexTy ∧
      r.val = ((prod (dimsExtents (dims ++ [last])) % W64 : Nat) : Int) := by
    intro dims
    induction dims with
    | nil =>
      intro _
      refine ⟨last, rfl, hl, ?_⟩
      have hv : 0 ≤ last.val ∧ last.val < 2 ^ 64 := by
        rw [IntTy.holds, if_neg (by decide), Bool.and_eq_true, decide_eq_true_eq] at hv
        exact ⟨hv.1, of_decide_eq_true hv.2⟩
      simp only [dimsExtents, List.nil_append, List.map_cons, List.map_nil, prod, Nat.mul_one, TInt.toIndex]
      rw [Int.natCast_emod, toIndex_cast]
      have h1 : last.val % 2 ^ 64 = last.val := Int.emod_eq_of_lt hv.1 hv.2
      rw [h1]
      exact h1.symm
    | cons d dims ih =>
      intro hok
      obtain ⟨r, h1, h2, h3⟩ := ih fun x hx => hok x (by simp [hx])
      have hc : d.ty.common r.ty = indexTy := by rw [h2]; exact common_index (hok d (by simp))
      refine ⟨⟨indexTy, indexTy.conv (indexTy.conv d.val * indexTy.conv r.val)⟩, ?_, rfl, ?_⟩
      · have hne : dims ++ [last] ≠ [] := by simp
        obtain ⟨x, xs, hx⟩ := List.exists_cons_of_ne_nil hne
        rw [List.cons_append, hx]
        unfold prodArgs
        rw [← hx, h1]
        simp only [res_ok_bind, TInt.mul, hc]
        rfl
      · simp only [IntTy.conv, indexTy, Bool.false_eq_true, if_false, h3, List.cons_append, dimsExtents, List.map_cons, prod]
        rw [Int.natCast_emod, Int.natCast_emod, Int.natCast_mul]
        simp only [TInt.toIndex]
        rw [toIndex_cast]
        show _ = _ % (2 ^ 64 : Int)
        rw [show ((W64 : Nat) : Int) = 2 ^ 64 from rfl, Int.emod_emod_of_dvd _ (Int.dvd_refl _), ← Int.mul_emod, Int.mul_emod (d.val % 2 ^ 64), Int.emod_emod_of_dvd _ (Int.dvd_refl _), ← Int.mul_emod]
  obtain ⟨r, h1, h2, h3⟩ := key dims hok
  unfold allocSize reportedSize prodL
  rw [h1, prodL_u64 _ 1 (by decide), Nat.one_mul]
  simp only [res_ok_bind, TInt.toIndex, h3]
  congr 1
  have : (((prod (dimsExtents (dims ++ [last])) % W64 : Nat) : Int) % 2 ^ 64) = ((prod (dimsExtents (dims ++ [last])) % W64 : Nat) : Int) :=
    Int.emod_eq_of_lt (Int.natCast_nonneg _) (by exact_mod_cast Nat.mod_lt _ (by decide))
  rw [this, Int.toNat_natCast]

example := C53_index_extents [⟨⟨32, true⟩, 3⟩, ⟨⟨8, false⟩, 200⟩] ⟨⟨64, false⟩, 5⟩ (by intro d hd; simp only [List.mem_cons, List.not_mem_nil, or_false] at hd; rcases hd with rfl | rfl <;> simp [IntTy.Ok]) rfl (by decide)

/-- The type in which the product of the arguments is computed. -/
def productTy : List TInt → IntTy
  | [] => indexTy
  | [a] => a.ty
  | a :: as => a.ty.common (productTy as)

/-- The exact product of the arguments. -/
def exactProduct (l : List TInt) : Int := (l.map TInt.val).foldr (· * ·) 1

theorem common_ok {s t : IntTy} (hs : s.Ok) (ht : t.Ok) : (s.common t).Ok := by
  obtain ⟨b, sg⟩ := s
  obtain ⟨c, tg⟩ := t
  unfold IntTy.Ok at hs ht
  simp only at hs ht
  rcases hs with rfl | rfl | rfl | rfl <;> rcases ht with rfl | rfl | rfl | rfl <;> simp [IntTy.common, IntTy.promote, IntTy.Ok]

/-- Non-negative values of a type are values of the common type. -/
theorem common_holds {s t : IntTy} (hs : s.Ok) (ht : t.Ok) (z : Int) (hz : 0 ≤ z) :
    (s.holds z = true → (s.common t).holds z = true) ∧ (t.holds z = true → (s.common t).holds z = true) := by
  obtain ⟨b, sg⟩ := s
  obtain ⟨c, tg⟩ := t
  unfold IntTy.Ok at hs ht
  simp only at hs ht
  rcases hs with rfl | rfl | rfl | rfl <;> rcases ht with rfl | rfl | rfl | rfl <;> cases sg <;> cases tg <;>
    simp [IntTy.common, IntTy.promote, IntTy.holds] <;> omega

theorem conv_holds {t : IntTy} {z : Int} (h : t.holds z = true) (h0 : 0 ≤ z) : t.conv z = z := by
  unfold IntTy.conv
  split
  · rfl
  · rename_i hs
    simp only [IntTy.holds, hs, Bool.false_eq_true, if_false, Bool.and_eq_true, decide_eq_true_eq] at h
    exact Int.emod_eq_of_lt h0 h.2

/-- C53 (the part that holds for every type of arguments): if the extents are not negative and the product of each suffix of the arguments is a value of the type
in which C++ computes it, the number of elements allocated is the product of the extents. Missing: products that leave the type of the
arguments, see `C53_small_types` and `C53_signed`. -/
theorem C53_allocation_partial (dims : List TInt) (hne : dims ≠ []) (hok : ∀ d ∈ dims, d.ty.Ok ∧ d.ty.holds d.val = true ∧ 0 ≤ d.val)
    (hfit : ∀ s, s ≠ [] → s <:+ dims → (productTy s).holds (exactProduct s) = true) :
    allocSize dims = .ok (prod (dimsExtents dims)) := by
  have hlt : ∀ {t : IntTy} {z : Int}, t.Ok → t.holds z = true → z < 2 ^ 64 := by
    intro t z ht h
    obtain ⟨b, sg⟩ := t
    unfold IntTy.Ok at ht
    simp only at ht
    rcases ht with rfl | rfl | rfl | rfl <;> cases sg <;> simp [IntTy.holds] at h <;> omega
  have key : ∀ dims : List TInt, dims ≠ [] → (∀ d ∈ dims, d.ty.Ok ∧ d.ty.holds d.val = true ∧ 0 ≤ d.val) →
      (∀ s, s ≠ [] → s <:+ dims → (productTy s).holds (exactProduct s) = true) →
      prodArgs dims = .ok ⟨productTy dims, exactProduct dims⟩ ∧ (productTy dims).Ok ∧ 0 ≤ exactProduct dims ∧
        exactProduct dims = (prod (dimsExtents dims) : Nat) := by
    intro dims
    induction dims with
    | nil => intro h; exact absurd rfl h
    | cons d dims ih =>
      intro _ hok hfit
      obtain ⟨d1, d2, d3⟩ := hok d (by simp)
      have hidx : ((d.toIndex : Nat) : Int) = d.val := by
        unfold TInt.toIndex
        rw [toIndex_cast]
        exact Int.emod_eq_of_lt d3 (hlt d1 d2)
      cases dims with
      | nil =>
        have he : exactProduct [d] = d.val := by simp [exactProduct]
        refine ⟨by unfold prodArgs; rw [he]; rfl, d1, by rw [he]; exact d3, ?_⟩
        rw [he]
        simp only [dimsExtents, List.map_cons, List.map_nil, prod, Nat.mul_one, hidx]
      | cons d' ds =>
        obtain ⟨i1, i2, i3, i4⟩ := ih (by simp) (fun x hx => hok x (by simp [hx])) (fun s hs hsuf => hfit s hs (hsuf.trans (List.suffix_cons _ _)))
        have hh := hfit (d' :: ds) (by simp) (List.suffix_cons _ _)
        have hf := hfit (d :: d' :: ds) (by simp) (List.suffix_refl _)
        have ht : productTy (d :: d' :: ds) = d.ty.common (productTy (d' :: ds)) := rfl
        have he : exactProduct (d :: d' :: ds) = d.val * exactProduct (d' :: ds) := rfl
        have h0 : 0 ≤ exactProduct (d :: d' :: ds) := by rw [he]; exact Int.mul_nonneg d3 i3
        refine ⟨?_, by rw [ht]; exact common_ok d1 i2, h0, ?_⟩
        · unfold prodArgs
          rw [i1]
          simp only [res_ok_bind, TInt.mul, ← ht]
          have c1 := conv_holds ((common_holds d1 i2 _ d3).1 d2) d3
          have c2 := conv_holds ((common_holds d1 i2 _ i3).2 hh) i3
          rw [← ht] at c1 c2
          rw [c1, c2, ← he, hf]
          simp only [if_true]
          split
          · rfl
          · rw [conv_holds hf h0]
        · rw [he, i4]
          show _ = ((prod (d.toIndex :: dimsExtents (d' :: ds)) : Nat) : Int)
          rw [prod, Int.natCast_mul, hidx]
  obtain ⟨k1, k2, k3, k4⟩ := key dims hne hok hfit
  unfold allocSize
  rw [k1]
  simp only [res_ok_bind, TInt.toIndex]
  have := hlt k2 (hfit dims hne (List.suffix_refl _))
  rw [Int.emod_eq_of_lt k3 this, k4, Int.toNat_natCast]

example := C53_allocation_partial [⟨⟨32, true⟩, 300⟩, ⟨⟨16, true⟩, 200⟩] (by decide)
  (by intro d hd; simp only [List.mem_cons, List.not_mem_nil, or_false] at hd; rcases hd with rfl | rfl <;> exact ⟨by simp [IntTy.Ok], by decide, by decide⟩)
  (by
    intro s h0 h1
    rw [List.suffix_cons_iff, List.suffix_cons_iff, List.suffix_nil] at h1
    rcases h1 with rfl | rfl | rfl
    · decide
    · decide
    · exact absurd rfl h0)

/-- C53 fails for smaller types: `matrix<T>(65536u, 65536u)` allocates nothing, but has 2^32 elements. -/
theorem C53_small_types : allocSize [⟨⟨32, false⟩, 65536⟩, ⟨⟨32, false⟩, 65536⟩] = .ok 0 ∧
    dimsExtents [⟨⟨32, false⟩, 65536⟩, ⟨⟨32, false⟩, 65536⟩] = [65536, 65536] ∧
    reportedSize [⟨⟨32, false⟩, 65536⟩, ⟨⟨32, false⟩, 65536⟩] = 2 ^ 32 := by decide +kernel

/-- C53 fails for `int`: `matrix<T>(65536, 65536)` is undefined behaviour; so is an array with extents `0, 65536, 65536`, which has
no elements. -/
theorem C53_signed : allocSize [⟨⟨32, true⟩, 65536⟩, ⟨⟨32, true⟩, 65536⟩] = .error .ub ∧
    allocSize [⟨⟨32, true⟩, 0⟩, ⟨⟨32, true⟩, 65536⟩, ⟨⟨32, true⟩, 65536⟩] = .error .ub ∧
    allocSize [⟨⟨16, false⟩, 65535⟩, ⟨⟨16, false⟩, 65535⟩] = .error .ub := by decide +kernel

/-- **C53.** The exact condition for extents all given as `int` (or all as `long`), not negative: the allocation is that of the product of the extents if the
product of every suffix of the arguments is a value of the type, and undefined otherwise. -/
theorem C53_signed_exact {b : Nat} (hb : b = 32 ∨ b = 64) (ds : List Nat) (hne : ds ≠ []) (hv : ∀ d ∈ ds, d < 2 ^ (b - 1)) :
    ((∀ s, s <:+ ds → prod s < 2 ^ (b - 1)) → allocSize (ds.map fun (d : Nat) => ⟨⟨b, true⟩, (d : Int)⟩) = .ok (prod ds)) ∧
      ((∃ s, s <:+ ds ∧ 2 ^ (b - 1) ≤ prod s) → allocSize (ds.map fun (d : Nat) => ⟨⟨b, true⟩, (d : Int)⟩) = .error .ub) := by
  have hc : (⟨b, true⟩ : IntTy).common ⟨b, true⟩ = ⟨b, true⟩ := by rcases hb with rfl | rfl <;> rfl
  have h1 : 1 < 2 ^ (b - 1) := by rcases hb with rfl | rfl <;> decide
  have hmul : ∀ x y : Nat, (⟨⟨b, true⟩, (x : Int)⟩ : TInt).mul ⟨⟨b, true⟩, (y : Int)⟩ =
      if x * y < 2 ^ (b - 1) then .ok ⟨⟨b, true⟩, ((x * y : Nat) : Int)⟩ else .error .ub := by
    intro x y
    have hp : (-2 ^ (b - 1) : Int) ≤ ((x * y : Nat) : Int) := by
      have : (0 : Int) ≤ ((x * y : Nat) : Int) := Int.natCast_nonneg _
      have h2 : (0 : Int) ≤ 2 ^ (b - 1) := by rcases hb with rfl | rfl <;> decide
      omega
    have hq : (((x * y : Nat) : Int) < 2 ^ (b - 1)) ↔ x * y < 2 ^ (b - 1) := by
      rw [← Int.ofNat_lt]; push_cast; exact Iff.rfl
    simp only [TInt.mul, hc, IntTy.conv, if_true, IntTy.holds, ← Int.natCast_mul, hp, decide_true, Bool.true_and, decide_eq_true_eq, hq]
  have key : ∀ ds : List Nat, ds ≠ [] → (∀ d ∈ ds, d < 2 ^ (b - 1)) →
      ((∀ s, s <:+ ds → prod s < 2 ^ (b - 1)) → prodArgs (ds.map fun (d : Nat) => (⟨⟨b, true⟩, (d : Int)⟩ : TInt)) = .ok ⟨⟨b, true⟩, ((prod ds : Nat) : Int)⟩) ∧
      ((∃ s, s <:+ ds ∧ 2 ^ (b - 1) ≤ prod s) → prodArgs (ds.map fun (d : Nat) => (⟨⟨b, true⟩, (d : Int)⟩ : TInt)) = .error .ub) := by
    intro ds
    induction ds with
    | nil => intro h; exact absurd rfl h
    | cons d ds ih =>
      intro _ hv
      cases ds with
      | nil =>
        refine ⟨fun _ => by simp [prodArgs, prod], ?_⟩
        rintro ⟨s, hs, hle⟩
        rw [List.suffix_cons_iff, List.suffix_nil] at hs
        rcases hs with rfl | rfl
        · have := hv d (by simp)
          simp [prod] at hle
          omega
        · simp [prod] at hle
          omega
      | cons d' ds' =>
        obtain ⟨i1, i2⟩ := ih (by simp) (fun x hx => hv x (by simp [hx]))
        constructor
        · intro h
          have hr := i1 fun s hs => h s (hs.trans (List.suffix_cons _ _))
          have hd := h _ (List.suffix_refl _)
          rw [List.map_cons] at hr ⊢
          rw [List.map_cons]
          unfold prodArgs
          rw [hr]
          simp only [res_ok_bind]
          rw [hmul, if_pos (by simpa [prod] using hd)]
          simp [prod]
        · rintro ⟨s, hs, hle⟩
          by_cases hall : ∀ s, s <:+ (d' :: ds') → prod s < 2 ^ (b - 1)
          · have hr := i1 hall
            have hs' : s = d :: d' :: ds' := by
              rw [List.suffix_cons_iff] at hs
              rcases hs with h | h
              · exact h
              · exact absurd (hall s h) (by omega)
            subst hs'
            rw [List.map_cons] at hr ⊢
            rw [List.map_cons]
            unfold prodArgs
            rw [hr]
            simp only [res_ok_bind]
            rw [hmul, if_neg (by have h : prod (d :: d' :: ds') = d * prod (d' :: ds') := rfl; omega)]
          · have hr := i2 (by
              by_contra hn
              exact hall fun s hs => Nat.lt_of_not_le fun hle => hn ⟨s, hs, hle⟩)
            rw [List.map_cons] at hr ⊢
            rw [List.map_cons]
            unfold prodArgs
            rw [hr]
            rfl
  obtain ⟨k1, k2⟩ := key ds hne hv
  refine ⟨fun h => ?_, fun h => ?_⟩
  · unfold allocSize
    rw [k1 h]
    have hp := h ds (List.suffix_refl _)
    simp only [res_ok_bind, TInt.toIndex]
    have h64 : (2 : Nat) ^ (b - 1) < 2 ^ 64 := by rcases hb with rfl | rfl <;> decide
    rw [Int.emod_eq_of_lt (Int.natCast_nonneg _) (by have := Nat.lt_trans hp h64; rw [← Int.ofNat_lt] at this; simpa using this), Int.toNat_natCast]
  · unfold allocSize
    rw [k2 h]; rfl

/-- The first product that does not fit: 2^31 elements. -/
example := (C53_signed_exact (b := 32) (.inl rfl) [2 ^ 16, 2 ^ 15] (by decide) (by decide)).2 ⟨_, List.suffix_refl _, by decide⟩
example := (C53_signed_exact (b := 32) (.inl rfl) [2, 2 ^ 30 - 1] (by decide) (by decide)).1 (by
  intro s h
  rw [List.suffix_cons_iff, List.suffix_cons_iff, List.suffix_nil] at h
  rcases h with rfl | rfl | rfl <;> decide)

example : allocSize [⟨⟨32, true⟩, 3⟩, ⟨⟨8, false⟩, 200⟩, ⟨⟨64, false⟩, 5⟩] = .ok 3000 := by decide +kernel

/-! ### C54 -/

/-- What a relative extent means in a dimension of size `d`, if it makes sense: no subtraction below zero, no division by zero. -/
def relMeaning : RelIdx → Nat → Option Nat
  | .size, d => some d
  | .sub e k, d => (relMeaning e d).bind fun x => if k ≤ x then some (x - k) else none
  | .div e k, d => (relMeaning e d).bind fun x => if k = 0 then none else some (x / k)

/-- **C54**, the part that holds: a relative extent that makes sense for the dimension is evaluated to its meaning, however nested. Missing: those
that do not make sense are not reported, see `C54_negative`, `C54_accepted`. -/
theorem C54_meaning_partial (x : RelIdx) (d v : Nat) (h : relMeaning x d = some v) (start stride : Nat) :
    evalRelative start x stride d = .ok (start, v, stride) ∧ v ≤ d := by
  suffices x.eval d = .ok v ∧ v ≤ d by
    unfold evalRelative
    rw [this.1]
    exact ⟨rfl, this.2⟩
  induction x generalizing v with
  | size => cases h; exact ⟨rfl, Nat.le_refl _⟩
  | sub e k ih =>
    simp only [relMeaning, Option.bind_eq_some_iff] at h
    obtain ⟨y, hy, h⟩ := h
    obtain ⟨h1, h2⟩ := ih y hy
    split at h
    · rename_i hk
      cases h
      refine ⟨?_, by omega⟩
      unfold RelIdx.eval
      rw [h1]
      simp [usub, hk]
    · cases h
  | div e k ih =>
    simp only [relMeaning, Option.bind_eq_some_iff] at h
    obtain ⟨y, hy, h⟩ := h
    obtain ⟨h1, h2⟩ := ih y hy
    split at h
    · cases h
    · rename_i hk
      cases h
      refine ⟨?_, Nat.le_trans (Nat.div_le_self _ _) h2⟩
      unfold RelIdx.eval
      rw [h1]
      simp only [res_ok_bind, if_neg hk]

example := C54_meaning_partial (((RelIdx.size.sub 2).div 3).sub 1) 14 3 (by decide) 2 1

/-- C54: in particular `size`, `size - k` and `size / k`. -/
theorem C54_examples_partial (d k : Nat) : RelIdx.size.eval d = .ok d ∧ (k ≤ d → (RelIdx.size.sub k).eval d = .ok (d - k)) ∧
    (k ≠ 0 → (RelIdx.size.div k).eval d = .ok (d / k)) ∧ (RelIdx.size.div 0).eval d = .error .ub := by
  refine ⟨rfl, fun h => ?_, fun h => ?_, rfl⟩
  · simp [RelIdx.eval, usub, h]
  · simp [RelIdx.eval, h]

/-- C54 fails for `k > d`: the extent is a huge number, without a report. -/
theorem C54_negative (d k : Nat) (hd : d < k) (hk : k < 2 ^ 63) : ∃ x, (RelIdx.size.sub k).eval d = .ok x ∧ d < x ∧ 2 ^ 63 < x := by
  refine ⟨d + W64 - k, ?_, ?_, ?_⟩
  · simp [RelIdx.eval, usub, Nat.not_le.2 hd]
  · have : W64 = 2 ^ 64 := rfl
    omega
  · have : W64 = 2 ^ 64 := rfl
    omega

example := C54_negative 3 5 (by decide) (by decide)

/-- Moreover the huge extent can pass the bounds check of a vector, in a checked build: on a vector of 3, `slice(5, size - 5)` gives a view
with 2^64 - 2 elements. -/
theorem C54_accepted : ∃ x, (RelIdx.size.sub 5).eval 3 = .ok x ∧ x = 2 ^ 64 - 2 ∧
    (Obj.cref 0 [3]).index Arith.u64 true (.slice 5 x) = .ok (.cref 5 [x]) := ⟨_, rfl, by decide +kernel, by decide +kernel⟩

example : (((RelIdx.size.sub 2).div 3).sub 1).eval 14 = .ok 3 := by decide +kernel

end Jules.Props

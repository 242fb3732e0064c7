import Verif.Lemmas.LevelsSame
import Verif.Props.SafeBlocks
/-
C89: the debug levels (`-DJULES_DEBUG_LEVEL=n`). `active n` are the assertions compiled in at level `n`. The arithmetic is that of unbounded numbers or
that of the machine (`A.throws = false`: not `JULES_DEBUG_THROWS`, which always has the maximal level).
-/
namespace Jules.Props

open Spec

variable {α β : Type} {A : Arith} {nx : Bool} {T : Nat → Bool} {alloc : Nat → List (Nat × Nat) → Nat → Option Nat} {W : BWorld α} {S : MStore α} {lost : List Nat}

/-- **C89.** Raising the level changes nothing but this: the program may end with a failed assertion. At level `b` the program fails an assertion, or does exactly what
it does at the lower level `a`: same result, same exceptions, same memory, same undefined behaviour. -/
theorem C89_levels (hA : A.throws = false) {a b : Nat} (h : a ≤ b) (p : Body α β) :
    W.execL A (active b) nx T alloc p = .error .assert ∨ W.execL A (active b) nx T alloc p = W.execL A (active a) nx T alloc p :=
  execL_tight hA (fun l _ _ hl => by simp only [active, decide_eq_true_eq] at hl ⊢; omega) p W

/-- **C89.** A failed assertion is not hidden by raising the level. -/
theorem C89_kept (hA : A.throws = false) {a b : Nat} (h : a ≤ b) (p : Body α β) (he : W.execL A (active a) nx T alloc p = .error .assert) :
    W.execL A (active b) nx T alloc p = .error .assert := by
  rcases C89_levels (W := W) (T := T) (nx := nx) (alloc := alloc) hA h p with h | h
  · exact h
  · rw [h, he]

/-- **C89.** A program that fails no assertion at some level does the same at every lower level. -/
theorem C89_lower (hA : A.throws = false) {a b : Nat} (h : a ≤ b) (p : Body α β) (he : W.execL A (active b) nx T alloc p ≠ .error .assert) :
    W.execL A (active a) nx T alloc p = W.execL A (active b) nx T alloc p := by
  rcases C89_levels (W := W) (T := T) (nx := nx) (alloc := alloc) hA h p with h | h
  · exact absurd h he
  · exact h.symm

/-- **C89.** From level 3 on, all assertions are there; at level 0 (`NDEBUG`) there are none. -/
theorem C89_ends (hA : A.throws = false) (p : Body α β) :
    (∀ n, 3 ≤ n → W.execL A (active n) nx T alloc p = W.exec A true nx T alloc p) ∧
    W.execL A (active 0) nx T alloc p = W.exec A false nx T alloc p :=
  ⟨fun n hn => execL_full hA (fun l _ hl => by simp only [active, decide_eq_true_eq]; omega) p W,
    execL_none hA (fun l h0 _ => by simp only [active, decide_eq_false_iff_not]; omega) p W⟩

/-- **C89.** At level 0 no assertion fails. -/
theorem C89_zero (hA : A.throws = false) (p : Body α β) (n : Nat) : W.execL A (active 0) nx T alloc p = W.execL A (active n) nx T alloc p ∨
    W.execL A (active n) nx T alloc p = .error .assert := by
  rcases C89_levels (W := W) (T := T) (nx := nx) (alloc := alloc) hA (Nat.zero_le n) p with h | h
  · exact .inr h
  · exact .inl h.symm

/-- **C89.** Legal programs (C86) do the same at every level. -/
theorem C89_legal [Nonempty α] {p : Body α β} (hp : LegalAny nx (MayFail T alloc) S p) (H : BHolds W S lost) (hW : W.scopes ≠ []) (hal : GoodBlocks alloc) (n : Nat) :
    W.execL Arith.exact (active n) nx T alloc p = W.exec Arith.exact true nx T alloc p := by
  have h3 := (C89_ends (W := W) (nx := nx) (T := T) (alloc := alloc) (A := Arith.exact) rfl p).1 (max n 3) (by omega)
  have hne : W.execL Arith.exact (active (max n 3)) nx T alloc p ≠ .error .assert := by
    rw [h3]
    rcases C86_run hp H hW true hal with ⟨W', r, S', lost', k, he, _⟩ | ⟨_, he, _⟩ <;> rw [he] <;> simp
  rw [← h3]
  exact C89_lower rfl (by omega) p hne

/-- **C89.** What legal programs do at any level. -/
theorem C89_run [Nonempty α] {p : Body α β} (hp : LegalAny nx (MayFail T alloc) S p) (H : BHolds W S lost) (hW : W.scopes ≠ []) (hal : GoodBlocks alloc) (n : Nat) :
    (∃ W' r S' lost' k, W.execL Arith.exact (active n) nx T alloc p = .ok (W', r) ∧ May nx (MayFail T alloc) S p S' (fate r) k ∧ BHolds W' S' lost' ∧
      lost'.length = lost.length + k) ∨
    (nx = true ∧ W.execL Arith.exact (active n) nx T alloc p = .error .terminate ∧ ∃ S' k, May nx (MayFail T alloc) S p S' .aborted k) := by
  rw [C89_legal hp H hW hal n]
  exact C86_run hp H hW true hal

/-- **C89.** Programs that compile, give the values they declare and do not use what they have moved from (C87) have no undefined behaviour at level 3 and above. -/
theorem C89_safe [Nonempty α] {p : Body α β} (hc : CompilesB (fun _ => True) (fun _ => none) p) (hp : ProvidedB p) (hd : NoUseGone (fun _ => False) p)
    (hal : GoodBlocks alloc) {n : Nat} (hn : 3 ≤ n) : BWorld.mainL Arith.exact (active n) nx T alloc p ≠ .error .ub := by
  have : BWorld.mainL Arith.exact (active n) nx T alloc p = BWorld.main Arith.exact true nx T alloc p := (C89_ends rfl _).1 n hn
  rw [this]
  exact C87_safe hc hp hd hal

/-- **C89.** And whatever they do at a lower level without undefined behaviour and without a result that the assertions reject is what they do at level 3. -/
theorem C89_outcome [Nonempty α] {p : Body α β} (hc : CompilesB (fun _ => True) (fun _ => none) p) (hp : ProvidedB p) (hd : NoUseGone (fun _ => False) p)
    (hal : GoodBlocks alloc) (n : Nat) : BWorld.mainL Arith.exact (active 3) nx T alloc p = .error .assert ∨
    (BWorld.mainL Arith.exact (active n) nx T alloc p = BWorld.mainL Arith.exact (active 3) nx T alloc p ∧ BWorld.mainL Arith.exact (active n) nx T alloc p ≠ .error .ub) := by
  by_cases h : BWorld.mainL Arith.exact (active 3) nx T alloc p = .error .assert
  · exact .inl h
  · right
    have e : BWorld.mainL Arith.exact (active n) nx T alloc p = BWorld.mainL Arith.exact (active 3) nx T alloc p := by
      rcases Nat.le_total n 3 with hn | hn
      · exact C89_lower rfl hn _ h
      · exact ((C89_ends rfl _).1 n hn).trans ((C89_ends rfl _).1 3 (Nat.le_refl 3)).symm
    exact ⟨e, by rw [e]; exact C89_safe hc hp hd hal (Nat.le_refl 3)⟩

/-! ### What each level adds -/

/-- `auto a = {1, 2, 3, 4}; auto b = {8, 9}; b[slice(0, 2)] = a; return b;` -/
def exLevel1 : Body Nat (List Nat) :=
  .exec (.calm (.old (.makeFrom 0 [1, 2, 3, 4] [4]))) <| .exec (.calm (.old (.makeFrom 1 [8, 9] [2]))) <|
  .exec (.calm (.old (.assign 1 [.slice 0 2] (.arr 0 [])))) <| .elements (.arr 1 []) fun _ xs => .ret xs

/-- `auto a = {1, 2, 3, 4}; return a[strided_slice(1, 2, 0)];` -/
def exLevel2 : Body Nat (List Nat) :=
  .exec (.calm (.old (.makeFrom 0 [1, 2, 3, 4] [4]))) <| .elements (.arr 0 [.strided 1 2 0]) fun _ xs => .ret xs

/-- **C89.** Each level adds something: an assignment of too many elements is reported at level 1 only after it has been done (at level 0 it is silently accepted); a
stride of zero (the view of two elements then visits none) is reported from level 2 on; an index that does not exist from level 3 on, and it is undefined behaviour below. -/
theorem C89_strict :
    (BWorld.mainL Arith.exact (active 0) false (fun _ => false) exBlocks exLevel1).map exSee = .ok (some [1, 2], 0, []) ∧
    (BWorld.mainL Arith.exact (active 1) false (fun _ => false) exBlocks exLevel1).map exSee = .error .assert ∧
    (BWorld.mainL Arith.exact (active 1) false (fun _ => false) exBlocks exLevel2).map exSee = .ok (some [], 0, []) ∧
    (BWorld.mainL Arith.exact (active 2) false (fun _ => false) exBlocks exLevel2).map exSee = .error .assert ∧
    (BWorld.mainL Arith.exact (active 2) false (fun _ => false) exBlocks (exIndexed 3)).map exSee = .error .ub ∧
    (BWorld.mainL Arith.exact (active 3) false (fun _ => false) exBlocks (exIndexed 3)).map exSee = .error .assert := by
  refine ⟨?_, ?_, ?_, ?_, ?_, ?_⟩ <;> decide +kernel

/-- `auto a = {1, 2}; auto b = {7, 8, 9}; b[every] = a; return b;` -/
def exShort : Body Nat (List Nat) :=
  .exec (.calm (.old (.makeFrom 0 [1, 2] [2]))) <| .exec (.calm (.old (.makeFrom 1 [7, 8, 9] [3]))) <|
  .exec (.calm (.old (.assign 1 [.every] (.arr 0 [])))) <| .elements (.arr 1 []) fun _ xs => .ret xs

/-- **C89.** The assertion of level 1 comes too late for an assignment of too few elements: undefined below level 3. -/
theorem C89_short : (∀ n, n < 3 → (BWorld.mainL Arith.exact (active n) false (fun _ => false) exBlocks exShort).map exSee = .error .ub) ∧
    (BWorld.mainL Arith.exact (active 3) false (fun _ => false) exBlocks exShort).map exSee = .error .assert := by
  refine ⟨fun n hn => ?_, by decide +kernel⟩
  match n, hn with
  | 0, _ => decide +kernel
  | 1, _ => decide +kernel
  | 2, _ => decide +kernel

/-! ### Which violations are reported at which level -/

/-- What is wrong with an index or a slice for a dimension of `e` elements, seen from level `n`: strides and extents of zero are reported from level 2 on, what lies outside
the array from level 3 on. -/
def Reported (n e : Nat) : Arg → Prop
  | .idx i => 3 ≤ n ∧ e ≤ i
  | .slice s x t => (2 ≤ n ∧ (t = 0 ∨ x = 0)) ∨ (3 ≤ n ∧ e ≤ s + (x - 1) * t)
  | .rng l => 3 ≤ n ∧ ∃ i ∈ l, e ≤ i

theorem active_iff {n l : Nat} : active n l = true ↔ l ≤ n := by simp [active]

theorem dbg_bind_assert {n l : Nat} {c : Bool} {r : Res β} : (dbg (active n l) c >>= fun _ => r) = .error .assert ↔ (l ≤ n ∧ c = false) ∨ r = .error .assert := by
  by_cases h : l ≤ n
  · cases c <;> simp [dbg, active, h]
  · simp [dbg, active, h]

theorem bind_ok_assert {γ : Type} {r : Res γ} {f : γ → β} : (r >>= fun b => (.ok (f b) : Res β)) = .error .assert ↔ r = .error .assert := by
  cases r <;> simp [bind, Except.bind]

/-- **C89.** `a[i₁][i₂]…` with one index or slice per dimension: an assertion fails exactly if one of them is wrong in a way reported at this level. -/
theorem C89_slicing (n off s : Nat) {ext ts : List Nat} {args : List Arg} (ht : ts.length = ext.length) (ha : args.length = ext.length) (hd : args.all Arg.isDefault = true) :
    arraySliceL Arith.exact (active n) off (.ident ⟨s, ext, ts⟩) args = .error .assert ↔
      ∃ k : Nat, ∃ a e, args[k]? = some a ∧ ext[k]? = some e ∧ Reported n e a := by
  have key : ∀ (args : List Arg) (s : Nat) (ext ts : List Nat), ts.length = ext.length → args.length = ext.length → args.all Arg.isDefault = true →
      (doSliceL Arith.exact (active n) s ext ts args = .error .assert ↔ ∃ k : Nat, ∃ a e, args[k]? = some a ∧ ext[k]? = some e ∧ Reported n e a) := by
    intro args
    induction args with
    | nil =>
      intro s ext ts ht ha _
      obtain rfl := List.length_eq_zero_iff.1 (by simpa using ha.symm)
      obtain rfl := List.length_eq_zero_iff.1 (by simpa using ht)
      simp [doSliceL]
    | cons a as ih =>
      intro s ext ts ht ha hd
      obtain ⟨e, es, rfl⟩ := List.exists_cons_of_length_pos (l := ext) (by rw [← ha]; simp)
      obtain ⟨t, ts, rfl⟩ := List.exists_cons_of_length_pos (l := ts) (by rw [ht]; simp)
      have split : (∃ k : Nat, ∃ a' e', (a :: as)[k]? = some a' ∧ (e :: es)[k]? = some e' ∧ Reported n e' a') ↔
          Reported n e a ∨ ∃ k : Nat, ∃ a' e', as[k]? = some a' ∧ es[k]? = some e' ∧ Reported n e' a' := by
        constructor
        · rintro ⟨k, a', e', h1, h2, h3⟩
          cases k with
          | zero => simp only [List.getElem?_cons_zero, Option.some.injEq] at h1 h2; subst h1; subst h2; exact .inl h3
          | succ k => exact .inr ⟨k, a', e', by simpa using h1, by simpa using h2, h3⟩
        · rintro (h | ⟨k, a', e', h1, h2, h3⟩)
          · exact ⟨0, a, e, rfl, rfl, h⟩
          · exact ⟨k + 1, a', e', by simpa using h1, by simpa using h2, h3⟩
      rw [split]
      simp only [List.length_cons, Nat.add_right_cancel_iff] at ht ha
      simp only [List.all_cons, Bool.and_eq_true] at hd
      cases a with
      | rng l => simp [Arg.isDefault] at hd
      | idx i =>
        rw [doSliceL, dbg_bind_assert, bind_ok_assert, ih _ _ _ ht ha hd.2]
        simp only [Reported, decide_eq_false_iff_not, Nat.not_lt]
      | slice a x d =>
        rw [doSliceL, dbg_bind_assert, dbg_bind_assert, dbg_bind_assert, bind_ok_assert, ih _ _ _ ht ha hd.2]
        simp only [Reported, decide_eq_false_iff_not, Nat.not_lt, Nat.le_zero_eq, ← or_assoc]
        refine or_congr ?_ Iff.rfl
        by_cases hx : x = 0
        · subst hx
          constructor
          · rintro ((⟨h, h'⟩ | ⟨h, _⟩) | ⟨h, _⟩)
            · exact .inl ⟨h, .inl h'⟩
            · exact .inl ⟨h, .inr rfl⟩
            · exact .inl ⟨by omega, .inr rfl⟩
          · rintro (⟨h, _⟩ | ⟨h, _⟩)
            · exact .inl (.inr ⟨h, rfl⟩)
            · exact .inl (.inr ⟨by omega, rfl⟩)
        · have hu : usub x 1 = x - 1 := by unfold usub; split <;> omega
          simp only [hu, hx, and_false, or_false, Arith.exact]
  have hL : ∀ r : Res (Nat × List Nat × List Nat), (r >>= fun y => (.ok ⟨y.1, y.2.1, y.2.2⟩ : Res SDesc)) = .error .assert ↔ r = .error .assert :=
    fun r => bind_ok_assert
  have e : arraySliceL Arith.exact (active n) off (.ident ⟨s, ext, ts⟩) args =
      (defaultSlicingL Arith.exact (active n) ⟨s, ext, ts⟩ args >>= fun d => .ok (.sref off (.ident d))) := by
    simp only [arraySliceL, hd, if_true]; rfl
  rw [e, bind_ok_assert]
  exact (hL _).trans (key args s ext ts ht ha hd)

/-- **C89.** One index of a one-dimensional array or view of `e` elements. -/
theorem C89_index (n off s e t i : Nat) :
    ((Obj.cref off [e]).indexL Arith.exact (active n) (.at i) = .error .assert ↔ Reported n e (.idx i)) ∧
    ((Obj.sref off (.ident ⟨s, [e], [t]⟩)).indexL Arith.exact (active n) (.at i) = .error .assert ↔ Reported n e (.idx i)) := by
  constructor
  · simp only [Obj.indexL, crefIndexL, dbg_bind_assert, Reported]
    simp
  · simp only [Obj.indexL, srefIndexL, arrayAtIdxL, dbg_bind_assert, Reported]
    simp [Mapper.desc, Mapper.mapL]

/-- **C89.** A list of indices for a one-dimensional array of `e` elements. -/
theorem C89_list (n off e : Nat) (l : List Nat) (he : 0 < e) :
    (Obj.cref off [e]).indexL Arith.exact (active n) (.rng l) = .error .assert ↔ Reported n e (.rng l) := by
  have hm : ∀ l : List Nat, e ≤ maxIdx l ↔ ∃ i ∈ l, e ≤ i := by
    intro l
    have := maxIdx_lt (l := l) (n := e)
    constructor
    · intro h
      by_contra hc
      have : maxIdx l < e := this.2 ⟨he, fun i hi => Nat.lt_of_not_le fun hei => hc ⟨i, hi, hei⟩⟩
      omega
    · rintro ⟨i, hi, h⟩
      exact Nat.le_trans h (maxIdx_le i hi)
  simp only [Obj.indexL, crefIndexL, Reported, ← hm]
  simp only [List.length_singleton, if_true, dbg_bind_assert]
  have : (Mapper.mkVecL Arith.exact (active n) [l.length] l >>= fun m => (.ok (Obj.sref off m) : Res Obj)) ≠ .error .assert := by
    simp [Mapper.mkVecL, SDesc.mkL, SDesc.size]
  have hd : decide (maxIdx l < [e].headD 0) = false ↔ e ≤ maxIdx l := by simp
  exact ⟨fun h => (h.resolve_right this).imp id hd.1, fun h => .inl ⟨h.1, hd.2 h.2⟩⟩

/-- **C89.** A slice of a one-dimensional array of `e` elements, not empty. -/
theorem C89_slice (n off e a x : Nat) (hx : 0 < x) :
    (Obj.cref off [e]).indexL Arith.exact (active n) (.slice a x) = .error .assert ↔ Reported n e (.slice a x 1) := by
  simp only [Obj.indexL, crefIndexL, arrayAtSliceCL, dbg_bind_assert, Reported, decide_eq_false_iff_not, Nat.not_lt]
  have hu : usub (a + x) 1 = a + (x - 1) := by unfold usub; split <;> omega
  simp only [Arith.exact_add, hu, reduceCtorEq, or_false, Nat.mul_one]
  have h1 : ¬x = 0 := by omega
  simp [h1]

/-- **C89.** The last index of `a[every]…[every][i]`, and a slice there, `e` being the last extent. -/
theorem C89_last (n off : Nat) (es : List Nat) (e i a x : Nat) (hx : 0 < x) :
    ((Obj.everyProxy off (es ++ [e]) es.length).indexL Arith.exact (active n) (.at i) = .error .assert ↔ Reported n e (.idx i)) ∧
    ((Obj.everyProxy off (es ++ [e]) es.length).indexL Arith.exact (active n) (.slice a x) = .error .assert ↔ Reported n e (.slice a x 1)) := by
  have hl : (es ++ [e]).getD es.length 0 = e := by simp
  have hN : es.length = (es ++ [e]).length - 1 := by simp
  have hif : ∀ (o : Obj) (c : Prop) [Decidable c], (if c then (.error .ub : Res Obj) else .ok o) ≠ .error .assert := by
    intro o c _; split <;> simp
  have hu : usub (a + x) 1 = a + (x - 1) := by unfold usub; split <;> omega
  have h1 : ¬(1 = 0 ∨ x = 0) := by omega
  have h2 : ¬x = 0 := by omega
  constructor
  · simp only [Obj.indexL, everyIndexL, ← hN, hl, if_true, dbg_bind_assert, Reported, decide_eq_false_iff_not, Nat.not_lt]
    exact ⟨fun h => h.resolve_right (hif _ _), .inl⟩
  · simp only [Obj.indexL, everyIndexL, ← hN, hl, if_true, dbg_bind_assert, Reported, decide_eq_false_iff_not, Nat.not_lt, Arith.exact_add, hu, h1, and_false, false_or,
      Nat.mul_one]
    exact ⟨fun h => h.resolve_right (hif _ _), .inl⟩

/-- **C89.** A descriptor for an array of two or more dimensions (needed by strided slices, indices, `every` followed by something else): an extent of zero is reported from
level 2 on. -/
theorem C89_extents (n s : Nat) (e₁ e₂ : Nat) (es : List Nat) :
    SDesc.mkL Arith.exact (active n) s (e₁ :: e₂ :: es) = .error .assert ↔ 2 ≤ n ∧ 0 ∈ e₁ :: e₂ :: es := by
  have key : ∀ (ext : List Nat) (t : Nat), inferStridesL Arith.exact (active n) ext t = .error .assert ↔ 2 ≤ n ∧ 0 ∈ ext := by
    intro ext
    induction ext with
    | nil => intro t; simp [inferStridesL]
    | cons e es ih =>
      intro t
      rw [inferStridesL, dbg_bind_assert, bind_ok_assert, ih]
      simp only [List.mem_cons, bne_eq_false_iff_eq]
      constructor
      · rintro (⟨h, h'⟩ | ⟨h, h'⟩)
        · exact ⟨h, .inl h'.symm⟩
        · exact ⟨h, .inr h'⟩
      · rintro ⟨h, h' | h'⟩
        · exact .inl ⟨h, h'.symm⟩
        · exact .inr ⟨h, h'⟩
  simp only [SDesc.mkL, inNoexcept_exact]
  exact bind_ok_assert.trans (key _ _)

/-- No list of indices and no slice without elements. -/
def Selects : Arg → Prop
  | .rng l => l ≠ []
  | .slice _ x _ => 0 < x
  | .idx _ => True

/-- **C89.** `a[i₁][i₂]…` with lists of indices among the indices: an assertion fails exactly if one of the indices, slices or lists is wrong in a way reported at this level. -/
theorem C89_lists (n : Nat) {d : SDesc} {args : List Arg} (ha : args.length = d.ext.length) (hs : ∀ a ∈ args, Selects a) (he : ∀ e ∈ d.ext, 0 < e) :
    indirectSlicingL Arith.exact (active n) d args = .error .assert ↔ ∃ k : Nat, ∃ a e, args[k]? = some a ∧ d.ext[k]? = some e ∧ Reported n e a := by
  have fold : ∀ (f : List Nat × List Nat → Nat → Res (List Nat × List Nat)) (P : Prop), (∀ st i, f st i = .error .assert ↔ P) → ∀ (l : List Nat) (st : List Nat × List Nat),
      l ≠ [] → (l.foldlM f st = .error .assert ↔ P) := by
    intro f P hf l
    induction l with
    | nil => intro st h; exact absurd rfl h
    | cons i l ih =>
      intro st _
      rw [List.foldlM_cons]
      cases hr : f st i with
      | error e =>
        rw [← hf st i, hr]
        exact Iff.rfl
      | ok st' =>
        have hP : ¬P := by rw [← hf st i, hr]; simp
        by_cases hl : l = []
        · subst hl; simp [hP, bind, Except.bind, List.foldlM_nil, pure, Except.pure]
        · exact ih st' hl
  have hmax : ∀ (l : List Nat) (e : Nat), 0 < e → (e ≤ maxIdx l ↔ ∃ i ∈ l, e ≤ i) := by
    intro l e he
    have := maxIdx_lt (l := l) (n := e)
    constructor
    · intro h
      by_contra hc
      have : maxIdx l < e := this.2 ⟨he, fun i hi => Nat.lt_of_not_le fun hei => hc ⟨i, hi, hei⟩⟩
      omega
    · rintro ⟨i, hi, h⟩
      exact Nat.le_trans h (maxIdx_le i hi)
  have key : ∀ (rev : List Arg) (ix : List Nat) (st : List Nat × List Nat), (∀ a ∈ rev, Selects a) → rev.length ≤ d.ext.length →
      (doSliceIndL Arith.exact (active n) d rev ix st = .error .assert ↔ ∃ k : Nat, ∃ a e, rev.reverse[k]? = some a ∧ d.ext[k]? = some e ∧ Reported n e a) := by
    intro rev
    induction rev with
    | nil => rintro ix ⟨ext, out⟩ _ _; simp [doSliceIndL]
    | cons a as ih =>
      rintro ix ⟨ext, out⟩ hs hl
      have hk : as.length < d.ext.length := by simp at hl; omega
      have hget : d.ext[as.length]? = some (d.ext.getD as.length 0) := by simp [List.getElem?_eq_getElem hk]
      have hpos : 0 < d.ext.getD as.length 0 := he _ (List.mem_of_getElem? hget)
      have split : (∃ k : Nat, ∃ a' e', (a :: as).reverse[k]? = some a' ∧ d.ext[k]? = some e' ∧ Reported n e' a') ↔
          Reported n (d.ext.getD as.length 0) a ∨ ∃ k : Nat, ∃ a' e', as.reverse[k]? = some a' ∧ d.ext[k]? = some e' ∧ Reported n e' a' := by
        simp only [List.reverse_cons]
        constructor
        · rintro ⟨k, a', e', h1, h2, h3⟩
          rcases Nat.lt_trichotomy k as.length with hlt | heq | hgt
          · rw [List.getElem?_append_left (by simpa using hlt)] at h1
            exact .inr ⟨k, a', e', h1, h2, h3⟩
          · subst heq
            rw [List.getElem?_append_right (by simp)] at h1
            simp only [List.length_reverse, Nat.sub_self, List.getElem?_cons_zero, Option.some.injEq] at h1
            rw [hget] at h2
            cases h2; subst h1
            exact .inl h3
          · rw [List.getElem?_eq_none (by simp; omega)] at h1; cases h1
        · rintro (h | ⟨k, a', e', h1, h2, h3⟩)
          · exact ⟨as.length, a, _, by rw [List.getElem?_append_right (by simp)]; simp, hget, h⟩
          · have : k < as.reverse.length := by
              rcases Nat.lt_or_ge k as.reverse.length with h | h
              · exact h
              · rw [List.getElem?_eq_none h] at h1; cases h1
            exact ⟨k, a', e', by rw [List.getElem?_append_left this]; exact h1, h2, h3⟩
      rw [split]
      have ih' := fun ix st => ih ix st (fun a h => hs a (List.mem_cons_of_mem _ h)) (by omega)
      have hsa := hs a List.mem_cons_self
      cases a with
      | rng l =>
        rw [doSliceIndL, dbg_bind_assert, fold _ _ (fun st i => ih' (i :: ix) st) l _ hsa]
        simp only [Reported, decide_eq_false_iff_not, Nat.not_lt, hmax l _ hpos]
      | idx i =>
        rw [doSliceIndL, dbg_bind_assert, ih']
        simp only [Reported, decide_eq_false_iff_not, Nat.not_lt]
      | slice b x t =>
        have hx : 0 < x := hsa
        have hu : usub x 1 = x - 1 := by unfold usub; split <;> omega
        have hx0 : ¬x = 0 := by omega
        rw [doSliceIndL, dbg_bind_assert, dbg_bind_assert, dbg_bind_assert,
          fold _ _ (fun st i => ih' (Arith.exact.add b (Arith.exact.mul i t) :: ix) st) (List.range x) _ (by simp; omega)]
        simp only [Reported, decide_eq_false_iff_not, Nat.not_lt, Nat.le_zero_eq, hu, hx0, and_false, or_false, false_or, Arith.exact, or_assoc]
  rw [indirectSlicingL, if_neg (by simp [ha]), key _ _ _ (by simpa using hs) (by simp [ha]), List.reverse_reverse]

/-- **C89.** `f(a, b)` with operands of the same order and other extents. -/
theorem C89_operands (n : Nat) (f : α → α → Option α) {x y : FSrc α} (hl : x.dims.length = y.dims.length) :
    x.zipL (active n) f y = .error .assert ↔ 3 ≤ n ∧ x.dims ≠ y.dims := by
  unfold FSrc.zipL
  rw [if_neg (by simp [hl]), dbg_bind_assert]
  simp

/-- **C89.** `view = expression` with the same order and other extents: reported from level 3 on, before anything is assigned; levels 1 and 2 are the same. -/
theorem C89_assign {n : Nat} {o : Obj} {src : FSrc α} {d : List Nat} (ho : o.dims = some d) (hl : src.dims.length = d.length) (hd : src.dims ≠ d) (p : Pool α) :
    (3 ≤ n → assignBL A (active n) T o src p = .fail .assert) ∧ (1 ≤ n → n < 3 → assignBL A (active n) T o src p = assignBL A (active 1) T o src p) := by
  refine ⟨fun hn => ?_, fun h1 h2 => ?_⟩
  case' refine_2 =>
    have a1 : active n 1 = active 1 1 := by simp [active, h1]
    have a3 : active n 3 = active 1 3 := by simp [active]; omega
    simp only [assignBL, a1, a3]
  unfold assignBL
  rw [ho]
  simp only [hl, ne_eq, not_true_eq_false, if_false]
  show BM.bind _ _ p = _
  have : (src.dims == d) = false := by simpa using hd
  simp [BM.bind, BM.reads, this, dbg, active, hn]

/-- **C89.** `view OP= expression` with the same order and other extents: reported from level 3 on, the lower levels are the same. -/
theorem C89_in_place {n : Nat} {o : Obj} {op : α → α → α × Bool} {src : FSrc α} {d : List Nat} (ho : o.dims = some d) (hl : d.length = src.dims.length) (hd : src.dims ≠ d)
    (p : Pool α) : (3 ≤ n → inPlaceBL A (active n) T o op src p = .fail .assert) ∧ (n < 3 → inPlaceBL A (active n) T o op src p = inPlaceBL A (active 0) T o op src p) := by
  refine ⟨fun hn => ?_, fun h2 => ?_⟩
  case' refine_2 =>
    have a3 : active n 3 = active 0 3 := by simp [active]; omega
    simp only [inPlaceBL, a3]
  unfold inPlaceBL
  rw [ho]
  simp only [hl, ne_eq, not_true_eq_false, if_false]
  show BM.bind _ _ p = _
  have : (d == src.dims) = false := by simpa using hd.symm
  simp [BM.bind, BM.reads, this, dbg, active, hn]

/-- **C89.** `a = std::move(a)`. -/
theorem C89_self_move (n x : Nat) : W.mstepL A (active n) nx T alloc (.old (.moveAssign x x)) = .error .assert ↔ 2 ≤ n := by
  rw [BWorld.mstepL, dbg_bind_assert]
  constructor
  · rintro (h | h)
    · exact h.1
    · exfalso
      revert h
      simp only [BWorld.own]
      cases W.env x with
      | none => simp
      | some o =>
        simp only [res_ok_bind, sameRank]
        simp
  · intro h; exact .inl ⟨h, by simp⟩

/-- The hypotheses are met: by the program of C87, for any index it reads, any level, any exceptions; by the legal program of C86. -/
example (n k : Nat) (T : Nat → Bool) (nx : Bool) (hk : 3 ≤ k) := C89_safe (T := T) (nx := nx) (exIndexed_meets n).1 (exIndexed_meets n).2.1 (exIndexed_meets n).2.2 exBlocks_good hk
example (n k : Nat) (T : Nat → Bool) (nx : Bool) := C89_outcome (T := T) (nx := nx) (exIndexed_meets n).1 (exIndexed_meets n).2.1 (exIndexed_meets n).2.2 exBlocks_good k
example (n : Nat) (T : Nat → Bool) (nx : Bool) := C89_legal (T := T) (legalAny_less (fun _ => trivial) _ (exTry_legal nx)) bholds_empty ex_began exBlocks_good n
example (n : Nat) (T : Nat → Bool) (nx : Bool) := C89_run (T := T) (legalAny_less (fun _ => trivial) _ (exTry_legal nx)) bholds_empty ex_began exBlocks_good n
example (T : Nat → Bool) (p : Body Nat Nat) := C89_levels (W := BWorld.empty) (T := T) (nx := true) (alloc := exBlocks) (A := Arith.u64) rfl (a := 1) (b := 2) (by decide) p
example (T : Nat → Bool) (p : Body Nat Nat) := C89_ends (W := BWorld.empty) (T := T) (nx := true) (alloc := exBlocks) (A := Arith.exact) rfl p
example (T : Nat → Bool) (p : Body Nat Nat) := C89_zero (W := BWorld.empty) (T := T) (nx := true) (alloc := exBlocks) (A := Arith.u64) rfl p 2

/-- A run that fails an assertion at level 1, and one that fails none at level 2. -/
example : BWorld.mainL Arith.exact (active 3) false (fun _ => false) exBlocks exLevel1 = .error .assert := by
  refine C89_kept rfl (a := 1) (by decide) _ ?_
  have := C89_strict.2.1
  unfold BWorld.mainL at this
  cases h : BWorld.execL Arith.exact (active 1) false (fun _ => false) exBlocks BWorld.empty (exLevel1.block .ret) with
  | ok r => rw [h] at this; cases this
  | error e => rw [h] at this; cases this; rfl

example : BWorld.mainL Arith.exact (active 0) false (fun _ => false) exBlocks exLevel2 = BWorld.mainL Arith.exact (active 1) false (fun _ => false) exBlocks exLevel2 := by
  refine C89_lower rfl (by decide) _ fun h => ?_
  have := C89_strict.2.2.1
  unfold BWorld.mainL at this
  rw [h] at this; cases this

/-- A 2×3 matrix sliced with `[slice(0, 1)][5]`: the second index is reported from level 3 on only. -/
example (n : Nat) : arraySliceL Arith.exact (active n) 100 (.ident ⟨0, [2, 3], [1, 2]⟩) [.slice 0 1 1, .idx 5] = .error .assert ↔ 3 ≤ n := by
  rw [C89_slicing n 100 0 (ext := [2, 3]) (ts := [1, 2]) (args := [.slice 0 1 1, .idx 5]) rfl rfl rfl]
  constructor
  · rintro ⟨k, a, e, h1, h2, h3⟩
    match k with
    | 0 => cases h1; cases h2; simp [Reported] at h3
    | 1 => cases h1; cases h2; exact h3.1
    | k + 2 => cases h1
  · intro h; exact ⟨1, _, _, rfl, rfl, h, by decide⟩

example (n : Nat) : (Obj.cref 100 [4]).indexL Arith.exact (active n) (.rng [1, 7, 2]) = .error .assert ↔ 3 ≤ n := by
  rw [C89_list n 100 4 _ (by decide)]
  exact ⟨fun h => h.1, fun h => ⟨h, 7, by decide, by decide⟩⟩

/-- Operands with 3 and 2 elements. -/
def exThree : FSrc Nat := ⟨[3], .cells [100, 101, 102]⟩
def exTwo : FSrc Nat := ⟨[2], .cells [200, 201]⟩

example (n : Nat) := C89_operands n (fun a b => some (a + b)) (x := exThree) (y := exTwo) rfl
example (T : Nat → Bool) := C89_assign (A := Arith.exact) (n := 2) (T := T) (o := .cref 100 [3]) (src := exTwo) rfl rfl (by decide) ⟨fun _ => none, [], 0, 0⟩
example (T : Nat → Bool) := C89_in_place (A := Arith.exact) (n := 2) (T := T) (o := .cref 100 [3]) (op := fun a b => (a + b, false)) (src := exTwo) rfl rfl (by decide)
  ⟨fun _ => none, [], 0, 0⟩

example (n : Nat) := C89_slice n 100 4 2 3 (by decide)
example (n : Nat) := C89_last n 100 [2, 3] 4 4 2 3 (by decide)

/-- A 2×3 matrix with `[{0, 1}][slice(1, 2, 0)]`: the stride is reported from level 2 on. -/
example (n : Nat) : indirectSlicingL Arith.exact (active n) ⟨0, [2, 3], [1, 2]⟩ [.rng [0, 1], .slice 1 2 0] = .error .assert ↔ 2 ≤ n := by
  rw [C89_lists n (d := ⟨0, [2, 3], [1, 2]⟩) rfl (by simp [Selects]) (by decide)]
  constructor
  · rintro ⟨k, a, e, h1, h2, h3⟩
    match k with
    | 0 => cases h1; cases h2; simp [Reported] at h3
    | 1 => cases h1; cases h2; rcases h3 with h | h <;> omega
    | k + 2 => cases h1
  · intro h; exact ⟨1, _, _, rfl, rfl, .inl ⟨h, .inl rfl⟩⟩

end Jules.Props

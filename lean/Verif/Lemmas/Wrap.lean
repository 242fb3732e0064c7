import Verif.Lemmas.Run
/-
64-bit arithmetic agrees with exact arithmetic as long as nothing exceeds 2^64: the pieces.
-/
namespace Jules
open Spec

theorem u64_add {a b : Nat} (h : a + b < W64) : Arith.u64.add a b = a + b := Nat.mod_eq_of_lt h
theorem u64_mul {a b : Nat} (h : a * b < W64) : Arith.u64.mul a b = a * b := Nat.mod_eq_of_lt h

theorem prodL_u64 : ∀ (l : List Nat) (a : Nat), a < W64 → l.foldl Arith.u64.mul a = (a * prod l) % W64 := by
  intro l
  induction l with
  | nil => intro a h; simp [prod, Nat.mod_eq_of_lt h]
  | cons x l ih =>
    intro a h
    have hm : Arith.u64.mul a x = (a * x) % W64 := rfl
    rw [List.foldl_cons, hm, ih _ (Nat.mod_lt _ (by decide))]
    rw [prod, Nat.mod_mul_mod, Nat.mul_assoc]

theorem prodL_u64_eq {l : List Nat} (h : prod l < W64) : prodL Arith.u64 l = prodL Arith.exact l := by
  rw [prodL_exact]
  unfold prodL
  rw [prodL_u64 l 1 (by decide), Nat.one_mul, Nat.mod_eq_of_lt h]

theorem size_u64 {d : SDesc} (h : prod d.ext < W64) : d.size Arith.u64 = d.size Arith.exact := by
  unfold SDesc.size
  split
  · rfl
  · exact prodL_u64_eq h

theorem dot_le : ∀ (i t : List Nat) (s : Nat), s ≤ dot Arith.exact i t s := by
  intro i t s
  rw [dot_exact]; omega

theorem dot_u64 : ∀ (i t : List Nat) (s : Nat), dot Arith.exact i t s < W64 →
    dot Arith.u64 i t s = dot Arith.exact i t s
  | [], _, _, _ => by simp [dot]
  | _ :: _, [], _, _ => by simp [dot]
  | i :: is, t :: ts, s, h => by
    simp only [dot, Arith.exact_add, Arith.exact_mul] at h ⊢
    have h1 := dot_le is ts (s + i * t)
    rw [u64_mul (by omega), u64_add (by omega)]
    exact dot_u64 is ts _ h

/-- The largest displacement inside a view: `Σ (e_k - 1) t_k`. -/
def span (e t : List Nat) : Nat := dotP (e.map (· - 1)) t

@[simp] theorem span_cons (e : Nat) (es : List Nat) (t : Nat) (ts : List Nat) :
    span (e :: es) (t :: ts) = (e - 1) * t + span es ts := rfl
@[simp] theorem span_nil (t : List Nat) : span [] t = 0 := by cases t <;> rfl

theorem dotP_le_span : ∀ {e i t : List Nat}, InB e i → dotP i t ≤ span e t
  | [], i, t, h => by simp at h; subst h; simp [dotP]
  | e :: es, i, [], h => by
    obtain ⟨a, is, rfl, _, _⟩ := inB_cons.1 h
    simp [dotP]
  | e :: es, i, t :: ts, h => by
    obtain ⟨a, is, rfl, ha, hi⟩ := inB_cons.1 h
    have h1 := dotP_le_span (t := ts) hi
    have h2 : a * t ≤ (e - 1) * t := Nat.mul_le_mul_right t (by omega)
    simp only [dotP, span_cons]
    omega

theorem pos_u64 {d : SDesc} {i : List Nat} (hi : InB d.ext i) (h : d.start + span d.ext d.strides < W64) :
    d.pos Arith.u64 i = d.pos Arith.exact i := by
  apply dot_u64
  rw [dot_exact]
  have := dotP_le_span (t := d.strides) hi
  omega

/-! ### Strides -/

theorem inferStrides_zero {A : Arith} : ∀ {e : List Nat} {t : Nat}, 0 ∈ e → inferStrides A true e t = .error .assert
  | x :: es, t, h => by
    by_cases hx : x = 0
    · subst hx; simp [inferStrides]
    · have hes : 0 ∈ es := by
        rcases List.mem_cons.1 h with h | h
        · exact absurd h.symm hx
        · exact h
      have : (x != 0) = true := by simp [hx]
      simp [inferStrides, this, inferStrides_zero hes]

theorem inferStrides_nz : ∀ {e : List Nat} {t : Nat}, (∀ x ∈ e, x ≠ 0) → t * prod e < W64 →
    inferStrides Arith.u64 true e t = inferStrides Arith.exact true e t
  | [], _, _, _ => rfl
  | x :: es, t, hz, h => by
    have hz' : ∀ y ∈ es, y ≠ 0 := fun y hy => hz y (by simp [hy])
    have hp : 0 < prod es := prod_pos_iff.2 hz'
    have h1 : t * x * prod es < W64 := by rw [Nat.mul_assoc]; exact h
    have h2 : t * x < W64 := Nat.lt_of_le_of_lt (Nat.le_mul_of_pos_right _ hp) h1
    simp only [inferStrides]
    rw [u64_mul h2, Arith.exact_mul, inferStrides_nz hz' h1]

theorem inferStrides_u64 {e : List Nat} (h : prod e < W64) :
    inferStrides Arith.u64 true e 1 = inferStrides Arith.exact true e 1 := by
  by_cases hz : 0 ∈ e
  · rw [inferStrides_zero hz, inferStrides_zero hz]
  · exact inferStrides_nz (fun x hx h0 => hz (h0 ▸ hx)) (by rw [Nat.one_mul]; exact h)

theorem mk'_u64 {s : Nat} {e : List Nat} (h : prod e < W64) :
    SDesc.mk' Arith.u64 true s e = SDesc.mk' Arith.exact true s e := by
  unfold SDesc.mk'
  split
  · rfl
  · rw [inNoexcept_u64, inNoexcept_exact, inferStrides_u64 h]

theorem mkVec_u64 {e idx : List Nat} (h : prod e < W64) :
    Mapper.mkVec Arith.u64 true e idx = Mapper.mkVec Arith.exact true e idx := by
  unfold Mapper.mkVec
  rw [mk'_u64 h]
  cases hd : SDesc.mk' Arith.exact true 0 e with
  | error f => rfl
  | ok d =>
    have := (mk'_exact.1 hd).1
    subst this
    simp only [res_ok_bind]
    rw [size_u64 (d := canon 0 e) h]

/-! ### Iteration -/

theorem iterGen_u64 {d : SDesc} (he : d.ext ≠ []) (h : d.start + span d.ext d.strides < W64) :
    ∀ (fuel : Nat) (i : List Nat), InB d.ext i ∨ i = endIndex d.ext →
      iterGen Arith.u64 d fuel i = iterGen Arith.exact d fuel i
  | 0, _, _ => rfl
  | fuel + 1, i, hi => by
    simp only [iterGen]
    split
    · rfl
    · next hne =>
      have hi : InB d.ext i := hi.resolve_right hne
      rw [pos_u64 hi h]
      rcases incr_spec he hi with ⟨i', h1, h2, _⟩ | ⟨h1, _⟩
      · rw [h1]; simp only [res_ok_bind]
        rw [iterGen_u64 he h fuel i' (.inl h2)]
      · rw [h1]; simp only [res_ok_bind]
        rw [iterGen_u64 he h fuel _ (.inr rfl)]

theorem iterOne_u64 {t n : Nat} : ∀ (fuel s k : Nat), k ≤ n → s + t * n < W64 →
    iterOne Arith.u64 t (s + t * n) fuel (s + t * k) = iterOne Arith.exact t (s + t * n) fuel (s + t * k)
  | 0, _, _, _, _ => rfl
  | fuel + 1, s, k, hk, h => by
    simp only [iterOne]
    split
    · rfl
    · next hne =>
      have hlt : k < n := by
        rcases Nat.lt_or_ge k n with h | h
        · exact h
        · exact absurd (by rw [Nat.le_antisymm hk h]) hne
      have h1 : t * (k + 1) ≤ t * n := Nat.mul_le_mul_left t hlt
      have h2 : s + t * k + t = s + t * (k + 1) := by rw [Nat.mul_succ]; omega
      rw [u64_add (by omega), Arith.exact_add, h2, iterOne_u64 fuel s (k + 1) hlt h]

/-- Bounds on a descriptor under which nothing wraps: `Z` bounds the positions, `2 Z` the strides. -/
structure DFit (Z off : Nat) (d : SDesc) : Prop where
  len : d.strides.length = d.ext.length
  ne : d.ext ≠ []
  nz : ∀ x ∈ d.ext, x ≠ 0
  ext : ∀ x ∈ d.ext, x ≤ Z
  str : ∀ t ∈ d.strides, t ≤ 2 * Z
  pos : off + d.start + span d.ext d.strides < Z

theorem positions_u64 {Z off : Nat} {d : SDesc} (hZ : 4 * Z ≤ W64) (h : DFit Z off d) (fuel : Nat) :
    d.positions Arith.u64 fuel = d.positions Arith.exact fuel := by
  obtain ⟨s, e, t⟩ := d
  obtain ⟨h1, h2, h3, h4, h5, h6⟩ := h
  simp only at h1 h2 h3 h4 h5 h6
  match e, t, h1, h2 with
  | [x], [y], _, _ =>
    simp only [SDesc.positions, Arith.exact_add, Arith.exact_mul]
    have hx : x ≠ 0 := h3 x (by simp)
    have hy : y ≤ 2 * Z := h5 y (by simp)
    have h6 : off + s + ((x - 1) * y + 0) < Z := h6
    have hm : y * x = (x - 1) * y + y := by
      obtain ⟨k, rfl⟩ := Nat.exists_eq_succ_of_ne_zero hx
      simp [Nat.succ_mul, Nat.mul_comm, Nat.mul_succ]
    rw [u64_mul (by omega), u64_add (by omega)]
    have := iterOne_u64 (t := y) (n := x) fuel s 0 (by omega) (by omega)
    simpa using this
  | x :: x' :: es, y :: ys, _, _ =>
    simp only [SDesc.positions]
    exact iterGen_u64 (d := ⟨s, x :: x' :: es, y :: ys⟩) (by simp) (by simp only; omega) fuel _ (.inl (zeros_inB h3))

/-! ### Slicing -/

/-- An argument for a dimension of extent `e` whose own arithmetic does not wrap; a slice that selects one index has a stride
that is at most the extent. -/
def ArgFit (e : Nat) : Arg → Prop
  | .slice a x t => (0 < x → a + (x - 1) * t < W64) ∧ (x = 1 → t ≤ max 1 e)
  | _ => True

/-- The same for the arguments of consecutive dimensions. -/
def ArgsFit : List Nat → List Arg → Prop
  | e :: es, a :: as => ArgFit e a ∧ ArgsFit es as
  | _, _ => True

theorem slice_check_u64 {a x t : Nat} (h : 0 < x → a + (x - 1) * t < W64) (hx : 0 < x) :
    Arith.u64.add a (Arith.u64.mul (usub x 1) t) = a + (x - 1) * t := by
  have := h hx
  rw [usub_one hx, u64_mul (by omega), u64_add this]

/-- The bounds kept by slicing one dimension. -/
theorem slice_dim_bounds {Z e t a x d : Nat} (ht : t ≤ 2 * Z) (hs : (e - 1) * t < Z) (hd : 0 < d) (hx : 0 < x)
    (hb : a + (x - 1) * d < e) (h1 : x = 1 → d ≤ max 1 e) :
    t * d ≤ 2 * Z ∧ t * a + (x - 1) * (t * d) ≤ (e - 1) * t ∧ x ≤ e := by
  have hk : t * a + (x - 1) * (t * d) = t * (a + (x - 1) * d) := by
    rw [Nat.mul_add, Nat.mul_left_comm]
  have hle : t * (a + (x - 1) * d) ≤ (e - 1) * t := by
    rw [Nat.mul_comm (e - 1)]
    exact Nat.mul_le_mul_left t (by omega)
  have hxe : x ≤ e := by
    have : (x - 1) * 1 ≤ (x - 1) * d := Nat.mul_le_mul_left _ hd
    omega
  refine ⟨?_, by rw [hk]; exact hle, hxe⟩
  by_cases h : x = 1
  · have hde : d ≤ e := by have := h1 h; omega
    by_cases he : e = 1
    · have : d = 1 := by omega
      subst this; omega
    · have h2 : t * d ≤ t * e := Nat.mul_le_mul_left t hde
      have h3 : t * e ≤ 2 * ((e - 1) * t) := by
        rw [Nat.mul_comm (e - 1), Nat.mul_left_comm]
        exact Nat.mul_le_mul_left t (by omega)
      omega
  · have h2 : 1 * d ≤ (x - 1) * d := Nat.mul_le_mul_right d (by omega)
    have h3 : t * d ≤ t * (e - 1) := Nat.mul_le_mul_left t (by omega)
    rw [Nat.mul_comm t (e - 1)] at h3
    omega

theorem doSlice_u64 {Z : Nat} (hZ : 4 * Z ≤ W64) : ∀ (args : List Arg) (c s : Nat) (e t : List Nat),
    ArgsFit e args → c + s + span e t < Z → (∀ x ∈ t, x ≤ 2 * Z) → (∀ x ∈ e, x ≤ Z) →
      doSlice Arith.u64 true s e t args = doSlice Arith.exact true s e t args ∧
        ∀ s' e' t', doSlice Arith.exact true s e t args = .ok (s', e', t') →
          c + s' + span e' t' < Z ∧ (∀ x ∈ t', x ≤ 2 * Z) ∧ (∀ x ∈ e', x ≤ Z)
  | [], c, s, [], [], _, h, _, _ => by
    refine ⟨rfl, ?_⟩
    intro s' e' t' h'
    simp only [doSlice, Except.ok.injEq, Prod.mk.injEq] at h'
    obtain ⟨rfl, rfl, rfl⟩ := h'
    exact ⟨h, by simp, by simp⟩
  | [], c, s, _ :: _, t, _, _, _, _ => by cases t <;> exact ⟨rfl, fun _ _ _ h => by simp [doSlice] at h⟩
  | [], c, s, [], _ :: _, _, _, _, _ => ⟨rfl, fun _ _ _ h => by simp [doSlice] at h⟩
  | .rng _ :: _, c, s, e, t, _, _, _, _ => by
    cases e <;> cases t <;> exact ⟨rfl, fun _ _ _ h => by simp [doSlice] at h⟩
  | .idx _ :: _, c, s, [], t, _, _, _, _ => by cases t <;> exact ⟨rfl, fun _ _ _ h => by simp [doSlice] at h⟩
  | .slice _ _ _ :: _, c, s, [], t, _, _, _, _ => by cases t <;> exact ⟨rfl, fun _ _ _ h => by simp [doSlice] at h⟩
  | .idx _ :: _, c, s, _ :: _, [], _, _, _, _ => ⟨rfl, fun _ _ _ h => by simp [doSlice] at h⟩
  | .slice _ _ _ :: _, c, s, _ :: _, [], _, _, _, _ => ⟨rfl, fun _ _ _ h => by simp [doSlice] at h⟩
  | .idx i :: as, c, s, e :: es, t :: ts, ⟨_, hf⟩, h, ht, he => by
    rw [span_cons] at h
    by_cases hi : i < e
    · have hm : t * i ≤ (e - 1) * t := by
        rw [Nat.mul_comm (e - 1)]; exact Nat.mul_le_mul_left t (by omega)
      obtain ⟨ih1, ih2⟩ := doSlice_u64 hZ as c (s + t * i) es ts hf (by omega)
        (fun x hx => ht x (by simp [hx])) (fun x hx => he x (by simp [hx]))
      simp only [doSlice, hi, decide_true, dbg_any_true, res_ok_bind, Arith.exact_add, Arith.exact_mul]
      rw [u64_mul (by omega), u64_add (by omega), ih1]
      refine ⟨rfl, ?_⟩
      intro s' e' t' h'
      obtain ⟨⟨s1, e1, t1⟩, h1, h2⟩ := res_bind_ok.1 h'
      simp only [Except.ok.injEq, Prod.mk.injEq] at h2
      obtain ⟨rfl, rfl, rfl⟩ := h2
      obtain ⟨b1, b2, b3⟩ := ih2 _ _ _ h1
      refine ⟨by simpa using b1, ?_, ?_⟩
      · intro x hx
        rcases List.mem_cons.1 hx with rfl | hx
        · omega
        · exact b2 x hx
      · intro x hx
        rcases List.mem_cons.1 hx with rfl | hx
        · omega
        · exact b3 x hx
    · have hd : decide (i < e) = false := by simp [hi]
      simp only [doSlice, hd, dbg_true_false, res_error_bind]
      exact ⟨trivial, fun _ _ _ h => by cases h⟩
  | .slice a x d :: as, c, s, e :: es, t :: ts, ⟨⟨hw, h1⟩, hf⟩, h, ht, he => by
    rw [span_cons] at h
    by_cases hd : 0 < d
    · by_cases hx : 0 < x
      · simp only [doSlice, hd, hx, decide_true, dbg_any_true, res_ok_bind]
        rw [slice_check_u64 hw hx, usub_one hx, Arith.exact_add, Arith.exact_mul]
        by_cases hb : a + (x - 1) * d < e
        · obtain ⟨q1, q2, q3⟩ := slice_dim_bounds (ht t (by simp)) (by omega) hd hx hb h1
          obtain ⟨ih1, ih2⟩ := doSlice_u64 hZ as (c + (x - 1) * (t * d)) (s + t * a) es ts hf (by omega)
            (fun x hx => ht x (by simp [hx])) (fun x hx => he x (by simp [hx]))
          simp only [hb, decide_true, dbg_any_true, res_ok_bind, Arith.exact_add, Arith.exact_mul]
          rw [u64_mul (a := t) (b := a) (by omega), u64_add (by omega), ih1, u64_mul (a := t) (b := d) (by omega)]
          refine ⟨rfl, ?_⟩
          intro s' e' t' h'
          obtain ⟨⟨s1, e1, t1⟩, h1, h2⟩ := res_bind_ok.1 h'
          simp only [Except.ok.injEq, Prod.mk.injEq] at h2
          obtain ⟨rfl, rfl, rfl⟩ := h2
          obtain ⟨b1, b2, b3⟩ := ih2 _ _ _ h1
          refine ⟨?_, ?_, ?_⟩
          · rw [span_cons]; omega
          · intro y hy
            rcases List.mem_cons.1 hy with rfl | hy
            · exact q1
            · exact b2 y hy
          · intro y hy
            rcases List.mem_cons.1 hy with rfl | hy
            · have := he e (by simp); omega
            · exact b3 y hy
        · have hd : decide (a + (x - 1) * d < e) = false := by simp [hb]
          simp only [hd, dbg_true_false, res_error_bind]
          exact ⟨trivial, fun _ _ _ h => by cases h⟩
      · have hd' : decide (0 < x) = false := by simp [hx]
        simp only [doSlice, hd, decide_true, dbg_any_true, res_ok_bind, hd', dbg_true_false, res_error_bind]
        exact ⟨trivial, fun _ _ _ h => by cases h⟩
    · have hd' : decide (0 < d) = false := by simp [hd]
      simp only [doSlice, hd', dbg_true_false, res_error_bind]
      exact ⟨trivial, fun _ _ _ h => by cases h⟩

theorem foldlM_congr {f g : σ → α → Res σ} : ∀ (l : List α) (s : σ), (∀ s a, a ∈ l → f s a = g s a) →
    l.foldlM f s = l.foldlM g s
  | [], _, _ => rfl
  | a :: l, s, h => by
    simp only [List.foldlM_cons]
    rw [h s a (by simp)]
    cases g s a with
    | error _ => rfl
    | ok s' => exact foldlM_congr l s' fun s a ha => h s a (by simp [ha])

/-- The arguments in reverse order: each fits the dimension it is for. -/
def RevFit (e : List Nat) : List Arg → Prop
  | [] => True
  | a :: as => ArgFit (e.getD as.length 0) a ∧ RevFit e as

theorem inB_drop_cons {e ix : List Nat} {k i : Nat} (hi : i < e.getD k 0) (h : InB (e.drop (k + 1)) ix) :
    InB (e.drop k) (i :: ix) := by
  have hk : k < e.length := by
    rcases Nat.lt_or_ge k e.length with h | h
    · exact h
    · rw [List.getD_eq_getElem?_getD, List.getElem?_eq_none h] at hi; simp at hi
  rw [List.drop_eq_getElem_cons hk]
  rw [List.getD_eq_getElem?_getD, List.getElem?_eq_getElem hk] at hi
  exact ⟨hi, h⟩

theorem doSliceInd_u64 {d : SDesc} (hd : d.start + span d.ext d.strides < W64) :
    ∀ (as : List Arg) (ix : List Nat) (st : List Nat × List Nat), RevFit d.ext as → InB (d.ext.drop as.length) ix →
      doSliceInd Arith.u64 true d as ix st = doSliceInd Arith.exact true d as ix st
  | [], ix, (ext, out), _, hi => by
    simp only [doSliceInd]
    rw [pos_u64 (by simpa using hi) hd]
  | .idx i :: as, ix, (ext, out), ⟨_, hf⟩, hi => by
    simp only [doSliceInd]
    by_cases h : i < d.ext.getD as.length 0
    · simp only [h, decide_true, dbg_any_true, res_ok_bind]
      exact doSliceInd_u64 hd as _ _ hf (inB_drop_cons h hi)
    · have : decide (i < d.ext.getD as.length 0) = false := by simpa using h
      simp only [this, dbg_true_false, res_error_bind]
  | .rng l :: as, ix, (ext, out), ⟨_, hf⟩, hi => by
    simp only [doSliceInd]
    by_cases h : maxIdx l < d.ext.getD as.length 0
    · simp only [h, decide_true, dbg_any_true, res_ok_bind]
      exact foldlM_congr _ _ fun s i hil => doSliceInd_u64 hd as _ _ hf (inB_drop_cons ((maxIdx_lt.1 h).2 i hil) hi)
    · have : decide (maxIdx l < d.ext.getD as.length 0) = false := by simpa using h
      simp only [this, dbg_true_false, res_error_bind]
  | .slice a x t :: as, ix, (ext, out), ⟨⟨hw, _⟩, hf⟩, hi => by
    simp only [doSliceInd]
    by_cases ht : 0 < t
    · simp only [ht, decide_true, dbg_any_true, res_ok_bind]
      by_cases hx : 0 < x
      · simp only [hx, decide_true, dbg_any_true, res_ok_bind]
        rw [slice_check_u64 hw hx, usub_one hx, Arith.exact_add, Arith.exact_mul]
        by_cases h : a + (x - 1) * t < d.ext.getD as.length 0
        · simp only [h, decide_true, dbg_any_true, res_ok_bind]
          refine foldlM_congr _ _ fun s i hil => ?_
          have hil : i < x := List.mem_range.1 hil
          have hit : i * t ≤ (x - 1) * t := Nat.mul_le_mul_right t (by omega)
          have := hw hx
          rw [u64_mul (by omega), u64_add (by omega), Arith.exact_add, Arith.exact_mul]
          exact doSliceInd_u64 hd as _ _ hf (inB_drop_cons (by omega) hi)
        · have : decide (a + (x - 1) * t < d.ext.getD as.length 0) = false := by simpa using h
          simp only [this, dbg_true_false, res_error_bind]
      · have : decide (0 < x) = false := by simpa using hx
        simp only [this, dbg_true_false, res_error_bind]
    · have : decide (0 < t) = false := by simpa using ht
      simp only [this, dbg_true_false, res_error_bind]

theorem revFit_append : ∀ {e : List Nat} {as : List Arg} {a : Arg}, RevFit e.tail as → ArgFit (e.headD 0) a →
    RevFit e (as ++ [a])
  | e, [], a, _, h => by cases e <;> exact ⟨h, trivial⟩
  | e, b :: as, a, h, ha => by
    refine ⟨?_, revFit_append h.2 ha⟩
    have := h.1
    cases e with
    | nil => simpa using this
    | cons x es => simpa [List.getD] using this

theorem argsFit_rev : ∀ {e : List Nat} {args : List Arg}, args.length = e.length → ArgsFit e args → RevFit e args.reverse
  | [], [], _, _ => trivial
  | x :: es, a :: as, hl, ⟨h1, h2⟩ => by
    rw [List.reverse_cons]
    exact revFit_append (argsFit_rev (by simpa using hl) h2) h1

theorem indirectSlicing_u64 {d : SDesc} {args : List Arg} (hd : d.start + span d.ext d.strides < W64)
    (hf : ArgsFit d.ext args) :
    indirectSlicing Arith.u64 true d args = indirectSlicing Arith.exact true d args := by
  unfold indirectSlicing
  split
  · rfl
  · next h =>
    have h : args.length = d.ext.length := by omega
    exact doSliceInd_u64 hd _ _ _ (argsFit_rev h hf) (by simp [h])

end Jules

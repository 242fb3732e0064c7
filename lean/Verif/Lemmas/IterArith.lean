import Verif.Lemmas.Stored
import Verif.Model.IterArith
/-
The iterators of views as sequences.
-/
namespace Jules
open Spec

/-- The multi-index after `k` increments from zero: mixed radix digits, the last one without bound. -/
def walkIdx : List Nat → Nat → List Nat
  | [], _ => []
  | [_], k => [k]
  | e :: es, k => k % e :: walkIdx es (k / e)

theorem walkIdx_cons {e x : Nat} {es : List Nat} {k : Nat} : walkIdx (e :: x :: es) k = k % e :: walkIdx (x :: es) (k / e) := by
  rw [walkIdx]; simp

theorem walkIdx_zero : ∀ e : List Nat, walkIdx e 0 = e.map fun _ => 0
  | [] => rfl
  | [_] => rfl
  | e :: x :: es => by rw [walkIdx_cons, Nat.zero_mod, Nat.zero_div, walkIdx_zero (x :: es)]; rfl

theorem walkIdx_prod : ∀ e : List Nat, e ≠ [] → (∀ x ∈ e, x ≠ 0) → walkIdx e (prod e) = endIndex e
  | [], h, _ => (h rfl).elim
  | [e], _, _ => by simp [walkIdx, prod, endIndex]
  | e :: x :: es, _, h => by
    have he : 0 < e := Nat.pos_of_ne_zero (h e (by simp))
    have hp : prod (e :: x :: es) = e * prod (x :: es) := rfl
    rw [walkIdx_cons, hp, Nat.mul_mod_right, Nat.mul_div_cancel_left _ he, walkIdx_prod (x :: es) (by simp) fun y hy => h y (by simp [hy])]
    rfl

theorem walkIdx_unflatten : ∀ {e : List Nat} {k : Nat}, k < prod e → walkIdx e k = unflatten e k
  | [], _, _ => rfl
  | [e], k, h => by
    simp only [prod, Nat.mul_one] at h
    simp [walkIdx, unflatten, Nat.mod_eq_of_lt h]
  | e :: x :: es, k, h => by
    have hp : prod (e :: x :: es) = e * prod (x :: es) := rfl
    rw [hp] at h
    rw [walkIdx_cons, unflatten, walkIdx_unflatten (Nat.div_lt_of_lt_mul h)]

theorem cmPos_walkIdx : ∀ {e : List Nat} (k : Nat), e ≠ [] → cmPos e (walkIdx e k) = k
  | [], _, h => (h rfl).elim
  | [e], k, _ => by simp [walkIdx, cmPos]
  | e :: x :: es, k, _ => by
    rw [walkIdx_cons, cmPos, cmPos_walkIdx (k / e) (by simp)]
    exact Nat.mod_add_div k e

theorem incr_walkIdx : ∀ {e : List Nat} (k : Nat), e ≠ [] → (∀ x ∈ e, x ≠ 0) → incr e (walkIdx e k) = .ok (walkIdx e (k + 1))
  | [], _, h, _ => (h rfl).elim
  | [e], k, _, _ => rfl
  | e :: x :: es, k, _, h => by
    have he : e ≠ 0 := h e (by simp)
    have hpos : 0 < e := Nat.pos_of_ne_zero he
    have hmod : (k % e + 1) % e = (k + 1) % e := by rw [Nat.mod_add_mod]
    rw [walkIdx_cons, walkIdx_cons, incr]
    · rw [if_neg he]
      simp only [hmod]
      by_cases h0 : (k + 1) % e = 0
      · have hdiv : (k + 1) / e = k / e + 1 := by
          obtain ⟨q, hq⟩ := Nat.dvd_of_mod_eq_zero h0
          cases q with
          | zero => simp at hq
          | succ q =>
            have hk : k = e * q + (e - 1) := by rw [Nat.mul_succ] at hq; omega
            rw [hq, Nat.mul_div_cancel_left _ hpos, hk, Nat.mul_add_div hpos, Nat.div_eq_of_lt (by omega)]
        rw [if_neg (by simp [h0]), incr_walkIdx (k / e) (by simp) fun y hy => h y (by simp [hy]), hdiv]
        rfl
      · have hdiv : (k + 1) / e = k / e := by
          rw [Nat.succ_div, if_neg fun hd => h0 (Nat.mod_eq_zero_of_dvd hd)]; rfl
        rw [if_pos h0, hdiv]
    · simp

/-- A sequence of iterators, each the successor of the one before, all different. -/
structure Walk (σ : Store α) (it : Nat → SIt) : Prop where
  next : ∀ k, (it k).next Arith.exact σ = .ok (it (k + 1))
  eq : ∀ i j, (it i).eq (it j) = decide (i = j)

theorem walk_nextN {σ : Store α} {it : Nat → SIt} (h : Walk σ it) : ∀ n i, (it i).nextN Arith.exact σ n = .ok (it (i + n))
  | 0, i => rfl
  | n + 1, i => by
    rw [SIt.nextN, h.next, res_ok_bind, walk_nextN h n, show i + 1 + n = i + (n + 1) by omega]

theorem walk_count {σ : Store α} {it : Nat → SIt} (h : Walk σ it) (j : Nat) : ∀ fuel i, i ≤ j → j - i < fuel →
    (it j).countTo Arith.exact σ fuel (it i) = .ok (j - i)
  | 0, i, _, hf => by omega
  | fuel + 1, i, hij, hf => by
    rw [SIt.countTo, h.eq]
    by_cases he : i = j
    · simp [he]
    · simp only [he, decide_false, Bool.false_eq_true, if_false]
      rw [h.next, res_ok_bind, walk_count h j fuel (i + 1) (by omega) (by omega), res_ok_bind]
      congr 1
      omega

theorem walk_count_back {σ : Store α} {it : Nat → SIt} (h : Walk σ it) (i : Nat) : ∀ fuel j, i < j →
    (it i).countTo Arith.exact σ fuel (it j) = .error .outOfFuel
  | 0, _, _ => rfl
  | fuel + 1, j, hij => by
    rw [SIt.countTo, h.eq]
    have : j ≠ i := by omega
    simp only [this, decide_false, Bool.false_eq_true, if_false]
    rw [h.next, res_ok_bind, walk_count_back h i fuel (j + 1) (by omega)]
    rfl

theorem walk_ptr (σ : Store α) (off : Nat) : Walk σ fun k => .ptr (off + k) :=
  ⟨fun k => rfl, fun i j => by simp [SIt.eq, beq_eq_decide]⟩

theorem walk_one (σ : Store α) (off t s : Nat) (ht : 0 < t) : Walk σ fun k => .one off t (s + t * k) :=
  ⟨fun k => by simp [SIt.next, Nat.mul_add, Nat.add_assoc], fun i j => by
    simp only [SIt.eq, beq_eq_decide]
    congr 1
    simp only [Nat.add_left_cancel_iff, eq_iff_iff]
    exact ⟨fun h => Nat.eq_of_mul_eq_mul_left ht h, fun h => by rw [h]⟩⟩

theorem walk_gen {σ : Store α} {obj : Nat} {d : SDesc} (hσ : σ obj = some (.desc d)) (off : Nat) (hne : d.ext ≠ []) (h0 : ∀ x ∈ d.ext, x ≠ 0) :
    Walk σ fun k => .gen off obj (walkIdx d.ext k) :=
  ⟨fun k => by simp [SIt.next, hσ, incr_walkIdx k hne h0], fun i j => by
    simp only [SIt.eq, beq_eq_decide]
    congr 1
    simp only [eq_iff_iff]
    refine ⟨fun h => ?_, fun h => by rw [h]⟩
    have := congrArg (cmPos d.ext) h
    simpa [cmPos_walkIdx _ hne] using this⟩

theorem walk_lst (σ : Store α) (off obj : Nat) : Walk σ fun k => .lst off obj k :=
  ⟨fun k => rfl, fun i j => by simp [SIt.eq, beq_eq_decide]⟩

theorem runs_walk {σ : Store α} {it : Nat → SIt} (hw : Walk σ it) {last a : SIt} {cs : List (Mem α → Res α)} (h : Runs σ last a cs) :
    ∀ k0, a = it k0 → ∀ (k : Nat) (c : Mem α → Res α), cs[k]? = some c → ∀ m, (it (k0 + k)).deref Arith.exact σ m = c m := by
  induction h with
  | nil => intro _ _ k c hc; simp at hc
  | @cons a a' c0 cs h1 h2 h3 _ ih =>
    intro k0 ha k c hc m
    subst ha
    cases k with
    | zero =>
      simp only [List.getElem?_cons_zero, Option.some.injEq] at hc
      subst hc
      exact h2 m
    | succ k =>
      rw [hw.next] at h3
      cases h3
      have := ih (k0 + 1) rfl k c (by simpa using hc) m
      rwa [show k0 + 1 + k = k0 + (k + 1) by omega] at this

/-- How a sequence of iterators does arithmetic. -/
structure Arithmetic (σ : Store α) (it : Nat → SIt) : Prop where
  walk : Walk σ it
  plus : ∀ i n, (it i).plus Arith.exact σ n = .ok (it (i + n))
  dist : ∀ i j fuel, i ≤ j → j - i < fuel → (it j).minusIt Arith.exact σ fuel (it i) = .ok ((j : Int) - i)

theorem arithmetic_ptr (σ : Store α) (off : Nat) : Arithmetic σ fun k => .ptr (off + k) :=
  ⟨walk_ptr σ off, fun i n => by simp [SIt.plus, Nat.add_assoc], fun i j _ _ _ => by simp [SIt.minusIt]; omega⟩

theorem arithmetic_lst (σ : Store α) (off obj : Nat) : Arithmetic σ fun k => .lst off obj k :=
  ⟨walk_lst σ off obj, fun i n => by simp [SIt.plus], fun i j _ _ _ => by simp [SIt.minusIt]⟩

theorem arithmetic_one (σ : Store α) (off t s : Nat) (ht : 0 < t) : Arithmetic σ fun k => .one off t (s + t * k) := by
  refine ⟨walk_one σ off t s ht, fun i n => walk_nextN (walk_one σ off t s ht) n i, fun i j fuel hij hf => ?_⟩
  have := walk_count (walk_one σ off t s ht) j fuel i hij hf
  simp only [SIt.minusIt]
  rw [this, res_ok_bind]
  congr 1
  omega

theorem arithmetic_gen {σ : Store α} {obj : Nat} {d : SDesc} (hσ : σ obj = some (.desc d)) (off : Nat) (hne : d.ext ≠ []) (h0 : ∀ x ∈ d.ext, x ≠ 0) :
    Arithmetic σ fun k => .gen off obj (walkIdx d.ext k) := by
  refine ⟨walk_gen hσ off hne h0, fun i n => walk_nextN (walk_gen hσ off hne h0) n i, fun i j fuel hij hf => ?_⟩
  have := walk_count (walk_gen hσ off hne h0) j fuel i hij hf
  simp only [SIt.minusIt]
  rw [this, res_ok_bind]
  congr 1
  omega

/-- The iterators `begin()`, `begin() + 1`, … of an array or view. -/
theorem leaf_arith {o : Obj} (w : o.WF) {ext : List Nat} (hd : o.dims = some ext) (obj : Nat) :
    ∃ src, leafSrc Arith.exact obj o = .ok src ∧ ∀ σ : Store α, Usable σ (.leaf obj o) →
      ∃ it, Arithmetic σ it ∧ it 0 = src.first ∧ it (prod ext) = src.last ∧
        ((∃ off d, o = .sref off (.ident d)) → ∀ i, (∀ n, 0 < n → (it i).minus n = .error .ub) ∧
          ∀ j fuel, i < j → (it i).minusIt Arith.exact σ fuel (it j) = .error .outOfFuel) ∧
        ((¬ ∃ off d, o = .sref off (.ident d)) → ∀ i, (∀ n, n ≤ i → (it i).minus n = .ok (it (i - n))) ∧
          ∀ j fuel, (it i).minusIt Arith.exact σ fuel (it j) = .ok ((i : Int) - j)) := by
  cases o with
  | elem => simp [Obj.dims] at hd
  | proxy => simp [Obj.dims] at hd
  | everyProxy => simp [Obj.dims] at hd
  | cref off e =>
    simp only [Obj.dims, Option.some.injEq] at hd
    subst hd
    refine ⟨_, rfl, fun σ _ => ⟨_, arithmetic_ptr σ off, rfl, by simp [prodL_exact], by simp, fun _ i => ⟨fun n hn => ?_, fun j fuel => ?_⟩⟩⟩
    · simp only [SIt.minus]; congr 2; omega
    · simp only [SIt.minusIt]; congr 1; omega
  | sref off mp =>
    cases mp with
    | vec d l =>
      simp only [Obj.dims, Mapper.desc, Option.some.injEq] at hd
      subst hd
      refine ⟨_, rfl, fun σ _ => ⟨_, arithmetic_lst σ off obj, rfl, by simp [w.2.2], by simp, fun _ i => ⟨fun n hn => rfl, fun j fuel => rfl⟩⟩⟩
    | ident d =>
      simp only [Obj.dims, Mapper.desc, Option.some.injEq] at hd
      subst hd
      obtain ⟨w1, w2, w3, w4⟩ := w
      by_cases h1 : d.ext.length = 1
      · obtain ⟨start, ext, strides⟩ := d
        simp only at h1 w1 w2 w3 w4
        obtain ⟨x, rfl⟩ := List.length_eq_one_iff.1 h1
        obtain ⟨t, rfl⟩ := List.length_eq_one_iff.1 (w1.trans h1)
        have ht : 0 < t := w3 t (by simp)
        refine ⟨_, rfl, fun σ _ => ⟨_, arithmetic_one σ off t start ht, by simp, by simp [prod], fun _ i => ⟨fun n hn => ?_, fun j fuel hij => ?_⟩, fun h => ?_⟩⟩
        · simp only [SIt.minus]; rw [if_neg (by omega)]
        · simp only [SIt.minusIt]
          rw [walk_count_back (walk_one σ off t start ht) i fuel j hij]; rfl
        · exact (h ⟨_, _, rfl⟩).elim
      · have h0 := w4 h1
        have hsrc : leafSrc Arith.exact obj (.sref off (.ident d)) =
            .ok ⟨d.ext, .gen off obj (d.ext.map fun _ => 0), .gen off obj (endIndex d.ext)⟩ := by
          simp only [leafSrc]
          split
          · next h _ => rw [h] at h1; simp at h1
          · next h => exact (w2 h).elim
          · rfl
        have hrf : refersTo (α := α) (.leaf obj (.sref off (.ident d))) = [(obj, .desc d)] := by
          simp only [refersTo]
          split
          · next h _ => rw [h] at h1; simp at h1
          · rfl
        refine ⟨_, hsrc, fun σ hu => ?_⟩
        have hσ : σ obj = some (.desc d) := hu (obj, .desc d) (by rw [hrf]; simp)
        refine ⟨_, arithmetic_gen hσ off w2 h0, by simp [walkIdx_zero], by simp [walkIdx_prod _ w2 h0], fun _ i => ⟨fun n hn => ?_, fun j fuel hij => ?_⟩, fun h => ?_⟩
        · simp only [SIt.minus]; rw [if_neg (by omega)]
        · simp only [SIt.minusIt]
          rw [walk_count_back (walk_gen hσ off w2 h0) i fuel j hij]; rfl
        · exact (h ⟨_, _, rfl⟩).elim

end Jules

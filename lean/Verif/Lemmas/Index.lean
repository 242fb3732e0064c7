import Mathlib.Data.List.Forall2
import Verif.Spec.Index
import Verif.Model.Layout
/-
Facts about the specification of multi-indices.
-/
namespace Jules
open Spec

theorem inB_length : ∀ {e i : List Nat}, InB e i → i.length = e.length
  | [], [], _ => rfl
  | _ :: _, _ :: _, h => by simp [inB_length h.2]
  | [], _ :: _, h => h.elim
  | _ :: _, [], h => h.elim

theorem inB_cons {e es i} : InB (e :: es) i ↔ ∃ a is, i = a :: is ∧ a < e ∧ InB es is := by
  cases i with
  | nil => simp [InB]
  | cons a is =>
    constructor
    · intro h; exact ⟨a, is, rfl, h⟩
    · rintro ⟨b, js, h, h2⟩
      cases h; exact h2

@[simp] theorem inB_nil {i} : InB [] i ↔ i = [] := by
  cases i <;> simp [InB]

@[simp] theorem inB_cons_cons {e es a is} : InB (e :: es) (a :: is) ↔ a < e ∧ InB es is := Iff.rfl

@[simp] theorem not_inB_cons_nil {e es} : ¬ InB (e :: es) [] := fun h => h

theorem inB_prod_pos : ∀ {e i : List Nat}, InB e i → 0 < prod e
  | [], [], _ => by simp [prod]
  | e :: es, a :: is, h => by
    have := inB_prod_pos h.2
    have : 0 < e := by have := h.1; omega
    simp only [prod]; exact Nat.mul_pos this ‹_›
  | [], _ :: _, h => h.elim
  | _ :: _, [], h => h.elim

theorem prod_pos_iff : ∀ {e : List Nat}, 0 < prod e ↔ ∀ x ∈ e, x ≠ 0
  | [] => by simp [prod]
  | e :: es => by
    have := @prod_pos_iff es
    simp only [prod, List.mem_cons, forall_eq_or_imp]
    rw [Nat.pos_iff_ne_zero, Nat.mul_ne_zero_iff, ← this, Nat.pos_iff_ne_zero]

theorem prod_append (a b : List Nat) : prod (a ++ b) = prod a * prod b := by
  induction a with
  | nil => simp [prod]
  | cons x xs ih => simp [prod, ih, Nat.mul_assoc]

theorem cmPos_lt : ∀ {e i : List Nat}, InB e i → cmPos e i < prod e
  | [], [], _ => by simp [prod, cmPos]
  | e :: es, a :: is, h => by
    have ih := cmPos_lt h.2
    have h1 := h.1
    simp only [prod, cmPos]
    calc a + e * cmPos es is < e + e * cmPos es is := by omega
      _ = e * (cmPos es is + 1) := by rw [Nat.mul_add]; omega
      _ ≤ e * prod es := Nat.mul_le_mul_left _ ih
  | [], _ :: _, h => h.elim
  | _ :: _, [], h => h.elim

theorem cmPos_inj : ∀ {e i j : List Nat}, InB e i → InB e j → cmPos e i = cmPos e j → i = j
  | [], i, j, hi, hj, _ => by rw [inB_nil.1 hi, inB_nil.1 hj]
  | e :: es, i, j, hi, hj, h => by
    obtain ⟨a, is, rfl, ha, hi'⟩ := inB_cons.1 hi
    obtain ⟨b, js, rfl, hb, hj'⟩ := inB_cons.1 hj
    simp only [cmPos] at h
    have h1 : a = b := by
      have := congrArg (· % e) h
      simpa [Nat.add_mul_mod_self_left, Nat.mod_eq_of_lt ha, Nat.mod_eq_of_lt hb] using this
    subst h1
    have h2 : cmPos es is = cmPos es js := by
      have h3 : e * cmPos es is = e * cmPos es js := by omega
      exact Nat.eq_of_mul_eq_mul_left (by omega) h3
    rw [cmPos_inj hi' hj' h2]

/-- Inverse of `cmPos`. -/
def unflatten : List Nat → Nat → List Nat
  | [], _ => []
  | e :: es, n => n % e :: unflatten es (n / e)

theorem unflatten_inB : ∀ {e : List Nat} {n}, n < prod e → InB e (unflatten e n)
  | [], _, _ => trivial
  | e :: es, n, h => by
    simp only [prod] at h
    have he : 0 < e := by
      rcases Nat.eq_zero_or_pos e with h0 | h0
      · subst h0; simp at h
      · exact h0
    exact ⟨Nat.mod_lt _ he, unflatten_inB (Nat.div_lt_of_lt_mul h)⟩

theorem cmPos_unflatten : ∀ {e : List Nat} {n}, n < prod e → cmPos e (unflatten e n) = n
  | [], n, h => by simp [prod] at h; simp [cmPos, h]
  | e :: es, n, h => by
    simp only [prod] at h
    simp only [unflatten, cmPos]
    rw [cmPos_unflatten (Nat.div_lt_of_lt_mul h)]
    exact Nat.mod_add_div n e

theorem cmPos_eq_sum : ∀ {e i : List Nat}, i.length = e.length → cmPos e i = cmSum e i
  | [], [], _ => rfl
  | e :: es, a :: is, h => by
    have ih := @cmPos_eq_sum es is (by simpa using h)
    simp only [cmPos, ih, cmSum, List.length_cons, List.range_succ_eq_map, List.map_cons,
      List.map_map, List.sum_cons]
    simp only [List.getD_cons_zero, List.take_zero, prod, Nat.mul_one, Function.comp_def,
      Nat.succ_eq_add_one, List.getD_cons_succ, List.take_succ_cons]
    congr 1
    have : ∀ l : List Nat, e * (l.map fun k => is.getD k 0 * prod (es.take k)).sum
        = (l.map fun k => is.getD k 0 * (e * prod (es.take k))).sum := by
      intro l
      induction l with
      | nil => simp
      | cons x xs ih =>
        simp only [List.map_cons, List.sum_cons, Nat.mul_add, ih]
        congr 1
        exact Nat.mul_left_comm _ _ _
    exact this _

theorem mem_cart : ∀ {ls : List (List α)} {t : List α},
    t ∈ cart ls ↔ List.Forall₂ (fun x l => x ∈ l) t ls
  | [], t => by simp [cart]
  | l :: ls, t => by
    simp only [cart, List.mem_flatMap, List.mem_map, mem_cart (ls := ls)]
    constructor
    · rintro ⟨u, hu, x, hx, rfl⟩
      exact .cons hx hu
    · intro h
      cases h with
      | cons hx hu => exact ⟨_, hu, _, hx, rfl⟩

theorem mem_multiIdx : ∀ {e i : List Nat}, i ∈ multiIdx e ↔ InB e i
  | [], i => by simp [multiIdx, cart]
  | e :: es, i => by
    have := @mem_multiIdx es
    simp only [multiIdx] at this
    simp only [multiIdx, List.map_cons, cart, List.mem_flatMap, List.mem_map, List.mem_range, this,
      inB_cons]
    constructor
    · rintro ⟨t, ht, a, ha, rfl⟩; exact ⟨a, t, rfl, ha, ht⟩
    · rintro ⟨a, t, rfl, ha, ht⟩; exact ⟨t, ht, a, ha, rfl⟩

theorem flatMap_range_add (e n : Nat) :
    (List.range n).flatMap (fun q => (List.range e).map fun a => a + e * q) = List.range (e * n) := by
  induction n with
  | zero => simp
  | succ n ih =>
    rw [List.range_succ, List.flatMap_append, ih, Nat.mul_succ, List.range_add]
    simp [Nat.add_comm]

theorem multiIdx_map_cmPos : ∀ e : List Nat, (multiIdx e).map (cmPos e) = List.range (prod e)
  | [] => rfl
  | e :: es => by
    have ih := multiIdx_map_cmPos es
    simp only [multiIdx] at ih
    simp only [multiIdx, List.map_cons, cart, List.map_flatMap, List.map_map, Function.comp_def,
      cmPos, prod]
    rw [← flatMap_range_add, ← ih, List.flatMap_map]

theorem multiIdx_length (e : List Nat) : (multiIdx e).length = prod e := by
  have := congrArg List.length (multiIdx_map_cmPos e)
  simpa using this

theorem multiIdx_nodup (e : List Nat) : (multiIdx e).Nodup := by
  have h : ((multiIdx e).map (cmPos e)).Nodup := by
    rw [multiIdx_map_cmPos]; exact List.nodup_range
  exact List.Pairwise.of_map (cmPos e) (fun a b h1 h2 => h1 (by rw [h2])) h

theorem multiIdx_getElem? {e i : List Nat} (h : InB e i) : (multiIdx e)[cmPos e i]? = some i := by
  have hlt : cmPos e i < (multiIdx e).length := by rw [multiIdx_length]; exact cmPos_lt h
  rw [List.getElem?_eq_getElem hlt]
  have h1 : cmPos e ((multiIdx e)[cmPos e i]) = cmPos e i := by
    have : ((multiIdx e).map (cmPos e))[cmPos e i]? = some (cmPos e i) := by
      rw [multiIdx_map_cmPos]
      simp [cmPos_lt h]
    rw [List.getElem?_map, List.getElem?_eq_getElem hlt] at this
    simpa using this
  have h2 : InB e ((multiIdx e)[cmPos e i]) := mem_multiIdx.1 (List.getElem_mem _)
  rw [cmPos_inj h2 h h1]

theorem map_multiIdx_getElem? {e i : List Nat} (f : List Nat → β) (h : InB e i) :
    ((multiIdx e).map f)[cmPos e i]? = some (f i) := by
  rw [List.getElem?_map, multiIdx_getElem? h]; rfl

/-- `cart` of arbitrary lists enumerates the choices along the column-major multi-indices. -/
theorem cart_eq_map_choose : ∀ ls : List (List Nat),
    cart ls = (multiIdx (ls.map List.length)).map (choose ls)
  | [] => rfl
  | l :: ls => by
    have ih := cart_eq_map_choose ls
    simp only [multiIdx] at ih
    simp only [multiIdx, List.map_cons, cart, List.map_flatMap]
    rw [ih, List.flatMap_map]
    congr 1
    funext t
    simp only [List.map_map, Function.comp_def, choose]
    apply List.ext_getElem?
    intro k
    simp only [List.getElem?_map]
    rcases Nat.lt_or_ge k l.length with hk | hk
    · simp [hk]
    · simp [hk]

theorem choose_range : ∀ {e i : List Nat}, InB e i → choose (e.map List.range) i = i
  | [], [], _ => rfl
  | e :: es, a :: is, h => by
    simp only [List.map_cons, choose, choose_range h.2]
    simp [h.1]
  | [], _ :: _, h => h.elim
  | _ :: _, [], h => h.elim

theorem choose_inB : ∀ {ls : List (List Nat)} {e j : List Nat},
    List.Forall₂ (fun l x => ∀ y ∈ l, y < x) ls e → InB (ls.map List.length) j → InB e (choose ls j)
  | [], [], [], _, _ => trivial
  | l :: ls, x :: e, a :: js, .cons h1 h2, hj => by
    refine ⟨?_, choose_inB h2 hj.2⟩
    have := hj.1
    rw [List.getD_eq_getElem?_getD, List.getElem?_eq_getElem this]
    exact h1 _ (List.getElem_mem _)
  | [], [], _ :: _, _, h => h.elim
  | _ :: _, _ :: _, [], _, h => h.elim

/-! ### The layout model computes the specification -/

theorem foldl_mul (l : List Nat) (a : Nat) : l.foldl (· * ·) a = a * prod l := by
  induction l generalizing a with
  | nil => simp [prod]
  | cons x xs ih => simp [ih, prod, Nat.mul_assoc]

theorem prodL_exact (l : List Nat) : prodL Arith.exact l = prod l := by
  have := foldl_mul l 1
  simpa [prodL, Arith.exact] using this

theorem posLoop_exact : ∀ (ext idx : List Nat) (stride pos : Nat), idx.length = ext.length →
    Desc.posLoop Arith.exact ext idx stride pos = pos + stride * cmPos ext idx
  | [], [], _, _, _ => by simp [Desc.posLoop, cmPos]
  | e :: es, i :: is, s, p, h => by
    have := posLoop_exact es is (s * e) (p + s * i) (by simpa using h)
    simp only [Desc.posLoop, Arith.exact_add, Arith.exact_mul, this, cmPos, Nat.mul_add]
    rw [Nat.mul_assoc, Nat.add_assoc]

theorem desc_pos_exact {ext idx : List Nat} (h : idx.length = ext.length) :
    Desc.pos Arith.exact ext idx = cmPos ext idx := by
  unfold Desc.pos
  split
  · simp [cmPos]
  · simp [cmPos]
  · rw [posLoop_exact _ _ _ _ h]; simp

theorem desc_size_exact (ext : List Nat) : prodL Arith.exact ext = prod ext := prodL_exact ext

/-- Inner product of a multi-index with strides. -/
def dotP : List Nat → List Nat → Nat
  | i :: is, t :: ts => i * t + dotP is ts
  | _, _ => 0

theorem dot_exact : ∀ (i t : List Nat) (s : Nat), dot Arith.exact i t s = s + dotP i t
  | [], _, s => by simp [dot, dotP]
  | _ :: _, [], s => by simp [dot, dotP]
  | i :: is, t :: ts, s => by
    simp [dot, dotP, dot_exact is ts, Nat.add_assoc]

@[simp] theorem sdesc_pos_exact (d : SDesc) (i : List Nat) :
    d.pos Arith.exact i = d.start + dotP i d.strides := dot_exact _ _ _

theorem sdesc_size_exact (d : SDesc) : d.size Arith.exact = prod d.ext := by
  unfold SDesc.size
  split
  · next h => simp [h, prod]
  · exact prodL_exact _

/-- Column-major strides: `[tmp, tmp*e₀, tmp*e₀*e₁, …]`. -/
def cmStrides : List Nat → Nat → List Nat
  | [], _ => []
  | e :: es, tmp => tmp :: cmStrides es (tmp * e)

theorem cmStrides_length (e : List Nat) (t : Nat) : (cmStrides e t).length = e.length := by
  induction e generalizing t with
  | nil => rfl
  | cons a as ih => simp [cmStrides, ih]

theorem dotP_cmStrides : ∀ (e i : List Nat) (t : Nat), i.length = e.length →
    dotP i (cmStrides e t) = t * cmPos e i
  | [], [], _, _ => by simp [dotP, cmPos]
  | e :: es, a :: is, t, h => by
    have := dotP_cmStrides es is (t * e) (by simpa using h)
    simp only [cmStrides, dotP, cmPos, this, Nat.mul_add]
    rw [Nat.mul_comm a t, Nat.mul_assoc]

theorem inferStrides_exact {chk : Bool} : ∀ {e : List Nat} {t : Nat} {r : List Nat},
    inferStrides Arith.exact chk e t = .ok r ↔
      r = cmStrides e t ∧ (chk = true → ∀ x ∈ e, x ≠ 0)
  | [], t, r => by simp [inferStrides, cmStrides, eq_comm]
  | e :: es, t, r => by
    simp only [inferStrides, res_bind_ok, dbg_ok, cmStrides, Arith.exact_mul]
    constructor
    · rintro ⟨_, h1, r', h2, h3⟩
      obtain ⟨h4, h5⟩ := inferStrides_exact.1 h2
      simp only [Except.ok.injEq] at h3
      subst h3 h4
      refine ⟨rfl, fun hc x hx => ?_⟩
      rcases List.mem_cons.1 hx with rfl | hx
      · simpa using h1 hc
      · exact h5 hc x hx
    · rintro ⟨rfl, h⟩
      refine ⟨(), fun hc => ?_, _, inferStrides_exact.2 ⟨rfl, fun hc x hx => ?_⟩, rfl⟩
      · simpa using h hc e (by simp)
      · exact h hc x (by simp [hx])

/-- The canonical descriptor of a contiguous array. -/
def canon (start : Nat) (e : List Nat) : SDesc := ⟨start, e, cmStrides e 1⟩

theorem mk'_exact {chk : Bool} {s : Nat} {e : List Nat} {d : SDesc} :
    SDesc.mk' Arith.exact chk s e = .ok d ↔
      d = canon s e ∧ (chk = true → e.length ≠ 1 → ∀ x ∈ e, x ≠ 0) := by
  unfold SDesc.mk'
  split
  · simp [canon, cmStrides, eq_comm]
  · next hne =>
    have hl : e.length ≠ 1 := by
      intro h
      match e, h with
      | [a], _ => exact hne a rfl
    simp only [inNoexcept_exact, res_bind_ok, inferStrides_exact, canon, Except.ok.injEq]
    constructor
    · rintro ⟨r, ⟨rfl, h⟩, rfl⟩; exact ⟨rfl, fun hc _ => h hc⟩
    · rintro ⟨rfl, h⟩; exact ⟨_, ⟨rfl, fun hc => h hc hl⟩, rfl⟩

end Jules

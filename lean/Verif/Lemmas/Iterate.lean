import Verif.Lemmas.Index
/-
The iterator state machine of strided descriptors.
-/
namespace Jules
open Spec

theorem not_inB_endIndex : ∀ {e : List Nat}, e ≠ [] → ¬ InB e (endIndex e)
  | [], h => absurd rfl h
  | [e], _ => by simp [endIndex]
  | e :: x :: es, _ => by
    intro h
    exact not_inB_endIndex (by simp) h.2

theorem incr_spec : ∀ {e i : List Nat}, e ≠ [] → InB e i →
    (∃ i', incr e i = .ok i' ∧ InB e i' ∧ cmPos e i' = cmPos e i + 1) ∨
      (incr e i = .ok (endIndex e) ∧ cmPos e i + 1 = prod e)
  | [], _, h, _ => absurd rfl h
  | [e], i, _, hi => by
    obtain ⟨a, is, rfl, ha, his⟩ := inB_cons.1 hi
    have := inB_nil.1 his
    subst this
    rcases Nat.lt_or_ge (a + 1) e with h | h
    · left; exact ⟨[a + 1], rfl, by simp [h], by simp [cmPos]⟩
    · right
      have : a + 1 = e := by omega
      simp [incr, endIndex, cmPos, prod, this]
  | e :: x :: es, i, _, hi => by
    obtain ⟨a, is, rfl, ha, his⟩ := inB_cons.1 hi
    have he : e ≠ 0 := by omega
    rcases Nat.lt_or_ge (a + 1) e with h | h
    · left
      refine ⟨(a + 1) :: is, ?_, ⟨h, his⟩, ?_⟩
      · cases is with
        | nil => simp at his
        | cons b bs => simp [incr, he, Nat.mod_eq_of_lt h]
      · simp only [cmPos]; omega
    · have hae : a + 1 = e := by omega
      cases is with
      | nil => simp at his
      | cons b bs =>
        have hmod : (a + 1) % e = 0 := by rw [hae]; exact Nat.mod_self _
        rcases @incr_spec (x :: es) (b :: bs) (by simp) his with ⟨i', h1, h2, h3⟩ | ⟨h1, h2⟩
        · left
          refine ⟨0 :: i', ?_, ⟨by omega, h2⟩, ?_⟩
          · rw [incr]
            · simp [he, hmod, h1]
            · simp
          · rw [cmPos, h3, Nat.mul_add]
            simp only [cmPos]
            omega
        · right
          refine ⟨?_, ?_⟩
          · rw [incr]
            · simp [he, hmod, h1, endIndex]
            · simp
          · simp only [prod] at h2 ⊢
            rw [← h2]
            simp only [cmPos, Nat.mul_add]
            omega

theorem iterGen_spec (d : SDesc) (he : d.ext ≠ []) :
    ∀ (n fuel : Nat) (i : List Nat), InB d.ext i → prod d.ext - cmPos d.ext i = n → n < fuel →
      iterGen Arith.exact d fuel i =
        .ok (((multiIdx d.ext).drop (cmPos d.ext i)).map (d.pos Arith.exact)) := by
  intro n
  induction n with
  | zero =>
    intro fuel i hi hn
    have := cmPos_lt hi
    omega
  | succ n ih =>
    intro fuel i hi hn hf
    obtain ⟨fuel, rfl⟩ : ∃ f, fuel = f + 1 := ⟨fuel - 1, by omega⟩
    have hne : i ≠ endIndex d.ext := fun h => not_inB_endIndex he (h ▸ hi)
    have hlt := cmPos_lt hi
    have hdrop : (multiIdx d.ext).drop (cmPos d.ext i) =
        i :: (multiIdx d.ext).drop (cmPos d.ext i + 1) := by
      have hl : cmPos d.ext i < (multiIdx d.ext).length := by rw [multiIdx_length]; exact hlt
      rw [List.drop_eq_getElem_cons hl]
      congr 1
      have := multiIdx_getElem? hi
      rw [List.getElem?_eq_getElem hl] at this
      simpa using this
    unfold iterGen
    rw [if_neg hne]
    rcases incr_spec he hi with ⟨i', h1, h2, h3⟩ | ⟨h1, h2⟩
    · rw [h1]
      simp only [res_ok_bind]
      rw [ih fuel i' h2 (by omega) (by omega), h3, hdrop]
      simp
    · rw [h1]
      simp only [res_ok_bind]
      obtain ⟨fuel, rfl⟩ : ∃ f, fuel = f + 1 := ⟨fuel - 1, by omega⟩
      unfold iterGen
      rw [if_pos rfl, hdrop, h2]
      have : (multiIdx d.ext).drop (prod d.ext) = [] := by
        rw [List.drop_eq_nil_iff, multiIdx_length]; exact Nat.le_refl _
      rw [this]
      simp

theorem zeros_inB : ∀ {e : List Nat}, (∀ x ∈ e, x ≠ 0) → InB e (e.map fun _ => 0)
  | [], _ => trivial
  | e :: es, h => ⟨Nat.pos_of_ne_zero (h e (by simp)), zeros_inB fun x hx => h x (by simp [hx])⟩

theorem cmPos_zeros : ∀ (e : List Nat), cmPos e (e.map fun _ => 0) = 0
  | [] => rfl
  | e :: es => by rw [List.map_cons, cmPos, cmPos_zeros es]; simp

theorem iterOne_spec (t : Nat) (ht : 0 < t) : ∀ (n s fuel : Nat), n < fuel →
    iterOne Arith.exact t (s + t * n) fuel s = .ok ((List.range n).map fun i => s + i * t) := by
  intro n
  induction n with
  | zero =>
    intro s fuel hf
    obtain ⟨fuel, rfl⟩ : ∃ f, fuel = f + 1 := ⟨fuel - 1, by omega⟩
    simp [iterOne]
  | succ n ih =>
    intro s fuel hf
    obtain ⟨fuel, rfl⟩ : ∃ f, fuel = f + 1 := ⟨fuel - 1, by omega⟩
    have hne : s ≠ s + t * (n + 1) := by
      have : 0 < t * (n + 1) := Nat.mul_pos ht (by omega)
      omega
    have h := ih (s + t) fuel (by omega)
    have heq : s + t + t * n = s + t * (n + 1) := by rw [Nat.mul_add]; omega
    rw [heq] at h
    unfold iterOne
    rw [if_neg hne]
    simp only [Arith.exact_add, h, res_ok_bind, List.range_succ_eq_map, List.map_cons, List.map_map,
      Nat.zero_mul, Nat.add_zero]
    congr 2
    apply List.map_congr_left
    intro a _
    simp [Nat.succ_mul]
    omega

/-- Well-formed descriptor for iteration: matching ranks, rank ≥ 1; every extent non-zero, or
rank one with a positive stride. -/
def IterOK (d : SDesc) : Prop :=
  d.ext.length = d.strides.length ∧ d.ext ≠ [] ∧
    (d.ext.length = 1 → ∀ t ∈ d.strides, 0 < t) ∧ (d.ext.length ≠ 1 → ∀ x ∈ d.ext, x ≠ 0)

theorem positions_spec {d : SDesc} (h : IterOK d) {fuel : Nat} (hf : prod d.ext < fuel) :
    d.positions Arith.exact fuel = .ok ((multiIdx d.ext).map (d.pos Arith.exact)) := by
  obtain ⟨hl, hne, h1, h2⟩ := h
  unfold SDesc.positions
  split
  · next e t he ht =>
    have := iterOne_spec t (h1 (by simp [he]) t (by simp [ht])) e d.start fuel (by simpa [he, prod] using hf)
    simp only [Arith.exact_add, Arith.exact_mul, this]
    simp [multiIdx, cart, he, ht, List.flatMap, dotP, Function.comp_def]
  · next he => exact absurd he hne
  · next _ hno =>
    have hlen : d.ext.length ≠ 1 := by
      intro hlen
      have hlen' : d.strides.length = 1 := by omega
      match hd : d.ext, hs : d.strides with
      | [e], [t] => exact hno e t hd hs
      | [], _ => simp [hd] at hlen
      | _ :: _ :: _, _ => simp [hd] at hlen
      | [_], [] => simp [hs] at hlen'
      | [_], _ :: _ :: _ => simp [hs] at hlen'
    have hz := zeros_inB (h2 hlen)
    have hp := cmPos_zeros d.ext
    rw [iterGen_spec d hne _ fuel _ hz rfl (by omega), hp]
    simp

end Jules

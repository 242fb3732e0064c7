import Verif.Lemmas.Heap
import Verif.Lemmas.Memory
import Verif.Spec.Init
/-
Lemmas about nested initialiser lists.
-/
namespace Jules
open Spec

theorem descFill_true : ∀ (n : Nat) (v : Nest α n),
    (∃ ext, descFill true n v = .ok ext ∧ ext.length = n ∧ ∀ e ∈ ext, e ≠ 0) ∨ descFill true n v = .error .assert
  | 0, v => .inl ⟨[], rfl, rfl, by simp⟩
  | n + 1, [] => .inr rfl
  | n + 1, (x :: l : List (Nest α n)) => by
    rcases descFill_true n x with ⟨es, h1, h2, h3⟩ | h
    · refine .inl ⟨(l.length + 1) :: es, ?_, by simp [h2], ?_⟩
      · simp [descFill, h1]
      · intro e he
        rcases List.mem_cons.1 he with rfl | he
        · omega
        · exact h3 e he
    · exact .inr (by simp [descFill, h])

theorem descCheck_iff : ∀ (n : Nat) (v : Nest α n) (ext : List Nat), ext.length = n →
    (descCheck n v ext = true ↔ Rect n v ext)
  | 0, v, ext, h => by simp [descCheck, Rect, List.length_eq_zero_iff.1 h]
  | n + 1, (l : List (Nest α n)), e :: es, h => by
    have hes : es.length = n := by simpa using h
    simp only [descCheck, Rect, Bool.and_eq_true, List.all_eq_true, beq_iff_eq]
    constructor
    · rintro ⟨h1, h2⟩
      exact ⟨e, es, rfl, h1, fun x hx => (descCheck_iff n x es hes).1 (h2 x hx)⟩
    · rintro ⟨e', es', he, h1, h2⟩
      cases he
      exact ⟨h1, fun x hx => (descCheck_iff n x es hes).2 (h2 x hx)⟩

theorem rect_length : ∀ {n : Nat} {v : Nest α n} {ext : List Nat}, Rect n v ext → (∀ e ∈ ext, e ≠ 0) →
    ext.length = n
  | 0, v, ext, h, _ => by have h : ext = [] := h; simp [h]
  | n + 1, (l : List (Nest α n)), ext, h, hz => by
    obtain ⟨e, es, rfl, h1, h2⟩ := h
    cases l with
    | nil => exact (hz e (by simp) h1.symm).elim
    | cons x l => simp [rect_length (h2 x (by simp)) fun e he => hz e (by simp [he])]

theorem descFill_rect {chk : Bool} : ∀ {n : Nat} {v : Nest α n} {ext : List Nat}, Rect n v ext →
    (∀ e ∈ ext, e ≠ 0) → descFill chk n v = .ok ext
  | 0, v, ext, h, _ => by have h : ext = [] := h; subst h; rfl
  | n + 1, (l : List (Nest α n)), ext, h, hz => by
    obtain ⟨e, es, rfl, h1, h2⟩ := h
    cases l with
    | nil => exact (hz e (by simp) h1.symm).elim
    | cons x l =>
      have := descFill_rect (chk := chk) (h2 x (by simp)) fun e he => hz e (by simp [he])
      have hl : l.length + 1 = e := h1
      have he : 0 < e := by omega
      simp [descFill, this, hl, he]

theorem calcDesc_rect {chk : Bool} {n : Nat} {v : Nest α n} {ext : List Nat} (h : Rect n v ext)
    (hz : ∀ e ∈ ext, e ≠ 0) : calcDesc chk n v = .ok ext := by
  simp [calcDesc, descFill_rect h hz, (descCheck_iff n v ext (rect_length h hz)).2 h]

theorem calcDesc_iff (n : Nat) (v : Nest α n) (ext : List Nat) :
    (calcDesc true n v = .ok ext ↔ Rect n v ext ∧ ∀ e ∈ ext, e ≠ 0) := by
  constructor
  · intro h
    obtain ⟨e', h1, h2⟩ := res_bind_ok.1 h
    rcases descFill_true n v with ⟨es, h3, h4, h5⟩ | h3
    · rw [h1] at h3; cases h3
      obtain ⟨_, h6, h7⟩ := res_bind_ok.1 h2
      cases h7
      exact ⟨(descCheck_iff n v _ h4).1 (dbg_ok.1 h6 rfl), h5⟩
    · rw [h1] at h3; cases h3
  · rintro ⟨h, hz⟩; exact calcDesc_rect h hz

theorem calcDesc_reject {n : Nat} {v : Nest α n} (h : ¬ ∃ ext, Rect n v ext ∧ ∀ e ∈ ext, e ≠ 0) :
    calcDesc true n v = .error .assert := by
  rcases descFill_true n v with ⟨es, h3, h4, h5⟩ | h3
  · have : descCheck n v es = false := by
      cases hc : descCheck n v es with
      | false => rfl
      | true => exact (h ⟨es, (descCheck_iff n v es h4).1 hc, h5⟩).elim
    simp [calcDesc, h3, this]
  · simp [calcDesc, h3]

/-- Multi-indices in lexicographic order (last index fastest). -/
def lexIdx : List Nat → List (List Nat)
  | [] => [[]]
  | e :: es => (List.range e).flatMap fun i => (lexIdx es).map (i :: ·)

theorem mem_lexIdx : ∀ {e i : List Nat}, i ∈ lexIdx e ↔ InB e i
  | [], i => by simp [lexIdx]
  | e :: es, i => by
    simp only [lexIdx, List.mem_flatMap, List.mem_range, List.mem_map]
    constructor
    · rintro ⟨a, ha, t, ht, rfl⟩
      exact ⟨ha, mem_lexIdx.1 ht⟩
    · intro h
      obtain ⟨a, t, rfl, ha, ht⟩ := inB_cons.1 h
      exact ⟨a, ha, t, mem_lexIdx.2 ht, rfl⟩

theorem lexIdx_nodup : ∀ e : List Nat, (lexIdx e).Nodup
  | [] => by simp [lexIdx]
  | e :: es => by
    rw [lexIdx, List.nodup_flatMap]
    refine ⟨fun i _ => (lexIdx_nodup es).map fun a b h => by simpa using h, ?_⟩
    refine List.nodup_range.imp fun {a b} hab => ?_
    intro x hx hy
    simp only [List.mem_map] at hx hy
    obtain ⟨t, _, rfl⟩ := hx
    obtain ⟨u, _, hu⟩ := hy
    exact hab (by simpa using (congrArg List.head? hu).symm)

theorem foldlM_append {f : β → Res (List γ)} {g : β → List γ} : ∀ (l : List β) (acc : List γ),
    (∀ a ∈ l, f a = .ok (g a)) →
    l.foldlM (fun acc a => do let p ← f a; (.ok (acc ++ p) : Res (List γ))) acc = .ok (acc ++ l.flatMap g)
  | [], acc, _ => by simp
  | a :: l, acc, h => by
    simp only [List.foldlM_cons, h a (by simp), res_ok_bind]
    rw [foldlM_append l (acc ++ g a) fun b hb => h b (by simp [hb])]
    simp [List.flatMap_cons, List.append_assoc]

theorem nestGet_ne_none : ∀ {n : Nat} {v : Nest α n} {ext i : List Nat}, Rect n v ext → InB ext i →
    nestGet n v i ≠ none
  | 0, v, ext, i, h, hi => by
    have h : ext = [] := h
    subst h
    rw [inB_nil] at hi; subst hi
    simp [nestGet]
  | n + 1, (l : List (Nest α n)), ext, i, h, hi => by
    obtain ⟨e, es, rfl, h1, h2⟩ := h
    obtain ⟨a, t, rfl, ha, ht⟩ := inB_cons.1 hi
    have hlt : a < l.length := by rw [h1]; exact ha
    rw [nestGet, List.getElem?_eq_getElem hlt]
    exact nestGet_ne_none (h2 _ (List.getElem_mem hlt)) ht

/-- The plan visits the multi-indices in lexicographic order. -/
theorem initPlan_eq (ext : List Nat) : ∀ {n : Nat} {v : Nest α n} {rest idx : List Nat}, Rect n v rest →
    initPlan ext n v rest idx = .ok ((lexIdx rest).filterMap fun i =>
      (nestGet n v i).map fun x => (Desc.pos Arith.exact ext (idx ++ i), x))
  | 0, v, rest, idx, h => by
    have h : rest = [] := h
    subst h
    change Except.ok [(Desc.pos Arith.exact ext idx, (v : α))] = Except.ok [(Desc.pos Arith.exact ext (idx ++ []), (v : α))]
    rw [List.append_nil]
  | n + 1, (l : List (Nest α n)), rest, idx, h => by
    obtain ⟨e, es, rfl, h1, h2⟩ := h
    simp only [initPlan]
    have hstep : ∀ i ∈ List.range e, ((fun i => match l[i]? with
        | some x => initPlan ext n x es (idx ++ [i])
        | none => .error .ub) : Nat → Res (List (Nat × α))) i =
        .ok ((fun i => (lexIdx es).filterMap fun t => ((l[i]?).bind fun x => nestGet n x t).map fun x =>
          (Desc.pos Arith.exact ext (idx ++ i :: t), x)) i) := by
      intro i hi
      have hlt : i < l.length := by rw [h1]; exact List.mem_range.1 hi
      simp only [List.getElem?_eq_getElem hlt]
      rw [initPlan_eq ext (h2 _ (List.getElem_mem hlt))]
      simp
    have := foldlM_append (List.range e) [] hstep
    simp only [List.nil_append] at this
    rw [lexIdx, List.filterMap_flatMap]
    simp only [List.filterMap_map, Function.comp_def, nestGet]
    rw [← this]
    congr 1
    funext acc i
    cases l[i]? <;> rfl

end Jules

import Verif.Props.ReadWrite
import Verif.Props.Cat
import Verif.Props.Assign
/-
C49-C51: head, to_matrix, to_view and to_vector.
-/
namespace Jules.Props
open Spec

/-! ### C49 -/

/-- The columns have the same name and type, and `c'` has the first `n` elements of `c`. -/
def FirstRows {C : Coercion} (n : Nat) (c c' : Named C) : Prop :=
  c'.name = c.name ∧ ∃ S xs ys, c.col = Column.ofList S xs ∧ c'.col = Column.ofList S ys ∧ ys.length = n ∧
    ∀ (k : Nat), k < n → ys[k]? = xs[k]?

theorem registerNames_ok {C : Coercion} : ∀ {es : List (Named C)} {i : Nat} {ix : List (Txt × Nat)},
    (∀ e ∈ es, e.name = [] ∨ findName ix e.name = none) →
    (∀ (i j : Nat) e f, es[i]? = some e → es[j]? = some f → e.name ≠ [] → e.name = f.name → i = j) →
    ∃ ix', registerNames es i ix = .ok ix' := by
  intro es
  induction es with
  | nil => intro i ix _ _; exact ⟨ix, rfl⟩
  | cons e es ih =>
    intro i ix h1 h2
    have htail : ∀ (i j : Nat) e f, es[i]? = some e → es[j]? = some f → e.name ≠ [] → e.name = f.name → i = j := by
      intro i j a b ha hb hne hab
      have := h2 (i + 1) (j + 1) a b (by simpa using ha) (by simpa using hb) hne hab
      omega
    unfold registerNames
    by_cases h0 : e.name = []
    · rw [if_neg (by simp [h0])]
      exact ih (fun x hx => h1 x (by simp [hx])) htail
    · rw [if_pos h0, if_neg (by simp [(h1 e (by simp)).resolve_left h0])]
      refine ih (fun x hx => ?_) htail
      by_cases hx0 : x.name = []
      · exact Or.inl hx0
      right
      rw [findName_cons, if_neg]
      · exact (h1 x (by simp [hx])).resolve_left hx0
      · intro hex
        obtain ⟨k, hk⟩ := List.getElem?_of_mem hx
        have := h2 0 (k + 1) e x rfl (by simpa using hk) h0 hex
        omega

theorem pushSized_ok {C : Coercion} {rows : Nat} : ∀ {es acc : List (Named C)}, (∀ e ∈ es, Column.size e.col = rows) →
    pushSized rows (es.map Except.ok) acc = .ok (acc ++ es, true) := by
  intro es
  induction es with
  | nil => intro acc _; simp [pushSized]
  | cons e es ih =>
    intro acc h
    simp only [List.map_cons]
    unfold pushSized
    simp only [res_ok_bind]
    rw [if_pos (h e (by simp)), ih (fun x hx => h x (by simp [hx]))]
    simp

/-- The list constructor accepts columns of equal size with distinct names. -/
theorem ofIter_ok {C : Coercion} {es : List (Named C)} {n : Nat} (hne : es ≠ []) (hs : ∀ e ∈ es, Column.size e.col = n)
    (hu : ∀ (i j : Nat) e f, es[i]? = some e → es[j]? = some f → e.name ≠ [] → e.name = f.name → i = j) :
    ∃ ix, DF.ofIter (es.map Except.ok) = .ok ⟨n, es, ix⟩ := by
  obtain ⟨e, es, rfl⟩ := List.exists_cons_of_ne_nil hne
  obtain ⟨ix, hix⟩ := registerNames_ok (i := 0) (ix := []) (es := e :: es) (by intro x _; exact Or.inr rfl) hu
  refine ⟨ix, ?_⟩
  unfold DF.ofIter
  simp only [List.map_cons, res_ok_bind]
  have he : Column.size e.col = n := hs e (by simp)
  rw [he, pushSized_ok (fun x hx => hs x (by simp [hx]))]
  simp only [res_ok_bind, if_true, List.singleton_append]
  rw [hix]
  rfl

/-- C49 (the part that holds): for a data frame with at least one column, at least one row, no column without data and distinct names,
`head(n)` with `n <= row_count()` has the first `n` rows. Missing: data frames without columns or rows, see `C49_empty`, `C49_no_rows`. -/
theorem C49_head_partial {C : Coercion} (d : DF C) (n : Nat) (hn : n ≤ d.rows) (hr : Rectangular d) (hne : d.elems ≠ []) (hpos : 0 < d.rows)
    (hu : UniqueNames d) (hx : d.rows < 2 ^ 64) :
    ∃ d', d.head n = .ok d' ∧ d'.rows = n ∧ d'.elems.length = d.elems.length ∧
      ∀ (k : Nat) c, d.elems[k]? = some c → ∃ c', d'.elems[k]? = some c' ∧ FirstRows n c c' := by
  have cut : ∀ e ∈ d.elems, ∃ e', (do
      let c ← Column.partialCopy Arith.u64 e.col 0 n
      .ok (⟨e.name, c⟩ : Named C) : Res (Named C)) = .ok e' ∧ FirstRows n e e' := by
    intro e he
    have hsz := hr e he
    obtain ⟨name, col⟩ := e
    cases col with
    | none => simp only [Column.size] at hsz; omega
    | some m =>
      obtain ⟨S, xs⟩ := m
      simp only [Column.size, Model.size] at hsz
      obtain ⟨ys, h1, h2, h3⟩ := (C41_partial_copy_partial S xs 0 n (by omega)).1 (by omega)
      refine ⟨⟨name, Column.ofList S ys⟩, ?_, rfl, S, xs, ys, rfl, rfl, h2, ?_⟩
      · show (Column.partialCopy Arith.u64 (Column.ofList S xs) 0 n >>= _) = _
        rw [h1]; rfl
      · intro k hk; rw [h3 k hk, Nat.zero_add]
  have lst : ∀ l : List (Named C), (∀ e ∈ l, e ∈ d.elems) → ∃ es : List (Named C), l.map (fun e => (do
      let c ← Column.partialCopy Arith.u64 e.col 0 n
      .ok (⟨e.name, c⟩ : Named C) : Res (Named C))) = es.map Except.ok ∧
      List.Forall₂ (FirstRows n) l es := by
    intro l
    induction l with
    | nil => intro _; exact ⟨[], rfl, .nil⟩
    | cons e l ih =>
      intro hl
      obtain ⟨es, h1, h2⟩ := ih fun x hx => hl x (by simp [hx])
      obtain ⟨e', h3, h4⟩ := cut e (hl e (by simp))
      exact ⟨e' :: es, by rw [List.map_cons, h1, h3]; rfl, .cons h4 h2⟩
  obtain ⟨es, he, hf⟩ := lst d.elems fun _ h => h
  have hlen := hf.length_eq
  have get : ∀ (k : Nat) c', es[k]? = some c' → ∃ c, d.elems[k]? = some c ∧ FirstRows n c c' := by
    intro k c' hk
    have hk' := (List.getElem?_eq_some_iff.1 hk).1
    refine ⟨d.elems[k], List.getElem?_eq_getElem (by omega), ?_⟩
    have := List.forall₂_iff_get.1 hf
    have h := this.2 k (by omega) hk'
    simp only [List.get_eq_getElem] at h
    rwa [(List.getElem?_eq_some_iff.1 hk).2] at h
  have hsize : ∀ e ∈ es, Column.size e.col = n ∧ e.col ≠ none := by
    intro e hm
    obtain ⟨k, hk⟩ := List.getElem?_of_mem hm
    obtain ⟨c, -, -, S, xs, ys, -, h1, h2, -⟩ := get k e hk
    rw [h1]
    exact ⟨h2, by intro h; cases h⟩
  obtain ⟨ix, hix⟩ := ofIter_ok (es := es) (n := n) (by
      intro h; rw [h] at hlen; exact hne (List.length_eq_zero_iff.1 hlen)) (fun e h => (hsize e h).1) (by
      intro i j a b ha hb h0 hab
      obtain ⟨c, hc, hcn, -⟩ := get i a ha
      obtain ⟨c', hc', hcn', -⟩ := get j b hb
      exact hu i j c c' hc hc' (hcn ▸ h0) (by rw [← hcn, ← hcn', hab]))
  refine ⟨⟨n, es, ix⟩, ?_, rfl, hlen.symm, ?_⟩
  · unfold DF.head
    rw [if_neg (by omega), he, hix]
    simp only [res_ok_bind, DF.copy]
    have : es.mapM Named.copy = .ok es := by
      rw [mapM_ok_iff]
      refine ⟨rfl, fun k e hk => ⟨e, hk, ?_⟩⟩
      have := (hsize e (List.mem_of_getElem? hk)).2
      obtain ⟨name, col⟩ := e
      cases col with
      | none => exact absurd rfl this
      | some m => rfl
    rw [this]
    rfl
  · intro k c hk
    have hk' := (List.getElem?_eq_some_iff.1 hk).1
    obtain ⟨c2, hc2, h2⟩ := get k (es[k]'(by omega)) (List.getElem?_eq_getElem (by omega))
    rw [hk] at hc2
    cases hc2
    exact ⟨_, List.getElem?_eq_getElem (show k < es.length by omega), h2⟩

theorem FirstRows.unique {C : Coercion} {n : Nat} {c a b : Named C} (ha : FirstRows n c a) (hb : FirstRows n c b) : a = b := by
  obtain ⟨h1, S, xs, ys, hc, h2, h3, h4⟩ := ha
  obtain ⟨k1, S', xs', zs, hc', k2, k3, k4⟩ := hb
  rw [hc] at hc'
  simp only [Column.ofList, Option.some.injEq, Model.mk.injEq] at hc'
  obtain ⟨rfl, hx⟩ := hc'
  cases hx
  have : ys = zs := by
    apply List.ext_getElem?
    intro k
    rcases Nat.lt_or_ge k n with hk | hk
    · rw [h4 k hk, k4 k hk]
    · rw [List.getElem?_eq_none (by omega), List.getElem?_eq_none (by omega)]
  subst this
  obtain ⟨na, ca⟩ := a
  obtain ⟨nb, cb⟩ := b
  simp only at h1 h2 k1 k2
  rw [h1, h2, k1, k2]

theorem FirstRows.trans {C : Coercion} {n m : Nat} (hnm : n ≤ m) {c a b : Named C} (ha : FirstRows m c a) (hb : FirstRows n a b) : FirstRows n c b := by
  obtain ⟨h1, S, xs, ys, hc, h2, h3, h4⟩ := ha
  obtain ⟨k1, S', xs', zs, hc', k2, k3, k4⟩ := hb
  rw [h2] at hc'
  simp only [Column.ofList, Option.some.injEq, Model.mk.injEq] at hc'
  obtain ⟨rfl, hx⟩ := hc'
  cases hx
  exact ⟨k1.trans h1, S, xs, zs, hc, k2, k3, fun k hk => by rw [k4 k hk, h4 k (by omega)]⟩

/-- C49 (same hypotheses): `df | head(m) | head(n)` with `n <= m` is `df | head(n)`. -/
theorem C49_head_head_partial {C : Coercion} (d : DF C) (n m : Nat) (hnm : n ≤ m) (hm : m ≤ d.rows) (h0 : 0 < m) (hr : Rectangular d) (hne : d.elems ≠ [])
    (hu : UniqueNames d) (hx : d.rows < 2 ^ 64) :
    ∃ d1 d2 d3, d.head m = .ok d1 ∧ d1.head n = .ok d2 ∧ d.head n = .ok d3 ∧ d2.rows = d3.rows ∧ d2.elems = d3.elems := by
  obtain ⟨d1, e1, r1, l1, f1⟩ := C49_head_partial d m hm hr hne (by omega) hu hx
  obtain ⟨d3, e3, r3, l3, f3⟩ := C49_head_partial d n (by omega) hr hne (by omega) hu hx
  have back : ∀ (k : Nat) c', d1.elems[k]? = some c' → ∃ c, d.elems[k]? = some c ∧ FirstRows m c c' := by
    intro k c' hk
    have hk' := (List.getElem?_eq_some_iff.1 hk).1
    obtain ⟨c2, hc2, hf⟩ := f1 k d.elems[k] (List.getElem?_eq_getElem (by omega))
    rw [hk] at hc2
    cases hc2
    exact ⟨_, List.getElem?_eq_getElem (by omega), hf⟩
  obtain ⟨d2, e2, r2, l2, f2⟩ := C49_head_partial d1 n (by omega)
    (by
      intro e he
      obtain ⟨k, hk⟩ := List.getElem?_of_mem he
      obtain ⟨c, -, -, S, xs, ys, -, h1, h2, -⟩ := back k e hk
      rw [h1, r1]
      exact h2)
    (by intro h; rw [h] at l1; exact hne (List.length_eq_zero_iff.1 l1.symm))
    (by omega)
    (by
      intro i j a b ha hb hn hab
      obtain ⟨c, hc, hcn, -⟩ := back i a ha
      obtain ⟨c', hc', hcn', -⟩ := back j b hb
      exact hu i j c c' hc hc' (hcn ▸ hn) (by rw [← hcn, ← hcn', hab]))
    (by omega)
  refine ⟨d1, d2, d3, e1, e2, e3, by omega, ?_⟩
  apply List.ext_getElem?
  intro k
  rcases Nat.lt_or_ge k d.elems.length with hk | hk
  · have hk0 := List.getElem?_eq_getElem (l := d.elems) hk
    obtain ⟨c1, hc1, g1⟩ := f1 k _ hk0
    obtain ⟨c2, hc2, g2⟩ := f2 k _ hc1
    obtain ⟨c3, hc3, g3⟩ := f3 k _ hk0
    rw [hc2, hc3, (g1.trans hnm g2).unique g3]
  · rw [List.getElem?_eq_none (by omega), List.getElem?_eq_none (by omega)]

/-- C49: asking for more rows than there are is reported. -/
theorem C49_too_many {C : Coercion} (d : DF C) (n : Nat) (hn : d.rows < n) : d.head n = .error (.exc .outOfRange) := by
  unfold DF.head; rw [if_pos hn]

/-- C49 fails for the empty data frame: even `head(0)` is undefined behaviour. -/
theorem C49_empty {C : Coercion} : (DF.empty : DF C).head 0 = .error .ub := rfl

/-- C49 fails for data frames without rows: `head(0)` throws. -/
theorem C49_no_rows {C : Coercion} (d : DF C) (e : Named C) (es : List (Named C)) (hd : d.elems = e :: es) (S : C.Ty)
    (he : e.col = Column.ofList S []) : d.head 0 = .error (.exc .outOfRange) := by
  unfold DF.head
  rw [if_neg (by omega), hd]
  unfold DF.ofIter
  simp only [List.map_cons, he]
  have : Column.partialCopy Arith.u64 (Column.ofList S ([] : List (C.Val S))) 0 0 = .error (.exc .outOfRange) := C41_empty_at_end S []
  rw [this]
  rfl

example : ((⟨3, [⟨['x'], icol [1, 2, 3]⟩, ⟨[], icol [4, 5, 6]⟩], []⟩ : DF (julesRules fpEx)).head 2) =
    .ok ⟨2, [⟨['x'], icol [1, 2]⟩, ⟨[], icol [4, 5]⟩], [(['x'], 0)]⟩ := by decide +kernel

example : ((⟨3, [⟨['x'], icol [1, 2, 3]⟩, ⟨[], icol [4, 5, 6]⟩], []⟩ : DF (julesRules fpEx)).head 2 >>= (·.head 1)) =
    (⟨3, [⟨['x'], icol [1, 2, 3]⟩, ⟨[], icol [4, 5, 6]⟩], []⟩ : DF (julesRules fpEx)).head 1 := by decide +kernel

/-! ### Conversion of a column -/

/-- `ys` are the elements of the column `c` converted to `T` (unchanged if they already have this type). -/
def Converted {C : Coercion} (T : C.Ty) (c : Column C) (ys : List (C.Val T)) : Prop :=
  ∃ S xs, c = Column.ofList S xs ∧ ((∃ h : S = T, ys = h ▸ xs) ∨
    (S ≠ T ∧ ∃ f, convFn C S T = some f ∧ ys.length = xs.length ∧ ∀ (k : Nat) x, xs[k]? = some x → ∃ y, ys[k]? = some y ∧ f x = .ok y))

theorem Converted.size {C : Coercion} {T : C.Ty} {c : Column C} {ys : List (C.Val T)} (h : Converted T c ys) : Column.size c = ys.length := by
  obtain ⟨S, xs, rfl, ⟨rfl, rfl⟩ | ⟨-, f, -, h, -⟩⟩ := h
  · rfl
  · exact h.symm

theorem data_ofList {C : Coercion} (T : C.Ty) (ys : List (C.Val T)) : (Column.ofList T ys).data T = .ok ys := by
  simp [Column.ofList, Column.data]

theorem columnAs_iff {C : Coercion} (T : C.Ty) (c : Column C) (ys : List (C.Val T)) : columnAs T c = .ok ys ↔ Converted T c ys := by
  unfold columnAs
  cases c with
  | none =>
    constructor
    · intro h; cases h
    · rintro ⟨S, xs, h, -⟩; cases h
  | some m =>
    obtain ⟨S, xs⟩ := m
    simp only [Column.elementsType, res_ok_bind]
    by_cases hS : S = T
    · subst hS
      simp only [if_true]
      rw [show (some ⟨S, xs⟩ : Column C) = Column.ofList S xs from rfl, data_ofList]
      constructor
      · intro h; cases h; exact ⟨S, xs, rfl, Or.inl ⟨rfl, rfl⟩⟩
      · rintro ⟨S', xs', h, hh⟩
        unfold Column.ofList at h
        injection h with h
        injection h with h1 h2
        subst h1
        cases eq_of_heq h2
        rcases hh with ⟨_, rfl⟩ | ⟨h, -⟩
        · rfl
        · exact absurd rfl h
    · rw [if_neg hS]
      have key := C39_coerce_ok (C := C) S T xs
      constructor
      · intro h
        rw [res_bind_ok] at h
        obtain ⟨c', h1, h2⟩ := h
        have h3 : (Column.ofList S xs).coerce T = (.ok (), c') := by
          unfold toColumn at h1
          simp only at h1
          rw [res_bind_ok] at h1
          obtain ⟨m', hm, h1⟩ := h1
          cases h1
          unfold Column.coerce Column.ofList
          simp only [hm]
        obtain ⟨f, ys', hf, rfl, hl, hv⟩ := (key c').1 h3
        rw [data_ofList] at h2
        cases h2
        exact ⟨S, xs, rfl, Or.inr ⟨hS, f, hf, hl, hv⟩⟩
      · rintro ⟨S', xs', h, hh⟩
        unfold Column.ofList at h
        injection h with h
        injection h with h1 h2
        subst h1
        cases eq_of_heq h2
        rcases hh with ⟨h, -⟩ | ⟨-, f, hf, hl, hv⟩
        · exact absurd h hS
        · have h3 := (key (Column.ofList T ys)).2 ⟨f, ys, hf, rfl, hl, hv⟩
          unfold Column.coerce Column.ofList at h3
          simp only at h3
          unfold toColumn
          simp only
          cases hm : (⟨S, xs⟩ : Model C).coerce T with
          | error e => rw [hm] at h3; cases h3
          | ok m' =>
            rw [hm] at h3
            simp only [Prod.mk.injEq, Option.some.injEq, true_and] at h3
            subst h3
            simp only [res_ok_bind]
            exact data_ofList T ys

/-! ### C50 -/

theorem pushColumn_eq (S : Nat → Bool) (chk : Bool) (col : List α) : ∀ (n i : Nat) (b : Builder), i + n ≤ col.length →
    pushColumn S chk col i n b = catPush S chk b (((col.drop i).take n).map pure) := by
  intro n
  induction n with
  | zero => intro i b _; simp [pushColumn, catPush]
  | succ n ih =>
    intro i b hi
    have hlt : i < col.length := by omega
    rw [List.drop_eq_getElem_cons hlt, List.take_succ_cons, List.map_cons]
    unfold pushColumn catPush
    rw [List.getElem?_eq_getElem hlt]
    simp only [ih (i + 1) _ (by omega)]
    rfl

theorem post_pushColumns {S : Nat → Bool} {chk : Bool} {n : Nat} {h0 : Heap α} : ∀ {cols : List (List α)} {vs : List α}
    {b : Builder} {h : Heap α}, Building h b vs → b.ptr = some h0.blocks.length → Same h0.blocks.length h0 h →
    (∀ c ∈ cols, c.length = n) → vs.length + cols.flatten.length ≤ prod b.ext →
    Post (pushColumns S chk n cols b h)
      (fun b' h' => Building h' b' (vs ++ cols.flatten) ∧ b'.ext = b.ext ∧ b'.ptr = some h0.blocks.length ∧ Same h0.blocks.length h0 h')
      (fun _ h' => Thr S ∧ Untouched h0 h')
  | [], vs, b, h, hb, hp, hs, _, _ => by
    simp only [pushColumns]
    exact post_pure ⟨by simpa using hb, rfl, hp, hs⟩
  | c :: cols, vs, b, h, hb, hp, hs, hc, hroom => by
    simp only [pushColumns]
    simp only [List.flatten_cons, List.length_append] at hroom
    have hl : c.length = n := hc c (by simp)
    have he := pushColumn_eq S chk c n 0 b (by omega)
    rw [List.drop_zero, List.take_of_length_le (by omega)] at he
    rw [he]
    refine post_bind (post_catPush (ws := c) (cells_fresh h0) hb hp hs (by simp) ?_ (by omega)) ?_
    · intro k src v h1 h2
      rw [List.getElem?_map, h2] at h1
      cases h1
      exact good_pure _
    · rintro b' h' ⟨r1, r2, r3, r4⟩
      refine (post_pushColumns r1 r3 r4 (fun x hx => hc x (by simp [hx])) (by rw [r2, List.length_append]; omega)).mono ?_ (fun _ _ h => h)
      rintro b2 h2 ⟨s1, s2, s3, s4⟩
      exact ⟨by simpa using s1, s2.trans r2, s3, s4⟩

theorem flatten_get {n : Nat} : ∀ {cols : List (List α)}, (∀ c ∈ cols, c.length = n) → ∀ {i j : Nat}, i < n →
    cols.flatten[i + n * j]? = (cols[j]?).bind fun c => c[i]? := by
  intro cols
  induction cols with
  | nil => intro _ i j _; simp
  | cons c cols ih =>
    intro hc i j hi
    have hl : c.length = n := hc c (by simp)
    cases j with
    | zero => rw [List.flatten_cons, List.getElem?_append_left (by omega)]; simp
    | succ j =>
      rw [List.flatten_cons, List.getElem?_append_right (by rw [Nat.mul_succ]; omega), List.getElem?_cons_succ, ← ih (fun x hx => hc x (by simp [hx])) hi]
      congr 1
      rw [Nat.mul_succ, hl]
      omega

theorem flatten_len {n : Nat} : ∀ {cols : List (List α)}, (∀ c ∈ cols, c.length = n) → cols.flatten.length = n * cols.length := by
  intro cols
  induction cols with
  | nil => simp
  | cons c cols ih =>
    intro hc
    rw [List.flatten_cons, List.length_append, ih (fun x hx => hc x (by simp [hx])), hc c (by simp), List.length_cons, Nat.mul_succ]
    omega

/-- **C50.** If the elements of column `j` converted to `T` are `cols[j]`, then `to_matrix<T>(df)`, unless an allocation or an
element copy throws, is a new matrix with extents (rows, columns) whose element `(i, j)` is the `i`-th of `cols[j]`; nothing else in memory changes.
If something throws, everything is as before and nothing is leaked. -/
theorem C50_to_matrix {C : Coercion} {S : Nat → Bool} {chk : Bool} {T : C.Ty} {d : DF C} {cols : List (List (C.Val T))} {h : Heap (C.Val T)}
    (hr : Rectangular d) (hc : List.Forall₂ (fun e ys => Converted T e.col ys) d.elems cols) :
    Post (toMatrix S chk T d h)
      (fun o h' => o.ext = [d.rows, d.elems.length] ∧
        (∀ i j, i < d.rows → j < d.elems.length →
          Reads (contents h' o) (.cref 0 [d.rows, d.elems.length]) [i, j] ((cols[j]?).bind fun c => c[i]?)) ∧
        h'.lost = h.lost ∧ ∀ k, k ≠ h.blocks.length → h'.cells k = h.cells k)
      (fun _ h' => Thr S ∧ Untouched h h') := by
  have hlen := hc.length_eq
  have hmap : (d.elems.mapM fun e => columnAs T e.col) = .ok cols := by
    rw [mapM_ok_iff]
    refine ⟨hlen.symm, fun k e hk => ?_⟩
    have hk' := (List.getElem?_eq_some_iff.1 hk).1
    refine ⟨cols[k]'(by omega), List.getElem?_eq_getElem (by omega), ?_⟩
    rw [columnAs_iff]
    have := (List.forall₂_iff_get.1 hc).2 k hk' (by omega)
    simp only [List.get_eq_getElem] at this
    rwa [(List.getElem?_eq_some_iff.1 hk).2] at this
  have hsz : ∀ c ∈ cols, c.length = d.rows := by
    intro c hm
    obtain ⟨k, hk⟩ := List.getElem?_of_mem hm
    have hk' := (List.getElem?_eq_some_iff.1 hk).1
    have := (List.forall₂_iff_get.1 hc).2 k (by omega) hk'
    simp only [List.get_eq_getElem] at this
    rw [(List.getElem?_eq_some_iff.1 hk).2] at this
    rw [← this.size]
    exact hr _ (List.getElem_mem _)
  unfold toMatrix
  rw [hmap]
  refine post_bind (R := fun cs h' => cs = cols ∧ h' = h) ⟨rfl, rfl⟩ ?_
  rintro cs h' ⟨rfl, rfl⟩
  rename' cs => cols, h' => h
  refine post_bind (R := fun b h' => b.ext = [d.rows, d.elems.length] ∧ Building h' b [] ∧ b.ptr = some h.blocks.length ∧ Same h.blocks.length h h') ?_ ?_
  · unfold builderNew
    refine post_bind (post_allocate.mono (fun _ _ h => h) fun e h' ⟨_, t, a, b⟩ => ⟨t, a, b⟩) ?_
    rintro id h1 ⟨rfl, h1c, h1s⟩
    exact post_pure ⟨rfl, ⟨rfl, Nat.zero_le _, _, rfl, by simpa [prodL_exact] using h1c⟩, rfl, h1s⟩
  · rintro b h1 ⟨e1, e2, e3, e4⟩
    have hfl := flatten_len hsz
    refine post_bind (post_pushColumns e2 e3 e4 hsz (by rw [e1, hfl]; simp [prod, hlen])) ?_
    rintro b' h2 ⟨f1, f2, f3, f4⟩
    have hext : b'.ext = [d.rows, d.elems.length] := f2.trans e1
    obtain ⟨o, r1, r2, r3⟩ := (C26_release (chk := chk) f1 (by rw [hext]; simp)).1 (by rw [hext]; simp [prod, hfl, hlen])
    rw [r1]
    rw [hext] at r2
    refine ⟨r2.dims, ?_, f4.lost, f4.cells⟩
    intro i j hi hj
    have := r2.element [i, j] ⟨hi, hj, trivial⟩
    have hcm : cmSum [d.rows, d.elems.length] [i, j] = i + d.rows * j := by
      simp [cmSum, prod, List.range_succ, Nat.mul_comm]
    rw [hcm, List.nil_append, flatten_get hsz hi] at this
    exact this

/-- C50: if a column cannot be converted, the exception of the first such column is reported, before anything is allocated. -/
theorem C50_rejected {C : Coercion} {S : Nat → Bool} {chk : Bool} {T : C.Ty} {d : DF C} {h : Heap (C.Val T)} {k : Nat} {e : Named C} {x : Exn}
    (hk : d.elems[k]? = some e) (hx : (Column.coerce e.col T).1 = .error (.exc x)) (hT : ∀ xs, e.col ≠ Column.ofList T xs)
    (hb : ∀ (j : Nat) f, j < k → d.elems[j]? = some f → ∃ ys, Converted T f.col ys) : toMatrix S chk T d h = .exn x h := by
  have hmap : (d.elems.mapM fun e => columnAs T e.col) = .error (.exc x) := by
    rw [mapM_error_iff]
    refine ⟨k, e, hk, ?_, fun j hj z hz => ?_⟩
    · unfold columnAs
      obtain ⟨name, col⟩ := e
      cases col with
      | none => simpa [Column.coerce, Column.elementsType] using hx
      | some m =>
        obtain ⟨S', xs⟩ := m
        simp only [Column.elementsType, res_ok_bind]
        rw [if_neg (by rintro rfl; exact hT xs rfl)]
        simp only [Column.coerce] at hx
        unfold toColumn
        simp only
        cases hm : (⟨S', xs⟩ : Model C).coerce T with
        | ok m' => rw [hm] at hx; cases hx
        | error e' =>
          rw [hm] at hx
          cases hx
          rfl
    · obtain ⟨ys, hys⟩ := hb j z hj hz
      exact ⟨ys, (columnAs_iff T z.col ys).2 hys⟩
  unfold toMatrix
  rw [hmap]
  rfl

/-- A data frame with an integer and a text column, as a matrix of integers. -/
example : (match toMatrix (C := julesRules fpEx) (fun _ => false) true JTy.integer ⟨2, [⟨['x'], icol [1, 2]⟩, ⟨['y'], tcol [['3'], ['-', '4']]⟩], []⟩
      ⟨[], 0, 0⟩ with
    | .ok o h => some (o, h.blocks)
    | _ => none) = some (⟨some 0, [2, 2]⟩, [some [some (1 : Int32), some (2 : Int32), some (3 : Int32), some (-4 : Int32)]]) := by decide +kernel

/-! ### C51 -/

theorem storage_ofList {C : Coercion} (T : C.Ty) (ys : List (C.Val T)) (k : Nat) : Column.storage T (Column.ofList T ys) k = ys[k]? := by
  unfold Column.storage
  rw [data_ofList]

/-- **C51.** `to_view<T>(c)` on a column that can be converted converts it (in place), and the view is a vector of its elements: it has the size of the
column, and element `i` of the view is element `i` of the column's own storage. -/
theorem C51_to_view {C : Coercion} (T : C.Ty) (c : Column C) (ys : List (C.Val T)) (h : Converted T c ys) :
    ∃ o, toViewMut T c = (.ok o, Column.ofList T ys) ∧ Observes o (arrayView 0 [ys.length]) ∧
      ∀ i, i < ys.length → Reads (Column.storage T (Column.ofList T ys)) o [i] ys[i]? := by
  refine ⟨.cref 0 [ys.length], ?_, array_observes 0 (by simp), ?_⟩
  · obtain ⟨S, xs, rfl, ⟨rfl, rfl⟩ | ⟨hS, f, hf, hl, hv⟩⟩ := h
    · simp [toViewMut, Column.ofList, Column.elementsType, Column.data, Column.size, Model.size]
    · have h1 := (C39_coerce_ok S T xs (Column.ofList T ys)).2 ⟨f, ys, hf, rfl, hl, hv⟩
      unfold toViewMut
      have h2 : Column.elementsType (Column.ofList S xs) = .ok S := rfl
      rw [h2]
      simp only
      rw [if_pos hS, h1]
      simp only
      rw [data_ofList]
      rfl
  · intro i hi
    refine ⟨_, (array_observes 0 (by simp)).element [i] ⟨hi, trivial⟩, ?_⟩
    rw [storage_ofList]
    simp [arrayView, cmSum, prod]

/-- C51: a column that cannot be converted is unchanged, and there is no view of it. -/
theorem C51_no_view {C : Coercion} (T : C.Ty) (c : Column C) (h : ∀ ys, ¬ Converted T c ys) :
    (∃ e, (toViewMut T c).1 = .error e) ∧ (toViewMut T c).2 = c := by
  unfold toViewMut
  cases c with
  | none => exact ⟨⟨_, rfl⟩, rfl⟩
  | some m =>
    obtain ⟨S, xs⟩ := m
    simp only [Column.elementsType]
    have hS : S ≠ T := by
      rintro rfl
      exact h xs ⟨S, xs, rfl, Or.inl ⟨rfl, rfl⟩⟩
    rw [if_pos hS]
    cases hc : Column.coerce (some ⟨S, xs⟩ : Column C) T with
    | mk r c' =>
      cases r with
      | ok u =>
        obtain ⟨f, ys, hf, -, hl, hv⟩ := (C39_coerce_ok S T xs c').1 hc
        exact absurd ⟨S, xs, rfl, Or.inr ⟨hS, f, hf, hl, hv⟩⟩ (h ys)
      | error e =>
        have := C39_unchanged (some ⟨S, xs⟩ : Column C) T e (by rw [hc])
        rw [hc] at this
        exact ⟨⟨e, rfl⟩, this⟩

/-- C51: the view of a constant column refers to its elements, if they have the requested type; otherwise an exception is thrown. -/
theorem C51_to_view_const {C : Coercion} (T : C.Ty) (c : Column C) :
    (∀ ys, c = Column.ofList T ys → ∃ o, toViewConst T c = .ok o ∧ ∀ i, i < ys.length → Reads (Column.storage T c) o [i] ys[i]?) ∧
    ((∀ ys, c ≠ Column.ofList T ys) → toViewConst T c = .error (.exc .logic)) := by
  constructor
  · rintro ys rfl
    refine ⟨.cref 0 [ys.length], by unfold toViewConst; rw [data_ofList]; rfl, ?_⟩
    intro i hi
    refine ⟨_, (array_observes 0 (by simp)).element [i] ⟨hi, trivial⟩, ?_⟩
    rw [storage_ofList]
    simp [arrayView, cmSum, prod]
  · intro h
    unfold toViewConst
    cases c with
    | none => rfl
    | some m =>
      obtain ⟨S, xs⟩ := m
      have : S ≠ T := by rintro rfl; exact h xs rfl
      simp [Column.data, this]

/-- C51: writing through the view, element by element: after any history of assignments `view[i] = x` the storage is that of the
column in which exactly these elements have been replaced, in order. -/
theorem C51_write_history {C : Coercion} (T : C.Ty) (ws : List (Nat × C.Val T)) : ∀ (ys : List (C.Val T)), (∀ w ∈ ws, w.1 < ys.length) →
    ws.foldlM (fun m w => do
        let r ← (Obj.cref 0 [ys.length]).run Arith.exact true [.at w.1]
        match r with
        | .elem p => Mem.write m p w.2
        | _ => .error .illFormed) (Column.storage T (Column.ofList T ys)) =
      .ok (Column.storage T (Column.ofList T (ws.foldl (fun l w => l.set w.1 w.2) ys))) := by
  intro ys hws
  suffices ∀ (n : Nat) (ws : List (Nat × C.Val T)) (ys : List (C.Val T)), ys.length = n → (∀ w ∈ ws, w.1 < n) →
      ws.foldlM (fun m w => do
        let r ← (Obj.cref 0 [n]).run Arith.exact true [.at w.1]
        match r with
        | .elem p => Mem.write m p w.2
        | _ => .error .illFormed) (Column.storage T (Column.ofList T ys)) =
      .ok (Column.storage T (Column.ofList T (ws.foldl (fun l w => l.set w.1 w.2) ys))) from this ys.length ws ys rfl hws
  intro n ws
  induction ws with
  | nil => intro ys _ _; rfl
  | cons w ws ih =>
    intro ys hn hw
    have hlt := hw w (by simp)
    have hrun : (Obj.cref 0 [n]).run Arith.exact true [.at w.1] = .ok (.elem w.1) := by
      have := (array_observes 0 (d := [n]) (by simp)).element [w.1] ⟨hlt, trivial⟩
      simpa [arrayView, cmSum, prod] using this
    rw [List.foldlM_cons, hrun]
    simp only [res_ok_bind, List.foldl_cons]
    have hwr : (Column.storage T (Column.ofList T ys)).write w.1 w.2 = .ok (Column.storage T (Column.ofList T (ys.set w.1 w.2))) := by
      unfold Mem.write
      rw [storage_ofList, List.getElem?_eq_getElem (by omega)]
      simp only
      congr 1
      funext q
      unfold Mem.set
      rw [storage_ofList, storage_ofList, List.getElem?_set]
      by_cases hq : q = w.1
      · subst hq; simp [hn, hlt]
      · rw [if_neg hq, if_neg (fun h => hq h.symm)]
    rw [hwr]
    simp only [res_ok_bind]
    exact ih _ (by simpa using hn) fun x hx => hw x (by simp [hx])

theorem column_of_storage {C : Coercion} (T : C.Ty) (ys : List (C.Val T)) (m : Mem (C.Val T)) (h : ∀ k, m k = none ↔ ys.length ≤ k) :
    ∃ zs : List (C.Val T), zs.length = ys.length ∧ Column.storage T (Column.ofList T zs) = m := by
  have hv : ∀ k : Nat, k < ys.length → ∃ x, m k = some x := by
    intro k hk
    cases hm : m k with
    | some x => exact ⟨x, rfl⟩
    | none => have := (h k).1 hm; omega
  have : ∀ n, n ≤ ys.length → ∃ zs : List (C.Val T), zs.length = n ∧ ∀ k : Nat, k < n → zs[k]? = m k := by
    intro n
    induction n with
    | zero => intro _; exact ⟨[], rfl, by simp⟩
    | succ n ih =>
      intro hn
      obtain ⟨zs, h1, h2⟩ := ih (by omega)
      obtain ⟨x, hx⟩ := hv n (by omega)
      refine ⟨zs ++ [x], by simp [h1], ?_⟩
      intro k hk
      by_cases hkn : k < n
      · rw [List.getElem?_append_left (by omega), h2 k hkn]
      · have : k = n := by omega
        subst this
        rw [List.getElem?_append_right (by omega), hx]
        simp [h1]
  obtain ⟨zs, h1, h2⟩ := this ys.length (Nat.le_refl _)
  refine ⟨zs, h1, ?_⟩
  funext k
  rw [storage_ofList]
  by_cases hk : k < ys.length
  · exact h2 k hk
  · rw [(h k).2 (by omega), List.getElem?_eq_none (by omega)]

/-- C51: assigning an expression to any part of the view (given by a chain of index expressions `ix` on it, whose result `o` means `v`) changes exactly the
addressed elements of the column, and nothing else: afterwards the column has as many elements as before, those that `v` covers are the values of the
expression, the others are unchanged. The expression must not read elements that are overwritten before (as in C18). -/
theorem C51_write_part {C : Coercion} (T : C.Ty) (ys : List (C.Val T)) {ix : List Ix} {o : Obj} {v : AView}
    (ho : ViewOf [ys.length] ix o v) (hne : v.ext ≠ []) (hdis : Distinct v)
    {e : Ex Obj (C.Val T)} {s : Ex AView (C.Val T)} (he : Denotes e s)
    (hd : ∀ x ∈ exts s, x = v.ext) (hval : ∀ i, InB v.ext i → valAt (Column.storage T (Column.ofList T ys)) s i ≠ none)
    (hord : ∀ i j, InB v.ext i → InB v.ext j → cmSum v.ext j < cmSum v.ext i → v.pos j ∉ cellsAt s i) (chk : Bool) :
    ∃ zs : List (C.Val T), assignView Arith.exact chk o e (Column.storage T (Column.ofList T ys)) = .ok (Column.storage T (Column.ofList T zs)) ∧
      zs.length = ys.length ∧ (∀ i, InB v.ext i → zs[v.pos i]? = valAt (Column.storage T (Column.ofList T ys)) s i) ∧
      ∀ q, ¬ Covers v q → zs[q]? = ys[q]? := by
  have hobs := C04_history ho
  have hin : ∀ i, InB v.ext i → v.pos i < ys.length := by
    intro i hi
    have := C05_in_bounds_partial (by simp) ho.2.1 (k := []) rfl hobs.iterate _ (mem_enum.2 ⟨i, hi, rfl⟩)
    simpa [prod] using this
  have hal : Alive (Column.storage T (Column.ofList T ys)) v := by
    intro i hi
    rw [storage_ofList, List.getElem?_eq_getElem (hin i hi)]
    simp
  obtain ⟨m', h1, h2, h3⟩ := C18_assign hobs hne hdis hal he hd hval hord chk
  have hread : ∀ i, InB v.ext i → m' (v.pos i) = valAt (Column.storage T (Column.ofList T ys)) s i := by
    intro i hi
    obtain ⟨p, hp, hm⟩ := h2 i hi
    rw [hobs.element i hi] at hp
    cases hp
    exact hm
  obtain ⟨zs, hz1, hz2⟩ := column_of_storage T ys m' (by
    intro k
    by_cases hk : Covers v k
    · obtain ⟨i, hi, rfl⟩ := hk
      rw [hread i hi]
      constructor
      · intro h; exact absurd h (hval i hi)
      · intro h; have := hin i hi; omega
    · rw [h3 k hk, storage_ofList, List.getElem?_eq_none_iff])
  refine ⟨zs, by rw [h1, hz2], hz1, ?_, ?_⟩
  · intro i hi
    rw [← storage_ofList, hz2, hread i hi]
  · intro q hq
    rw [← storage_ofList, hz2, h3 q hq, storage_ofList]

/-- **C51.** `to_vector<T>(c)`: a new vector with the converted elements; the other blocks of memory, and the column (which is passed as a constant), are unchanged,
so the vector is independent of the column. If something throws, everything is as before. -/
theorem C51_to_vector {C : Coercion} {S : Nat → Bool} {T : C.Ty} {c : Column C} {ys : List (C.Val T)} (hc : Converted T c ys) (h : Heap (C.Val T)) :
    Post (toVector S T c h)
      (fun o h' => Holds h' o [ys.length] ys ∧ h'.lost = h.lost ∧ ∀ k, k ≠ h.blocks.length → h'.cells k = h.cells k)
      (fun _ h' => Thr S ∧ Untouched h h') := by
  unfold toVector
  rw [(columnAs_iff T c ys).2 hc, hc.size]
  refine post_bind (R := fun l h' => l = ys ∧ h' = h) ⟨rfl, rfl⟩ ?_
  rintro l h' ⟨rfl, rfl⟩
  rename' l => ys, h' => h
  unfold iterArr
  refine (post_newSeq (vs := ys) (by simp [prod]) (fun k v hk => good_iter hk)).mono ?_ (fun _ _ h => h)
  rintro o h' ⟨rfl, hcell, hs⟩
  exact ⟨holds_of (by simp) (by simp [prod]) hcell, hs.lost, hs.cells⟩

/-- C51: the overload for temporaries gives the same vector. -/
theorem C51_to_vector_rvalue {C : Coercion} {S : Nat → Bool} {T : C.Ty} {c : Column C} {ys : List (C.Val T)} (hc : Converted T c ys) (h : Heap (C.Val T)) :
    toVectorRv S T c h = toVector S T c h := by
  unfold toVector toVectorRv
  rw [(columnAs_iff T c ys).2 hc]
  obtain ⟨S', xs, rfl, ⟨hS, hy⟩ | ⟨hS, f, hf, hl, hv⟩⟩ := hc
  · subst hS
    have hy : ys = xs := hy
    subst hy
    have h1 : Column.elementsType (Column.ofList S' ys) = .ok S' := rfl
    rw [h1]
    simp only [bind, HM.bind, HM.lift]
    simp only [ne_eq, not_true_eq_false, if_false]
    rw [data_ofList]
  · have h1 : Column.elementsType (Column.ofList S' xs) = .ok S' := rfl
    have h2 := (C39_coerce_ok S' T xs (Column.ofList T ys)).2 ⟨f, ys, hf, rfl, hl, hv⟩
    rw [h1]
    simp only [bind, HM.bind, HM.lift]
    rw [if_pos hS, h2]
    simp only
    rw [data_ofList]

/-- The text column 7, -4 as integers: a view and a write through it. -/
example : (toViewMut (C := julesRules fpEx) JTy.integer (tcol [['7'], ['-', '4']])).2 = icol [7, -4] := by decide +kernel

example : Converted (C := julesRules fpEx) JTy.integer (tcol [['7'], ['-', '4']]) [(7 : Int32), (-4 : Int32)] := by
  rw [← columnAs_iff]; decide +kernel

/-! ### The hypotheses hold in concrete cases -/

example := C49_head_partial dfXY 1 (by decide +kernel) (C42_rectangular_partial dfXY_reach) (by decide +kernel) (by decide +kernel) (C44_unique_partial dfXY_tame) (by decide +kernel)
example := C49_head_head_partial dfXY 1 2 (by decide) (by decide +kernel) (by decide) (C42_rectangular_partial dfXY_reach) (by decide +kernel) (C44_unique_partial dfXY_tame)
  (by decide +kernel)
example := C49_too_many dfXY 3 (by decide +kernel)

theorem ints_converted (l : List Int32) : Converted (C := julesRules fpEx) JTy.integer (icol l) l := ⟨JTy.integer, l, rfl, Or.inl ⟨rfl, rfl⟩⟩

theorem texts_converted : Converted (C := julesRules fpEx) JTy.integer (tcol [['7'], ['-', '4']]) [(7 : Int32), (-4 : Int32)] := by
  rw [← columnAs_iff]; decide +kernel

example := C50_to_matrix (C := julesRules fpEx) (S := fun _ => false) (chk := true) (T := JTy.integer)
  (d := ⟨2, [⟨['x'], icol [1, 2]⟩, ⟨['y'], tcol [['7'], ['-', '4']]⟩], []⟩) (cols := [[(1 : Int32), (2 : Int32)], [(7 : Int32), (-4 : Int32)]]) (h := ⟨[], 0, 0⟩)
  (by unfold Rectangular; decide +kernel) (.cons (ints_converted _) (.cons texts_converted .nil))
example := C51_to_view (C := julesRules fpEx) JTy.integer _ _ texts_converted
example := C51_no_view (C := julesRules fpEx) JTy.integer (tcol [['q']])
  (by intro ys h; rw [← columnAs_iff] at h; have h2 : (columnAs (C := julesRules fpEx) JTy.integer (tcol [['q']])).isOk = false := by decide +kernel
      rw [h] at h2; cases h2)
example := C51_write_history (C := julesRules fpEx) JTy.integer [(0, (5 : Int32)), (1, (6 : Int32)), (0, (7 : Int32))] [(1 : Int32), (2 : Int32)] (by decide)
example := C51_write_part (C := julesRules fpEx) JTy.integer [(1 : Int32), (2 : Int32), (3 : Int32)] (ix := []) (o := .cref 0 [3]) (v := arrayView 0 [3])
  ⟨by decide, rfl, rfl⟩ (by decide) (arrayView_distinct _ _) (e := .bin (· * · : Int32 → Int32 → Int32) (.leaf (.cref 0 [3])) (.leaf (.cref 0 [3])))
  (.bin (.leaf (array_observes 0 (by simp)) (by simp [arrayView])) (.leaf (array_observes 0 (by simp)) (by simp [arrayView])))
  (by simp [exts, arrayView])
  (by
    intro i hi
    obtain ⟨k, t, rfl, hk, ht⟩ := inB_cons.1 hi
    have ht : InB [] t := ht
    rw [inB_nil] at ht
    subst ht
    match k, hk with
    | 0, _ => exact nofun
    | 1, _ => exact nofun
    | 2, _ => exact nofun)
  (by
    intro i j hi hj hlt hc
    have : (arrayView 0 [3]).pos j = (arrayView 0 [3]).pos i := by simpa [cellsAt] using hc
    rw [arrayView_distinct _ _ j i hj hi this] at hlt; omega) true
example := C51_to_vector (C := julesRules fpEx) (S := fun _ => false) texts_converted ⟨[], 0, 0⟩

end Jules.Props

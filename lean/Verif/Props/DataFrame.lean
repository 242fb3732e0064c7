import Verif.Model.DataFrame
import Verif.Props.Column
/-
C42-C45: data frames.
-/
namespace Jules.Props

/-! ### Histories -/

/-- The data frames a program can hold: what the constructors, copies, moves, assignments, `bind`, `read` and `head` produce, also
when a `bind` has thrown. -/
inductive Reach {fp : Fp} : DF (julesRules fp) → Prop
  | default : Reach DF.empty
  | ofList {l d} : DF.ofList l = .ok d → Reach d
  | ofNamed (e) : Reach (DF.ofNamed e)
  | ofColumn {c d} : DF.ofColumn c = .ok d → Reach d
  | copy {d d'} : Reach d → d.copy = .ok d' → Reach d'
  | copyAssign {n cap d d'} : Reach d → DF.copyAssign n cap d = .ok d' → Reach d'
  | moveTo {d} : Reach d → Reach d.move.1
  | movedFrom {d} : Reach d → Reach d.move.2
  | bind {a b} (S : Nat → Bool) : Reach a → Reach b → Reach (a.bind S b).2
  | read {opt inp d} : DF.read fp opt inp = .ok d → Reach d
  | head {d n d'} : Reach d → d.head n = .ok d' → Reach d'

/-! ### Lemmas: what the operations do to the columns -/

theorem pushSized_spec {C : Coercion} {rows : Nat} : ∀ {xs : List (Res (Named C))} {acc : List (Named C)} {r},
    pushSized rows xs acc = .ok (r, true) → (∀ e ∈ acc, Column.size e.col = rows) → (∀ e ∈ r, Column.size e.col = rows) ∧
      r.length = acc.length + xs.length ∧ (∀ (k : Nat) e, r[acc.length + k]? = some e → xs[k]? = some (.ok e)) ∧ acc <+: r := by
  intro xs
  induction xs with
  | nil =>
    intro acc r h hacc
    cases h
    refine ⟨hacc, rfl, ?_, List.prefix_refl _⟩
    intro k e he
    simp at he
  | cons x xs ih =>
    intro acc r h hacc
    unfold pushSized at h
    rw [res_bind_ok] at h
    obtain ⟨e, he, h⟩ := h
    split at h
    · rename_i hs
      obtain ⟨h1, h2, h3, h4⟩ := ih h (by
        intro e' he'
        rcases List.mem_append.1 he' with h | h
        · exact hacc e' h
        · rw [List.mem_singleton.1 h]; exact hs)
      refine ⟨h1, by simp at h2 ⊢; omega, ?_, (List.prefix_append _ _).trans h4⟩
      intro k e' hk
      cases k with
      | zero =>
        obtain ⟨t, rfl⟩ := h4
        simp only [Nat.add_zero] at hk
        rw [List.append_assoc, List.getElem?_append_right (Nat.le_refl _)] at hk
        simp at hk
        subst hk
        simp [he]
      | succ k =>
        have := h3 k e' (by rw [← hk]; congr 1; simp; omega)
        simpa using this
    · cases h

/-- A data frame built from a sequence: its columns are the elements of the sequence, which all have the same size, the number of
rows. -/
theorem ofIter_spec {C : Coercion} {src : List (Res (Named C))} {d : DF C} (h : DF.ofIter src = .ok d) :
    src ≠ [] ∧ src = d.elems.map Except.ok ∧ (∀ e ∈ d.elems, Column.size e.col = d.rows) ∧
      registerNames d.elems 0 [] = .ok d.index := by
  unfold DF.ofIter at h
  cases src with
  | nil => cases h
  | cons x xs =>
    simp only at h
    rw [res_bind_ok] at h
    obtain ⟨e, rfl, h⟩ := h
    rw [res_bind_ok] at h
    obtain ⟨⟨r, b⟩, hp, h⟩ := h
    simp only at h
    split at h
    · rename_i hb
      subst hb
      rw [res_bind_ok] at h
      obtain ⟨ix, hix, h⟩ := h
      cases h
      obtain ⟨h1, h2, h3, ⟨t, h4⟩⟩ := pushSized_spec hp (by simp)
      refine ⟨by simp, ?_, h1, hix⟩
      simp only
      subst h4
      rw [List.map_append, List.map_cons, List.map_nil, List.singleton_append]
      congr 1
      simp only [List.length_append, List.length_singleton] at h2 h3
      apply List.ext_getElem?
      intro k
      rw [List.getElem?_map]
      by_cases hk : k < t.length
      · have := h3 k t[k] (by rw [List.getElem?_append_right (by simp)]; simp [hk])
        rw [this, List.getElem?_eq_getElem hk]; rfl
      · rw [List.getElem?_eq_none (by omega), List.getElem?_eq_none (by omega)]; rfl
    · cases h

theorem copy_col {C : Coercion} {c c' : Column C} (h : Column.copy c = .ok c') : c' = c := by
  cases c with
  | none => cases h
  | some m => cases h; rfl

theorem named_copy {C : Coercion} {e e' : Named C} (h : Named.copy e = .ok e') : e' = e := by
  unfold Named.copy at h
  rw [res_bind_ok] at h
  obtain ⟨c, hc, h⟩ := h
  cases h
  rw [copy_col hc]

theorem mapM_copy {C : Coercion} : ∀ {l r : List (Named C)}, l.mapM Named.copy = .ok r → r = l := by
  intro l r h
  obtain ⟨h1, h2⟩ := (mapM_ok_iff _ _ _).1 h
  apply List.ext_getElem?
  intro k
  cases hk : l[k]? with
  | none => rw [List.getElem?_eq_none_iff] at hk ⊢; omega
  | some x =>
    obtain ⟨y, hy, hc⟩ := h2 k x hk
    rw [hy, named_copy hc]

theorem df_copy {C : Coercion} {d d' : DF C} (h : d.copy = .ok d') : d' = d := by
  unfold DF.copy at h
  rw [res_bind_ok] at h
  obtain ⟨es, hes, h⟩ := h
  cases h
  rw [mapM_copy hes]

theorem df_copyAssign {C : Coercion} {n cap : Nat} {d d' : DF C} (h : DF.copyAssign n cap d = .ok d') : d' = d := by
  unfold DF.copyAssign at h
  simp only at h
  rw [res_bind_ok] at h
  obtain ⟨es, hes, h⟩ := h
  cases h
  rw [mapM_copy hes, List.take_append_drop]

theorem bindLoop_elems {C : Coercion} {S : Nat → Bool} : ∀ {es : List (Named C)} {k : Nat} {d : DF C},
    (bindLoop S k d es).2.rows = d.rows ∧ ∃ n, n ≤ es.length ∧ (bindLoop S k d es).2.elems = d.elems ++ es.take n ∧
      ((bindLoop S k d es).1 = .ok () → n = es.length) ∧ ((bindLoop S k d es).1 = .ok () ∨ (bindLoop S k d es).1 = .error (.exc .badAlloc)) := by
  intro es
  induction es with
  | nil => intro k d; exact ⟨rfl, 0, Nat.le_refl _, by simp [bindLoop], by simp, Or.inl rfl⟩
  | cons e es ih =>
    intro k d
    have stop : ∀ d' : DF C, d'.rows = d.rows → d'.elems = d.elems →
        d'.rows = d.rows ∧ ∃ n, n ≤ (e :: es).length ∧ d'.elems = d.elems ++ (e :: es).take n ∧
          ((Except.error (.exc .badAlloc) : Res Unit) = .ok () → n = (e :: es).length) ∧
          ((Except.error (.exc .badAlloc) : Res Unit) = .ok () ∨ (Except.error (.exc .badAlloc) : Res Unit) = .error (.exc .badAlloc)) :=
      fun d' h1 h2 => ⟨h1, 0, Nat.zero_le _, by simp [h2], by simp, Or.inr rfl⟩
    have go : ∀ (d' : DF C) (k' : Nat), d'.rows = d.rows → d'.elems = d.elems ++ [e] →
        (bindLoop S k' d' es).2.rows = d.rows ∧ ∃ n, n ≤ (e :: es).length ∧
          (bindLoop S k' d' es).2.elems = d.elems ++ (e :: es).take n ∧
          ((bindLoop S k' d' es).1 = .ok () → n = (e :: es).length) ∧
          ((bindLoop S k' d' es).1 = .ok () ∨ (bindLoop S k' d' es).1 = .error (.exc .badAlloc)) := by
      intro d' k' h1 h2
      obtain ⟨a, n, hn, b, c, f⟩ := ih (k := k') (d := d')
      refine ⟨by rw [a, h1], n + 1, by simpa using hn, ?_, fun h => by simp [c h], f⟩
      rw [b, h2]; simp
    unfold bindLoop
    split
    · split
      · exact stop d rfl rfl
      · simp only
        split
        · exact stop _ rfl rfl
        · exact go _ _ rfl rfl
    · split
      · exact stop d rfl rfl
      · exact go _ _ rfl rfl

/-- What `bind` does to the columns, whatever happens: it appends some of the other's columns; the number of rows changes only when
there were no columns. -/
theorem bind_elems {C : Coercion} (S : Nat → Bool) (a b : DF C) :
    ((a.bind S b).2 = a ∧ (a.bind S b).1 ≠ .ok ()) ∨
    ((a.elems ≠ [] → a.rows = b.rows) ∧ (a.bind S b).2.rows = b.rows ∧ ∃ n, n ≤ b.elems.length ∧
      (a.bind S b).2.elems = a.elems ++ b.elems.take n ∧ ((a.bind S b).1 = .ok () → n = b.elems.length) ∧
      ((a.bind S b).1 = .ok () ∨ (a.bind S b).1 = .error (.exc .badAlloc))) := by
  unfold DF.bind
  split
  · exact Or.inl ⟨rfl, by simp⟩
  · split
    · split
      · split
        · rename_i hr
          right
          obtain ⟨h1, n, h2⟩ := bindLoop_elems (S := S) (es := b.elems) (k := 1) (d := a)
          exact ⟨fun _ => hr, by rw [h1, hr], n, h2⟩
        · exact Or.inl ⟨rfl, by simp⟩
      · rename_i hne
        right
        have : a.elems = [] := by
          simp only [DF.nonempty, decide_eq_true_eq, Nat.not_lt, Nat.le_zero, List.length_eq_zero_iff] at hne
          exact hne
        obtain ⟨h1, n, h2⟩ := bindLoop_elems (S := S) (es := b.elems) (k := 1) (d := { a with rows := b.rows })
        exact ⟨fun h => absurd this h, h1, n, h2⟩
    · exact Or.inl ⟨rfl, by simp⟩

/-! ### C42 -/

/-- Every column has as many elements as the data frame has rows. -/
def Rectangular {C : Coercion} (d : DF C) : Prop := ∀ e ∈ d.elems, Column.size e.col = d.rows

theorem rect_bind {C : Coercion} {S : Nat → Bool} {a b : DF C} (ha : Rectangular a) (hb : Rectangular b) :
    Rectangular (a.bind S b).2 := by
  rcases bind_elems S a b with ⟨h, -⟩ | ⟨h0, h1, n, -, h2, -⟩
  · rw [h]; exact ha
  · intro e he
    rw [h2] at he
    rw [h1]
    rcases List.mem_append.1 he with he | he
    · rw [ha e he]
      exact h0 (List.ne_nil_of_mem he)
    · exact hb e (List.mem_of_mem_take he)

theorem rect_bindNamed {C : Coercion} {d d' : DF C} {e : Named C} (h : bindNamed d e = .ok d') (hd : Rectangular d) :
    Rectangular d' := by
  unfold bindNamed at h
  have := rect_bind (S := fun _ => false) (b := DF.ofNamed e) hd (by
    intro x hx
    simp only [DF.ofNamed, List.mem_singleton] at hx
    subst hx; rfl)
  cases hb : d.bind (fun _ => false) (DF.ofNamed e) with
  | mk r d2 =>
    rw [hb] at h this
    cases r with
    | ok u => cases h; exact this
    | error f => cases h

theorem foldlM_inv {P : β → Prop} (f : β → α → Res β) (hf : ∀ b a b', P b → f b a = .ok b' → P b') :
    ∀ (l : List α) (b b' : β), P b → l.foldlM f b = .ok b' → P b' := by
  intro l
  induction l with
  | nil => intro b b' hb h; cases h; exact hb
  | cons a l ih =>
    intro b b' hb h
    rw [List.foldlM_cons, res_bind_ok] at h
    obtain ⟨b1, h1, h2⟩ := h
    exact ih b1 b' (hf b a b1 hb h1) h2

/-- Anything kept by binding one named column holds of what `read` returns. -/
theorem read_inv {fp : Fp} {P : DF (julesRules fp) → Prop} (h0 : P DF.empty)
    (hf : ∀ d e d', P d → bindNamed d e = .ok d' → P d') {opt : ReadOpts} {inp : Option Txt} {d : DF (julesRules fp)}
    (h : DF.read fp opt inp = .ok d) : P d := by
  unfold DF.read at h
  cases inp with
  | none => cases h; exact h0
  | some raw =>
    simp only at h
    rw [res_bind_ok] at h
    obtain ⟨r, -, h⟩ := h
    split at h
    · cases h; exact h0
    · split at h
      · exact foldlM_inv _ (fun b a b' hb => hf b _ b' hb) _ _ _ h0 h
      · exact foldlM_inv _ (fun b a b' hb => hf b _ b' hb) _ _ _ h0 h

/-- C42 (partial): whatever the history, also one in which `bind` has failed, all columns of a data frame have `row_count()` elements. Missing: a copy *assignment* of data frames
that runs out of memory in the middle; there the claim is false (`C42_out_of_memory`). -/
theorem C42_rectangular_partial {fp : Fp} {d : DF (julesRules fp)} (h : Reach d) : Rectangular d := by
  induction h with
  | default => intro e he; cases he
  | ofList h => exact (ofIter_spec h).2.2.1
  | ofNamed e => intro x hx; simp only [DF.ofNamed, List.mem_singleton] at hx; subst hx; rfl
  | ofColumn h =>
    unfold DF.ofColumn at h
    rw [res_bind_ok] at h
    obtain ⟨c', hc, h⟩ := h
    cases h
    intro x hx
    simp only [List.mem_singleton] at hx
    subst hx
    rw [copy_col hc]
  | copy _ h ih => rw [df_copy h]; exact ih
  | copyAssign _ h ih => rw [df_copyAssign h]; exact ih
  | moveTo _ ih => exact ih
  | movedFrom _ _ => intro e he; cases he
  | bind S _ _ ha hb => exact rect_bind ha hb
  | read h =>
    refine read_inv (P := Rectangular) ?_ ?_ h
    · intro e he; cases he
    · intro d e d' hd h; exact rect_bindNamed h hd
  | head _ h _ =>
    unfold DF.head at h
    split at h
    · cases h
    · rw [res_bind_ok] at h
      obtain ⟨t, ht, h⟩ := h
      rw [df_copy h]
      exact (ofIter_spec ht).2.2.1

/-- C42: cell (i, j) of every data frame exists exactly for i below the number of rows, in every column that has data. -/
theorem C42_cells {fp : Fp} {d : DF (julesRules fp)} (h : Reach d) (j : Nat) (hj : j < d.elems.length) :
    ∃ e, d.atPos j = .ok e ∧ Column.size e.col = d.rows ∧
      ∀ m, e.col = some m → ∀ i, (∃ x, m.vals[i]? = some x) ↔ i < d.rows := by
  have hr := C42_rectangular_partial h d.elems[j] (List.getElem_mem hj)
  refine ⟨d.elems[j], by simp [DF.atPos, hj], hr, ?_⟩
  intro m hm i
  rw [hm] at hr
  rw [← hr]
  simp only [Column.size, Model.size]
  constructor
  · rintro ⟨x, hx⟩; exact (List.getElem?_eq_some_iff.1 hx).1
  · intro hi; exact ⟨m.vals[i], by simp [hi]⟩

instance (fp : Fp) : DecidableEq (Named (julesRules fp)) := fun a b =>
  match a, b with
  | ⟨n, c⟩, ⟨m, d⟩ => if h : n = m ∧ c = d then isTrue (by rw [h.1, h.2]) else isFalse (by intro e; injection e with e1 e2; exact h ⟨e1, e2⟩)

instance (fp : Fp) : DecidableEq (DF (julesRules fp)) := fun a b =>
  match a, b with
  | ⟨n, c, x⟩, ⟨m, d, y⟩ => if h : n = m ∧ c = d ∧ x = y then isTrue (by rw [h.1, h.2.1, h.2.2])
      else isFalse (by intro e; injection e with e1 e2 e3; exact h ⟨e1, e2, e3⟩)

/-- An integer column, for examples. -/
def icol (l : List Int32) : Column (julesRules fpEx) := Column.ofList (C := julesRules fpEx) JTy.integer l

example : DF.ofList [⟨['x'], icol [1, 2]⟩, ⟨['y'], icol [3, 4]⟩] = .ok ⟨2, [⟨['x'], icol [1, 2]⟩, ⟨['y'], icol [3, 4]⟩], [(['y'], 1), (['x'], 0)]⟩ := by
  decide +kernel

example : DF.ofList [⟨['x'], icol [1, 2]⟩, ⟨['y'], icol [3]⟩] = .error (.exc .logic) := by decide +kernel

/-- Building a data frame from an empty sequence of columns reads past its end. -/
theorem C42_empty_list {C : Coercion} : DF.ofList (C := C) [] = .error .ub := rfl

/-! ### Names -/

theorem findName_cons (p : Txt × Nat) (ix : List (Txt × Nat)) (name : Txt) :
    findName (p :: ix) name = if p.1 = name then some p.2 else findName ix name := by
  unfold findName
  rw [List.find?_cons]
  by_cases h : p.1 = name
  · have : (p.1 == name) = true := by simpa using h
    rw [this, if_pos h]; rfl
  · have : (p.1 == name) = false := by simpa using h
    rw [this, if_neg h]

/-- Lookup by name does what its name says: a name that some column has gives a column of that name; any other name is reported. -/
def LookupOK {C : Coercion} (d : DF C) : Prop := ∀ name,
  ((name ≠ [] ∧ ∃ e ∈ d.elems, e.name = name) → ∃ e ∈ d.elems, d.atName name = .ok e ∧ e.name = name) ∧
  (¬ (name ≠ [] ∧ ∃ e ∈ d.elems, e.name = name) → d.atName name = .error (.exc .logic))

/-- No two columns have the same non-empty name. -/
def UniqueNames {C : Coercion} (d : DF C) : Prop := ∀ (i j : Nat) e f, d.elems[i]? = some e → d.elems[j]? = some f →
  e.name ≠ [] → e.name = f.name → i = j

/-- The map of names is right: it knows exactly the non-empty names, and their positions. -/
def IndexOK {C : Coercion} (d : DF C) : Prop := ∀ name,
  (∀ i, findName d.index name = some i → name ≠ [] ∧ ∃ e, d.elems[i]? = some e ∧ e.name = name) ∧
  (findName d.index name = none → name = [] ∨ ∀ e ∈ d.elems, e.name ≠ name)

theorem IndexOK.lookup {C : Coercion} {d : DF C} (h : IndexOK d) : LookupOK d := by
  intro name
  obtain ⟨h1, h2⟩ := h name
  unfold DF.atName
  cases hf : findName d.index name with
  | none =>
    refine ⟨fun ⟨hn, e, he, hen⟩ => ?_, fun _ => rfl⟩
    rcases h2 hf with h | h
    · exact absurd h hn
    · exact absurd hen (h e he)
  | some i =>
    obtain ⟨hn, e, he, hen⟩ := h1 i hf
    simp only [he]
    refine ⟨fun _ => ⟨e, List.mem_of_getElem? he, rfl, hen⟩, fun h => absurd ⟨hn, e, List.mem_of_getElem? he, hen⟩ h⟩

/-- Unnamed columns come after the named ones. -/
def NamedFirst {C : Coercion} (l : List (Named C)) : Prop := ∀ (i j : Nat) e f, i < j → l[i]? = some e → l[j]? = some f → e.name = [] → f.name = []

/-- What the constructor registers: the position of a name is the number of named columns before it. -/
theorem registerNames_spec {C : Coercion} : ∀ {es : List (Named C)} {i : Nat} {ix ix' : List (Txt × Nat)},
    registerNames es i ix = .ok ix' → ∀ name,
      (findName ix name ≠ none → findName ix' name = findName ix name ∧ (name ≠ [] → ∀ e ∈ es, e.name ≠ name)) ∧
      (findName ix name = none →
        (∀ j, findName ix' name = some j → name ≠ [] ∧ ∃ (k : Nat) (e : Named C), es[k]? = some e ∧ e.name = name ∧
          j = i + ((es.take k).countP fun e => decide (e.name ≠ []))) ∧
        (findName ix' name = none → name = [] ∨ ∀ e ∈ es, e.name ≠ name)) := by
  intro es
  induction es with
  | nil =>
    intro i ix ix' h name
    cases h
    exact ⟨fun _ => ⟨rfl, fun _ e he => by cases he⟩, fun h => ⟨fun j hj => (by rw [h] at hj; cases hj), fun _ => Or.inr fun e he => by cases he⟩⟩
  | cons e es ih =>
    intro i ix ix' h name
    unfold registerNames at h
    split at h
    · rename_i hne
      split at h
      · cases h
      · rename_i hnew
        rw [Option.not_isSome_iff_eq_none] at hnew
        obtain ⟨h1, h2⟩ := ih h name
        rw [findName_cons] at h1 h2
        simp only at h1 h2
        constructor
        · intro hin
          have hen : e.name ≠ name := by rintro rfl; exact hin hnew
          rw [if_neg hen] at h1
          obtain ⟨a, b⟩ := h1 hin
          refine ⟨a, fun hn f hf => ?_⟩
          rcases List.mem_cons.1 hf with rfl | hf
          · exact hen
          · exact b hn f hf
        · intro hin
          by_cases hen : e.name = name
          · subst hen
            rw [if_pos rfl] at h1
            obtain ⟨a, b⟩ := h1 (by simp)
            rw [a]
            refine ⟨fun j hj => ?_, fun h => by cases h⟩
            cases hj
            exact ⟨hne, 0, e, rfl, rfl, by simp⟩
          · rw [if_neg hen] at h2
            obtain ⟨a, b⟩ := h2 hin
            refine ⟨fun j hj => ?_, fun hnone => ?_⟩
            · obtain ⟨x, k, f, y, z, w⟩ := a j hj
              refine ⟨x, k + 1, f, by simpa using y, z, ?_⟩
              rw [List.take_succ_cons, List.countP_cons, w]
              simp [hne]
              omega
            · rcases b hnone with b | b
              · exact Or.inl b
              · refine Or.inr fun f hf => ?_
                rcases List.mem_cons.1 hf with rfl | hf
                · exact hen
                · exact b f hf
    · rename_i hne
      have hne : e.name = [] := by simpa using hne
      obtain ⟨h1, h2⟩ := ih h name
      constructor
      · intro hin
        obtain ⟨a, b⟩ := h1 hin
        refine ⟨a, fun hn f hf => ?_⟩
        rcases List.mem_cons.1 hf with rfl | hf
        · rw [hne]; exact fun h => hn h.symm
        · exact b hn f hf
      · intro hin
        obtain ⟨a, b⟩ := h2 hin
        refine ⟨fun j hj => ?_, fun hnone => ?_⟩
        · obtain ⟨x, k, f, y, z, w⟩ := a j hj
          refine ⟨x, k + 1, f, by simpa using y, z, ?_⟩
          rw [List.take_succ_cons, List.countP_cons, w]
          simp [hne]
        · rcases b hnone with b | b
          · exact Or.inl b
          · by_cases hn : name = []
            · exact Or.inl hn
            · refine Or.inr fun f hf => ?_
              rcases List.mem_cons.1 hf with rfl | hf
              · rw [hne]; exact fun h => hn h.symm
              · exact b f hf

theorem countP_take_named {C : Coercion} {l : List (Named C)} (hl : NamedFirst l) : ∀ {k : Nat} {e}, l[k]? = some e → e.name ≠ [] →
    (l.take k).countP (fun e => decide (e.name ≠ [])) = k := by
  intro k e hk hne
  have hlen : k < l.length := (List.getElem?_eq_some_iff.1 hk).1
  rw [List.countP_eq_length.2, List.length_take_of_le (Nat.le_of_lt hlen)]
  intro f hf
  obtain ⟨i, hi⟩ := List.getElem?_of_mem hf
  rw [List.getElem?_take] at hi
  split at hi
  · rename_i hik
    simp only [decide_eq_true_eq]
    intro hf0
    exact hne (hl i k f e hik hi hk hf0)
  · cases hi

theorem registerNames_nodup {C : Coercion} : ∀ {es : List (Named C)} {i : Nat} {ix ix' : List (Txt × Nat)},
    registerNames es i ix = .ok ix' → ∀ (a b : Nat) e f, es[a]? = some e → es[b]? = some f → e.name ≠ [] → e.name = f.name → a = b := by
  intro es
  induction es with
  | nil => intro i ix ix' h a b e f ha; simp at ha
  | cons x es ih =>
    intro i ix ix' h a b e f ha hb hne hef
    unfold registerNames at h
    have later : ∀ {i ix}, registerNames es i ix = .ok ix' → x.name ≠ [] → (findName ix x.name ≠ none) → ∀ g ∈ es, g.name ≠ x.name :=
      fun h hx hin => ((registerNames_spec h x.name).1 hin).2 hx
    have key : ∀ g ∈ es, x.name ≠ [] → g.name ≠ x.name := by
      intro g hg hx
      rw [if_pos hx] at h
      split at h
      · cases h
      · exact later h hx (by rw [findName_cons, if_pos rfl]; simp) g hg
    have htail : ∃ i ix, registerNames es i ix = .ok ix' := by
      split at h
      · split at h
        · cases h
        · exact ⟨_, _, h⟩
      · exact ⟨_, _, h⟩
    obtain ⟨i', ix1, h'⟩ := htail
    cases a with
    | zero =>
      simp only [List.getElem?_cons_zero, Option.some.injEq] at ha
      subst ha
      cases b with
      | zero => rfl
      | succ b =>
        simp only [List.getElem?_cons_succ] at hb
        exact absurd hef.symm (key f (List.mem_of_getElem? hb) hne)
    | succ a =>
      simp only [List.getElem?_cons_succ] at ha
      cases b with
      | zero =>
        simp only [List.getElem?_cons_zero, Option.some.injEq] at hb
        subst hb
        exact absurd hef (key e (List.mem_of_getElem? ha) (hef ▸ hne))
      | succ b =>
        simp only [List.getElem?_cons_succ] at hb
        rw [ih h' a b e f ha hb hne hef]

/-- C43: in a data frame built from a list of columns, `at(name)` gives the column whose position is the number of *named* columns
before the column of that name: the right one when no unnamed column comes before. -/
theorem C43_list_constructor {C : Coercion} {l : List (Named C)} {d : DF C} (h : DF.ofList l = .ok d) (name : Txt) :
    (∀ (k : Nat) e, l[k]? = some e → e.name = name → name ≠ [] →
      ∃ f, l[(l.take k).countP fun e => decide (e.name ≠ [])]? = some f ∧ d.atName name = .ok f) ∧
    ((name = [] ∨ ∀ e ∈ l, e.name ≠ name) → d.atName name = .error (.exc .logic)) := by
  obtain ⟨-, h1, -, h3⟩ := ofIter_spec h
  have hl : d.elems = l := by
    have hlen : d.elems.length = l.length := by
      have := congrArg List.length h1
      simpa using this.symm
    apply List.ext_getElem?
    intro k
    have hk := congrArg (fun x => x[k]?) h1
    simp only [List.getElem?_map] at hk
    cases hlk : l[k]? with
    | none => rw [List.getElem?_eq_none_iff] at hlk ⊢; omega
    | some x =>
      cases hdk : d.elems[k]? with
      | none => rw [List.getElem?_eq_none_iff] at hdk; rw [List.getElem?_eq_some_iff] at hlk; obtain ⟨a, _⟩ := hlk; omega
      | some y =>
        rw [hlk, hdk] at hk
        simp only [Option.map_some, Option.some.injEq] at hk
        rw [named_copy hk]
  obtain ⟨-, s⟩ := registerNames_spec h3 name
  obtain ⟨s1, s2⟩ := s rfl
  rw [hl] at s1 s2
  have hn := registerNames_nodup h3
  rw [hl] at hn
  constructor
  · intro k e hk hen hne
    unfold DF.atName
    cases hf : findName d.index name with
    | none =>
      rcases s2 hf with h | h
      · exact absurd h hne
      · exact absurd hen (h e (List.mem_of_getElem? hk))
    | some j =>
      obtain ⟨-, k', e', hk', hen', hj⟩ := s1 j hf
      have : k' = k := hn k' k e' e hk' hk (by rw [hen']; exact hne) (by rw [hen', hen])
      subst this
      rw [Nat.zero_add] at hj
      have hlt : j < l.length := by
        have h1 : (l.take k').countP (fun e => decide (e.name ≠ [])) ≤ (l.take k').length := List.countP_le_length
        have h2 := (List.getElem?_eq_some_iff.1 hk).1
        rw [List.length_take] at h1
        omega
      simp only
      rw [hl, ← hj, List.getElem?_eq_getElem hlt]
      exact ⟨_, rfl, rfl⟩
  · intro h0
    unfold DF.atName
    cases hf : findName d.index name with
    | none => rfl
    | some j =>
      obtain ⟨hne, k', e', hk', hen', -⟩ := s1 j hf
      rcases h0 with h0 | h0
      · exact absurd h0 hne
      · exact absurd hen' (h0 e' (List.mem_of_getElem? hk'))

theorem ofIter_index {C : Coercion} {src : List (Res (Named C))} {d : DF C} (h : DF.ofIter src = .ok d) (hn : NamedFirst d.elems) :
    IndexOK d ∧ UniqueNames d := by
  obtain ⟨-, -, -, h3⟩ := ofIter_spec h
  refine ⟨fun name => ?_, registerNames_nodup h3⟩
  obtain ⟨s1, s2⟩ := (registerNames_spec h3 name).2 rfl
  refine ⟨fun i hi => ?_, s2⟩
  obtain ⟨hne, k, e, hk, hen, hj⟩ := s1 i hi
  refine ⟨hne, e, ?_, hen⟩
  rw [hj, Nat.zero_add, countP_take_named hn hk (by rw [hen]; exact hne)]
  exact hk

theorem bindLoop_index {C : Coercion} : ∀ {es : List (Named C)} {k : Nat} {d : DF C}, IndexOK d →
    IndexOK (bindLoop (fun _ => false) k d es).2 := by
  intro es
  induction es with
  | nil => intro k d h; exact h
  | cons e es ih =>
    intro k d h
    have old : ∀ (i : Nat) (f : Named C), d.elems[i]? = some f → (d.elems ++ [e])[i]? = some f := by
      intro i f hi
      rw [List.getElem?_append_left (List.getElem?_eq_some_iff.1 hi).1]; exact hi
    unfold bindLoop
    split
    · rename_i hne
      simp only [Bool.false_eq_true, if_false]
      apply ih
      intro name
      obtain ⟨h1, h2⟩ := h name
      simp only
      rw [findName_cons]
      by_cases hen : e.name = name
      · rw [if_pos hen]
        refine ⟨fun i hi => ?_, fun h => by cases h⟩
        cases hi
        exact ⟨hen ▸ hne, e, by simp, hen⟩
      · rw [if_neg hen]
        refine ⟨fun i hi => ?_, fun hnone => ?_⟩
        · obtain ⟨a, f, hf, b⟩ := h1 i hi
          exact ⟨a, f, old i f hf, b⟩
        · rcases h2 hnone with h2 | h2
          · exact Or.inl h2
          · refine Or.inr fun f hf => ?_
            rcases List.mem_append.1 hf with hf | hf
            · exact h2 f hf
            · rw [List.mem_singleton.1 hf]; exact hen
    · rename_i hne
      have hne : e.name = [] := by simpa using hne
      simp only [Bool.false_eq_true, if_false]
      apply ih
      intro name
      obtain ⟨h1, h2⟩ := h name
      refine ⟨fun i hi => ?_, fun hnone => ?_⟩
      · obtain ⟨a, f, hf, b⟩ := h1 i hi
        exact ⟨a, f, old i f hf, b⟩
      · rcases h2 hnone with h2 | h2
        · exact Or.inl h2
        · by_cases hn : name = []
          · exact Or.inl hn
          · refine Or.inr fun f hf => ?_
            rcases List.mem_append.1 hf with hf | hf
            · exact h2 f hf
            · rw [List.mem_singleton.1 hf, hne]; exact fun h => hn h.symm

theorem bind_index {C : Coercion} {a b : DF C} (ha : IndexOK a) : IndexOK (a.bind (fun _ => false) b).2 := by
  unfold DF.bind
  simp only [Bool.false_eq_true, if_false]
  split
  · split
    · split
      · exact bindLoop_index ha
      · exact ha
    · exact bindLoop_index (d := { a with rows := b.rows }) ha
  · exact ha

theorem bind_unique {C : Coercion} {S : Nat → Bool} {a b : DF C} (ha : IndexOK a) (hua : UniqueNames a) (hub : UniqueNames b) :
    UniqueNames (a.bind S b).2 := by
  have main : (∀ name ∈ b.names, name = [] ∨ findName a.index name = none) → ∀ n, ∀ (i j : Nat) e f,
      (a.elems ++ b.elems.take n)[i]? = some e → (a.elems ++ b.elems.take n)[j]? = some f → e.name ≠ [] → e.name = f.name → i = j := by
    intro hfresh n
    have cross : ∀ e f, e ∈ a.elems → f ∈ b.elems → e.name ≠ [] → e.name ≠ f.name := by
      intro e f he hf hne hef
      rcases hfresh f.name (List.mem_map_of_mem hf) with h | h
      · exact hne (hef.trans h)
      · rcases (ha f.name).2 h with h | h
        · exact hne (hef.trans h)
        · exact h e he hef
    intro i j e f hi hj hne hef
    rw [List.getElem?_append] at hi hj
    split at hi <;> split at hj
    · exact hua i j e f hi hj hne hef
    · exact absurd hef (cross e f (List.mem_of_getElem? hi) (List.mem_of_mem_take (List.mem_of_getElem? hj)) hne)
    · exact absurd hef.symm (cross f e (List.mem_of_getElem? hj) (List.mem_of_mem_take (List.mem_of_getElem? hi)) (hef ▸ hne))
    · have tk : ∀ (k : Nat) g, (b.elems.take n)[k]? = some g → b.elems[k]? = some g := by
        intro k g hg
        rw [List.getElem?_take] at hg
        split at hg
        · exact hg
        · cases hg
      have := hub _ _ e f (tk _ e hi) (tk _ f hj) hne hef
      omega
  by_cases hf : ∀ name ∈ b.names, name = [] ∨ findName a.index name = none
  · rcases bind_elems S a b with ⟨h, -⟩ | ⟨-, -, n, -, h, -⟩
    · rw [h]; exact hua
    · intro i j e f hi hj
      rw [h] at hi hj
      exact main hf n i j e f hi hj
  · have : (a.bind S b).2 = a := by
      unfold DF.bind
      split
      · rfl
      · rw [if_neg]
        intro hall
        apply hf
        intro name hn
        rw [List.all_eq_true] at hall
        have := hall name hn
        simp only [Bool.or_eq_true, List.isEmpty_iff, Option.isNone_iff_eq_none] at this
        exact this
    rw [this]
    exact hua

theorem ofNamed_unique {C : Coercion} (e : Named C) : UniqueNames (DF.ofNamed e) := by
  intro i j x y hi hj _ _
  simp only [DF.ofNamed] at hi hj
  have h1 := (List.getElem?_eq_some_iff.1 hi).1
  have h2 := (List.getElem?_eq_some_iff.1 hj).1
  simp at h1 h2
  omega

theorem empty_names {C : Coercion} : IndexOK (DF.empty : DF C) ∧ UniqueNames (DF.empty : DF C) := by
  refine ⟨fun name => ⟨fun i hi => (by cases hi), fun _ => Or.inr fun e he => by cases he⟩, fun i j e f hi => ?_⟩
  simp [DF.empty] at hi

theorem bindNamed_names {C : Coercion} {d d' : DF C} {e : Named C} (h : bindNamed d e = .ok d') (hd : IndexOK d ∧ UniqueNames d) :
    IndexOK d' ∧ UniqueNames d' := by
  unfold bindNamed at h
  have h1 := bind_index (b := DF.ofNamed e) hd.1
  have h2 := bind_unique (S := fun _ => false) hd.1 hd.2 (ofNamed_unique e)
  cases hb : d.bind (fun _ => false) (DF.ofNamed e) with
  | mk r d2 =>
    rw [hb] at h h1 h2
    cases r with
    | ok u => cases h; exact ⟨h1, h2⟩
    | error f => cases h

/-! ### C43, C44

Histories without the operations that lose names: a data frame made from one named column is only used to be bound into
another, unnamed columns come after the named ones in the lists (and in the data frames `head` is applied to), and memory does not run out
during `bind`. -/

/-- Such histories. -/
inductive Tame {fp : Fp} : DF (julesRules fp) → Prop
  | default : Tame DF.empty
  | ofList {l d} : NamedFirst l → DF.ofList l = .ok d → Tame d
  | ofColumn {c d} : DF.ofColumn c = .ok d → Tame d
  | copy {d d'} : Tame d → d.copy = .ok d' → Tame d'
  | copyAssign {n cap d d'} : Tame d → DF.copyAssign n cap d = .ok d' → Tame d'
  | moveTo {d} : Tame d → Tame d.move.1
  | movedFrom {d} : Tame d → Tame d.move.2
  | bind {a b} : Tame a → Tame b → Tame (a.bind (fun _ => false) b).2
  | bindColumn {a e} : Tame a → Tame (a.bind (fun _ => false) (DF.ofNamed e)).2
  | read {opt inp d} : DF.read fp opt inp = .ok d → Tame d
  | head {d n d'} : Tame d → NamedFirst d.elems → d.head n = .ok d' → Tame d'

theorem namedFirst_congr {C : Coercion} {l l' : List (Named C)} (h : l.map Named.name = l'.map Named.name) (hl : NamedFirst l) : NamedFirst l' := by
  intro i j e f hij hi hj he
  have get : ∀ (k : Nat) g, l'[k]? = some g → ∃ g', l[k]? = some g' ∧ g'.name = g.name := by
    intro k g hg
    have := congrArg (fun x => x[k]?) h
    simp only [List.getElem?_map, hg, Option.map_some] at this
    rw [Option.map_eq_some_iff] at this
    exact this
  obtain ⟨e', he', hn⟩ := get i e hi
  obtain ⟨f', hf', hm⟩ := get j f hj
  rw [← hm]
  exact hl i j e' f' hij he' hf' (hn.trans he)

theorem map_ok_inj {C : Coercion} {l : List (Named C)} {g : Named C → Res (Named C)} {es : List (Named C)}
    (hg : ∀ e e', g e = .ok e' → e'.name = e.name) (h : l.map g = es.map Except.ok) : l.map Named.name = es.map Named.name := by
  apply List.ext_getElem?
  intro k
  have hk := congrArg (fun x => x[k]?) h
  simp only [List.getElem?_map] at hk ⊢
  cases hl : l[k]? with
  | none =>
    cases he : es[k]? with
    | none => rfl
    | some y => rw [hl, he] at hk; cases hk
  | some x =>
    cases he : es[k]? with
    | none => rw [hl, he] at hk; cases hk
    | some y =>
      rw [hl, he] at hk
      simp only [Option.map_some, Option.some.injEq] at hk ⊢
      exact (hg x y hk).symm

theorem tame_names {fp : Fp} {d : DF (julesRules fp)} (h : Tame d) : IndexOK d ∧ UniqueNames d := by
  induction h with
  | default => exact empty_names
  | ofList hl h =>
    refine ofIter_index h (namedFirst_congr ?_ hl)
    exact map_ok_inj (fun e e' he => by rw [named_copy he]) (ofIter_spec h).2.1
  | ofColumn h =>
    unfold DF.ofColumn at h
    rw [res_bind_ok] at h
    obtain ⟨c', hc, h⟩ := h
    cases h
    refine ⟨fun name => ⟨fun i hi => (by cases hi), fun _ => ?_⟩, fun i j e f hi hj _ _ => ?_⟩
    · by_cases hn : name = []
      · exact Or.inl hn
      · refine Or.inr fun e he => ?_
        simp only [List.mem_singleton] at he
        subst he
        exact fun h => hn h.symm
    · have h1 := (List.getElem?_eq_some_iff.1 hi).1
      have h2 := (List.getElem?_eq_some_iff.1 hj).1
      simp at h1 h2
      omega
  | copy _ h ih => rw [df_copy h]; exact ih
  | copyAssign _ h ih => rw [df_copyAssign h]; exact ih
  | moveTo _ ih => exact ih
  | movedFrom _ _ =>
    refine ⟨fun name => ⟨fun i hi => (by cases hi), fun _ => Or.inr fun e he => by cases he⟩, fun i j e f hi => ?_⟩
    simp [DF.move] at hi
  | bind _ _ ha hb => exact ⟨bind_index ha.1, bind_unique ha.1 ha.2 hb.2⟩
  | bindColumn _ ha => exact ⟨bind_index ha.1, bind_unique ha.1 ha.2 (ofNamed_unique _)⟩
  | read h => exact read_inv (P := fun d => IndexOK d ∧ UniqueNames d) empty_names (fun d e d' hd h => bindNamed_names h hd) h
  | head _ hn h _ =>
    unfold DF.head at h
    split at h
    · cases h
    · rw [res_bind_ok] at h
      obtain ⟨t, ht, h⟩ := h
      rw [df_copy h]
      refine ofIter_index ht (namedFirst_congr ?_ hn)
      refine map_ok_inj (fun e e' he => ?_) (ofIter_spec ht).2.1
      rw [res_bind_ok] at he
      obtain ⟨c, -, he⟩ := he
      cases he
      rfl

/-- C43 (tame histories): `at(name)` gives the column that has that name, and throws iff there is none (or the name is empty).
Missing: the operations excluded from tame histories, for which it is false (the theorems below). -/
theorem C43_lookup_partial {fp : Fp} {d : DF (julesRules fp)} (h : Tame d) : LookupOK d := (tame_names h).1.lookup

/-- C43: binding other columns does not affect the lookup of a name that they do not have. -/
theorem C43_bind_keeps {fp : Fp} {a b : DF (julesRules fp)} (ha : Tame a) (name : Txt) (e : Named (julesRules fp))
    (he : a.atName name = .ok e) : (a.bind (fun _ => false) b).2.atName name = .ok e := by
  have keep : ∀ {es : List (Named (julesRules fp))} {k : Nat} {d : DF (julesRules fp)}, (∀ f ∈ es, f.name ≠ name) → d.atName name = .ok e →
      (bindLoop (fun _ => false) k d es).2.atName name = .ok e := by
    intro es
    induction es with
    | nil => intro k d _ h; exact h
    | cons f es ih =>
      intro k d hf h
      have hstep : ∀ ix, (findName ix name = findName d.index name) →
          ({ d with index := ix, elems := d.elems ++ [f] } : DF (julesRules fp)).atName name = .ok e := by
        intro ix hix
        unfold DF.atName at h ⊢
        simp only [hix]
        cases hi : findName d.index name with
        | none => rw [hi] at h; cases h
        | some i =>
          rw [hi] at h
          simp only at h ⊢
          cases hx : d.elems[i]? with
          | none => rw [hx] at h; cases h
          | some x =>
            rw [hx] at h
            rw [List.getElem?_append_left (List.getElem?_eq_some_iff.1 hx).1, hx]
            exact h
      unfold bindLoop
      split
      · simp only [Bool.false_eq_true, if_false]
        refine ih (fun g hg => hf g (by simp [hg])) (hstep _ ?_)
        rw [findName_cons, if_neg (hf f (by simp))]
      · simp only [Bool.false_eq_true, if_false]
        exact ih (fun g hg => hf g (by simp [hg])) (hstep _ rfl)
  by_cases hfresh : ∀ f ∈ b.elems, f.name ≠ name
  · unfold DF.bind
    simp only [Bool.false_eq_true, if_false]
    split
    · split
      · split
        · exact keep hfresh he
        · exact he
      · exact keep (d := { a with rows := b.rows }) hfresh he
    · exact he
  · have hno : (a.bind (fun _ => false) b).2 = a := by
      unfold DF.bind
      simp only [Bool.false_eq_true, if_false]
      rw [if_neg]
      intro hall
      apply hfresh
      intro f hf hfn
      rw [List.all_eq_true] at hall
      have := hall f.name (List.mem_map_of_mem hf)
      simp only [Bool.or_eq_true, List.isEmpty_iff, Option.isNone_iff_eq_none] at this
      rw [hfn] at this
      obtain ⟨h1, h2⟩ := (tame_names ha).1 name
      unfold DF.atName at he
      cases hi : findName a.index name with
      | none => rw [hi] at he; cases he
      | some i =>
        rcases this with h | h
        · exact (h1 i hi).1 h
        · rw [hi] at h; cases h
    rw [hno]
    exact he

/-- C44 (tame histories): no two columns have the same non-empty name. Missing: see `C44_duplicates`. -/
theorem C44_unique_partial {fp : Fp} {d : DF (julesRules fp)} (h : Tame d) : UniqueNames d := (tame_names h).2

/-- C44: an attempt to bind columns with a name that is taken throws and changes nothing. -/
theorem C44_bind_reports {fp : Fp} {a b : DF (julesRules fp)} (ha : Tame a) {e f : Named (julesRules fp)} (he : e ∈ a.elems)
    (hf : f ∈ b.elems) (hne : e.name ≠ []) (hef : e.name = f.name) :
    a.bind (fun _ => false) b = (.error (.exc .logic), a) := by
  unfold DF.bind
  simp only [Bool.false_eq_true, if_false]
  rw [if_neg]
  intro hall
  rw [List.all_eq_true] at hall
  have := hall f.name (List.mem_map_of_mem hf)
  simp only [Bool.or_eq_true, List.isEmpty_iff, Option.isNone_iff_eq_none] at this
  rcases this with h | h
  · exact hne (hef.trans h)
  · rcases ((tame_names ha).1 f.name).2 h with h | h
    · exact hne (hef.trans h)
    · exact h e he hef

/-- C44: a list of columns with a repeated non-empty name is not accepted. -/
theorem C44_list_reports {C : Coercion} {l : List (Named C)} {i j : Nat} {e f : Named C} (hi : l[i]? = some e) (hj : l[j]? = some f)
    (hij : i ≠ j) (hne : e.name ≠ []) (hef : e.name = f.name) : ∀ d, DF.ofList l ≠ .ok d := by
  intro d h
  obtain ⟨-, h1, -, h3⟩ := ofIter_spec h
  have hlen : d.elems.length = l.length := by simpa using (congrArg List.length h1).symm
  have get : ∀ (k : Nat) g, l[k]? = some g → d.elems[k]? = some g := by
    intro k g hg
    have hk := congrArg (fun x => x[k]?) h1
    simp only [List.getElem?_map, hg, Option.map_some] at hk
    rw [eq_comm, Option.map_eq_some_iff] at hk
    obtain ⟨y, hy, hyc⟩ := hk
    rw [hy, named_copy hyc.symm]
  exact hij (registerNames_nodup h3 i j e f (get i e hi) (get j f hj) hne hef)

/-! Refutations. -/

/-- C43 fails after an unnamed column: looking up "x" gives the unnamed column. -/
theorem C43_wrong_column : ∃ d, DF.ofList [⟨[], icol [1, 2]⟩, ⟨['x'], icol [3, 4]⟩] = .ok d ∧
    d.atName ['x'] = .ok ⟨[], icol [1, 2]⟩ := ⟨_, rfl, by decide +kernel⟩

/-- C43 fails for a data frame made from one named column: its name is not found. -/
theorem C43_named_column {C : Coercion} (e : Named C) : (DF.ofNamed e).names = [e.name] ∧
    (DF.ofNamed e).atName e.name = .error (.exc .logic) := ⟨rfl, rfl⟩

/-- C44 fails for the same reason: two columns of the same name can be bound, without an error. -/
theorem C44_duplicates {C : Coercion} (e f : Named C) (h : Column.size e.col = Column.size f.col) :
    ((DF.ofNamed e).bind (fun _ => false) (DF.ofNamed f)).1 = .ok () ∧
    ((DF.ofNamed e).bind (fun _ => false) (DF.ofNamed f)).2.names = [e.name, f.name] := by
  unfold DF.bind
  have h1 : (DF.ofNamed f).names.all (fun name => name.isEmpty || (findName (DF.ofNamed e).index name).isNone) = true := by
    rw [List.all_eq_true]
    intro x _
    simp [DF.ofNamed, findName]
  simp only [Bool.false_eq_true, if_false]
  rw [h1]
  simp only [if_true]
  have h2 : (DF.ofNamed e).nonempty = true := rfl
  rw [h2, if_pos rfl, if_pos (show (DF.ofNamed e).rows = (DF.ofNamed f).rows from h)]
  unfold DF.ofNamed
  simp only
  unfold bindLoop
  split
  · exact ⟨rfl, rfl⟩
  · exact ⟨rfl, rfl⟩

/-! ### C45 -/

theorem bindLoop_ok {C : Coercion} : ∀ {es : List (Named C)} {k : Nat} {d : DF C}, (bindLoop (fun _ => false) k d es).1 = .ok () := by
  intro es
  induction es with
  | nil => intro k d; rfl
  | cons e es ih =>
    intro k d
    unfold bindLoop
    split <;> exact ih

/-- C45: without allocation failures, `bind` appends the columns of the other data frame at the right end, keeping the present ones, iff no
non-empty name is already registered and the numbers of rows agree (or there are no columns yet); otherwise it throws and
the data frame is unchanged. -/
theorem C45_bind {C : Coercion} (a b : DF C) :
    let r := a.bind (fun _ => false) b
    ((∀ e ∈ b.elems, e.name = [] ∨ findName a.index e.name = none) ∧ (a.elems = [] ∨ a.rows = b.rows) →
      r.1 = .ok () ∧ r.2.elems = a.elems ++ b.elems ∧ r.2.rows = b.rows) ∧
    (¬ ((∀ e ∈ b.elems, e.name = [] ∨ findName a.index e.name = none) ∧ (a.elems = [] ∨ a.rows = b.rows)) →
      r = (.error (.exc .logic), a)) := by
  have hall : b.names.all (fun name => name.isEmpty || (findName a.index name).isNone) = true ↔
      ∀ e ∈ b.elems, e.name = [] ∨ findName a.index e.name = none := by
    simp [DF.names, List.all_eq_true]
  have hne : a.nonempty = true ↔ a.elems ≠ [] := by
    simp only [DF.nonempty, decide_eq_true_eq]
    exact List.length_pos_iff
  intro r
  constructor
  · rintro ⟨h1, h2⟩
    have hok : r.1 = .ok () := by
      show (a.bind (fun _ => false) b).1 = _
      unfold DF.bind
      simp only [Bool.false_eq_true, if_false]
      rw [if_pos (hall.2 h1)]
      split
      · rename_i h
        rw [hne] at h
        rw [if_pos (h2.resolve_left h)]
        exact bindLoop_ok
      · exact bindLoop_ok
    rcases bind_elems (fun _ => false) a b with ⟨-, h⟩ | ⟨-, h3, n, -, h4, h5, -⟩
    · exact absurd hok h
    · refine ⟨hok, ?_, h3⟩
      rw [show r.2.elems = _ from h4, h5 hok, List.take_length]
  · intro h
    show a.bind (fun _ => false) b = _
    unfold DF.bind
    simp only [Bool.false_eq_true, if_false]
    split
    · rename_i h1
      rw [hall] at h1
      split
      · rename_i h2
        rw [hne] at h2
        rw [if_neg]
        intro h3
        exact h ⟨h1, Or.inr h3⟩
      · rename_i h2
        rw [hne] at h2
        exact absurd ⟨h1, Or.inl (by simpa using h2)⟩ h
    · rfl

/-- C45, in terms of the names: for a data frame from a history as in `Tame`, `bind` succeeds iff no column of the other has a non-empty name
of one of its columns, and the numbers of rows agree (or there are no columns yet). -/
theorem C45_bind_names {fp : Fp} {a : DF (julesRules fp)} (ha : Tame a) (b : DF (julesRules fp)) :
    let r := a.bind (fun _ => false) b
    let fits := (∀ e ∈ b.elems, e.name = [] ∨ e.name ∉ a.names) ∧ (a.elems = [] ∨ a.rows = b.rows)
    (fits → r.1 = .ok () ∧ r.2.names = a.names ++ b.names ∧ r.2.elems = a.elems ++ b.elems ∧ r.2.rows = b.rows) ∧
    (¬ fits → r = (.error (.exc .logic), a)) := by
  have key : ∀ e ∈ b.elems, (e.name = [] ∨ findName a.index e.name = none) ↔ (e.name = [] ∨ e.name ∉ a.names) := by
    intro e _
    obtain ⟨h1, h2⟩ := (tame_names ha).1 e.name
    constructor
    · rintro (h | h)
      · exact Or.inl h
      · rcases h2 h with h | h
        · exact Or.inl h
        · right
          intro hm
          obtain ⟨x, hx, hxe⟩ := List.mem_map.1 hm
          exact h x hx hxe
    · rintro (h | h)
      · exact Or.inl h
      · right
        cases hf : findName a.index e.name with
        | none => rfl
        | some i =>
          obtain ⟨-, x, hx, hxe⟩ := h1 i hf
          exact absurd (List.mem_map.2 ⟨x, List.mem_of_getElem? hx, hxe⟩) h
  have iff : (∀ e ∈ b.elems, e.name = [] ∨ findName a.index e.name = none) ↔ (∀ e ∈ b.elems, e.name = [] ∨ e.name ∉ a.names) :=
    forall₂_congr key
  obtain ⟨h1, h2⟩ := C45_bind a b
  rw [iff] at h1 h2
  refine ⟨fun h => ?_, h2⟩
  obtain ⟨p, q, r⟩ := h1 h
  exact ⟨p, by simp [DF.names, q], q, r⟩

/-- C45: the same under allocation failures: either everything was appended, or `bad_alloc`/the assertion is reported. But then some of the columns may have been
appended (see `C45_out_of_memory`). -/
theorem C45_bind_out_of_memory_partial {C : Coercion} (S : Nat → Bool) (a b : DF C) :
    let r := a.bind S b
    (r.1 = .ok () → r.2.elems = a.elems ++ b.elems) ∧
    (∀ e, r.1 = .error e → (e = .exc .logic ∨ e = .exc .badAlloc) ∧ ∃ n, r.2.elems = a.elems ++ b.elems.take n) := by
  intro r
  rcases bind_elems S a b with ⟨h, h'⟩ | ⟨-, -, n, -, h2, h3, h4⟩
  · refine ⟨fun hok => absurd hok h', fun e he => ⟨?_, 0, by rw [h]; simp⟩⟩
    have : r.1 = .ok () ∨ r.1 = .error (.exc .badAlloc) ∨ r.1 = .error (.exc .logic) := by
      show (a.bind S b).1 = _ ∨ (a.bind S b).1 = _ ∨ (a.bind S b).1 = _
      unfold DF.bind
      split
      · exact Or.inr (Or.inl rfl)
      · split
        · split
          · split
            · rcases (bindLoop_elems (S := S) (es := b.elems) (k := 1) (d := a)).2 with ⟨_, _, _, _, h | h⟩
              · exact Or.inl h
              · exact Or.inr (Or.inl h)
            · exact Or.inr (Or.inr rfl)
          · rcases (bindLoop_elems (S := S) (es := b.elems) (k := 1) (d := { a with rows := b.rows })).2 with ⟨_, _, _, _, h | h⟩
            · exact Or.inl h
            · exact Or.inr (Or.inl h)
        · exact Or.inr (Or.inr rfl)
    rcases this with h | h | h <;> rw [he] at h <;> cases h
    · exact Or.inr rfl
    · exact Or.inl rfl
  · refine ⟨fun hok => by rw [show r.2.elems = _ from h2, h3 hok, List.take_length], fun e he => ⟨?_, n, h2⟩⟩
    rcases h4 with h | h <;> rw [show r.1 = _ from h] at he <;> cases he
    exact Or.inr rfl

/-- C45 fails when memory runs out after the name was registered: the name then refers to a column that does not exist, and looking it up
is undefined behaviour. -/
theorem C45_out_of_memory : ∃ S : Nat → Bool,
    let r := (DF.empty : DF (julesRules fpEx)).bind S (DF.ofNamed ⟨['x'], icol [1]⟩)
    r.1 = .error (.exc .badAlloc) ∧ r.2.elems = [] ∧ r.2.rows = 1 ∧ r.2.atName ['x'] = .error .ub :=
  ⟨fun k => k == 2, by decide +kernel⟩

example : ((DF.empty : DF (julesRules fpEx)).bind (fun _ => false) (DF.ofNamed ⟨['x'], icol [1, 2]⟩)) =
    (.ok (), ⟨2, [⟨['x'], icol [1, 2]⟩], [(['x'], 0)]⟩) := by decide +kernel

example : Tame (fp := fpEx) ⟨2, [⟨['x'], icol [1, 2]⟩], [(['x'], 0)]⟩ :=
  Tame.bindColumn (e := ⟨['x'], icol [1, 2]⟩) Tame.default

example : ((⟨2, [⟨['x'], icol [1, 2]⟩], [(['x'], 0)]⟩ : DF (julesRules fpEx)).bind (fun _ => false) (DF.ofNamed ⟨['y'], icol [1]⟩)) =
    (.error (.exc .logic), ⟨2, [⟨['x'], icol [1, 2]⟩], [(['x'], 0)]⟩) := by decide +kernel

/-! ### The hypotheses hold in concrete cases -/

/-- A data frame with columns `x = (1, 2)` and `y = (3, 4)`, bound one after the other. -/
def dfXY : DF (julesRules fpEx) :=
  ((DF.empty.bind (fun _ => false) (DF.ofNamed ⟨['x'], icol [1, 2]⟩)).2.bind (fun _ => false) (DF.ofNamed ⟨['y'], icol [3, 4]⟩)).2

theorem dfXY_tame : Tame dfXY := Tame.bindColumn (e := ⟨['y'], icol [3, 4]⟩) (Tame.bindColumn (e := ⟨['x'], icol [1, 2]⟩) Tame.default)

theorem dfXY_reach : Reach dfXY := .bind _ (.bind _ .default (.ofNamed ⟨['x'], icol [1, 2]⟩)) (.ofNamed ⟨['y'], icol [3, 4]⟩)

example : dfXY = ⟨2, [⟨['x'], icol [1, 2]⟩, ⟨['y'], icol [3, 4]⟩], [(['y'], 1), (['x'], 0)]⟩ := by decide +kernel

example := C42_rectangular_partial dfXY_reach
example := C42_cells dfXY_reach 1 (by decide +kernel)
example := C43_list_constructor (l := [⟨['x'], icol [1, 2]⟩, ⟨['y'], icol [3, 4]⟩])
  (d := ⟨2, [⟨['x'], icol [1, 2]⟩, ⟨['y'], icol [3, 4]⟩], [(['y'], 1), (['x'], 0)]⟩) (by decide +kernel)
example := C43_lookup_partial dfXY_tame
example := C43_bind_keeps dfXY_tame (b := DF.ofNamed ⟨['z'], icol [5, 6]⟩) ['x'] ⟨['x'], icol [1, 2]⟩ (by decide +kernel)
example := C44_unique_partial dfXY_tame
example := C44_bind_reports dfXY_tame (b := DF.ofNamed ⟨['x'], icol [5, 6]⟩) (e := ⟨['x'], icol [1, 2]⟩) (f := ⟨['x'], icol [5, 6]⟩)
  (by decide +kernel) (by decide +kernel) (by decide) rfl
example := C44_list_reports (l := [⟨['x'], icol [1, 2]⟩, ⟨['x'], icol [3, 4]⟩]) (i := 0) (j := 1) rfl rfl (by decide) (by decide) rfl
example := C44_duplicates (⟨['x'], icol [1, 2]⟩ : Named (julesRules fpEx)) ⟨['x'], icol [3, 4]⟩ rfl
example := C45_bind_names dfXY_tame (DF.ofNamed ⟨['z'], icol [5, 6]⟩)

end Jules.Props

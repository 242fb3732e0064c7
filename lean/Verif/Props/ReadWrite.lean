import Verif.Props.DataFrame
import Verif.Props.IO
/-
C46-C48: reading and writing data frames.
-/
namespace Jules.Props

/-! ### C46

Specification: the rows of a text are the cells of its lines that are not blank (lines without any cell before the first row are ignored). -/

/-- The rows of a text. -/
def tableRows (opt : ReadOpts) (raw : Txt) : List (List Txt) :=
  (((opt.lines raw).filter fun l => !l.isEmpty).map opt.cells).dropWhile List.isEmpty

/-- The non-empty names are distinct. -/
def DistinctNames (names : List Txt) : Prop := ∀ (i j : Nat) x, names[i]? = some x → names[j]? = some x → x ≠ [] → i = j

theorem readLines_pos (cells : Txt → List Txt) (ncol : Nat) (hn : 0 < ncol) : ∀ (lines : List Txt) (data : List Txt),
    let rows := (lines.filter fun l => !l.isEmpty).map cells
    ((∀ r ∈ rows, r.length = ncol) → readLines cells lines ncol data = .ok (ncol, data ++ rows.flatten)) ∧
    (¬ (∀ r ∈ rows, r.length = ncol) → readLines cells lines ncol data = .error (.exc .logic)) := by
  intro lines
  induction lines with
  | nil => intro data; simp [readLines]
  | cons l lines ih =>
    intro data
    cases l with
    | nil => simp only [readLines, if_true]; exact ih data
    | cons c l =>
      have e : ((c :: l) :: lines).filter (fun l => !l.isEmpty) = (c :: l) :: lines.filter (fun l => !l.isEmpty) := by
        rw [List.filter_cons]; simp
      rw [e]
      simp only [List.map_cons, List.forall_mem_cons, List.flatten_cons]
      unfold readLines
      simp only [reduceCtorEq, if_false, if_neg (show ¬ ncol = 0 by omega)]
      by_cases h : (cells (c :: l)).length = ncol
      · rw [if_pos (Or.inr h)]
        obtain ⟨h1, h2⟩ := ih (data ++ cells (c :: l))
        refine ⟨fun ⟨_, h'⟩ => by rw [h1 h', List.append_assoc], fun h' => h2 fun h3 => h' ⟨h, h3⟩⟩
      · rw [if_neg (by omega)]
        exact ⟨fun ⟨h', _⟩ => absurd h' h, fun _ => rfl⟩

theorem readLines_zero (cells : Txt → List Txt) : ∀ (lines : List Txt),
    let rows := ((lines.filter fun l => !l.isEmpty).map cells).dropWhile List.isEmpty
    (rows = [] → readLines cells lines 0 [] = .ok (0, [])) ∧
    (∀ r rs, rows = r :: rs → r ≠ [] ∧
      ((∀ x ∈ rs, x.length = r.length) → readLines cells lines 0 [] = .ok (r.length, r ++ rs.flatten)) ∧
      (¬ (∀ x ∈ rs, x.length = r.length) → readLines cells lines 0 [] = .error (.exc .logic))) := by
  intro lines
  induction lines with
  | nil => simp [readLines]
  | cons l lines ih =>
    cases l with
    | nil => simp only [readLines, if_true]; exact ih
    | cons c l =>
      have e : ((c :: l) :: lines).filter (fun l => !l.isEmpty) = (c :: l) :: lines.filter (fun l => !l.isEmpty) := by
        rw [List.filter_cons]; simp
      rw [e]
      simp only [List.map_cons, List.dropWhile_cons]
      unfold readLines
      simp only [reduceCtorEq, if_false, if_true, or_true]
      cases hc : cells (c :: l) with
      | nil => simpa using ih
      | cons x xs =>
        simp only [List.isEmpty_cons, Bool.false_eq_true, if_false, reduceCtorEq, false_implies, true_and, List.cons.injEq, and_imp]
        rintro r rs rfl rfl
        refine ⟨by simp, ?_⟩
        have := readLines_pos cells (x :: xs).length (by simp) lines ([] ++ (x :: xs))
        simpa using this

theorem strideL_nil (n fuel : Nat) : strideL n fuel ([] : List α) = [] := by cases fuel <;> rfl

theorem strideL_rows (n j : Nat) (hj : j < n) : ∀ (rows : List (List Txt)) (fuel : Nat), (∀ r ∈ rows, r.length = n) →
    (rows.flatten.drop j).length ≤ fuel → strideL n fuel (rows.flatten.drop j) = rows.map fun r => r.getD j [] := by
  intro rows
  induction rows with
  | nil => intro fuel _ _; simp [strideL_nil]
  | cons r rows ih =>
    intro fuel hr hf
    have hrl : r.length = n := hr r (by simp)
    have hd : (r :: rows).flatten.drop j = r[j] :: (r.drop (j + 1) ++ rows.flatten) := by
      rw [List.flatten_cons, List.drop_append_of_le_length (by omega), List.drop_eq_getElem_cons (by omega)]
      rfl
    rw [hd] at hf ⊢
    cases fuel with
    | zero => simp at hf
    | succ fuel =>
      have hd2 : (r.drop (j + 1) ++ rows.flatten).drop (n - 1) = rows.flatten.drop j := by
        rw [List.drop_append, List.drop_eq_nil_of_le (by simp; omega), List.nil_append, List.length_drop]
        congr 1; omega
      unfold strideL
      rw [hd2, ih fuel (fun x hx => hr x (by simp [hx])) ?_]
      · rw [List.map_cons]
        congr 1
        rw [List.getD_eq_getElem?_getD, List.getElem?_eq_getElem (by omega)]
        rfl
      · rw [← hd2]
        simp only [List.length_drop, List.length_cons] at hf ⊢
        omega

theorem bindNamed_eq {C : Coercion} (d : DF C) (e : Named C) :
    ((e.name = [] ∨ findName d.index e.name = none) ∧ (d.elems = [] ∨ d.rows = Column.size e.col) →
      ∃ d', bindNamed d e = .ok d' ∧ d'.elems = d.elems ++ [e] ∧ d'.rows = Column.size e.col) ∧
    (¬ ((e.name = [] ∨ findName d.index e.name = none) ∧ (d.elems = [] ∨ d.rows = Column.size e.col)) →
      bindNamed d e = .error (.exc .logic)) := by
  obtain ⟨h1, h2⟩ := C45_bind d (DF.ofNamed e)
  have hm : (∀ x ∈ (DF.ofNamed e).elems, x.name = [] ∨ findName d.index x.name = none) ↔ (e.name = [] ∨ findName d.index e.name = none) := by
    simp [DF.ofNamed]
  rw [hm] at h1 h2
  unfold bindNamed
  constructor
  · intro h
    obtain ⟨a, b, c⟩ := h1 h
    cases hb : d.bind (fun _ => false) (DF.ofNamed e) with
    | mk r d2 =>
      rw [hb] at a b c
      simp only at a b c
      subst a
      exact ⟨d2, rfl, b, c⟩
  · intro h
    rw [h2 h]

/-- Binding columns one after the other into an empty data frame. -/
theorem bindAll {C : Coercion} (n : Nat) : ∀ (es : List (Named C)) (d : DF C), IndexOK d → (∀ e ∈ es, Column.size e.col = n) →
    (d.elems = [] ∨ d.rows = n) →
    (DistinctNames (es.map Named.name) ∧ (∀ e ∈ es, ∀ x ∈ d.elems, x.name ≠ [] → x.name ≠ e.name) →
      ∃ d', es.foldlM bindNamed d = .ok d' ∧ d'.elems = d.elems ++ es ∧ (es ≠ [] → d'.rows = n)) ∧
    (¬ (DistinctNames (es.map Named.name) ∧ (∀ e ∈ es, ∀ x ∈ d.elems, x.name ≠ [] → x.name ≠ e.name)) →
      es.foldlM bindNamed d = .error (.exc .logic)) := by
  intro es
  induction es with
  | nil =>
    intro d _ _ _
    refine ⟨fun _ => ⟨d, rfl, by simp, by simp⟩, fun h => absurd ⟨?_, by simp⟩ h⟩
    intro i j x hi; simp at hi
  | cons e es ih =>
    intro d hd hsz hrow
    have he : Column.size e.col = n := hsz e (by simp)
    obtain ⟨b1, b2⟩ := bindNamed_eq d e
    have fresh : (e.name = [] ∨ findName d.index e.name = none) ↔ ∀ x ∈ d.elems, x.name ≠ [] → x.name ≠ e.name := by
      constructor
      · intro h x hx hxn hxe
        rcases h with h | h
        · exact hxn (hxe.trans h)
        · rcases (hd e.name).2 h with h | h
          · exact hxn (hxe.trans h)
          · exact h x hx hxe
      · intro h
        by_cases h0 : e.name = []
        · exact Or.inl h0
        · right
          cases hf : findName d.index e.name with
          | none => rfl
          | some i =>
            obtain ⟨_, x, hx, hxe⟩ := (hd e.name).1 i hf
            exact absurd hxe (h x (List.mem_of_getElem? hx) (hxe ▸ h0))
    rw [List.foldlM_cons]
    by_cases hfr : ∀ x ∈ d.elems, x.name ≠ [] → x.name ≠ e.name
    · obtain ⟨d1, h1, h2, h3⟩ := b1 ⟨fresh.2 hfr, by rw [he]; exact hrow⟩
      have hd1 : IndexOK d1 := by
        have := bind_index (a := d) (b := DF.ofNamed e) hd
        unfold bindNamed at h1
        cases hb : d.bind (fun _ => false) (DF.ofNamed e) with
        | mk r d2 =>
          rw [hb] at h1 this
          cases r with
          | ok u => cases h1; exact this
          | error f => cases h1
      rw [h1]
      simp only [res_ok_bind]
      obtain ⟨i1, i2⟩ := ih d1 hd1 (fun x hx => hsz x (by simp [hx])) (Or.inr (by rw [h3, he]))
      have iff : (DistinctNames (es.map Named.name) ∧ ∀ f ∈ es, ∀ x ∈ d1.elems, x.name ≠ [] → x.name ≠ f.name) ↔
          (DistinctNames ((e :: es).map Named.name) ∧ ∀ f ∈ e :: es, ∀ x ∈ d.elems, x.name ≠ [] → x.name ≠ f.name) := by
        rw [h2]
        constructor
        · rintro ⟨p, q⟩
          refine ⟨?_, ?_⟩
          · intro i j x hi hj hx
            cases i with
            | zero =>
              cases j with
              | zero => rfl
              | succ j =>
                simp only [List.map_cons, List.getElem?_cons_zero, Option.some.injEq, List.getElem?_cons_succ] at hi hj
                subst hi
                rw [List.getElem?_map, Option.map_eq_some_iff] at hj
                obtain ⟨f, hf, hfn⟩ := hj
                exact absurd hfn.symm (q f (List.mem_of_getElem? hf) e (by simp) hx)
            | succ i =>
              cases j with
              | zero =>
                simp only [List.map_cons, List.getElem?_cons_zero, Option.some.injEq, List.getElem?_cons_succ] at hi hj
                subst hj
                rw [List.getElem?_map, Option.map_eq_some_iff] at hi
                obtain ⟨f, hf, hfn⟩ := hi
                exact absurd hfn.symm (q f (List.mem_of_getElem? hf) e (by simp) hx)
              | succ j =>
                simp only [List.map_cons, List.getElem?_cons_succ] at hi hj
                rw [p i j x hi hj hx]
          · intro f hf x hx
            rcases List.mem_cons.1 hf with rfl | hf
            · exact hfr x hx
            · exact q f hf x (by simp [hx])
        · rintro ⟨p, q⟩
          refine ⟨?_, ?_⟩
          · intro i j x hi hj hx
            have := p (i + 1) (j + 1) x (by simpa using hi) (by simpa using hj) hx
            omega
          · intro f hf x hx hxn hxf
            rcases List.mem_append.1 hx with hx | hx
            · exact q f (by simp [hf]) x hx hxn hxf
            · rw [List.mem_singleton] at hx
              subst hx
              obtain ⟨k, hk⟩ := List.getElem?_of_mem hf
              have := p 0 (k + 1) x.name (by simp) (by simp [hk, hxf]) hxn
              omega
      rw [iff] at i1 i2
      refine ⟨fun h => ?_, i2⟩
      obtain ⟨d', a, b, c⟩ := i1 h
      refine ⟨d', a, by rw [b, h2]; simp, fun _ => ?_⟩
      cases es with
      | nil => cases a; rw [h3, he]
      | cons f es => exact c (by simp)
    · rw [b2 (fun h => hfr (fresh.1 h.1))]
      refine ⟨fun h => absurd (h.2 e (by simp)) hfr, fun _ => rfl⟩

theorem foldlM_range_map {C : Coercion} (n : Nat) (g : Nat → Named C) (d : DF C) :
    (List.range n).foldlM (fun d j => bindNamed d (g j)) d = ((List.range n).map g).foldlM bindNamed d := by
  rw [List.foldlM_map]

/-- C46: reading a text. A text without cells gives the empty data frame; rows of different lengths are reported; otherwise the data frame has the
header's cells as names (unless a non-empty name is repeated, which is reported) and cell (i, j) is cell j of row i. When only the header is
there, the columns have no data (see C48). -/
theorem C46_read (fp : Fp) (opt : ReadOpts) (raw : Txt) :
    (tableRows opt raw = [] → DF.read fp opt (some raw) = .ok DF.empty) ∧
    ∀ first rest, tableRows opt raw = first :: rest →
      ((∃ r ∈ rest, r.length ≠ first.length) → DF.read fp opt (some raw) = .error (.exc .logic)) ∧
      ((∀ r ∈ rest, r.length = first.length) → opt.header = true → ¬ DistinctNames first → DF.read fp opt (some raw) = .error (.exc .logic)) ∧
      ((∀ r ∈ rest, r.length = first.length) → opt.header = true → DistinctNames first → rest ≠ [] →
        ∃ d, DF.read fp opt (some raw) = .ok d ∧ d.rows = rest.length ∧ d.elems = (List.range first.length).map fun j =>
          ⟨first.getD j [], Column.ofList (C := julesRules fp) JTy.string (rest.map fun r => r.getD j [])⟩) ∧
      (opt.header = true → DistinctNames first → rest = [] →
        ∃ d, DF.read fp opt (some raw) = .ok d ∧ d.rows = 0 ∧ d.elems = (List.range first.length).map fun j => ⟨first.getD j [], none⟩) ∧
      ((∀ r ∈ rest, r.length = first.length) → opt.header = false →
        ∃ d, DF.read fp opt (some raw) = .ok d ∧ d.rows = rest.length + 1 ∧ d.elems = (List.range first.length).map fun j =>
          ⟨[], Column.ofList (C := julesRules fp) JTy.string ((first :: rest).map fun r => r.getD j [])⟩) := by
  obtain ⟨z1, z2⟩ := readLines_zero opt.cells (opt.lines raw)
  constructor
  · intro h
    unfold DF.read
    simp only
    rw [z1 h]
    rfl
  · intro first rest h
    obtain ⟨hne, hok, hbad⟩ := z2 first rest h
    have hpos : 0 < first.length := List.length_pos_iff.2 hne
    have hflat : ∀ (l : List (List Txt)), (∀ r ∈ l, r.length = first.length) → l.flatten.length = l.length * first.length := by
      intro l
      induction l with
      | nil => simp
      | cons r l ih =>
        intro hl
        rw [List.flatten_cons, List.length_append, ih (fun x hx => hl x (by simp [hx])), hl r (by simp), List.length_cons, Nat.succ_mul]
        omega
    have hdiv : (∀ r ∈ rest, r.length = first.length) → (first ++ rest.flatten).length / first.length = rest.length + 1 := by
      intro hr
      rw [List.length_append, hflat rest hr, Nat.add_comm, Nat.add_div_right _ hpos, Nat.mul_div_cancel _ hpos]
    have names : ∀ (c : Nat → Column (julesRules fp)), ((List.range first.length).map fun j => (⟨first.getD j [], c j⟩ : Named (julesRules fp))).map Named.name = first := by
      intro c
      rw [List.map_map]
      apply List.ext_getElem?
      intro k
      rw [List.getElem?_map]
      by_cases hk : k < first.length
      · rw [List.getElem?_range hk]; simp [hk]
      · rw [List.getElem?_eq_none (by simp; omega), List.getElem?_eq_none (by omega)]; rfl
    have getD_eq : ∀ j, j < first.length → (first ++ rest.flatten).getD j [] = first.getD j [] := by
      intro j hj
      rw [List.getD_eq_getElem?_getD, List.getD_eq_getElem?_getD, List.getElem?_append_left hj]
    refine ⟨?_, ?_, ?_, ?_, ?_⟩
    · rintro ⟨r, hr, hrl⟩
      unfold DF.read
      simp only
      rw [hbad (fun h => hrl (h r hr))]
      rfl
    all_goals
      intro h1
    · intro hh hd
      unfold DF.read
      simp only
      rw [hok h1]
      simp only [res_ok_bind, if_neg (show ¬ first.length = 0 by omega), hdiv h1]
      by_cases hre : rest = []
      · rw [if_pos ⟨hh, by rw [hre]; rfl⟩, show (fun (d : DF (julesRules fp)) j => bindNamed d ⟨(first ++ rest.flatten).getD j [], none⟩) =
          fun d j => bindNamed d ((fun j => ⟨(first ++ rest.flatten).getD j [], none⟩) j) from rfl, foldlM_range_map]
        rw [List.map_congr_left (g := fun j => (⟨first.getD j [], none⟩ : Named (julesRules fp)))
          (fun j hj => by rw [getD_eq j (List.mem_range.1 hj)])]
        refine (bindAll 0 ((List.range first.length).map fun j => (⟨first.getD j [], none⟩ : Named (julesRules fp))) DF.empty empty_names.1 ?_ (Or.inl rfl)).2 ?_
        · intro e he
          obtain ⟨j, _, rfl⟩ := List.mem_map.1 he
          rfl
        · rw [names]
          exact fun h => hd h.1
      · rw [if_neg (by rintro ⟨_, h⟩; exact hre (List.length_eq_zero_iff.1 (by omega)))]
        simp only [hh, if_true]
        rw [foldlM_range_map (C := julesRules fp) first.length (fun j => ⟨(first ++ rest.flatten).getD j [], Column.ofList (C := julesRules fp) JTy.string (strideL first.length
          ((first ++ rest.flatten).drop (j + first.length)).length ((first ++ rest.flatten).drop (j + first.length)))⟩)]
        rw [List.map_congr_left (g := fun j => (⟨first.getD j [], Column.ofList (C := julesRules fp) JTy.string (rest.map fun r => r.getD j [])⟩ : Named (julesRules fp)))
          (fun j hj => ?_)]
        · refine (bindAll rest.length ((List.range first.length).map fun j => (⟨first.getD j [], Column.ofList (C := julesRules fp) JTy.string (rest.map fun r => r.getD j [])⟩ : Named (julesRules fp))) DF.empty empty_names.1 ?_ (Or.inl rfl)).2 ?_
          · intro e he
            obtain ⟨j, _, rfl⟩ := List.mem_map.1 he
            simp [Column.ofList, Column.size, Model.size]
          · rw [names]
            exact fun h => hd h.1
        · have hj := List.mem_range.1 hj
          rw [getD_eq j hj]
          have : (first ++ rest.flatten).drop (j + first.length) = rest.flatten.drop j := by
            rw [List.drop_append, List.drop_eq_nil_of_le (by omega), List.nil_append]
            congr 1; omega
          rw [this, strideL_rows first.length j hj rest _ h1 (Nat.le_refl _)]
    · intro hh hd hrest
      unfold DF.read
      simp only
      rw [hok h1]
      simp only [res_ok_bind, if_neg (show ¬ first.length = 0 by omega), hdiv h1]
      rw [if_neg (by rintro ⟨_, h⟩; exact hrest (List.length_eq_zero_iff.1 (by omega)))]
      simp only [hh, if_true]
      rw [foldlM_range_map (C := julesRules fp) first.length (fun j => ⟨(first ++ rest.flatten).getD j [], Column.ofList (C := julesRules fp) JTy.string (strideL first.length
        ((first ++ rest.flatten).drop (j + first.length)).length ((first ++ rest.flatten).drop (j + first.length)))⟩)]
      rw [List.map_congr_left (g := fun j => (⟨first.getD j [], Column.ofList (C := julesRules fp) JTy.string (rest.map fun r => r.getD j [])⟩ : Named (julesRules fp)))
        (fun j hj => ?_)]
      · obtain ⟨d, a, b, c⟩ := (bindAll rest.length ((List.range first.length).map fun j => (⟨first.getD j [], Column.ofList (C := julesRules fp) JTy.string (rest.map fun r => r.getD j [])⟩ : Named (julesRules fp))) DF.empty empty_names.1 (by
          intro e he
          obtain ⟨j, _, rfl⟩ := List.mem_map.1 he
          simp [Column.ofList, Column.size, Model.size]) (Or.inl rfl)).1 (by
            rw [names]
            exact ⟨hd, fun e _ x hx => by cases hx⟩)
        refine ⟨d, a, c ?_, by rw [b]; rfl⟩
        intro h
        have := congrArg List.length h
        simp at this
        exact hne this
      · have hj := List.mem_range.1 hj
        rw [getD_eq j hj]
        have : (first ++ rest.flatten).drop (j + first.length) = rest.flatten.drop j := by
          rw [List.drop_append, List.drop_eq_nil_of_le (by omega), List.nil_append]
          congr 1; omega
        rw [this, strideL_rows first.length j hj rest _ h1 (Nat.le_refl _)]
    · intro hd hrest
      have hh := h1
      have h1 : ∀ r ∈ rest, r.length = first.length := by rw [hrest]; simp
      unfold DF.read
      simp only
      rw [hok h1]
      simp only [res_ok_bind, if_neg (show ¬ first.length = 0 by omega), hdiv h1]
      rw [if_pos ⟨hh, by rw [hrest]; rfl⟩]
      rw [foldlM_range_map (C := julesRules fp) first.length (fun j => ⟨(first ++ rest.flatten).getD j [], none⟩)]
      rw [List.map_congr_left (g := fun j => (⟨first.getD j [], none⟩ : Named (julesRules fp)))
        (fun j hj => by rw [getD_eq j (List.mem_range.1 hj)])]
      obtain ⟨d, a, b, c⟩ := (bindAll 0 ((List.range first.length).map fun j => (⟨first.getD j [], none⟩ : Named (julesRules fp))) DF.empty empty_names.1 (by
        intro e he
        obtain ⟨j, _, rfl⟩ := List.mem_map.1 he
        rfl) (Or.inl rfl)).1 (by
          rw [names]
          exact ⟨hd, fun e _ x hx => by cases hx⟩)
      refine ⟨d, a, c ?_, by rw [b]; rfl⟩
      intro h
      have := congrArg List.length h
      simp at this
      exact hne this
    · intro hh
      unfold DF.read
      simp only
      rw [hok h1]
      simp only [res_ok_bind, if_neg (show ¬ first.length = 0 by omega), hdiv h1]
      rw [if_neg (by rintro ⟨h, _⟩; rw [hh] at h; cases h)]
      simp only [hh, Bool.false_eq_true, if_false, Nat.add_zero]
      rw [foldlM_range_map (C := julesRules fp) first.length (fun j => ⟨[], Column.ofList (C := julesRules fp) JTy.string (strideL first.length
        ((first ++ rest.flatten).drop j).length ((first ++ rest.flatten).drop j))⟩)]
      rw [List.map_congr_left (g := fun j => (⟨[], Column.ofList (C := julesRules fp) JTy.string ((first :: rest).map fun r => r.getD j [])⟩ : Named (julesRules fp)))
        (fun j hj => ?_)]
      · obtain ⟨d, a, b, c⟩ := (bindAll (rest.length + 1) ((List.range first.length).map fun j => (⟨[], Column.ofList (C := julesRules fp) JTy.string ((first :: rest).map fun r => r.getD j [])⟩ : Named (julesRules fp))) DF.empty empty_names.1 (by
          intro e he
          obtain ⟨j, _, rfl⟩ := List.mem_map.1 he
          simp [Column.ofList, Column.size, Model.size]) (Or.inl rfl)).1 (by
            refine ⟨?_, fun e _ x hx => by cases hx⟩
            intro i j x hi _ hx
            rw [List.map_map, List.getElem?_map, Option.map_eq_some_iff] at hi
            obtain ⟨_, _, rfl⟩ := hi
            exact absurd rfl hx)
        refine ⟨d, a, c ?_, by rw [b]; rfl⟩
        intro h
        have := congrArg List.length h
        simp at this
        exact hne this
      · have hj := List.mem_range.1 hj
        have := strideL_rows first.length j hj (first :: rest) _ (by
          intro r hr
          rcases List.mem_cons.1 hr with rfl | hr
          · rfl
          · exact h1 r hr) (Nat.le_refl _)
        rw [List.flatten_cons] at this
        rw [this]

/-- C46: a stream that has failed gives the empty data frame. -/
theorem C46_failed_stream (fp : Fp) (opt : ReadOpts) : DF.read fp opt none = .ok DF.empty := rfl

/-- C46: `is >> df` replaces `df` by the table in the text, whatever `df` was before, or reports an error and leaves `df` as it was; it is an error exactly when two lines of the
text have different numbers of cells or two names in the header are equal. -/
theorem C46_extract (fp : Fp) (raw : Txt) (df : DF (julesRules fp)) :
    (∃ d, DF.read fp {} (some raw) = .ok d ∧ df.extract fp (some raw) = (.ok (), d)) ∨
      (df.extract fp (some raw) = (.error (.exc .logic), df) ∧
        ∃ first rest, tableRows {} raw = first :: rest ∧ ((∃ r ∈ rest, r.length ≠ first.length) ∨ ¬ DistinctNames first)) := by
  have h := C46_read fp {} raw
  cases ht : tableRows {} raw with
  | nil => exact .inl ⟨_, h.1 ht, by simp [DF.extract, h.1 ht, DF.move]⟩
  | cons first rest =>
    obtain ⟨h1, h2, h3, h4, -⟩ := h.2 first rest ht
    have ok : ∀ d, DF.read fp {} (some raw) = .ok d → (∃ d, DF.read fp {} (some raw) = .ok d ∧ df.extract fp (some raw) = (.ok (), d)) := fun d hd =>
      ⟨d, hd, by simp [DF.extract, hd, DF.move]⟩
    have bad : DF.read fp {} (some raw) = .error (.exc .logic) → df.extract fp (some raw) = (.error (.exc .logic), df) := fun hd => by
      simp [DF.extract, hd]
    by_cases hr : ∃ r ∈ rest, r.length ≠ first.length
    · exact .inr ⟨bad (h1 hr), first, rest, rfl, .inl hr⟩
    · have hr' : ∀ r ∈ rest, r.length = first.length := fun r hm => by
        by_contra hc
        exact hr ⟨r, hm, hc⟩
      by_cases hd : DistinctNames first
      · by_cases he : rest = []
        · obtain ⟨d, hd, -⟩ := h4 rfl hd he
          exact .inl (ok d hd)
        · obtain ⟨d, hd, -⟩ := h3 hr' rfl hd he
          exact .inl (ok d hd)
      · exact .inr ⟨bad (h2 hr' rfl hd), first, rest, rfl, .inr hd⟩

/-! ### Separators -/

/-- The text of items with a separator between them is split into the items again, except that an empty last one is lost when there
are several. -/
theorem tokenize_intercalate (sep : Char) (ts : List Txt) (hne : ts ≠ []) (hs : ∀ t ∈ ts, sep ∉ t) :
    tokenize sep ([sep].intercalate ts) = if 2 ≤ ts.length ∧ ts.getLast? = some [] then ts.dropLast else ts := by
  unfold tokenize
  rw [List.splitOn_intercalate sep hs hne]

/-- C46: which rows a text has, for the usual separators: a text made of lines, each ended by the line separator, whose cells are joined by the
cell separator. Blank lines are skipped; an empty last cell of several is lost. -/
theorem C46_rows (ls cs : Char) (header : Bool) (hne : ls ≠ cs) (tbl : List (List Txt)) (h0 : tbl ≠ []) (hr : ∀ r ∈ tbl, r ≠ [])
    (hc : ∀ r ∈ tbl, ∀ x ∈ r, ls ∉ x ∧ cs ∉ x) :
    tableRows ⟨tokenize ls, tokenize cs, header⟩ (tbl.map fun r => [cs].intercalate r ++ [ls]).flatten =
      (tbl.filter fun r => decide (r ≠ [[]])).map fun r => if 2 ≤ r.length ∧ r.getLast? = some [] then r.dropLast else r := by
  have mem : ∀ (x y : Char) (l : List Txt), x ≠ y → (∀ t ∈ l, x ∉ t) → x ∉ [y].intercalate l := by
    intro x y l hxy hl
    induction l with
    | nil => simp
    | cons a l ih =>
      cases l with
      | nil => simpa using hl a (by simp)
      | cons b l =>
        rw [List.intercalate_cons_cons]
        simp only [List.mem_append, List.mem_singleton, not_or]
        exact ⟨⟨hl a (by simp), hxy⟩, ih fun t ht => hl t (by simp [ht])⟩
  have text : (tbl.map fun r => [cs].intercalate r ++ [ls]).flatten = [ls].intercalate (tbl.map (fun r => [cs].intercalate r) ++ [[]]) := by
    clear h0 hr hc
    induction tbl with
    | nil => simp
    | cons r tbl ih =>
      simp only [List.map_cons, List.flatten_cons, ih, List.cons_append]
      cases tbl with
      | nil => simp [List.intercalate_cons_cons]
      | cons q tbl => simp only [List.map_cons, List.cons_append, List.intercalate_cons_cons, List.append_assoc]
  have lines : tokenize ls (tbl.map fun r => [cs].intercalate r ++ [ls]).flatten = tbl.map fun r => [cs].intercalate r := by
    rw [text, tokenize_intercalate _ _ (by simp), if_pos]
    · simp
    · refine ⟨?_, by simp⟩
      have := List.length_pos_iff.2 h0
      simp; omega
    · intro t ht
      rcases List.mem_append.1 ht with ht | ht
      · obtain ⟨r, hr', rfl⟩ := List.mem_map.1 ht
        exact mem ls cs r hne fun t ht => (hc r hr' t ht).1
      · rw [List.mem_singleton.1 ht]; simp
  have blank : ∀ r ∈ tbl, ([cs].intercalate r = [] ↔ r = [[]]) := by
    intro r hr'
    cases r with
    | nil => exact absurd rfl (hr [] hr')
    | cons a r =>
      cases r with
      | nil => simp
      | cons b r =>
        rw [List.intercalate_cons_cons]
        constructor
        · intro h; simp at h
        · intro h; injection h with _ h; cases h
  unfold tableRows
  simp only
  rw [lines]
  have e1 : (tbl.map fun r => [cs].intercalate r).filter (fun l => !l.isEmpty) = (tbl.filter fun r => decide (r ≠ [[]])).map fun r => [cs].intercalate r := by
    rw [List.filter_map]
    congr 1
    apply List.filter_congr
    intro r hr'
    simp only [Function.comp_apply]
    rw [Bool.eq_iff_iff]
    simp only [Bool.not_eq_true', List.isEmpty_eq_false_iff, decide_eq_true_eq, ne_eq, blank r hr']
  rw [e1, List.map_map]
  have e2 : (tbl.filter fun r => decide (r ≠ [[]])).map (tokenize cs ∘ fun r => [cs].intercalate r) =
      (tbl.filter fun r => decide (r ≠ [[]])).map fun r => if 2 ≤ r.length ∧ r.getLast? = some [] then r.dropLast else r := by
    apply List.map_congr_left
    intro r hr'
    have hr' := (List.mem_filter.1 hr').1
    exact tokenize_intercalate cs r (hr r hr') fun t ht => (hc r hr' t ht).2
  rw [e2]
  have e3 : ∀ l : List (List Txt), (∀ x ∈ l, x ≠ []) → l.dropWhile List.isEmpty = l := by
    intro l hl
    cases l with
    | nil => rfl
    | cons a l =>
      rw [List.dropWhile_cons_of_neg]
      simpa using hl a (by simp)
  apply e3
  intro x hx
  obtain ⟨r, hr', rfl⟩ := List.mem_map.1 hx
  have hr' := (List.mem_filter.1 hr').1
  split
  · rename_i h
    intro h'
    have := congrArg List.length h'
    simp at this
    omega
  · exact hr r hr'

/-! ### C47 -/

/-- The data frame with the given names and text columns. -/
def IsTextFrame (fp : Fp) (d : DF (julesRules fp)) (names : List Txt) (cols : List (List Txt)) : Prop :=
  names.length = cols.length ∧ (∀ c ∈ cols, c.length = d.rows) ∧
    d.elems = (List.range names.length).map fun j => ⟨names.getD j [], Column.ofList (C := julesRules fp) JTy.string (cols.getD j [])⟩

/-- The lines of the table: the names, then the rows. -/
def tableOf (names : List Txt) (cols : List (List Txt)) (n : Nat) : List (List Txt) :=
  names :: (List.range n).map fun i => cols.map fun c => c.getD i []

theorem lineText_eq (l c : Char) (h : Bool) (r : List Txt) (hr : r ≠ []) : lineText ⟨[l], [c], h⟩ r = [c].intercalate r ++ [l] := by
  cases r with
  | nil => exact absurd rfl hr
  | cons a r =>
    unfold lineText
    simp only
    congr 1
    induction r generalizing a with
    | nil => simp
    | cons b r ih =>
      rw [List.intercalate_cons_cons, ← ih b (by simp)]
      simp

theorem rowsText_eq (opt : WriteOpts) (cols : List (List Txt)) (N : Nat) (hc : ∀ c ∈ cols, c.length = N) : ∀ (n i : Nat), i + n ≤ N →
    rowsText opt cols i n = .ok ((List.range' i n).map fun i => lineText opt (cols.map fun c => c.getD i [])).flatten := by
  intro n
  induction n with
  | zero => intro i _; rfl
  | succ n ih =>
    intro i hi
    unfold rowsText
    have h1 : (cols.mapM fun c => cellAt c i) = .ok (cols.map fun c => c.getD i []) := by
      rw [mapM_ok_iff]
      refine ⟨by simp, fun k c hk => ⟨c.getD i [], by rw [List.getElem?_map, hk]; rfl, ?_⟩⟩
      have := hc c (List.mem_of_getElem? hk)
      have hlt : i < c.length := by omega
      simp [cellAt, hlt]
    rw [h1]
    simp only [res_ok_bind]
    rw [ih (i + 1) (by omega)]
    simp [List.range'_succ]

theorem columnText_text (fp : Fp) (l : List Txt) : columnText fp (Column.ofList (C := julesRules fp) JTy.string l) = .ok l := rfl

/-- What is written for a data frame of text columns: the names and the rows, cell separators between the cells and a line separator after
each line. -/
theorem C47_written (fp : Fp) (opt : WriteOpts) (d : DF (julesRules fp)) (names : List Txt) (cols : List (List Txt)) (hd : IsTextFrame fp d names cols)
    (hne : names ≠ []) : d.write fp opt = .ok (((if opt.header then tableOf names cols d.rows else (tableOf names cols d.rows).tail).map (lineText opt)).flatten) := by
  obtain ⟨h1, h2, h3⟩ := hd
  have hpos := List.length_pos_iff.2 hne
  have hnm : d.names = names := by
    unfold DF.names
    rw [h3, List.map_map]
    apply List.ext_getElem?
    intro k
    rw [List.getElem?_map]
    by_cases hk : k < names.length
    · rw [List.getElem?_range hk]; simp [hk]
    · rw [List.getElem?_eq_none (by simp; omega), List.getElem?_eq_none (by omega)]; rfl
  unfold DF.write
  rw [if_pos (by simp [DF.nonempty, h3]; omega)]
  have hcols : (d.elems.mapM fun e => columnText fp e.col) = .ok cols := by
    rw [mapM_ok_iff, h3]
    refine ⟨by simp [h1], fun k e hk => ?_⟩
    rw [List.getElem?_map, Option.map_eq_some_iff] at hk
    obtain ⟨j, hj, rfl⟩ := hk
    have hlt := (List.getElem?_eq_some_iff.1 hj).1
    rw [List.getElem?_range (by simpa using hlt)] at hj
    cases hj
    simp only [List.length_range] at hlt
    refine ⟨cols.getD k [], ?_, columnText_text fp _⟩
    have : k < cols.length := by omega
    simp [this]
  rw [hcols]
  simp only [res_ok_bind]
  rw [rowsText_eq opt cols d.rows h2 d.rows 0 (by omega)]
  simp only [res_ok_bind, hnm]
  congr 1
  unfold tableOf
  rw [← List.range_eq_range']
  split <;> simp [List.map_map, Function.comp_def]

theorem getD_map_range (n k : Nat) (f : Nat → List α) (h : k < n) : ((List.range n).map f).getD k [] = f k := by
  rw [List.getD_eq_getElem?_getD, List.getElem?_map, List.getElem?_range h]; rfl

/-- C47: writing a data frame of text columns (at least one, with at least one row; distinct names; names and cells without separators)
and reading the text again gives the same names and columns if and only if no line ends with an empty cell: the last name and all cells
of the last column are non-empty. -/
theorem C47_roundtrip_iff (fp : Fp) (ls cs : Char) (hlc : ls ≠ cs) (d : DF (julesRules fp)) (names : List Txt) (cols : List (List Txt))
    (hd : IsTextFrame fp d names cols) (hne : names ≠ []) (hrows : 0 < d.rows) (hdist : DistinctNames names)
    (hsep : ∀ x ∈ names, ls ∉ x ∧ cs ∉ x) (hsepc : ∀ c ∈ cols, ∀ x ∈ c, ls ∉ x ∧ cs ∉ x) :
    (∃ t d', d.write fp ⟨[ls], [cs], true⟩ = .ok t ∧ DF.read fp ⟨tokenize ls, tokenize cs, true⟩ (some t) = .ok d' ∧ d'.elems = d.elems ∧ d'.rows = d.rows) ↔
    (names.getLast? ≠ some [] ∧ ∀ c, cols.getLast? = some c → ∀ x ∈ c, x ≠ []) := by
  have hw := C47_written fp ⟨[ls], [cs], true⟩ d names cols hd hne
  simp only [if_true] at hw
  obtain ⟨h1, h2, h3⟩ := hd
  have hpos := List.length_pos_iff.2 hne
  have hcne : cols ≠ [] := by
    intro h
    rw [h] at h1
    simp at h1
    exact hne h1
  have hrow : ∀ r ∈ tableOf names cols d.rows, r ≠ [] ∧ r.length = names.length := by
    intro r hr
    rcases List.mem_cons.1 hr with rfl | hr
    · exact ⟨hne, rfl⟩
    · obtain ⟨i, -, rfl⟩ := List.mem_map.1 hr
      exact ⟨by simpa using hcne, by simp [h1]⟩
  have hcell : ∀ r ∈ tableOf names cols d.rows, ∀ x ∈ r, ls ∉ x ∧ cs ∉ x := by
    intro r hr
    rcases List.mem_cons.1 hr with rfl | hr
    · exact hsep
    · obtain ⟨i, hi, rfl⟩ := List.mem_map.1 hr
      intro x hx
      obtain ⟨c, hc, rfl⟩ := List.mem_map.1 hx
      have hlt : i < c.length := by rw [h2 c hc]; exact List.mem_range.1 hi
      have : c.getD i [] = c[i] := by simp [hlt]
      rw [this]
      exact hsepc c hc _ (List.getElem_mem hlt)
  have htext : ((tableOf names cols d.rows).map (lineText ⟨[ls], [cs], true⟩)).flatten =
      ((tableOf names cols d.rows).map fun r => [cs].intercalate r ++ [ls]).flatten := by
    congr 1
    exact List.map_congr_left fun r hr => lineText_eq ls cs true r (hrow r hr).1
  rw [htext] at hw
  have hrowsT := C46_rows ls cs true hlc (tableOf names cols d.rows) (by simp [tableOf]) (fun r hr => (hrow r hr).1) hcell
  have hlast : (∀ r ∈ tableOf names cols d.rows, r.getLast? ≠ some []) ↔
      (names.getLast? ≠ some [] ∧ ∀ c, cols.getLast? = some c → ∀ x ∈ c, x ≠ []) := by
    unfold tableOf
    rw [List.forall_mem_cons]
    refine and_congr_right fun _ => ?_
    constructor
    · intro h c hc x hx hx0
      obtain ⟨i, hi⟩ := List.getElem?_of_mem hx
      have hilt : i < d.rows := by
        have := (List.getElem?_eq_some_iff.1 hi).1
        rwa [h2 c (List.mem_of_getLast? hc)] at this
      refine h _ (List.mem_map_of_mem (List.mem_range.2 hilt)) ?_
      rw [List.getLast?_map, hc]
      simp [List.getD_eq_getElem?_getD, hi, hx0]
    · intro h r hr
      obtain ⟨i, hi, rfl⟩ := List.mem_map.1 hr
      rw [List.getLast?_map]
      cases hc : cols.getLast? with
      | none => simp
      | some c =>
        have hlt : i < c.length := by rw [h2 c (List.mem_of_getLast? hc)]; exact List.mem_range.1 hi
        have := h c hc c[i] (List.getElem_mem hlt)
        simp [hlt, this]
  rw [← hlast]
  obtain ⟨-, c46⟩ := C46_read fp ⟨tokenize ls, tokenize cs, true⟩ ((tableOf names cols d.rows).map fun r => [cs].intercalate r ++ [ls]).flatten
  constructor
  · rintro ⟨t, d', ht, hr, he, hrw⟩ r hrm hlastr
    rw [hw] at ht
    cases ht
    -- the rows that were read
    cases hT : tableRows ⟨tokenize ls, tokenize cs, true⟩ ((tableOf names cols d.rows).map fun r => [cs].intercalate r ++ [ls]).flatten with
    | nil =>
      rw [(C46_read fp _ _).1 hT] at hr
      cases hr
      have := congrArg List.length he
      rw [h3] at this
      simp [DF.empty] at this
      omega
    | cons first rest =>
      obtain ⟨p1, p2, p3, p4, -⟩ := c46 first rest hT
      have hall : ∀ x ∈ rest, x.length = first.length := by
        by_contra hno
        have : ∃ x ∈ rest, x.length ≠ first.length := by
          by_contra h'
          apply hno
          intro x hx
          by_contra hxl
          exact h' ⟨x, hx, hxl⟩
        rw [p1 this] at hr
        cases hr
      have hdn : DistinctNames first := by
        by_contra hno
        rw [p2 hall rfl hno] at hr
        cases hr
      have hlen : d'.rows = rest.length ∧ d'.elems.length = first.length := by
        by_cases hre : rest = []
        · obtain ⟨d2, a, b, c⟩ := p4 rfl hdn hre
          rw [a] at hr
          cases hr
          exact ⟨by rw [b, hre]; rfl, by rw [c]; simp⟩
        · obtain ⟨d2, a, b, c⟩ := p3 hall rfl hdn hre
          rw [a] at hr
          cases hr
          exact ⟨b, by rw [c]; simp⟩
      have hfl : first.length = names.length := by
        rw [← hlen.2, he, h3]; simp
      rw [hT] at hrowsT
      -- nothing was filtered out
      have hcount : (List.filter (fun r => decide (r ≠ [[]])) (tableOf names cols d.rows)).length = (tableOf names cols d.rows).length := by
        have := congrArg List.length hrowsT
        rw [List.length_map, List.length_cons, ← hlen.1, hrw] at this
        rw [← this]
        simp [tableOf]
      have hnb : r ≠ [[]] := by
        have := (List.length_filter_eq_length_iff.1 hcount) r hrm
        simpa using this
      have hmem : r.dropLast ∈ first :: rest := by
        rw [hrowsT]
        refine List.mem_map.2 ⟨r, List.mem_filter.2 ⟨hrm, by simpa using hnb⟩, ?_⟩
        rw [if_pos]
        refine ⟨?_, hlastr⟩
        have hr1 := List.length_pos_iff.2 (hrow r hrm).1
        by_contra hlt
        have h1' : r.length = 1 := by omega
        obtain ⟨x, rfl⟩ := List.length_eq_one_iff.1 h1'
        simp only [List.getLast?_singleton, Option.some.injEq] at hlastr
        rw [hlastr] at hnb
        exact hnb rfl
      have hdl : r.dropLast.length = names.length := by
        rcases List.mem_cons.1 hmem with h | h
        · rw [h, hfl]
        · rw [hall _ h, hfl]
      rw [List.length_dropLast, (hrow r hrm).2] at hdl
      omega
  · intro hgood
    have hT : tableRows ⟨tokenize ls, tokenize cs, true⟩ ((tableOf names cols d.rows).map fun r => [cs].intercalate r ++ [ls]).flatten = tableOf names cols d.rows := by
      rw [hrowsT, List.filter_eq_self.2 ?_]
      · conv_rhs => rw [← List.map_id (tableOf names cols d.rows)]
        apply List.map_congr_left
        intro r hr
        rw [if_neg (fun h => hgood r hr h.2)]
        rfl
      · intro r hr
        simp only [decide_eq_true_eq]
        rintro rfl
        exact hgood _ hr rfl
    obtain ⟨-, -, p3, -, -⟩ := c46 names ((List.range d.rows).map fun i => cols.map fun c => c.getD i []) (by rw [hT]; rfl)
    obtain ⟨d', a, b, c⟩ := p3 (by
      intro r hr
      obtain ⟨i, -, rfl⟩ := List.mem_map.1 hr
      simp [h1]) rfl hdist (by
        intro h
        have := congrArg List.length h
        simp at this
        omega)
    refine ⟨_, d', hw, a, ?_, by rw [b]; simp⟩
    rw [c, h3]
    apply List.map_congr_left
    intro j hj
    have hj := List.mem_range.1 hj
    congr 2
    rw [List.map_map]
    have hjc : j < cols.length := by omega
    have hcj : cols.getD j [] = cols[j] := by simp [hjc]
    rw [hcj]
    have hl := h2 cols[j] (List.getElem_mem hjc)
    apply List.ext_getElem?
    intro i
    rw [List.getElem?_map]
    by_cases hi : i < d.rows
    · rw [List.getElem?_range hi]
      simp [hjc, hl ▸ hi]
    · rw [List.getElem?_eq_none (by simp; omega), List.getElem?_eq_none (by omega)]; rfl

/-- A text column, for examples. -/
def tcol (l : List Txt) : Column (julesRules fpEx) := Column.ofList (C := julesRules fpEx) JTy.string l

/-- C47 fails for empty cells at the end of a line: a row of a single column vanishes, and with two columns the text is not accepted at all. -/
theorem C47_empty_last_cell :
    (∃ t d', (⟨2, [⟨['x'], tcol [['a'], []]⟩], [(['x'], 0)]⟩ : DF (julesRules fpEx)).write fpEx {} = .ok t ∧
      DF.read fpEx {} (some t) = .ok d' ∧ d'.elems = [⟨['x'], tcol [['a']]⟩]) ∧
    (∃ t, (⟨1, [⟨['x'], tcol [['a']]⟩, ⟨['y'], tcol [[]]⟩], [(['x'], 0), (['y'], 1)]⟩ : DF (julesRules fpEx)).write fpEx {} = .ok t ∧
      DF.read fpEx {} (some t) = .error (.exc .logic)) := by
  refine ⟨⟨_, _, rfl, rfl, by decide +kernel⟩, ⟨_, rfl, by decide +kernel⟩⟩

/-- C47: `os << a` followed by `is >> b` on the text written makes `b` equal to `a` (names, cells, number of rows), whatever `b` was before, for a data frame of text columns with
distinct names, at least one row, no tabulators and line feeds in names and cells, and no empty name or cell in the last column. Partial: see `C47_empty_last_cell`. -/
theorem C47_streams_partial (fp : Fp) (a b : DF (julesRules fp)) (names : List Txt) (cols : List (List Txt))
    (hd : IsTextFrame fp a names cols) (hne : names ≠ []) (hrows : 0 < a.rows) (hdist : DistinctNames names)
    (hsep : ∀ x ∈ names, '\n' ∉ x ∧ '\t' ∉ x) (hsepc : ∀ c ∈ cols, ∀ x ∈ c, '\n' ∉ x ∧ '\t' ∉ x)
    (hlast : names.getLast? ≠ some [] ∧ ∀ c, cols.getLast? = some c → ∀ x ∈ c, x ≠ []) :
    ∃ t d', a.insert fp = .ok t ∧ b.extract fp (some t) = (.ok (), d') ∧ d'.elems = a.elems ∧ d'.rows = a.rows := by
  obtain ⟨t, d', h1, h2, h3, h4⟩ := (C47_roundtrip_iff fp '\n' '\t' (by decide) a names cols hd hne hrows hdist hsep hsepc).2 hlast
  refine ⟨t, d', h1, ?_, h3, h4⟩
  have h2' : DF.read fp {} (some t) = .ok d' := h2
  simp [DF.extract, h2', DF.move]

/-- C47: columns of other types are written as the text columns they coerce to. -/
theorem C47_typed (fp : Fp) (opt : WriteOpts) (d : DF (julesRules fp)) (t : Named (julesRules fp) → List Txt)
    (ht : ∀ e ∈ d.elems, columnText fp e.col = .ok (t e)) :
    d.write fp opt = (⟨d.rows, d.elems.map fun e => ⟨e.name, Column.ofList (C := julesRules fp) JTy.string (t e)⟩, d.index⟩ : DF (julesRules fp)).write fp opt := by
  unfold DF.write
  have h1 : (d.elems.mapM fun e => columnText fp e.col) = .ok (d.elems.map t) := by
    rw [mapM_ok_iff]
    exact ⟨by simp, fun k e hk => ⟨t e, by rw [List.getElem?_map, hk]; rfl, ht e (List.mem_of_getElem? hk)⟩⟩
  have h2 : ((d.elems.map fun e => (⟨e.name, Column.ofList (C := julesRules fp) JTy.string (t e)⟩ : Named (julesRules fp))).mapM fun e => columnText fp e.col) =
      .ok (d.elems.map t) := by
    rw [mapM_ok_iff]
    refine ⟨by simp, fun k e hk => ?_⟩
    rw [List.getElem?_map, Option.map_eq_some_iff] at hk
    obtain ⟨x, hx, rfl⟩ := hk
    exact ⟨t x, by rw [List.getElem?_map, hx]; rfl, columnText_text fp _⟩
  simp only [DF.nonempty, List.length_map, h1, h2, DF.names, List.map_map]
  rfl

/-- C47: the text of a column is its coercion to text. -/
theorem C47_column_text (fp : Fp) (S : JTy) (xs : List S.Val) (t : List Txt) :
    columnText fp (Column.ofList (C := julesRules fp) S xs) = .ok t ↔
      (Column.ofList (C := julesRules fp) S xs).coerce JTy.string = (.ok (), Column.ofList (C := julesRules fp) JTy.string t) := by
  by_cases hS : S = .string
  · subst hS
    rw [columnText_text, C39_same_type fp .string (by simp [fiveTypes])]
    constructor
    · intro h; cases h; rfl
    · intro h
      injection h with _ h
      injection h with h
      injection h with _ h
      rw [h]
  · have h1 : columnText fp (Column.ofList (C := julesRules fp) S xs) =
        (toColumn (Column.ofList (C := julesRules fp) S xs) JTy.string >>= fun c' => Column.data (C := julesRules fp) c' JTy.string) := by
      unfold columnText
      show (Except.ok S >>= fun t => _) = _
      simp only [res_ok_bind]
      rw [if_neg hS]
    rw [h1]
    unfold toColumn Column.ofList Column.coerce
    simp only
    cases hm : (⟨S, xs⟩ : Model (julesRules fp)).coerce JTy.string with
    | error e => simp
    | ok m =>
      simp only [res_ok_bind, Prod.mk.injEq, true_and]
      obtain ⟨T, vs⟩ := m
      have hT : T = .string := by
        rw [model_coerce_eq] at hm
        split at hm
        · cases hm
        · rename_i f _
          simp only at hm
          cases hv : xs.mapM f with
          | error e => rw [hv] at hm; cases hm
          | ok vs' => rw [hv] at hm; cases hm; rfl
      subst hT
      constructor
      · intro h
        have : Column.data (C := julesRules fp) (some ⟨JTy.string, vs⟩) JTy.string = .ok vs := rfl
        rw [this] at h
        cases h
        rfl
      · intro h
        cases h
        rfl

/-- C47: numbers are written without tabs and line breaks, and never as nothing: a data frame of number columns satisfies the conditions on
the cells. -/
theorem C47_number_cells (z : Int) : toStringInt z ≠ [] ∧ '\t' ∉ toStringInt z ∧ '\n' ∉ toStringInt z := by
  obtain ⟨sign, ds, h1, h2, h3, -, h5⟩ := C40_decimal z
  have hs : sign = ['-'] ∨ sign = [] := by
    split at h5
    · exact Or.inl h5
    · exact Or.inr h5
  rw [h1]
  refine ⟨by simp [h2], ?_, ?_⟩
  all_goals
    intro h
    rcases List.mem_append.1 h with h | h
    · rcases hs with rfl | rfl
      · simp at h
      · simp at h
    · exact absurd (h3 _ h) (by decide)

/-! ### C48 -/

/-- C48 (the part that holds): reading a text that has only a header line gives these names and zero rows. Missing: writing and copying the
result, see `C48_unusable`. -/
theorem C48_names_partial (fp : Fp) (opt : ReadOpts) (raw : Txt) (first : List Txt) (h : tableRows opt raw = [first]) (hh : opt.header = true)
    (hd : DistinctNames first) : ∃ d, DF.read fp opt (some raw) = .ok d ∧ d.rows = 0 ∧ d.names = first ∧
      ∀ e ∈ d.elems, Column.size e.col = 0 := by
  obtain ⟨d, a, b, c⟩ := ((C46_read fp opt raw).2 first [] h).2.2.2.1 hh hd rfl
  refine ⟨d, a, b, ?_, ?_⟩
  · unfold DF.names
    rw [c, List.map_map]
    apply List.ext_getElem?
    intro k
    rw [List.getElem?_map]
    by_cases hk : k < first.length
    · rw [List.getElem?_range hk]; simp [hk]
    · rw [List.getElem?_eq_none (by simp; omega), List.getElem?_eq_none (by omega)]; rfl
  · intro e he
    rw [c] at he
    obtain ⟨j, -, rfl⟩ := List.mem_map.1 he
    rfl

/-- C48 fails: the result of reading a header alone cannot be written (an exception), nor copied or cut with `head` (undefined behaviour), whatever the
header. -/
theorem C48_unusable (fp : Fp) (opt : ReadOpts) (raw : Txt) (first : List Txt) (h : tableRows opt raw = [first]) (hh : opt.header = true)
    (hd : DistinctNames first) (hf : first ≠ []) : ∃ d, DF.read fp opt (some raw) = .ok d ∧
      (∀ w, d.write fp w = .error (.exc .logic)) ∧ d.copy = .error .ub ∧ d.head 0 = .error .ub ∧ d.columnTypes = .error (.exc .logic) := by
  obtain ⟨d, a, b, c⟩ := ((C46_read fp opt raw).2 first [] h).2.2.2.1 hh hd rfl
  obtain ⟨x, first, rfl⟩ := List.exists_cons_of_ne_nil hf
  have hc : ∃ e es, d.elems = e :: es ∧ e.col = none := by
    rw [c, List.length_cons, List.range_succ_eq_map]
    exact ⟨_, _, rfl, rfl⟩
  obtain ⟨e, es, he, hcol⟩ := hc
  refine ⟨d, a, ?_, ?_, ?_, ?_⟩
  · intro w
    unfold DF.write
    rw [if_pos (by simp [DF.nonempty, he]), he, List.mapM_cons, hcol]
    rfl
  · unfold DF.copy
    rw [he, List.mapM_cons]
    unfold Named.copy
    rw [hcol]
    rfl
  · unfold DF.head
    rw [if_neg (by omega), he]
    unfold DF.ofIter
    simp only [List.map_cons, hcol]
    rfl
  · unfold DF.columnTypes
    rw [he, List.mapM_cons, hcol]
    rfl

example : tableRows {} ['a', '\t', 'b', '\n'] = [[['a'], ['b']]] := by decide +kernel

example : tableRows {} ['a', '\t', 'b', '\n', '\n', '1', '\t', '2', '\n'] = [[['a'], ['b']], [['1'], ['2']]] := by decide +kernel

example : ∃ d, DF.read fpEx {} (some ['a', '\t', 'b', '\n', '1', '\t', '2', '\n', '3', '\t', '4']) = .ok d ∧ d.rows = 2 ∧
    d.elems = [⟨['a'], tcol [['1'], ['3']]⟩, ⟨['b'], tcol [['2'], ['4']]⟩] ∧ d.atName ['b'] = .ok ⟨['b'], tcol [['2'], ['4']]⟩ := by
  refine ⟨_, rfl, by decide +kernel⟩

/-- A text with a short line leaves the data frame alone; a correct one replaces it. -/
example : (⟨1, [⟨['z'], tcol [['9']]⟩], []⟩ : DF (julesRules fpEx)).extract fpEx (some "a\tb\n1\n".toList) =
    (.error (.exc .logic), ⟨1, [⟨['z'], tcol [['9']]⟩], []⟩) := by decide +kernel
example : ((⟨1, [⟨['z'], tcol [['9']]⟩], []⟩ : DF (julesRules fpEx)).extract fpEx (some "a\tb\n1\t2\n".toList)).2.elems =
    [⟨['a'], tcol [['1']]⟩, ⟨['b'], tcol [['2']]⟩] := by decide +kernel

theorem textFrame_ex : IsTextFrame fpEx ⟨2, [⟨['a'], tcol [['1'], ['3']]⟩, ⟨['b'], tcol [['2'], ['4']]⟩], []⟩ [['a'], ['b']] [[['1'], ['3']], [['2'], ['4']]] := by
  refine ⟨rfl, by decide, by decide +kernel⟩

/-! ### The hypotheses hold in concrete cases -/

theorem distinctNames_ab : DistinctNames [['a'], ['b']] := by
  intro i j x hi hj _
  have hi' := (List.getElem?_eq_some_iff.1 hi).1
  have hj' := (List.getElem?_eq_some_iff.1 hj).1
  match i, j, hi, hj with
  | 0, 0, _, _ => rfl
  | 1, 1, _, _ => rfl
  | 0, 1, hi, hj => cases hi; cases hj
  | 1, 0, hi, hj => cases hi; cases hj

example := C46_rows '\n' '\t' true (by decide) [[['a'], ['b']], [['1'], ['2']]] (by decide) (by decide) (by decide)
example := C47_written fpEx {} _ _ _ textFrame_ex (by decide)
example := C47_roundtrip_iff fpEx '\n' '\t' (by decide) _ _ _ textFrame_ex (by decide) (by decide) distinctNames_ab (by decide) (by decide)
example := C47_streams_partial fpEx _ DF.empty _ _ textFrame_ex (by decide) (by decide) distinctNames_ab (by decide) (by decide) (by decide)
example := C47_typed fpEx {} ⟨2, [⟨['x'], icol [1, -2]⟩], []⟩ (fun _ => [['1'], ['-', '2']])
  (by intro e he; rw [List.mem_singleton.1 he]; decide +kernel)
example := C48_names_partial fpEx {} "a\tb\n".toList [['a'], ['b']] (by decide +kernel) rfl distinctNames_ab

end Jules.Props

import Verif.Model.IO
import Verif.Props.Product
import Mathlib.Tactic.Linarith
/-
C35-C37: text output of arrays.
-/
namespace Jules.Props
open Spec

/-! ### C35 -/

/-- Specification of nested output. `fmt n` is the format of the level that has `n` dimensions from there on; `f` is the text of each
element. -/
def render (fmt : Nat → DimFmt) : (ext : List Nat) → (f : List Nat → Txt) → Txt
  | [], f => f []
  | e :: es, f =>
    (fmt (es.length + 1)).before ++
      (fmt (es.length + 1)).sep.intercalate ((List.range e).map fun i => render fmt es fun t => f (i :: t)) ++
      (fmt (es.length + 1)).after

/-- The format that belongs to the level with `r` dimensions from there on, on a stream on which `fmts` were set: formats are aligned
with the last dimensions (the last format belongs to the last dimension); dimensions before those share the first format; without
formats, `{`, space and `}` are used. -/
def ownFmt (fmts : List DimFmt) (r : Nat) : DimFmt := fmts.getD (fmts.length - r) ⟨['{'], [' '], ['}']⟩

theorem fmtFor_own (fmts : List DimFmt) : fmtFor (normFmts fmts) = ownFmt fmts := by
  funext r
  unfold normFmts
  split
  · next h =>
    rw [List.length_eq_zero_iff] at h
    subst h
    unfold fmtFor ownFmt
    simp only [List.length_singleton, List.length_nil, Nat.zero_sub, List.getD_nil]
    split
    · rcases (by omega : r = 0 ∨ r = 1) with rfl | rfl <;> rfl
    · rfl
  · unfold fmtFor ownFmt
    split
    · rfl
    · next h => rw [Nat.sub_eq_zero_of_le (by omega)]

theorem render_congr (fmt : Nat → DimFmt) : ∀ (ext : List Nat) (f g : List Nat → Txt), (∀ i, InB ext i → f i = g i) →
    render fmt ext f = render fmt ext g
  | [], f, g, h => h [] trivial
  | e :: es, f, g, h => by
    simp only [render]
    congr 3
    refine List.map_congr_left fun i hi => render_congr fmt es _ _ fun t ht => h (i :: t) ⟨?_, ht⟩
    simpa using hi

theorem foldlM_sep {g : Nat → Res Txt} {s : Nat → Txt} (sep : Txt) : ∀ (l : List Nat) (acc : Txt), (∀ i ∈ l, g i = .ok (s i)) →
    l.foldlM (fun acc i => do let t ← g i; (.ok (acc ++ sep ++ t) : Res Txt)) acc =
      .ok (acc ++ (l.map fun i => sep ++ s i).flatten)
  | [], acc, _ => by simp
  | i :: l, acc, h => by
    rw [List.foldlM_cons, h i (by simp)]
    show l.foldlM _ (acc ++ sep ++ s i) = _
    rw [foldlM_sep sep l _ fun j hj => h j (by simp [hj])]
    simp

theorem intercalate_flatten (sep x : Txt) (l : List Txt) : sep.intercalate (x :: l) = x ++ (l.map (sep ++ ·)).flatten := by
  induction l generalizing x with
  | nil => simp
  | cons y l ih => rw [List.intercalate_cons_cons, ih]; simp

/-- The memory holds the value `val i` at each multi-index of the view. -/
def ShowsAt (m : Mem α) (v : AView) (val : List Nat → α) : Prop := ∀ i, InB v.ext i → m (v.pos i) = some (val i)

theorem legal_at {v : AView} (hz : ∀ x ∈ v.ext, x ≠ 0) {i : Nat} (hi : i < v.ext.headD 0) : Legal (.view v) (.at i) :=
  ⟨hz, trivial, by simp [sel], by intro j hj; simp only [sel, List.mem_singleton] at hj; subst hj; exact hi⟩

theorem dims_of_view {o : Obj} {v : AView} (hs : SameObj o.abs (.view v)) (hne : v.ext ≠ []) : o.dims = some v.ext := by
  cases o with
  | elem p => exact absurd hs.1.symm hne
  | cref off ext => exact congrArg some hs.1
  | sref off mp =>
    have := hs.1
    rw [Mapper.aview_ext] at this
    exact congrArg some this
  | proxy => exact hs.elim
  | everyProxy => exact hs.elim

theorem print_spec (txt : α → Txt) (m : Mem α) (fmts : List DimFmt) :
    ∀ (ext : List Nat) (o : Obj) (v : AView) (val : List Nat → α), v.ext = ext → o.WF → SameObj o.abs (.view v) → (∀ x ∈ v.ext, x ≠ 0) →
      ShowsAt m v val → printFmt Arith.exact true txt m fmts ext.length o =
        .ok (render (fmtFor (normFmts fmts)) ext fun i => txt (val i)) := by
  intro ext
  induction ext generalizing fmts with
  | nil =>
    intro o v val he hwf hs hz hm
    cases o with
    | elem p =>
      have h1 := hm [] (by rw [he]; trivial)
      have h2 : p = v.pos [] := hs.2 [] (by trivial)
      rw [← h2] at h1
      simp [printFmt, Mem.read, h1, render]
    | cref off ext =>
      have : ext = [] := hs.1.trans he
      exact absurd this hwf
    | sref off mp =>
      have := hs.1
      rw [Mapper.aview_ext, he] at this
      exact absurd this (Mapper.WF.desc hwf).2.1
    | proxy => exact hs.elim
    | everyProxy => exact hs.elim
  | cons e es ih =>
    intro o v val he hwf hs hz hm
    have hd : o.dims = some (e :: es) := by rw [dims_of_view hs (by rw [he]; simp), he]
    have he0 : e ≠ 0 := hz e (by rw [he]; simp)
    have step : ∀ i, i < e → ∃ oi, o.index Arith.exact true (.at i) = .ok oi ∧
        printFmt Arith.exact true txt m (normFmts fmts) es.length oi =
          .ok (render (fmtFor (normFmts fmts)) es fun t => txt (val (i :: t))) := by
      intro i hi
      obtain ⟨oi, a1, a2, a3, _⟩ := view_step (ix := .at i) hwf hs (by rw [he]; simp) (legal_at hz (by rw [he]; exact hi))
      have hx : (fixFirst v i).ext = es := by simp [fixFirst, he]
      have hn : normFmts (normFmts fmts) = normFmts fmts := by
        unfold normFmts; split
        · rfl
        · rfl
      have := ih (normFmts fmts) oi (fixFirst v i) (fun t => val (i :: t)) hx a2 a3
        (fun x hx' => hz x (by rw [hx] at hx'; rw [he]; simp [hx']))
        (fun t ht => hm (i :: t) (by rw [he]; rw [hx] at ht; exact ⟨hi, ht⟩))
      rw [hn] at this
      exact ⟨oi, a1, this⟩
    obtain ⟨o0, b1, b2⟩ := step 0 (by omega)
    show printFmt Arith.exact true txt m fmts (es.length + 1) o = _
    rw [printFmt, hd]
    simp only [List.headD_cons, he0, if_false, b1, res_ok_bind, b2]
    have hf := foldlM_sep (g := fun i => do
        let oi ← o.index Arith.exact true (.at i)
        printFmt Arith.exact true txt m (normFmts fmts) es.length oi)
      (s := fun i => render (fmtFor (normFmts fmts)) es fun t => txt (val (i :: t))) (fmtFor (normFmts fmts) (es.length + 1)).sep
      (List.range' 1 (e - 1)) (render (fmtFor (normFmts fmts)) es fun t => txt (val (0 :: t)))
      (fun i hi => by
        obtain ⟨oi, c1, c2⟩ := step i (by rw [List.mem_range'] at hi; omega)
        simp only [c1, res_ok_bind, c2])
    simp only [bind_assoc] at hf
    rw [hf]
    simp only [res_ok_bind, render]
    obtain ⟨k, rfl⟩ : ∃ k, e = k + 1 := ⟨e - 1, by omega⟩
    rw [List.range_eq_range', List.range'_succ, List.map_cons, intercalate_flatten]
    simp [List.map_map, Function.comp_def]

/-! #### Checked and unchecked builds, plain streams -/

theorem printFmt_weak (A : Arith) (txt : α → Txt) (m : Mem α) : ∀ (N : Nat) (fmts : List DimFmt) (o : Obj),
    Weak (printFmt A true txt m fmts N o) (printFmt A false txt m fmts N o)
  | 0, fmts, o => by cases o <;> exact .refl _
  | N + 1, fmts, o => by
    rw [printFmt, printFmt]
    split
    · exact .refl _
    · simp only
      split
      · exact .refl _
      · refine weak_bind (weak_index A o _) fun o0 => weak_bind (printFmt_weak A txt m N _ o0) fun first => weak_bind ?_ fun _ => .refl _
        exact weak_foldlM (fun acc i => weak_bind (weak_index A o _) fun oi => weak_bind (printFmt_weak A txt m N _ oi) fun _ => .refl _) _ _

/-- A stream that is not an `array_ostream` prints as an `array_ostream` with the default format. -/
theorem plain_eq (A : Arith) (chk : Bool) (txt : α → Txt) (m : Mem α) : ∀ (N : Nat) (o : Obj),
    printPlain A chk txt m N o = printFmt A chk txt m [{}] N o
  | 0, o => by cases o <;> rfl
  | N + 1, o => by
    have hn : normFmts [({} : DimFmt)] = [{}] := rfl
    have hf : fmtFor [({} : DimFmt)] (N + 1) = {} := by
      unfold fmtFor
      split
      · next h =>
        have : N = 0 := by simpa using h
        subst this; rfl
      · rfl
    rw [printPlain, printFmt]
    simp only [hn, hf, plain_eq A chk txt m N]

/-- Writing a view to an `array_ostream`: for a view `o` (made in a checked build) meaning `v` without empty dimensions, on memory holding
`val i` at multi-index `i`, the text is the nested rendering: at each level the format's `before`, the texts of the sub-views in
order with `separator` between them, and `after`, each level with its own format. -/
theorem C35_format (chk : Bool) (txt : α → Txt) (m : Mem α) (fmts : List DimFmt) (off : Nat) (e : List Nat) (h : List Ix) (o : Obj) (v : AView)
    (hv : ViewAt off e h o v) (hz : ∀ x ∈ v.ext, x ≠ 0) (val : List Nat → α) (hm : ShowsAt m v val) :
    printFmt Arith.exact chk txt m fmts v.ext.length o = .ok (render (ownFmt fmts) v.ext fun i => txt (val i)) := by
  obtain ⟨h1, h2⟩ := viewAt_wf hv
  rw [← fmtFor_own]
  have := print_spec txt m fmts v.ext o v val rfl h1 h2 hz hm
  cases chk with
  | true => exact this
  | false => exact printFmt_weak _ _ _ _ _ _ _ this

/-- Writing a view to any other stream: `{`, spaces and `}` at every level. -/
theorem C35_plain (chk : Bool) (txt : α → Txt) (m : Mem α) (off : Nat) (e : List Nat) (h : List Ix) (o : Obj) (v : AView)
    (hv : ViewAt off e h o v) (hz : ∀ x ∈ v.ext, x ≠ 0) (val : List Nat → α) (hm : ShowsAt m v val) :
    printPlain Arith.exact chk txt m v.ext.length o = .ok (render (fun _ => ⟨['{'], [' '], ['}']⟩) v.ext fun i => txt (val i)) := by
  rw [plain_eq, C35_format chk txt m _ off e h o v hv hz val hm]
  have : ownFmt [({} : DimFmt)] = fun _ => ⟨['{'], [' '], ['}']⟩ := by
    funext r
    unfold ownFmt
    rcases Nat.eq_zero_or_pos r with h | h
    · subst h; rfl
    · rw [show [({} : DimFmt)].length - r = 0 by simp; omega]; rfl
  rw [this]

/-- One level of output. -/
theorem print_node (A : Arith) (chk : Bool) (txt : α → Txt) (m : Mem α) (fmts : List DimFmt) (o : Obj) (e : Nat) (es : List Nat)
    (s : Nat → Txt) (hd : o.dims = some (e :: es))
    (step : ∀ i, i < e → ∃ oi, o.index A chk (.at i) = .ok oi ∧ printFmt A chk txt m (normFmts fmts) es.length oi = .ok (s i)) :
    printFmt A chk txt m fmts (es.length + 1) o = .ok ((fmtFor (normFmts fmts) (es.length + 1)).before ++
      (fmtFor (normFmts fmts) (es.length + 1)).sep.intercalate ((List.range e).map s) ++ (fmtFor (normFmts fmts) (es.length + 1)).after) := by
  rw [printFmt, hd]
  by_cases he0 : e = 0
  · subst he0; simp
  · obtain ⟨o0, b1, b2⟩ := step 0 (by omega)
    simp only [List.headD_cons, he0, if_false, b1, res_ok_bind, b2]
    have hf := foldlM_sep (g := fun i => do
        let oi ← o.index A chk (.at i)
        printFmt A chk txt m (normFmts fmts) es.length oi) (s := s) (fmtFor (normFmts fmts) (es.length + 1)).sep
      (List.range' 1 (e - 1)) (s 0)
      (fun i hi => by
        obtain ⟨oi, c1, c2⟩ := step i (by rw [List.mem_range'] at hi; omega)
        simp only [c1, res_ok_bind, c2])
    simp only [bind_assoc] at hf
    rw [hf]
    simp only [res_ok_bind]
    obtain ⟨k, rfl⟩ : ∃ k, e = k + 1 := ⟨e - 1, by omega⟩
    rw [List.range_eq_range', List.range'_succ, List.map_cons, intercalate_flatten]
    simp [List.map_map, Function.comp_def]

theorem normFmts_norm (fmts : List DimFmt) : normFmts (normFmts fmts) = normFmts fmts := by
  unfold normFmts; split
  · rfl
  · rfl

/-- Unchecked builds print strided views of any extents. -/
theorem print_strided (txt : α → Txt) (m : Mem α) (fmts : List DimFmt) (off : Nat) : ∀ (ext ts : List Nat) (st : Nat) (val : List Nat → α),
    ext ≠ [] → ts.length = ext.length → (∀ i, InB ext i → m (off + (st + dotP i ts)) = some (val i)) →
    printFmt Arith.exact false txt m fmts ext.length (.sref off (.ident ⟨st, ext, ts⟩)) =
      .ok (render (fmtFor (normFmts fmts)) ext fun i => txt (val i))
  | [], _, _, _, h, _, _ => absurd rfl h
  | [e], [t], st, val, _, _, hm => by
    refine print_node Arith.exact false txt m fmts _ e [] _ rfl fun i hi => ?_
    have := hm [i] ⟨hi, trivial⟩
    refine ⟨.elem (off + (st + i * t)), ?_, ?_⟩
    · simp [Obj.index, srefIndex, arrayAtIdx, Mapper.desc, Mapper.map, dotP]
    · have h2 : m (off + (st + i * t)) = some (val [i]) := by simpa [dotP] using this
      simp [printFmt, Mem.read, h2, render]
  | e :: e' :: es, t :: t' :: ts, st, val, _, hl, hm => by
    refine print_node Arith.exact false txt m fmts _ e (e' :: es) _ rfl fun i hi => ?_
    refine ⟨.sref off (.ident ⟨st + t * i, e' :: es, t' :: ts⟩), ?_, ?_⟩
    · simp [Obj.index, srefIndex, arrayAtIdx, Mapper.desc, Mapper.dropFirst, SDesc.discard]
    · have := print_strided txt m (normFmts fmts) off (e' :: es) (t' :: ts) (st + t * i) (fun j => val (i :: j)) (by simp)
        (by simpa using hl) (fun j hj => by
          have := hm (i :: j) ⟨hi, hj⟩
          rw [← this]
          congr 1
          simp only [dotP, Nat.mul_comm t i]; omega)
      rw [normFmts_norm] at this
      exact this
  | [_], [], _, _, _, h, _ => by simp at h
  | [_], _ :: _ :: _, _, _, _, h, _ => by simp at h
  | _ :: _ :: _, [], _, _, _, h, _ => by simp at h
  | _ :: _ :: _, [_], _, _, _, h, _ => by simp at h

/-- **C35.** In an unchecked build every array is printed, whatever dimensions are empty: e.g. a matrix with two rows and no columns
as `{{} {}}`. -/
theorem C35_array_unchecked (txt : α → Txt) (m : Mem α) (fmts : List DimFmt) (off : Nat) (ext : List Nat) (hne : ext ≠ [])
    (val : List Nat → α) (hm : ShowsAt m (arrayView off ext) val) :
    printFmt Arith.exact false txt m fmts ext.length (.cref off ext) = .ok (render (ownFmt fmts) ext fun i => txt (val i)) ∧
      printPlain Arith.exact false txt m ext.length (.cref off ext) =
        .ok (render (fun _ => ⟨['{'], [' '], ['}']⟩) ext fun i => txt (val i)) := by
  have key : ∀ fmts, printFmt Arith.exact false txt m fmts ext.length (.cref off ext) =
      .ok (render (ownFmt fmts) ext fun i => txt (val i)) := by
    intro fmts
    rw [← fmtFor_own]
    have hm' : ∀ i, InB ext i → m (off + dotP i (cmStrides ext 1)) = some (val i) := by
      intro i hi
      have h1 := hm i hi
      have h2 := (arrayView_same off ext).2 i hi
      rw [← h2] at h1
      have h3 := dotP_cmStrides ext i 1 (inB_length hi)
      simp only [Nat.one_mul] at h3
      rw [h3]; exact h1
    cases ext with
    | nil => exact absurd rfl hne
    | cons e es =>
      refine print_node Arith.exact false txt m fmts _ e es _ rfl fun i hi => ?_
      cases es with
      | nil =>
        refine ⟨.elem (off + i), by simp [Obj.index, crefIndex], ?_⟩
        have h2 := hm' [i] ⟨hi, trivial⟩
        have h2 : m (off + i) = some (val [i]) := by simpa [dotP, cmStrides] using h2
        simp [printFmt, Mem.read, h2, render]
      | cons e' es =>
        have hmk : SDesc.mk' Arith.exact false i (e :: e' :: es) = .ok (canon i (e :: e' :: es)) :=
          mk'_exact.2 ⟨rfl, by simp⟩
        refine ⟨.sref off (.ident ⟨i, e' :: es, cmStrides (e' :: es) (1 * e)⟩), ?_, ?_⟩
        · simp [Obj.index, crefIndex, hmk, canon, SDesc.discard, cmStrides]
        · have := print_strided txt m (normFmts fmts) off (e' :: es) (cmStrides (e' :: es) (1 * e)) i (fun j => val (i :: j)) (by simp)
            (cmStrides_length _ _) (fun j hj => by
              have h4 := hm' (i :: j) ⟨hi, hj⟩
              rw [← h4]
              congr 1
              simp [dotP, cmStrides])
          rw [normFmts_norm] at this
          exact this
  refine ⟨key fmts, ?_⟩
  rw [plain_eq, key]
  have : ownFmt [({} : DimFmt)] = fun _ => ⟨['{'], [' '], ['}']⟩ := by
    funext r
    unfold ownFmt
    rcases Nat.eq_zero_or_pos r with h | h
    · subst h; rfl
    · rw [show [({} : DimFmt)].length - r = 0 by simp; omega]; rfl
  rw [this]

/-- **C35.** In a checked build, printing an array with an empty dimension other than the first (and a nonempty first one) is reported by
an assertion: sub-views with empty dimensions cannot be formed. -/
theorem C35_inner_empty_reported (txt : α → Txt) (m : Mem α) (fmts : List DimFmt) (off : Nat) (e : List Nat) (h : List Ix) (o : Obj)
    (v : AView) (hv : ViewAt off e h o v) (x : Nat) (xs : List Nat) (hx : v.ext = x :: xs) (h0 : x ≠ 0) (hz : 0 ∈ xs) :
    printFmt Arith.exact true txt m fmts v.ext.length o = .error .assert ∧
      printPlain Arith.exact true txt m v.ext.length o = .error .assert := by
  obtain ⟨h1, h2⟩ := viewAt_wf hv
  have hlen : xs ≠ [] := by intro h; simp [h] at hz
  have hlen1 : v.ext.length ≠ 1 := by
    rw [hx]
    have := List.length_pos_iff.2 hlen
    simp; omega
  have hidx : o.index Arith.exact true (.at 0) = .error .assert := by
    cases o with
    | elem p =>
      have : ([] : List Nat) = v.ext := h2.1
      rw [hx] at this; cases this
    | proxy => exact h2.elim
    | everyProxy => exact h2.elim
    | cref off' ext =>
      have he : ext = v.ext := h2.1
      subst he
      have hi : inferStrides Arith.exact true v.ext 1 = .error .assert := inferStrides_assert ⟨0, by rw [hx]; simp [hz], rfl⟩
      have hmk : SDesc.mk' Arith.exact true 0 v.ext = .error .assert := by
        unfold SDesc.mk'
        split
        · next heq => rw [heq] at hlen1; simp at hlen1
        · rw [hi]; rfl
      have hpos : 0 < v.ext.headD 0 := by rw [hx]; simp; omega
      simp only [Obj.index, crefIndex, hpos, if_neg hlen1, hmk]
      simp [dbg]
    | sref off' mp =>
      have he := h2.1
      rw [Mapper.aview_ext] at he
      have hwf := (Mapper.WF.desc h1).2.2.2 (by rw [he]; exact hlen1)
      exact absurd rfl (hwf 0 (by rw [he, hx]; simp [hz]))
  have hd := dims_of_view h2 (by rw [hx]; simp)
  have key : ∀ fmts, printFmt Arith.exact true txt m fmts v.ext.length o = .error .assert := by
    intro fmts
    rw [hx] at hd ⊢
    show printFmt _ _ _ _ _ (xs.length + 1) _ = _
    rw [printFmt, hd]
    simp only [List.headD_cons, h0, if_false, hidx]
    rfl
  exact ⟨key fmts, by rw [plain_eq]; exact key _⟩

/-- A matrix with two rows and no columns. -/
example : printPlain Arith.exact false (fun d : Char => [d]) (fun _ => none) 2 (.cref 0 [2, 0]) = .ok "{{} {}}".toList ∧
    printPlain Arith.exact true (fun d : Char => [d]) (fun _ => none) 2 (.cref 0 [2, 0]) = .error .assert := by decide +kernel

/-- A view whose first dimension is empty prints only the delimiters. -/
theorem C35_empty (txt : α → Txt) (m : Mem α) (fmts : List DimFmt) (off : Nat) (e : List Nat) (h : List Ix) (o : Obj) (v : AView)
    (es : List Nat) (hv : ViewAt off e h o v) (hz : v.ext = 0 :: es) :
    printFmt Arith.exact true txt m fmts v.ext.length o = .ok ((ownFmt fmts v.ext.length).before ++ (ownFmt fmts v.ext.length).after) ∧
    printPlain Arith.exact true txt m v.ext.length o = .ok ['{', '}'] := by
  rw [← fmtFor_own]
  obtain ⟨h1, h2⟩ := viewAt_wf hv
  have hd := dims_of_view h2 (by rw [hz]; simp)
  rw [hz] at hd ⊢
  simp [printFmt, printPlain, hd, render]

/-- All multi-indices in lexicographic (row-major) order: the last index varies fastest. -/
def lexIdx : List Nat → List (List Nat)
  | [] => [[]]
  | e :: es => (List.range e).flatMap fun i => (lexIdx es).map (i :: ·)

theorem flatten_intercalate_nil (l : List Txt) : ([] : Txt).intercalate l = l.flatten := by
  cases l with
  | nil => rfl
  | cons x l => rw [intercalate_flatten]; simp

/-- Every element's text is written exactly once, in lexicographic multi-index order: dropping all delimiters and separators, the
rendering is the concatenation of the elements' texts in that order. -/
theorem C35_order (ext : List Nat) (f : List Nat → Txt) : render (fun _ => ⟨[], [], []⟩) ext f = ((lexIdx ext).map f).flatten := by
  induction ext generalizing f with
  | nil => simp [render, lexIdx]
  | cons e es ih =>
    simp only [render, flatten_intercalate_nil, List.nil_append, List.append_nil, lexIdx, List.map_flatMap, List.map_map]
    rw [List.flatten_eq_flatMap, List.flatMap_map, List.flatten_eq_flatMap, List.flatMap_assoc]
    congr 1
    funext i
    rw [id, ih, List.flatten_eq_flatMap]
    rfl

/-- Non-vacuous: a 2×3 matrix, column-major in memory. -/
example : printFmt Arith.exact true (fun d : Char => [d]) (fun p => ['a', 'b', 'c', 'd', 'e', 'f'][p]?) commaFmts 2 (.cref 0 [2, 3]) =
      .ok "a,c,e\nb,d,f".toList ∧
    printPlain Arith.exact true (fun d : Char => [d]) (fun p => ['a', 'b', 'c', 'd', 'e', 'f'][p]?) 2 (.cref 0 [2, 3]) =
      .ok "{{a c e} {b d f}}".toList := by decide +kernel

/-! ### C36 -/

/-- Setting format number `dim`: it becomes the given one; the other formats that were there are unchanged; formats that had to be
added in between are the default. -/
theorem C36_setter (fmts : List DimFmt) (dim : Nat) (f : DimFmt) :
    (setFmt fmts dim f)[dim]? = some f ∧
    (∀ d, d ≠ dim → d < fmts.length → (setFmt fmts dim f)[d]? = fmts[d]?) ∧
    (∀ d, fmts.length ≤ d → d < dim → (setFmt fmts dim f)[d]? = some ⟨['{'], [' '], ['}']⟩) ∧
    (setFmt fmts dim f).length = max fmts.length (dim + 1) := by
  unfold setFmt
  rcases Nat.lt_trichotomy fmts.length dim with h | h | h
  · have hl : (fmts ++ List.replicate (dim - fmts.length) ({} : DimFmt)).length = dim := by simp; omega
    simp only [if_pos h, hl, if_true]
    refine ⟨?_, ?_, ?_, ?_⟩
    · rw [List.getElem?_append_right (by omega), hl]; simp
    · intro d hd hlt
      rw [List.getElem?_append_left (by omega), List.getElem?_append_left hlt]
    · intro d h1 h2
      rw [List.getElem?_append_left (by omega), List.getElem?_append_right h1]
      rw [List.getElem?_replicate, if_pos (by omega)]
    · rw [List.length_append, hl]; simp; omega
  · subst h
    simp only [lt_irrefl, if_false, if_true]
    refine ⟨?_, ?_, ?_, ?_⟩
    · rw [List.getElem?_append_right (by omega)]; simp
    · intro d hd hlt
      rw [List.getElem?_append_left hlt]
    · intro d h1 h2; omega
    · rw [List.length_append]; simp
  · simp only [if_neg (by omega : ¬ fmts.length < dim), if_neg (by omega : ¬ fmts.length = dim)]
    refine ⟨?_, ?_, ?_, ?_⟩
    · rw [List.getElem?_set_self h]
    · intro d hd hlt
      rw [List.getElem?_set_ne (by omega)]
    · intro d h1 h2; omega
    · rw [List.length_set]; omega

/-- The format of dimension `d` of an array of order `N` on a stream with the given formats: the level of dimension `d` has `N - d`
dimensions from there on. -/
def dimFmt (fmts : List DimFmt) (N d : Nat) : DimFmt := ownFmt fmts (N - d)

/-- On a stream with as many formats as the array has dimensions, setting the format of dimension `dim` changes exactly that
dimension's strings. -/
theorem C36_own_dimension (fmts : List DimFmt) (N dim : Nat) (f : DimFmt) (hN : fmts.length = N) (hd : dim < N) :
    dimFmt (setFmt fmts dim f) N dim = f ∧ ∀ d, d < N → d ≠ dim → dimFmt (setFmt fmts dim f) N d = dimFmt fmts N d := by
  obtain ⟨h1, h2, -, h4⟩ := C36_setter fmts dim f
  have hl : (setFmt fmts dim f).length = N := by omega
  have key : ∀ (l : List DimFmt) d, l.length = N → d < N → dimFmt l N d = l.getD d {} := by
    intro l d hl hd
    unfold dimFmt ownFmt
    rw [hl]
    show l.getD _ {} = _
    congr 1
    omega
  refine ⟨?_, ?_⟩
  · rw [key _ _ hl hd, List.getD_eq_getElem?_getD, h1]; rfl
  · intro d hdN hne
    rw [key _ _ hl hdN, key _ _ hN hdN, List.getD_eq_getElem?_getD, List.getD_eq_getElem?_getD, h2 d hne (by omega)]

/-- Otherwise it does not: a fresh stream has one format, used for every level, so setting the format of dimension 0 changes the
other dimension of a matrix as well; on a stream with three formats, setting the format of dimension 0 has no effect on a matrix. -/
theorem C36_other_orders_refuted :
    (∃ f, dimFmt (setFmt [{}] 0 f) 2 1 ≠ dimFmt [{}] 2 1) ∧
    (∀ a b c f, ∀ d, d < 2 → dimFmt (setFmt [a, b, c] 0 f) 2 d = dimFmt [a, b, c] 2 d) := by
  refine ⟨⟨⟨[], [], []⟩, by decide⟩, ?_⟩
  intro a b c f d hd
  have : d = 0 ∨ d = 1 := by omega
  rcases this with rfl | rfl <;> rfl

/-- The named setters: rows separated by a line break, elements by the named separator, no delimiters. -/
theorem C36_named :
    (dimFmt commaFmts 2 0 = ⟨[], ['\n'], []⟩ ∧ dimFmt commaFmts 2 1 = ⟨[], [','], []⟩ ∧ dimFmt commaFmts 1 0 = ⟨[], [','], []⟩) ∧
    (dimFmt spaceFmts 2 0 = ⟨[], ['\n'], []⟩ ∧ dimFmt spaceFmts 2 1 = ⟨[], [' '], []⟩ ∧ dimFmt spaceFmts 1 0 = ⟨[], [' '], []⟩) ∧
    (dimFmt tabFmts 2 0 = ⟨[], ['\n'], []⟩ ∧ dimFmt tabFmts 2 1 = ⟨[], ['\t'], []⟩ ∧ dimFmt tabFmts 1 0 = ⟨[], ['\t'], []⟩) := by
  decide

/-! ### C37 -/

/-- Reading the text of a matrix: split into lines, and each line into cells. -/
def parseTable (rowSep cellSep : Char) (t : Txt) : List (List Txt) := (t.splitOn rowSep).map fun l => l.splitOn cellSep

/-- The text of a matrix written with two distinct single-character separators and no delimiters, when neither occurs in an element's
text, parses back to the table of the elements' texts. -/
theorem C37_parse (rowSep cellSep : Char) (hne : rowSep ≠ cellSep) (r c : Nat) (hr : r ≠ 0) (hc : c ≠ 0) (f : List Nat → Txt)
    (hf : ∀ i j, i < r → j < c → rowSep ∉ f [i, j] ∧ cellSep ∉ f [i, j]) :
    parseTable rowSep cellSep (render (ownFmt [⟨[], [rowSep], []⟩, ⟨[], [cellSep], []⟩]) [r, c] f) =
      (List.range r).map fun i => (List.range c).map fun j => f [i, j] := by
  have e1 : render (ownFmt [⟨[], [rowSep], []⟩, ⟨[], [cellSep], []⟩]) [r, c] f =
      [rowSep].intercalate ((List.range r).map fun i => [cellSep].intercalate ((List.range c).map fun j => f [i, j])) := by
    simp [render, ownFmt]
  have mem : ∀ (x y : Char) (l : List Txt), x ≠ y → (∀ t ∈ l, x ∉ t) → x ∉ [y].intercalate l := by
    intro x y l hxy hl
    cases l with
    | nil => simp
    | cons a l =>
      rw [intercalate_flatten]
      simp only [List.mem_append, List.mem_flatten, List.mem_map, not_or, not_exists, not_and]
      refine ⟨hl a (by simp), ?_⟩
      rintro t ⟨b, hb, rfl⟩ hx
      simp only [List.mem_append, List.mem_singleton] at hx
      rcases hx with h | h
      · exact hxy h
      · exact hl b (by simp [hb]) h
  rw [e1]
  unfold parseTable
  rw [List.splitOn_intercalate _ ?_ (by simp; omega), List.map_map]
  · refine List.map_congr_left fun i hi => ?_
    have hi : i < r := by simpa using hi
    simp only [Function.comp_apply]
    rw [List.splitOn_intercalate _ ?_ (by simp; omega)]
    intro t ht
    simp only [List.mem_map, List.mem_range] at ht
    obtain ⟨j, hj, rfl⟩ := ht
    exact (hf i j hi hj).2
  · intro l hl
    simp only [List.mem_map, List.mem_range] at hl
    obtain ⟨i, hi, rfl⟩ := hl
    refine mem _ _ _ hne ?_
    intro t ht
    simp only [List.mem_map, List.mem_range] at ht
    obtain ⟨j, hj, rfl⟩ := ht
    exact (hf i j hi hj).1

/-- The three named formats: what is written to an `array_ostream` after `comma_separated`, `space_separated` or `tab_separated` parses
back, when the elements' texts contain neither line breaks nor the separator. -/
theorem C37_named (txt : α → Txt) (m : Mem α) (off : Nat) (e : List Nat) (h : List Ix) (o : Obj) (v : AView)
    (hv : ViewAt off e h o v) (r c : Nat) (he : v.ext = [r, c]) (hr : r ≠ 0) (hc : c ≠ 0) (val : List Nat → α) (hm : ShowsAt m v val)
    (fmts : List DimFmt) (sepc : Char)
    (hfs : (fmts, sepc) = (commaFmts, ',') ∨ (fmts, sepc) = (spaceFmts, ' ') ∨ (fmts, sepc) = (tabFmts, '\t'))
    (hf : ∀ i j, i < r → j < c → '\n' ∉ txt (val [i, j]) ∧ sepc ∉ txt (val [i, j])) :
    ∃ t, printFmt Arith.exact true txt m fmts 2 o = .ok t ∧
      parseTable '\n' sepc t = (List.range r).map fun i => (List.range c).map fun j => txt (val [i, j]) := by
  have h1 := C35_format true txt m fmts off e h o v hv (by rw [he]; simp [hr, hc]) val hm
  rw [he] at h1
  refine ⟨_, h1, ?_⟩
  have h2 : fmts = [⟨[], ['\n'], []⟩, ⟨[], [sepc], []⟩] ∧ '\n' ≠ sepc := by
    rcases hfs with h | h | h <;> (injection h with h1 h2; subst h1 h2; exact ⟨rfl, by decide⟩)
  rw [h2.1]
  exact C37_parse '\n' sepc h2.2 r c hr hc (fun i => txt (val i)) hf

/-! #### Separators of several characters -/

/-- Split a text at the successive leftmost occurrences of `sep`; `acc` is the current piece so far. -/
def splitAux (sep : Txt) : (fuel : Nat) → (acc t : Txt) → List Txt
  | 0, acc, _ => [acc]
  | fuel + 1, acc, t =>
    if sep.isPrefixOf t then acc :: splitAux sep fuel [] (t.drop sep.length)
    else if t = [] then [acc]
    else splitAux sep fuel (acc ++ t.take 1) (t.drop 1)

/-- Split a text at a (nonempty) separator, as a reader that searches for it from the left. -/
def splitTxt (sep t : Txt) : List Txt := splitAux sep (t.length + 1) [] t

/-- Followed by the separator, the text ends where the separator is first found. -/
def Clean (sep x : Txt) : Prop := ∀ k, k < x.length → ¬ sep <+: (x ++ sep).drop k

theorem splitAux_clean {sep : Txt} (hs : sep ≠ []) (rest : Txt) : ∀ (x acc : Txt) (fuel : Nat), Clean sep x →
    x.length + sep.length + rest.length < fuel →
    ∃ fuel', rest.length < fuel' ∧ splitAux sep fuel acc (x ++ sep ++ rest) = (acc ++ x) :: splitAux sep fuel' [] rest := by
  intro x
  induction x with
  | nil =>
    intro acc fuel _ hf
    obtain ⟨f, rfl⟩ : ∃ f, fuel = f + 1 := ⟨fuel - 1, by omega⟩
    have hp : sep.isPrefixOf ([] ++ sep ++ rest) = true := by simp
    have := List.length_pos_iff.2 hs
    refine ⟨f, by simp at hf; omega, ?_⟩
    rw [splitAux, if_pos hp]; simp
  | cons c x ih =>
    intro acc fuel hc hf
    obtain ⟨f, rfl⟩ : ∃ f, fuel = f + 1 := ⟨fuel - 1, by omega⟩
    have hp : ¬ sep.isPrefixOf (c :: x ++ sep ++ rest) = true := by
      intro h
      rw [List.isPrefixOf_iff_prefix] at h
      apply hc 0 (by simp)
      rw [List.drop_zero]
      exact List.prefix_of_prefix_length_le h (List.prefix_append _ _) (by simp; omega)
    obtain ⟨f', h1, h2⟩ := ih (acc ++ [c]) f (fun k hk => by
      have := hc (k + 1) (by simpa using hk)
      simpa using this) (by simp at hf; omega)
    refine ⟨f', h1, ?_⟩
    rw [splitAux, if_neg hp, if_neg (by simp)]
    have : (c :: x ++ sep ++ rest).drop 1 = x ++ sep ++ rest := rfl
    rw [this]
    show splitAux sep f (acc ++ [c]) _ = _
    rw [h2]; simp

theorem splitAux_last {sep : Txt} (hs : sep ≠ []) : ∀ (x acc : Txt) (fuel : Nat), Clean sep x → x.length < fuel →
    splitAux sep fuel acc x = [acc ++ x] := by
  intro x
  induction x with
  | nil =>
    intro acc fuel _ hf
    obtain ⟨f, rfl⟩ : ∃ f, fuel = f + 1 := ⟨fuel - 1, by omega⟩
    have hp : ¬ sep.isPrefixOf ([] : Txt) = true := by
      rw [List.isPrefixOf_iff_prefix, List.prefix_nil]; exact hs
    rw [splitAux, if_neg hp]; simp
  | cons c x ih =>
    intro acc fuel hc hf
    obtain ⟨f, rfl⟩ : ∃ f, fuel = f + 1 := ⟨fuel - 1, by omega⟩
    have hp : ¬ sep.isPrefixOf (c :: x) = true := by
      intro h
      rw [List.isPrefixOf_iff_prefix] at h
      apply hc 0 (by simp)
      rw [List.drop_zero]
      exact h.trans (List.prefix_append _ _)
    rw [splitAux, if_neg hp, if_neg (by simp)]
    show splitAux sep f (acc ++ [c]) x = _
    rw [ih _ _ (fun k hk => by
      have := hc (k + 1) (by simpa using hk)
      simpa using this) (by simp at hf; omega)]
    simp

theorem splitAux_intercalate {sep : Txt} (hs : sep ≠ []) : ∀ (l : List Txt) (fuel : Nat), l ≠ [] → (∀ x ∈ l, Clean sep x) →
    (sep.intercalate l).length < fuel → splitAux sep fuel [] (sep.intercalate l) = l
  | [], _, h, _, _ => absurd rfl h
  | [x], fuel, _, hc, hf => by
    rw [List.intercalate_singleton] at hf ⊢
    rw [splitAux_last hs x [] fuel (hc x (by simp)) hf]; rfl
  | x :: y :: l, fuel, _, hc, hf => by
    rw [List.intercalate_cons_cons] at hf ⊢
    simp only [List.length_append] at hf
    obtain ⟨f', h1, h2⟩ := splitAux_clean hs (sep.intercalate (y :: l)) x [] fuel (hc x (by simp)) (by omega)
    rw [h2, splitAux_intercalate hs (y :: l) f' (by simp) (fun z hz => hc z (by simp [hz])) h1]
    rfl

/-- Joining nonempty lists of clean texts and splitting are inverse. -/
theorem splitTxt_intercalate {sep : Txt} (hs : sep ≠ []) {l : List Txt} (hl : l ≠ []) (hc : ∀ x ∈ l, Clean sep x) :
    splitTxt sep (sep.intercalate l) = l := splitAux_intercalate hs l _ hl hc (Nat.lt_succ_self _)

/-- A single character: clean means that the character does not occur. -/
theorem clean_single (c : Char) (x : Txt) : Clean [c] x ↔ c ∉ x := by
  constructor
  · intro h hc
    obtain ⟨k, hk, hx⟩ := List.mem_iff_getElem.1 hc
    apply h k hk
    rw [List.drop_append_of_le_length (by omega), List.drop_eq_getElem_cons hk, hx]
    exact ⟨x.drop (k + 1) ++ [c], by simp⟩
  · intro h k hk hp
    rw [List.drop_append_of_le_length (by omega), List.drop_eq_getElem_cons hk] at hp
    obtain ⟨t, ht⟩ := hp
    simp only [List.singleton_append, List.cons_append, List.cons.injEq] at ht
    exact h (ht.1 ▸ List.getElem_mem hk)

/-- **C37** for separators of any length, as written by the library to an `array_ostream`: the output splits back into the table of the
elements' texts, provided that in each row each element's text ends where the separator is first found after its start, and the
same for the rows. -/
theorem C37_separators (txt : α → Txt) (m : Mem α) (off : Nat) (e : List Nat) (h : List Ix) (o : Obj) (v : AView)
    (hv : ViewAt off e h o v) (r c : Nat) (he : v.ext = [r, c]) (hr : r ≠ 0) (hc : c ≠ 0) (val : List Nat → α) (hm : ShowsAt m v val)
    (rowSep cellSep : Txt) (h1 : rowSep ≠ []) (h2 : cellSep ≠ [])
    (hcell : ∀ i j, i < r → j < c → Clean cellSep (txt (val [i, j])))
    (hrow : ∀ i, i < r → Clean rowSep (cellSep.intercalate ((List.range c).map fun j => txt (val [i, j])))) :
    ∃ t, printFmt Arith.exact true txt m [⟨[], rowSep, []⟩, ⟨[], cellSep, []⟩] 2 o = .ok t ∧
      ((splitTxt rowSep t).map (splitTxt cellSep)) = (List.range r).map fun i => (List.range c).map fun j => txt (val [i, j]) := by
  have h3 := C35_format true txt m [⟨[], rowSep, []⟩, ⟨[], cellSep, []⟩] off e h o v hv (by rw [he]; simp [hr, hc]) val hm
  rw [he] at h3
  refine ⟨_, h3, ?_⟩
  have e1 : render (ownFmt [⟨[], rowSep, []⟩, ⟨[], cellSep, []⟩]) [r, c] (fun i => txt (val i)) =
      rowSep.intercalate ((List.range r).map fun i => cellSep.intercalate ((List.range c).map fun j => txt (val [i, j]))) := by
    simp [render, ownFmt]
  rw [e1, splitTxt_intercalate h1 (by simp; omega), List.map_map]
  · refine List.map_congr_left fun i hi => ?_
    have hi : i < r := by simpa using hi
    exact splitTxt_intercalate h2 (by simp; omega) (by
      intro x hx
      simp only [List.mem_map, List.mem_range] at hx
      obtain ⟨j, hj, rfl⟩ := hx
      exact hcell i j hi hj)
  · intro x hx
    simp only [List.mem_map, List.mem_range] at hx
    obtain ⟨i, hi, rfl⟩ := hx
    exact hrow i hi

/-- Not occurring in the elements' texts is not enough for longer separators: with `--` the row `a-`, `b` is read as `a`, `-b`. -/
theorem C37_not_occurring_insufficient :
    ¬ ("--".toList <:+: "a-".toList) ∧ ¬ ("--".toList <:+: "b".toList) ∧
    (∃ t, printFmt Arith.exact true (fun x : Txt => x) (fun p => ["a-".toList, "b".toList][p]?)
        [⟨[], ['\n'], []⟩, ⟨[], "--".toList, []⟩] 2 (.cref 0 [1, 2]) = .ok t ∧
      (splitTxt ['\n'] t).map (splitTxt "--".toList) = [["a".toList, "-b".toList]]) := by
  refine ⟨by decide, by decide, "a---b".toList, by decide +kernel, by decide +kernel⟩

/-- A case of `C37_separators`: `, ` and a blank line. -/
example : Clean ", ".toList "1,5".toList ∧ Clean "\n\n".toList "1,5, 2".toList ∧
    (splitTxt "\n\n".toList "1,5, 2\n\n3, 4".toList).map (splitTxt ", ".toList) =
      [["1,5".toList, "2".toList], ["3".toList, "4".toList]] := by
  refine ⟨?_, ?_, by decide +kernel⟩
  · intro k hk
    match k, hk with
    | 0, _ => decide
    | 1, _ => decide
    | 2, _ => decide
    | k + 3, h => simp at h
  · intro k hk
    match k, hk with
    | 0, _ => decide
    | 1, _ => decide
    | 2, _ => decide
    | 3, _ => decide
    | 4, _ => decide
    | 5, _ => decide
    | k + 6, h => simp at h

/-! ### The hypotheses hold in concrete cases -/

/-- A 2 by 3 matrix of characters and its second row. -/
def mem23 : Mem Char := fun p => ['a', 'b', 'c', 'd', 'e', 'f'][p]?

theorem mem23_shows : ShowsAt mem23 (arrayView 0 [2, 3]) (fun i => ['a', 'b', 'c', 'd', 'e', 'f'].getD (cmSum [2, 3] i) 'x') := by
  intro i hi
  have : ∀ i ∈ multiIdx [2, 3], mem23 ((arrayView 0 [2, 3]).pos i) = some (['a', 'b', 'c', 'd', 'e', 'f'].getD (cmSum [2, 3] i) 'x') := by decide
  exact this i (mem_multiIdx.2 hi)

theorem mem23_view : ViewAt 0 [2, 3] [] (.cref 0 [2, 3]) (arrayView 0 [2, 3]) := ⟨by decide, rfl, rfl⟩

/-- The characters are clean for separators that do not occur. -/
theorem mem23_clean : ∀ i j, i < 2 → j < 3 → '\n' ∉ [['a', 'b', 'c', 'd', 'e', 'f'].getD (cmSum [2, 3] [i, j]) 'x'] ∧
    ',' ∉ [['a', 'b', 'c', 'd', 'e', 'f'].getD (cmSum [2, 3] [i, j]) 'x'] := by
  have : ∀ i : Fin 2, ∀ j : Fin 3, '\n' ∉ [['a', 'b', 'c', 'd', 'e', 'f'].getD (cmSum [2, 3] [i.val, j.val]) 'x'] ∧
      ',' ∉ [['a', 'b', 'c', 'd', 'e', 'f'].getD (cmSum [2, 3] [i.val, j.val]) 'x'] := by decide
  intro i j hi hj
  exact this ⟨i, hi⟩ ⟨j, hj⟩

instance (sep x : Txt) : Decidable (Clean sep x) := by unfold Clean; infer_instance

example := C35_format true (fun c => [c]) mem23 commaFmts 0 [2, 3] [] _ _ mem23_view (by decide) _ mem23_shows
example := C35_plain true (fun c => [c]) mem23 0 [2, 3] [] _ _ mem23_view (by decide) _ mem23_shows
example := C35_array_unchecked (fun c => [c]) mem23 commaFmts 0 [2, 3] (by decide) _ mem23_shows
example := C35_empty (fun c => [c]) mem23 commaFmts 0 [0, 3] [] _ _ [3] ⟨by decide, rfl, rfl⟩ rfl
example := C36_own_dimension commaFmts 2 1 ⟨['<'], [';'], ['>']⟩ rfl (by decide)
example := C37_parse '\n' ',' (by decide) 2 3 (by decide) (by decide) (fun i => [['a', 'b', 'c', 'd', 'e', 'f'].getD (cmSum [2, 3] i) 'x']) mem23_clean
example := C37_named (fun c => [c]) mem23 0 [2, 3] [] _ _ mem23_view 2 3 rfl (by decide) (by decide) _ mem23_shows commaFmts ',' (.inl rfl) mem23_clean
example := C37_separators (fun c => [c]) mem23 0 [2, 3] [] _ _ mem23_view 2 3 rfl (by decide) (by decide) _ mem23_shows "\n\n".toList ", ".toList (by decide) (by decide)
  (by
    have : ∀ i : Fin 2, ∀ j : Fin 3, Clean ", ".toList [['a', 'b', 'c', 'd', 'e', 'f'].getD (cmSum [2, 3] [i.val, j.val]) 'x'] := by decide
    intro i j hi hj
    exact this ⟨i, hi⟩ ⟨j, hj⟩)
  (by
    have : ∀ i : Fin 2, Clean "\n\n".toList (List.intercalate ", ".toList ((List.range 3).map fun j => [['a', 'b', 'c', 'd', 'e', 'f'].getD (cmSum [2, 3] [i.val, j]) 'x'])) := by
      decide
    intro i hi
    exact this ⟨i, hi⟩)

end Jules.Props

import Verif.Lemmas.ColumnFlow
import Verif.Lemmas.ColumnStep
/-
Lemmas for C83: writing an element through a view, and the single statements.
-/
namespace Jules
open Spec

section
variable {C : Coercion} {S : Nat → Bool} {P P' : CState C} {V V' : VState C} {lost : List (Txt × Nat) → List (Txt × Nat) → List (Txt × Nat)}

/-! ### Changing an object -/

theorem map_set_same {α β : Type} {f : α → β} {l : List α} {i : Nat} {a b : α} (h : l[i]? = some a) (hf : f b = f a) : (l.set i b).map f = l.map f := by
  apply List.ext_getElem?
  intro k
  rw [List.getElem?_map, List.getElem?_map, List.getElem?_set]
  by_cases hk : i = k
  · subst hk
    have hi := (List.getElem?_eq_some_iff.1 h).1
    rw [if_pos rfl, if_pos hi, h]; simp [hf]
  · rw [if_neg hk]

theorem addrs_set {l : List (Option Nat × Column C)} {i id : Nat} {c c' : Column C} (h : l[i]? = some (some id, c)) : addrs (l.set i (some id, c')) = addrs l := by
  have : addrs (l.set i (some id, c')) = ((l.set i (some id, c')).map Prod.fst).filterMap _root_.id := by unfold addrs; rw [List.filterMap_map]; rfl
  rw [this, map_set_same (f := Prod.fst) (b := (some id, c')) h rfl, List.filterMap_map]; rfl

theorem sep_write {r g g' : Nat → Option (Model C)} {l : List (Option Nat × Column C)} {i id : Nat} {c : Column C} {m' : Model C} (hs : Sep r g l) (hi : l[i]? = some (some id, c))
    (hg : ∀ j, g' j = if j = id then some m' else g j) : Sep r g' (l.set i (some id, some m')) := by
  have hid : id ∈ addrs l := mem_addrs.2 ⟨c, List.mem_of_getElem? hi⟩
  refine ⟨by rw [addrs_set hi]; exact hs.nodup, ?_, by rw [addrs_set hi]; exact hs.fresh, ?_⟩
  · intro p c' hm
    obtain ⟨k, hk⟩ := List.mem_iff_getElem?.1 hm
    rw [List.getElem?_set] at hk
    split at hk
    · next he =>
      split at hk
      · cases hk
        show g' id = _
        rw [hg, if_pos rfl]
      · cases hk
    · next hne =>
      have hd := hs.vals p c' (List.mem_of_getElem? hk)
      cases p with
      | none => rw [denotes_null hd]; trivial
      | some j =>
        obtain ⟨m, rfl, hm'⟩ := denotes_some hd rfl
        show g' j = _
        rw [hg, if_neg, hm']
        rintro rfl
        exact hne (nodup_filterMap_inj hs.nodup hi hk rfl rfl)
  · intro j hj
    rw [addrs_set hi] at hj
    rw [hg, if_neg (by rintro rfl; exact hj hid)]
    exact hs.rest j hj

theorem rep_write (h : Represents P V) {w : Place} {id : Nat} {m' : Model C} {h' : CHeap C} (hp : pointerAt P w = some id) (hg : ∀ j, h'.get j = if j = id then some m' else P.heap.get j) :
    Represents { P with heap := h' } (setColumn V (some m') w) := by
  cases w with
  | col x =>
    rw [ptr_col] at hp
    obtain ⟨c, h1, h2, h3⟩ := rep_col h hp
    have hs := sep_one h (.col x)
    rw [h2] at hs
    have hs' := sep_write (i := 0) (m' := m') (g' := h'.get) hs rfl hg
    refine rep_upd (os := [.col x]) h ?_ (fun _ _ => ⟨rfl, rfl⟩) ?_ ?_ ?_
    · intro y hy
      have hy : y ≠ x := by simpa using hy
      exact ⟨rfl, by simp [setColumn, hy]⟩
    · rw [share_one, hold_col (P := { P with heap := h' }) (V := setColumn V (some m') (.col x)) (c := some m') hp (by simp [setColumn])]
      exact hs'
    · intro y hy
      have hy : y = x := by simpa using hy
      subst hy
      simp [setColumn, hp]
    · intro d hd; simp at hd
  | elem d i =>
    obtain ⟨D, e, g1, g2, g3⟩ := ptr_elem.1 hp
    obtain ⟨E, v, k1, k2, k3, k4⟩ := hold_elem h g1 g2
    rw [g3] at k4
    have hs := sep_one h (.frame d)
    rw [k3] at hs
    have hs' := sep_write (m' := m') (g' := h'.get) hs k4 hg
    have hmod : E.elems.modify i (fun e => { e with col := some m' }) = E.elems.set i { v with col := some m' } := by
      rw [List.modify_eq_set_getElem?, k2]; rfl
    have hv' : (setColumn V (some m') (.elem d i)).frames d = some { E with elems := E.elems.set i { v with col := some m' } } := by
      simp only [setColumn, if_pos, k1, Option.map_some, hmod]
    refine rep_upd (os := [.frame d]) h (fun _ _ => ⟨rfl, rfl⟩) ?_ ?_ ?_ ?_
    · intro y hy
      have hy : y ≠ d := by simpa using hy
      exact ⟨rfl, by simp [setColumn, hy]⟩
    · rw [share_one]
      have hh : holdings { P with heap := h' } (setColumn V (some m') (.elem d i)) (.frame d) = held D.elems (E.elems.set i { v with col := some m' }) := by
        unfold holdings
        dsimp only
        rw [g1, hv']; rfl
      rw [hh]
      have : held D.elems (E.elems.set i { v with col := some m' }) = (held D.elems E.elems).set i (some id, some m') := by
        apply List.ext_getElem?
        intro k
        unfold held
        rw [List.getElem?_set]
        by_cases hk : i = k
        · subst hk
          have hlt := (List.getElem?_eq_some_iff.1 k4).1
          unfold held at hlt
          rw [if_pos rfl, if_pos hlt, List.getElem?_zip_eq_some]
          refine ⟨by rw [List.getElem?_map, g2]; simp [g3], ?_⟩
          rw [List.getElem?_map, List.getElem?_set_self (List.getElem?_eq_some_iff.1 k2).1]; rfl
        · rw [if_neg hk]
          rw [List.zip, List.getElem?_zipWith, List.getElem?_zipWith, List.getElem?_map, List.getElem?_map, List.getElem?_map, List.getElem?_set_ne hk]
      rw [this]; exact hs'
    · intro y hy; simp at hy
    · intro y hy
      have hy : y = d := by simpa using hy
      subst hy
      rw [hv']
      have hf := h.frames y
      rw [g1, k1] at hf
      show (P.frames y).map _ = _
      rw [g1]
      simp only [Option.map_some, Option.some.injEq, Prod.mk.injEq] at hf ⊢
      refine ⟨hf.1, hf.2.1.trans ?_, hf.2.2⟩
      unfold DF.names
      exact (map_set_same (f := Named.name) (b := { v with col := some m' }) k2 rfl).symm

/-! ### Views -/

/-- A view follows the elements. -/
theorem points_flow {f : Place → Option Place} {v : KView C} {u : WView C} (h : Represents P V) (h' : Represents P' V') (hf : Flow P P' f) (hp : Points P v u) :
    Points P' v { u with loc := u.loc.bind f } := by
  obtain ⟨h1, h2, h3, h4, h5⟩ := hp
  refine ⟨h1, h2, h3, Nat.lt_of_lt_of_le h4 hf.ext.len, ?_⟩
  dsimp only
  cases hl : u.loc with
  | none =>
    rw [hl] at h5
    have h5 : P.heap.get v.id = none := h5
    show P'.heap.get v.id = none
    rcases hf.ext.same v.id h4 with e | e
    · rw [e]; exact h5
    · exact e
  | some w =>
    rw [hl] at h5
    obtain ⟨h5, l, h8, h9⟩ := (show pointerAt P w = some v.id ∧ ∃ l : List (C.Val v.ty), P.heap.get v.id = some ⟨v.ty, l⟩ ∧ l.length = v.size from h5)
    rw [Option.bind_some]
    cases hw : f w with
    | some w' =>
      have h10 := hf.dest w v.id w' h5 hw
      refine ⟨h10, l, ?_, h9⟩
      obtain ⟨m, _, hm, _⟩ := ptr_value h' h10
      rcases hf.ext.same v.id h4 with e | e
      · rw [e]; exact h8
      · rw [e] at hm; cases hm
    | none =>
      show P'.heap.get v.id = none
      by_contra hne
      obtain ⟨w', hw'⟩ := ptr_exists h' hne
      rcases hf.src w' v.id hw' with hlt | ⟨w2, h6, h7⟩
      · omega
      · rw [ptr_inj h h6 h5, hw] at h7; cases h7

/-! ### Statements -/

theorem on_ok {x : SM (CState C) β} {P : KState C} {b : β} {s : CState C} (h : x P.st = .ok b s) : onCols x P = .ok b { P with st := s } := by unfold onCols; rw [h]
theorem on_exn {x : SM (CState C) β} {P : KState C} {e : Exn} {s : CState C} (h : x P.st = .exn e s) : onCols x P = .exn e { P with st := s } := by unfold onCols; rw [h]
theorem on_fail {x : SM (CState C) β} {P : KState C} {f : Fail} (h : x P.st = .fail f) : onCols x P = .fail f := by unfold onCols; rw [h]

theorem holds_follow {P : KState C} {W : WState C} {s : CState C} {V' : VState C} {f : Place → Option Place} (h : KHolds P W) (h' : Represents s V') (hf : Flow P.st s f) :
    KHolds { P with st := s } ⟨V', followAll f W.views, W.out⟩ := by
  refine ⟨h', ?_, ?_, h.out⟩
  · intro p; rw [h.scope p]; simp [followAll]
  · intro p v u hv hu
    obtain ⟨u', hu', rfl⟩ := Option.map_eq_some_iff.1 hu
    exact points_flow h.vals h' hf (h.views p v u' hv hu')

theorem kstmt_sim {chk : Bool} {P : KState C} {W : WState C} (h : KHolds P W) (s : CStmt C) :
    ∃ r, WStep chk (∃ k, S k = true) W (.stmt s) r ∧ KMatches (onCols (cstep S lost s) P) r := by
  have h1 := cstep_sim (S := S) lost h.vals s
  have h2 := flow_step (S := S) (lost := lost) h.vals s
  cases hr : cstep S lost s P.st with
  | ok b s' =>
    rw [hr] at h1 h2
    obtain ⟨V', h3, h4⟩ := h1
    rw [on_ok hr]
    exact ⟨_, .stmt h3, holds_follow h h4 h2⟩
  | exn e s' =>
    rw [hr] at h1 h2
    obtain ⟨V', h3, h4⟩ := h1
    obtain ⟨f, h5, h6⟩ := h2
    rw [on_exn hr]
    refine ⟨_, .stmtThrows (e := e) (V' := V') ?_ h5, rfl, holds_follow h h3 h6⟩
    rcases h4 with h4 | ⟨⟨rfl, h7⟩, h8⟩
    · exact .inl h4
    · exact .inr ⟨h7, rfl, h8⟩
  | fail f =>
    rw [hr] at h1
    rw [on_fail hr]
    exact ⟨_, .stmtUndefined (f := f) h1, rfl⟩

theorem colsAt {P : CState C} {V : VState C} (h : Represents P V) {x : Nat} {m : Model C} (hc : V.cols x = some (some m)) : ∃ id, P.cols x = some (some id) ∧ P.heap.get id = some m := by
  obtain ⟨id, h1, h2⟩ := value_ptr (w := .col x) h hc
  exact ⟨id, ptr_col.1 h1, h2⟩

theorem colsNull {P : CState C} {V : VState C} (h : Represents P V) {x : Nat} (hc : V.cols x = some none) : P.cols x = some none := by
  cases hx : P.cols x with
  | none => have := h.cols x; rw [hx, hc] at this; cases this
  | some p =>
    obtain ⟨c, h1, h2, h3⟩ := rep_col h hx
    rw [hc] at h1
    cases h1
    cases p with
    | none => rfl
    | some id => obtain ⟨m, h4, _⟩ := denotes_some h3 rfl; cases h4

theorem fetch_ok {h : CHeap C} {id : Nat} {m : Model C} (hg : h.get id = some m) : fetch id h = .ok m h := by unfold fetch; rw [hg]

theorem typeP_ok {P : KState C} {id : Nat} {m : Model C} (hg : P.st.heap.get id = some m) : onCols (onHeap (typeP (some id))) P = .ok m.ty P := by
  have : onHeap (typeP (some id)) P.st = .ok m.ty P.st := by
    unfold onHeap typeP; dsimp only; rw [sm_ok (fetch_ok hg)]; rfl
  exact on_ok this

theorem sizeP_ok {P : KState C} {id : Nat} {m : Model C} (hg : P.st.heap.get id = some m) : onCols (onHeap (sizeP (some id))) P = .ok m.vals.length P := by
  have : onHeap (sizeP (some id)) P.st = .ok m.vals.length P.st := by
    unfold onHeap sizeP; dsimp only; rw [sm_ok (fetch_ok hg)]; rfl
  exact on_ok this

theorem dataP_ok {P : KState C} {id : Nat} {m : Model C} {T : C.Ty} (hg : P.st.heap.get id = some m) (ht : m.ty = T) : onCols (onHeap (dataP (some id) T)) P = .ok id P := by
  have : onHeap (dataP (some id) T) P.st = .ok id P.st := by
    unfold onHeap dataP; dsimp only; rw [sm_ok (fetch_ok hg), if_pos ht]; rfl
  exact on_ok this

theorem dataP_type {P : KState C} {id : Nat} {m : Model C} {T : C.Ty} (hg : P.st.heap.get id = some m) (ht : m.ty ≠ T) : onCols (onHeap (dataP (some id) T)) P = .exn .logic P := by
  have : onHeap (dataP (some id) T) P.st = .exn .logic P.st := by
    unfold onHeap dataP; dsimp only; rw [sm_ok (fetch_ok hg), if_neg ht]; rfl
  exact on_exn this

theorem getCol_on {P : KState C} {x : Nat} {p : Option Nat} (h : P.st.cols x = some p) : onCols (getCol x) P = .ok p P := on_ok (getCol_eq h)

/-- A new view. -/
theorem holds_new {P : KState C} {W : WState C} (h : KHolds P W) {p : Nat} {w : Place} {id : Nat} {T : C.Ty} {l : List (C.Val T)} {k : Bool} (hp : pointerAt P.st w = some id)
    (hg : P.st.heap.get id = some ⟨T, l⟩) :
    KHolds { P with views := fun q => if q = p then some ⟨T, id, l.length, k⟩ else P.views q } { W with views := fun q => if q = p then some ⟨T, l.length, k, some w⟩ else W.views q } := by
  refine ⟨h.vals, ?_, ?_, h.out⟩
  · intro q
    dsimp only
    split
    · rfl
    · exact h.scope q
  · intro q v u hv hu
    dsimp only at hv hu
    split at hv
    · next hq =>
      rw [if_pos hq] at hu
      cases hv; cases hu
      exact ⟨rfl, rfl, rfl, get_lt hg, hp, l, hg, rfl⟩
    · next hq =>
      rw [if_neg hq] at hu
      exact h.views q v u hv hu

/-- `data<T>()`, `size()` and the view made of them. -/
theorem makeView {P : KState C} {W : WState C} (h : KHolds P W) {p : Nat} {w : Place} {id : Nat} {T : C.Ty} {l : List (C.Val T)} {k : Bool} (hp : pointerAt P.st w = some id)
    (hg : P.st.heap.get id = some ⟨T, l⟩) :
    KMatches ((do
      let i ← onCols (onHeap (dataP (some id) T))
      let n ← onCols (onHeap (sizeP (some id)))
      setView p (some ⟨T, i, n, k⟩) : SM (KState C) Unit) P) (.ok () { W with views := fun q => if q = p then some ⟨T, l.length, k, some w⟩ else W.views q }) := by
  rw [sm_ok (dataP_ok hg rfl), sm_ok (sizeP_ok hg)]
  exact holds_new h hp hg

theorem newView_some {P : KState C} {p : Nat} {v : KView C} (h : P.views p = some v) : newView p P = .fail .illFormed := by unfold newView; rw [h]
theorem newView_none {P : KState C} {p : Nat} (h : P.views p = none) : newView p P = .ok () P := by unfold newView; rw [h]

theorem scope_none {P : KState C} {W : WState C} (h : KHolds P W) {p : Nat} : P.views p = none ↔ W.views p = none := by
  have := h.scope p
  rw [← Option.isNone_iff_eq_none, ← Option.isNone_iff_eq_none]
  cases h1 : P.views p <;> cases h2 : W.views p <;> simp_all

theorem scope_some {P : KState C} {W : WState C} (h : KHolds P W) {p : Nat} {v : KView C} (hv : P.views p = some v) : ∃ u, W.views p = some u ∧ Points P.st v u := by
  cases h2 : W.views p with
  | none => rw [(scope_none h).2 h2] at hv; cases hv
  | some u => exact ⟨u, rfl, h.views p v u hv h2⟩

theorem cols_none {P : CState C} {V : VState C} (h : Represents P V) {x : Nat} : P.cols x = none ↔ V.cols x = none := by
  have := h.cols x
  cases h1 : P.cols x <;> cases h2 : V.cols x <;> simp_all

theorem view_sim {chk : Bool} {P : KState C} {W : WState C} (h : KHolds P W) (p x : Nat) (T : C.Ty) :
    ∃ r, WStep chk (∃ k, S k = true) W (.view p x T) r ∧ KMatches (kstep chk S lost (.view p x T) P) r := by
  unfold kstep
  dsimp only
  cases hv : P.views p with
  | some v =>
    refine ⟨_, .viewIllFormed (.inl fun hn => ?_), ?_⟩
    · rw [(scope_none h).2 hn] at hv; cases hv
    · rw [sm_fail (newView_some hv)]; rfl
  | none =>
    have hw := (scope_none h).1 hv
    rw [sm_ok (newView_none hv)]
    cases hx : W.vals.cols x with
    | none =>
      refine ⟨_, .viewIllFormed (.inr hx), ?_⟩
      rw [sm_fail (on_fail (getCol_no ((cols_none h.vals).2 hx)))]; rfl
    | some c =>
      cases c with
      | none =>
        refine ⟨_, .viewEmpty hw hx, ?_⟩
        rw [sm_ok (getCol_on (colsNull h.vals hx)), sm_exn (x := onCols (onHeap (typeP none))) (s' := P) (e := .logic) rfl]
        exact ⟨rfl, h⟩
      | some m =>
        obtain ⟨id, h1, h2⟩ := colsAt h.vals hx
        rw [sm_ok (getCol_on h1), sm_ok (typeP_ok h2)]
        by_cases ht : m.ty = T
        · subst ht
          refine ⟨_, .view hw hx, ?_⟩
          rw [if_neg (fun hn => hn rfl), sm_ok (x := SM.pure ()) (b := ()) (s' := P) rfl, sm_ok (getCol_on h1)]
          exact makeView h (ptr_col.2 h1) h2
        · rw [if_pos ht]
          obtain ⟨r, h3, h4⟩ := kstmt_sim (chk := chk) (S := S) (lost := lost) h (.coerce x T)
          cases hr : onCols (cstep S lost (.coerce x T)) P with
          | fail f =>
            rw [hr] at h4
            cases h3 with
            | stmtUndefined h5 => exact ⟨_, .viewUndefined hw hx ht h5, by rw [sm_fail hr]; exact h4⟩
            | _ => cases h4
          | exn e P' =>
            rw [hr] at h4
            cases hr' : r with
            | exn e' W' =>
              subst hr'
              obtain ⟨rfl, h5⟩ := h4
              exact ⟨_, .viewThrows hw hx ht h3, by rw [sm_exn hr]; exact ⟨rfl, h5⟩⟩
            | _ => subst hr'; cases h4
          | ok b P' =>
            rw [hr] at h4
            rw [sm_ok hr]
            cases hr' : r with
            | ok b' W' =>
              subst hr'
              have h5 : KHolds P' W' := h4
              have h6 : ∃ l, W'.vals.cols x = some (some ⟨T, l⟩) := by
                cases h3 with
                | stmt h6 =>
                  rename_i V'
                  have h6 : (do
                    let c ← vCol x
                    SM.lift (c.coerce T).1
                    vSetCol x (some (c.coerce T).2) : SM (VState C) Unit) W.vals = .ok () V' := h6
                  rw [sm_ok (b := some m) (s' := W.vals) (by unfold vCol; rw [hx])] at h6
                  unfold Column.coerce at h6
                  dsimp only at h6
                  cases hm : m.coerce T with
                  | error e =>
                    rw [hm] at h6
                    dsimp only at h6
                    cases e <;> cases h6
                  | ok m' =>
                    rw [hm] at h6
                    obtain ⟨l, rfl⟩ := coerce_ty hm
                    cases h6
                    exact ⟨l, by simp⟩
              obtain ⟨l, h6⟩ := h6
              refine ⟨_, .viewCoerce hw hx ht h3 h6, ?_⟩
              obtain ⟨id', h7, h8⟩ := colsAt h5.vals h6
              rw [sm_ok (getCol_on h7)]
              exact makeView h5 (ptr_col.2 h7) h8
            | _ => subst hr'; cases h4

theorem frames_none {P : CState C} {V : VState C} (h : Represents P V) {d : Nat} : P.frames d = none ↔ V.frames d = none := by
  have := h.frames d
  cases h1 : P.frames d <;> cases h2 : V.frames d <;> simp_all

theorem constView_sim {chk : Bool} {P : KState C} {W : WState C} (h : KHolds P W) (p : Nat) (w : Place) (T : C.Ty) :
    ∃ r, WStep chk (∃ k, S k = true) W (.constView p w T) r ∧ KMatches (kstep chk S lost (.constView p w T) P) r := by
  unfold kstep
  dsimp only
  cases hv : P.views p with
  | some v =>
    have hn : W.views p ≠ none := by intro hn; rw [(scope_none h).2 hn] at hv; cases hv
    rw [sm_fail (newView_some hv)]
    cases w with
    | col x => exact ⟨_, .constViewNoCol (.inl hn), rfl⟩
    | elem d i => exact ⟨_, .constViewNoFrame (.inl hn), rfl⟩
  | none =>
    have hw := (scope_none h).1 hv
    rw [sm_ok (newView_none hv)]
    -- A pointer has been found.
    have key : ∀ t : Option Nat, getPlace w P.st = .ok t P.st → (∀ id, t = some id → pointerAt P.st w = some id) → (t = none → columnIn W.vals w = some none) →
        ∃ r, WStep chk (∃ k, S k = true) W (.constView p w T) r ∧ KMatches ((do
          let t ← onCols (getPlace w)
          let id ← onCols (onHeap (dataP t T))
          let n ← onCols (onHeap (sizeP t))
          setView p (some ⟨T, id, n, true⟩) : SM (KState C) Unit) P) r := by
      intro t ht h1 h2
      rw [sm_ok (on_ok ht)]
      cases t with
      | none =>
        refine ⟨_, .constViewEmpty hw (h2 rfl), ?_⟩
        rw [sm_exn (x := onCols (onHeap (dataP none T))) (s' := P) (e := .logic) rfl]
        exact ⟨rfl, h⟩
      | some id =>
        obtain ⟨m, h3, h4, -⟩ := ptr_value h.vals (h1 id rfl)
        by_cases hty : m.ty = T
        · subst hty
          exact ⟨_, .constView hw h3, makeView h (h1 id rfl) h4⟩
        · refine ⟨_, .constViewType hw h3 hty, ?_⟩
          rw [sm_exn (dataP_type h4 hty)]
          exact ⟨rfl, h⟩
    cases w with
    | col x =>
      cases hx : P.st.cols x with
      | none =>
        refine ⟨_, .constViewNoCol (.inr ((cols_none h.vals).1 hx)), ?_⟩
        rw [sm_fail (on_fail (x := getPlace (.col x)) (getCol_no hx))]; rfl
      | some t =>
        refine key t (getCol_eq hx) ?_ ?_
        · rintro id rfl; exact ptr_col.2 hx
        · rintro rfl
          obtain ⟨c, h1, h2, h3⟩ := rep_col h.vals hx
          rw [denotes_null h3] at h1; exact h1
    | elem d i =>
      cases hD : P.st.frames d with
      | none =>
        refine ⟨_, .constViewNoFrame (.inr ((frames_none h.vals).1 hD)), ?_⟩
        rw [sm_fail (on_fail (x := getPlace (.elem d i)) (f := .illFormed) (sm_fail (getFrame_no hD)))]; rfl
      | some D =>
        have hg : getPlace (.elem d i) P.st = (match D.elems[i]? with
          | none => SM.throw .logic
          | some e => SM.pure e.ptr : SM (CState C) (Option Nat)) P.st := sm_ok (getFrame_eq hD)
        cases he : D.elems[i]? with
        | none =>
          rw [he] at hg
          obtain ⟨E, h1, h2, h3⟩ := rep_frame h.vals hD
          have hl : D.elems.length = E.elems.length := by simpa using congrArg List.length h3.2.2.1
          refine ⟨_, .constViewRange hw h1 (i := i) ?_, ?_⟩
          · rw [List.getElem?_eq_none_iff] at he ⊢; omega
          · rw [sm_exn (on_exn hg)]; exact ⟨rfl, h⟩
        | some e =>
          rw [he] at hg
          refine key e.ptr hg ?_ ?_
          · intro id hid; exact ptr_elem.2 ⟨D, e, hD, he, hid⟩
          · intro hn
            obtain ⟨E, v, h1, h2, h3, h4⟩ := hold_elem h.vals hD he
            have h5 := h.vals.values (.frame d) e.ptr v.col (by rw [h3]; exact List.mem_of_getElem? h4)
            rw [hn] at h5
            show ((W.vals.frames d).bind fun E => (E.elems[i]?).map Named.col) = _
            rw [h1, Option.bind_some, h2, Option.map_some, denotes_null h5]

theorem getView_ok {P : KState C} {p : Nat} {v : KView C} (h : P.views p = some v) : getView p P = .ok v P := by unfold getView; rw [h]
theorem getView_no {P : KState C} {p : Nat} (h : P.views p = none) : getView p P = .fail .illFormed := by unfold getView; rw [h]

theorem inRange_ok {chk : Bool} {P : KState C} {i n : Nat} (h : i < n) : inRange chk i n P = .ok () P := by unfold inRange; rw [if_pos h]; rfl
theorem inRange_no {chk : Bool} {P : KState C} {i n : Nat} (h : ¬ i < n) : inRange chk i n P = .fail (if chk then .assert else .ub) := by unfold inRange; rw [if_neg h]; rfl

theorem read_sim {chk : Bool} {P : KState C} {W : WState C} (h : KHolds P W) (p i : Nat) :
    ∃ r, WStep chk (∃ k, S k = true) W (.read p i) r ∧ KMatches (kstep chk S lost (.read p i) P) r := by
  unfold kstep
  dsimp only
  cases hv : P.views p with
  | none => exact ⟨_, .readIllFormed ((scope_none h).1 hv), by rw [sm_fail (getView_no hv)]; rfl⟩
  | some v =>
    obtain ⟨u, hu, h1, h2, h3, h4, h5⟩ := scope_some h hv
    rw [sm_ok (getView_ok hv)]
    by_cases hi : i < v.size
    · rw [sm_ok (inRange_ok hi)]
      cases hl : u.loc with
      | none =>
        refine ⟨_, .readDangling hu hl (by omega), ?_⟩
        rw [hl] at h5
        have h5 : P.st.heap.get v.id = none := h5
        have : onHeap (loadElem v.id v.ty i) P.st = .fail .ub := by
          unfold onHeap loadElem
          rw [sm_fail (e := .ub) (by unfold fetch; rw [h5])]
        rw [sm_fail (on_fail this)]; rfl
      | some w =>
        rw [hl] at h5
        obtain ⟨h6, l, h7, h8⟩ := (show pointerAt P.st w = some v.id ∧ ∃ l : List (C.Val v.ty), P.st.heap.get v.id = some ⟨v.ty, l⟩ ∧ l.length = v.size from h5)
        obtain ⟨m, h9, h10, -⟩ := ptr_value h.vals h6
        rw [h7] at h10
        obtain ⟨vt, vid, vs, vc⟩ := v
        obtain ⟨ut, us, uc, ul⟩ := u
        dsimp only at *
        subst h1 h2 h3
        cases h10
        have ha : l[i]? = some (l[i]'(by omega)) := List.getElem?_eq_getElem _
        have : onHeap (loadElem vid vt i) P.st = .ok ⟨vt, l[i]'(by omega)⟩ P.st := by
          unfold onHeap loadElem
          rw [sm_ok (fetch_ok h7), if_pos rfl]
          unfold elemAt
          dsimp only
          rw [ha]; rfl
        refine ⟨_, .read hu hl h9 h8 ha, ?_⟩
        rw [sm_ok (on_ok this)]
        exact ⟨h.vals, h.scope, h.views, by rw [← h.out]⟩
    · exact ⟨_, .readRange hu (by omega), by rw [sm_fail (inRange_no hi)]; rfl⟩

theorem write_sim {chk : Bool} {P : KState C} {W : WState C} (h : KHolds P W) (p i : Nat) (T : C.Ty) (a : C.Val T) :
    ∃ r, WStep chk (∃ k, S k = true) W (.write p i T a) r ∧ KMatches (kstep chk S lost (.write p i T a) P) r := by
  unfold kstep
  dsimp only
  cases hv : P.views p with
  | none =>
    refine ⟨_, .writeIllFormed ?_, by rw [sm_fail (getView_no hv)]; rfl⟩
    intro u hu
    rw [(scope_none h).1 hv] at hu; cases hu
  | some v =>
    obtain ⟨u, hu, h1, h2, h3, h4, h5⟩ := scope_some h hv
    rw [sm_ok (getView_ok hv)]
    by_cases hc : v.isConst = false ∧ v.ty = T
    · rw [if_pos hc]
      obtain ⟨hc1, hc2⟩ := hc
      by_cases hi : i < v.size
      · rw [sm_ok (inRange_ok hi)]
        obtain ⟨vt, vid, vs, vc⟩ := v
        obtain ⟨ut, us, uc, ul⟩ := u
        dsimp only at *
        subst h1 h2 h3 hc1 hc2
        cases ul with
        | none =>
          refine ⟨_, .writeDangling hu hi, ?_⟩
          have h5 : P.st.heap.get vid = none := h5
          have : onHeap (storeElem vid vt i a) P.st = .fail .ub := by
            unfold onHeap storeElem
            rw [sm_fail (e := .ub) (by unfold fetch; rw [h5])]
          rw [on_fail this]; rfl
        | some w =>
          obtain ⟨h6, l, h7, h8⟩ := (show pointerAt P.st w = some vid ∧ ∃ l : List (C.Val vt), P.st.heap.get vid = some ⟨vt, l⟩ ∧ l.length = vs from h5)
          obtain ⟨m, h9, h10, -⟩ := ptr_value h.vals h6
          rw [h7] at h10
          cases h10
          refine ⟨_, .write hu h9 h8 hi, ?_⟩
          have : onHeap (storeElem vid vt i a) P.st = .ok () { P.st with heap := { P.st.heap with models := P.st.heap.models.set vid (some ⟨vt, l.set i a⟩) } } := by
            unfold onHeap storeElem
            rw [sm_ok (fetch_ok h7)]
            dsimp only
            rw [dif_pos rfl, if_pos (by omega)]
            unfold store
            rw [h7]
          rw [on_ok this]
          have hgs := fun j => get_set (h := P.st.heap) h4 (some ⟨vt, l.set i a⟩) j
          refine ⟨rep_write h.vals h6 hgs, h.scope, ?_, h.out⟩
          intro q v' u' hv' hu'
          obtain ⟨k1, k2, k3, k4, k5⟩ := h.views q v' u' hv' hu'
          refine ⟨k1, k2, k3, by simpa using k4, ?_⟩
          cases hl' : u'.loc with
          | none =>
            rw [hl'] at k5
            have k5 : P.st.heap.get v'.id = none := k5
            show CHeap.get _ v'.id = none
            rw [hgs, if_neg, k5]
            intro he
            rw [he, h7] at k5; cases k5
          | some w' =>
            rw [hl'] at k5
            obtain ⟨k6, l', k7, k8⟩ := (show pointerAt P.st w' = some v'.id ∧ ∃ l : List (C.Val v'.ty), P.st.heap.get v'.id = some ⟨v'.ty, l⟩ ∧ l.length = v'.size from k5)
            refine ⟨by cases w' <;> exact k6, ?_⟩
            dsimp only
            by_cases he : v'.id = vid
            · rw [he, h7] at k7
              obtain ⟨v't, v'id, v's, v'c⟩ := v'
              dsimp only at *
              cases k7
              exact ⟨l.set i a, by rw [hgs, if_pos he], by simpa using k8⟩
            · exact ⟨l', by rw [hgs, if_neg he]; exact k7, k8⟩
      · exact ⟨_, .writeRange hu (by rw [← h3]; exact hc1) (by rw [← h1]; exact hc2) (by omega), by rw [sm_fail (inRange_no hi)]; rfl⟩
    · rw [if_neg hc]
      refine ⟨_, .writeIllFormed ?_, rfl⟩
      intro u' hu'
      rw [hu] at hu'
      cases hu'
      rw [← h3, ← h1]
      by_cases hk : v.isConst = true
      · exact .inl hk
      · exact .inr fun ht => hc ⟨by simpa using hk, ht⟩

theorem kstep_sim {chk : Bool} {P : KState C} {W : WState C} (h : KHolds P W) (s : KStmt C) :
    ∃ r, WStep chk (∃ k, S k = true) W s r ∧ KMatches (kstep chk S lost s P) r := by
  cases s with
  | stmt s => exact kstmt_sim h s
  | view p x T => exact view_sim h p x T
  | constView p w T => exact constView_sim h p w T
  | read p i => exact read_sim h p i
  | write p i T a => exact write_sim h p i T a
  | viewDrop p =>
    unfold kstep
    dsimp only
    cases hv : P.views p with
    | none => exact ⟨_, .viewDropIllFormed ((scope_none h).1 hv), by rw [sm_fail (getView_no hv)]; rfl⟩
    | some v =>
      obtain ⟨u, hu, _⟩ := scope_some h hv
      refine ⟨_, .viewDrop hu, ?_⟩
      rw [sm_ok (getView_ok hv)]
      refine ⟨h.vals, ?_, ?_, h.out⟩
      · intro q
        dsimp only
        split
        · rfl
        · exact h.scope q
      · intro q v' u' hv' hu'
        dsimp only at hv' hu'
        split at hv'
        · cases hv'
        · next hq => rw [if_neg hq] at hu'; exact h.views q v' u' hv' hu'

theorem krun_sim {chk handled : Bool} : ∀ (p : List (KStmt C)) {P : KState C} {W : WState C}, KHolds P W →
    ∃ r, WRuns chk (∃ k, S k = true) handled W p r ∧ KMatches (krun chk S lost handled p P) r := by
  intro p
  induction p with
  | nil => intro P W h; exact ⟨_, .done, h⟩
  | cons s p ih =>
    intro P W h
    obtain ⟨r, h1, h2⟩ := kstep_sim (chk := chk) (S := S) (lost := lost) h s
    unfold krun
    cases hr : kstep chk S lost s P with
    | ok b P' =>
      rw [hr] at h2
      cases hr' : r with
      | ok b' W' =>
        subst hr'
        obtain ⟨r', h3, h4⟩ := ih (P := P') (W := W') h2
        refine ⟨r', .step h1 h3, ?_⟩
        split
        · rw [sm_ok (b := .ok b) (s' := P') (by unfold SM.try; rw [hr])]; exact h4
        · rw [sm_ok hr]; exact h4
      | _ => subst hr'; cases h2
    | exn e P' =>
      rw [hr] at h2
      cases hr' : r with
      | exn e' W' =>
        subst hr'
        obtain ⟨rfl, h2⟩ := h2
        cases handled with
        | true =>
          obtain ⟨r', h3, h4⟩ := ih (P := P') (W := W') h2
          refine ⟨r', .caught rfl h1 h3, ?_⟩
          rw [if_pos rfl, sm_ok (b := .error e) (s' := P') (by unfold SM.try; rw [hr])]; exact h4
        | false =>
          refine ⟨_, .thrown rfl h1, ?_⟩
          rw [if_neg (by decide), sm_exn hr]; exact ⟨rfl, h2⟩
      | _ => subst hr'; cases h2
    | fail f =>
      rw [hr] at h2
      cases hr' : r with
      | fail f' =>
        subst hr'
        refine ⟨_, .undefined h1, ?_⟩
        split
        · rw [sm_fail (e := f) (by unfold SM.try; rw [hr])]; exact h2
        · rw [sm_fail hr]; exact h2
      | _ => subst hr'; cases h2

end

end Jules

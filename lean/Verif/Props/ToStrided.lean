import Verif.Model.ToStrided
import Verif.Props.Indexing
/-
C62: converting a contiguous array or view to a strided view.
-/
namespace Jules.Props
open Jules Spec

/-- **C62 (partial: no zero extent, or one dimension).** The conversion is accepted and the strided view has the same extents, elements and order. Missing:
multi-dimensional views with a zero extent, `C62_zero_extent`. -/
theorem C62_same_view_partial {e : List Nat} {h : List Ix} {off : Nat} {ext : List Nat} {v : AView} (hv : ViewOf e h (.cref off ext) v)
    (hz : ext.length ≠ 1 → ∀ x ∈ ext, x ≠ 0) (chk : Bool) :
    ∃ o, (Obj.cref off ext).toStrided Arith.exact chk = .ok o ∧ Observes o v := by
  obtain ⟨w, s⟩ := viewOf_wf hv
  have hd : SDesc.mk' Arith.exact chk 0 ext = .ok (canon 0 ext) := mk'_exact.2 ⟨rfl, fun _ => hz⟩
  refine ⟨.sref off (.ident (canon 0 ext)), by simp [Obj.toStrided, hd], observes (canon_WF w hz) ?_⟩
  exact SameObj.trans (b := (Obj.cref off ext).abs) (contig_same off ext) s

/-- **C62 (partial).** Indexing the converted view gives what indexing the original gives, for every chain that means a view and is accepted by both; and every legal
chain is accepted by both unless it does not compile. -/
theorem C62_chains_partial {e : List Nat} {h : List Ix} {off : Nat} {ext : List Nat} {v : AView} (hv : ViewOf e h (.cref off ext) v)
    (hz : ext.length ≠ 1 → ∀ x ∈ ext, x ≠ 0) :
    ∃ o, (Obj.cref off ext).toStrided Arith.exact true = .ok o ∧ ∀ h' : List Ix,
      (∀ w o1 o2, h'.foldl astep (.view v) = .view w → (Obj.cref off ext).run Arith.exact true h' = .ok o1 →
        o.run Arith.exact true h' = .ok o2 → Observes o1 w ∧ Observes o2 w) ∧
      (LegalAll (.view v) h' → (∃ o2, o.run Arith.exact true h' = .ok o2) ∨ o.run Arith.exact true h' = .error .illFormed) := by
  obtain ⟨w, s⟩ := viewOf_wf hv
  have hd : SDesc.mk' Arith.exact true 0 ext = .ok (canon 0 ext) := mk'_exact.2 ⟨rfl, fun _ => hz⟩
  have hwf : (Obj.sref off (.ident (canon 0 ext))).WF := canon_WF w hz
  have hs : SameObj (Obj.sref off (.ident (canon 0 ext))).abs (.view v) :=
    SameObj.trans (b := (Obj.cref off ext).abs) (contig_same off ext) s
  have key : ∀ {o o' : Obj} {h' : List Ix} {w : AView}, o.WF → SameObj o.abs (.view v) → o.run Arith.exact true h' = .ok o' →
      h'.foldl astep (.view v) = .view w → Observes o' w := by
    intro o o' h' w ho hso hr hm
    obtain ⟨w1, s1, a1⟩ := run_refines ho hr
    have := (foldl_astep_congr hso a1).1
    rw [hm] at this
    exact observes w1 (s1.trans this)
  refine ⟨.sref off (.ident (canon 0 ext)), by simp [Obj.toStrided, hd], fun h' => ⟨fun x o1 o2 hm h1 h2 => ⟨key w s h1 hm, key hwf hs h2 hm⟩, fun hl => ?_⟩⟩
  exact run_complete hwf trivial hs trivial hl

/-- **C62.** Conversions to views of constant elements change nothing. -/
theorem C62_const {e : List Nat} {h : List Ix} {o : Obj} {v : AView} (hv : ViewOf e h o v) (hne : v.ext ≠ []) :
    ∃ o', o.toConst = .ok o' ∧ Observes o' v := by
  have ho := C04_history hv
  cases o with
  | cref off ext => exact ⟨_, rfl, ho⟩
  | sref off m => exact ⟨_, rfl, ho⟩
  | elem p => exact (hne ho.dims.symm).elim
  | proxy => exact (hne ho.dims.symm).elim
  | everyProxy => exact (hne ho.dims.symm).elim

/-- **C62 is false for empty views.** With two or more dimensions, one of them zero, the conversion fails an assertion although the original can be iterated (it visits
nothing). -/
theorem C62_zero_extent {ext : List Nat} (off : Nat) (hn : 1 < ext.length) (hz : 0 ∈ ext) :
    (Obj.cref off ext).positions Arith.exact = .ok [] ∧ (Obj.cref off ext).toStrided Arith.exact true = .error .assert := by
  constructor
  · have hp : ∀ l : List Nat, 0 ∈ l → prod l = 0 := by
      intro l
      induction l with
      | nil => simp
      | cons a l ih =>
        intro h
        rcases List.mem_cons.1 h with h | h
        · simp [prod, ← h]
        · simp [prod, ih h]
    simp [Obj.positions, prodL_exact, hp ext hz]
  · match ext, hn with
    | a :: b :: l, _ =>
      have := inferStrides_assert (e := a :: b :: l) (t := 1) ⟨0, hz, rfl⟩
      simp [Obj.toStrided, SDesc.mk', this]

theorem incr_zero_dim : ∀ {e i : List Nat}, i.length = e.length → (∃ (k : Nat), k + 1 < e.length ∧ e[k]? = some 0) →
    (∃ r, incr e i = .ok r ∧ r.getLast? = i.getLast? ∧ r.length = e.length) ∨ incr e i = .error .ub
  | [], _, _, ⟨k, h, _⟩ => by simp at h
  | [_], _, _, ⟨k, h, _⟩ => by simp at h
  | _ :: _ :: _, [], hl, _ => by simp at hl
  | _ :: _ :: _, [_], hl, _ => by simp at hl
  | e :: x :: es, i :: j :: is, hl, ⟨k, hk, h0⟩ => by
    rw [incr]
    · split
      · exact .inr rfl
      · next he =>
        dsimp only
        split
        · exact .inl ⟨_, rfl, by simp [List.getLast?_cons_cons], by simpa using hl⟩
        · cases k with
          | zero => simp at h0; exact (he h0).elim
          | succ k =>
            rcases incr_zero_dim (e := x :: es) (i := j :: is) (by simpa using hl) ⟨k, by simpa using hk, by simpa using h0⟩ with ⟨r, h1, h2, h3⟩ | h1
            · refine .inl ⟨_, by rw [h1]; rfl, ?_, by simp [h3]⟩
              cases r with
              | nil => simp at h3
              | cons a r => rw [List.getLast?_cons_cons, h2, List.getLast?_cons_cons]
            · exact .inr (by rw [h1]; rfl)
    · simp

theorem endIndex_getLast : ∀ e : List Nat, (endIndex e).getLast? = e.getLast?
  | [] => rfl
  | [_] => rfl
  | e :: x :: es => by
    have h := endIndex_getLast (x :: es)
    have : endIndex (e :: x :: es) = 0 :: endIndex (x :: es) := rfl
    rw [this, List.getLast?_cons_cons (l := es), ← h]
    cases hx : endIndex (x :: es) with
    | nil => cases es <;> simp [endIndex] at hx
    | cons a l => rw [List.getLast?_cons_cons]

theorem iterGen_zero_dim {d : SDesc} (hz : ∃ (k : Nat), k + 1 < d.ext.length ∧ d.ext[k]? = some 0) (hl : d.ext.getLast? ≠ some 0) :
    ∀ (fuel : Nat) (i : List Nat), i.length = d.ext.length → i.getLast? = some 0 → ∀ ps, iterGen Arith.exact d fuel i ≠ .ok ps
  | 0, _, _, _, ps => by intro h; cases h
  | fuel + 1, i, hi, h0, ps => by
    unfold iterGen
    have hne : i ≠ endIndex d.ext := by
      intro h
      rw [h, endIndex_getLast] at h0
      exact hl h0
    rw [if_neg hne]
    rcases incr_zero_dim hi hz with ⟨r, h1, h2, h3⟩ | h1
    · rw [h1, res_ok_bind]
      intro h
      obtain ⟨rest, h4, _⟩ := res_bind_ok.1 h
      exact iterGen_zero_dim hz hl fuel r h3 (h2.trans h0) rest h4
    · rw [h1]; intro h; cases h

/-- **C62 is false for empty views, unchecked.** In an unchecked build the conversion is accepted and the resulting view cannot be iterated when a dimension other than the
last is zero and the last is not: no number of steps reaches `end()` (the iteration divides by zero). -/
theorem C62_zero_extent_unchecked {ext : List Nat} (off : Nat) (hz : ∃ (k : Nat), k + 1 < ext.length ∧ ext[k]? = some 0) (hl : ext.getLast? ≠ some 0) :
    ∃ d, (Obj.cref off ext).toStrided Arith.exact false = .ok (.sref off (.ident d)) ∧ d.ext = ext ∧
      ∀ (fuel : Nat) (ps : List Nat), d.positions Arith.exact fuel ≠ .ok ps := by
  have hd : SDesc.mk' Arith.exact false 0 ext = .ok (canon 0 ext) := mk'_exact.2 ⟨rfl, fun h => by simp at h⟩
  refine ⟨canon 0 ext, by simp [Obj.toStrided, hd], rfl, fun fuel ps => ?_⟩
  have hlen : 1 < ext.length := by obtain ⟨k, hk, _⟩ := hz; omega
  have he : (canon 0 ext).ext = ext := rfl
  have hp : (canon 0 ext).positions Arith.exact fuel = iterGen Arith.exact (canon 0 ext) fuel (ext.map fun _ => 0) := by
    unfold SDesc.positions
    split
    · next h _ => rw [he] at h; rw [h] at hlen; simp at hlen
    · next h => rw [he] at h; rw [h] at hlen; simp at hlen
    · rfl
  rw [hp]
  refine iterGen_zero_dim (d := canon 0 ext) hz hl fuel _ (by simp [he]) ?_ ps
  rw [List.getLast?_map]
  cases h : ext.getLast? with
  | none => rw [List.getLast?_eq_none_iff] at h; rw [h] at hlen; simp at hlen
  | some x => rfl

example := C62_zero_extent_unchecked (ext := [2, 0, 3]) 0 ⟨1, by simp⟩ (by simp)
example : (⟨0, [2, 0, 3], [1, 2, 0]⟩ : SDesc).positions Arith.exact 100 = .error .ub := by decide +kernel
example := C62_zero_extent (ext := [2, 0, 3]) 0 (by simp) (by simp)

/-! Concrete case: `a[every][slice(1, 2)]` of a 2 by 4 array, converted. -/

theorem cols_viewOf : ∃ v, ViewOf [2, 4] [.every, .slice 1 2] (.cref 2 [2, 2]) v := ⟨_, by simp, by decide +kernel, rfl⟩

example := cols_viewOf.imp fun _ h => C62_same_view_partial h (by simp) true
example := cols_viewOf.imp fun _ h => C62_chains_partial h (by simp)
example : ((Obj.cref 2 [2, 2]).toStrided Arith.exact true >>= fun o => o.positions Arith.exact) = .ok [2, 3, 4, 5] := by decide +kernel

example := C62_const cols_viewOf.choose_spec (by have := cols_viewOf.choose_spec.2.2; injection this with h; rw [← h]; decide)

end Jules.Props

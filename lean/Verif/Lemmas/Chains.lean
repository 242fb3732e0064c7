import Verif.Lemmas.Safety
/-
Accepting and composing chains of strided slices.
-/
namespace Jules
open Spec

theorem zipWith_sel_slices : ∀ {ext : List Nat} {sl : List (Nat × Nat × Nat)}, sl.length = ext.length →
    List.zipWith sel ext (sliceChain sl) = (sliceArgs sl).map Arg.sel
  | [], [], _ => rfl
  | e :: es, p :: sl, h => by
    have := zipWith_sel_slices (ext := es) (sl := sl) (by simpa using h)
    simp only [sliceChain, sliceArgs] at this
    simp [sliceChain, sliceArgs, this, sel, Arg.sel]
  | [], _ :: _, h => by simp at h
  | _ :: _, [], h => by simp at h

theorem sliceChain_notAt {sl : List (Nat × Nat × Nat)} {ix : Ix} (h : ix ∈ sliceChain sl) (i : Nat) :
    ix ≠ .at i := by
  obtain ⟨p, _, rfl⟩ := List.mem_map.1 h
  simp

theorem slices_meaning {v : AView} {sl : List (Nat × Nat × Nat)} (hne : sl ≠ [])
    (hl : sl.length = v.ext.length) :
    (sliceChain sl).foldl astep (.view v) = .view (restrict v ((sliceArgs sl).map Arg.sel)) := by
  rw [← zipWith_sel_slices hl]
  cases hs : sliceChain sl with
  | nil => simp [sliceChain] at hs; exact absurd hs hne
  | cons ix ixs =>
    refine foldl_view (sliceChain_notAt (sl := sl) (by simp [hs])) ?_
    rw [← hs]; simp [sliceChain, hl]

theorem view_chain_accept {o : Obj} {v : AView} (hwf : o.WF) (hs : SameObj o.abs (.view v))
    (hz : ∀ x ∈ v.ext, x ≠ 0) {sl : List (Nat × Nat × Nat)} (hne : sl ≠ []) (hl : sl.length = v.ext.length)
    (hp : ∀ p ∈ sl, 0 < p.2.1 ∧ 0 < p.2.2) (hi : Inside v.ext ((sliceArgs sl).map Arg.sel)) :
    ∃ o', o.run Arith.exact true (sliceChain sl) = .ok o' := by
  have hpos : ∀ a ∈ sliceArgs sl, a.Pos := by
    intro a ha
    obtain ⟨p, h, rfl⟩ := List.mem_map.1 ha
    exact ⟨(hp p h).2, (hp p h).1⟩
  have hnn : ∀ a ∈ sliceArgs sl, a.sel ≠ [] := by
    intro a ha
    obtain ⟨p, h, rfl⟩ := List.mem_map.1 ha
    have := (hp p h).1
    intro h0
    have := congrArg List.length h0
    simp at this; omega
  cases o with
  | elem p =>
    have : v.ext = [] := hs.1.symm
    rw [this] at hl
    exact absurd (List.length_eq_zero_iff.1 hl) hne
  | proxy off m args => exact hs.elim
  | everyProxy off ext M => exact hs.elim
  | sref off m =>
    have he := hs.1
    rw [Mapper.aview_ext] at he
    rw [sref_chain hne (by rw [hl, he])]
    exact arraySlice_complete hwf (by rw [he]; exact hi) hpos hnn
  | cref off ext =>
    have he : ext = v.ext := hs.1
    subst he
    rw [cref_chain hne hl, mk'_ok hz, res_ok_bind]
    exact arraySlice_complete (canon_WF hwf fun _ => hz) hi hpos hnn

/-- Composition of slices, dimension by dimension. -/
def composeSlice (p q : Nat × Nat × Nat) : Nat × Nat × Nat := (p.1 + q.1 * p.2.2, q.2.1, p.2.2 * q.2.2)

theorem compose_inside : ∀ {ext : List Nat} {S T : List (Nat × Nat × Nat)},
    Inside ext ((sliceArgs S).map Arg.sel) → (∀ p ∈ S, 0 < p.2.1) →
    Inside (((sliceArgs S).map Arg.sel).map List.length) ((sliceArgs T).map Arg.sel) →
    Inside ext ((sliceArgs (List.zipWith composeSlice S T)).map Arg.sel) ∧
    ∀ j, InB (((sliceArgs T).map Arg.sel).map List.length) j →
      choose ((sliceArgs (List.zipWith composeSlice S T)).map Arg.sel) j
        = choose ((sliceArgs S).map Arg.sel) (choose ((sliceArgs T).map Arg.sel) j)
  | [], [], [], _, _, _ => ⟨trivial, by intro j hj; simp [sliceArgs] at hj; simp [hj, sliceArgs, choose]⟩
  | e :: es, p :: S, q :: T, hS, hp, hT => by
    have ih := compose_inside (ext := es) (S := S) (T := T) hS.2 (fun x hx => hp x (by simp [hx])) hT.2
    refine ⟨⟨?_, ih.1⟩, ?_⟩
    · intro i hi
      simp only [Arg.sel, List.mem_map, List.mem_range, composeSlice] at hi
      obtain ⟨k, hk, rfl⟩ := hi
      have h1 : q.1 + k * q.2.2 < p.2.1 := by
        have := hT.1 (q.1 + k * q.2.2) (by simp only [Arg.sel, List.mem_map, List.mem_range]; exact ⟨k, hk, rfl⟩)
        simpa using this
      have h2 := hS.1 (p.1 + (q.1 + k * q.2.2) * p.2.2) (by
        simp only [Arg.sel, List.mem_map, List.mem_range]; exact ⟨_, h1, rfl⟩)
      have : p.1 + (q.1 + k * q.2.2) * p.2.2 = p.1 + q.1 * p.2.2 + k * (p.2.2 * q.2.2) := by
        rw [Nat.add_mul, Nat.mul_assoc k, Nat.mul_comm q.2.2 p.2.2]; omega
      rw [← this]; exact h2
    · intro j hj
      simp only [sliceArgs, List.map_cons] at hj
      obtain ⟨k, ks, rfl, hk, hks⟩ := inB_cons.1 hj
      have hk : k < q.2.1 := by simpa using hk
      have ih2 := ih.2 ks hks
      simp only [sliceArgs, List.map_cons, List.zipWith_cons_cons, choose] at ih2 ⊢
      rw [ih2]
      have h1 : q.1 + k * q.2.2 < p.2.1 := by
        have := hT.1 (q.1 + k * q.2.2) (by simp only [Arg.sel, List.mem_map, List.mem_range]; exact ⟨k, hk, rfl⟩)
        simpa using this
      rw [sel_slice_getD (by simpa [composeSlice] using hk), sel_slice_getD hk, sel_slice_getD h1]
      simp only [composeSlice, List.cons.injEq, and_true]
      rw [Nat.add_mul, Nat.mul_assoc k, Nat.mul_comm q.2.2 p.2.2]; omega
  | [], _ :: _, _, h, _, _ => h.elim
  | _ :: _, [], _, h, _, _ => h.elim
  | [], [], _ :: _, _, _, h => h.elim
  | _ :: _, _ :: _, [], _, _, h => h.elim

theorem compose_ext : ∀ {S T : List (Nat × Nat × Nat)}, S.length = T.length →
    ((sliceArgs (List.zipWith composeSlice S T)).map Arg.sel).map List.length
      = ((sliceArgs T).map Arg.sel).map List.length
  | [], [], _ => rfl
  | p :: S, q :: T, h => by
    have := compose_ext (S := S) (T := T) (by simpa using h)
    simp only [sliceArgs, List.map_cons, List.zipWith_cons_cons, sel_slice_length] at this ⊢
    rw [this]; rfl
  | [], _ :: _, h => by simp at h
  | _ :: _, [], h => by simp at h

theorem zero_empty_sel {ext : List Nat} {S : List (Nat × Nat × Nat)}
    (hS : Inside ext ((sliceArgs S).map Arg.sel)) (hp : ∀ p ∈ S, 0 < p.2.1) : ∀ x ∈ ext, x ≠ 0 := by
  induction ext generalizing S with
  | nil => simp
  | cons e es ih =>
    cases S with
    | nil => exact hS.elim
    | cons p S =>
      intro x hx
      rcases List.mem_cons.1 hx with rfl | hx
      · have := hS.1 (p.1 + 0 * p.2.2) (by
          simp only [Arg.sel, List.mem_map, List.mem_range]; exact ⟨0, hp p (by simp), rfl⟩)
        omega
      · exact ih hS.2 (fun q hq => hp q (by simp [hq])) x hx

/-- What a complete accepted chain of strided slices tells us. -/
theorem chain_facts {o : Obj} {v : AView} (hwf : o.WF) (hs : SameObj o.abs (.view v))
    {sl : List (Nat × Nat × Nat)} (hne : sl ≠ []) (hl : sl.length = v.ext.length) {o' : Obj}
    (h : o.run Arith.exact true (sliceChain sl) = .ok o') :
    o'.WF ∧ SameObj o'.abs (.view (restrict v ((sliceArgs sl).map Arg.sel))) ∧
      Inside v.ext ((sliceArgs sl).map Arg.sel) ∧ (∀ p ∈ sl, 0 < p.2.1 ∧ 0 < p.2.2) := by
  have hp := view_chain hwf hs hne hl h
  obtain ⟨w, s, a⟩ := run_refines hwf h
  have := foldl_astep_congr hs a
  rw [slices_meaning hne hl] at this
  refine ⟨w, s.trans this.1, ?_, hp⟩
  -- the selections are inside: from the single call of `array_slice`
  cases o with
  | elem p =>
    have : v.ext = [] := hs.1.symm
    rw [this] at hl
    exact absurd (List.length_eq_zero_iff.1 hl) hne
  | proxy off m args => exact hs.elim
  | everyProxy off ext M => exact hs.elim
  | sref off m =>
    have he := hs.1
    rw [Mapper.aview_ext] at he
    rw [sref_chain hne (by rw [hl, he])] at h
    have := (arraySlice_sound hwf h).inside
    rw [he] at this; exact this
  | cref off ext =>
    have he : ext = v.ext := hs.1
    subst he
    rw [cref_chain hne hl] at h
    obtain ⟨d, hd, h⟩ := res_bind_ok.1 h
    obtain ⟨rfl, hz⟩ := mk'_exact.1 hd
    exact (arraySlice_sound (m := .ident (canon 0 v.ext)) (canon_WF hwf (hz rfl)) h).inside

end Jules

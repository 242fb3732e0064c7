import Verif.Lemmas.Borrow
/-
C57: views selected by lists of indices, and changes of those lists.

`BObj.run A chk b h` applies the index expressions `h` one after the other; each comes with the state of the memory in which lists of
indices live. `Follows e h p n` (Spec/Borrow.lean) says that `h` selects from (a contiguous part of) a one-dimensional array by the list in
the `n` cells from `p`, and does nothing after that but `every`.
-/
namespace Jules.Props
open Spec

/-- **C57 (partial: all views but one kind).** Unless the history is of the kind `Follows` (order one, last selection by a list in memory),
the object it gives does not depend on the list of indices afterwards: whatever happens to it, the view selects what it selected. In
particular this covers every array of order two or more. -/
theorem C57_snapshot_partial {A : Arith} {chk : Bool} {e : List Nat} {h : List (Mem Nat × BIx)} {b : BObj}
    (hr : (BObj.obj (.cref 0 e)).run A chk h = .ok b) (hn : ∀ p n, ¬ Follows e h p n) : Independent A chk b := by
  cases b with
  | borrowed off p n => exact (hn p n ((borrows_iff hr p n).1 ⟨off, rfl⟩)).elim
  | obj o =>
    intro μ₁ μ₂
    exact ⟨rfl, fun i => by simp [BObj.index, BIx.now]⟩

/-- Arrays of order two or more are covered. -/
theorem C57_higher_order {e : List Nat} (he : e.length ≠ 1) (h : List (Mem Nat × BIx)) (p n : Nat) : ¬ Follows e h p n :=
  fun hf => he hf.1

/-- **C57 is false for the remaining kind of views.** The view selects what the list says *now*, for whatever the list says: element `k` is
at `off + l[k]` where `l` is the present content, without any check against the array; and if the list does not exist any more, iterating is
undefined behaviour. -/
theorem C57_follows {chk : Bool} {e : List Nat} {h : List (Mem Nat × BIx)} {b : BObj} {p n : Nat}
    (hr : (BObj.obj (.cref 0 e)).run Arith.exact chk h = .ok b) (hf : Follows e h p n) :
    ∃ off, ∀ μ : Mem Nat,
      (∀ l, Holds μ p n l → b.positions Arith.exact μ = .ok (l.map (off + ·)) ∧
        ∀ (k x : Nat), l[k]? = some x → b.index Arith.exact chk μ (.ix (.at k)) = .ok (.obj (.elem (off + x)))) ∧
      (Gone μ p n → b.positions Arith.exact μ = .error .ub) := by
  obtain ⟨off, rfl⟩ := (borrows_iff hr p n).2 hf
  refine ⟨off, fun μ => ⟨fun l hl => ⟨by simp [BObj.positions, readIdx_ok hl], fun k x hx => ?_⟩, fun hg => by simp [BObj.positions, readIdx_gone hg]⟩⟩
  have hk : k < l.length := (List.getElem?_eq_some_iff.1 hx).1
  have hk' : k < n := by rw [← hl.1]; exact hk
  have hpos : (borrowedDesc n).pos Arith.exact [k] = k := by simp [borrowedDesc, SDesc.pos, dot]
  show (borrowedIndex Arith.exact chk μ off p n (.at k)) = _
  simp only [borrowedIndex, hpos, bmap, hk', decide_true, dbg_any_true, res_ok_bind, if_true, Mem.read, hl.2 k hk', hx]
  rfl

/-- **C57, consequence.** Each such view of at least one element, accepted by all checks, can be made to leave the array - any bound `B` -
by an assignment to one element of the list of indices. No later access through the view is checked against the array. -/
theorem C57_outside {chk : Bool} {e : List Nat} {h : List (Mem Nat × BIx)} {b : BObj} {p n : Nat}
    (hr : (BObj.obj (.cref 0 e)).run Arith.exact chk h = .ok b) (hf : Follows e h p n) (hn : n ≠ 0) {μ : Mem Nat} {l : List Nat}
    (hl : Holds μ p n l) (B : Nat) :
    ∃ ps q, b.positions Arith.exact (μ.set p B) = .ok ps ∧ q ∈ ps ∧ B ≤ q ∧
      b.index Arith.exact chk (μ.set p B) (.ix (.at 0)) = .ok (.obj (.elem q)) := by
  obtain ⟨off, hoff⟩ := C57_follows hr hf
  have hl' : Holds (μ.set p B) p n (l.set 0 B) := by
    refine ⟨by simpa using hl.1, fun k hk => ?_⟩
    cases k with
    | zero =>
      have : 0 < l.length := by rw [hl.1]; exact hk
      simp [Mem.set, List.getElem?_set, this]
    | succ k => simp [Mem.set, hl.2 (k + 1) hk]
  have h0 : (l.set 0 B)[0]? = some B := by
    have : 0 < l.length := by rw [hl.1]; omega
    simp [List.getElem?_set, this]
  obtain ⟨h1, h2⟩ := (hoff _).1 _ hl'
  exact ⟨_, off + B, h1, List.mem_map.2 ⟨B, List.mem_of_getElem? h0, rfl⟩, by omega, h2 0 B h0⟩

theorem mapM_now {μ : Mem Nat} : ∀ {h : List (Mem Nat × BIx)} {is : List Ix}, List.Forall₂ (fun s i => Now μ s.2 i) h is →
    h.mapM (fun s => s.2.now μ) = .ok is
  | [], _, .nil => rfl
  | s :: h, i :: is, .cons h1 h2 => by
    have e1 : s.2.now μ = .ok i := by
      generalize s.2 = x at h1
      cases h1 with
      | ix => rfl
      | ptr hh => simp [BIx.now, readIdx_ok hh]
    simp [List.mapM_cons, e1, mapM_now h2]

/-- **C57.** As long as the lists stay as they are, the library behaves as if they had been copied: a history has the outcome of the
history with the contents of the lists (the subject of the other properties), and iterating the result visits the same positions.
(All orders; checked and unchecked builds, both arithmetics.) -/
theorem C57_unmodified {A : Arith} {chk : Bool} {μ : Mem Nat} {e : List Nat} {h : List (Mem Nat × BIx)} {is : List Ix}
    (hμ : ∀ s ∈ h, s.1 = μ) (hi : List.Forall₂ (fun s i => Now μ s.2 i) h is) :
    (∀ f, (BObj.obj (.cref 0 e)).run A chk h = .error f ↔ (Obj.cref 0 e).run A chk is = .error f) ∧
    ∀ o, (Obj.cref 0 e).run A chk is = .ok o →
      ∃ b, (BObj.obj (.cref 0 e)).run A chk h = .ok b ∧ b.positions A μ = o.positions A := by
  rcases brun_sim (A := A) (chk := chk) (b := .obj (.cref 0 e)) .obj hμ (mapM_now hi) with ⟨f, h1, h2⟩ | ⟨b, o, h1, h2, h3⟩
  · rw [h1, h2]; simp
  · rw [h1, h2]
    refine ⟨by simp, ?_⟩
    intro o' ho; cases ho
    exact ⟨b, rfl, bsim_positions h3⟩

/-! ### Assignment through such a view -/

theorem fill_loop {A : Arith} {x off p : Nat} : ∀ (l : List Nat) (s k0 : Nat) (m : Mem Nat),
    (∀ k, k < l.length → m (p + (s + k)) = l[k]?) →
    (∀ k, k < l.length → ∀ v ∈ l, p + (s + k) ≠ A.add off v) →
    (List.range' s l.length).foldlM (fun m k => do let q ← m.read (p + k); m.write (A.add off q) x) m =
      updLoop (fun _ _ _ => .ok x) k0 (l.map (A.add off ·)) m
  | [], s, k0, m, _, _ => rfl
  | v :: l, s, k0, m, hm, hd => by
    have h0 : m (p + s) = some v := by simpa using hm 0 (by simp)
    simp only [List.length_cons, List.range'_succ, List.foldlM_cons, List.map_cons, updLoop, Mem.read, h0, res_ok_bind]
    unfold Mem.write
    cases hw : m (A.add off v) with
    | none => rfl
    | some y =>
      simp only [res_ok_bind]
      refine fill_loop l (s + 1) (k0 + 1) _ ?_ ?_
      · intro k hk
        have h1 := hm (k + 1) (by simp [hk])
        have h2 := hd (k + 1) (by simp [hk]) v (by simp)
        have e1 : p + (s + 1 + k) = p + (s + (k + 1)) := by omega
        rw [e1]
        simp only [Mem.set, if_neg h2, h1]
        simp
      · intro k hk w hw'
        have := hd (k + 1) (by simp [hk]) w (by simp [hw'])
        have e1 : p + (s + 1 + k) = p + (s + (k + 1)) := by omega
        rw [e1]; exact this

/-- **C57.** Assigning a scalar through such a view, when the list of indices is not among the assigned elements, is assigning through
the view that owns the list. -/
theorem C57_fill {A : Arith} {off p n x : Nat} {m : Mem Nat} {l : List Nat} (hl : Holds m p n l)
    (hd : ∀ k, k < n → ∀ v ∈ l, p + k ≠ A.add off v) :
    (BObj.borrowed off p n).fill A x m = fillView A (.sref off (.vec (borrowedDesc n) l)) (.val x) m := by
  have := fill_loop (A := A) (x := x) (off := off) (p := p) l 0 0 m (by intro k hk; rw [Nat.zero_add]; exact hl.2 k (by rw [← hl.1]; exact hk))
    (by intro k hk v hv; rw [Nat.zero_add]; exact hd k (by rw [← hl.1]; exact hk) v hv)
  simp only [BObj.fill, fillView, Obj.positions, res_ok_bind, List.range_eq_range', ← hl.1]
  exact this

/-- **C57, aliasing.** A vector of indices used to index itself, `a[a] = x` with `a = (1, 0)`: the checks accept it, the first assignment
changes the list, and for every `x ≥ 2` the second goes outside the vector. -/
theorem C57_self_index (x : Nat) (hx : 2 ≤ x) :
    ∃ b, (BObj.obj (.cref 0 [2])).run Arith.exact true [(fun q => [1, 0][q]?, .ptr 0 2)] = .ok b ∧
      b.fill Arith.exact x (fun q => [1, 0][q]?) = .error .ub := by
  refine ⟨.borrowed 0 0 2, by decide +kernel, ?_⟩
  have h1 : ([1, 0] : List Nat)[x]? = none := List.getElem?_eq_none (by simpa using hx)
  have h2 : x ≠ 1 := by omega
  simp [BObj.fill, List.range_succ, Mem.read, Mem.write, Mem.set, h2, h1]

/-! ### Concrete cases: a vector of 4 elements; the list (3, 1) in the cells 10 and 11 -/

/-- The list (3, 1). -/
def list31 : Mem Nat := fun q => if q = 10 then some 3 else if q = 11 then some 1 else none
/-- After `idx[0] = 2`, after `idx[0] = 7`, and after its destruction. -/
def list21 : Mem Nat := list31.set 10 2
def list71 : Mem Nat := list31.set 10 7
def listGone : Mem Nat := fun _ => none

/-- `a[slice(0, 4)][idx][every]`. -/
def c57History : List (Mem Nat × BIx) := [(list31, .ix (.slice 0 4)), (list31, .ptr 10 2), (list31, .ix .every)]

theorem c57History_follows : Follows [4] c57History 10 2 :=
  ⟨rfl, [(list31, .ix (.slice 0 4))], list31, [(list31, .ix .every)], rfl, by simp [Contiguous], by simp⟩

example : Holds list31 10 2 [3, 1] := ⟨rfl, fun k hk => by
  match k, hk with
  | 0, _ => rfl
  | 1, _ => rfl⟩

example : (BObj.obj (.cref 0 [4])).run Arith.exact true c57History = .ok (.borrowed 0 10 2) := by decide +kernel
example : (BObj.borrowed 0 10 2).positions Arith.exact list31 = .ok [3, 1] := by decide +kernel
example : (BObj.borrowed 0 10 2).positions Arith.exact list21 = .ok [2, 1] := by decide +kernel
example : (BObj.borrowed 0 10 2).positions Arith.exact list71 = .ok [7, 1] := by decide +kernel
example : (BObj.borrowed 0 10 2).positions Arith.exact listGone = .error .ub := by decide +kernel
/-- `a[idx][slice(0, 1)]` and `m[idx][every]` own their lists. -/
example : (BObj.obj (.cref 0 [4])).run Arith.exact true [(list31, .ptr 10 2), (list21, .ix (.slice 0 1))] =
    .ok (.obj (.sref 0 (.vec ⟨0, [1], [1]⟩ [2]))) := by decide +kernel
example : (BObj.obj (.cref 0 [4, 2])).run Arith.exact true [(list31, .ptr 10 2), (list31, .ix .every)] =
    .ok (.obj (.sref 0 (.vec ⟨0, [2, 2], [1, 2]⟩ [3, 1, 7, 5]))) := by decide +kernel
/-- The check when the view is made. -/
example : (BObj.obj (.cref 0 [3])).run Arith.exact true [(list31, .ptr 10 2)] = .error .assert := by decide +kernel

theorem list31_holds : Holds list31 10 2 [3, 1] := ⟨rfl, fun k hk => by
  match k, hk with
  | 0, _ => rfl
  | 1, _ => rfl⟩

-- The hypotheses of the theorems.
example := C57_snapshot_partial (A := Arith.exact) (chk := true) (e := [4]) (h := [(list31, .ptr 10 2), (list21, .ix (.slice 0 1))]) rfl
  (by
    rintro p n ⟨_, pre, μ, post, h, _, hp⟩
    match pre, h with
    | [], h => cases h; exact absurd (hp _ (.head _)) (by simp)
    | [_], h => cases h
    | _ :: _ :: _, h => simp at h)
example := C57_higher_order (e := [4, 2]) (by decide) c57History 10 2
example := C57_follows (chk := true) (e := [4]) (h := c57History) rfl c57History_follows
example := C57_outside (chk := true) (e := [4]) (h := c57History) rfl c57History_follows (by decide) list31_holds 100
example := C57_unmodified (A := Arith.exact) (chk := true) (μ := list31) (e := [4]) (h := c57History) (is := [.slice 0 4, .rng [3, 1], .every])
  (by simp [c57History]) (.cons (.ix _) (.cons (.ptr list31_holds) (.cons (.ix _) .nil)))
example := C57_fill (A := Arith.exact) (off := 0) (p := 10) (n := 2) (x := 7) list31_holds (by decide)
example := C57_self_index 5 (by decide)

end Jules.Props

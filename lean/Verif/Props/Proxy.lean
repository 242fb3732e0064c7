import Verif.Lemmas.Proxy
/-
C56: the objects that exist between two applications of `operator[]`.

`HObj.run pl A chk o h` is a chain of index expressions as a program writes it; `pl` says whether function
parameters live until the end of the full expression (the implementation decides), `ends` where full
expressions end, `tmp` which ranges are temporaries. `Obj.run` is the chain with every argument kept by
value, to which the other properties refer.
-/
namespace Jules.Props
open Jules Spec

/-- **C56.** If parameters live until the end of the full expression, a chain inside one full expression
gives exactly the object or failure the other properties speak about (for every order, and for checked
and unchecked builds). -/
theorem C56_one_expression {A : Arith} {chk : Bool} {e : List Nat} {h : List HIx} (he : ∀ x ∈ h, x.ends = false) :
    (∀ o, (∀ off m args, o ≠ .proxy off m args) →
      ((HObj.obj (.cref 0 e)).run true A chk h = .ok (.obj o) ↔ (Obj.cref 0 e).run A chk (h.map (·.ix)) = .ok o)) ∧
    ∀ f, (HObj.obj (.cref 0 e)).run true A chk h = .error f ↔ (Obj.cref 0 e).run A chk (h.map (·.ix)) = .error f := by
  rcases hrun_one (A := A) (chk := chk) (h := .obj (.cref 0 e)) (o := .cref 0 e) (xs := h) (.obj (by simp)) trivial he with
    ⟨f, e1, e2⟩ | ⟨h', o', e1, e2, e3⟩
  · rw [e1, e2]
    simp
  · rw [e1, e2]
    refine ⟨fun o ho => ?_, by simp⟩
    simp only [Except.ok.injEq]
    constructor
    · rintro rfl
      cases e3; rfl
    · rintro rfl
      cases e3 with
      | obj => rfl
      | proxy => exact absurd rfl (ho _ _ _)

/-- **C56 (partial: chains without a position or absolute slice strictly between the first and the last
index expression of a group).** Such a chain, if accepted, gives the same view or element whatever the
implementation does with parameters, and can be cut into full expressions anywhere if its ranges are named. -/
theorem C56_safe_chains_partial {e : List Nat} (he : e ≠ []) {h : List HIx} {o : Obj} (pl : Bool)
    (hs : ChainSafe (.view (arrayView 0 e)) false (h.map (·.ix)))
    (ht : (∀ x ∈ h, x.ends = false) ∨ (∀ x ∈ h, x.tmp = false))
    (hr : (Obj.cref 0 e).run Arith.exact true (h.map (·.ix)) = .ok o) (ho : ∀ off m args, o ≠ .proxy off m args) :
    (HObj.obj (.cref 0 e)).run pl Arith.exact true h = .ok (.obj o) := by
  have key : ∃ h', (HObj.obj (.cref 0 e)).run pl Arith.exact true h = .ok h' ∧ HSim h' o := by
    rcases ht with ht | ht
    · exact hrun_safe (n := true) (h := .obj (.cref 0 e)) (o := .cref 0 e) (.obj (by simp)) trivial he
        (a := .view (arrayView 0 e)) (arrayView_same 0 e) (by simp [Obj.isEvery]) hs (by simp) (fun _ => ht) hr
    · exact hrun_safe (n := false) (h := .obj (.cref 0 e)) (o := .cref 0 e) (.obj (by simp)) trivial he
        (a := .view (arrayView 0 e)) (arrayView_same 0 e) (by simp [Obj.isEvery]) hs (fun x hx hx' => by rw [ht x hx] at hx'; cases hx')
        (by simp) hr
  obtain ⟨h', h1, h2⟩ := key
  rw [h1]
  cases h2 with
  | obj => rfl
  | proxy => exact absurd rfl (ho _ _ _)

/-- The order of the object being indexed. -/
def orderOf : AObj → Nat
  | .view v => v.ext.length
  | .part v _ => v.ext.length

theorem chainSafe_small : ∀ {h : List Ix} {a : AObj} {ev : Bool}, orderOf a ≤ 2 → (∀ v s, a = .part v s → s ≠ []) →
    ChainSafe a ev h
  | [], _, _, _, _ => trivial
  | ix :: h, a, ev, hn, hp => by
    have hclose : ∀ (v : AView) (s : List (List Nat)), v.ext.length ≤ 2 → s ≠ [] →
        orderOf (close v s) ≤ 2 ∧ ∀ w t, close v s = .part w t → t ≠ [] := by
      intro v s hv hs
      unfold close
      split
      · next hl =>
        refine ⟨?_, by simp⟩
        simp only [orderOf, restrict, List.length_map]
        omega
      · refine ⟨hv, ?_⟩
        rintro w t h; cases h; exact hs
    have hstep : orderOf (astep a ix) ≤ 2 ∧ ∀ v s, astep a ix = .part v s → s ≠ [] := by
      cases a with
      | view v =>
        cases ix with
        | «at» i =>
          refine ⟨?_, by simp [astep]⟩
          simp only [orderOf, astep, fixFirst, List.length_tail]
          simp only [orderOf] at hn
          omega
        | _ => exact hclose _ _ hn (by simp)
      | part v s => exact hclose _ _ hn (by simp)
    refine ⟨fun hop => ?_, chainSafe_small hstep.1 hstep.2⟩
    cases a with
    | view v => exact .inl ⟨v, rfl⟩
    | part v s =>
      exfalso
      obtain ⟨w, t, hw, hl⟩ := hop
      have hs := hp v s rfl
      have h1 : s.length ≥ 1 := List.length_pos_of_ne_nil hs
      simp only [astep, close] at hw
      simp only [orderOf] at hn
      split at hw
      · cases hw
      · cases hw
        simp only [List.length_append, List.length_singleton] at hl
        omega

/-- **C56.** For arrays of order one and two every accepted chain is of that kind: the result does not depend
on the lifetime of parameters, and chains with named ranges can be cut anywhere. -/
theorem C56_order_two {e : List Nat} (he : e ≠ []) (h2 : e.length ≤ 2) {h : List HIx} {o : Obj} (pl : Bool)
    (ht : (∀ x ∈ h, x.ends = false) ∨ (∀ x ∈ h, x.tmp = false))
    (hr : (Obj.cref 0 e).run Arith.exact true (h.map (·.ix)) = .ok o) (ho : ∀ off m args, o ≠ .proxy off m args) :
    (HObj.obj (.cref 0 e)).run pl Arith.exact true h = .ok (.obj o) :=
  C56_safe_chains_partial he pl (chainSafe_small (by simpa [orderOf, arrayView] using h2) (by simp)) ht hr ho

/-- **C56 is false in general.** If a chain reaches a view or an element, but on the way a position or an
absolute slice stands strictly between the first and the last index expression of a group while parameters
end with their function (or the full expression ends there), or a full expression ends inside a group after
a temporary range, then completing the group reads an object that does not exist any more - although the
chain is accepted by all checks. -/
theorem C56_dangling {e : List Nat} (he : e ≠ []) {pre post : List HIx} {x : HIx} {o : Obj} {pl : Bool}
    (hr : (Obj.cref 0 e).run Arith.exact true ((pre ++ x :: post).map (·.ix)) = .ok o)
    (ho : ∀ off m args, o ≠ .proxy off m args)
    (hd : LeavesDangling pl (meaning 0 e (pre.map (·.ix))) x) :
    (HObj.obj (.cref 0 e)).run pl Arith.exact true (pre ++ x :: post) = .error .ub := by
  rw [List.map_append, run_append, res_bind_ok] at hr
  obtain ⟨o1, h1, h2⟩ := hr
  obtain ⟨w, s, ad⟩ := run_refines (o := .cref 0 e) he h1
  have hsame : SameObj o1.abs (meaning 0 e (pre.map (·.ix))) :=
    s.trans (foldl_astep_congr (a := (Obj.cref 0 e).abs) (b := .view (arrayView 0 e)) (arrayView_same 0 e) ad).1
  rw [hrun_append]
  rcases hrun_any (pl := pl) (h := .obj (.cref 0 e)) (.obj (by simp)) h1 with h3 | ⟨h', h3, h4⟩
  · rw [h3]; rfl
  · rw [h3, res_ok_bind]
    have fin : ∀ {k : HObj} {xs : List HIx} {q : Obj}, HSim k q → ¬ k.Good pl →
        q.run Arith.exact true (xs.map (·.ix)) = .ok o → k.run pl Arith.exact true xs = .error .ub := by
      intro k xs q hk hg hq
      rcases hrun_bad hk hg hq with hb | ⟨k', _, hk', hg'⟩
      · exact hb
      · cases hk' with
        | obj => exact absurd trivial hg'
        | proxy => exact absurd rfl (ho _ _ _)
    by_cases hg : h'.Good pl
    · simp only [List.map_cons, Obj.run, List.foldlM_cons, res_bind_ok] at h2
      obtain ⟨o2, h5, h6⟩ := h2
      rcases hindex_good (pl := pl) (A := Arith.exact) (chk := true) (ix := x.ix) (tmp := x.tmp) h4 hg with
        ⟨f, _, e2⟩ | ⟨h'', o2', e1, e2, e3⟩
      · rw [e2] at h5; cases h5
      · rw [e2] at h5; cases h5
        have hstep : h'.step pl Arith.exact true x = .ok (if x.ends then h''.endExpr else h'') := by
          simp only [HObj.step, e1, res_ok_bind]
        have hs2 : HSim (if x.ends then h''.endExpr else h'') o2 := by
          split
          · exact hsim_endExpr e3
          · exact e3
        simp only [HObj.run, List.foldlM_cons, hstep, res_ok_bind]
        exact fin hs2 (hindex_dangling h4 w hsame hd hstep e2 hs2) h6
    · exact fin h4 hg h2

/-- `a[slice(0, 2)][1][every]` on a `2 × 2 × 2` array. -/
def c56Chain : List HIx := [⟨.slice 0 2, false, false⟩, ⟨.at 1, false, false⟩, ⟨.every, false, false⟩]

example : (Obj.cref 0 [2, 2, 2]).run Arith.exact true (c56Chain.map (·.ix)) =
    .ok (.sref 0 (.ident ⟨2, [2, 1, 2], [1, 1, 4]⟩)) := by decide +kernel
example : (HObj.obj (.cref 0 [2, 2, 2])).run true Arith.exact true c56Chain =
    .ok (.obj (.sref 0 (.ident ⟨2, [2, 1, 2], [1, 1, 4]⟩))) := by decide +kernel
example : (HObj.obj (.cref 0 [2, 2, 2])).run false Arith.exact true c56Chain = .error .ub := by decide +kernel
example : LeavesDangling false (meaning 0 [2, 2, 2] [.slice 0 2]) ⟨.at 1, false, false⟩ :=
  ⟨⟨_, _, rfl, by simp [arrayView]⟩, .inl ⟨trivial, ⟨_, _, rfl⟩, .inl rfl⟩⟩

/-- A bounded slice in the middle is safe after a slice, but not after `every` on an array. -/
example : (HObj.obj (.cref 0 [2, 2, 2])).run false Arith.exact true
    [⟨.slice 0 2, false, false⟩, ⟨.bounded 0 2, false, true⟩, ⟨.every, false, false⟩] =
    .ok (.obj (.sref 0 (.ident ⟨0, [2, 2, 2], [1, 2, 4]⟩))) := by decide +kernel
example : (HObj.obj (.cref 0 [2, 2, 2])).run false Arith.exact true
    [⟨.every, false, false⟩, ⟨.bounded 0 2, false, false⟩, ⟨.every, false, false⟩] = .error .ub := by decide +kernel

/-- Two dimensions: a proxy kept in a variable, with a named range. -/
example : (HObj.obj (.cref 0 [2, 2])).run false Arith.exact true [⟨.rng [1, 0], false, true⟩, ⟨.at 1, false, false⟩] =
    .ok (.obj (.sref 0 (.vec ⟨0, [2, 1], [1, 2]⟩ [3, 2]))) := by decide +kernel
example : (HObj.obj (.cref 0 [2, 2])).run true Arith.exact true [⟨.rng [1, 0], true, true⟩, ⟨.at 1, false, false⟩] =
    .error .ub := by decide +kernel

/-! ### The hypotheses hold in concrete cases -/

example := C56_one_expression (A := Arith.exact) (chk := true) (e := [2, 2, 2]) (h := c56Chain) (by decide)

/-- `auto x = a[every][1]` with the chain kept in a variable in between. -/
example := C56_safe_chains_partial (e := [2, 2]) (by decide) (h := [⟨.every, false, true⟩, ⟨.at 1, false, false⟩]) false
  ⟨fun _ => .inl ⟨_, rfl⟩, (by rintro ⟨v, s, h, hl⟩; cases h), trivial⟩ (.inr (by decide)) rfl nofun
example := C56_order_two (e := [2, 2]) (by decide) (by decide) (h := [⟨.rng [1, 0], false, true⟩, ⟨.at 1, false, false⟩]) false (.inr (by decide)) rfl nofun

end Jules.Props

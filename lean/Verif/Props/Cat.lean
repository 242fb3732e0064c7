import Verif.Model.Cat
import Verif.Props.Lifetime
/-
C27: cat.
-/
namespace Jules.Props
open Spec

/-! ### C27 -/

/-- The argument `a`, read in heap `h` or in any heap that extends it, is a scalar equal to the one element of `vs`, or a range
with elements `vs`. -/
def ArgIs (h : Heap α) (a : CatArg α) (vs : List α) : Prop :=
  match a with
  | .one v => vs = [v]
  | .rng l => l.length = vs.length ∧ ∀ (k : Nat) (src : HM α α) (v : α), l[k]? = some src → vs[k]? = some v →
      Good h.blocks.length h src v

theorem post_catPush {S : Nat → Bool} {chk : Bool} {id : Nat} {h0 : Heap α} (hid : h0.cells id = none) : ∀ {srcs : List (HM α α)} {ws vs : List α}
    {b : Builder} {h : Heap α}, Building h b vs → b.ptr = some id → Same id h0 h → srcs.length = ws.length →
    (∀ (k : Nat) (src : HM α α) (v : α), srcs[k]? = some src → ws[k]? = some v → Good id h0 src v) →
    vs.length + ws.length ≤ prod b.ext →
    Post (catPush S chk b srcs h)
      (fun b' h' => Building h' b' (vs ++ ws) ∧ b'.ext = b.ext ∧ b'.ptr = some id ∧ Same id h0 h')
      (fun _ h' => Thr S ∧ Untouched h0 h')
  | [], [], vs, b, h, hb, hp, hs, _, _, _ => by
    simp only [catPush]
    exact post_pure ⟨by simpa using hb, rfl, hp, hs⟩
  | src :: srcs, w :: ws, vs, b, h, hb, hp, hs, hl, hg, hroom => by
    simp only [catPush]
    simp only [List.length_cons] at hl hroom
    refine post_bind (R := fun b' h' => Building h' b' (vs ++ [w]) ∧ b'.ext = b.ext ∧ b'.ptr = some id ∧ Same id h0 h') ?_ ?_
    · refine post_cleanup (R := fun _ h' => Thr S ∧ Building h' b vs ∧ Same id h0 h') ?_ ?_
      · refine post_bind (R := fun v h' => v = w ∧ h' = h) ?_ ?_
        · rw [hg 0 src w rfl rfl h hs.cells]; exact ⟨rfl, rfl⟩
        · rintro v h' ⟨hv, hh⟩
          subst hv; subst hh
          rename' v => w, h' => h
          have hp' := C26_push (S := S) (chk := chk) (v := w) hb (by omega)
          have hthr : ∀ e h', builderPush S chk b w h = .exn e h' → Thr S := by
            intro e h' he
            by_contra hno
            have hS : ∀ t, S t = false := fun t => by
              cases ht : S t with
              | false => rfl
              | true => exact (hno ⟨t, ht⟩).elim
            obtain ⟨b', h'', n, a1, a2, _, _, _, _, a3⟩ := C26_push_all (S := S) (chk := chk) (ws := [w]) hb (by simp; omega)
            have hn := a3 hS
            subst hn
            simp only [builderPushAll, he, Out.ok.injEq] at a1
            obtain ⟨rfl, rfl⟩ := a1
            have := a2.1
            rw [hb.1] at this
            simp at this
          cases hr : builderPush S chk b w h with
          | ok b' h' =>
            rw [hr] at hp'
            obtain ⟨p1, p2, p3, p4, p5⟩ := hp'
            refine ⟨p3, p1, p2.trans hp, ?_, p4.trans hs.lost⟩
            intro j hj
            rw [p5 j (by rw [hp]; rintro h; exact hj (Option.some.inj h).symm), hs.cells j hj]
          | exn e h' =>
            rw [hr] at hp'
            obtain ⟨p1, p2, p3⟩ := hp'
            refine ⟨hthr e h' hr, p1, ?_, p2.trans hs.lost⟩
            intro j hj
            rw [p3 j (by rw [hp]; rintro h; exact hj (Option.some.inj h).symm), hs.cells j hj]
          | fail f => rw [hr] at hp'; exact hp'.elim
      · rintro e h' ⟨ht, hb', hs'⟩
        refine (C26_destroy hb').mono ?_ (fun _ _ h => h)
        rintro _ h'' ⟨d1, d2, d3⟩
        refine ⟨ht, ?_, d3.trans hs'.lost⟩
        intro j
        by_cases hj : j = id
        · subst hj; rw [d1 _ hp, hid]
        · rw [d2 j (by rw [hp]; intro h; exact hj (Option.some.inj h).symm), hs'.cells j hj]
    · rintro b' h' ⟨q1, q2, q3, q4⟩
      refine (post_catPush hid q1 q3 q4 (by simpa using hl)
        (fun k src v h1 h2 => hg (k + 1) src v (by simpa using h1) (by simpa using h2)) (by rw [q2]; simp; omega)).mono ?_ (fun _ _ h => h)
      rintro b2 h2 ⟨r1, r2, r3, r4⟩
      exact ⟨by simpa using r1, r2.trans q2, r3, r4⟩
  | [], _ :: _, _, _, _, _, _, _, hl, _, _ => by simp at hl
  | _ :: _, [], _, _, _, _, _, _, hl, _, _ => by simp at hl

theorem catSize_eq {h : Heap α} {a : CatArg α} {vs : List α} (ha : ArgIs h a vs) : catSize a = vs.length := by
  cases a with
  | one v => cases ha; rfl
  | rng l => exact ha.1

theorem catElems_good {h : Heap α} {a : CatArg α} {vs : List α} (ha : ArgIs h a vs) : (catElems a).length = vs.length ∧
    ∀ (k : Nat) (src : HM α α) (v : α), (catElems a)[k]? = some src → vs[k]? = some v → Good h.blocks.length h src v := by
  cases a with
  | one v =>
    cases ha
    refine ⟨rfl, ?_⟩
    intro k src w h1 h2
    cases k with
    | zero =>
      simp [catElems] at h1 h2; subst h1; subst h2; exact good_pure _
    | succ k => simp at h2
  | rng l => exact ha

theorem post_catPushArgs {S : Nat → Bool} {chk : Bool} {h0 : Heap α} : ∀ {args : List (CatArg α)} {wss : List (List α)} {vs : List α}
    {b : Builder} {h : Heap α}, Building h b vs → b.ptr = some h0.blocks.length → Same h0.blocks.length h0 h →
    List.Forall₂ (ArgIs h0) args wss → vs.length + wss.flatten.length ≤ prod b.ext →
    Post (catPushArgs S chk b args h)
      (fun b' h' => Building h' b' (vs ++ wss.flatten) ∧ b'.ext = b.ext ∧ b'.ptr = some h0.blocks.length ∧ Same h0.blocks.length h0 h')
      (fun _ h' => Thr S ∧ Untouched h0 h')
  | _, _, vs, b, h, hb, hp, hs, .nil, _ => by
    simp only [catPushArgs]
    exact post_pure ⟨by simpa using hb, rfl, hp, hs⟩
  | _, _, vs, b, h, hb, hp, hs, .cons (a := a) (b := ws) (l₁ := args) (l₂ := wss) ha has, hroom => by
    simp only [catPushArgs]
    simp only [List.flatten_cons, List.length_append] at hroom
    obtain ⟨g1, g2⟩ := catElems_good ha
    refine post_bind (post_catPush (cells_fresh h0) hb hp hs g1 g2 (by omega)) ?_
    rintro b' h' ⟨r1, r2, r3, r4⟩
    refine (post_catPushArgs r1 r3 r4 has (by rw [r2, List.length_append]; omega)).mono ?_ (fun _ _ h => h)
    rintro b2 h2 ⟨s1, s2, s3, s4⟩
    exact ⟨by simpa using s1, s2.trans r2, s3, s4⟩

theorem foldl_catSize {h : Heap α} : ∀ {args : List (CatArg α)} {wss : List (List α)} (n : Nat), List.Forall₂ (ArgIs h) args wss →
    args.foldl (fun n a => n + catSize a) n = n + wss.flatten.length
  | _, _, n, .nil => by simp
  | _, _, n, .cons (a := a) (b := ws) (l₁ := args) (l₂ := wss) ha has => by
    simp only [List.foldl_cons, List.flatten_cons, List.length_append]
    rw [foldl_catSize _ has, catSize_eq ha]; omega

/-- **C27.** `cat(x₁, …, xₙ)`, where argument `xᵢ` is a scalar or a range with elements `wss[i]` (in the memory at the time of the
call): unless an allocation or an element copy throws, the result is a new vector whose length is the sum of the lengths and whose
elements are all the elements in order; nothing else in memory changes. If something throws, everything is as before and nothing
is leaked. No assertion fails and nothing undefined happens. -/
theorem C27_cat {S : Nat → Bool} {chk : Bool} {args : List (CatArg α)} {wss : List (List α)} {h : Heap α}
    (ha : List.Forall₂ (ArgIs h) args wss) :
    Post (catArr S chk args h)
      (fun o h' => Holds h' o [(wss.map List.length).sum] wss.flatten ∧ h'.lost = h.lost ∧
        ∀ j, j ≠ h.blocks.length → h'.cells j = h.cells j)
      (fun _ h' => Thr S ∧ Untouched h h') := by
  unfold catArr
  have hsz : args.foldl (fun n a => n + catSize a) 0 = wss.flatten.length := by rw [foldl_catSize 0 ha]; simp
  rw [hsz]
  refine post_bind (R := fun b h' => b.ext = [wss.flatten.length] ∧ Building h' b [] ∧ b.ptr = some h.blocks.length ∧ Same h.blocks.length h h') ?_ ?_
  · unfold builderNew
    refine post_bind (post_allocate.mono (fun _ _ h => h) fun e h' ⟨_, t, a, b⟩ => ⟨t, a, b⟩) ?_
    rintro id h1 ⟨rfl, h1c, h1s⟩
    exact post_pure ⟨rfl, ⟨rfl, Nat.zero_le _, _, rfl, by simpa [prodL_exact] using h1c⟩, rfl, h1s⟩
  · rintro b h1 ⟨e1, e2, e3, e4⟩
    refine post_bind (post_catPushArgs e2 e3 e4 ha (by rw [e1]; simp [prod])) ?_
    rintro b' h2 ⟨f1, f2, f3, f4⟩
    have hext : b'.ext = [wss.flatten.length] := f2.trans e1
    obtain ⟨o, r1, r2, r3⟩ := (C26_release (chk := chk) f1 (by rw [hext]; simp)).1 (by rw [hext]; simp [prod])
    rw [r1]
    refine ⟨?_, f4.lost, f4.cells⟩
    rw [hext] at r2
    simpa [List.length_flatten] using r2

/-- `cat(1, {2, 3}, 4)` on an empty heap. -/
example : (match catArr (fun _ => false) true [.one 1, .rng [pure 2, pure 3], .one 4] (⟨[], 0, 0⟩ : Heap Nat) with
    | .ok o h => some (o, h.blocks)
    | _ => none) = some (⟨some 0, [4]⟩, [some [some 1, some 2, some 3, some 4]]) := by decide +kernel
/-- When the third copy throws, the memory is given back. -/
example : (match catArr (fun t => t == 3) true [.one 1, .rng [pure 2, pure 3], .one 4] (⟨[], 0, 0⟩ : Heap Nat) with
    | .exn .user h => some (h.blocks, h.lost)
    | _ => none) = some ([none], 0) := by decide +kernel
/-- A vector living in the heap is a range argument with its elements. -/
example {h : Heap α} {id : Nat} {vs : List α} (hc : h.cells id = some (vs.map some)) :
    ArgIs h (.rng ((List.range vs.length).map (readAt id))) vs := by
  refine ⟨by simp, ?_⟩
  intro k src v h1 h2
  have hk : k < vs.length := (List.getElem?_eq_some_iff.1 h2).1
  simp [hk] at h1
  subst h1
  have hid : id ≠ h.blocks.length := Nat.ne_of_lt (cells_lt hc)
  intro h' hh
  simp [readAt, hh id hid, hc, h2]

end Jules.Props

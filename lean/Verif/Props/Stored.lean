import Verif.Lemmas.Stored
import Verif.Props.Assign
/-
C58: lazy expressions that are kept and used later.

`e.src A chk` creates the expression objects of `e`. `newFromStored A σ src m fresh` and `assignStored A chk σ dest src m` use the outermost
one later: when the memory is `m` and the objects alive are those of `σ`. `refersTo e` (Spec/Stored.lean) lists the objects the
expression refers to.
-/
namespace Jules.Props
open Spec

/-- **C58 (partial: while everything it refers to is alive).** An expression can be kept: whenever it is used, while the objects it refers to are alive, an
array constructed from it has the operators applied to the elements the operands have *then*. -/
theorem C58_usable_partial {e : SEx α} {s : Ex AView α} (he : Denotes e.erase s) {d : List Nat} (hd0 : d ≠ []) (hd : ∀ x ∈ exts s, x = d)
    (chk : Bool) : ∃ src, e.src Arith.exact chk = .ok src ∧
      ∀ (σ : Store α) (m : Mem α) (fresh : Nat), Usable σ e → (∀ i, InB d i → valAt m s i ≠ none) →
        (∀ k, k < prod d → m (fresh + k) = none) →
        ∃ m' a, newFromStored Arith.exact σ src m fresh = .ok (m', a) ∧ a.ext = d ∧
          (∀ i, InB d i → Reads m' (.cref a.base a.ext) i (valAt m s i)) ∧
          (∀ q, ¬ Covers (arrayView a.base a.ext) q → m' q = m q) ∧ ∀ q, Covers (arrayView a.base a.ext) q → m q = none := by
  obtain ⟨src, h1, h2, h3, _⟩ := src_ok (chk := chk) he hd
  obtain ⟨x, hx, hy⟩ := build_ok (chk := chk) he hd
  refine ⟨src, h1, fun σ m fresh hu hval hf => ?_⟩
  obtain ⟨m', a, g1, g2, g3, g4⟩ := C20_elementwise he hd0 hd hval hf chk
  refine ⟨m', a, ?_, g2, g3, g4⟩
  rw [← g1, hx, res_ok_bind]
  simp only [newFromStored, newArray, h2, hy.dims, prodL_exact, copyN_yields (h3 σ hu) hy m]

/-- **C58.** Using the expression later, while what it refers to is alive, is the same as writing it there: constructing an array, and
assigning to a view of the same extents (for all outcomes, also when operands have lost elements). In particular this is what happens
within one statement, where all temporaries are alive. -/
theorem C58_same_as_immediate {e : SEx α} {s : Ex AView α} (he : Denotes e.erase s) {d : List Nat} (hd : ∀ x ∈ exts s, x = d) (chk : Bool) :
    ∃ src, e.src Arith.exact chk = .ok src ∧ ∀ (σ : Store α) (m : Mem α), Usable σ e →
      (∀ fresh, newFromStored Arith.exact σ src m fresh = (e.erase.build Arith.exact chk >>= fun x => newArray Arith.exact x m fresh)) ∧
      ∀ (dest : Obj) (v : AView), Observes dest v → v.ext = d → d ≠ [] →
        assignStored Arith.exact chk σ dest src m = assignView Arith.exact chk dest e.erase m := by
  obtain ⟨src, h1, h2, h3, _⟩ := src_ok (chk := chk) he hd
  obtain ⟨x, hx, hy⟩ := build_ok (chk := chk) he hd
  refine ⟨src, h1, fun σ m hu => ⟨fun fresh => ?_, fun dest v ho hv hne => ?_⟩⟩
  · rw [hx, res_ok_bind]
    simp only [newFromStored, newArray, h2, hy.dims, prodL_exact, copyN_yields (h3 σ hu) hy m]
  · have hlen : v.enum.length = (multiIdx d).length := by rw [enum_length, hv, multiIdx_length]
    obtain ⟨it', g1, g2⟩ := assignLoop_runs (h3 σ hu) (fun k _ m => match (multiIdx d)[k]? with
        | some i => toRes (valAt m s i)
        | none => .error .ub) v.enum 0 m (by rw [hlen]; simp [valueFns]) (by
      intro j p c m hc
      simp only [valueFns, List.getElem?_map, Option.map_eq_some_iff] at hc
      obtain ⟨i, hi, rfl⟩ := hc
      simp only [Nat.zero_add, hi])
    have hcongr : updLoop (fun k _ m => x.it.deref m k) 0 v.enum m = updLoop (fun k _ m => match (multiIdx d)[k]? with
        | some i => toRes (valAt m s i)
        | none => .error .ub) 0 v.enum m := by
      apply updLoop_congr
      intro j p hj m
      have hlt : j < (multiIdx d).length := by rw [← hlen]; exact (List.getElem?_eq_some_iff.1 hj).1
      have hi := List.getElem?_eq_getElem hlt
      simp only [Nat.zero_add, hi]
      exact hy.deref m j _ hi
    have hc : x.it.count = some (prod d) := hy.count
    have hdims := observes_dims ho (by rw [hv]; exact hne)
    simp only [assignView, hx, res_ok_bind, assignStored, arrayAssign, hdims, h2, hy.dims, ho.iterate, g2, hcongr, hv, hc,
      enum_length]
    cases updLoop (fun k _ m => match (multiIdx d)[k]? with
        | some i => toRes (valAt m s i)
        | none => .error .ub) 0 v.enum m with
    | error => simp
    | ok m' => simp [g1]

/-- **C58.** Assigning a kept expression to a view with other extents (of the same order) is reported in a checked build, whatever has become of the
objects it refers to, and nothing is assigned. -/
theorem C58_mismatch {e : SEx α} {s : Ex AView α} (he : Denotes e.erase s) {d : List Nat} (hd : ∀ x ∈ exts s, x = d) :
    ∃ src, e.src Arith.exact true = .ok src ∧ ∀ (σ : Store α) (m : Mem α) (dest : Obj) (v : AView), Observes dest v → v.ext ≠ [] → v.ext.length = d.length →
      v.ext ≠ d → assignStored Arith.exact true σ dest src m = .error .assert := by
  obtain ⟨src, h1, h2, _⟩ := src_ok (chk := true) he hd
  refine ⟨src, h1, fun σ m dest v ho hne hl hv => ?_⟩
  have hdims := observes_dims ho hne
  have hb : (d == v.ext) = false := beq_eq_false_iff_ne.2 (Ne.symm hv)
  simp [assignStored, hdims, h2, hl.symm, hb, dbg]

/-- **C58 is false in general.** When an object the expression refers to has been destroyed, every use of the expression (with at least one
element) is undefined behaviour. -/
theorem C58_dangling {e : SEx α} {s : Ex AView α} (he : Denotes e.erase s) {d : List Nat} (hd : ∀ x ∈ exts s, x = d) (hne : prod d ≠ 0)
    (chk : Bool) : ∃ src, e.src Arith.exact chk = .ok src ∧ ∀ σ : Store α, Dangling σ e → ∀ m : Mem α,
      (∀ fresh, newFromStored Arith.exact σ src m fresh = .error .ub) ∧
      ∀ (dest : Obj) (v : AView), Observes dest v → v.ext = d → d ≠ [] → assignStored Arith.exact chk σ dest src m = .error .ub := by
  obtain ⟨src, h1, h2, _, h4, h5⟩ := src_ok (chk := chk) he hd
  refine ⟨src, h1, fun σ hg m => ⟨fun fresh => ?_, fun dest v ho hv hd0 => ?_⟩⟩
  · simp [newFromStored, h2, prodL_exact, copyN_dangling (h4 σ hg.1 m) hne]
  · have hdims := observes_dims ho (by rw [hv]; exact hd0)
    have hm0 : multiIdx d ≠ [] := by
      intro h
      apply hne
      rw [← multiIdx_length, h]; rfl
    have hloop : assignLoop Arith.exact σ v.enum src.first m = .error .ub := by
      cases hen : v.enum with
      | nil =>
        have := enum_length v
        rw [hen, hv] at this
        exact (hne this.symm).elim
      | cons p ps =>
        rcases h5 σ hg.2 hm0 with h | ⟨it', h⟩
        · simp [assignLoop, h]
        · simp [assignLoop, h, h4 σ hg.1 m]
    simp [assignStored, hdims, h2, hv, ho.iterate, hloop]

theorem operations_sub : ∀ (e : SEx α) (i : Nat), i ∈ operations e → ∃ x ∈ refersTo e, x.1 = i
  | .un obj f e, i, h => by
    rcases List.mem_cons.1 h with rfl | h
    · exact ⟨_, by simp [refersTo]; exact .inl rfl, rfl⟩
    · obtain ⟨x, hx, hi⟩ := operations_sub e i h
      exact ⟨x, by simp [refersTo, hx], hi⟩
  | .bin obj f a b, i, h => by
    rcases List.mem_cons.1 h with rfl | h
    · exact ⟨_, by simp [refersTo]; exact .inl rfl, rfl⟩
    · rcases List.mem_append.1 h with h | h
      · obtain ⟨x, hx, hi⟩ := operations_sub a i h
        exact ⟨x, by simp [refersTo, hx], hi⟩
      · obtain ⟨x, hx, hi⟩ := operations_sub b i h
        exact ⟨x, by simp [refersTo, hx], hi⟩

theorem unnamed_sub (e : SEx α) (i : Nat) (h : i ∈ unnamed e) : i ∈ operations e := by
  cases e with
  | leaf => exact h
  | un => exact List.mem_cons_of_mem _ h
  | bin => exact List.mem_cons_of_mem _ h

/-- **C58, consequence.** `auto e = …;` with more than one operation can never be used (unless it has no elements): the objects of the inner operations are
destroyed at the end of that statement, even if all operands are alive. -/
theorem C58_nested {e : SEx α} {s : Ex AView α} (he : Denotes e.erase s) {d : List Nat} (hd : ∀ x ∈ exts s, x = d) (hne : prod d ≠ 0)
    (hin : unnamed e ≠ []) (chk : Bool) : ∃ src, e.src Arith.exact chk = .ok src ∧
      ∀ σ : Store α, (∀ i ∈ unnamed e, σ i = none) → (∀ x ∈ refersTo e, x.1 ∉ unnamed e → σ x.1 = some x.2) →
        ∀ (m : Mem α) fresh, newFromStored Arith.exact σ src m fresh = .error .ub := by
  obtain ⟨src, h1, h2⟩ := C58_dangling he hd hne chk
  refine ⟨src, h1, fun σ hu ha m => (h2 σ ⟨?_, fun x hx => ?_⟩ m).1⟩
  · obtain ⟨i, is, hi⟩ := List.exists_cons_of_ne_nil hin
    obtain ⟨x, hx, rfl⟩ := operations_sub e i (unnamed_sub e i (by simp [hi]))
    exact ⟨x, hx, hu _ (by simp [hi])⟩
  · by_cases hx' : x.1 ∈ unnamed e
    · exact .inr (hu _ hx')
    · exact .inl (ha x hx hx')

theorem plain_refersTo : ∀ {e : SEx α}, Plain e → ∀ x ∈ refersTo e, x.1 ∈ operations e
  | .leaf obj o, hp, x, hx => by
    cases o with
    | elem => exact hp.elim
    | proxy => exact hp.elim
    | everyProxy => exact hp.elim
    | cref => simp [refersTo] at hx
    | sref off mp =>
      cases mp with
      | vec => exact hp.elim
      | ident d =>
        obtain ⟨h1, h2⟩ := hp
        obtain ⟨a, ha⟩ := List.length_eq_one_iff.1 h1
        obtain ⟨b, hb⟩ := List.length_eq_one_iff.1 h2
        simp [refersTo, ha, hb] at hx
  | .un obj f e, hp, x, hx => by
    simp only [refersTo, List.mem_cons] at hx
    rcases hx with rfl | hx
    · simp [operations]
    · exact List.mem_cons_of_mem _ (plain_refersTo (e := e) hp x hx)
  | .bin obj f a b, hp, x, hx => by
    simp only [refersTo, List.mem_cons, List.mem_append] at hx
    rcases hx with rfl | hx | hx
    · simp [operations]
    · exact List.mem_cons_of_mem _ (List.mem_append.2 (.inl (plain_refersTo hp.1 x hx)))
    · exact List.mem_cons_of_mem _ (List.mem_append.2 (.inr (plain_refersTo hp.2 x hx)))

/-- **C58 (partial: one operation).** `auto e = a + b;` or `auto e = -a;` can be used as long as `e` is alive, when the operands are arrays, contiguous views or
one-dimensional strided views - also temporary views, which may have been destroyed. (Their elements must be alive.) -/
theorem C58_single_partial {e : SEx α} (hp : Plain e) (hin : unnamed e = []) {σ : Store α} (hroot : ∀ x, (refersTo e).head? = some x → σ x.1 = some x.2) :
    Usable σ e := by
  intro x hx
  have hop := plain_refersTo hp x hx
  have hleaf : ∀ a : SEx α, operations a = [] → Plain a → refersTo a = [] := by
    intro a ha hpa
    cases hr : refersTo a with
    | nil => rfl
    | cons y ys =>
      have := plain_refersTo hpa y (by simp [hr])
      simp [ha] at this
  cases e with
  | leaf => simp [operations] at hop
  | un obj f a =>
    have : refersTo a = [] := hleaf a hin hp
    simp only [refersTo, this, List.mem_singleton] at hx
    subst hx
    exact hroot _ (by simp [refersTo])
  | bin obj f a b =>
    obtain ⟨ha, hb⟩ := List.append_eq_nil_iff.1 hin
    have ha' : refersTo a = [] := hleaf a ha hp.1
    have hb' : refersTo b = [] := hleaf b hb hp.2
    simp only [refersTo, ha', hb', List.append_nil, List.mem_singleton] at hx
    subst hx
    exact hroot _ (by simp [refersTo])

theorem refersTo_idents : ∀ (e : SEx α) (x : Nat × Rep α), x ∈ refersTo e → x.1 ∈ idents e
  | .leaf obj o, x, hx => by
    have hx : x.1 = obj := by
      unfold refersTo at hx
      split at hx
      · next h =>
        cases h
        split at hx
        · simp at hx
        · simp only [List.mem_singleton] at hx; rw [hx]
      · next h => cases h; simp only [List.mem_singleton] at hx; rw [hx]
      · simp at hx
      · next h => cases h
      · next h => cases h
    simp [idents, hx]
  | .un obj f e, x, hx => by
    simp only [refersTo, List.mem_cons] at hx
    rcases hx with rfl | hx
    · simp [idents]
    · exact List.mem_cons_of_mem _ (refersTo_idents e x hx)
  | .bin obj f a b, x, hx => by
    simp only [refersTo, List.mem_cons, List.mem_append] at hx
    rcases hx with rfl | hx | hx
    · simp [idents]
    · exact List.mem_cons_of_mem _ (List.mem_append.2 (.inl (refersTo_idents a x hx)))
    · exact List.mem_cons_of_mem _ (List.mem_append.2 (.inr (refersTo_idents b x hx)))

theorem refersTo_functional : ∀ (e : SEx α), (idents e).Nodup → ∀ x ∈ refersTo e, ∀ y ∈ refersTo e, x.1 = y.1 → x = y
  | .leaf obj o, _, x, hx, y, hy, _ => by
    unfold refersTo at hx hy
    cases o with
    | elem => simp at hx
    | proxy => simp at hx
    | everyProxy => simp at hx
    | cref => simp at hx
    | sref off mp =>
      cases mp with
      | vec => simp only [List.mem_singleton] at hx hy; rw [hx, hy]
      | ident d =>
        simp only at hx hy
        split at hx
        · simp at hx
        · split at hy
          · simp at hy
          · simp only [List.mem_singleton] at hx hy; rw [hx, hy]
  | .un obj f e, hn, x, hx, y, hy, hxy => by
    simp only [idents, List.nodup_cons] at hn
    simp only [refersTo, List.mem_cons] at hx hy
    rcases hx with rfl | hx
    · rcases hy with rfl | hy
      · rfl
      · exact (hn.1 (by have := refersTo_idents e y hy; rwa [← hxy] at this)).elim
    · rcases hy with rfl | hy
      · exact (hn.1 (by have := refersTo_idents e x hx; rwa [hxy] at this)).elim
      · exact refersTo_functional e hn.2 x hx y hy hxy
  | .bin obj f a b, hn, x, hx, y, hy, hxy => by
    simp only [idents, List.nodup_cons, List.mem_append, not_or, List.nodup_append] at hn
    simp only [refersTo, List.mem_cons, List.mem_append] at hx hy
    obtain ⟨⟨ho1, ho2⟩, ha, hb, hab⟩ := hn
    rcases hx with rfl | hx | hx <;> rcases hy with rfl | hy | hy
    · rfl
    · exact (ho1 (by have := refersTo_idents a y hy; rwa [← hxy] at this)).elim
    · exact (ho2 (by have := refersTo_idents b y hy; rwa [← hxy] at this)).elim
    · exact (ho1 (by have := refersTo_idents a x hx; rwa [hxy] at this)).elim
    · exact refersTo_functional a ha x hx y hy hxy
    · exact (hab _ (refersTo_idents a x hx) _ (refersTo_idents b y hy) hxy).elim
    · exact (ho2 (by have := refersTo_idents b x hx; rwa [hxy] at this)).elim
    · exact (hab _ (refersTo_idents a y hy) _ (refersTo_idents b x hx) hxy.symm).elim
    · exact refersTo_functional b hb x hx y hy hxy

open Classical in
/-- Within the statement that creates it an expression is usable: there is a store with all its objects (they have different identities). -/
theorem C58_statement (e : SEx α) (hn : (idents e).Nodup) : ∃ σ : Store α, Usable σ e := by
  refine ⟨fun i => if h : ∃ x ∈ refersTo e, x.1 = i then some h.choose.2 else none, fun x hx => ?_⟩
  have h : ∃ y ∈ refersTo e, y.1 = x.1 := ⟨x, hx, rfl⟩
  show (if h : ∃ y ∈ refersTo e, y.1 = x.1 then some h.choose.2 else none) = _
  rw [dif_pos h]
  rw [refersTo_functional e hn _ h.choose_spec.1 x hx h.choose_spec.2]

/-! Concrete cases. `a = (1, 2)` at 0, `b = (10, 20)` at 2; `auto e = a + b` and then `a[0] = 5`; `auto e = -(a + b)`. -/

def sumEx : SEx Int := .bin 7 (· + ·) (.leaf 1 (.cref 0 [2])) (.leaf 2 (.cref 2 [2]))
def negSum : SEx Int := .un 8 (fun x => -x) sumEx

theorem sumEx_denotes : Denotes sumEx.erase (.bin (· + ·) (.leaf (arrayView 0 [2])) (.leaf (arrayView 2 [2]))) :=
  .bin (.leaf (array_observes 0 (d := [2]) (by simp)) (by simp [arrayView])) (.leaf (array_observes 2 (d := [2]) (by simp)) (by simp [arrayView]))

example := C58_usable_partial sumEx_denotes (d := [2]) (by simp) (by simp [exts, arrayView]) true
example := C58_same_as_immediate sumEx_denotes (d := [2]) (by simp [exts, arrayView]) false
example := C58_mismatch sumEx_denotes (d := [2]) (by simp [exts, arrayView])
example := C58_nested (e := negSum) (.un sumEx_denotes) (d := [2]) (by simp [exts, arrayView]) (by decide) (by simp [negSum, sumEx, unnamed, operations]) true
example : Usable (fun i => if i = 7 then some (.fn2 (· + ·)) else none) sumEx :=
  C58_single_partial (by simp [sumEx, Plain, Direct]) rfl (by simp [sumEx, refersTo])

/-- The kept sum sees the assignment `a[0] = 5` that was made after it was created. -/
example : ((sumEx.src Arith.exact true) >>= fun src => newFromStored Arith.exact (fun i => if i = 7 then some (.fn2 (· + ·)) else none) src
      (fun p => [(5 : Int), 2, 10, 20][p]?) 4).map (fun r => ((List.range 7).map r.1, r.2)) =
    .ok ([some 5, some 2, some 10, some 20, some 15, some 22, none], ⟨4, [2]⟩) := by decide +kernel

/-- The kept negation of the sum has lost the sum. -/
example : ((negSum.src Arith.exact true) >>= fun src => newFromStored Arith.exact (fun i => if i = 8 then some (.fn1 (fun x => -x)) else none) src
      (fun p => [(5 : Int), 2, 10, 20][p]?) 4).map (fun r => r.2) = .error .ub := by decide +kernel

/-- A sum of a temporary two-dimensional strided view: within the statement, and kept. -/
example : (((SEx.un 8 (fun x : Int => -x) (.leaf 1 (.sref 0 (.ident ⟨0, [1, 2], [1, 2]⟩)))).src Arith.exact true) >>= fun src =>
      newFromStored Arith.exact (fun i => if i = 8 then some (.fn1 (fun x => -x)) else if i = 1 then some (.desc ⟨0, [1, 2], [1, 2]⟩) else none) src
      (fun p => [(5 : Int), 2, 10, 20][p]?) 4).map (fun r => (List.range 7).map r.1) =
    .ok [some 5, some 2, some 10, some 20, some (-5), some (-10), none] ∧
  (((SEx.un 8 (fun x : Int => -x) (.leaf 1 (.sref 0 (.ident ⟨0, [1, 2], [1, 2]⟩)))).src Arith.exact true) >>= fun src =>
      newFromStored Arith.exact (fun i => if i = 8 then some (.fn1 (fun x => -x)) else none) src
      (fun p => [(5 : Int), 2, 10, 20][p]?) 4).map (fun r => r.2) = .error .ub := by decide +kernel

example := C58_dangling (e := negSum) (.un sumEx_denotes) (d := [2]) (by simp [exts, arrayView]) (by decide) true
example := C58_statement negSum (by decide)

end Jules.Props

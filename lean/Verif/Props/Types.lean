import Verif.Lemmas.Types
import Verif.Props.Indexing
/-
C61: the static types of index chains.
-/
namespace Jules.Props
open Jules Spec

theorem run_typed (A : Arith) (chk : Bool) : ∀ (h : List Ix) (o : Obj), o.Lens →
    match h.foldlM typeStep (kindOf o) with
    | none => ∀ o', o.run A chk h ≠ .ok o'
    | some k => WT (o.run A chk h) (IsKind k)
  | [], o, hl => wt_ok ⟨rfl, hl⟩
  | ix :: h, o, hl => by
    have h1 := index_typed A chk o ix hl
    simp only [List.foldlM_cons]
    cases hk : typeStep (kindOf o) ix with
    | none =>
      rw [hk] at h1
      simp only at h1
      intro o' ho
      simp only [Obj.run, List.foldlM_cons, h1] at ho
      cases ho
    | some k =>
      rw [hk] at h1
      simp only at h1
      show match h.foldlM typeStep k with | none => _ | some k => _
      cases ho : o.index A chk ix with
      | error e =>
        have hrun : o.run A chk (ix :: h) = .error e := by simp only [Obj.run, List.foldlM_cons, ho]; rfl
        split
        · intro o' h'; rw [hrun] at h'; cases h'
        · rw [hrun]; exact wt_err fun he => h1.1 (by rw [ho, he])
      | ok o1 =>
        obtain ⟨h2, h3⟩ := h1.2 o1 ho
        have hrun : o.run A chk (ix :: h) = o1.run A chk h := by simp only [Obj.run, List.foldlM_cons, ho, res_ok_bind]
        have := run_typed A chk h o1 h3
        rw [h2] at this
        rw [hrun]
        exact this

/-- **C61.** The type of what an index chain gives - element, contiguous view, strided view, view selected by a list, incomplete chain, with
its order - is the one computed from the order of the array and the kinds of the index expressions. In checked and unchecked builds, with
wrap-around or exact arithmetic. -/
theorem C61_type (A : Arith) (chk : Bool) {off : Nat} {e : List Nat} (he : e ≠ []) {h : List Ix} {o : Obj}
    (hr : (Obj.cref off e).run A chk h = .ok o) : typeOf e.length h = some (kindOf o) := by
  have := run_typed A chk h (.cref off e) he
  have hk : kindOf (.cref off e) = .contiguous e.length := rfl
  rw [hk] at this
  unfold typeOf
  split at this
  · exact (this o hr).elim
  · next k heq => rw [heq, (this.2 o hr).1]

/-- **C61.** Whether a chain compiles is decided in the same way: a chain with a type is never rejected by the compiler, one without never gives
a result. -/
theorem C61_compiles (A : Arith) (chk : Bool) {off : Nat} {e : List Nat} (he : e ≠ []) (h : List Ix) :
    ((typeOf e.length h).isSome → (Obj.cref off e).run A chk h ≠ .error .illFormed) ∧
      (typeOf e.length h = none → ∀ o, (Obj.cref off e).run A chk h ≠ .ok o) := by
  have := run_typed A chk h (.cref off e) he
  have hk : kindOf (.cref off e) = .contiguous e.length := rfl
  rw [hk] at this
  unfold typeOf
  split at this
  · next heq => exact ⟨fun hs => by simp [heq] at hs, fun _ => this⟩
  · next heq => exact ⟨fun _ => this.1, fun hs => by simp [heq] at hs⟩

theorem typeStep_shape (k : Kind) (ix : Ix) : typeStep k (shape ix) = typeStep k ix := by
  cases k <;> cases ix <;> rfl

/-- **C61.** The type depends on the kinds of the index expressions only. -/
theorem C61_values_irrelevant (n : Nat) (h : List Ix) : typeOf n (h.map shape) = typeOf n h := by
  unfold typeOf
  generalize Kind.contiguous n = k
  induction h generalizing k with
  | nil => rfl
  | cons ix h ih =>
    simp only [List.map_cons, List.foldlM_cons, typeStep_shape]
    cases typeStep k ix with
    | none => rfl
    | some k' => exact ih k'

/-- **C61.** Hence two arrays of the same order, indexed with chains of the same kinds, give the same type whenever they give anything: whatever the
extents, the values, the build. -/
theorem C61_uniform (A B : Arith) (chk chk' : Bool) {e e' : List Nat} (he : e ≠ []) (hn : e.length = e'.length) {h h' : List Ix}
    (hh : h.map shape = h'.map shape) {o o' : Obj} (hr : (Obj.cref 0 e).run A chk h = .ok o) (hr' : (Obj.cref 0 e').run B chk' h' = .ok o') :
    kindOf o = kindOf o' := by
  have h1 := C61_type A chk he hr
  have h2 := C61_type B chk' (ne_nil_of_length hn.symm he) hr'
  rw [← C61_values_irrelevant, hh, C61_values_irrelevant, hn, h2] at h1
  exact (Option.some.inj h1).symm

/-- **C04/C61.** A legal chain that compiles is accepted, with the static type as the kind of its result; a chain that fails to compile is the only legal
chain that is not accepted. -/
theorem C61_legal_accepted {e : List Nat} (he : e ≠ []) {h : List Ix} (hl : LegalAll (.view (arrayView 0 e)) h) :
    (∀ k, typeOf e.length h = some k → ∃ o, (Obj.cref 0 e).run Arith.exact true h = .ok o ∧ kindOf o = k) ∧
      (typeOf e.length h = none → (Obj.cref 0 e).run Arith.exact true h = .error .illFormed) := by
  constructor
  · intro k hk
    rcases C04_legal_accepted he hl with ⟨o, ho⟩ | hi
    · refine ⟨o, ho, ?_⟩
      have := C61_type Arith.exact true he ho
      rw [hk] at this
      exact (Option.some.inj this).symm
    · exact ((C61_compiles Arith.exact true he h).1 (by simp [hk]) hi).elim
  · intro hk
    rcases C04_legal_accepted he hl with ⟨o, ho⟩ | hi
    · exact ((C61_compiles Arith.exact true he h).2 hk o ho).elim
    · exact hi

theorem typeStep_none {k : Kind} {ix : Ix} (h : typeStep k ix = none) :
    k = .element ∨ ∃ n j i, k = .everys n j ∧ j + 1 ≠ n ∧ ix = .at i := by
  cases k with
  | element => exact .inl rfl
  | everys n j =>
    right
    cases ix with
    | «at» i =>
      refine ⟨n, j, i, rfl, fun hj => ?_, rfl⟩
      simp [typeStep, hj] at h
    | _ => simp [typeStep] at h
  | contiguous => cases ix <;> simp [typeStep] at h
  | strided => cases ix <;> simp [typeStep] at h
  | part => cases ix <;> simp [typeStep] at h

theorem foldlM_none {k : Kind} : ∀ {h : List Ix}, h.foldlM typeStep k = none →
    ∃ h1 ix h2 k', h = h1 ++ ix :: h2 ∧ h1.foldlM typeStep k = some k' ∧ typeStep k' ix = none := by
  intro h
  induction h generalizing k with
  | nil => intro hk; cases hk
  | cons ix h ih =>
    intro hk
    rw [List.foldlM_cons] at hk
    cases hs : typeStep k ix with
    | none => exact ⟨[], ix, h, k, rfl, rfl, hs⟩
    | some k1 =>
      rw [hs] at hk
      obtain ⟨h1, ix', h2, k', e1, e2, e3⟩ := ih hk
      exact ⟨ix :: h1, ix', h2, k', by rw [e1]; rfl, by rw [List.foldlM_cons, hs]; exact e2, e3⟩

/-- **C61.** The only chains that do not compile: indexing an element, and a plain index after one or more leading `every` on a contiguous array or view
before its last dimension (`a[every][0]` for a three-dimensional `a`), which should. -/
theorem C61_not_compiling {n : Nat} {h : List Ix} (hk : typeOf n h = none) :
    ∃ h1 ix h2, h = h1 ++ ix :: h2 ∧
      (typeOf n h1 = some .element ∨ ∃ m j i, typeOf n h1 = some (.everys m j) ∧ j + 1 ≠ m ∧ ix = .at i) := by
  obtain ⟨h1, ix, h2, k', e1, e2, e3⟩ := foldlM_none hk
  refine ⟨h1, ix, h2, e1, ?_⟩
  rcases typeStep_none e3 with rfl | ⟨m, j, i, rfl, hj, hi⟩
  · exact .inl e2
  · exact .inr ⟨m, j, i, e2, hj, hi⟩

/-! Concrete cases. -/

example : typeOf 3 [.every, .every, .slice 0 2] = some (.contiguous 3) := rfl
example : typeOf 3 [.every, .at 0, .every] = none := rfl
example : typeOf 3 [.slice 0 2, .at 0, .every] = some (.strided 3 false) := rfl
example : typeOf 3 [.slice 0 2, .rng [1], .every, .at 0, .at 1] = some (.strided 1 true) := rfl
example : (Obj.cref 0 [2, 3, 4]).run Arith.exact true [.slice 0 2, .rng [1], .every, .at 0, .at 0] = .ok (.sref 0 (.vec ⟨0, [4], [1]⟩ [2, 8, 14, 20])) := by decide +kernel
example := C61_uniform (e := [2, 3]) (e' := [7, 5]) (h := [.slice 0 2, .at 1]) (h' := [.slice 3 1, .at 0]) Arith.exact Arith.u64 true false (by simp) rfl rfl
  (o := .sref 0 (.ident ⟨2, [2, 1], [1, 1]⟩)) (by decide +kernel) (o' := .sref 0 (.ident ⟨3, [1, 1], [1, 1]⟩)) (by decide +kernel)

example := C61_type Arith.exact true (off := 0) (e := [2, 3]) (by decide) (h := [.slice 0 2, .at 1]) rfl
example := C61_compiles Arith.exact true (off := 0) (e := [2, 3]) (by decide) [.slice 0 2, .at 1]
example := C61_legal_accepted (e := [2, 3]) (by decide) (h := [.at 1]) ⟨⟨by decide, trivial, by decide, by decide⟩, trivial⟩

end Jules.Props

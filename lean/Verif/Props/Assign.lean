import Verif.Lemmas.Memory
/-
C17-C22: assignment, lazy expressions, in-place operators, overlap.

`Observes o v` says that the C++ view or array `o` behaves as the abstract view `v`; every view accepted in
a checked build does (C03, C05). `Reads m o i x`: the C++ expression `o[i₀]…[i_{N-1}]` reads `x` in memory
`m`. `valAt m s i` is the mathematical value of the expression `s` at the multi-index `i`.
-/
namespace Jules.Props
open Spec

/-- From cells to elements. -/
theorem reads_of {m m' : Mem α} {o : Obj} {v : AView} {s : Ex AView α} {d : List Nat} {xs : List α}
    (ho : Observes o v) (hd : v.ext = d)
    (hx : ∀ (k : Nat) (i : List Nat), (multiIdx d)[k]? = some i → xs[k]? = valAt m s i)
    (hl : xs.length = prod d)
    (h : ∀ (k p : Nat) (x : α), v.enum[k]? = some p → xs[k]? = some x → m' p = some x) :
    ∀ i, InB d i → Reads m' o i (valAt m s i) := by
  intro i hi
  subst hd
  refine ⟨v.pos i, ho.element i hi, ?_⟩
  have hk := multiIdx_getElem? hi
  have hlt : cmPos v.ext i < xs.length := by rw [hl]; exact cmPos_lt hi
  have hxk := List.getElem?_eq_getElem hlt
  rw [← hx _ _ hk, hxk]
  exact h _ _ _ (enum_getElem? hi) hxk

/-! ### C17 -/

/-- **C17.** After `v = x` every element of `v` is `x` (the value the scalar had before, even if it is a
reference to a cell of `v`) and every other cell is unchanged. Cells of `v` may repeat. -/
theorem C17_fill {o : Obj} {v : AView} (ho : Observes o v) {m : Mem α} (hal : Alive m v) {sc : Scalar α}
    {x : α} (hsc : sc.get m = .ok x) :
    ∃ m', fillView Arith.exact o sc m = .ok m' ∧ (∀ i, InB v.ext i → Reads m' o i (some x)) ∧
      ∀ q, ¬ Covers v q → m' q = m q := by
  obtain ⟨m', h1, h2, h3⟩ := updLoop_const (fun _ _ m => sc.get m) x v.enum 0 m (alive_enum hal) (by
    intro _ _ m1 hm1
    cases sc with
    | val y => exact hsc
    | cell c =>
      simp only [Scalar.get, read_toRes] at hsc ⊢
      rcases hm1 c with h | ⟨_, h⟩
      · rw [h]; exact hsc
      · rw [h]; rfl)
  refine ⟨m', by simp [fillView, ho.iterate, h1], ?_, fun q hq => h3 q fun h => hq (mem_enum.1 h)⟩
  intro i hi
  exact ⟨v.pos i, ho.element i hi, h2 _ (mem_enum.2 ⟨i, hi, rfl⟩)⟩

/-! ### C18 -/

/-- **C18** (general form). `v = e` where the element of `e` at `i` does not read a cell that `v` has at
an earlier (column-major) multi-index: each element of `v` becomes the value `e` had before at the same
multi-index; all other cells are unchanged. -/
theorem C18_assign {o : Obj} {v : AView} (ho : Observes o v) (hne : v.ext ≠ []) (hdis : Distinct v)
    {m : Mem α} (hal : Alive m v) {e : Ex Obj α} {s : Ex AView α} (he : Denotes e s)
    (hd : ∀ x ∈ exts s, x = v.ext) (hval : ∀ i, InB v.ext i → valAt m s i ≠ none)
    (hord : ∀ i j, InB v.ext i → InB v.ext j → cmSum v.ext j < cmSum v.ext i → v.pos j ∉ cellsAt s i)
    (chk : Bool) :
    ∃ m', assignView Arith.exact chk o e m = .ok m' ∧
      (∀ i, InB v.ext i → Reads m' o i (valAt m s i)) ∧ ∀ q, ¬ Covers v q → m' q = m q := by
  obtain ⟨src, hb, hy⟩ := build_ok (chk := chk) he hd
  obtain ⟨xs, hl, hx⟩ := values_exist hval
  obtain ⟨m', h1, h2, h3⟩ := assign_cells hy rfl hdis hal hl hx hord
  refine ⟨m', ?_, reads_of ho rfl hx hl h2, h3⟩
  simp [assignView, hb, arrayAssign, observes_dims ho hne, hy.dims, ho.iterate, h1, hy.count, enum_length]

/-- **C18.** `v = w` for views without shared cells. -/
theorem C18_assign_disjoint {o o' : Obj} {v w : AView} (ho : Observes o v) (ho' : Observes o' w)
    (hne : v.ext ≠ []) (hdis : Distinct v) {m : Mem α} (hal : Alive m v) (haw : Alive m w)
    (hd : w.ext = v.ext) (hsep : ∀ q, Covers v q → ¬ Covers w q) (chk : Bool) :
    ∃ m', assignView Arith.exact chk o (.leaf o') m = .ok m' ∧
      (∀ i, InB v.ext i → Reads m' o i (m (w.pos i))) ∧
      (∀ i, InB w.ext i → Reads m' o' i (m (w.pos i))) ∧ ∀ q, ¬ Covers v q → m' q = m q := by
  obtain ⟨m', h1, h2, h3⟩ := C18_assign ho hne hdis hal (e := .leaf o') (s := .leaf w)
    (.leaf ho' (hd ▸ hne)) (by simp [exts, hd]) (fun i hi => haw i (hd ▸ hi))
    (by
      intro i j hi hj _ hc
      simp only [cellsAt, List.mem_singleton] at hc
      exact hsep _ ⟨j, hj, hc⟩ ⟨i, hd ▸ hi, rfl⟩) chk
  refine ⟨m', h1, h2, ?_, h3⟩
  intro i hi
  exact ⟨w.pos i, ho'.element i hi, h3 _ fun h => hsep _ h ⟨i, hi, rfl⟩⟩

/-- **C18.** `v = w` for views that address the same cells at the same multi-indices changes nothing. -/
theorem C18_assign_same {o o' : Obj} {v w : AView} (ho : Observes o v) (ho' : Observes o' w)
    (hne : v.ext ≠ []) (hdis : Distinct v) {m : Mem α} (hal : Alive m v) (hs : SameView w v) (chk : Bool) :
    ∃ m', assignView Arith.exact chk o (.leaf o') m = .ok m' ∧ ∀ q, m' q = m q := by
  have hp : ∀ i, InB v.ext i → w.pos i = v.pos i := fun i hi => hs.2 i (hs.1 ▸ hi)
  obtain ⟨m', h1, h2, h3⟩ := C18_assign ho hne hdis hal (e := .leaf o') (s := .leaf w)
    (.leaf ho' (hs.1 ▸ hne)) (by simp [exts, hs.1])
    (by intro i hi; simp only [valAt, hp i hi]; exact hal i hi)
    (by
      intro i j hi hj hlt hc
      simp only [cellsAt, List.mem_singleton, hp i hi] at hc
      rw [hdis j i hj hi hc] at hlt
      omega) chk
  refine ⟨m', h1, fun q => ?_⟩
  by_cases hq : Covers v q
  · obtain ⟨i, hi, rfl⟩ := hq
    obtain ⟨p, hp1, hp2⟩ := h2 i hi
    rw [ho.element i hi] at hp1
    cases hp1
    rw [hp2, valAt, hp i hi]
  · exact h3 q hq

/-- **C18.** Different extents of the same order are reported in a checked build; nothing is returned,
so nothing changes. Views of different orders do not compile. -/
theorem C18_mismatch {o : Obj} {v : AView} (ho : Observes o v) (hne : v.ext ≠ []) {m : Mem α}
    {e : Ex Obj α} {s : Ex AView α} (he : Denotes e s) {d : List Nat} (hd : ∀ x ∈ exts s, x = d)
    (hdv : d ≠ v.ext) : assignView Arith.exact true o e m = .error (if d.length = v.ext.length then .assert else .illFormed) := by
  obtain ⟨src, hb, hy⟩ := build_ok (chk := true) he hd
  by_cases hl : d.length = v.ext.length <;>
    simp [assignView, hb, arrayAssign, observes_dims ho hne, hy.dims, hdv, dbg, hl]

/-- A vector of three in memory, for examples. -/
def mem3 (a b c : Nat) : Mem Nat := fun p => [a, b, c][p]?

/-- The hypotheses of C18 are about accepted views: e.g. `v[slice(0,1,2)] = v[slice(1,1,2)]`. -/
example : (assignView Arith.exact true (.sref 0 (.ident ⟨0, [1], [2]⟩))
    (.leaf (.sref 0 (.ident ⟨1, [1], [2]⟩))) (mem3 7 8 9)).map (fun m => (List.range 3).map m) =
      .ok [some 8, some 8, some 9] := by rfl

/-- The condition on the order of reads is needed: `v = w` with `w` a reversed view of the same three
cells gives (3, 2, 3), not (3, 2, 1). (`overlap` exists for this, C19.) -/
theorem C18_alias_limit :
    (assignView Arith.exact true (.cref 0 [3]) (.leaf (.sref 0 (.vec ⟨0, [3], [1]⟩ [2, 1, 0])))
      (mem3 1 2 3)).map (fun m => (List.range 3).map m) = .ok [some 3, some 2, some 3] := by rfl

/-! ### C19 -/

/-- **C19.** `overlap(v) = e`: each element of `v` becomes the value `e` had before at that multi-index,
whatever cells `e` reads; all other cells are unchanged and no cell stays allocated. -/
theorem C19_overlap {o : Obj} {v : AView} (ho : Observes o v) (hne : v.ext ≠ []) (hdis : Distinct v)
    {m : Mem α} (hal : Alive m v) {e : Ex Obj α} {s : Ex AView α} (he : Denotes e s)
    (hd : ∀ x ∈ exts s, x = v.ext) (hval : ∀ i, InB v.ext i → valAt m s i ≠ none) {fresh : Nat}
    (hf : ∀ k, k < prod v.ext → m (fresh + k) = none) (chk : Bool) :
    ∃ m', overlapView Arith.exact chk o e m fresh = .ok m' ∧
      (∀ i, InB v.ext i → Reads m' o i (valAt m s i)) ∧ ∀ q, ¬ Covers v q → m' q = m q := by
  obtain ⟨src, hb, hy⟩ := build_ok (chk := chk) he hd
  obtain ⟨xs, hl, hx⟩ := values_exist hval
  have hn := newArray_ok hy m fresh hl hx
  have hfr : ∀ q, m q ≠ none → ¬ (fresh ≤ q ∧ q < fresh + prod v.ext) := by
    intro q hq ⟨h1, h2⟩
    exact hq (by have := hf (q - fresh) (by omega); rwa [show fresh + (q - fresh) = q by omega] at this)
  have hvf : ∀ q, Covers v q → ¬ (fresh ≤ q ∧ q < fresh + prod v.ext) := by
    rintro q ⟨i, hi, rfl⟩; exact hfr _ (hal i hi)
  have hva : ∀ i, InB v.ext i → valAt (m.setMany fresh xs) (.leaf (arrayView fresh v.ext)) i = valAt m s i := by
    intro i hi
    have hk := multiIdx_getElem? hi
    rw [cmPos_eq_sum (inB_length hi)] at hk
    rw [← hx _ _ hk]
    simp only [valAt, arrayView]
    exact setMany_in (by rw [hl]; exact cmSum_lt hi)
  have hval' := hval
  obtain ⟨m', h1, h2, h3⟩ := C18_assign ho hne hdis (m := m.setMany fresh xs)
    (by
      intro i hi
      rw [setMany_out (by rw [hl]; exact hvf _ ⟨i, hi, rfl⟩)]; exact hal i hi)
    (e := .leaf (.cref fresh v.ext)) (s := .leaf (arrayView fresh v.ext))
    (.leaf (array_observes fresh hne) hne) (by simp [exts, arrayView])
    (by intro i hi; rw [hva i hi]; exact hval i hi)
    (by
      intro i j hi hj _ hc
      simp only [cellsAt, List.mem_singleton] at hc
      exact hvf _ ⟨j, hj, rfl⟩ (hc ▸ arrayView_covers.1 ⟨i, hi, rfl⟩)) chk
  refine ⟨m'.free fresh (prod v.ext), ?_, ?_, ?_⟩
  · simp [overlapView, hb, hn, h1, prodL_exact]
  · intro i hi
    obtain ⟨p, hp1, hp2⟩ := h2 i hi
    refine ⟨p, hp1, ?_⟩
    rw [ho.element i hi] at hp1
    cases hp1
    rw [← hva i hi, ← hp2, Mem.free, if_neg (hvf _ ⟨i, hi, rfl⟩)]
  · intro q hq
    simp only [Mem.free]
    split
    · next h =>
      have := hf (q - fresh) (by omega)
      rw [show fresh + (q - fresh) = q by omega] at this
      exact this.symm
    · next h => rw [h3 q hq, setMany_out (by rw [hl]; exact h)]

/-- **C19.** Different extents of the same order are reported in a checked build; different orders do not compile. -/
theorem C19_mismatch {o : Obj} {v : AView} (ho : Observes o v) (hne : v.ext ≠ []) {m : Mem α}
    {e : Ex Obj α} {s : Ex AView α} (he : Denotes e s) {d : List Nat} (hd : ∀ x ∈ exts s, x = d)
    (hdv : d ≠ v.ext) (hd0 : d ≠ []) (hval : ∀ i, InB d i → valAt m s i ≠ none) (fresh : Nat) :
    overlapView Arith.exact true o e m fresh = .error (if d.length = v.ext.length then .assert else .illFormed) := by
  obtain ⟨src, hb, hy⟩ := build_ok (chk := true) he hd
  obtain ⟨xs, hl, hx⟩ := values_exist hval
  have hn := newArray_ok hy m fresh hl hx
  have := C18_mismatch ho hne (m := m.setMany fresh xs) (e := .leaf (.cref fresh d))
    (s := .leaf (arrayView fresh d)) (.leaf (array_observes fresh hd0) hd0) (d := d)
    (by simp [exts, arrayView]) hdv
  simp [overlapView, hb, hn, this]

/-- The reversal that plain assignment gets wrong. -/
example : (overlapView Arith.exact true (.cref 0 [3]) (.leaf (.sref 0 (.vec ⟨0, [3], [1]⟩ [2, 1, 0])))
      (mem3 1 2 3) 10).map (fun m => (List.range 20).map m) =
    .ok ([some 3, some 2, some 1] ++ List.replicate 17 none) := by rfl

/-! ### C20 -/

/-- **C20.** Evaluating an expression whose operands all have extents `d` gives a new array of extents `d`
whose element at each multi-index is the operators applied to the operands' elements at that multi-index;
its cells were free and nothing else changes. -/
theorem C20_elementwise {e : Ex Obj α} {s : Ex AView α} (he : Denotes e s) {d : List Nat} (hd0 : d ≠ [])
    (hd : ∀ x ∈ exts s, x = d) {m : Mem α} (hval : ∀ i, InB d i → valAt m s i ≠ none) {fresh : Nat}
    (hf : ∀ k, k < prod d → m (fresh + k) = none) (chk : Bool) :
    ∃ m' a, (e.build Arith.exact chk >>= fun src => newArray Arith.exact src m fresh) = .ok (m', a) ∧
      a.ext = d ∧ (∀ i, InB d i → Reads m' (.cref a.base a.ext) i (valAt m s i)) ∧
      (∀ q, ¬ Covers (arrayView a.base a.ext) q → m' q = m q) ∧ ∀ q, Covers (arrayView a.base a.ext) q → m q = none := by
  obtain ⟨src, hb, hy⟩ := build_ok (chk := chk) he hd
  obtain ⟨xs, hl, hx⟩ := values_exist hval
  refine ⟨_, _, by rw [hb, res_ok_bind, newArray_ok hy m fresh hl hx], rfl, ?_, ?_, ?_⟩
  · apply reads_of (array_observes fresh hd0) rfl hx hl
    intro k p x hp hxk
    obtain ⟨i, hi, hk, hpi, _⟩ := enum_getElem?_some hp
    have hi : InB d i := hi
    have hk : k = cmPos d i := hk
    have hlt : k < xs.length := (List.getElem?_eq_some_iff.1 hxk).1
    rw [hpi, ← hxk, ← setMany_in (m := m) (b := fresh) hlt, hk, cmPos_eq_sum (inB_length hi)]
    rfl
  · intro q hq
    apply setMany_out
    rwa [hl, ← arrayView_covers]
  · intro q hq
    obtain ⟨h1, h2⟩ := arrayView_covers.1 hq
    have := hf (q - fresh) (by simp only at h1 h2; omega)
    rwa [show fresh + (q - fresh) = q by simp only at h1; omega] at this

/-- **C20.** The operators on a scalar keep the operand order: the element of `c - a` at `i` is `c - a(i)`, that of `a - c` is `a(i) - c`. -/
theorem C20_scalar_order {o : Obj} {v : AView} (ho : Observes o v) (hne : v.ext ≠ []) {m : Mem α} (hal : Alive m v) {fresh : Nat}
    (hf : ∀ k, k < prod v.ext → m (fresh + k) = none) (op : α → α → α) (c : α) (chk : Bool) :
    (∃ m' a, ((Ex.scalarLeft op c (.leaf o)).build Arith.exact chk >>= fun src => newArray Arith.exact src m fresh) = .ok (m', a) ∧
      a.ext = v.ext ∧ ∀ i, InB v.ext i → ∃ x, m (v.pos i) = some x ∧ Reads m' (.cref a.base a.ext) i (some (op c x))) ∧
    (∃ m' a, ((Ex.scalarRight op (.leaf o) c).build Arith.exact chk >>= fun src => newArray Arith.exact src m fresh) = .ok (m', a) ∧
      a.ext = v.ext ∧ ∀ i, InB v.ext i → ∃ x, m (v.pos i) = some x ∧ Reads m' (.cref a.base a.ext) i (some (op x c))) := by
  have key : ∀ f : α → α, ∃ m' a, ((Ex.un f (.leaf o)).build Arith.exact chk >>= fun src => newArray Arith.exact src m fresh) = .ok (m', a) ∧
      a.ext = v.ext ∧ ∀ i, InB v.ext i → ∃ x, m (v.pos i) = some x ∧ Reads m' (.cref a.base a.ext) i (some (f x)) := by
    intro f
    have hv : ∀ i, InB v.ext i → ∃ x, m (v.pos i) = some x := fun i hi => Option.ne_none_iff_exists'.1 (hal i hi)
    obtain ⟨m', a, h1, h2, h3, -, -⟩ := C20_elementwise (s := .un f (.leaf v)) (.un (.leaf ho hne)) hne (by simp [exts]) (m := m)
      (fun i hi => by obtain ⟨x, hx⟩ := hv i hi; simp [valAt, hx]) hf chk
    refine ⟨m', a, h1, h2, fun i hi => ?_⟩
    obtain ⟨x, hx⟩ := hv i hi
    refine ⟨x, hx, ?_⟩
    have := h3 i hi
    simpa [valAt, hx] using this
  exact ⟨key (op c), key (fun x => op x c)⟩

/-- **C20.** Operands (of one order) with different extents are reported in a checked build. -/
theorem C20_mismatch {e : Ex Obj α} {s : Ex AView α} (he : Denotes e s) {n : Nat}
    (hn : ∀ x ∈ exts s, x.length = n) (hd : ¬ ∃ d, ∀ x ∈ exts s, x = d) :
    e.build Arith.exact true = .error .assert := build_mismatch he hn hd

/-- `v - 2*w` on vectors `v = (7, 8)` at 0 and `w = (8, 9)` at 1 (they share a cell). -/
example : ((Ex.build Arith.exact true (.bin (fun a b : Int => a - b) (.leaf (.cref 0 [2]))
      (.scalarLeft (fun a b => a * b) 2 (.leaf (.cref 1 [2]))))) >>= fun src =>
    newArray Arith.exact src (fun p => [(7 : Int), 8, 9][p]?) 3).map (fun r => ((List.range 5).map r.1, r.2)) =
    .ok ([some 7, some 8, some 9, some (-9), some (-10)], ⟨3, [2]⟩) := by rfl

/-! ### C21 -/

theorem updLoop_congr {g g' : Nat → Nat → Mem α → Res α} : ∀ (ps : List Nat) (k0 : Nat) (m : Mem α),
    (∀ (j p : Nat), ps[j]? = some p → ∀ m, g (k0 + j) p m = g' (k0 + j) p m) →
    updLoop g k0 ps m = updLoop g' k0 ps m
  | [], _, _, _ => rfl
  | p :: ps, k0, m, h => by
    have h0 := h 0 p rfl m
    rw [Nat.add_zero] at h0
    simp only [updLoop, h0]
    congr 1; funext x
    congr 1; funext m'
    apply updLoop_congr
    intro j q hq m
    rw [show k0 + 1 + j = k0 + (j + 1) by omega]
    exact h (j + 1) q (by simpa using hq) m

/-- The common part of the in-place operators. -/
theorem inPlace_core {o : Obj} {v : AView} (ho : Observes o v) (hdis : Distinct v)
    {m : Mem α} (hal : Alive m v) {src : EObj α} {s : Ex AView α} (hy : Yields src v.ext s)
    (hval : ∀ i, InB v.ext i → valAt m s i ≠ none) (op : α → α → α)
    (hord : ∀ i j, InB v.ext i → InB v.ext j → cmSum v.ext j < cmSum v.ext i → v.pos j ∉ cellsAt s i) :
    ∃ m', updLoop (fun k p m => (do
        let a ← m.read p
        let b ← src.it.deref m k
        .ok (op a b) : Res α)) 0 v.enum m = .ok m' ∧
      (∀ i, InB v.ext i → Reads m' o i (valAt m (.bin op (.leaf v) s) i)) ∧
      ∀ q, ¬ Covers v q → m' q = m q := by
  have hy' : Yields ⟨v.ext, .zip op (.cells v.enum) src.it⟩ v.ext (.bin op (.leaf v) s) := by
    refine ⟨rfl, by simp [It.count, enum_length, hy.count], ?_⟩
    intro m k i hi
    simp only [It.deref, hy.deref m k i hi, valAt, AView.enum, List.getElem?_map, hi, Option.map_some,
      read_toRes]
    cases m (v.pos i) <;> cases valAt m s i <;> rfl
  have hval' : ∀ i, InB v.ext i → valAt m (.bin op (.leaf v) s) i ≠ none := by
    intro i hi
    have h1 := hal i hi
    have h2 := hval i hi
    simp only [valAt]
    cases h3 : m (v.pos i) with
    | none => exact (h1 h3).elim
    | some a =>
      cases h4 : valAt m s i with
      | none => exact (h2 h4).elim
      | some b => simp
  obtain ⟨xs, hl, hx⟩ := values_exist hval'
  obtain ⟨m', h1, h2, h3⟩ := assign_cells hy' rfl hdis hal hl hx (by
    intro i j hi hj hlt hc
    simp only [cellsAt, List.singleton_append, List.mem_cons] at hc
    rcases hc with hc | hc
    · rw [hdis j i hj hi hc] at hlt; omega
    · exact hord i j hi hj hlt hc)
  refine ⟨m', ?_, reads_of ho rfl hx hl h2, h3⟩
  rw [← h1]
  apply updLoop_congr
  intro j p hp m
  simp [It.deref, hp]

/-- **C21.** `v op= e`: every element `x` of `v` becomes `x op y`, with `y` the value `e` had before at the
same multi-index, when `e` reads cells of `v` only at the multi-index being updated or at later ones;
nothing else changes. -/
theorem C21_inplace {o : Obj} {v : AView} (ho : Observes o v) (hne : v.ext ≠ []) (hdis : Distinct v)
    {m : Mem α} (hal : Alive m v) {e : Ex Obj α} {s : Ex AView α} (he : Denotes e s)
    (hd : ∀ x ∈ exts s, x = v.ext) (hval : ∀ i, InB v.ext i → valAt m s i ≠ none) (op : α → α → α)
    (hord : ∀ i j, InB v.ext i → InB v.ext j → v.pos j ∈ cellsAt s i → cmSum v.ext i ≤ cmSum v.ext j)
    (chk : Bool) :
    ∃ m', inPlaceExpr Arith.exact chk o op e m = .ok m' ∧
      (∀ i, InB v.ext i → ∃ x y, m (v.pos i) = some x ∧ valAt m s i = some y ∧ Reads m' o i (some (op x y))) ∧
      ∀ q, ¬ Covers v q → m' q = m q := by
  obtain ⟨src, hb, hy⟩ := build_ok (chk := chk) he hd
  obtain ⟨m', h1, h2, h3⟩ := inPlace_core ho hdis hal hy hval op
    (fun i j hi hj hlt hc => by have := hord i j hi hj hc; omega)
  refine ⟨m', ?_, ?_, h3⟩
  · simp only [inPlaceExpr, hb, res_ok_bind, observes_dims ho hne, hy.dims, ho.iterate, BEq.rfl, dbg_any_true, ne_eq, not_true_eq_false, if_false]
    exact h1
  · intro i hi
    have := h2 i hi
    simp only [valAt] at this
    cases h3 : m (v.pos i) with
    | none => exact (hal i hi h3).elim
    | some a =>
      cases h4 : valAt m s i with
      | none => exact (hval i hi h4).elim
      | some b => exact ⟨a, b, rfl, rfl, by simpa [h3, h4] using this⟩

/-- **C21.** `v op= v`-like right-hand sides built from `v` itself at the same multi-index satisfy the
order condition: e.g. `v += v * v`. -/
example (v : AView) (h : Distinct v) (f : α → α → α) : ∀ i j, InB v.ext i → InB v.ext j →
    v.pos j ∈ cellsAt (.bin f (.leaf v) (.leaf v) : Ex AView α) i → cmSum v.ext i ≤ cmSum v.ext j := by
  intro i j hi hj hc
  simp only [cellsAt, List.mem_append, List.mem_singleton, or_self] at hc
  rw [h j i hj hi hc]; exact Nat.le_refl _

/-- **C21.** Different extents of the same order are reported in a checked build; different orders do not compile. -/
theorem C21_mismatch {o : Obj} {v : AView} (ho : Observes o v) (hne : v.ext ≠ []) {m : Mem α}
    {e : Ex Obj α} {s : Ex AView α} (he : Denotes e s) {d : List Nat} (hd : ∀ x ∈ exts s, x = d)
    (hdv : d ≠ v.ext) (op : α → α → α) :
    inPlaceExpr Arith.exact true o op e m = .error (if d.length = v.ext.length then .assert else .illFormed) := by
  obtain ⟨src, hb, hy⟩ := build_ok (chk := true) he hd
  by_cases hl : d.length = v.ext.length
  · simp [inPlaceExpr, hb, observes_dims ho hne, hy.dims, hdv.symm, dbg, hl]
  · have hl' : ¬ v.ext.length = d.length := fun h => hl h.symm
    simp [inPlaceExpr, hb, observes_dims ho hne, hy.dims, hl, hl']

/-- **C21, partial.** `v op= scalar` when the scalar is a value or a cell outside `v`: every element `x`
becomes `x op scalar`. Missing: the scalar is an element of `v` itself (false, see below). -/
theorem C21_inplace_scalar_partial {o : Obj} {v : AView} (ho : Observes o v)
    (hdis : Distinct v) {m : Mem α} (hal : Alive m v) {sc : Scalar α} {y : α} (hsc : sc.get m = .ok y)
    (hout : ∀ p, sc = .cell p → ¬ Covers v p) (op : α → α → α) :
    ∃ m', inPlaceScalar Arith.exact o op sc m = .ok m' ∧
      (∀ i, InB v.ext i → ∃ x, m (v.pos i) = some x ∧ Reads m' o i (some (op x y))) ∧
      ∀ q, ¬ Covers v q → m' q = m q := by
  have key : ∃ m', updLoop (fun _ p m => (do
        let a ← m.read p
        let b ← sc.get m
        .ok (op a b) : Res α)) 0 v.enum m = .ok m' ∧
      (∀ i, InB v.ext i → ∃ x, m (v.pos i) = some x ∧ Reads m' o i (some (op x y))) ∧
      ∀ q, ¬ Covers v q → m' q = m q := by
    have hvals : ∀ i, InB v.ext i → valAt m (.un (fun x => op x y) (.leaf v)) i ≠ none := by
      intro i hi
      have := hal i hi
      simp only [valAt]
      cases h : m (v.pos i) with
      | none => exact (this h).elim
      | some a => simp
    obtain ⟨xs, hl, hx⟩ := values_exist hvals
    obtain ⟨m', h1, h2, h3⟩ := updLoop_ok (fun _ p m => (do
        let a ← m.read p
        let b ← sc.get m
        .ok (op a b) : Res α)) v.enum xs 0 m (by rw [enum_length, hl]) (distinct_nodup hdis)
      (alive_enum hal) (by
        intro j p x hp hxj m1 hm1
        obtain ⟨i, hi, hk, rfl, hmi⟩ := enum_getElem?_some hp
        have hp1 : m1 (v.pos i) = m (v.pos i) := hm1 _ (by
          intro hc
          obtain ⟨i', hi', hlt, he⟩ := mem_take_enum hc
          rw [hdis i' i hi' hi he] at hlt; omega)
        have hs1 : sc.get m1 = .ok y := by
          cases hsceq : sc with
          | val z => rw [hsceq] at hsc; exact hsc
          | cell c =>
            rw [hsceq] at hsc
            simp only [Scalar.get, read_toRes] at hsc ⊢
            rw [hm1 c]; exact hsc
            intro hc
            obtain ⟨i', hi', _, he⟩ := mem_take_enum hc
            exact hout c hsceq ⟨i', hi', he⟩
        have hxv := hx j i hmi
        rw [hxj] at hxv
        simp only [valAt] at hxv
        cases hm : m (v.pos i) with
        | none => exact (hal i hi hm).elim
        | some a =>
          rw [hm] at hxv
          simp only [Option.map_some, Option.some.injEq] at hxv
          simp [read_toRes, hp1, hm, toRes, hs1, hxv])
    refine ⟨m', h1, ?_, fun q hq => h3 q fun h => hq (mem_enum.1 h)⟩
    intro i hi
    have := reads_of ho rfl hx hl h2 i hi
    simp only [valAt] at this
    cases hm : m (v.pos i) with
    | none => exact (hal i hi hm).elim
    | some a => exact ⟨a, rfl, by simpa [hm] using this⟩
  obtain ⟨m', h1, h2, h3⟩ := key
  exact ⟨m', by simp only [inPlaceScalar, ho.iterate, res_ok_bind]; exact h1, h2, h3⟩

/-- What `v op= scalar` does when the scalar is an element of `v` itself: the elements up to and including it (in column-major order) are combined with its
old value `y`, the elements after it with its new value `y op y`. So the claim fails exactly when `x op y` and `x op (y op y)` differ for some
later element `x`. -/
theorem C21_scalar_alias {o : Obj} {v : AView} (ho : Observes o v) (hdis : Distinct v) {m : Mem α} (hal : Alive m v) {i0 : List Nat}
    (hi0 : InB v.ext i0) {y : α} (hy : m (v.pos i0) = some y) (op : α → α → α) :
    ∃ m', inPlaceScalar Arith.exact o op (.cell (v.pos i0)) m = .ok m' ∧
      (∀ i, InB v.ext i → ∃ x, m (v.pos i) = some x ∧
        Reads m' o i (some (op x (if cmPos v.ext i ≤ cmPos v.ext i0 then y else op y y)))) ∧
      ∀ q, ¬ Covers v q → m' q = m q := by
  have hex : ∀ i, InB v.ext i → ∃ x, m (v.pos i) = some x := by
    intro i hi
    cases h : m (v.pos i) with
    | none => exact (hal i hi h).elim
    | some x => exact ⟨x, rfl⟩
  let F : List Nat → Option α := fun i => (m (v.pos i)).map fun x => op x (if cmPos v.ext i ≤ cmPos v.ext i0 then y else op y y)
  obtain ⟨hl, hx⟩ := filterMap_total (F := F) (l := multiIdx v.ext) fun i hi => by
    obtain ⟨x, hx⟩ := hex i (mem_multiIdx.1 hi)
    simp [F, hx]
  generalize (multiIdx v.ext).filterMap F = xs at hl hx
  rw [multiIdx_length] at hl
  obtain ⟨m', h1, h2, h3⟩ := updLoop_seq (fun _ p m => (do
      let a ← m.read p
      let b ← (Scalar.cell (v.pos i0)).get m
      .ok (op a b) : Res α)) v.enum xs 0 m (by rw [enum_length, hl]) (distinct_nodup hdis) (alive_enum hal) (by
    intro j p x hp hxj m1 hm1 hw
    obtain ⟨i, hi, hk, rfl, hmi⟩ := enum_getElem?_some hp
    have hp1 : m1 (v.pos i) = m (v.pos i) := hm1 _ (by
      intro hc
      obtain ⟨i', hi', hlt, he⟩ := mem_take_enum hc
      rw [hdis i' i hi' hi he] at hlt; omega)
    obtain ⟨a, ha⟩ := hex i hi
    have hxv := hx j i hmi
    rw [hxj] at hxv
    simp only [F, ha, Option.map_some, Option.some.injEq] at hxv
    by_cases hle : cmPos v.ext i ≤ cmPos v.ext i0
    · have hs1 : m1 (v.pos i0) = some y := by
        rw [hm1 _ (by
          intro hc
          obtain ⟨i', hi', hlt, he⟩ := mem_take_enum hc
          rw [hdis i' i0 hi' hi0 he] at hlt; omega), hy]
      simp only [if_pos hle] at hxv
      simp [read_toRes, hp1, ha, toRes, Scalar.get, hs1, hxv]
    · have hs1 : m1 (v.pos i0) = some (op y y) := by
        have hm0 := multiIdx_getElem? hi0
        refine hw (cmPos v.ext i0) (v.pos i0) (op y y) (by omega) (by simp [AView.enum, hm0]) ?_
        rw [hx _ _ hm0]; simp [F, hy]
      simp only [if_neg hle] at hxv
      simp [read_toRes, hp1, ha, toRes, Scalar.get, hs1, hxv])
  refine ⟨m', by simp only [inPlaceScalar, ho.iterate, res_ok_bind]; exact h1, ?_, fun q hq => h3 q fun h => hq (mem_enum.1 h)⟩
  intro i hi
  obtain ⟨x, hxi⟩ := hex i hi
  have hm0 := multiIdx_getElem? hi
  refine ⟨x, hxi, v.pos i, ho.element i hi, ?_⟩
  refine h2 (cmPos v.ext i) (v.pos i) _ (by simp [AView.enum, hm0]) ?_
  rw [hx _ _ hm0]; simp [F, hxi]

/-- **C21 is false when the scalar is an element of the array**: `a += a[0]` on (1, 2, 3) gives (2, 4, 5)
instead of (2, 3, 4), because the scalar is captured by reference and `a[0]` is updated first. -/
theorem C21_scalar_alias_wrong :
    (inPlaceScalar Arith.exact (.cref 0 [3]) (· + ·) (.cell 0) (mem3 1 2 3)).map
      (fun m => (List.range 3).map m) = .ok [some 2, some 4, some 5] := by rfl

/-- **C21.** `apply(in_place, v, f)` replaces each element by `f` of it, once. -/
theorem C21_apply {o : Obj} {v : AView} (ho : Observes o v) (hdis : Distinct v) {m : Mem α}
    (hal : Alive m v) (f : α → α) :
    ∃ m', applyInPlace Arith.exact o f m = .ok m' ∧
      (∀ i, InB v.ext i → ∃ x, m (v.pos i) = some x ∧ Reads m' o i (some (f x))) ∧
      ∀ q, ¬ Covers v q → m' q = m q := by
  have hvals : ∀ i, InB v.ext i → valAt m (.un f (.leaf v)) i ≠ none := by
    intro i hi
    have := hal i hi
    simp only [valAt]
    cases h : m (v.pos i) with
    | none => exact (this h).elim
    | some a => simp
  obtain ⟨xs, hl, hx⟩ := values_exist hvals
  have hy : Yields ⟨v.ext, .map f (.cells v.enum)⟩ v.ext (.un f (.leaf v)) := by
    refine ⟨rfl, by simp [It.count, enum_length], ?_⟩
    intro m k i hi
    simp only [It.deref, valAt, AView.enum, List.getElem?_map, hi, Option.map_some, read_toRes]
    cases m (v.pos i) <;> rfl
  obtain ⟨m', h1, h2, h3⟩ := assign_cells hy rfl hdis hal hl hx (by
    intro i j hi hj hlt hc
    simp only [cellsAt, List.mem_singleton] at hc
    rw [hdis j i hj hi hc] at hlt; omega)
  refine ⟨m', ?_, ?_, h3⟩
  · simp only [applyInPlace, ho.iterate, res_ok_bind]
    rw [← h1]
    apply updLoop_congr
    intro j p hp m
    simp [It.deref, hp]
  · intro i hi
    have := reads_of ho rfl hx hl h2 i hi
    simp only [valAt] at this
    cases hm : m (v.pos i) with
    | none => exact (hal i hi hm).elim
    | some a => exact ⟨a, rfl, by simpa [hm] using this⟩

example : (inPlaceScalar Arith.exact (.sref 0 (.ident ⟨0, [2], [2]⟩)) (· + ·) (.cell 1) (mem3 1 2 3)).map
    (fun m => (List.range 3).map m) = .ok [some 3, some 2, some 5] := by rfl

/-! ### C22 -/

theorem array_enum (b : Nat) (d : List Nat) : (arrayView b d).enum = (List.range (prod d)).map (b + ·) := by
  rw [← multiIdx_map_cmPos, List.map_map]
  apply List.map_congr_left
  intro i hi
  have hi : i ∈ multiIdx d := hi
  simp only [arrayView, Function.comp]
  rw [cmPos_eq_sum (inB_length (mem_multiIdx.1 hi))]

/-- Building a new block from the values and freeing the old one. -/
theorem realloc {a : Arr} {s : Ex AView α} {d : List Nat} (hd0 : d ≠ []) {m : Mem α}
    (hal : Alive m (arrayView a.base a.ext)) (hval : ∀ i, InB d i → valAt m s i ≠ none) {fresh : Nat}
    (hf : ∀ k, k < prod d → m (fresh + k) = none) {xs : List α} (hl : xs.length = prod d)
    (hx : ∀ (k : Nat) (i : List Nat), (multiIdx d)[k]? = some i → xs[k]? = valAt m s i) :
    (∀ i, InB d i → Reads ((m.setMany fresh xs).free a.base (prod a.ext)) (.cref fresh d) i (valAt m s i)) ∧
      (∀ q, (m.setMany fresh xs).free a.base (prod a.ext) q ≠ none ↔
        (m q ≠ none ∧ ¬ Covers (arrayView a.base a.ext) q) ∨ Covers (arrayView fresh d) q) ∧
      (∀ q, m q ≠ none → ¬ Covers (arrayView a.base a.ext) q →
        (m.setMany fresh xs).free a.base (prod a.ext) q = m q) ∧
      ∀ q, Covers (arrayView fresh d) q → Covers (arrayView a.base a.ext) q ∨ m q = none := by
  have hfr : ∀ q, m q ≠ none → ¬ Covers (arrayView fresh d) q := by
    intro q hq hc
    rw [arrayView_covers] at hc
    exact hq (by have := hf (q - fresh) (by omega); rwa [show fresh + (q - fresh) = q by omega] at this)
  have hfa : ∀ q, Covers (arrayView a.base a.ext) q → ¬ Covers (arrayView fresh d) q := by
    rintro q ⟨i, hi, rfl⟩; exact hfr _ (hal i hi)
  have hma : ∀ q, Covers (arrayView a.base a.ext) q → ((m.setMany fresh xs).free a.base (prod a.ext)) q = none := by
    intro q h; rw [Mem.free, if_pos (arrayView_covers.1 h)]
  have hmo : ∀ q, ¬ Covers (arrayView a.base a.ext) q →
      ((m.setMany fresh xs).free a.base (prod a.ext)) q = (m.setMany fresh xs) q := by
    intro q h; rw [Mem.free, if_neg fun h' => h (arrayView_covers.2 h')]
  have hnew : ∀ i, InB d i → (m.setMany fresh xs) (fresh + cmSum d i) = valAt m s i := by
    intro i hi
    have hk := multiIdx_getElem? hi
    rw [cmPos_eq_sum (inB_length hi)] at hk
    rw [← hx _ _ hk]
    exact setMany_in (by rw [hl]; exact cmSum_lt hi)
  refine ⟨?_, ?_, ?_, fun q hq => .inr (Classical.byContradiction fun h => hfr q h hq)⟩
  · intro i hi
    refine ⟨_, (array_observes fresh hd0).element i hi, ?_⟩
    have hc : Covers (arrayView fresh d) ((arrayView fresh d).pos i) := ⟨i, hi, rfl⟩
    rw [hmo _ fun h => hfa _ h hc]
    exact hnew i hi
  · intro q
    by_cases hqa : Covers (arrayView a.base a.ext) q
    · simp [hqa, hfa q hqa, hma q hqa]
    · rw [hmo q hqa]
      simp only [hqa, if_false, not_false_eq_true, and_true]
      by_cases hqf : Covers (arrayView fresh d) q
      · obtain ⟨i, hi, rfl⟩ := hqf
        have h1 := hnew i hi
        have h2 := hval i hi
        rw [← h1] at h2
        exact ⟨fun _ => .inr ⟨i, hi, rfl⟩, fun _ => h2⟩
      · rw [setMany_out (by rw [hl]; rwa [arrayView_covers] at hqf)]
        exact ⟨fun h => .inl h, fun h => h.resolve_right hqf⟩
  · intro q hq hqa
    rw [hmo q hqa, setMany_out (by rw [hl]; have := hfr q hq; rwa [arrayView_covers] at this)]

/-- **C22.** `a = e` for an array `a` and an expression `e` with extents `d`. When the sizes are equal (the
assignment is done in place) `e` may read cells of `a` only at the position being written or later ones.
Afterwards `a` has extents `d` and the elements `e` had before; the live cells are those live before,
without the old cells of `a`, together with the present cells of `a`; all other cells keep their values. The present cells of `a` are old
ones of `a` or were free. -/
theorem C22_assign {a : Arr} {e : Ex Obj α} {s : Ex AView α} (he : Denotes e s) {d : List Nat} (hd0 : d ≠ [])
    (hd : ∀ x ∈ exts s, x = d) {m : Mem α} (hal : Alive m (arrayView a.base a.ext))
    (hval : ∀ i, InB d i → valAt m s i ≠ none) {fresh : Nat}
    (hf : ∀ k, k < prod d → m (fresh + k) = none)
    (hord : prod a.ext = prod d → ∀ i, InB d i → ∀ c ∈ cellsAt s i, Covers (arrayView a.base a.ext) c →
      a.base + cmSum d i ≤ c) (chk : Bool) :
    ∃ m' b, assignArray Arith.exact chk a e m fresh = .ok (m', b) ∧ b.ext = d ∧
      (∀ i, InB d i → Reads m' (.cref b.base b.ext) i (valAt m s i)) ∧
      (∀ q, m' q ≠ none ↔ (m q ≠ none ∧ ¬ Covers (arrayView a.base a.ext) q) ∨
        Covers (arrayView b.base b.ext) q) ∧
      (∀ q, m q ≠ none → ¬ Covers (arrayView a.base a.ext) q → m' q = m q) ∧
      ∀ q, Covers (arrayView b.base b.ext) q → Covers (arrayView a.base a.ext) q ∨ m q = none := by
  obtain ⟨src, hb, hy⟩ := build_ok (chk := chk) he hd
  obtain ⟨xs, hl, hx⟩ := values_exist hval
  by_cases hs : prod a.ext = prod d
  · -- in place
    have hcov : ∀ q, Covers (arrayView a.base a.ext) q ↔ Covers (arrayView a.base d) q := by
      intro q; rw [arrayView_covers, arrayView_covers, hs]
    have hal' : Alive m (arrayView a.base d) := by
      intro i hi
      have : Covers (arrayView a.base a.ext) ((arrayView a.base d).pos i) := (hcov _).2 ⟨i, hi, rfl⟩
      obtain ⟨j, hj, he⟩ := this
      rw [← he]; exact hal j hj
    obtain ⟨m', h1, h2, h3⟩ := assign_cells hy (v := arrayView a.base d) rfl (arrayView_distinct _ _) hal' hl hx
      (by
        intro i j hi hj hlt hc
        have := hord hs i hi _ hc ((hcov _).2 ⟨j, hj, rfl⟩)
        simp only [arrayView] at this hlt
        omega)
    refine ⟨m', ⟨a.base, d⟩, ?_, rfl, ?_, ?_, ?_, fun q hq => .inl ((hcov q).2 hq)⟩
    · simp only [assignArray, hb, res_ok_bind, arrayAssignExpr, hy.dims, prodL_exact, hs, if_true, hy.count,
        Nat.lt_irrefl, if_false]
      rw [array_enum] at h1
      simp only [Arith.exact_add, h1, res_ok_bind]
    · exact reads_of (array_observes a.base hd0) rfl hx hl h2
    · intro q
      by_cases hq : Covers (arrayView a.base d) q
      · simp only [hq, or_true, iff_true]
        obtain ⟨i, hi, rfl⟩ := hq
        obtain ⟨p, hp1, hp2⟩ := reads_of (array_observes a.base hd0) rfl hx hl h2 i hi
        rw [(array_observes a.base hd0).element i hi] at hp1
        cases hp1
        rw [hp2]; exact hval i hi
      · have hq' : ¬ Covers (arrayView a.base a.ext) q := fun h => hq ((hcov q).1 h)
        simp [h3 q hq, hq, hq']
    · intro q _ hq
      exact h3 q fun h => hq ((hcov q).2 h)
  · -- new block
    have hn := newArray_ok hy m fresh hl hx
    refine ⟨(m.setMany fresh xs).free a.base (prod a.ext), ⟨fresh, d⟩, ?_, rfl, realloc hd0 hal hval hf hl hx⟩
    simp only [assignArray, hb, res_ok_bind, arrayAssignExpr, hy.dims, prodL_exact, hs, if_false, hn]

/-- **C19.** `overlap(a) = e` for an array `a`: afterwards `a` has `e`'s extents and the elements `e` had
before, whatever `e` reads; everything else is unchanged and nothing else stays allocated. -/
theorem C19_overlap_array {a : Arr} {e : Ex Obj α} {s : Ex AView α} (he : Denotes e s) {d : List Nat} (hd0 : d ≠ [])
    (hd : ∀ x ∈ exts s, x = d) {m : Mem α} (hal : Alive m (arrayView a.base a.ext))
    (hval : ∀ i, InB d i → valAt m s i ≠ none) {fresh : Nat}
    (hf : ∀ k, k < prod d → m (fresh + k) = none) (chk : Bool) :
    ∃ m' b, overlapArray Arith.exact chk a e m fresh = .ok (m', b) ∧ b.ext = d ∧
      (∀ i, InB d i → Reads m' (.cref b.base b.ext) i (valAt m s i)) ∧
      (∀ q, m' q ≠ none ↔ (m q ≠ none ∧ ¬ Covers (arrayView a.base a.ext) q) ∨
        Covers (arrayView b.base b.ext) q) ∧
      (∀ q, m q ≠ none → ¬ Covers (arrayView a.base a.ext) q → m' q = m q) ∧
      ∀ q, Covers (arrayView b.base b.ext) q → Covers (arrayView a.base a.ext) q ∨ m q = none := by
  obtain ⟨src, hb, hy⟩ := build_ok (chk := chk) he hd
  obtain ⟨xs, hl, hx⟩ := values_exist hval
  have hn := newArray_ok hy m fresh hl hx
  refine ⟨(m.setMany fresh xs).free a.base (prod a.ext), ⟨fresh, d⟩, ?_, rfl, realloc hd0 hal hval hf hl hx⟩
  simp only [overlapArray, hb, res_ok_bind, prodL_exact, hn]

/-- **C22.** The same for copying another array: `a = b`. -/
theorem C22_copy {a b : Arr} {m : Mem α} (ha0 : b.ext ≠ []) (hal : Alive m (arrayView a.base a.ext))
    (hb : Alive m (arrayView b.base b.ext))
    (hsep : ∀ q, Covers (arrayView a.base a.ext) q → ¬ Covers (arrayView b.base b.ext) q) {fresh : Nat}
    (hf : ∀ k, k < prod b.ext → m (fresh + k) = none) :
    ∃ m' c, assignArrayCopy Arith.exact a b false m fresh = .ok (m', c) ∧ c.ext = b.ext ∧
      (∀ i, InB b.ext i → Reads m' (.cref c.base c.ext) i (m (b.base + cmSum b.ext i))) ∧
      (∀ q, m' q ≠ none ↔ (m q ≠ none ∧ ¬ Covers (arrayView a.base a.ext) q) ∨
        Covers (arrayView c.base c.ext) q) ∧
      (∀ q, m q ≠ none → ¬ Covers (arrayView a.base a.ext) q → m' q = m q) ∧
      ∀ q, Covers (arrayView c.base c.ext) q → Covers (arrayView a.base a.ext) q ∨ m q = none := by
  have hne := ha0
  obtain ⟨m', c, h1, h2, h3, h5⟩ := C22_assign (a := a) (e := .leaf (.cref b.base b.ext))
    (s := .leaf (arrayView b.base b.ext)) (.leaf (array_observes b.base hne) hne) hne
    (by simp [exts, arrayView]) hal (fun i hi => hb i hi) hf
    (by
      intro _ i hi c hc hcov
      simp only [cellsAt, List.mem_singleton] at hc
      exact (hsep c hcov ⟨i, hi, hc.symm⟩).elim) true
  refine ⟨m', c, ?_, h2, h3, h5⟩
  simpa [assignArray, assignArrayCopy, Ex.build, Obj.dims, Obj.positions] using h1

/-- **C22.** What the precondition on the extents protects from: without checks, assigning to an array an expression whose operands have
different numbers of elements is undefined when the left operand's number is the array's (the copy never meets the end). -/
theorem C22_mismatch_unchecked {a : Arr} {f : α → α → α} {e₁ e₂ : Ex Obj α} {s₁ s₂ : Ex AView α} (h₁ : Denotes e₁ s₁)
    (h₂ : Denotes e₂ s₂) {d₁ d₂ : List Nat} (hd₁ : ∀ x ∈ exts s₁, x = d₁) (hd₂ : ∀ x ∈ exts s₂, x = d₂)
    (hord : d₁.length = d₂.length) (hne : prod d₁ ≠ prod d₂) (ha : prod a.ext = prod d₁) (m : Mem α) (fresh : Nat) :
    assignArray Arith.exact false a (.bin f e₁ e₂) m fresh = .error .ub := by
  obtain ⟨x, b1, y1⟩ := build_ok (chk := false) h₁ hd₁
  obtain ⟨y, b2, y2⟩ := build_ok (chk := false) h₂ hd₂
  simp [assignArray, Ex.build, b1, b2, y1.dims, y2.dims, hord, arrayAssignExpr, prodL_exact, ha, It.count, y1.count, y2.count,
    hne, dbg]

example : assignArray Arith.exact false ⟨0, [2]⟩ (.bin (· + ·) (.leaf (.cref 0 [2])) (.leaf (.cref 0 [3]))) (mem3 1 2 3) 10 =
    .error .ub := by rfl

/-- **C22.** Self-assignment changes nothing. -/
theorem C22_self (a : Arr) (m : Mem α) (fresh : Nat) :
    assignArrayCopy Arith.exact a a true m fresh = .ok (m, a) := rfl

/-- `a = a + a` (in place) and `a = cat`-like growth (new block). -/
example : (assignArray Arith.exact true ⟨0, [3]⟩ (.bin (· + ·) (.leaf (.cref 0 [3])) (.leaf (.cref 0 [3])))
    (mem3 1 2 3) 10).map (fun r => ((List.range 14).map r.1, r.2)) =
    .ok ([some 2, some 4, some 6] ++ List.replicate 11 none, ⟨0, [3]⟩) := by rfl
example : (assignArray Arith.exact true ⟨0, [3]⟩ (.leaf (.sref 0 (.ident ⟨1, [2], [1]⟩)))
    (mem3 1 2 3) 10).map (fun r => ((List.range 14).map r.1, r.2)) =
    .ok (List.replicate 10 none ++ [some 2, some 3, none, none], ⟨10, [2]⟩) := by rfl

/-! ### The hypotheses hold in concrete cases

`v` is the vector (1, 2, 3) at addresses 0..2; the right-hand side is `v * v`, reading `v` itself. -/

theorem mem3_alive : Alive (mem3 1 2 3) (arrayView 0 [3]) := by
  intro i hi
  obtain ⟨k, t, rfl, hk, ht⟩ := inB_cons.1 hi
  have ht : InB [] t := ht
  rw [inB_nil] at ht
  subst ht
  match k, hk with
  | 0, _ => decide
  | 1, _ => decide
  | 2, _ => decide

/-- `v * v`. -/
def sq (L : Type) (l : L) : Ex L Nat := .bin (· * ·) (.leaf l) (.leaf l)

theorem sq_denotes : Denotes (sq Obj (.cref 0 [3])) (sq AView (arrayView 0 [3])) :=
  .bin (.leaf (array_observes 0 (by simp)) (by simp [arrayView])) (.leaf (array_observes 0 (by simp)) (by simp [arrayView]))

theorem sq_val : ∀ i, InB [3] i → valAt (mem3 1 2 3) (sq AView (arrayView 0 [3])) i ≠ none := by
  intro i hi
  have := mem3_alive i hi
  simp only [valAt, sq]
  cases h : mem3 1 2 3 ((arrayView 0 [3]).pos i) with
  | none => exact (this h).elim
  | some x => simp

theorem sq_cells : ∀ i c, c ∈ cellsAt (sq AView (arrayView 0 [3])) i → c = (arrayView 0 [3]).pos i := by
  intro i c hc; simpa [sq, cellsAt] using hc

example := C17_fill (array_observes 0 (d := [3]) (by simp)) mem3_alive (sc := .cell 1) (x := 2) rfl
example := C18_assign (array_observes 0 (d := [3]) (by simp)) (by simp [arrayView]) (arrayView_distinct _ _) mem3_alive
  sq_denotes (by simp [exts, sq, arrayView]) sq_val
  (by
    intro i j hi hj hlt hc
    rw [arrayView_distinct _ _ j i hj hi (sq_cells i _ hc)] at hlt; omega) true
example := C19_overlap (array_observes 0 (d := [3]) (by simp)) (by simp [arrayView]) (arrayView_distinct _ _) mem3_alive
  sq_denotes (by simp [exts, sq, arrayView]) sq_val (fresh := 10) (by intro k _; simp [mem3]; omega) true
example := C20_elementwise sq_denotes (d := [3]) (by simp) (by simp [exts, sq, arrayView]) sq_val (fresh := 10)
  (by intro k _; simp [mem3]; omega) true
example := C20_scalar_order (array_observes 0 (d := [3]) (by simp)) (by simp [arrayView]) mem3_alive (fresh := 10)
  (by intro k _; simp [mem3]; omega) (· - ·) 9 true
example := C21_inplace (array_observes 0 (d := [3]) (by simp)) (by simp [arrayView]) (arrayView_distinct _ _) mem3_alive
  sq_denotes (by simp [exts, sq, arrayView]) sq_val (· + ·)
  (by
    intro i j hi hj hc
    rw [arrayView_distinct _ _ j i hj hi (sq_cells i _ hc)]; exact Nat.le_refl _) true
example := C21_inplace_scalar_partial (array_observes 0 (d := [3]) (by simp)) (arrayView_distinct _ _) mem3_alive
  (sc := .val 5) (y := 5) rfl (by simp) (· + ·)
example := C22_assign (a := ⟨0, [3]⟩) sq_denotes (d := [3]) (by simp) (by simp [exts, sq, arrayView]) mem3_alive sq_val
  (fresh := 10) (by intro k _; simp [mem3]; omega)
  (by
    intro _ i _ c hc _
    rw [sq_cells i c hc]; simp [arrayView]) true

/-- Two vectors: (1, 2, 3) at addresses 0..2 and (4, 5, 6) at 3..5. -/
def mem6 : Mem Nat := fun p => [1, 2, 3, 4, 5, 6][p]?

theorem mem6_alive (b : Nat) (hb : b ≤ 3) : Alive mem6 (arrayView b [3]) := by
  intro i hi
  have h : cmSum [3] i < prod [3] := cmSum_lt hi
  simp only [mem6, arrayView, ne_eq]
  have h1 : prod [3] = 3 := rfl
  intro hc
  have := List.getElem?_eq_none_iff.1 hc
  simp only [List.length_cons, List.length_nil] at this
  omega

theorem mem6_apart : ∀ q, Covers (arrayView 0 [3]) q → ¬ Covers (arrayView 3 [3]) q := by
  intro q h1 h2
  have := arrayView_covers.1 h1
  have := arrayView_covers.1 h2
  have : prod [3] = 3 := rfl
  omega

example := C18_assign_disjoint (array_observes 0 (d := [3]) (by simp)) (array_observes 3 (d := [3]) (by simp)) (by simp [arrayView]) (arrayView_distinct _ _)
  (mem6_alive 0 (by decide)) (mem6_alive 3 (by decide)) rfl mem6_apart true
example := C18_assign_same (array_observes 0 (d := [3]) (by simp)) (array_observes 0 (d := [3]) (by simp)) (by simp [arrayView]) (arrayView_distinct _ _) mem3_alive
  ⟨rfl, fun _ _ => rfl⟩ true
example := C21_mismatch (array_observes 0 (d := [2]) (by simp)) (by simp [arrayView]) (m := mem3 1 2 3) sq_denotes (d := [3]) (by simp [exts, sq, arrayView]) (by decide) (· + ·)
example := C21_scalar_alias (array_observes 0 (d := [3]) (by simp)) (arrayView_distinct _ _) mem3_alive (i0 := [1]) (by decide) (y := 2) rfl (· + ·)
example := C19_overlap_array (a := ⟨0, [3]⟩) sq_denotes (d := [3]) (by simp) (by simp [exts, sq, arrayView]) mem3_alive sq_val (fresh := 10)
  (by intro k _; simp [mem3]; omega) true
example := C22_copy (a := ⟨0, [3]⟩) (b := ⟨3, [3]⟩) (m := mem6) (by decide) (mem6_alive 0 (by decide)) (mem6_alive 3 (by decide)) mem6_apart (fresh := 10)
  (by intro k _; simp only [mem6, List.getElem?_eq_none_iff]; simp; omega)

end Jules.Props

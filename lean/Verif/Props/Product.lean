import Verif.Model.Product
import Verif.Lemmas.Compile
import Verif.Lemmas.Memory
import Verif.Props.Reshape
import Mathlib.Algebra.BigOperators.Group.Finset.Basic
import Mathlib.Algebra.BigOperators.Ring.Finset
/-
C29: matrix multiplication.
-/
namespace Jules.Props
open Spec

/-- A chain of index expressions `h` applied in a checked build to an array with extents `e` stored at `off` gives the view `o`,
which means `v`. -/
def ViewAt (off : Nat) (e : List Nat) (h : List Ix) (o : Obj) (v : AView) : Prop :=
  e ≠ [] ∧ (Obj.cref off e).run Arith.exact true h = .ok o ∧ meaning off e h = .view v

theorem viewAt_wf {off : Nat} {e : List Nat} {h : List Ix} {o : Obj} {v : AView} (hv : ViewAt off e h o v) :
    o.WF ∧ SameObj o.abs (.view v) := by
  obtain ⟨h1, h2, h3⟩ := hv
  obtain ⟨w, s, _⟩ := run_meaning h1 h2
  rw [h3] at s
  exact ⟨w, s⟩

theorem view_not_elem {o : Obj} {v : AView} (hs : SameObj o.abs (.view v)) (hne : v.ext ≠ []) : ∀ p, o ≠ .elem p := by
  rintro p rfl
  exact hne hs.1.symm

/-- One legal step from a view. -/
theorem view_step {o : Obj} {v : AView} {ix : Ix} (hwf : o.WF) (hs : SameObj o.abs (.view v)) (hne : v.ext ≠ [])
    (hl : Legal (.view v) ix) : ∃ o', o.index Arith.exact true ix = .ok o' ∧ o'.WF ∧ SameObj o'.abs (astep (.view v) ix) ∧ o'.ArgsPos := by
  have hp : o.ArgsPos := by
    cases o with
    | proxy => exact hs.elim
    | _ => trivial
  obtain ⟨o', h1, h2⟩ := legal_step hwf hp hs trivial hl (noIF_index hwf (view_not_elem hs hne) (by
    rintro off ext M i rfl; exact hs.elim))
  have st := (index_step hwf h1).congr hs
  exact ⟨o', h1, st.wf, st.same, h2⟩

theorem choose_range1 {k t : Nat} (h : t < k) : choose [List.range k] [t] = [t] := by
  simp [choose, h]

theorem inB_one {k : Nat} {i : List Nat} (h : InB [k] i) : ∃ t, i = [t] ∧ t < k := by
  obtain ⟨t, l, rfl⟩ : ∃ t l, i = t :: l := by
    cases i with
    | nil => simpa using inB_length h
    | cons t l => exact ⟨t, l, rfl⟩
  have hl := inB_length h
  simp at hl
  subst hl
  exact ⟨t, rfl, by simpa [InB] using h⟩

theorem observes_congr {o : Obj} {v w : AView} (h : Observes o v) (hs : SameView v w) : Observes o w := by
  have he : v.enum = w.enum := by
    unfold AView.enum
    rw [← hs.1]
    exact List.map_congr_left fun i hi => hs.2 i (mem_multiIdx.1 hi)
  refine ⟨by rw [h.dims, hs.1], by rw [h.iterate, he], ?_, ?_⟩
  · intro i hi
    rw [← hs.1] at hi
    rw [h.element i hi, hs.2 i hi]
  · intro i hl hi
    rw [← hs.1] at hl hi
    exact h.reject i hl hi

/-- `a[i][every]` is row `i`. -/
theorem row_view {o : Obj} {v : AView} (hwf : o.WF) (hs : SameObj o.abs (.view v)) {r k : Nat} (he : v.ext = [r, k])
    (hk : k ≠ 0) {i : Nat} (hi : i < r) :
    ∃ o', o.run Arith.exact true [.at i, .every] = .ok o' ∧ Observes o' ⟨[k], fun t => v.pos (i :: t)⟩ := by
  obtain ⟨o1, a1, a2, a3, _⟩ := view_step (ix := .at i) hwf hs (by rw [he]; simp)
    ⟨by rw [he]; simp; omega, trivial, by simp [sel], by simp [sel, he, hi]⟩
  have hx : (fixFirst v i).ext = [k] := by simp [fixFirst, he]
  obtain ⟨o2, b1, b2, b3, _⟩ := view_step (v := fixFirst v i) (ix := .every) a2 a3 (by rw [hx]; simp)
    ⟨by rw [hx]; simpa using hk, trivial, by simpa [sel, hx] using hk, by simp [sel, hx]⟩
  refine ⟨o2, by simp [Obj.run, a1, b1], ?_⟩
  have b4 : SameObj o2.abs (.view (restrict (fixFirst v i) [List.range k])) := by
    simpa [astep, close, hx, sel] using b3
  refine observes_congr (observes b2 b4) ⟨by simp [restrict], ?_⟩
  intro j hj
  have hj : InB [k] j := by simpa [restrict] using hj
  obtain ⟨t, rfl, ht⟩ := inB_one hj
  simp [restrict, choose_range1 ht, fixFirst]

theorem multiIdx_one (k : Nat) : multiIdx [k] = (List.range k).map fun t => [t] := by
  simp [multiIdx, cart]

/-- `drop(b[every][j])` is column `j`, unless the view is index-mapped. -/
theorem col_view {o : Obj} {v : AView} (hwf : o.WF) (hs : SameObj o.abs (.view v)) {k p : Nat} (he : v.ext = [k, p])
    (hk : k ≠ 0) {j : Nat} (hj : j < p) (hnv : ∀ off d idx, o ≠ .sref off (.vec d idx)) :
    ∃ o1 o', o.run Arith.exact true [.every, .at j] = .ok o1 ∧ dropTo Arith.exact true 1 o1 = .ok o' ∧
      Observes o' ⟨[k], fun t => v.pos (t ++ [j])⟩ := by
  have hz : ∀ x ∈ v.ext, x ≠ 0 := by rw [he]; simp; omega
  obtain ⟨o1, a1, a2, a3, a4⟩ := view_step (ix := .every) hwf hs (by rw [he]; simp)
    ⟨hz, trivial, by simpa [sel, he] using hk, by simp [sel, he]⟩
  have a5 : SameObj o1.abs (.part v [List.range k]) := by
    simpa [astep, close, he, sel] using a3
  have hleg : Legal (.part v [List.range k]) (.at j) := ⟨hz, trivial, by simp [sel], by simp [sel, he, hj]⟩
  have hg : AGood (.part v [List.range k]) := by
    refine ⟨by simp [he], ?_, by simpa using hk⟩
    intro n l e h1 h2 x hx
    cases n with
    | zero => simp [he] at h1 h2; subst h1 h2; simpa using hx
    | succ n => simp at h1
  obtain ⟨o2, b1, b2⟩ := legal_step a2 a4 a5 hg hleg (noIF_index a2 (by rintro q rfl; exact a5.elim) (by
    rintro off ext M i rfl _
    have h1 : ext.length = 2 := by
      have h3 := a5.1.1
      have h4 : ext = v.ext := h3
      rw [h4, he]; rfl
    have h2 : 1 ≤ M ∧ M < ext.length := a2
    omega))
  have st := (index_step a2 b1).congr a5
  have hc : choose [List.range k, [j]] = choose [List.range k, [j]] := rfl
  have c1 : SameObj o2.abs (.view (restrict v [List.range k, [j]])) := by
    simpa [astep, close, he, sel] using st.same
  have hrun : o.run Arith.exact true [.every, .at j] = .ok o2 := by simp [Obj.run, a1, b1]
  have hext : (restrict v [List.range k, [j]]).ext = [k, 1] := by simp [restrict]
  have hcount : 2 - 1 ≤ [k, 1].count 1 := by
    rw [List.count_cons]; simp
  -- the object is not index-mapped
  have hdrop : ∃ o', dropTo Arith.exact true 1 o2 = .ok o' := by
    cases o2 with
    | elem q => rw [← c1.1] at hext; simp [AView.ext] at hext
    | proxy off m args => exact c1.elim
    | everyProxy off ext M => exact c1.elim
    | cref off ext =>
      have hx : ext = [k, 1] := c1.1.trans hext
      subst hx
      exact (C13_accepted_iff off [k, 1] 1 (by omega) (by simp)).1.2 hcount
    | sref off m =>
      have hx := c1.1
      rw [Mapper.aview_ext, hext] at hx
      cases m with
      | ident d =>
        have hx : d.ext = [k, 1] := hx
        obtain ⟨w1, _⟩ := (st.wf : d.WF)
        have := (C13_accepted_iff_strided off d.start d.ext d.strides 1 (by omega) (by rw [hx]; simp) w1).1.2
          (by rw [hx]; exact hcount)
        exact this
      | vec d idx =>
        exfalso
        cases o with
        | elem q => exact view_not_elem hs (by rw [he]; simp) q rfl
        | proxy off m args => exact hs.elim
        | everyProxy off ext M => exact hs.elim
        | cref off' ext =>
          have hx' : ext = [k, p] := hs.1.trans he
          subst hx'
          simp only [Obj.index, crefIndex] at a1
          simp at a1
          subst a1
          simp only [Obj.index, everyIndex] at b1
          simp only [List.length_cons, List.length_nil, Nat.zero_add, Nat.reduceAdd, Nat.add_one_sub_one, if_true] at b1
          obtain ⟨_, _, b1⟩ := res_bind_ok.1 b1
          split at b1 <;> cases b1
        | sref off' m =>
          cases m with
          | vec d' idx' => exact hnv _ _ _ rfl
          | ident d' =>
            have hx' : d'.ext = [k, p] := by
              have := hs.1
              rw [Mapper.aview_ext] at this
              exact this.trans he
            simp only [Obj.index, srefIndex, arrayAtEvery, Mapper.desc, hx'] at a1
            simp at a1
            subst a1
            simp only [Obj.index, proxyIndex, proxyAt, Mapper.desc, hx'] at b1
            simp [arraySlice, Arg.isDefault] at b1
            obtain ⟨_, _, b1⟩ := res_bind_ok.1 b1
            cases b1
  obtain ⟨o', hd⟩ := hdrop
  obtain ⟨w, hw, dr⟩ := drop_of_wf st.wf c1 (by omega : 0 < 1) hd
  have hwext : w.ext = [k] := by
    have h1 := dr.order
    have h2 := dr.ones
    have h3 := dr.sub
    rw [hext] at h2 h3
    obtain ⟨x, hx⟩ := List.length_eq_one_iff.1 h1
    rw [hx] at h2 h3 ⊢
    by_cases hk1 : k = 1
    · subst hk1
      have := h3.subset (List.mem_singleton_self x)
      simp at this
      rw [this]
    · simp only [List.filter_cons, hk1, List.filter_nil] at h2
      by_cases hx1 : x = 1
      · simp [hx1] at h2
        exact (hk1 h2).elim
      · simp [hx1, hk1] at h2
        rw [h2]
  refine ⟨o2, o', hrun, hd, observes_congr hw ⟨hwext, ?_⟩⟩
  intro i hi
  rw [hwext] at hi
  obtain ⟨t, rfl, ht⟩ := inB_one hi
  have h1 : w.enum[t]? = some (w.pos [t]) := by
    simp [AView.enum, hwext, multiIdx_one, ht]
  rw [dr.elems] at h1
  have h2 : (restrict v [List.range k, [j]]).enum[t]? = some (v.pos [t, j]) := by
    have hin : InB [k, 1] [t, 0] := by simp [InB, ht]
    have := enum_getElem? (v := restrict v [List.range k, [j]]) (i := [t, 0]) (by rw [hext]; exact hin)
    rw [hext] at this
    have hcm : cmPos [k, 1] [t, 0] = t := by simp [cmPos]
    rw [hcm] at this
    rw [this]
    simp [restrict, choose, ht]
  rw [h2] at h1
  simpa using (Option.some.inj h1).symm

theorem dropTo_weak {D : Nat} {o o' : Obj} (h : dropTo Arith.exact true D o = .ok o') (chk : Bool) :
    dropTo Arith.exact chk D o = .ok o' := by
  cases chk with
  | true => exact h
  | false =>
    cases o with
    | cref off ext =>
      simp only [dropTo] at h ⊢
      split at h
      · cases h
      · next h1 =>
        split at h
        · cases h
        · next h2 =>
          obtain ⟨_, _, h⟩ := res_bind_ok.1 h
          simpa [h1, h2] using h
    | sref off m =>
      simp only [dropTo] at h ⊢
      split at h
      · next h1 =>
        obtain ⟨_, _, h⟩ := res_bind_ok.1 h
        simpa [h1] using h
      · next h1 =>
        cases m with
        | vec d idx => simp at h
        | ident d =>
          simp only [if_neg h1] at h ⊢
          split at h
          · next h2 => simpa [h2] using h
          · next h2 =>
            split at h
            · cases h
            · next h3 =>
              obtain ⟨_, _, h⟩ := res_bind_ok.1 h
              simpa [h2, h3] using h
    | _ => exact h

/-- The view `v` is an `r`×`k` matrix with elements `a i t` in memory `m`. -/
def Shows (m : Mem α) (v : AView) (r k : Nat) (a : Nat → Nat → α) : Prop :=
  v.ext = [r, k] ∧ ∀ i t, i < r → t < k → m (v.pos [i, t]) = some (a i t)

/-- The inner product `0 + x₀*y₀ + x₁*y₁ + …`, from left to right. -/
def dot (add mul : α → α → α) (zero : α) (k : Nat) (x y : Nat → α) : α :=
  (List.range k).foldl (fun acc t => add acc (mul (x t) (y t))) zero

theorem foldlM_ok {f : σ → β → Res σ} {g : σ → β → σ} : ∀ {l : List β} {s : σ}, (∀ s, ∀ b ∈ l, f s b = .ok (g s b)) →
    l.foldlM f s = .ok (l.foldl g s)
  | [], s, _ => rfl
  | b :: l, s, h => by
    rw [List.foldlM_cons, h s b (by simp), res_ok_bind, List.foldl_cons]
    exact foldlM_ok fun s b hb => h s b (by simp [hb])

theorem mapM_ok_map {f : β → Res α} {g : β → α} : ∀ {l : List β}, (∀ b ∈ l, f b = .ok (g b)) → l.mapM f = .ok (l.map g)
  | [], _ => rfl
  | b :: l, h => by
    rw [List.mapM_cons, h b (by simp), res_ok_bind, mapM_ok_map fun b hb => h b (by simp [hb])]
    rfl

theorem productElem_ok {chk : Bool} {add mul : α → α → α} {zero : α} {m : Mem α} {o₁ o₂ : Obj} {v₁ v₂ : AView}
    (w₁ : o₁.WF) (s₁ : SameObj o₁.abs (.view v₁)) (w₂ : o₂.WF) (s₂ : SameObj o₂.abs (.view v₂))
    (hnv : ∀ off d idx, o₂ ≠ .sref off (.vec d idx)) {r k p : Nat} {a b : Nat → Nat → α} (ha : Shows m v₁ r k a)
    (hb : Shows m v₂ k p b) (hk : k ≠ 0) {i j : Nat} (hi : i < r) (hj : j < p) :
    productElem Arith.exact chk add mul zero m o₁ o₂ i j = .ok (dot add mul zero k (a i) fun t => b t j) := by
  obtain ⟨row, r1, r2⟩ := row_view w₁ s₁ ha.1 hk hi
  obtain ⟨sl, col, c1, c2, c3⟩ := col_view w₂ s₂ hb.1 hk hj hnv
  have r1' : o₁.run Arith.exact chk [.at i, .every] = .ok row := by
    cases chk with
    | true => exact r1
    | false => exact weak_run _ _ _ _ r1
  have c1' : o₂.run Arith.exact chk [.every, .at j] = .ok sl := by
    cases chk with
    | true => exact c1
    | false => exact weak_run _ _ _ _ c1
  obtain ⟨src, e1, e2⟩ := build_ok (chk := chk) (d := [k]) (e := .bin mul (.leaf row) (.leaf col))
    (.bin (.leaf r2 (by simp)) (.leaf c3 (by simp))) (by simp [exts])
  simp only [productElem, r1', c1', dropTo_weak c2 chk, e1, res_ok_bind, sumIt, e2.count, prod, Nat.mul_one]
  apply foldlM_ok
  intro acc t ht
  have ht : t < k := List.mem_range.1 ht
  rw [e2.deref m t [t] (by simp [multiIdx_one, ht])]
  simp [valAt, ha.2 i t hi ht, hb.2 t j ht hj, toRes]

theorem pairs_getElem? (r p : Nat) {i j : Nat} (hi : i < r) (hj : j < p) :
    ((List.range p).flatMap fun j => (List.range r).map fun i => (i, j))[i + j * r]? = some (i, j) := by
  induction p with
  | zero => omega
  | succ p ih =>
    rw [List.range_succ, List.flatMap_append]
    have hlen : ((List.range p).flatMap fun j => (List.range r).map fun i => (i, j)).length = p * r := by
      simp [List.length_flatMap]
    by_cases hjp : j < p
    · rw [List.getElem?_append_left]
      · exact ih hjp
      · rw [hlen]
        calc i + j * r < r + j * r := by omega
          _ = (j + 1) * r := by rw [Nat.succ_mul]; omega
          _ ≤ p * r := Nat.mul_le_mul_right r hjp
    · have : j = p := by omega
      subst this
      rw [List.getElem?_append_right (by rw [hlen]; omega), hlen]
      simp [hi]

/-- **C29.** `product(a, b)` of an `r`×`k` and a `k`×`p` matrix (arrays or any views of them, the right one not index-mapped: those
do not compile): a new `r`×`p` array whose element (i, j) is `a(i,0)*b(0,j) + a(i,1)*b(1,j) + …`, summed from left to right, starting
with zero; no other memory changes. -/
theorem C29_product {chk : Bool} {add mul : α → α → α} {zero : α} {m : Mem α} {o₁ o₂ : Obj} {v₁ v₂ : AView}
    {off₁ off₂ : Nat} {e₁ e₂ : List Nat} {h₁ h₂ : List Ix} (hv₁ : ViewAt off₁ e₁ h₁ o₁ v₁) (hv₂ : ViewAt off₂ e₂ h₂ o₂ v₂)
    (hnv : ∀ off d idx, o₂ ≠ .sref off (.vec d idx)) {r k p : Nat} {a b : Nat → Nat → α} (ha : Shows m v₁ r k a)
    (hb : Shows m v₂ k p b) (hr : r ≠ 0) (hk : k ≠ 0) (hp : p ≠ 0) (fresh : Nat) :
    ∃ m', product Arith.exact chk add mul zero m o₁ o₂ fresh = .ok (m', ⟨fresh, [r, p]⟩) ∧
      (∀ i j, i < r → j < p → Reads m' (.cref fresh [r, p]) [i, j] (some (dot add mul zero k (a i) fun t => b t j))) ∧
      ∀ q, ¬ (fresh ≤ q ∧ q < fresh + r * p) → m' q = m q := by
  obtain ⟨w₁, s₁⟩ := viewAt_wf hv₁
  obtain ⟨w₂, s₂⟩ := viewAt_wf hv₂
  have d₁ := observes_dims (observes w₁ s₁) (by rw [ha.1]; simp)
  have d₂ := observes_dims (observes w₂ s₂) (by rw [hb.1]; simp)
  rw [ha.1] at d₁
  rw [hb.1] at d₂
  let prs := (List.range p).flatMap fun j => (List.range r).map fun i => (i, j)
  let xs : List α := prs.map fun ij => dot add mul zero k (a ij.1) fun t => b t ij.2
  have hxs : prs.mapM (fun ij => productElem Arith.exact chk add mul zero m o₁ o₂ ij.1 ij.2) = .ok xs := by
    apply mapM_ok_map
    intro ij hij
    simp only [prs, List.mem_flatMap, List.mem_range, List.mem_map] at hij
    obtain ⟨j, hj, i, hi, rfl⟩ := hij
    exact productElem_ok w₁ s₁ w₂ s₂ hnv ha hb hk hi hj
  have hlen : xs.length = r * p := by
    simp [xs, prs, List.length_flatMap, Nat.mul_comm]
  have hpos : (decide (prodL Arith.exact [r, k] > 0) && decide (prodL Arith.exact [k, p] > 0)) = true := by
    have h1 : 0 < r * k := Nat.mul_pos (by omega) (by omega)
    have h2 : 0 < k * p := Nat.mul_pos (by omega) (by omega)
    simp [prodL_exact, prod]; omega
  refine ⟨m.setMany fresh xs, ?_, ?_, ?_⟩
  · simp only [product, d₁, d₂, hpos, beq_self_eq_true, dbg_any_true, res_ok_bind]
    rw [show ((List.range p).flatMap fun j => (List.range r).map fun i => (i, j)) = prs from rfl, hxs]
    rfl
  · intro i j hi hj
    have hin : InB [r, p] [i, j] := by simp [InB, hi, hj]
    refine ⟨_, (array_observes fresh (d := [r, p]) (by simp)).element [i, j] hin, ?_⟩
    have hpos' : (arrayView fresh [r, p]).pos [i, j] = fresh + (i + j * r) := by
      have : cmSum [r, p] [i, j] = i + j * r := by
        rw [← cmPos_eq_sum (inB_length hin)]; simp [cmPos, Nat.mul_comm]
      simp [arrayView, this]
    have hlt : i + j * r < xs.length := by
      rw [hlen]
      calc i + j * r < r + j * r := by omega
        _ = r * (j + 1) := by rw [Nat.mul_succ, Nat.mul_comm]; omega
        _ ≤ r * p := Nat.mul_le_mul_left r hj
    rw [hpos', setMany_in hlt]
    simp only [xs, List.getElem?_map, prs]
    rw [pairs_getElem? r p hi hj]
    rfl
  · intro q hq
    exact setMany_out (by rw [hlen]; exact hq)

/-- **C29.** In a (semi)ring the element is the sum `Σ_t a(i,t) * b(t,j)`. -/
theorem C29_dot_sum {R : Type} [NonUnitalNonAssocSemiring R] (k : Nat) (x y : Nat → R) :
    dot (· + ·) (· * ·) 0 k x y = ∑ t ∈ Finset.range k, x t * y t := by
  induction k with
  | zero => rfl
  | succ k ih =>
    rw [Finset.sum_range_succ, ← ih]
    simp [dot, List.range_succ]

/-- **C29.** Matrices whose extents do not fit, or empty ones, are reported in a checked build. -/
theorem C29_reject {add mul : α → α → α} {zero : α} {m : Mem α} {o₁ o₂ : Obj} {v₁ v₂ : AView}
    {off₁ off₂ : Nat} {e₁ e₂ : List Nat} {h₁ h₂ : List Ix} (hv₁ : ViewAt off₁ e₁ h₁ o₁ v₁) (hv₂ : ViewAt off₂ e₂ h₂ o₂ v₂)
    {r k k' p : Nat} (x₁ : v₁.ext = [r, k]) (x₂ : v₂.ext = [k', p]) (hbad : k ≠ k' ∨ r = 0 ∨ k = 0 ∨ k' = 0 ∨ p = 0) (fresh : Nat) :
    product Arith.exact true add mul zero m o₁ o₂ fresh = .error .assert := by
  obtain ⟨w₁, s₁⟩ := viewAt_wf hv₁
  obtain ⟨w₂, s₂⟩ := viewAt_wf hv₂
  have d₁ := observes_dims (observes w₁ s₁) (by rw [x₁]; simp)
  have d₂ := observes_dims (observes w₂ s₂) (by rw [x₂]; simp)
  rw [x₁] at d₁
  rw [x₂] at d₂
  simp only [product, d₁, d₂, prodL_exact, prod, Nat.mul_one]
  by_cases hz : r * k > 0 ∧ k' * p > 0
  · have hkk : k ≠ k' := by
      rcases hbad with h | rfl | rfl | rfl | rfl
      · exact h
      all_goals simp at hz
    have : (k == k') = false := by simpa using hkk
    simp [hz, this]
  · have : (decide (r * k > 0) && decide (k' * p > 0)) = false := by
      simp only [Bool.and_eq_false_iff, decide_eq_false_iff_not]
      by_contra h
      push Not at h
      exact hz h
    rw [this]; rfl

/-- **C29.** The BLAS version on contiguous matrices, given the reference semantics of gemm: same extents, and element (i, j) is
`alpha * (a(i,0)*b(0,j) + …)`. The extents must fit an `int` (reported otherwise in checked builds). -/
theorem C29_blas {chk : Bool} {add mul : α → α → α} {zero alpha : α} {m : Mem α} {x y r k p : Nat} {a b : Nat → Nat → α}
    (ha : Shows m (arrayView x [r, k]) r k a) (hb : Shows m (arrayView y [k, p]) k p b) (hr : r ≠ 0) (hk : k ≠ 0) (hp : p ≠ 0)
    (hfit : r ≤ 2 ^ 31 - 1 ∧ k ≤ 2 ^ 31 - 1 ∧ p ≤ 2 ^ 31 - 1) (fresh : Nat) :
    ∃ m', blasProduct Arith.exact chk add mul zero m (.cref x [r, k]) (.cref y [k, p]) alpha fresh = .ok (m', ⟨fresh, [r, p]⟩) ∧
      (∀ i j, i < r → j < p →
        Reads m' (.cref fresh [r, p]) [i, j] (some (mul alpha (dot add mul zero k (a i) fun t => b t j)))) ∧
      ∀ q, ¬ (fresh ≤ q ∧ q < fresh + r * p) → m' q = m q := by
  have hp2 : ∀ (z r k i t : Nat), i < r → t < k → (arrayView z [r, k]).pos [i, t] = z + (i + t * r) := by
    intro z r k i t hi ht
    have hin : InB [r, k] [i, t] := by simp [InB, hi, ht]
    have : cmSum [r, k] [i, t] = i + t * r := by
      rw [← cmPos_eq_sum (inB_length hin)]; simp [cmPos, Nat.mul_comm]
    simp [arrayView, this]
  let prs := (List.range p).flatMap fun j => (List.range r).map fun i => (i, j)
  let xs : List α := prs.map fun ij => mul alpha (dot add mul zero k (a ij.1) fun t => b t ij.2)
  have hxs : gemmRef add mul zero m r p k alpha x r y k = .ok xs := by
    apply mapM_ok_map
    intro ij hij
    simp only [List.mem_flatMap, List.mem_range, List.mem_map] at hij
    obtain ⟨j, hj, i, hi, rfl⟩ := hij
    have : (List.range k).foldlM (fun acc t => (do
        let u ← m.read (x + (i + t * r))
        let w ← m.read (y + (t + j * k))
        .ok (add acc (mul u w)) : Res α)) zero = .ok (dot add mul zero k (a i) fun t => b t j) := by
      apply foldlM_ok
      intro acc t ht
      have ht : t < k := List.mem_range.1 ht
      have e1 := ha.2 i t hi ht
      have e2 := hb.2 t j ht hj
      rw [hp2 x r k i t hi ht] at e1
      rw [hp2 y k p t j ht hj] at e2
      simp [Mem.read, e1, e2]
    simp only [this, res_ok_bind]
  have hlen : xs.length = r * p := by
    simp [xs, prs, List.length_flatMap, Nat.mul_comm]
  have hpos : (decide (prodL Arith.exact [r, k] > 0) && decide (prodL Arith.exact [k, p] > 0)) = true := by
    have h1 : 0 < r * k := Nat.mul_pos (by omega) (by omega)
    have h2 : 0 < k * p := Nat.mul_pos (by omega) (by omega)
    simp [prodL_exact, prod]; omega
  have hcast : ∀ z, z ≤ 2 ^ 31 - 1 → safeIntCast chk z = .ok z := by
    intro z hz
    simp only [safeIntCast, decide_eq_true hz, dbg_any_true, res_ok_bind, if_pos hz]
  refine ⟨m.setMany fresh xs, ?_, ?_, ?_⟩
  · simp only [blasProduct, hpos, beq_self_eq_true, dbg_any_true, res_ok_bind, hcast r hfit.1, hcast k hfit.2.1, hcast p hfit.2.2, hxs]
  · intro i j hi hj
    have hin : InB [r, p] [i, j] := by simp [InB, hi, hj]
    refine ⟨_, (array_observes fresh (d := [r, p]) (by simp)).element [i, j] hin, ?_⟩
    have hlt : i + j * r < xs.length := by
      rw [hlen]
      calc i + j * r < r + j * r := by omega
        _ = r * (j + 1) := by rw [Nat.mul_succ, Nat.mul_comm]; omega
        _ ≤ r * p := Nat.mul_le_mul_left r hj
    rw [hp2 fresh r p i j hi hj, setMany_in hlt]
    simp only [xs, List.getElem?_map, prs]
    rw [pairs_getElem? r p hi hj]
    rfl
  · intro q hq
    exact setMany_out (by rw [hlen]; exact hq)

/-- **C29.** `product(alpha * a, b)` with BLAS on contiguous matrices: element (i, j) is `alpha * (a(i,0)*b(0,j) + …)`. -/
theorem C29_blas_scaled_product {chk : Bool} {add mul : α → α → α} {zero alpha : α} {m : Mem α} {x y r k p : Nat}
    {a b : Nat → Nat → α}
    (ha : Shows m (arrayView x [r, k]) r k a) (hb : Shows m (arrayView y [k, p]) k p b) (hr : r ≠ 0) (hk : k ≠ 0) (hp : p ≠ 0)
    (hfit : r ≤ 2 ^ 31 - 1 ∧ k ≤ 2 ^ 31 - 1 ∧ p ≤ 2 ^ 31 - 1) (fresh : Nat) :
    ∃ m', blasProductScaled Arith.exact chk add mul zero m alpha (.cref x [r, k]) (.cref y [k, p]) fresh =
        .ok (m', ⟨fresh, [r, p]⟩) ∧
      (∀ i j, i < r → j < p →
        Reads m' (.cref fresh [r, p]) [i, j] (some (mul alpha (dot add mul zero k (a i) fun t => b t j)))) ∧
      ∀ q, ¬ (fresh ≤ q ∧ q < fresh + r * p) → m' q = m q :=
  C29_blas ha hb hr hk hp hfit fresh

/-- **C29.** With BLAS, too, matrices that are empty or whose extents do not fit, and extents beyond `int`, are reported in a
checked build. -/
theorem C29_blas_reject {add mul : α → α → α} {zero alpha : α} {m : Mem α} {x y r k k' p : Nat}
    (hbad : k ≠ k' ∨ r = 0 ∨ k = 0 ∨ p = 0 ∨ 2 ^ 31 ≤ r ∨ 2 ^ 31 ≤ k ∨ 2 ^ 31 ≤ p) (fresh : Nat) :
    blasProduct Arith.exact true add mul zero m (.cref x [r, k]) (.cref y [k', p]) alpha fresh = .error .assert := by
  have hcast : ∀ z, z ≤ 2 ^ 31 - 1 → safeIntCast true z = .ok z := by
    intro z hz
    simp only [safeIntCast, decide_eq_true hz, dbg_any_true, res_ok_bind, if_pos hz]
  have hfail : ∀ z, ¬ z ≤ 2 ^ 31 - 1 → safeIntCast true z = .error .assert := by
    intro z hz
    simp only [safeIntCast, decide_eq_false hz]
    rfl
  simp only [blasProduct, prodL_exact, prod, Nat.mul_one]
  by_cases hz : r * k > 0 ∧ k' * p > 0
  · have e1 : (decide (r * k > 0) && decide (k' * p > 0)) = true := by simp [hz.1, hz.2]
    rw [e1, dbg_any_true, res_ok_bind]
    by_cases hk : k = k'
    · subst hk
      have hr0 : r ≠ 0 := by rintro rfl; simp at hz
      have hk0 : k ≠ 0 := by rintro rfl; simp at hz
      have hp0 : p ≠ 0 := by rintro rfl; simp at hz
      rw [beq_self_eq_true, dbg_any_true, res_ok_bind]
      by_cases h1 : k ≤ 2 ^ 31 - 1
      · rw [hcast _ h1, res_ok_bind]
        by_cases h2 : r ≤ 2 ^ 31 - 1
        · rw [hcast _ h2, res_ok_bind, hfail p (by omega)]; rfl
        · rw [hfail _ h2]; rfl
      · rw [hfail _ h1]; rfl
    · rw [beq_eq_false_iff_ne.2 hk]; rfl
  · have e1 : (decide (r * k > 0) && decide (k' * p > 0)) = false := by
      rw [← Bool.not_eq_true]
      simpa using hz
    rw [e1]; rfl

/-- **C29.** The same with a scaled left operand. -/
theorem C29_blas_scaled_reject {add mul : α → α → α} {zero alpha : α} {m : Mem α} {x y r k k' p : Nat}
    (hbad : k ≠ k' ∨ r = 0 ∨ k = 0 ∨ p = 0 ∨ 2 ^ 31 ≤ r ∨ 2 ^ 31 ≤ k ∨ 2 ^ 31 ≤ p) (fresh : Nat) :
    blasProductScaled Arith.exact true add mul zero m alpha (.cref x [r, k]) (.cref y [k', p]) fresh = .error .assert :=
  C29_blas_reject hbad fresh

/-- **C29.** In a build without checks, an inner extent beyond `int` is silently reduced modulo 2³²: `product(a, b)` is then the product of the
first `K` columns of `a` and of a matrix with `K` rows that begins where `b` does. -/
theorem C29_blas_truncates {add mul : α → α → α} {zero alpha : α} {m : Mem α} {x y r c K p : Nat} (hK : 0 < K) (hK' : K < 2 ^ 31) (fresh : Nat) :
    blasProduct Arith.exact false add mul zero m (.cref x [r, 2 ^ 32 * c + K]) (.cref y [2 ^ 32 * c + K, p]) alpha fresh =
      blasProduct Arith.exact false add mul zero m (.cref x [r, K]) (.cref y [K, p]) alpha fresh := by
  have h1 : safeIntCast false (2 ^ 32 * c + K) = safeIntCast false K := by
    have hmod : (2 ^ 32 * c + K) % 2 ^ 32 = K := by omega
    unfold safeIntCast
    simp only [dbg_false, res_ok_bind]
    rw [hmod, if_pos (by omega : K ≤ 2 ^ 31 - 1), if_pos (show 0 < K ∧ K < 2 ^ 31 from ⟨hK, hK'⟩)]
    split
    · next h =>
      obtain rfl : c = 0 := by omega
      simp
    · rfl
  simp only [blasProduct, dbg_false, res_ok_bind, h1]

/-- **C29.** So, without checks, a row of 2³² + 1 ones times a column of 2³² + 1 ones is 1 with BLAS (and 2³² + 1 with the generic version). -/
theorem C29_blas_wrong (fresh : Nat) : ∃ m' : Mem Nat, blasProduct Arith.exact false (· + ·) (· * ·) 0 (fun _ => some 1) (.cref 0 [1, 2 ^ 32 + 1])
      (.cref 0 [2 ^ 32 + 1, 1]) 1 fresh = .ok (m', ⟨fresh, [1, 1]⟩) ∧ Reads m' (.cref fresh [1, 1]) [0, 0] (some 1) ∧
    ∃ m'' : Mem Nat, product Arith.exact false (· + ·) (· * ·) 0 (fun _ => some 1) (.cref 0 [1, 2 ^ 32 + 1])
      (.cref 0 [2 ^ 32 + 1, 1]) fresh = .ok (m'', ⟨fresh, [1, 1]⟩) ∧ Reads m'' (.cref fresh [1, 1]) [0, 0] (some (2 ^ 32 + 1)) := by
  have hs : ∀ r k, Shows (fun _ => some 1 : Mem Nat) (arrayView 0 [r, k]) r k fun _ _ => 1 := fun r k => ⟨rfl, fun _ _ _ _ => rfl⟩
  have hdot : ∀ k, dot (· + ·) (· * ·) 0 k (fun _ => (1 : Nat)) (fun _ => 1) = k := by
    intro k
    rw [C29_dot_sum]
    simp
  obtain ⟨m', h1, h2, _⟩ := C29_blas (chk := false) (add := (· + ·)) (mul := (· * ·)) (zero := 0) (alpha := (1 : Nat)) (hs 1 1) (hs 1 1) (by decide) (by decide)
    (by decide) (by decide) fresh
  obtain ⟨m'', g1, g2, _⟩ := C29_product (chk := false) (add := (· + ·)) (mul := (· * ·)) (zero := (0 : Nat)) (o₁ := .cref 0 [1, 2 ^ 32 + 1])
    (o₂ := .cref 0 [2 ^ 32 + 1, 1]) (off₁ := 0) (e₁ := [1, 2 ^ 32 + 1]) (h₁ := []) (off₂ := 0) (e₂ := [2 ^ 32 + 1, 1]) (h₂ := [])
    ⟨by simp, rfl, rfl⟩ ⟨by simp, rfl, rfl⟩ nofun (hs 1 (2 ^ 32 + 1)) (hs (2 ^ 32 + 1) 1) (by decide) (by decide) (by decide) fresh
  refine ⟨m', ?_, ?_, m'', g1, ?_⟩
  · have := C29_blas_truncates (add := (· + ·)) (mul := (· * ·)) (zero := 0) (alpha := (1 : Nat)) (m := fun _ => some 1) (x := 0) (y := 0) (r := 1) (c := 1) (K := 1)
      (p := 1) (by decide) (by decide) fresh
    exact this.trans h1
  · have := h2 0 0 (by decide) (by decide)
    rwa [hdot] at this
  · have := g2 0 0 (by decide) (by decide)
    rwa [hdot] at this

example := C29_blas_truncates (add := (· + ·)) (mul := (· * ·)) (zero := 0) (alpha := (1 : Int)) (m := fun _ => some 2) (x := 0) (y := 0) (r := 2) (c := 3) (K := 5)
  (p := 4) (by decide) (by decide) 9

example := C29_blas_scaled_reject (add := (· + ·)) (mul := (· * ·)) (zero := 0) (alpha := (3 : Int)) (m := fun _ => none) (x := 0) (y := 9) (r := 2) (k := 2)
  (k' := 3) (p := 2) (.inl (by decide)) 20

/-- The hypotheses on literals: `[[1,3],[2,4]] * 10` times `[5,6]`. -/
example : (blasProductScaled Arith.exact true (· + ·) (· * ·) 0 (fun q => [1, 2, 3, 4, 5, 6][q]?) 10 (.cref 0 [2, 2]) (.cref 4 [2, 1]) 6).map
    (fun r => (r.2, (List.range 8).map r.1)) =
      .ok (⟨6, [2, 1]⟩, [some 1, some 2, some 3, some 4, some 5, some 6, some 230, some 340]) := by decide

/-- **C29.** The BLAS version and the generic one agree when `alpha` is one (exact arithmetic), and `product(alpha * a, b)` computed by
BLAS agrees with the generic product of the elementwise scaled matrix. -/
theorem C29_blas_scaled {R : Type} [Semiring R] (k : Nat) (alpha : R) (x y : Nat → R) :
    (1 : R) * dot (· + ·) (· * ·) 0 k x y = dot (· + ·) (· * ·) 0 k x y ∧
    alpha * dot (· + ·) (· * ·) 0 k x y = dot (· + ·) (· * ·) 0 k (fun t => alpha * x t) y := by
  refine ⟨one_mul _, ?_⟩
  rw [C29_dot_sum, C29_dot_sum, Finset.mul_sum]
  exact Finset.sum_congr rfl fun t _ => (mul_assoc _ _ _).symm

/-- **C29.** On contiguous matrices, in exact arithmetic, the generic product and the BLAS-backed one are the same matrix, the matrix product; with a
scaled left operand, the result is `alpha` times it. -/
theorem C29_agree {R : Type} [Semiring R] {chk : Bool} {m : Mem R} {x y r k p : Nat} {a b : Nat → Nat → R} (alpha : R)
    (ha : Shows m (arrayView x [r, k]) r k a) (hb : Shows m (arrayView y [k, p]) k p b) (hr : r ≠ 0) (hk : k ≠ 0) (hp : p ≠ 0)
    (hfit : r ≤ 2 ^ 31 - 1 ∧ k ≤ 2 ^ 31 - 1 ∧ p ≤ 2 ^ 31 - 1) (fresh : Nat) :
    ∃ m₁ m₂ m₃, product Arith.exact chk (· + ·) (· * ·) 0 m (.cref x [r, k]) (.cref y [k, p]) fresh = .ok (m₁, ⟨fresh, [r, p]⟩) ∧
      blasProduct Arith.exact chk (· + ·) (· * ·) 0 m (.cref x [r, k]) (.cref y [k, p]) 1 fresh = .ok (m₂, ⟨fresh, [r, p]⟩) ∧
      blasProductScaled Arith.exact chk (· + ·) (· * ·) 0 m alpha (.cref x [r, k]) (.cref y [k, p]) fresh = .ok (m₃, ⟨fresh, [r, p]⟩) ∧
      ∀ i j, i < r → j < p →
        Reads m₁ (.cref fresh [r, p]) [i, j] (some (∑ t ∈ Finset.range k, a i t * b t j)) ∧
        Reads m₂ (.cref fresh [r, p]) [i, j] (some (∑ t ∈ Finset.range k, a i t * b t j)) ∧
        Reads m₃ (.cref fresh [r, p]) [i, j] (some (alpha * ∑ t ∈ Finset.range k, a i t * b t j)) := by
  obtain ⟨m₁, e1, h1, -⟩ := C29_product (chk := chk) (add := (· + ·)) (mul := (· * ·)) (zero := (0 : R)) (off₁ := x) (e₁ := [r, k]) (h₁ := []) (off₂ := y)
    (e₂ := [k, p]) (h₂ := []) ⟨by simp, rfl, rfl⟩ ⟨by simp, rfl, rfl⟩ nofun ha hb hr hk hp fresh
  obtain ⟨m₂, e2, h2, -⟩ := C29_blas (chk := chk) (add := (· + ·)) (mul := (· * ·)) (zero := (0 : R)) (alpha := 1) ha hb hr hk hp hfit fresh
  obtain ⟨m₃, e3, h3, -⟩ := C29_blas_scaled_product (chk := chk) (add := (· + ·)) (mul := (· * ·)) (zero := (0 : R)) (alpha := alpha) ha hb hr hk hp hfit fresh
  refine ⟨m₁, m₂, m₃, e1, e2, e3, fun i j hi hj => ⟨?_, ?_, ?_⟩⟩
  · have := h1 i j hi hj; rwa [C29_dot_sum] at this
  · have := h2 i j hi hj; simpa only [C29_dot_sum, one_mul] using this
  · have := h3 i j hi hj; rwa [C29_dot_sum] at this

/-- A 2×2 times 2×1 product: `[[1,3],[2,4]]ᵀ…` stored by columns at 0 and 4, result at 6. -/
example : (product Arith.exact true (· + ·) (· * ·) 0 (fun q => [1, 2, 3, 4, 5, 6][q]?) (.cref 0 [2, 2]) (.cref 4 [2, 1]) 6).map
    (fun r => (r.2, (List.range 8).map r.1)) =
      .ok (⟨6, [2, 1]⟩, [some 1, some 2, some 3, some 4, some 5, some 6, some 23, some 34]) := by decide
/-- Its hypotheses. -/
example : ViewAt 4 [2, 1] [] (.cref 4 [2, 1]) (arrayView 4 [2, 1]) := ⟨by decide, rfl, rfl⟩
/-- An index-mapped right operand does not compile. -/
example : product Arith.exact true (· + ·) (· * ·) 0 (fun q => [1, 2, 3, 4, 5, 6][q]?) (.cref 0 [2, 2])
    (.sref 4 (.vec ⟨0, [2, 1], [1, 2]⟩ [1, 0])) 6 = .error .illFormed := by rfl

/-- A 2 by 2 matrix at 0 and a 2 by 1 matrix at 4. -/
def mem221 : Mem Nat := fun q => [1, 2, 3, 4, 5, 6][q]?

theorem mem221_left : Shows mem221 (arrayView 0 [2, 2]) 2 2 (fun i t => 1 + i + 2 * t) := by
  refine ⟨rfl, ?_⟩
  have : ∀ i : Fin 2, ∀ t : Fin 2, mem221 ((arrayView 0 [2, 2]).pos [i.val, t.val]) = some (1 + i.val + 2 * t.val) := by decide
  intro i t hi ht
  exact this ⟨i, hi⟩ ⟨t, ht⟩

theorem mem221_right : Shows mem221 (arrayView 4 [2, 1]) 2 1 (fun i _ => 5 + i) := by
  refine ⟨rfl, ?_⟩
  have : ∀ i : Fin 2, ∀ t : Fin 1, mem221 ((arrayView 4 [2, 1]).pos [i.val, t.val]) = some (5 + i.val) := by decide
  intro i t hi ht
  exact this ⟨i, hi⟩ ⟨t, ht⟩

example := C29_product (chk := true) (add := (· + ·)) (mul := (· * ·)) (zero := 0) (off₁ := 0) (e₁ := [2, 2]) (h₁ := []) (off₂ := 4) (e₂ := [2, 1]) (h₂ := [])
  ⟨by decide, rfl, rfl⟩ ⟨by decide, rfl, rfl⟩ nofun mem221_left mem221_right (by decide) (by decide) (by decide) 6
example := C29_reject (add := (· + ·)) (mul := (· * ·)) (zero := 0) (m := mem221) (off₁ := 4) (e₁ := [2, 1]) (h₁ := []) (off₂ := 0) (e₂ := [2, 2]) (h₂ := [])
  ⟨by decide, rfl, rfl⟩ ⟨by decide, rfl, rfl⟩ rfl rfl (by decide) 6
example := C29_blas (chk := true) (add := (· + ·)) (mul := (· * ·)) (zero := 0) (alpha := 10) mem221_left mem221_right (by decide) (by decide) (by decide) (by decide) 6
example := C29_blas_scaled_product (chk := true) (add := (· + ·)) (mul := (· * ·)) (zero := 0) (alpha := 10) mem221_left mem221_right (by decide) (by decide) (by decide) (by decide) 6
example := C29_agree (chk := true) 10 mem221_left mem221_right (by decide) (by decide) (by decide) (by decide) 6

end Jules.Props

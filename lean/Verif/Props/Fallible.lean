import Verif.Lemmas.Fallible
/-
C84: programs whose functions throw.
-/
namespace Jules.Props
open Spec

section
variable {α : Type} {w : World α} {A : AStore α}

theorem becomes_congr {x : Nat} {d : List Nat} {f g : List Nat → Option α} (h : ∀ i, InB d i → f i = g i) {A' : AStore α}
    (hw : Becomes A x d f A') : Becomes A x d g A' := by
  obtain ⟨h1, a', h2, h3, h4⟩ := hw
  exact ⟨h1, a', h2, h3, fun i hi => by rw [← h i hi]; exact h4 i hi⟩

theorem fnew_ok {d : List Nat} {e : FEx α} {src : FSrc α} (hg : Gets w A d e src) (fresh : Nat) :
    ((∀ i, InB d i → fexVal A e i ≠ none) → ∃ xs : List α, xs.length = prod d ∧ (∀ i, InB d i → xs[cmSum d i]? = fexVal A e i) ∧
      ∀ nx, fnew Arith.exact nx src w.mem fresh = .ok (some (w.mem.setMany fresh xs, ⟨fresh, d⟩))) ∧
    ((∃ i, InB d i ∧ fexVal A e i = none) → fnew Arith.exact true src w.mem fresh = .error .terminate ∧
      fnew Arith.exact false src w.mem fresh = .ok none) := by
  obtain ⟨g1, g2⟩ := gets_all hg
  constructor
  · intro h
    obtain ⟨xs, h1, h2, h3⟩ := g1 h
    refine ⟨xs, h1, h2, fun nx => ?_⟩
    simp only [fnew, hg.dims, prodL_exact, h3, constructed, res_ok_bind, Option.map_some]
  · intro h
    have h3 := g2 h
    constructor <;> simp only [fnew, hg.dims, prodL_exact, h3, constructed] <;> rfl

/-- A statement that constructs all its values before anything else happens. -/
theorem all_or_nothing {d : List Nat} {f : List Nat → Option α} {A' : AStore α} {t' : Bool} {P : Prop} :
    ((∀ i, InB d i → f i ≠ none) → AllOrNothing A d f A' t' P → t' = false ∧ P) ∧
    ((∃ i, InB d i ∧ f i = none) → AllOrNothing A d f A' t' P → t' = true ∧ A' = A) := by
  constructor
  · rintro h (⟨h1, _, h3⟩ | ⟨_, ⟨i, hi, hn⟩, _⟩)
    · exact ⟨h1, h3⟩
    · exact (h i hi hn).elim
  · rintro ⟨i, hi, hn⟩ (⟨_, h2, _⟩ | ⟨h1, _, h3⟩)
    · exact (h2 i hi hn).elim
    · exact ⟨h1, h3⟩

theorem defined_or {d : List Nat} (f : List Nat → Option α) : (∀ i, InB d i → f i ≠ none) ∨ ∃ i, InB d i ∧ f i = none := by
  by_cases h : ∃ i, InB d i ∧ f i = none
  · exact .inr h
  · exact .inl fun i hi hn => h ⟨i, hi, hn⟩

theorem fstep_set (chk nx : Bool) (alloc : Nat → Mem α → Nat → Nat) (w : World α) (x : Nat) {e : FEx α} (he : ∀ y, e ≠ .arr y []) :
    w.fstep Arith.exact chk nx alloc (.set x e) = (do
      let a ← w.get x
      let src ← e.eval Arith.exact chk w
      sameOrder a src.dims
      let r ← fset Arith.exact nx a src w.mem (alloc w.clock w.mem (prodL Arith.exact src.dims))
      .ok (w.bind r.1 x (some r.2.1), r.2.2)) := by
  cases e with
  | arr y h =>
    cases h with
    | nil => exact (he y rfl).elim
    | cons ix h => rfl
  | _ => rfl

theorem evaluated_none {y : Option α} : (evaluated y).new = none → (evaluated y).throws = true := by
  cases y <;> simp [evaluated]

theorem updated_none {y : Option (α × Bool)} : (updated y).new = none → (updated y).throws = true := by
  rcases y with _ | ⟨y, t⟩ <;> simp [updated]

theorem value_res {src : FSrc α} {k : Nat} {m : Mem α} {y : Option α} (h : src.it.deref m k = called y) :
    src.value k m = (evaluated y).res := by
  cases y <;> simp only [FSrc.value, h, called] <;> rfl

/-- Cells of elements of the view that come later are not read. -/
theorem fnoLate (H : HoldsStore w A) {e : FEx α} {x : Nat} {a : AVal α} {c : Arr} (ha : A x = some a) (hx : w.env x = some c)
    (hce : c.ext = a.ext) {h : List Ix} {v : IView} (hc : Chain a.ext h v) (hn : NoLateRead A x v (shapeE e)) {i : List Nat} (hi : InB v.ext i)
    {m' : Mem α} (hm : ∀ q, (∀ j, InB v.ext j → Before v.ext j i → q ≠ (IView.toA c.base a.ext v).pos j) → m' q = w.mem q) :
    ∀ y k p, (y, k) ∈ exReads A (shapeE e) i → eltCell w A y k p → m' p = w.mem p := by
  rintro y k p hr ⟨b, c', r2, r3, r4, r5, r6⟩
  apply hm
  intro j hj hb hp
  by_cases hxy : x = y
  · subst hxy
    rw [ha] at r2; cases r2
    rw [hx] at r3; cases r3
    have : v.src j = k := arrayView_distinct c.base a.ext _ _ (chain_in hc j hj) r5 (by
      simp only [arrayView]
      simp only [IView.toA] at hp
      omega)
    rw [← this] at hr
    exact hn i j hi hj hb hr
  · refine H.sep x y c c' p hxy hx r3 ?_ ⟨k, by rw [cells, arrayView, r4]; exact r5, by rw [r6, cells, arrayView, r4]⟩
    rw [hp]
    exact toA_covers hce hc ⟨j, hj, rfl⟩

/-- What has to be shown of a statement. -/
def FDoes (w : World α) (A : AStore α) (s : FStmt α) (chk nx : Bool) (alloc : Nat → Mem α → Nat → Nat) : Prop :=
  (nx = true → ConstructThrows A s → w.fstep Arith.exact chk nx alloc s = .error .terminate) ∧
  (¬ (nx = true ∧ ConstructThrows A s) → ∃ w' t, w.fstep Arith.exact chk nx alloc s = .ok (w', t) ∧
    ∀ A' t', FEffect A s A' t' → t' = t ∧ HoldsStore w' A')

theorem fdoes_make (H : HoldsStore w A) {x : Nat} {e : FEx α} (hs : FLegal A (.make x e)) (chk nx : Bool)
    {alloc : Nat → Mem α → Nat → Nat} (hal : GoodAlloc alloc) : FDoes w A (.make x e) chk nx alloc := by
  obtain ⟨hA, d, hd, hl⟩ := hs
  obtain ⟨src, h1, hg⟩ := fex_ok H hd chk hl
  have hx := H.out x hA
  obtain ⟨k1, k2⟩ := fnew_ok hg (alloc w.clock w.mem (prod d))
  rcases defined_or (d := d) (fexVal A e) with hdef | hex
  · have hnc : ¬ ConstructThrows A (.make x e) := by
      rintro ⟨d', hl', i, hi, hn⟩
      rw [exLegal_unique hl' hl] at hi
      exact hdef i hi hn
    refine ⟨fun _ h => (hnc h).elim, fun _ => ?_⟩
    obtain ⟨xs, e1, e2, e3⟩ := k1 hdef
    refine ⟨w.bind (w.mem.setMany (alloc w.clock w.mem (prod d)) xs) x (some ⟨alloc w.clock w.mem (prod d), d⟩), false, ?_, ?_⟩
    · simp only [World.fstep, hx, h1, res_ok_bind, hg.dims, prodL_exact, e3, World.named]
    · rintro A' t' ⟨d', hl', hw⟩
      rw [exLegal_unique hl' hl] at hw
      obtain ⟨rfl, hb⟩ := all_or_nothing.1 hdef hw
      refine ⟨rfl, ?_⟩
      obtain ⟨r, g1, g2⟩ := newFrom_holds H hA hd (l := xs) (by omega) (free_cells H hal w.clock (prod d))
      rw [newFrom, prodL_exact, if_neg (by omega), List.take_of_length_le (by omega)] at g1
      cases g1
      exact g2 A' (becomes_congr (fun i hi => (e2 i hi).symm) hb)
  · have hct : ConstructThrows A (.make x e) := ⟨d, hl, hex⟩
    obtain ⟨e1, e2⟩ := k2 hex
    constructor
    · rintro rfl _
      simp only [World.fstep, hx, h1, res_ok_bind, hg.dims, prodL_exact, e1]; rfl
    · intro hn
      have hnx : nx = false := by cases nx <;> simp_all
      subst hnx
      refine ⟨(w.tick (w.mem, true)).1, true, ?_, ?_⟩
      · simp only [World.fstep, hx, h1, res_ok_bind, hg.dims, prodL_exact, e2, World.named]; rfl
      · rintro A' t' ⟨d', hl', hw⟩
        rw [exLegal_unique hl' hl] at hw
        obtain ⟨rfl, rfl⟩ := all_or_nothing.2 hex hw
        exact ⟨rfl, holds_clock H _⟩

theorem pull_all {l : List (Option α)} {ext : List Nat} (hl : prod ext ≤ l.length) :
    ((∀ i, InB ext i → (l[cmSum ext i]?).join ≠ none) → ∃ xs : List α, xs.length = prod ext ∧ (∀ i, InB ext i → xs[cmSum ext i]? = (l[cmSum ext i]?).join) ∧
      (List.range (prod ext)).mapM (pull l) = .ok xs) ∧
    ((∃ i, InB ext i ∧ (l[cmSum ext i]?).join = none) → (List.range (prod ext)).mapM (pull l) = .error (.exc .user)) := by
  have hp : ∀ k, k < prod ext → pull l k = called (l[k]?).join := by
    intro k hk
    obtain ⟨v, hv⟩ : ∃ v, l[k]? = some v := ⟨l[k], List.getElem?_eq_getElem (by omega)⟩
    simp only [pull, hv, Option.join_some]
  constructor
  · intro hdef
    have hk : ∀ k, k < prod ext → (l[k]?).join ≠ none := by
      intro k hk
      obtain ⟨i, hi, rfl, _⟩ := rank_exists hk
      exact hdef i hi
    have := filterMap_total (F := fun k => (l[k]?).join) (l := List.range (prod ext)) fun a ha => hk a (by simpa using ha)
    refine ⟨_, by rw [this.1]; simp, ?_, ?_⟩
    · intro i hi
      exact this.2 (cmSum ext i) (cmSum ext i) (List.getElem?_range (cmSum_lt hi))
    · apply mapM_ok_of (by rw [this.1])
      intro k a x hka hx
      have h2 := this.2 k a hka
      have ha : a < prod ext := by
        have := List.mem_iff_getElem?.2 ⟨k, hka⟩
        simpa using this
      rw [hp a ha, ← h2, hx]; rfl
  · rintro ⟨i, hi, hn⟩
    have : ∀ (ks : List Nat), (∀ k ∈ ks, k < prod ext) → cmSum ext i ∈ ks → ks.mapM (pull l) = .error (.exc .user) := by
      intro ks
      induction ks with
      | nil => intro _ h; cases h
      | cons k ks ih =>
        intro hk hm
        rw [List.mapM_cons, hp k (hk k (by simp))]
        cases hv : (l[k]?).join with
        | none => rfl
        | some y =>
          rw [ih (fun k h => hk k (by simp [h]))]
          · rfl
          · rcases List.mem_cons.1 hm with rfl | hm
            · rw [hn] at hv; cases hv
            · exact hm
    exact this _ (by simp) (by simpa using cmSum_lt hi)

theorem fdoes_makeFrom (H : HoldsStore w A) {x : Nat} {l : List (Option α)} {ext : List Nat} (hs : FLegal A (.makeFrom x l ext)) (chk nx : Bool)
    {alloc : Nat → Mem α → Nat → Nat} (hal : GoodAlloc alloc) : FDoes w A (.makeFrom x l ext) chk nx alloc := by
  obtain ⟨hA, hd, hl⟩ := hs
  have hx := H.out x hA
  obtain ⟨k1, k2⟩ := pull_all hl
  rcases defined_or (d := ext) (fun i => (l[cmSum ext i]?).join) with hdef | hex
  · have hnc : ¬ ConstructThrows A (.makeFrom x l ext) := by
      rintro ⟨i, hi, hn⟩
      exact hdef i hi hn
    refine ⟨fun _ h => (hnc h).elim, fun _ => ?_⟩
    obtain ⟨xs, e1, e2, e3⟩ := k1 hdef
    refine ⟨w.bind (w.mem.setMany (alloc w.clock w.mem (prod ext)) xs) x (some ⟨alloc w.clock w.mem (prod ext), ext⟩), false, ?_, ?_⟩
    · simp only [World.fstep, hx, needs_ne hd, res_ok_bind, prodL_exact, fnewFrom, e3, constructed, Option.map_some, World.named]
    · intro A' t' hw
      obtain ⟨rfl, hb⟩ := all_or_nothing.1 hdef hw
      refine ⟨rfl, ?_⟩
      obtain ⟨r, g1, g2⟩ := newFrom_holds H hA hd (l := xs) (by omega) (free_cells H hal w.clock (prod ext))
      rw [newFrom, prodL_exact, if_neg (by omega), List.take_of_length_le (by omega)] at g1
      cases g1
      exact g2 A' (becomes_congr (fun i hi => (e2 i hi).symm) hb)
  · have hct : ConstructThrows A (.makeFrom x l ext) := hex
    have e1 := k2 hex
    constructor
    · rintro rfl _
      simp only [World.fstep, hx, needs_ne hd, res_ok_bind, prodL_exact, fnewFrom, e1, constructed]; rfl
    · intro hn
      have hnx : nx = false := by cases nx <;> simp_all
      subst hnx
      refine ⟨(w.tick (w.mem, true)).1, true, ?_, ?_⟩
      · simp only [World.fstep, hx, needs_ne hd, res_ok_bind, prodL_exact, fnewFrom, e1, constructed]; rfl
      · intro A' t' hw
        obtain ⟨rfl, rfl⟩ := all_or_nothing.2 hex hw
        exact ⟨rfl, holds_clock H _⟩

theorem fdoes_assign (H : HoldsStore w A) {x : Nat} {h : List Ix} {e : FEx α} (hs : FLegal A (.assign x h e)) (chk nx : Bool)
    {alloc : Nat → Mem α → Nat → Nat} : FDoes w A (.assign x h e) chk nx alloc := by
  refine ⟨fun _ h => h.elim, fun _ => ?_⟩
  obtain ⟨h0, a, v, ha, hc, hne, hinj, hl, hn⟩ := hs
  obtain ⟨c, o, h1, h2, h3, h4, h5⟩ := index_ok H ha hc chk
  obtain ⟨src, k1, hg⟩ := fex_ok H hne chk hl
  have hdim := observes_dims h4 hne
  obtain ⟨m', t, e1, e2⟩ := until_holds H ha h1 h2 hc hinj h5 (out := fun i => evaluated (fexVal A e i)) (fun _ _ => evaluated_none)
    (g := fun k _ m => src.value k m)
    (fun i hi _ m' hm => value_res (hg.deref m' i hi (fnoLate H ha h1 h2 hc hn hi hm))) (w.clock + 1)
  have hcount : (t || src.it.count == some (IView.toA c.base a.ext v).enum.length) = true := by
    rw [hg.count, enum_length]; simp [IView.toA]
  have hsd : (src.dims == (IView.toA c.base a.ext v).ext) = true := by rw [hg.dims]; simp [IView.toA]
  have hlen : ¬ src.dims.length ≠ (IView.toA c.base a.ext v).ext.length := by rw [hg.dims]; simp [IView.toA]
  refine ⟨⟨m', w.env, w.clock + 1⟩, t, ?_, e2⟩
  simp only [World.fstep, needs_ne h0, h3, k1, res_ok_bind, fassign, hdim, if_neg hlen, hsd, dbg_any_true, h4.iterate, e1, hcount, World.tick]

theorem fdoes_inPlace (H : HoldsStore w A) {x : Nat} {h : List Ix} {op : α → α → α × Bool} {e : FEx α} (hs : FLegal A (.inPlace x h op e))
    (chk nx : Bool) {alloc : Nat → Mem α → Nat → Nat} : FDoes w A (.inPlace x h op e) chk nx alloc := by
  refine ⟨fun _ h => h.elim, fun _ => ?_⟩
  obtain ⟨a, v, ha, hc, hne, hinj, hl, hn⟩ := hs
  obtain ⟨c, o, h1, h2, h3, h4, h5⟩ := index_ok H ha hc chk
  obtain ⟨src, k1, hg⟩ := fex_ok H hne chk hl
  have hdim := observes_dims h4 hne
  have hd := toA_distinct (c := c) hc hinj
  obtain ⟨m', t, e1, e2⟩ := until_holds H ha h1 h2 hc hinj h5
    (out := fun i => updated ((old A x h i).bind fun u => (fexVal A e i).map (op u))) (fun _ _ => updated_none)
    (g := fun k p m => src.update op k p m)
    (by
      intro i hi _ m' hm
      have hrd : m' ((IView.toA c.base a.ext v).pos i) = some (a.elt (v.src i)) := by
        rw [hm, h5 i hi]
        intro j hj hb he
        have := hd i j hi hj he
        subst this
        exact Nat.lt_irrefl _ hb
      have hde := hg.deref m' i hi (fnoLate H ha h1 h2 hc hn hi hm)
      have ho : old A x h i = some (a.elt (v.src i)) := by simp only [old, exVal, ha, hc.view]
      simp only [FSrc.update, Mem.read, hrd, hde, ho, res_ok_bind, Option.bind_some]
      cases fexVal A e i <;> rfl) (w.clock + 1)
  have hsd : ((IView.toA c.base a.ext v).ext == src.dims) = true := by rw [hg.dims]; simp [IView.toA]
  have hlen : ¬ (IView.toA c.base a.ext v).ext.length ≠ src.dims.length := by rw [hg.dims]; simp [IView.toA]
  refine ⟨⟨m', w.env, w.clock + 1⟩, t, ?_, e2⟩
  simp only [World.fstep, h3, k1, res_ok_bind, finPlace, hdim, if_neg hlen, hsd, dbg_any_true, h4.iterate, e1, World.tick]

theorem fdoes_inPlaceScalar (H : HoldsStore w A) {x : Nat} {h : List Ix} {op : α → α → α × Bool} {s : Sc α}
    (hs : FLegal A (.inPlaceScalar x h op s)) (chk nx : Bool) {alloc : Nat → Mem α → Nat → Nat} :
    FDoes w A (.inPlaceScalar x h op s) chk nx alloc := by
  refine ⟨fun _ h => h.elim, fun _ => ?_⟩
  obtain ⟨hl, a, v, ha, hc, hinj, hn⟩ := hs
  obtain ⟨c, o, h1, h2, h3, h4, h5⟩ := index_ok H ha hc chk
  obtain ⟨sc, y, k1, k2, k3, k4⟩ := sc_ok H hl chk
  have hd := toA_distinct (c := c) hc hinj
  obtain ⟨m', t, e1, e2⟩ := until_holds H ha h1 h2 hc hinj h5
    (out := fun i => updated ((old A x h i).bind fun u => (scVal A s).map (op u))) (fun _ _ => updated_none)
    (g := fun _ p m => scalarUpdate op sc p m)
    (by
      intro i hi _ m' hm
      have hrd : m' ((IView.toA c.base a.ext v).pos i) = some (a.elt (v.src i)) := by
        rw [hm, h5 i hi]
        intro j hj hb he
        have := hd i j hi hj he
        subst this
        exact Nat.lt_irrefl _ hb
      have hsc : sc.get m' = .ok y := by
        cases sc with
        | val z => exact k2
        | cell p =>
          have : m' p = w.mem p := by
            apply hm
            intro j hj hb hp
            obtain ⟨y', h', b, c', u, q1, q2, q3, q4, q5, q6, q7⟩ := k4 p rfl
            have hin : InB b.ext (u.src []) := chain_in q5 [] (by rw [q6]; trivial)
            have hc' := toA_covers h2 hc (q := p) ⟨j, hj, hp.symm⟩
            by_cases hxy : x = y'
            · subst hxy
              rw [ha] at q2; cases q2
              rw [h1] at q3; cases q3
              apply hn
              rw [q1]
              refine ⟨rfl, a, u, ha, q5.view, j, hj, ?_⟩
              rw [q7] at hp
              exact arrayView_distinct c.base a.ext _ _ (chain_in hc j hj) hin (by simp only [arrayView]; simp only [IView.toA] at hp; omega)
            · exact H.sep x y' c c' p hxy h1 q3 hc' ⟨u.src [], by rw [cells, arrayView, q4]; exact hin, by rw [q7, cells, arrayView, q4]⟩
          simp only [Scalar.get, Mem.read, this] at k2 ⊢
          exact k2
      have ho : old A x h i = some (a.elt (v.src i)) := by simp only [old, exVal, ha, hc.view]
      simp only [scalarUpdate, Mem.read, hrd, hsc, ho, k3, res_ok_bind, Option.bind_some, Option.map_some]
      rfl) (w.clock + 1)
  refine ⟨⟨m', w.env, w.clock + 1⟩, t, ?_, e2⟩
  simp only [World.fstep, h3, k1, res_ok_bind, finPlaceScalar, h4.iterate, e1, World.tick]

theorem fdoes_apply (H : HoldsStore w A) {x : Nat} {h : List Ix} {f : α → α × Bool} (hs : FLegal A (.apply x h f)) (chk nx : Bool)
    {alloc : Nat → Mem α → Nat → Nat} : FDoes w A (.apply x h f) chk nx alloc := by
  refine ⟨fun _ h => h.elim, fun _ => ?_⟩
  obtain ⟨a, v, ha, hc, hne, hinj⟩ := hs
  obtain ⟨c, o, h1, h2, h3, h4, h5⟩ := index_ok H ha hc chk
  have hdim := observes_dims h4 hne
  have hd := toA_distinct (c := c) hc hinj
  obtain ⟨m', t, e1, e2⟩ := until_holds H ha h1 h2 hc hinj h5
    (out := fun i => updated ((old A x h i).map f)) (fun _ _ => updated_none)
    (g := fun _ p m => applyUpdate f p m)
    (by
      intro i hi _ m' hm
      have hrd : m' ((IView.toA c.base a.ext v).pos i) = some (a.elt (v.src i)) := by
        rw [hm, h5 i hi]
        intro j hj hb he
        have := hd i j hi hj he
        subst this
        exact Nat.lt_irrefl _ hb
      have ho : old A x h i = some (a.elt (v.src i)) := by simp only [old, exVal, ha, hc.view]
      simp only [applyUpdate, Mem.read, hrd, ho, res_ok_bind, Option.map_some]
      rfl) (w.clock + 1)
  refine ⟨⟨m', w.env, w.clock + 1⟩, t, ?_, e2⟩
  simp only [World.fstep, h3, res_ok_bind, hdim, needs, Option.isSome_some, if_true, fapply, h4.iterate, e1, World.tick]

theorem fdoes_overlap (H : HoldsStore w A) {x : Nat} {h : List Ix} {e : FEx α} (hs : FLegal A (.overlap x h e)) (chk nx : Bool)
    {alloc : Nat → Mem α → Nat → Nat} (hal : GoodAlloc alloc) : FDoes w A (.overlap x h e) chk nx alloc := by
  obtain ⟨h0, a, v, ha, hc, hne, hinj, hl⟩ := hs
  obtain ⟨c, o, h1, h2, h3, h4, h5⟩ := index_ok H ha hc chk
  obtain ⟨src, k1, hg⟩ := fex_ok H hne chk hl
  obtain ⟨f1, f2⟩ := fnew_ok hg (alloc w.clock w.mem (prod v.ext))
  have hf := free_cells H hal w.clock (prod v.ext)
  generalize hfr0 : alloc w.clock w.mem (prod v.ext) = fresh at f1 f2 hf
  rcases defined_or (d := v.ext) (fexVal A e) with hdef | hex
  · have hnc : ¬ ConstructThrows A (.overlap x h e) := by
      rintro ⟨d', hl', i, hi, hn⟩
      rw [exLegal_unique hl' hl] at hi
      exact hdef i hi hn
    refine ⟨fun _ h => (hnc h).elim, fun _ => ?_⟩
    obtain ⟨xs, e1, e2, e3⟩ := f1 hdef
    have hfr : ∀ q, w.mem q ≠ none → ¬ (fresh ≤ q ∧ q < fresh + prod v.ext) := by
      intro q hq ⟨h1, h2⟩
      exact hq (by have := hf (q - fresh) (by omega); rwa [show fresh + (q - fresh) = q by omega] at this)
    have hvf : ∀ q, Covers (IView.toA c.base a.ext v) q → ¬ (fresh ≤ q ∧ q < fresh + prod v.ext) := by
      rintro q ⟨i, hi, rfl⟩; exact hfr _ (by rw [h5 i hi]; simp)
    have hva : ∀ i, InB v.ext i → valAt (w.mem.setMany fresh xs) (.leaf (arrayView fresh v.ext)) i = fexVal A e i := by
      intro i hi
      rw [← e2 i hi]
      simp only [valAt, arrayView]
      exact setMany_in (by rw [e1]; exact cmSum_lt hi)
    obtain ⟨m', g1, g2, g3⟩ := C18_assign h4 hne (toA_distinct hc hinj) (m := w.mem.setMany fresh xs)
      (by
        intro i hi
        rw [setMany_out (by rw [e1]; exact hvf _ ⟨i, hi, rfl⟩), h5 i hi]; simp)
      (e := .leaf (.cref fresh v.ext)) (s := .leaf (arrayView fresh v.ext))
      (.leaf (array_observes fresh hne) hne) (by simp [exts, arrayView, IView.toA])
      (by intro i hi; rw [hva i hi]; exact hdef i hi)
      (by
        intro i j hi hj _ hcc
        simp only [cellsAt, List.mem_singleton] at hcc
        exact hvf _ ⟨j, hj, rfl⟩ (hcc ▸ arrayView_covers.1 ⟨i, hi, rfl⟩)) chk
    refine ⟨⟨m'.free fresh (prod v.ext), w.env, w.clock + 1⟩, false, ?_, ?_⟩
    · simp only [World.fstep, needs_ne h0, h3, k1, res_ok_bind, hg.dims, prodL_exact, hfr0, foverlap, e3, g1, World.tick]
    · rintro A' t' ⟨a0, v0, u1, u2, hw⟩
      rw [ha] at u1; cases u1
      rw [hc.view] at u2; cases u2
      obtain ⟨rfl, hb⟩ := all_or_nothing.1 hdef hw
      refine ⟨rfl, holds_write H ha h1 h2 hc (fun i hi => ?_) hdef ?_ hb⟩
      · rw [← hva i hi, ← reads_val h4 hi (g2 i hi), Mem.free, if_neg (hvf _ ⟨i, hi, rfl⟩)]
      · intro q hq
        simp only [Mem.free]
        split
        · next hin =>
          have := hf (q - fresh) (by omega)
          rw [show fresh + (q - fresh) = q by omega] at this
          exact this.symm
        · next hout => rw [g3 q hq, setMany_out (by rw [e1]; exact hout)]
  · have hct : ConstructThrows A (.overlap x h e) := ⟨v.ext, hl, hex⟩
    obtain ⟨e1, e2⟩ := f2 hex
    constructor
    · rintro rfl _
      simp only [World.fstep, needs_ne h0, h3, k1, res_ok_bind, hg.dims, prodL_exact, hfr0, foverlap, e1]; rfl
    · intro hn
      have hnx : nx = false := by cases nx <;> simp_all
      subst hnx
      refine ⟨(w.tick (w.mem, true)).1, true, ?_, ?_⟩
      · simp only [World.fstep, needs_ne h0, h3, k1, res_ok_bind, hg.dims, prodL_exact, hfr0, foverlap, e2]; rfl
      · rintro A' t' ⟨a0, v0, u1, u2, hw⟩
        rw [ha] at u1; cases u1
        rw [hc.view] at u2; cases u2
        obtain ⟨rfl, rfl⟩ := all_or_nothing.2 hex hw
        exact ⟨rfl, holds_clock H _⟩

theorem fdoes_overlapWhole (H : HoldsStore w A) {x : Nat} {e : FEx α} (hs : FLegal A (.overlapWhole x e)) (chk nx : Bool)
    {alloc : Nat → Mem α → Nat → Nat} (hal : GoodAlloc alloc) : FDoes w A (.overlapWhole x e) chk nx alloc := by
  obtain ⟨a, d, ha, hlen, hl⟩ := hs
  obtain ⟨hane, c, h1, h2, _⟩ := H.arr x a ha
  have hd : d ≠ [] := by
    intro h; subst h; exact hane (List.length_eq_zero_iff.1 hlen.symm)
  obtain ⟨src, k1, hg⟩ := fex_ok H hd chk hl
  obtain ⟨f1, f2⟩ := fnew_ok hg (alloc w.clock w.mem (prod d))
  have hso : sameOrder c src.dims = .ok () := by simp [sameOrder, h2, hg.dims, hlen]
  rcases defined_or (d := d) (fexVal A e) with hdef | hex
  · have hnc : ¬ ConstructThrows A (.overlapWhole x e) := by
      rintro ⟨d', hl', i, hi, hn⟩
      rw [exLegal_unique hl' hl] at hi
      exact hdef i hi hn
    refine ⟨fun _ h => (hnc h).elim, fun _ => ?_⟩
    obtain ⟨xs, e1, e2, e3⟩ := f1 hdef
    refine ⟨w.bind ((w.mem.setMany (alloc w.clock w.mem (prod d)) xs).free c.base (prod c.ext)) x
      (some ⟨alloc w.clock w.mem (prod d), d⟩), false, ?_, ?_⟩
    · simp only [World.fstep, World.get, h1, k1, res_ok_bind, hso]
      simp only [hg.dims, prodL_exact, e3, res_ok_bind, World.named, Option.map_some, Arr.clear]
    · rintro A' t' ⟨d', hl', hw⟩
      rw [exLegal_unique hl' hl] at hw
      obtain ⟨rfl, hb⟩ := all_or_nothing.1 hdef hw
      exact ⟨rfl, replaced_holds H hd e1 (free_cells H hal w.clock (prod d)) ha h1 (becomes_congr (fun i hi => (e2 i hi).symm) hb)⟩
  · have hct : ConstructThrows A (.overlapWhole x e) := ⟨d, hl, hex⟩
    obtain ⟨e1, e2⟩ := f2 hex
    constructor
    · rintro rfl _
      simp only [World.fstep, World.get, h1, k1, res_ok_bind, hso]
      simp only [hg.dims, prodL_exact, e1]; rfl
    · intro hn
      have hnx : nx = false := by cases nx <;> simp_all
      subst hnx
      refine ⟨(w.tick (w.mem, true)).1, true, ?_, ?_⟩
      · simp only [World.fstep, World.get, h1, k1, res_ok_bind, hso]
        simp only [hg.dims, prodL_exact, e2, res_ok_bind, World.named, Option.map_none]; rfl
      · rintro A' t' ⟨d', hl', hw⟩
        rw [exLegal_unique hl' hl] at hw
        obtain ⟨rfl, rfl⟩ := all_or_nothing.2 hex hw
        exact ⟨rfl, holds_clock H _⟩

theorem holds_rebind (H : HoldsStore w A) {x : Nat} {c : Arr} (hx : w.env x = some c) : HoldsStore (w.bind w.mem x (some c)) A := by
  have : (w.bind w.mem x (some c)) = ⟨w.mem, w.env, w.clock + 1⟩ := by
    simp only [World.bind]
    congr 1
    funext y
    split
    · next h => rw [h, hx]
    · rfl
  rw [this]
  exact holds_clock H _

theorem fdoes_set (H : HoldsStore w A) {x : Nat} {e : FEx α} (hs : FLegal A (.set x e)) (chk nx : Bool)
    {alloc : Nat → Mem α → Nat → Nat} (hal : GoodAlloc alloc) : FDoes w A (.set x e) chk nx alloc := by
  by_cases hy : ∃ y, e = .arr y []
  · obtain ⟨y, rfl⟩ := hy
    have hs' : StmtLegal A (.set x (.arr y [])) := hs
    obtain ⟨w', g1, g2⟩ := stmt_ok H hs' chk hal
    obtain ⟨a, d, ha, hlen, hl, hn⟩ := hs'
    have hl0 := hl
    obtain ⟨b, u, hb, hch, hv⟩ := hl0
    have hdef : ∀ i, fexVal A (.arr y []) i ≠ none := by
      intro i; simp [fexVal, exVal, hb, hch.view]
    refine ⟨fun _ h => ?_, fun _ => ⟨w', false, by simp only [World.fstep, g1, res_ok_bind], ?_⟩⟩
    · obtain ⟨_, _, _, _, _, i, _, hi⟩ := h
      exact (hdef i hi).elim
    · rintro A' t' ⟨a0, d', _, hl', hw⟩
      have : t' = false ∧ Becomes A x d' (fexVal A (.arr y [])) A' := by
        split at hw
        · rcases hw with ⟨h1, _, h2⟩ | ⟨_, ⟨i, _, hi⟩, _⟩
          · exact ⟨h1, h2⟩
          · exact (hdef i hi).elim
        · exact all_or_nothing.1 (fun i _ => hdef i) hw
      exact ⟨this.1, g2 A' ⟨d', hl', this.2⟩⟩
  · obtain ⟨a, d, ha, hlen, hl, hn⟩ := hs
    obtain ⟨hane, c, h1, h2, h6⟩ := H.arr x a ha
    have hd : d ≠ [] := by
      intro h; subst h; exact hane (List.length_eq_zero_iff.1 hlen.symm)
    obtain ⟨src, k1, hg⟩ := fex_ok H hd chk hl
    have hso : sameOrder c src.dims = .ok () := by simp [sameOrder, h2, hg.dims, hlen]
    have hstep := fstep_set chk nx alloc w x fun y h => hy ⟨y, h⟩
    simp only [World.get, h1, k1, res_ok_bind, hso] at hstep
    by_cases hsz : prod a.ext = prod d
    · -- over the own cells
      have hsz' : prod c.ext = prod d := by rw [h2]; exact hsz
      have hnc : ¬ ConstructThrows A (.set x e) := by
        rintro ⟨a', d', q1, q2, q3, _⟩
        rw [ha] at q1; cases q1
        rw [exLegal_unique q2 hl] at q3
        exact q3 hsz
      refine ⟨fun _ h => (hnc h).elim, fun _ => ?_⟩
      have hcov : ∀ q, Covers (cells c) q ↔ Covers (arrayView c.base d) q := by
        intro q; rw [arrayView_covers, arrayView_covers, hsz']
      have hal' : Alive w.mem (arrayView c.base d) := by
        intro i hi
        obtain ⟨j, hj, he⟩ := (hcov ((arrayView c.base d).pos i)).2 ⟨i, hi, rfl⟩
        rw [← he]; exact alive_cells H ha h1 j hj
      obtain ⟨m', t, e1, e2, e3, e4, e5⟩ := walk_until (v := arrayView c.base d) (m := w.mem) (arrayView_distinct _ _) hal'
        (out := fun i => evaluated (fexVal A e i)) (fun _ _ => evaluated_none) (g := fun k _ m => src.value k m)
        (by
          intro i hi _ m1 hm1
          refine value_res (hg.deref m1 i hi ?_)
          rintro y k p hr ⟨b, c', r2, r3, r4, r5, r6⟩
          apply hm1
          intro j hj hb hp
          have hj : InB d j := hj
          have hb : cmSum d j < cmSum d i := hb
          have hp : p = c.base + cmSum d j := hp
          by_cases hxy : x = y
          · subst hxy
            rw [ha] at r2; cases r2
            rw [h1] at r3; cases r3
            have := hn hsz i k hi r5 hr
            omega
          · refine H.sep x y c c' p hxy h1 r3 ((hcov p).2 ⟨j, hj, hp.symm⟩) ⟨k, by rw [cells, arrayView, r4]; exact r5, by rw [r6, cells, arrayView, r4]⟩)
      have hvis : ∀ i, Visited d (fun i => evaluated (fexVal A e i)) i ↔ ∀ j, InB d j → Before d j i → fexVal A e j ≠ none := by
        intro i
        unfold Visited
        constructor <;> intro h j hj hb
        · intro hn; have := h j hj hb; simp [hn, evaluated] at this
        · have := h j hj hb
          cases hv : fexVal A e j with
          | none => exact (this hv).elim
          | some y => simp [hv, evaluated]
      rw [array_enum] at e1
      have hfs : fset Arith.exact nx c src w.mem (alloc w.clock w.mem (prodL Arith.exact src.dims)) = .ok (m', if t then c else ⟨c.base, d⟩, t) := by
        simp only [fset, hg.dims, prodL_exact, hsz', if_true, hg.count, Nat.lt_irrefl, if_false, Arith.exact_add, e1, res_ok_bind]
      rw [hfs, res_ok_bind] at hstep
      refine ⟨_, t, hstep, ?_⟩
      rintro A' t' ⟨a0, d', q1, q2, hw⟩
      rw [ha] at q1; cases q1
      have := exLegal_unique q2 hl; subst this
      rw [if_pos hsz] at hw
      rcases defined_or (d := d') (fexVal A e) with hdef | hex
      · -- no exception
        have ht : t = false := by
          cases t with
          | false => rfl
          | true =>
            obtain ⟨i, hi, hth⟩ := e2.1 rfl
            obtain ⟨z, hz⟩ := Option.ne_none_iff_exists'.1 (hdef i hi)
            simp [hz, evaluated] at hth
        subst ht
        rcases hw with ⟨w1, _, w2⟩ | ⟨_, ⟨i, hi, hh⟩, _⟩
        · refine ⟨w1, ?_⟩
          have hc : ∀ c', w.env x = some c' → c' = c := by intro c' h; rw [h1] at h; cases h; rfl
          refine holds_replace H hd rfl (f := fexVal A e) ?_ ?_ ?_ ?_ w2
          · intro i hi
            obtain ⟨z, hz⟩ := Option.ne_none_iff_exists'.1 (hdef i hi)
            rw [hz]
            exact e3 i hi ((hvis i).2 fun j hj _ => hdef j hj) z (by simp [hz, evaluated])
          · intro q hq
            by_cases hcq : Covers (arrayView c.base d') q
            · exact .inr hcq
            · have hq : m' q ≠ none := hq
              rw [e5 q hcq] at hq
              exact .inl ⟨hq, fun c' e => by rw [hc c' e]; exact fun h => hcq ((hcov q).1 h)⟩
          · intro q hq hnn
            exact e5 q fun h => hnn c h1 ((hcov q).2 h)
          · intro q hq
            exact .inl ⟨c, h1, (hcov q).2 hq⟩
        · exact (hdef i hi hh).elim
      · -- an exception
        have ht : t = true := by
          rw [e2]
          obtain ⟨i, hi, hh⟩ := hex
          exact ⟨i, hi, by simp [hh, evaluated]⟩
        subst ht
        rcases hw with ⟨_, w1, _⟩ | ⟨w1, _, w2⟩
        · obtain ⟨i, hi, hh⟩ := hex
          exact (w1 i hi hh).elim
        · refine ⟨w1, ?_⟩
          obtain ⟨v1, a1, a', v2, v3, v4, v5⟩ := w2
          rw [ha] at v2; cases v2
          have hch : Chain a.ext [] ⟨a.ext, id⟩ := ⟨trivial, by simp [typeOf], rfl⟩
          have hwr : HoldsStore ⟨m', w.env, w.clock⟩ A' := by
            refine holds_write H ha h1 h2 hch (f := fun k => some (a'.elt k)) ?_ (by simp) ?_
              ⟨v1, a, a', ⟨a.ext, id⟩, ha, v3, rfl, v4, fun _ _ => rfl, fun j hj hh => (hh ⟨j, hj, rfl⟩).elim⟩
            · intro k hk
              have hk : InB a.ext k := hk
              obtain ⟨i, hi, hik, _⟩ := rank_exists (d := d') (k := cmSum a.ext k) (by rw [← hsz]; exact cmSum_lt hk)
              show m' (c.base + cmSum a.ext k) = _
              obtain ⟨u1, u2⟩ := v5 i k hi hk hik
              have hpos : (arrayView c.base d').pos i = c.base + cmSum a.ext k := by simp only [arrayView, hik]
              rw [← hpos]
              by_cases hb : ∃ j, InB d' j ∧ cmSum d' j ≤ cmSum d' i ∧ fexVal A e j = none
              · rw [u2 hb, e4 i hi, hpos]
                · have := h6 k hk
                  simp only [cells, arrayView, h2] at this
                  exact this
                · intro hvi
                  obtain ⟨j, hj, hle, hjn⟩ := hb
                  rcases Nat.lt_or_eq_of_le hle with hlt | heq
                  · exact ((hvis i).1 hvi j hj hlt hjn).elim
                  · have := rank_inj hj hi heq
                    subst this
                    simp [hjn, evaluated]
              · have hall : ∀ j, InB d' j → cmSum d' j ≤ cmSum d' i → fexVal A e j ≠ none := fun j hj hle hjn => hb ⟨j, hj, hle, hjn⟩
                have hval := u1 hall
                exact e3 i hi ((hvis i).2 fun j hj hlt => hall j hj (Nat.le_of_lt hlt)) _ (by simp [hval, evaluated])
            · intro q hq
              apply e5
              intro hcq
              apply hq
              obtain ⟨k, hk, he⟩ := (hcov q).2 hcq
              exact ⟨k, by rw [← h2]; exact hk, by rw [← he]; simp [cells, arrayView, IView.toA, h2]⟩
          exact holds_rebind (w := ⟨m', w.env, w.clock⟩) hwr h1
    · -- a new block
      have hsz' : prod c.ext ≠ prod d := by rw [h2]; exact hsz
      obtain ⟨f1, f2⟩ := fnew_ok hg (alloc w.clock w.mem (prod d))
      rcases defined_or (d := d) (fexVal A e) with hdef | hex
      · have hnc : ¬ ConstructThrows A (.set x e) := by
          rintro ⟨_, d', _, hl', _, i, hi, hh⟩
          rw [exLegal_unique hl' hl] at hi
          exact hdef i hi hh
        refine ⟨fun _ h => (hnc h).elim, fun _ => ?_⟩
        obtain ⟨xs, e1, e2, e3⟩ := f1 hdef
        refine ⟨w.bind ((w.mem.setMany (alloc w.clock w.mem (prod d)) xs).free c.base (prod c.ext)) x
          (some ⟨alloc w.clock w.mem (prod d), d⟩), false, ?_, ?_⟩
        · rw [hstep]
          simp only [fset, hg.dims, prodL_exact, if_neg hsz', e3, res_ok_bind, Arr.clear]
        · rintro A' t' ⟨a0, d', q1, hl', hw⟩
          rw [ha] at q1; cases q1
          rw [exLegal_unique hl' hl, if_neg hsz] at hw
          obtain ⟨rfl, hb⟩ := all_or_nothing.1 hdef hw
          exact ⟨rfl, replaced_holds H hd e1 (free_cells H hal w.clock (prod d)) ha h1 (becomes_congr (fun i hi => (e2 i hi).symm) hb)⟩
      · have hct : ConstructThrows A (.set x e) := ⟨a, d, ha, hl, hsz, hex⟩
        obtain ⟨e1, e2⟩ := f2 hex
        constructor
        · rintro rfl _
          rw [hstep]
          simp only [fset, hg.dims, prodL_exact, if_neg hsz', e1]; rfl
        · intro hnn
          have hnx : nx = false := by cases nx <;> simp_all
          subst hnx
          refine ⟨w.bind w.mem x (some c), true, ?_, ?_⟩
          · rw [hstep]
            simp only [fset, hg.dims, prodL_exact, if_neg hsz', e2, res_ok_bind]
          · rintro A' t' ⟨a0, d', q1, hl', hw⟩
            rw [ha] at q1; cases q1
            rw [exLegal_unique hl' hl, if_neg hsz] at hw
            obtain ⟨rfl, rfl⟩ := all_or_nothing.2 hex hw
            exact ⟨rfl, holds_rebind H h1⟩

/-- One statement. -/
theorem fstmt_ok (H : HoldsStore w A) {s : FStmt α} (hs : FLegal A s) (chk nx : Bool) {alloc : Nat → Mem α → Nat → Nat}
    (hal : GoodAlloc alloc) : FDoes w A s chk nx alloc := by
  cases s with
  | plain s =>
    obtain ⟨w', g1, g2⟩ := stmt_ok H hs chk hal
    refine ⟨fun _ h => h.elim, fun _ => ⟨w', false, by simp only [World.fstep, g1, res_ok_bind], ?_⟩⟩
    rintro A' t' ⟨rfl, hw⟩
    exact ⟨rfl, g2 A' hw⟩
  | make x e => exact fdoes_make H hs chk nx hal
  | makeFrom x l ext => exact fdoes_makeFrom H hs chk nx hal
  | assign x h e => exact fdoes_assign H hs chk nx
  | inPlace x h op e => exact fdoes_inPlace H hs chk nx
  | inPlaceScalar x h op s => exact fdoes_inPlaceScalar H hs chk nx
  | apply x h f => exact fdoes_apply H hs chk nx
  | overlap x h e => exact fdoes_overlap H hs chk nx hal
  | overlapWhole x e => exact fdoes_overlapWhole H hs chk nx hal
  | set x e => exact fdoes_set H hs chk nx hal

/-- **C84.** Programs whose functions throw. Any sequence of legal statements whose functions throw on some values, every exception being
caught after the statement it leaves, runs without undefined behaviour or failed assertions, in every build and with every allocator;
exceptions leave exactly the statements they should, and the final state holds exactly the resulting array values, with nothing
half-constructed, shared or left over. -/
theorem C84_run {nx : Bool} {p : List (FStmt α)} {A' : AStore α} {ts : List Bool} (hr : FRuns nx A p A' ts) (H : HoldsStore w A) (chk : Bool)
    {alloc : Nat → Mem α → Nat → Nat} (hal : GoodAlloc alloc) :
    ∃ w', w.frun Arith.exact chk nx alloc p = .ok (w', ts) ∧ HoldsStore w' A' := by
  induction hr generalizing w with
  | nil => exact ⟨w, rfl, H⟩
  | cons hl hn he _ ih =>
    obtain ⟨w₁, t, h1, h2⟩ := (fstmt_ok H hl chk nx hal).2 hn
    obtain ⟨rfl, H₁⟩ := h2 _ _ he
    obtain ⟨w', h3, h4⟩ := ih H₁
    exact ⟨w', by simp only [World.frun, h1, h3, res_ok_bind], h4⟩

/-- **C84.** The same for a whole program. -/
theorem C84_program {nx : Bool} {p : List (FStmt α)} {A' : AStore α} {ts : List Bool} (hr : FRuns nx (fun _ => none) p A' ts) (chk : Bool)
    {alloc : Nat → Mem α → Nat → Nat} (hal : GoodAlloc alloc) :
    ∃ w', World.empty.frun Arith.exact chk nx alloc p = .ok (w', ts) ∧ HoldsStore w' A' :=
  C84_run hr holdsStore_start chk hal

/-- **C84.** If constructing an element cannot throw, an exception in one of the functions of a statement that constructs elements does
not reach the program's handlers: the program is terminated. -/
theorem C84_terminated {p q : List (FStmt α)} {A' : AStore α} {ts : List Bool} (hr : FRuns true A p A' ts) {s : FStmt α} (hs : FLegal A' s)
    (hc : ConstructThrows A' s) (H : HoldsStore w A) (chk : Bool) {alloc : Nat → Mem α → Nat → Nat} (hal : GoodAlloc alloc) :
    w.frun Arith.exact chk true alloc (p ++ s :: q) = .error .terminate := by
  induction hr generalizing w with
  | nil =>
    simp only [List.nil_append, World.frun, (fstmt_ok H hs chk true hal).1 rfl hc]; rfl
  | cons hl hn he _ ih =>
    obtain ⟨w₁, t, h1, h2⟩ := (fstmt_ok H hl chk true hal).2 hn
    obtain ⟨rfl, H₁⟩ := h2 _ _ he
    simp only [List.cons_append, World.frun, h1, res_ok_bind, ih hs hc H₁]; rfl

end

section
open Classical
variable {α : Type} {w : World α} {A : AStore α}

theorem until_exists {x : Nat} {a : AVal α} (ha : A x = some a) {h : List Ix} {v : IView} (hv : imeaning a.ext h = .view v)
    (hinj : v.Injective) (out : List Nat → AtElt α) : ∃ A' t, WritesUntil A x h out A' t := by
  obtain ⟨A', w1, a0, a', v0, w2, w3, w4, w5, w6, w7⟩ := writes_exists ha hv
    (f := fun i => if Visited v.ext out i then some ((out i).new.getD (a.elt (v.src i))) else some (a.elt (v.src i)))
    (by intro i _; split <;> simp) (fun i j hi hj he => by rw [hinj i j hi hj he])
  rw [ha] at w2; cases w2
  rw [hv] at w4; cases w4
  refine ⟨A', decide (Thrown v.ext out), w1, a, a', v, ha, w3, hv, w5, by simp, ?_, ?_, w7⟩
  · intro i hi hvis y hy
    have := w6 i hi
    simp only [hvis, if_true, hy, Option.getD_some, Option.some.injEq] at this
    exact this.symm
  · intro i hi hh
    have := w6 i hi
    by_cases hvis : Visited v.ext out i
    · simp only [hvis, if_true, hh hvis, Option.getD_none, Option.some.injEq] at this
      exact this.symm
    · simp only [hvis, if_false, Option.some.injEq] at this
      exact this.symm

theorem halfway_exists {x : Nat} {a : AVal α} (ha : A x = some a) {d : List Nat} (f : List Nat → Option α) : ∃ A', Halfway A x d f A' := by
  let a' : AVal α := ⟨a.ext, fun k => if h : ∃ i, InB d i ∧ cmSum d i = cmSum a.ext k ∧ ∀ j, InB d j → cmSum d j ≤ cmSum d i → f j ≠ none
    then (f h.choose).getD (a.elt k) else a.elt k⟩
  refine ⟨fun y => if y = x then some a' else A y, fun y hy => by simp [hy], a, a', ha, by simp, rfl, ?_⟩
  intro i k hi hk hik
  constructor
  · intro hall
    have h : ∃ i, InB d i ∧ cmSum d i = cmSum a.ext k ∧ ∀ j, InB d j → cmSum d j ≤ cmSum d i → f j ≠ none := ⟨i, hi, hik, hall⟩
    obtain ⟨c1, c2, _⟩ := h.choose_spec
    have : h.choose = i := rank_inj c1 hi (by omega)
    obtain ⟨y, hy⟩ := Option.ne_none_iff_exists'.1 (hall i hi (Nat.le_refl _))
    simp only [a', dif_pos h, this, hy, Option.getD_some]
  · rintro ⟨j, hj, hle, hn⟩
    have h : ¬ ∃ i, InB d i ∧ cmSum d i = cmSum a.ext k ∧ ∀ j, InB d j → cmSum d j ≤ cmSum d i → f j ≠ none := by
      rintro ⟨i', _, h2, h3⟩
      exact h3 j hj (by omega) hn
    simp only [a', dif_neg h]

theorem allOrNothing_exists {d : List Nat} {f : List Nat → Option α} {P : AStore α → Prop} (h : (∀ i, InB d i → f i ≠ none) → ∃ A', P A') :
    ∃ A' t, AllOrNothing A d f A' t (P A') := by
  rcases defined_or (d := d) f with hdef | hex
  · obtain ⟨A', hp⟩ := h hdef
    exact ⟨A', false, .inl ⟨rfl, hdef, hp⟩⟩
  · exact ⟨A, true, .inr ⟨rfl, hex, rfl⟩⟩

/-- **C84.** Every legal statement has an effect (for element types with at least one value). -/
theorem C84_progress [Nonempty α] {s : FStmt α} (hs : FLegal A s) : ∃ A' t, FEffect A s A' t := by
  have hne : ∃ _ : α, True := ⟨Classical.choice ‹_›, trivial⟩
  cases s with
  | plain s =>
    obtain ⟨A', h⟩ := C65_progress hs
    exact ⟨A', false, rfl, h⟩
  | make x e =>
    obtain ⟨_, d, _, hl⟩ := hs
    obtain ⟨A', t, h⟩ := allOrNothing_exists (A := A) (d := d) (f := fexVal A e) (P := Becomes A x d (fexVal A e)) fun hd => becomes_exists x d hd hne
    exact ⟨A', t, d, hl, h⟩
  | makeFrom x l ext => exact allOrNothing_exists fun hd => becomes_exists x ext hd hne
  | assign x h e =>
    obtain ⟨_, a, v, ha, hc, _, hinj, hl, _⟩ := hs
    exact until_exists ha hc.view hinj _
  | inPlace x h op e =>
    obtain ⟨a, v, ha, hc, _, hinj, hl, _⟩ := hs
    exact until_exists ha hc.view hinj _
  | inPlaceScalar x h op s =>
    obtain ⟨hl, a, v, ha, hc, hinj, _⟩ := hs
    exact until_exists ha hc.view hinj _
  | apply x h f =>
    obtain ⟨a, v, ha, hc, _, hinj⟩ := hs
    exact until_exists ha hc.view hinj _
  | overlap x h e =>
    obtain ⟨_, a, v, ha, hc, _, hinj, hl⟩ := hs
    obtain ⟨A', t, h⟩ := allOrNothing_exists (A := A) (d := v.ext) (f := fexVal A e) (P := Writes A x h (fexVal A e)) fun hd =>
      writes_exists ha hc.view hd fun i j hi hj he => by rw [hinj i j hi hj he]
    exact ⟨A', t, a, v, ha, hc.view, h⟩
  | overlapWhole x e =>
    obtain ⟨a, d, _, _, hl⟩ := hs
    obtain ⟨A', t, h⟩ := allOrNothing_exists (A := A) (d := d) (f := fexVal A e) (P := Becomes A x d (fexVal A e)) fun hd => becomes_exists x d hd hne
    exact ⟨A', t, d, hl, h⟩
  | set x e =>
    obtain ⟨a, d, ha, _, hl, _⟩ := hs
    by_cases hsz : prod a.ext = prod d
    · rcases defined_or (d := d) (fexVal A e) with hdef | hex
      · obtain ⟨A', h⟩ := becomes_exists (A := A) x d hdef hne
        exact ⟨A', false, a, d, ha, hl, by rw [if_pos hsz]; exact .inl ⟨rfl, hdef, h⟩⟩
      · obtain ⟨A', h⟩ := halfway_exists (d := d) ha (fexVal A e)
        exact ⟨A', true, a, d, ha, hl, by rw [if_pos hsz]; exact .inr ⟨rfl, hex, h⟩⟩
    · obtain ⟨A', t, h⟩ := allOrNothing_exists (A := A) (d := d) (f := fexVal A e) (P := Becomes A x d (fexVal A e)) fun hd => becomes_exists x d hd hne
      exact ⟨A', t, a, d, ha, hl, by rw [if_neg hsz]; exact h⟩

theorem until_unique {x : Nat} {h : List Ix} {out : List Nat → AtElt α} {A₁ A₂ : AStore α} {t₁ t₂ : Bool} (w1 : WritesUntil A x h out A₁ t₁)
    (w2 : WritesUntil A x h out A₂ t₂) : t₁ = t₂ ∧ SameStore A₁ A₂ := by
  obtain ⟨o1, a, a1, v, e1, e2, e3, e4, e5, e6, e7, e8⟩ := w1
  obtain ⟨o2, b, b1, u, g1, g2, g3, g4, g5, g6, g7, g8⟩ := w2
  rw [e1] at g1; cases g1
  rw [e3] at g3; cases g3
  refine ⟨?_, same_of o1 o2 e2 g2 (by rw [e4, g4]) ?_⟩
  · have : t₁ = true ↔ t₂ = true := e5.trans g5.symm
    cases t₁ <;> cases t₂ <;> simp at this ⊢
  · intro i hi
    rw [e4] at hi
    by_cases hh : v.Has i
    · obtain ⟨j, hj, rfl⟩ := hh
      by_cases hvis : Visited v.ext out j → (out j).new = none
      · rw [e7 j hj hvis, g7 j hj hvis]
      · simp only [Classical.not_imp] at hvis
        obtain ⟨y, hy⟩ := Option.ne_none_iff_exists'.1 hvis.2
        rw [e6 j hj hvis.1 y hy, g6 j hj hvis.1 y hy]
    · rw [e8 i hi hh, g8 i hi hh]

theorem halfway_unique {x : Nat} {a : AVal α} (ha : A x = some a) {d : List Nat} (hsz : prod a.ext = prod d) {f : List Nat → Option α}
    {A₁ A₂ : AStore α} (w1 : Halfway A x d f A₁) (w2 : Halfway A x d f A₂) : SameStore A₁ A₂ := by
  obtain ⟨o1, a0, a1, e1, e2, e3, e4⟩ := w1
  obtain ⟨o2, b0, b1, g1, g2, g3, g4⟩ := w2
  rw [ha] at e1 g1; cases e1; cases g1
  refine same_of o1 o2 e2 g2 (by rw [e3, g3]) ?_
  intro k hk
  rw [e3] at hk
  obtain ⟨i, hi, hik, _⟩ := rank_exists (d := d) (k := cmSum a.ext k) (by rw [← hsz]; exact cmSum_lt hk)
  obtain ⟨u1, u2⟩ := e4 i k hi hk hik
  obtain ⟨q1, q2⟩ := g4 i k hi hk hik
  by_cases hb : ∃ j, InB d j ∧ cmSum d j ≤ cmSum d i ∧ f j = none
  · rw [u2 hb, q2 hb]
  · have hall : ∀ j, InB d j → cmSum d j ≤ cmSum d i → f j ≠ none := fun j hj hle hjn => hb ⟨j, hj, hle, hjn⟩
    exact Option.some.inj ((u1 hall).symm.trans (q1 hall))

theorem allOrNothing_unique {d : List Nat} {f : List Nat → Option α} {A₁ A₂ : AStore α} {t₁ t₂ : Bool} {P₁ P₂ : Prop}
    (h1 : AllOrNothing A d f A₁ t₁ P₁) (h2 : AllOrNothing A d f A₂ t₂ P₂) (h : P₁ → P₂ → SameStore A₁ A₂) : t₁ = t₂ ∧ SameStore A₁ A₂ := by
  rcases h1 with ⟨r1, r2, r3⟩ | ⟨r1, ⟨i, hi, hn⟩, r3⟩ <;> rcases h2 with ⟨s1, s2, s3⟩ | ⟨s1, ⟨j, hj, hm⟩, s3⟩
  · exact ⟨by rw [r1, s1], h r3 s3⟩
  · exact (r2 j hj hm).elim
  · exact (s2 i hi hn).elim
  · exact ⟨by rw [r1, s1], by rw [r3, s3]; exact same_refl _⟩

/-- **C84.** The effect of a statement, and whether it throws, is determined. -/
theorem C84_determined {s : FStmt α} {A₁ A₂ : AStore α} {t₁ t₂ : Bool} (h1 : FEffect A s A₁ t₁) (h2 : FEffect A s A₂ t₂) :
    t₁ = t₂ ∧ SameStore A₁ A₂ := by
  cases s with
  | plain s => exact ⟨by rw [h1.1, h2.1], C65_determined h1.2 h2.2⟩
  | make x e =>
    obtain ⟨d, l1, w1⟩ := h1
    obtain ⟨d', l2, w2⟩ := h2
    rw [exLegal_unique l2 l1] at w2
    exact allOrNothing_unique w1 w2 becomes_unique
  | makeFrom x l ext => exact allOrNothing_unique h1 h2 becomes_unique
  | assign x h e => exact until_unique h1 h2
  | inPlace x h op e => exact until_unique h1 h2
  | inPlaceScalar x h op s => exact until_unique h1 h2
  | apply x h f => exact until_unique h1 h2
  | overlap x h e =>
    obtain ⟨a, v, r1, r2, w1⟩ := h1
    obtain ⟨b, u, s1, s2, w2⟩ := h2
    rw [r1] at s1; cases s1
    rw [r2] at s2; cases s2
    exact allOrNothing_unique w1 w2 writes_unique
  | overlapWhole x e =>
    obtain ⟨d, l1, w1⟩ := h1
    obtain ⟨d', l2, w2⟩ := h2
    rw [exLegal_unique l2 l1] at w2
    exact allOrNothing_unique w1 w2 becomes_unique
  | set x e =>
    obtain ⟨a, d, r1, l1, w1⟩ := h1
    obtain ⟨b, d', s1, l2, w2⟩ := h2
    rw [r1] at s1; cases s1
    rw [exLegal_unique l2 l1] at w2
    by_cases hsz : prod a.ext = prod d
    · rw [if_pos hsz] at w1 w2
      rcases w1 with ⟨r1, r2, r3⟩ | ⟨r1, ⟨i, hi, hn⟩, r3⟩ <;> rcases w2 with ⟨s1, s2, s3⟩ | ⟨s1, ⟨j, hj, hm⟩, s3⟩
      · exact ⟨by rw [r1, s1], becomes_unique r3 s3⟩
      · exact (r2 j hj hm).elim
      · exact (s2 i hi hn).elim
      · exact ⟨by rw [r1, s1], halfway_unique ‹_› hsz r3 s3⟩
    · rw [if_neg hsz] at w1 w2
      exact allOrNothing_unique w1 w2 becomes_unique

/-- Only the target of a statement changes. -/
theorem effect_target {s : FStmt α} {x : Nat} (hx : target s = some x) {A' : AStore α} {t : Bool} (h : FEffect A s A' t) :
    ∀ y, y ≠ x → A' y = A y := by
  have haon : ∀ {d : List Nat} {f : List Nat → Option α} {P : Prop}, (P → ∀ y, y ≠ x → A' y = A y) → AllOrNothing A d f A' t P →
      ∀ y, y ≠ x → A' y = A y := by
    rintro d f P hP (⟨_, _, h⟩ | ⟨_, _, h⟩) y hy
    · exact hP h y hy
    · rw [h]
  cases s <;> simp only [target, Option.some.injEq, reduceCtorEq] at hx <;> subst hx
  case make => obtain ⟨d, _, h⟩ := h; exact haon (fun h => h.1) h
  case makeFrom => exact haon (fun h => h.1) h
  case assign => exact h.1
  case inPlace => exact h.1
  case inPlaceScalar => exact h.1
  case apply => exact h.1
  case overlap => obtain ⟨_, _, _, _, h⟩ := h; exact haon (fun h => h.1) h
  case overlapWhole => obtain ⟨d, _, h⟩ := h; exact haon (fun h => h.1) h
  case set =>
    obtain ⟨a, d, _, _, h⟩ := h
    split at h
    · rcases h with ⟨_, _, h⟩ | ⟨_, _, h⟩
      · exact h.1
      · exact h.1
    · exact haon (fun h => h.1) h

/-- **C84.** The basic guarantee: however a legal statement ends, all arrays are valid afterwards and only its target may have changed. -/
theorem C84_basic [Nonempty α] (H : HoldsStore w A) {s : FStmt α} {x : Nat} (hx : target s = some x) (hs : FLegal A s) {chk nx : Bool}
    {alloc : Nat → Mem α → Nat → Nat} (hal : GoodAlloc alloc) {w' : World α} {t : Bool} (h : w.fstep Arith.exact chk nx alloc s = .ok (w', t)) :
    ∃ A', HoldsStore w' A' ∧ ∀ y, y ≠ x → A' y = A y := by
  obtain ⟨A', t', he⟩ := C84_progress hs
  obtain ⟨d1, d2⟩ := fstmt_ok H hs chk nx hal
  by_cases hc : nx = true ∧ ConstructThrows A s
  · rw [d1 hc.1 hc.2] at h; cases h
  · obtain ⟨w₁, t₁, e1, e2⟩ := d2 hc
    rw [e1] at h; cases h
    exact ⟨A', (e2 A' t' he).2, effect_target hx he⟩

/-- **C84.** The strong guarantee: creating an array, `overlap(…) = e`, and an assignment that changes the number of elements either succeed
or leave every array as it was. -/
theorem C84_strong (H : HoldsStore w A) {s : FStmt α} (hs : FLegal A s)
    (hk : (∃ x e, s = .make x e) ∨ (∃ x l d, s = .makeFrom x l d) ∨ (∃ x h e, s = .overlap x h e) ∨ (∃ x e, s = .overlapWhole x e) ∨
      ∃ x e a d, s = .set x e ∧ A x = some a ∧ ExLegal A d (shapeE e) ∧ prod a.ext ≠ prod d)
    {chk nx : Bool} {alloc : Nat → Mem α → Nat → Nat} (hal : GoodAlloc alloc) {w' : World α}
    (h : w.fstep Arith.exact chk nx alloc s = .ok (w', true)) [Nonempty α] : HoldsStore w' A := by
  obtain ⟨A', t', he⟩ := C84_progress hs
  obtain ⟨d1, d2⟩ := fstmt_ok H hs chk nx hal
  by_cases hc : nx = true ∧ ConstructThrows A s
  · rw [d1 hc.1 hc.2] at h; cases h
  · obtain ⟨w₁, t₁, e1, e2⟩ := d2 hc
    rw [e1] at h; cases h
    obtain ⟨rfl, H'⟩ := e2 A' t' he
    have haon : ∀ {d : List Nat} {f : List Nat → Option α} {P : Prop}, AllOrNothing A d f A' true P → A' = A := by
      rintro d f P (⟨h, _⟩ | ⟨_, _, h⟩)
      · cases h
      · exact h
    have : A' = A := by
      rcases hk with ⟨x, e, rfl⟩ | ⟨x, l, d, rfl⟩ | ⟨x, h, e, rfl⟩ | ⟨x, e, rfl⟩ | ⟨x, e, a, d, rfl, ha, hl, hsz⟩
      · obtain ⟨_, _, he⟩ := he; exact haon he
      · exact haon he
      · obtain ⟨_, _, _, _, he⟩ := he; exact haon he
      · obtain ⟨_, _, he⟩ := he; exact haon he
      · obtain ⟨b, d', hb, hl', he⟩ := he
        rw [ha] at hb; cases hb
        rw [exLegal_unique hl' hl, if_neg hsz] at he
        exact haon he
    rw [← this]; exact H'

/-! ### Functions that never throw -/

theorem fexVal_total : ∀ (e : PEx α) (i : List Nat), fexVal A (totalE e) i = exVal A e i
  | .arr x h, i => rfl
  | .un f e, i => by simp only [totalE, fexVal, fexVal_total e i, exVal]; cases exVal A e i <;> rfl
  | .bin f a b, i => by
    simp only [totalE, fexVal, fexVal_total a i, fexVal_total b i, exVal]
    cases exVal A a i <;> cases exVal A b i <;> rfl
  | .scl f s e, i => by
    simp only [totalE, fexVal, fexVal_total e i, exVal]
    cases scVal A s <;> cases exVal A e i <;> rfl
  | .scr f e s, i => by
    simp only [totalE, fexVal, fexVal_total e i, exVal]
    cases exVal A e i <;> cases scVal A s <;> rfl

theorem exLegal_total (d : List Nat) : ∀ (e : PEx α), ExLegal A d (shapeE (totalE e)) ↔ ExLegal A d e
  | .arr _ _ => Iff.rfl
  | .un _ e => exLegal_total d e
  | .bin _ a b => and_congr (exLegal_total d a) (exLegal_total d b)
  | .scl _ _ e => and_congr Iff.rfl (exLegal_total d e)
  | .scr _ e _ => and_congr (exLegal_total d e) Iff.rfl

theorem exReads_total (i : List Nat) : ∀ (e : PEx α), exReads A (shapeE (totalE e)) i = exReads A e i
  | .arr _ _ => rfl
  | .un _ e => exReads_total i e
  | .bin _ a b => by simp only [totalE, shapeE, exReads, exReads_total i a, exReads_total i b]
  | .scl _ _ e => exReads_total i e
  | .scr _ e _ => exReads_total i e

theorem until_total {x : Nat} {h : List Ix} {f : List Nat → Option α} {out : List Nat → AtElt α} {a : AVal α} {v : IView} (ha : A x = some a)
    (hv : imeaning a.ext h = .view v) (ho : ∀ i, InB v.ext i → f i ≠ none ∧ out i = ⟨f i, false⟩) {A' : AStore α} {t : Bool} :
    WritesUntil A x h out A' t ↔ t = false ∧ Writes A x h f A' := by
  have hvis : ∀ i, Visited v.ext out i := fun i j hj _ => by rw [(ho j hj).2]
  have hth : ¬ Thrown v.ext out := by
    rintro ⟨i, hi, h⟩; rw [(ho i hi).2] at h; cases h
  constructor
  · rintro ⟨o1, a0, a1, v0, e1, e2, e3, e4, e5, e6, e7, e8⟩
    rw [ha] at e1; cases e1
    rw [hv] at e3; cases e3
    refine ⟨by simpa [hth] using e5, o1, a, a1, v, ha, e2, hv, e4, ?_, e8⟩
    intro i hi
    obtain ⟨y, hy⟩ := Option.ne_none_iff_exists'.1 (ho i hi).1
    rw [hy, e6 i hi (hvis i) y (by rw [(ho i hi).2, hy])]
  · rintro ⟨rfl, o1, a0, a1, v0, e1, e2, e3, e4, e5, e6⟩
    rw [ha] at e1; cases e1
    rw [hv] at e3; cases e3
    refine ⟨o1, a, a1, v, ha, e2, hv, e4, by simp [hth], ?_, ?_, e6⟩
    · intro i hi _ y hy
      rw [(ho i hi).2] at hy
      have := e5 i hi
      rw [show f i = some y from hy] at this
      exact (Option.some.inj this).symm
    · intro i hi hn
      have := hn (hvis i)
      rw [(ho i hi).2] at this
      exact ((ho i hi).1 this).elim

theorem allOrNothing_total {d : List Nat} {f : List Nat → Option α} (hf : ∀ i, InB d i → f i ≠ none) {A' : AStore α} {t : Bool} {P : Prop} :
    AllOrNothing A d f A' t P ↔ t = false ∧ P := by
  constructor
  · exact all_or_nothing.1 hf
  · rintro ⟨h1, h2⟩; exact .inl ⟨h1, hf, h2⟩

/-- **C84.** With functions that never throw these are the programs of C65: the same statements are legal, none throws, and the effects
are the same. -/
theorem C84_total {s : Stmt α} : (FLegal A (totalS s) ↔ StmtLegal A s) ∧
    (StmtLegal A s → ∀ A' t, FEffect A (totalS s) A' t ↔ t = false ∧ Effect A s A') := by
  have hfe : ∀ e : PEx α, fexVal A (totalE e) = exVal A e := fun e => funext (fexVal_total e)
  cases s with
  | make x e =>
    refine ⟨by simp only [totalS, FLegal, StmtLegal, exLegal_total], ?_⟩
    rintro ⟨_, d, _, hl⟩ A' t
    simp only [totalS, FEffect, Effect, exLegal_total, hfe]
    constructor
    · rintro ⟨d', hl', h⟩
      rw [allOrNothing_total (fun i _ => exVal_some i hl')] at h
      exact ⟨h.1, d', hl', h.2⟩
    · rintro ⟨h1, d', hl', h⟩
      exact ⟨d', hl', (allOrNothing_total (fun i _ => exVal_some i hl')).2 ⟨h1, h⟩⟩
  | makeFrom x l ext =>
    refine ⟨by simp only [totalS, FLegal, StmtLegal, List.length_map], ?_⟩
    rintro ⟨_, _, hl⟩ A' t
    have : (fun i => ((l.map some)[cmSum ext i]?).join) = fun i => l[cmSum ext i]? := by
      funext i
      rw [List.getElem?_map]
      cases l[cmSum ext i]? <;> rfl
    simp only [totalS, FEffect, Effect, this]
    apply allOrNothing_total
    intro i hi
    have := cmSum_lt hi
    simp only [ne_eq, List.getElem?_eq_none_iff]; omega
  | assign x h e =>
    refine ⟨by simp only [totalS, FLegal, StmtLegal, exLegal_total, NoLateRead, exReads_total], ?_⟩
    rintro ⟨_, a, v, ha, hc, _, hinj, hl, _⟩ A' t
    simp only [totalS, FEffect, Effect]
    refine until_total ha hc.view fun i _ => ⟨exVal_some i hl, ?_⟩
    obtain ⟨y, hy⟩ := Option.ne_none_iff_exists'.1 (exVal_some i hl)
    rw [fexVal_total, hy]; rfl
  | inPlace x h op e =>
    refine ⟨by simp only [totalS, FLegal, StmtLegal, exLegal_total, NoLateRead, exReads_total], ?_⟩
    rintro ⟨a, v, ha, hc, _, hinj, hl, _⟩ A' t
    simp only [totalS, FEffect, Effect]
    refine until_total ha hc.view fun i _ => ?_
    obtain ⟨y, hy⟩ := Option.ne_none_iff_exists'.1 (exVal_some i hl)
    have ho : old A x h i = some (a.elt (v.src i)) := by simp only [old, exVal, ha, hc.view]
    simp [fexVal_total, hy, ho, updated]
  | inPlaceScalar x h op s =>
    refine ⟨by simp only [totalS, FLegal, StmtLegal], ?_⟩
    rintro ⟨hl, a, v, ha, hc, hinj, _⟩ A' t
    simp only [totalS, FEffect, Effect]
    refine until_total ha hc.view fun i _ => ?_
    obtain ⟨y, hy⟩ := Option.ne_none_iff_exists'.1 (scVal_some hl)
    have ho : old A x h i = some (a.elt (v.src i)) := by simp only [old, exVal, ha, hc.view]
    simp [hy, ho, updated]
  | apply x h f =>
    refine ⟨by simp only [totalS, FLegal, StmtLegal], ?_⟩
    rintro ⟨a, v, ha, hc, _, hinj⟩ A' t
    simp only [totalS, FEffect, Effect]
    refine until_total ha hc.view fun i _ => ?_
    have ho : old A x h i = some (a.elt (v.src i)) := by simp only [old, exVal, ha, hc.view]
    simp [ho, updated]
  | overlap x h e =>
    refine ⟨by simp only [totalS, FLegal, StmtLegal, exLegal_total], ?_⟩
    rintro ⟨_, a, v, ha, hc, _, hinj, hl⟩ A' t
    simp only [totalS, FEffect, Effect, hfe]
    constructor
    · rintro ⟨a', v', _, _, h⟩
      exact (allOrNothing_total (fun i _ => exVal_some i hl)).1 h
    · intro h
      exact ⟨a, v, ha, hc.view, (allOrNothing_total (fun i _ => exVal_some i hl)).2 h⟩
  | overlapWhole x e =>
    refine ⟨by simp only [totalS, FLegal, StmtLegal, exLegal_total], ?_⟩
    rintro ⟨_, d, _, _, hl⟩ A' t
    simp only [totalS, FEffect, Effect, exLegal_total, hfe]
    constructor
    · rintro ⟨d', hl', h⟩
      rw [allOrNothing_total (fun i _ => exVal_some i hl')] at h
      exact ⟨h.1, d', hl', h.2⟩
    · rintro ⟨h1, d', hl', h⟩
      exact ⟨d', hl', (allOrNothing_total (fun i _ => exVal_some i hl')).2 ⟨h1, h⟩⟩
  | set x e =>
    refine ⟨by simp only [totalS, FLegal, StmtLegal, exLegal_total, NoLateReadWhole, exReads_total], ?_⟩
    rintro ⟨a, d, ha, _, hl, _⟩ A' t
    simp only [totalS, FEffect, Effect, exLegal_total, hfe]
    constructor
    · rintro ⟨a', d', _, hl', h⟩
      split at h
      · rcases h with ⟨h1, _, h2⟩ | ⟨_, ⟨i, _, hn⟩, _⟩
        · exact ⟨h1, d', hl', h2⟩
        · exact (exVal_some i hl' hn).elim
      · rw [allOrNothing_total (fun i _ => exVal_some i hl')] at h
        exact ⟨h.1, d', hl', h.2⟩
    · rintro ⟨h1, d', hl', h⟩
      refine ⟨a, d', ha, hl', ?_⟩
      split
      · exact .inl ⟨h1, fun i _ => exVal_some i hl', h⟩
      · exact (allOrNothing_total (fun i _ => exVal_some i hl')).2 ⟨h1, h⟩
  | _ => exact ⟨Iff.rfl, fun _ _ _ => Iff.rfl⟩

end
/-! ### Concrete cases -/

/-- `10 * y`, except that it throws on 4. -/
def exTen (y : Nat) : Option Nat := if y = 4 then none else some (10 * y)

/-- `a = {1..6}` (2×3); `a = f(a)` throws at the fourth element; `apply(in_place, a[1], ++)`, which throws after incrementing a 4;
`overlap(a) = f'(a)` throws; `b = f(a[0])`. -/
def exThrowing : List (FStmt Nat) :=
  [.plain (.makeFrom 0 [1, 2, 3, 4, 5, 6] [2, 3]), .set 0 (.un exTen (.arr 0 [])), .apply 0 [.at 1] (fun u => (u + 1, u == 4)),
   .overlapWhole 0 (.un (fun y => if y = 30 then none else some 0) (.arr 0 [])), .make 1 (.un exTen (.arr 0 [.at 0]))]

example : (World.empty.frun Arith.exact true false exAlloc exThrowing).map (fun r => (r.2, (List.range 100).filterMap r.1.mem, r.1.env 0, r.1.env 1)) =
    .ok ([false, true, true, true, false], [10, 21, 30, 5, 5, 6, 100, 300, 50], some ⟨0, [2, 3]⟩, some ⟨80, [3]⟩) := by decide +kernel

/-- With an element type that cannot throw on construction the fourth statement terminates the program. -/
example : (World.empty.frun Arith.exact true true exAlloc (exThrowing.take 3)).map (fun r => r.2) = .ok [false, true, true] ∧
    (World.empty.frun Arith.exact true true exAlloc exThrowing).map (fun r => r.2) = .error .terminate := by decide +kernel

/-- The store after the first statement. -/
def exS : AStore Nat := fun x => if x = 0 then some exA else none

theorem ex_whole : ExLegal exS [2, 3] (.arr 0 [] : PEx Nat) := ⟨exA, ⟨[2, 3], id⟩, rfl, ⟨trivial, by decide, rfl⟩, rfl⟩

/-- `b = f(a)`. -/
theorem ex_flegal : FLegal exS (.make 1 (.un exTen (.arr 0 []))) := ⟨rfl, [2, 3], by decide, ex_whole⟩

theorem ex_fthrows : ConstructThrows exS (.make 1 (.un exTen (.arr 0 []))) := ⟨[2, 3], ex_whole, [1, 1], by decide, by decide⟩

/-- `a = f(a)`. -/
theorem ex_fset : FLegal exS (.set 0 (.un exTen (.arr 0 []))) := by
  refine ⟨exA, [2, 3], rfl, rfl, ex_whole, ?_⟩
  intro _ i k hi hk hr
  have : exReads exS (shapeE (.un exTen (.arr 0 []))) i = [(0, i)] := rfl
  rw [this] at hr
  simp only [List.mem_singleton, Prod.mk.injEq, true_and] at hr
  subst hr
  exact Nat.le_refl _

theorem ex_frun1 (nx : Bool) : FRuns nx (fun _ => none) [.plain (.makeFrom 0 [1, 2, 3, 4, 5, 6] [2, 3])] exS [false] :=
  .cons (s := .plain (.makeFrom 0 [1, 2, 3, 4, 5, 6] [2, 3])) ⟨rfl, by decide, by decide⟩ (fun h => h.2.elim) ⟨rfl, ex_make⟩ .nil

/-- A throwing assignment is half done: `a` becomes `{10, 20, 30, 4, 5, 6}`. -/
theorem ex_half : FEffect exS (.set 0 (.un exTen (.arr 0 [])))
    (fun x => if x = 0 then some ⟨[2, 3], fun i => [10, 20, 30, 4, 5, 6].getD (cmSum [2, 3] i) 0⟩ else none) true := by
  refine ⟨exA, [2, 3], rfl, ex_whole, ?_⟩
  rw [if_pos (show prod exA.ext = prod [2, 3] from rfl)]
  refine .inr ⟨rfl, ⟨[1, 1], by decide, by decide⟩, fun y hy => by simp [exS, hy], exA, _, rfl, rfl, rfl, ?_⟩
  have key : ∀ i ∈ multiIdx [2, 3], ∀ k ∈ multiIdx [2, 3], cmSum [2, 3] i = cmSum [2, 3] k →
      ((∀ j ∈ multiIdx [2, 3], cmSum [2, 3] j ≤ cmSum [2, 3] i → fexVal exS (.un exTen (.arr 0 [])) j ≠ none) →
        fexVal exS (.un exTen (.arr 0 [])) i = some ([10, 20, 30, 4, 5, 6].getD (cmSum [2, 3] k) 0)) ∧
      ((∃ j ∈ multiIdx [2, 3], cmSum [2, 3] j ≤ cmSum [2, 3] i ∧ fexVal exS (.un exTen (.arr 0 [])) j = none) →
        [10, 20, 30, 4, 5, 6].getD (cmSum [2, 3] k) 0 = exA.elt k) := by decide +kernel
  intro i k hi hk hik
  obtain ⟨k1, k2⟩ := key i (mem_multiIdx.2 hi) k (mem_multiIdx.2 hk) hik
  exact ⟨fun h => k1 fun j hj => h j (mem_multiIdx.1 hj), fun ⟨j, hj, h⟩ => k2 ⟨j, mem_multiIdx.2 hj, h⟩⟩

theorem ex_frun2 : ∃ A', FRuns false (fun _ => none) [.plain (.makeFrom 0 [1, 2, 3, 4, 5, 6] [2, 3]), .set 0 (.un exTen (.arr 0 []))] A' [false, true] :=
  ⟨_, .cons (s := .plain (.makeFrom 0 [1, 2, 3, 4, 5, 6] [2, 3])) ⟨rfl, by decide, by decide⟩ (fun h => h.2.elim) ⟨rfl, ex_make⟩
    (.cons ex_fset (fun h => by cases h.1) ex_half .nil)⟩

example := C84_run ex_frun2.choose_spec holdsStore_start true goodAlloc_exists.choose_spec
example := C84_program ex_frun2.choose_spec true goodAlloc_exists.choose_spec
example := C84_terminated (q := []) (ex_frun1 true) ex_flegal ex_fthrows holdsStore_start true goodAlloc_exists.choose_spec
example := C84_progress ex_fset
example := C84_determined ex_half ex_half
example := C84_total (A := exS) (s := .set 0 (.un (· + 1) (.arr 0 [])))

/-- A state that holds `a`. -/
theorem ex_fstate : ∃ w, HoldsStore w exS := ⟨_, (C84_program (ex_frun1 false) true goodAlloc_exists.choose_spec).choose_spec.2⟩

theorem ex_fstep : ∃ w', ex_fstate.choose.fstep Arith.exact true false goodAlloc_exists.choose (.make 1 (.un exTen (.arr 0 []))) = .ok (w', true) := by
  obtain ⟨w', t, h1, h2⟩ := (fstmt_ok ex_fstate.choose_spec ex_flegal true false goodAlloc_exists.choose_spec).2 (fun h => by cases h.1)
  obtain ⟨rfl, _⟩ := h2 exS true ⟨[2, 3], ex_whole, .inr ⟨rfl, ⟨[1, 1], by decide, by decide⟩, rfl⟩⟩
  exact ⟨w', h1⟩

example := C84_basic ex_fstate.choose_spec (x := 1) rfl ex_flegal goodAlloc_exists.choose_spec ex_fstep.choose_spec
example := C84_strong ex_fstate.choose_spec ex_flegal (.inl ⟨1, _, rfl⟩) goodAlloc_exists.choose_spec ex_fstep.choose_spec

end Jules.Props

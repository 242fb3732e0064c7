import Verif.Lemmas.Program
/-
C65: programs over arrays have value semantics.
-/
namespace Jules.Props
open Spec

section
variable {α : Type} {w : World α} {A : AStore α}

theorem reads_val {m : Mem α} {o : Obj} {v : AView} (ho : Observes o v) {i : List Nat} (hi : InB v.ext i) {y : Option α}
    (h : Reads m o i y) : m (v.pos i) = y := by
  obtain ⟨p, h1, h2⟩ := h
  rw [ho.element i hi] at h1
  cases h1
  exact h2

theorem exLegal_unique {d d' : List Nat} : ∀ {e : PEx α}, ExLegal A d e → ExLegal A d' e → d = d'
  | .arr x h, ⟨a, v, h1, h2, h3⟩, ⟨b, u, g1, g2, g3⟩ => by
    rw [h1] at g1; cases g1
    have := h2.view
    rw [g2.view] at this; cases this
    rw [← h3, ← g3]
  | .un _ e, h, g => exLegal_unique (e := e) h g
  | .bin _ a _, h, g => exLegal_unique (e := a) h.1 g.1
  | .scl _ _ e, h, g => exLegal_unique (e := e) h.2 g.2
  | .scr _ e _, h, g => exLegal_unique (e := e) h.1 g.1

theorem toA_distinct {c : Arr} {a : AVal α} {h : List Ix} {v : IView} (hc : Chain a.ext h v) (hv : v.Injective) :
    Distinct (IView.toA c.base a.ext v) := by
  intro i j hi hj he
  apply hv i j hi hj
  exact arrayView_distinct c.base a.ext _ _ (chain_in hc i hi) (chain_in hc j hj) he

/-- A cell read by an expression that belongs to the array `x` is an element of `x` the expression reads. -/
theorem read_cell (H : HoldsStore w A) {d : List Nat} {e : PEx α} {e' : Ex Obj α} {s : Ex AView α} (hE : Evals w A d e e' s)
    {x : Nat} {a : AVal α} {c : Arr} (ha : A x = some a) (hx : w.env x = some c) {i : List Nat} (hi : InB d i) {p : Nat}
    (hp : p ∈ cellsAt s i) (hcov : Covers (cells c) p) :
    ∃ k, (x, k) ∈ exReads A e i ∧ InB a.ext k ∧ p = c.base + cmSum a.ext k := by
  obtain ⟨y, k, b, c', r1, r2, r3, r4, r5, r6⟩ := hE.reads i hi p hp
  by_cases hxy : x = y
  · subst hxy
    rw [ha] at r2; cases r2
    rw [hx] at r3; cases r3
    exact ⟨k, r1, r5, r6⟩
  · exact (H.sep x y c c' p hxy hx r3 hcov ⟨k, by rw [cells, arrayView, r4]; exact r5, by rw [r6, cells, arrayView, r4]⟩).elim

theorem noLate {H : HoldsStore w A} {e : PEx α} {e' : Ex Obj α} {s : Ex AView α} {x : Nat} {a : AVal α} {c : Arr}
    (ha : A x = some a) (hx : w.env x = some c) (hce : c.ext = a.ext) {h : List Ix} {v : IView} (hc : Chain a.ext h v)
    (hE : Evals w A v.ext e e' s) (hn : NoLateRead A x v e) :
    ∀ i j, InB v.ext i → InB v.ext j → cmSum v.ext j < cmSum v.ext i → (IView.toA c.base a.ext v).pos j ∉ cellsAt s i := by
  intro i j hi hj hlt hp
  obtain ⟨k, h1, h2, h3⟩ := read_cell H hE ha hx hi hp (toA_covers hce hc ⟨j, hj, rfl⟩)
  have : v.src j = k := arrayView_distinct c.base a.ext _ _ (chain_in hc j hj) h2 h3
  rw [← this] at h1
  exact hn i j hi hj hlt h1

theorem free_cells (H : HoldsStore w A) {alloc : Nat → Mem α → Nat → Nat} (hal : GoodAlloc alloc) (k n : Nat) :
    ∀ i, i < n → w.mem (alloc k w.mem n + i) = none := hal k w.mem n H.finite

theorem alive_cells (H : HoldsStore w A) {x : Nat} {a : AVal α} (ha : A x = some a) {c : Arr} (hx : w.env x = some c) :
    Alive w.mem (cells c) := by
  obtain ⟨_, c', h1, h2, h3⟩ := H.arr x a ha
  rw [hx] at h1; cases h1
  intro i hi
  rw [h3 i (by rw [← h2]; exact hi)]; simp

/-- New arrays from a list of values. -/
theorem newFrom_holds (H : HoldsStore w A) {x : Nat} (hA : A x = none) {ext : List Nat} (hd : ext ≠ []) {l : List α} (hl : prod ext ≤ l.length)
    {fresh : Nat} (hf : ∀ i, i < prod ext → w.mem (fresh + i) = none) :
    ∃ r, newFrom Arith.exact ext l w.mem fresh = .ok r ∧
      ∀ A', Becomes A x ext (fun i => l[cmSum ext i]?) A' → HoldsStore (w.bind r.1 x (some r.2)) A' := by
  have hx : w.env x = none := H.out x hA
  refine ⟨_, by rw [newFrom, prodL_exact, if_neg (by omega)], fun A' hw => ?_⟩
  have hlen : (l.take (prod ext)).length = prod ext := by simp [hl]
  have hout : ∀ q, ¬ Covers (arrayView fresh ext) q → (w.mem.setMany fresh (l.take (prod ext))) q = w.mem q := by
    intro q hq; apply setMany_out; rwa [hlen, ← arrayView_covers]
  have hfr : ∀ q, Covers (arrayView fresh ext) q → w.mem q = none := by
    intro q hq
    have := arrayView_covers.1 hq
    have h2 := hf (q - fresh) (by omega)
    rwa [show fresh + (q - fresh) = q by omega] at h2
  refine holds_replace H hd rfl ?_ ?_ ?_ ?_ hw
  · intro i hi
    have hlt := cmSum_lt hi
    show (w.mem.setMany fresh _) (fresh + cmSum ext i) = _
    rw [setMany_in (by rw [hlen]; exact hlt), List.getElem?_take_of_lt hlt]
  · intro q hq
    by_cases hc : Covers (arrayView fresh ext) q
    · exact .inr hc
    · left
      have hq : (w.mem.setMany fresh (l.take (prod ext))) q ≠ none := hq
      rw [hout q hc] at hq
      exact ⟨hq, by rw [hx]; intro c h; cases h⟩
  · intro q hq _
    exact hout q fun h => hq (hfr q h)
  · intro q hq
    exact .inr (hfr q hq)

theorem needs_ne {β : Type} {l : List β} (h : l ≠ []) : needs (!l.isEmpty) = .ok () := by
  cases l with
  | nil => exact (h rfl).elim
  | cons a l => rfl

theorem step_set (chk : Bool) (alloc : Nat → Mem α → Nat → Nat) (w : World α) (x : Nat) {e : PEx α} (he : ∀ y, e ≠ .arr y []) :
    w.step Arith.exact chk alloc (.set x e) = (do
      let a ← w.get x
      let e' ← e.eval Arith.exact chk w
      let src ← e'.build Arith.exact chk
      sameOrder a src.dims
      let r ← assignArray Arith.exact chk a e' w.mem (alloc w.clock w.mem (prodL Arith.exact src.dims))
      .ok (w.bind r.1 x (some r.2))) := by
  cases e with
  | arr y h =>
    cases h with
    | nil => exact (he y rfl).elim
    | cons ix h => rfl
  | _ => rfl

/-- One statement. -/
theorem stmt_ok (H : HoldsStore w A) {s : Stmt α} (hs : StmtLegal A s) (chk : Bool) {alloc : Nat → Mem α → Nat → Nat} (hal : GoodAlloc alloc) :
    ∃ w', w.step Arith.exact chk alloc s = .ok w' ∧ ∀ A', Effect A s A' → HoldsStore w' A' := by
  cases s with
  | make x e =>
    obtain ⟨hA, d, hd, hl⟩ := hs
    obtain ⟨e', s, h1, hE⟩ := ex_ok H hd chk hl
    obtain ⟨src, hb, hy⟩ := build_ok (chk := chk) hE.denotes hE.exts
    obtain ⟨m', b, g1, g2, g3, g4, g5⟩ := C20_elementwise hE.denotes hd hE.exts (m := w.mem)
      (fun i hi => by rw [hE.val i hi]; exact hE.defd i hi) (free_cells H hal w.clock (prod d)) chk
    rw [hb, res_ok_bind] at g1
    have hx := H.out x hA
    refine ⟨w.bind m' x (some b), by simp only [World.step, hx, h1, res_ok_bind, hb, hy.dims, prodL_exact, g1], ?_⟩
    rintro A' ⟨d', hl', hw⟩
    rw [exLegal_unique hl' hl] at hw
    refine holds_replace H hd g2 ?_ ?_ ?_ (fun q hq => .inr (g5 q hq)) hw
    · intro i hi
      rw [← hE.val i hi]
      subst g2
      exact reads_val (array_observes b.base hd) hi (g3 i hi)
    · intro q hq
      by_cases hc : Covers (cells b) q
      · exact .inr hc
      · rw [g4 q hc] at hq
        exact .inl ⟨hq, by rw [hx]; intro c h; cases h⟩
    · intro q hq _
      exact g4 q fun h => hq (g5 q h)
  | makeFill x s ext =>
    obtain ⟨hA, hd, hl⟩ := hs
    obtain ⟨sc, y, h1, h2, h3, _⟩ := sc_ok H hl chk
    obtain ⟨r, g1, g2⟩ := newFrom_holds H hA hd (l := List.replicate (prod ext) y) (by simp) (free_cells H hal w.clock (prod ext))
    refine ⟨w.bind r.1 x (some r.2), by simp only [World.step, needs_ne hd, H.out x hA, h1, h2, res_ok_bind, prodL_exact, g1], fun A' hw => g2 A' ?_⟩
    obtain ⟨w1, a', w2, w3, w4⟩ := hw
    refine ⟨w1, a', w2, w3, fun i hi => ?_⟩
    rw [← w4 i hi]
    show (List.replicate (prod ext) y)[cmSum ext i]? = scVal A s
    rw [h3, List.getElem?_replicate, if_pos (cmSum_lt hi)]
  | makeFrom x l ext =>
    obtain ⟨hA, hd, hl⟩ := hs
    obtain ⟨r, g1, g2⟩ := newFrom_holds H hA hd hl (free_cells H hal w.clock (prod ext))
    exact ⟨w.bind r.1 x (some r.2), by simp only [World.step, needs_ne hd, H.out x hA, res_ok_bind, prodL_exact, g1], g2⟩
  | drop x =>
    obtain ⟨a, ha⟩ := Option.ne_none_iff_exists'.1 hs
    obtain ⟨_, c, h1, h2, _⟩ := H.arr x a ha
    refine ⟨w.bind (w.mem.free c.base (prod c.ext)) x none, by simp only [World.step, World.get, h1, res_ok_bind, prodL_exact], fun A' hw => ?_⟩
    exact holds_drop H h1 hw.1 hw.2
  | fill x h s =>
    obtain ⟨h0, hl, a, v, ha, hc⟩ := hs
    obtain ⟨c, o, h1, h2, h3, h4, h5⟩ := index_ok H ha hc chk
    obtain ⟨sc, y, k1, k2, k3, _⟩ := sc_ok H hl chk
    obtain ⟨m', g1, g2, g3⟩ := C17_fill h4 (m := w.mem) (fun i hi => by rw [h5 i hi]; simp) k2
    refine ⟨⟨m', w.env, w.clock + 1⟩, by simp only [World.step, needs_ne h0, h3, k1, res_ok_bind, g1], fun A' hw => ?_⟩
    exact holds_write H ha h1 h2 hc (fun i hi => by rw [k3]; exact reads_val h4 hi (g2 i hi)) (by simp [k3]) g3 hw
  | assign x h e =>
    obtain ⟨h0, a, v, ha, hc, hne, hinj, hl, hn⟩ := hs
    obtain ⟨c, o, h1, h2, h3, h4, h5⟩ := index_ok H ha hc chk
    obtain ⟨e', s, k1, hE⟩ := ex_ok H hne chk hl
    obtain ⟨m', g1, g2, g3⟩ := C18_assign h4 hne (toA_distinct hc hinj) (m := w.mem) (fun i hi => by rw [h5 i hi]; simp) hE.denotes hE.exts
      (fun i hi => by rw [hE.val i hi]; exact hE.defd i hi) (noLate (H := H) ha h1 h2 hc hE hn) chk
    refine ⟨⟨m', w.env, w.clock + 1⟩, by simp only [World.step, needs_ne h0, h3, k1, res_ok_bind, g1], fun A' hw => ?_⟩
    exact holds_write H ha h1 h2 hc (fun i hi => by rw [← hE.val i hi]; exact reads_val h4 hi (g2 i hi)) hE.defd g3 hw
  | inPlace x h op e =>
    obtain ⟨a, v, ha, hc, hne, hinj, hl, hn⟩ := hs
    obtain ⟨c, o, h1, h2, h3, h4, h5⟩ := index_ok H ha hc chk
    obtain ⟨e', s, k1, hE⟩ := ex_ok H hne chk hl
    obtain ⟨m', g1, g2, g3⟩ := C21_inplace h4 hne (toA_distinct hc hinj) (m := w.mem) (fun i hi => by rw [h5 i hi]; simp) hE.denotes hE.exts
      (fun i hi => by rw [hE.val i hi]; exact hE.defd i hi) op
      (fun i j hi hj hp => Nat.le_of_not_lt fun hlt => noLate (H := H) ha h1 h2 hc hE hn i j hi hj hlt hp) chk
    refine ⟨⟨m', w.env, w.clock + 1⟩, by simp only [World.step, h3, k1, res_ok_bind, g1], fun A' hw => ?_⟩
    have hval : ∀ i, InB v.ext i → m' ((IView.toA c.base a.ext v).pos i) =
        ((old A x h i).bind fun u => (exVal A e i).map (op u)) ∧ ((old A x h i).bind fun u => (exVal A e i).map (op u)) ≠ none := by
      intro i hi
      obtain ⟨u, y, q1, q2, q3⟩ := g2 i hi
      rw [h5 i hi] at q1
      rw [hE.val i hi] at q2
      have ho : old A x h i = some u := by simp only [old, exVal, ha, hc.view]; exact q1
      rw [reads_val h4 hi q3, ho, q2]; simp
    exact holds_write H ha h1 h2 hc (fun i hi => (hval i hi).1) (fun i hi => (hval i hi).2) g3 hw
  | inPlaceScalar x h op s =>
    obtain ⟨hl, a, v, ha, hc, hinj, hn⟩ := hs
    obtain ⟨c, o, h1, h2, h3, h4, h5⟩ := index_ok H ha hc chk
    obtain ⟨sc, y, k1, k2, k3, k4⟩ := sc_ok H hl chk
    obtain ⟨m', g1, g2, g3⟩ := C21_inplace_scalar_partial h4 (toA_distinct hc hinj) (m := w.mem) (fun i hi => by rw [h5 i hi]; simp) k2
      (by
        intro p hp hcov
        obtain ⟨y', h', b, c', u, e1, e2, e3, e4, e5, e6, e7⟩ := k4 p hp
        have hin : InB b.ext (u.src []) := chain_in e5 [] (by rw [e6]; trivial)
        have hc' := toA_covers h2 hc hcov
        by_cases hxy : x = y'
        · subst hxy
          rw [ha] at e2; cases e2
          rw [h1] at e3; cases e3
          apply hn
          rw [e1]
          obtain ⟨i, hi, hp'⟩ := hcov
          refine ⟨rfl, a, u, ha, e5.view, i, hi, ?_⟩
          rw [e7] at hp'
          exact arrayView_distinct c.base a.ext _ _ (chain_in hc i hi) hin hp'
        · exact H.sep x y' c c' p hxy h1 e3 hc' ⟨u.src [], by rw [cells, arrayView, e4]; exact hin, by rw [e7, cells, arrayView, e4]⟩)
      op
    refine ⟨⟨m', w.env, w.clock + 1⟩, by simp only [World.step, h3, k1, res_ok_bind, g1], fun A' hw => ?_⟩
    have hval : ∀ i, InB v.ext i → m' ((IView.toA c.base a.ext v).pos i) =
        ((old A x h i).bind fun u => (scVal A s).map (op u)) ∧ ((old A x h i).bind fun u => (scVal A s).map (op u)) ≠ none := by
      intro i hi
      obtain ⟨u, q1, q3⟩ := g2 i hi
      rw [h5 i hi] at q1
      have ho : old A x h i = some u := by simp only [old, exVal, ha, hc.view]; exact q1
      rw [reads_val h4 hi q3, ho, k3]; simp
    exact holds_write H ha h1 h2 hc (fun i hi => (hval i hi).1) (fun i hi => (hval i hi).2) g3 hw
  | apply x h f =>
    obtain ⟨a, v, ha, hc, hne, hinj⟩ := hs
    obtain ⟨c, o, h1, h2, h3, h4, h5⟩ := index_ok H ha hc chk
    obtain ⟨m', g1, g2, g3⟩ := C21_apply h4 (toA_distinct hc hinj) (m := w.mem) (fun i hi => by rw [h5 i hi]; simp) f
    have hdim := observes_dims h4 hne
    refine ⟨⟨m', w.env, w.clock + 1⟩, by simp only [World.step, h3, res_ok_bind, hdim, needs, Option.isSome_some, if_true, g1], fun A' hw => ?_⟩
    have hval : ∀ i, InB v.ext i → m' ((IView.toA c.base a.ext v).pos i) = (old A x h i).map f ∧ (old A x h i).map f ≠ none := by
      intro i hi
      obtain ⟨u, q1, q3⟩ := g2 i hi
      rw [h5 i hi] at q1
      have ho : old A x h i = some u := by simp only [old, exVal, ha, hc.view]; exact q1
      rw [reads_val h4 hi q3, ho]; simp
    exact holds_write H ha h1 h2 hc (fun i hi => (hval i hi).1) (fun i hi => (hval i hi).2) g3 hw
  | overlap x h e =>
    obtain ⟨h0, a, v, ha, hc, hne, hinj, hl⟩ := hs
    obtain ⟨c, o, h1, h2, h3, h4, h5⟩ := index_ok H ha hc chk
    obtain ⟨e', s, k1, hE⟩ := ex_ok H hne chk hl
    obtain ⟨src, hb, hy⟩ := build_ok (chk := chk) hE.denotes hE.exts
    obtain ⟨m', g1, g2, g3⟩ := C19_overlap h4 hne (toA_distinct hc hinj) (m := w.mem) (fun i hi => by rw [h5 i hi]; simp) hE.denotes hE.exts
      (fun i hi => by rw [hE.val i hi]; exact hE.defd i hi) (free_cells H hal w.clock (prod v.ext)) chk
    refine ⟨⟨m', w.env, w.clock + 1⟩, by simp only [World.step, needs_ne h0, h3, k1, hb, hy.dims, prodL_exact, res_ok_bind, g1], fun A' hw => ?_⟩
    exact holds_write H ha h1 h2 hc (fun i hi => by rw [← hE.val i hi]; exact reads_val h4 hi (g2 i hi)) hE.defd g3 hw
  | overlapWhole x e =>
    obtain ⟨a, d, ha, hlen, hl⟩ := hs
    obtain ⟨hane, c, h1, h2, _⟩ := H.arr x a ha
    have hd : d ≠ [] := by
      intro h; subst h; exact hane (List.length_eq_zero_iff.1 hlen.symm)
    obtain ⟨e', s, k1, hE⟩ := ex_ok H hd chk hl
    obtain ⟨src, hb, hy⟩ := build_ok (chk := chk) hE.denotes hE.exts
    obtain ⟨m', b, g1, g2, g3, g4, g5, g6⟩ := C19_overlap_array (a := c) hE.denotes hd hE.exts (alive_cells H ha h1)
      (fun i hi => by rw [hE.val i hi]; exact hE.defd i hi) (free_cells H hal w.clock (prod d)) chk
    refine ⟨w.bind m' x (some b), by
      simp only [World.step, World.get, h1, k1, hb, hy.dims, prodL_exact, res_ok_bind, sameOrder, h2, hlen, if_true, g1], ?_⟩
    rintro A' ⟨d', hl', hw⟩
    rw [exLegal_unique hl' hl] at hw
    have hc : ∀ c', w.env x = some c' → c' = c := by intro c' h; rw [h1] at h; cases h; rfl
    refine holds_replace H hd g2 ?_ ?_ ?_ ?_ hw
    · intro i hi
      rw [← hE.val i hi]
      subst g2
      exact reads_val (array_observes b.base hd) hi (g3 i hi)
    · intro q hq
      rcases (g4 q).1 hq with ⟨h, h'⟩ | h
      · exact .inl ⟨h, fun c' e => by rw [hc c' e]; exact h'⟩
      · exact .inr h
    · intro q hq hn
      exact g5 q hq (hn c h1)
    · intro q hq
      rcases g6 q hq with h | h
      · exact .inl ⟨c, h1, h⟩
      · exact .inr h
  | set x e =>
    obtain ⟨a, d, ha, hlen, hl, hn⟩ := hs
    obtain ⟨hane, c, h1, h2, h6⟩ := H.arr x a ha
    have hc : ∀ c', w.env x = some c' → c' = c := by intro c' h; rw [h1] at h; cases h; rfl
    have hd : d ≠ [] := by
      intro h; subst h; exact hane (List.length_eq_zero_iff.1 hlen.symm)
    by_cases hy : ∃ y, e = .arr y []
    · obtain ⟨y, rfl⟩ := hy
      obtain ⟨b, v, hb, hch, hv⟩ := hl
      have hvv : v = ⟨b.ext, id⟩ := by
        have := hch.view
        simp only [imeaning, List.foldl_nil, IObj.view.injEq] at this
        exact this.symm
      have hbd : b.ext = d := by rw [← hv, hvv]
      obtain ⟨_, c', k1, k2, k3⟩ := H.arr y b hb
      have hEx : ∀ i, exVal A (.arr y []) i = some (b.elt i) := by
        intro i; simp only [exVal, hb, hch.view, hvv, id]
      by_cases hxy : x = y
      · subst hxy
        rw [ha] at hb; cases hb
        refine ⟨w.bind w.mem x (some c), by
          simp [World.step, World.get, h1, sameOrder, assignArrayCopy], ?_⟩
        rintro A' ⟨d', hl', hw⟩
        rw [exLegal_unique hl' ⟨a, v, ha, hch, hv⟩] at hw
        refine holds_replace H hd (by rw [h2, hbd]) ?_ ?_ (fun q _ _ => rfl) (fun q hq => .inl ⟨c, h1, hq⟩) hw
        · intro i hi
          rw [hEx, h6 i (by rw [hbd]; exact hi)]
        · intro q hq
          by_cases hcq : Covers (cells c) q
          · exact .inr hcq
          · exact .inl ⟨hq, fun c' e => by rw [hc c' e]; exact hcq⟩
      · obtain ⟨m', r, g1, g2, g3, g4, g5, g6⟩ := C22_copy (a := c) (b := c') (m := w.mem) (by rw [k2, hbd]; exact hd)
          (alive_cells H ha h1) (alive_cells H hb k1) (fun q => H.sep x y c c' q hxy h1 k1) (free_cells H hal w.clock (prod c'.ext))
        have hbeq : (x == y) = false := by simpa using hxy
        refine ⟨w.bind m' x (some r), by
          simp only [World.step, World.get, h1, k1, prodL_exact, res_ok_bind, sameOrder, h2, k2, hbd, hlen, if_true, hbeq]
          rw [k2, hbd] at g1
          simp only [g1, res_ok_bind], ?_⟩
        rintro A' ⟨d', hl', hw⟩
        rw [exLegal_unique hl' ⟨b, v, hb, hch, hv⟩] at hw
        refine holds_replace H hd (by rw [g2, k2, hbd]) ?_ ?_ ?_ ?_ hw
        · intro i hi
          have hi' : InB c'.ext i := by rw [k2, hbd]; exact hi
          rw [hEx, ← k3 i (by rw [hbd]; exact hi)]
          have := g3 i hi'
          rw [g2] at this
          have := reads_val (array_observes r.base (d := c'.ext) (by rw [k2, hbd]; exact hd)) hi' this
          simp only [cells, arrayView, g2] at this ⊢
          exact this
        · intro q hq
          rcases (g4 q).1 hq with ⟨h, h'⟩ | h
          · exact .inl ⟨h, fun c' e => by rw [hc c' e]; exact h'⟩
          · exact .inr h
        · intro q hq hn
          exact g5 q hq (hn c h1)
        · intro q hq
          rcases g6 q hq with h | h
          · exact .inl ⟨c, h1, h⟩
          · exact .inr h
    · obtain ⟨e', s, k1, hE⟩ := ex_ok H hd chk hl
      obtain ⟨src, hb, hy'⟩ := build_ok (chk := chk) hE.denotes hE.exts
      obtain ⟨m', b, g1, g2, g3, g4, g5, g6⟩ := C22_assign (a := c) hE.denotes hd hE.exts (alive_cells H ha h1)
        (fun i hi => by rw [hE.val i hi]; exact hE.defd i hi) (free_cells H hal w.clock (prod d))
        (by
          intro hp i hi p hps hcov
          obtain ⟨k, r1, r2, r3⟩ := read_cell H hE ha h1 hi hps hcov
          have := hn (by rw [← h2]; exact hp) i k hi r2 r1
          omega) chk
      refine ⟨w.bind m' x (some b), by
        rw [step_set _ _ _ _ fun y h => hy ⟨y, h⟩]
        simp only [World.get, h1, k1, hb, hy'.dims, prodL_exact, res_ok_bind, sameOrder, h2, hlen, if_true, g1], ?_⟩
      rintro A' ⟨d', hl', hw⟩
      rw [exLegal_unique hl' hl] at hw
      refine holds_replace H hd g2 ?_ ?_ ?_ ?_ hw
      · intro i hi
        rw [← hE.val i hi]
        subst g2
        exact reads_val (array_observes b.base hd) hi (g3 i hi)
      · intro q hq
        rcases (g4 q).1 hq with ⟨h, h'⟩ | h
        · exact .inl ⟨h, fun c' e => by rw [hc c' e]; exact h'⟩
        · exact .inr h
      · intro q hq hn
        exact g5 q hq (hn c h1)
      · intro q hq
        rcases g6 q hq with h | h
        · exact .inl ⟨c, h1, h⟩
        · exact .inr h
  | moveAssign x y =>
    obtain ⟨hxy, a, b, ha, hb, hlen⟩ := hs
    obtain ⟨_, c, h1, h2, _⟩ := H.arr x a ha
    obtain ⟨_, d, k1, k2, _⟩ := H.arr y b hb
    have hne : (x != y) = true := by simpa using hxy
    refine ⟨(w.bind w.mem x (some d)).bind w.mem y (some c), by simp only [World.step, World.get, h1, k1, res_ok_bind, sameOrder, h2, k2, hlen, if_true, hne, dbg_any_true], ?_⟩
    rintro A' ⟨e1, e2, e3⟩
    exact holds_swap H hxy h1 k1 e1 e2 e3

/-- **C65.** Programs over arrays have value semantics. Any sequence of statements that is legal on array values, started in any state that
holds the values of `A`, runs without undefined behaviour or failed assertions, in every build and with every allocator, and ends in a
state that holds exactly the resulting values: no other array has changed, no memory is shared and no memory is left over. -/
theorem C65_run {p : List (Stmt α)} {A' : AStore α} (hr : Runs A p A') (H : HoldsStore w A) (chk : Bool) {alloc : Nat → Mem α → Nat → Nat}
    (hal : GoodAlloc alloc) : ∃ w', w.run Arith.exact chk alloc p = .ok w' ∧ HoldsStore w' A' := by
  induction hr generalizing w with
  | nil => exact ⟨w, rfl, H⟩
  | cons hl he _ ih =>
    obtain ⟨w1, h1, h2⟩ := stmt_ok H hl chk hal
    obtain ⟨w', h3, h4⟩ := ih (h2 _ he)
    exact ⟨w', by rw [World.run, h1, res_ok_bind, h3], h4⟩

/-- No array is in scope and no memory is in use at the start. -/
theorem holdsStore_start : HoldsStore (World.empty : World α) (fun _ => none) where
  arr := nofun
  out := fun _ _ => rfl
  sep := by intro x y c d q _ h; cases h
  only := fun _ h => (h rfl).elim
  finite := ⟨0, fun _ _ => rfl⟩

/-- **C65.** Whole programs: they start with no arrays and no memory. -/
theorem C65_program {p : List (Stmt α)} {A' : AStore α} (hr : Runs (fun _ => none) p A') (chk : Bool) {alloc : Nat → Mem α → Nat → Nat}
    (hal : GoodAlloc alloc) : ∃ w', World.empty.run Arith.exact chk alloc p = .ok w' ∧ HoldsStore w' A' :=
  C65_run hr holdsStore_start chk hal

/-- **C65.** What the user sees in the final state: the elements of every array are those of its value; and when no array is in scope, no
memory is in use. -/
theorem C65_observed (H : HoldsStore w A) :
    (∀ x a i, A x = some a → InB a.ext i → ∃ c, w.env x = some c ∧ Reads w.mem (.cref c.base c.ext) i (some (a.elt i))) ∧
      ((∀ x, A x = none) → ∀ q, w.mem q = none) := by
  constructor
  · intro x a i ha hi
    obtain ⟨hne, c, h1, h2, h3⟩ := H.arr x a ha
    refine ⟨c, h1, _, ?_, h3 i hi⟩
    exact (array_observes c.base (by rw [h2]; exact hne)).element i (by rw [arrayView, h2]; exact hi)
  · intro hn q
    by_cases hq : w.mem q = none
    · exact hq
    · obtain ⟨x, c, h1, _⟩ := H.only q hq
      rw [H.out x (hn x)] at h1; cases h1

end

/-! ### The specification is not vacuous: every legal statement has an effect, and only one -/

section
open Classical
variable {α : Type} {A : AStore α}

theorem writes_exists {x : Nat} {a : AVal α} (ha : A x = some a) {h : List Ix} {v : IView} (hv : imeaning a.ext h = .view v)
    {f : List Nat → Option α} (hf : ∀ i, InB v.ext i → f i ≠ none)
    (hinj : ∀ i j, InB v.ext i → InB v.ext j → v.src i = v.src j → f i = f j) : ∃ A', Writes A x h f A' := by
  let a' : AVal α := ⟨a.ext, fun j => if hj : v.Has j then (f hj.choose).getD (a.elt j) else a.elt j⟩
  refine ⟨fun y => if y = x then some a' else A y, fun y hy => by simp [hy], a, a', v, ha, by simp, hv, rfl, ?_, ?_⟩
  · intro i hi
    have hh : v.Has (v.src i) := ⟨i, hi, rfl⟩
    obtain ⟨y, hy⟩ := Option.ne_none_iff_exists'.1 (hf i hi)
    have := hinj hh.choose i hh.choose_spec.1 hi hh.choose_spec.2
    simp only [a', dif_pos hh, this, hy, Option.getD_some]
  · intro j _ hn
    simp only [a', dif_neg hn]

theorem becomes_exists (x : Nat) (d : List Nat) {f : List Nat → Option α} (hf : ∀ i, InB d i → f i ≠ none) (hne : ∃ _ : α, True) :
    ∃ A', Becomes A x d f A' := by
  obtain ⟨z, _⟩ := hne
  refine ⟨fun y => if y = x then some ⟨d, fun i => (f i).getD z⟩ else A y, fun y hy => by simp [hy], _, by simp; rfl, rfl, ?_⟩
  intro i hi
  obtain ⟨y, hy⟩ := Option.ne_none_iff_exists'.1 (hf i hi)
  simp [hy]

theorem scVal_some {s : Sc α} (hs : ScLegal A s) : scVal A s ≠ none := by
  cases s with
  | const c => simp [scVal]
  | elem x h => obtain ⟨a, v, ha, hc, _⟩ := hs; simp [scVal, ha, hc.view]

theorem exVal_some {d : List Nat} (i : List Nat) : ∀ {e : PEx α}, ExLegal A d e → exVal A e i ≠ none
  | .arr x h, ⟨a, v, ha, hc, _⟩ => by simp [exVal, ha, hc.view]
  | .un f e, hl => by simpa [exVal] using exVal_some i (e := e) hl
  | .bin f a b, ⟨h1, h2⟩ => by
    obtain ⟨x, hx⟩ := Option.ne_none_iff_exists'.1 (exVal_some i h1)
    obtain ⟨y, hy⟩ := Option.ne_none_iff_exists'.1 (exVal_some i h2)
    simp [exVal, hx, hy]
  | .scl f s e, ⟨h1, h2⟩ => by
    obtain ⟨x, hx⟩ := Option.ne_none_iff_exists'.1 (scVal_some h1)
    obtain ⟨y, hy⟩ := Option.ne_none_iff_exists'.1 (exVal_some i h2)
    simp [exVal, hx, hy]
  | .scr f e s, ⟨h1, h2⟩ => by
    obtain ⟨x, hx⟩ := Option.ne_none_iff_exists'.1 (exVal_some i h1)
    obtain ⟨y, hy⟩ := Option.ne_none_iff_exists'.1 (scVal_some h2)
    simp [exVal, hx, hy]

/-- **C65.** Every legal statement has an effect (for element types with at least one value). -/
theorem C65_progress [Nonempty α] {s : Stmt α} (hs : StmtLegal A s) : ∃ A', Effect A s A' := by
  have hne : ∃ _ : α, True := ⟨Classical.choice ‹_›, trivial⟩
  cases s with
  | make x e =>
    obtain ⟨_, d, _, hl⟩ := hs
    obtain ⟨A', h⟩ := becomes_exists (A := A) x d (f := exVal A e) (fun i _ => exVal_some i hl) hne
    exact ⟨A', d, hl, h⟩
  | makeFill x s ext => exact becomes_exists x ext (fun i _ => scVal_some hs.2.2) hne
  | makeFrom x l ext =>
    exact becomes_exists x ext (fun i hi => by
      have := cmSum_lt hi
      have h2 := hs.2.2
      simp only [ne_eq, List.getElem?_eq_none_iff]; omega) hne
  | drop x => exact ⟨fun y => if y = x then none else A y, fun y hy => by simp [hy], by simp⟩
  | fill x h s =>
    obtain ⟨_, hl, a, v, ha, hc⟩ := hs
    exact writes_exists ha hc.view (fun _ _ => scVal_some hl) fun _ _ _ _ _ => rfl
  | assign x h e =>
    obtain ⟨_, a, v, ha, hc, _, hinj, hl, _⟩ := hs
    exact writes_exists ha hc.view (fun i _ => exVal_some i hl) fun i j hi hj he => by rw [hinj i j hi hj he]
  | inPlace x h op e =>
    obtain ⟨a, v, ha, hc, _, hinj, hl, _⟩ := hs
    refine writes_exists ha hc.view (fun i _ => ?_) fun i j hi hj he => by rw [hinj i j hi hj he]
    obtain ⟨y, hy⟩ := Option.ne_none_iff_exists'.1 (exVal_some i hl)
    simp [old, exVal, ha, hc.view, hy]
  | inPlaceScalar x h op s =>
    obtain ⟨hl, a, v, ha, hc, hinj, _⟩ := hs
    refine writes_exists ha hc.view (fun i _ => ?_) fun i j hi hj he => by rw [hinj i j hi hj he]
    obtain ⟨y, hy⟩ := Option.ne_none_iff_exists'.1 (scVal_some hl)
    simp [old, exVal, ha, hc.view, hy]
  | apply x h f =>
    obtain ⟨a, v, ha, hc, _, hinj⟩ := hs
    refine writes_exists ha hc.view (fun i _ => ?_) fun i j hi hj he => by rw [hinj i j hi hj he]
    simp [old, exVal, ha, hc.view]
  | overlap x h e =>
    obtain ⟨_, a, v, ha, hc, _, hinj, hl⟩ := hs
    exact writes_exists ha hc.view (fun i _ => exVal_some i hl) fun i j hi hj he => by rw [hinj i j hi hj he]
  | overlapWhole x e =>
    obtain ⟨a, d, _, _, hl⟩ := hs
    obtain ⟨A', h⟩ := becomes_exists (A := A) x d (f := exVal A e) (fun i _ => exVal_some i hl) hne
    exact ⟨A', d, hl, h⟩
  | set x e =>
    obtain ⟨a, d, _, _, hl, _⟩ := hs
    obtain ⟨A', h⟩ := becomes_exists (A := A) x d (f := exVal A e) (fun i _ => exVal_some i hl) hne
    exact ⟨A', d, hl, h⟩
  | moveAssign x y =>
    refine ⟨fun z => if z = x then A y else if z = y then A x else A z, fun z h1 h2 => by simp [h1, h2], by simp, ?_⟩
    have : y ≠ x := fun h => hs.1 h.symm
    simp [this]

theorem same_of {x : Nat} {A₁ A₂ : AStore α} (h1 : ∀ y, y ≠ x → A₁ y = A y) (h2 : ∀ y, y ≠ x → A₂ y = A y) {a b : AVal α}
    (ha : A₁ x = some a) (hb : A₂ x = some b) (he : a.ext = b.ext) (hi : ∀ i, InB a.ext i → a.elt i = b.elt i) : SameStore A₁ A₂ := by
  intro y
  by_cases hy : y = x
  · subst hy
    refine ⟨by simp [ha, hb], fun a' b' h h' => ?_⟩
    rw [ha] at h; rw [hb] at h'; cases h; cases h'
    exact ⟨he, hi⟩
  · rw [h1 y hy, h2 y hy]
    refine ⟨Iff.rfl, fun a' b' h h' => ?_⟩
    rw [h] at h'; cases h'
    exact ⟨rfl, fun _ _ => rfl⟩

theorem writes_unique {x : Nat} {h : List Ix} {f : List Nat → Option α} {A₁ A₂ : AStore α} (w1 : Writes A x h f A₁) (w2 : Writes A x h f A₂) :
    SameStore A₁ A₂ := by
  obtain ⟨o1, a, a1, v, e1, e2, e3, e4, e5, e6⟩ := w1
  obtain ⟨o2, b, b1, u, g1, g2, g3, g4, g5, g6⟩ := w2
  rw [e1] at g1; cases g1
  rw [e3] at g3; cases g3
  refine same_of o1 o2 e2 g2 (by rw [e4, g4]) ?_
  intro i hi
  rw [e4] at hi
  by_cases hh : v.Has i
  · obtain ⟨j, hj, rfl⟩ := hh
    have := (e5 j hj).symm.trans (g5 j hj)
    exact Option.some.inj this
  · rw [e6 i hi hh, g6 i hi hh]

theorem becomes_unique {x : Nat} {d : List Nat} {f : List Nat → Option α} {A₁ A₂ : AStore α} (w1 : Becomes A x d f A₁)
    (w2 : Becomes A x d f A₂) : SameStore A₁ A₂ := by
  obtain ⟨o1, a1, e1, e2, e3⟩ := w1
  obtain ⟨o2, b1, g1, g2, g3⟩ := w2
  refine same_of o1 o2 e1 g1 (by rw [e2, g2]) ?_
  intro i hi
  rw [e2] at hi
  exact Option.some.inj ((e3 i hi).symm.trans (g3 i hi))

theorem same_refl (A : AStore α) : SameStore A A := by
  intro x
  refine ⟨Iff.rfl, fun a b h h' => ?_⟩
  rw [h] at h'; cases h'
  exact ⟨rfl, fun _ _ => rfl⟩

/-- **C65.** The effect of a statement is determined. -/
theorem C65_determined {s : Stmt α} {A₁ A₂ : AStore α} (h1 : Effect A s A₁) (h2 : Effect A s A₂) : SameStore A₁ A₂ := by
  cases s with
  | make x e =>
    obtain ⟨d, l1, w1⟩ := h1
    obtain ⟨d', l2, w2⟩ := h2
    rw [exLegal_unique l2 l1] at w2
    exact becomes_unique w1 w2
  | makeFill x s ext => exact becomes_unique h1 h2
  | makeFrom x l ext => exact becomes_unique h1 h2
  | drop x =>
    have : A₁ = A₂ := by
      funext y
      by_cases hy : y = x
      · subst hy; rw [h1.2, h2.2]
      · rw [h1.1 y hy, h2.1 y hy]
    rw [this]; exact same_refl _
  | fill x h s => exact writes_unique h1 h2
  | assign x h e => exact writes_unique h1 h2
  | inPlace x h op e => exact writes_unique h1 h2
  | inPlaceScalar x h op s => exact writes_unique h1 h2
  | apply x h f => exact writes_unique h1 h2
  | overlap x h e => exact writes_unique h1 h2
  | overlapWhole x e =>
    obtain ⟨d, l1, w1⟩ := h1
    obtain ⟨d', l2, w2⟩ := h2
    rw [exLegal_unique l2 l1] at w2
    exact becomes_unique w1 w2
  | set x e =>
    obtain ⟨d, l1, w1⟩ := h1
    obtain ⟨d', l2, w2⟩ := h2
    rw [exLegal_unique l2 l1] at w2
    exact becomes_unique w1 w2
  | moveAssign x y =>
    have : A₁ = A₂ := by
      funext z
      by_cases hx : z = x
      · subst hx; rw [h1.2.1, h2.2.1]
      · by_cases hy : z = y
        · subst hy; rw [h1.2.2, h2.2.2]
        · rw [h1.1 z hx hy, h2.1 z hx hy]
    rw [this]; exact same_refl _

end

/-! ### Concrete cases -/

/-- A good allocator exists. -/
theorem goodAlloc_exists : ∃ alloc : Nat → Mem Nat → Nat → Nat, GoodAlloc alloc := by
  classical
  refine ⟨fun _ m _ => if h : ∃ B, ∀ q, B ≤ q → m q = none then h.choose else 0, ?_⟩
  intro k m n h i _
  simp only [dif_pos h]
  exact h.choose_spec _ (by omega)

/-- The first arrays of the example: `a = {1,…,6}` as a 2×3 matrix. -/
def exA : AVal Nat := ⟨[2, 3], fun i => 1 + cmSum [2, 3] i⟩

theorem ex_chain_row : Chain [2, 3] [.at 1] ⟨[3], fun t => 1 :: t⟩ :=
  ⟨⟨⟨by decide, trivial, by decide, by decide⟩, trivial⟩, by decide, rfl⟩

theorem ex_chain_cols : Chain [2, 3] [.every, .strided 0 2 2] ⟨[2, 2], fun j => choose [[0, 1], [0, 2]] j⟩ :=
  ⟨⟨⟨by decide, trivial, by decide, by decide⟩, ⟨by decide, by show 0 < 2; decide, by decide, by decide⟩, trivial⟩, by decide, rfl⟩

/-- `a[1] += a[1]` is legal, `v = a[every][slice(0, 2, 2)]` is legal. -/
example : StmtLegal (fun x => if x = 0 then some exA else none) (.inPlace 0 [.at 1] (· + ·) (.arr 0 [.at 1])) := by
  refine ⟨exA, _, rfl, ex_chain_row, by decide, ?_, ⟨exA, _, rfl, ex_chain_row, rfl⟩, ?_⟩
  · intro i j _ _ h; simpa using h
  · intro i j _ _ hb hr
    have : exReads (fun x => if x = 0 then some exA else none) (.arr 0 [.at 1]) i = [(0, 1 :: i)] := rfl
    rw [this] at hr
    simp only [List.mem_singleton, Prod.mk.injEq, List.cons.injEq, true_and] at hr
    rw [hr] at hb
    exact Nat.lt_irrefl _ hb

example : StmtLegal (fun x => if x = 0 then some exA else none) (.make 1 (.arr 0 [.every, .strided 0 2 2])) :=
  ⟨rfl, [2, 2], by decide, exA, _, rfl, ex_chain_cols, rfl⟩

theorem ex_make : Effect (fun _ => none) (.makeFrom 0 [1, 2, 3, 4, 5, 6] [2, 3]) (fun x => if x = 0 then some exA else none) := by
  refine ⟨fun y hy => by simp [hy], exA, rfl, rfl, ?_⟩
  intro i hi
  have : ∀ i ∈ multiIdx [2, 3], [1, 2, 3, 4, 5, 6][cmSum [2, 3] i]? = some (exA.elt i) := by decide
  exact this i (mem_multiIdx.2 hi)

/-- A legal program (the hypothesis of C65): `a = {1..6}` (2×3); `b = a[every][slice(0,2,2)] * 10`; then `a` is destroyed. -/
theorem ex_runs : ∃ A', Runs (fun _ => none) [.makeFrom 0 [1, 2, 3, 4, 5, 6] [2, 3],
    .make 1 (.scr (· * ·) (.arr 0 [.every, .strided 0 2 2]) (.const 10)), .drop 0] A' := by
  have l1 : StmtLegal (fun _ => none) (.makeFrom 0 [1, 2, 3, 4, 5, 6] [2, 3]) := ⟨rfl, by decide, by decide⟩
  have l2 : StmtLegal (fun x => if x = 0 then some exA else none) (.make 1 (.scr (· * ·) (.arr 0 [.every, .strided 0 2 2]) (.const 10))) :=
    ⟨rfl, [2, 2], by decide, ⟨exA, _, rfl, ex_chain_cols, rfl⟩, trivial⟩
  obtain ⟨A2, h2⟩ := C65_progress l2
  have h0 : A2 0 = some exA := by
    obtain ⟨_, _, h, _⟩ := h2
    exact h 0 (by decide)
  have l3 : StmtLegal A2 (.drop 0) := by show A2 0 ≠ none; rw [h0]; simp
  obtain ⟨A3, h3⟩ := C65_progress l3
  exact ⟨A3, .cons l1 ex_make (.cons l2 h2 (.cons l3 h3 .nil))⟩

/-- A program: `a = {1..6}` (2×3); `b = a[every][slice(0,2,2)] * 10`; `a[1] += a[1]`; `b[every][0] = a[1][1]`;
`a = b`; `b` destroyed. -/
def exProg : List (Stmt Nat) :=
  [.makeFrom 0 [1, 2, 3, 4, 5, 6] [2, 3], .make 1 (.scr (· * ·) (.arr 0 [.every, .strided 0 2 2]) (.const 10)),
   .inPlace 0 [.at 1] (· + ·) (.arr 0 [.at 1]), .fill 1 [.every, .at 0] (.elem 0 [.at 1, .at 1]), .set 0 (.arr 1 []), .drop 1]

def exAlloc : Nat → Mem Nat → Nat → Nat := fun k _ _ => 20 * k

example : (World.empty.run Arith.exact true exAlloc (exProg.take 4)).map (fun w => ((List.range 6).map w.mem, (List.range 4).map fun i => w.mem (20 + i))) =
    .ok ([some 1, some 4, some 3, some 8, some 5, some 12], [some 8, some 8, some 50, some 60]) := by decide +kernel

example : (World.empty.run Arith.exact true exAlloc exProg).map (fun w => (w.env 0, w.env 1, (List.range 100).filterMap w.mem)) =
    .ok (some ⟨80, [2, 2]⟩, none, [8, 8, 50, 60]) := by decide +kernel

/-! ### The hypotheses hold in concrete cases -/

example := C65_run ex_runs.choose_spec holdsStore_start true goodAlloc_exists.choose_spec
example := C65_program ex_runs.choose_spec true goodAlloc_exists.choose_spec
example := C65_observed (C65_program ex_runs.choose_spec true goodAlloc_exists.choose_spec).choose_spec.2
example := C65_determined ex_make ex_make

example := C65_progress (s := .makeFrom 0 [1, 2, 3, 4, 5, 6] [2, 3]) (A := fun _ => none) ⟨rfl, by decide, by decide⟩

end Jules.Props

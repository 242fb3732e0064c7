import Verif.Lemmas.Memory
import Verif.Spec.Stored
/-
Stepping the iterators of stored expressions.
-/
namespace Jules
open Spec

/-- From `it`, the iterator visits elements with the values `cs` (functions of the memory) and then equals
`last`. -/
inductive Runs (σ : Store α) (last : SIt) : SIt → List (Mem α → Res α) → Prop
  | nil {it} : it.eq last = true → Runs σ last it []
  | cons {it it' c cs} : it.eq last = false → (∀ m, it.deref Arith.exact σ m = c m) →
      it.next Arith.exact σ = .ok it' → Runs σ last it' cs → Runs σ last it (c :: cs)

theorem runs_ptr (σ : Store α) (off : Nat) : ∀ n k, Runs σ (.ptr (off + (k + n))) (.ptr (off + k))
    ((List.range' k n).map fun q m => m.read (off + q))
  | 0, k => .nil (by simp [SIt.eq])
  | n + 1, k => by
    have := runs_ptr σ off n (k + 1)
    rw [show k + 1 + n = k + (n + 1) by omega] at this
    simp only [List.range'_succ, List.map_cons]
    exact .cons (by simp [SIt.eq]) (fun m => rfl) rfl this

theorem runs_one (σ : Store α) (off t stop : Nat) : ∀ fuel pos ps, iterOne Arith.exact t stop fuel pos = .ok ps →
    Runs σ (.one off t stop) (.one off t pos) (ps.map fun q m => m.read (off + q))
  | 0, pos, ps, h => by simp [iterOne] at h
  | fuel + 1, pos, ps, h => by
    unfold iterOne at h
    split at h
    · next he =>
      cases h
      exact .nil (by simp [SIt.eq, he])
    · next hne =>
      obtain ⟨rest, h1, h2⟩ := res_bind_ok.1 h
      cases h2
      exact .cons (by simp [SIt.eq, hne]) (fun m => rfl) rfl (runs_one σ off t stop fuel _ rest h1)

theorem runs_gen {σ : Store α} {obj : Nat} {d : SDesc} (hσ : σ obj = some (.desc d)) (off : Nat) :
    ∀ fuel idx ps, iterGen Arith.exact d fuel idx = .ok ps →
    Runs σ (.gen off obj (endIndex d.ext)) (.gen off obj idx) (ps.map fun q m => m.read (off + q))
  | 0, idx, ps, h => by simp [iterGen] at h
  | fuel + 1, idx, ps, h => by
    unfold iterGen at h
    split at h
    · next he =>
      cases h
      exact .nil (by simp [SIt.eq, he])
    · next hne =>
      obtain ⟨nx, h0, h⟩ := res_bind_ok.1 h
      obtain ⟨rest, h1, h2⟩ := res_bind_ok.1 h
      cases h2
      exact .cons (by simp [SIt.eq, hne]) (fun m => by simp [SIt.deref, hσ]) (by simp [SIt.next, hσ, h0])
        (runs_gen hσ off fuel nx rest h1)

theorem runs_lst {σ : Store α} {obj : Nat} {l : List Nat} (hσ : σ obj = some (.list l)) (off : Nat) :
    ∀ n k, k + n = l.length →
    Runs σ (.lst off obj l.length) (.lst off obj k) ((l.drop k).map fun q m => m.read (off + q))
  | 0, k, h => by
    rw [List.drop_eq_nil_of_le (by omega)]
    exact .nil (by simp [SIt.eq]; omega)
  | n + 1, k, h => by
    have hk : k < l.length := by omega
    rw [List.drop_eq_getElem_cons hk, List.map_cons]
    exact .cons (by simp [SIt.eq]; omega) (fun m => by simp [SIt.deref, hσ, hk]) rfl (runs_lst hσ off n (k + 1) (by omega))

theorem runs_un {σ : Store α} {last : SIt} {obj : Nat} {f : α → α} (hσ : σ obj = some (.fn1 f)) {it : SIt} {cs : List (Mem α → Res α)}
    (h : Runs σ last it cs) : Runs σ (.un obj last) (.un obj it) (cs.map fun c m => f <$> c m) := by
  induction h with
  | nil h => exact .nil (by simpa [SIt.eq] using h)
  | cons h1 h2 h3 _ ih =>
    refine .cons (by simpa [SIt.eq] using h1) (fun m => ?_) (by simp [SIt.next, h3]) ih
    simp only [SIt.deref, hσ, h2 m]
    rfl

theorem runs_bin {σ : Store α} {l1 l2 : SIt} {obj : Nat} {f : α → α → α} (hσ : σ obj = some (.fn2 f)) {a : SIt}
    {cs : List (Mem α → Res α)} (h : Runs σ l1 a cs) : ∀ {b : SIt} {ds : List (Mem α → Res α)}, Runs σ l2 b ds → cs.length = ds.length →
    Runs σ (.bin obj l1 l2) (.bin obj a b) (List.zipWith (fun c d m => do let x ← c m; let y ← d m; .ok (f x y)) cs ds) := by
  induction h with
  | nil h =>
    intro b ds hb hl
    cases hb with
    | nil hb => exact .nil (by simp [SIt.eq, h, hb])
    | cons => simp at hl
  | cons h1 h2 h3 _ ih =>
    intro b ds hb hl
    cases hb with
    | nil hb => simp at hl
    | cons g1 g2 g3 g4 =>
      refine .cons (by simp [SIt.eq, h1]) (fun m => ?_) (by simp [SIt.next, h3, g3]) (ih g4 (by simpa using hl))
      simp only [SIt.deref, hσ, h2 m, g2 m]

theorem read_ub (m : Mem α) (p : Nat) : m.read p = .error .ub ∨ ∃ x, m.read p = .ok x := by
  unfold Mem.read
  cases m p with
  | none => exact .inl rfl
  | some x => exact .inr ⟨x, rfl⟩

theorem deref_ub (A : Arith) (σ : Store α) (m : Mem α) : ∀ it : SIt, it.deref A σ m = .error .ub ∨ ∃ x, it.deref A σ m = .ok x
  | .ptr p => read_ub m p
  | .one _ _ _ => read_ub m _
  | .gen off obj idx => by
    simp only [SIt.deref]
    split
    · exact read_ub m _
    · exact .inl rfl
  | .lst off obj k => by
    simp only [SIt.deref]
    split
    · split
      · exact read_ub m _
      · exact .inl rfl
    · exact .inl rfl
  | .un obj it => by
    simp only [SIt.deref]
    rcases deref_ub A σ m it with h | ⟨x, h⟩ <;> rw [h]
    · exact .inl rfl
    · rw [res_ok_bind]
      split
      · exact .inr ⟨_, rfl⟩
      · exact .inl rfl
  | .bin obj l r => by
    simp only [SIt.deref]
    rcases deref_ub A σ m l with h | ⟨x, h⟩ <;> rw [h]
    · exact .inl rfl
    · rw [res_ok_bind]
      rcases deref_ub A σ m r with h | ⟨y, h⟩ <;> rw [h]
      · exact .inl rfl
      · rw [res_ok_bind]
        split
        · exact .inr ⟨_, rfl⟩
        · exact .inl rfl

theorem deref_un_none {A : Arith} {σ : Store α} {m : Mem α} {obj : Nat} {it : SIt} (h : σ obj = none) :
    (SIt.un obj it).deref A σ m = .error .ub := by
  simp only [SIt.deref, h]
  rcases deref_ub A σ m it with h | ⟨x, h⟩ <;> rw [h] <;> rfl

theorem deref_bin_none {A : Arith} {σ : Store α} {m : Mem α} {obj : Nat} {l r : SIt} (h : σ obj = none) :
    (SIt.bin obj l r).deref A σ m = .error .ub := by
  simp only [SIt.deref, h]
  rcases deref_ub A σ m l with h | ⟨x, h⟩ <;> rw [h]
  · rfl
  · rw [res_ok_bind]
    rcases deref_ub A σ m r with h | ⟨x, h⟩ <;> rw [h] <;> rfl

theorem deref_bin_right {A : Arith} {σ : Store α} {m : Mem α} {obj : Nat} {l r : SIt} (h : r.deref A σ m = .error .ub) :
    (SIt.bin obj l r).deref A σ m = .error .ub := by
  simp only [SIt.deref, h]
  rcases deref_ub A σ m l with h | ⟨x, h⟩ <;> rw [h] <;> rfl

/-- Some of the objects have been destroyed. -/
def Missing (σ : Store α) (e : SEx α) : Prop := ∃ x ∈ refersTo e, σ x.1 = none

/-- Every object is as it was or has been destroyed. -/
def Rest (σ : Store α) (e : SEx α) : Prop := ∀ x ∈ refersTo e, σ x.1 = some x.2 ∨ σ x.1 = none

/-- An increment works or is undefined. -/
def NextOk (σ : Store α) (it : SIt) : Prop := it.next Arith.exact σ = .error .ub ∨ ∃ it', it.next Arith.exact σ = .ok it'

theorem runs_next {σ : Store α} {last it : SIt} {cs : List (Mem α → Res α)} (h : Runs σ last it cs) (hne : cs ≠ []) : NextOk σ it := by
  cases h with
  | nil => exact (hne rfl).elim
  | cons _ _ h _ => exact .inr ⟨_, h⟩

/-- The operands of an expression: what their iterators do. -/
theorem leaf_src {o : Obj} {v : AView} (h : Observes o v) (hne : v.ext ≠ []) (obj : Nat) :
    ∃ src, leafSrc Arith.exact obj o = .ok src ∧ src.dims = v.ext ∧
      (∀ σ : Store α, Usable σ (.leaf obj o) → Runs σ src.last src.first (v.enum.map fun p m => m.read p)) ∧
      (∀ σ : Store α, Missing σ (.leaf obj o) → ∀ m, src.first.deref Arith.exact σ m = .error .ub) ∧
      ∀ σ : Store α, Missing σ (.leaf obj o) → NextOk σ src.first := by
  have hd := observes_dims h hne
  have hi := h.iterate
  cases o with
  | elem => simp [Obj.dims] at hd
  | proxy => simp [Obj.dims] at hd
  | everyProxy => simp [Obj.dims] at hd
  | cref off ext =>
    simp only [Obj.dims, Option.some.injEq] at hd
    simp only [Obj.positions, Except.ok.injEq] at hi
    refine ⟨_, rfl, hd, fun σ _ => ?_, fun σ hg => ?_, fun σ hg => ?_⟩
    · rw [← hi]
      have := runs_ptr σ off (prodL Arith.exact ext) 0
      rw [← List.range_eq_range'] at this
      simpa [List.map_map, Function.comp_def] using this
    · obtain ⟨x, hx, _⟩ := hg
      simp [refersTo] at hx
    · exact .inr ⟨_, rfl⟩
  | sref off mp =>
    cases mp with
    | vec d l =>
      simp only [Obj.dims, Mapper.desc, Option.some.injEq] at hd
      simp only [Obj.positions, Except.ok.injEq] at hi
      refine ⟨_, rfl, hd, fun σ hu => ?_, fun σ hg m => ?_, fun σ hg => ?_⟩
      · rw [← hi]
        have := runs_lst (σ := σ) (obj := obj) (l := l) (hu (obj, .list l) (by simp [refersTo])) off l.length 0 (by simp)
        simpa [List.map_map, Function.comp_def] using this
      · obtain ⟨x, hx, hn⟩ := hg
        simp only [refersTo, List.mem_singleton] at hx
        subst hx
        simp only at hn
        simp [SIt.deref, hn]
      · exact .inr ⟨_, rfl⟩
    | ident d =>
      simp only [Obj.dims, Mapper.desc, Option.some.injEq] at hd
      simp only [Obj.positions, SDesc.positions] at hi
      obtain ⟨ps, h1, h2⟩ := res_bind_ok.1 hi
      simp only [Except.ok.injEq] at h2
      rw [← h2]
      simp only [List.map_map]
      clear hi
      split at h1
      · next e t he ht =>
        refine ⟨⟨d.ext, .one off t d.start, .one off t (Arith.exact.add d.start (Arith.exact.mul t e))⟩, by simp [leafSrc, he, ht], hd,
          fun σ _ => ?_, fun σ hg => ?_, fun σ hg => ?_⟩
        · have := runs_one σ off t _ _ _ _ h1
          simpa [Function.comp_def] using this
        · obtain ⟨x, hx, _⟩ := hg
          simp [refersTo, he, ht] at hx
        · exact .inr ⟨_, rfl⟩
      · simp at h1
      · next hno hno' =>
        have hlist : refersTo (α := α) (.leaf obj (.sref off (.ident d))) = [(obj, .desc d)] := by
          simp only [refersTo]
        have hsrc : leafSrc Arith.exact obj (.sref off (.ident d)) =
            .ok ⟨d.ext, .gen off obj (d.ext.map fun _ => 0), .gen off obj (endIndex d.ext)⟩ := by
          simp only [leafSrc]
        simp only [Usable, Missing, hlist]
        refine ⟨_, hsrc, hd, fun σ hu => ?_, fun σ hg m => ?_, fun σ hg => ?_⟩
        · have := runs_gen (σ := σ) (obj := obj) (d := d) (hu (obj, .desc d) (by simp)) off _ _ _ h1
          simpa [Function.comp_def] using this
        · obtain ⟨x, hx, hn⟩ := hg
          simp only [List.mem_singleton] at hx
          subst hx
          simp only at hn
          simp [SIt.deref, hn]
        · obtain ⟨x, hx, hn⟩ := hg
          simp only [List.mem_singleton] at hx
          subst hx
          simp only at hn
          exact .inl (by simp [SIt.next, hn])

/-- The values an expression has at the multi-indices in column-major order, as functions of the memory. -/
def valueFns (s : Ex AView α) (d : List Nat) : List (Mem α → Res α) := (multiIdx d).map fun i m => toRes (valAt m s i)

theorem next_un {σ : Store α} {obj : Nat} {it : SIt} (h : NextOk σ it) : NextOk σ (.un obj it) := by
  rcases h with h | ⟨_, h⟩
  · exact .inl (by simp [SIt.next, h])
  · exact .inr ⟨_, by simp [SIt.next, h]; rfl⟩

theorem next_bin {σ : Store α} {obj : Nat} {a b : SIt} (h : NextOk σ a) (h' : NextOk σ b) : NextOk σ (.bin obj a b) := by
  rcases h with h | ⟨_, h⟩
  · exact .inl (by simp [SIt.next, h])
  · rcases h' with h' | ⟨_, h'⟩
    · exact .inl (by simp [SIt.next, h, h'])
    · exact .inr ⟨_, by simp [SIt.next, h, h']; rfl⟩

theorem rest_cases {σ : Store α} {e : SEx α} (h : Rest σ e) : Usable σ e ∨ Missing σ e := by
  by_cases hm : Missing σ e
  · exact .inr hm
  · left
    intro x hx
    rcases h x hx with h | h
    · exact h
    · exact (hm ⟨x, hx, h⟩).elim

theorem src_ok {chk : Bool} {d : List Nat} : ∀ {e : SEx α} {s : Ex AView α}, Denotes e.erase s →
    (∀ x ∈ exts s, x = d) → ∃ src, e.src Arith.exact chk = .ok src ∧ src.dims = d ∧
      (∀ σ, Usable σ e → Runs σ src.last src.first (valueFns s d)) ∧
      (∀ σ, Missing σ e → ∀ m, src.first.deref Arith.exact σ m = .error .ub) ∧
      ∀ σ, Rest σ e → multiIdx d ≠ [] → NextOk σ src.first
  | .leaf obj o, _, .leaf (v := v) h hne, hd => by
    have he : v.ext = d := hd _ (by simp [exts])
    obtain ⟨src, h1, h2, h3, h4, h5⟩ := leaf_src (α := α) h hne obj
    refine ⟨src, h1, by rw [h2, he], fun σ hu => ?_, h4, fun σ hu hd0 => ?_⟩
    · have := h3 σ hu
      simpa [valueFns, AView.enum, he, valAt, ← read_toRes, List.map_map, Function.comp_def] using this
    · rcases rest_cases hu with hu | hu
      · exact runs_next (h3 σ hu) (by simpa [AView.enum, he] using hd0)
      · exact h5 σ hu
  | .un obj f e, _, .un (s := s) h, hd => by
    obtain ⟨x, h1, h2, h3, h4, h5⟩ := src_ok (chk := chk) h hd
    refine ⟨⟨x.dims, .un obj x.first, .un obj x.last⟩, by simp [SEx.src, h1], h2, fun σ hu => ?_, fun σ hg m => ?_, fun σ hu hd0 => ?_⟩
    · have := runs_un (σ := σ) (obj := obj) (f := f) (hu (obj, .fn1 f) (by simp [refersTo]))
        (h3 σ fun y hy => hu y (by simp [refersTo, hy]))
      have he : (valueFns s d).map (fun c m => f <$> c m) = valueFns (.un f s) d := by
        simp only [valueFns, List.map_map]
        apply List.map_congr_left
        intro i _
        funext m
        simp only [Function.comp_apply, valAt]
        cases valAt m s i <;> rfl
      rw [he] at this
      exact this
    · obtain ⟨y, hy, hn⟩ := hg
      simp only [refersTo, List.mem_cons] at hy
      rcases hy with rfl | hy
      · exact deref_un_none hn
      · simp [SIt.deref, h4 σ ⟨y, hy, hn⟩ m]
    · exact next_un (h5 σ (fun y hy => hu y (by simp [refersTo, hy])) hd0)
  | .bin obj f a b, _, .bin (s := s) (t := t) ha hb, hd => by
    obtain ⟨x, a1, a2, a3, a4, a5⟩ := src_ok (chk := chk) ha fun x hx => hd x (by simp [exts, hx])
    obtain ⟨y, b1, b2, b3, b4, b5⟩ := src_ok (chk := chk) hb fun x hx => hd x (by simp [exts, hx])
    refine ⟨⟨x.dims, .bin obj x.first y.first, .bin obj x.last y.last⟩, by simp [SEx.src, a1, b1, a2, b2], a2, fun σ hu => ?_,
      fun σ hg m => ?_, fun σ hu hd0 => ?_⟩
    · have := runs_bin (σ := σ) (obj := obj) (f := f) (hu (obj, .fn2 f) (by simp [refersTo]))
        (a3 σ fun z hz => hu z (by simp [refersTo, hz])) (b3 σ fun z hz => hu z (by simp [refersTo, hz])) (by simp [valueFns])
      have he : List.zipWith (fun c d m => do let x ← c m; let y ← d m; .ok (f x y)) (valueFns s d) (valueFns t d) =
          valueFns (.bin f s t) d := by
        simp only [valueFns, List.zipWith_map, List.zipWith_self]
        apply List.map_congr_left
        intro i _
        funext m
        simp only [valAt]
        cases valAt m s i <;> cases valAt m t i <;> rfl
      rw [he] at this
      exact this
    · obtain ⟨z, hz, hn⟩ := hg
      simp only [refersTo, List.mem_cons, List.mem_append] at hz
      rcases hz with rfl | hz | hz
      · exact deref_bin_none hn
      · simp [SIt.deref, a4 σ ⟨z, hz, hn⟩ m]
      · exact deref_bin_right (b4 σ ⟨z, hz, hn⟩ m)
    · exact next_bin (a5 σ (fun z hz => hu z (by simp [refersTo, hz])) hd0) (b5 σ (fun z hz => hu z (by simp [refersTo, hz])) hd0)

theorem copyN_runs {σ : Store α} {last it : SIt} {cs : List (Mem α → Res α)} (h : Runs σ last it cs) (m : Mem α) :
    copyN Arith.exact σ m cs.length it = cs.mapM (fun c => c m) := by
  induction h with
  | nil => rfl
  | cons h1 h2 h3 _ ih => simp only [List.length_cons, copyN, h2, h3, res_ok_bind, ih, List.mapM_cons]; rfl

theorem copyN_dangling {A : Arith} {σ : Store α} {m : Mem α} {it : SIt} (h : it.deref A σ m = .error .ub) {n : Nat} (hn : n ≠ 0) :
    copyN A σ m n it = .error .ub := by
  obtain ⟨n, rfl⟩ : ∃ k, n = k + 1 := ⟨n - 1, by omega⟩
  simp [copyN, h]

theorem range_mapM {f : Nat → Res α} {g : β → Res α} : ∀ (l : List β) (k : Nat),
    (∀ (j : Nat) (x : β), l[j]? = some x → f (k + j) = g x) → (List.range' k l.length).mapM f = l.mapM g
  | [], _, _ => rfl
  | x :: l, k, h => by
    have h0 := h 0 x rfl
    rw [Nat.add_zero] at h0
    have := range_mapM (f := f) (g := g) l (k + 1) fun j y hy => by
      rw [show k + 1 + j = k + (j + 1) by omega]
      exact h (j + 1) y (by simpa using hy)
    simp only [List.length_cons, List.range'_succ, List.mapM_cons, h0, this]

/-- Copying from a kept expression is copying from a new one. -/
theorem copyN_yields {σ : Store α} {src : Src} {x : EObj α} {s : Ex AView α} {d : List Nat} (hr : Runs σ src.last src.first (valueFns s d))
    (hy : Yields x d s) (m : Mem α) :
    copyN Arith.exact σ m (prod d) src.first = (List.range (prod d)).mapM (fun k => x.it.deref m k) := by
  have h1 := copyN_runs hr m
  have hl : (valueFns s d).length = prod d := by simp [valueFns, multiIdx_length]
  rw [hl] at h1
  rw [h1, valueFns, ← multiIdx_length d, List.range_eq_range']
  rw [range_mapM (g := fun i => toRes (valAt m s i)) (multiIdx d) 0 fun k i hi => by rw [Nat.zero_add]; exact hy.deref m k i hi]
  simp only [List.mapM_map]
  rfl

/-- The loop of an assignment from a kept expression. -/
theorem assignLoop_runs {σ : Store α} {last it : SIt} {cs : List (Mem α → Res α)} (h : Runs σ last it cs)
    (g : Nat → Nat → Mem α → Res α) : ∀ (ps : List Nat) (k : Nat) (m : Mem α), ps.length = cs.length →
    (∀ (j p : Nat) c m, cs[j]? = some c → g (k + j) p m = c m) →
    ∃ it', it'.eq last = true ∧ assignLoop Arith.exact σ ps it m = (updLoop g k ps m >>= fun m' => .ok (m', it')) := by
  induction h with
  | @nil it h =>
    intro ps k m hl _
    obtain rfl : ps = [] := List.length_eq_zero_iff.1 (by simpa using hl)
    exact ⟨it, h, rfl⟩
  | @cons it it1 c cs h1 h2 h3 _ ih =>
    intro ps k m hl hg
    obtain ⟨p, ps, rfl⟩ : ∃ p qs, ps = p :: qs := by
      cases ps with
      | nil => simp at hl
      | cons p qs => exact ⟨p, qs, rfl⟩
    have hk := hg 0 p c m rfl
    rw [Nat.add_zero] at hk
    have hrec : ∀ m, ∃ it', it'.eq last = true ∧ assignLoop Arith.exact σ ps it1 m = (updLoop g (k + 1) ps m >>= fun m' => .ok (m', it')) :=
      fun m => ih ps (k + 1) m (by simpa using hl) fun j p c m hc => by
        rw [show k + 1 + j = k + (j + 1) by omega]
        exact hg (j + 1) p c m (by simpa using hc)
    simp only [assignLoop, updLoop, h3, res_ok_bind, h2, hk]
    cases c m with
    | error e =>
      obtain ⟨it', h1, _⟩ := hrec m
      exact ⟨it', h1, rfl⟩
    | ok x =>
      simp only [res_ok_bind]
      cases hw : m.write p x with
      | error e =>
        obtain ⟨it', h1, _⟩ := hrec m
        exact ⟨it', h1, rfl⟩
      | ok m' =>
        simp only [res_ok_bind]
        exact hrec m'

end Jules

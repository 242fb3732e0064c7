import Verif.Spec.Calls
import Verif.Lemmas.Memory
import Mathlib.Data.List.Basic
import Mathlib.Tactic.Ring
/-
C74: when user functions are called.
-/
namespace Jules.Props
open Jules Spec

/-! ### One element -/

theorem deref_round (U : Users α) (m : Mem α) : ∀ (it : CIt) (k : Nat) (h : Log α) (r : α × Log α), it.deref U m k h = .ok r →
    ∃ c, Round U m it k h r.1 c ∧ r.2 = h ++ c
  | .cells ps, k, h, r, hd => by
    unfold CIt.deref at hd
    split at hd
    · rename_i p hp
      rw [res_bind_ok] at hd
      obtain ⟨x, hx, e⟩ := hd
      cases e
      refine ⟨[], .cells hp ?_, by simp⟩
      unfold Mem.read at hx
      cases hm : m p with
      | none => rw [hm] at hx; cases hx
      | some y => rw [hm] at hx; cases hx; rfl
    · cases hd
  | .map f it, k, h, r, hd => by
    unfold CIt.deref at hd
    rw [res_bind_ok] at hd
    obtain ⟨q, hq, e⟩ := hd
    obtain ⟨c, hc, hl⟩ := deref_round U m it k h q hq
    cases e
    refine ⟨c ++ [⟨f, [q.1]⟩], ?_, ?_⟩
    · simp only [Users.call, hl]
      exact .map hc
    · simp only [Users.call, hl, List.append_assoc]
  | .zip f l r, k, h, q, hd => by
    unfold CIt.deref at hd
    split at hd
    · rw [res_bind_ok] at hd
      obtain ⟨x, hx, hd⟩ := hd
      rw [res_bind_ok] at hd
      obtain ⟨y, hy, e⟩ := hd
      obtain ⟨c, hc, hl⟩ := deref_round U m l k h x hx
      rw [hl] at hy
      obtain ⟨d, hd, hl'⟩ := deref_round U m r k _ y hy
      cases e
      refine ⟨c ++ d ++ [⟨f, [x.1, y.1]⟩], ?_, ?_⟩
      · simp only [Users.call, hl', List.append_assoc h c d]
        exact .zipLeft hc hd
      · simp only [Users.call, hl', List.append_assoc]
    · rw [res_bind_ok] at hd
      obtain ⟨y, hy, hd⟩ := hd
      rw [res_bind_ok] at hd
      obtain ⟨x, hx, e⟩ := hd
      obtain ⟨d, hd, hl⟩ := deref_round U m r k h y hy
      rw [hl] at hx
      obtain ⟨c, hc, hl'⟩ := deref_round U m l k _ x hx
      cases e
      refine ⟨d ++ c ++ [⟨f, [x.1, y.1]⟩], ?_, ?_⟩
      · simp only [Users.call, hl', List.append_assoc h d c]
        exact .zipRight hd hc
      · simp only [Users.call, hl', List.append_assoc]

/-- Whether an element can be computed depends on the operands' cells only. -/
theorem deref_total (U : Users α) (m : Mem α) (F : Nat → List α → α) : ∀ (it : CIt) (k : Nat) (h : Log α) (v : α),
    (withFunctions F it).deref m k = .ok v → ∃ r, it.deref U m k h = .ok r
  | .cells ps, k, h, v, hv => by
    simp only [withFunctions, It.deref] at hv
    unfold CIt.deref
    split at hv
    · rename_i p hp
      simp only [hp, hv, res_ok_bind]
      exact ⟨_, rfl⟩
    · cases hv
  | .map f it, k, h, v, hv => by
    simp only [withFunctions, It.deref] at hv
    cases hx : (withFunctions F it).deref m k with
    | error e => rw [hx] at hv; cases hv
    | ok x =>
      obtain ⟨r, hr⟩ := deref_total U m F it k h x hx
      unfold CIt.deref
      rw [hr]
      exact ⟨_, rfl⟩
  | .zip f l r, k, h, v, hv => by
    simp only [withFunctions, It.deref] at hv
    rw [res_bind_ok] at hv
    obtain ⟨x, hx, hv⟩ := hv
    rw [res_bind_ok] at hv
    obtain ⟨y, hy, -⟩ := hv
    unfold CIt.deref
    split
    · obtain ⟨a, ha⟩ := deref_total U m F l k h x hx
      obtain ⟨b, hb⟩ := deref_total U m F r k a.2 y hy
      rw [ha]
      simp only [res_ok_bind]
      rw [hb]
      exact ⟨_, rfl⟩
    · obtain ⟨b, hb⟩ := deref_total U m F r k h y hy
      obtain ⟨a, ha⟩ := deref_total U m F l k b.2 x hx
      rw [hb]
      simp only [res_ok_bind]
      rw [ha]
      exact ⟨_, rfl⟩

/-- **C74** (one element). Each function of the expression is called exactly once for each place where it occurs. -/
theorem C74_once (U : Users α) (m : Mem α) (it : CIt) (k : Nat) (h : Log α) (x : α) (c : Log α) (hr : Round U m it k h x c) :
    (c.map Call.fn).Perm (functionsOf it) := by
  induction hr with
  | cells => exact .refl _
  | map _ ih => simpa [functionsOf] using ih.append_right _
  | zipLeft _ _ ih1 ih2 =>
    simp only [List.map_append, functionsOf]
    exact (ih1.append ih2).append_right _
  | zipRight _ _ ih1 ih2 =>
    simp only [List.map_append, functionsOf]
    exact ((ih1.append ih2).trans List.perm_append_comm).append_right _

theorem callsOf_append (f : Nat) (h h' : Log α) : callsOf f (h ++ h') = callsOf f h + callsOf f h' := by
  simp [callsOf]

theorem callsOf_eq (f : Nat) (c : Log α) : callsOf f c = (c.map Call.fn).count f := by
  unfold callsOf
  rw [List.count, List.countP_map, List.countP_eq_length_filter]
  congr 1

theorem callsOf_round {U : Users α} {m : Mem α} {it : CIt} {k : Nat} {h : Log α} {x : α} {c : Log α} (hr : Round U m it k h x c) (f : Nat) :
    callsOf f c = (functionsOf it).count f := by
  rw [callsOf_eq]
  exact (C74_once U m it k h x c hr).count_eq f

/-- The element is computed as the last call returns, or is the array's element. -/
theorem C74_value (U : Users α) (m : Mem α) (it : CIt) (k : Nat) (h : Log α) (x : α) (c : Log α) (hr : Round U m it k h x c) :
    (c = [] ∧ ∃ ps p, it = .cells ps ∧ ps[k]? = some p ∧ m p = some x) ∨
    ∃ c' last, c = c' ++ [last] ∧ x = U.resp (h ++ c') last := by
  cases hr with
  | cells h1 h2 => exact Or.inl ⟨rfl, _, _, rfl, h1, h2⟩
  | map _ => exact Or.inr ⟨_, _, rfl, rfl⟩
  | zipLeft _ _ => exact Or.inr ⟨_, _, rfl, rfl⟩
  | zipRight _ _ => exact Or.inr ⟨_, _, rfl, rfl⟩

/-! ### New arrays -/

theorem copyLoopC_rounds (U : Users α) (m : Mem α) (it : CIt) : ∀ (n k : Nat) (h : Log α) (r : List α × Log α), copyLoopC U m it n k h = .ok r →
    ∃ cs, Rounds U m it k h r.1 cs ∧ r.2 = h ++ cs.flatten ∧ r.1.length = n
  | 0, k, h, r, hc => by cases hc; exact ⟨[], .nil, by simp, rfl⟩
  | n + 1, k, h, r, hc => by
    unfold copyLoopC at hc
    rw [res_bind_ok] at hc
    obtain ⟨q, hq, hc⟩ := hc
    rw [res_bind_ok] at hc
    obtain ⟨rs, hrs, e⟩ := hc
    cases e
    obtain ⟨c, hr, hl⟩ := deref_round U m it k h q hq
    obtain ⟨cs, h1, h2, h3⟩ := copyLoopC_rounds U m it n (k + 1) q.2 rs hrs
    rw [hl] at h1 h2
    exact ⟨c :: cs, .cons hr h1, by rw [h2]; simp, by simp [h3]⟩

theorem Rounds_length {U : Users α} {m : Mem α} {it : CIt} {k : Nat} {h : Log α} {xs : List α} {cs : List (Log α)}
    (hr : Rounds U m it k h xs cs) : cs.length = xs.length := by
  induction hr with
  | nil => rfl
  | cons _ _ ih => simp [ih]

theorem Rounds_calls {U : Users α} {m : Mem α} {it : CIt} {k : Nat} {h : Log α} {xs : List α} {cs : List (Log α)}
    (hr : Rounds U m it k h xs cs) (f : Nat) : callsOf f cs.flatten = xs.length * (functionsOf it).count f := by
  induction hr with
  | nil => simp [callsOf]
  | cons h1 _ ih => rw [List.flatten_cons, callsOf_append, callsOf_round h1, ih, List.length_cons]; ring

/-- **C74** (new arrays, `eval`). Making an array from an expression calls the functions for the elements in column-major order, one element after
the other, each element's calls once; the elements of the new array are the values so computed. -/
theorem C74_construct (A : Arith) (U : Users α) (src : CObj) (m m' : Mem α) (fresh : Nat) (a : Arr) (h h' : Log α)
    (hc : newArrayC A U src m fresh h = .ok ((m', a), h')) :
    ∃ xs cs, Rounds U m src.it 0 h xs cs ∧ h' = h ++ cs.flatten ∧ xs.length = prodL A src.dims ∧ m' = m.setMany fresh xs ∧ a = ⟨fresh, src.dims⟩ ∧
      ∀ f, callsOf f cs.flatten = prodL A src.dims * (functionsOf src.it).count f := by
  unfold newArrayC at hc
  rw [res_bind_ok] at hc
  obtain ⟨r, hr, e⟩ := hc
  cases e
  obtain ⟨cs, h1, h2, h3⟩ := copyLoopC_rounds U m src.it _ 0 h r hr
  exact ⟨r.1, cs, h1, h2, h3, rfl, rfl, fun f => by rw [Rounds_calls h1, h3]⟩

/-! ### Assignment -/

theorem write_ok {m m' : Mem α} {p : Nat} {x : α} (h : m.write p x = .ok m') : m' = m.set p x := by
  unfold Mem.write at h
  split at h
  · cases h; rfl
  · cases h

theorem updLoopC_stores (U : Users α) (it : CIt) : ∀ (ps : List Nat) (k : Nat) (m : Mem α) (h : Log α) (r : Mem α × Log α),
    updLoopC (fun k _ m h => it.deref U m k h) k ps m h = .ok r → ∃ cs, Stores U it k ps m h r.1 cs ∧ r.2 = h ++ cs.flatten
  | [], k, m, h, r, hc => by cases hc; exact ⟨[], .nil, by simp⟩
  | p :: ps, k, m, h, r, hc => by
    unfold updLoopC at hc
    rw [res_bind_ok] at hc
    obtain ⟨q, hq, hc⟩ := hc
    rw [res_bind_ok] at hc
    obtain ⟨m1, hm, hc⟩ := hc
    obtain ⟨c, hr, hl⟩ := deref_round U m it k h q hq
    have := write_ok hm
    subst this
    obtain ⟨cs, h1, h2⟩ := updLoopC_stores U it ps (k + 1) _ _ r hc
    rw [hl] at h1 h2
    exact ⟨c :: cs, .cons hr h1, by rw [h2]; simp⟩

theorem Stores_length {U : Users α} {it : CIt} {k : Nat} {ps : List Nat} {m m' : Mem α} {h : Log α} {cs : List (Log α)}
    (hr : Stores U it k ps m h m' cs) : cs.length = ps.length := by
  induction hr with
  | nil => rfl
  | cons _ _ ih => simp [ih]

theorem Stores_calls {U : Users α} {it : CIt} {k : Nat} {ps : List Nat} {m m' : Mem α} {h : Log α} {cs : List (Log α)}
    (hr : Stores U it k ps m h m' cs) (f : Nat) : callsOf f cs.flatten = ps.length * (functionsOf it).count f := by
  induction hr with
  | nil => simp [callsOf]
  | cons h1 _ ih => rw [List.flatten_cons, callsOf_append, callsOf_round h1, ih, List.length_cons]; ring

/-- **C74** (assignment to a view). The functions are called for the elements in the order of the view's elements, one element after the other,
each element's calls once, and each value is stored before the next element is computed. -/
theorem C74_assign_view (A : Arith) (chk : Bool) (U : Users α) (dest : Obj) (src : CObj) (m m' : Mem α) (h h' : Log α)
    (hc : arrayAssignC A chk U dest src m h = .ok (m', h')) :
    ∃ ps cs, dest.positions A = .ok ps ∧ Stores U src.it 0 ps m h m' cs ∧ h' = h ++ cs.flatten ∧
      ∀ f, callsOf f cs.flatten = ps.length * (functionsOf src.it).count f := by
  unfold arrayAssignC at hc
  split at hc
  · cases hc
  · split at hc
    · cases hc
    · rw [res_bind_ok] at hc
      obtain ⟨_, -, hc⟩ := hc
      rw [res_bind_ok] at hc
      obtain ⟨ps, hps, hc⟩ := hc
      rw [res_bind_ok] at hc
      obtain ⟨r, hr, hc⟩ := hc
      rw [res_bind_ok] at hc
      obtain ⟨_, -, e⟩ := hc
      cases e
      obtain ⟨cs, h1, h2⟩ := updLoopC_stores U src.it ps 0 m h _ hr
      exact ⟨ps, cs, hps, h1, h2, fun f => Stores_calls h1 f⟩

/-- **C74** (assignment to an array). Also here each element is computed once, in order: into the array's own elements if the sizes are equal,
into new ones otherwise. -/
theorem C74_assign_array (A : Arith) (U : Users α) (a b : Arr) (src : CObj) (m m' : Mem α) (fresh : Nat) (h h' : Log α)
    (hc : arrayAssignExprC A U a src m fresh h = .ok ((m', b), h')) :
    (prodL A a.ext = prodL A src.dims ∧ ∃ n cs, src.it.count = some n ∧ Stores U src.it 0 ((List.range n).map (A.add a.base ·)) m h m' cs ∧
      b = ⟨a.base, src.dims⟩ ∧ h' = h ++ cs.flatten ∧ ∀ f, callsOf f cs.flatten = n * (functionsOf src.it).count f) ∨
    (prodL A a.ext ≠ prodL A src.dims ∧ ∃ xs cs, Rounds U m src.it 0 h xs cs ∧ xs.length = prodL A src.dims ∧
      m' = (m.setMany fresh xs).free a.base (prodL A a.ext) ∧ b = ⟨fresh, src.dims⟩ ∧
      h' = h ++ cs.flatten ∧ ∀ f, callsOf f cs.flatten = prodL A src.dims * (functionsOf src.it).count f) := by
  unfold arrayAssignExprC at hc
  split at hc
  · rename_i heq
    split at hc
    · cases hc
    · rename_i n hn
      split at hc
      · cases hc
      · rw [res_bind_ok] at hc
        obtain ⟨r, hr, e⟩ := hc
        cases e
        obtain ⟨cs, h1, h2⟩ := updLoopC_stores U src.it _ 0 m h _ hr
        exact Or.inl ⟨heq, n, cs, hn, h1, rfl, h2, fun f => by rw [Stores_calls h1]; simp⟩
  · rename_i hne
    rw [res_bind_ok] at hc
    obtain ⟨r, hr, e⟩ := hc
    cases e
    obtain ⟨xs, cs, h1, h2, h3, h4, h5, h6⟩ := C74_construct A U src m r.1.1 fresh r.1.2 h r.2 hr
    exact Or.inr ⟨hne, xs, cs, h1, h3, by rw [h4], h5, h2, h6⟩

/-- **C74** (`overlap`). Each element is computed once, in order, all of them before the first is assigned. -/
theorem C74_overlap (A : Arith) (chk : Bool) (U : Users α) (dest : Obj) (src : CObj) (m m' : Mem α) (fresh : Nat) (h h' : Log α)
    (hc : overlapViewC A chk U dest src m fresh h = .ok (m', h')) :
    ∃ xs cs, Rounds U m src.it 0 h xs cs ∧ xs.length = prodL A src.dims ∧ h' = h ++ cs.flatten ∧
      (∃ m'', assignView A chk dest (.leaf (.cref fresh src.dims)) (m.setMany fresh xs) = .ok m'' ∧ m' = m''.free fresh (prodL A src.dims)) ∧
      ∀ f, callsOf f cs.flatten = prodL A src.dims * (functionsOf src.it).count f := by
  unfold overlapViewC at hc
  rw [res_bind_ok] at hc
  obtain ⟨r, hr, hc⟩ := hc
  rw [res_bind_ok] at hc
  obtain ⟨m'', hm, e⟩ := hc
  cases e
  obtain ⟨xs, cs, h1, h2, h3, h4, h5, h6⟩ := C74_construct A U src m r.1.1 fresh r.1.2 h r.2 hr
  rw [h4, h5] at hm
  exact ⟨xs, cs, h1, h3, h2, ⟨m'', hm, by rw [h5]⟩, h6⟩

/-! ### In place -/

theorem applyLoop (U : Users α) (f : Nat) : ∀ (ps : List Nat) (k : Nat) (m : Mem α) (h : Log α) (r : Mem α × Log α), ps.Nodup →
    updLoopC (fun _ p m h => do
      let x ← m.read p
      .ok (U.call f [x] h)) k ps m h = .ok r →
    ∃ calls : Log α, r.2 = h ++ calls ∧ calls.length = ps.length ∧
      (∀ (j p : Nat), ps[j]? = some p → ∃ x, m p = some x ∧ calls[j]? = some ⟨f, [x]⟩ ∧ r.1 p = some (U.resp (h ++ calls.take j) ⟨f, [x]⟩)) ∧
      (∀ q, q ∉ ps → r.1 q = m q)
  | [], k, m, h, r, _, hc => by
    cases hc
    exact ⟨[], by simp, rfl, by simp, fun _ _ => rfl⟩
  | p :: ps, k, m, h, r, hnd, hc => by
    unfold updLoopC at hc
    rw [res_bind_ok] at hc
    obtain ⟨q, hq, hc⟩ := hc
    rw [res_bind_ok] at hq
    obtain ⟨x, hx, e⟩ := hq
    cases e
    rw [res_bind_ok] at hc
    obtain ⟨m1, hm, hc⟩ := hc
    have := write_ok hm
    subst this
    obtain ⟨hp, hnd'⟩ := List.nodup_cons.1 hnd
    obtain ⟨calls, h1, h2, h3, h4⟩ := applyLoop U f ps (k + 1) _ _ r hnd' hc
    have hmx : m p = some x := by
      unfold Mem.read at hx
      cases hm : m p with
      | none => rw [hm] at hx; cases hx
      | some y => rw [hm] at hx; cases hx; rfl
    refine ⟨⟨f, [x]⟩ :: calls, by rw [h1]; simp [Users.call], by simp [h2], ?_, ?_⟩
    · intro j p' hj
      cases j with
      | zero =>
        simp only [List.getElem?_cons_zero, Option.some.injEq] at hj
        subst hj
        refine ⟨x, hmx, rfl, ?_⟩
        rw [h4 p hp]
        simp [Mem.set, Users.call]
      | succ j =>
        simp only [List.getElem?_cons_succ] at hj
        obtain ⟨y, g1, g2, g3⟩ := h3 j p' hj
        have hne : p' ≠ p := by rintro rfl; exact hp (List.mem_of_getElem? hj)
        refine ⟨y, by simpa [Mem.set, hne] using g1, by simpa using g2, ?_⟩
        rw [g3]
        simp [Users.call]
    · intro q hq
      simp only [List.mem_cons, not_or] at hq
      rw [h4 q hq.2]
      simp [Mem.set, hq.1]

/-- **C74** (in place). `apply(in_place, view, f)` calls `f` exactly once for each element of the view, in the view's order, with the element's
present value; the element gets what this call makes of it, and nothing else changes. -/
theorem C74_in_place (A : Arith) (U : Users α) (dest : Obj) (f : Nat) (m m' : Mem α) (h h' : Log α) (ps : List Nat)
    (hps : dest.positions A = .ok ps) (hnd : ps.Nodup) (hc : applyInPlaceC A U dest f m h = .ok (m', h')) :
    ∃ calls : Log α, h' = h ++ calls ∧ calls.length = ps.length ∧
      (∀ (j p : Nat), ps[j]? = some p → ∃ x, m p = some x ∧ calls[j]? = some ⟨f, [x]⟩ ∧ m' p = some (U.resp (h ++ calls.take j) ⟨f, [x]⟩)) ∧
      (∀ q, q ∉ ps → m' q = m q) := by
  unfold applyInPlaceC at hc
  rw [hps, res_ok_bind] at hc
  exact applyLoop U f ps 0 m h _ hnd hc


theorem inPlaceLoop (U : Users α) (f : Nat) (it : CIt) : ∀ (ps : List Nat) (k : Nat) (m : Mem α) (h : Log α) (r : Mem α × Log α),
    updLoopC (fun k p m h => do
      let r ← it.deref U m k h
      let x ← m.read p
      .ok (U.call f [x, r.1] r.2)) k ps m h = .ok r →
    ∃ cs, Updates U f it k ps m h r.1 cs ∧ r.2 = h ++ cs.flatten
  | [], k, m, h, r, hc => by cases hc; exact ⟨[], .nil, by simp⟩
  | p :: ps, k, m, h, r, hc => by
    unfold updLoopC at hc
    rw [res_bind_ok] at hc
    obtain ⟨q, hq, hc⟩ := hc
    rw [res_bind_ok] at hq
    obtain ⟨y, hy, hq⟩ := hq
    rw [res_bind_ok] at hq
    obtain ⟨x, hx, e⟩ := hq
    cases e
    rw [res_bind_ok] at hc
    obtain ⟨m1, hm, hc⟩ := hc
    have := write_ok hm
    subst this
    have hmx : m p = some x := by
      unfold Mem.read at hx
      cases hm : m p with
      | none => rw [hm] at hx; cases hx
      | some y => rw [hm] at hx; cases hx; rfl
    obtain ⟨c, hr, hl⟩ := deref_round U m it k h y hy
    obtain ⟨cs, h1, h2⟩ := inPlaceLoop U f it ps (k + 1) _ _ r hc
    simp only [Users.call, hl] at h1 h2
    exact ⟨(c ++ [⟨f, [x, y.1]⟩]) :: cs, .cons hr hmx (by rw [← List.append_assoc]; exact h1), by rw [h2]; simp⟩

theorem Updates_length {U : Users α} {f : Nat} {it : CIt} {k : Nat} {ps : List Nat} {m m' : Mem α} {h : Log α} {cs : List (Log α)}
    (hr : Updates U f it k ps m h m' cs) : cs.length = ps.length := by
  induction hr with
  | nil => rfl
  | cons _ _ _ ih => simp [ih]

theorem Updates_calls {U : Users α} {f : Nat} {it : CIt} {k : Nat} {ps : List Nat} {m m' : Mem α} {h : Log α} {cs : List (Log α)}
    (hr : Updates U f it k ps m h m' cs) (g : Nat) :
    callsOf g cs.flatten = ps.length * ((functionsOf it).count g + if f = g then 1 else 0) := by
  induction hr with
  | nil => simp [callsOf]
  | cons h1 _ _ ih =>
    rw [List.flatten_cons, callsOf_append, callsOf_append, callsOf_round h1, ih, List.length_cons, Nat.succ_mul, Nat.add_comm]
    congr 2
    unfold callsOf
    by_cases e : f = g <;> simp [e]

/-- **C74** (in place with an expression). `apply(in_place, view, expression, f)`: for each element of the view in order, the expression's element is
computed once, then `f` is called once with the view's element and that value, and the result is stored before the next element. -/
theorem C74_in_place_expr (A : Arith) (chk : Bool) (U : Users α) (dest : Obj) (f : Nat) (src : CObj) (m m' : Mem α) (h h' : Log α)
    (hc : inPlaceExprC A chk U dest f src m h = .ok (m', h')) :
    ∃ ps cs, dest.positions A = .ok ps ∧ Updates U f src.it 0 ps m h m' cs ∧ h' = h ++ cs.flatten ∧ cs.length = ps.length ∧
      ∀ g, callsOf g cs.flatten = ps.length * ((functionsOf src.it).count g + if f = g then 1 else 0) := by
  unfold inPlaceExprC at hc
  split at hc
  · cases hc
  · split at hc
    · cases hc
    · rw [res_bind_ok] at hc
      obtain ⟨_, -, hc⟩ := hc
      rw [res_bind_ok] at hc
      obtain ⟨ps, hps, hc⟩ := hc
      obtain ⟨cs, h1, h2⟩ := inPlaceLoop U f src.it ps 0 m h _ hc
      exact ⟨ps, cs, hps, h1, h2, Updates_length h1, fun g => Updates_calls h1 g⟩

/-! ### Reductions -/

/-- **C74** (one pass: `sum`, `prod`, `mean`, `count`, `freq`, `which`, `nth`). Each element is computed once, in order, and the result is that of the values so
computed. -/
theorem C74_one_pass (U : Users α) (m : Mem α) (it : CIt) (op : β → α → β) : ∀ (n k : Nat) (s : β) (h : Log α) (r : β × Log α),
    foldC U m it op n k s h = .ok r →
    ∃ xs cs, Rounds U m it k h xs cs ∧ xs.length = n ∧ r.1 = xs.foldl op s ∧ r.2 = h ++ cs.flatten ∧
      ∀ f, callsOf f cs.flatten = n * (functionsOf it).count f
  | 0, k, s, h, r, hc => by cases hc; exact ⟨[], [], .nil, rfl, rfl, by simp, by simp [callsOf]⟩
  | n + 1, k, s, h, r, hc => by
    unfold foldC at hc
    rw [res_bind_ok] at hc
    obtain ⟨q, hq, hc⟩ := hc
    obtain ⟨c, hr, hl⟩ := deref_round U m it k h q hq
    obtain ⟨xs, cs, h1, h2, h3, h4, -⟩ := C74_one_pass U m it op n (k + 1) _ _ r hc
    rw [hl] at h1 h4
    have hR : Rounds U m it k h (q.1 :: xs) (c :: cs) := .cons hr h1
    exact ⟨q.1 :: xs, c :: cs, hR, by simp [h2], by rw [h3]; rfl, by rw [h4]; simp, fun f => by rw [Rounds_calls hR]; simp [h2]⟩

/-- **C74** (`all`, `any`, `none`). The elements are computed in order, each once, up to the first that decides; those after it not at all. -/
theorem C74_until (U : Users α) (m : Mem α) (it : CIt) (stop : α → Bool) : ∀ (n k : Nat) (h : Log α) (r : Bool × Log α),
    untilC U m it stop n k h = .ok r →
    ∃ xs cs, Rounds U m it k h xs cs ∧ r.2 = h ++ cs.flatten ∧ xs.length ≤ n ∧
      ((r.1 = false ∧ xs.length = n ∧ ∀ x ∈ xs, stop x = false) ∨
       (r.1 = true ∧ ∃ ys y, xs = ys ++ [y] ∧ stop y = true ∧ ∀ x ∈ ys, stop x = false))
  | 0, k, h, r, hc => by cases hc; exact ⟨[], [], .nil, by simp, by simp, Or.inl ⟨rfl, rfl, by simp⟩⟩
  | n + 1, k, h, r, hc => by
    unfold untilC at hc
    rw [res_bind_ok] at hc
    obtain ⟨q, hq, hc⟩ := hc
    obtain ⟨c, hr, hl⟩ := deref_round U m it k h q hq
    split at hc
    · rename_i hs
      cases hc
      exact ⟨[q.1], [c], .cons hr .nil, by simp [hl], by simp, Or.inr ⟨rfl, [], q.1, rfl, hs, by simp⟩⟩
    · rename_i hs
      obtain ⟨xs, cs, h1, h2, h3, h4⟩ := C74_until U m it stop n (k + 1) _ r hc
      rw [hl] at h1 h2
      refine ⟨q.1 :: xs, c :: cs, .cons hr h1, by rw [h2]; simp, by simpa using h3, ?_⟩
      rcases h4 with ⟨a, b, e⟩ | ⟨a, ys, y, b, e, g⟩
      · exact Or.inl ⟨a, by simp [b], by simpa using ⟨by simpa using hs, e⟩⟩
      · exact Or.inr ⟨a, q.1 :: ys, y, by simp [b], e, by simpa using ⟨by simpa using hs, g⟩⟩

/-- **C74**, partial (`max`, `which_max`, and with the order reversed `min`, `which_min`). The full property has each element computed once. Proved: each
element is computed at least once and at most twice; the second time happens exactly for the elements whose first value exceeds the current maximum, and
then it is the second value that becomes the maximum. -/
theorem C74_max_partial (U : Users α) (m : Mem α) (it : CIt) (lt : α → α → Bool) : ∀ (n k : Nat) (s : α) (best : Nat) (h : Log α)
    (r : (α × Nat) × Log α), maxC U m it lt n k s best h = .ok r →
    ∃ c j, Search U m it lt n k s best h r.1.1 r.1.2 j c ∧ r.2 = h ++ c ∧ j ≤ n ∧ ∀ f, callsOf f c = (n + j) * (functionsOf it).count f
  | 0, k, s, best, h, r, hc => by cases hc; exact ⟨[], 0, .nil, by simp, Nat.le_refl _, by simp [callsOf]⟩
  | n + 1, k, s, best, h, r, hc => by
    unfold maxC at hc
    rw [res_bind_ok] at hc
    obtain ⟨q, hq, hc⟩ := hc
    obtain ⟨c, hr, hl⟩ := deref_round U m it k h q hq
    split at hc
    · rename_i hs
      rw [res_bind_ok] at hc
      obtain ⟨q', hq', hc⟩ := hc
      rw [hl] at hq'
      obtain ⟨c', hr', hl'⟩ := deref_round U m it k _ q' hq'
      obtain ⟨d, j, h1, h2, h3, h4⟩ := C74_max_partial U m it lt n (k + 1) _ _ _ r hc
      rw [hl'] at h1 h2
      refine ⟨c ++ c' ++ d, j + 1, .better hr hs hr' h1, by rw [h2]; simp, by omega, fun f => ?_⟩
      rw [callsOf_append, callsOf_append, callsOf_round hr, callsOf_round hr', h4]
      ring
    · rename_i hs
      obtain ⟨d, j, h1, h2, h3, h4⟩ := C74_max_partial U m it lt n (k + 1) _ _ _ r hc
      rw [hl] at h1 h2
      refine ⟨c ++ d, j, .worse hr (by simpa using hs) h1, by rw [h2]; simp, by omega, fun f => ?_⟩
      rw [callsOf_append, callsOf_round hr, h4]
      ring

/-- **C74**, partial (`var`, `sd`, `meansd`). The full property has each element computed once. Proved: each element is computed exactly twice, in two
passes; the mean is that of the first values, the deviations are those of the second values from it. -/
theorem C74_var_partial (U : Users α) (m : Mem α) (it : CIt) (n : Nat) (start : β) (add : β → α → β) (fin : β → γ) (acc : γ → β → α → β)
    (h : Log α) (r : (γ × β) × Log α) (hc : varC U m it n start add fin acc h = .ok r) :
    ∃ xs cs ys ds, Rounds U m it 0 h xs cs ∧ Rounds U m it 0 (h ++ cs.flatten) ys ds ∧ xs.length = n ∧ ys.length = n ∧
      r.1.1 = fin (xs.foldl add start) ∧ r.1.2 = ys.foldl (acc r.1.1) start ∧ r.2 = h ++ cs.flatten ++ ds.flatten ∧
      ∀ f, callsOf f (cs.flatten ++ ds.flatten) = 2 * n * (functionsOf it).count f := by
  unfold varC at hc
  rw [res_bind_ok] at hc
  obtain ⟨s, hs, hc⟩ := hc
  rw [res_bind_ok] at hc
  obtain ⟨d, hd, e⟩ := hc
  cases e
  obtain ⟨xs, cs, a1, a2, a3, a4, a5⟩ := C74_one_pass U m it add n 0 start h s hs
  obtain ⟨ys, ds, b1, b2, b3, b4, b5⟩ := C74_one_pass U m it _ n 0 start _ d hd
  rw [a4] at b1 b4
  exact ⟨xs, cs, ys, ds, a1, b1, a2, b2, by rw [a3], by rw [b3], b4, fun f => by rw [callsOf_append, a5, b5]; ring⟩

/-! ### Functions without state -/

theorem read_err {m : Mem α} {p : Nat} {e : Fail} (h : m.read p = .error e) : e = .ub := by
  unfold Mem.read at h
  split at h
  · cases h
  · cases h; rfl

theorem deref_err (m : Mem α) : ∀ (it : It α) (k : Nat) (e : Fail), it.deref m k = .error e → e = .ub
  | .cells ps, k, e, h => by
    unfold It.deref at h
    split at h
    · exact read_err h
    · cases h; rfl
  | .map f it, k, e, h => by
    unfold It.deref at h
    cases hx : it.deref m k with
    | error e' => rw [hx] at h; cases h; exact deref_err m it k _ hx
    | ok x => rw [hx] at h; cases h
  | .zip f l r, k, e, h => by
    unfold It.deref at h
    cases hx : l.deref m k with
    | error e' => rw [hx] at h; cases h; exact deref_err m l k _ hx
    | ok x =>
      rw [hx, res_ok_bind] at h
      cases hy : r.deref m k with
      | error e' => rw [hy] at h; cases h; exact deref_err m r k _ hy
      | ok y => rw [hy] at h; cases h

/-- **C74** (functions without state, one element). Whatever was called before, and whichever operand is evaluated first, the element is the one of the
expression with these functions. -/
theorem C74_pure_element (U : Users α) (F : Nat → List α → α) (hU : Stateless U F) (m : Mem α) : ∀ (it : CIt) (k : Nat) (h : Log α),
    (it.deref U m k h).map Prod.fst = (withFunctions F it).deref m k
  | .cells ps, k, h => by
    unfold CIt.deref
    simp only [withFunctions, It.deref]
    cases hp : ps[k]? with
    | none => rfl
    | some p =>
      simp only
      cases m.read p <;> rfl
  | .map f it, k, h => by
    unfold CIt.deref
    simp only [withFunctions, It.deref]
    rw [← C74_pure_element U F hU m it k h]
    cases it.deref U m k h with
    | error e => rfl
    | ok r => exact congrArg Except.ok (hU _ _)
  | .zip f l r, k, h => by
    unfold CIt.deref
    simp only [withFunctions, It.deref]
    split
    · rw [← C74_pure_element U F hU m l k h]
      cases l.deref U m k h with
      | error e => rfl
      | ok x =>
        simp only [res_ok_bind, Except.map]
        rw [← C74_pure_element U F hU m r k x.2]
        cases r.deref U m k x.2 with
        | error e => rfl
        | ok y => exact congrArg Except.ok (hU _ _)
    · have hr := C74_pure_element U F hU m r k h
      cases hy : r.deref U m k h with
      | error e =>
        rw [hy] at hr
        have he : e = .ub := deref_err m _ k e hr.symm
        subst he
        cases hx : (withFunctions F l).deref m k with
        | error e' =>
          have := deref_err m _ k e' hx
          subst this
          rfl
        | ok x =>
          rw [res_ok_bind, ← hr]
          rfl
      | ok y =>
        rw [hy] at hr
        rw [res_ok_bind, ← C74_pure_element U F hU m l k y.2]
        cases l.deref U m k y.2 with
        | error e => rfl
        | ok x =>
          simp only [res_ok_bind, Except.map]
          rw [← hr]
          exact congrArg Except.ok (hU _ _)

theorem pure_copy (U : Users α) (F : Nat → List α → α) (hU : Stateless U F) (m : Mem α) (it : CIt) : ∀ (n k : Nat) (h : Log α),
    (copyLoopC U m it n k h).map Prod.fst = (List.range' k n).mapM (fun k => (withFunctions F it).deref m k)
  | 0, k, h => rfl
  | n + 1, k, h => by
    unfold copyLoopC
    rw [List.range'_succ, List.mapM_cons, ← C74_pure_element U F hU m it k h]
    cases it.deref U m k h with
    | error e => rfl
    | ok r =>
      simp only [res_ok_bind, Except.map]
      rw [← pure_copy U F hU m it n (k + 1) r.2]
      cases copyLoopC U m it n (k + 1) r.2 <;> rfl

/-- **C74** (functions without state, new arrays). -/
theorem C74_pure_new (A : Arith) (U : Users α) (F : Nat → List α → α) (hU : Stateless U F) (src : CObj) (m : Mem α) (fresh : Nat) (h : Log α) :
    (newArrayC A U src m fresh h).map Prod.fst = newArray A ⟨src.dims, withFunctions F src.it⟩ m fresh := by
  unfold newArrayC newArray
  simp only [List.range_eq_range']
  rw [← pure_copy U F hU m src.it _ 0 h]
  cases copyLoopC U m src.it (prodL A src.dims) 0 h <;> rfl

theorem pure_upd (U : Users α) (F : Nat → List α → α) (hU : Stateless U F) (it : CIt) : ∀ (ps : List Nat) (k : Nat) (m : Mem α) (h : Log α),
    (updLoopC (fun k _ m h => it.deref U m k h) k ps m h).map Prod.fst = updLoop (fun k _ m => (withFunctions F it).deref m k) k ps m
  | [], k, m, h => rfl
  | p :: ps, k, m, h => by
    unfold updLoopC updLoop
    rw [← C74_pure_element U F hU m it k h]
    cases it.deref U m k h with
    | error e => rfl
    | ok r =>
      simp only [res_ok_bind, Except.map]
      cases m.write p r.1 with
      | error e => rfl
      | ok m' => exact pure_upd U F hU it ps (k + 1) m' r.2

theorem pure_count (F : Nat → List α → α) : ∀ (it : CIt), (withFunctions F it).count = it.count
  | .cells _ => rfl
  | .map _ it => pure_count F it
  | .zip _ l r => by
    simp only [withFunctions, It.count, CIt.count, pure_count F l, pure_count F r]
    cases l.count <;> cases r.count <;> rfl

/-- **C74** (functions without state, assignment to views). -/
theorem C74_pure_assign_view (A : Arith) (chk : Bool) (U : Users α) (F : Nat → List α → α) (hU : Stateless U F) (dest : Obj) (src : CObj)
    (m : Mem α) (h : Log α) :
    (arrayAssignC A chk U dest src m h).map Prod.fst = arrayAssign A chk dest ⟨src.dims, withFunctions F src.it⟩ m := by
  unfold arrayAssignC arrayAssign
  cases dest.dims with
  | none => rfl
  | some d =>
    simp only
    split
    · rfl
    · cases dbg chk (src.dims == d) with
      | error e => rfl
      | ok _ =>
        simp only [res_ok_bind]
        cases dest.positions A with
        | error e => rfl
        | ok ps =>
          simp only [res_ok_bind]
          rw [← pure_upd U F hU src.it ps 0 m h, pure_count]
          cases updLoopC (fun k _ m h => src.it.deref U m k h) 0 ps m h with
          | error e => rfl
          | ok r =>
            simp only [res_ok_bind, Except.map]
            cases dbg chk (src.it.count == some ps.length) <;> rfl

/-- **C74** (functions without state, assignment to arrays). -/
theorem C74_pure_assign_array (A : Arith) (U : Users α) (F : Nat → List α → α) (hU : Stateless U F) (a : Arr) (src : CObj) (m : Mem α)
    (fresh : Nat) (h : Log α) :
    (arrayAssignExprC A U a src m fresh h).map Prod.fst = arrayAssignExpr A a ⟨src.dims, withFunctions F src.it⟩ m fresh := by
  unfold arrayAssignExprC arrayAssignExpr
  simp only [pure_count]
  split
  · cases src.it.count with
    | none => rfl
    | some n =>
      simp only
      split
      · rfl
      · rw [← pure_upd U F hU src.it _ 0 m h]
        cases updLoopC (fun k _ m h => src.it.deref U m k h) 0 ((List.range n).map (A.add a.base ·)) m h <;> rfl
  · rw [← C74_pure_new A U F hU src m fresh h]
    cases newArrayC A U src m fresh h <;> rfl

/-- **C74** (functions without state, reductions). Although elements may be computed twice, `max` and `which_max` give what they give for the list of the
expression's elements. -/
theorem C74_pure_max (U : Users α) (F : Nat → List α → α) (hU : Stateless U F) (m : Mem α) (it : CIt) (lt : α → α → Bool) :
    ∀ (n k : Nat) (xs : List α) (s : α) (best : Nat) (h : Log α), (List.range' k n).mapM (fun k => (withFunctions F it).deref m k) = .ok xs →
    ∃ h', maxC U m it lt n k s best h = .ok ((maxL lt xs s, whichMaxLoop lt xs s k best), h')
  | 0, k, xs, s, best, h, hx => by cases hx; exact ⟨h, rfl⟩
  | n + 1, k, xs, s, best, h, hx => by
    rw [List.range'_succ, List.mapM_cons, res_bind_ok] at hx
    obtain ⟨x, h1, hx⟩ := hx
    rw [res_bind_ok] at hx
    obtain ⟨ys, h2, e⟩ := hx
    cases e
    have key : ∀ h, ∃ h', it.deref U m k h = .ok (x, h') := fun h => by
      have := C74_pure_element U F hU m it k h
      rw [h1] at this
      cases hd : it.deref U m k h with
      | error e => rw [hd] at this; cases this
      | ok r => rw [hd] at this; cases this; exact ⟨r.2, rfl⟩
    obtain ⟨g1, e1⟩ := key h
    unfold maxC maxL whichMaxLoop
    rw [e1, res_ok_bind]
    by_cases hl : lt s x = true
    · obtain ⟨g2, e2⟩ := key g1
      rw [if_pos hl, if_pos hl, if_pos hl, e2, res_ok_bind]
      exact C74_pure_max U F hU m it lt n (k + 1) ys x k g2 h2
    · rw [if_neg hl, if_neg hl, if_neg hl]
      exact C74_pure_max U F hU m it lt n (k + 1) ys s best g1 h2

theorem pure_next (U : Users α) (F : Nat → List α → α) (hU : Stateless U F) (m : Mem α) (it : CIt) (k : Nat) (x : α)
    (hx : (withFunctions F it).deref m k = .ok x) (h : Log α) : ∃ h', it.deref U m k h = .ok (x, h') := by
  have := C74_pure_element U F hU m it k h
  rw [hx] at this
  cases hd : it.deref U m k h with
  | error e => rw [hd] at this; cases this
  | ok r => rw [hd] at this; cases this; exact ⟨r.2, rfl⟩

/-- **C74** (functions without state, one-pass reductions). -/
theorem C74_pure_one_pass (U : Users α) (F : Nat → List α → α) (hU : Stateless U F) (m : Mem α) (it : CIt) (op : β → α → β) :
    ∀ (n k : Nat) (xs : List α) (s : β) (h : Log α), (List.range' k n).mapM (fun k => (withFunctions F it).deref m k) = .ok xs →
    ∃ h', foldC U m it op n k s h = .ok (xs.foldl op s, h')
  | 0, k, xs, s, h, hx => by cases hx; exact ⟨h, rfl⟩
  | n + 1, k, xs, s, h, hx => by
    rw [List.range'_succ, List.mapM_cons, res_bind_ok] at hx
    obtain ⟨x, h1, hx⟩ := hx
    rw [res_bind_ok] at hx
    obtain ⟨ys, h2, e⟩ := hx
    cases e
    obtain ⟨g, hg⟩ := pure_next U F hU m it k x h1 h
    unfold foldC
    rw [hg, res_ok_bind]
    exact C74_pure_one_pass U F hU m it op n (k + 1) ys _ g h2

/-- **C74** (functions without state, `all`, `any`, `none`). -/
theorem C74_pure_until (U : Users α) (F : Nat → List α → α) (hU : Stateless U F) (m : Mem α) (it : CIt) (stop : α → Bool) :
    ∀ (n k : Nat) (xs : List α) (h : Log α), (List.range' k n).mapM (fun k => (withFunctions F it).deref m k) = .ok xs →
    ∃ h', untilC U m it stop n k h = .ok (xs.any stop, h')
  | 0, k, xs, h, hx => by cases hx; exact ⟨h, rfl⟩
  | n + 1, k, xs, h, hx => by
    rw [List.range'_succ, List.mapM_cons, res_bind_ok] at hx
    obtain ⟨x, h1, hx⟩ := hx
    rw [res_bind_ok] at hx
    obtain ⟨ys, h2, e⟩ := hx
    cases e
    obtain ⟨g, hg⟩ := pure_next U F hU m it k x h1 h
    unfold untilC
    rw [hg, res_ok_bind]
    by_cases hs : stop x = true
    · rw [if_pos hs]
      exact ⟨g, by simp [hs]⟩
    · rw [if_neg hs]
      obtain ⟨g', hg'⟩ := C74_pure_until U F hU m it stop n (k + 1) ys g h2
      exact ⟨g', by rw [hg']; simp [hs]⟩

theorem copyLoopC_total (U : Users α) (F : Nat → List α → α) (m : Mem α) (it : CIt) : ∀ (n k : Nat) (xs : List α) (h : Log α),
    (List.range' k n).mapM (fun k => (withFunctions F it).deref m k) = .ok xs → ∃ r, copyLoopC U m it n k h = .ok r
  | 0, k, xs, h, hx => ⟨_, rfl⟩
  | n + 1, k, xs, h, hx => by
    rw [List.range'_succ, List.mapM_cons, res_bind_ok] at hx
    obtain ⟨x, h1, hx⟩ := hx
    rw [res_bind_ok] at hx
    obtain ⟨ys, h2, -⟩ := hx
    obtain ⟨q, hq⟩ := deref_total U m F it k h x h1
    obtain ⟨r, hr⟩ := copyLoopC_total U F m it n (k + 1) ys q.2 h2
    unfold copyLoopC
    rw [hq, res_ok_bind, hr]
    exact ⟨_, rfl⟩

/-- **C74** (functions with state cannot make it fail). If an array can be made from the expression with some functions, it can be made with any others,
whatever their state and whatever was called before. -/
theorem C74_total (A : Arith) (U : Users α) (F : Nat → List α → α) (src : CObj) (m : Mem α) (fresh : Nat) (h : Log α) (r : Mem α × Arr)
    (hr : newArray A ⟨src.dims, withFunctions F src.it⟩ m fresh = .ok r) : ∃ r', newArrayC A U src m fresh h = .ok r' := by
  unfold newArray at hr
  simp only [List.range_eq_range', res_bind_ok] at hr
  obtain ⟨xs, hx, -⟩ := hr
  obtain ⟨q, hq⟩ := copyLoopC_total U F m src.it _ 0 xs h hx
  unfold newArrayC
  rw [hq, res_ok_bind]
  exact ⟨_, rfl⟩

/-! ### Creating an expression; the arguments of `apply` -/

/-- **C74** (creating an expression). The expression over user functions is the one over the same functions without state: same extents, same elements to be
computed. No function is called: no log is involved. -/
theorem C74_build (A : Arith) (chk : Bool) (F : Nat → List α → α) : ∀ (e : CEx Obj),
    (e.build A chk).map (fun o => (⟨o.dims, withFunctions F o.it⟩ : EObj α)) = (withFunctionsE F e).build A chk
  | .leaf o => by
    unfold CEx.build
    simp only [withFunctionsE, Ex.build]
    cases o.dims with
    | none => rfl
    | some d =>
      simp only
      cases o.positions A <;> rfl
  | .un f e => by
    unfold CEx.build
    simp only [withFunctionsE, Ex.build]
    rw [← C74_build A chk F e]
    cases e.build A chk <;> rfl
  | .bin f a b => by
    unfold CEx.build
    simp only [withFunctionsE, Ex.build]
    rw [← C74_build A chk F a, ← C74_build A chk F b]
    cases a.build A chk with
    | error e => rfl
    | ok x =>
      cases b.build A chk with
      | error e => rfl
      | ok y =>
        simp only [Except.map, res_ok_bind]
        by_cases hl : x.dims.length ≠ y.dims.length
        · rw [if_pos hl, if_pos hl]
        · rw [if_neg hl, if_neg hl]
          cases dbg chk (x.dims == y.dims) <;> rfl

theorem Rounds_args {U : Users α} {m : Mem α} {f : Nat} {ps : List Nat} {k : Nat} {h : Log α} {xs : List α} {cs : List (Log α)}
    (hr : Rounds U m (.map f (.cells ps)) k h xs cs) :
    ∀ j < xs.length, ∃ p x, ps[k + j]? = some p ∧ m p = some x ∧ cs[j]? = some [⟨f, [x]⟩] ∧
      xs[j]? = some (U.resp (h ++ (cs.take j).flatten) ⟨f, [x]⟩) := by
  generalize hit : CIt.map f (CIt.cells ps) = it at hr
  induction hr with
  | nil => intro j hj; simp at hj
  | @cons k h x c xs cs h1 h2 ih =>
    intro j hj
    cases j with
    | zero =>
      subst hit
      cases h1 with
      | map h1 =>
        cases h1 with
        | cells a b => exact ⟨_, _, by simpa using a, b, rfl, by simp⟩
    | succ j =>
      obtain ⟨p, y, a, b, c', d⟩ := ih j (by simpa using hj)
      exact ⟨p, y, by rw [← a]; congr 1; omega, b, by simpa using c', by simpa using d⟩

/-- **C74** (`array y = apply(x, f)`). `f` is called once for each element of `x`, with exactly these elements, in order; element `j` of the result is what the
`j`-th call returned. -/
theorem C74_apply (A : Arith) (U : Users α) (d : List Nat) (f : Nat) (ps : List Nat) (m m' : Mem α) (fresh : Nat) (a : Arr) (h h' : Log α)
    (hc : newArrayC A U ⟨d, .map f (.cells ps)⟩ m fresh h = .ok ((m', a), h')) :
    ∃ calls : Log α, h' = h ++ calls ∧ calls.length = prodL A d ∧ a = ⟨fresh, d⟩ ∧
      ∀ j < prodL A d, ∃ p x, ps[j]? = some p ∧ m p = some x ∧ calls[j]? = some ⟨f, [x]⟩ ∧
        m' (fresh + j) = some (U.resp (h ++ calls.take j) ⟨f, [x]⟩) := by
  obtain ⟨xs, cs, h1, h2, h3, h4, h5, -⟩ := C74_construct A U _ m m' fresh a h h' hc
  have key := Rounds_args h1
  have hl : cs.length = xs.length := Rounds_length h1
  have hone : ∀ j (c : Log α), cs[j]? = some c → ∃ x, c = [⟨f, [x]⟩] := fun j c hj => by
    have hlt : j < cs.length := (List.getElem?_eq_some_iff.1 hj).1
    obtain ⟨p, x, -, -, e, -⟩ := key j (by omega)
    exact ⟨x, by rw [hj] at e; exact Option.some.inj e⟩
  have hflat : ∀ (cs : List (Log α)), (∀ (j : Nat) (c : Log α), cs[j]? = some c → ∃ x, c = [⟨f, [x]⟩]) →
      cs.flatten.length = cs.length ∧ (∀ j : Nat, (cs.take j).flatten = cs.flatten.take j) ∧
      (∀ (j : Nat) x, cs[j]? = some [⟨f, [x]⟩] → cs.flatten[j]? = some ⟨f, [x]⟩) := by
    intro cs
    induction cs with
    | nil => intro _; simp
    | cons c cs ih =>
      intro hc
      obtain ⟨x, rfl⟩ := hc 0 c rfl
      obtain ⟨i1, i2, i3⟩ := ih (fun j c' hj => hc (j + 1) c' (by simpa using hj))
      refine ⟨by simp [i1], fun j => ?_, fun j y hj => ?_⟩
      · cases j with
        | zero => simp
        | succ j => simp [i2]
      · cases j with
        | zero => simp at hj; simp [hj]
        | succ j => simpa using i3 j y (by simpa using hj)
  obtain ⟨f1, f2, f3⟩ := hflat cs hone
  simp only at h3
  refine ⟨cs.flatten, h2, by rw [f1, hl, h3], h5, fun j hj => ?_⟩
  obtain ⟨p, x, a1, a2, a3, a4⟩ := key j (by omega)
  refine ⟨p, x, by simpa using a1, a2, f3 j x a3, ?_⟩
  rw [h4, ← f2, ← a4]
  unfold Mem.setMany
  have : fresh ≤ fresh + j ∧ fresh + j < fresh + xs.length := by omega
  simp [this]

/-! ### Concrete cases and counterexamples -/

/-- A counting: function 0 returns how often anything was called so far, plus ten times its arguments; the right operand is evaluated first. -/
def counting : Users Int where
  resp h c := h.length + 10 * c.args.sum
  leftFirst _ := false

/-- Three cells with 1, 2, 3. -/
def threeC : Mem Int := fun p => if p < 3 then some (p + 1 : Nat) else none

/-- A function that alternates between 5 and -7, whatever its argument. -/
def alternating : Users Int where
  resp h _ := if h.length % 2 = 0 then 5 else -7
  leftFirst _ := true

-- `array y = apply(x, counting)`: three calls with 1, 2, 3; the results are 10, 21, 32.
example : newArrayC .exact counting ⟨[3], .map 0 (.cells [0, 1, 2])⟩ threeC 10 [] =
    .ok ((threeC.setMany 10 [10, 21, 32], ⟨10, [3]⟩), [⟨0, [1]⟩, ⟨0, [2]⟩, ⟨0, [3]⟩]) := rfl

-- A binary expression with two functions: `apply(apply(x, f0), apply(x, f1), f2)`, one element: the right operand's function first.
example : (CIt.zip 2 (.map 0 (.cells [0])) (.map 1 (.cells [0]))).deref counting threeC 0 [] =
    .ok (10 * 21 + 2, [⟨1, [1]⟩, ⟨0, [1]⟩, ⟨2, [11, 10]⟩]) := rfl

-- Assignment with elements that the assignment itself changes: `x[1..2] = apply(x[0..1], f)`, with 1, 2, 3 in `x`.
example : ∃ m', arrayAssignC .exact true counting (.cref 1 [2]) ⟨[2], .map 0 (.cells [0, 1])⟩ threeC [] = .ok (m', [⟨0, [1]⟩, ⟨0, [10]⟩]) ∧
    m' 1 = some 10 ∧ m' 2 = some 101 := ⟨_, rfl, rfl, rfl⟩

-- In place: one call per element, with its value.
example : ∃ m', applyInPlaceC .exact counting (.cref 0 [3]) 0 threeC [] = .ok (m', [⟨0, [1]⟩, ⟨0, [2]⟩, ⟨0, [3]⟩]) ∧ m' 2 = some 32 :=
  ⟨_, rfl, rfl⟩

-- In place with an expression: the expression's function, then the operation.
example : ∃ m', inPlaceExprC .exact true counting (.cref 0 [2]) 1 ⟨[2], .map 0 (.cells [1, 2])⟩ threeC [] =
    .ok (m', [⟨0, [2]⟩, ⟨1, [1, 20]⟩, ⟨0, [3]⟩, ⟨1, [2, 32]⟩]) ∧ m' 0 = some 211 := ⟨_, rfl, rfl⟩

-- `any` stops at the first element that decides.
example : untilC counting threeC (.map 0 (.cells [0, 1, 2])) (fun x => x > 15) 3 0 [] = .ok (true, [⟨0, [1]⟩, ⟨0, [2]⟩]) := rfl

-- Functions without state exist, and satisfy the hypothesis of the `C74_pure` theorems.
example : Stateless (α := Int) ⟨fun _ c => c.args.sum, fun h => h.length % 2 = 0⟩ (fun _ l => l.sum) := fun _ _ => rfl

-- With `alternating`, `max` over one element returns less than the starting value.
example : maxC alternating threeC (.map 0 (.cells [0])) (fun a b => decide (a < b)) 1 0 0 0 [] = .ok ((-7, 0), [⟨0, [1]⟩, ⟨0, [1]⟩]) := rfl

/-- **C74**, counterexample (`max`). A function may be called twice for one element, and with a function with state the result of `max` can be smaller than its
starting value. -/
theorem C74_max_twice : ∃ (U : Users Int) (m : Mem Int) (it : CIt) (v : Int) (p : Nat) (h : Log Int),
    maxC U m it (fun a b => decide (a < b)) 1 0 0 0 [] = .ok ((v, p), h) ∧ v < 0 ∧ callsOf 0 h = 2 ∧ (functionsOf it).count 0 = 1 :=
  ⟨alternating, threeC, .map 0 (.cells [0]), -7, 0, _, rfl, by decide, by decide, by decide⟩

/-- **C74**, counterexample (`var`). The deviations are not those from the mean of the same values: with one element the sum of squared deviations is not zero. -/
theorem C74_var_twice : ∃ (U : Users Int) (m : Mem Int) (it : CIt) (mu dev : Int) (h : Log Int),
    varC U m it 1 0 (· + ·) (fun s => s / 1) (fun mu r x => r + (x - mu) * (x - mu)) [] = .ok ((mu, dev), h) ∧ dev = 144 ∧ callsOf 0 h = 2 :=
  ⟨alternating, threeC, .map 0 (.cells [0]), 5, 144, _, rfl, rfl, by decide⟩

-- The hypotheses of the theorems above: they hold for these functions with state, and (`pure`) for one without.
theorem round_ex : Round counting threeC (.map 0 (.cells [0, 1, 2])) 1 [⟨0, [1]⟩] 21 [⟨0, [2]⟩] :=
  Round.map (U := counting) (m := threeC) (f := 0) (h := [⟨0, [1]⟩]) (Round.cells (p := 1) (x := 2) rfl rfl)
/-- A function without state, whose calls may be evaluated in either order. -/
def summing : Users Int := ⟨fun _ c => c.args.sum, fun h => h.length % 2 = 0⟩
theorem summing_stateless : Stateless summing (fun _ l => l.sum) := fun _ _ => rfl

example := C74_once _ _ _ _ _ _ _ round_ex
example := C74_value _ _ _ _ _ _ _ round_ex
example := C74_construct .exact counting ⟨[3], .map 0 (.cells [0, 1, 2])⟩ threeC _ 10 _ [] _ rfl
example := C74_assign_view .exact true counting (.cref 1 [2]) ⟨[2], .map 0 (.cells [0, 1])⟩ threeC _ [] _ rfl
example := C74_assign_array .exact counting ⟨0, [3]⟩ _ ⟨[2], .map 0 (.cells [0, 1])⟩ threeC _ 10 [] _ rfl
example := C74_overlap .exact true counting (.cref 1 [2]) ⟨[2], .map 0 (.cells [0, 1])⟩ threeC _ 10 [] _ rfl
example := C74_in_place .exact counting (.cref 0 [3]) 0 threeC _ [] _ [0, 1, 2] rfl (by decide) rfl
example := C74_in_place_expr .exact true counting (.cref 0 [2]) 1 ⟨[2], .map 0 (.cells [1, 2])⟩ threeC _ [] _ rfl
example := C74_one_pass counting threeC (.map 0 (.cells [0, 1, 2])) (· + ·) 3 0 0 [] _ rfl
example := C74_until counting threeC (.map 0 (.cells [0, 1, 2])) (fun x => x > 15) 3 0 [] _ rfl
example := C74_max_partial alternating threeC (.map 0 (.cells [0, 1, 2])) (fun a b => decide (a < b)) 3 0 0 0 [] _ rfl
example := C74_var_partial counting threeC (.map 0 (.cells [0, 1, 2])) 3 0 (· + ·) (fun s => s / 3) (fun m s x => s + (x - m) * (x - m)) [] _ rfl
example := C74_pure_element summing _ summing_stateless threeC (.zip 2 (.cells [0]) (.cells [1])) 0 []
example := C74_pure_new .exact summing _ summing_stateless ⟨[3], .map 0 (.cells [0, 1, 2])⟩ threeC 10 []
example := C74_pure_assign_view .exact true summing _ summing_stateless (.cref 1 [2]) ⟨[2], .map 0 (.cells [0, 1])⟩ threeC []
example := C74_pure_assign_array .exact summing _ summing_stateless ⟨0, [3]⟩ ⟨[2], .map 0 (.cells [0, 1])⟩ threeC 10 []
example := C74_pure_max summing _ summing_stateless threeC (.map 0 (.cells [0, 1, 2])) (fun a b => decide (a < b)) 3 0 [1, 2, 3] 0 0 [] (by decide)
example := C74_pure_one_pass summing _ summing_stateless threeC (.map 0 (.cells [0, 1, 2])) (· + ·) 3 0 [1, 2, 3] (0 : Int) [] (by decide)
example := C74_pure_until summing _ summing_stateless threeC (.map 0 (.cells [0, 1, 2])) (fun x => x > 1) 3 0 [1, 2, 3] [] (by decide)
example := C74_total .exact counting (fun _ l => l.sum) ⟨[3], .map 0 (.cells [0, 1, 2])⟩ threeC 10 [] _ rfl

end Jules.Props

import Verif.Spec.ExprDrop
import Verif.Props.Assign
import Verif.Lemmas.Stored
import Verif.Props.Reshape
/-
C59: dropping dimensions of lazy expressions.
-/
namespace Jules.Props
open Spec

theorem withoutOnes_dropOnes : ∀ {k : Nat} {l l' : List Nat}, WithoutOnes k l l' → dropOnes k l = l' ∧ k ≤ l.count 1
  | 0, l, _, .none => by
    refine ⟨?_, Nat.zero_le _⟩
    induction l with
    | nil => rfl
    | cons x l ih => simp [dropOnes, ih]
  | k + 1, _, _, .one h => by
    obtain ⟨h1, h2⟩ := withoutOnes_dropOnes h
    exact ⟨by simp [dropOnes, h1], by simp; exact h2⟩
  | k + 1, _, _, .other hx h => by
    obtain ⟨h1, h2⟩ := withoutOnes_dropOnes h
    exact ⟨by simp [dropOnes, hx, h1], by simp [hx]; exact h2⟩

/-- The iterator of an expression, given what it means: while nothing was dropped from computed values it gives those values (elements
themselves for `Passes`); otherwise a use is undefined. -/
structure Gives (m : Mem α) (e : DEx α) (it : DIt α) (xs : List α) : Prop where
  values : ¬ DropsValues e → ∀ (k : Nat) (x : α), xs[k]? = some x → ∃ v, it.deref m k = .ok v ∧ v.get m = .ok x ∧
    (Passes e → ∃ p, v = .cell p)
  broken : DropsValues e → ∀ k, k < xs.length → (it.deref m k = .error .ub ∨ it.deref m k = .ok .dead)
  category : ¬ DropsValues e → ¬ Passes e → ∀ (k : Nat) (x : α), xs[k]? = some x → it.deref m k = .ok (.tmp x)

theorem dead_use {m : Mem α} {it : DIt α} {k : Nat} (h : it.deref m k = .error .ub ∨ it.deref m k = .ok .dead) :
    (it.deref m k >>= fun v => v.get m) = .error .ub := by
  rcases h with h | h <;> rw [h] <;> rfl

theorem enum_read {v : AView} {m : Mem α} {xs : List α} (h : v.enum.map m = xs.map some) {k : Nat} {x : α} (hx : xs[k]? = some x) :
    ∃ p, v.enum[k]? = some p ∧ m p = some x := by
  have := congrArg (fun l => l[k]?) h
  simp only [List.getElem?_map, hx, Option.map_some, Option.map_eq_some_iff] at this
  exact this

theorem forward_gives {m : Mem α} {e : DEx α} {it : DIt α} {xs : List α} (h : Gives m e it xs) :
    (¬ (¬ Passes e ∨ DropsValues e) → ∀ (k : Nat) (x : α), xs[k]? = some x → ∃ v, (DIt.fwd it).deref m k = .ok v ∧ v.get m = .ok x ∧
      (Passes e → ∃ p, v = .cell p)) ∧
    ((¬ Passes e ∨ DropsValues e) → ∀ k, k < xs.length → ((DIt.fwd it).deref m k = .error .ub ∨ (DIt.fwd it).deref m k = .ok .dead)) := by
  constructor
  · intro hn k x hx
    simp only [not_or, not_not] at hn
    obtain ⟨v, h1, h2, h3⟩ := h.values hn.2 k x hx
    obtain ⟨p, rfl⟩ := h3 hn.1
    exact ⟨.cell p, by simp [DIt.deref, h1, EVal.forward], h2, fun _ => ⟨p, rfl⟩⟩
  · intro hn k hk
    by_cases hd : DropsValues e
    · rcases h.broken hd k hk with h | h
      · exact .inl (by simp [DIt.deref, h])
      · exact .inr (by simp [DIt.deref, h, EVal.forward])
    · have hp : ¬ Passes e := hn.resolve_right hd
      exact .inr (by simp [DIt.deref, h.category hd hp k _ (List.getElem?_eq_getElem hk), EVal.forward])

theorem drop_build {m : Mem α} {chk : Bool} : ∀ {e : DEx α} {d : List Nat} {xs : List α}, Elems m e d xs →
    d ≠ [] ∧ xs.length = prod d ∧ ∃ it, e.build Arith.exact chk = .ok ⟨d, it⟩ ∧ Gives m e it xs
  | _, _, xs, .leaf (o := o) (v := v) ho hne hx => by
    refine ⟨hne, ?_, .cells v.enum, by simp [DEx.build, observes_dims ho hne, ho.iterate], ?_, ?_, ?_⟩
    · have := congrArg List.length hx
      simpa [enum_length] using this.symm
    · intro _ k x hk
      obtain ⟨p, h1, h2⟩ := enum_read hx hk
      exact ⟨.cell p, by simp [DIt.deref, h1], by simp [EVal.get, read_toRes, h2, toRes], fun _ => ⟨p, rfl⟩⟩
    · exact fun h => h.elim
    · exact fun _ h => (h trivial).elim
  | _, _, _, .un (e := e) (f := f) (xs := xs) h => by
    obtain ⟨h0, h1, it, h2, h3⟩ := drop_build (chk := chk) h
    have hval : ¬ DropsValues e → ∀ (k : Nat) (x : α), (List.map f xs)[k]? = some x → (DIt.map f it).deref m k = .ok (.tmp x) := by
      intro hn k x hx
      simp only [List.getElem?_map, Option.map_eq_some_iff] at hx
      obtain ⟨y, hy, rfl⟩ := hx
      obtain ⟨v, g1, g2, _⟩ := h3.values hn k y hy
      simp [DIt.deref, g1, g2]
    refine ⟨h0, by simpa using h1, .map f it, by simp [DEx.build, h2], ?_, ?_, fun hn _ => hval hn⟩
    · intro hn k x hx
      exact ⟨_, hval hn k x hx, rfl, fun h => h.elim⟩
    · intro hd k hk
      rcases h3.broken hd k (by simpa using hk) with h | h
      · exact .inl (by simp [DIt.deref, h])
      · exact .inl (by simp [DIt.deref, h, EVal.get])
  | _, _, _, .bin (a := a) (b := b) (xs := xs) (ys := ys) (f := f) ha hb => by
    obtain ⟨a0, a1, it, a2, a3⟩ := drop_build (chk := chk) ha
    obtain ⟨b0, b1, it', b2, b3⟩ := drop_build (chk := chk) hb
    have hval : ¬ (DropsValues a ∨ DropsValues b) → ∀ (k : Nat) (x : α), (List.zipWith f xs ys)[k]? = some x →
        (DIt.zip f it it').deref m k = .ok (.tmp x) := by
      intro hn k x hx
      simp only [not_or] at hn
      rw [List.getElem?_zipWith_eq_some] at hx
      obtain ⟨y, z, hy, hz, rfl⟩ := hx
      obtain ⟨v, g1, g2, _⟩ := a3.values hn.1 k y hy
      obtain ⟨w, k1, k2, _⟩ := b3.values hn.2 k z hz
      simp [DIt.deref, g1, g2, k1, k2]
    refine ⟨a0, by simp [a1, b1], .zip f it it', by simp [DEx.build, a2, b2], ?_, ?_, fun hn _ => hval hn⟩
    · intro hn k x hx
      exact ⟨_, hval hn k x hx, rfl, fun h => h.elim⟩
    · intro hd k hk
      have hka : k < xs.length := by simp at hk; omega
      have hkb : k < ys.length := by simp at hk; omega
      have hub : (DIt.zip f it it').deref m k = .error .ub := by
        by_cases h : DropsValues a
        · rcases a3.broken h k hka with h | h
          · simp [DIt.deref, h]
          · by_cases h' : DropsValues b
            · rcases b3.broken h' k hkb with h' | h' <;> simp [DIt.deref, h, h', EVal.get]
            · obtain ⟨w, k1, k2, _⟩ := b3.values h' k _ (List.getElem?_eq_getElem hkb)
              simp [DIt.deref, h, k1, EVal.get]
        · obtain ⟨v, g1, g2, _⟩ := a3.values h k _ (List.getElem?_eq_getElem hka)
          rcases b3.broken (hd.resolve_left h) k hkb with h' | h' <;> simp only [DIt.deref, g1, g2, h', res_ok_bind] <;> rfl
      exact .inl hub
  | _, _, _, .same h => by
    obtain ⟨h0, h1, it, h2, h3⟩ := drop_build (chk := chk) h
    obtain ⟨g1, g2⟩ := forward_gives h3
    exact ⟨h0, h1, .fwd it, by simp [DEx.build, h2], g1, g2, fun hn hp => (hn (.inl hp)).elim⟩
  | _, _, _, .drop (e := e) (d := d) (D := D) hl h hD hle hw => by
    obtain ⟨h0, h1, it, h2, h3⟩ := drop_build (chk := chk) h
    obtain ⟨g1, g2⟩ := forward_gives h3
    obtain ⟨w1, w2⟩ := withoutOnes_dropOnes hw
    have hlen := dropOnes_length (d.length - D) d
    have hlen' : (dropOnes (d.length - D) d).length = D := by omega
    have hdrop : dropExtents chk D d = .ok (dropOnes (d.length - D) d) := by
      simp [dropExtents, Nat.not_lt.2 hle, countOnes_eq, w2, hlen']
    have hb : (DEx.drop D e).build Arith.exact chk = .ok ⟨dropOnes (d.length - D) d, .fwd it⟩ := by
      cases e with
      | leaf o => exact (hl o rfl).elim
      | un => simp only [DEx.build, hdrop] at h2 ⊢; rw [h2]; simp [hdrop]
      | bin => simp only [DEx.build, hdrop] at h2 ⊢; rw [h2]; simp [hdrop]
      | same => simp only [DEx.build, hdrop] at h2 ⊢; rw [h2]; simp [hdrop]
      | drop D' e' => rw [DEx.build.eq_6 _ _ _ _ (by simp), h2]; simp [hdrop]
    subst w1
    refine ⟨?_, by rw [dropOnes_prod, h1], .fwd it, hb, g1, g2, fun hn hp => (hn (.inl hp)).elim⟩
    intro h; rw [h] at hlen'; simp at hlen'; omega

theorem mapM_first_ub {f : Nat → Res α} {n : Nat} (hn : n ≠ 0) (h : f 0 = .error .ub) : (List.range n).mapM f = .error .ub := by
  obtain ⟨n, rfl⟩ : ∃ k, n = k + 1 := ⟨n - 1, by omega⟩
  simp [List.range_succ_eq_map, List.mapM_cons, h]

/-- **C59 (partial: nothing computed is dropped).** An array constructed from an expression, with `drop`, `drop_to` and `identity` applied only to
expressions that pass elements of arrays through, has the extents and elements the expression means. -/
theorem C59_drop_partial {m : Mem α} {e : DEx α} {d : List Nat} {xs : List α} (h : Elems m e d xs) (hp : ¬ DropsValues e) (chk : Bool)
    (fresh : Nat) : (e.build Arith.exact chk >>= fun src => newFromDrop Arith.exact src m fresh) =
      .ok (m.setMany fresh xs, ⟨fresh, d⟩) := by
  obtain ⟨_, h1, it, h2, h3⟩ := drop_build (chk := chk) h
  have : (List.range (prod d)).mapM (fun k => it.deref m k >>= fun v => v.get m) = .ok xs := by
    apply mapM_ok_of (by simp [h1])
    intro k a x hk hx
    have hka : a = k := by
      have := (List.getElem?_eq_some_iff.1 hk).2
      simpa using this.symm
    subst hka
    obtain ⟨v, g1, g2, _⟩ := h3.values hp a x hx
    simp [g1, g2]
  rw [h2, res_ok_bind]
  simp only [newFromDrop, prodL_exact, this, res_ok_bind]

/-- **C59 is false.** Dropping dimensions of an expression with computed values is accepted, but constructing an array from it, or from an
expression it is part of, is undefined behaviour (unless there are no elements). -/
theorem C59_dangling {m : Mem α} {e : DEx α} {d : List Nat} {xs : List α} (h : Elems m e d xs) (hp : DropsValues e) (hx : xs ≠ [])
    (chk : Bool) : ∃ src, e.build Arith.exact chk = .ok src ∧ src.dims = d ∧ ∀ fresh, newFromDrop Arith.exact src m fresh = .error .ub := by
  obtain ⟨_, h1, it, h2, h3⟩ := drop_build (chk := chk) h
  refine ⟨_, h2, rfl, fun fresh => ?_⟩
  have hl : 0 < xs.length := List.length_pos_iff.2 hx
  have := mapM_first_ub (n := prod d) (f := fun k => it.deref m k >>= fun v => v.get m) (by omega) (dead_use (h3.broken hp 0 hl))
  simp only [newFromDrop, prodL_exact, this]
  rfl

/-- **C59, the common case**: `drop` of any operator expression of the array or view operands. -/
theorem C59_drop_operator {m : Mem α} {e : DEx α} {d : List Nat} {xs : List α} (h : Elems m e d xs) (hc : ¬ Passes e) {D : Nat} (hD : 0 < D)
    (hle : D ≤ d.length) (hones : d.length - D ≤ d.count 1) (hx : xs ≠ []) (chk : Bool) :
    ∃ src, (DEx.drop D e).build Arith.exact chk = .ok src ∧ ∀ fresh, newFromDrop Arith.exact src m fresh = .error .ub := by
  have hw : ∀ (k : Nat) (l : List Nat), k ≤ l.count 1 → WithoutOnes k l (dropOnes k l) := by
    intro k l
    induction l generalizing k with
    | nil =>
      intro hk
      obtain rfl : k = 0 := by simpa using hk
      exact .none
    | cons x l ih =>
      intro hk
      cases k with
      | zero =>
        rw [(withoutOnes_dropOnes (k := 0) (l := x :: l) .none).1]
        exact .none
      | succ k =>
        by_cases hx : x = 1
        · subst hx
          simp only [List.count_cons_self] at hk
          have := WithoutOnes.one (ih k (by omega))
          simpa [dropOnes] using this
        · have hk' : k + 1 ≤ l.count 1 := by simpa [hx] using hk
          have := WithoutOnes.other hx (ih (k + 1) hk')
          simpa [dropOnes, hx] using this
  have hl : ∀ o, e ≠ .leaf o := by
    rintro o rfl
    exact hc trivial
  obtain ⟨src, h1, _, h2⟩ := C59_dangling (.drop hl h hD hle (hw _ _ hones)) (.inl hc) hx chk
  exact ⟨src, h1, h2⟩

/-- An expression without `drop` and `identity` behaves as in the model used by the other properties (Model/Memory.lean). -/
def plainD : Ex Obj α → DEx α
  | .leaf o => .leaf o
  | .un f e => .un f (plainD e)
  | .bin f a b => .bin f (plainD a) (plainD b)

theorem get_ub {m : Mem α} {v : EVal α} {r : Fail} (h : v.get m = .error r) : r = .ub := by
  cases v with
  | cell p =>
    rcases read_ub m p with h' | ⟨x, h'⟩ <;> simp only [EVal.get, h'] at h <;> cases h
    rfl
  | tmp x => cases h
  | dead => cases h; rfl

theorem dit_ub {m : Mem α} {k : Nat} {r : Fail} : ∀ {it : DIt α}, it.deref m k = .error r → r = .ub
  | .cells ps, h => by
    simp only [DIt.deref] at h
    split at h <;> cases h
    rfl
  | .map f it, h => by
    simp only [DIt.deref] at h
    cases h1 : it.deref m k with
    | error e => rw [h1] at h; cases h; exact dit_ub h1
    | ok v =>
      rw [h1, res_ok_bind] at h
      cases h2 : v.get m with
      | error e => rw [h2] at h; cases h; exact get_ub h2
      | ok x => rw [h2] at h; cases h
  | .zip f l r, h => by
    simp only [DIt.deref] at h
    cases h1 : l.deref m k with
    | error e => rw [h1] at h; cases h; exact dit_ub h1
    | ok v =>
      rw [h1, res_ok_bind] at h
      cases h2 : r.deref m k with
      | error e => rw [h2] at h; cases h; exact dit_ub h2
      | ok w =>
        rw [h2, res_ok_bind] at h
        cases h3 : v.get m with
        | error e => rw [h3] at h; cases h; exact get_ub h3
        | ok x =>
          rw [h3, res_ok_bind] at h
          cases h4 : w.get m with
          | error e => rw [h4] at h; cases h; exact get_ub h4
          | ok x => rw [h4] at h; cases h
  | .fwd it, h => by
    simp only [DIt.deref] at h
    cases h1 : it.deref m k with
    | error e => rw [h1] at h; cases h; exact dit_ub h1
    | ok v => rw [h1] at h; cases h

theorem plainD_build {A : Arith} {chk : Bool} : ∀ (e : Ex Obj α), (∀ r, (plainD e).build A chk = .error r ↔ e.build A chk = .error r) ∧
    ∀ x, e.build A chk = .ok x → ∃ y, (plainD e).build A chk = .ok y ∧ y.dims = x.dims ∧
      ∀ (m : Mem α) k, (y.it.deref m k >>= fun v => v.get m) = x.it.deref m k
  | .leaf o => by
    constructor
    · intro r
      simp only [plainD, DEx.build, Ex.build]
      cases o.dims with
      | none => simp
      | some d => cases o.positions A <;> simp
    · intro x hx
      simp only [Ex.build] at hx
      cases hd : o.dims with
      | none => simp [hd] at hx
      | some d =>
        simp only [hd] at hx
        obtain ⟨ps, h1, h2⟩ := res_bind_ok.1 hx
        cases h2
        refine ⟨⟨d, .cells ps⟩, by simp [plainD, DEx.build, hd, h1], rfl, fun m k => ?_⟩
        simp only [DIt.deref, It.deref]
        cases ps[k]? <;> rfl
  | .un f e => by
    obtain ⟨ih1, ih2⟩ := plainD_build (A := A) (chk := chk) e
    cases he : e.build A chk with
    | error r0 =>
      have := (ih1 r0).2 he
      exact ⟨fun r => by simp [plainD, DEx.build, Ex.build, this, he], fun x hx => by simp [Ex.build, he] at hx⟩
    | ok x =>
      obtain ⟨y, h1, h2, h3⟩ := ih2 x he
      refine ⟨fun r => by simp [plainD, DEx.build, Ex.build, h1, he], fun z hz => ?_⟩
      simp only [Ex.build, he, res_ok_bind, Except.ok.injEq] at hz
      subst hz
      refine ⟨⟨y.dims, .map f y.it⟩, by simp [plainD, DEx.build, h1], h2, fun m k => ?_⟩
      simp only [DIt.deref, It.deref, ← h3 m k]
      cases y.it.deref m k with
      | error => rfl
      | ok v =>
        simp only [res_ok_bind]
        cases v.get m <;> rfl
  | .bin f a b => by
    obtain ⟨iha, iha'⟩ := plainD_build (A := A) (chk := chk) a
    obtain ⟨ihb, ihb'⟩ := plainD_build (A := A) (chk := chk) b
    cases ha : a.build A chk with
    | error r0 =>
      have := (iha r0).2 ha
      exact ⟨fun r => by simp [plainD, DEx.build, Ex.build, this, ha], fun x hx => by simp [Ex.build, ha] at hx⟩
    | ok x =>
      obtain ⟨y, h1, h2, h3⟩ := iha' x ha
      cases hb : b.build A chk with
      | error r0 =>
        have := (ihb r0).2 hb
        exact ⟨fun r => by simp [plainD, DEx.build, Ex.build, this, ha, hb, h1], fun x hx => by simp [Ex.build, ha, hb] at hx⟩
      | ok x' =>
        obtain ⟨y', g1, g2, g3⟩ := ihb' x' hb
        constructor
        · intro r
          simp only [plainD, DEx.build, Ex.build, ha, hb, h1, g1, res_ok_bind, h2, g2]
          split
          · simp
          · cases dbg chk (x.dims == x'.dims) <;> simp
        · intro z hz
          simp only [Ex.build, ha, hb, res_ok_bind] at hz
          split at hz
          · cases hz
          · next hlen =>
            obtain ⟨_, hd, hz⟩ := res_bind_ok.1 hz
            cases hz
            refine ⟨⟨y.dims, .zip f y.it y'.it⟩, by simp [plainD, DEx.build, h1, g1, h2, g2] at hlen ⊢; simp [hlen, hd], h2, fun m k => ?_⟩
            simp only [DIt.deref, It.deref, ← h3 m k, ← g3 m k]
            cases h : y.it.deref m k with
            | error e =>  rfl
            | ok v =>
              cases h' : y'.it.deref m k with
              | error e =>
                simp only [res_ok_bind]
                cases h2 : v.get m with
                | error e' => rw [get_ub h2, dit_ub h']; rfl
                | ok => rfl
              | ok w =>
                simp only [res_ok_bind]
                cases v.get m with
                | error => rfl
                | ok x => cases w.get m <;> rfl

/-- **C59.** Dropping more dimensions than have extent one is reported in a checked build, and undefined without assertions. -/
theorem C59_too_few {m : Mem α} {e : DEx α} {d : List Nat} {xs : List α} (h : Elems m e d xs) (he : ∀ o, e ≠ .leaf o) {D : Nat} (hle : D ≤ d.length)
    (hones : d.count 1 < d.length - D) :
    (DEx.drop D e).build Arith.exact true = .error .assert ∧ (DEx.drop D e).build Arith.exact false = .error .ub := by
  have key : ∀ chk, (DEx.drop D e).build Arith.exact chk = (e.build Arith.exact chk >>= fun x => dropExtents chk D x.dims >>= fun d => .ok ⟨d, .fwd x.it⟩) := by
    intro chk
    cases e with
    | leaf o => exact (he o rfl).elim
    | _ => rfl
  have hl := dropOnes_length (d.length - D) d
  have hlt : ¬ d.length < D := by omega
  constructor
  · obtain ⟨_, h1, it, h2, h3⟩ := drop_build (chk := true) h
    have : ¬ d.length - D ≤ d.count 1 := by omega
    rw [key, h2]
    simp only [res_ok_bind, dropExtents, if_neg hlt, countOnes_eq, this, dbg, decide_false]
    rfl
  · obtain ⟨_, h1, it, h2, h3⟩ := drop_build (chk := false) h
    have : (dropOnes (d.length - D) d).length ≠ D := by rw [hl]; omega
    rw [key, h2]
    simp [dropExtents, hlt, this, dbg]

/-- **C59.** Without `drop` and `identity` the model is the one of the other properties (C20). -/
theorem C59_without_drop (A : Arith) (chk : Bool) (e : Ex Obj α) (m : Mem α) (fresh : Nat) :
    ((plainD e).build A chk >>= fun src => newFromDrop A src m fresh) = (e.build A chk >>= fun src => newArray A src m fresh) := by
  obtain ⟨h1, h2⟩ := plainD_build (A := A) (chk := chk) e
  cases he : e.build A chk with
  | error r => rw [(h1 r).2 he]; rfl
  | ok x =>
    obtain ⟨y, g1, g2, g3⟩ := h2 x he
    rw [g1]
    simp only [res_ok_bind, newFromDrop, newArray, g2, g3]

/-! Concrete cases: the row `a = (1, 2)` of extents `1 × 2` at 0. -/

theorem row_elems : Elems (fun p => [(1 : Int), 2][p]?) (.leaf (.cref 0 [1, 2])) [1, 2] [1, 2] :=
  .leaf (v := arrayView 0 [1, 2]) (array_observes 0 (by simp)) (by simp [arrayView]) (by decide)

example := C59_drop_partial (.drop (D := 1) (by simp) (.same row_elems) (by decide) (by decide) (.one .none))
  (by simp [DropsValues, Passes]) true 2
example := C59_drop_operator (.un (f := fun x => -x) row_elems) (by simp [Passes]) (D := 1) (by decide) (by decide) (by decide) (by simp) true

/-- `drop(-a)` against `drop(apply(a, identity))`. -/
example : ((DEx.drop 1 (.un (fun x : Int => -x) (.leaf (.cref 0 [1, 2])))).build Arith.exact true >>= fun src =>
      newFromDrop Arith.exact src (fun p => [(1 : Int), 2][p]?) 2).map (fun r => r.2) = .error .ub ∧
    ((DEx.drop 1 (.same (.leaf (.cref 0 [1, 2])))).build Arith.exact true >>= fun src =>
      newFromDrop Arith.exact src (fun p => [(1 : Int), 2][p]?) 2).map (fun r => ((List.range 5).map r.1, r.2)) =
      .ok ([some 1, some 2, some 1, some 2, none], ⟨2, [2]⟩) := by decide +kernel

example := C59_too_few (D := 0) (.un (f := fun x => -x) row_elems) (by simp) (by decide) (by decide)
example := C59_dangling (.drop (D := 1) (by simp) (.un (f := fun x => -x) row_elems) (by decide) (by decide) (.one .none)) (by simp [DropsValues, Passes]) (by decide) true

end Jules.Props

import Verif.Spec.Borrow
import Verif.Lemmas.Memory
/-
Lemmas for C57.
-/
namespace Jules
open Spec

theorem mapM_read (f : Nat → Option Nat) : ∀ (ks : List Nat),
    (∃ l, ks.mapM (fun k => toRes (f k)) = .ok l ∧
      l.length = ks.length ∧ ∀ (j k : Nat), ks[j]? = some k → f k = l[j]?) ∨
    (ks.mapM (fun k => toRes (f k)) = .error .ub ∧ ∃ k ∈ ks, f k = none)
  | [] => .inl ⟨[], rfl, rfl, by simp⟩
  | k :: ks => by
    rw [List.mapM_cons]
    cases hk : f k with
    | none => exact .inr ⟨rfl, k, by simp, hk⟩
    | some x =>
      rcases mapM_read f ks with ⟨l, h1, h2, h3⟩ | ⟨h1, k', hk', h2⟩
      · refine .inl ⟨x :: l, ?_, by simp [h2], ?_⟩
        · simp only [h1]; rfl
        · intro j k'' hj
          cases j with
          | zero => simp at hj; subst hj; simpa using hk
          | succ j => simpa using h3 j k'' (by simpa using hj)
      · refine .inr ⟨?_, k', by simp [hk'], h2⟩
        simp only [h1]; rfl

theorem readIdx_cases (μ : Mem Nat) (p n : Nat) :
    (∃ l, readIdx μ p n = .ok l ∧ Holds μ p n l) ∨ (readIdx μ p n = .error .ub ∧ Gone μ p n) := by
  have : readIdx μ p n = (List.range n).mapM (fun k => toRes (μ (p + k))) := by
    unfold readIdx
    congr 1
  rw [this]
  rcases mapM_read (fun k => μ (p + k)) (List.range n) with ⟨l, h1, h2, h3⟩ | ⟨h1, k, hk, h2⟩
  · refine .inl ⟨l, h1, by simpa using h2, fun k hk => h3 k k (by simp [hk])⟩
  · exact .inr ⟨h1, k, by simpa using hk, h2⟩

theorem holds_unique {μ : Mem Nat} {p n : Nat} {l l' : List Nat} (h : Holds μ p n l) (h' : Holds μ p n l') : l = l' := by
  apply List.ext_getElem?
  intro k
  by_cases hk : k < n
  · rw [← h.2 k hk, h'.2 k hk]
  · rw [List.getElem?_eq_none (by have := h.1; omega), List.getElem?_eq_none (by have := h'.1; omega)]

theorem not_gone_of_holds {μ : Mem Nat} {p n : Nat} {l : List Nat} (h : Holds μ p n l) : ¬ Gone μ p n := by
  rintro ⟨k, hk, hn⟩
  have := h.2 k hk
  rw [hn, eq_comm, List.getElem?_eq_none_iff] at this
  have := h.1
  omega

theorem readIdx_ok {μ : Mem Nat} {p n : Nat} {l : List Nat} (h : Holds μ p n l) : readIdx μ p n = .ok l := by
  rcases readIdx_cases μ p n with ⟨l', h1, h2⟩ | ⟨_, h2⟩
  · rw [h1, holds_unique h h2]
  · exact (not_gone_of_holds h h2).elim

theorem holds_of_readIdx {μ : Mem Nat} {p n : Nat} {l : List Nat} (h : readIdx μ p n = .ok l) : Holds μ p n l := by
  rcases readIdx_cases μ p n with ⟨l', h1, h2⟩ | ⟨h1, _⟩
  · rw [h] at h1; cases h1; exact h2
  · rw [h] at h1; cases h1

theorem readIdx_gone {μ : Mem Nat} {p n : Nat} (h : Gone μ p n) : readIdx μ p n = .error .ub := by
  rcases readIdx_cases μ p n with ⟨l', _, h2⟩ | ⟨h1, _⟩
  · exact (not_gone_of_holds h2 h).elim
  · exact h1

/-- A borrowed view and the view that owns the list the memory holds. -/
inductive BSim (μ : Mem Nat) : BObj → Obj → Prop where
  | obj {o : Obj} : BSim μ (.obj o) o
  | borrowed {off p n : Nat} {l : List Nat} (h : Holds μ p n l) :
    BSim μ (.borrowed off p n) (.sref off (.vec (borrowedDesc n) l))

theorem bmap_eq {chk : Bool} {μ : Mem Nat} {p n : Nat} {l : List Nat} (h : Holds μ p n l) (d : SDesc) (i : Nat) :
    bmap chk μ p n i = Mapper.map chk (.vec d l) i := by
  unfold bmap
  show _ = (do dbg chk (i < l.length); lookup l i)
  unfold lookup
  rw [h.1]
  by_cases hi : i < n
  · rw [if_pos hi, ← h.2 i hi, read_toRes]
    cases μ (p + i) <;> rfl
  · rw [if_neg hi, List.getElem?_eq_none (by have := h.1; omega)]

theorem borrowedSlice_eq {A : Arith} {chk : Bool} {μ : Mem Nat} {off p n : Nat} {l : List Nat} (h : Holds μ p n l) (a : Arg) :
    borrowedSlice A chk μ off p n a = BObj.obj <$> arraySlice A chk off (.vec (borrowedDesc n) l) [a] := by
  have hf : bmap chk μ p n = Mapper.map chk (.vec (borrowedDesc n) l) := funext fun i => bmap_eq h _ i
  unfold borrowedSlice arraySlice
  simp only [List.all_cons, List.all_nil, Bool.and_true, Mapper.desc, Mapper.mapAll, hf]
  split
  · simp only [map_bind]; rfl
  · simp only [map_bind]; rfl

theorem borrowedIndex_eq {A : Arith} {chk : Bool} {μ : Mem Nat} {off p n : Nat} {l : List Nat} (h : Holds μ p n l) {i : Ix}
    (hi : i ≠ .every) :
    borrowedIndex A chk μ off p n i = BObj.obj <$> srefIndex A chk off (.vec (borrowedDesc n) l) i := by
  have harg : ∀ a, arrayAtArg A chk off (.vec (borrowedDesc n) l) a = arraySlice A chk off (.vec (borrowedDesc n) l) [a] := by
    intro a; unfold arrayAtArg; exact if_pos rfl
  cases i with
  | every => exact (hi rfl).elim
  | «at» i =>
    have e1 : srefIndex A chk off (.vec (borrowedDesc n) l) (.at i) = (do
        dbg chk (i < n)
        let p ← Mapper.map chk (.vec (borrowedDesc n) l) ((borrowedDesc n).pos A [i])
        .ok (.elem (A.add off p))) := rfl
    rw [e1]
    simp only [borrowedIndex, bmap_eq h (borrowedDesc n), map_bind]
    rfl
  | slice s x => simp only [borrowedIndex, srefIndex, harg, borrowedSlice_eq h]
  | strided s x t => simp only [borrowedIndex, srefIndex, harg, borrowedSlice_eq h]
  | bounded s x => simp only [borrowedIndex, srefIndex, harg, borrowedSlice_eq h]; rfl
  | boundedStrided s x t =>
    simp only [borrowedIndex, srefIndex, harg, borrowedSlice_eq h, map_bind]; rfl
  | rng r => simp only [borrowedIndex, srefIndex, harg, borrowedSlice_eq h]

theorem res_map_cases (f : α → β) (r : Res α) :
    (∃ e, f <$> r = .error e ∧ r = .error e) ∨ ∃ a, f <$> r = .ok (f a) ∧ r = .ok a := by
  cases r with
  | error e => exact .inl ⟨e, rfl, rfl⟩
  | ok a => exact .inr ⟨a, rfl, rfl⟩

/-- One step, in the same memory. -/
theorem bindex_sim {A : Arith} {chk : Bool} {μ : Mem Nat} {b : BObj} {o : Obj} {x : BIx} {i : Ix} (hb : BSim μ b o)
    (hx : x.now μ = .ok i) :
    (∃ f, b.index A chk μ x = .error f ∧ o.index A chk i = .error f) ∨
    ∃ b' o', b.index A chk μ x = .ok b' ∧ o.index A chk i = .ok o' ∧ BSim μ b' o' := by
  cases hb with
  | borrowed h =>
    rename_i off p n l
    have e1 : (BObj.borrowed off p n).index A chk μ x = borrowedIndex A chk μ off p n i := by
      cases x <;> simp [BObj.index, hx]
    rw [e1]
    by_cases hi : i = .every
    · subst hi
      exact .inr ⟨_, _, rfl, rfl, .borrowed h⟩
    · rw [borrowedIndex_eq h hi]
      rcases res_map_cases BObj.obj (srefIndex A chk off (.vec (borrowedDesc n) l) i) with ⟨f, h1, h2⟩ | ⟨a, h1, h2⟩
      · exact .inl ⟨f, h1, h2⟩
      · exact .inr ⟨_, a, h1, h2, .obj⟩
  | obj =>
    have gen : (BObj.obj o).index A chk μ x = (do let r ← o.index A chk i; .ok (.obj r)) →
        (∃ f, (BObj.obj o).index A chk μ x = .error f ∧ o.index A chk i = .error f) ∨
        ∃ b' o', (BObj.obj o).index A chk μ x = .ok b' ∧ o.index A chk i = .ok o' ∧ BSim μ b' o' := by
      intro h
      rw [h]
      cases ho : o.index A chk i with
      | error f => exact .inl ⟨f, rfl, rfl⟩
      | ok o' => exact .inr ⟨_, o', rfl, rfl, .obj⟩
    cases x with
    | ix j =>
      cases hx
      apply gen
      simp [BObj.index, BIx.now]
    | ptr p n =>
      rcases readIdx_cases μ p n with ⟨l, h1, h2⟩ | ⟨h1, _⟩
      · simp only [BIx.now, h1, res_ok_bind] at hx
        cases hx
        by_cases hc : ∃ off e, o = .cref off [e]
        · obtain ⟨off, e, rfl⟩ := hc
          simp only [BObj.index, borrow, Obj.index, crefIndex, List.length_singleton, if_true, List.headD_cons, h1, res_ok_bind]
          have hmk : Mapper.mkVec A chk [l.length] l = .ok (.vec (borrowedDesc n) l) := by
            simp [Mapper.mkVec, SDesc.mk', SDesc.size, borrowedDesc, h2.1]
          rw [hmk]
          cases chk with
          | false => exact .inr ⟨_, _, rfl, rfl, .borrowed h2⟩
          | true =>
            by_cases hm : maxIdx l < e
            · simp only [hm, decide_true, dbg_any_true, res_ok_bind, if_true]
              exact .inr ⟨_, _, rfl, rfl, .borrowed h2⟩
            · simp only [hm, decide_false, if_true]
              exact .inl ⟨_, rfl, rfl⟩
        · apply gen
          have : ∀ off e, o ≠ .cref off [e] := fun off e h => hc ⟨off, e, h⟩
          unfold BObj.index
          split
          · next heq _ => cases heq; exact (this _ _ rfl).elim
          · next heq _ => cases heq; simp [BIx.now, h1]
          · next heq => cases heq
      · simp only [BIx.now, h1] at hx
        cases hx

/-- A chain, in one memory. -/
theorem brun_sim {A : Arith} {chk : Bool} {μ : Mem Nat} : ∀ {h : List (Mem Nat × BIx)} {b : BObj} {o : Obj} {is : List Ix},
    BSim μ b o → (∀ s ∈ h, s.1 = μ) → h.mapM (fun s => s.2.now μ) = .ok is →
    (∃ f, b.run A chk h = .error f ∧ o.run A chk is = .error f) ∨
    ∃ b' o', b.run A chk h = .ok b' ∧ o.run A chk is = .ok o' ∧ BSim μ b' o'
  | [], b, o, is, hb, _, hm => by
    cases hm
    exact .inr ⟨b, o, rfl, rfl, hb⟩
  | s :: h, b, o, is, hb, hμ, hm => by
    rw [List.mapM_cons] at hm
    rw [res_bind_ok] at hm
    obtain ⟨i, h1, hm⟩ := hm
    rw [res_bind_ok] at hm
    obtain ⟨is', h2, hm⟩ := hm
    cases hm
    have hs : s.1 = μ := hμ s (by simp)
    have e1 : b.run A chk (s :: h) = b.index A chk μ s.2 >>= fun b => b.run A chk h := by
      simp [BObj.run, hs]
    have e2 : o.run A chk (i :: is') = o.index A chk i >>= fun o => o.run A chk is' := by
      simp [Obj.run]
    rw [e1, e2]
    rcases bindex_sim (A := A) (chk := chk) hb h1 with ⟨f, a1, a2⟩ | ⟨b', o', a1, a2, a3⟩
    · exact .inl ⟨f, by rw [a1]; rfl, by rw [a2]; rfl⟩
    · rw [a1, a2, res_ok_bind, res_ok_bind]
      exact brun_sim a3 (fun s hs => hμ s (by simp [hs])) h2

theorem bsim_positions {A : Arith} {μ : Mem Nat} {b : BObj} {o : Obj} (h : BSim μ b o) : b.positions A μ = o.positions A := by
  cases h with
  | obj => rfl
  | borrowed h => simp [BObj.positions, readIdx_ok h, Obj.positions]

/-! ### Which objects borrow -/

/-- How an object depends on the index memory, and whether it can come to. -/
inductive Cls where
  | c
  | b (p n : Nat)
  | o
  deriving DecidableEq

def cls : BObj → Cls
  | .obj (.cref _ [_]) => .c
  | .borrowed _ p n => .b p n
  | _ => .o

def delta : Cls → BIx → Cls
  | .c, .ix (.slice _ _) => .c
  | .c, .ix (.bounded _ _) => .c
  | .c, .ix .every => .c
  | .c, .ptr p n => .b p n
  | .b p n, .ix .every => .b p n
  | _, _ => .o

/-- There is no `every` proxy of order one. -/
def NoEP : BObj → Prop
  | .obj (.everyProxy _ ext _) => ext.length ≠ 1
  | _ => True

/-- Not contiguous of order one, and not on the way to it. -/
def NotC : Obj → Prop
  | .cref _ ext => ext.length ≠ 1
  | .everyProxy _ ext _ => ext.length ≠ 1
  | _ => True

theorem cls_obj {o : Obj} (h : NotC o) : cls (.obj o) = .o ∧ NoEP (.obj o) := by
  cases o with
  | cref off ext =>
    refine ⟨?_, trivial⟩
    match ext with
    | [] => rfl
    | [_] => exact (h rfl).elim
    | _ :: _ :: _ => rfl
  | everyProxy off ext M => exact ⟨rfl, h⟩
  | _ => exact ⟨rfl, trivial⟩

theorem arraySlice_notC {A : Arith} {chk : Bool} {off : Nat} {m : Mapper} {as : List Arg} {r : Obj}
    (h : arraySlice A chk off m as = .ok r) : NotC r := by
  unfold arraySlice at h
  split at h
  · rw [res_bind_ok] at h
    obtain ⟨d', _, h⟩ := h
    cases m with
    | ident d => cases h; trivial
    | vec d l =>
      simp only [res_bind_ok] at h
      obtain ⟨_, _, _, _, _, _, h⟩ := h
      cases h; trivial
  · rw [res_bind_ok] at h
    obtain ⟨d', _, h⟩ := h
    cases m with
    | ident d =>
      simp only [res_bind_ok] at h
      obtain ⟨_, _, h⟩ := h
      cases h; trivial
    | vec d l =>
      simp only [res_bind_ok] at h
      obtain ⟨_, _, _, _, h⟩ := h
      cases h; trivial

theorem arrayAtArg_notC {A : Arith} {chk : Bool} {off : Nat} {m : Mapper} {a : Arg} {r : Obj}
    (h : arrayAtArg A chk off m a = .ok r) : NotC r := by
  unfold arrayAtArg at h
  split at h
  · exact arraySlice_notC h
  · cases h; trivial

theorem srefIndex_notC {A : Arith} {chk : Bool} {off : Nat} {m : Mapper} {i : Ix} {r : Obj}
    (h : srefIndex A chk off m i = .ok r) : NotC r := by
  cases i with
  | «at» i =>
    simp only [srefIndex, arrayAtIdx, res_bind_ok] at h
    obtain ⟨_, _, h⟩ := h
    split at h
    · simp only [res_bind_ok] at h
      obtain ⟨_, _, h⟩ := h
      cases h; trivial
    · simp only [res_bind_ok] at h
      obtain ⟨_, _, h⟩ := h
      cases h; trivial
  | every =>
    simp only [srefIndex, arrayAtEvery] at h
    cases h
    split <;> trivial
  | boundedStrided s x t =>
    simp only [srefIndex, res_bind_ok] at h
    obtain ⟨_, _, h⟩ := h
    exact arrayAtArg_notC h
  | _ => exact arrayAtArg_notC h

theorem proxyAt_notC {A : Arith} {chk : Bool} {off : Nat} {m : Mapper} {args : List Arg} {a : Arg} {r : Obj}
    (h : proxyAt A chk off m args a = .ok r) : NotC r := by
  unfold proxyAt at h
  split at h
  · exact arraySlice_notC h
  · cases h; trivial

theorem proxyIndex_notC {A : Arith} {chk : Bool} {off : Nat} {m : Mapper} {args : List Arg} {i : Ix} {r : Obj}
    (h : proxyIndex A chk off m args i = .ok r) : NotC r := by
  cases i with
  | boundedStrided s x t =>
    simp only [proxyIndex, res_bind_ok] at h
    obtain ⟨_, _, h⟩ := h
    exact proxyAt_notC h
  | _ => exact proxyAt_notC h

theorem everyFallback_notC {A : Arith} {chk : Bool} {off : Nat} {ext : List Nat} {M : Nat} {i : Ix} {r : Obj}
    (h : everyFallback A chk off ext M i = .ok r) : NotC r := by
  simp only [everyFallback, res_bind_ok] at h
  obtain ⟨_, _, h⟩ := h
  exact proxyIndex_notC h

theorem everyIndex_notC {A : Arith} {chk : Bool} {off : Nat} {ext : List Nat} {M : Nat} {i : Ix} {r : Obj} (hn : ext.length ≠ 1)
    (h : everyIndex A chk off ext M i = .ok r) : NotC r := by
  cases i with
  | «at» i =>
    simp only [everyIndex] at h
    split at h
    · simp only [res_bind_ok] at h
      obtain ⟨_, _, h⟩ := h
      split at h
      · cases h
      · cases h; simpa [NotC] using hn
    · cases h
  | slice s x =>
    simp only [everyIndex] at h
    split at h
    · simp only [res_bind_ok] at h
      obtain ⟨_, _, h⟩ := h
      split at h
      · cases h
      · cases h; simpa [NotC] using hn
    · exact everyFallback_notC h
  | every =>
    simp only [everyIndex] at h
    split at h
    · cases h; exact hn
    · cases h; exact hn
  | boundedStrided s x t =>
    simp only [everyIndex, res_bind_ok] at h
    obtain ⟨_, _, h⟩ := h
    exact everyFallback_notC h
  | _ => exact everyFallback_notC h

theorem crefIndex_notC {A : Arith} {chk : Bool} {off : Nat} {ext : List Nat} {i : Ix} {r : Obj} (hn : ext.length ≠ 1)
    (h : crefIndex A chk off ext i = .ok r) : NotC r := by
  have argC : ∀ {a : Arg}, arrayAtArgC A chk off ext a = .ok r → NotC r := by
    intro a h
    simp only [arrayAtArgC, res_bind_ok] at h
    obtain ⟨_, _, h⟩ := h
    exact arrayAtArg_notC h
  have sliceC : ∀ {s x : Nat}, arrayAtSliceC A chk off ext s x = .ok r → NotC r := by
    intro s x h
    unfold arrayAtSliceC at h
    split at h
    · exact (hn rfl).elim
    · rw [res_bind_ok] at h
      obtain ⟨_, _, h⟩ := h
      exact arrayAtArg_notC h
  cases i with
  | «at» i =>
    simp only [crefIndex, res_bind_ok] at h
    obtain ⟨_, _, h⟩ := h
    rw [if_neg hn] at h
    simp only [res_bind_ok] at h
    obtain ⟨_, _, _, _, h⟩ := h
    cases h; trivial
  | slice s x => exact sliceC h
  | strided s x t => exact argC h
  | every =>
    simp only [crefIndex, if_neg hn] at h
    cases h; exact hn
  | bounded s x => exact sliceC h
  | boundedStrided s x t =>
    simp only [crefIndex, res_bind_ok] at h
    obtain ⟨_, _, h⟩ := h
    exact argC h
  | rng l =>
    simp only [crefIndex, if_neg hn] at h
    exact argC h

theorem index_notC {A : Arith} {chk : Bool} {o r : Obj} {i : Ix} (hn : NotC o) (h : o.index A chk i = .ok r) : NotC r := by
  cases o with
  | elem p => cases h
  | cref off ext => exact crefIndex_notC hn h
  | sref off m => exact srefIndex_notC h
  | proxy off m args => exact proxyIndex_notC h
  | everyProxy off ext M => exact everyIndex_notC hn h

theorem borrowedSlice_notC {A : Arith} {chk : Bool} {μ : Mem Nat} {off p n : Nat} {a : Arg} {r : BObj}
    (h : borrowedSlice A chk μ off p n a = .ok r) : ∃ o, r = .obj o ∧ NotC o := by
  unfold borrowedSlice at h
  split at h
  · simp only [res_bind_ok] at h
    obtain ⟨_, _, _, _, _, _, _, _, h⟩ := h
    cases h; exact ⟨_, rfl, trivial⟩
  · simp only [res_bind_ok] at h
    obtain ⟨_, _, _, _, _, _, h⟩ := h
    cases h; exact ⟨_, rfl, trivial⟩

theorem borrowedIndex_notC {A : Arith} {chk : Bool} {μ : Mem Nat} {off p n : Nat} {i : Ix} {r : BObj} (hi : i ≠ .every)
    (h : borrowedIndex A chk μ off p n i = .ok r) : ∃ o, r = .obj o ∧ NotC o := by
  cases i with
  | every => exact (hi rfl).elim
  | «at» i =>
    simp only [borrowedIndex, res_bind_ok] at h
    obtain ⟨_, _, _, _, h⟩ := h
    cases h; exact ⟨_, rfl, trivial⟩
  | boundedStrided s x t =>
    simp only [borrowedIndex, res_bind_ok] at h
    obtain ⟨_, _, h⟩ := h
    exact borrowedSlice_notC h
  | _ => exact borrowedSlice_notC h

/-- One-dimensional contiguous objects. -/
theorem crefIndex_one {A : Arith} {chk : Bool} {off e : Nat} {i : Ix} {r : Obj} (h : crefIndex A chk off [e] i = .ok r) :
    ((∃ s x, i = .slice s x) ∨ (∃ s x, i = .bounded s x) ∨ i = .every) ∧ (∃ off' e', r = .cref off' [e']) ∨
    (¬ ((∃ s x, i = .slice s x) ∨ (∃ s x, i = .bounded s x) ∨ i = .every) ∧ NotC r) := by
  have argC : ∀ {a : Arg}, arrayAtArgC A chk off [e] a = .ok r → NotC r := by
    intro a h
    simp only [arrayAtArgC, res_bind_ok] at h
    obtain ⟨_, _, h⟩ := h
    exact arrayAtArg_notC h
  have sliceC : ∀ {s x : Nat}, arrayAtSliceC A chk off [e] s x = .ok r → ∃ off' e', r = .cref off' [e'] := by
    intro s x h
    simp only [arrayAtSliceC, res_bind_ok] at h
    obtain ⟨_, _, h⟩ := h
    cases h; exact ⟨_, _, rfl⟩
  cases i with
  | «at» i =>
    refine .inr ⟨by simp, ?_⟩
    simp only [crefIndex, res_bind_ok] at h
    obtain ⟨_, _, h⟩ := h
    cases h; trivial
  | slice s x => exact .inl ⟨.inl ⟨_, _, rfl⟩, sliceC h⟩
  | strided s x t => exact .inr ⟨by simp, argC h⟩
  | every =>
    cases h
    exact .inl ⟨.inr (.inr rfl), _, _, rfl⟩
  | bounded s x => exact .inl ⟨.inr (.inl ⟨_, _, rfl⟩), sliceC h⟩
  | boundedStrided s x t =>
    refine .inr ⟨by simp, ?_⟩
    simp only [crefIndex, res_bind_ok] at h
    obtain ⟨_, _, h⟩ := h
    exact argC h
  | rng l =>
    refine .inr ⟨by simp, ?_⟩
    simp only [crefIndex, List.length_singleton, if_true, res_bind_ok] at h
    obtain ⟨_, _, _, _, h⟩ := h
    cases h; trivial

theorem cls_step {A : Arith} {chk : Bool} {μ : Mem Nat} {b b' : BObj} {x : BIx} (hn : NoEP b) (h : b.index A chk μ x = .ok b') :
    cls b' = delta (cls b) x ∧ NoEP b' := by
  have fin : ∀ {o : Obj}, b' = .obj o → NotC o → delta (cls b) x = .o → cls b' = delta (cls b) x ∧ NoEP b' := by
    rintro o rfl hc hd
    rw [hd]; exact cls_obj hc
  cases b with
  | borrowed off p n =>
    have h : (do let i ← x.now μ; borrowedIndex A chk μ off p n i) = .ok b' := by
      cases x <;> exact h
    rw [res_bind_ok] at h
    obtain ⟨i, hx, h⟩ := h
    by_cases hi : i = .every
    · subst hi
      cases x with
      | ptr q m =>
        simp only [BIx.now, res_bind_ok] at hx
        obtain ⟨_, _, hx⟩ := hx
        cases hx
      | ix j =>
        cases hx
        cases h
        exact ⟨rfl, trivial⟩
    · obtain ⟨o, ho, hc⟩ := borrowedIndex_notC hi h
      refine fin ho hc ?_
      cases x with
      | ptr q m => rfl
      | ix j =>
        cases hx
        cases i <;> first | rfl | exact (hi rfl).elim
  | obj o =>
    by_cases hc : ∃ off e, o = .cref off [e]
    · obtain ⟨off, e, rfl⟩ := hc
      cases x with
      | ptr p n =>
        have h : borrow chk μ off e p n = .ok b' := h
        have : b' = .borrowed off p n := by
          unfold borrow at h
          split at h
          · simp only [res_bind_ok] at h
            obtain ⟨_, _, _, _, h⟩ := h
            cases h; rfl
          · cases h; rfl
        subst this
        exact ⟨rfl, trivial⟩
      | ix i =>
        have h : (do let r ← crefIndex A chk off [e] i; .ok (BObj.obj r)) = .ok b' := h
        rw [res_bind_ok] at h
        obtain ⟨r, hr, h⟩ := h
        cases h
        rcases crefIndex_one hr with ⟨hi, off', e', rfl⟩ | ⟨hi, hr'⟩
        · refine ⟨?_, trivial⟩
          rcases hi with ⟨s, x, rfl⟩ | ⟨s, x, rfl⟩ | rfl <;> rfl
        · refine fin rfl hr' ?_
          cases i <;> first | rfl | exact (hi (.inl ⟨_, _, rfl⟩)).elim | exact (hi (.inr (.inl ⟨_, _, rfl⟩))).elim | exact (hi (.inr (.inr rfl))).elim
    · have hno : NotC o := by
        cases o with
        | cref off ext =>
          intro hl
          obtain ⟨e, rfl⟩ := List.length_eq_one_iff.1 hl
          exact hc ⟨off, e, rfl⟩
        | everyProxy off ext M => exact hn
        | _ => trivial
      have h : (do let i ← x.now μ; let r ← o.index A chk i; .ok (BObj.obj r)) = .ok b' := by
        have this : ∀ off e, o ≠ .cref off [e] := fun off e h => hc ⟨off, e, h⟩
        unfold BObj.index at h
        split at h
        · next heq => cases heq; exact (this _ _ rfl).elim
        · next heq _ => cases heq; exact h
        · next heq => cases heq
      simp only [res_bind_ok] at h
      obtain ⟨i, hx, r, hr, h⟩ := h
      cases h
      refine fin rfl (index_notC hno hr) ?_
      rw [(cls_obj hno).1]
      cases x <;> rfl

theorem cls_run {A : Arith} {chk : Bool} : ∀ {h : List (Mem Nat × BIx)} {b b' : BObj}, NoEP b → b.run A chk h = .ok b' →
    cls b' = h.foldl (fun c s => delta c s.2) (cls b)
  | [], b, b', _, h => by cases h; rfl
  | s :: h, b, b', hn, hr => by
    simp only [BObj.run, List.foldlM_cons, res_bind_ok] at hr
    obtain ⟨b1, h1, h2⟩ := hr
    obtain ⟨e1, n1⟩ := cls_step hn h1
    rw [List.foldl_cons, ← e1]
    exact cls_run n1 h2

theorem foldl_o : ∀ (h : List (Mem Nat × BIx)), h.foldl (fun c s => delta c s.2) Cls.o = .o
  | [] => rfl
  | s :: h => by rw [List.foldl_cons]; exact foldl_o h

theorem foldl_b (p n p' n' : Nat) : ∀ (h : List (Mem Nat × BIx)),
    h.foldl (fun c s => delta c s.2) (Cls.b p n) = .b p' n' ↔ (p = p' ∧ n = n') ∧ ∀ s ∈ h, s.2 = .ix .every
  | [] => by simp
  | s :: h => by
    rw [List.foldl_cons]
    by_cases hs : s.2 = .ix .every
    · rw [hs]
      show h.foldl _ (Cls.b p n) = _ ↔ _
      rw [foldl_b p n p' n' h]
      simp only [List.mem_cons, forall_eq_or_imp, hs, true_and]
    · have : delta (.b p n) s.2 = .o := by
        cases hx : s.2 with
        | ptr q m => rfl
        | ix i => cases i <;> first | rfl | exact (hs hx).elim
      rw [this, foldl_o]
      simp [hs]

theorem foldl_c (p n : Nat) : ∀ (h : List (Mem Nat × BIx)),
    h.foldl (fun c s => delta c s.2) Cls.c = .b p n ↔
      ∃ pre μ post, h = pre ++ (μ, .ptr p n) :: post ∧ (∀ s ∈ pre, Contiguous s.2) ∧ ∀ s ∈ post, s.2 = .ix .every
  | [] => by simp
  | (μ, x) :: h => by
    rw [List.foldl_cons]
    show h.foldl _ (delta .c x) = _ ↔ _
    by_cases hc : Contiguous x
    · have hd : delta .c x = .c := by
        cases x with
        | ptr q m => exact hc.elim
        | ix i => cases i <;> first | rfl | exact hc.elim
      rw [hd, foldl_c p n h]
      constructor
      · rintro ⟨pre, ν, post, rfl, h1, h2⟩
        refine ⟨(μ, x) :: pre, ν, post, rfl, ?_, h2⟩
        intro s hs
        rcases List.mem_cons.1 hs with rfl | hs
        · exact hc
        · exact h1 s hs
      · rintro ⟨pre, ν, post, he, h1, h2⟩
        cases pre with
        | nil =>
          simp only [List.nil_append, List.cons.injEq, Prod.mk.injEq] at he
          rw [he.1.2] at hc
          exact hc.elim
        | cons s pre =>
          simp only [List.cons_append, List.cons.injEq] at he
          exact ⟨pre, ν, post, he.2, fun s hs => h1 s (by simp [hs]), h2⟩
    · have hno : ∀ pre ν post, (μ, x) :: h = pre ++ (ν, BIx.ptr p n) :: post → (∀ s ∈ pre, Contiguous s.2) → pre = [] := by
        intro pre ν post he h1
        cases pre with
        | nil => rfl
        | cons s pre =>
          simp only [List.cons_append, List.cons.injEq] at he
          have := h1 s (by simp)
          rw [← he.1] at this
          exact (hc this).elim
      cases x with
      | ptr q m =>
        show h.foldl _ (Cls.b q m) = _ ↔ _
        rw [foldl_b]
        constructor
        · rintro ⟨⟨rfl, rfl⟩, h2⟩
          exact ⟨[], μ, h, rfl, by simp, h2⟩
        · rintro ⟨pre, ν, post, he, h1, h2⟩
          have := hno pre ν post he h1
          subst this
          simp only [List.nil_append, List.cons.injEq, Prod.mk.injEq, BIx.ptr.injEq] at he
          obtain ⟨⟨_, rfl, rfl⟩, rfl⟩ := he
          exact ⟨⟨rfl, rfl⟩, h2⟩
      | ix i =>
        have hd : delta .c (.ix i) = .o := by
          cases i <;> first | rfl | exact (hc trivial).elim
        rw [hd, foldl_o]
        constructor
        · intro h; cases h
        · rintro ⟨pre, ν, post, he, h1, h2⟩
          have := hno pre ν post he h1
          subst this
          simp at he

/-- Whether the result of a history borrows, and what. -/
theorem borrows_iff {A : Arith} {chk : Bool} {off : Nat} {e : List Nat} {h : List (Mem Nat × BIx)} {b : BObj}
    (hr : (BObj.obj (.cref off e)).run A chk h = .ok b) (p n : Nat) : (∃ off', b = .borrowed off' p n) ↔ Follows e h p n := by
  have h1 := cls_run (b := .obj (.cref off e)) (by trivial) hr
  have h2 : (∃ off', b = .borrowed off' p n) ↔ cls b = .b p n := by
    constructor
    · rintro ⟨off', rfl⟩; rfl
    · intro hc
      unfold cls at hc
      split at hc
      · cases hc
      · cases hc; exact ⟨_, rfl⟩
      · cases hc
  rw [h2, h1]
  by_cases he : e.length = 1
  · obtain ⟨x, rfl⟩ := List.length_eq_one_iff.1 he
    show h.foldl _ Cls.c = _ ↔ _
    rw [foldl_c]
    simp [Follows]
  · rw [(cls_obj (o := .cref off e) he).1, foldl_o]
    simp [Follows, he]

end Jules

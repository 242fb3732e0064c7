import Verif.Spec.Proxy
import Verif.Lemmas.Complete
import Verif.Lemmas.Observe
/-
The proxies of Model/Proxy.lean against those of Model/Slicing.lean (which hold everything by value).
-/
namespace Jules
open Spec

/-- What a held argument stood for when it was stored. -/
inductive Held.Den : Held → Arg → Prop
  | val (a) : Held.Den (.val a) a
  | param (a) : Held.Den (.param a) a
  | range (l t) : Held.Den (.range l t) (.rng l)
  | dead (a) : Held.Den .dead a

/-- The object is the given one, up to how proxies hold their arguments. -/
inductive HSim : HObj → Obj → Prop
  | obj {o} : (∀ off m args, o ≠ .proxy off m args) → HSim (.obj o) o
  | proxy {off m held args} : List.Forall₂ Held.Den held args → HSim (.proxy off m held) (.proxy off m args)

/-- Everything held can be read. -/
def HObj.Good (pl : Bool) : HObj → Prop
  | .obj _ => True
  | .proxy _ _ held => ∀ h ∈ held, ∃ a, h.load pl = .ok a

theorem Held.Den.load {pl : Bool} {h : Held} {a b : Arg} (hd : h.Den a) (hl : h.load pl = .ok b) : b = a := by
  cases hd with
  | val => simpa [Held.load] using hl.symm
  | param => cases pl <;> simp [Held.load] at hl; exact hl.symm
  | range => simpa [Held.load] using hl.symm
  | dead => simp [Held.load] at hl

theorem held_load_cases (pl : Bool) (h : Held) : (∃ a, h.load pl = .ok a) ∨ h.load pl = .error .ub := by
  cases h <;> cases pl <;> simp [Held.load]

theorem load_good {pl : Bool} : ∀ {held : List Held} {args : List Arg}, List.Forall₂ Held.Den held args →
    (∀ h ∈ held, ∃ a, h.load pl = .ok a) → held.mapM (Held.load pl) = .ok args
  | _, _, .nil, _ => rfl
  | _, _, .cons (a := h) hd hs, hg => by
    obtain ⟨a, ha⟩ := hg h (by simp)
    have := hd.load ha
    subst this
    rw [List.mapM_cons, ha, load_good hs fun x hx => hg x (by simp [hx])]
    rfl

theorem load_bad {pl : Bool} : ∀ {held : List Held}, (∃ h ∈ held, h.load pl = .error .ub) →
    held.mapM (Held.load pl) = .error .ub
  | [], h => by simp at h
  | x :: held, h => by
    rw [List.mapM_cons]
    rcases held_load_cases pl x with ⟨a, ha⟩ | ha
    · rw [ha]
      have : ∃ h ∈ held, h.load pl = .error .ub := by
        obtain ⟨y, hy, hb⟩ := h
        rcases List.mem_cons.1 hy with rfl | hy
        · rw [ha] at hb; cases hb
        · exact ⟨y, hy, hb⟩
      simp only [res_ok_bind, load_bad this, res_error_bind]
    · rw [ha]; rfl

theorem not_good_iff {pl : Bool} {off : Nat} {m : Mapper} {held : List Held} :
    ¬ (HObj.proxy off m held).Good pl ↔ ∃ h ∈ held, h.load pl = .error .ub := by
  simp only [HObj.Good]
  constructor
  · intro h
    by_contra hc
    refine h fun x hx => ?_
    rcases held_load_cases pl x with h1 | h1
    · exact h1
    · exact absurd ⟨x, hx, h1⟩ hc
  · rintro ⟨x, hx, hb⟩ h
    obtain ⟨a, ha⟩ := h x hx
    rw [ha] at hb; cases hb

/-- The value passed on by the proxy's operators. -/
theorem proxyIndex_hold {A : Arith} {chk : Bool} {off : Nat} {m : Mapper} {args : List Arg} {ix : Ix} {tmp : Bool} :
    (∃ h a, proxyHold A m args.length ix tmp = .ok h ∧ h.Den a ∧ h.load true = .ok a ∧
      proxyIndex A chk off m args ix = proxyAt A chk off m args a) ∨
    (∃ f, proxyHold A m args.length ix tmp = .error f ∧ proxyIndex A chk off m args ix = .error f) := by
  cases ix with
  | «at» i => exact .inl ⟨_, _, rfl, .param _, rfl, rfl⟩
  | slice s x => exact .inl ⟨_, _, rfl, .param _, rfl, rfl⟩
  | strided s x t => exact .inl ⟨_, _, rfl, .param _, rfl, rfl⟩
  | every => exact .inl ⟨_, _, rfl, .val _, rfl, rfl⟩
  | bounded s mx => exact .inl ⟨_, _, rfl, .val _, rfl, rfl⟩
  | rng l => exact .inl ⟨_, _, rfl, .range _ _, rfl, rfl⟩
  | boundedStrided s mx t =>
    simp only [proxyHold, proxyIndex]
    cases boundedStridedExtent A s mx t (m.desc.ext.getD args.length 0) with
    | ok x => exact .inl ⟨_, _, rfl, .val _, rfl, rfl⟩
    | error f => exact .inr ⟨f, rfl, rfl⟩

theorem arraySlice_not_proxy {A : Arith} {chk : Bool} {off : Nat} {m : Mapper} {args : List Arg} {o : Obj}
    (h : arraySlice A chk off m args = .ok o) : ∀ off m args, o ≠ .proxy off m args := by
  intro off' m' args' e
  subst e
  unfold arraySlice at h
  split at h
  · simp only [res_bind_ok] at h
    obtain ⟨d, _, h⟩ := h
    cases m with
    | ident d => simp at h
    | vec d l => simp only [res_bind_ok] at h; obtain ⟨_, _, _, _, _, _, h⟩ := h; cases h
  · simp only [res_bind_ok] at h
    obtain ⟨⟨ext, ps⟩, _, h⟩ := h
    cases m with
    | ident d => simp only [res_bind_ok] at h; obtain ⟨_, _, h⟩ := h; cases h
    | vec d l => simp only [res_bind_ok] at h; obtain ⟨_, _, _, _, h⟩ := h; cases h

/-- A proxy step, everything held being readable. -/
theorem hproxy_good {pl : Bool} {A : Arith} {chk : Bool} {off : Nat} {m : Mapper} {held : List Held}
    {args : List Arg} {ix : Ix} {tmp : Bool} (hd : List.Forall₂ Held.Den held args)
    (hg : (HObj.proxy off m held).Good pl) :
    (∃ f, hproxyIndex pl A chk off m held ix tmp = .error f ∧ proxyIndex A chk off m args ix = .error f) ∨
    (∃ o, hproxyIndex pl A chk off m held ix tmp = .ok (.obj o) ∧ proxyIndex A chk off m args ix = .ok o ∧
      HSim (.obj o) o) ∨
    (∃ h a, proxyHold A m held.length ix tmp = .ok h ∧ h.Den a ∧ held.length ≠ m.desc.ext.length - 1 ∧
      hproxyIndex pl A chk off m held ix tmp = .ok (.proxy off m (held ++ [h])) ∧
      proxyIndex A chk off m args ix = .ok (.proxy off m (args ++ [a]))) := by
  have hl := hd.length_eq
  unfold hproxyIndex
  rw [hl]
  rcases proxyIndex_hold (A := A) (chk := chk) (off := off) (m := m) (args := args) (ix := ix) (tmp := tmp) with
    ⟨h, a, h1, h2, h3, h4⟩ | ⟨f, h1, h2⟩
  · rw [h1, h4]
    simp only [res_ok_bind, proxyAt]
    split
    · rw [load_good hd hg]
      simp only [res_ok_bind, h3]
      cases hs : arraySlice A chk off m (args ++ [a]) with
      | error f => exact .inl ⟨f, rfl, rfl⟩
      | ok o => exact .inr (.inl ⟨o, rfl, rfl, .obj (arraySlice_not_proxy hs)⟩)
    · next hne => exact .inr (.inr ⟨h, a, rfl, h2, hne, rfl, rfl⟩)
  · rw [h1, h2]
    exact .inl ⟨f, rfl, rfl⟩

/-- A proxy step, something held being dead. -/
theorem hproxy_bad {pl : Bool} {A : Arith} {chk : Bool} {off : Nat} {m : Mapper} {held : List Held}
    {args : List Arg} {ix : Ix} {tmp : Bool} {o : Obj} (hd : List.Forall₂ Held.Den held args)
    (hg : ¬ (HObj.proxy off m held).Good pl) (ho : proxyIndex A chk off m args ix = .ok o) :
    hproxyIndex pl A chk off m held ix tmp = .error .ub ∨
    (∃ h, hproxyIndex pl A chk off m held ix tmp = .ok (.proxy off m (held ++ [h])) ∧
      HSim (.proxy off m (held ++ [h])) o) := by
  have hl := hd.length_eq
  unfold hproxyIndex
  rw [hl]
  rcases proxyIndex_hold (A := A) (chk := chk) (off := off) (m := m) (args := args) (ix := ix) (tmp := tmp) with
    ⟨h, a, h1, h2, h3, h4⟩ | ⟨f, h1, h2⟩
  · rw [h1]
    rw [h4] at ho
    simp only [res_ok_bind]
    split
    · rw [load_bad (not_good_iff.1 hg)]
      exact .inl rfl
    · next hne =>
      refine .inr ⟨h, rfl, ?_⟩
      simp only [proxyAt, if_neg hne, Except.ok.injEq] at ho
      subst ho
      exact .proxy (List.rel_append hd (.cons h2 .nil))
  · rw [h2] at ho; cases ho

theorem den_holdFirst (tmp : Bool) : ∀ args : List Arg, List.Forall₂ Held.Den (args.map (holdFirst tmp)) args
  | [] => .nil
  | a :: as => .cons (by cases a <;> constructor) (den_holdFirst tmp as)

theorem den_val : ∀ args : List Arg, List.Forall₂ Held.Den (args.map .val) args
  | [] => .nil
  | a :: as => .cons (.val a) (den_val as)

theorem den_every (tmp : Bool) (args : List Arg) :
    List.Forall₂ Held.Den (args.dropLast.map .val ++ (args.getLast?.map (holdEvery tmp)).toList) args := by
  rcases List.eq_nil_or_concat args with rfl | ⟨l, a, rfl⟩
  · exact .nil
  · simp only [List.concat_eq_append, List.dropLast_concat, List.getLast?_append, List.getLast?_singleton, Option.some_or,
      Option.map_some, Option.toList_some]
    exact List.rel_append (den_val l) (.cons (by cases a <;> constructor) .nil)

/-- A step on an object whose held arguments can all be read does what Model/Slicing.lean says. -/
theorem hindex_good {pl : Bool} {A : Arith} {chk : Bool} {h : HObj} {o : Obj} {ix : Ix} {tmp : Bool}
    (hs : HSim h o) (hg : h.Good pl) :
    (∃ f, h.index pl A chk ix tmp = .error f ∧ o.index A chk ix = .error f) ∨
    (∃ h' o', h.index pl A chk ix tmp = .ok h' ∧ o.index A chk ix = .ok o' ∧ HSim h' o') := by
  cases hs with
  | proxy hd =>
    rcases hproxy_good (A := A) (chk := chk) (ix := ix) (tmp := tmp) hd hg with ⟨f, h1, h2⟩ | ⟨o, h1, h2, h3⟩ |
      ⟨h, a, _, h2, _, h4, h5⟩
    · exact .inl ⟨f, h1, h2⟩
    · exact .inr ⟨_, _, h1, h2, h3⟩
    · exact .inr ⟨_, _, h4, h5, .proxy (List.rel_append hd (.cons h2 .nil))⟩
  | obj hn =>
    cases o with
    | proxy off m args => exact absurd rfl (hn off m args)
    | everyProxy off ext M =>
      simp only [HObj.index, Obj.index]
      cases hi : everyIndex A chk off ext M ix with
      | error f => exact .inl ⟨f, rfl, rfl⟩
      | ok r =>
        refine .inr ?_
        simp only [res_ok_bind]
        cases r with
        | proxy off m args => exact ⟨_, _, rfl, rfl, .proxy (den_every tmp args)⟩
        | _ => exact ⟨_, _, rfl, rfl, .obj (by simp)⟩
    | _ =>
      simp only [HObj.index]
      cases hi : Obj.index A chk _ ix with
      | error f => exact .inl ⟨f, rfl, rfl⟩
      | ok r =>
        refine .inr ?_
        simp only [res_ok_bind]
        cases r with
        | proxy off m args => exact ⟨_, _, rfl, rfl, .proxy (den_holdFirst tmp args)⟩
        | _ => exact ⟨_, _, rfl, rfl, .obj (by simp)⟩

theorem den_endExpr {h : Held} {a : Arg} (hd : h.Den a) : h.endExpr.Den a := by
  cases hd with
  | val => exact .val _
  | param => exact .dead _
  | range l t => cases t <;> constructor
  | dead => exact .dead _

theorem hsim_endExpr {h : HObj} {o : Obj} (hs : HSim h o) : HSim h.endExpr o := by
  cases hs with
  | obj hn => exact .obj hn
  | @proxy off m held args hd =>
    refine .proxy ?_
    clear off m
    induction hd with
    | nil => exact .nil
    | cons h _ ih => exact .cons (den_endExpr h) ih

theorem good_endExpr_of {pl : Bool} {h : Held} (hb : h.load pl = .error .ub) : h.endExpr.load pl = .error .ub := by
  cases h with
  | val => simp [Held.load] at hb
  | param => simp [Held.load, Held.endExpr]
  | range => simp [Held.load] at hb
  | dead => rfl

theorem not_good_endExpr {pl : Bool} {h : HObj} (hg : ¬ h.Good pl) : ¬ h.endExpr.Good pl := by
  cases h with
  | obj => exact absurd trivial hg
  | proxy off m held =>
    obtain ⟨x, hx, hb⟩ := not_good_iff.1 hg
    exact not_good_iff.2 ⟨x.endExpr, List.mem_map_of_mem hx, good_endExpr_of hb⟩

/-- Once something held is dead, the chain is incomplete or its completion was undefined. -/
theorem hrun_bad {pl : Bool} {A : Arith} {chk : Bool} : ∀ {x : List HIx} {h : HObj} {o o' : Obj}, HSim h o →
    ¬ h.Good pl → o.run A chk (x.map (·.ix)) = .ok o' →
    h.run pl A chk x = .error .ub ∨ ∃ h', h.run pl A chk x = .ok h' ∧ HSim h' o' ∧ ¬ h'.Good pl
  | [], h, o, o', hs, hg, hr => by
    simp only [List.map_nil, Obj.run, List.foldlM_nil, res_pure, Except.ok.injEq] at hr
    subst hr
    exact .inr ⟨h, rfl, hs, hg⟩
  | x :: xs, h, o, o', hs, hg, hr => by
    simp only [List.map_cons, Obj.run, List.foldlM_cons, res_bind_ok] at hr
    obtain ⟨o1, h1, h2⟩ := hr
    simp only [HObj.run, List.foldlM_cons, HObj.step]
    cases hs with
    | obj => exact absurd trivial hg
    | @proxy off m held args hd =>
      rcases hproxy_bad (tmp := x.tmp) hd hg h1 with hb | ⟨y, hb, hy⟩
      · left
        simp only [HObj.index, hb, res_error_bind]
      · simp only [HObj.index, hb, res_ok_bind]
        have hg' : ¬ (HObj.proxy off m (held ++ [y])).Good pl := by
          obtain ⟨z, hz, hz'⟩ := not_good_iff.1 hg
          exact not_good_iff.2 ⟨z, List.mem_append_left _ hz, hz'⟩
        split
        · exact hrun_bad (hsim_endExpr hy) (not_good_endExpr hg') h2
        · exact hrun_bad hy hg' h2


/-- Whatever happens, an accepted chain is undefined or gives the same object. -/
theorem hrun_any {pl : Bool} {A : Arith} {chk : Bool} : ∀ {x : List HIx} {h : HObj} {o o' : Obj}, HSim h o →
    o.run A chk (x.map (·.ix)) = .ok o' →
    h.run pl A chk x = .error .ub ∨ ∃ h', h.run pl A chk x = .ok h' ∧ HSim h' o'
  | [], h, o, o', hs, hr => by
    simp only [List.map_nil, Obj.run, List.foldlM_nil, res_pure, Except.ok.injEq] at hr
    subst hr
    exact .inr ⟨h, rfl, hs⟩
  | x :: xs, h, o, o', hs, hr => by
    by_cases hg : h.Good pl
    · simp only [List.map_cons, Obj.run, List.foldlM_cons, res_bind_ok] at hr
      obtain ⟨o1, h1, h2⟩ := hr
      rcases hindex_good (A := A) (chk := chk) (ix := x.ix) (tmp := x.tmp) hs hg with ⟨f, e1, e2⟩ | ⟨h', o2, e1, e2, e3⟩
      · rw [e2] at h1; cases h1
      · rw [e2] at h1; cases h1
        simp only [HObj.run, List.foldlM_cons, HObj.step, e1, res_ok_bind]
        split
        · exact hrun_any (hsim_endExpr e3) h2
        · exact hrun_any e3 h2
    · rcases hrun_bad hs hg hr with h1 | ⟨h', h1, h2, _⟩
      · exact .inl h1
      · exact .inr ⟨h', h1, h2⟩

/-- Held by value, or a range of the caller (temporary only if no full expression ends, `n`). -/
def Held.Solid (n : Bool) (h : Held) : Prop :=
  (∃ a, h = .val a) ∨ ∃ l t, h = .range l t ∧ (t = true → n = true)

def HObj.Solid (n : Bool) : HObj → Prop
  | .obj _ => True
  | .proxy _ _ held => ∀ h ∈ held, h.Solid n

theorem Held.Solid.load {n : Bool} {h : Held} (hs : h.Solid n) (pl : Bool) : ∃ a, h.load pl = .ok a := by
  rcases hs with ⟨a, rfl⟩ | ⟨l, t, rfl, _⟩ <;> simp [Held.load]

theorem HObj.Solid.good {n : Bool} {h : HObj} (hs : h.Solid n) (pl : Bool) : h.Good pl := by
  cases h with
  | obj => trivial
  | proxy off m held => exact fun x hx => (hs x hx).load pl

theorem HObj.Solid.endExpr {h : HObj} (hs : h.Solid false) : h.endExpr.Solid false := by
  cases h with
  | obj => trivial
  | proxy off m held =>
    intro y hy
    simp only [List.mem_map] at hy
    obtain ⟨x, hx, rfl⟩ := hy
    rcases hs x hx with ⟨a, rfl⟩ | ⟨l, t, rfl, ht⟩
    · exact .inl ⟨a, rfl⟩
    · cases t with
      | true => simp at ht
      | false => exact .inr ⟨l, false, rfl, by simp⟩

theorem solid_holdFirst {n tmp : Bool} (ht : tmp = true → n = true) (a : Arg) : (holdFirst tmp a).Solid n := by
  cases a with
  | rng l => exact .inr ⟨l, tmp, rfl, ht⟩
  | _ => exact .inl ⟨_, rfl⟩

theorem proxyAt_proxy {A : Arith} {chk : Bool} {off off' : Nat} {m m' : Mapper} {args args' : List Arg} {a : Arg}
    (h : proxyAt A chk off m args a = .ok (.proxy off' m' args')) : args' = args ++ [a] := by
  unfold proxyAt at h
  split at h
  · exact absurd rfl (arraySlice_not_proxy h _ _ _)
  · cases h; rfl

/-- What `ref_array_every_proxy` passes on. -/
theorem everyIndex_proxy {A : Arith} {chk : Bool} {off off' : Nat} {ext : List Nat} {M : Nat} {ix : Ix} {m : Mapper}
    {args : List Arg} (h : everyIndex A chk off ext M ix = .ok (.proxy off' m args)) :
    (∃ l pre, ix = .rng l ∧ args = pre ++ [.rng l]) ∨
      ((IsPlain ix ∨ IsBounded ix) ∧ ∃ pre s x t, args = pre ++ [.slice s x t]) := by
  have key : ∀ {ix' : Ix}, everyFallback A chk off ext M ix' = .ok (.proxy off' m args) →
      (∀ l, ix' = .rng l → ∃ pre, args = pre ++ [.rng l]) ∧
      (∀ s x, ix' = .slice s x → ∃ pre, args = pre ++ [.slice s x 1]) ∧
      (∀ s x t, ix' = .strided s x t → ∃ pre, args = pre ++ [.slice s x t]) := by
    intro ix' h
    simp only [everyFallback, res_bind_ok] at h
    obtain ⟨d, _, h⟩ := h
    refine ⟨?_, ?_, ?_⟩
    · rintro l rfl; exact ⟨_, proxyAt_proxy h⟩
    · rintro s x rfl; exact ⟨_, proxyAt_proxy h⟩
    · rintro s x t rfl; exact ⟨_, proxyAt_proxy h⟩
  cases ix with
  | «at» i =>
    simp only [everyIndex] at h
    split at h
    · simp only [res_bind_ok] at h
      obtain ⟨_, _, h⟩ := h
      split at h <;> cases h
    · cases h
  | slice s x =>
    simp only [everyIndex] at h
    split at h
    · simp only [res_bind_ok] at h
      obtain ⟨_, _, h⟩ := h
      split at h <;> cases h
    · obtain ⟨pre, hp⟩ := (key h).2.1 s x rfl
      exact .inr ⟨.inl trivial, pre, s, x, 1, hp⟩
  | strided s x t =>
    obtain ⟨pre, hp⟩ := (key h).2.2 s x t rfl
    exact .inr ⟨.inl trivial, pre, s, x, t, hp⟩
  | every =>
    simp only [everyIndex] at h
    split at h <;> cases h
  | bounded s mx =>
    obtain ⟨pre, hp⟩ := (key h).2.1 _ _ rfl
    exact .inr ⟨.inr trivial, pre, _, _, _, hp⟩
  | boundedStrided s mx t =>
    simp only [everyIndex, res_bind_ok] at h
    obtain ⟨x, _, h⟩ := h
    obtain ⟨pre, hp⟩ := (key h).2.2 _ _ _ rfl
    exact .inr ⟨.inr trivial, pre, _, _, _, hp⟩
  | rng l =>
    obtain ⟨pre, hp⟩ := (key h).1 l rfl
    exact .inl ⟨l, pre, rfl, hp⟩

theorem sameObj_part_right {o : Obj} {a : AObj} (h : SameObj o.abs a) :
    (∃ v s, a = .part v s) ↔ (∃ v s, o.abs = .part v s) := by
  cases ho : o.abs <;> cases a <;> simp_all [SameObj]

theorem sameObj_view_right {o : Obj} {a : AObj} (h : SameObj o.abs a) :
    (∃ v, a = .view v) ↔ (∃ v, o.abs = .view v) := by
  cases ho : o.abs <;> cases a <;> simp_all [SameObj]

/-- The chain so far was `every`s only: the special proxy of contiguous arrays. -/
def Obj.isEvery : Obj → Bool
  | .everyProxy _ _ _ => true
  | _ => false

theorem last_hold (tmp : Bool) (pre : List Arg) (a : Arg) :
    (pre ++ [a]).dropLast.map .val ++ ((pre ++ [a]).getLast?.map (holdEvery tmp)).toList =
      pre.map .val ++ [holdEvery tmp a] := by
  simp

/-- A safe step keeps the chain free of references to parameters. -/
theorem hindex_solid {pl n : Bool} {h h' : HObj} {o o' : Obj} {a : AObj} {ev : Bool} {x : HIx}
    (hs : HSim h o) (hso : h.Solid n) (hwf : o.WF) (ha : SameObj o.abs a) (hev : o.isEvery = true → ev = true)
    (hsafe : StepSafe a ev x.ix) (ht : x.tmp = true → n = true)
    (hi : h.index pl Arith.exact true x.ix x.tmp = .ok h') (ho : o.index Arith.exact true x.ix = .ok o') :
    h'.Solid n := by
  have st := (index_step hwf ho).congr ha
  have hopen : ∀ {off m held}, h' = .proxy off m held → HSim h' o' → Open a x.ix := by
    intro off m held e hs'
    subst e
    cases hs' with
    | @proxy _ _ _ args hd =>
      have hsame := st.same
      have hw := st.wf
      obtain ⟨v, s, hv⟩ := (sameObj_part_right st.same).2 ⟨_, _, rfl⟩
      refine ⟨v, s, hv, ?_⟩
      rw [hv] at hsame
      obtain ⟨hsv, rfl⟩ := hsame
      rw [← hsv.1]
      have : (m.aview off).ext = m.desc.ext := by cases m <;> rfl
      rw [this]
      simpa using hw.2.2
  have hsim' : HSim h' o' := by
    rcases hindex_good (pl := pl) (A := Arith.exact) (chk := true) (ix := x.ix) (tmp := x.tmp) hs (hso.good pl) with
      ⟨f, e1, _⟩ | ⟨h2, o2, e1, e2, e3⟩
    · rw [e1] at hi; cases hi
    · rw [e1] at hi; rw [e2] at ho; cases hi; cases ho; exact e3
  cases hs with
  | @proxy off m held args hd =>
    have hnv : ¬ ∃ v, a = .view v := by
      rw [sameObj_view_right ha]; rintro ⟨v, hv⟩; simp [Obj.abs] at hv
    rcases hproxy_good (A := Arith.exact) (chk := true) (ix := x.ix) (tmp := x.tmp) hd (hso.good pl) with
      ⟨f, e1, _⟩ | ⟨o2, e1, _, _⟩ | ⟨y, b, e0, _, _, e1, _⟩
    · simp only [HObj.index, e1] at hi; cases hi
    · simp only [HObj.index, e1] at hi; cases hi; trivial
    · simp only [HObj.index, e1] at hi; cases hi
      have hop := hopen rfl hsim'
      obtain ⟨hnp, _⟩ := (hsafe hop).resolve_left hnv
      intro z hz
      rcases List.mem_append.1 hz with hz | hz
      · exact hso z hz
      · simp only [List.mem_singleton] at hz
        subst hz
        cases hix : x.ix with
        | «at» i => rw [hix] at hnp; exact absurd trivial hnp
        | slice s k => rw [hix] at hnp; exact absurd trivial hnp
        | strided s k t => rw [hix] at hnp; exact absurd trivial hnp
        | every => rw [hix] at e0; cases e0; exact .inl ⟨_, rfl⟩
        | bounded s mx => rw [hix] at e0; cases e0; exact .inl ⟨_, rfl⟩
        | boundedStrided s mx t =>
          rw [hix] at e0
          simp only [proxyHold, res_bind_ok] at e0
          obtain ⟨k, _, e0⟩ := e0
          cases e0; exact .inl ⟨_, rfl⟩
        | rng l => rw [hix] at e0; cases e0; exact .inr ⟨l, x.tmp, rfl, ht⟩
  | obj hn =>
    cases o with
    | proxy off m args => exact absurd rfl (hn off m args)
    | everyProxy off ext M =>
      have hnv : ¬ ∃ v, a = .view v := by
        rw [sameObj_view_right ha]; rintro ⟨v, hv⟩; simp [Obj.abs] at hv
      simp only [HObj.index, Obj.index] at hi ho
      rw [ho] at hi
      simp only [res_ok_bind] at hi
      cases o' with
      | proxy off' m args =>
        cases hi
        have hop := hopen rfl hsim'
        obtain ⟨hnp, hnb⟩ := (hsafe hop).resolve_left hnv
        rcases everyIndex_proxy ho with ⟨l, pre, _, rfl⟩ | ⟨hpb, _⟩
        · rw [last_hold]
          intro z hz
          rcases List.mem_append.1 hz with hz | hz
          · obtain ⟨b, _, rfl⟩ := List.mem_map.1 hz
            exact .inl ⟨b, rfl⟩
          · simp only [List.mem_singleton] at hz
            subst hz
            exact .inr ⟨l, x.tmp, rfl, ht⟩
        · rcases hpb with hp | hb
          · exact absurd hp hnp
          · have := hnb hb
            rw [hev rfl] at this; cases this
      | elem => cases hi; trivial
      | cref => cases hi; trivial
      | sref => cases hi; trivial
      | everyProxy => cases hi; trivial
    | elem => cases ho
    | cref off ext =>
      simp only [HObj.index] at hi
      rw [ho] at hi
      simp only [res_ok_bind] at hi
      cases o' with
      | proxy off' m args =>
        cases hi
        intro z hz
        obtain ⟨b, _, rfl⟩ := List.mem_map.1 hz
        exact solid_holdFirst ht b
      | elem => cases hi; trivial
      | cref => cases hi; trivial
      | sref => cases hi; trivial
      | everyProxy => cases hi; trivial
    | sref off m =>
      simp only [HObj.index] at hi
      rw [ho] at hi
      simp only [res_ok_bind] at hi
      cases o' with
      | proxy off' m args =>
        cases hi
        intro z hz
        obtain ⟨b, _, rfl⟩ := List.mem_map.1 hz
        exact solid_holdFirst ht b
      | elem => cases hi; trivial
      | cref => cases hi; trivial
      | sref => cases hi; trivial
      | everyProxy => cases hi; trivial


theorem arraySlice_sref {A : Arith} {chk : Bool} {off : Nat} {m : Mapper} {args : List Arg} {o : Obj}
    (h : arraySlice A chk off m args = .ok o) : o.isEvery = false := by
  unfold arraySlice at h
  split at h
  · simp only [res_bind_ok] at h
    obtain ⟨d, _, h⟩ := h
    cases m with
    | ident d => cases h; rfl
    | vec d l => simp only [res_bind_ok] at h; obtain ⟨_, _, _, _, _, _, h⟩ := h; cases h; rfl
  · simp only [res_bind_ok] at h
    obtain ⟨⟨ext, ps⟩, _, h⟩ := h
    cases m with
    | ident d => simp only [res_bind_ok] at h; obtain ⟨_, _, h⟩ := h; cases h; rfl
    | vec d l => simp only [res_bind_ok] at h; obtain ⟨_, _, _, _, h⟩ := h; cases h; rfl

theorem arrayAtArg_notEvery {A : Arith} {chk : Bool} {off : Nat} {m : Mapper} {a : Arg} {o : Obj}
    (h : arrayAtArg A chk off m a = .ok o) : o.isEvery = false := by
  unfold arrayAtArg at h
  split at h
  · exact arraySlice_sref h
  · cases h; rfl

theorem arrayAtArgC_notEvery {A : Arith} {chk : Bool} {off : Nat} {ext : List Nat} {a : Arg} {o : Obj}
    (h : arrayAtArgC A chk off ext a = .ok o) : o.isEvery = false := by
  simp only [arrayAtArgC, res_bind_ok] at h
  obtain ⟨_, _, h⟩ := h
  exact arrayAtArg_notEvery h

theorem arrayAtSliceC_notEvery {A : Arith} {chk : Bool} {off : Nat} {ext : List Nat} {s x : Nat} {o : Obj}
    (h : arrayAtSliceC A chk off ext s x = .ok o) : o.isEvery = false := by
  unfold arrayAtSliceC at h
  split at h
  · simp only [res_bind_ok] at h
    obtain ⟨_, _, h⟩ := h
    cases h; rfl
  · simp only [res_bind_ok] at h
    obtain ⟨_, _, h⟩ := h
    exact arrayAtArg_notEvery h

theorem proxyAt_notEvery {A : Arith} {chk : Bool} {off : Nat} {m : Mapper} {args : List Arg} {a : Arg} {o : Obj}
    (h : proxyAt A chk off m args a = .ok o) : o.isEvery = false := by
  unfold proxyAt at h
  split at h
  · exact arraySlice_sref h
  · cases h; rfl

/-- The special proxy appears only when a contiguous view is indexed with `every`. -/
theorem index_isEvery {A : Arith} {chk : Bool} {o o' : Obj} {ix : Ix} (h : o.index A chk ix = .ok o')
    (he : o'.isEvery = true) : o.isEvery = true ∨ ((∃ off ext, o = .cref off ext) ∧ ix = .every) := by
  have no : o'.isEvery = false → o.isEvery = true ∨ ((∃ off ext, o = .cref off ext) ∧ ix = .every) := by
    intro hf; rw [he] at hf; cases hf
  cases o with
  | elem => cases h
  | everyProxy => exact .inl rfl
  | cref off ext =>
    cases ix with
    | every => exact .inr ⟨⟨off, ext, rfl⟩, rfl⟩
    | «at» i =>
      simp only [Obj.index, crefIndex, res_bind_ok] at h
      obtain ⟨_, _, h⟩ := h
      split at h
      · cases h; cases he
      · simp only [res_bind_ok] at h
        obtain ⟨_, _, _, _, h⟩ := h
        cases h; cases he
    | slice s x => exact no (arrayAtSliceC_notEvery h)
    | strided s x t => exact no (arrayAtArgC_notEvery h)
    | bounded s mx => exact no (arrayAtSliceC_notEvery h)
    | boundedStrided s mx t =>
      simp only [Obj.index, crefIndex, res_bind_ok] at h
      obtain ⟨_, _, h⟩ := h
      exact no (arrayAtArgC_notEvery h)
    | rng l =>
      simp only [Obj.index, crefIndex] at h
      split at h
      · simp only [res_bind_ok] at h
        obtain ⟨_, _, _, _, h⟩ := h
        cases h; cases he
      · exact no (arrayAtArgC_notEvery h)
  | sref off m =>
    cases ix with
    | every =>
      simp only [Obj.index, srefIndex, arrayAtEvery, Except.ok.injEq] at h
      split at h <;> (subst h; cases he)
    | «at» i =>
      simp only [Obj.index, srefIndex, arrayAtIdx, res_bind_ok] at h
      obtain ⟨_, _, h⟩ := h
      split at h
      · simp only [res_bind_ok] at h
        obtain ⟨_, _, h⟩ := h
        cases h; cases he
      · simp only [res_bind_ok] at h
        obtain ⟨_, _, h⟩ := h
        cases h; cases he
    | slice s x => exact no (arrayAtArg_notEvery h)
    | strided s x t => exact no (arrayAtArg_notEvery h)
    | bounded s mx => exact no (arrayAtArg_notEvery h)
    | boundedStrided s mx t =>
      simp only [Obj.index, srefIndex, res_bind_ok] at h
      obtain ⟨_, _, h⟩ := h
      exact no (arrayAtArg_notEvery h)
    | rng l => exact no (arrayAtArg_notEvery h)
  | proxy off m args =>
    rcases proxyIndex_hold (A := A) (chk := chk) (off := off) (m := m) (args := args) (ix := ix) (tmp := false) with
      ⟨_, a, _, _, _, e⟩ | ⟨f, _, e⟩
    · simp only [Obj.index] at h
      rw [e] at h
      exact no (proxyAt_notEvery h)
    · simp only [Obj.index] at h
      rw [e] at h; cases h

/-- A safe accepted chain gives the same object whatever the lifetime of parameters, and wherever it is cut
into full expressions (unless it uses temporary ranges). -/
theorem hrun_safe {pl n : Bool} : ∀ {xs : List HIx} {h : HObj} {o o' : Obj} {a : AObj} {ev : Bool}, HSim h o →
    h.Solid n → o.WF → SameObj o.abs a → (o.isEvery = true → ev = true) → ChainSafe a ev (xs.map (·.ix)) →
    (∀ x ∈ xs, x.tmp = true → n = true) → (n = true → ∀ x ∈ xs, x.ends = false) →
    o.run Arith.exact true (xs.map (·.ix)) = .ok o' →
    ∃ h', h.run pl Arith.exact true xs = .ok h' ∧ HSim h' o'
  | [], h, o, o', a, ev, hs, _, _, _, _, _, _, _, hr => by
    simp only [List.map_nil, Obj.run, List.foldlM_nil, res_pure, Except.ok.injEq] at hr
    subst hr
    exact ⟨h, rfl, hs⟩
  | x :: xs, h, o, o', a, ev, hs, hso, hwf, ha, hev, hc, ht, hn, hr => by
    simp only [List.map_cons, Obj.run, List.foldlM_cons, res_bind_ok] at hr
    obtain ⟨o1, h1, h2⟩ := hr
    obtain ⟨hst, hc⟩ := hc
    rcases hindex_good (pl := pl) (A := Arith.exact) (chk := true) (ix := x.ix) (tmp := x.tmp) hs (hso.good pl) with
      ⟨f, _, e2⟩ | ⟨h2', o2, e1, e2, e3⟩
    · rw [e2] at h1; cases h1
    · rw [e2] at h1; cases h1
      have st := (index_step hwf e2).congr ha
      have hso' := hindex_solid hs hso hwf ha hev hst (ht x (by simp)) e1 e2
      simp only [HObj.run, List.foldlM_cons, HObj.step, e1, res_ok_bind]
      have hev' : o1.isEvery = true → nextEv a ev x.ix = true := by
        intro he
        rcases index_isEvery e2 he with ho | ⟨⟨off, ext, rfl⟩, hx⟩
        · cases o with
          | everyProxy off ext M =>
            obtain ⟨v, s, rfl⟩ := (sameObj_part_right ha).2 ⟨_, _, rfl⟩
            exact hev ho
          | _ => cases ho
        · obtain ⟨v, rfl⟩ := (sameObj_view_right ha).2 ⟨_, rfl⟩
          simp [hx, nextEv]
      cases n with
      | true =>
        rw [if_neg (by simp [hn rfl x (by simp)])]
        exact hrun_safe e3 hso' st.wf st.same hev' hc (fun y hy => ht y (by simp [hy]))
          (fun _ y hy => hn rfl y (by simp [hy])) h2
      | false =>
        split
        · exact hrun_safe (hsim_endExpr e3) hso'.endExpr st.wf st.same hev' hc (fun y hy => ht y (by simp [hy]))
            (fun e => by cases e) h2
        · exact hrun_safe e3 hso' st.wf st.same hev' hc (fun y hy => ht y (by simp [hy]))
            (fun e => by cases e) h2

/-- A step that leaves something dangling does so. -/
theorem hindex_dangling {pl : Bool} {h h' : HObj} {o o' : Obj} {a : AObj} {x : HIx}
    (hs : HSim h o) (hwf : o.WF) (ha : SameObj o.abs a) (hd : LeavesDangling pl a x)
    (hi : h.step pl Arith.exact true x = .ok h') (ho : o.index Arith.exact true x.ix = .ok o')
    (hs' : HSim h' o') : ¬ h'.Good pl := by
  obtain ⟨hop, hd⟩ := hd
  have st := (index_step hwf ho).congr ha
  have hopart := (sameObj_part_right st.same).1 (let ⟨v, s, h, _⟩ := hop; ⟨v, s, h⟩)
  simp only [HObj.step, res_bind_ok] at hi
  obtain ⟨h1, hi, he⟩ := hi
  simp only [Except.ok.injEq] at he
  have key : (∃ off m pre y, h1 = .proxy off m (pre ++ [y]) ∧
      (IsPlain x.ix → (∃ v s, a = .part v s) → ∃ b, y = .param b) ∧
      (∀ l, x.ix = .rng l → y = .range l x.tmp)) ∨
      (∃ off ext M, h1 = .obj (.everyProxy off ext M) ∧ x.ix = .every) := by
    cases hs with
    | @proxy off m held args hd =>
      simp only [HObj.index, hproxyIndex, res_bind_ok] at hi
      obtain ⟨y, hy, hi⟩ := hi
      split at hi
      · simp only [res_bind_ok] at hi
        obtain ⟨_, _, _, _, r, _, hi⟩ := hi
        cases hi
        have : HSim (.obj r) o' := by
          subst he
          split at hs' <;> exact hs'
        cases this with
        | obj hn =>
          cases o' with
          | proxy off m args => exact absurd rfl (hn _ _ _)
          | everyProxy off ext M =>
            rcases index_isEvery ho rfl with h | ⟨⟨_, _, h⟩, _⟩ <;> cases h
          | _ => obtain ⟨v, s, e⟩ := hopart; cases e
      · cases hi
        refine .inl ⟨off, m, held, y, rfl, ?_, ?_⟩
        · intro hp _
          cases hix : x.ix <;> rw [hix] at hy hp <;> first
            | (cases hy; exact ⟨_, rfl⟩)
            | exact hp.elim
        · intro l hl
          rw [hl] at hy
          cases hy; rfl
    | obj hn =>
      cases o with
      | proxy off m args => exact absurd rfl (hn _ _ _)
      | elem => cases ho
      | everyProxy off ext M =>
        simp only [HObj.index, Obj.index] at hi ho
        rw [ho] at hi
        simp only [res_ok_bind] at hi
        cases o' with
        | proxy off' m args =>
          cases hi
          rcases everyIndex_proxy ho with ⟨l, pre, hl, rfl⟩ | ⟨hpb, pre, s, k, t, rfl⟩
          · refine .inl ⟨off', m, pre.map .val, holdEvery x.tmp (.rng l), by rw [last_hold], ?_, ?_⟩
            · intro hp; rw [hl] at hp; exact hp.elim
            · intro l' hl'; rw [hl] at hl'; cases hl'; rfl
          · refine .inl ⟨off', m, pre.map .val, holdEvery x.tmp (.slice s k t), by rw [last_hold], ?_, ?_⟩
            · intro _ _; exact ⟨_, rfl⟩
            · intro l' hl'; rw [hl'] at hpb; rcases hpb with h | h <;> exact h.elim
        | everyProxy off' ext' M' =>
          cases hi
          refine .inr ⟨_, _, _, rfl, ?_⟩
          cases hix : x.ix with
          | every => rfl
          | «at» i =>
            rw [hix] at ho
            simp only [everyIndex] at ho
            split at ho
            · simp only [res_bind_ok] at ho
              obtain ⟨_, _, ho⟩ := ho
              split at ho <;> cases ho
            · cases ho
          | slice s k =>
            rw [hix] at ho
            simp only [everyIndex] at ho
            split at ho
            · simp only [res_bind_ok] at ho
              obtain ⟨_, _, ho⟩ := ho
              split at ho <;> cases ho
            · simp only [everyFallback, res_bind_ok] at ho
              obtain ⟨_, _, ho⟩ := ho
              have := proxyAt_notEvery ho
              cases this
          | strided s k t =>
            rw [hix] at ho
            simp only [everyIndex, everyFallback, res_bind_ok] at ho
            obtain ⟨_, _, ho⟩ := ho
            have := proxyAt_notEvery ho
            cases this
          | bounded s mx =>
            rw [hix] at ho
            simp only [everyIndex, everyFallback, res_bind_ok] at ho
            obtain ⟨_, _, ho⟩ := ho
            have := proxyAt_notEvery ho
            cases this
          | boundedStrided s mx t =>
            rw [hix] at ho
            simp only [everyIndex, everyFallback, res_bind_ok] at ho
            obtain ⟨_, _, _, _, ho⟩ := ho
            have := proxyAt_notEvery ho
            cases this
          | rng l =>
            rw [hix] at ho
            simp only [everyIndex, everyFallback, res_bind_ok] at ho
            obtain ⟨_, _, ho⟩ := ho
            have := proxyAt_notEvery ho
            cases this
        | elem => obtain ⟨v, s, e⟩ := hopart; cases e
        | cref => obtain ⟨v, s, e⟩ := hopart; cases e
        | sref => obtain ⟨v, s, e⟩ := hopart; cases e
      | _ =>
        have hnp : ¬ ∃ v s, a = .part v s := by
          rw [sameObj_part_right ha]; rintro ⟨v, s, hv⟩; simp [Obj.abs] at hv
        simp only [HObj.index] at hi
        rw [ho] at hi
        simp only [res_ok_bind] at hi
        cases o' with
        | proxy off' m args =>
          cases hi
          have hrng : ∀ l, x.ix = .rng l → args = [.rng l] := by
            intro l hl
            rw [hl] at ho
            first
            | simp only [Obj.index, crefIndex] at ho
              split at ho
              · simp only [res_bind_ok] at ho
                obtain ⟨_, _, _, _, ho⟩ := ho
                cases ho
              · simp only [arrayAtArgC, arrayAtArg, res_bind_ok] at ho
                obtain ⟨_, _, ho⟩ := ho
                split at ho
                · exact absurd rfl (arraySlice_not_proxy ho _ _ _)
                · cases ho; rfl
            | simp only [Obj.index, srefIndex, arrayAtArg] at ho
              split at ho
              · exact absurd rfl (arraySlice_not_proxy ho _ _ _)
              · cases ho; rfl
          rcases List.eq_nil_or_concat args with rfl | ⟨pre, b, rfl⟩
          · exact absurd rfl st.wf.2.1
          · refine .inl ⟨off', m, pre.map (holdFirst x.tmp), holdFirst x.tmp b, by simp, ?_, ?_⟩
            · intro _ h; exact absurd h hnp
            · intro l hl
              have := hrng l hl
              rw [List.concat_eq_append] at this
              have hb : b = .rng l := by
                have := congrArg List.getLast? this
                simpa using this
              subst hb; rfl
        | everyProxy off' ext' M' =>
          cases hi
          refine .inr ⟨_, _, _, rfl, ?_⟩
          rcases index_isEvery ho rfl with h | ⟨_, h⟩
          · cases h
          · exact h
        | elem => obtain ⟨v, s, e⟩ := hopart; cases e
        | cref => obtain ⟨v, s, e⟩ := hopart; cases e
        | sref => obtain ⟨v, s, e⟩ := hopart; cases e
  rcases key with ⟨off, m, pre, y, rfl, hp, hr⟩ | ⟨off, ext, M, rfl, hx⟩
  · rcases hd with ⟨h1, h2, h3⟩ | ⟨⟨l, hl⟩, h2, h3⟩
    · obtain ⟨b, rfl⟩ := hp h1 h2
      subst he
      cases hends : x.ends with
      | true =>
        simp only [if_true]
        exact not_good_iff.2 ⟨.dead, by simp [Held.endExpr], rfl⟩
      | false =>
        rw [hends] at h3
        simp only [Bool.false_eq_true, or_false, if_false] at h3 ⊢
        exact not_good_iff.2 ⟨.param b, by simp, by simp [Held.load, h3]⟩
    · have := hr l hl
      subst this
      subst he
      rw [h3, h2]
      simp only [if_true]
      exact not_good_iff.2 ⟨.dead, by simp [Held.endExpr], rfl⟩
  · rcases hd with ⟨h1, _⟩ | ⟨⟨l, hl⟩, _⟩
    · rw [hx] at h1; exact h1.elim
    · rw [hx] at hl; cases hl

theorem hrun_append {pl : Bool} {A : Arith} {chk : Bool} {o : HObj} {h k : List HIx} :
    o.run pl A chk (h ++ k) = o.run pl A chk h >>= fun o' => o'.run pl A chk k := by
  simp only [HObj.run, List.foldlM_append]


/-- Nothing held is dead. -/
def HObj.NoDead : HObj → Prop
  | .obj _ => True
  | .proxy _ _ held => Held.dead ∉ held

theorem HObj.NoDead.good {h : HObj} (hd : h.NoDead) : h.Good true := by
  cases h with
  | obj => trivial
  | proxy off m held =>
    intro x hx
    cases x with
    | dead => exact absurd hx hd
    | _ => exact ⟨_, rfl⟩

theorem proxyHold_ne_dead {A : Arith} {m : Mapper} {k : Nat} {ix : Ix} {tmp : Bool} {y : Held}
    (h : proxyHold A m k ix tmp = .ok y) : y ≠ .dead := by
  cases ix <;> first
    | (cases h; simp; done)
    | (simp only [proxyHold, res_bind_ok] at h; obtain ⟨_, _, h⟩ := h; cases h; simp)

theorem hindex_noDead {pl : Bool} {A : Arith} {chk : Bool} {h h' : HObj} {ix : Ix} {tmp : Bool} (hd : h.NoDead)
    (hi : h.index pl A chk ix tmp = .ok h') : h'.NoDead := by
  cases h with
  | proxy off m held =>
    simp only [HObj.index, hproxyIndex, res_bind_ok] at hi
    obtain ⟨y, hy, hi⟩ := hi
    split at hi
    · simp only [res_bind_ok] at hi
      obtain ⟨_, _, _, _, r, _, hi⟩ := hi
      cases hi; trivial
    · cases hi
      intro hm
      rcases List.mem_append.1 hm with hm | hm
      · exact hd hm
      · simp only [List.mem_singleton] at hm
        exact proxyHold_ne_dead hy hm.symm
  | obj o =>
    have fin : ∀ {r : Obj}, (∀ args : List Arg, Held.dead ∉ args.map (holdFirst tmp)) := by
      intro r args hm
      obtain ⟨b, _, hb⟩ := List.mem_map.1 hm
      cases b <;> cases hb
    cases o with
    | everyProxy off ext M =>
      simp only [HObj.index, res_bind_ok] at hi
      obtain ⟨r, _, hi⟩ := hi
      cases r with
      | proxy off' m args =>
        cases hi
        intro hm
        rcases List.mem_append.1 hm with hm | hm
        · obtain ⟨b, _, hb⟩ := List.mem_map.1 hm
          cases hb
        · simp only [Option.mem_toList, Option.map_eq_some_iff] at hm
          obtain ⟨b, _, hb⟩ := hm
          cases b <;> cases hb
      | _ => cases hi; trivial
    | _ =>
      simp only [HObj.index, res_bind_ok] at hi
      obtain ⟨r, _, hi⟩ := hi
      cases r with
      | proxy off' m args => cases hi; exact fin (r := .elem 0) args
      | _ => cases hi; trivial

/-- Parameters that live to the end of the full expression, and a chain inside one full expression. -/
theorem hrun_one {A : Arith} {chk : Bool} : ∀ {xs : List HIx} {h : HObj} {o : Obj}, HSim h o → h.NoDead →
    (∀ x ∈ xs, x.ends = false) →
    (∃ f, h.run true A chk xs = .error f ∧ o.run A chk (xs.map (·.ix)) = .error f) ∨
    (∃ h' o', h.run true A chk xs = .ok h' ∧ o.run A chk (xs.map (·.ix)) = .ok o' ∧ HSim h' o')
  | [], h, o, hs, _, _ => .inr ⟨h, o, rfl, rfl, hs⟩
  | x :: xs, h, o, hs, hd, he => by
    simp only [HObj.run, List.foldlM_cons, HObj.step, List.map_cons, Obj.run]
    rcases hindex_good (A := A) (chk := chk) (ix := x.ix) (tmp := x.tmp) hs hd.good with ⟨f, e1, e2⟩ | ⟨h', o', e1, e2, e3⟩
    · exact .inl ⟨f, by simp only [e1, res_error_bind], by simp only [e2, res_error_bind]⟩
    · simp only [e1, e2, res_ok_bind, he x (by simp), Bool.false_eq_true, if_false]
      exact hrun_one e3 (hindex_noDead hd e1) fun y hy => he y (by simp [hy])

end Jules

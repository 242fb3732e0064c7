import Verif.Spec.Blocks64
import Verif.Lemmas.SafeBlockProgs
import Verif.Lemmas.Whole64
/-
Lemmas for C88: single statements do the same with 64-bit numbers as with all numbers.
-/
namespace Jules
open Spec Props

section
variable {α β : Type} {W : BWorld α} {w : World α} {T : Nat → Bool} {nx chk : Bool} {alloc : Nat → List (Nat × Nat) → Nat → Option Nat}

/-! ### States -/

/-- Extents that promise at most 2^62 elements. -/
def SmallExt (d : List Nat) : Prop := d ≠ [] ∧ (∀ n ∈ d, n ≤ maxElems) ∧ prod d ≤ maxElems

/-- An array below 2^62. -/
def OwnFit (o : Own) : Prop := o.ext ≠ [] ∧ (∀ n ∈ o.ext, n ≤ maxElems) ∧ prod o.ext ≤ maxElems ∧ ∀ b, o.ptr = some b → b + prod o.ext < maxElems

theorem belowB_iff : BelowB W ↔ ∀ x o, W.env x = some o → OwnFit o := Iff.rfl

theorem hollow_agr {o : Own} (h : OwnFit o) : o.hollow Arith.u64 = o.hollow Arith.exact := by
  unfold Own.hollow
  rw [(prodL_fit h.2.2.1).1, (prodL_fit h.2.2.1).2]

theorem flat_agr (h : BelowB W) : W.flat Arith.u64 = W.flat Arith.exact := by
  unfold BWorld.flat
  congr 1
  funext x
  cases hx : W.env x with
  | none => rfl
  | some o => simp only [Option.bind_some, hollow_agr (h x o hx)]

theorem usable_agr (h : BelowB W) (xs : List Nat) : W.usable Arith.u64 xs = W.usable Arith.exact xs := by
  unfold BWorld.usable
  congr 3
  funext x
  cases hx : W.env x with
  | none => rfl
  | some o => exact hollow_agr (h x o hx)

theorem flat_own {x : Nat} {c : Arr} (hc : (W.flat Arith.exact).env x = some c) :
    ∃ o, W.env x = some o ∧ o.ext = c.ext ∧ ((o.ptr = some c.base) ∨ (o.ptr = none ∧ c.base = 0 ∧ prod c.ext = 0)) := by
  simp only [BWorld.flat] at hc
  cases hx : W.env x with
  | none => rw [hx] at hc; cases hc
  | some o =>
    rw [hx, Option.bind_some] at hc
    split at hc
    · cases hc
    · next hh =>
      cases hc
      refine ⟨o, rfl, rfl, ?_⟩
      obtain ⟨p, d⟩ := o
      cases p with
      | some b => exact .inl rfl
      | none => exact .inr ⟨rfl, rfl, by simpa [Own.hollow, prodL_exact] using hh⟩

theorem flat_below (h : BelowB W) : Below (W.flat Arith.exact) := by
  intro x c hc
  obtain ⟨o, h1, h2, h3⟩ := flat_own hc
  obtain ⟨_, q2, _, q4⟩ := h x o h1
  rw [h2] at q2 q4
  refine ⟨q2, ?_⟩
  rcases h3 with h3 | ⟨_, h3, h4⟩
  · exact q4 _ h3
  · rw [h3, h4]; decide

theorem flat_shaped (h : BelowB W) : ∀ x c, (W.flat Arith.exact).env x = some c → c.ext ≠ [] := by
  intro x c hc
  obtain ⟨o, h1, h2, _⟩ := flat_own hc
  rw [← h2]; exact (h x o h1).1

theorem belowB_put (h : BelowB W) {x : Nat} {o : Option Own} (ho : ∀ o', o = some o' → OwnFit o') : BelowB (W.put x o) := by
  intro y o' hy
  simp only [BWorld.put] at hy
  split at hy
  · exact ho o' hy
  · exact h y o' hy

theorem belowB_env {W' : BWorld α} (h : BelowB W) (he : W'.env = W.env) : BelowB W' := by
  intro x o hx
  rw [he] at hx
  exact h x o hx

theorem belowB_declare (h : BelowB W) (x : Option Nat) : BelowB (W.declare x) := by
  refine belowB_env h ?_
  cases x with
  | none => rfl
  | some x => unfold BWorld.declare; cases W.scopes <;> rfl

/-! ### Evaluations -/

/-- An object whose elements are at the same addresses, and that is small. -/
def FitO (o : Obj) : Prop := o.positions Arith.u64 = o.positions Arith.exact ∧ ∀ d, o.dims = some d → SmallExt d

def IxA (w : World α) (chk : Bool) (x : Nat) (h : List Ix) : Prop := Agr (w.index Arith.u64 chk x h) (w.index Arith.exact chk x h) FitO
def ScA (w : World α) (chk : Bool) (s : Sc α) : Prop := s.eval Arith.u64 chk w = s.eval Arith.exact chk w
def ExA (w : World α) (chk : Bool) (e : FEx α) : Prop := Agr (e.eval Arith.u64 chk w) (e.eval Arith.exact chk w) fun src => SmallExt src.dims

theorem wf_dims {o : Obj} (h : o.WF) {d : List Nat} (hd : o.dims = some d) : d ≠ [] := by
  cases o with
  | elem p => cases hd
  | cref off ext => cases hd; exact h
  | sref off m =>
    cases hd
    exact h.desc.2.1
  | proxy off m a => cases hd
  | everyProxy off m a => cases hd

theorem fitObj_fitO {E : Exts} {x : Nat} {h : List Ix} {o : Obj} (ho : FitObj E x h o) : FitO o := by
  refine ⟨positions_agr ho, fun d hd => ?_⟩
  obtain ⟨h1, h2, _⟩ := ho.dims d hd
  exact ⟨wf_dims ho.wf hd, h2, h1⟩

theorem ixA_of (hb : Below w) (hne : ∀ x c, w.env x = some c → c.ext ≠ []) {x : Nat} {h : List Ix} (hf : ChainFits (worldExts w) x h) : IxA w true x h :=
  agr_mono (index_agr hb hne hf) fun _ => fitObj_fitO

theorem ixA_ex {x : Nat} {h : List Ix} (hi : IxA w chk x h) : ExA w chk (.arr x h) := by
  refine agr_bind hi fun o ho => ?_
  unfold FSrc.ofObj
  cases hd : o.dims with
  | none => exact agr_err
  | some d =>
    dsimp only
    rw [ho.1]
    exact agr_bind agr_same fun ps _ => agr_ok (ho.2 d hd)

/-- Expressions from their parts. -/
theorem exA_un {f : α → Option α} {e : FEx α} (h : ExA w chk e) : ExA w chk (.un f e) := agr_bind h fun _ hs => agr_ok hs

theorem exA_bin {f : α → α → Option α} {a b : FEx α} (ha : ExA w chk a) (hb : ExA w chk b) : ExA w chk (.bin f a b) := by
  refine agr_bind ha fun s h1 => agr_bind hb fun t _ => ?_
  unfold FSrc.zip
  split
  · exact agr_err
  · exact agr_bind agr_same fun _ _ => agr_ok h1

theorem exA_scl {f : α → α → Option α} {s : Sc α} {e : FEx α} (hs : ScA w chk s) (h : ExA w chk e) : ExA w chk (.scl f s e) := by
  unfold ExA FEx.eval
  rw [hs]
  exact agr_bind agr_same fun c _ => agr_bind agr_same fun v _ => agr_bind h fun _ hs => agr_ok hs

theorem exA_scr {f : α → α → Option α} {s : Sc α} {e : FEx α} (hs : ScA w chk s) (h : ExA w chk e) : ExA w chk (.scr f e s) := by
  unfold ExA FEx.eval
  rw [hs]
  exact agr_bind h fun _ hs => agr_bind agr_same fun c _ => agr_bind agr_same fun v _ => agr_ok hs

theorem exA_of (hb : Below w) (hne : ∀ x c, w.env x = some c → c.ext ≠ []) : ∀ {e : FEx α}, ExFits (worldExts w) (shapeE e) → ExA w true e
  | .arr _ _, hs => ixA_ex (ixA_of hb hne hs)
  | .un _ e, hs => exA_un (exA_of hb hne (e := e) hs)
  | .bin _ _ _, hs => exA_bin (exA_of hb hne hs.1) (exA_of hb hne hs.2)
  | .scl _ _ _, hs => exA_scl (sc_agr hb hne hs.1) (exA_of hb hne hs.2)
  | .scr _ _ _, hs => exA_scr (sc_agr hb hne hs.2) (exA_of hb hne hs.1)

/-- All evaluations in a statement. -/
def FAgree (w : World α) (chk : Bool) : FStmt α → Prop
  | .plain _ => True
  | .make _ e => ExA w chk e
  | .makeFrom _ _ ext => (∀ n ∈ ext, n ≤ maxElems) ∧ prod ext ≤ maxElems
  | .assign x h e => IxA w chk x h ∧ ExA w chk e
  | .inPlace x h _ e => IxA w chk x h ∧ ExA w chk e
  | .inPlaceScalar x h _ s => IxA w chk x h ∧ ScA w chk s
  | .apply x h _ => IxA w chk x h
  | .overlap x h e => IxA w chk x h ∧ ExA w chk e
  | .overlapWhole _ e => ExA w chk e
  | .set _ e => ExA w chk e

def MAgree (w : World α) (chk : Bool) : MStmt α → Prop
  | .old (.makeFill _ s ext) => ScA w chk s ∧ (∀ n ∈ ext, n ≤ maxElems) ∧ prod ext ≤ maxElems
  | .old (.fill x h s) => IxA w chk x h ∧ ScA w chk s
  | .old s => FAgree w chk (totalS s)
  | _ => True

def XAgree (w : World α) (chk : Bool) : XStmt α → Prop
  | .calm s => MAgree w chk s
  | .wild s => FAgree w chk s

/-! ### The functions of the library -/

theorem allocateB_lt (hal : GoodBlocks64 alloc) {n b : Nat} {p p' : Pool α} (h : allocateB T alloc n p = .ok b p') : b + n < maxElems := by
  simp only [allocateB, bm_bind, BM.bind, mayThrow] at h
  split at h
  · next p'' h' =>
    unfold takeB at h
    cases ha : alloc p''.clock p''.blocks n with
    | none => rw [ha] at h; cases h
    | some a =>
      rw [ha] at h; cases h
      exact hal.2 _ _ _ _ ha
  · cases h
  · cases h

theorem newB_agr {d : List Nat} (hd : SmallExt d) (src : Nat → Mem α → Res α) : newB Arith.u64 T nx alloc d src = newB Arith.exact T nx alloc d src := by
  unfold newB
  rw [(prodL_fit hd.2.2).1, (prodL_fit hd.2.2).2]

theorem newB_fit (hal : GoodBlocks64 alloc) {d : List Nat} (hd : SmallExt d) {src : Nat → Mem α → Res α} {p p' : Pool α} {o : Own}
    (h : newB Arith.exact T nx alloc d src p = .ok o p') : OwnFit o ∧ ∃ b, o = ⟨some b, d⟩ := by
  simp only [newB, bm_bind, BM.bind, prodL_exact] at h
  split at h
  · next b q hb =>
    have := allocateB_lt hal hb
    split at h
    · cases h
      refine ⟨⟨hd.1, hd.2.1, hd.2.2, fun b' hb' => ?_⟩, b, rfl⟩
      cases hb'; exact this
    · cases h
    · cases h
  · cases h
  · cases h

theorem clearB_agr {o : Own} (h : OwnFit o) : (clearB Arith.u64 o : BM α Unit) = clearB Arith.exact o := by
  unfold clearB
  cases o.ptr with
  | none => rfl
  | some b => dsimp only; rw [(prodL_fit h.2.2.1).1, (prodL_fit h.2.2.1).2]

theorem assignB_agr {o : Obj} (ho : o.positions Arith.u64 = o.positions Arith.exact) (src : FSrc α) : assignB Arith.u64 chk T o src = assignB Arith.exact chk T o src := by
  unfold assignB; rw [ho]

theorem inPlaceB_agr {o : Obj} (ho : o.positions Arith.u64 = o.positions Arith.exact) (op : α → α → α × Bool) (src : FSrc α) :
    inPlaceB Arith.u64 chk T o op src = inPlaceB Arith.exact chk T o op src := by
  unfold inPlaceB; rw [ho]

theorem fillB_agr {o : Obj} (ho : o.positions Arith.u64 = o.positions Arith.exact) (c : Scalar α) : fillB Arith.u64 T o c = fillB Arith.exact T o c := by
  unfold fillB; rw [ho]

theorem inPlaceScalarB_agr {o : Obj} (ho : o.positions Arith.u64 = o.positions Arith.exact) (op : α → α → α × Bool) (c : Scalar α) :
    inPlaceScalarB Arith.u64 T o op c = inPlaceScalarB Arith.exact T o op c := by
  unfold inPlaceScalarB; rw [ho]

theorem applyB_agr {o : Obj} (ho : o.positions Arith.u64 = o.positions Arith.exact) (f : α → α × Bool) : applyB Arith.u64 T o f = applyB Arith.exact T o f := by
  unfold applyB; rw [ho]

theorem overlapB_agr (hal : GoodBlocks64 alloc) {o : Obj} (ho : o.positions Arith.u64 = o.positions Arith.exact) {src : FSrc α} (hs : SmallExt src.dims) (p : Pool α) :
    overlapB Arith.u64 chk T nx alloc o src p = overlapB Arith.exact chk T nx alloc o src p := by
  simp only [overlapB, bm_bind, BM.bind, newB_agr hs]
  cases hn : newB Arith.exact T nx alloc src.dims (fun k m => src.it.deref m k) p with
  | exn q => rfl
  | fail f => rfl
  | ok t q =>
    obtain ⟨hf, b, rfl⟩ := newB_fit hal hs hn
    have hpos : (Obj.cref b src.dims).positions Arith.u64 = (Obj.cref b src.dims).positions Arith.exact :=
      positions_agree (Z := maxElems) (by decide) (by decide) (o := .cref b src.dims) hs.1 ⟨hs.2.1, hf.2.2.2 b rfl⟩
    have hof : FSrc.ofObj (α := α) Arith.u64 (.cref b src.dims) = FSrc.ofObj Arith.exact (.cref b src.dims) := by
      unfold FSrc.ofObj; rw [hpos]
    simp only [Option.getD_some, hof, clearB_agr hf, assignB_agr ho]

theorem overlapWholeB_agr (hal : GoodBlocks64 alloc) {o : Own} (ho : OwnFit o) {src : FSrc α} (hs : SmallExt src.dims) :
    overlapWholeB Arith.u64 T nx alloc o src = overlapWholeB Arith.exact T nx alloc o src ∧
    ∀ p o' p', overlapWholeB Arith.exact T nx alloc o src p = .ok o' p' → OwnFit o' := by
  refine ⟨?_, fun p o' p' h => ?_⟩
  · unfold overlapWholeB
    rw [newB_agr hs, clearB_agr ho]
  · simp only [overlapWholeB, bm_bind, BM.bind] at h
    split at h
    · next t q hn =>
      split at h
      · cases h; exact (newB_fit hal hs hn).1
      · cases h
      · cases h
    · cases h
    · cases h

theorem setB_agr (hal : GoodBlocks64 alloc) {o : Own} (ho : OwnFit o) {src : FSrc α} (hs : SmallExt src.dims) :
    setB Arith.u64 T nx alloc o src = setB Arith.exact T nx alloc o src ∧
    ∀ p o' p', setB Arith.exact T nx alloc o src p = .ok o' p' → OwnFit o' := by
  obtain ⟨ptr, ext⟩ := o
  refine ⟨?_, fun p o' p' h => ?_⟩
  · unfold setB
    rw [(prodL_fit ho.2.2.1).1, (prodL_fit ho.2.2.1).2, (prodL_fit hs.2.2).1, (prodL_fit hs.2.2).2, clearB_agr ho]
    split
    · cases hc : src.it.count with
      | none => rfl
      | some n =>
        dsimp only
        split
        · rfl
        · next hn =>
          cases ptr with
          | none => rfl
          | some b =>
            have : (List.range n).map (Arith.u64.add b ·) = (List.range n).map (Arith.exact.add b ·) := by
              apply List.map_congr_left
              intro k hk
              have h1 := List.mem_range.1 hk
              have h2 : b + prod ext < maxElems := ho.2.2.2 b rfl
              have h3 := maxElems_lt
              have h4 : ¬ prod ext < n := hn
              show (b + k) % W64 = b + k
              exact Nat.mod_eq_of_lt (by omega)
            dsimp only
            rw [this]
    · rfl
  · unfold setB at h
    rw [(prodL_fit ho.2.2.1).2, (prodL_fit hs.2.2).2] at h
    split at h
    · next heq =>
      have heq : prod ext = prod src.dims := heq
      cases hc : src.it.count with
      | none => rw [hc] at h; cases h
      | some n =>
        rw [hc] at h
        dsimp only at h
        split at h
        · cases h
        · cases ptr with
          | none =>
            dsimp only at h
            split at h
            · cases h
              exact ⟨hs.1, hs.2.1, hs.2.2, fun b hb => by cases hb⟩
            · cases h
          | some b =>
            simp only [bm_bind, BM.bind] at h
            split at h
            · cases h
              refine ⟨hs.1, hs.2.1, hs.2.2, fun b' hb' => ?_⟩
              cases hb'
              show b + prod src.dims < _
              rw [← heq]; exact ho.2.2.2 b rfl
            · cases h
            · cases h
    · simp only [bm_bind, BM.bind] at h
      split at h
      · next b q hb =>
        have := allocateB_lt hal hb
        split at h
        · split at h
          · cases h
            refine ⟨hs.1, hs.2.1, hs.2.2, fun b' hb' => ?_⟩
            cases hb'; exact this
          · cases h
          · cases h
        · cases h
        · cases h
      · cases h
      · cases h

end
end Jules

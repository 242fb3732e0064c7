import Verif.Spec.Program64
import Verif.Lemmas.Sound
import Verif.Props.Wrap
import Verif.Props.Sound
/-
64-bit programs compute what exact programs compute.
-/
namespace Jules
open Spec Props

/-! ### Fitting does not depend on the address of the array -/

theorem adm_toA (off off' : Nat) (e : List Nat) (o : IObj) (ix : Ix) :
    Admissible (IObj.toA off e o) ix ↔ Admissible (IObj.toA off' e o) ix := by
  cases o <;> cases ix <;> exact Iff.rfl

theorem size_toA (n off off' : Nat) (e : List Nat) (o : IObj) : SizeAtMost n (IObj.toA off e o) ↔ SizeAtMost n (IObj.toA off' e o) := by
  cases o <;> exact Iff.rfl

theorem nextDim_toA (off off' : Nat) (e : List Nat) (o : IObj) : nextDim (IObj.toA off e o) = nextDim (IObj.toA off' e o) := by
  cases o <;> rfl

theorem fitsAll_toA (n off off' : Nat) (e : List Nat) : ∀ (h : List Ix) (o : IObj),
    FitsAll n (IObj.toA off e o) h → FitsAll n (IObj.toA off' e o) h
  | [], _, _ => trivial
  | ix :: h, o, ⟨h1, h2⟩ => by
    refine ⟨nextDim_toA off off' e o ▸ h1, fun ha => ?_⟩
    obtain ⟨k1, k2⟩ := h2 ((adm_toA off off' e o ix).2 ha)
    rw [← toA_istep] at k1 k2 ⊢
    exact ⟨(size_toA n off off' e _).1 k1, fitsAll_toA n off off' e h _ k2⟩

theorem fitsAll_size {n : Nat} : ∀ {h : List Ix} {a : AObj}, SizeAtMost n a → AdmAll a h → FitsAll n a h → SizeAtMost n (h.foldl astep a)
  | [], _, hs, _, _ => hs
  | ix :: h, a, _, ⟨h1, h2⟩, ⟨_, k2⟩ => by
    obtain ⟨q1, q2⟩ := k2 h1
    exact fitsAll_size (h := h) q1 h2 q2

/-! ### Agreement -/

/-- The same outcome, and a value has the property `P`. -/
def Agr (r r' : Res β) (P : β → Prop) : Prop := r = r' ∧ ∀ b, r' = .ok b → P b

theorem agr_ok {b : β} {P : β → Prop} (h : P b) : Agr (.ok b) (.ok b) P := ⟨rfl, fun _ hb => by cases hb; exact h⟩
theorem agr_err {f : Fail} {P : β → Prop} : Agr (.error f) (.error f) P := ⟨rfl, fun _ hb => by cases hb⟩
theorem agr_same {r : Res β} : Agr r r (fun b => r = .ok b) := ⟨rfl, fun _ hb => hb⟩

theorem agr_bind {r r' : Res β} {g g' : β → Res γ} {P : β → Prop} {Q : γ → Prop} (h : Agr r r' P) (hg : ∀ b, P b → Agr (g b) (g' b) Q) :
    Agr (r >>= g) (r' >>= g') Q := by
  obtain ⟨rfl, hp⟩ := h
  cases r with
  | error f => exact agr_err
  | ok b => exact hg b (hp b rfl)

theorem agr_mono {r r' : Res β} {P Q : β → Prop} (h : Agr r r' P) (hg : ∀ b, P b → Q b) : Agr r r' Q := ⟨h.1, fun b hb => hg b (h.2 b hb)⟩

theorem maxElems_lt : maxElems < W64 := by decide

theorem prodL_fit {d : List Nat} (h : prod d ≤ maxElems) : prodL Arith.u64 d = prod d ∧ prodL Arith.exact d = prod d := by
  have h1 := prodL_u64_eq (l := d) (Nat.lt_of_le_of_lt h maxElems_lt)
  rw [prodL_exact] at h1
  exact ⟨h1, prodL_exact d⟩

/-- An object of a chain that fits. -/
structure FitObj (E : Exts) (x : Nat) (h : List Ix) (o : Obj) : Prop where
  wf : o.WF
  fit : OFit maxElems o
  dims : ∀ d, o.dims = some d → prod d ≤ maxElems ∧ (∀ n ∈ d, n ≤ maxElems) ∧ exExt E (.arr x h : PEx Unit) = d

theorem ofit_dims {o : Obj} (hw : o.WF) (hf : OFit maxElems o) {d : List Nat} (hd : o.dims = some d) : ∀ n ∈ d, n ≤ maxElems := by
  cases o with
  | elem p => cases hd
  | cref off ext => cases hd; exact hf.1
  | sref off m =>
    cases hd
    exact (MFit.descFit (by decide) hw hf).ext
  | proxy off m a => cases hd
  | everyProxy off m a => cases hd

section
variable {α : Type} {w : World α}

theorem index_agr (hb : Below w) (hne : ∀ x c, w.env x = some c → c.ext ≠ []) {x : Nat} {h : List Ix} (hf : ChainFits (worldExts w) x h) :
    Agr (w.index Arith.u64 true x h) (w.index Arith.exact true x h) (FitObj (worldExts w) x h) := by
  unfold World.index World.get
  cases hx : w.env x with
  | none => exact agr_err
  | some c =>
    rw [res_ok_bind, res_ok_bind]
    have hE : worldExts w x = some c.ext := by simp [worldExts, hx]
    have hfc := hf c.ext hE
    obtain ⟨b1, b2⟩ := hb x c hx
    have hn := hne x c hx
    have hfb : FitsAll maxElems (.view (arrayView c.base c.ext)) h := fitsAll_toA maxElems 0 c.base c.ext h (.view ⟨c.ext, id⟩) hfc
    have ha := run_agree (Z := maxElems) (by decide) (by decide) (o := .cref c.base c.ext) (h := h) hn ⟨b1, b2⟩
      (fitsAll_congr (a := .view (arrayView c.base c.ext)) (b := .view (contig c.base c.ext)) (arrayView_same c.base c.ext).symm hfb)
    refine ⟨ha.1, fun o ho => ?_⟩
    obtain ⟨wf, s, adm⟩ := run_meaning hn ho
    refine ⟨wf, ha.2 o ho, fun d hd => ?_⟩
    have hsz := fitsAll_size (h := h) (a := .view (arrayView c.base c.ext)) (Nat.le_of_lt (by show prod c.ext < _; omega)) adm hfb
    have hm := toA_imeaning c.base c.ext h
    unfold meaning at hm s
    rw [← hm] at hsz s
    have hex : ∀ v, imeaning c.ext h = .view v → v.ext = d → exExt (worldExts w) (.arr x h : PEx Unit) = d := by
      intro v hv hvd
      simp only [exExt, hE, hv, hvd]
    cases hi : imeaning c.ext h with
    | part v sels =>
      rw [hi] at s
      cases o <;> first | exact s.elim | cases hd
    | view v =>
      rw [hi] at s hsz
      have hobs := observes wf s
      have hdv := hobs.dims
      rw [hd] at hdv
      have hdv : d = v.ext := hdv
      exact ⟨hdv ▸ hsz, ofit_dims wf (ha.2 o ho) hd, hex v hi hdv.symm⟩

theorem positions_agr {E : Exts} {x : Nat} {h : List Ix} {o : Obj} (ho : FitObj E x h o) : o.positions Arith.u64 = o.positions Arith.exact :=
  positions_agree (Z := maxElems) (by decide) (by decide) ho.wf ho.fit

theorem sc_agr (hb : Below w) (hne : ∀ x c, w.env x = some c → c.ext ≠ []) {s : Sc α} (hs : ScFits (worldExts w) s) :
    s.eval Arith.u64 true w = s.eval Arith.exact true w := by
  cases s with
  | const c => rfl
  | elem x h =>
    simp only [Sc.eval]
    rw [(index_agr hb hne hs).1]

/-- Building agrees, and the source is small. -/
structure FitSrc (E : Exts) (e : PEx α) (src : EObj α) : Prop where
  dims : src.dims = exExt E e
  size : prod src.dims ≤ maxElems
  each : ∀ n ∈ src.dims, n ≤ maxElems

def FitEx (E : Exts) (e : PEx α) (e' : Ex Obj α) : Prop :=
  Agr (e'.build Arith.u64 true) (e'.build Arith.exact true) (FitSrc E e)

theorem ex_agr (hb : Below w) (hne : ∀ x c, w.env x = some c → c.ext ≠ []) : ∀ {e : PEx α}, ExFits (worldExts w) e →
    Agr (e.eval Arith.u64 true w) (e.eval Arith.exact true w) (FitEx (worldExts w) e)
  | .arr x h, hs => by
    refine agr_bind (index_agr hb hne hs) fun o ho => agr_ok ?_
    show Agr _ _ _
    unfold Ex.build
    cases hd : o.dims with
    | none => exact agr_err
    | some d =>
      rw [positions_agr ho]
      obtain ⟨h1, h2, h3⟩ := ho.dims d hd
      exact agr_bind agr_same fun ps _ => agr_ok ⟨h3.symm, h1, h2⟩
  | .un f e, hs => by
    refine agr_bind (ex_agr hb hne (e := e) hs) fun e' he' => agr_ok ?_
    exact agr_bind he' fun src hsrc => agr_ok ⟨hsrc.dims, hsrc.size, hsrc.each⟩
  | .bin f a b, hs => by
    refine agr_bind (ex_agr hb hne (e := a) hs.1) fun a' ha' => agr_bind (ex_agr hb hne (e := b) hs.2) fun b' hb' => agr_ok ?_
    refine agr_bind ha' fun s h1 => agr_bind hb' fun t _ => ?_
    split
    · exact agr_err
    · exact agr_bind agr_same fun _ _ => agr_ok ⟨h1.dims, h1.size, h1.each⟩
  | .scl f s e, hs => by
    unfold PEx.eval
    rw [sc_agr hb hne hs.1]
    refine agr_bind agr_same fun c _ => agr_bind agr_same fun v _ => agr_bind (ex_agr hb hne (e := e) hs.2) fun e' he' => agr_ok ?_
    exact agr_bind he' fun src hsrc => agr_ok ⟨hsrc.dims, hsrc.size, hsrc.each⟩
  | .scr f e s, hs => by
    unfold PEx.eval
    rw [sc_agr hb hne hs.2]
    refine agr_bind (ex_agr hb hne (e := e) hs.1) fun e' he' => agr_bind agr_same fun c _ => agr_bind agr_same fun v _ => agr_ok ?_
    exact agr_bind he' fun src hsrc => agr_ok ⟨hsrc.dims, hsrc.size, hsrc.each⟩

/-! ### The functions that read and write -/

/-- An array below 2^62. -/
def BelowArr (c : Arr) : Prop := (∀ n ∈ c.ext, n ≤ maxElems) ∧ c.base + prod c.ext < maxElems

theorem newArray_agr {src : EObj α} (h1 : prod src.dims ≤ maxElems) (h2 : ∀ n ∈ src.dims, n ≤ maxElems) (m : Mem α) {fresh : Nat}
    (hf : fresh + prod src.dims < maxElems) :
    Agr (newArray Arith.u64 src m fresh) (newArray Arith.exact src m fresh) fun r => BelowArr r.2 := by
  unfold newArray
  rw [(prodL_fit h1).1, (prodL_fit h1).2]
  exact agr_bind agr_same fun xs _ => agr_ok ⟨h2, hf⟩

theorem newFrom_agr {ext : List Nat} (h2 : ∀ n ∈ ext, n ≤ maxElems) {fresh : Nat} (hf : fresh + prod ext < maxElems) (l : List α) (m : Mem α) :
    Agr (newFrom Arith.u64 ext l m fresh) (newFrom Arith.exact ext l m fresh) fun r => BelowArr r.2 := by
  unfold newFrom
  have h1 : prod ext ≤ maxElems := by omega
  rw [(prodL_fit h1).1, (prodL_fit h1).2]
  split
  · exact agr_err
  · exact agr_ok ⟨h2, hf⟩

theorem cells_agr {c : Arr} (h : BelowArr c) {n : Nat} (hn : n ≤ prod c.ext) :
    (List.range n).map (Arith.u64.add c.base ·) = (List.range n).map (Arith.exact.add c.base ·) := by
  apply List.map_congr_left
  intro k hk
  have := List.mem_range.1 hk
  have := h.2
  have := maxElems_lt
  show Arith.u64.add c.base k = c.base + k
  rw [u64_add (by omega)]

theorem below_prodL {c : Arr} (h : BelowArr c) : prodL Arith.u64 c.ext = prod c.ext ∧ prodL Arith.exact c.ext = prod c.ext :=
  prodL_fit (by have := h.2; omega)

theorem arrayAssignExpr_agr {a : Arr} (ha : BelowArr a) {src : EObj α} (h1 : prod src.dims ≤ maxElems) (h2 : ∀ n ∈ src.dims, n ≤ maxElems)
    (m : Mem α) {fresh : Nat} (hf : fresh + prod src.dims < maxElems) :
    Agr (arrayAssignExpr Arith.u64 a src m fresh) (arrayAssignExpr Arith.exact a src m fresh) fun r => BelowArr r.2 := by
  unfold arrayAssignExpr
  rw [(below_prodL ha).1, (below_prodL ha).2, (prodL_fit h1).1, (prodL_fit h1).2]
  by_cases heq : prod a.ext = prod src.dims
  · rw [if_pos heq, if_pos heq]
    cases src.it.count with
    | none => exact agr_err
    | some n =>
      simp only
      split
      · exact agr_err
      · next hn =>
        rw [cells_agr ha (by omega)]
        refine agr_bind agr_same fun m' _ => agr_ok ⟨h2, ?_⟩
        have := ha.2
        show a.base + prod src.dims < _
        omega
  · rw [if_neg heq, if_neg heq]
    exact agr_bind (newArray_agr h1 h2 m hf) fun r hr => agr_ok hr

theorem fillView_agr {E : Exts} {x : Nat} {h : List Ix} {o : Obj} (ho : FitObj E x h o) (s : Scalar α) (m : Mem α) :
    fillView Arith.u64 o s m = fillView Arith.exact o s m := by
  unfold fillView
  rw [positions_agr ho]

theorem applyInPlace_agr {E : Exts} {x : Nat} {h : List Ix} {o : Obj} (ho : FitObj E x h o) (f : α → α) (m : Mem α) :
    applyInPlace Arith.u64 o f m = applyInPlace Arith.exact o f m := by
  unfold applyInPlace
  rw [positions_agr ho]

theorem inPlaceScalar_agr {E : Exts} {x : Nat} {h : List Ix} {o : Obj} (ho : FitObj E x h o) (op : α → α → α) (s : Scalar α) (m : Mem α) :
    inPlaceScalar Arith.u64 o op s m = inPlaceScalar Arith.exact o op s m := by
  unfold inPlaceScalar
  rw [positions_agr ho]

theorem arrayAssign_agr {o : Obj} (ho : o.positions Arith.u64 = o.positions Arith.exact) (src : EObj α) (m : Mem α) :
    arrayAssign Arith.u64 true o src m = arrayAssign Arith.exact true o src m := by
  unfold arrayAssign
  rw [ho]

theorem assignView_agr {E : Exts} {o : Obj} (ho : o.positions Arith.u64 = o.positions Arith.exact) {e : PEx α} {e' : Ex Obj α}
    (he : FitEx E e e') (m : Mem α) : assignView Arith.u64 true o e' m = assignView Arith.exact true o e' m := by
  unfold assignView
  rw [he.1]
  refine (agr_bind (P := fun _ => True) (Q := fun _ => True) ⟨rfl, fun _ _ => trivial⟩ fun src _ => ?_).1
  exact ⟨arrayAssign_agr ho src m, fun _ _ => trivial⟩

theorem inPlaceExpr_agr {E : Exts} {o : Obj} (ho : o.positions Arith.u64 = o.positions Arith.exact) {e : PEx α} {e' : Ex Obj α}
    (he : FitEx E e e') (op : α → α → α) (m : Mem α) : inPlaceExpr Arith.u64 true o op e' m = inPlaceExpr Arith.exact true o op e' m := by
  unfold inPlaceExpr
  rw [he.1, ho]

theorem overlapView_agr {E : Exts} {o : Obj} (ho : o.positions Arith.u64 = o.positions Arith.exact) {e : PEx α} {e' : Ex Obj α}
    (he : FitEx E e e') (m : Mem α) {fresh : Nat} (hf : fresh + prod (exExt E e) < maxElems) :
    overlapView Arith.u64 true o e' m fresh = overlapView Arith.exact true o e' m fresh := by
  unfold overlapView
  refine (agr_bind (Q := fun _ => True) he fun src hsrc => ?_).1
  refine agr_bind (newArray_agr hsrc.size hsrc.each m (by rw [hsrc.dims]; exact hf)) fun r hr => ?_
  obtain ⟨m', t⟩ := r
  have hr : BelowArr t := hr
  have hpos : (Obj.cref t.base t.ext).positions Arith.u64 = (Obj.cref t.base t.ext).positions Arith.exact := by
    simp only [Obj.positions]
    rw [(below_prodL hr).1, (below_prodL hr).2, cells_agr hr (Nat.le_refl _)]
  have hbuild : (Ex.leaf (.cref t.base t.ext) : Ex Obj α).build Arith.u64 true = (Ex.leaf (.cref t.base t.ext) : Ex Obj α).build Arith.exact true := by
    simp only [Ex.build, Obj.dims]
    rw [hpos]
  have hassign : assignView Arith.u64 true o (.leaf (.cref t.base t.ext)) m' = assignView Arith.exact true o (.leaf (.cref t.base t.ext)) m' := by
    unfold assignView
    rw [hbuild]
    refine (agr_bind (P := fun _ => True) (Q := fun _ => True) ⟨rfl, fun _ _ => trivial⟩ fun src _ => ?_).1
    exact ⟨arrayAssign_agr ho src m', fun _ _ => trivial⟩
  simp only
  rw [hassign, (below_prodL hr).1, (below_prodL hr).2]
  exact ⟨rfl, fun _ _ => trivial⟩

theorem overlapArray_agr {E : Exts} {a : Arr} (ha : BelowArr a) {e : PEx α} {e' : Ex Obj α}
    (he : FitEx E e e') (m : Mem α) {fresh : Nat} (hf : fresh + prod (exExt E e) < maxElems) :
    Agr (overlapArray Arith.u64 true a e' m fresh) (overlapArray Arith.exact true a e' m fresh) fun r => BelowArr r.2 := by
  unfold overlapArray
  refine agr_bind he fun src hsrc => agr_bind (newArray_agr hsrc.size hsrc.each m (by rw [hsrc.dims]; exact hf)) fun r hr => ?_
  rw [(below_prodL ha).1, (below_prodL ha).2]
  exact agr_ok hr

/-! ### Statements -/

theorem below_bind (hb : Below w) (m : Mem α) (x : Nat) {b : Option Arr} (h : ∀ c, b = some c → BelowArr c) : Below (w.bind m x b) := by
  intro y c hc
  simp only [World.bind] at hc
  split at hc
  · exact h c hc
  · exact hb y c hc

theorem get_agr (w : World α) (x : Nat) : Agr (w.get x) (w.get x) fun c => w.env x = some c := by
  unfold World.get
  cases h : w.env x with
  | none => exact agr_err
  | some c => exact agr_ok rfl

/-- One statement: the same outcome, with allocators that agree on what the statement requests. -/
theorem step_agr (hb : Below w) (hne : ∀ x c, w.env x = some c → c.ext ≠ []) {s : Stmt α} (hs : IxsFit (worldExts w) s)
    {alloc alloc' : Nat → Mem α → Nat → Nat}
    (hal : alloc' w.clock w.mem (request (worldExts w) s) = alloc w.clock w.mem (request (worldExts w) s))
    (hlt : alloc w.clock w.mem (request (worldExts w) s) + request (worldExts w) s < maxElems) :
    Agr (w.step Arith.u64 true alloc s) (w.step Arith.exact true alloc' s) Below := by
  -- sources are requested with their number of elements
  have hreq : ∀ {e : PEx α} {src : EObj α}, request (worldExts w) s = prod (exExt (worldExts w) e) → FitSrc (worldExts w) e src →
      alloc w.clock w.mem (prodL Arith.u64 src.dims) = alloc w.clock w.mem (prod (exExt (worldExts w) e)) ∧
      alloc' w.clock w.mem (prodL Arith.exact src.dims) = alloc w.clock w.mem (prod (exExt (worldExts w) e)) ∧
      alloc w.clock w.mem (prod (exExt (worldExts w) e)) + prod (exExt (worldExts w) e) < maxElems := by
    intro e src hr hsrc
    rw [(prodL_fit hsrc.size).1, (prodL_fit hsrc.size).2, hsrc.dims, ← hr]
    exact ⟨rfl, hal, hlt⟩
  cases s with
  | make x e =>
    simp only [World.step]
    cases w.env x with
    | some _ => exact agr_err
    | none =>
      refine agr_bind (ex_agr hb hne hs) fun e' he' => agr_bind he' fun src hsrc => ?_
      obtain ⟨q1, q2, q3⟩ := hreq rfl hsrc
      rw [q1, q2]
      refine agr_bind (newArray_agr hsrc.size hsrc.each w.mem (by rw [hsrc.dims]; exact q3)) fun r hr => agr_ok ?_
      exact below_bind hb _ _ fun c hc => by cases hc; exact hr
  | makeFill x sc ext =>
    simp only [World.step]
    cases w.env x with
    | some _ => exact agr_err
    | none =>
      have hp : prod ext ≤ maxElems := by have : _ + prod ext < maxElems := hlt; omega
      have hal : alloc' w.clock w.mem (prod ext) = alloc w.clock w.mem (prod ext) := hal
      rw [sc_agr hb hne hs.1, (prodL_fit hp).1, (prodL_fit hp).2, hal]
      refine agr_bind agr_same fun _ _ => agr_bind agr_same fun c _ => agr_bind agr_same fun v _ => agr_bind (newFrom_agr hs.2 hlt _ _) fun r hr => agr_ok ?_
      exact below_bind hb _ _ fun c hc => by cases hc; exact hr
  | makeFrom x l ext =>
    simp only [World.step]
    cases w.env x with
    | some _ => exact agr_err
    | none =>
      have hp : prod ext ≤ maxElems := by have : _ + prod ext < maxElems := hlt; omega
      have hal : alloc' w.clock w.mem (prod ext) = alloc w.clock w.mem (prod ext) := hal
      rw [(prodL_fit hp).1, (prodL_fit hp).2, hal]
      refine agr_bind agr_same fun _ _ => agr_bind (newFrom_agr hs hlt _ _) fun r hr => agr_ok ?_
      exact below_bind hb _ _ fun c hc => by cases hc; exact hr
  | drop x =>
    simp only [World.step]
    refine agr_bind (get_agr w x) fun c hc => ?_
    have hc := hb x c hc
    rw [(below_prodL hc).1, (below_prodL hc).2]
    exact agr_ok (below_bind hb _ _ fun c hc => by cases hc)
  | fill x h sc =>
    simp only [World.step]
    rw [sc_agr hb hne hs.2]
    refine agr_bind agr_same fun _ _ => agr_bind (index_agr hb hne hs.1) fun o ho => agr_bind agr_same fun c _ => ?_
    rw [fillView_agr ho]
    exact agr_bind agr_same fun m _ => agr_ok hb
  | assign x h e =>
    simp only [World.step]
    refine agr_bind agr_same fun _ _ => agr_bind (index_agr hb hne hs.1) fun o ho => agr_bind (ex_agr hb hne hs.2) fun e' he' => ?_
    rw [assignView_agr (positions_agr ho) he']
    exact agr_bind agr_same fun m _ => agr_ok hb
  | inPlace x h op e =>
    simp only [World.step]
    refine agr_bind (index_agr hb hne hs.1) fun o ho => agr_bind (ex_agr hb hne hs.2) fun e' he' => ?_
    rw [inPlaceExpr_agr (positions_agr ho) he']
    exact agr_bind agr_same fun m _ => agr_ok hb
  | inPlaceScalar x h op sc =>
    simp only [World.step]
    rw [sc_agr hb hne hs.2]
    refine agr_bind (index_agr hb hne hs.1) fun o ho => agr_bind agr_same fun c _ => ?_
    rw [inPlaceScalar_agr ho]
    exact agr_bind agr_same fun m _ => agr_ok hb
  | apply x h f =>
    simp only [World.step]
    refine agr_bind (index_agr hb hne hs) fun o ho => agr_bind agr_same fun _ _ => ?_
    rw [applyInPlace_agr ho]
    exact agr_bind agr_same fun m _ => agr_ok hb
  | overlap x h e =>
    simp only [World.step]
    refine agr_bind agr_same fun _ _ => agr_bind (index_agr hb hne hs.1) fun o ho => agr_bind (ex_agr hb hne hs.2) fun e' he' =>
      agr_bind he' fun src hsrc => ?_
    obtain ⟨q1, q2, q3⟩ := hreq rfl hsrc
    rw [q1, q2, overlapView_agr (positions_agr ho) he' w.mem q3]
    exact agr_bind agr_same fun m _ => agr_ok hb
  | overlapWhole x e =>
    simp only [World.step]
    refine agr_bind (get_agr w x) fun a ha => agr_bind (ex_agr hb hne hs) fun e' he' => agr_bind he' fun src hsrc => agr_bind agr_same fun _ _ => ?_
    obtain ⟨q1, q2, q3⟩ := hreq rfl hsrc
    rw [q1, q2]
    refine agr_bind (overlapArray_agr (hb x a ha) he' w.mem q3) fun r hr => agr_ok ?_
    exact below_bind hb _ _ fun c hc => by cases hc; exact hr
  | moveAssign x y =>
    simp only [World.step]
    refine agr_bind (get_agr w x) fun a ha => agr_bind (get_agr w y) fun b hb' => agr_bind agr_same fun _ _ => agr_bind agr_same fun _ _ => agr_ok ?_
    refine below_bind (below_bind hb _ _ fun c hc => by cases hc; exact hb y b hb') _ _ fun c hc => by cases hc; exact hb x a ha
  | set x e =>
    have general : Agr (w.get x >>= fun a => e.eval Arith.u64 true w >>= fun e' => e'.build Arith.u64 true >>= fun src =>
          sameOrder a src.dims >>= fun _ => assignArray Arith.u64 true a e' w.mem (alloc w.clock w.mem (prodL Arith.u64 src.dims)) >>= fun r =>
            .ok (w.bind r.1 x (some r.2)))
        (w.get x >>= fun a => e.eval Arith.exact true w >>= fun e' => e'.build Arith.exact true >>= fun src =>
          sameOrder a src.dims >>= fun _ => assignArray Arith.exact true a e' w.mem (alloc' w.clock w.mem (prodL Arith.exact src.dims)) >>= fun r =>
            .ok (w.bind r.1 x (some r.2))) Below := by
      refine agr_bind (get_agr w x) fun a ha => agr_bind (ex_agr hb hne hs) fun e' he' => agr_bind he' fun src hsrc => agr_bind agr_same fun _ _ => ?_
      obtain ⟨q1, q2, q3⟩ := hreq rfl hsrc
      rw [q1, q2]
      unfold assignArray
      refine agr_bind (agr_bind he' fun src' hsrc' => arrayAssignExpr_agr (hb x a ha) hsrc'.size hsrc'.each w.mem (by rw [hsrc'.dims]; exact q3))
        fun r hr => agr_ok ?_
      exact below_bind hb _ _ fun c hc => by cases hc; exact hr
    have copy : ∀ y, e = .arr y [] → Agr (w.get x >>= fun a => w.get y >>= fun b => sameOrder a b.ext >>= fun _ =>
          assignArrayCopy Arith.u64 a b (x == y) w.mem (alloc w.clock w.mem (prodL Arith.u64 b.ext)) >>= fun r => .ok (w.bind r.1 x (some r.2)))
        (w.get x >>= fun a => w.get y >>= fun b => sameOrder a b.ext >>= fun _ =>
          assignArrayCopy Arith.exact a b (x == y) w.mem (alloc' w.clock w.mem (prodL Arith.exact b.ext)) >>= fun r => .ok (w.bind r.1 x (some r.2)))
        Below := by
      rintro y rfl
      refine agr_bind (get_agr w x) fun a ha => agr_bind (get_agr w y) fun b hb' => agr_bind agr_same fun _ _ => ?_
      have hbb := hb y b hb'
      have hr : request (worldExts w) (.set x (.arr y []) : Stmt α) = prod b.ext := by simp [request, exExt, worldExts, hb', imeaning]
      rw [hr] at hal hlt
      rw [(below_prodL hbb).1, (below_prodL hbb).2, hal]
      refine agr_bind (P := fun r => BelowArr r.2) ?_ fun r hr => agr_ok (below_bind hb _ _ fun c hc => by cases hc; exact hr)
      unfold assignArrayCopy
      split
      · exact agr_ok (hb x a ha)
      · rw [(below_prodL hbb).1, (below_prodL hbb).2, cells_agr hbb (Nat.le_refl _)]
        exact arrayAssignExpr_agr (hb x a ha) (by show prod b.ext ≤ _; have := hbb.2; omega) hbb.1 w.mem hlt
    cases e with
    | arr y h =>
      cases h with
      | nil => exact copy y rfl
      | cons ix h => exact general
    | un f e => exact general
    | bin f a b => exact general
    | scl f s e => exact general
    | scr f e s => exact general

/-! ### Unchecked builds -/

theorem weak_wIndex (A : Arith) (w : World α) (x : Nat) (h : List Ix) : Weak (w.index A true x h) (w.index A false x h) :=
  weak_bind (.refl _) fun _ => weak_run A h _

theorem weak_sc (A : Arith) (w : World α) : ∀ s : Sc α, Weak (s.eval A true w) (s.eval A false w)
  | .const _ => .refl _
  | .elem x h => weak_bind (weak_wIndex A w x h) fun o => by cases o <;> exact .refl _

theorem weak_ex (A : Arith) (w : World α) : ∀ e : PEx α, Weak (e.eval A true w) (e.eval A false w)
  | .arr x h => weak_bind (weak_wIndex A w x h) fun _ => .refl _
  | .un _ e => weak_bind (weak_ex A w e) fun _ => .refl _
  | .bin _ a b => weak_bind (weak_ex A w a) fun _ => weak_bind (weak_ex A w b) fun _ => .refl _
  | .scl _ s e => weak_bind (weak_sc A w s) fun _ => weak_bind (.refl _) fun _ => weak_bind (weak_ex A w e) fun _ => .refl _
  | .scr _ e s => weak_bind (weak_ex A w e) fun _ => weak_bind (weak_sc A w s) fun _ => weak_bind (.refl _) fun _ => .refl _

theorem weak_build (A : Arith) : ∀ e : Ex Obj α, Weak (e.build A true) (e.build A false)
  | .leaf o => by unfold Ex.build; cases o.dims <;> exact .refl _
  | .un _ e => weak_bind (weak_build A e) fun _ => .refl _
  | .bin _ a b => weak_bind (weak_build A a) fun _ => weak_bind (weak_build A b) fun _ => by
    split
    · exact .refl _
    · exact weak_bind (weak_dbg _) fun _ => .refl _

theorem weak_arrayAssign (A : Arith) (o : Obj) (src : EObj α) (m : Mem α) : Weak (arrayAssign A true o src m) (arrayAssign A false o src m) := by
  unfold arrayAssign
  cases o.dims with
  | none => exact .refl _
  | some d =>
    simp only
    split
    · exact .refl _
    · exact weak_bind (weak_dbg _) fun _ => weak_bind (.refl _) fun _ => weak_bind (.refl _) fun _ => weak_bind (weak_dbg _) fun _ => .refl _

theorem weak_assignView (A : Arith) (o : Obj) (e : Ex Obj α) (m : Mem α) : Weak (assignView A true o e m) (assignView A false o e m) :=
  weak_bind (weak_build A e) fun _ => weak_arrayAssign A o _ m

theorem weak_inPlaceExpr (A : Arith) (o : Obj) (op : α → α → α) (e : Ex Obj α) (m : Mem α) :
    Weak (inPlaceExpr A true o op e m) (inPlaceExpr A false o op e m) := by
  unfold inPlaceExpr
  refine weak_bind (weak_build A e) fun src => ?_
  cases o.dims with
  | none => exact .refl _
  | some d =>
    simp only
    split
    · exact .refl _
    · exact weak_bind (weak_dbg _) fun _ => .refl _

theorem weak_overlapView (A : Arith) (o : Obj) (e : Ex Obj α) (m : Mem α) (fresh : Nat) :
    Weak (overlapView A true o e m fresh) (overlapView A false o e m fresh) :=
  weak_bind (weak_build A e) fun _ => weak_bind (.refl _) fun r => weak_bind (weak_assignView A o _ _) fun _ => .refl _

theorem weak_overlapArray (A : Arith) (a : Arr) (e : Ex Obj α) (m : Mem α) (fresh : Nat) :
    Weak (overlapArray A true a e m fresh) (overlapArray A false a e m fresh) :=
  weak_bind (weak_build A e) fun _ => .refl _

/-- A statement that passes all checks does the same without them. -/
theorem weak_step (A : Arith) (alloc : Nat → Mem α → Nat → Nat) (w : World α) (s : Stmt α) :
    Weak (w.step A true alloc s) (w.step A false alloc s) := by
  cases s with
  | make x e =>
    simp only [World.step]
    cases w.env x with
    | some _ => exact .refl _
    | none => exact weak_bind (weak_ex A w e) fun _ => weak_bind (weak_build A _) fun _ => .refl _
  | makeFill x s ext =>
    simp only [World.step]
    cases w.env x with
    | some _ => exact .refl _
    | none => exact weak_bind (.refl _) fun _ => weak_bind (weak_sc A w s) fun _ => .refl _
  | makeFrom x l ext => exact .refl _
  | drop x => exact .refl _
  | fill x h s => exact weak_bind (.refl _) fun _ => weak_bind (weak_wIndex A w x h) fun _ => weak_bind (weak_sc A w s) fun _ => .refl _
  | assign x h e =>
    exact weak_bind (.refl _) fun _ => weak_bind (weak_wIndex A w x h) fun _ => weak_bind (weak_ex A w e) fun _ =>
      weak_bind (weak_assignView A _ _ _) fun _ => .refl _
  | inPlace x h op e =>
    exact weak_bind (weak_wIndex A w x h) fun _ => weak_bind (weak_ex A w e) fun _ => weak_bind (weak_inPlaceExpr A _ _ _ _) fun _ => .refl _
  | inPlaceScalar x h op s => exact weak_bind (weak_wIndex A w x h) fun _ => weak_bind (weak_sc A w s) fun _ => .refl _
  | apply x h f => exact weak_bind (weak_wIndex A w x h) fun _ => .refl _
  | overlap x h e =>
    exact weak_bind (.refl _) fun _ => weak_bind (weak_wIndex A w x h) fun _ => weak_bind (weak_ex A w e) fun _ =>
      weak_bind (weak_build A _) fun _ => weak_bind (weak_overlapView A _ _ _ _) fun _ => .refl _
  | overlapWhole x e =>
    exact weak_bind (.refl _) fun _ => weak_bind (weak_ex A w e) fun _ => weak_bind (weak_build A _) fun _ => weak_bind (.refl _) fun _ =>
      weak_bind (weak_overlapArray A _ _ _ _) fun _ => .refl _
  | moveAssign x y =>
    exact weak_bind (.refl _) fun _ => weak_bind (.refl _) fun _ => weak_bind (.refl _) fun _ => weak_bind (weak_dbg _) fun _ => .refl _
  | set x e =>
    have general : Weak (w.get x >>= fun a => e.eval A true w >>= fun e' => e'.build A true >>= fun src =>
          sameOrder a src.dims >>= fun _ => assignArray A true a e' w.mem (alloc w.clock w.mem (prodL A src.dims)) >>= fun r =>
            .ok (w.bind r.1 x (some r.2)))
        (w.get x >>= fun a => e.eval A false w >>= fun e' => e'.build A false >>= fun src =>
          sameOrder a src.dims >>= fun _ => assignArray A false a e' w.mem (alloc w.clock w.mem (prodL A src.dims)) >>= fun r =>
            .ok (w.bind r.1 x (some r.2))) :=
      weak_bind (.refl _) fun _ => weak_bind (weak_ex A w e) fun _ => weak_bind (weak_build A _) fun _ => weak_bind (.refl _) fun _ =>
        weak_bind (weak_bind (weak_build A _) fun _ => .refl _) fun _ => .refl _
    cases e with
    | arr y h =>
      cases h with
      | nil => exact .refl _
      | cons ix h => exact general
    | un f e => exact general
    | bin f a b => exact general
    | scl f s e => exact general
    | scr f e s => exact general

/-! ### Allocators -/

/-- The live elements are those of the arrays in scope. -/
theorem alive_of (only : ∀ q, w.mem q ≠ none → ∃ x c, w.env x = some c ∧ Covers (cells c) q) {n : Nat} (h : TotalAtMost (worldExts w) n) :
    AliveAtMost w.mem n := by
  obtain ⟨names, h1, h2⟩ := h
  refine ⟨names.flatMap fun x => match w.env x with
    | some c => (List.range (prod c.ext)).map (c.base + ·)
    | none => [], ?_, ?_⟩
  · rw [List.length_flatMap]
    refine Nat.le_trans (Nat.le_of_eq ?_) h2
    congr 1
    apply List.map_congr_left
    intro x _
    unfold elems worldExts
    cases w.env x <;> simp
  · intro q hq
    obtain ⟨x, c, hx, hc⟩ := only q hq
    have hcov := arrayView_covers.1 hc
    refine List.mem_flatMap.2 ⟨x, h1 x (by simp [worldExts, hx]), ?_⟩
    rw [hx]
    exact List.mem_map.2 ⟨q - c.base, List.mem_range.2 (by omega), by omega⟩

open Classical in
/-- An allocator for unlimited memory that does the same as `alloc` as long as that has memory. -/
noncomputable def unlimited (B : Nat) (alloc : Nat → Mem α → Nat → Nat) : Nat → Mem α → Nat → Nat := fun k m n =>
  if ∃ u, AliveAtMost m u ∧ u + n ≤ B then alloc k m n
  else if h : ∃ B, ∀ q, B ≤ q → m q = none then h.choose else 0

theorem unlimited_good {B : Nat} {alloc : Nat → Mem α → Nat → Nat} (h : GoodAlloc64 B alloc) : GoodAlloc (unlimited B alloc) := by
  intro k m n hfin i hi
  unfold unlimited
  split
  · next hu =>
    obtain ⟨u, h1, h2⟩ := hu
    exact (h k m u n h1 h2).1 i hi
  · exact hfin.choose_spec _ (by omega)

theorem unlimited_eq {B : Nat} {alloc : Nat → Mem α → Nat → Nat} {k : Nat} {m : Mem α} {u n : Nat} (h1 : AliveAtMost m u) (h2 : u + n ≤ B) :
    unlimited B alloc k m n = alloc k m n := by
  unfold unlimited
  rw [if_pos ⟨u, h1, h2⟩]

end
end Jules

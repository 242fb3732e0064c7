import Verif.Lemmas.Wrap
import Verif.Spec.Fits
/-
64-bit arithmetic agrees with exact arithmetic as long as nothing exceeds 2^64: the indexing operators.
-/
namespace Jules
open Spec

theorem le_prod : ∀ {e : List Nat} {x : Nat}, (∀ y ∈ e, y ≠ 0) → x ∈ e → x ≤ prod e
  | y :: es, x, hz, hx => by
    have hp : 0 < prod es := prod_pos_iff.2 fun z hz' => hz z (by simp [hz'])
    have hy : 0 < y := Nat.pos_of_ne_zero (hz y (by simp))
    rcases List.mem_cons.1 hx with rfl | hx
    · exact Nat.le_mul_of_pos_right _ hp
    · exact Nat.le_trans (le_prod (fun z hz' => hz z (by simp [hz'])) hx) (Nat.le_mul_of_pos_left _ hy)

theorem cmStrides_le : ∀ {e : List Nat} {t x : Nat}, (∀ y ∈ e, y ≠ 0) → x ∈ cmStrides e t → x ≤ t * prod e
  | y :: es, t, x, hz, hx => by
    have hp : 0 < prod (y :: es) := prod_pos_iff.2 hz
    simp only [cmStrides, List.mem_cons] at hx
    rcases hx with rfl | hx
    · exact Nat.le_mul_of_pos_right _ hp
    · have := cmStrides_le (fun z hz' => hz z (by simp [hz'])) hx
      rwa [Nat.mul_assoc] at this

theorem pred_inB : ∀ {e : List Nat}, (∀ y ∈ e, y ≠ 0) → InB e (e.map (· - 1))
  | [], _ => trivial
  | y :: es, h => ⟨by have := h y (by simp); show y - 1 < y; omega, pred_inB fun z hz => h z (by simp [hz])⟩

theorem span_cmStrides {e : List Nat} (h : ∀ y ∈ e, y ≠ 0) : span e (cmStrides e 1) < prod e := by
  unfold span
  rw [dotP_cmStrides _ _ _ (by simp), Nat.one_mul]
  exact cmPos_lt (pred_inB h)

/-- What is known of a mapper whose data is displaced by `off`. -/
def MFit (Z off : Nat) : Mapper → Prop
  | .ident d => DFit Z off d
  | .vec d idx => prod d.ext ≤ Z ∧ ∀ i ∈ idx, off + i < Z

/-- What is known of an object. -/
def OFit (Z : Nat) : Obj → Prop
  | .elem _ => True
  | .cref off ext => (∀ x ∈ ext, x ≤ Z) ∧ off + prod ext < Z
  | .sref off m => MFit Z off m
  | .proxy off m args => MFit Z off m ∧ ArgsFit m.desc.ext args
  | .everyProxy off ext _ => (∀ x ∈ ext, x ≤ Z) ∧ off + prod ext < Z

/-- The bounds of the descriptor of a mapper. -/
structure DescFit (Z c : Nat) (d : SDesc) : Prop where
  ext : ∀ x ∈ d.ext, x ≤ Z
  str : ∀ t ∈ d.strides, t ≤ 2 * Z
  pos : c + d.start + span d.ext d.strides < Z

theorem prod_single (x : Nat) : prod [x] = x := by simp [prod]

theorem ext_le_of_prod {Z : Nat} {e : List Nat} (h : e.length ≠ 1 → ∀ x ∈ e, x ≠ 0) (hp : prod e ≤ Z) : ∀ x ∈ e, x ≤ Z := by
  intro x hx
  by_cases hl : e.length = 1
  · obtain ⟨y, rfl⟩ := List.length_eq_one_iff.1 hl
    simp only [List.mem_singleton] at hx
    subst hx
    rwa [prod_single] at hp
  · exact Nat.le_trans (le_prod (h hl) hx) hp

theorem vec_descFit {Z : Nat} (h0 : 0 < Z) {d : SDesc} {idx : List Nat} (hw : (Mapper.vec d idx).WF) (hp : prod d.ext ≤ Z) :
    DescFit Z 0 d := by
  obtain ⟨hc, hd, _⟩ := hw
  have hstr : d.strides = cmStrides d.ext 1 := congrArg SDesc.strides hc
  have hst : d.start = 0 := congrArg SDesc.start hc
  refine ⟨ext_le_of_prod hd.2.2.2 hp, ?_, ?_⟩
  · rw [hstr]
    intro t ht
    by_cases hl : d.ext.length = 1
    · obtain ⟨y, hy⟩ := List.length_eq_one_iff.1 hl
      rw [hy] at ht
      simp [cmStrides] at ht
      omega
    · have := cmStrides_le (hd.2.2.2 hl) ht
      omega
  · rw [hst, hstr]
    by_cases hl : d.ext.length = 1
    · obtain ⟨y, hy⟩ := List.length_eq_one_iff.1 hl
      rw [hy, prod_single] at hp
      rw [hy]
      show 0 + 0 + ((y - 1) * 1 + 0) < Z
      omega
    · have := span_cmStrides (hd.2.2.2 hl)
      omega

theorem DFit.descFit {Z off : Nat} {d : SDesc} (h : DFit Z off d) : DescFit Z off d := ⟨h.ext, h.str, h.pos⟩

/-- The displacement that counts for the descriptor: none for index-mapped views. -/
def Mapper.disp (off : Nat) : Mapper → Nat
  | .ident _ => off
  | .vec _ _ => 0

theorem MFit.descFit {Z off : Nat} (h0 : 0 < Z) {m : Mapper} (hw : m.WF) (h : MFit Z off m) : DescFit Z (m.disp off) m.desc := by
  cases m with
  | ident d => exact DFit.descFit h
  | vec d idx => exact vec_descFit h0 hw h.1

theorem mapAll_mem {d : SDesc} {idx l r : List Nat} (h : (Mapper.vec d idx).mapAll true l = .ok r) : ∀ i ∈ r, i ∈ idx := by
  obtain ⟨h1, rfl⟩ := vec_mapAll_ok.1 h
  intro i hi
  obtain ⟨k, hk, rfl⟩ := List.mem_map.1 hi
  rw [List.getD_eq_getElem?_getD, List.getElem?_eq_getElem (h1 k hk)]
  exact List.getElem_mem _

theorem prod_zero_mem {e : List Nat} (h : 0 ∈ e) : prod e = 0 := by
  rcases Nat.eq_zero_or_pos (prod e) with h1 | h1
  · exact h1
  · exact absurd rfl (prod_pos_iff.1 h1 0 h)

/-- The stored positions of an index-mapped view are in bounds. -/
def VFit (Z off : Nat) : Mapper → Prop
  | .ident _ => True
  | .vec _ idx => ∀ i ∈ idx, off + i < Z

theorem MFit.vfit {Z off : Nat} {m : Mapper} (h : MFit Z off m) : VFit Z off m := by
  cases m with
  | ident d => trivial
  | vec d idx => exact h.2

theorem arraySlice_u64 {Z off : Nat} (hZ : 4 * Z ≤ W64) (h0 : 0 < Z) {m : Mapper} {args : List Arg} (hw : m.WF)
    (hd : DescFit Z (m.disp off) m.desc) (hm : VFit Z off m)
    (hf : ArgsFit m.desc.ext args)
    (hsz : Inside m.desc.ext (args.map Arg.sel) → prod ((args.map Arg.sel).map List.length) ≤ Z) :
    arraySlice Arith.u64 true off m args = arraySlice Arith.exact true off m args ∧
      ∀ o, arraySlice Arith.exact true off m args = .ok o → OFit Z o := by
  unfold arraySlice
  by_cases hdef : args.all Arg.isDefault = true
  · simp only [if_pos hdef, defaultSlicing]
    obtain ⟨e1, e2⟩ := doSlice_u64 hZ args (m.disp off) m.desc.start m.desc.ext m.desc.strides hf hd.pos hd.str hd.ext
    rw [e1]
    cases hr : doSlice Arith.exact true m.desc.start m.desc.ext m.desc.strides args with
    | error f => exact ⟨rfl, fun _ h => by cases h⟩
    | ok r =>
      obtain ⟨s', e', t'⟩ := r
      obtain ⟨b1, b2, b3⟩ := e2 _ _ _ hr
      obtain ⟨q1, q2, q3, q4, q5, _, _⟩ := doSlice_sound hr hw.desc.2.2.1
      have hne : e' ≠ [] := by
        intro he
        have h1 := inside_length q1
        rw [he] at q2
        have : (args.map Arg.sel) = [] := by simpa using q2.symm
        rw [this] at h1
        exact hw.desc.2.1 (List.length_eq_zero_iff.1 h1.symm)
      simp only [res_ok_bind]
      have hfit : DFit Z (m.disp off) ⟨s', e', t'⟩ := ⟨q3, hne, q5, b3, b2, b1⟩
      cases m with
      | ident d =>
        refine ⟨rfl, ?_⟩
        intro o ho
        cases ho
        exact hfit
      | vec d idx =>
        rw [positions_u64 hZ hfit]
        cases hp : (⟨s', e', t'⟩ : SDesc).positions Arith.exact (iterFuel ⟨s', e', t'⟩) with
        | error f => exact ⟨rfl, fun _ h => by cases h⟩
        | ok ps =>
          simp only [res_ok_bind]
          cases hma : (Mapper.vec d idx).mapAll true ps with
          | error f => exact ⟨rfl, fun _ h => by cases h⟩
          | ok idx' =>
            have hsize : prod e' ≤ Z := by rw [q2]; exact hsz q1
            simp only [res_ok_bind]
            rw [mkVec_u64 (by omega)]
            refine ⟨rfl, ?_⟩
            intro o ho
            obtain ⟨m', h1, h2⟩ := res_bind_ok.1 ho
            cases h2
            obtain ⟨rfl, _, _⟩ := mkVec_exact.1 h1
            exact ⟨hsize, fun i hi => hm i (mapAll_mem hma i hi)⟩
  · simp only [if_neg hdef]
    have hpos := hd.pos
    rw [indirectSlicing_u64 (by omega) hf]
    cases hr : indirectSlicing Arith.exact true m.desc args with
    | error f => exact ⟨rfl, fun _ h => by cases h⟩
    | ok r =>
      obtain ⟨ext, ps⟩ := r
      obtain ⟨hl, hps, hext, hin⟩ := indirectSlicing_sound hr
      have hlen0 : (m.desc.ext.map fun _ => 0).length = m.desc.ext.length := by simp
      have htake : ext.take (args.map Arg.sel).length = ext := by
        have : ext.length = (args.map Arg.sel).length := by rw [hext.1, hlen0, List.length_map, hl]
        rw [← this]; exact List.take_length
      have hsize : prod ext ≤ Z := by
        obtain ⟨_, _, q3, q4⟩ := hext
        rw [htake] at q3 q4
        by_cases hemp : ∃ l ∈ args.map Arg.sel, l = []
        · rw [prod_zero_mem (q4 hemp)]; omega
        · have hall : ∀ l ∈ args.map Arg.sel, l ≠ [] := fun l hl h => hemp ⟨l, hl, h⟩
          rw [q3 hall]
          exact hsz (hin fun a ha => hall _ (List.mem_map_of_mem ha))
      simp only [res_ok_bind]
      cases m with
      | ident d =>
        rw [mkVec_u64 (by omega)]
        refine ⟨rfl, ?_⟩
        intro o ho
        obtain ⟨m', h1, h2⟩ := res_bind_ok.1 ho
        cases h2
        obtain ⟨rfl, _, _⟩ := mkVec_exact.1 h1
        refine ⟨hsize, ?_⟩
        intro i hi
        rw [hps] at hi
        obtain ⟨t, ht, rfl⟩ := List.mem_map.1 hi
        by_cases hemp : [] ∈ args.map Arg.sel
        · rw [cart_nil_mem hemp] at ht; cases ht
        · have hI := hin fun a ha h => hemp (h ▸ List.mem_map_of_mem ha)
          rw [cart_eq_map_choose] at ht
          obtain ⟨j, hj, rfl⟩ := List.mem_map.1 ht
          have hinB := inside_choose hI (mem_multiIdx.1 hj)
          have := dotP_le_span (t := d.strides) hinB
          rw [sdesc_pos_exact]
          simp only [Mapper.desc, Mapper.disp] at this hpos ⊢
          omega
      | vec d idx =>
        cases hma : (Mapper.vec d idx).mapAll true ps with
        | error f => exact ⟨rfl, fun _ h => by cases h⟩
        | ok idx' =>
          simp only [res_ok_bind]
          rw [mkVec_u64 (by omega)]
          refine ⟨rfl, ?_⟩
          intro o ho
          obtain ⟨m', h1, h2⟩ := res_bind_ok.1 ho
          cases h2
          obtain ⟨rfl, _, _⟩ := mkVec_exact.1 h1
          exact ⟨hsize, fun i hi => hm i (mapAll_mem hma i hi)⟩

/-- The 64-bit result `r` is the exact result `r'`, and what it is stays within bounds. -/
def Agree (Z : Nat) (r r' : Res Obj) : Prop := r = r' ∧ ∀ o, r' = .ok o → OFit Z o

theorem Agree.error {Z : Nat} (f : Fail) : Agree Z (.error f) (.error f) := ⟨rfl, fun _ h => by cases h⟩
theorem Agree.ok {Z : Nat} {o : Obj} (h : OFit Z o) : Agree Z (.ok o) (.ok o) := ⟨rfl, fun _ h' => by cases h'; exact h⟩

theorem agree_dbg {Z : Nat} {c : Bool} {f g : Unit → Res Obj} (h : c = true → Agree Z (f ()) (g ())) :
    Agree Z (dbg true c >>= f) (dbg true c >>= g) := by
  cases c with
  | false => exact .error _
  | true => exact h rfl

theorem agree_bind {Z : Nat} {x y : Res α} {f g : α → Res Obj} (hxy : x = y) (h : ∀ a, y = .ok a → Agree Z (f a) (g a)) :
    Agree Z (x >>= f) (y >>= g) := by
  subst hxy
  cases x with
  | error e => exact .error _
  | ok a => exact h a rfl

section
variable {Z off : Nat} (hZ : 4 * Z ≤ W64) (h0 : 0 < Z)
include hZ h0

theorem arraySlice_agree {m : Mapper} {args : List Arg} (hw : m.WF) (hd : DescFit Z (m.disp off) m.desc) (hm : VFit Z off m)
    (hf : ArgsFit m.desc.ext args)
    (hsz : Inside m.desc.ext (args.map Arg.sel) → prod ((args.map Arg.sel).map List.length) ≤ Z) :
    Agree Z (arraySlice Arith.u64 true off m args) (arraySlice Arith.exact true off m args) :=
  arraySlice_u64 hZ h0 hw hd hm hf hsz

theorem tail_fit {c s i : Nat} {e t : Nat} {es ts : List Nat} (hl : (t :: ts).length = (e :: es).length) (hes : es ≠ [])
    (hnz : ∀ x ∈ e :: es, x ≠ 0) (h : DescFit Z c ⟨s, e :: es, t :: ts⟩) (hi : i < e) :
    DFit Z c ⟨s + t * i, es, ts⟩ := by
  obtain ⟨h1, h2, h3⟩ := h
  have h3 : c + s + ((e - 1) * t + span es ts) < Z := h3
  have hm : t * i ≤ (e - 1) * t := by
    rw [Nat.mul_comm (e - 1)]; exact Nat.mul_le_mul_left t (by omega)
  refine ⟨by simpa using hl, hes, fun x hx => hnz x (by simp [hx]), fun x hx => h1 x (by simp [hx]),
    fun x hx => h2 x (by simp [hx]), ?_⟩
  show c + (s + t * i) + span es ts < Z
  omega

theorem arrayAtIdx_agree {m : Mapper} {i : Nat} (hw : m.WF) (hm : MFit Z off m)
    (hsz : i < m.desc.ext.headD 0 → prod m.desc.ext.tail ≤ Z) :
    Agree Z (arrayAtIdx Arith.u64 true off m i) (arrayAtIdx Arith.exact true off m i) := by
  unfold arrayAtIdx
  refine agree_dbg fun hi => ?_
  have hi : i < m.desc.ext.headD 0 := by simpa using hi
  have hd := hm.descFit h0 hw
  obtain ⟨e, es, t, ts, hext, hstr⟩ := ext_cons hw.desc
  have hie : i < e := by simpa [hext] using hi
  have hpos := hd.pos
  by_cases hl : m.desc.ext.length = 1
  · rw [if_pos hl, if_pos hl]
    have hinB : InB m.desc.ext [i] := by
      rw [hext] at hl ⊢
      have : es = [] := by simpa using hl
      subst this
      exact ⟨hie, trivial⟩
    rw [pos_u64 hinB (by omega)]
    refine agree_bind rfl fun p hp => ?_
    have hlt : off + p < Z := by
      cases m with
      | ident d =>
        simp only [Mapper.map, Except.ok.injEq] at hp
        rw [← hp, sdesc_pos_exact]
        have := dotP_le_span (t := d.strides) hinB
        simp only [Mapper.desc, Mapper.disp] at this hpos ⊢
        omega
      | vec d idx =>
        obtain ⟨h1, rfl⟩ := vec_map_ok.1 hp
        refine hm.2 _ ?_
        rw [List.getD_eq_getElem?_getD, List.getElem?_eq_getElem h1]
        exact List.getElem_mem _
    rw [u64_add (by omega)]
    exact .ok trivial
  · rw [if_neg hl, if_neg hl]
    have hnz := hw.desc.2.2.2 hl
    have hlen := hw.desc.1
    cases m with
    | ident d =>
      obtain ⟨s, de, ds⟩ := d
      simp only [Mapper.desc] at hext hstr hl hnz hlen hpos
      subst hext hstr
      cases es with
      | nil => simp at hl
      | cons e' es =>
        cases ts with
        | nil => simp at hlen
        | cons t' ts =>
          have hfit := tail_fit hZ h0 hlen (by simp) hnz hd hie
          simp only [Mapper.dropFirst, SDesc.discard, res_ok_bind, List.headD_cons, Arith.exact_add, Arith.exact_mul]
          have h3 : off + s + ((e - 1) * t + span (e' :: es) (t' :: ts)) < Z := hpos
          have hm' : t * i ≤ (e - 1) * t := by
            rw [Nat.mul_comm (e - 1)]; exact Nat.mul_le_mul_left t (by omega)
          rw [u64_mul (by omega), u64_add (by omega)]
          exact .ok hfit
    | vec d idx =>
      have hsz' : prod d.ext.tail ≤ Z := hsz hi
      obtain ⟨hc, _, _⟩ := hw
      have hst : d.start = 0 := congrArg SDesc.start hc
      have hcs : d.strides = cmStrides d.ext 1 := congrArg SDesc.strides hc
      obtain ⟨s, de, ds⟩ := d
      simp only [Mapper.desc] at hext hstr hl hnz hlen hpos hsz'
      simp only at hst hcs
      subst hext hstr hst
      cases es with
      | nil => simp at hl
      | cons e' es =>
        cases ts with
        | nil => simp at hlen
        | cons t' ts =>
          have ht : t = 1 := by simp only [cmStrides] at hcs; exact (List.cons.inj hcs).1
          subst ht
          have hfit := tail_fit hZ h0 hlen (by simp) hnz hd hie
          rw [Nat.one_mul] at hfit
          simp only [Mapper.dropFirst, inNoexcept_exact, inNoexcept_u64, SDesc.discard, res_ok_bind, Arith.exact_add]
          have hfp := hfit.pos
          simp only [Mapper.disp, Nat.zero_add] at hfp
          rw [u64_add (a := 0) (b := i) (by omega)]
          rw [positions_u64 hZ hfit]
          simp only [bind_assoc]
          refine agree_bind rfl fun ps hps => agree_bind rfl fun idx' hidx => agree_bind ?_ fun m' hm' => ?_
          · exact mkVec_u64 (by simp only [List.tail_cons] at hsz'; omega)
          · obtain ⟨rfl, _, _⟩ := mkVec_exact.1 hm'
            exact .ok ⟨hsz', fun i hi => hm.2 i (mapAll_mem hidx i hi)⟩

theorem argsFit_snoc : ∀ {e : List Nat} {args : List Arg} {a : Arg}, ArgsFit e args → ArgFit (e.getD args.length 0) a →
    ArgsFit e (args ++ [a]) := by
  intro e
  induction e with
  | nil => intro args a _ _; cases args <;> trivial
  | cons x es ih =>
    intro args a h ha
    cases args with
    | nil => exact ⟨ha, by cases es <;> trivial⟩
    | cons b bs => exact ⟨h.1, ih h.2 (by simpa using ha)⟩

theorem arrayAtArg_agree {m : Mapper} {a : Arg} (hw : m.WF) (hd : DescFit Z (m.disp off) m.desc) (hv : VFit Z off m)
    (hm : m.desc.ext.length ≠ 1 → MFit Z off m) (ha : ArgFit (m.desc.ext.headD 0) a)
    (hsz : m.desc.ext.length = 1 → Inside m.desc.ext [a.sel] → a.sel.length ≤ Z) :
    Agree Z (arrayAtArg Arith.u64 true off m a) (arrayAtArg Arith.exact true off m a) := by
  have hf : ArgsFit m.desc.ext [a] := by
    cases he : m.desc.ext with
    | nil => trivial
    | cons x es => rw [he] at ha; exact ⟨ha, by cases es <;> trivial⟩
  unfold arrayAtArg
  split
  · next hl =>
    refine arraySlice_agree hZ h0 hw hd hv hf fun hin => ?_
    have := hsz hl hin
    simpa [prod] using this
  · next hl => exact .ok ⟨hm hl, hf⟩

theorem proxyAt_agree {m : Mapper} {args : List Arg} {a : Arg} (hw : m.WF) (hm : MFit Z off m)
    (hf : ArgsFit m.desc.ext args) (ha : ArgFit (m.desc.ext.getD args.length 0) a) (hne : m.desc.ext ≠ [])
    (hsz : args.length + 1 = m.desc.ext.length → Inside m.desc.ext ((args ++ [a]).map Arg.sel) →
      prod (((args ++ [a]).map Arg.sel).map List.length) ≤ Z) :
    Agree Z (proxyAt Arith.u64 true off m args a) (proxyAt Arith.exact true off m args a) := by
  unfold proxyAt
  split
  · next hl =>
    refine arraySlice_agree hZ h0 hw (hm.descFit h0 hw) hm.vfit (argsFit_snoc hZ h0 hf ha) (hsz ?_)
    have : 0 < m.desc.ext.length := List.length_pos_iff.2 hne
    omega
  · exact .ok ⟨hm, argsFit_snoc hZ h0 hf ha⟩

/-! ### From the specification's conditions -/

/-- What is assumed of the next index expression. -/
def HFit (Z : Nat) (a : AObj) (ix : Ix) : Prop := IxFits (nextDim a) ix ∧ (Admissible a ix → SizeAtMost Z (astep a ix))

omit hZ h0 in
theorem HFit.congr {a b : AObj} {ix : Ix} (h : SameObj a b) (hf : HFit Z a ix) : HFit Z b ix := by
  have hn : nextDim b = nextDim a := by
    cases a <;> cases b <;> try exact h.elim
    · have h : SameView _ _ := h
      simp only [nextDim, h.1]
    · obtain ⟨h1, rfl⟩ := h
      simp only [nextDim, h1.1]
  refine ⟨hn ▸ hf.1, fun ha => ?_⟩
  have ha' := admissible_congr h.symm ha
  have hs := hf.2 ha'
  have hc := astep_congr h ha'
  generalize astep a ix = x at *
  generalize astep b ix = y at *
  cases x <;> cases y <;> try exact hc.elim
  · have hc : SameView _ _ := hc
    show prod _ ≤ Z
    rw [← hc.1]; exact hs
  · trivial

omit hZ h0 in
theorem size_part {v : AView} {sels : List (List Nat)} {l : List Nat} {ix : Ix} (h : HFit Z (.part v sels) ix)
    (hl : l = sel (v.ext.getD sels.length 0) ix) (hn : sels.length + 1 = v.ext.length) (hin : Inside v.ext (sels ++ [l])) :
    prod ((sels ++ [l]).map List.length) ≤ Z := by
  have h2 := h.2 (by simp only [Admissible]; rw [← hl]; exact fun _ => inside_selsInside hin)
  simp only [astep] at h2
  rw [← hl] at h2
  unfold close at h2
  rw [if_pos (by simpa using hn)] at h2
  exact h2

omit hZ h0 in
theorem size_view {v : AView} {l : List Nat} {ix : Ix} (h : HFit Z (.view v) ix) (hx : ∀ i, ix ≠ .at i)
    (hl : l = sel (v.ext.headD 0) ix) (hn : v.ext.length = 1) (hin : Inside v.ext [l]) : l.length ≤ Z := by
  have h2 := h.2 ((admissible_view_notAt hx).2 fun _ => by rw [← hl]; exact inside_selsInside hin)
  rw [astep_view_notAt hx, ← hl] at h2
  unfold close at h2
  rw [if_pos (by simpa using hn.symm)] at h2
  simpa [SizeAtMost, restrict, prod] using h2

omit h0 in
theorem bse_u64 {s mx t d : Nat} (hd : d ≤ Z) :
    boundedStridedExtent Arith.u64 s mx t d = boundedStridedExtent Arith.exact s mx t d := by
  unfold boundedStridedExtent
  split
  · next hs =>
    simp only [seqSize, if_pos hs]
    split
    · rfl
    · simp only [Arith.exact_add]
      rw [u64_add]
      have hW : W64 = 2 ^ 64 := rfl
      split <;> omega
  · rfl

omit h0 in
theorem bounded_fits {s mx d : Nat} (hd : d ≤ Z) (h : s < 2 ^ 64) : IxFits d (.slice s (boundedExtent s mx d)) := by
  simp only [IxFits, boundedExtent]
  have hW : W64 = 2 ^ 64 := rfl
  split <;> omega

omit h0 in
theorem boundedStrided_fits {s mx t d x : Nat} (hd : d ≤ Z) (h : IxFits d (.boundedStrided s mx t))
    (hx : boundedStridedExtent Arith.exact s mx t d = .ok x) : IxFits d (.strided s x t) := by
  have hsel := sel_boundedStrided hx
  obtain ⟨h1, h2⟩ := h
  rw [← hsel, sel_slice_length] at h2
  refine ⟨fun hx0 => ?_, h2⟩
  simp only [boundedStridedExtent, res_bind_ok, Except.ok.injEq] at hx
  obtain ⟨n, hn, rfl⟩ := hx
  split at hn
  · next hs =>
    simp only [seqSize, if_pos hs] at hn
    split at hn
    · cases hn
    · next ht =>
      simp only [Except.ok.injEq, Arith.exact_add] at hn
      have hle : n * t ≤ d - s + 1 := by
        rw [← hn]
        refine Nat.le_trans (Nat.div_mul_le_self _ _) ?_
        split <;> omega
      have h3 : (min mx n - 1) * t ≤ n * t := Nat.mul_le_mul_right _ (by omega)
      have hW : W64 = 2 ^ 64 := rfl
      omega
  · cases hn; simp at hx0

omit hZ h0 in
theorem slice_argFit {s x d : Nat} (h : IxFits d (.slice s x)) : ArgFit d (.slice s x 1) := by
  have h : s + x < 2 ^ 64 := h
  have hW : W64 = 2 ^ 64 := rfl
  exact ⟨fun _ => by omega, fun _ => by omega⟩

omit hZ h0 in
theorem strided_argFit {s x t d : Nat} (h : IxFits d (.strided s x t)) : ArgFit d (.slice s x t) := h

omit h0 in
theorem every_argFit {d : Nat} (hd : d ≤ Z) : ArgFit d (.slice 0 d 1) := by
  exact ⟨fun _ => by omega, fun _ => by omega⟩

theorem getD_le {e : List Nat} {k : Nat} (h : ∀ x ∈ e, x ≤ Z) : e.getD k 0 ≤ Z := by
  rw [List.getD_eq_getElem?_getD]
  cases hk : e[k]? with
  | none => simp
  | some x => exact h x (List.mem_of_getElem? hk)

theorem headD_le {e : List Nat} (h : ∀ x ∈ e, x ≤ Z) : e.headD 0 ≤ Z := by
  cases e with
  | nil => simp
  | cons x es => exact h x (by simp)

/-! ### The indexing operators -/

theorem srefIndex_agree {m : Mapper} {ix : Ix} (hw : m.WF) (hm : MFit Z off m) (h : HFit Z (.view (m.aview off)) ix) :
    Agree Z (srefIndex Arith.u64 true off m ix) (srefIndex Arith.exact true off m ix) := by
  have hd := hm.descFit h0 hw
  have hdim := headD_le hZ h0 hd.ext
  have hfx := h.1
  simp only [nextDim, Mapper.aview_ext] at hfx
  have key : ∀ {a : Arg}, (∀ i, ix ≠ .at i) → ArgFit (m.desc.ext.headD 0) a → a.sel = sel (m.desc.ext.headD 0) ix →
      Agree Z (arrayAtArg Arith.u64 true off m a) (arrayAtArg Arith.exact true off m a) := by
    intro a hx hfa hs
    refine arrayAtArg_agree hZ h0 hw hd hm.vfit (fun _ => hm) hfa fun hl hin => ?_
    exact size_view h hx (by simpa using hs) (by simpa using hl) (by simpa using hin)
  cases ix with
  | «at» i =>
    refine arrayAtIdx_agree hZ h0 hw hm fun hi => ?_
    have := h.2 (show i < _ by simpa using hi)
    simpa [astep, SizeAtMost, fixFirst] using this
  | slice s x => exact key (by simp) (slice_argFit hfx) (sel_slice _ _ _)
  | strided s x t => exact key (by simp) hfx rfl
  | rng l => exact key (by simp) trivial rfl
  | bounded s mx => exact key (by simp) (slice_argFit (bounded_fits hZ hdim hfx)) (sel_bounded _ _ _)
  | boundedStrided s mx t =>
    simp only [srefIndex]
    rw [bse_u64 hZ hdim]
    refine agree_bind rfl fun x hx => ?_
    exact key (by simp) (boundedStrided_fits hZ hdim hfx hx) (sel_boundedStrided hx)
  | every =>
    simp only [srefIndex, arrayAtEvery]
    split
    · exact .ok hm
    · refine .ok ⟨hm, ?_⟩
      cases he : m.desc.ext with
      | nil => trivial
      | cons x es =>
        rw [he] at hdim
        exact ⟨every_argFit hZ hdim, by cases es <;> trivial⟩

theorem proxyIndex_agree {m : Mapper} {args : List Arg} {ix : Ix} (hw : m.WF) (hm : MFit Z off m)
    (hf : ArgsFit m.desc.ext args)
    (h : HFit Z (.part (m.aview off) (args.map Arg.sel)) ix) :
    Agree Z (proxyIndex Arith.u64 true off m args ix) (proxyIndex Arith.exact true off m args ix) := by
  have hd := hm.descFit h0 hw
  have hdim : m.desc.ext.getD args.length 0 ≤ Z := getD_le hZ h0 hd.ext
  have hfx := h.1
  simp only [nextDim, Mapper.aview_ext, List.length_map] at hfx
  have key : ∀ {a : Arg}, ArgFit (m.desc.ext.getD args.length 0) a → a.sel = sel (m.desc.ext.getD args.length 0) ix →
      Agree Z (proxyAt Arith.u64 true off m args a) (proxyAt Arith.exact true off m args a) := by
    intro a hfa hs
    refine proxyAt_agree hZ h0 hw hm hf hfa hw.desc.2.1 fun hl hin => ?_
    rw [List.map_append, List.map_singleton] at hin ⊢
    exact size_part h (by simpa using hs) (by simpa using hl) (by simpa using hin)
  cases ix with
  | «at» i => exact key trivial rfl
  | slice s x => exact key (slice_argFit hfx) (sel_slice _ _ _)
  | strided s x t => exact key hfx rfl
  | rng l => exact key trivial rfl
  | bounded s mx => exact key (slice_argFit (bounded_fits hZ hdim hfx)) (sel_bounded _ _ _)
  | boundedStrided s mx t =>
    simp only [proxyIndex]
    rw [bse_u64 hZ hdim]
    refine agree_bind rfl fun x hx => ?_
    exact key (boundedStrided_fits hZ hdim hfx hx) (sel_boundedStrided hx)
  | every => exact key (every_argFit hZ hdim) (sel_every _)

/-- The descriptor of a whole contiguous array. -/
theorem canon_descFit {ext : List Nat} (hw : (canon 0 ext).WF) (he : ∀ x ∈ ext, x ≤ Z) (hp : off + prod ext < Z) :
    DescFit Z off (canon 0 ext) := by
  by_cases hl : ext.length = 1
  · obtain ⟨y, rfl⟩ := List.length_eq_one_iff.1 hl
    rw [prod_single] at hp
    refine ⟨he, by simp [canon, cmStrides]; omega, ?_⟩
    show off + 0 + ((y - 1) * 1 + 0) < Z
    omega
  · have hnz : ∀ x ∈ ext, x ≠ 0 := hw.2.2.2 hl
    refine ⟨he, ?_, ?_⟩
    · intro t ht
      have := cmStrides_le hnz ht
      omega
    · have := span_cmStrides hnz
      show off + 0 + span ext (cmStrides ext 1) < Z
      omega

theorem canon_mfit {ext : List Nat} (hw : (canon 0 ext).WF) (he : ∀ x ∈ ext, x ≤ Z) (hp : off + prod ext < Z)
    (hl : ext.length ≠ 1) : MFit Z off (.ident (canon 0 ext)) := by
  have hnz : ∀ x ∈ ext, x ≠ 0 := hw.2.2.2 hl
  obtain ⟨a, b, c⟩ := canon_descFit hZ h0 hw he hp
  exact ⟨hw.1, hw.2.1, hnz, a, b, c⟩

theorem everyFallback_agree {ext : List Nat} {M : Nat} {ix : Ix} (hM : M < ext.length) (hfit : (∀ x ∈ ext, x ≤ Z) ∧ off + prod ext < Z)
    (hl : ext.length ≠ 1)
    (h : HFit Z (.part (contig off ext) ((ext.take M).map List.range)) ix) :
    Agree Z (everyFallback Arith.u64 true off ext M ix) (everyFallback Arith.exact true off ext M ix) := by
  have hne : ext ≠ [] := by intro h; subst h; simp at hM
  unfold everyFallback
  refine agree_bind (mk'_u64 (by omega)) fun d hd => ?_
  obtain ⟨rfl, hnz⟩ := mk'_exact.1 hd
  have hwf : (Mapper.ident (canon 0 ext)).WF := canon_WF hne (hnz rfl)
  refine proxyIndex_agree hZ h0 hwf (canon_mfit hZ h0 hwf hfit.1 hfit.2 hl) ?_ ?_
  · show ArgsFit ext _
    have he := hfit.1
    clear h hne hd hnz hwf hl hM hfit
    induction ext generalizing M with
    | nil => cases M <;> trivial
    | cons x es ih =>
      cases M with
      | zero => trivial
      | succ M => exact ⟨every_argFit hZ (he x (by simp)), ih fun y hy => he y (by simp [hy])⟩
  · have hargs : ((ext.take M).map fun e => Arg.slice 0 e 1).map Arg.sel = (ext.take M).map List.range := by
      rw [List.map_map]
      apply List.map_congr_left
      intro e _
      simp [Arg.sel]
    rw [hargs]
    have hsame : SameObj (.part (contig off ext) ((ext.take M).map List.range))
        (.part ((Mapper.ident (canon 0 ext)).aview off) ((ext.take M).map List.range)) := ⟨(contig_same off ext).symm, rfl⟩
    exact h.congr hsame

omit hZ h0 in
theorem prod_snoc (es : List Nat) (l : Nat) : prod (es ++ [l]) = prod es * l := by
  induction es with
  | nil => simp [prod]
  | cons x es ih => simp only [List.cons_append, prod, ih, Nat.mul_assoc]

omit hZ h0 in
theorem HFit.part_sel {v : AView} {s : List (List Nat)} {ix ix' : Ix} (h : HFit Z (.part v s) ix)
    (hf : IxFits (v.ext.getD s.length 0) ix')
    (he : sel (v.ext.getD s.length 0) ix = sel (v.ext.getD s.length 0) ix') : HFit Z (.part v s) ix' := by
  refine ⟨hf, ?_⟩
  have := h.2
  simp only [astep, Admissible] at this ⊢
  rwa [he] at this

theorem everyIndex_agree {ext : List Nat} {M : Nat} {ix : Ix} (hM1 : 1 ≤ M) (hM : M < ext.length)
    (hfit : (∀ x ∈ ext, x ≤ Z) ∧ off + prod ext < Z)
    (h : HFit Z (.part (contig off ext) ((ext.take M).map List.range)) ix) :
    Agree Z (everyIndex Arith.u64 true off ext M ix) (everyIndex Arith.exact true off ext M ix) := by
  have hne : ext ≠ [] := by intro h; subst h; simp at hM
  have hl1 : ext.length ≠ 1 := by omega
  have hfb : ∀ {ix' : Ix}, HFit Z (.part (contig off ext) ((ext.take M).map List.range)) ix' → Agree Z
      (everyFallback Arith.u64 true off ext M ix') (everyFallback Arith.exact true off ext M ix') :=
    fun h => everyFallback_agree hZ h0 hM hfit hl1 h
  have hdim : ext.getD M 0 ≤ Z := getD_le hZ h0 hfit.1
  have hlenM : ((ext.take M).map List.range).length = M := by
    rw [List.length_map, List.length_take]; omega
  have hfx := h.1
  simp only [nextDim, hlenM, contig] at hfx
  -- the last dimension
  have hlastcase : ∀ {s x : Nat}, s + x ≤ ext.getD (ext.length - 1) 0 → ext.getD (ext.length - 1) 0 ≠ 0 →
      Agree Z (.ok (.cref (Arith.u64.add off (Arith.u64.mul s (prodL Arith.u64 ext / ext.getD (ext.length - 1) 0)))
        (ext.set (ext.length - 1) x)))
      (.ok (.cref (Arith.exact.add off (Arith.exact.mul s (prodL Arith.exact ext / ext.getD (ext.length - 1) 0)))
        (ext.set (ext.length - 1) x))) := by
    obtain ⟨es, l, rfl, hlen, hlast⟩ := ext_snoc hne
    rw [hlast, hlen]
    intro s x hsx hl0
    rw [prodL_u64_eq (by omega), prodL_exact]
    have hp := hfit.2
    rw [prod_snoc] at hp ⊢
    have hdiv : prod es * l / l = prod es := Nat.mul_div_cancel _ (by omega)
    rw [hdiv, set_snoc]
    have h1 : s * prod es + prod es * x ≤ prod es * l := by
      rw [Nat.mul_comm s, ← Nat.mul_add]; exact Nat.mul_le_mul_left _ hsx
    rw [u64_mul (by omega), u64_add (by omega)]
    simp only [Arith.exact_add, Arith.exact_mul]
    have hlz : l ≤ Z := hfit.1 l (by simp)
    refine .ok ⟨?_, ?_⟩
    · intro y hy
      rcases List.mem_append.1 hy with hy | hy
      · exact hfit.1 y (by simp [hy])
      · simp only [List.mem_singleton] at hy; omega
    · rw [prod_snoc]; omega
  have hlz : ext.getD (ext.length - 1) 0 ≤ Z := getD_le hZ h0 hfit.1
  cases ix with
  | «at» i =>
    simp only [everyIndex]
    split
    · refine agree_dbg fun hi => ?_
      have hi := of_decide_eq_true hi
      rw [if_neg (by omega), if_neg (by omega)]
      exact hlastcase (by omega) (by omega)
    · exact .error _
  | slice s x =>
    simp only [everyIndex]
    split
    · have hsx : s + x < 2 ^ 64 := hfx
      have hW : W64 = 2 ^ 64 := rfl
      rw [u64_add (by omega), Arith.exact_add]
      refine agree_dbg fun hi => ?_
      have hi := of_decide_eq_true hi
      split
      · exact .error _
      · refine hlastcase ?_ (by omega)
        rcases Nat.eq_zero_or_pos (s + x) with h0' | h0'
        · omega
        · rw [usub_one h0'] at hi; omega
    · exact hfb h
  | strided s x t => exact hfb h
  | rng r => exact hfb h
  | every =>
    simp only [everyIndex]
    split <;> exact .ok hfit
  | bounded s mx =>
    refine hfb (h.part_sel ?_ ?_)
    · rw [hlenM]; exact bounded_fits hZ hdim hfx
    · rw [hlenM, ← sel_slice]; exact (sel_bounded _ _ _).symm
  | boundedStrided s mx t =>
    simp only [everyIndex]
    rw [bse_u64 hZ hdim]
    refine agree_bind rfl fun x hx => hfb (h.part_sel ?_ ?_)
    · rw [hlenM]; exact boundedStrided_fits hZ hdim hfx hx
    · rw [hlenM, ← sel_strided]; exact (sel_boundedStrided hx).symm

theorem arrayAtArgC_agree {ext : List Nat} {a : Arg} {ix : Ix} (hne : ext ≠ []) (hfit : (∀ x ∈ ext, x ≤ Z) ∧ off + prod ext < Z)
    (hx : ∀ i, ix ≠ .at i) (ha : ArgFit (ext.headD 0) a) (hs : a.sel = sel (ext.headD 0) ix)
    (h : HFit Z (.view (contig off ext)) ix) :
    Agree Z (arrayAtArgC Arith.u64 true off ext a) (arrayAtArgC Arith.exact true off ext a) := by
  unfold arrayAtArgC
  refine agree_bind (mk'_u64 (by omega)) fun d hd => ?_
  obtain ⟨rfl, hnz⟩ := mk'_exact.1 hd
  have hwf : (Mapper.ident (canon 0 ext)).WF := canon_WF hne (hnz rfl)
  exact arrayAtArg_agree hZ h0 hwf (canon_descFit hZ h0 hwf hfit.1 hfit.2) trivial
    (fun hl => canon_mfit hZ h0 hwf hfit.1 hfit.2 hl) ha fun hl hin => size_view h hx hs hl hin

theorem arrayAtSliceC_agree {ext : List Nat} {s x : Nat} {ix : Ix} (hne : ext ≠ []) (hfit : (∀ x ∈ ext, x ≤ Z) ∧ off + prod ext < Z)
    (hx : ∀ i, ix ≠ .at i) (ha : IxFits (ext.headD 0) (.slice s x)) (hs : Arg.sel (.slice s x 1) = sel (ext.headD 0) ix)
    (h : HFit Z (.view (contig off ext)) ix) :
    Agree Z (arrayAtSliceC Arith.u64 true off ext s x) (arrayAtSliceC Arith.exact true off ext s x) := by
  unfold arrayAtSliceC
  split
  · next e =>
    have hsx : s + x < 2 ^ 64 := ha
    have hW : W64 = 2 ^ 64 := rfl
    have hez : e ≤ Z := hfit.1 e (by simp)
    have hp := hfit.2
    rw [prod_single] at hp
    rw [u64_add (by omega : s + x < W64), Arith.exact_add]
    refine agree_dbg fun hi => ?_
    have hi := of_decide_eq_true hi
    have hle : s + x ≤ e := by
      rcases Nat.eq_zero_or_pos (s + x) with h0' | h0'
      · omega
      · rw [usub_one h0'] at hi; omega
    rw [u64_add (by omega), Arith.exact_add]
    refine .ok ⟨by intro y hy; simp only [List.mem_singleton] at hy; omega, ?_⟩
    rw [prod_single]; omega
  · exact arrayAtArgC_agree hZ h0 hne hfit hx (slice_argFit ha) hs h

theorem crefIndex_agree {ext : List Nat} {ix : Ix} (hne : ext ≠ []) (hfit : (∀ x ∈ ext, x ≤ Z) ∧ off + prod ext < Z)
    (h : HFit Z (.view (contig off ext)) ix) :
    Agree Z (crefIndex Arith.u64 true off ext ix) (crefIndex Arith.exact true off ext ix) := by
  have hdim : ext.headD 0 ≤ Z := headD_le hZ h0 hfit.1
  have hfx := h.1
  simp only [nextDim, contig] at hfx
  cases ix with
  | «at» i =>
    simp only [crefIndex]
    refine agree_dbg fun hi => ?_
    have hi := of_decide_eq_true hi
    split
    · next hl =>
      obtain ⟨e, rfl⟩ := List.length_eq_one_iff.1 hl
      have hp := hfit.2
      rw [prod_single] at hp
      have hi : i < e := hi
      rw [u64_add (by omega), Arith.exact_add]
      exact .ok trivial
    · next hl =>
      refine agree_bind (mk'_u64 (by omega)) fun d hd => ?_
      obtain ⟨rfl, hnz⟩ := mk'_exact.1 hd
      refine agree_bind rfl fun n hn => ?_
      have hwf : (canon 0 ext).WF := canon_WF hne (hnz rfl)
      have hdf := canon_descFit hZ h0 hwf hfit.1 hfit.2
      cases ext with
      | nil => exact absurd rfl hne
      | cons e es =>
        have hi : i < e := hi
        have hes : es ≠ [] := by intro h; subst h; simp at hl
        have := tail_fit hZ h0 (c := off) (s := 0) (i := i) (e := e) (t := 1) (es := es) (ts := cmStrides es e)
          (by simp [cmStrides_length]) hes (hnz rfl hl) (by simpa [canon, cmStrides] using hdf) hi
        obtain ⟨n1, n2, n3, _⟩ := discard_ok hn
        have hnn : n = ⟨0 + 1 * i, es, cmStrides es e⟩ := by
          obtain ⟨a, b, c⟩ := n
          simp only [canon] at n1 n2 n3
          subst n1 n2 n3
          simp [cmStrides]
        rw [hnn]
        exact .ok this
  | slice s x => exact arrayAtSliceC_agree hZ h0 hne hfit (by simp) hfx (sel_slice _ _ _) h
  | strided s x t => exact arrayAtArgC_agree hZ h0 hne hfit (by simp) hfx rfl h
  | bounded s mx =>
    exact arrayAtSliceC_agree hZ h0 hne hfit (by simp) (bounded_fits hZ hdim hfx) (sel_bounded _ _ _) h
  | boundedStrided s mx t =>
    simp only [crefIndex]
    rw [bse_u64 hZ hdim]
    refine agree_bind rfl fun x hx => ?_
    exact arrayAtArgC_agree hZ h0 hne hfit (by simp) (boundedStrided_fits hZ hdim hfx hx) (sel_boundedStrided hx) h
  | every =>
    simp only [crefIndex]
    split <;> exact .ok hfit
  | rng l =>
    simp only [crefIndex]
    split
    · next hl =>
      obtain ⟨e, rfl⟩ := List.length_eq_one_iff.1 hl
      refine agree_dbg fun hi => ?_
      have hi : maxIdx l < e := of_decide_eq_true hi
      have hmem := (maxIdx_lt.1 hi).2
      have hsz : l.length ≤ Z := size_view h (by simp) rfl rfl ⟨hmem, trivial⟩
      refine agree_bind (mkVec_u64 (by rw [prod_single]; omega)) fun m hm => ?_
      obtain ⟨rfl, _, _⟩ := mkVec_exact.1 hm
      have hp := hfit.2
      rw [prod_single] at hp
      refine .ok ⟨by show prod [l.length] ≤ Z; rw [prod_single]; exact hsz, fun i hi' => ?_⟩
      have := hmem i hi'
      omega
    · exact arrayAtArgC_agree hZ h0 hne hfit (by simp) trivial rfl h

omit off in
theorem index_agree {o : Obj} {ix : Ix} (hwf : o.WF) (hfit : OFit Z o) (h : HFit Z o.abs ix) :
    Agree Z (o.index Arith.u64 true ix) (o.index Arith.exact true ix) := by
  cases o with
  | elem p => exact .error _
  | cref off ext => exact crefIndex_agree hZ h0 hwf hfit h
  | sref off m => exact srefIndex_agree hZ h0 hwf hfit h
  | proxy off m args => exact proxyIndex_agree hZ h0 hwf.1 hfit.1 hfit.2 h
  | everyProxy off ext M => exact everyIndex_agree hZ h0 hwf.1 hwf.2 hfit h

omit hZ h0 off in
theorem fitsAll_congr : ∀ {h : List Ix} {a b : AObj}, SameObj a b → FitsAll Z a h → FitsAll Z b h
  | [], _, _, _, _ => trivial
  | ix :: h, a, b, hs, ⟨h1, h2⟩ => by
    have hc : HFit Z b ix := HFit.congr hs ⟨h1, fun ha => (h2 ha).1⟩
    refine ⟨hc.1, fun hb => ⟨hc.2 hb, ?_⟩⟩
    have ha := admissible_congr hs.symm hb
    exact fitsAll_congr (astep_congr hs ha) (h2 ha).2

omit off in
/-- Chains of `operator[]` compute the same with 64-bit and with exact arithmetic. -/
theorem run_agree : ∀ {h : List Ix} {o : Obj}, o.WF → OFit Z o → FitsAll Z o.abs h →
    Agree Z (o.run Arith.u64 true h) (o.run Arith.exact true h)
  | [], _, _, hf, _ => .ok hf
  | ix :: h, o, hwf, hf, ⟨h1, h2⟩ => by
    have hi := index_agree hZ h0 hwf hf (ix := ix) ⟨h1, fun ha => (h2 ha).1⟩
    simp only [Obj.run, List.foldlM_cons]
    refine agree_bind hi.1 fun o1 ho1 => ?_
    have st := index_step hwf ho1
    exact run_agree st.wf (hi.2 o1 ho1) (fitsAll_congr st.same.symm (h2 st.adm).2)

omit off in
/-- So do iterations. -/
theorem positions_agree {o : Obj} (hwf : o.WF) (hf : OFit Z o) : o.positions Arith.u64 = o.positions Arith.exact := by
  cases o with
  | elem p => rfl
  | cref off ext =>
    obtain ⟨_, hp⟩ := hf
    simp only [Obj.positions]
    rw [prodL_u64_eq (by omega), prodL_exact]
    congr 1
    apply List.map_congr_left
    intro k hk
    have := List.mem_range.1 hk
    rw [u64_add (by omega), Arith.exact_add]
  | proxy off m args => rfl
  | everyProxy off ext M => rfl
  | sref off m =>
    cases m with
    | ident d =>
      have hf : DFit Z off d := hf
      simp only [Obj.positions]
      rw [positions_u64 hZ hf]
      have hwf : d.WF := hwf
      rw [positions_spec hwf.iterOK (iterFuel_lt d)]
      simp only [res_ok_bind]
      congr 1
      apply List.map_congr_left
      intro k hk
      obtain ⟨i, hi, rfl⟩ := List.mem_map.1 hk
      have hle := dotP_le_span (t := d.strides) (mem_multiIdx.1 hi)
      have hpos := hf.pos
      rw [sdesc_pos_exact, u64_add (by omega), Arith.exact_add]
    | vec d idx =>
      simp only [Obj.positions]
      congr 1
      apply List.map_congr_left
      intro k hk
      have := hf.2 k hk
      rw [u64_add (by omega), Arith.exact_add]

end

end Jules

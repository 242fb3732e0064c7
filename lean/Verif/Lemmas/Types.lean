import Verif.Basic
import Verif.Spec.Types
import Mathlib.Tactic.Cases
/-
Static types of index chains, for every arithmetic and with or without checks.
-/
namespace Jules
open Spec

/-- The computation is not ill-formed, and its result satisfies `P`. -/
def WT (r : Res α) (P : α → Prop) : Prop := r ≠ .error .illFormed ∧ ∀ a, r = .ok a → P a

theorem wt_ok {a : α} {P : α → Prop} (h : P a) : WT (.ok a) P :=
  ⟨(by intro h; cases h), fun b hb => by cases hb; exact h⟩

theorem wt_err {e : Fail} {P : α → Prop} (h : e ≠ .illFormed) : WT (.error e) P :=
  ⟨(by intro h'; cases h'; exact h rfl), fun b hb => by cases hb⟩

theorem wt_bind {r : Res α} {g : α → Res β} {P : α → Prop} {Q : β → Prop} (h : WT r P) (hg : ∀ a, P a → WT (g a) Q) : WT (r >>= g) Q := by
  cases r with
  | ok a => exact hg a (h.2 a rfl)
  | error e => exact wt_err fun he => h.1 (by rw [he])

theorem wt_inNoexcept {A : Arith} {r : Res α} {P : α → Prop} (h : WT r P) : WT (inNoexcept A r) P := by
  refine ⟨fun he => ?_, fun a ha => h.2 a (inNoexcept_eq_ok.1 ha)⟩
  unfold inNoexcept at he
  split at he
  · split at he <;> cases he
  · exact h.1 he

theorem wt_dbg (chk c : Bool) : WT (dbg chk c) fun _ => True := by
  cases chk <;> cases c <;> simp [dbg, WT]

theorem wt_mono {r : Res α} {P Q : α → Prop} (h : WT r P) (hq : ∀ a, P a → Q a) : WT r Q := ⟨h.1, fun a ha => hq a (h.2 a ha)⟩

theorem wt_foldlM {f : σ → β → Res σ} {P : σ → Prop} (h : ∀ s b, P s → WT (f s b) P) : ∀ (l : List β) (s : σ), P s → WT (l.foldlM f s) P
  | [], s, hs => by rw [List.foldlM_nil]; exact wt_ok hs
  | b :: l, s, hs => by rw [List.foldlM_cons]; exact wt_bind (h s b hs) fun s' hs' => wt_foldlM h l s' hs'

theorem wt_mapM {f : β → Res γ} (h : ∀ b, WT (f b) fun _ => True) : ∀ l : List β, WT (l.mapM f) fun _ => True
  | [] => by rw [List.mapM_nil]; exact wt_ok trivial
  | b :: l => by
    rw [List.mapM_cons]
    exact wt_bind (h b) fun _ _ => wt_bind (wt_mapM h l) fun _ _ => wt_ok trivial

/-- One stride per dimension, at least one dimension. -/
def SDesc.Lens (d : SDesc) : Prop := d.strides.length = d.ext.length ∧ d.ext ≠ []

def Obj.Lens : Obj → Prop
  | .elem _ => True
  | .cref _ ext => ext ≠ []
  | .sref _ m => m.desc.Lens
  | .proxy _ m args => m.desc.Lens ∧ args ≠ [] ∧ args.length < m.desc.ext.length
  | .everyProxy _ ext M => 1 ≤ M ∧ M < ext.length

theorem wt_inferStrides (A : Arith) (chk : Bool) : ∀ (e : List Nat) (t : Nat), WT (inferStrides A chk e t) fun ts => ts.length = e.length
  | [], _ => wt_ok rfl
  | e :: es, t => wt_bind (wt_dbg _ _) fun _ _ => wt_bind (wt_inferStrides A chk es _) fun r hr => wt_ok (by simp [hr])

theorem wt_mk' (A : Arith) (chk : Bool) (s : Nat) {e : List Nat} (hne : e ≠ []) : WT (SDesc.mk' A chk s e) fun d => d.ext = e ∧ d.Lens := by
  unfold SDesc.mk'
  split
  · exact wt_ok ⟨rfl, rfl, by simp⟩
  · exact wt_bind (wt_inNoexcept (wt_inferStrides A chk _ _)) fun ts hts => wt_ok ⟨rfl, hts, hne⟩

theorem wt_mkVec (A : Arith) (chk : Bool) {e : List Nat} (hne : e ≠ []) (l : List Nat) :
    WT (Mapper.mkVec A chk e l) fun m => ∃ d, m = .vec d l ∧ d.ext = e ∧ d.Lens :=
  wt_bind (wt_mk' A chk 0 hne) fun d hd => wt_bind (wt_dbg _ _) fun _ _ => wt_ok ⟨d, rfl, hd.1, hd.2⟩

theorem wt_map (chk : Bool) (m : Mapper) (i : Nat) : WT (m.map chk i) fun _ => True := by
  cases m with
  | ident d => exact wt_ok trivial
  | vec d l =>
    refine wt_bind (wt_dbg _ _) fun _ _ => ?_
    unfold lookup
    split
    · exact wt_ok trivial
    · exact wt_err (by simp)

theorem wt_incr : ∀ (e i : List Nat), i.length = e.length → e ≠ [] → WT (incr e i) fun r => r.length = e.length
  | [], _, _, h => (h rfl).elim
  | [_], [i], _, _ => wt_ok rfl
  | e :: e' :: es, i :: i' :: is, hl, _ => by
    unfold incr
    · split
      · exact wt_err (by simp)
      · dsimp only
        split
        · exact wt_ok (by simpa using hl)
        · exact wt_bind (wt_incr (e' :: es) (i' :: is) (by simpa using hl) (by simp)) fun r hr => wt_ok (by simp [hr])
    

theorem wt_iterGen (A : Arith) (d : SDesc) (hne : d.ext ≠ []) : ∀ (fuel : Nat) (i : List Nat), i.length = d.ext.length → WT (iterGen A d fuel i) fun _ => True
  | 0, _, _ => wt_err (by simp)
  | fuel + 1, i, hi => by
    unfold iterGen
    split
    · exact wt_ok trivial
    · exact wt_bind (wt_incr _ _ hi hne) fun r hr => wt_bind (wt_iterGen A d hne fuel r hr) fun _ _ => wt_ok trivial

theorem wt_iterOne (A : Arith) (t stop : Nat) : ∀ (fuel p : Nat), WT (iterOne A t stop fuel p) fun _ => True
  | 0, _ => wt_err (by simp)
  | fuel + 1, p => by
    unfold iterOne
    split
    · exact wt_ok trivial
    · exact wt_bind (wt_iterOne A t stop fuel _) fun _ _ => wt_ok trivial

theorem wt_positions (A : Arith) (d : SDesc) (h : d.Lens) (fuel : Nat) : WT (d.positions A fuel) fun _ => True := by
  unfold SDesc.positions
  split
  · exact wt_iterOne ..
  · next h' => exact (h.2 h').elim
  · exact wt_iterGen A d h.2 fuel _ (by simp)

theorem wt_doSlice (A : Arith) (chk : Bool) : ∀ (args : List Arg) (s : Nat) (e t : List Nat), args.all Arg.isDefault = true →
    args.length = e.length → t.length = e.length →
    WT (doSlice A chk s e t args) fun r => r.2.1.length = e.length ∧ r.2.2.length = e.length
  | [], _, [], [], _, _, _ => wt_ok ⟨rfl, rfl⟩
  | .idx _ :: as, _, _ :: _, _ :: _, hd, h1, h2 =>
    wt_bind (wt_dbg _ _) fun _ _ => wt_bind (wt_doSlice A chk as _ _ _ (by simpa [Arg.isDefault] using hd) (by simpa using h1) (by simpa using h2))
      fun r hr => wt_ok (by simp [hr])
  | .slice _ _ _ :: as, _, _ :: _, _ :: _, hd, h1, h2 =>
    wt_bind (wt_dbg _ _) fun _ _ => wt_bind (wt_dbg _ _) fun _ _ => wt_bind (wt_dbg _ _) fun _ _ =>
      wt_bind (wt_doSlice A chk as _ _ _ (by simpa [Arg.isDefault] using hd) (by simpa using h1) (by simpa using h2))
      fun r hr => wt_ok (by simp [hr])
  | .rng _ :: _, _, _, _, hd, _, _ => by simp [Arg.isDefault] at hd

theorem wt_doSliceInd (A : Arith) (chk : Bool) (d : SDesc) (n : Nat) : ∀ (as : List Arg) (ix : List Nat) (st : List Nat × List Nat), st.1.length = n →
    WT (doSliceInd A chk d as ix st) fun r => r.1.length = n
  | [], ix, (ext, out), h => wt_ok h
  | .rng l :: as, ix, (ext, out), h => wt_bind (wt_dbg _ _) fun _ _ =>
      wt_foldlM (P := fun st => st.1.length = n) (fun s b hs => wt_doSliceInd A chk d n as _ s hs) _ _ (by simpa using h)
  | .idx i :: as, ix, (ext, out), h => wt_bind (wt_dbg _ _) fun _ _ => wt_doSliceInd A chk d n as _ _ (by simpa using h)
  | .slice a x t :: as, ix, (ext, out), h => wt_bind (wt_dbg _ _) fun _ _ => wt_bind (wt_dbg _ _) fun _ _ => wt_bind (wt_dbg _ _) fun _ _ =>
      wt_foldlM (P := fun st => st.1.length = n) (fun s b hs => wt_doSliceInd A chk d n as _ s hs) _ _ (by simpa using h)

/-- Is it a list-mapped view? -/
def Mapper.isVec : Mapper → Bool
  | .ident _ => false
  | .vec _ _ => true

/-- An object of a kind. -/
def IsKind (k : Kind) (o : Obj) : Prop := kindOf o = k ∧ o.Lens

theorem ne_nil_of_length {l : List α} {l' : List β} (h : l.length = l'.length) (h' : l' ≠ []) : l ≠ [] := by
  intro h0
  subst h0
  exact h' (List.length_eq_zero_iff.1 h.symm)

theorem wt_arraySlice (A : Arith) (chk : Bool) (off : Nat) (m : Mapper) (args : List Arg) (hm : m.desc.Lens) (hl : args.length = m.desc.ext.length) :
    WT (arraySlice A chk off m args) (IsKind (.strided args.length (m.isVec || !args.all Arg.isDefault))) := by
  have hvec : ∀ (e l : List Nat), e.length = m.desc.ext.length → (m.isVec || !args.all Arg.isDefault) = true →
      WT (Mapper.mkVec A chk e l >>= fun m' => .ok (.sref off m')) (IsKind (.strided args.length (m.isVec || !args.all Arg.isDefault))) := by
    intro e l he hv
    refine wt_bind (wt_mkVec A chk (ne_nil_of_length he hm.2) l) fun m' hm' => wt_ok ?_
    obtain ⟨d, rfl, h1, h2⟩ := hm'
    exact ⟨by simp [kindOf, h1, he, hl, hv], h2⟩
  unfold arraySlice
  split
  · next hd =>
    refine wt_bind (P := fun d' : SDesc => d'.ext.length = m.desc.ext.length ∧ d'.strides.length = m.desc.ext.length)
      (wt_bind (wt_doSlice A chk args m.desc.start m.desc.ext m.desc.strides hd hl hm.1) fun r hr => wt_ok hr) fun d' hd' => ?_
    have hL : d'.Lens := ⟨by omega, ne_nil_of_length hd'.1 hm.2⟩
    cases m with
    | ident d => exact wt_ok ⟨by simp [kindOf, Mapper.isVec, hd, hd'.1, hl], hL⟩
    | vec d l =>
      exact wt_bind (wt_positions A d' hL _) fun _ _ => wt_bind (wt_mapM (wt_map chk _) _) fun l' _ => hvec d'.ext l' hd'.1 rfl
  · next hd =>
    have hv : (m.isVec || !args.all Arg.isDefault) = true := by simp [hd]
    refine wt_bind (P := fun r : List Nat × List Nat => r.1.length = m.desc.ext.length) ?_ fun r hr => ?_
    · unfold indirectSlicing
      rw [if_neg (by simpa using hl)]
      exact wt_doSliceInd A chk m.desc _ _ _ _ (by simp)
    · obtain ⟨e, ps⟩ := r
      cases m with
      | ident d => exact hvec e ps hr hv
      | vec d l => exact wt_bind (wt_mapM (wt_map chk _) _) fun l' _ => hvec e l' hr hv

theorem wt_discard {d : SDesc} (h : d.Lens) (h1 : d.ext.length ≠ 1) :
    WT d.discard fun n => n.ext = d.ext.tail ∧ n.strides = d.strides.tail ∧ n.Lens := by
  obtain ⟨s, e, t⟩ := d
  obtain ⟨h2, h3⟩ := h
  simp only at h1 h2 h3
  match e, t, h1, h2, h3 with
  | [], _, _, _, h3 => exact (h3 rfl).elim
  | [_], _, h1, _, _ => simp at h1
  | a :: b :: e, [], _, h2, _ => simp at h2
  | a :: b :: e, [_], _, h2, _ => simp at h2
  | a :: b :: e, c :: d :: t, _, h2, _ => exact wt_ok ⟨rfl, rfl, by simpa using h2, by simp⟩

theorem wt_arrayAtIdx (A : Arith) (chk : Bool) (off : Nat) (m : Mapper) (i : Nat) (hm : m.desc.Lens) :
    WT (arrayAtIdx A chk off m i) (IsKind (if m.desc.ext.length = 1 then .element else .strided (m.desc.ext.length - 1) m.isVec)) := by
  refine wt_bind (wt_dbg _ _) fun _ _ => ?_
  split
  · exact wt_bind (wt_map chk m _) fun _ _ => wt_ok ⟨rfl, trivial⟩
  · next h1 =>
    cases m with
    | ident d =>
      refine wt_bind (P := fun m' => ∃ n : SDesc, m' = .ident n ∧ n.ext = d.ext.tail ∧ n.Lens)
        (wt_bind (wt_discard hm h1) fun n hn => wt_ok ⟨{ n with start := A.add d.start (A.mul (d.strides.headD 0) i) }, rfl, hn.1, hn.2.2⟩) fun m' hm' => ?_
      obtain ⟨n, rfl, h2, h3⟩ := hm'
      exact wt_ok ⟨by simp [kindOf, h2, Mapper.isVec, Mapper.desc], h3⟩
    | vec d l =>
      refine wt_bind (P := fun m' => ∃ (n : SDesc) (l : List Nat), m' = .vec n l ∧ n.ext = d.ext.tail ∧ n.Lens)
        (wt_inNoexcept (wt_bind (wt_discard hm h1) fun n hn => ?_)) fun m' hm' => ?_
      · refine wt_bind (wt_positions A { n with start := A.add d.start i } hn.2.2 _) fun _ _ => wt_bind (wt_mapM (wt_map chk _) _) fun l' _ => ?_
        refine wt_mono (wt_mkVec A chk hn.2.2.2 l') fun m' hm' => ?_
        obtain ⟨d', rfl, h2, h3⟩ := hm'
        exact ⟨d', l', rfl, h2.trans hn.1, h3⟩
      · obtain ⟨n, l', rfl, h2, h3⟩ := hm'
        exact wt_ok ⟨by simp [kindOf, h2, Mapper.isVec, Mapper.desc], h3⟩

theorem kindOf_proxy (off : Nat) (m : Mapper) (args : List Arg) :
    kindOf (.proxy off m args) = .part m.desc.ext.length args.length (m.isVec || !args.all Arg.isDefault) := by
  cases m <;> rfl

theorem kindOf_sref (off : Nat) (m : Mapper) : kindOf (.sref off m) = .strided m.desc.ext.length m.isVec := by
  cases m <;> rfl

theorem given_zero {n : Nat} {b : Bool} : given n 0 b = if n = 1 then .strided 1 b else .part n 1 b := by
  unfold given
  split <;> split
  · next h1 h2 => rw [h2]
  · omega
  · omega
  · rfl

theorem lens_length {d : SDesc} (h : d.Lens) : 0 < d.ext.length := List.length_pos_iff.2 h.2

theorem wt_arrayAtArg (A : Arith) (chk : Bool) (off : Nat) (m : Mapper) (a : Arg) (hm : m.desc.Lens) :
    WT (arrayAtArg A chk off m a) (IsKind (given m.desc.ext.length 0 (m.isVec || !a.isDefault))) := by
  unfold arrayAtArg
  have := lens_length hm
  rw [given_zero]
  split
  · next h =>
    have := wt_arraySlice A chk off m [a] hm (by simp [h])
    simpa using this
  · next h => exact wt_ok ⟨by simp [kindOf_proxy], hm, by simp, by simp only [List.length_singleton]; omega⟩

theorem isVec_kind_srefEvery (off : Nat) (m : Mapper) (hm : m.desc.Lens) : IsKind (given m.desc.ext.length 0 m.isVec) (arrayAtEvery off m) := by
  have := lens_length hm
  unfold arrayAtEvery
  rw [given_zero]
  split
  · next h => exact ⟨by rw [kindOf_sref, h], hm⟩
  · next h => exact ⟨by simp [kindOf_proxy, Arg.isDefault], hm, by simp, by simp only [List.length_singleton]; omega⟩

theorem wt_boundedStrided (A : Arith) (s mx t d : Nat) : WT (boundedStridedExtent A s mx t d) fun _ => True := by
  unfold boundedStridedExtent seqSize
  refine wt_bind (P := fun _ => True) ?_ fun _ _ => wt_ok trivial
  split
  · dsimp only
    split
    · exact wt_err (by simp)
    · exact wt_ok trivial
  · exact wt_ok trivial

theorem wt_srefIndex (A : Arith) (chk : Bool) (off : Nat) (m : Mapper) (ix : Ix) (hm : m.desc.Lens) :
    WT (srefIndex A chk off m ix) fun o => ∃ k, typeStep (.strided m.desc.ext.length m.isVec) ix = some k ∧ IsKind k o := by
  cases ix with
  | «at» i => exact wt_mono (wt_arrayAtIdx A chk off m i hm) fun o h => ⟨_, rfl, h⟩
  | every => exact wt_ok ⟨_, rfl, by simpa [isList] using isVec_kind_srefEvery off m hm⟩
  | boundedStrided s mx t => exact wt_bind (wt_boundedStrided ..) fun x _ => wt_mono (wt_arrayAtArg A chk off m _ hm) fun o h => ⟨_, rfl, h⟩
  | slice s x => exact wt_mono (wt_arrayAtArg A chk off m _ hm) fun o h => ⟨_, rfl, h⟩
  | strided s x t => exact wt_mono (wt_arrayAtArg A chk off m _ hm) fun o h => ⟨_, rfl, h⟩
  | bounded s mx => exact wt_mono (wt_arrayAtArg A chk off m _ hm) fun o h => ⟨_, rfl, h⟩
  | rng l => exact wt_mono (wt_arrayAtArg A chk off m _ hm) fun o h => ⟨_, rfl, h⟩

theorem wt_proxyAt (A : Arith) (chk : Bool) (off : Nat) (m : Mapper) (args : List Arg) (a : Arg) (hm : m.desc.Lens) (hl : args.length < m.desc.ext.length) :
    WT (proxyAt A chk off m args a) (IsKind (given m.desc.ext.length args.length (m.isVec || !args.all Arg.isDefault || !a.isDefault))) := by
  unfold proxyAt given
  split
  · next h =>
    have := wt_arraySlice A chk off m (args ++ [a]) hm (by simp; omega)
    rw [if_pos (by omega)]
    simp only [List.length_append, List.length_singleton, List.all_append, List.all_cons, List.all_nil, Bool.and_true, Bool.not_and] at this
    rw [Bool.or_assoc]
    rwa [show args.length + 1 = m.desc.ext.length by omega] at this
  · next h =>
    rw [if_neg (by omega)]
    exact wt_ok ⟨by simp [kindOf_proxy, Bool.or_assoc], hm, by simp, by simp; omega⟩

theorem wt_proxyIndex (A : Arith) (chk : Bool) (off : Nat) (m : Mapper) (args : List Arg) (ix : Ix) (hm : m.desc.Lens) (hl : args.length < m.desc.ext.length) :
    WT (proxyIndex A chk off m args ix) (IsKind (given m.desc.ext.length args.length (m.isVec || !args.all Arg.isDefault || isList ix))) := by
  cases ix with
  | boundedStrided s mx t => exact wt_bind (wt_boundedStrided ..) fun x _ => wt_proxyAt A chk off m args _ hm hl
  | «at» i => exact wt_proxyAt A chk off m args _ hm hl
  | every => exact wt_proxyAt A chk off m args _ hm hl
  | slice s x => exact wt_proxyAt A chk off m args _ hm hl
  | strided s x t => exact wt_proxyAt A chk off m args _ hm hl
  | bounded s mx => exact wt_proxyAt A chk off m args _ hm hl
  | rng l => exact wt_proxyAt A chk off m args _ hm hl

theorem wt_everyFallback (A : Arith) (chk : Bool) (off : Nat) (ext : List Nat) (M : Nat) (ix : Ix) (hM : M < ext.length) :
    WT (everyFallback A chk off ext M ix) (IsKind (given ext.length M (isList ix))) := by
  have hne : ext ≠ [] := by rintro rfl; simp at hM
  refine wt_bind (wt_mk' A chk 0 hne) fun d hd => ?_
  have hlen : ((ext.take M).map fun e => Arg.slice 0 e 1).length = M := by simp; omega
  have := wt_proxyIndex A chk off (.ident d) ((ext.take M).map fun e => .slice 0 e 1) ix hd.2 (by rw [hlen]; simpa [Mapper.desc, hd.1] using hM)
  rw [hlen] at this
  have hall : ((ext.take M).map fun e => Arg.slice 0 e 1).all Arg.isDefault = true := by
    rw [List.all_eq_true]
    intro a ha
    obtain ⟨e, _, rfl⟩ := List.mem_map.1 ha
    rfl
  rw [hall] at this
  simpa only [Mapper.desc, hd.1, Mapper.isVec, Bool.not_true, Bool.or_false, Bool.false_or] using this

theorem everyIndex_typed (A : Arith) (chk : Bool) (off : Nat) (ext : List Nat) (M : Nat) (ix : Ix) (hM : M < ext.length) :
    match typeStep (.everys ext.length M) ix with
    | none => everyIndex A chk off ext M ix = .error .illFormed
    | some k => WT (everyIndex A chk off ext M ix) (IsKind k) := by
  have hne : ext ≠ [] := by rintro rfl; simp at hM
  have hset : ∀ off x, IsKind (.contiguous ext.length) (.cref off (ext.set (ext.length - 1) x)) := fun off x =>
    ⟨by simp [kindOf], ne_nil_of_length (l := ext.set (ext.length - 1) x) (by simp) hne⟩
  cases ix with
  | «at» i =>
    by_cases h : M + 1 = ext.length
    · simp only [typeStep, h, if_true]
      simp only [everyIndex]
      rw [if_pos (by omega)]
      refine wt_bind (wt_dbg _ _) fun _ _ => ?_
      split
      · exact wt_err (by simp)
      · exact wt_ok (hset _ _)
    · simp only [typeStep, h, if_false]
      simp only [everyIndex]
      rw [if_neg (by omega)]
  | slice s x =>
    simp only [typeStep, everyIndex]
    by_cases h : M + 1 = ext.length
    · rw [if_pos (by omega), if_pos h]
      refine wt_bind (wt_dbg _ _) fun _ _ => ?_
      split
      · exact wt_err (by simp)
      · exact wt_ok (hset _ _)
    · rw [if_neg (by omega), if_neg h]
      have := wt_everyFallback A chk off ext M (.slice s x) hM
      simpa [given, h, isList] using this
  | every =>
    simp only [typeStep, everyIndex]
    by_cases h : M + 1 = ext.length
    · rw [if_pos (by omega), if_pos h]
      exact wt_ok ⟨rfl, hne⟩
    · rw [if_neg (by omega), if_neg h]
      exact wt_ok ⟨rfl, by simp, by omega⟩
  | strided s x t => exact wt_everyFallback A chk off ext M _ hM
  | bounded s mx => exact wt_everyFallback A chk off ext M (.slice s _) hM
  | boundedStrided s mx t => exact wt_bind (wt_boundedStrided ..) fun x _ => wt_everyFallback A chk off ext M (.strided s x t) hM
  | rng l => exact wt_everyFallback A chk off ext M _ hM

theorem wt_arrayAtArgC (A : Arith) (chk : Bool) (off : Nat) (ext : List Nat) (a : Arg) (hne : ext ≠ []) :
    WT (arrayAtArgC A chk off ext a) (IsKind (given ext.length 0 (!a.isDefault))) := by
  refine wt_bind (wt_mk' A chk 0 hne) fun d hd => ?_
  have := wt_arrayAtArg A chk off (.ident d) a hd.2
  simpa [Mapper.desc, hd.1, Mapper.isVec] using this

theorem wt_arrayAtSliceC (A : Arith) (chk : Bool) (off : Nat) (ext : List Nat) (s x : Nat) (hne : ext ≠ []) :
    WT (arrayAtSliceC A chk off ext s x) (IsKind (if ext.length = 1 then .contiguous 1 else .part ext.length 1 false)) := by
  unfold arrayAtSliceC
  split
  · exact wt_bind (wt_dbg _ _) fun _ _ => wt_ok ⟨rfl, by simp [Obj.Lens]⟩
  · next hx =>
    have h1 : ext.length ≠ 1 := fun h => by
      obtain ⟨e, rfl⟩ := List.length_eq_one_iff.1 h
      exact hx e rfl
    refine wt_bind (wt_mk' A chk 0 hne) fun d hd => ?_
    have := wt_arrayAtArg A chk off (.ident d) (.slice s x 1) hd.2
    simpa [Mapper.desc, hd.1, Mapper.isVec, given, Arg.isDefault, h1, Ne.symm h1] using this

theorem wt_crefIndex (A : Arith) (chk : Bool) (off : Nat) (ext : List Nat) (ix : Ix) (hne : ext ≠ []) :
    WT (crefIndex A chk off ext ix) fun o => ∃ k, typeStep (.contiguous ext.length) ix = some k ∧ IsKind k o := by
  have hpos := List.length_pos_iff.2 hne
  cases ix with
  | «at» i =>
    refine wt_bind (wt_dbg _ _) fun _ _ => ?_
    split
    · next h => exact wt_ok ⟨_, rfl, by simp [h]; exact ⟨rfl, trivial⟩⟩
    · next h =>
      refine wt_bind (wt_mk' A chk i hne) fun d hd => ?_
      refine wt_bind (wt_discard hd.2 (by rw [hd.1]; exact h)) fun n hn => wt_ok ⟨_, rfl, ?_⟩
      rw [if_neg h]
      exact ⟨by simp [kindOf, hn.1, hd.1], hn.2.2⟩
  | slice s x => exact wt_mono (wt_arrayAtSliceC A chk off ext s x hne) fun o h => ⟨_, rfl, h⟩
  | bounded s mx => exact wt_mono (wt_arrayAtSliceC A chk off ext s _ hne) fun o h => ⟨_, rfl, h⟩
  | strided s x t => exact wt_mono (wt_arrayAtArgC A chk off ext _ hne) fun o h => ⟨_, rfl, h⟩
  | boundedStrided s mx t => exact wt_bind (wt_boundedStrided ..) fun x _ => wt_mono (wt_arrayAtArgC A chk off ext _ hne) fun o h => ⟨_, rfl, h⟩
  | every =>
    simp only [crefIndex]
    split
    · next h => exact wt_ok ⟨_, rfl, by simp [h, IsKind, kindOf, Obj.Lens, hne]⟩
    · next h => exact wt_ok ⟨_, rfl, by rw [if_neg h]; exact ⟨rfl, by simp, by omega⟩⟩
  | rng l =>
    simp only [crefIndex]
    split
    · next h =>
      refine wt_bind (wt_dbg _ _) fun _ _ => wt_bind (wt_mkVec A chk (e := [l.length]) (by simp) l) fun m hm => wt_ok ⟨_, rfl, ?_⟩
      obtain ⟨d, rfl, h1, h2⟩ := hm
      exact ⟨by simp [kindOf, h1, given, h, isList], h2⟩
    · exact wt_mono (wt_arrayAtArgC A chk off ext _ hne) fun o h => ⟨_, rfl, h⟩

/-- The type of `o[ix]`. -/
theorem index_typed (A : Arith) (chk : Bool) (o : Obj) (ix : Ix) (h : o.Lens) :
    match typeStep (kindOf o) ix with
    | none => o.index A chk ix = .error .illFormed
    | some k => WT (o.index A chk ix) (IsKind k) := by
  cases o with
  | elem p => rfl
  | cref off ext =>
    have hp := wt_crefIndex A chk off ext ix h
    have hs : ∃ k, typeStep (.contiguous ext.length) ix = some k := by cases ix <;> exact ⟨_, rfl⟩
    obtain ⟨k, hk⟩ := hs
    simp only [kindOf, hk]
    exact wt_mono hp fun o ⟨k', h1, h2⟩ => by rw [hk] at h1; cases h1; exact h2
  | sref off m =>
    have hp := wt_srefIndex A chk off m ix h
    rw [kindOf_sref]
    have hs : ∃ k, typeStep (.strided m.desc.ext.length m.isVec) ix = some k := by cases ix <;> exact ⟨_, rfl⟩
    obtain ⟨k, hk⟩ := hs
    simp only [hk]
    exact wt_mono hp fun o ⟨k', h1, h2⟩ => by rw [hk] at h1; cases h1; exact h2
  | proxy off m args =>
    rw [kindOf_proxy]
    simp only [typeStep]
    exact wt_proxyIndex A chk off m args ix h.1 h.2.2
  | everyProxy off ext M => exact everyIndex_typed A chk off ext M ix h.2

end Jules

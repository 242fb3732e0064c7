import Verif.Spec.ConstVectorThreads
import Mathlib.Algebra.BigOperators.Fin
import Mathlib.Algebra.Order.BigOperators.Group.Finset
/-
Lemmas for C82: the invariant of several threads with const_vectors.
-/
namespace Jules
open Jules.Spec
open Jules.Props (CVal CSpec owners pt owners_set owners_append owners_pos)

/-- Increments a thread still has to do. -/
def SVPend.inc : SVPend → Nat → Nat
  | .incr c _, b => if c = b then 1 else 0
  | _, _ => 0

/-- Decrements a thread still has to do. -/
def SVPend.dec : SVPend → Nat → Nat
  | .incr _ (some c), b => if c = b then 1 else 0
  | .decr c, b => if c = b then 1 else 0
  | _, _ => 0

/-- Blocks a thread is about to free. -/
def SVPend.fre : SVPend → Nat → Nat
  | .free c, b => if c = b then 1 else 0
  | _, _ => 0

/-- Blocks whose elements a thread is about to read. -/
def SVPend.uses : SVPend → Nat → Prop
  | .read c _, b => b = c
  | .size c, b => b = c
  | .cmpSize c d, b => b = c ∨ b = d
  | .cmpAt c d _, b => b = c ∨ b = d
  | _, _ => False

/-- The use count (0 if there is no such block). -/
def cntOf (bs : Nat → Option (List α × Nat)) (b : Nat) : Nat := match bs b with
  | some (_, c) => c
  | none => 0

/-- The block is waiting to be freed. -/
def zerOf (bs : Nat → Option (List α × Nat)) (b : Nat) : Nat := match bs b with
  | some (_, 0) => 1
  | _ => 0

/-- What a thread has: pointers in its variables, and those it is about to drop. -/
def SVThread.has (t : SVThread α) (b : Nat) : Nat := owners t.vars b + t.pend.dec b

/-- The pointers a thread uses are held by it or by a shared variable. -/
structure TBacked (g : Nat → Nat) (t : SVThread α) : Prop where
  le : ∀ b, t.pend.inc b ≤ t.has b
  lt : ∀ b, 0 < t.pend.inc b → t.pend.inc b < t.has b ∨ 0 < g b
  uses : ∀ b, t.pend.uses b → 0 < owners t.vars b ∨ 0 < g b

/-- The observation the present operation will yield. -/
inductive Awaits [DecidableEq α] (bs : Nat → Option (List α × Nat)) : SVPend → List (SVObs α) → Prop
  | idle : Awaits bs .idle []
  | incr : Awaits bs (.incr b o) []
  | decr : Awaits bs (.decr b) []
  | free : Awaits bs (.free b) []
  | read : bs b = some (l, c) → l[pos]? = some v → Awaits bs (.read b pos) [.elem v]
  | size : bs b = some (l, c) → Awaits bs (.size b) [.size l.length]
  | cmpSize : bs b = some (l, c) → bs b' = some (m, c') → Awaits bs (.cmpSize b b') [.equal (decide (l = m))]
  | cmpAt : bs b = some (l, c) → bs b' = some (m, c') → l.length = m.length → l.take k = m.take k →
      Awaits bs (.cmpAt b b' k) [.equal (decide (l = m))]

/-- The thread is where the thread alone is. -/
def Follows [DecidableEq α] (G : CSpec α) (bs : Nat → Option (List α × Nat)) (t : SVThread α) (T' : SVAlone α) : Prop :=
  ∃ T : SVAlone α, ∃ obs, ShowsAll bs t.vars T.own ∧ Awaits bs t.pend obs ∧ T.log = t.log ++ obs ∧ SVRuns G T t.todo T'

/-- The invariant. -/
structure SVInv [DecidableEq α] (G : CSpec α) (T' : Fin n → SVAlone α) (σ : SVSys α n) : Prop where
  balance : ∀ b, cntOf σ.blocks b + ∑ i, (σ.threads i).pend.inc b = owners σ.shared b + ∑ i, (σ.threads i).has b
  freed : ∀ b, ∑ i, (σ.threads i).pend.fre b = zerOf σ.blocks b
  backed : ∀ i, TBacked (owners σ.shared) (σ.threads i)
  shared : ShowsAll σ.blocks σ.shared G
  follows : ∀ i, Follows G σ.blocks (σ.threads i) (T' i)

theorem sv_sum_put {f f' : Fin n → Nat} (i : Fin n) (h : ∀ j, j ≠ i → f' j = f j) : (∑ j, f' j) + f i = (∑ j, f j) + f' i := by
  have h1 := Finset.sum_erase_add Finset.univ f' (Finset.mem_univ i)
  have h2 := Finset.sum_erase_add Finset.univ f (Finset.mem_univ i)
  have h3 : ∑ j ∈ Finset.univ.erase i, f' j = ∑ j ∈ Finset.univ.erase i, f j :=
    Finset.sum_congr rfl fun j hj => h j (Finset.ne_of_mem_erase hj)
  omega

/-- Nobody has or uses a block whose count is 0. -/
theorem sv_unused [DecidableEq α] {G : CSpec α} {T' : Fin n → SVAlone α} {σ : SVSys α n} (hi : SVInv G T' σ) {b : Nat} (h : cntOf σ.blocks b = 0) :
    owners σ.shared b = 0 ∧ ∀ i, owners (σ.threads i).vars b = 0 ∧ (σ.threads i).pend.dec b = 0 ∧ (σ.threads i).pend.inc b = 0 ∧
      ¬ (σ.threads i).pend.uses b := by
  have hb := hi.balance b
  have hle : ∑ i, (σ.threads i).pend.inc b ≤ ∑ i, (σ.threads i).has b := Finset.sum_le_sum fun i _ => (hi.backed i).le b
  have hg : owners σ.shared b = 0 := by omega
  have heq : ∑ i, (σ.threads i).pend.inc b = ∑ i, (σ.threads i).has b := by omega
  refine ⟨hg, fun i => ?_⟩
  have hi' := (Finset.sum_eq_sum_iff_of_le (fun i _ => (hi.backed i).le b)).1 heq i (Finset.mem_univ i)
  have h0 : (σ.threads i).pend.inc b = 0 := by
    by_contra hne
    rcases (hi.backed i).lt b (by omega) with h | h <;> omega
  have hh : (σ.threads i).has b = 0 := by omega
  have : owners (σ.threads i).vars b + (σ.threads i).pend.dec b = 0 := hh
  refine ⟨by omega, by omega, h0, fun hu => ?_⟩
  rcases (hi.backed i).uses b hu with h | h <;> omega

theorem shows_mono {bs bs' : Nat → Option (List α × Nat)} {v : Option (Option Nat)} {a : CVal α}
    (h : ∀ b l c, v = some (some b) → bs b = some (l, c) → ∃ c', bs' b = some (l, c')) (hs : Shows bs v a) : Shows bs' v a := by
  match v, hs with
  | none, hs => exact hs
  | some none, hs => exact hs
  | some (some b), ⟨l, c, h1, h2⟩ =>
    obtain ⟨c', h3⟩ := h b l c rfl h1
    exact ⟨l, c', h3, h2⟩

theorem showsAll_mono {bs bs' : Nat → Option (List α × Nat)} {vars : List (Option (Option Nat))} {S : CSpec α}
    (h : ∀ b l c, 0 < owners vars b → bs b = some (l, c) → ∃ c', bs' b = some (l, c')) (hs : ShowsAll bs vars S) : ShowsAll bs' vars S :=
  ⟨hs.1, fun x v a h1 h2 => shows_mono (fun b l c hv hb => h b l c (owners_pos (hv ▸ h1)) hb) (hs.2 x v a h1 h2)⟩

theorem awaits_mono [DecidableEq α] {bs bs' : Nat → Option (List α × Nat)} {p : SVPend} {obs : List (SVObs α)}
    (h : ∀ b l c, p.uses b → bs b = some (l, c) → ∃ c', bs' b = some (l, c')) (hs : Awaits bs p obs) : Awaits bs' p obs := by
  cases hs with
  | idle => exact .idle
  | incr => exact .incr
  | decr => exact .decr
  | free => exact .free
  | read h1 h2 => obtain ⟨c', h3⟩ := h _ _ _ rfl h1; exact .read h3 h2
  | size h1 => obtain ⟨c', h3⟩ := h _ _ _ rfl h1; exact .size h3
  | cmpSize h1 h2 =>
    obtain ⟨c', h3⟩ := h _ _ _ (.inl rfl) h1
    obtain ⟨c'', h4⟩ := h _ _ _ (.inr rfl) h2
    exact .cmpSize h3 h4
  | cmpAt h1 h2 h5 h6 =>
    obtain ⟨c', h3⟩ := h _ _ _ (.inl rfl) h1
    obtain ⟨c'', h4⟩ := h _ _ _ (.inr rfl) h2
    exact .cmpAt h3 h4 h5 h6

/-- One thread changes, and the blocks change with it. -/
theorem sv_inv_put [DecidableEq α] {G : CSpec α} {T' : Fin n → SVAlone α} {σ : SVSys α n} (hi : SVInv G T' σ) (i : Fin n) (t : SVThread α)
    (bs : Nat → Option (List α × Nat))
    (h1 : ∀ b, cntOf bs b + t.pend.inc b + (σ.threads i).has b = cntOf σ.blocks b + (σ.threads i).pend.inc b + t.has b)
    (h2 : ∀ b, zerOf bs b + (σ.threads i).pend.fre b = zerOf σ.blocks b + t.pend.fre b)
    (h3 : TBacked (owners σ.shared) t)
    (h4 : ∀ b l c, σ.blocks b = some (l, c) → c ≠ 0 → ∃ c', bs b = some (l, c'))
    (h5 : Follows G bs t (T' i)) : SVInv G T' (σ.put i t bs) := by
  have hcnt : ∀ b l c, σ.blocks b = some (l, c) → cntOf σ.blocks b ≠ 0 → ∃ c', bs b = some (l, c') := by
    intro b l c hb hc
    exact h4 b l c hb (by rwa [cntOf, hb] at hc)
  have hself : (σ.put i t bs).threads i = t := by simp [SVSys.put]
  have hother : ∀ j, j ≠ i → (σ.put i t bs).threads j = σ.threads j := fun j hj => by simp [SVSys.put, hj]
  refine ⟨fun b => ?_, fun b => ?_, fun j => ?_, ?_, fun j => ?_⟩
  · have e1 := sv_sum_put (f := fun j => (σ.threads j).pend.inc b) (f' := fun j => ((σ.put i t bs).threads j).pend.inc b) i
      (fun j hj => by simp only [hother j hj])
    have e2 := sv_sum_put (f := fun j => (σ.threads j).has b) (f' := fun j => ((σ.put i t bs).threads j).has b) i
      (fun j hj => by simp only [hother j hj])
    simp only [hself] at e1 e2
    have e3 := hi.balance b
    have e4 := h1 b
    show cntOf bs b + _ = owners σ.shared b + _
    omega
  · have e1 := sv_sum_put (f := fun j => (σ.threads j).pend.fre b) (f' := fun j => ((σ.put i t bs).threads j).pend.fre b) i
      (fun j hj => by simp only [hother j hj])
    simp only [hself] at e1
    have e3 := hi.freed b
    have e4 := h2 b
    show _ = zerOf bs b
    omega
  · by_cases e : j = i
    · subst e; rw [hself]; exact h3
    · rw [hother j e]; exact hi.backed j
  · refine showsAll_mono (fun b l c ho hb => hcnt b l c hb fun h0 => ?_) hi.shared
    have := (sv_unused hi h0).1
    change 0 < owners σ.shared b at ho
    omega
  · by_cases e : j = i
    · subst e; rw [hself]; exact h5
    · rw [hother j e]
      obtain ⟨T, obs, a1, a2, a3, a4⟩ := hi.follows j
      refine ⟨T, obs, showsAll_mono (fun b l c ho hb => hcnt b l c hb fun h0 => ?_) a1, awaits_mono (fun b l c ho hb => hcnt b l c hb fun h0 => ?_) a2, a3, a4⟩
      · have := ((sv_unused hi h0).2 j).1
        omega
      · exact ((sv_unused hi h0).2 j).2.2.2 ho

/-! ### Beginning an operation -/

theorem showsAll_append {bs : Nat → Option (List α × Nat)} {vars : List (Option (Option Nat))} {S : CSpec α} {v : Option (Option Nat)} {a : CVal α}
    (h : ShowsAll bs vars S) (ha : Shows bs v a) : ShowsAll bs (vars ++ [v]) (S ++ [a]) := by
  refine ⟨by simp [h.1], fun x w d h1 h2 => ?_⟩
  by_cases hx : x < vars.length
  · rw [List.getElem?_append_left hx] at h1
    rw [List.getElem?_append_left (h.1 ▸ hx)] at h2
    exact h.2 x w d h1 h2
  · rw [List.getElem?_append_right (by omega)] at h1
    rw [List.getElem?_append_right (by rw [← h.1]; omega), ← h.1] at h2
    have h0 : x - vars.length = 0 := by
      have := (List.getElem?_eq_some_iff.1 h1).1
      simp at this; omega
    rw [h0] at h1 h2
    simp at h1 h2
    subst h1 h2
    exact ha

theorem showsAll_set {bs : Nat → Option (List α × Nat)} {vars : List (Option (Option Nat))} {S : CSpec α} {v : Option (Option Nat)} {a : CVal α} {x : Nat}
    (h : ShowsAll bs vars S) (ha : Shows bs v a) : ShowsAll bs (vars.set x v) (S.set x a) := by
  refine ⟨by simp [h.1], fun y w d h1 h2 => ?_⟩
  by_cases e : x = y
  · subst e
    have hx : x < vars.length := by simpa using (List.getElem?_eq_some_iff.1 h1).1
    rw [List.getElem?_set_self hx] at h1
    rw [List.getElem?_set_self (h.1 ▸ hx)] at h2
    cases h1; cases h2
    exact ha
  · rw [List.getElem?_set_ne e] at h1 h2
    exact h.2 y w d h1 h2

theorem showsAll_alive {bs : Nat → Option (List α × Nat)} {vars : List (Option (Option Nat))} {S : CSpec α} {x : Nat} (h : ShowsAll bs vars S)
    (ha : S.alive x) : ∃ p, vars[x]? = some (some p) ∧ Shows bs (some p) (S.val x) := by
  obtain ⟨a, h1, h2⟩ := ha
  have hx : x < vars.length := h.1 ▸ (List.getElem?_eq_some_iff.1 h1).1
  have hv := h.2 x vars[x] a (List.getElem?_eq_getElem hx) h1
  have hval : S.val x = a := by simp [CSpec.val, List.getD_eq_getElem?_getD, h1]
  cases hp : vars[x] with
  | none => rw [hp] at hv; exact absurd hv h2
  | some p => exact ⟨p, by rw [List.getElem?_eq_getElem hx, hp], by rw [hval, ← hp]; exact hv⟩

theorem alive_of_val {S : CSpec α} {x : Nat} {l : List α} (h : S.val x = .val l) : S.alive x := by
  unfold CSpec.val at h
  rw [List.getD_eq_getElem?_getD] at h
  cases hx : S[x]? with
  | none => rw [hx] at h; cases h
  | some a => rw [hx] at h; exact ⟨a, hx, by rw [show a = .val l from h]; intro h; cases h⟩

theorem showsAll_val {bs : Nat → Option (List α × Nat)} {vars : List (Option (Option Nat))} {S : CSpec α} {x : Nat} {l : List α} (h : ShowsAll bs vars S)
    (ha : S.val x = .val l) : ∃ b c, vars[x]? = some (some (some b)) ∧ bs b = some (l, c) := by
  obtain ⟨p, h1, h2⟩ := showsAll_alive h (alive_of_val ha)
  rw [ha] at h2
  match p, h2 with
  | none, h2 => cases h2
  | some b, ⟨m, c, h3, h4⟩ =>
    cases h4
    exact ⟨b, c, h1, h3⟩

theorem svGet_ok {vars : List (Option (Option Nat))} {x : Nat} {p : Option Nat} (h : vars[x]? = some (some p)) : svGet vars x = .ok p := by
  simp [svGet, h]

theorem sv_block_ok {bs : Nat → Option (List α × Nat)} {shared vars : List (Option (Option Nat))} {G : CSpec α} {T : SVAlone α} {r : SVRef} {l : List α}
    (hs : ShowsAll bs vars T.own) (hg : ShowsAll bs shared G) (h : T.val G r = .val l) :
    ∃ b c, r.block shared vars = .ok b ∧ bs b = some (l, c) ∧ (0 < owners vars b ∨ 0 < owners shared b) := by
  cases r with
  | own x =>
    obtain ⟨b, c, h1, h2⟩ := showsAll_val hs h
    exact ⟨b, c, by simp [SVRef.block, svGet_ok h1], h2, .inl (owners_pos h1)⟩
  | shared x =>
    obtain ⟨b, c, h1, h2⟩ := showsAll_val hg h
    exact ⟨b, c, by simp [SVRef.block, svGet_ok h1], h2, .inr (owners_pos h1)⟩

theorem pt_some (p : Option Nat) (b : Nat) : pt (some p) b = match p with | none => 0 | some c => if c = b then 1 else 0 := by
  cases p with
  | none => simp [pt]
  | some c => by_cases h : c = b <;> simp [pt, h]

theorem dropPend_inc (p : Option Nat) (b : Nat) : (dropPend p).inc b = 0 := by cases p <;> rfl
theorem dropPend_dec (p : Option Nat) (b : Nat) : (dropPend p).dec b = pt (some p) b := by
  rw [pt_some]; cases p <;> rfl
theorem dropPend_fre (p : Option Nat) (b : Nat) : (dropPend p).fre b = 0 := by cases p <;> rfl
theorem dropPend_uses (p : Option Nat) (b : Nat) : ¬ (dropPend p).uses b := by cases p <;> exact id
theorem dropPend_awaits [DecidableEq α] (bs : Nat → Option (List α × Nat)) (p : Option Nat) : Awaits bs (dropPend p) [] := by
  cases p
  · exact .idle
  · exact .decr
theorem copyPend_inc (p old : Option Nat) (b : Nat) : (copyPend p old).inc b = pt (some p) b := by
  rw [pt_some]; cases p
  · exact dropPend_inc old b
  · rfl
theorem copyPend_dec (p old : Option Nat) (b : Nat) : (copyPend p old).dec b = pt (some old) b := by
  cases p
  · exact dropPend_dec old b
  · rw [pt_some]; cases old <;> rfl
theorem copyPend_fre (p old : Option Nat) (b : Nat) : (copyPend p old).fre b = 0 := by
  cases p
  · exact dropPend_fre old b
  · rfl
theorem copyPend_uses (p old : Option Nat) (b : Nat) : ¬ (copyPend p old).uses b := by
  cases p
  · exact dropPend_uses old b
  · exact id
theorem copyPend_awaits [DecidableEq α] (bs : Nat → Option (List α × Nat)) (p old : Option Nat) : Awaits bs (copyPend p old) [] := by
  cases p
  · exact dropPend_awaits bs old
  · exact .incr

/-- What beginning an operation must achieve. -/
structure Begun [DecidableEq α] (bs : Nat → Option (List α × Nat)) (shared vars vars' : List (Option (Option Nat))) (q : SVPend) (T T1 : SVAlone α) : Prop where
  shows : ShowsAll bs vars' T1.own
  awaits : ∃ obs, Awaits bs q obs ∧ T1.log = T.log ++ obs
  balance : ∀ b, q.inc b + owners vars b = owners vars' b + q.dec b
  fre : ∀ b, q.fre b = 0
  le : ∀ b, q.inc b ≤ owners vars' b + q.dec b
  lt : ∀ b, 0 < q.inc b → q.inc b < owners vars' b + q.dec b ∨ 0 < owners shared b
  uses : ∀ b, q.uses b → 0 < owners vars' b ∨ 0 < owners shared b

theorem sv_begin_ok [DecidableEq α] {bs : Nat → Option (List α × Nat)} {shared vars : List (Option (Option Nat))} {G : CSpec α} {T T1 : SVAlone α} {o : SVOp α}
    (hs : ShowsAll bs vars T.own) (hg : ShowsAll bs shared G) (hl : svLegal G T o) (hm : ∀ l, o ≠ .local (.make l)) (he : SVEffect G T o T1) :
    ∃ vars' q, o.begin shared vars = .ok (vars', q) ∧ Begun bs shared vars vars' q T T1 := by
  have pos : ∀ {vs : List (Option (Option Nat))} {x : Nat} {p : Option Nat} {b : Nat}, vs[x]? = some (some p) → 0 < pt (some p) b → 0 < owners vs b := by
    intro vs x p b h1 h2
    rw [pt_some] at h2
    cases p with
    | none => simp at h2
    | some c =>
      by_cases e : c = b
      · subst e; exact owners_pos h1
      · simp [e] at h2
  have le1 : ∀ (p : Option Nat) (b : Nat), pt (some p) b ≤ 1 := by
    intro p b; unfold pt; split <;> omega
  cases he with
  | «local» =>
    rename_i o
    cases o with
    | make l => exact absurd rfl (hm l)
    | copyInit x =>
      obtain ⟨p, h1, h2⟩ := showsAll_alive hs hl
      have ho := owners_append (vars := vars) (some p)
      refine ⟨vars ++ [some p], copyPend p none, by simp [SVOp.begin, svGet_ok h1], showsAll_append hs h2, ⟨[], copyPend_awaits bs p none, by simp⟩,
        fun b => ?_, fun b => copyPend_fre p none b, fun b => ?_, fun b hb => .inl ?_, fun b hb => absurd hb (copyPend_uses p none b)⟩
      · rw [copyPend_inc, copyPend_dec, ho]
        have : pt (some none) b = 0 := by simp [pt]
        omega
      · rw [copyPend_inc, copyPend_dec, ho]; omega
      · rw [copyPend_inc] at hb ⊢
        have := pos h1 hb
        rw [copyPend_dec, ho]; omega
    | moveInit x =>
      obtain ⟨p, h1, h2⟩ := showsAll_alive hs hl
      have ho : ∀ b, owners (vars.set x (some none) ++ [some p]) b = owners vars b := by
        intro b
        rw [owners_append]
        have := owners_set h1 (some none) b
        have h0 : pt (some none) b = 0 := by simp [pt]
        omega
      refine ⟨vars.set x (some none) ++ [some p], .idle, by simp [SVOp.begin, svGet_ok h1], showsAll_append (showsAll_set hs rfl) h2, ⟨[], .idle, by simp⟩,
        fun b => ?_, fun b => rfl, fun b => Nat.zero_le _, fun b hb => absurd hb (by simp [SVPend.inc]), fun b hb => hb.elim⟩
      simp [SVPend.inc, SVPend.dec, ho b]
    | copyAssign x y =>
      obtain ⟨p, h1, h2⟩ := showsAll_alive hs hl.2
      obtain ⟨old, h3, _⟩ := showsAll_alive hs hl.1
      have ho := owners_set h3 (some p)
      have hxl : x < vars.length := (List.getElem?_eq_some_iff.1 h3).1
      refine ⟨vars.set x (some p), copyPend p old, by simp [SVOp.begin, svGet_ok h1, svGet_ok h3], showsAll_set hs h2, ⟨[], copyPend_awaits bs p old, by simp⟩,
        fun b => ?_, fun b => copyPend_fre p old b, fun b => ?_, fun b hb => .inl ?_, fun b hb => absurd hb (copyPend_uses p old b)⟩
      · rw [copyPend_inc, copyPend_dec]
        have := ho b
        omega
      · rw [copyPend_inc, copyPend_dec]
        have := ho b
        omega
      · rw [copyPend_inc] at hb ⊢
        rw [copyPend_dec]
        have := ho b
        have := pos h1 hb
        omega
    | moveAssign x y =>
      obtain ⟨p, h1, h2⟩ := showsAll_alive hs hl.2
      obtain ⟨oldx, h3, _⟩ := showsAll_alive hs hl.1
      have hyl : y < vars.length := (List.getElem?_eq_some_iff.1 h1).1
      obtain ⟨old, hold⟩ : ∃ old, (vars.set y (some none))[x]? = some (some old) := by
        by_cases e : y = x
        · subst e; exact ⟨none, List.getElem?_set_self hyl⟩
        · exact ⟨oldx, by rw [List.getElem?_set_ne e]; exact h3⟩
      have hcount : ∀ b, owners ((vars.set y (some none)).set x (some p)) b + pt (some old) b = owners vars b := by
        intro b
        have h1 := owners_set h1 (some none) b
        have h2 := owners_set hold (some p) b
        have h0 : pt (some none) b = 0 := by simp [pt]
        omega
      refine ⟨(vars.set y (some none)).set x (some p), dropPend old, by simp [SVOp.begin, svGet_ok h1, svGet_ok hold],
        showsAll_set (showsAll_set hs rfl) h2, ⟨[], dropPend_awaits bs old, by simp⟩,
        fun b => ?_, fun b => dropPend_fre old b, fun b => ?_, fun b hb => absurd hb (by rw [dropPend_inc]; omega), fun b hb => absurd hb (dropPend_uses old b)⟩
      · rw [dropPend_inc, dropPend_dec]
        have := hcount b
        omega
      · rw [dropPend_inc]; omega
    | destroy x =>
      obtain ⟨p, h1, h2⟩ := showsAll_alive hs hl
      refine ⟨vars.set x none, dropPend p, by simp [SVOp.begin, svGet_ok h1],
        showsAll_set hs rfl, ⟨[], dropPend_awaits bs p, by simp⟩,
        fun b => ?_, fun b => dropPend_fre p b, fun b => ?_, fun b hb => absurd hb (by rw [dropPend_inc]; omega), fun b hb => absurd hb (dropPend_uses p b)⟩
      · rw [dropPend_inc, dropPend_dec]
        have := owners_set h1 none b
        have h0 : pt none b = 0 := by simp [pt]
        omega
      · rw [dropPend_inc]; omega
  | copyShared =>
    rename_i g
    obtain ⟨p, h1, h2⟩ := showsAll_alive hg hl
    have ho := owners_append (vars := vars) (some p)
    refine ⟨vars ++ [some p], copyPend p none, by simp [SVOp.begin, svGet_ok h1], showsAll_append hs h2, ⟨[], copyPend_awaits bs p none, by simp⟩,
      fun b => ?_, fun b => copyPend_fre p none b, fun b => ?_, fun b hb => .inr ?_, fun b hb => absurd hb (copyPend_uses p none b)⟩
    · rw [copyPend_inc, copyPend_dec, ho]
      have : pt (some none) b = 0 := by simp [pt]
      omega
    · rw [copyPend_inc, copyPend_dec, ho]; omega
    · rw [copyPend_inc] at hb
      exact pos h1 hb
  | read h1 h2 =>
    obtain ⟨b, c, e1, e2, e3⟩ := sv_block_ok hs hg h1
    refine ⟨vars, .read b _, by simp [SVOp.begin, e1], hs, ⟨_, .read e2 h2, rfl⟩, fun b => by simp [SVPend.inc, SVPend.dec], fun b => rfl, fun b => Nat.zero_le _,
      fun b hb => absurd hb (by simp [SVPend.inc]), fun b' hb => ?_⟩
    cases hb; exact e3
  | size h1 =>
    obtain ⟨b, c, e1, e2, e3⟩ := sv_block_ok hs hg h1
    refine ⟨vars, .size b, by simp [SVOp.begin, e1], hs, ⟨_, .size e2, rfl⟩, fun b => by simp [SVPend.inc, SVPend.dec], fun b => rfl, fun b => Nat.zero_le _,
      fun b hb => absurd hb (by simp [SVPend.inc]), fun b' hb => ?_⟩
    cases hb; exact e3
  | equal h1 h2 =>
    obtain ⟨b, c, e1, e2, e3⟩ := sv_block_ok hs hg h1
    obtain ⟨b', c', f1, f2, f3⟩ := sv_block_ok hs hg h2
    refine ⟨vars, .cmpSize b b', by simp [SVOp.begin, e1, f1], hs, ⟨_, .cmpSize e2 f2, rfl⟩, fun b => by simp [SVPend.inc, SVPend.dec], fun b => rfl, fun b => Nat.zero_le _,
      fun b hb => absurd hb (by simp [SVPend.inc]), fun b' hb => ?_⟩
    cases hb with
    | inl h => cases h; exact e3
    | inr h => cases h; exact f3

/-! ### The invariant is kept -/

theorem sv_inv_step [DecidableEq α] {G : CSpec α} {T' : Fin n → SVAlone α} {σ τ : SVSys α n} {i : Fin n} (hi : SVInv G T' σ) (h : σ.Step i τ) : SVInv G T' τ := by
  have hb := hi.backed i
  have hf := hi.follows i
  have keepAll : ∀ b l c, σ.blocks b = some (l, c) → c ≠ 0 → ∃ c', σ.blocks b = some (l, c') := fun b l c h _ => ⟨c, h⟩
  cases h with
  | make ht hn =>
    rename_i vars b log l p
    rw [ht] at hf hb
    obtain ⟨T, obs, a1, a2, a3, a4⟩ := hf
    cases a2
    cases a4 with
    | cons b1 b2 b3 =>
      cases b2
      have hc0 : cntOf σ.blocks b = 0 := by simp [cntOf, hn]
      have hz0 : zerOf σ.blocks b = 0 := by simp [zerOf, hn]
      have hset : ∀ b', b' ≠ b → setBlock σ.blocks b (some (l, 1)) b' = σ.blocks b' := fun b' hb' => by simp [setBlock, hb']
      have hself : setBlock σ.blocks b (some (l, 1)) b = some (l, 1) := by simp [setBlock]
      refine sv_inv_put hi i _ _ (fun b' => ?_) (fun b' => ?_) ⟨fun b' => Nat.zero_le _, fun b' hb' => absurd hb' (by simp [SVPend.inc]), fun b' hb' => hb'.elim⟩
        (fun b' l' c' hb' _ => ?_) ?_
      · rw [ht]
        simp only [SVThread.has, SVPend.inc, SVPend.dec, owners_append, pt_some]
        by_cases e : b' = b
        · subst e
          simp [cntOf, hself, hn]; omega
        · have : ¬ b = b' := fun h => e h.symm
          simp [cntOf, hset b' e, this]
      · rw [ht]
        simp only [SVPend.fre]
        by_cases e : b' = b
        · subst e
          simp [zerOf, hself, hn]
        · simp [zerOf, hset b' e]
      · have : b' ≠ b := fun e => by subst e; rw [hn] at hb'; cases hb'
        exact ⟨c', by rw [hset b' this]; exact hb'⟩
      · refine ⟨_, [], showsAll_append (showsAll_mono (fun b' l' c' _ hb' => ?_) a1) (show Shows _ (some (some b)) (.val l) from ⟨l, 1, hself, rfl⟩), .idle, by simpa using a3, b3⟩
        have : b' ≠ b := fun e => by subst e; rw [hn] at hb'; cases hb'
        exact ⟨c', by rw [hset b' this]; exact hb'⟩
  | begin ht he =>
    rename_i vars' q log p vars o
    rw [ht] at hf hb
    obtain ⟨T, obs, a1, a2, a3, a4⟩ := hf
    cases a2
    cases a4 with
    | cons b1 b2 b3 =>
      have hm : ∀ l, o ≠ .local (.make l) := by rintro l rfl; simp [SVOp.begin] at he
      obtain ⟨vars'', q', e1, e2⟩ := sv_begin_ok a1 hi.shared b1 hm b2
      rw [he] at e1
      cases e1
      refine sv_inv_put hi i _ _ (fun b' => ?_) (fun b' => ?_) ⟨e2.le, e2.lt, e2.uses⟩ keepAll ?_
      · rw [ht]
        have := e2.balance b'
        simp only [SVThread.has, SVPend.inc, SVPend.dec] at *
        omega
      · rw [ht]
        have e := e2.fre b'
        show _ + 0 = _ + q.fre b'
        rw [e]
      · obtain ⟨obs', c1, c2⟩ := e2.awaits
        refine ⟨_, obs', e2.shows, c1, ?_, b3⟩
        rw [c2, a3]; simp
  | incr ht hn =>
    rename_i l c vars old log p b
    rw [ht] at hf hb
    obtain ⟨T, obs, a1, a2, a3, a4⟩ := hf
    cases a2
    have hset : ∀ b', b' ≠ b → setBlock σ.blocks b (some (l, c + 1)) b' = σ.blocks b' := fun b' hb' => by simp [setBlock, hb']
    have hself : setBlock σ.blocks b (some (l, c + 1)) b = some (l, c + 1) := by simp [setBlock]
    have hcz : c ≠ 0 := by
      intro h0
      have h0 : cntOf σ.blocks b = 0 := by simp [cntOf, hn, h0]
      have := ((sv_unused hi h0).2 i).2.2.1
      rw [ht] at this
      simp [SVPend.inc] at this
    have keep : ∀ b' l' c', σ.blocks b' = some (l', c') → ∃ c'', setBlock σ.blocks b (some (l, c + 1)) b' = some (l', c'') := by
      intro b' l' c' hb'
      by_cases e : b' = b
      · subst e; rw [hn] at hb'; cases hb'; exact ⟨_, hself⟩
      · exact ⟨c', by rw [hset b' e]; exact hb'⟩
    have hdec : ∀ b', (SVPend.incr b old).dec b' = pt (some old) b' := fun b' => by rw [pt_some]; cases old <;> rfl
    refine sv_inv_put hi i _ _ (fun b' => ?_) (fun b' => ?_) ⟨fun b' => ?_, fun b' hb' => ?_, fun b' hb' => ?_⟩ (fun b' l' c' hb' _ => keep b' l' c' hb') ?_
    · rw [ht]
      simp only [SVThread.has, dropPend_inc, dropPend_dec, hdec]
      by_cases e : b' = b
      · subst e
        simp [cntOf, hself, hn, SVPend.inc]
      · have : ¬ b = b' := fun h => e h.symm
        simp [cntOf, hset b' e, SVPend.inc, this]
    · rw [ht]
      simp only [dropPend_fre]
      by_cases e : b' = b
      · subst e
        obtain ⟨c, rfl⟩ := Nat.exists_eq_succ_of_ne_zero hcz
        simp [zerOf, hself, hn, SVPend.fre]
      · simp [zerOf, hset b' e, SVPend.fre]
    · show (dropPend old).inc b' ≤ _
      rw [dropPend_inc]; exact Nat.zero_le _
    · change 0 < (dropPend old).inc b' at hb'
      rw [dropPend_inc] at hb'; omega
    · exact absurd hb' (dropPend_uses old b')
    · exact ⟨T, [], showsAll_mono (fun b' l' c' _ hb' => keep b' l' c' hb') a1, dropPend_awaits _ old, a3, a4⟩
  | decr ht hn =>
    rename_i l c vars b log p
    rw [ht] at hf hb
    obtain ⟨T, obs, a1, a2, a3, a4⟩ := hf
    cases a2
    have hset : ∀ b', b' ≠ b → setBlock σ.blocks b (some (l, c - 1)) b' = σ.blocks b' := fun b' hb' => by simp [setBlock, hb']
    have hself : setBlock σ.blocks b (some (l, c - 1)) b = some (l, c - 1) := by simp [setBlock]
    have hcz : c ≠ 0 := by
      intro h0
      have h0 : cntOf σ.blocks b = 0 := by simp [cntOf, hn, h0]
      have := ((sv_unused hi h0).2 i).2.1
      rw [ht] at this
      simp [SVPend.dec] at this
    have keep : ∀ b' l' c', σ.blocks b' = some (l', c') → ∃ c'', setBlock σ.blocks b (some (l, c - 1)) b' = some (l', c'') := by
      intro b' l' c' hb'
      by_cases e : b' = b
      · subst e; rw [hn] at hb'; cases hb'; exact ⟨_, hself⟩
      · exact ⟨c', by rw [hset b' e]; exact hb'⟩
    have q1 : ∀ b', (if c = 1 then SVPend.free b else .idle).inc b' = 0 := by intro b'; split <;> rfl
    have q2 : ∀ b', (if c = 1 then SVPend.free b else .idle).dec b' = 0 := by intro b'; split <;> rfl
    have q3 : ∀ b', ¬ (if c = 1 then SVPend.free b else .idle).uses b' := by intro b'; split <;> exact id
    refine sv_inv_put hi i _ _ (fun b' => ?_) (fun b' => ?_) ⟨fun b' => ?_, fun b' hb' => ?_, fun b' hb' => ?_⟩ (fun b' l' c' hb' _ => keep b' l' c' hb') ?_
    · rw [ht]
      simp only [SVThread.has, q1, q2]
      by_cases e : b' = b
      · subst e
        simp [cntOf, hself, hn, SVPend.inc, SVPend.dec]; omega
      · have : ¬ b = b' := fun h => e h.symm
        simp [cntOf, hset b' e, SVPend.inc, SVPend.dec, this]
    · rw [ht]
      by_cases e : b' = b
      · subst e
        obtain ⟨c, rfl⟩ := Nat.exists_eq_succ_of_ne_zero hcz
        cases c with
        | zero => simp [zerOf, hself, hn, SVPend.fre]
        | succ c =>
          have z1 : zerOf (setBlock σ.blocks b' (some (l, (c + 1).succ - 1))) b' = 0 := by simp only [zerOf, hself]; rfl
          have z2 : zerOf σ.blocks b' = 0 := by simp only [zerOf, hn]
          rw [z1, z2]
          simp [SVPend.fre]
      · have : ¬ b = b' := fun h => e h.symm
        simp only [zerOf, hset b' e]
        by_cases hc1 : c = 1 <;> simp [hc1, SVPend.fre, this]
    · show (if c = 1 then SVPend.free b else .idle).inc b' ≤ _
      rw [q1]; exact Nat.zero_le _
    · change 0 < (if c = 1 then SVPend.free b else .idle).inc b' at hb'
      rw [q1] at hb'; omega
    · exact absurd hb' (q3 b')
    · refine ⟨T, [], showsAll_mono (fun b' l' c' _ hb' => keep b' l' c' hb') a1, ?_, a3, a4⟩
      show Awaits _ (if c = 1 then SVPend.free b else .idle) []
      split
      · exact .free
      · exact .idle
  | free ht hn =>
    rename_i l c vars log p b
    rw [ht] at hf hb
    obtain ⟨T, obs, a1, a2, a3, a4⟩ := hf
    cases a2
    have hset : ∀ b', b' ≠ b → setBlock σ.blocks b none b' = σ.blocks b' := fun b' hb' => by simp [setBlock, hb']
    have hself : setBlock σ.blocks b none b = none := by simp [setBlock]
    have hcz : c = 0 := by
      have h1 := hi.freed b
      have h2 : (σ.threads i).pend.fre b ≤ ∑ j, (σ.threads j).pend.fre b := Finset.single_le_sum (f := fun j => (σ.threads j).pend.fre b) (fun j _ => Nat.zero_le _) (Finset.mem_univ i)
      rw [h1, ht] at h2
      simp only [SVPend.fre, if_true] at h2
      cases c with
      | zero => rfl
      | succ c => simp [zerOf, hn] at h2
    subst hcz
    have h0 : cntOf σ.blocks b = 0 := by simp [cntOf, hn]
    refine sv_inv_put hi i _ _ (fun b' => ?_) (fun b' => ?_) ⟨fun b' => Nat.zero_le _, fun b' hb' => absurd hb' (by simp [SVPend.inc]), fun b' hb' => hb'.elim⟩ (fun b' l' c' hb' hc' => ?_) ?_
    · rw [ht]
      simp only [SVThread.has, SVPend.inc, SVPend.dec]
      by_cases e : b' = b
      · subst e
        simp [cntOf, hself, hn]
      · simp [cntOf, hset b' e]
    · rw [ht]
      by_cases e : b' = b
      · subst e
        simp [zerOf, hself, hn, SVPend.fre]
      · have : ¬ b = b' := fun h => e h.symm
        simp [zerOf, hset b' e, SVPend.fre, this]
    · have : b' ≠ b := fun e => by subst e; rw [hn] at hb'; cases hb'; exact hc' rfl
      exact ⟨c', by rw [hset b' this]; exact hb'⟩
    · refine ⟨T, [], showsAll_mono (fun b' l' c' ho hb' => ?_) a1, .idle, a3, a4⟩
      have : b' ≠ b := by
        rintro rfl
        have := ((sv_unused hi h0).2 i).1
        rw [ht] at this
        dsimp only at ho this
        omega
      exact ⟨c', by rw [hset b' this]; exact hb'⟩
  | read ht hn hv =>
    rw [ht] at hf hb
    obtain ⟨T, obs, a1, a2, a3, a4⟩ := hf
    cases a2 with
    | read d1 d2 =>
      rw [hn] at d1; cases d1
      rw [hv] at d2; cases d2
      refine sv_inv_put hi i _ _ (fun b' => by rw [ht]; simp [SVThread.has, SVPend.inc, SVPend.dec]) (fun b' => by rw [ht]; rfl)
        ⟨fun b' => Nat.zero_le _, fun b' hb' => absurd hb' (by simp [SVPend.inc]), fun b' hb' => hb'.elim⟩ keepAll ⟨T, [], a1, .idle, by simpa using a3, a4⟩
  | size ht hn =>
    rw [ht] at hf hb
    obtain ⟨T, obs, a1, a2, a3, a4⟩ := hf
    cases a2 with
    | size d1 =>
      rw [hn] at d1; cases d1
      refine sv_inv_put hi i _ _ (fun b' => by rw [ht]; simp [SVThread.has, SVPend.inc, SVPend.dec]) (fun b' => by rw [ht]; rfl)
        ⟨fun b' => Nat.zero_le _, fun b' hb' => absurd hb' (by simp [SVPend.inc]), fun b' hb' => hb'.elim⟩ keepAll ⟨T, [], a1, .idle, by simpa using a3, a4⟩
  | cmpSize ht hn hn' hlen =>
    rw [ht] at hf hb
    obtain ⟨T, obs, a1, a2, a3, a4⟩ := hf
    cases a2 with
    | cmpSize d1 d2 =>
      rw [hn] at d1; cases d1
      rw [hn'] at d2; cases d2
      refine sv_inv_put hi i _ _ (fun b' => by rw [ht]; simp [SVThread.has, SVPend.inc, SVPend.dec]) (fun b' => by rw [ht]; rfl)
        ⟨fun b' => Nat.zero_le _, fun b' hb' => absurd hb' (by simp [SVPend.inc]), hb.uses⟩ keepAll
        ⟨T, _, a1, .cmpAt hn hn' hlen (by simp), a3, a4⟩
  | cmpSizeNe ht hn hn' hlen =>
    rw [ht] at hf hb
    obtain ⟨T, obs, a1, a2, a3, a4⟩ := hf
    cases a2 with
    | cmpSize d1 d2 =>
      rw [hn] at d1; cases d1
      rw [hn'] at d2; cases d2
      rw [decide_eq_false (fun e => hlen (congrArg List.length e))] at a3
      refine sv_inv_put hi i _ _ (fun b' => by rw [ht]; simp [SVThread.has, SVPend.inc, SVPend.dec]) (fun b' => by rw [ht]; rfl)
        ⟨fun b' => Nat.zero_le _, fun b' hb' => absurd hb' (by simp [SVPend.inc]), fun b' hb' => hb'.elim⟩ keepAll
        ⟨T, [], a1, .idle, by simpa using a3, a4⟩
  | cmpEnd ht hn hk =>
    rw [ht] at hf hb
    obtain ⟨T, obs, a1, a2, a3, a4⟩ := hf
    cases a2 with
    | cmpAt d1 d2 d3 d4 =>
      rw [hn] at d1; cases d1
      have heq := d4
      rw [List.take_of_length_le hk, List.take_of_length_le (by omega)] at heq
      subst heq
      refine sv_inv_put hi i _ _ (fun b' => by rw [ht]; simp [SVThread.has, SVPend.inc, SVPend.dec]) (fun b' => by rw [ht]; rfl)
        ⟨fun b' => Nat.zero_le _, fun b' hb' => absurd hb' (by simp [SVPend.inc]), fun b' hb' => hb'.elim⟩ keepAll
        ⟨T, [], a1, .idle, by simpa using a3, a4⟩
  | cmpNext ht hn hn' hv hv' =>
    rw [ht] at hf hb
    obtain ⟨T, obs, a1, a2, a3, a4⟩ := hf
    cases a2 with
    | cmpAt d1 d2 d3 d4 =>
      rw [hn] at d1; cases d1
      rw [hn'] at d2; cases d2
      refine sv_inv_put hi i _ _ (fun b' => by rw [ht]; simp [SVThread.has, SVPend.inc, SVPend.dec]) (fun b' => by rw [ht]; rfl)
        ⟨fun b' => Nat.zero_le _, fun b' hb' => absurd hb' (by simp [SVPend.inc]), hb.uses⟩ keepAll
        ⟨T, _, a1, .cmpAt hn hn' d3 ?_, a3, a4⟩
      rw [List.take_add_one, List.take_add_one, d4, hv, hv']
  | cmpNe ht hn hn' hv hv' hne =>
    rw [ht] at hf hb
    obtain ⟨T, obs, a1, a2, a3, a4⟩ := hf
    cases a2 with
    | cmpAt d1 d2 d3 d4 =>
      rw [hn] at d1; cases d1
      rw [hn'] at d2; cases d2
      rw [decide_eq_false (fun e => hne (Option.some.inj (hv.symm.trans ((congrArg (fun l => l[_]?) e).trans hv'))))] at a3
      refine sv_inv_put hi i _ _ (fun b' => by rw [ht]; simp [SVThread.has, SVPend.inc, SVPend.dec]) (fun b' => by rw [ht]; rfl)
        ⟨fun b' => Nat.zero_le _, fun b' hb' => absurd hb' (by simp [SVPend.inc]), fun b' hb' => hb'.elim⟩ keepAll
        ⟨T, [], a1, .idle, by simpa using a3, a4⟩

theorem sv_inv_reach [DecidableEq α] {G : CSpec α} {T' : Fin n → SVAlone α} {σ τ : SVSys α n} (hi : SVInv G T' σ) (h : σ.Reach τ) : SVInv G T' τ := by
  induction h with
  | refl => exact hi
  | tail _ hs ih => exact sv_inv_step ih hs

/-! ### What the invariant gives -/

theorem sv_used_exists [DecidableEq α] {G : CSpec α} {T' : Fin n → SVAlone α} {σ : SVSys α n} (hi : SVInv G T' σ) {b : Nat} (h : cntOf σ.blocks b ≠ 0) :
    ∃ l c, σ.blocks b = some (l, c) ∧ c ≠ 0 := by
  unfold cntOf at h
  cases hb : σ.blocks b with
  | none => rw [hb] at h; exact absurd rfl h
  | some v => rw [hb] at h; exact ⟨v.1, v.2, rfl, h⟩

theorem sv_no_race [DecidableEq α] {G : CSpec α} {T' : Fin n → SVAlone α} {σ : SVSys α n} (hi : SVInv G T' σ) : ¬ σ.Race := by
  rintro ⟨i, j, b, w, hij, h1, h2⟩
  have hp : (σ.threads i).pend = .free b := by
    cases hp : (σ.threads i).pend <;> rw [hp] at h1 <;> simp [SVPend.next] at h1
    subst h1; rfl
  have hf1 : (σ.threads i).pend.fre b = 1 := by rw [hp]; simp [SVPend.fre]
  have hfr := hi.freed b
  have hsum : ∀ k, (σ.threads k).pend.fre b ≤ ∑ j, (σ.threads j).pend.fre b :=
    fun k => Finset.single_le_sum (f := fun j => (σ.threads j).pend.fre b) (fun j _ => Nat.zero_le _) (Finset.mem_univ k)
  have hz1 : zerOf σ.blocks b ≤ 1 := by unfold zerOf; split <;> omega
  have hz : zerOf σ.blocks b = 1 := by have := hsum i; omega
  have h0 : cntOf σ.blocks b = 0 := by
    unfold zerOf at hz
    unfold cntOf
    split at hz
    · rename_i l hb; rw [hb]
    · omega
  obtain ⟨_, hu⟩ := sv_unused hi h0
  obtain ⟨_, u2, u3, u4⟩ := hu j
  cases hq : (σ.threads j).pend with
  | idle => rw [hq] at h2; exact h2
  | incr c o =>
    rw [hq] at h2 u3; simp [SVPend.next] at h2; simp [SVPend.inc] at u3; exact u3 h2.1.symm
  | decr c =>
    rw [hq] at h2 u2; simp [SVPend.next] at h2; simp [SVPend.dec] at u2; exact u2 h2.1.symm
  | free c =>
    rw [hq] at h2; simp [SVPend.next] at h2
    have hf2 : (σ.threads j).pend.fre b = 1 := by rw [hq]; simp [SVPend.fre, h2.1]
    have : (σ.threads i).pend.fre b + (σ.threads j).pend.fre b ≤ ∑ k, (σ.threads k).pend.fre b := by
      rw [← Finset.sum_pair (f := fun k => (σ.threads k).pend.fre b) hij]
      exact Finset.sum_le_sum_of_subset (Finset.subset_univ _)
    omega
  | read c pos => rw [hq] at h2 u4; exact u4 h2.1
  | size c => rw [hq] at h2 u4; exact u4 h2.1
  | cmpSize c d => rw [hq] at h2 u4; exact u4 h2.1
  | cmpAt c d k => rw [hq] at h2 u4; exact u4 h2.1

theorem sv_progress [DecidableEq α] {G : CSpec α} {T' : Fin n → SVAlone α} {σ : SVSys α n} (hi : SVInv G T' σ) (hfree : ∃ b, σ.blocks b = none) (i : Fin n)
    (hn : ¬ σ.finished i) : ∃ τ, σ.Step i τ := by
  obtain ⟨T, obs, a1, a2, a3, a4⟩ := hi.follows i
  have hex : ∀ b, (σ.threads i).pend.inc b ≠ 0 ∨ (σ.threads i).pend.dec b ≠ 0 → ∃ l c, σ.blocks b = some (l, c) := by
    intro b hb
    by_cases h0 : cntOf σ.blocks b = 0
    · obtain ⟨_, u2, u3, _⟩ := (sv_unused hi h0).2 i
      omega
    · obtain ⟨l, c, h, _⟩ := sv_used_exists hi h0
      exact ⟨l, c, h⟩
  have hth : σ.threads i = ⟨(σ.threads i).vars, (σ.threads i).pend, (σ.threads i).log, (σ.threads i).todo⟩ := rfl
  cases hp : (σ.threads i).pend with
  | idle =>
    cases ht : (σ.threads i).todo with
    | nil => exact absurd ⟨hp, ht⟩ hn
    | cons o p =>
      rw [hp, ht] at hth
      rw [ht] at a4
      cases a4 with
      | cons b1 b2 b3 =>
        by_cases hm : ∃ l, o = .local (.make l)
        · obtain ⟨l, rfl⟩ := hm
          obtain ⟨b, hb⟩ := hfree
          exact ⟨_, .make hth hb⟩
        · obtain ⟨vars', q, e1, _⟩ := sv_begin_ok a1 hi.shared b1 (fun l h => hm ⟨l, h⟩) b2
          exact ⟨_, .begin hth e1⟩
  | incr b o =>
    rw [hp] at hth hex
    obtain ⟨l, c, h⟩ := hex b (.inl (by simp [SVPend.inc]))
    exact ⟨_, .incr hth h⟩
  | decr b =>
    rw [hp] at hth hex
    obtain ⟨l, c, h⟩ := hex b (.inr (by simp [SVPend.dec]))
    exact ⟨_, .decr hth h⟩
  | free b =>
    rw [hp] at hth
    have h1 := hi.freed b
    have h2 : (σ.threads i).pend.fre b ≤ ∑ j, (σ.threads j).pend.fre b :=
      Finset.single_le_sum (f := fun j => (σ.threads j).pend.fre b) (fun j _ => Nat.zero_le _) (Finset.mem_univ i)
    rw [h1, hp] at h2
    simp only [SVPend.fre, if_true] at h2
    cases hb : σ.blocks b with
    | none => simp [zerOf, hb] at h2
    | some v => exact ⟨_, .free hth hb⟩
  | read b pos =>
    rw [hp] at hth a2
    cases a2 with
    | read h1 h2 => exact ⟨_, .read hth h1 h2⟩
  | size b =>
    rw [hp] at hth a2
    cases a2 with
    | size h1 => exact ⟨_, .size hth h1⟩
  | cmpSize b b' =>
    rw [hp] at hth a2
    cases a2 with
    | cmpSize h1 h2 =>
      rename_i l _ m _
      by_cases e : l.length = m.length
      · exact ⟨_, .cmpSize hth h1 h2 e⟩
      · exact ⟨_, .cmpSizeNe hth h1 h2 e⟩
  | cmpAt b b' k =>
    rw [hp] at hth a2
    cases a2 with
    | cmpAt h1 h2 h3 h4 =>
      rename_i l _ m _
      by_cases e : l.length ≤ k
      · exact ⟨_, .cmpEnd hth h1 e⟩
      · have hl : k < l.length := by omega
        have hm : k < m.length := by omega
        by_cases e' : l[k] = m[k]
        · exact ⟨_, .cmpNext hth h1 h2 (List.getElem?_eq_getElem hl) (by rw [List.getElem?_eq_getElem hm, e'])⟩
        · exact ⟨_, .cmpNe hth h1 h2 (List.getElem?_eq_getElem hl) (List.getElem?_eq_getElem hm) e'⟩

/-! ### The start -/

theorem keepVars_cons (f : Nat → Bool) (v : Option (Option Nat)) (vs : List (Option (Option Nat))) :
    keepVars f (v :: vs) = (if f 0 then v else none) :: keepVars (fun x => f (x + 1)) vs := by
  simp [keepVars, List.mapIdx_cons]

theorem owners_cons (v : Option (Option Nat)) (vs : List (Option (Option Nat))) (b : Nat) : owners (v :: vs) b = owners vs b + pt v b := by
  unfold owners pt
  rw [List.count_cons]
  by_cases h : v = some (some b) <;> simp [h]

theorem owners_split (who : Nat → Option (Fin n)) (vs : List (Option (Option Nat))) (b : Nat) :
    owners vs b = owners (keepVars (fun x => decide (who x = none)) vs) b + ∑ i, owners (keepVars (fun x => decide (who x = some i)) vs) b := by
  induction vs generalizing who with
  | nil => simp [keepVars, owners]
  | cons v vs ih =>
    rw [owners_cons, ih fun x => who (x + 1), keepVars_cons, owners_cons]
    simp only [keepVars_cons, owners_cons, Finset.sum_add_distrib]
    have hp0 : pt none b = 0 := by simp [pt]
    cases hw : who 0 with
    | none => simp [hp0]; omega
    | some k =>
      have : ∀ i : Fin n, pt (if decide (some k = some i) = true then v else none) b = if i = k then pt v b else 0 := by
        intro i
        by_cases e : k = i
        · subst e; simp
        · have : ¬ i = k := fun h => e h.symm
          simp [e, this, hp0]
      simp only [this, Finset.sum_ite_eq', Finset.mem_univ, if_true]
      simp [hp0]; omega

theorem shows_abs {s : CVState α} (hi : Jules.Props.CVInv s) (v : Option (Option Nat)) (hv : v ∈ s.vars) :
    Shows (fun b => s.blocks[b]?.join) v (Jules.Props.absVar s.blocks v) := by
  match v, hv with
  | none, _ => rfl
  | some none, _ => rfl
  | some (some b), hv =>
    obtain ⟨l, c, hb⟩ := hi.2 b (List.count_pos_iff.2 hv)
    exact ⟨l, c, by simp [hb], by simp [Jules.Props.absVar, Jules.Props.valsOf, hb]⟩

theorem showsAll_keep {s : CVState α} (hi : Jules.Props.CVInv s) (f : Nat → Bool) :
    ShowsAll (fun b => s.blocks[b]?.join) (keepVars f s.vars) (keepVals f (Jules.Props.absCV s)) := by
  refine ⟨by simp [keepVars, keepVals, Jules.Props.absCV], fun x v a h1 h2 => ?_⟩
  simp only [keepVars, keepVals, Jules.Props.absCV, List.getElem?_mapIdx, List.getElem?_map] at h1 h2
  cases hx : s.vars[x]? with
  | none => rw [hx] at h1; simp at h1
  | some w =>
    rw [hx] at h1 h2
    simp at h1 h2
    subst h1 h2
    cases f x with
    | false => rfl
    | true => exact shows_abs hi w (List.mem_of_getElem? hx)

theorem sv_inv_start [DecidableEq α] {s : CVState α} (hi : Jules.Props.CVInv s) (who : Nat → Option (Fin n)) (progs : Fin n → List (SVOp α)) (T' : Fin n → SVAlone α)
    (h : ∀ i, SVRuns (keepVals (fun x => decide (who x = none)) (Jules.Props.absCV s)) ⟨keepVals (fun x => decide (who x = some i)) (Jules.Props.absCV s), []⟩ (progs i) (T' i)) :
    SVInv (keepVals (fun x => decide (who x = none)) (Jules.Props.absCV s)) T' (SVSys.start s who progs) := by
  have hjoin : ∀ (b : Nat) v, s.blocks[b]?.join = some v ↔ s.blocks[b]? = some (some v) := by
    intro b v
    cases s.blocks[b]? <;> simp
  refine ⟨fun b => ?_, fun b => ?_, fun i => ⟨fun b => Nat.zero_le _, fun b hb => absurd hb (by simp [SVSys.start, SVPend.inc]), fun b hb => hb.elim⟩, showsAll_keep hi _,
    fun i => ⟨⟨keepVals (fun x => decide (who x = some i)) (Jules.Props.absCV s), []⟩, [], showsAll_keep hi _, .idle, rfl, h i⟩⟩
  · have hsp := owners_split who s.vars b
    have hc : cntOf (SVSys.start s who progs).blocks b = owners s.vars b := by
      unfold cntOf SVSys.start
      dsimp only
      cases hb : s.blocks[b]?.join with
      | none =>
        by_contra hne
        obtain ⟨l, c, h⟩ := hi.2 b (by dsimp only at hne; omega)
        rw [h] at hb; simp at hb
      | some v => exact (hi.1 b v.1 v.2 ((hjoin b v).1 hb)).1
    rw [hc, hsp]
    simp [SVSys.start, SVPend.inc, SVThread.has, SVPend.dec]
  · have : zerOf (SVSys.start s who progs).blocks b = 0 := by
      unfold zerOf SVSys.start
      dsimp only
      split
      · rename_i l hb
        have := (hi.1 b l 0 ((hjoin b _).1 hb)).2
        omega
      · rfl
    rw [this]
    simp [SVSys.start, SVPend.fre]

/-! ### The end -/

theorem refCount_eq (σ : SVSys α n) (b : Nat) : refCount σ b = owners σ.shared b + ∑ i, owners (σ.threads i).vars b := by
  unfold refCount
  rw [Fin.sum_univ_def]; rfl

theorem sv_inv_end [DecidableEq α] {G : CSpec α} {T' : Fin n → SVAlone α} {σ : SVSys α n} (hi : SVInv G T' σ) (hfin : ∀ i, σ.finished i) (b : Nat) :
    cntOf σ.blocks b = refCount σ b ∧ zerOf σ.blocks b = 0 := by
  have h1 := hi.balance b
  have h2 := hi.freed b
  have e1 : ∑ i, (σ.threads i).pend.inc b = 0 := Finset.sum_eq_zero fun i _ => by rw [(hfin i).1]; rfl
  have e2 : ∑ i, (σ.threads i).pend.fre b = 0 := Finset.sum_eq_zero fun i _ => by rw [(hfin i).1]; rfl
  have e3 : ∑ i, (σ.threads i).has b = ∑ i, owners (σ.threads i).vars b := Finset.sum_congr rfl fun i _ => by simp [SVThread.has, (hfin i).1, SVPend.dec]
  rw [refCount_eq]
  omega

/-! ### Every execution ends -/

/-- The length of a block's vector. -/
def lenOf (bs : Nat → Option (List α × Nat)) (b : Nat) : Nat := match bs b with
  | some (l, _) => l.length
  | none => 0

/-- A bound on the steps left of the present operation. -/
def SVPend.left (bs : Nat → Option (List α × Nat)) : SVPend → Nat
  | .idle => 0
  | .incr _ _ => 3
  | .decr _ => 2
  | .free _ => 1
  | .read _ _ => 1
  | .size _ => 1
  | .cmpSize b _ => lenOf bs b + 2
  | .cmpAt b _ k => lenOf bs b - k + 1

theorem sv_left_congr {bs bs' : Nat → Option (List α × Nat)} {p : SVPend} (h : ∀ b, p.uses b → lenOf bs' b = lenOf bs b) : p.left bs' = p.left bs := by
  cases p <;> simp only [SVPend.left]
  · rw [h _ (.inl rfl)]
  · rw [h _ (.inl rfl)]


theorem sv_len_of_eq {bs : Nat → Option (List α × Nat)} {b : Nat} {l : List α} {c : Nat} (h : bs b = some (l, c)) : lenOf bs b = l.length := by simp [lenOf, h]

/-- The operations left, and a bound on the steps left of the present operations. -/
def SVSys.work (σ : SVSys α n) : Nat × Nat := (∑ i, (σ.threads i).todo.length, ∑ i, (σ.threads i).pend.left σ.blocks)

theorem sv_work_put [DecidableEq α] {G : CSpec α} {T' : Fin n → SVAlone α} {σ : SVSys α n} (hi : SVInv G T' σ) (i : Fin n) (t : SVThread α) (bs : Nat → Option (List α × Nat))
    (h4 : ∀ b l c, σ.blocks b = some (l, c) → c ≠ 0 → ∃ c', bs b = some (l, c'))
    (h : t.todo.length < (σ.threads i).todo.length ∨ t.todo.length = (σ.threads i).todo.length ∧ t.pend.left bs < (σ.threads i).pend.left σ.blocks) :
    Prod.Lex (· < ·) (· < ·) (σ.put i t bs).work σ.work := by
  have hself : (σ.put i t bs).threads i = t := by simp [SVSys.put]
  have hother : ∀ j, j ≠ i → (σ.put i t bs).threads j = σ.threads j := fun j hj => by simp [SVSys.put, hj]
  have e1 := sv_sum_put (f := fun j => (σ.threads j).todo.length) (f' := fun j => ((σ.put i t bs).threads j).todo.length) i (fun j hj => by simp only [hother j hj])
  have e2 := sv_sum_put (f := fun j => (σ.threads j).pend.left σ.blocks) (f' := fun j => ((σ.put i t bs).threads j).pend.left bs) i (fun j hj => by
    simp only [hother j hj]
    refine sv_left_congr fun b hb => ?_
    by_cases h0 : cntOf σ.blocks b = 0
    · exact absurd hb ((sv_unused hi h0).2 j).2.2.2
    · obtain ⟨l, c, h1, h2⟩ := sv_used_exists hi h0
      obtain ⟨c', h3⟩ := h4 b l c h1 h2
      rw [sv_len_of_eq h1, sv_len_of_eq h3])
  simp only [hself] at e1 e2
  unfold SVSys.work
  rcases h with h | ⟨h, h'⟩
  · exact .left _ _ (by omega)
  · have : ∑ j, ((σ.put i t bs).threads j).todo.length = ∑ j, (σ.threads j).todo.length := by omega
    rw [this]
    exact .right _ (by show ∑ j, ((σ.put i t bs).threads j).pend.left bs < _; omega)

theorem sv_work_step [DecidableEq α] {G : CSpec α} {T' : Fin n → SVAlone α} {σ τ : SVSys α n} {i : Fin n} (hi : SVInv G T' σ) (h : σ.Step i τ) :
    Prod.Lex (· < ·) (· < ·) τ.work σ.work := by
  have keepAll : ∀ b l c, σ.blocks b = some (l, c) → c ≠ 0 → ∃ c', σ.blocks b = some (l, c') := fun b l c h _ => ⟨c, h⟩
  have keepSet : ∀ b l c d, σ.blocks b = some (l, c) → ∀ b' l' c', σ.blocks b' = some (l', c') → c' ≠ 0 → ∃ c'', setBlock σ.blocks b (some (l, d)) b' = some (l', c'') := by
    intro b l c d hb b' l' c' hb' _
    by_cases e : b' = b
    · subst e; rw [hb] at hb'; cases hb'; exact ⟨d, by simp [setBlock]⟩
    · exact ⟨c', by simp [setBlock, e, hb']⟩
  have hdrop : ∀ (bs : Nat → Option (List α × Nat)) p, (dropPend p).left bs < 3 := by intro bs p; cases p <;> simp [dropPend, SVPend.left]
  cases h with
  | make ht hn =>
    refine sv_work_put hi i _ _ (fun b' l' c' hb' _ => ⟨c', ?_⟩) (.inl (by rw [ht]; simp))
    rename_i b _ _ _ _
    have : b' ≠ b := fun e => by subst e; rw [hn] at hb'; cases hb'
    simp [setBlock, this, hb']
  | begin ht he => exact sv_work_put hi i _ _ keepAll (.inl (by rw [ht]; simp))
  | incr ht hn =>
    exact sv_work_put hi i _ _ (keepSet _ _ _ _ hn) (.inr ⟨by rw [ht], by rw [ht]; exact hdrop _ _⟩)
  | decr ht hn =>
    refine sv_work_put hi i _ _ (keepSet _ _ _ _ hn) (.inr ⟨by rw [ht], ?_⟩)
    rw [ht]; dsimp only; split <;> simp [SVPend.left]
  | free ht hn =>
    have hcz := sv_inv_step hi (.free ht hn)
    rename_i l c vars log p b
    have hc0 : c = 0 := by
      have h1 := hi.freed b
      have h2 : (σ.threads i).pend.fre b ≤ ∑ j, (σ.threads j).pend.fre b := Finset.single_le_sum (f := fun j => (σ.threads j).pend.fre b) (fun j _ => Nat.zero_le _) (Finset.mem_univ i)
      rw [h1, ht] at h2
      simp only [SVPend.fre, if_true] at h2
      cases c with
      | zero => rfl
      | succ c => simp [zerOf, hn] at h2
    refine sv_work_put hi i _ _ (fun b' l' c' hb' hc' => ⟨c', ?_⟩) (.inr ⟨by rw [ht], by rw [ht]; simp [SVPend.left]⟩)
    have : b' ≠ b := fun e => by subst e; rw [hn] at hb'; cases hb'; exact hc' hc0
    simp [setBlock, this, hb']
  | read ht hn hv => exact sv_work_put hi i _ _ keepAll (.inr ⟨by rw [ht], by rw [ht]; simp [SVPend.left]⟩)
  | size ht hn => exact sv_work_put hi i _ _ keepAll (.inr ⟨by rw [ht], by rw [ht]; simp [SVPend.left]⟩)
  | cmpSize ht hn hn' hlen => exact sv_work_put hi i _ _ keepAll (.inr ⟨by rw [ht], by rw [ht]; simp [SVPend.left]⟩)
  | cmpSizeNe ht hn hn' hlen => exact sv_work_put hi i _ _ keepAll (.inr ⟨by rw [ht], by rw [ht]; simp [SVPend.left]⟩)
  | cmpEnd ht hn hk => exact sv_work_put hi i _ _ keepAll (.inr ⟨by rw [ht], by rw [ht]; simp [SVPend.left]⟩)
  | cmpNext ht hn hn' hv hv' =>
    refine sv_work_put hi i _ _ keepAll (.inr ⟨by rw [ht], ?_⟩)
    rw [ht]
    have := (List.getElem?_eq_some_iff.1 hv).1
    simp only [SVPend.left, sv_len_of_eq hn]
    omega
  | cmpNe ht hn hn' hv hv' hne => exact sv_work_put hi i _ _ keepAll (.inr ⟨by rw [ht], by rw [ht]; simp [SVPend.left]⟩)

theorem sv_ends [DecidableEq α] {G : CSpec α} {T' : Fin n → SVAlone α} {σ : SVSys α n} (hi : SVInv G T' σ) :
    Acc (fun τ υ : SVSys α n => ∃ i, υ.Step i τ) σ := by
  have hwf : WellFounded (fun a b : Nat × Nat => Prod.Lex (· < ·) (· < ·) a b) := (Prod.lex ⟨_, Nat.lt_wfRel.wf⟩ ⟨_, Nat.lt_wfRel.wf⟩).wf
  generalize hw : σ.work = w
  induction w using hwf.induction generalizing σ with
  | _ w ih =>
    subst hw
    exact .intro _ fun τ ⟨i, hs⟩ => ih _ (sv_work_step hi hs) (sv_inv_step hi hs) rfl

/-! ### There is always memory for one more block -/

/-- All blocks are below some number. -/
def SVFinite (σ : SVSys α n) : Prop := ∃ N, ∀ b, N ≤ b → σ.blocks b = none

theorem sv_finite_set {bs : Nat → Option (List α × Nat)} {N b : Nat} {v} (h : ∀ b, N ≤ b → bs b = none) : ∃ N, ∀ b', N ≤ b' → setBlock bs b v b' = none :=
  ⟨N + b + 1, fun b' hb => by rw [setBlock, if_neg (by omega)]; exact h b' (by omega)⟩

theorem sv_finite_step [DecidableEq α] {σ τ : SVSys α n} {i : Fin n} (hf : SVFinite σ) (h : σ.Step i τ) : SVFinite τ := by
  obtain ⟨N, hN⟩ := hf
  cases h
  case make => exact sv_finite_set hN
  case incr => exact sv_finite_set hN
  case decr => exact sv_finite_set hN
  case free => exact sv_finite_set hN
  all_goals exact ⟨N, hN⟩

theorem sv_finite_reach [DecidableEq α] {σ τ : SVSys α n} (hf : SVFinite σ) (h : σ.Reach τ) : SVFinite τ := by
  induction h with
  | refl => exact hf
  | tail _ hs ih => exact sv_finite_step ih hs

theorem sv_finite_start (s : CVState α) (who : Nat → Option (Fin n)) (progs : Fin n → List (SVOp α)) : SVFinite (SVSys.start s who progs) :=
  ⟨s.blocks.length, fun b hb => by simp [SVSys.start, List.getElem?_eq_none hb]⟩

end Jules

import Verif.Model.ConstVector
/-
C38: const_vector.
-/
namespace Jules.Props

/-! ### C38

Specification: a variable holds a value (a list), is moved from, or is gone. -/

/-- The abstract value of a variable. -/
inductive CVal (α : Type) where
  | gone
  | movedFrom
  | val (l : List α)
  deriving DecidableEq

/-- The abstract store: one value per variable. -/
abbrev CSpec (α : Type) := List (CVal α)

/-- Is the variable within its lifetime? -/
def CSpec.alive (s : CSpec α) (x : Nat) : Prop := ∃ v, s[x]? = some v ∧ v ≠ .gone

/-- The value of a variable. -/
def CSpec.val (s : CSpec α) (x : Nat) : CVal α := s.getD x .gone

/-- What each operation may be applied to: variables within their lifetime. -/
def CSpec.ok (s : CSpec α) : CVOp α → Prop
  | .make _ => True
  | .copyInit x => s.alive x
  | .moveInit x => s.alive x
  | .copyAssign x y => s.alive x ∧ s.alive y
  | .moveAssign x y => s.alive x ∧ s.alive y
  | .destroy x => s.alive x

/-- What each operation does to the values. Moving a variable to itself leaves it as it is. -/
def CSpec.step (s : CSpec α) : CVOp α → CSpec α
  | .make l => s ++ [.val l]
  | .copyInit x => s ++ [s.val x]
  | .moveInit x => s.set x .movedFrom ++ [s.val x]
  | .copyAssign x y => s.set x (s.val y)
  | .moveAssign x y => (s.set y .movedFrom).set x (s.val y)
  | .destroy x => s.set x .gone

/-- A history of operations on live variables. -/
def CSpec.okAll : CSpec α → List (CVOp α) → Prop
  | _, [] => True
  | s, op :: ops => s.ok op ∧ CSpec.okAll (s.step op) ops

/-! Representation invariant. -/

/-- The number of variables that point to a block. -/
def owners (vars : List (Option (Option Nat))) (b : Nat) : Nat := vars.count (some (some b))

/-- Use counts are the numbers of owners, and only blocks with owners exist. -/
def CVInv (s : CVState α) : Prop :=
  (∀ b l n, s.blocks[b]? = some (some (l, n)) → n = owners s.vars b ∧ 0 < n) ∧
  (∀ b, 0 < owners s.vars b → ∃ l n, s.blocks[b]? = some (some (l, n)))

/-- The elements of a block. -/
def valsOf (blocks : List (Option (List α × Nat))) (b : Nat) : Option (List α) :=
  match blocks[b]? with
  | some (some (l, _)) => some l
  | _ => none

/-- The abstract value of a variable. -/
def absVar (blocks : List (Option (List α × Nat))) : Option (Option Nat) → CVal α
  | none => .gone
  | some none => .movedFrom
  | some (some b) => match valsOf blocks b with
    | some l => .val l
    | none => .gone

/-- The abstract store. -/
def absCV (s : CVState α) : CSpec α := s.vars.map (absVar s.blocks)

theorem absCV_alive {s : CVState α} (hi : CVInv s) {x : Nat} : (absCV s).alive x ↔ ∃ p, s.vars[x]? = some (some p) := by
  unfold CSpec.alive absCV
  rw [List.getElem?_map]
  constructor
  · rintro ⟨v, hv, hne⟩
    obtain ⟨w, hw, rfl⟩ := Option.map_eq_some_iff.1 hv
    cases w with
    | none => exact absurd rfl hne
    | some p => exact ⟨p, hw⟩
  · rintro ⟨p, hp⟩
    refine ⟨absVar s.blocks (some p), by rw [hp]; rfl, ?_⟩
    cases p with
    | none => intro h; cases h
    | some b =>
      have : 0 < owners s.vars b := List.count_pos_iff.2 (List.mem_of_getElem? hp)
      obtain ⟨l, n, hb⟩ := hi.2 b this
      simp [absVar, valsOf, hb]

theorem absCV_val {s : CVState α} {x : Nat} {p : Option Nat} (h : s.vars[x]? = some (some p)) :
    (absCV s).val x = absVar s.blocks (some p) := by
  unfold CSpec.val absCV
  rw [List.getD_eq_getElem?_getD, List.getElem?_map, h]
  rfl

/-- Does the variable point to block `b`? -/
def pt (v : Option (Option Nat)) (b : Nat) : Nat := if v = some (some b) then 1 else 0

theorem owners_set {vars : List (Option (Option Nat))} {x : Nat} {v : Option (Option Nat)} (h : vars[x]? = some v) (w : Option (Option Nat)) (b : Nat) :
    owners (vars.set x w) b + pt v b = owners vars b + pt w b := by
  obtain ⟨hx, he⟩ := List.getElem?_eq_some_iff.1 h
  unfold owners pt
  rw [List.count_set hx, he]
  have : v = some (some b) → 0 < vars.count (some (some b)) := by
    intro hv
    exact List.count_pos_iff.2 (hv ▸ List.mem_of_getElem? h)
  by_cases h1 : v = some (some b)
  · have := this h1
    by_cases h2 : w = some (some b) <;> simp [h1, h2] <;> omega
  · by_cases h2 : w = some (some b) <;> simp [h1, h2]

theorem owners_append {vars : List (Option (Option Nat))} (w : Option (Option Nat)) (b : Nat) :
    owners (vars ++ [w]) b = owners vars b + pt w b := by
  unfold owners pt
  rw [List.count_append]
  by_cases h2 : w = some (some b) <;> simp [h2]

/-- Use counts `c`. -/
def Cnt (blocks : List (Option (List α × Nat))) (c : Nat → Nat) : Prop :=
  (∀ b l n, blocks[b]? = some (some (l, n)) → n = c b ∧ 0 < n) ∧ (∀ b, 0 < c b → ∃ l n, blocks[b]? = some (some (l, n)))

theorem absVar_congr {bs bs' : List (Option (List α × Nat))} {v : Option (Option Nat)} (h : ∀ b, v = some (some b) → valsOf bs b = valsOf bs' b) :
    absVar bs v = absVar bs' v := by
  cases v with
  | none => rfl
  | some p =>
    cases p with
    | none => rfl
    | some b =>
      simp only [absVar, h b rfl]

theorem acquire_ok {bs : List (Option (List α × Nat))} {c : Nat → Nat} (hc : Cnt bs c) (p : Option Nat) (hp : ∀ b, p = some b → 0 < c b) :
    ∃ bs', acquire bs p = .ok bs' ∧ Cnt bs' (fun b => c b + pt (some p) b) ∧ (∀ b, valsOf bs' b = valsOf bs b) := by
  cases p with
  | none => exact ⟨bs, rfl, by simpa [pt] using hc, fun _ => rfl⟩
  | some b =>
    obtain ⟨l, n, hb⟩ := hc.2 b (hp b rfl)
    have hlt : b < bs.length := (List.getElem?_eq_some_iff.1 hb).1
    have hn := hc.1 b l n hb
    refine ⟨bs.set b (some (l, n + 1)), by simp [acquire, hb], ⟨?_, ?_⟩, ?_⟩
    · intro b' l' n' h'
      by_cases e : b = b'
      · subst e
        rw [List.getElem?_set_self hlt] at h'
        simp at h'
        simp [pt]; omega
      · rw [List.getElem?_set_ne e] at h'
        have := hc.1 b' l' n' h'
        simp [pt, e]; exact this
    · intro b' h'
      by_cases e : b = b'
      · subst e
        exact ⟨l, n + 1, List.getElem?_set_self hlt⟩
      · rw [List.getElem?_set_ne e]
        exact hc.2 b' (by simpa [pt, e] using h')
    · intro b'
      unfold valsOf
      by_cases e : b = b'
      · subst e
        rw [List.getElem?_set_self hlt, hb]
      · rw [List.getElem?_set_ne e]

theorem release_ok {bs : List (Option (List α × Nat))} {c c' : Nat → Nat} (hc : Cnt bs c) (p : Option Nat)
    (hc' : ∀ b, c' b + pt (some p) b = c b) :
    ∃ bs', releasePtr bs p = .ok bs' ∧ Cnt bs' c' ∧ (∀ b, 0 < c' b → valsOf bs' b = valsOf bs b) := by
  cases p with
  | none =>
    have : c' = c := by funext b; simpa [pt] using hc' b
    subst this
    exact ⟨bs, rfl, hc, fun _ _ => rfl⟩
  | some b =>
    have hb1 := hc' b
    simp [pt] at hb1
    obtain ⟨l, n, hb⟩ := hc.2 b (by omega)
    have hlt : b < bs.length := (List.getElem?_eq_some_iff.1 hb).1
    have hn := hc.1 b l n hb
    have other : ∀ b', b ≠ b' → c' b' = c b' := by
      intro b' e
      have := hc' b'
      simpa [pt, e] using this
    refine ⟨bs.set b (if n = 1 then none else some (l, n - 1)), by simp only [releasePtr, hb], ⟨?_, ?_⟩, ?_⟩
    · intro b' l' n' h'
      by_cases e : b = b'
      · subst e
        rw [List.getElem?_set_self hlt] at h'
        split at h'
        · simp at h'
        · simp at h'; omega
      · rw [List.getElem?_set_ne e] at h'
        rw [other b' e]
        exact hc.1 b' l' n' h'
    · intro b' h'
      by_cases e : b = b'
      · subst e
        exact ⟨l, n - 1, by rw [List.getElem?_set_self hlt, if_neg (by omega)]⟩
      · rw [List.getElem?_set_ne e]
        exact hc.2 b' (by rw [← other b' e]; exact h')
    · intro b' h'
      unfold valsOf
      by_cases e : b = b'
      · subst e
        rw [List.getElem?_set_self hlt, if_neg (by omega), hb]
      · rw [List.getElem?_set_ne e]

theorem map_set_congr {β γ : Type} {f f' : β → γ} {l : List β} {x : Nat} {q : β} (h : ∀ i v, i ≠ x → l[i]? = some v → f' v = f v) :
    (l.set x q).map f' = (l.map f).set x (f' q) := by
  apply List.ext_getElem?
  intro i
  rw [List.getElem?_map]
  by_cases e : x = i
  · subst e
    by_cases hx : x < l.length
    · rw [List.getElem?_set_self hx, List.getElem?_set_self (by simpa using hx)]; rfl
    · rw [List.getElem?_eq_none (by simpa using hx), List.getElem?_eq_none (by simpa using hx)]; rfl
  · rw [List.getElem?_set_ne e, List.getElem?_set_ne e, List.getElem?_map]
    cases hv : l[i]? with
    | none => rfl
    | some v => simp [h i v (Ne.symm e) hv]

theorem get_ok {s : CVState α} {x : Nat} {p : Option Nat} (h : s.vars[x]? = some (some p)) : s.get x = .ok p := by
  simp [CVState.get, h]

theorem owners_pos {vars : List (Option (Option Nat))} {i b : Nat} (h : vars[i]? = some (some (some b))) : 0 < owners vars b :=
  List.count_pos_iff.2 (List.mem_of_getElem? h)

theorem step_ok {s : CVState α} (hi : CVInv s) {op : CVOp α} (ho : (absCV s).ok op) :
    ∃ s', s.step op = .ok s' ∧ CVInv s' ∧ absCV s' = (absCV s).step op := by
  have hcnt : Cnt s.blocks (owners s.vars) := hi
  cases op with
  | make l =>
    refine ⟨_, rfl, ⟨?_, ?_⟩, ?_⟩
    · intro b l' n h
      dsimp only at h ⊢
      rw [owners_append]
      by_cases hb : b < s.blocks.length
      · rw [List.getElem?_append_left hb] at h
        have := hi.1 b l' n h
        have hne : ¬ s.blocks.length = b := by omega
        simp [pt, hne]; exact this
      · rw [List.getElem?_append_right (by omega)] at h
        have hb0 : b - s.blocks.length = 0 := by
          have := (List.getElem?_eq_some_iff.1 h).1
          simp at this; omega
        have hbe : b = s.blocks.length := by omega
        subst hbe
        simp at h
        have h0 : owners s.vars s.blocks.length = 0 := by
          rcases Nat.eq_zero_or_pos (owners s.vars s.blocks.length) with h0 | h0
          · exact h0
          · obtain ⟨l, n, hb⟩ := hi.2 _ h0
            simp at hb
        simp [pt, h0, ← h.2]
    · intro b h
      dsimp only at h ⊢
      rw [owners_append] at h
      by_cases hbe : b = s.blocks.length
      · subst hbe
        exact ⟨l, 1, by rw [List.getElem?_append_right (by omega)]; simp⟩
      · have hp : pt (some (some s.blocks.length)) b = 0 := by
          have : ¬ s.blocks.length = b := fun h => hbe h.symm
          simp [pt, this]
        obtain ⟨l', n', hb⟩ := hi.2 b (by omega)
        exact ⟨l', n', by rw [List.getElem?_append_left (List.getElem?_eq_some_iff.1 hb).1]; exact hb⟩
    · show (s.vars ++ [_]).map _ = absCV s ++ [_]
      rw [List.map_append]
      congr 1
      · refine List.map_congr_left fun v hv => absVar_congr fun b hb => ?_
        subst hb
        obtain ⟨l', n', hb⟩ := hi.2 b (List.count_pos_iff.2 hv)
        unfold valsOf
        rw [List.getElem?_append_left (List.getElem?_eq_some_iff.1 hb).1]
      · simp [absVar, valsOf]
  | copyInit x =>
    obtain ⟨p, hp⟩ := (absCV_alive hi).1 ho
    obtain ⟨bs, h1, h2, h3⟩ := acquire_ok hcnt p (fun b hb => owners_pos (hb ▸ hp))
    refine ⟨⟨bs, s.vars ++ [some p]⟩, by simp [CVState.step, get_ok hp, h1], ?_, ?_⟩
    · have : owners (s.vars ++ [some p]) = fun b => owners s.vars b + pt (some p) b := by funext b; rw [owners_append]
      show Cnt bs (owners (s.vars ++ [some p]))
      rw [this]; exact h2
    · show (s.vars ++ [some p]).map (absVar bs) = absCV s ++ [(absCV s).val x]
      rw [List.map_append, absCV_val hp]
      congr 1
      · exact List.map_congr_left fun v _ => absVar_congr fun b _ => h3 b
      · simp only [List.map_cons, List.map_nil]
        rw [absVar_congr fun b _ => h3 b]
  | moveInit x =>
    obtain ⟨p, hp⟩ := (absCV_alive hi).1 ho
    refine ⟨⟨s.blocks, s.vars.set x (some none) ++ [some p]⟩, by simp [CVState.step, get_ok hp], ?_, ?_⟩
    · have : owners (s.vars.set x (some none) ++ [some p]) = owners s.vars := by
        funext b
        rw [owners_append]
        have := owners_set hp (some none) b
        have h0 : pt (some none) b = 0 := by simp [pt]
        omega
      show Cnt s.blocks (owners (s.vars.set x (some none) ++ [some p]))
      rw [this]; exact hcnt
    · show (s.vars.set x (some none) ++ [some p]).map (absVar s.blocks) = (absCV s).set x .movedFrom ++ [(absCV s).val x]
      rw [List.map_append, absCV_val hp, map_set_congr (f := absVar s.blocks) (fun _ _ _ _ => rfl)]
      rfl
  | copyAssign x y =>
    obtain ⟨p, hp⟩ := (absCV_alive hi).1 ho.2
    obtain ⟨old, hold⟩ := (absCV_alive hi).1 ho.1
    obtain ⟨bs, h1, h2, h3⟩ := acquire_ok hcnt p (fun b hb => owners_pos (hb ▸ hp))
    obtain ⟨bs', h4, h5, h6⟩ := release_ok (c' := owners (s.vars.set x (some p))) h2 old (fun b => owners_set hold (some p) b)
    refine ⟨⟨bs', s.vars.set x (some p)⟩, by simp [CVState.step, get_ok hp, get_ok hold, h1, h4], h5, ?_⟩
    show (s.vars.set x (some p)).map (absVar bs') = (absCV s).set x ((absCV s).val y)
    have hxl : x < s.vars.length := (List.getElem?_eq_some_iff.1 hold).1
    rw [absCV_val hp, map_set_congr (f := absVar s.blocks)]
    · congr 1
      refine absVar_congr fun b hb => ?_
      rw [h6 b (owners_pos (i := x) (by rw [List.getElem?_set_self hxl, hb])), h3]
    · intro i v hix hv
      refine absVar_congr fun b hb => ?_
      subst hb
      rw [h6 b (owners_pos (i := i) (by rw [List.getElem?_set_ne (Ne.symm hix)]; exact hv)), h3]
  | moveAssign x y =>
    obtain ⟨p, hp⟩ := (absCV_alive hi).1 ho.2
    obtain ⟨oldx, holdx⟩ := (absCV_alive hi).1 ho.1
    have hyl : y < s.vars.length := (List.getElem?_eq_some_iff.1 hp).1
    have hxl : x < s.vars.length := (List.getElem?_eq_some_iff.1 holdx).1
    obtain ⟨old, hold⟩ : ∃ old, (s.vars.set y (some none))[x]? = some (some old) := by
      by_cases e : y = x
      · subst e; exact ⟨none, List.getElem?_set_self hyl⟩
      · exact ⟨oldx, by rw [List.getElem?_set_ne e]; exact holdx⟩
    have hcount : ∀ b, owners ((s.vars.set y (some none)).set x (some p)) b + pt (some old) b = owners s.vars b := by
      intro b
      have h1 := owners_set hp (some none) b
      have h2 := owners_set hold (some p) b
      have h0 : pt (some none) b = 0 := by simp [pt]
      omega
    obtain ⟨bs', h4, h5, h6⟩ := release_ok (c' := owners ((s.vars.set y (some none)).set x (some p))) hcnt old hcount
    have hg : CVState.get ⟨s.blocks, s.vars.set y (some none)⟩ x = .ok old := get_ok hold
    refine ⟨⟨bs', (s.vars.set y (some none)).set x (some p)⟩, by simp [CVState.step, get_ok hp, hg, h4], h5, ?_⟩
    show ((s.vars.set y (some none)).set x (some p)).map (absVar bs') = ((absCV s).set y .movedFrom).set x ((absCV s).val y)
    rw [absCV_val hp, map_set_congr (f := absVar s.blocks)]
    · have hset : (s.vars.set y (some none)).map (absVar s.blocks) = (absCV s).set y .movedFrom := by
        rw [map_set_congr (f := absVar s.blocks) (fun _ _ _ _ => rfl)]; rfl
      rw [hset]
      congr 1
      refine absVar_congr fun b hb => ?_
      exact h6 b (owners_pos (i := x) (by rw [List.getElem?_set_self (by simpa using hxl), hb]))
    · intro i v hix hv
      refine absVar_congr fun b hb => ?_
      subst hb
      exact h6 b (owners_pos (i := i) (by rw [List.getElem?_set_ne (Ne.symm hix)]; exact hv))
  | destroy x =>
    obtain ⟨p, hp⟩ := (absCV_alive hi).1 ho
    obtain ⟨bs', h4, h5, h6⟩ := release_ok (c' := owners (s.vars.set x none)) hcnt p (fun b => by
      have := owners_set hp none b
      have h0 : pt none b = 0 := by simp [pt]
      omega)
    refine ⟨⟨bs', s.vars.set x none⟩, by simp [CVState.step, get_ok hp, h4], h5, ?_⟩
    show (s.vars.set x none).map (absVar bs') = (absCV s).set x .gone
    rw [map_set_congr (f := absVar s.blocks)]
    · rfl
    · intro i v hix hv
      refine absVar_congr fun b hb => ?_
      subst hb
      exact h6 b (owners_pos (i := i) (by rw [List.getElem?_set_ne (Ne.symm hix)]; exact hv))

theorem inv_init : CVInv (CVState.init : CVState α) := ⟨by simp [CVState.init], by simp [CVState.init, owners]⟩

theorem run_ok {s : CVState α} (hi : CVInv s) : ∀ {ops : List (CVOp α)}, (absCV s).okAll ops →
    ∃ s', s.run ops = .ok s' ∧ CVInv s' ∧ absCV s' = ops.foldl CSpec.step (absCV s) := by
  intro ops
  induction ops generalizing s with
  | nil => intro _; exact ⟨s, rfl, hi, rfl⟩
  | cons op ops ih =>
    rintro ⟨h1, h2⟩
    obtain ⟨s1, a1, a2, a3⟩ := step_ok hi h1
    rw [← a3] at h2
    obtain ⟨s', b1, b2, b3⟩ := ih a2 h2
    refine ⟨s', ?_, b2, by rw [b3, a3]; rfl⟩
    simp only [CVState.run, List.foldlM_cons, a1, res_ok_bind]
    exact b1

/-- After any history of constructions, copies, moves, assignments and destructions of variables within their lifetimes, every
variable shows the value it should have by the specification (in which an operation touches only the variables it names, and no
element is ever changed): reading through a live, not moved-from variable yields that list; reading a moved-from one is undefined. -/
theorem C38_value_semantics (ops : List (CVOp α)) (h : CSpec.okAll [] ops) :
    ∃ s, CVState.init.run ops = .ok s ∧
      (∀ x l, (ops.foldl CSpec.step ([] : CSpec α)).val x = .val l → s.values x = .ok l) ∧
      (∀ x, (ops.foldl CSpec.step ([] : CSpec α)).val x = .movedFrom → s.values x = .error .ub) := by
  obtain ⟨s, h1, h2, h3⟩ := run_ok (inv_init (α := α)) (ops := ops) h
  have h3 : absCV s = ops.foldl CSpec.step [] := h3
  refine ⟨s, h1, ?_, ?_⟩ <;> rw [← h3]
  · intro x l hx
    cases hv : s.vars[x]? with
    | none => rw [CSpec.val, absCV, List.getD_eq_getElem?_getD, List.getElem?_map, hv] at hx; cases hx
    | some w =>
      cases w with
      | none => rw [CSpec.val, absCV, List.getD_eq_getElem?_getD, List.getElem?_map, hv] at hx; cases hx
      | some p =>
        rw [absCV_val hv] at hx
        cases p with
        | none => cases hx
        | some b =>
          obtain ⟨l', n, hb⟩ := h2.2 b (owners_pos hv)
          simp only [absVar, valsOf, hb] at hx
          injection hx with hx
          simp [CVState.values, get_ok hv, hb, hx]
  · intro x hx
    cases hv : s.vars[x]? with
    | none => rw [CSpec.val, absCV, List.getD_eq_getElem?_getD, List.getElem?_map, hv] at hx; cases hx
    | some w =>
      cases w with
      | none => rw [CSpec.val, absCV, List.getD_eq_getElem?_getD, List.getElem?_map, hv] at hx; cases hx
      | some p =>
        rw [absCV_val hv] at hx
        cases p with
        | some b =>
          obtain ⟨l', n, hb⟩ := h2.2 b (owners_pos hv)
          simp only [absVar, valsOf, hb] at hx
          cases hx
        | none => simp [CVState.values, get_ok hv]

/-- The specification touches only the variables an operation names. -/
def touches : CVOp α → Nat → Prop
  | .make _, _ => False
  | .copyInit _, _ => False
  | .moveInit y, x => x = y
  | .copyAssign y _, x => x = y
  | .moveAssign y z, x => x = y ∨ x = z
  | .destroy y, x => x = y

theorem spec_step_untouched (t : CSpec α) (op : CVOp α) (x : Nat) (hx : x < t.length) (ht : ¬ touches op x) :
    x < (t.step op).length ∧ (t.step op).val x = t.val x := by
  unfold CSpec.val
  simp only [List.getD_eq_getElem?_getD]
  cases op <;> simp only [touches, not_or] at ht <;> refine ⟨by simp [CSpec.step]; omega, ?_⟩ <;> simp only [CSpec.step]
  · rw [List.getElem?_append_left hx]
  · rw [List.getElem?_append_left hx]
  · rw [List.getElem?_append_left (by simpa using hx), List.getElem?_set_ne (fun h => ht h.symm)]
  · rw [List.getElem?_set_ne (fun h => ht h.symm)]
  · rw [List.getElem?_set_ne (fun h => ht.1 h.symm), List.getElem?_set_ne (fun h => ht.2 h.symm)]
  · rw [List.getElem?_set_ne (fun h => ht h.symm)]

/-- Immutability: whatever is done to other variables, including copies of `x` and the one `x` was copied from, the elements seen
through `x` stay the same. -/
theorem C38_immutable (pre post : List (CVOp α)) (h : CSpec.okAll [] (pre ++ post)) (x : Nat) (l : List α)
    (hx : ∃ s, CVState.init.run pre = .ok s ∧ s.values x = .ok l) (ht : ∀ op ∈ post, ¬ touches op x) :
    ∃ s, CVState.init.run (pre ++ post) = .ok s ∧ s.values x = .ok l := by
  have hsplit : ∀ (a b : List (CVOp α)) (t : CSpec α), t.okAll (a ++ b) → t.okAll a ∧ (a.foldl CSpec.step t).okAll b := by
    intro a
    induction a with
    | nil => intro b t ht; exact ⟨trivial, ht⟩
    | cons op a ih => rintro b t ⟨h1, h2⟩; obtain ⟨i1, i2⟩ := ih b _ h2; exact ⟨⟨h1, i1⟩, i2⟩
  obtain ⟨hp, -⟩ := hsplit _ _ _ h
  obtain ⟨s0, g1, g2⟩ := hx
  obtain ⟨s1, a1, a2, a3⟩ := run_ok (inv_init (α := α)) (ops := pre) hp
  have a3 : absCV s1 = pre.foldl CSpec.step [] := a3
  rw [g1] at a1
  injection a1 with a1
  subst a1
  have hval : (pre.foldl CSpec.step ([] : CSpec α)).val x = .val l ∧ x < (pre.foldl CSpec.step ([] : CSpec α)).length := by
    rw [← a3]
    unfold CVState.values CVState.get at g2
    cases hv : s0.vars[x]? with
    | none => simp [hv] at g2
    | some w =>
      cases w with
      | none => simp [hv] at g2
      | some p =>
        refine ⟨?_, ?_⟩
        · rw [absCV_val hv]
          cases p with
          | none => simp [hv] at g2
          | some b =>
            obtain ⟨l', n, hb⟩ := a2.2 b (owners_pos hv)
            simp [hv, hb] at g2
            simp [absVar, valsOf, hb, g2]
        · unfold absCV; rw [List.length_map]; exact (List.getElem?_eq_some_iff.1 hv).1
  obtain ⟨s, b1, b2, -⟩ := C38_value_semantics (pre ++ post) h
  refine ⟨s, b1, b2 x l ?_⟩
  rw [List.foldl_append]
  clear b1 b2 h hp a3 g1 g2
  generalize pre.foldl CSpec.step ([] : CSpec α) = t at hval
  induction post generalizing t with
  | nil => exact hval.1
  | cons op post ih =>
    have := spec_step_untouched t op x hval.2 (ht op (by simp))
    refine ih (fun o ho => ht o (by simp [ho])) _ ⟨by rw [this.2]; exact hval.1, this.1⟩

/-- Storage: at any time a vector is allocated exactly if some live variable refers to it, and its use count is their number; so it is
freed when the last one goes. In particular nothing is left once all variables are gone. -/
theorem C38_storage (ops : List (CVOp α)) (h : CSpec.okAll [] ops) :
    ∃ s, CVState.init.run ops = .ok s ∧
      (∀ b : Nat, (∃ l n, s.blocks[b]? = some (some (l, n))) ↔ ∃ x : Nat, s.vars[x]? = some (some (some b))) ∧
      ((∀ x, (ops.foldl CSpec.step ([] : CSpec α)).val x = .gone) → ∀ (b : Nat) l n, s.blocks[b]? ≠ some (some (l, n))) := by
  obtain ⟨s, h1, h2, h3⟩ := run_ok (inv_init (α := α)) (ops := ops) h
  have h3 : absCV s = ops.foldl CSpec.step [] := h3
  have key : ∀ b : Nat, (∃ l n, s.blocks[b]? = some (some (l, n))) ↔ ∃ x : Nat, s.vars[x]? = some (some (some b)) := by
    intro b
    constructor
    · rintro ⟨l, n, hb⟩
      have := h2.1 b l n hb
      exact List.mem_iff_getElem?.1 (List.count_pos_iff.1 (by have h5 : n = s.vars.count (some (some b)) := this.1; omega : 0 < s.vars.count (some (some b))))
    · rintro ⟨x, hx⟩
      exact h2.2 b (owners_pos hx)
  refine ⟨s, h1, key, ?_⟩
  intro hg b l n hb
  obtain ⟨x, hx⟩ := (key b).1 ⟨l, n, hb⟩
  have := hg x
  rw [← h3, absCV_val hx] at this
  simp [absVar, valsOf, hb] at this

/-- Copies share the storage: a copy refers to the same vector. -/
theorem C38_shared (s s' : CVState α) (x : Nat) (h : s.step (.copyInit x) = .ok s') :
    s'.vars[s.vars.length]? = s.vars[x]? ∧ s'.vars[x]? = s.vars[x]? := by
  simp only [CVState.step] at h
  cases hg : s.get x with
  | error e => simp [hg] at h
  | ok p =>
    simp only [hg, res_ok_bind] at h
    cases ha : acquire s.blocks p with
    | error e => simp [ha] at h
    | ok bs =>
      simp only [ha, res_ok_bind, Except.ok.injEq] at h
      subst h
      have hx : s.vars[x]? = some (some p) := by
        unfold CVState.get at hg
        split at hg
        · injection hg with hg; subst hg; assumption
        · cases hg
      refine ⟨?_, ?_⟩
      · rw [List.getElem?_append_right (by omega), hx]; simp
      · rw [List.getElem?_append_left (List.getElem?_eq_some_iff.1 hx).1]

/-- `at` is checked in every build, `operator[]` is not. -/
theorem C38_access (s : CVState α) (x i : Nat) (l : List α) (h : s.values x = .ok l) :
    (∀ v, l[i]? = some v → s.at x i = .ok v ∧ s.index x i = .ok v) ∧
    (l.length ≤ i → s.at x i = .error (.exc .outOfRange) ∧ s.index x i = .error .ub) := by
  refine ⟨fun v hv => ?_, fun hi => ?_⟩
  · simp [CVState.at, CVState.index, h, hv]
  · have : l[i]? = none := List.getElem?_eq_none hi
    simp [CVState.at, CVState.index, h, this]

/-- Non-vacuous: a vector is copied, the original is overwritten, moved from and destroyed; the copy still shows the elements. -/
example : (do
      let s ← (CVState.init : CVState Nat).run [.make [4, 5], .copyInit 0, .make [9], .copyAssign 0 2, .moveInit 0, .destroy 0]
      s.values 1) = .ok [4, 5] := by decide +kernel
example : CSpec.okAll ([] : CSpec Nat) [.make [4, 5], .copyInit 0, .make [9], .copyAssign 0 2, .moveInit 0, .destroy 0] := by
  simp [CSpec.okAll, CSpec.ok, CSpec.step, CSpec.alive, CSpec.val]

/-- Two shared vectors, an assignment and moves. -/
def cvEx : List (CVOp Nat) := [.make [4, 5], .copyInit 0, .make [9], .copyAssign 0 2, .moveInit 0, .destroy 0]
theorem cvEx_ok : CSpec.okAll ([] : CSpec Nat) cvEx := by simp [cvEx, CSpec.okAll, CSpec.ok, CSpec.step, CSpec.alive, CSpec.val]
example := C38_value_semantics cvEx cvEx_ok
example := C38_immutable [.make [4, 5], .copyInit 0] [.make [9], .copyAssign 0 2, .moveInit 0, .destroy 0] cvEx_ok 1 [4, 5] ⟨_, rfl, rfl⟩ (by simp [touches])
example := C38_storage cvEx cvEx_ok
example := C38_shared (α := Nat) ⟨[some ([4, 5], 1)], [some (some 0)]⟩ _ 0 rfl

end Jules.Props

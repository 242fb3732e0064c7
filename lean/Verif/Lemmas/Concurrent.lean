import Verif.Spec.Concurrent
import Verif.Props.Program
/-
Lemmas for C72: a logic for single threads (which elements may be read and written), and its soundness for any interleaving.
-/
namespace Jules
open Spec Props

section
variable {α β γ : Type}

/-- What a thread may do: `S` are the shared cells, `R` and `W` the cells it may read and write (all cells that are not shared included). -/
structure Perm where
  S : Nat → Prop
  R : Nat → Prop
  W : Nat → Prop

/-- The thread, alone, with memory `m` and the allocated cells `raw`, keeps to its permissions, does nothing wrong and ends with `Q`. -/
def Act.Ok (P : Perm) (Q : β → Mem α → (Nat → Prop) → Prop) : Act α β → Mem α → (Nat → Prop) → Prop
  | .done b, m, raw => Q b m raw
  | .stop _, _, _ => False
  | .read q k, m, raw => P.R q ∧ ∃ v, m q = some v ∧ (k v).Ok P Q m raw
  | .write q v k, m, raw => P.W q ∧ m q ≠ none ∧ k.Ok P Q (m.set q v) raw
  | .acquire n k, m, raw => ∀ b, (∀ i, i < n → m (b + i) = none ∧ ¬ P.S (b + i) ∧ ¬ raw (b + i)) →
      (k b).Ok P Q m (fun q => raw q ∨ (b ≤ q ∧ q < b + n))
  | .construct q v k, m, raw => raw q ∧ k.Ok P Q (m.set q v) (fun p => raw p ∧ p ≠ q)
  | .release b n k, m, raw => (∀ i, i < n → m (b + i) ≠ none ∧ ¬ P.S (b + i)) ∧ k.Ok P Q (m.free b n) raw

variable {P : Perm}

theorem ok_mono {Q Q' : β → Mem α → (Nat → Prop) → Prop} (h : ∀ b m raw, Q b m raw → Q' b m raw) :
    ∀ {a : Act α β} {m : Mem α} {raw : Nat → Prop}, a.Ok P Q m raw → a.Ok P Q' m raw
  | .done _, _, _, hq => h _ _ _ hq
  | .stop _, _, _, hq => hq
  | .read _ _, _, _, ⟨h1, v, h2, h3⟩ => ⟨h1, v, h2, ok_mono h h3⟩
  | .write _ _ _, _, _, ⟨h1, h2, h3⟩ => ⟨h1, h2, ok_mono h h3⟩
  | .acquire _ _, _, _, hk => fun b hb => ok_mono h (hk b hb)
  | .construct _ _ _, _, _, ⟨h1, h2⟩ => ⟨h1, ok_mono h h2⟩
  | .release _ _ _, _, _, ⟨h1, h2⟩ => ⟨h1, ok_mono h h2⟩

theorem ok_bind {Q : γ → Mem α → (Nat → Prop) → Prop} {f : β → Act α γ} :
    ∀ {a : Act α β} {m : Mem α} {raw : Nat → Prop}, a.Ok P (fun b m raw => (f b).Ok P Q m raw) m raw → (a.bind f).Ok P Q m raw
  | .done _, _, _, hq => hq
  | .stop _, _, _, hq => hq
  | .read _ _, _, _, ⟨h1, v, h2, h3⟩ => ⟨h1, v, h2, ok_bind h3⟩
  | .write _ _ _, _, _, ⟨h1, h2, h3⟩ => ⟨h1, h2, ok_bind h3⟩
  | .acquire _ _, _, _, hk => fun b hb => ok_bind (hk b hb)
  | .construct _ _ _, _, _, ⟨h1, h2⟩ => ⟨h1, ok_bind h2⟩
  | .release _ _ _, _, _, ⟨h1, h2⟩ => ⟨h1, ok_bind h2⟩

theorem ok_lift {r : Res β} {b : β} (h : r = .ok b) {Q : γ → Mem α → (Nat → Prop) → Prop} {f : β → Act α γ} {m : Mem α} {raw : Nat → Prop}
    (hq : (f b).Ok P Q m raw) : ((Act.lift r : Act α β).bind f).Ok P Q m raw := by
  subst h; exact hq

/-! ### Reading -/

/-- The cells an iterator visits. -/
def It.cellList : It α → List Nat
  | .cells ps => ps
  | .map _ it => it.cellList
  | .zip _ l r => l.cellList ++ r.cellList

theorem it_act {m : Mem α} {k : Nat} {raw : Nat → Prop} : ∀ {it : It α} {v : α}, it.deref m k = .ok v → (∀ p ∈ it.cellList, P.R p) →
    ∀ {Q : α → Mem α → (Nat → Prop) → Prop}, Q v m raw → (it.act k).Ok P Q m raw
  | .cells ps, v, h, hR, Q, hq => by
    unfold It.deref at h
    unfold It.act
    cases hp : ps[k]? with
    | none => rw [hp] at h; cases h
    | some p =>
      rw [hp] at h
      simp only at h ⊢
      unfold Mem.read at h
      cases hm : m p with
      | none => rw [hm] at h; cases h
      | some x =>
        rw [hm] at h; cases h
        exact ⟨hR p (List.mem_of_getElem? hp), _, hm, hq⟩
  | .map f it, v, h, hR, Q, hq => by
    unfold It.deref at h
    cases hd : it.deref m k with
    | error e => rw [hd] at h; cases h
    | ok x =>
      rw [hd] at h; cases h
      exact ok_bind (it_act hd hR hq)
  | .zip f l r, v, h, hR, Q, hq => by
    unfold It.deref at h
    obtain ⟨x, hx, h⟩ := res_bind_ok.1 h
    obtain ⟨y, hy, h⟩ := res_bind_ok.1 h
    cases h
    refine ok_bind (it_act hx (fun p hp => hR p (by simp [It.cellList, hp])) ?_)
    exact ok_bind (it_act hy (fun p hp => hR p (by simp [It.cellList, hp])) hq)

/-- The cell of a scalar. -/
def Scalar.In (R : Nat → Prop) : Scalar α → Prop
  | .val _ => True
  | .cell p => R p

theorem sc_act {m : Mem α} {raw : Nat → Prop} {c : Scalar α} {v : α} (h : c.get m = .ok v) (hR : c.In P.R)
    {Q : α → Mem α → (Nat → Prop) → Prop} (hq : Q v m raw) : c.act.Ok P Q m raw := by
  cases c with
  | val x => cases h; exact hq
  | cell p =>
    unfold Scalar.get Mem.read at h
    cases hm : m p with
    | none => simp only [hm] at h; cases h
    | some x => simp only [hm] at h; cases h; exact ⟨hR, _, hm, hq⟩

/-! ### Loops -/

theorem upd_act {C : Nat → Prop} {g : Nat → Nat → Mem α → Res α} {ga : Nat → Nat → Act α α}
    (hg : ∀ k p m v raw, C p → g k p m = .ok v → ∀ {Q : α → Mem α → (Nat → Prop) → Prop}, Q v m raw → (ga k p).Ok P Q m raw) :
    ∀ {ps : List Nat} {k : Nat} {m m' : Mem α} {raw : Nat → Prop}, updLoop g k ps m = .ok m' → (∀ p ∈ ps, P.W p) → (∀ p ∈ ps, C p) →
    ∀ {Q : Unit → Mem α → (Nat → Prop) → Prop}, Q () m' raw → (updAct ga k ps).Ok P Q m raw
  | [], k, m, m', raw, h, _, _, Q, hq => by cases h; exact hq
  | p :: ps, k, m, m', raw, h, hW, hC, Q, hq => by
    unfold updLoop at h
    obtain ⟨x, hx, h⟩ := res_bind_ok.1 h
    obtain ⟨m1, hm1, h⟩ := res_bind_ok.1 h
    unfold Mem.write at hm1
    cases hm : m p with
    | none => rw [hm] at hm1; cases hm1
    | some y =>
      rw [hm] at hm1; cases hm1
      refine ok_bind (hg k p m x raw (hC p (by simp)) hx ?_)
      exact ⟨hW p (by simp), by simp [hm], upd_act hg h (fun q hq => hW q (by simp [hq])) (fun q hq => hC q (by simp [hq])) hq⟩

/-- More memory. -/
def MemLe (m m' : Mem α) : Prop := ∀ q v, m q = some v → m' q = some v

theorem setMany_nil (m : Mem α) (b : Nat) : m.setMany b [] = m := by
  funext q; unfold Mem.setMany; rw [if_neg (by simp)]

theorem setMany_snoc (m : Mem α) (b : Nat) (xs : List α) (x : α) : (m.setMany b xs).set (b + xs.length) x = m.setMany b (xs ++ [x]) := by
  funext q
  unfold Mem.set Mem.setMany
  simp only [List.length_append, List.length_singleton]
  by_cases h1 : q = b + xs.length
  · subst h1
    rw [if_pos rfl, if_pos (by omega)]
    simp
  · rw [if_neg h1]
    by_cases h2 : b ≤ q ∧ q < b + xs.length
    · rw [if_pos h2, if_pos (by omega), List.getElem?_append_left (by omega)]
    · rw [if_neg h2, if_neg (by omega)]

theorem construct_act {g : Nat → Act α α} {b : Nat} {m : Mem α} {N : Nat} {xs : List α} (hN : xs.length = N)
    (hfree : ∀ i, i < N → m (b + i) = none)
    (hg : ∀ k x m' raw, xs[k]? = some x → MemLe m m' → ∀ {Q : α → Mem α → (Nat → Prop) → Prop}, Q x m' raw → (g k).Ok P Q m' raw)
    {raw : Nat → Prop} {Q : Unit → Mem α → (Nat → Prop) → Prop} (hraw : ∀ q, raw q → ¬ (b ≤ q ∧ q < b + N))
    (hq : Q () (m.setMany b xs) raw) :
    (constructAct g b N 0).Ok P Q m (fun q => raw q ∨ (b ≤ q ∧ q < b + N)) := by
  suffices H : ∀ (n k : Nat), n + k = N →
      (constructAct g b n k).Ok P Q (m.setMany b (xs.take k)) (fun q => raw q ∨ (b + k ≤ q ∧ q < b + N)) by
    have := H N 0 (by omega)
    simpa [setMany_nil] using this
  intro n
  induction n with
  | zero =>
    intro k hk
    have : k = N := by omega
    subst this
    rw [show xs.take k = xs from List.take_of_length_le (by omega)]
    have hr : (fun q => raw q ∨ (b + k ≤ q ∧ q < b + k)) = raw := by
      funext q; apply propext; constructor
      · rintro (h | h)
        · exact h
        · omega
      · exact .inl
    rw [hr]
    exact hq
  | succ n ih =>
    intro k hk
    have hx : xs[k]? = some xs[k] := List.getElem?_eq_getElem (by omega)
    have hle : MemLe m (m.setMany b (xs.take k)) := by
      intro q v hv
      unfold Mem.setMany
      rw [if_neg]
      · exact hv
      · rintro ⟨h1, h2⟩
        rw [List.length_take] at h2
        have := hfree (q - b) (by omega)
        rw [show b + (q - b) = q by omega] at this
        rw [this] at hv; cases hv
    refine ok_bind (hg k _ _ _ hx hle ?_)
    refine ⟨.inr (by omega), ?_⟩
    have hs : (m.setMany b (xs.take k)).set (b + k) xs[k] = m.setMany b (xs.take (k + 1)) := by
      have := setMany_snoc m b (xs.take k) xs[k]
      rw [List.length_take, Nat.min_eq_left (by omega)] at this
      rw [this, List.take_succ, hx]; rfl
    have hr : (fun q => (raw q ∨ (b + k ≤ q ∧ q < b + N)) ∧ q ≠ b + k) = fun q => raw q ∨ (b + (k + 1) ≤ q ∧ q < b + N) := by
      funext q; apply propext; constructor
      · rintro ⟨h | h, hne⟩
        · exact .inl h
        · exact .inr (by omega)
      · rintro (h | h)
        · exact ⟨.inl h, fun e => hraw q h (by omega)⟩
        · exact ⟨.inr (by omega), by omega⟩
    rw [hs, hr]
    exact ih (k + 1) (by omega)

theorem deref_le {m m' : Mem α} (h : MemLe m m') {k : Nat} : ∀ {it : It α} {v : α}, it.deref m k = .ok v → it.deref m' k = .ok v
  | .cells ps, v, hv => by
    unfold It.deref at hv ⊢
    cases hp : ps[k]? with
    | none => rw [hp] at hv; cases hv
    | some p =>
      rw [hp] at hv
      simp only at hv ⊢
      unfold Mem.read at hv ⊢
      cases hm : m p with
      | none => rw [hm] at hv; cases hv
      | some x => rw [hm] at hv; cases hv; rw [h p _ hm]
  | .map f it, v, hv => by
    unfold It.deref at hv ⊢
    cases hd : it.deref m k with
    | error e => rw [hd] at hv; cases hv
    | ok x => rw [hd] at hv; rw [deref_le h hd]; exact hv
  | .zip f l r, v, hv => by
    unfold It.deref at hv ⊢
    obtain ⟨x, hx, hv⟩ := res_bind_ok.1 hv
    obtain ⟨y, hy, hv⟩ := res_bind_ok.1 hv
    rw [deref_le h hx, deref_le h hy]; exact hv

/-! ### Statements -/

theorem mapM_length {f : β → Res α} {l : List β} {xs : List α} (h : l.mapM f = .ok xs) : xs.length = l.length := by
  induction l generalizing xs with
  | nil => cases h; rfl
  | cons a l ih =>
    rw [List.mapM_cons] at h
    obtain ⟨y, _, h⟩ := res_bind_ok.1 h
    obtain ⟨ys, hys, h⟩ := res_bind_ok.1 h
    cases h
    simp [ih hys]

theorem mapM_get {f : β → Res α} {l : List β} {xs : List α} (h : l.mapM f = .ok xs) {k : Nat} {a : β} (hk : l[k]? = some a) :
    ∃ y, f a = .ok y ∧ xs[k]? = some y := by
  induction l generalizing xs k with
  | nil => cases hk
  | cons b l ih =>
    rw [List.mapM_cons] at h
    obtain ⟨y, hy, h⟩ := res_bind_ok.1 h
    obtain ⟨ys, hys, h⟩ := res_bind_ok.1 h
    cases h
    cases k with
    | zero => cases hk; exact ⟨y, hy, rfl⟩
    | succ k => exact ih hys (by simpa using hk)

theorem new_act {src : EObj α} {m : Mem α} {raw : Nat → Prop} (hR : ∀ p ∈ src.it.cellList, P.R p) {Q : Arr → Mem α → (Nat → Prop) → Prop}
    (h : ∀ b, (∀ i, i < prodL Arith.exact src.dims → m (b + i) = none ∧ ¬ P.S (b + i) ∧ ¬ raw (b + i)) →
      ∃ r, newArray Arith.exact src m b = .ok r ∧ Q r.2 r.1 raw) :
    (newAct Arith.exact src.dims src.it.act).Ok P Q m raw := by
  intro b hb
  obtain ⟨r, hr, hq⟩ := h b hb
  unfold newArray at hr
  obtain ⟨xs, hxs, hr⟩ := res_bind_ok.1 hr
  cases hr
  have hlen : xs.length = prodL Arith.exact src.dims := by
    have := mapM_length hxs
    simpa using this
  refine ok_bind (construct_act hlen (fun i hi => (hb i hi).1) ?_ ?_ ?_)
  · intro k x m' raw' hk hle Q' hq'
    have hd : src.it.deref m k = .ok x := by
      have hlt : k < prodL Arith.exact src.dims := by rw [← hlen]; exact (List.getElem?_eq_some_iff.1 hk).1
      obtain ⟨y, hy1, hy2⟩ := mapM_get hxs (k := k) (a := k) (by simp [hlt])
      rw [hk] at hy2; cases hy2
      exact hy1
    exact it_act (deref_le hle hd) hR hq'
  · rintro q hq ⟨h1, h2⟩
    have := (hb (q - b) (by omega)).2.2
    rw [show b + (q - b) = q by omega] at this
    exact this hq
  · exact hq

/-- New arrays whose elements do not come from an expression. -/
theorem newFrom_act {ext : List Nat} {l : List α} {m : Mem α} {raw : Nat → Prop} {g : Nat → Act α α}
    (hg : ∀ k x m' raw, k < prodL Arith.exact ext → l[k]? = some x → MemLe m m' → ∀ {Q : α → Mem α → (Nat → Prop) → Prop}, Q x m' raw → (g k).Ok P Q m' raw)
    {Q : Arr → Mem α → (Nat → Prop) → Prop}
    (h : ∀ b, (∀ i, i < prodL Arith.exact ext → m (b + i) = none ∧ ¬ P.S (b + i) ∧ ¬ raw (b + i)) →
      ∃ r, newFrom Arith.exact ext l m b = .ok r ∧ Q r.2 r.1 raw) :
    (newAct Arith.exact ext g).Ok P Q m raw := by
  intro b hb
  obtain ⟨r, hr, hq⟩ := h b hb
  unfold newFrom at hr
  split at hr
  · cases hr
  next hlt =>
  cases hr
  have hlen : (l.take (prodL Arith.exact ext)).length = prodL Arith.exact ext := by rw [List.length_take]; omega
  refine ok_bind (construct_act hlen (fun i hi => (hb i hi).1) ?_ ?_ ?_)
  · intro k x m' raw' hk hle Q' hq'
    have hlt : k < prodL Arith.exact ext := by rw [← hlen]; exact (List.getElem?_eq_some_iff.1 hk).1
    rw [List.getElem?_take_of_lt hlt] at hk
    exact hg k x m' raw' hlt hk hle hq'
  · rintro q hq ⟨h1, h2⟩
    have := (hb (q - b) (by omega)).2.2
    rw [show b + (q - b) = q by omega] at this
    exact this hq
  · exact hq

/-- The scalar is in `R`. -/
def ScR (R : Nat → Prop) (chk : Bool) (w : World α) (s : Sc α) : Prop := ∀ c, s.eval Arith.exact chk w = .ok c → c.In R

/-- All elements of the view `x[h]…` are in `R`. -/
def ViewR (R : Nat → Prop) (chk : Bool) (w : World α) (x : Nat) (h : List Ix) : Prop :=
  ∀ o ps, w.index Arith.exact chk x h = .ok o → o.positions Arith.exact = .ok ps → ∀ p ∈ ps, R p

/-- All operands of the expression are in `R`. -/
def ExR (R : Nat → Prop) (chk : Bool) (w : World α) : PEx α → Prop
  | .arr x h => ViewR R chk w x h
  | .un _ e => ExR R chk w e
  | .bin _ a b => ExR R chk w a ∧ ExR R chk w b
  | .scl _ s e => ScR R chk w s ∧ ExR R chk w e
  | .scr _ e s => ExR R chk w e ∧ ScR R chk w s

theorem ex_foot {R : Nat → Prop} {chk : Bool} {w : World α} : ∀ {e : PEx α} {e' : Ex Obj α} {src : EObj α},
    e.eval Arith.exact chk w = .ok e' → e'.build Arith.exact chk = .ok src → ExR R chk w e → ∀ p ∈ src.it.cellList, R p
  | .arr x h, e', src, he, hb, hR => by
    unfold PEx.eval at he
    obtain ⟨o, ho, he⟩ := res_bind_ok.1 he
    cases he
    unfold Ex.build at hb
    cases hd : o.dims with
    | none => rw [hd] at hb; cases hb
    | some d =>
      rw [hd] at hb
      obtain ⟨ps, hps, hb⟩ := res_bind_ok.1 hb
      cases hb
      exact hR o ps ho hps
  | .un f e, e', src, he, hb, hR => by
    unfold PEx.eval at he
    obtain ⟨e1, h1, he⟩ := res_bind_ok.1 he
    cases he
    unfold Ex.build at hb
    obtain ⟨x, hx, hb⟩ := res_bind_ok.1 hb
    cases hb
    have := ex_foot h1 hx hR
    exact this
  | .bin f a b, e', src, he, hb, hR => by
    unfold PEx.eval at he
    obtain ⟨e1, h1, he⟩ := res_bind_ok.1 he
    obtain ⟨e2, h2, he⟩ := res_bind_ok.1 he
    cases he
    unfold Ex.build at hb
    obtain ⟨x, hx, hb⟩ := res_bind_ok.1 hb
    obtain ⟨y, hy, hb⟩ := res_bind_ok.1 hb
    split at hb
    · cases hb
    obtain ⟨_, _, hb⟩ := res_bind_ok.1 hb
    cases hb
    intro p hp
    rcases List.mem_append.1 hp with hp | hp
    · exact ex_foot h1 hx hR.1 p hp
    · exact ex_foot h2 hy hR.2 p hp
  | .scl f s e, e', src, he, hb, hR => by
    unfold PEx.eval at he
    obtain ⟨c, _, he⟩ := res_bind_ok.1 he
    obtain ⟨v, _, he⟩ := res_bind_ok.1 he
    obtain ⟨e1, h1, he⟩ := res_bind_ok.1 he
    cases he
    unfold Ex.scalarLeft Ex.build at hb
    obtain ⟨x, hx, hb⟩ := res_bind_ok.1 hb
    cases hb
    have := ex_foot h1 hx hR.2
    exact this
  | .scr f e s, e', src, he, hb, hR => by
    unfold PEx.eval at he
    obtain ⟨e1, h1, he⟩ := res_bind_ok.1 he
    obtain ⟨c, _, he⟩ := res_bind_ok.1 he
    obtain ⟨v, _, he⟩ := res_bind_ok.1 he
    cases he
    unfold Ex.scalarRight Ex.build at hb
    obtain ⟨x, hx, hb⟩ := res_bind_ok.1 hb
    cases hb
    have := ex_foot h1 hx hR.1
    exact this

theorem env_index (A : Arith) (chk : Bool) (w : World α) (x : Nat) (h : List Ix) :
    (Env.world w.env : World α).index A chk x h = w.index A chk x h := rfl

theorem env_sc (A : Arith) (chk : Bool) (w : World α) (s : Sc α) : s.eval A chk (Env.world w.env) = s.eval A chk w := by
  cases s <;> rfl

theorem ex_act {chk : Bool} {w : World α} {raw : Nat → Prop} : ∀ {e : PEx α} {e' : Ex Obj α}, e.eval Arith.exact chk w = .ok e' →
    ExR P.R chk w e → ∀ {Q : Ex Obj α → Mem α → (Nat → Prop) → Prop}, Q e' w.mem raw → (e.act Arith.exact chk w.env).Ok P Q w.mem raw
  | .arr x h, e', he, hR, Q, hq => by
    unfold PEx.eval at he
    obtain ⟨o, ho, he⟩ := res_bind_ok.1 he
    cases he
    exact ok_lift (env_index .. ▸ ho) hq
  | .un f e, e', he, hR, Q, hq => by
    unfold PEx.eval at he
    obtain ⟨e1, h1, he⟩ := res_bind_ok.1 he
    cases he
    exact ok_bind (ex_act h1 hR hq)
  | .bin f a b, e', he, hR, Q, hq => by
    unfold PEx.eval at he
    obtain ⟨e1, h1, he⟩ := res_bind_ok.1 he
    obtain ⟨e2, h2, he⟩ := res_bind_ok.1 he
    cases he
    exact ok_bind (ex_act h1 hR.1 (ok_bind (ex_act h2 hR.2 hq)))
  | .scl f s e, e', he, hR, Q, hq => by
    unfold PEx.eval at he
    obtain ⟨c, hc, he⟩ := res_bind_ok.1 he
    obtain ⟨v, hv, he⟩ := res_bind_ok.1 he
    obtain ⟨e1, h1, he⟩ := res_bind_ok.1 he
    cases he
    refine ok_lift (env_sc .. ▸ hc) (ok_bind (sc_act hv (hR.1 c hc) ?_))
    exact ok_bind (ex_act h1 hR.2 hq)
  | .scr f e s, e', he, hR, Q, hq => by
    unfold PEx.eval at he
    obtain ⟨e1, h1, he⟩ := res_bind_ok.1 he
    obtain ⟨c, hc, he⟩ := res_bind_ok.1 he
    obtain ⟨v, hv, he⟩ := res_bind_ok.1 he
    cases he
    refine ok_bind (ex_act h1 hR.1 ?_)
    exact ok_lift (env_sc .. ▸ hc) (ok_bind (sc_act hv (hR.2 c hc) hq))

theorem assign_act {chk : Bool} {dest : Obj} {src : EObj α} {m m' : Mem α} {raw : Nat → Prop}
    (h : arrayAssign Arith.exact chk dest src m = .ok m') (hW : ∀ ps, dest.positions Arith.exact = .ok ps → ∀ p ∈ ps, P.W p)
    (hR : ∀ p ∈ src.it.cellList, P.R p) {Q : Unit → Mem α → (Nat → Prop) → Prop} (hq : Q () m' raw) :
    (arrayAssignAct Arith.exact chk dest src).Ok P Q m raw := by
  unfold arrayAssign at h
  unfold arrayAssignAct
  cases hd : dest.dims with
  | none => rw [hd] at h; cases h
  | some d =>
    rw [hd] at h
    simp only at h ⊢
    split at h
    · cases h
    next hlen =>
    rw [if_neg hlen]
    obtain ⟨_, h1, h⟩ := res_bind_ok.1 h
    obtain ⟨ps, h2, h⟩ := res_bind_ok.1 h
    obtain ⟨m1, h3, h⟩ := res_bind_ok.1 h
    obtain ⟨_, h4, h⟩ := res_bind_ok.1 h
    cases h
    refine ok_lift h1 (ok_lift h2 (ok_bind (upd_act (C := fun _ => True) ?_ h3 (hW ps h2) (fun _ _ => trivial) ?_)))
    · intro k p m v raw _ hv Q hq; exact it_act hv hR hq
    · show (Act.lift _ : Act α Unit).Ok P Q m' raw
      rw [h4]; exact hq

/-- The footprint of a statement. -/
def StmtFoot (R W : Nat → Prop) (chk : Bool) (w : World α) : Stmt α → Prop
  | .make _ e => ExR R chk w e
  | .makeFill _ s _ => ScR R chk w s
  | .fill x h s => ViewR W chk w x h ∧ ScR R chk w s
  | .assign x h e => ViewR W chk w x h ∧ ExR R chk w e
  | .inPlace x h _ e => ViewR W chk w x h ∧ ViewR R chk w x h ∧ ExR R chk w e
  | .inPlaceScalar x h _ s => ViewR W chk w x h ∧ ViewR R chk w x h ∧ ScR R chk w s
  | .apply x h _ => ViewR W chk w x h ∧ ViewR R chk w x h
  | .overlap x h e => ViewR W chk w x h ∧ ExR R chk w e
  | .overlapWhole _ e => ExR R chk w e
  | .set _ e => ExR R chk w e
  | _ => True

open Classical in
/-- An allocator that returns `b` if possible. -/
noncomputable def allocAt (b : Nat) : Nat → Mem α → Nat → Nat := fun _ m n =>
  if ∀ i, i < n → m (b + i) = none then b
  else if h : ∃ B, ∀ q, B ≤ q → m q = none then h.choose else 0

theorem allocAt_good (b : Nat) : GoodAlloc (allocAt (α := α) b) := by
  intro k m n hfin i hi
  unfold allocAt
  split
  · next h => exact h i hi
  · exact hfin.choose_spec _ (by omega)

theorem allocAt_eq {b k n : Nat} {m : Mem α} (h : ∀ i, i < n → m (b + i) = none) : allocAt b k m n = b := by
  unfold allocAt; rw [if_pos h]

theorem updLoop_alive {g : Nat → Nat → Mem α → Res α} : ∀ {ps : List Nat} {k : Nat} {m m' : Mem α}, updLoop g k ps m = .ok m' →
    ∀ q, m' q = none ↔ m q = none
  | [], k, m, m', h, q => by cases h; rfl
  | p :: ps, k, m, m', h, q => by
    unfold updLoop at h
    obtain ⟨x, hx, h⟩ := res_bind_ok.1 h
    obtain ⟨m1, hm1, h⟩ := res_bind_ok.1 h
    unfold Mem.write at hm1
    cases hm : m p with
    | none => rw [hm] at hm1; cases hm1
    | some y =>
      rw [hm] at hm1; cases hm1
      rw [updLoop_alive h q]
      unfold Mem.set
      by_cases hq : q = p
      · subst hq; simp [hm]
      · simp [hq]

theorem assign_alive {chk : Bool} {dest : Obj} {src : EObj α} {m m' : Mem α} (h : arrayAssign Arith.exact chk dest src m = .ok m') (q : Nat) :
    m' q = none ↔ m q = none := by
  unfold arrayAssign at h
  split at h
  · cases h
  · split at h
    · cases h
    obtain ⟨_, _, h⟩ := res_bind_ok.1 h
    obtain ⟨_, _, h⟩ := res_bind_ok.1 h
    obtain ⟨_, h1, h⟩ := res_bind_ok.1 h
    obtain ⟨_, _, h⟩ := res_bind_ok.1 h
    cases h
    exact updLoop_alive h1 q

theorem new_alive {src : EObj α} {m : Mem α} {b : Nat} {r : Mem α × Arr} (h : newArray Arith.exact src m b = .ok r) :
    r.2 = ⟨b, src.dims⟩ ∧ (∀ q, m q ≠ none → r.1 q ≠ none) ∧ ∀ i, i < prodL Arith.exact src.dims → r.1 (b + i) ≠ none := by
  unfold newArray at h
  obtain ⟨xs, hxs, h⟩ := res_bind_ok.1 h
  cases h
  have hlen : xs.length = prodL Arith.exact src.dims := by simpa using mapM_length hxs
  have key : ∀ i, i < prodL Arith.exact src.dims → m.setMany b xs (b + i) ≠ none := by
    intro i hi
    rw [setMany_in (by omega), List.getElem?_eq_getElem (by omega)]
    simp
  refine ⟨rfl, ?_, key⟩
  intro q hq
  by_cases hin : b ≤ q ∧ q < b + xs.length
  · have := key (q - b) (by omega)
    rwa [show b + (q - b) = q by omega] at this
  · show m.setMany b xs q ≠ none
    rw [setMany_out hin]; exact hq

theorem set_act {a : Arr} {src : EObj α} {m : Mem α} {raw : Nat → Prop} (hloc : ∀ q, ¬ P.S q → P.W q)
    (hR : ∀ p ∈ src.it.cellList, P.R p) (ha : ∀ i, i < prodL Arith.exact a.ext → m (a.base + i) ≠ none ∧ ¬ P.S (a.base + i))
    {Q : Arr → Mem α → (Nat → Prop) → Prop}
    (h : ∀ b, (∀ i, i < prodL Arith.exact src.dims → m (b + i) = none) →
      ∃ r, arrayAssignExpr Arith.exact a src m b = .ok r ∧ Q r.2 r.1 raw)
    (hex : ∃ b, ∀ i, i < prodL Arith.exact src.dims → m (b + i) = none) :
    (setAct Arith.exact a src).Ok P Q m raw := by
  unfold setAct
  by_cases hs : prodL Arith.exact a.ext = prodL Arith.exact src.dims
  · rw [if_pos hs]
    obtain ⟨b, hb⟩ := hex
    obtain ⟨r, hr, hq⟩ := h b hb
    unfold arrayAssignExpr at hr
    rw [if_pos hs] at hr
    cases hc : src.it.count with
    | none => rw [hc] at hr; cases hr
    | some n =>
      rw [hc] at hr
      simp only at hr ⊢
      split at hr
      · cases hr
      next hn =>
      rw [if_neg hn]
      obtain ⟨m', hm', hr⟩ := res_bind_ok.1 hr
      cases hr
      refine ok_bind (upd_act (C := fun _ => True) ?_ hm' ?_ (fun _ _ => trivial) hq)
      · intro k p m v raw _ hv Q hq; exact it_act hv hR hq
      · intro p hp
        simp only [List.mem_map, List.mem_range] at hp
        obtain ⟨i, hi, rfl⟩ := hp
        exact hloc _ (ha i (by omega)).2
  · rw [if_neg hs]
    refine ok_bind (new_act hR ?_)
    intro b hb
    obtain ⟨r, hr, hq⟩ := h b (fun i hi => (hb i hi).1)
    unfold arrayAssignExpr at hr
    rw [if_neg hs] at hr
    obtain ⟨r', hr', hr⟩ := res_bind_ok.1 hr
    cases hr
    refine ⟨r', hr', ?_⟩
    exact ⟨fun i hi => ⟨(new_alive hr').2.1 _ (ha i hi).1, (ha i hi).2⟩, hq⟩

theorem read_ok {m : Mem α} {p : Nat} {v : α} (h : m.read p = .ok v) : m p = some v := by
  unfold Mem.read at h
  cases hm : m p with
  | none => rw [hm] at h; cases h
  | some x => rw [hm] at h; cases h; rfl

theorem env_get (w : World α) (x : Nat) : (Env.world w.env : World α).get x = w.get x := rfl

theorem stmt_act {chk : Bool} {w : World α} {s : Stmt α} (hlocW : ∀ q, ¬ P.S q → P.W q) (hlocR : ∀ q, ¬ P.S q → P.R q)
    {Q : Env → Mem α → Prop} (hfin : ∃ B, ∀ q, B ≤ q → w.mem q = none)
    (hok : ∀ alloc, GoodAlloc alloc → ∃ w', w.step Arith.exact chk alloc s = .ok w' ∧ Q w'.env w'.mem)
    (hfoot : StmtFoot P.R P.W chk w s)
    (hown : ∀ x ∈ remakes s, ∀ c, w.env x = some c → ∀ i, i < prodL Arith.exact c.ext → w.mem (c.base + i) ≠ none ∧ ¬ P.S (c.base + i)) :
    (stmtAct Arith.exact chk w.env s).Ok P (fun env m raw => (∀ q, ¬ raw q) ∧ Q env m) w.mem (fun _ => False) := by
  have h0 := hok (allocAt 0) (allocAt_good 0)
  have hget : ∀ {x : Nat} {c : Arr}, w.get x = .ok c → w.env x = some c := by
    intro x c h
    unfold World.get at h
    cases hx : w.env x with
    | none => rw [hx] at h; cases h
    | some d => rw [hx] at h; cases h; rfl
  have hno : ∀ q : Nat, ¬ (fun _ : Nat => False) q := fun q h => h
  cases s with
  | make x e =>
    obtain ⟨w', hw, hq⟩ := h0
    simp only [World.step] at hw
    simp only [stmtAct]
    cases hx : w.env x with
    | some _ => rw [hx] at hw; cases hw
    | none =>
      rw [hx] at hw
      simp only at hw ⊢
      obtain ⟨e', he, hw⟩ := res_bind_ok.1 hw
      obtain ⟨src, hs, hw⟩ := res_bind_ok.1 hw
      refine ok_bind (ex_act he hfoot (ok_lift hs (ok_bind (new_act (ex_foot he hs hfoot) ?_))))
      intro b hb
      obtain ⟨w1, hw1, hq1⟩ := hok (allocAt b) (allocAt_good b)
      simp only [World.step] at hw1
      rw [hx] at hw1
      simp only [he, hs, res_ok_bind] at hw1
      obtain ⟨r, hr, hw1⟩ := res_bind_ok.1 hw1
      rw [allocAt_eq (fun i hi => (hb i hi).1)] at hr
      cases hw1
      exact ⟨r, hr, hno, hq1⟩
  | makeFill x sc ext =>
    obtain ⟨w', hw, hq⟩ := h0
    simp only [World.step] at hw
    simp only [stmtAct]
    cases hx : w.env x with
    | some _ => rw [hx] at hw; cases hw
    | none =>
      rw [hx] at hw
      simp only at hw ⊢
      obtain ⟨u, hu, hw⟩ := res_bind_ok.1 hw
      obtain ⟨c, hc, hw⟩ := res_bind_ok.1 hw
      obtain ⟨v, hv, hw⟩ := res_bind_ok.1 hw
      refine ok_lift hu (ok_lift (env_sc .. ▸ hc) (ok_bind (newFrom_act (l := List.replicate (prodL Arith.exact ext) v) ?_ ?_)))
      · intro k y m' raw' hk hy hle Q' hq'
        simp only [List.getElem?_replicate, hk, if_true, Option.some.injEq] at hy
        subst hy
        refine sc_act ?_ (hfoot c hc) hq'
        cases c with
        | val z => exact hv
        | cell p =>
          unfold Scalar.get Mem.read at hv ⊢
          cases hm : w.mem p with
          | none => simp only [hm] at hv; cases hv
          | some z => simp only [hm] at hv; simp only [hle p z hm]; exact hv
      · intro b hb
        obtain ⟨w1, hw1, hq1⟩ := hok (allocAt b) (allocAt_good b)
        simp only [World.step] at hw1
        rw [hx] at hw1
        simp only [hu, hc, hv, res_ok_bind] at hw1
        obtain ⟨r, hr, hw1⟩ := res_bind_ok.1 hw1
        rw [allocAt_eq (fun i hi => (hb i hi).1)] at hr
        cases hw1
        exact ⟨r, hr, hno, hq1⟩
  | makeFrom x l ext =>
    obtain ⟨w', hw, hq⟩ := h0
    simp only [World.step] at hw
    simp only [stmtAct]
    cases hx : w.env x with
    | some _ => rw [hx] at hw; cases hw
    | none =>
      rw [hx] at hw
      simp only at hw ⊢
      obtain ⟨u, hu, hw⟩ := res_bind_ok.1 hw
      refine ok_lift hu (ok_bind (newFrom_act (l := l) ?_ ?_))
      · intro k y m' raw' hk hy hle Q' hq'
        unfold listAct
        rw [hy]
        exact hq'
      · intro b hb
        obtain ⟨w1, hw1, hq1⟩ := hok (allocAt b) (allocAt_good b)
        simp only [World.step] at hw1
        rw [hx] at hw1
        simp only [hu, res_ok_bind] at hw1
        obtain ⟨r, hr, hw1⟩ := res_bind_ok.1 hw1
        rw [allocAt_eq (fun i hi => (hb i hi).1)] at hr
        cases hw1
        exact ⟨r, hr, hno, hq1⟩
  | drop x =>
    obtain ⟨w', hw, hq⟩ := h0
    simp only [World.step] at hw
    obtain ⟨a, ha, hw⟩ := res_bind_ok.1 hw
    cases hw
    refine ok_lift (env_get w x ▸ ha) ?_
    exact ⟨fun i hi => hown x (by simp [remakes]) a (hget ha) i hi, hno, hq⟩
  | fill x h sc =>
    obtain ⟨w', hw, hq⟩ := h0
    simp only [World.step] at hw
    obtain ⟨u, hu, hw⟩ := res_bind_ok.1 hw
    obtain ⟨o, ho, hw⟩ := res_bind_ok.1 hw
    obtain ⟨c, hc, hw⟩ := res_bind_ok.1 hw
    obtain ⟨m', hm', hw⟩ := res_bind_ok.1 hw
    cases hw
    unfold fillView at hm'
    obtain ⟨ps, hps, hm'⟩ := res_bind_ok.1 hm'
    refine ok_lift hu (ok_lift (env_index .. ▸ ho) (ok_lift (env_sc .. ▸ hc) (ok_lift hps (ok_bind (upd_act (C := fun _ => True) ?_ hm' ?_ (fun _ _ => trivial) ⟨hno, hq⟩)))))
    · intro k p m v raw _ hv Q hq; exact sc_act hv (hfoot.2 c hc) hq
    · exact hfoot.1 o ps ho hps
  | assign x h e =>
    obtain ⟨w', hw, hq⟩ := h0
    simp only [World.step] at hw
    obtain ⟨u, hu, hw⟩ := res_bind_ok.1 hw
    obtain ⟨o, ho, hw⟩ := res_bind_ok.1 hw
    obtain ⟨e', he, hw⟩ := res_bind_ok.1 hw
    obtain ⟨m', hm', hw⟩ := res_bind_ok.1 hw
    cases hw
    unfold assignView at hm'
    obtain ⟨src, hs, hm'⟩ := res_bind_ok.1 hm'
    refine ok_lift hu (ok_lift (env_index .. ▸ ho) (ok_bind (ex_act he hfoot.2 (ok_lift hs (ok_bind (assign_act hm' ?_
      (ex_foot he hs hfoot.2) ⟨hno, hq⟩))))))
    exact fun ps hps => hfoot.1 o ps ho hps
  | inPlace x h op e =>
    obtain ⟨w', hw, hq⟩ := h0
    simp only [World.step] at hw
    obtain ⟨o, ho, hw⟩ := res_bind_ok.1 hw
    obtain ⟨e', he, hw⟩ := res_bind_ok.1 hw
    obtain ⟨m', hm', hw⟩ := res_bind_ok.1 hw
    cases hw
    unfold inPlaceExpr at hm'
    obtain ⟨src, hs, hm'⟩ := res_bind_ok.1 hm'
    refine ok_lift (env_index .. ▸ ho) (ok_bind (ex_act he hfoot.2.2 (ok_lift hs ?_)))
    cases hd : o.dims with
    | none => rw [hd] at hm'; cases hm'
    | some d =>
      rw [hd] at hm'
      simp only at hm' ⊢
      split at hm'
      · cases hm'
      next hlen =>
      rw [if_neg hlen]
      obtain ⟨u, hu, hm'⟩ := res_bind_ok.1 hm'
      obtain ⟨ps, hps, hm'⟩ := res_bind_ok.1 hm'
      refine ok_lift hu (ok_lift hps (ok_bind (upd_act (C := P.R) ?_ hm' (hfoot.1 o ps ho hps) (hfoot.2.1 o ps ho hps) ⟨hno, hq⟩)))
      intro k p m v raw hp hv Q hq
      obtain ⟨y, hy, hv⟩ := res_bind_ok.1 hv
      obtain ⟨z, hz, hv⟩ := res_bind_ok.1 hv
      cases hv
      exact ⟨hp, y, read_ok hy, ok_bind (it_act hz (ex_foot he hs hfoot.2.2) hq)⟩
  | inPlaceScalar x h op sc =>
    obtain ⟨w', hw, hq⟩ := h0
    simp only [World.step] at hw
    obtain ⟨o, ho, hw⟩ := res_bind_ok.1 hw
    obtain ⟨c, hc, hw⟩ := res_bind_ok.1 hw
    obtain ⟨m', hm', hw⟩ := res_bind_ok.1 hw
    cases hw
    unfold Jules.inPlaceScalar at hm'
    obtain ⟨ps, hps, hm'⟩ := res_bind_ok.1 hm'
    refine ok_lift (env_index .. ▸ ho) (ok_lift (env_sc .. ▸ hc) (ok_lift hps (ok_bind (upd_act (C := P.R) ?_ hm'
      (hfoot.1 o ps ho hps) (hfoot.2.1 o ps ho hps) ⟨hno, hq⟩))))
    intro k p m v raw hp hv Q hq
    obtain ⟨y, hy, hv⟩ := res_bind_ok.1 hv
    obtain ⟨z, hz, hv⟩ := res_bind_ok.1 hv
    cases hv
    exact ⟨hp, y, read_ok hy, ok_bind (sc_act hz (hfoot.2.2 c hc) hq)⟩
  | apply x h f =>
    obtain ⟨w', hw, hq⟩ := h0
    simp only [World.step] at hw
    obtain ⟨o, ho, hw⟩ := res_bind_ok.1 hw
    obtain ⟨u, hu, hw⟩ := res_bind_ok.1 hw
    obtain ⟨m', hm', hw⟩ := res_bind_ok.1 hw
    cases hw
    unfold applyInPlace at hm'
    obtain ⟨ps, hps, hm'⟩ := res_bind_ok.1 hm'
    refine ok_lift (env_index .. ▸ ho) (ok_lift hu (ok_lift hps (ok_bind (upd_act (C := P.R) ?_ hm'
      (hfoot.1 o ps ho hps) (hfoot.2 o ps ho hps) ⟨hno, hq⟩))))
    intro k p m v raw hp hv Q hq
    cases hy : m.read p with
    | error e => rw [hy] at hv; cases hv
    | ok y =>
      rw [hy] at hv; cases hv
      exact ⟨hp, y, read_ok hy, hq⟩
  | overlap x h e =>
    obtain ⟨w', hw, hq⟩ := h0
    simp only [World.step] at hw
    obtain ⟨u, hu, hw⟩ := res_bind_ok.1 hw
    obtain ⟨o, ho, hw⟩ := res_bind_ok.1 hw
    obtain ⟨e', he, hw⟩ := res_bind_ok.1 hw
    obtain ⟨src, hs, hw⟩ := res_bind_ok.1 hw
    refine ok_lift hu (ok_lift (env_index .. ▸ ho) (ok_bind (ex_act he hfoot.2 (ok_lift hs (ok_bind (new_act (ex_foot he hs hfoot.2) ?_))))))
    intro b hb
    obtain ⟨w1, hw1, hq1⟩ := hok (allocAt b) (allocAt_good b)
    simp only [World.step, hu, ho, he, hs, res_ok_bind] at hw1
    obtain ⟨m', hm', hw1⟩ := res_bind_ok.1 hw1
    cases hw1
    rw [allocAt_eq (fun i hi => (hb i hi).1)] at hm'
    unfold overlapView at hm'
    simp only [hs, res_ok_bind] at hm'
    obtain ⟨r, hr, hm'⟩ := res_bind_ok.1 hm'
    obtain ⟨m2, hm2, hm'⟩ := res_bind_ok.1 hm'
    cases hm'
    refine ⟨r, hr, ?_⟩
    obtain ⟨n1, n2, n3⟩ := new_alive hr
    unfold assignView at hm2
    obtain ⟨tmp, ht, hm2⟩ := res_bind_ok.1 hm2
    refine ok_lift ht (ok_bind (assign_act hm2 (fun ps hps => hfoot.1 o ps ho hps) ?_ ?_))
    · unfold Ex.build Obj.dims at ht
      simp only [Obj.positions, res_ok_bind] at ht
      cases ht
      intro p hp
      simp only [It.cellList, List.mem_map, List.mem_range, n1] at hp
      obtain ⟨i, hi, rfl⟩ := hp
      exact hlocR _ (hb i hi).2.1
    · refine ⟨?_, hno, hq1⟩
      intro i hi
      rw [n1] at hi ⊢
      exact ⟨fun hn => n3 i hi ((assign_alive hm2 _).1 hn), (hb i hi).2.1⟩
  | overlapWhole x e =>
    obtain ⟨w', hw, hq⟩ := h0
    simp only [World.step] at hw
    obtain ⟨a, ha, hw⟩ := res_bind_ok.1 hw
    obtain ⟨e', he, hw⟩ := res_bind_ok.1 hw
    obtain ⟨src, hs, hw⟩ := res_bind_ok.1 hw
    obtain ⟨u, hu, hw⟩ := res_bind_ok.1 hw
    refine ok_lift (env_get w x ▸ ha) (ok_bind (ex_act he hfoot (ok_lift hs (ok_lift hu (ok_bind (new_act (ex_foot he hs hfoot) ?_))))))
    intro b hb
    obtain ⟨w1, hw1, hq1⟩ := hok (allocAt b) (allocAt_good b)
    simp only [World.step, ha, hu, he, hs, res_ok_bind] at hw1
    obtain ⟨r', hr', hw1⟩ := res_bind_ok.1 hw1
    cases hw1
    rw [allocAt_eq (fun i hi => (hb i hi).1)] at hr'
    unfold overlapArray at hr'
    simp only [hs, res_ok_bind] at hr'
    obtain ⟨r, hr, hr'⟩ := res_bind_ok.1 hr'
    cases hr'
    refine ⟨r, hr, ?_⟩
    refine ⟨?_, hno, hq1⟩
    intro i hi
    obtain ⟨g1, g2⟩ := hown x (by simp [remakes]) a (hget ha) i hi
    exact ⟨(new_alive hr).2.1 _ g1, g2⟩
  | set x e =>
    obtain ⟨B, hB⟩ := hfin
    have gen : ∀ {e : PEx α}, ExR P.R chk w e → (∀ alloc, GoodAlloc alloc → ∃ a e' src r, w.get x = .ok a ∧ e.eval Arith.exact chk w = .ok e' ∧
        e'.build Arith.exact chk = .ok src ∧ sameOrder a src.dims = .ok () ∧
        arrayAssignExpr Arith.exact a src w.mem (alloc w.clock w.mem (prodL Arith.exact src.dims)) = .ok r ∧
        Q (w.bind r.1 x (some r.2)).env r.1) →
        ((do
          let a ← Act.lift ((Env.world w.env : World α).get x)
          let e' ← e.act Arith.exact chk w.env
          let src ← Act.lift (e'.build Arith.exact chk)
          Act.lift (sameOrder a src.dims)
          let r ← setAct Arith.exact a src
          .done (Env.bind w.env x (some r)) : Act α Env)).Ok P (fun env m raw => (∀ q, ¬ raw q) ∧ Q env m) w.mem (fun _ => False) := by
      intro e hR hok
      obtain ⟨a, e', src, r, h1, h2, h3, h4, h5, h6⟩ := hok (allocAt 0) (allocAt_good 0)
      refine ok_lift (env_get w x ▸ h1) (ok_bind (ex_act h2 hR (ok_lift h3 (ok_lift h4 (ok_bind (set_act hlocW (ex_foot h2 h3 hR) 
        (hown x (by simp [remakes]) a (hget h1)) ?_ ?_))))))
      · intro b hb
        obtain ⟨a', e1, src', r, g1, g2, g3, g4, g5, g6⟩ := hok (allocAt b) (allocAt_good b)
        rw [h1] at g1; cases g1
        rw [h2] at g2; cases g2
        rw [h3] at g3; cases g3
        rw [allocAt_eq hb] at g5
        exact ⟨r, g5, hno, g6⟩
      · exact ⟨B, fun i _ => hB _ (by omega)⟩
    have key : ∀ {e : PEx α}, (∀ y, e ≠ .arr y []) → stmtAct Arith.exact chk w.env (.set x e) = (do
          let a ← Act.lift ((Env.world w.env : World α).get x)
          let e' ← e.act Arith.exact chk w.env
          let src ← Act.lift (e'.build Arith.exact chk)
          Act.lift (sameOrder a src.dims)
          let r ← setAct Arith.exact a src
          .done (Env.bind w.env x (some r)) : Act α Env) := by
      intro e he
      simp only [stmtAct]
    have key2 : ∀ {e : PEx α}, (∀ y, e ≠ .arr y []) → ∀ alloc, w.step Arith.exact chk alloc (.set x e) = (do
          let a ← w.get x
          let e' ← e.eval Arith.exact chk w
          let src ← e'.build Arith.exact chk
          sameOrder a src.dims
          let r ← assignArray Arith.exact chk a e' w.mem (alloc w.clock w.mem (prodL Arith.exact src.dims))
          .ok (w.bind r.1 x (some r.2))) := by
      intro e he alloc
      simp only [World.step]
    by_cases hcase : ∃ y, e = .arr y []
    · obtain ⟨y, rfl⟩ := hcase
      obtain ⟨w', hw, hq⟩ := h0
      simp only [World.step] at hw
      obtain ⟨a, ha, hw⟩ := res_bind_ok.1 hw
      obtain ⟨b, hb, hw⟩ := res_bind_ok.1 hw
      obtain ⟨u, hu, hw⟩ := res_bind_ok.1 hw
      simp only [stmtAct]
      refine ok_lift (env_get w x ▸ ha) (ok_lift (env_get w y ▸ hb) (ok_lift hu ?_))
      by_cases hxy : x = y
      · rw [if_pos hxy]
        obtain ⟨r, hr, hw⟩ := res_bind_ok.1 hw
        cases hw
        unfold assignArrayCopy at hr
        rw [if_pos (by simp [hxy])] at hr
        cases hr
        exact ⟨hno, hq⟩
      · rw [if_neg hxy]
        refine ok_bind (set_act hlocW ?_ (hown x (by simp [remakes]) a (hget ha)) ?_ ⟨B, fun i _ => hB _ (by omega)⟩)
        · refine hfoot (.cref b.base b.ext) _ ?_ rfl
          simp only [World.index, hb, res_ok_bind]; rfl
        · intro b0 hb0
          obtain ⟨w1, hw1, hq1⟩ := hok (allocAt b0) (allocAt_good b0)
          simp only [World.step, ha, hb, hu, res_ok_bind] at hw1
          obtain ⟨r, hr, hw1⟩ := res_bind_ok.1 hw1
          cases hw1
          rw [allocAt_eq hb0] at hr
          unfold assignArrayCopy at hr
          rw [if_neg (by simp [hxy])] at hr
          exact ⟨r, hr, hno, hq1⟩
    · have hc : ∀ y, e ≠ .arr y [] := fun y hy => hcase ⟨y, hy⟩
      rw [key hc]
      refine gen hfoot ?_
      intro alloc hal
      obtain ⟨w1, hw1, hq1⟩ := hok alloc hal
      rw [key2 hc] at hw1
      obtain ⟨a, ha, hw1⟩ := res_bind_ok.1 hw1
      obtain ⟨e', he, hw1⟩ := res_bind_ok.1 hw1
      obtain ⟨src, hs, hw1⟩ := res_bind_ok.1 hw1
      obtain ⟨u, hu, hw1⟩ := res_bind_ok.1 hw1
      obtain ⟨r, hr, hw1⟩ := res_bind_ok.1 hw1
      cases hw1
      unfold assignArray at hr
      simp only [hs, res_ok_bind] at hr
      exact ⟨a, e', src, r, ha, he, hs, hu, hr, hq1⟩
  | moveAssign x y =>
    obtain ⟨w', hw, hq⟩ := h0
    simp only [World.step] at hw
    obtain ⟨a, ha, hw⟩ := res_bind_ok.1 hw
    obtain ⟨b, hb, hw⟩ := res_bind_ok.1 hw
    obtain ⟨u, hu, hw⟩ := res_bind_ok.1 hw
    obtain ⟨u', hu', hw⟩ := res_bind_ok.1 hw
    cases hw
    refine ok_lift (env_get w x ▸ ha) (ok_lift (env_get w y ▸ hb) (ok_lift hu (ok_lift hu' ?_)))
    exact ⟨hno, hq⟩

end
end Jules

import Verif.Lemmas.Concurrent
/-
Lemmas for C72: the programs of single threads keep to their permissions; soundness for any interleaving.
-/
namespace Jules
open Spec Props

section
variable {α : Type}

/-- What a thread that reads only `R` and changes only `W` of the arrays of `w` may do. -/
def permOf (w : World α) (R W : ElemSet) : Perm where
  S q := ∃ x c, w.env x = some c ∧ Covers (cells c) q
  R q := ∀ x c j, w.env x = some c → InB c.ext j → q = c.base + cmSum c.ext j → R x j
  W q := ∀ x c j, w.env x = some c → InB c.ext j → q = c.base + cmSum c.ext j → W x j

/-- The thread sees the shared arrays where they are. -/
def Sees (w : World α) (env : Env) : Prop := ∀ x c, w.env x = some c → env x = some c

variable {w₀ w : World α} {A : AStore α} {R W : ElemSet}

theorem view_foot (H : HoldsStore w A) (hs : Sees w₀ w.env) {x : Nat} {h : List Ix} {a : AVal α} {v : IView} (ha : A x = some a)
    (hc : Chain a.ext h v) (chk : Bool) {E : ElemSet} (hE : ∀ j, w₀.env x ≠ none → viewElem A x h x j → E x j) :
    ViewR (fun q => ∀ x c j, w₀.env x = some c → InB c.ext j → q = c.base + cmSum c.ext j → E x j) chk w x h := by
  intro o ps ho hps p hp y d k hy hk hpk
  obtain ⟨c, o', h1, h2, h3, h4, _⟩ := index_ok H ha hc chk
  rw [ho] at h3; cases h3
  rw [h4.iterate] at hps; cases hps
  simp only [AView.enum, List.mem_map, mem_multiIdx] at hp
  obtain ⟨i, hi, rfl⟩ := hp
  have hin := chain_in hc i hi
  have hcov : Covers (cells c) ((IView.toA c.base a.ext v).pos i) := toA_covers h2 hc ⟨i, hi, rfl⟩
  by_cases hxy : x = y
  · subst hxy
    have := hs x d hy
    rw [h1] at this; cases this
    have hj : v.src i = k := cells_inj (c := d) (by rw [h2]; exact hin) hk (by rw [← hpk]; simp [IView.toA, h2])
    subst hj
    refine hE _ (by rw [hy]; simp) ⟨rfl, a, v, ha, hc.view, i, hi, rfl⟩
  · exact (H.sep x y c d _ hxy h1 (hs y d hy) hcov ⟨k, hk, hpk.symm⟩).elim

theorem sc_foot (H : HoldsStore w A) (hs : Sees w₀ w.env) {s : Sc α} (hl : ScLegal A s) (chk : Bool) {E : ElemSet}
    (hE : ∀ x j, w₀.env x ≠ none → scElem A s x j → E x j) :
    ScR (fun q => ∀ x c j, w₀.env x = some c → InB c.ext j → q = c.base + cmSum c.ext j → E x j) chk w s := by
  intro c hc
  cases s with
  | const y => cases hc; trivial
  | elem x h =>
    obtain ⟨a, v, ha, hch, hv⟩ := hl
    have hV := view_foot (E := E) H hs ha hch chk (fun j hj hv => hE x j hj hv)
    obtain ⟨c', o, h1, h2, h3, h4, _⟩ := index_ok H ha hch chk
    have ho := observes_elem h4 hv
    subst ho
    simp only [Sc.eval, h3, res_ok_bind] at hc
    cases hc
    exact hV _ [_] h3 rfl _ (by simp)

theorem ex_footprint (H : HoldsStore w A) (hs : Sees w₀ w.env) (chk : Bool) {E : ElemSet} {d : List Nat} : ∀ {e : PEx α}, ExLegal A d e →
    (∀ x j, w₀.env x ≠ none → exElem A e x j → E x j) →
    ExR (fun q => ∀ x c j, w₀.env x = some c → InB c.ext j → q = c.base + cmSum c.ext j → E x j) chk w e
  | .arr x h, ⟨a, v, ha, hc, _⟩, hE => view_foot H hs ha hc chk (fun j hj hv => hE x j hj hv)
  | .un _ e, hl, hE => ex_footprint (e := e) H hs chk hl hE
  | .bin _ a b, ⟨h1, h2⟩, hE => ⟨ex_footprint H hs chk h1 (fun x j hx hj => hE x j hx (.inl hj)),
      ex_footprint H hs chk h2 (fun x j hx hj => hE x j hx (.inr hj))⟩
  | .scl _ s e, ⟨h1, h2⟩, hE => ⟨sc_foot H hs h1 chk (fun x j hx hj => hE x j hx (.inl hj)),
      ex_footprint H hs chk h2 (fun x j hx hj => hE x j hx (.inr hj))⟩
  | .scr _ e s, ⟨h1, h2⟩, hE => ⟨ex_footprint H hs chk h1 (fun x j hx hj => hE x j hx (.inl hj)),
      sc_foot H hs h2 chk (fun x j hx hj => hE x j hx (.inr hj))⟩

theorem stmt_foot (H : HoldsStore w A) (hs : Sees w₀ w.env) (chk : Bool) {s : Stmt α} (hl : StmtLegal A s)
    (hR : ∀ x j, w₀.env x ≠ none → stmtReads A s x j → R x j) (hW : ∀ x j, w₀.env x ≠ none → stmtWrites A s x j → W x j) :
    StmtFoot (permOf w₀ R W).R (permOf w₀ R W).W chk w s := by
  cases s with
  | make x e => obtain ⟨_, d, _, h⟩ := hl; exact ex_footprint H hs chk h hR
  | makeFill x s ext => exact sc_foot H hs hl.2.2 chk hR
  | makeFrom x l ext => trivial
  | drop x => trivial
  | fill x h s =>
    obtain ⟨_, h1, a, v, ha, hc⟩ := hl
    exact ⟨view_foot H hs ha hc chk (fun j hx hj => hW x j hx hj), sc_foot H hs h1 chk hR⟩
  | assign x h e =>
    obtain ⟨_, a, v, ha, hc, _, _, h1, _⟩ := hl
    exact ⟨view_foot H hs ha hc chk (fun j hx hj => hW x j hx hj), ex_footprint H hs chk h1 hR⟩
  | inPlace x h op e =>
    obtain ⟨a, v, ha, hc, _, _, h1, _⟩ := hl
    exact ⟨view_foot H hs ha hc chk (fun j hx hj => hW x j hx hj), view_foot H hs ha hc chk (fun j hx hj => hR x j hx (.inl hj)),
      ex_footprint H hs chk h1 (fun y j hx hj => hR y j hx (.inr hj))⟩
  | inPlaceScalar x h op s =>
    obtain ⟨h1, a, v, ha, hc, _, _⟩ := hl
    exact ⟨view_foot H hs ha hc chk (fun j hx hj => hW x j hx hj), view_foot H hs ha hc chk (fun j hx hj => hR x j hx (.inl hj)),
      sc_foot H hs h1 chk (fun y j hx hj => hR y j hx (.inr hj))⟩
  | apply x h f =>
    obtain ⟨a, v, ha, hc, _, _⟩ := hl
    exact ⟨view_foot H hs ha hc chk (fun j hx hj => hW x j hx hj), view_foot H hs ha hc chk (fun j hx hj => hR x j hx hj)⟩
  | overlap x h e =>
    obtain ⟨_, a, v, ha, hc, _, _, h1⟩ := hl
    exact ⟨view_foot H hs ha hc chk (fun j hx hj => hW x j hx hj), ex_footprint H hs chk h1 hR⟩
  | overlapWhole x e => obtain ⟨_, d, _, _, h⟩ := hl; exact ex_footprint H hs chk h hR
  | set x e => obtain ⟨_, d, _, _, h, _⟩ := hl; exact ex_footprint H hs chk h hR
  | moveAssign x y => trivial

theorem step_env {Ar : Arith} {chk : Bool} {alloc : Nat → Mem α → Nat → Nat} {s : Stmt α} {w' : World α} (h : w.step Ar chk alloc s = .ok w')
    {x : Nat} (hx : x ∉ remakes s) : w'.env x = w.env x := by
  have hb : ∀ {y : Nat} (m : Mem α) (o : Option Arr), x ≠ y → (w.bind m y o).env x = w.env x := by
    intro y m o hy; simp [World.bind, hy]
  cases s with
  | make y e =>
    simp only [World.step] at h
    split at h
    · cases h
    obtain ⟨_, _, h⟩ := res_bind_ok.1 h
    obtain ⟨_, _, h⟩ := res_bind_ok.1 h
    obtain ⟨_, _, h⟩ := res_bind_ok.1 h
    cases h; exact hb _ _ (by simpa [remakes] using hx)
  | makeFill y s ext =>
    simp only [World.step] at h
    split at h
    · cases h
    obtain ⟨_, _, h⟩ := res_bind_ok.1 h
    obtain ⟨_, _, h⟩ := res_bind_ok.1 h
    obtain ⟨_, _, h⟩ := res_bind_ok.1 h
    obtain ⟨_, _, h⟩ := res_bind_ok.1 h
    cases h; exact hb _ _ (by simpa [remakes] using hx)
  | makeFrom y l ext =>
    simp only [World.step] at h
    split at h
    · cases h
    obtain ⟨_, _, h⟩ := res_bind_ok.1 h
    obtain ⟨_, _, h⟩ := res_bind_ok.1 h
    cases h; exact hb _ _ (by simpa [remakes] using hx)
  | drop y =>
    simp only [World.step] at h
    obtain ⟨_, _, h⟩ := res_bind_ok.1 h
    cases h; exact hb _ _ (by simpa [remakes] using hx)
  | fill y l s =>
    simp only [World.step] at h
    obtain ⟨_, _, h⟩ := res_bind_ok.1 h
    obtain ⟨_, _, h⟩ := res_bind_ok.1 h
    obtain ⟨_, _, h⟩ := res_bind_ok.1 h
    obtain ⟨_, _, h⟩ := res_bind_ok.1 h
    cases h; rfl
  | assign y l e =>
    simp only [World.step] at h
    obtain ⟨_, _, h⟩ := res_bind_ok.1 h
    obtain ⟨_, _, h⟩ := res_bind_ok.1 h
    obtain ⟨_, _, h⟩ := res_bind_ok.1 h
    obtain ⟨_, _, h⟩ := res_bind_ok.1 h
    cases h; rfl
  | inPlace y l op e =>
    simp only [World.step] at h
    obtain ⟨_, _, h⟩ := res_bind_ok.1 h
    obtain ⟨_, _, h⟩ := res_bind_ok.1 h
    obtain ⟨_, _, h⟩ := res_bind_ok.1 h
    cases h; rfl
  | inPlaceScalar y l op s =>
    simp only [World.step] at h
    obtain ⟨_, _, h⟩ := res_bind_ok.1 h
    obtain ⟨_, _, h⟩ := res_bind_ok.1 h
    obtain ⟨_, _, h⟩ := res_bind_ok.1 h
    cases h; rfl
  | apply y l f =>
    simp only [World.step] at h
    obtain ⟨_, _, h⟩ := res_bind_ok.1 h
    obtain ⟨_, _, h⟩ := res_bind_ok.1 h
    obtain ⟨_, _, h⟩ := res_bind_ok.1 h
    cases h; rfl
  | overlap y l e =>
    simp only [World.step] at h
    obtain ⟨_, _, h⟩ := res_bind_ok.1 h
    obtain ⟨_, _, h⟩ := res_bind_ok.1 h
    obtain ⟨_, _, h⟩ := res_bind_ok.1 h
    obtain ⟨_, _, h⟩ := res_bind_ok.1 h
    obtain ⟨_, _, h⟩ := res_bind_ok.1 h
    cases h; rfl
  | overlapWhole y e =>
    simp only [World.step] at h
    obtain ⟨_, _, h⟩ := res_bind_ok.1 h
    obtain ⟨_, _, h⟩ := res_bind_ok.1 h
    obtain ⟨_, _, h⟩ := res_bind_ok.1 h
    obtain ⟨_, _, h⟩ := res_bind_ok.1 h
    obtain ⟨_, _, h⟩ := res_bind_ok.1 h
    cases h; exact hb _ _ (by simpa [remakes] using hx)
  | set y e =>
    have hy : x ≠ y := by simpa [remakes] using hx
    by_cases hc : ∃ z, e = .arr z []
    · obtain ⟨z, rfl⟩ := hc
      simp only [World.step] at h
      obtain ⟨_, _, h⟩ := res_bind_ok.1 h
      obtain ⟨_, _, h⟩ := res_bind_ok.1 h
      obtain ⟨_, _, h⟩ := res_bind_ok.1 h
      obtain ⟨_, _, h⟩ := res_bind_ok.1 h
      cases h; exact hb _ _ hy
    · have hc : ∀ z, e ≠ .arr z [] := fun z hz => hc ⟨z, hz⟩
      simp only [World.step] at h
      obtain ⟨_, _, h⟩ := res_bind_ok.1 h
      obtain ⟨_, _, h⟩ := res_bind_ok.1 h
      obtain ⟨_, _, h⟩ := res_bind_ok.1 h
      obtain ⟨_, _, h⟩ := res_bind_ok.1 h
      obtain ⟨_, _, h⟩ := res_bind_ok.1 h
      cases h; exact hb _ _ hy
  | moveAssign y z =>
    simp only [World.step] at h
    obtain ⟨_, _, h⟩ := res_bind_ok.1 h
    obtain ⟨_, _, h⟩ := res_bind_ok.1 h
    obtain ⟨_, _, h⟩ := res_bind_ok.1 h
    obtain ⟨_, _, h⟩ := res_bind_ok.1 h
    cases h
    simp only [remakes, List.mem_cons, List.not_mem_nil, or_false, not_or] at hx
    simp [World.bind, hx.1, hx.2]

/-- Own arrays are not shared. -/
theorem own_cells (H : HoldsStore w A) (hs : Sees w₀ w.env) {x : Nat} (hx : w₀.env x = none) {c : Arr} (hc : w.env x = some c) (i : Nat)
    (hi : i < prodL Arith.exact c.ext) : w.mem (c.base + i) ≠ none ∧ ¬ (permOf w₀ R W).S (c.base + i) := by
  rw [prodL_exact] at hi
  have hcov : Covers (cells c) (c.base + i) := arrayView_covers.2 ⟨by omega, by omega⟩
  constructor
  · cases ha : A x with
    | none => rw [H.out x ha] at hc; cases hc
    | some a =>
      obtain ⟨_, d, h1, h2, h3⟩ := H.arr x a ha
      rw [hc] at h1; cases h1
      obtain ⟨j, hj, hp⟩ := hcov
      have := h3 j (by rw [← h2]; exact hj)
      rw [← hp, this]; simp
  · rintro ⟨y, d, hy, hcd⟩
    have hne : x ≠ y := by rintro rfl; rw [hx] at hy; cases hy
    exact H.sep x y c d _ hne hc (hs y d hy) hcov hcd

theorem perm_local (w : World α) (R W : ElemSet) (q : Nat) (h : ¬ (permOf w R W).S q) : (permOf w R W).R q ∧ (permOf w R W).W q :=
  ⟨fun x c j hx hj hq => (h ⟨x, c, hx, j, hj, hq.symm⟩).elim, fun x c j hx hj hq => (h ⟨x, c, hx, j, hj, hq.symm⟩).elim⟩

/-- The rest of a program. -/
def runAct (Ar : Arith) (chk : Bool) : List (Stmt α) → Env → Act α Env
  | [], env => .done env
  | s :: p, env => (stmtAct Ar chk env s).bind (runAct Ar chk p)

theorem thread_ok {G : AStore α} (hG : ∀ x, G x = none ↔ w₀.env x = none) (chk : Bool) {p : List (Stmt α)} {A A' : AStore α}
    (hr : ThreadRuns G R W A p A') : ∀ {m : Mem α} {env : Env}, HoldsStore ⟨m, env, 0⟩ A → Sees w₀ env →
    (runAct Arith.exact chk p env).Ok (permOf w₀ R W) (fun env m raw => (∀ q, ¬ raw q) ∧ HoldsStore ⟨m, env, 0⟩ A' ∧ Sees w₀ env) m
      (fun _ => False) := by
  induction hr with
  | nil => intro m env H hs; exact ⟨fun q h => h, H, hs⟩
  | @cons A s A₁ p A' hl hm hR hW he _ ih =>
    intro m env H hs
    refine ok_bind (ok_mono ?_ (stmt_act (w := ⟨m, env, 0⟩) (Q := fun env m => HoldsStore ⟨m, env, 0⟩ A₁ ∧ Sees w₀ env)
      (fun q h => (perm_local w₀ R W q h).2) (fun q h => (perm_local w₀ R W q h).1) H.finite ?_ ?_ ?_))
    · rintro env m raw ⟨h1, h2, h3⟩
      have : raw = fun _ => False := by funext q; exact eq_false (h1 q)
      subst this
      exact ih h2 h3
    · intro alloc hal
      obtain ⟨w', h1, h2⟩ := stmt_ok H hl chk hal
      refine ⟨w', h1, holds_clock (h2 _ he) 0, ?_⟩
      intro x c hx
      rw [step_env h1 (x := x)]
      · exact hs x c hx
      · intro hin
        have := (hG x).1 (hm x hin)
        rw [hx] at this; cases this
    · exact stmt_foot H hs chk hl (fun x j hx => hR x j (fun h => hx ((hG x).1 h))) (fun x j hx => hW x j (fun h => hx ((hG x).1 h)))
    · intro x hx c hc i hi
      exact own_cells H hs ((hG x).1 (hm x hx)) hc i hi

/-! ### Interleavings -/

variable {n : Nat}

/-- What threads need of each other. -/
structure Apart (S : Nat → Prop) (P : Fin n → Perm) : Prop where
  shared : ∀ i q, (P i).S q ↔ S q
  sep : ∀ i k, i ≠ k → ∀ q, S q → (P i).W q → ¬ (P k).R q ∧ ¬ (P k).W q

/-- The state of all threads together: `m i` and `raw i` are memory as thread `i`, alone, would see it. -/
structure Merged (S : Nat → Prop) (P : Fin n → Perm) (m₀ : Mem α) (mem : Mem α) (rw : Nat → Bool) (m : Fin n → Mem α)
    (raw : Fin n → Nat → Prop) : Prop where
  written : ∀ i q, S q → (P i).W q → mem q = m i q
  same : ∀ q, S q → (∀ i, ¬ (P i).W q) → mem q = m₀ q
  unchanged : ∀ i q, S q → ¬ (P i).W q → m i q = m₀ q
  alive : ∀ q, S q → mem q ≠ none
  own : ∀ i q, ¬ S q → m i q ≠ none → mem q = m i q
  owner : ∀ i k q, ¬ S q → m i q ≠ none → m k q ≠ none → i = k
  only : ∀ q, ¬ S q → mem q ≠ none → ∃ i, m i q ≠ none
  raws : ∀ q, rw q = true ↔ ∃ i, raw i q
  rawFree : ∀ i q, raw i q → ¬ S q ∧ mem q = none
  rawOwner : ∀ i k q, raw i q → raw k q → i = k
  finite : ∃ B, ∀ q, B ≤ q → mem q = none ∧ rw q = false

theorem upd_same (σ : Sys α n) (i : Fin n) (t : Thread α) : σ.upd i t i = t := by simp [Sys.upd]
theorem upd_other (σ : Sys α n) {i k : Fin n} (t : Thread α) (h : k ≠ i) : σ.upd i t k = σ.threads k := by simp [Sys.upd, h]

section
variable {S : Nat → Prop} {P : Fin n → Perm} {m₀ : Mem α} {mem : Mem α} {rw : Nat → Bool} {m : Fin n → Mem α} {raw : Fin n → Nat → Prop}

/-- What a thread reads is what it would read alone. -/
theorem merged_read (hP : Apart S P) (h : Merged S P m₀ mem rw m raw) {i : Fin n} {q : Nat} (hR : (P i).R q) {v : α} (hv : m i q = some v) :
    mem q = some v := by
  by_cases hS : S q
  · by_cases hW : (P i).W q
    · rw [h.written i q hS hW, hv]
    · rw [h.same q hS, ← h.unchanged i q hS hW, hv]
      intro k hk
      by_cases hik : k = i
      · subst hik; exact hW hk
      · exact (hP.sep k i hik q hS hk).1 hR
  · rw [h.own i q hS (by rw [hv]; simp), hv]

theorem merged_write (hP : Apart S P) (h : Merged S P m₀ mem rw m raw) {i : Fin n} {q : Nat} (hW : (P i).W q) (hv : m i q ≠ none) (x : α) :
    mem q ≠ none ∧ Merged S P m₀ (mem.set q x) rw (Function.update m i ((m i).set q x)) raw := by
  have hmem : mem q = m i q := by
    by_cases hS : S q
    · exact h.written i q hS hW
    · exact h.own i q hS hv
  refine ⟨by rw [hmem]; exact hv, ?_⟩
  have hne : ∀ k p, p ≠ q → Function.update m i ((m i).set q x) k p = m k p := by
    intro k p hp
    by_cases hk : k = i
    · subst hk; simp [Mem.set, hp]
    · simp [hk]
  have hs : ∀ p, p ≠ q → mem.set q x p = mem p := by intro p hp; simp [Mem.set, hp]
  have hi : Function.update m i ((m i).set q x) i q = some x := by simp [Mem.set]
  have hq : mem.set q x q = some x := by simp [Mem.set]
  have ho : ∀ k, k ≠ i → Function.update m i ((m i).set q x) k = m k := by intro k hk; simp [hk]
  refine ⟨?_, ?_, ?_, ?_, ?_, ?_, ?_, h.raws, ?_, h.rawOwner, ?_⟩
  · intro k p hS hWk
    by_cases hp : p = q
    · subst hp
      by_cases hk : k = i
      · subst hk; rw [hq, hi]
      · exact ((hP.sep i k (fun e => hk e.symm) p hS hW).2 hWk).elim
    · rw [hs p hp, hne k p hp]; exact h.written k p hS hWk
  · intro p hS hno
    by_cases hp : p = q
    · subst hp; exact (hno i hW).elim
    · rw [hs p hp]; exact h.same p hS hno
  · intro k p hS hWk
    by_cases hp : p = q
    · subst hp
      by_cases hk : k = i
      · subst hk; exact (hWk hW).elim
      · rw [ho k hk]; exact h.unchanged k p hS hWk
    · rw [hne k p hp]; exact h.unchanged k p hS hWk
  · intro p hS
    by_cases hp : p = q
    · subst hp; rw [hq]; simp
    · rw [hs p hp]; exact h.alive p hS
  · intro k p hS hk
    by_cases hp : p = q
    · subst hp
      by_cases hki : k = i
      · subst hki; rw [hq, hi]
      · rw [ho k hki] at hk
        exact (hki (h.owner k i p hS hk hv)).elim
    · rw [hne k p hp] at hk ⊢; rw [hs p hp]; exact h.own k p hS hk
  · intro k l p hS hk hl
    by_cases hp : p = q
    · subst hp
      have hk' : k = i := by
        by_cases hki : k = i
        · exact hki
        · rw [ho k hki] at hk; exact h.owner k i p hS hk hv
      have hl' : l = i := by
        by_cases hki : l = i
        · exact hki
        · rw [ho l hki] at hl; exact h.owner l i p hS hl hv
      rw [hk', hl']
    · rw [hne k p hp] at hk; rw [hne l p hp] at hl
      exact h.owner k l p hS hk hl
  · intro p hS hp'
    by_cases hp : p = q
    · subst hp; exact ⟨i, by rw [hi]; simp⟩
    · rw [hs p hp] at hp'
      obtain ⟨k, hk⟩ := h.only p hS hp'
      exact ⟨k, by rw [hne k p hp]; exact hk⟩
  · intro k p hk
    obtain ⟨h1, h2⟩ := h.rawFree k p hk
    refine ⟨h1, ?_⟩
    by_cases hp : p = q
    · subst hp; rw [hmem] at h2; exact (hv h2).elim
    · rw [hs p hp]; exact h2
  · obtain ⟨B, hB⟩ := h.finite
    refine ⟨max B (q + 1), fun p hp => ⟨?_, (hB p (by omega)).2⟩⟩
    rw [hs p (by omega)]; exact (hB p (by omega)).1

theorem merged_acquire (h : Merged S P m₀ mem rw m raw) (i : Fin n) {b l : Nat}
    (hb : ∀ j, j < l → mem (b + j) = none ∧ rw (b + j) = false) :
    (∀ j, j < l → m i (b + j) = none ∧ ¬ S (b + j) ∧ ¬ raw i (b + j)) ∧
    Merged S P m₀ mem (fun q => rw q || (decide (b ≤ q) && decide (q < b + l))) m
      (Function.update raw i (fun q => raw i q ∨ (b ≤ q ∧ q < b + l))) := by
  have hS : ∀ q, b ≤ q → q < b + l → ¬ S q ∧ mem q = none ∧ (∀ k, ¬ raw k q) := by
    intro q h1 h2
    have := hb (q - b) (by omega)
    rw [show b + (q - b) = q by omega] at this
    refine ⟨fun hs => h.alive q hs this.1, this.1, ?_⟩
    intro k hk
    rw [(h.raws q).2 ⟨k, hk⟩] at this
    cases this.2
  refine ⟨?_, ⟨h.written, h.same, h.unchanged, h.alive, h.own, h.owner, h.only, ?_, ?_, ?_, ?_⟩⟩
  · intro j hj
    obtain ⟨h1, h2, h3⟩ := hS (b + j) (by omega) (by omega)
    refine ⟨?_, h1, h3 i⟩
    apply Classical.byContradiction
    intro hn
    have := h.own i _ h1 hn
    rw [h2] at this
    exact hn this.symm
  · intro q
    simp only [Bool.or_eq_true, Bool.and_eq_true, decide_eq_true_eq, h.raws q]
    constructor
    · rintro (⟨k, hk⟩ | hq)
      · refine ⟨k, ?_⟩
        by_cases hki : k = i
        · subst hki; simp [hk]
        · simp [hki, hk]
      · exact ⟨i, by simp [hq]⟩
    · rintro ⟨k, hk⟩
      by_cases hki : k = i
      · subst hki
        simp only [Function.update_self] at hk
        exact hk.elim (fun h => .inl ⟨_, h⟩) .inr
      · simp only [Function.update_of_ne hki] at hk
        exact .inl ⟨k, hk⟩
  · intro k q hk
    by_cases hki : k = i
    · subst hki
      simp only [Function.update_self] at hk
      rcases hk with hk | hk
      · exact h.rawFree _ q hk
      · exact ⟨(hS q hk.1 hk.2).1, (hS q hk.1 hk.2).2.1⟩
    · simp only [Function.update_of_ne hki] at hk
      exact h.rawFree k q hk
  · intro k l' q hk hl
    by_cases hin : b ≤ q ∧ q < b + l
    · have hno := (hS q hin.1 hin.2).2.2
      have : ∀ k, Function.update raw i (fun q => raw i q ∨ (b ≤ q ∧ q < b + l)) k q → k = i := by
        intro k hk
        by_cases hki : k = i
        · exact hki
        · simp only [Function.update_of_ne hki] at hk; exact (hno k hk).elim
      rw [this k hk, this l' hl]
    · have : ∀ k, Function.update raw i (fun q => raw i q ∨ (b ≤ q ∧ q < b + l)) k q → raw k q := by
        intro k hk
        by_cases hki : k = i
        · subst hki
          simp only [Function.update_self] at hk
          exact hk.resolve_right hin
        · simpa only [Function.update_of_ne hki] using hk
      exact h.rawOwner k l' q (this k hk) (this l' hl)
  · obtain ⟨B, hB⟩ := h.finite
    refine ⟨max B (b + l), fun q hq => ⟨(hB q (by omega)).1, ?_⟩⟩
    simp only [(hB q (by omega)).2, Bool.false_or, Bool.and_eq_false_iff, decide_eq_false_iff_not]
    exact .inr (by omega)

theorem merged_construct (h : Merged S P m₀ mem rw m raw) {i : Fin n} {q : Nat} (hq : raw i q) (x : α) :
    rw q = true ∧ Merged S P m₀ (mem.set q x) (fun r => rw r && decide (r ≠ q)) (Function.update m i ((m i).set q x))
      (Function.update raw i (fun p => raw i p ∧ p ≠ q)) := by
  obtain ⟨hS, hm⟩ := h.rawFree i q hq
  have hnone : ∀ k, m k q = none := by
    intro k
    apply Classical.byContradiction
    intro hn
    have := h.own k q hS hn
    rw [hm] at this; exact hn this.symm
  have hne : ∀ k p, p ≠ q → Function.update m i ((m i).set q x) k p = m k p := by
    intro k p hp
    by_cases hk : k = i
    · subst hk; simp [Mem.set, hp]
    · simp [hk]
  have hs : ∀ p, p ≠ q → mem.set q x p = mem p := by intro p hp; simp [Mem.set, hp]
  have hi : Function.update m i ((m i).set q x) i q = some x := by simp [Mem.set]
  have hqq : mem.set q x q = some x := by simp [Mem.set]
  have ho : ∀ k, k ≠ i → Function.update m i ((m i).set q x) k = m k := by intro k hk; simp [hk]
  have hraw : ∀ k p, Function.update raw i (fun p => raw i p ∧ p ≠ q) k p ↔ raw k p ∧ p ≠ q := by
    intro k p
    by_cases hki : k = i
    · subst hki; simp
    · simp only [Function.update_of_ne hki]
      constructor
      · intro hk
        refine ⟨hk, ?_⟩
        rintro rfl
        exact hki (h.rawOwner k i p hk hq)
      · exact fun h => h.1
  refine ⟨(h.raws q).2 ⟨i, hq⟩, ?_, ?_, ?_, ?_, ?_, ?_, ?_, ?_, ?_, ?_, ?_⟩
  · intro k p hSp hWk
    have hp : p ≠ q := by rintro rfl; exact hS hSp
    rw [hs p hp, hne k p hp]; exact h.written k p hSp hWk
  · intro p hSp hno
    have hp : p ≠ q := by rintro rfl; exact hS hSp
    rw [hs p hp]; exact h.same p hSp hno
  · intro k p hSp hWk
    have hp : p ≠ q := by rintro rfl; exact hS hSp
    rw [hne k p hp]; exact h.unchanged k p hSp hWk
  · intro p hSp
    have hp : p ≠ q := by rintro rfl; exact hS hSp
    rw [hs p hp]; exact h.alive p hSp
  · intro k p hSp hk
    by_cases hp : p = q
    · subst hp
      by_cases hki : k = i
      · subst hki; rw [hqq, hi]
      · rw [ho k hki, hnone k] at hk; exact (hk rfl).elim
    · rw [hne k p hp] at hk ⊢; rw [hs p hp]; exact h.own k p hSp hk
  · intro k l p hSp hk hl
    by_cases hp : p = q
    · subst hp
      have : ∀ k, Function.update m i ((m i).set p x) k p ≠ none → k = i := by
        intro k hk
        by_cases hki : k = i
        · exact hki
        · rw [ho k hki, hnone k] at hk; exact (hk rfl).elim
      rw [this k hk, this l hl]
    · rw [hne k p hp] at hk; rw [hne l p hp] at hl
      exact h.owner k l p hSp hk hl
  · intro p hSp hp'
    by_cases hp : p = q
    · subst hp; exact ⟨i, by rw [hi]; simp⟩
    · rw [hs p hp] at hp'
      obtain ⟨k, hk⟩ := h.only p hSp hp'
      exact ⟨k, by rw [hne k p hp]; exact hk⟩
  · intro p
    simp only [Bool.and_eq_true, decide_eq_true_eq, h.raws p, hraw]
    constructor
    · rintro ⟨⟨k, hk⟩, hp⟩; exact ⟨k, hk, hp⟩
    · rintro ⟨k, hk, hp⟩; exact ⟨⟨k, hk⟩, hp⟩
  · intro k p hk
    obtain ⟨hk, hp⟩ := (hraw k p).1 hk
    rw [hs p hp]; exact h.rawFree k p hk
  · intro k l p hk hl
    exact h.rawOwner k l p ((hraw k p).1 hk).1 ((hraw l p).1 hl).1
  · obtain ⟨B, hB⟩ := h.finite
    refine ⟨max B (q + 1), fun p hp => ⟨?_, ?_⟩⟩
    · rw [hs p (by omega)]; exact (hB p (by omega)).1
    · simp [(hB p (by omega)).2]

theorem merged_release (h : Merged S P m₀ mem rw m raw) {i : Fin n} {b l : Nat} (hb : ∀ j, j < l → m i (b + j) ≠ none ∧ ¬ S (b + j)) :
    (∀ j, j < l → mem (b + j) ≠ none) ∧ Merged S P m₀ (mem.free b l) rw (Function.update m i ((m i).free b l)) raw := by
  have hin : ∀ q, b ≤ q ∧ q < b + l → m i q ≠ none ∧ ¬ S q := by
    intro q hq
    have := hb (q - b) (by omega)
    rwa [show b + (q - b) = q by omega] at this
  have hne : ∀ k p, ¬ (b ≤ p ∧ p < b + l) → Function.update m i ((m i).free b l) k p = m k p := by
    intro k p hp
    by_cases hk : k = i
    · subst hk; simp only [Function.update_self, Mem.free, if_neg hp]
    · simp [hk]
  have hs : ∀ p, ¬ (b ≤ p ∧ p < b + l) → mem.free b l p = mem p := by intro p hp; simp only [Mem.free, if_neg hp]
  have hnone : ∀ k p, b ≤ p ∧ p < b + l → Function.update m i ((m i).free b l) k p = none := by
    intro k p hp
    by_cases hk : k = i
    · subst hk; simp only [Function.update_self, Mem.free, if_pos hp]
    · simp only [Function.update_of_ne hk]
      apply Classical.byContradiction
      intro hn
      exact hk (h.owner k i p (hin p hp).2 hn (hin p hp).1)
  have hnone' : ∀ p, b ≤ p ∧ p < b + l → mem.free b l p = none := by intro p hp; simp only [Mem.free, if_pos hp]
  refine ⟨?_, ?_, ?_, ?_, ?_, ?_, ?_, ?_, h.raws, ?_, h.rawOwner, ?_⟩
  · intro j hj
    rw [h.own i _ (hb j hj).2 (hb j hj).1]; exact (hb j hj).1
  · intro k p hS hWk
    have hp : ¬ (b ≤ p ∧ p < b + l) := fun hp => (hin p hp).2 hS
    rw [hs p hp, hne k p hp]; exact h.written k p hS hWk
  · intro p hS hno
    have hp : ¬ (b ≤ p ∧ p < b + l) := fun hp => (hin p hp).2 hS
    rw [hs p hp]; exact h.same p hS hno
  · intro k p hS hWk
    have hp : ¬ (b ≤ p ∧ p < b + l) := fun hp => (hin p hp).2 hS
    rw [hne k p hp]; exact h.unchanged k p hS hWk
  · intro p hS
    have hp : ¬ (b ≤ p ∧ p < b + l) := fun hp => (hin p hp).2 hS
    rw [hs p hp]; exact h.alive p hS
  · intro k p hS hk
    by_cases hp : b ≤ p ∧ p < b + l
    · rw [hnone k p hp] at hk; exact (hk rfl).elim
    · rw [hne k p hp] at hk ⊢; rw [hs p hp]; exact h.own k p hS hk
  · intro k l' p hS hk hl
    by_cases hp : b ≤ p ∧ p < b + l
    · rw [hnone k p hp] at hk; exact (hk rfl).elim
    · rw [hne k p hp] at hk; rw [hne l' p hp] at hl
      exact h.owner k l' p hS hk hl
  · intro p hS hp'
    by_cases hp : b ≤ p ∧ p < b + l
    · rw [hnone' p hp] at hp'; exact (hp' rfl).elim
    · rw [hs p hp] at hp'
      obtain ⟨k, hk⟩ := h.only p hS hp'
      exact ⟨k, by rw [hne k p hp]; exact hk⟩
  · intro k p hk
    obtain ⟨h1, h2⟩ := h.rawFree k p hk
    refine ⟨h1, ?_⟩
    by_cases hp : b ≤ p ∧ p < b + l
    · exact hnone' p hp
    · rw [hs p hp]; exact h2
  · obtain ⟨B, hB⟩ := h.finite
    refine ⟨B, fun p hp => ⟨?_, (hB p hp).2⟩⟩
    by_cases hp' : b ≤ p ∧ p < b + l
    · exact hnone' p hp'
    · rw [hs p hp']; exact (hB p hp).1

end

/-- The invariant of any interleaving. -/
def Inv (S : Nat → Prop) (P : Fin n → Perm) (m₀ : Mem α) (chk : Bool) (Q : Fin n → Env → Mem α → (Nat → Prop) → Prop) (σ : Sys α n) : Prop :=
  ∃ m raw, Merged S P m₀ σ.mem σ.raw m raw ∧
    ∀ i, ((σ.threads i).cur.bind (runAct Arith.exact chk (σ.threads i).todo)).Ok (P i) (Q i) (m i) (raw i)

section
variable {S : Nat → Prop} {P : Fin n → Perm} {m₀ : Mem α} {chk : Bool} {Q : Fin n → Env → Mem α → (Nat → Prop) → Prop}

theorem ok_upd {σ : Sys α n} {i : Fin n} {t : Thread α} {m m' : Fin n → Mem α} {raw raw' : Fin n → Nat → Prop}
    (h : ∀ i, ((σ.threads i).cur.bind (runAct Arith.exact chk (σ.threads i).todo)).Ok (P i) (Q i) (m i) (raw i))
    (hm : ∀ k, k ≠ i → m' k = m k) (hr : ∀ k, k ≠ i → raw' k = raw k)
    (ht : (t.cur.bind (runAct Arith.exact chk t.todo)).Ok (P i) (Q i) (m' i) (raw' i)) (k : Fin n) :
    (((σ.upd i t) k).cur.bind (runAct Arith.exact chk ((σ.upd i t) k).todo)).Ok (P k) (Q k) (m' k) (raw' k) := by
  by_cases hk : k = i
  · subst hk; rw [upd_same]; exact ht
  · rw [upd_other σ t hk, hm k hk, hr k hk]; exact h k

theorem inv_step (hP : Apart S P) {σ τ : Sys α n} {i : Fin n} (h : Inv S P m₀ chk Q σ) (hst : Sys.Step Arith.exact chk i σ τ) :
    Inv S P m₀ chk Q τ := by
  obtain ⟨m, raw, hM, hok⟩ := h
  have hi := hok i
  cases hst with
  | next ht =>
    rw [ht] at hi
    exact ⟨m, raw, hM, ok_upd hok (fun _ _ => rfl) (fun _ _ => rfl) hi⟩
  | read ht hv =>
    rw [ht] at hi
    obtain ⟨h1, v', h2, h3⟩ := hi
    have := merged_read hP hM h1 h2
    rw [hv] at this; cases this
    exact ⟨m, raw, hM, ok_upd hok (fun _ _ => rfl) (fun _ _ => rfl) h3⟩
  | write ht hv =>
    rw [ht] at hi
    obtain ⟨h1, h2, h3⟩ := hi
    refine ⟨_, raw, (merged_write hP hM h1 h2 _).2, ok_upd hok (fun k hk => by simp [hk]) (fun _ _ => rfl) ?_⟩
    simp only [Function.update_self]; exact h3
  | acquire ht hb =>
    rw [ht] at hi
    obtain ⟨h1, h2⟩ := merged_acquire hM i hb
    refine ⟨m, _, h2, ok_upd hok (fun _ _ => rfl) (fun k hk => by simp [hk]) ?_⟩
    simp only [Function.update_self]
    exact hi _ (fun j hj => ⟨(h1 j hj).1, fun hs => (h1 j hj).2.1 ((hP.shared i _).1 hs), (h1 j hj).2.2⟩)
  | construct ht hq =>
    rw [ht] at hi
    obtain ⟨h1, h2⟩ := hi
    refine ⟨_, _, (merged_construct hM h1 _).2, ok_upd hok (fun k hk => by simp [hk]) (fun k hk => by simp [hk]) ?_⟩
    simp only [Function.update_self]; exact h2
  | release ht hb =>
    rw [ht] at hi
    obtain ⟨h1, h2⟩ := hi
    refine ⟨_, raw, (merged_release hM (i := i) fun j hj => ⟨(h1 j hj).1, fun hs => (h1 j hj).2 ((hP.shared i _).2 hs)⟩).2,
      ok_upd hok (fun k hk => by simp [hk]) (fun _ _ => rfl) ?_⟩
    simp only [Function.update_self]; exact h2

theorem inv_reach (hP : Apart S P) {σ τ : Sys α n} (h : Inv S P m₀ chk Q σ) (hr : Sys.Reach Arith.exact chk σ τ) : Inv S P m₀ chk Q τ := by
  induction hr with
  | refl => exact h
  | tail _ hst ih => exact inv_step hP ih hst

theorem inv_progress (hP : Apart S P) {σ : Sys α n} (h : Inv S P m₀ chk Q σ) (i : Fin n) :
    σ.finished i ∨ ∃ τ, Sys.Step Arith.exact chk i σ τ := by
  obtain ⟨m, raw, hM, hok⟩ := h
  have hi := hok i
  cases ht : σ.threads i with
  | mk cur todo =>
    rw [ht] at hi
    cases cur with
    | done env =>
      cases todo with
      | nil => exact .inl ⟨env, ht⟩
      | cons s p => exact .inr ⟨_, .next ht⟩
    | stop f => exact hi.elim
    | read q k =>
      obtain ⟨h1, v, h2, _⟩ := hi
      exact .inr ⟨_, .read ht (merged_read hP hM h1 h2)⟩
    | write q v k =>
      obtain ⟨h1, h2, _⟩ := hi
      exact .inr ⟨_, .write ht (merged_write hP hM h1 h2 v).1⟩
    | acquire l k =>
      obtain ⟨B, hB⟩ := hM.finite
      exact .inr ⟨_, .acquire (b := B) ht fun j _ => hB _ (by omega)⟩
    | construct q v k => exact .inr ⟨_, .construct ht (merged_construct hM hi.1 v).1⟩
    | release b l k =>
      exact .inr ⟨_, .release ht (merged_release hM (i := i) fun j hj => ⟨(hi.1 j hj).1, fun hs => (hi.1 j hj).2 ((hP.shared i _).2 hs)⟩).1⟩

/-- What a thread is about to access. -/
theorem next_perm {P : Perm} {Q : Env → Mem α → (Nat → Prop) → Prop} {f : Env → Act α Env} {a : Act α Env} {m : Mem α} {raw : Nat → Prop}
    (h : (a.bind f).Ok P Q m raw) {q : Nat} {c : Bool} (hn : a.next q c) :
    (m q ≠ none ∨ raw q) ∧ ((c = false ∧ P.R q) ∨ (c = true ∧ (P.W q ∨ ¬ P.S q ∨ raw q))) := by
  cases a with
  | done b => exact hn.elim
  | stop f => exact hn.elim
  | read p k =>
    obtain ⟨rfl, rfl⟩ := hn
    obtain ⟨h1, v, h2, _⟩ := h
    exact ⟨.inl (by rw [h2]; simp), .inl ⟨rfl, h1⟩⟩
  | write p v k =>
    obtain ⟨rfl, rfl⟩ := hn
    obtain ⟨h1, h2, _⟩ := h
    exact ⟨.inl h2, .inr ⟨rfl, .inl h1⟩⟩
  | acquire l k => exact hn.elim
  | construct p v k =>
    obtain ⟨rfl, rfl⟩ := hn
    exact ⟨.inr h.1, .inr ⟨rfl, .inr (.inr h.1)⟩⟩
  | release b l k =>
    obtain ⟨h1, h2, rfl⟩ := hn
    have := h.1 (q - b) (by omega)
    rw [show b + (q - b) = q by omega] at this
    exact ⟨.inl this.1, .inr ⟨rfl, .inr (.inl this.2)⟩⟩

theorem inv_no_race (hP : Apart S P) {σ : Sys α n} (h : Inv S P m₀ chk Q σ) : ¬ σ.Race := by
  obtain ⟨m, raw, hM, hok⟩ := h
  rintro ⟨i, k, q, b, c, hik, hb, hc, hor⟩
  obtain ⟨a1, a2⟩ := next_perm (hok i) hb
  obtain ⟨b1, b2⟩ := next_perm (hok k) hc
  by_cases hS : S q
  · have w1 : ∀ {i b}, (b = false ∧ (P i).R q) ∨ (b = true ∧ ((P i).W q ∨ ¬ (P i).S q ∨ raw i q)) → b = true → (P i).W q := by
      intro i b h hb
      rcases h with ⟨h, _⟩ | ⟨_, h | h | h⟩
      · rw [hb] at h; cases h
      · exact h
      · exact (h ((hP.shared i q).2 hS)).elim
      · exact ((hM.rawFree i q h).1 hS).elim
    rcases hor with hbt | hct
    · have hw := w1 a2 hbt
      cases c with
      | true => exact (hP.sep i k hik q hS hw).2 (w1 b2 rfl)
      | false =>
        rcases b2 with ⟨_, h⟩ | ⟨h, _⟩
        · exact (hP.sep i k hik q hS hw).1 h
        · cases h
    · have hw := w1 b2 hct
      cases b with
      | true => exact (hP.sep k i (fun e => hik e.symm) q hS hw).2 (w1 a2 rfl)
      | false =>
        rcases a2 with ⟨_, h⟩ | ⟨h, _⟩
        · exact (hP.sep k i (fun e => hik e.symm) q hS hw).1 h
        · cases h
  · rcases a1 with ha | ha <;> rcases b1 with hb | hb
    · exact hik (hM.owner i k q hS ha hb)
    · have := hM.own i q hS ha
      rw [(hM.rawFree k q hb).2] at this; exact ha this.symm
    · have := hM.own k q hS hb
      rw [(hM.rawFree i q ha).2] at this; exact hb this.symm
    · exact hik (hM.rawOwner i k q ha hb)

end

end
end Jules

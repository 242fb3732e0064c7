import Verif.Lemmas.Threads
import Mathlib.Data.DFinsupp.WellFounded
import Mathlib.Order.Fin.Basic
/-
C72: threads that share arrays.
-/
namespace Jules.Props
open Spec

section
variable {α : Type} {n : Nat} {w : World α} {G : AStore α} {R W : Fin n → ElemSet} {A : Fin n → AStore α} {p : Fin n → List (Stmt α)}

theorem perms_apart (hs : Separate R W) : Apart (fun q => ∃ x c, w.env x = some c ∧ Covers (cells c) q) fun i => permOf w (R i) (W i) where
  shared _ _ := Iff.rfl
  sep i k hik q hS hW := by
    obtain ⟨x, c, hx, j, hj, rfl⟩ := hS
    have := hs i k hik x j (hW x c j hx hj rfl)
    exact ⟨fun h => this.1 (h x c j hx hj rfl), fun h => this.2 (h x c j hx hj rfl)⟩

theorem shared_iff (H : HoldsStore w G) (x : Nat) : G x = none ↔ w.env x = none := by
  constructor
  · exact H.out x
  · intro h
    cases hx : G x with
    | none => rfl
    | some a => obtain ⟨_, c, h1, _⟩ := H.arr x a hx; rw [h] at h1; cases h1

theorem inv_threads (H : HoldsStore w G) (chk : Bool) (t : Fin n → Thread α)
    (hok : ∀ i, ((t i).cur.bind (runAct Arith.exact chk (t i).todo)).Ok (permOf w (R i) (W i))
      (fun env m raw => (∀ q, ¬ raw q) ∧ HoldsStore ⟨m, env, 0⟩ (A i) ∧ Sees w env) w.mem (fun _ => False)) :
    Inv (fun q => ∃ x c, w.env x = some c ∧ Covers (cells c) q) (fun i => permOf w (R i) (W i)) w.mem chk
      (fun i env m raw => (∀ q, ¬ raw q) ∧ HoldsStore ⟨m, env, 0⟩ (A i) ∧ Sees w env) ⟨w.mem, fun _ => false, t⟩ := by
  have halive : ∀ q, (∃ x c, w.env x = some c ∧ Covers (cells c) q) → w.mem q ≠ none := by
    rintro q ⟨x, c, hx, j, hj, rfl⟩
    cases ha : G x with
    | none => rw [H.out x ha] at hx; cases hx
    | some a =>
      obtain ⟨_, d, h1, h2, h3⟩ := H.arr x a ha
      rw [hx] at h1; cases h1
      rw [h3 j (by rw [← h2]; exact hj)]; simp
  refine ⟨fun _ => w.mem, fun _ _ => False, ?_, hok⟩
  refine ⟨fun _ _ _ _ => rfl, fun _ _ _ => rfl, fun _ _ _ _ => rfl, halive, fun _ _ _ _ => rfl, ?_, ?_, ?_, ?_, ?_, ?_⟩
  · intro i k q hS hn _
    obtain ⟨x, c, hx⟩ := H.only q hn
    exact (hS ⟨x, c, hx⟩).elim
  · intro q hS hn
    obtain ⟨x, c, hx⟩ := H.only q hn
    exact (hS ⟨x, c, hx⟩).elim
  · intro q; simp
  · intro i q h; exact h.elim
  · intro i k q h; exact h.elim
  · obtain ⟨B, hB⟩ := H.finite
    exact ⟨B, fun q hq => ⟨hB q hq, rfl⟩⟩

theorem inv_start (H : HoldsStore w G) (hr : ∀ i, ThreadRuns G (R i) (W i) G (p i) (A i)) (chk : Bool) :
    Inv (fun q => ∃ x c, w.env x = some c ∧ Covers (cells c) q) (fun i => permOf w (R i) (W i)) w.mem chk
      (fun i env m raw => (∀ q, ¬ raw q) ∧ HoldsStore ⟨m, env, 0⟩ (A i) ∧ Sees w env) (Sys.start w p) :=
  inv_threads H chk _ fun i => thread_ok (shared_iff H) chk (hr i) (holds_clock H 0) (fun _ _ hx => hx)

/-- **C72**: threads (any number, any programs) that keep out of each other's way never race, never do anything wrong and never wait: at any
point of any interleaving there is no data race, and every thread has finished or can go on. -/
theorem C72_safe (hs : Separate R W) (H : HoldsStore w G) (hr : ∀ i, ThreadRuns G (R i) (W i) G (p i) (A i)) (chk : Bool)
    {σ : Sys α n} (hσ : Sys.Reach Arith.exact chk (Sys.start w p) σ) :
    ¬ σ.Race ∧ ∀ i, σ.finished i ∨ ∃ τ, Sys.Step Arith.exact chk i σ τ := by
  have h := inv_reach (perms_apart hs) (inv_start H hr chk) hσ
  exact ⟨inv_no_race (perms_apart hs) h, inv_progress (perms_apart hs) h⟩

theorem result_of_inv (H : HoldsStore w G) {chk : Bool} {σ : Sys α n}
    (hI : Inv (fun q => ∃ x c, w.env x = some c ∧ Covers (cells c) q) (fun i => permOf w (R i) (W i)) w.mem chk
      (fun i env m raw => (∀ q, ¬ raw q) ∧ HoldsStore ⟨m, env, 0⟩ (A i) ∧ Sees w env) σ) (hf : ∀ i, σ.finished i) : HoldsAll w G W A σ := by
  obtain ⟨m, raw, hM, hok⟩ := hI
  have key : ∀ i, ∃ env, σ.threads i = ⟨.done env, []⟩ ∧ (∀ q, ¬ raw i q) ∧ HoldsStore ⟨m i, env, 0⟩ (A i) ∧ Sees w env := by
    intro i
    obtain ⟨env, he⟩ := hf i
    have hi := hok i
    rw [he] at hi
    exact ⟨env, he, hi⟩
  have hcell : ∀ {x c j}, w.env x = some c → InB c.ext j → ∃ x c', w.env x = some c' ∧ Covers (cells c') ((cells c).pos j) :=
    fun {x c j} hx hj => ⟨x, c, hx, j, hj, rfl⟩
  have hWq : ∀ {i x c j}, w.env x = some c → InB c.ext j → (W i x j ↔ (permOf w (R i) (W i)).W ((cells c).pos j)) := by
    intro i x c j hx hj
    constructor
    · intro h y d k hy hk hq
      by_cases hxy : x = y
      · subst hxy
        rw [hx] at hy; cases hy
        have : j = k := cells_inj (c := c) hj hk hq
        rwa [← this]
      · exact (H.sep x y c d _ hxy hx hy ⟨j, hj, rfl⟩ ⟨k, hk, hq.symm⟩).elim
    · intro h; exact h x c j hx hj rfl
  have hnone : ∀ {x c}, G x = none → w.env x = some c → False := by
    intro x c h1 h2; rw [H.out x h1] at h2; cases h2
  have hsome : ∀ {x}, G x ≠ none → ∃ c, w.env x = some c := by
    intro x h
    obtain ⟨a, ha⟩ := Option.ne_none_iff_exists'.1 h
    obtain ⟨_, c, h1, _⟩ := H.arr x a ha
    exact ⟨c, h1⟩
  have hunsh : ∀ {i env x c q}, HoldsStore ⟨m i, env, 0⟩ (A i) → Sees w env → G x = none → env x = some c → Covers (cells c) q →
      ¬ ∃ x c, w.env x = some c ∧ Covers (cells c) q := by
    rintro i env x c q hH hS hG hx hcov ⟨y, d, hy, hcd⟩
    have hxy : x ≠ y := by rintro rfl; exact hnone hG hy
    exact hH.sep x y c d q hxy hx (hS y d hy) hcov hcd
  have hlive : ∀ {i env x c q}, HoldsStore ⟨m i, env, 0⟩ (A i) → env x = some c → Covers (cells c) q → m i q ≠ none := by
    rintro i env x c q hH hx ⟨j, hj, rfl⟩
    cases ha : A i x with
    | none => have h : env x = none := hH.out x ha; rw [hx] at h; cases h
    | some a =>
      obtain ⟨_, d, h1, h2, h3⟩ := hH.arr x a ha
      change env x = some d at h1
      rw [hx] at h1; cases h1
      have := h3 j (by rw [← h2]; exact hj)
      simp only at this
      rw [this]; simp
  refine ⟨?_, ?_, ?_, ?_, ?_, ?_⟩
  · intro i x c b j hx hG hb hj hw
    obtain ⟨env, _, _, hH, hS⟩ := key i
    rw [hM.written i _ (hcell hx hj) ((hWq hx hj).1 hw)]
    obtain ⟨_, d, h1, h2, h3⟩ := hH.arr x b hb
    have := hS x c hx
    change env x = some d at h1
    rw [this] at h1; cases h1
    exact h3 j (by rw [← h2]; exact hj)
  · intro x c a j hx ha hj hno
    rw [hM.same _ (hcell hx hj) (fun i hi => hno i ((hWq hx hj).2 hi))]
    obtain ⟨_, d, h1, h2, h3⟩ := H.arr x a ha
    rw [hx] at h1; cases h1
    exact h3 j (by rw [← h2]; exact hj)
  · intro i
    obtain ⟨env, he, _, hH, hS⟩ := key i
    refine ⟨env, by rw [envOf, he], ?_, hH.out, ?_⟩
    · intro x hx
      obtain ⟨c, hc⟩ := hsome hx
      rw [hc]; exact hS x c hc
    · intro x b hb
      obtain ⟨_, c, h1, h2, h3⟩ := hH.arr x b hb
      refine ⟨c, h1, h2, ?_⟩
      intro hG j hj
      have hcov : Covers (cells c) ((cells c).pos j) := ⟨j, by rw [cells, arrayView, h2]; exact hj, rfl⟩
      rw [hM.own i _ (hunsh hH hS hG h1 hcov) (hlive hH h1 hcov)]
      exact h3 j hj
  · intro i k env env' x y c d q hik he he' hG hx hy hcov hcd
    obtain ⟨env1, he1, _, hH, hS⟩ := key i
    obtain ⟨env2, he2, _, hH', hS'⟩ := key k
    rw [envOf, he1] at he; cases he
    rw [envOf, he2] at he'; cases he'
    exact hik (hM.owner i k q (hunsh hH hS hG hx hcov) (hlive hH hx hcov) (hlive hH' hy hcd))
  · intro q hq
    by_cases hS : ∃ x c, w.env x = some c ∧ Covers (cells c) q
    · exact .inl hS
    · obtain ⟨i, hi⟩ := hM.only q hS hq
      obtain ⟨env, he, _, hH, _⟩ := key i
      obtain ⟨x, c, hx, hc⟩ := hH.only q hi
      exact .inr ⟨i, env, x, c, by rw [envOf, he], hx, hc⟩
  · intro q
    cases hr : σ.raw q with
    | false => rfl
    | true =>
      obtain ⟨i, hi⟩ := (hM.raws q).1 hr
      obtain ⟨_, _, h, _⟩ := key i
      exact (h q hi).elim

/-- Whatever the interleaving, and whatever the allocator returns, the result is the one each thread computes alone. -/
theorem C72_result (hs : Separate R W) (H : HoldsStore w G) (hr : ∀ i, ThreadRuns G (R i) (W i) G (p i) (A i)) (chk : Bool)
    {σ : Sys α n} (hσ : Sys.Reach Arith.exact chk (Sys.start w p) σ) (hf : ∀ i, σ.finished i) : HoldsAll w G W A σ :=
  result_of_inv H (inv_reach (perms_apart hs) (inv_start H hr chk) hσ) hf

/-! ### Termination -/

/-- One step of a thread. -/
inductive TStep (Ar : Arith) (chk : Bool) : Thread α → Thread α → Prop
  | next : TStep Ar chk ⟨stmtAct Ar chk env s, l'⟩ ⟨.done env, s :: l'⟩
  | read : TStep Ar chk ⟨k v, l'⟩ ⟨.read q k, l'⟩
  | write : TStep Ar chk ⟨k, l'⟩ ⟨.write q v k, l'⟩
  | acquire : TStep Ar chk ⟨k b, l'⟩ ⟨.acquire l k, l'⟩
  | construct : TStep Ar chk ⟨k, l'⟩ ⟨.construct q v k, l'⟩
  | release : TStep Ar chk ⟨k, l'⟩ ⟨.release b l k, l'⟩

theorem tstep_acc (Ar : Arith) (chk : Bool) : ∀ (p : List (Stmt α)) (a : Act α Env), Acc (TStep Ar chk) ⟨a, p⟩ := by
  intro p
  induction p with
  | nil =>
    intro a
    induction a with
    | done b => exact ⟨_, fun t ht => by cases ht⟩
    | stop f => exact ⟨_, fun t ht => by cases ht⟩
    | read q k ih => exact ⟨_, fun t ht => by cases ht; exact ih _⟩
    | write q v k ih => exact ⟨_, fun t ht => by cases ht; exact ih⟩
    | acquire l k ih => exact ⟨_, fun t ht => by cases ht; exact ih _⟩
    | construct q v k ih => exact ⟨_, fun t ht => by cases ht; exact ih⟩
    | release b l k ih => exact ⟨_, fun t ht => by cases ht; exact ih⟩
  | cons s p ihp =>
    intro a
    induction a with
    | done b => exact ⟨_, fun t ht => by cases ht; exact ihp _⟩
    | stop f => exact ⟨_, fun t ht => by cases ht⟩
    | read q k ih => exact ⟨_, fun t ht => by cases ht; exact ih _⟩
    | write q v k ih => exact ⟨_, fun t ht => by cases ht; exact ih⟩
    | acquire l k ih => exact ⟨_, fun t ht => by cases ht; exact ih _⟩
    | construct q v k ih => exact ⟨_, fun t ht => by cases ht; exact ih⟩
    | release b l k ih => exact ⟨_, fun t ht => by cases ht; exact ih⟩

theorem step_tstep {Ar : Arith} {chk : Bool} {σ τ : Sys α n} {i : Fin n} (h : Sys.Step Ar chk i σ τ) :
    TStep Ar chk (τ.threads i) (σ.threads i) ∧ ∀ k, k ≠ i → τ.threads k = σ.threads k := by
  cases h with
  | next ht => exact ⟨by rw [ht]; simp only [upd_same]; exact .next, fun k hk => upd_other _ _ hk⟩
  | read ht _ => exact ⟨by rw [ht]; simp only [upd_same]; exact .read, fun k hk => upd_other _ _ hk⟩
  | write ht _ => exact ⟨by rw [ht]; simp only [upd_same]; exact .write, fun k hk => upd_other _ _ hk⟩
  | acquire ht _ => exact ⟨by rw [ht]; simp only [upd_same]; exact .acquire, fun k hk => upd_other _ _ hk⟩
  | construct ht _ => exact ⟨by rw [ht]; simp only [upd_same]; exact .construct, fun k hk => upd_other _ _ hk⟩
  | release ht _ => exact ⟨by rw [ht]; simp only [upd_same]; exact .release, fun k hk => upd_other _ _ hk⟩

/-- There is no infinite execution, whatever the schedule (and whatever the threads do to each other). -/
theorem C72_terminates (Ar : Arith) (chk : Bool) : WellFounded fun τ σ : Sys α n => ∃ i, Sys.Step Ar chk i σ τ := by
  have hT : WellFounded (TStep Ar chk : Thread α → Thread α → Prop) := ⟨fun t => tstep_acc Ar chk t.todo t.cur⟩
  have hL : WellFounded (Pi.Lex (β := fun _ : Fin n => Thread α) (· < ·) (fun {_} => TStep Ar chk)) :=
    Pi.Lex.wellFounded (s := fun _ : Fin n => TStep Ar chk) (· < ·) (fun _ => hT)
  refine Subrelation.wf ?_ (InvImage.wf (fun σ : Sys α n => σ.threads) hL)
  rintro τ σ ⟨i, h⟩
  obtain ⟨h1, h2⟩ := step_tstep h
  exact ⟨i, fun k hk => h2 k (ne_of_lt hk), h1⟩

/-- So every execution, continued in any way, ends with all threads finished. -/
theorem C72_ends (hs : Separate R W) (H : HoldsStore w G) (hr : ∀ i, ThreadRuns G (R i) (W i) G (p i) (A i)) (chk : Bool)
    {σ : Sys α n} (hσ : Sys.Reach Arith.exact chk (Sys.start w p) σ) :
    ∃ τ, Sys.Reach Arith.exact chk σ τ ∧ (∀ i, τ.finished i) ∧ HoldsAll w G W A τ := by
  have trans : ∀ {ρ σ τ : Sys α n}, Sys.Reach Arith.exact chk ρ σ → Sys.Reach Arith.exact chk σ τ → Sys.Reach Arith.exact chk ρ τ := by
    intro ρ σ τ h1 h2
    induction h2 with
    | refl => exact h1
    | tail _ hst ih => exact .tail ih hst
  induction σ using (C72_terminates (α := α) (n := n) Arith.exact chk).induction with
  | _ σ ih =>
    by_cases hf : ∀ i, σ.finished i
    · exact ⟨σ, .refl, hf, C72_result hs H hr chk hσ hf⟩
    · obtain ⟨i, hi⟩ := Classical.not_forall.1 hf
      obtain ⟨τ, hτ⟩ := ((C72_safe hs H hr chk hσ).2 i).resolve_left hi
      obtain ⟨υ, h1, h2⟩ := ih τ ⟨i, hτ⟩ (.tail hσ hτ)
      exact ⟨υ, trans (.tail .refl hτ) h1, h2⟩

end

/-! ### Threads that do not keep out of each other's way -/

/-- An array of one element, zero. -/
def oneZero : World Nat := ⟨fun q => if q = 0 then some 0 else none, fun x => if x = 0 then some ⟨0, [1]⟩ else none, 0⟩

/-- Both threads: `x += 1`. -/
def bothAdd : Fin 2 → List (Stmt Nat) := fun _ => [.inPlaceScalar 0 [] (· + ·) (.const 1)]

theorem add_act (chk : Bool) : stmtAct Arith.exact chk oneZero.env (.inPlaceScalar 0 [] (· + ·) (.const 1) : Stmt Nat) =
    .read 0 fun a => .write 0 (a + 1) (.done oneZero.env) := by cases chk <;> rfl

/-- Without separation the claim is false: of two increments by different threads one can be lost (and there is a data race). -/
theorem C72_lost_update (chk : Bool) : ∃ σ τ : Sys Nat 2, Sys.Reach Arith.exact chk (Sys.start oneZero bothAdd) σ ∧ σ.Race ∧
    Sys.Reach Arith.exact chk σ τ ∧ (∀ i, τ.finished i) ∧ τ.mem 0 = some 1 := by
  let e := oneZero.env
  let rd : Act Nat Env := .read 0 fun a => .write 0 (a + 1) (.done e)
  have h1 : Sys.Reach Arith.exact chk (Sys.start oneZero bothAdd) ⟨oneZero.mem, fun _ => false, fun _ => ⟨rd, []⟩⟩ := by
    have s1 := Sys.Step.next (A := Arith.exact) (chk := chk) (σ := Sys.start oneZero bothAdd) (i := 0) rfl
    have s2 := Sys.Reach.tail (.tail .refl s1) (Sys.Step.next (A := Arith.exact) (chk := chk) (i := 1) rfl)
    rw [add_act] at s2
    refine Eq.mp ?_ s2
    congr 1
    simp only [Sys.mk.injEq, true_and]
    refine ⟨rfl, rfl, ?_⟩
    funext i
    match i with
    | 0 => rfl
    | 1 => rfl
  let mid (m : Mem Nat) (a b : Act Nat Env) : Sys Nat 2 := ⟨m, fun _ => false, fun i => if i = 0 then ⟨a, []⟩ else ⟨b, []⟩⟩
  let wr : Act Nat Env := .write 0 (0 + 1) (.done e)
  have hupd0 : ∀ (m : Mem Nat) (a b c : Act Nat Env), (mid m a b).upd 0 ⟨c, []⟩ = (mid m c b).threads := by
    intro m a b c; funext i
    match i with
    | 0 => rfl
    | 1 => rfl
  have hupd1 : ∀ (m : Mem Nat) (a b c : Act Nat Env), (mid m a b).upd 1 ⟨c, []⟩ = (mid m a c).threads := by
    intro m a b c; funext i
    match i with
    | 0 => rfl
    | 1 => rfl
  let m0 := oneZero.mem
  let m1 := m0.set 0 (0 + 1)
  let m2 := m1.set 0 (0 + 1)
  have t1 : Sys.Step Arith.exact chk 0 (mid m0 rd rd) (mid m0 wr rd) := by
    have := Sys.Step.read (A := Arith.exact) (chk := chk) (σ := mid m0 rd rd) (i := 0) (v := 0) (q := 0) (p := []) rfl rfl
    rwa [hupd0] at this
  have t2 : Sys.Step Arith.exact chk 1 (mid m0 wr rd) (mid m0 wr wr) := by
    have := Sys.Step.read (A := Arith.exact) (chk := chk) (σ := mid m0 wr rd) (i := 1) (v := 0) (q := 0) (p := []) rfl rfl
    rwa [hupd1] at this
  have t3 : Sys.Step Arith.exact chk 0 (mid m0 wr wr) (mid m1 (.done e) wr) := by
    have := Sys.Step.write (A := Arith.exact) (chk := chk) (σ := mid m0 wr wr) (i := 0) (q := 0) (p := []) rfl (by decide)
    rwa [hupd0] at this
  have t4 : Sys.Step Arith.exact chk 1 (mid m1 (.done e) wr) (mid m2 (.done e) (.done e)) := by
    have := Sys.Step.write (A := Arith.exact) (chk := chk) (σ := mid m1 (.done e) wr) (i := 1) (q := 0) (p := []) rfl (by decide)
    rwa [hupd1] at this
  refine ⟨mid m0 wr wr, mid m2 (.done e) (.done e), ?_, ?_, .tail (.tail .refl t3) t4, ?_, rfl⟩
  · refine .tail (.tail ?_ t1) t2
    have : mid m0 rd rd = ⟨oneZero.mem, fun _ => false, fun _ => ⟨rd, []⟩⟩ := by
      simp only [mid, Sys.mk.injEq, true_and]
      exact ⟨rfl, by funext i; simp⟩
    rw [this]; exact h1
  · exact ⟨0, 1, 0, true, true, by decide, ⟨rfl, rfl⟩, ⟨rfl, rfl⟩, .inl rfl⟩
  · intro i
    match i with
    | 0 => exact ⟨e, rfl⟩
    | 1 => exact ⟨e, rfl⟩

/-! ### A concrete case: the rows of a matrix, one thread for each -/

/-- A matrix `x` (array 0) and a vector `y` (array 1). -/
def rowsStore (n k : Nat) (xs ys : List Nat → Nat) : AStore Nat := fun z =>
  if z = 0 then some ⟨[n, k], xs⟩ else if z = 1 then some ⟨[k], ys⟩ else none

/-- Thread `i`: `auto t = y * y; x[i] += t;` and the end of `t`. -/
def rowsProg (n : Nat) : Fin n → List (Stmt Nat) := fun i =>
  [.make 2 (.bin (· * ·) (.arr 1 []) (.arr 1 [])), .inPlace 0 [.at i] (· + ·) (.arr 2 []), .drop 2]

def rowsT (n k : Nat) (xs ys : List Nat → Nat) : AStore Nat := fun z =>
  if z = 2 then some ⟨[k], fun j => ys j * ys j⟩ else rowsStore n k xs ys z

def rowsX (i : Nat) (xs ys : List Nat → Nat) (j : List Nat) : Nat := if j.headD 0 = i then xs j + ys j.tail * ys j.tail else xs j

theorem rows_runs {n k : Nat} (hk : k ≠ 0) (xs ys : List Nat → Nat) (i : Fin n) :
    ThreadRuns (rowsStore n k xs ys) (fun z j => z = 1 ∨ (z = 0 ∧ ∃ t, j = i.val :: t)) (fun z j => z = 0 ∧ ∃ t, j = i.val :: t)
      (rowsStore n k xs ys) (rowsProg n i) (rowsStore n k (rowsX i xs ys) ys) := by
  have hn : n ≠ 0 := by have := i.isLt; omega
  have hci : ∀ e : List Nat, Chain e [] ⟨e, fun j => j⟩ := fun e => ⟨trivial, rfl, rfl⟩
  have hrow : Chain [n, k] [.at i.val] ⟨[k], fun t => i.val :: t⟩ := by
    refine ⟨⟨⟨?_, trivial, by simp [sel], fun a ha => ?_⟩, trivial⟩, rfl, rfl⟩
    · intro x hx
      simp only [arrayView, List.mem_cons, List.not_mem_nil, or_false] at hx
      rcases hx with rfl | rfl
      · exact hn
      · exact hk
    · simp only [sel, List.mem_singleton] at ha
      subst ha; exact i.isLt
  have hview : ∀ {S : AStore Nat} {a : AVal Nat} {v : IView} {y h x j}, S x = some a → imeaning a.ext h = .view v → viewElem S y h x j → y = x ∧ v.Has j := by
    rintro S a v y h x j ha hv ⟨rfl, b, u, hb, hu, hj⟩
    rw [ha] at hb; cases hb
    rw [hv] at hu; cases hu
    exact ⟨rfl, hj⟩
  refine .cons (A₁ := rowsT n k xs ys) ?_ ?_ ?_ ?_ ?_ (.cons (A₁ := fun z => if z = 0 then some ⟨[n, k], rowsX i xs ys⟩ else rowsT n k xs ys z)
    ?_ ?_ ?_ ?_ ?_ (.cons (A₁ := rowsStore n k (rowsX i xs ys) ys) ?_ ?_ ?_ ?_ ?_ .nil))
  · exact ⟨rfl, [k], by simp, ⟨⟨[k], ys⟩, _, rfl, hci [k], rfl⟩, ⟨⟨[k], ys⟩, _, rfl, hci [k], rfl⟩⟩
  · intro x hx
    simp only [remakes, List.mem_singleton] at hx
    subst hx; rfl
  · rintro x j _ (⟨rfl, _⟩ | ⟨rfl, _⟩) <;> exact .inl rfl
  · intro x j _ h; exact h.elim
  · refine ⟨[k], ⟨⟨⟨[k], ys⟩, _, rfl, hci [k], rfl⟩, ⟨⟨[k], ys⟩, _, rfl, hci [k], rfl⟩⟩, ?_⟩
    refine ⟨fun y hy => by simp [rowsT, hy], ⟨[k], fun j => ys j * ys j⟩, rfl, rfl, ?_⟩
    intro j _; rfl
  · refine ⟨⟨[n, k], xs⟩, _, rfl, hrow, by simp, ?_, ⟨⟨[k], fun j => ys j * ys j⟩, _, rfl, hci [k], rfl⟩, ?_⟩
    · intro a b _ _ h; simpa using h
    · intro a b _ _ _ hr
      have : exReads (rowsT n k xs ys) (.arr 2 []) a = [(2, a)] := rfl
      rw [this] at hr
      simp at hr
  · intro x hx; simp [remakes] at hx
  · rintro x j hx (h | h)
    · obtain ⟨rfl, _⟩ := id h
      obtain ⟨_, t, _, rfl⟩ := hview (a := ⟨[n, k], xs⟩) rfl rfl h
      exact .inr ⟨rfl, t, rfl⟩
    · obtain ⟨rfl, _⟩ := h
      exact (hx rfl).elim
  · intro x j hx h
    obtain ⟨rfl, _⟩ := id h
    obtain ⟨_, t, _, rfl⟩ := hview (a := ⟨[n, k], xs⟩) rfl rfl h
    exact ⟨rfl, t, rfl⟩
  · refine ⟨fun y hy => by simp [hy], ⟨[n, k], xs⟩, ⟨[n, k], rowsX i xs ys⟩, _, rfl, rfl, rfl, rfl, ?_, ?_⟩
    · intro t ht
      simp [old, exVal, rowsT, rowsStore, imeaning, istep, rowsX]
    · intro j hj hno
      match j, hj with
      | a :: t, hj =>
        have : a ≠ i.val := by
          rintro rfl
          exact hno ⟨t, hj.2, rfl⟩
        simp [rowsX, this]
  · show (if (2 : Nat) = 0 then _ else _) ≠ none
    simp [rowsT]
  · intro x hx
    simp only [remakes, List.mem_singleton] at hx
    subst hx; rfl
  · intro x j _ h; exact h.elim
  · intro x j _ h; exact h.elim
  · refine ⟨?_, rfl⟩
    intro y hy
    by_cases h0 : y = 0
    · subst h0; rfl
    · simp [rowsStore, rowsT, h0, hy]

theorem rows_separate (n : Nat) : Separate (n := n) (fun i z j => z = 1 ∨ (z = 0 ∧ ∃ t, j = i.val :: t)) (fun i z j => z = 0 ∧ ∃ t, j = i.val :: t) := by
  rintro i k hik x j ⟨rfl, t, rfl⟩
  have h : ∀ u, i.val :: t ≠ k.val :: u := by
    intro u hu
    rw [List.cons.injEq] at hu
    exact hik (Fin.ext hu.1)
  refine ⟨?_, ?_⟩
  · rintro (h' | ⟨_, u, hu⟩)
    · cases h'
    · exact h u hu
  · rintro ⟨_, u, hu⟩
    exact h u hu

/-- The hypotheses of C72 are met by this program: for any number of rows and columns and any interleaving, the threads end, without a race,
with `x[i][j] + y[j]²` in all places, `y` unchanged and the temporaries gone. -/
theorem C72_rows {n k : Nat} (hk : k ≠ 0) (xs ys : List Nat → Nat) {w : World Nat} (H : HoldsStore w (rowsStore n k xs ys)) (chk : Bool)
    {σ : Sys Nat n} (hσ : Sys.Reach Arith.exact chk (Sys.start w (rowsProg n)) σ) : ¬ σ.Race ∧ ∃ τ, Sys.Reach Arith.exact chk σ τ ∧
      (∀ i, τ.finished i) ∧ ∃ c d, w.env 0 = some c ∧ w.env 1 = some d ∧
      (∀ i j, i < n → j < k → τ.mem (c.base + (i + n * j)) = some (xs [i, j] + ys [j] * ys [j])) ∧
      (∀ j, j < k → τ.mem (d.base + j) = some (ys [j])) := by
  have hr := fun i => rows_runs (n := n) hk xs ys i
  obtain ⟨τ, h1, h2, h3⟩ := C72_ends (rows_separate n) H hr chk hσ
  refine ⟨(C72_safe (rows_separate n) H hr chk hσ).1, τ, h1, h2, ?_⟩
  obtain ⟨_, c, hc, hce, _⟩ := H.arr 0 ⟨[n, k], xs⟩ rfl
  obtain ⟨_, d, hd, hde, _⟩ := H.arr 1 ⟨[k], ys⟩ rfl
  refine ⟨c, d, hc, hd, ?_, ?_⟩
  · intro i j hi hj
    have := h3.changed ⟨i, hi⟩ 0 c ⟨[n, k], rowsX i xs ys⟩ [i, j] hc (by simp [rowsStore]) rfl (by rw [hce]; exact ⟨hi, hj, trivial⟩) ⟨rfl, [j], rfl⟩
    rw [cells, arrayView, hce] at this
    simp only [cmSum, rowsX] at this
    simpa [List.range_succ, Nat.mul_comm, prod] using this
  · intro j hj
    have := h3.same 1 d ⟨[k], ys⟩ [j] hd rfl (by rw [hde]; exact ⟨hj, trivial⟩) (fun i h => by cases h.1)
    rw [cells, arrayView, hde] at this
    simpa [cmSum, List.range_succ, prod] using this

/-- There are states that hold such arrays. -/
theorem rows_state : ∃ w : World Nat, HoldsStore w (rowsStore 2 2 (cmSum [2, 2]) (fun j => 5 + cmSum [2] j)) := by
  obtain ⟨alloc, hal⟩ := goodAlloc_exists
  have e1 : Effect (fun _ => none) (.makeFrom 0 [0, 1, 2, 3] [2, 2]) (fun x => if x = 0 then some ⟨[2, 2], cmSum [2, 2]⟩ else none) := by
    refine ⟨fun y hy => by simp [hy], ⟨[2, 2], cmSum [2, 2]⟩, rfl, rfl, ?_⟩
    intro i hi
    have : ∀ i ∈ multiIdx [2, 2], [0, 1, 2, 3][cmSum [2, 2] i]? = some (cmSum [2, 2] i) := by decide
    exact this i (mem_multiIdx.2 hi)
  have e2 : Effect (fun x => if x = 0 then some ⟨[2, 2], cmSum [2, 2]⟩ else none) (.makeFrom 1 [5, 6] [2])
      (rowsStore 2 2 (cmSum [2, 2]) (fun j => 5 + cmSum [2] j)) := by
    refine ⟨fun y hy => by simp [rowsStore, hy], ⟨[2], fun j => 5 + cmSum [2] j⟩, rfl, rfl, ?_⟩
    intro i hi
    have : ∀ i ∈ multiIdx [2], [5, 6][cmSum [2] i]? = some (5 + cmSum [2] i) := by decide
    exact this i (mem_multiIdx.2 hi)
  have l1 : StmtLegal (fun _ => none) (.makeFrom 0 [0, 1, 2, 3] [2, 2] : Stmt Nat) := ⟨rfl, by decide, by decide⟩
  have l2 : StmtLegal (fun x => if x = 0 then some ⟨[2, 2], cmSum [2, 2]⟩ else none) (.makeFrom 1 [5, 6] [2] : Stmt Nat) :=
    ⟨rfl, by decide, by decide⟩
  obtain ⟨w, _, h⟩ := C65_program (.cons l1 e1 (.cons l2 e2 .nil)) true hal
  exact ⟨w, h⟩

/-- Two threads, one for each row: the hypotheses of the theorems are met. -/
example := C72_safe (rows_separate 2) rows_state.choose_spec (fun i => rows_runs (k := 2) (by decide) _ _ i) true .refl
example := C72_result (rows_separate 2) rows_state.choose_spec (fun i => rows_runs (k := 2) (by decide) _ _ i) true .refl
example := C72_ends (rows_separate 2) rows_state.choose_spec (fun i => rows_runs (k := 2) (by decide) _ _ i) true .refl

example := C72_rows (n := 2) (k := 2) (by decide) _ _ rows_state.choose_spec true .refl

end Jules.Props

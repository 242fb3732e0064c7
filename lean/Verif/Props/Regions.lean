import Verif.Spec.Regions
import Verif.Props.Concurrent
/-
C91: parallel regions of threads with control flow.
-/
namespace Jules.Props
open Spec

section
variable {α : Type} {n : Nat} {w : World α} {G : AStore α} {R W : Fin n → ElemSet} {A : Fin n → AStore α} {p : Fin n → TProg α}

theorem branch_ok {w₀ : World α} {G : AStore α} (hG : ∀ x, G x = none ↔ w₀.env x = none) (chk : Bool) {R W : ElemSet} {p : TProg α} {A A' : AStore α}
    (hr : BranchRuns G R W A p A') : ∀ {m : Mem α} {env : Env}, HoldsStore ⟨m, env, 0⟩ A → Sees w₀ env →
    (p.act Arith.exact chk env).Ok (permOf w₀ R W) (fun env m raw => (∀ q, ¬ raw q) ∧ HoldsStore ⟨m, env, 0⟩ A' ∧ Sees w₀ env) m
      (fun _ => False) := by
  induction hr with
  | ret => intro m env H hs; exact ⟨fun q h => h, H, hs⟩
  | @exec A s A₁ p A' hl hm hR hW he _ ih =>
    intro m env H hs
    refine ok_bind (ok_mono ?_ (stmt_act (w := ⟨m, env, 0⟩) (Q := fun env m => HoldsStore ⟨m, env, 0⟩ A₁ ∧ Sees w₀ env)
      (fun q h => (perm_local w₀ R W q h).2) (fun q h => (perm_local w₀ R W q h).1) H.finite ?_ ?_ ?_))
    · rintro env m raw ⟨h1, h2, h3⟩
      have : raw = fun _ => False := by funext q; exact eq_false (h1 q)
      subst this
      exact ih h2 h3
    · intro alloc hal
      obtain ⟨w', h1, h2⟩ := stmt_ok H hl chk hal
      refine ⟨w', h1, holds_clock (h2 _ he) 0, ?_⟩
      intro x c hx
      rw [step_env h1 (x := x)]
      · exact hs x c hx
      · intro hin
        have := (hG x).1 (hm x hin)
        rw [hx] at this; cases this
    · exact stmt_foot H hs chk hl (fun x j hx => hR x j (fun h => hx ((hG x).1 h))) (fun x j hx => hW x j (fun h => hx ((hG x).1 h)))
    · intro x hx c hc i hi
      exact own_cells H hs ((hG x).1 (hm x hx)) hc i hi
  | @read A s v A' k hl hR hv _ ih =>
    intro m env H hs
    obtain ⟨c, y, h1, h2, h3, _⟩ := sc_ok H hl chk
    rw [hv] at h3; cases h3
    have hin := sc_foot H hs hl chk (E := R) (fun x j hx => hR x j (fun h => hx ((hG x).1 h))) c h1
    refine ok_lift (b := c) ((env_sc Arith.exact chk ⟨m, env, 0⟩ s).trans h1) ?_
    exact ok_bind (sc_act h2 hin (ih H hs))

theorem inv_fork (H : HoldsStore w G) (hr : ∀ i, BranchRuns G (R i) (W i) G (p i) (A i)) (chk : Bool) :
    Inv (fun q => ∃ x c, w.env x = some c ∧ Covers (cells c) q) (fun i => permOf w (R i) (W i)) w.mem chk
      (fun i env m raw => (∀ q, ¬ raw q) ∧ HoldsStore ⟨m, env, 0⟩ (A i) ∧ Sees w env) (Sys.fork Arith.exact chk w p) :=
  inv_threads H chk _ fun i => ok_bind (branch_ok (shared_iff H) chk (hr i) (holds_clock H 0) (fun _ _ hx => hx))

/-- **C91** (one region). Threads with control flow that keep out of each other's way: at any point of any interleaving there is no data race, and
every thread has finished or can go on. -/
theorem C91_region_safe (hs : Separate R W) (H : HoldsStore w G) (hr : ∀ i, BranchRuns G (R i) (W i) G (p i) (A i)) (chk : Bool)
    {σ : Sys α n} (hσ : Sys.Reach Arith.exact chk (Sys.fork Arith.exact chk w p) σ) :
    ¬ σ.Race ∧ ∀ i, σ.finished i ∨ ∃ τ, Sys.Step Arith.exact chk i σ τ := by
  have h := inv_reach (perms_apart hs) (inv_fork H hr chk) hσ
  exact ⟨inv_no_race (perms_apart hs) h, inv_progress (perms_apart hs) h⟩

/-- **C91** (one region). Whatever the interleaving, every thread takes the decisions it would take alone, and the result is the one each thread
computes alone. -/
theorem C91_region_result (hs : Separate R W) (H : HoldsStore w G) (hr : ∀ i, BranchRuns G (R i) (W i) G (p i) (A i)) (chk : Bool)
    {σ : Sys α n} (hσ : Sys.Reach Arith.exact chk (Sys.fork Arith.exact chk w p) σ) (hf : ∀ i, σ.finished i) : HoldsAll w G W A σ :=
  result_of_inv H (inv_reach (perms_apart hs) (inv_fork H hr chk) hσ) hf

theorem reach_trans {Ar : Arith} {chk : Bool} {ρ σ τ : Sys α n} (h1 : Sys.Reach Ar chk ρ σ) (h2 : Sys.Reach Ar chk σ τ) : Sys.Reach Ar chk ρ τ := by
  induction h2 with
  | refl => exact h1
  | tail _ hst ih => exact .tail ih hst

/-- **C91** (one region). Every execution of the region, continued in any way, ends with all threads finished (`C72_terminates`: there is no infinite
one). -/
theorem C91_region_ends (hs : Separate R W) (H : HoldsStore w G) (hr : ∀ i, BranchRuns G (R i) (W i) G (p i) (A i)) (chk : Bool)
    {σ : Sys α n} (hσ : Sys.Reach Arith.exact chk (Sys.fork Arith.exact chk w p) σ) :
    ∃ τ, Sys.Reach Arith.exact chk σ τ ∧ (∀ i, τ.finished i) ∧ HoldsAll w G W A τ := by
  induction σ using (C72_terminates (α := α) (n := n) Arith.exact chk).induction with
  | _ σ ih =>
    by_cases hf : ∀ i, σ.finished i
    · exact ⟨σ, .refl, hf, C91_region_result hs H hr chk hσ hf⟩
    · obtain ⟨i, hi⟩ := Classical.not_forall.1 hf
      obtain ⟨τ, hτ⟩ := ((C91_region_safe hs H hr chk hσ).2 i).resolve_left hi
      obtain ⟨υ, h1, h2⟩ := ih τ ⟨i, hτ⟩ (.tail hσ hτ)
      exact ⟨υ, reach_trans (.tail .refl hτ) h1, h2⟩

/-- After the region the main program holds the shared arrays, with the elements the threads have left. -/
theorem joined_holds (H : HoldsStore w G) {σ : Sys α n} (hA : HoldsAll w G W A σ) (hown : ∀ i x, G x = none → A i x = none) {G' : AStore α}
    (hj : Joined G W A G') (k : Nat) : HoldsStore ⟨σ.mem, w.env, k⟩ G' := by
  have honly : ∀ q, σ.mem q ≠ none → ∃ x c, w.env x = some c ∧ Covers (cells c) q := by
    intro q hq
    rcases hA.only q hq with h | ⟨i, env, x, c, he, hx, hc⟩
    · exact h
    · obtain ⟨env', he', h1, h2, _⟩ := hA.own i
      rw [envOf] at he he'
      rw [he] at he'; cases he'
      by_cases hg : G x = none
      · rw [h2 x (hown i x hg)] at hx; cases hx
      · exact ⟨x, c, by rw [← h1 x hg]; exact hx, hc⟩
  refine ⟨?_, ?_, H.sep, honly, ?_⟩
  · intro x b hb
    cases ha : G x with
    | none => rw [((hj x).1).1 ha] at hb; cases hb
    | some a =>
      obtain ⟨h1, c, h2, h3, h4⟩ := H.arr x a ha
      obtain ⟨h5, h6⟩ := (hj x).2 a b ha hb
      refine ⟨by rw [h5]; exact h1, c, h2, by rw [h3, h5], ?_⟩
      intro j hjb
      rw [h5] at hjb
      obtain ⟨h7, h8⟩ := h6 j hjb
      by_cases hw : ∃ i, W i x j
      · obtain ⟨i, hw⟩ := hw
        obtain ⟨env, he, e1, e2, e3⟩ := hA.own i
        have hgx : G x ≠ none := by rw [ha]; simp
        cases hc : A i x with
        | none =>
          have := e2 x hc
          rw [e1 x hgx, h2] at this; cases this
        | some d =>
          rw [h7 i d hw hc]
          exact hA.changed i x c d j h2 hgx hc (by rw [h3]; exact hjb) hw
      · have hno : ∀ i, ¬ W i x j := fun i hi => hw ⟨i, hi⟩
        rw [h8 hno]
        exact hA.same x c a j h2 ha (by rw [h3]; exact hjb) hno
  · intro x hx
    exact H.out x (((hj x).1).2 hx)
  · obtain ⟨B, hB⟩ := H.finite
    refine ⟨B, fun q hq => ?_⟩
    apply Classical.byContradiction
    intro hne
    obtain ⟨x, c, hx, j, hji, rfl⟩ := honly q hne
    cases ha : G x with
    | none => rw [H.out x ha] at hx; cases hx
    | some a =>
      obtain ⟨_, d, h1, h2, h3⟩ := H.arr x a ha
      rw [hx] at h1; cases h1
      have := h3 j (by rw [← h2]; exact hji)
      rw [hB _ hq] at this; cases this

end

section
variable {α : Type} {G G' : AStore α} {w : World α} {ps : List (Phase α)} {alloc : Nat → Mem α → Nat → Nat}

/-- **C91** (result). However the threads of the regions are interleaved, when the main program has ended, memory holds what the specification says. -/
theorem C91_result (hr : RegionsRun G ps G') (chk : Bool) (hal : GoodAlloc alloc) : ∀ {w w' : World α}, HoldsStore w G →
    Phase.Ends Arith.exact chk alloc w ps w' → HoldsStore w' G' := by
  induction hr with
  | nil => intro w w' H he; cases he; exact H
  | seq hl hf _ ih =>
    intro w w' H he
    cases he with
    | seq h1 h2 =>
      obtain ⟨w₁, e1, e2⟩ := stmt_ok H hl chk hal
      rw [h1] at e1; cases e1
      exact ih (e2 _ hf) h2
  | par hs hb ho hj _ ih =>
    intro w w' H he
    cases he with
    | par h1 h2 h3 => exact ih (joined_holds H (C91_region_result hs H hb chk h1 h2) ho hj _) h3

/-- **C91** (it ends). The main program can always be carried to its end. -/
theorem C91_ends (hr : RegionsRun G ps G') (chk : Bool) (hal : GoodAlloc alloc) : ∀ {w : World α}, HoldsStore w G →
    ∃ w', Phase.Ends Arith.exact chk alloc w ps w' := by
  induction hr with
  | nil => intro w H; exact ⟨w, .nil⟩
  | seq hl hf _ ih =>
    intro w H
    obtain ⟨w₁, e1, e2⟩ := stmt_ok H hl chk hal
    obtain ⟨w', h⟩ := ih (e2 _ hf)
    exact ⟨w', .seq e1 h⟩
  | par hs hb ho hj _ ih =>
    intro w H
    obtain ⟨τ, h1, h2, h3⟩ := C91_region_ends hs H hb chk .refl
    obtain ⟨w', h⟩ := ih (w := ⟨τ.mem, w.env, w.clock⟩) (joined_holds H h3 ho hj _)
    exact ⟨w', .par h1 h2 h⟩

/-- **C91** (safety). Wherever the main program gets to: its next statement is executed without anything going wrong; in its next region there is never a
data race, every thread has finished or can go on, and the region ends. -/
theorem C91_safe (hr : RegionsRun G ps G') (chk : Bool) (hal : GoodAlloc alloc) : ∀ {w w₁ : World α} {pre post : List (Phase α)} {f : Phase α},
    HoldsStore w G → ps = pre ++ f :: post → Phase.Ends Arith.exact chk alloc w pre w₁ →
    (∀ s, f = .seq s → ∃ w₂, w₁.step Arith.exact chk alloc s = .ok w₂) ∧
    ∀ n progs, f = .par n progs → ∀ σ, Sys.Reach Arith.exact chk (Sys.fork Arith.exact chk w₁ progs) σ →
      ¬ σ.Race ∧ (∀ i, σ.finished i ∨ ∃ τ, Sys.Step Arith.exact chk i σ τ) ∧ ∃ τ, Sys.Reach Arith.exact chk σ τ ∧ ∀ i, τ.finished i := by
  induction hr with
  | nil => intro w w₁ pre post f _ h; cases pre <;> cases h
  | seq hl hf _ ih =>
    intro w w₁ pre post f H he hp
    cases pre with
    | nil =>
      cases he; cases hp
      obtain ⟨w₂, e1, _⟩ := stmt_ok H hl chk hal
      exact ⟨fun s h => by cases h; exact ⟨w₂, e1⟩, fun n progs h => by cases h⟩
    | cons g pre =>
      cases he
      cases hp with
      | seq h1 h2 =>
        obtain ⟨w₂, e1, e2⟩ := stmt_ok H hl chk hal
        rw [h1] at e1; cases e1
        exact ih (e2 _ hf) rfl h2
  | par hs hb ho hj _ ih =>
    intro w w₁ pre post f H he hp
    cases pre with
    | nil =>
      cases he; cases hp
      refine ⟨fun s h => (by cases h), fun n progs h σ hσ => ?_⟩
      cases h
      obtain ⟨τ, h1, h2, _⟩ := C91_region_ends hs H hb chk hσ
      obtain ⟨g1, g2⟩ := C91_region_safe hs H hb chk hσ
      exact ⟨g1, g2, τ, h1, h2⟩
    | cons g pre =>
      cases he
      cases hp with
      | par h1 h2 h3 => exact ih (joined_holds H (C91_region_result hs H hb chk h1 h2) ho hj _) rfl h3

end

/-! ### A concrete case: clamp, then reverse -/

/-- Vectors `x` (array 0) and `y` (array 1) of `n` elements. -/
def twoVectors (n : Nat) (xs ys : List Nat → Nat) : AStore Nat := fun z =>
  if z = 0 then some ⟨[n], xs⟩ else if z = 1 then some ⟨[n], ys⟩ else none

/-- Thread `i`: `if (x[i] < 3) x[i] = 3;`. -/
def clampProg (n : Nat) : Fin n → TProg Nat := fun i =>
  .read (.elem 0 [.at i]) fun v => if v < 3 then .exec (.fill 0 [.at i] (.const 3)) .ret else .ret

/-- Thread `i`: `y[i] = x[n - 1 - i];`. -/
def reverseProg (n : Nat) : Fin n → TProg Nat := fun i => .exec (.fill 1 [.at i] (.elem 0 [.at (n - 1 - i)])) .ret

/-- Clamp `x` in parallel, then reverse it into `y` in parallel. -/
def clampReverse (n : Nat) : List (Phase Nat) := [.par n (clampProg n), .par n (reverseProg n)]

theorem branch_ret {α : Type} {G A A' : AStore α} {R W : ElemSet} (h : A = A') : BranchRuns G R W A .ret A' := by subst h; exact .ret

theorem elem_chain {n i : Nat} (h : i < n) : Chain [n] [.at i] ⟨[], fun t => i :: t⟩ := by
  refine ⟨⟨⟨?_, trivial, by simp [sel], fun a ha => ?_⟩, trivial⟩, rfl, rfl⟩
  · intro x hx
    simp only [arrayView, List.mem_singleton] at hx
    omega
  · simp only [sel, List.mem_singleton] at ha
    subst ha; exact h

theorem elem_view {S : AStore Nat} {a : AVal Nat} {y i x : Nat} {j : List Nat} {n : Nat} (ha : S y = some a) (he : a.ext = [n])
    (h : viewElem S y [.at i] x j) : x = y ∧ j = [i] := by
  obtain ⟨rfl, b, u, hb, hu, t, ht, hj⟩ := h
  rw [ha] at hb; cases hb
  rw [he] at hu
  cases hu
  match t, ht with
  | [], _ => exact ⟨rfl, hj.symm⟩

theorem one_writes {S : AStore Nat} {a : AVal Nat} {y i n v : Nat} {f : List Nat → Option Nat} (ha : S y = some a) (he : a.ext = [n]) (hf : f [] = some v) :
    Writes S y [.at i] f (fun z => if z = y then some ⟨[n], fun j => if j = [i] then v else a.elt j⟩ else S z) := by
  refine ⟨fun z hz => by simp [hz], a, ⟨[n], fun j => if j = [i] then v else a.elt j⟩, ⟨[], fun t => i :: t⟩, ha, by simp, by rw [he]; rfl, he.symm, ?_, ?_⟩
  · intro t ht
    match t, ht with
    | [], _ => simpa using hf
  · intro j _ hno
    have : j ≠ [i] := by rintro rfl; exact hno ⟨[], trivial, rfl⟩
    simp [this]

theorem clamp_runs {n : Nat} (xs ys : List Nat → Nat) (i : Fin n) :
    BranchRuns (twoVectors n xs ys) (fun z j => z = 0 ∧ j = [i.val]) (fun z j => z = 0 ∧ j = [i.val]) (twoVectors n xs ys) (clampProg n i)
      (twoVectors n (fun j => if j = [i.val] ∧ xs j < 3 then 3 else xs j) ys) := by
  refine .read (v := xs [i.val]) ⟨⟨[n], xs⟩, _, rfl, elem_chain i.isLt, rfl⟩ ?_ rfl ?_
  · intro x j _ h
    exact elem_view (a := ⟨[n], xs⟩) rfl rfl h
  · by_cases h : xs [i.val] < 3
    · rw [if_pos h]
      refine .exec ⟨by simp, trivial, ⟨[n], xs⟩, _, rfl, elem_chain i.isLt⟩ (by simp [remakes]) ?_ ?_
        (one_writes (a := ⟨[n], xs⟩) (n := n) (v := 3) rfl rfl rfl) ?_
      · intro x j _ h; exact h.elim
      · intro x j _ h; exact elem_view (a := ⟨[n], xs⟩) rfl rfl h
      · refine branch_ret ?_
        funext z
        by_cases hz : z = 0
        · subst hz
          simp only [twoVectors, if_true, Option.some.injEq, AVal.mk.injEq, true_and]
          funext j
          by_cases hj : j = [i.val]
          · subst hj; simp [h]
          · simp [hj]
        · simp [twoVectors, hz]
    · rw [if_neg h]
      refine branch_ret ?_
      funext z
      by_cases hz : z = 0
      · subst hz
        simp only [twoVectors, if_true, Option.some.injEq, AVal.mk.injEq, true_and]
        funext j
        by_cases hj : j = [i.val]
        · subst hj; simp [h]
        · simp [hj]
      · simp [twoVectors, hz]

theorem reverse_runs {n : Nat} (xs ys : List Nat → Nat) (i : Fin n) :
    BranchRuns (twoVectors n xs ys) (fun z _ => z = 0) (fun z j => z = 1 ∧ j = [i.val]) (twoVectors n xs ys) (reverseProg n i)
      (twoVectors n xs (fun j => if j = [i.val] then xs [n - 1 - i.val] else ys j)) := by
  have hn : n - 1 - i.val < n := by have := i.isLt; omega
  refine .exec ⟨by simp, ⟨⟨[n], xs⟩, _, rfl, elem_chain hn, rfl⟩, ⟨[n], ys⟩, _, rfl, elem_chain i.isLt⟩ (by simp [remakes]) ?_ ?_
    (one_writes (a := ⟨[n], ys⟩) (n := n) (v := xs [n - 1 - i.val]) rfl rfl rfl) ?_
  · intro x j _ h; exact (elem_view (a := ⟨[n], xs⟩) rfl rfl h).1
  · intro x j _ h; exact elem_view (a := ⟨[n], ys⟩) rfl rfl h
  · refine branch_ret ?_
    funext z
    by_cases hz : z = 1
    · subst hz; simp [twoVectors]
    · simp [twoVectors, hz]

theorem clampReverse_runs (n : Nat) (xs ys : List Nat → Nat) :
    RegionsRun (twoVectors n xs ys) (clampReverse n)
      (twoVectors n (fun j => max 3 (xs j)) (fun j => max 3 (xs [n - 1 - j.headD 0]))) := by
  refine .par (R := fun i z j => z = 0 ∧ j = [i.val]) (W := fun i z j => z = 0 ∧ j = [i.val])
    (A := fun i => twoVectors n (fun j => if j = [i.val] ∧ xs j < 3 then 3 else xs j) ys) (G₁ := twoVectors n (fun j => max 3 (xs j)) ys)
    ?_ (fun i => clamp_runs xs ys i) ?_ ?_ ?_
  · rintro i k hik x j ⟨rfl, rfl⟩
    have : [i.val] ≠ [k.val] := by intro h; exact hik (Fin.ext (List.cons.inj h).1)
    exact ⟨fun h => this h.2, fun h => this h.2⟩
  · intro i x hx
    by_cases h0 : x = 0
    · subst h0; cases hx
    · by_cases h1 : x = 1
      · subst h1; cases hx
      · simp [twoVectors, h0, h1]
  · intro x
    by_cases h0 : x = 0
    · subst h0
      refine ⟨by simp [twoVectors], ?_⟩
      intro a b ha hb
      cases ha; cases hb
      refine ⟨rfl, fun j hj => ⟨?_, ?_⟩⟩
      · rintro i c ⟨_, rfl⟩ hc
        cases hc
        simp only [true_and]
        split <;> omega
      · intro hno
        match j, hj with
        | [k], hj => exact absurd ⟨rfl, rfl⟩ (hno ⟨k, hj.1⟩)
    · by_cases h1 : x = 1
      · subst h1
        refine ⟨by simp [twoVectors], ?_⟩
        intro a b ha hb
        cases ha; cases hb
        exact ⟨rfl, fun j hj => ⟨fun i c h => (by cases h.1), fun _ => rfl⟩⟩
      · exact ⟨by simp [twoVectors, h0, h1], fun a b ha => by simp [twoVectors, h0, h1] at ha⟩
  · refine .par (R := fun i z _ => z = 0) (W := fun i z j => z = 1 ∧ j = [i.val])
      (A := fun i => twoVectors n (fun j => max 3 (xs j)) (fun j => if j = [i.val] then max 3 (xs [n - 1 - i.val]) else ys j)) ?_
      (fun i => reverse_runs _ ys i) ?_ ?_ .nil
    · rintro i k hik x j ⟨rfl, rfl⟩
      have : [i.val] ≠ [k.val] := by intro h; exact hik (Fin.ext (List.cons.inj h).1)
      exact ⟨fun h => (by cases h), fun h => this h.2⟩
    · intro i x hx
      by_cases h0 : x = 0
      · subst h0; cases hx
      · by_cases h1 : x = 1
        · subst h1; cases hx
        · simp [twoVectors, h0, h1]
    · intro x
      by_cases h0 : x = 0
      · subst h0
        refine ⟨by simp [twoVectors], ?_⟩
        intro a b ha hb
        cases ha; cases hb
        exact ⟨rfl, fun j hj => ⟨fun i c h => (by cases h.1), fun _ => rfl⟩⟩
      · by_cases h1 : x = 1
        · subst h1
          refine ⟨by simp [twoVectors], ?_⟩
          intro a b ha hb
          cases ha; cases hb
          refine ⟨rfl, fun j hj => ⟨?_, ?_⟩⟩
          · rintro i c ⟨_, rfl⟩ hc
            cases hc
            simp
          · intro hno
            match j, hj with
            | [k], hj => exact absurd ⟨rfl, rfl⟩ (hno ⟨k, hj.1⟩)
        · exact ⟨by simp [twoVectors, h0, h1], fun a b ha => by simp [twoVectors, h0, h1] at ha⟩

/-- The hypotheses of C91 are met by this program, for vectors of any length: without a race, whatever the interleaving, `y` becomes the reverse of the
clamped `x`. (In the second region thread `i` reads an element that belonged to another thread in the first.) -/
theorem C91_clamp_reverse {n : Nat} (xs ys : List Nat → Nat) {w w' : World Nat} (H : HoldsStore w (twoVectors n xs ys)) (chk : Bool)
    {alloc : Nat → Mem Nat → Nat → Nat} (hal : GoodAlloc alloc) (he : Phase.Ends Arith.exact chk alloc w (clampReverse n) w') :
    ∃ c d, w'.env 0 = some c ∧ w'.env 1 = some d ∧ ∀ i, i < n →
      w'.mem (c.base + i) = some (max 3 (xs [i])) ∧ w'.mem (d.base + i) = some (max 3 (xs [n - 1 - i])) := by
  have h := C91_result (clampReverse_runs n xs ys) chk hal H he
  obtain ⟨_, c, hc, hce, hcv⟩ := h.arr 0 ⟨[n], fun j => max 3 (xs j)⟩ rfl
  obtain ⟨_, d, hd, hde, hdv⟩ := h.arr 1 ⟨[n], fun j => max 3 (xs [n - 1 - j.headD 0])⟩ rfl
  refine ⟨c, d, hc, hd, fun i hi => ⟨?_, ?_⟩⟩
  · have := hcv [i] ⟨hi, trivial⟩
    rw [cells, arrayView, hce] at this
    simpa [cmSum, List.range_succ, prod] using this
  · have := hdv [i] ⟨hi, trivial⟩
    rw [cells, arrayView, hde] at this
    simpa [cmSum, List.range_succ, prod] using this

/-- There are states that hold such vectors. -/
theorem twoVectors_state : ∃ w : World Nat, HoldsStore w (twoVectors 2 (cmSum [2]) (fun j => 5 + cmSum [2] j)) := by
  obtain ⟨alloc, hal⟩ := goodAlloc_exists
  have e1 : Effect (fun _ => none) (.makeFrom 0 [0, 1] [2]) (fun x => if x = 0 then some ⟨[2], cmSum [2]⟩ else none) := by
    refine ⟨fun y hy => by simp [hy], ⟨[2], cmSum [2]⟩, rfl, rfl, ?_⟩
    intro i hi
    have : ∀ i ∈ multiIdx [2], [0, 1][cmSum [2] i]? = some (cmSum [2] i) := by decide
    exact this i (mem_multiIdx.2 hi)
  have e2 : Effect (fun x => if x = 0 then some ⟨[2], cmSum [2]⟩ else none) (.makeFrom 1 [5, 6] [2])
      (twoVectors 2 (cmSum [2]) (fun j => 5 + cmSum [2] j)) := by
    refine ⟨fun y hy => by simp [twoVectors, hy], ⟨[2], fun j => 5 + cmSum [2] j⟩, rfl, rfl, ?_⟩
    intro i hi
    have : ∀ i ∈ multiIdx [2], [5, 6][cmSum [2] i]? = some (5 + cmSum [2] i) := by decide
    exact this i (mem_multiIdx.2 hi)
  have l1 : StmtLegal (fun _ => none) (.makeFrom 0 [0, 1] [2] : Stmt Nat) := ⟨rfl, by decide, by decide⟩
  have l2 : StmtLegal (fun x => if x = 0 then some ⟨[2], cmSum [2]⟩ else none) (.makeFrom 1 [5, 6] [2] : Stmt Nat) :=
    ⟨rfl, by decide, by decide⟩
  obtain ⟨w, _, h⟩ := C65_program (.cons l1 e1 (.cons l2 e2 .nil)) true hal
  exact ⟨w, h⟩

example := C91_region_safe (n := 2) (R := fun i z j => z = 0 ∧ j = [i.val]) (W := fun i z j => z = 0 ∧ j = [i.val])
  (by
    rintro i k hik x j ⟨rfl, rfl⟩
    have : [i.val] ≠ [k.val] := by intro h; exact hik (Fin.ext (List.cons.inj h).1)
    exact ⟨fun h => this h.2, fun h => this h.2⟩)
  twoVectors_state.choose_spec (fun i => clamp_runs _ _ i) true .refl
example := C91_ends (clampReverse_runs 2 (cmSum [2]) (fun j => 5 + cmSum [2] j)) true goodAlloc_exists.choose_spec twoVectors_state.choose_spec
example := C91_safe (clampReverse_runs 2 (cmSum [2]) (fun j => 5 + cmSum [2] j)) true goodAlloc_exists.choose_spec (pre := [])
  twoVectors_state.choose_spec rfl .nil
example {w' : World Nat} := C91_clamp_reverse (n := 2) _ _ twoVectors_state.choose_spec true goodAlloc_exists.choose_spec (w' := w')

/-! ### Threads that do not keep out of each other's way -/

/-- An array of three elements, zeros. -/
def threeZeros : World Nat := ⟨fun q => if q < 3 then some 0 else none, fun x => if x = 0 then some ⟨0, [3]⟩ else none, 0⟩

/-- Thread `i`: `if (x[0] == 0) { x[0] = 1; x[i + 1] = 1; }`: the first one to come should enter. -/
def enterProg : Fin 2 → TProg Nat := fun i =>
  .read (.elem 0 [.at 0]) fun v => if v = 0 then .exec (.fill 0 [.at 0] (.const 1)) (.exec (.fill 0 [.at (i + 1)] (.const 1)) .ret) else .ret

theorem enter_act (chk : Bool) (i : Fin 2) : (enterProg i).act Arith.exact chk threeZeros.env =
    .read 0 fun v => if v = 0 then .write 0 1 (.write (i.val + 1) 1 (.done threeZeros.env)) else .done threeZeros.env := by
  have key : ∀ v : Nat, (if v = 0 then TProg.exec (.fill 0 [.at 0] (.const 1)) (.exec (.fill 0 [.at (i.val + 1)] (.const 1)) .ret) else .ret : TProg Nat).act
      Arith.exact chk threeZeros.env = if v = 0 then .write 0 1 (.write (i.val + 1) 1 (.done threeZeros.env)) else .done threeZeros.env := by
    intro v
    by_cases h : v = 0
    · rw [if_pos h, if_pos h]
      match i with
      | 0 => cases chk <;> rfl
      | 1 => cases chk <;> rfl
    · rw [if_neg h, if_neg h]; rfl
  have : (enterProg i).act Arith.exact chk threeZeros.env = .read 0 fun v =>
      (if v = 0 then TProg.exec (.fill 0 [.at 0] (.const 1)) (.exec (.fill 0 [.at (i.val + 1)] (.const 1)) .ret) else .ret : TProg Nat).act
        Arith.exact chk threeZeros.env := by cases chk <;> rfl
  rw [this]
  congr 1
  funext v
  exact key v

/-- Without separation the claim is false: a thread can act on a decision that another thread has already made wrong. Both threads find 0 and enter,
although the first one sets the mark at once (and there is a data race). -/
theorem C91_check_then_act (chk : Bool) : ∃ σ τ : Sys Nat 2, Sys.Reach Arith.exact chk (Sys.fork Arith.exact chk threeZeros enterProg) σ ∧ σ.Race ∧
    Sys.Reach Arith.exact chk σ τ ∧ (∀ i, τ.finished i) ∧ τ.mem 1 = some 1 ∧ τ.mem 2 = some 1 := by
  let e := threeZeros.env
  let rd (k : Nat) : Act Nat Env := .read 0 fun v => if v = 0 then .write 0 1 (.write k 1 (.done e)) else .done e
  let w1 (k : Nat) : Act Nat Env := .write 0 1 (.write k 1 (.done e))
  let w2 (k : Nat) : Act Nat Env := .write k 1 (.done e)
  let mid (m : Mem Nat) (a b : Act Nat Env) : Sys Nat 2 := ⟨m, fun _ => false, fun i => if i = 0 then ⟨a, []⟩ else ⟨b, []⟩⟩
  have hupd0 : ∀ (m : Mem Nat) (a b c : Act Nat Env), (mid m a b).upd 0 ⟨c, []⟩ = (mid m c b).threads := by
    intro m a b c; funext i
    match i with
    | 0 => rfl
    | 1 => rfl
  have hupd1 : ∀ (m : Mem Nat) (a b c : Act Nat Env), (mid m a b).upd 1 ⟨c, []⟩ = (mid m a c).threads := by
    intro m a b c; funext i
    match i with
    | 0 => rfl
    | 1 => rfl
  have hr : ∀ (m : Mem Nat) (q : Nat) (k : Nat → Act Nat Env) (b : Act Nat Env) (v : Nat), m q = some v →
      Sys.Step Arith.exact chk 0 (mid m (.read q k) b) (mid m (k v) b) := by
    intro m q k b v h
    have := Sys.Step.read (A := Arith.exact) (chk := chk) (σ := mid m (.read q k) b) (i := 0) (v := v) (q := q) (p := []) rfl h
    rwa [hupd0] at this
  have hr1 : ∀ (m : Mem Nat) (q : Nat) (k : Nat → Act Nat Env) (a : Act Nat Env) (v : Nat), m q = some v →
      Sys.Step Arith.exact chk 1 (mid m a (.read q k)) (mid m a (k v)) := by
    intro m q k a v h
    have := Sys.Step.read (A := Arith.exact) (chk := chk) (σ := mid m a (.read q k)) (i := 1) (v := v) (q := q) (p := []) rfl h
    rwa [hupd1] at this
  have hw : ∀ (m : Mem Nat) (q v : Nat) (k b : Act Nat Env), m q ≠ none →
      Sys.Step Arith.exact chk 0 (mid m (.write q v k) b) (mid (m.set q v) k b) := by
    intro m q v k b h
    have := Sys.Step.write (A := Arith.exact) (chk := chk) (σ := mid m (.write q v k) b) (i := 0) (q := q) (p := []) rfl h
    rwa [hupd0] at this
  have hw1 : ∀ (m : Mem Nat) (q v : Nat) (k a : Act Nat Env), m q ≠ none →
      Sys.Step Arith.exact chk 1 (mid m a (.write q v k)) (mid (m.set q v) a k) := by
    intro m q v k a h
    have := Sys.Step.write (A := Arith.exact) (chk := chk) (σ := mid m a (.write q v k)) (i := 1) (q := q) (p := []) rfl h
    rwa [hupd1] at this
  let m0 := threeZeros.mem
  have hstart : Sys.fork Arith.exact chk threeZeros enterProg = mid m0 (rd 1) (rd 2) := by
    simp only [Sys.fork, mid, Sys.mk.injEq, true_and]
    refine ⟨rfl, ?_⟩
    funext i
    rw [enter_act]
    match i with
    | 0 => rfl
    | 1 => rfl
  let m1 := m0.set 0 1
  let m2 := m1.set 1 1
  let m3 := m2.set 0 1
  let m4 := m3.set 2 1
  refine ⟨mid m0 (w1 1) (w1 2), mid m4 (.done e) (.done e), ?_, ⟨0, 1, 0, true, true, by decide, ⟨rfl, rfl⟩, ⟨rfl, rfl⟩, .inl rfl⟩, ?_, ?_, rfl, rfl⟩
  · rw [hstart]
    exact .tail (.tail .refl (hr m0 0 _ (rd 2) 0 rfl)) (hr1 m0 0 _ (w1 1) 0 rfl)
  · exact .tail (.tail (.tail (.tail .refl (hw m0 0 1 (w2 1) (w1 2) (by decide))) (hw m1 1 1 (.done e) (w1 2) (by decide)))
      (hw1 m2 0 1 (w2 2) (.done e) (by decide))) (hw1 m3 2 1 (.done e) (.done e) (by decide))
  · intro i
    match i with
    | 0 => exact ⟨e, rfl⟩
    | 1 => exact ⟨e, rfl⟩

end Jules.Props

import Verif.Lemmas.Program64
import Verif.Props.Wrap
import Mathlib.Data.List.Perm.Subperm
/-
C71: programs on a 64-bit machine.
-/
namespace Jules.Props
open Spec

section
variable {α : Type} {w : World α} {B : Nat} {alloc : Nat → Mem α → Nat → Nat}

/-- **C71.** A statement for which 64 bits are enough, legal or not, has the same outcome in 64-bit arithmetic and with unlimited integers (in
a checked build), and the arrays remain below the address 2^62. -/
theorem C71_same (H : Intact w) (hb : Below w) {s : Stmt α} (hs : StmtFits B (worldExts w) s) (hal : GoodAlloc64 B alloc) :
    w.step Arith.u64 true alloc s = w.step Arith.exact true alloc s ∧ ∀ w', w.step Arith.u64 true alloc s = .ok w' → Below w' := by
  obtain ⟨h1, n, h2, h3⟩ := hs
  obtain ⟨k1, k2⟩ := step_agr hb H.order h1 (alloc := alloc) (alloc' := alloc) rfl (hal _ _ n _ (alive_of H.only h2) h3).2
  exact ⟨k1, fun w' hw => k2 w' (k1 ▸ hw)⟩

/-- The same with the allocator for unlimited memory on the exact side. -/
theorem same_unlimited (H : Intact w) (hb : Below w) {s : Stmt α} (hs : StmtFits B (worldExts w) s) (hal : GoodAlloc64 B alloc) :
    Agr (w.step Arith.u64 true alloc s) (w.step Arith.exact true (unlimited B alloc) s) Below := by
  obtain ⟨h1, n, h2, h3⟩ := hs
  exact step_agr hb H.order h1 (unlimited_eq (alive_of H.only h2) h3) (hal _ _ n _ (alive_of H.only h2) h3).2

theorem holds_intact {A : AStore α} (H : HoldsStore w A) : Intact w := by
  have harr : ∀ x c, w.env x = some c → ∃ a, A x = some a ∧ a.ext ≠ [] ∧ c.ext = a.ext ∧ ∀ i, InB a.ext i → w.mem ((cells c).pos i) = some (a.elt i) := by
    intro x c hx
    cases hA : A x with
    | none => rw [H.out x hA] at hx; cases hx
    | some a =>
      obtain ⟨h1, c', h2, h3, h4⟩ := H.arr x a hA
      rw [hx] at h2; cases h2
      exact ⟨a, rfl, h1, h3, h4⟩
  refine ⟨?_, ?_, H.sep, H.only, H.finite⟩
  · intro x c hx
    obtain ⟨a, _, h1, h2, _⟩ := harr x c hx
    rw [h2]; exact h1
  · intro x c q hx hq
    obtain ⟨a, _, _, h2, h3⟩ := harr x c hx
    obtain ⟨i, hi, rfl⟩ := hq
    have hi : InB c.ext i := hi
    rw [h2] at hi
    rw [h3 i hi]; simp

theorem holds_exts {A : AStore α} (H : HoldsStore w A) : worldExts w = A.exts := by
  funext x
  unfold worldExts AStore.exts
  cases hA : A x with
  | none => simp [H.out x hA]
  | some a =>
    obtain ⟨_, c, h2, h3, _⟩ := H.arr x a hA
    simp [h2, h3]

/-- **C71.** C65 on a 64-bit machine: a sequence of legal statements for which 64 bits are enough does, in every build, what its
specification says. -/
theorem C71_run {p : List (Stmt α)} {A A' : AStore α} (hr : Runs64 B A p A') (hal : GoodAlloc64 B alloc) (chk : Bool) : ∀ {w : World α},
    HoldsStore w A → Below w → ∃ w', w.run Arith.u64 chk alloc p = .ok w' ∧ HoldsStore w' A' ∧ Below w' := by
  induction hr with
  | nil => exact fun H hb => ⟨_, rfl, H, hb⟩
  | @cons A s A₁ p A' hl hf he _ ih =>
    intro w H hb
    rw [← holds_exts H] at hf
    obtain ⟨w1, h1, h2⟩ := stmt_ok H hl true (unlimited_good hal)
    obtain ⟨k1, k2⟩ := same_unlimited (holds_intact H) hb hf hal
    have hu := k1.trans h1
    have hu' : w.step Arith.u64 chk alloc s = .ok w1 := by
      cases chk
      · exact weak_step Arith.u64 alloc w _ w1 hu
      · exact hu
    obtain ⟨w2, q1, q2⟩ := ih (h2 _ he) (k2 w1 h1)
    exact ⟨w2, by simp only [World.run, hu', res_ok_bind, q1], q2⟩

/-- **C71.** Whole programs. -/
theorem C71_program {p : List (Stmt α)} {A' : AStore α} (hr : Runs64 B (fun _ => none) p A') (hal : GoodAlloc64 B alloc) (chk : Bool) :
    ∃ w', World.empty.run Arith.u64 chk alloc p = .ok w' ∧ HoldsStore w' A' := by
  have H : HoldsStore (World.empty : World α) (fun _ => none) :=
    { arr := nofun, out := fun _ _ => rfl, sep := by (intro x y c d q _ h; cases h), only := fun _ h => (h rfl).elim, finite := ⟨0, fun _ _ => rfl⟩ }
  obtain ⟨w', h1, h2, _⟩ := C71_run hr hal chk H (fun x c h => by cases h)
  exact ⟨w', h1, h2⟩

/-- **C71.** C68 on a 64-bit machine: whatever a program does, legal or not, as long as its index expressions and its arrays fit, a checked build
ends normally with intact memory, having changed only the arrays it names, or in an assertion, or it does not compile. -/
theorem C71_any {p : List (Stmt α)} (hal : GoodAlloc64 B alloc) : ∀ {w : World α}, Intact w → Below w → (∀ s ∈ p, Provided s) →
    FitsRun B alloc w p →
    (∃ w', w.run Arith.u64 true alloc p = .ok w' ∧ Intact w' ∧ Below w' ∧ (∀ y, (∀ s ∈ p, y ∉ changes s) → SameArray w w' y) ∧
        checkAll (ctxOf w) p = some (ctxOf w')) ∨
      w.run Arith.u64 true alloc p = .error .assert ∨
      (w.run Arith.u64 true alloc p = .error .illFormed ∧ checkAll (ctxOf w) p = none) := by
  induction p with
  | nil => exact fun H hb _ _ => .inl ⟨_, rfl, H, hb, fun _ _ => ⟨rfl, fun _ _ _ _ => rfl⟩, rfl⟩
  | cons s p ih =>
    intro w H hb hp ⟨hf, hrest⟩
    obtain ⟨k1, k2⟩ := same_unlimited H hb hf hal
    rcases C68_step H (hp s (by simp)) (unlimited_good hal) with ⟨w1, h1, h2, h3, h4⟩ | h1 | ⟨h1, h4⟩
    · have hu := k1.trans h1
      have hrun : ∀ r, w1.run Arith.u64 true alloc p = r → w.run Arith.u64 true alloc (s :: p) = r := by
        intro r hr; simp only [World.run, hu, res_ok_bind, hr]
      rcases ih h2 (k2 w1 h1) (fun t ht => hp t (by simp [ht])) (hrest w1 hu) with ⟨w2, q1, q2, q3, q4, q5⟩ | q1 | ⟨q1, q2⟩
      · refine .inl ⟨w2, hrun _ q1, q2, q3, fun y hy => ?_, by simp only [checkAll, h4, Option.bind_some, q5]⟩
        obtain ⟨a1, a2⟩ := h3 y (hy s (by simp))
        obtain ⟨b1, b2⟩ := q4 y fun t ht => hy t (by simp [ht])
        refine ⟨b1.trans a1, fun c q hc hq => ?_⟩
        rw [b2 c q (a1 ▸ hc) hq, a2 c q hc hq]
      · exact .inr (.inl (hrun _ q1))
      · exact .inr (.inr ⟨hrun _ q1, by simp only [checkAll, h4, Option.bind_some, q2]⟩)
    · exact .inr (.inl (by simp only [World.run, k1.trans h1]; rfl))
    · exact .inr (.inr ⟨by simp only [World.run, k1.trans h1]; rfl, by simp only [checkAll, h4, Option.bind_none]⟩)

/-! ### Such allocators exist -/

open Classical in
/-- An allocator that looks for a free block. -/
noncomputable def firstFit : Nat → Mem α → Nat → Nat := fun _ m n =>
  if h : ∃ a, (∀ i, i < n → m (a + i) = none) ∧ a + n < maxElems then h.choose else 0

/-- **C71.** The hypothesis about the allocator can be met: searching for a free block is enough, for a memory of 2^30 elements (wherever
the elements in use lie). -/
theorem C71_allocator : GoodAlloc64 (2 ^ 30) (firstFit (α := α)) := by
  intro k m u n ⟨l, hl, hm⟩ hu
  have hex : ∃ a, (∀ i, i < n → m (a + i) = none) ∧ a + n < maxElems := by
    rcases Nat.eq_zero_or_pos n with rfl | hn
    · exact ⟨0, fun i hi => by omega, by decide⟩
    · by_contra hno
      have hsub : List.range (u + 1) ⊆ l.map (· / n) := by
        intro j hj
        have hj := List.mem_range.1 hj
        by_contra hjl
        apply hno
        refine ⟨j * n, fun i hi => ?_, ?_⟩
        · by_contra hq
          apply hjl
          refine List.mem_map.2 ⟨j * n + i, hm _ hq, ?_⟩
          show (j * n + i) / n = j
          rw [Nat.mul_comm, Nat.mul_add_div hn, Nat.div_eq_of_lt hi]; rfl
        · have h1 : j * n ≤ 2 ^ 30 * 2 ^ 30 := Nat.mul_le_mul (by omega) (by omega)
          unfold maxElems
          omega
      have h1 := (List.nodup_range.subperm hsub).length_le
      simp only [List.length_range, List.length_map] at h1
      omega
  have : firstFit k m n = hex.choose := by unfold firstFit; rw [dif_pos hex]
  rw [this]
  exact hex.choose_spec

end

/-! ### Examples -/

/-- A program that meets the hypotheses of `C71_program`: `a = {1..6}` (2×3); `b = a[every][slice(0,2,2)] * 10`. -/
theorem ex_runs64 : ∃ A', Runs64 (2 ^ 30) (fun _ => none) [.makeFrom 0 [1, 2, 3, 4, 5, 6] [2, 3],
    .make 1 (.scr (· * ·) (.arr 0 [.every, .strided 0 2 2]) (.const 10))] A' := by
  have l1 : StmtLegal (fun _ => none) (.makeFrom 0 [1, 2, 3, 4, 5, 6] [2, 3]) := ⟨rfl, by decide, by decide⟩
  have l2 : StmtLegal (fun x => if x = 0 then some exA else none) (.make 1 (.scr (· * ·) (.arr 0 [.every, .strided 0 2 2]) (.const 10))) :=
    ⟨rfl, [2, 2], by decide, ⟨exA, _, rfl, ex_chain_cols, rfl⟩, trivial⟩
  obtain ⟨A2, h2⟩ := C65_progress l2
  refine ⟨A2, .cons l1 ⟨by show ∀ n ∈ [2, 3], n ≤ maxElems; decide, 0, ⟨[], fun x h => (h rfl).elim, by decide⟩, ?_⟩ ex_make
    (.cons l2 ⟨⟨?_, trivial⟩, 6, ⟨[0], ?_, by decide⟩, ?_⟩ h2 .nil)⟩
  · show 0 + prod [2, 3] ≤ 2 ^ 30; decide
  · intro e he
    have : e = [2, 3] := by
      have : some [2, 3] = some e := he
      exact (Option.some.inj this).symm
    subst this
    refine ⟨trivial, fun _ => ⟨trivial, ⟨by decide, by decide⟩, fun _ => ⟨?_, trivial⟩⟩⟩
    show prod _ ≤ maxElems
    decide
  · intro x hx
    by_cases h : x = 0
    · simp [h]
    · exact (hx (by simp [AStore.exts, h])).elim
  · show 6 + prod _ ≤ 2 ^ 30; decide

/-- A program that is not legal and meets the hypothesis of `C71_any`: `v[slice(7, 2)] = 7` on a vector of eight elements. -/
theorem ex_fits64 (alloc : Nat → Mem Nat → Nat → Nat) : FitsRun (2 ^ 30) alloc World.empty [.makeFill 0 (.const 1) [8], .fill 0 [.slice 7 2] (.const 7)] := by
  refine ⟨⟨⟨trivial, by show ∀ n ∈ [8], n ≤ maxElems; decide⟩, 0, ⟨[], fun x h => (h rfl).elim, by decide⟩, by show 0 + prod [8] ≤ 2 ^ 30; decide⟩,
    fun w hw => ⟨⟨⟨?_, trivial⟩, 8, ⟨[0], ?_, ?_⟩, by show 8 + 0 ≤ 2 ^ 30; decide⟩, fun _ _ => trivial⟩⟩
  all_goals
    have hw' : w.env = fun x => if x = 0 then some ⟨alloc 0 (fun _ => none) 8, [8]⟩ else none := by
      cases hw; rfl
  · intro e he
    simp only [worldExts, hw', if_pos, Option.map_some] at he
    cases he
    refine ⟨by show 7 + 2 < 2 ^ 64; decide, fun h => ?_⟩
    exact ⟨by show prod _ ≤ maxElems; decide, trivial⟩
  · intro x hx
    by_cases h : x = 0
    · simp [h]
    · exact (hx (by simp [worldExts, hw', h])).elim
  · simp [elems, worldExts, hw', prod]

example : World.empty.run Arith.u64 true exAlloc [.makeFill 0 (.const 1) [8], .fill 0 [.slice 7 2] (.const 7)] = .error .assert := by rfl

/-! ### Without the conditions -/

/-- **C71 is false without the condition on the index expressions** (it is C05's wrap-around): `v[slice(2^64 - 1, 2)] = 7` on a vector of
eight elements passes the checks of a checked build and writes outside the vector; with unlimited integers the check fails. -/
theorem C71_wraparound :
    World.empty.run Arith.u64 true exAlloc [.makeFill 0 (.const 1) [8], .fill 0 [.slice (2 ^ 64 - 1) 2] (.const 7)] = .error .ub ∧
      World.empty.run Arith.exact true exAlloc [.makeFill 0 (.const 1) [8], .fill 0 [.slice (2 ^ 64 - 1) 2] (.const 7)] = .error .assert := by
  constructor <;> rfl

/-- **C71 is false without the condition on the extents**: the number of elements wraps. An array of 2^32 × 2^32 "has" no elements: it is
built without complaint, and assigning to its first element is undefined behaviour in a checked build. -/
theorem C71_size_wraps :
    World.empty.run Arith.u64 true exAlloc [.makeFill 0 (.const 1) [2 ^ 32, 2 ^ 32], .fill 0 [.at 0, .slice 0 1] (.const 7)] = .error .ub := by
  rfl

/-! ### The hypotheses hold in concrete cases -/

theorem below_start : Below (World.empty : World α) := nofun

example := C71_same (α := Nat) intact_empty below_start (s := .makeFill 0 (.const 1) [8]) (ex_fits64 firstFit).1 C71_allocator
example := C71_run ex_runs64.choose_spec C71_allocator true holdsStore_start below_start
example := C71_program ex_runs64.choose_spec C71_allocator true
example := C71_any C71_allocator intact_empty below_start
  (by intro s hs; simp only [List.mem_cons, List.not_mem_nil, or_false] at hs; rcases hs with rfl | rfl <;> simp [Provided, ScSteps, StepsOK]) (ex_fits64 firstFit)

end Jules.Props

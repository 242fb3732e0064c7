import Verif.Props.Calls
/-
C74: with functions without state, in-place operations and overlapping assignments do what they do for plain functions.
-/
namespace Jules.Props
open Spec

theorem pure_updG {g : Nat → Nat → Mem α → Log α → Res (α × Log α)} {g' : Nat → Nat → Mem α → Res α}
    (hg : ∀ k p m h, (g k p m h).map Prod.fst = g' k p m) : ∀ (ps : List Nat) (k : Nat) (m : Mem α) (h : Log α),
    (updLoopC g k ps m h).map Prod.fst = updLoop g' k ps m
  | [], k, m, h => rfl
  | p :: ps, k, m, h => by
    unfold updLoopC updLoop
    rw [← hg k p m h]
    cases g k p m h with
    | error e => rfl
    | ok r =>
      simp only [res_ok_bind, Except.map]
      cases m.write p r.1 with
      | error e => rfl
      | ok m' => exact pure_updG hg ps (k + 1) m' r.2

/-- **C74** (functions without state, `apply(in_place, view, f)`). -/
theorem C74_pure_in_place (A : Arith) (U : Users α) (F : Nat → List α → α) (hU : Stateless U F) (dest : Obj) (f : Nat) (m : Mem α) (h : Log α) :
    (applyInPlaceC A U dest f m h).map Prod.fst = applyInPlace A dest (fun x => F f [x]) m := by
  unfold applyInPlaceC applyInPlace
  cases dest.positions A with
  | error e => rfl
  | ok ps =>
    simp only [res_ok_bind]
    refine pure_updG (fun k p m h => ?_) ps 0 m h
    cases m.read p with
    | error e => rfl
    | ok x => exact congrArg Except.ok (hU _ _)

/-- **C74** (functions without state, `view OP= expression`). The result is that of the operation with plain functions, also when it is reported or
undefined: in particular extents that differ are reported in checked builds before any function is called. -/
theorem C74_pure_in_place_expr (A : Arith) (chk : Bool) (U : Users α) (F : Nat → List α → α) (hU : Stateless U F) (dest : Obj) (f : Nat)
    (e : CEx Obj) (m : Mem α) (h : Log α) :
    (e.build A chk >>= fun src => inPlaceExprC A chk U dest f src m h).map Prod.fst =
      inPlaceExpr A chk dest (fun a b => F f [a, b]) (withFunctionsE F e) m := by
  unfold inPlaceExpr
  rw [← C74_build A chk F e]
  cases e.build A chk with
  | error e => rfl
  | ok src =>
    simp only [res_ok_bind, Except.map, inPlaceExprC]
    cases dest.dims with
    | none => rfl
    | some d =>
      simp only
      by_cases hl : d.length ≠ src.dims.length
      · rw [if_pos hl, if_pos hl]
      · rw [if_neg hl, if_neg hl]
        cases dbg chk (d == src.dims) with
        | error e => rfl
        | ok _ =>
          simp only [res_ok_bind]
          cases dest.positions A with
          | error e => rfl
          | ok ps =>
            simp only [res_ok_bind]
            refine pure_updG (g' := fun k p m => (do
              let a ← m.read p
              let b ← (withFunctions F src.it).deref m k
              .ok (F f [a, b]) : Res α)) (fun k p m h => ?_) ps 0 m h
            have he := C74_pure_element U F hU m src.it k h
            cases hd : src.it.deref U m k h with
            | error e =>
              rw [hd] at he
              have := deref_err m _ k e he.symm
              subst this
              rw [← he]
              cases hr : m.read p with
              | error e' => have := read_err hr; subst this; rfl
              | ok x => rfl
            | ok r =>
              rw [hd] at he
              rw [← he]
              cases m.read p with
              | error e' => rfl
              | ok x => exact congrArg Except.ok (hU _ _)

/-- **C74** (functions without state, `overlap(view) = expression`). -/
theorem C74_pure_overlap (A : Arith) (chk : Bool) (U : Users α) (F : Nat → List α → α) (hU : Stateless U F) (dest : Obj) (e : CEx Obj)
    (m : Mem α) (fresh : Nat) (h : Log α) :
    (e.build A chk >>= fun src => overlapViewC A chk U dest src m fresh h).map Prod.fst = overlapView A chk dest (withFunctionsE F e) m fresh := by
  unfold overlapView
  rw [← C74_build A chk F e]
  cases e.build A chk with
  | error e => rfl
  | ok src =>
    simp only [res_ok_bind, Except.map, overlapViewC]
    rw [← C74_pure_new A U F hU src m fresh h]
    cases newArrayC A U src m fresh h with
    | error e => rfl
    | ok r =>
      simp only [res_ok_bind, Except.map]
      cases assignView A chk dest (.leaf (.cref r.1.2.base r.1.2.ext)) r.1.1 <;> rfl

/-- **C74** (mismatch, any functions). In checked builds, in-place operations and assignments with operands of other extents are reported, with whatever
functions; no function has been called and no element has changed (the report ends the program). -/
theorem C74_mismatch (A : Arith) (U : Users α) (dest : Obj) (d : List Nat) (hd : dest.dims = some d) (f : Nat) (src : CObj) (m : Mem α) (h : Log α)
    (hlen : src.dims.length = d.length) (hne : src.dims ≠ d) :
    inPlaceExprC A true U dest f src m h = .error .assert ∧ arrayAssignC A true U dest src m h = .error .assert := by
  have h1 : (d == src.dims) = false := by simpa using Ne.symm hne
  have h2 : (src.dims == d) = false := by simpa using hne
  constructor
  · unfold inPlaceExprC
    rw [hd]
    simp only
    rw [if_neg (by simp [hlen]), h1]
    rfl
  · unfold arrayAssignC
    rw [hd]
    simp only
    rw [if_neg (by simp [hlen]), h2]
    rfl

/-- Functions without state: number 0 doubles, number 1 adds. -/
def exUsers : Users Int := ⟨fun _ c => if c.fn = 0 then 2 * c.args.headD 0 else c.args.sum, fun _ => true⟩

theorem exUsers_stateless : Stateless exUsers fun f l => if f = 0 then 2 * l.headD 0 else l.sum := fun _ _ => rfl

/-- `a += twice(b)` on vectors of two elements at 0 and 2. -/
example : inPlaceExpr Arith.exact true (.cref 0 [2]) (fun a b => [a, b].sum) (.un (fun x : Int => 2 * x) (.leaf (.cref 2 [2])))
    (fun q => [(1 : Int), 2, 10, 20][q]?) = (inPlaceExprC Arith.exact true exUsers (.cref 0 [2]) 1 ⟨[2], .map 0 (.cells [2, 3])⟩
      (fun q => [(1 : Int), 2, 10, 20][q]?) []).map Prod.fst :=
  (C74_pure_in_place_expr Arith.exact true exUsers _ exUsers_stateless (.cref 0 [2]) 1 (.un 0 (.leaf (.cref 2 [2]))) _ []).symm

example := C74_mismatch Arith.exact exUsers (.cref 0 [2]) [2] rfl 1 ⟨[3], .cells [0, 1, 2]⟩ (fun _ => some 0) [] rfl (by decide)

end Jules.Props

import Verif.Model.Memory
import Mathlib.Analysis.SpecialFunctions.Exp
import Mathlib.Analysis.SpecialFunctions.Sqrt
/-
base/math.hpp: `normal_pdf`, and its array version in array/math.hpp.
-/
namespace Jules

/-- The operations `normal_pdf` uses on arguments of type `T`, with `exp` and `sqrt` giving an `R`: base/math.hpp:11-19. -/
structure PdfOps (T R : Type) where
  mul : T → T → T
  sub : T → T → T
  neg : T → T
  /-- `/` on `T` -/
  div : T → T → T
  /-- the literal `2` -/
  two : T
  /-- `pi<T>`, base/math.hpp:11 -/
  pi : T
  exp : T → R
  sqrt : T → R
  /-- `/` on the results of `exp` and `sqrt` -/
  rdiv : R → R → R

/-- The literal of base/math.hpp:11. -/
noncomputable def piLiteral : ℝ := 31415926535897932385 / 10 ^ 19

/-- Floating point arguments, as real numbers (no rounding). For base/math.hpp:11-27. -/
noncomputable def realOps : PdfOps ℝ ℝ where
  mul := (· * ·)
  sub := (· - ·)
  neg := (- ·)
  div := (· / ·)
  two := 2
  pi := piLiteral
  exp := Real.exp
  sqrt := Real.sqrt
  rdiv := (· / ·)

/-- Integer arguments (no overflow): `/` truncates, `T(3.14…)` is 3, `exp` and `sqrt` convert to `double`. For base/math.hpp:11-27. -/
noncomputable def intOps : PdfOps ℤ ℝ where
  mul := (· * ·)
  sub := (· - ·)
  neg := (- ·)
  div := Int.tdiv
  two := 2
  pi := 3
  exp := fun n => Real.exp n
  sqrt := fun n => Real.sqrt n
  rdiv := (· / ·)

/-- base/math.hpp:21 `square`. -/
def PdfOps.square (O : PdfOps T R) (x : T) : T := O.mul x x

/-- base/math.hpp:23-27 `normal_pdf`. -/
def PdfOps.normalPdf (O : PdfOps T R) (x mu sigma : T) : R :=
  let sigma2 := O.mul O.two (O.square sigma)
  O.rdiv (O.exp (O.div (O.neg (O.square (O.sub x mu))) sigma2)) (O.sqrt (O.mul sigma2 O.pi))

/-- array/math.hpp:14-18 `normal_pdf` of an array: a lazy expression. -/
noncomputable def arrayPdf (e : Ex Obj ℝ) (mu sigma : ℝ) : Ex Obj ℝ := .un (fun x => realOps.normalPdf x mu sigma) e

end Jules

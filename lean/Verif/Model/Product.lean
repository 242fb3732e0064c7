import Verif.Model.Memory
import Verif.Model.Reshape
/-
Model of matrix multiplication: array/numeric.hpp:41-70 and blas.hpp:40-73.
-/
namespace Jules

/-- base/numeric.hpp:216-228 `sum` over an expression's iterators, from `start`: `start += *first`. An iterator pair that never
meets (operands of different lengths, unchecked builds only) runs past the ends: undefined. -/
def sumIt (add : α → α → α) (start : α) (m : Mem α) (it : It α) : Res α :=
  match it.count with
  | none => .error .ub
  | some n => (List.range n).foldlM (fun acc k => do
      let x ← it.deref m k
      .ok (add acc x)) start

/-- array/numeric.hpp:59 the element pushed for (i, j): `sum(lhs[i][every] * drop(rhs[every][j]))`. `drop` is `drop_to<1>`
(ref_array.hpp:205, strided_ref_array.hpp:212-216). -/
def productElem (A : Arith) (chk : Bool) (add mul : α → α → α) (zero : α) (m : Mem α) (lhs rhs : Obj) (i j : Nat) : Res α := do
  let row ← lhs.run A chk [.at i, .every]
  let slice ← rhs.run A chk [.every, .at j]
  let col ← dropTo A chk 1 slice
  let e ← (Ex.bin mul (.leaf row) (.leaf col)).build A chk
  sumIt add zero m e.it

/-- array/numeric.hpp:43-62 `product_impl`: the elements are pushed for each column `j`, for each row `i`, into a builder of
extents `{m, p}`, which becomes the new array (at a free address `fresh`). Simplification: nothing throws here (for builders and
exceptions see Model/Heap.lean). -/
def product (A : Arith) (chk : Bool) (add mul : α → α → α) (zero : α) (m : Mem α) (lhs rhs : Obj) (fresh : Nat) :
    Res (Mem α × Arr) :=
  match lhs.dims, rhs.dims with
  | some [r, k], some [k', p] => do
    dbg chk (decide (prodL A [r, k] > 0) && decide (prodL A [k', p] > 0))
    dbg chk (k == k')
    let xs ← ((List.range p).flatMap fun j => (List.range r).map fun i => (i, j)).mapM
      fun ij => productElem A chk add mul zero m lhs rhs ij.1 ij.2
    .ok (m.setMany fresh xs, ⟨fresh, [r, p]⟩)
  | _, _ => .error .illFormed

/-! ### BLAS -/

/-- The reference semantics of `cblas_?gemm(CblasColMajor, CblasNoTrans, CblasNoTrans, M, N, K, alpha, A, lda, B, ldb, beta, C, ldc)`:
for each (i, j), `C[i + j*ldc] := alpha * Σ_{t<K} A[i + t*lda] * B[t + j*ldb] + beta * C[i + j*ldc]`; with `beta = 0` the old content
of `C` is not read. This is the documented behaviour of an external library and is trusted. Returns the M×N block in column-major
order (`ldc = M` in the only call).
The contract of the call blas.hpp:58-62. -/
def gemmRef (add mul : α → α → α) (zero : α) (m : Mem α) (M N K : Nat) (alpha : α) (a lda b ldb : Nat) : Res (List α) :=
  ((List.range N).flatMap fun j => (List.range M).map fun i => (i, j)).mapM fun ij => do
    let s ← (List.range K).foldlM (fun acc t => do
      let x ← m.read (a + (ij.1 + t * lda))
      let y ← m.read (b + (t + ij.2 * ldb))
      .ok (add acc (mul x y))) zero
    .ok (mul alpha s)

/-- blas.hpp:36-41 `safe_int_cast`: asserts that the value fits `int`; the conversion then keeps it. Without checks the conversion of a larger
value keeps its lowest 32 bits (two's complement); if that is not a positive number, gemm rejects its argument in a way of its own
(reported as undefined). -/
def safeIntCast (chk : Bool) (x : Nat) : Res Nat := do
  dbg chk (decide (x ≤ 2 ^ 31 - 1))
  if x ≤ 2 ^ 31 - 1 then .ok x
  else if 0 < x % 2 ^ 32 ∧ x % 2 ^ 32 < 2 ^ 31 then .ok (x % 2 ^ 32) else .error .ub

/-- blas.hpp:43-65 `product(ref_array, ref_array, alpha)` on contiguous matrices. -/
def blasProduct (A : Arith) (chk : Bool) (add mul : α → α → α) (zero : α) (m : Mem α) (lhs rhs : Obj) (alpha : α) (fresh : Nat) :
    Res (Mem α × Arr) :=
  match lhs, rhs with
  | .cref a [r, k], .cref b [k', p] => do
    dbg chk (decide (prodL A [r, k] > 0) && decide (prodL A [k', p] > 0))
    dbg chk (k == k')
    let K ← safeIntCast chk k
    let M ← safeIntCast chk r
    let N ← safeIntCast chk p
    let lda ← safeIntCast chk r
    let ldb ← safeIntCast chk k'
    let xs ← gemmRef add mul zero m M N K alpha a lda b ldb
    .ok (m.setMany fresh xs, ⟨fresh, [r, p]⟩)
  | _, _ => .error .illFormed

/-- blas.hpp:67-73 `product(scalar * matrix, matrix)`: the expression `alpha * lhs` is taken apart. -/
def blasProductScaled (A : Arith) (chk : Bool) (add mul : α → α → α) (zero : α) (m : Mem α) (alpha : α) (lhs rhs : Obj) (fresh : Nat) :
    Res (Mem α × Arr) := blasProduct A chk add mul zero m lhs rhs alpha fresh

end Jules

import Verif.Model.Concurrent
/-
Model of parallel regions: a main program creates threads, waits until all have finished, goes on, creates others. What a thread does next may
depend on the elements it has read. The threads of a region are those of Model/Concurrent.lean, interleaved access by access.
-/
namespace Jules

/-- The program of a thread: a tree, because what it does may depend on what it reads.
Language semantics (control flow) for the statements of array.hpp:82-344. -/
inductive TProg (α : Type) where
  | ret
  /-- a statement of Model/Program.lean: array.hpp:82-344 and the functions cited there. -/
  | exec (s : Stmt α) (k : TProg α)
  /-- an element is read, `T v = x[i][j];` as in `if (x[i][j] < 3) …`: ref_array.hpp:185-206, detail/iterator.hpp:69. -/
  | read (s : Sc α) (k : α → TProg α)

/-- The accesses of a thread, one after the other.
The accesses of detail/iterator.hpp:69 and allocator.hpp:23-63, as in `stmtAct`. -/
def TProg.act (A : Arith) (chk : Bool) : TProg α → Env → Act α Env
  | .ret, env => .done env
  | .exec s k, env => (stmtAct A chk env s).bind (k.act A chk)
  | .read s k, env => (Act.lift (s.eval A chk (env.world (α := α)))).bind fun c => c.act.bind fun v => (k v).act A chk env

/-- The threads of a region have been created; all see the arrays of `w`.
Language semantics (threads) for the arrays of array.hpp:36-461. -/
def Sys.fork (A : Arith) (chk : Bool) (w : World α) (progs : Fin n → TProg α) : Sys α n :=
  ⟨w.mem, fun _ => false, fun i => ⟨(progs i).act A chk w.env, []⟩⟩

/-- A step of the main program.
Language semantics (threads) for the arrays of array.hpp:36-461. -/
inductive Phase (α : Type) where
  /-- a statement, while there are no other threads: array.hpp:82-344 and the functions cited at `Stmt`. -/
  | seq (s : Stmt α)
  /-- `n` threads are created, and joined: language semantics, for the accesses of detail/iterator.hpp:69. -/
  | par (n : Nat) (progs : Fin n → TProg α)

/-- The main program may take the state `w` to `w'`. After a region the main program sees the arrays it saw before, with the memory the threads have
left.
Language semantics (threads) for the arrays of array.hpp:36-461. -/
inductive Phase.Ends (A : Arith) (chk : Bool) (alloc : Nat → Mem α → Nat → Nat) : World α → List (Phase α) → World α → Prop
  | nil : Ends A chk alloc w [] w
  | seq : w.step A chk alloc s = .ok w₁ → Ends A chk alloc w₁ ps w' → Ends A chk alloc w (.seq s :: ps) w'
  | par {n : Nat} {progs : Fin n → TProg α} {σ : Sys α n} : Sys.Reach A chk (Sys.fork A chk w progs) σ → (∀ i, σ.finished i) → Ends A chk alloc ⟨σ.mem, w.env, w.clock⟩ ps w' →
      Ends A chk alloc w (.par n progs :: ps) w'

end Jules

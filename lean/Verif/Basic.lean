/-
Outcomes of C++ code fragments.
-/
namespace Jules

/-- C++ exceptions that the modelled code can throw (by class). -/
inductive Exn where
  /-- `std::logic_error` thrown by a debug assertion of the throwing module
  (core/debug.hpp:42-58, 66: `throwing_module` has the maximal level in every build). -/
  | logic
  /-- `std::out_of_range`. -/
  | outOfRange
  /-- `std::invalid_argument`. -/
  | invalidArgument
  /-- `std::bad_cast`. -/
  | badCast
  /-- `std::bad_alloc`. -/
  | badAlloc
  /-- an exception thrown by user code (element constructors, functions, streams). -/
  | user
  deriving DecidableEq, Repr

/-- The ways a modelled fragment can fail to produce a normal result. -/
inductive Fail where
  /-- A `DEBUG_ASSERT` of the default module failed (core/debug.hpp:29-40, 60-64); only in checked builds. -/
  | assert
  /-- A C++ exception propagates to the caller. -/
  | exc (e : Exn)
  /-- Undefined behaviour: null/out-of-range access, modulo by zero, ... -/
  | ub
  /-- The corresponding C++ expression is rejected by the compiler. -/
  | illFormed
  /-- `std::terminate`: an exception reached the end of a `noexcept` function. -/
  | terminate
  /-- The fuel given to a loop was exhausted (the loop had not terminated yet). -/
  | outOfFuel
  deriving DecidableEq, Repr

/-- Result of a modelled fragment. -/
abbrev Res (α : Type u) := Except Fail α

instance [DecidableEq α] : DecidableEq (Res α) := fun a b =>
  match a, b with
  | .ok x, .ok y => if h : x = y then isTrue (by rw [h]) else isFalse (by intro e; cases e; exact h rfl)
  | .error x, .error y => if h : x = y then isTrue (by rw [h]) else isFalse (by intro e; cases e; exact h rfl)
  | .ok _, .error _ => isFalse (by intro e; cases e)
  | .error _, .ok _ => isFalse (by intro e; cases e)

/-- `DEBUG_ASSERT(cond, debug::default_module, ...)` (core/debug.hpp:8-15, 20-27, 29-40,
60-64): evaluated only when checks are compiled in. Simplification: only the two extreme
settings are modelled, all checks (`chk = true`, the default without NDEBUG) and none
(NDEBUG); intermediate JULES_DEBUG_LEVEL values are in Model/Levels.lean. With JULES_DEBUG_THROWS the
failure is a `std::logic_error` instead of a termination; both are the outcome `assert`
(inside a `noexcept` function: `inNoexcept`, Model/Layout.lean; catching it: Model/DebugThrows.lean). -/
def dbg (chk : Bool) (cond : Bool) : Res Unit :=
  if chk && !cond then .error .assert else .ok ()

@[simp] theorem dbg_false (c : Bool) : dbg false c = .ok () := rfl

theorem dbg_ok {chk c : Bool} {u : Unit} : dbg chk c = .ok u ↔ (chk = true → c = true) := by
  cases chk <;> cases c <;> simp [dbg]

@[simp] theorem dbg_true_true : dbg true true = .ok () := rfl
@[simp] theorem dbg_any_true (chk : Bool) : dbg chk true = .ok () := by cases chk <;> rfl
@[simp] theorem dbg_true_false : dbg true false = .error .assert := rfl

theorem res_bind_ok {x : Res α} {f : α → Res β} {b : β} :
    (x >>= f) = .ok b ↔ ∃ a, x = .ok a ∧ f a = .ok b := by
  cases x with
  | error e => simp [bind, Except.bind]
  | ok a => simp [bind, Except.bind]

@[simp] theorem res_ok_bind (a : α) (f : α → Res β) : ((Except.ok a : Res α) >>= f) = f a := rfl
@[simp] theorem res_error_bind (e : Fail) (f : α → Res β) :
    ((Except.error e : Res α) >>= f) = .error e := rfl
@[simp] theorem res_pure (a : α) : (pure a : Res α) = .ok a := rfl
@[simp] theorem res_throw (e : Fail) : (throw e : Res α) = .error e := rfl

theorem res_map_ok {x : Res α} {f : α → β} {b : β} :
    (f <$> x) = .ok b ↔ ∃ a, x = .ok a ∧ f a = b := by
  cases x <;> simp [Functor.map, Except.map]

@[simp] theorem res_map_ok' (a : α) (f : α → β) : (f <$> (Except.ok a : Res α)) = .ok (f a) := rfl
@[simp] theorem res_map_error (e : Fail) (f : α → β) :
    (f <$> (Except.error e : Res α)) = .error e := rfl

end Jules

import Verif.Model.DataFrame
/-
Model of base/async.hpp and of columns and data frames with their storage: dataframe/column.hpp, dataframe/detail/column_model.hpp, dataframe/dataframe.hpp, dataframe/numeric.hpp,
dataframe/action.hpp. A column is a pointer to a `column_model` that is created with `new` and deleted; every allocation and every copy of an element may throw.

Each `new` yields a number that has not been used before (a program that never uses a deleted object cannot see addresses being reused). The buffer of the `std::vector` in a
`column_model` is part of the object: it is allocated when the object is filled and never again.
-/
namespace Jules

/-! ### Computations with a state, exceptions and deferred actions -/

/-- Outcome of a computation on a state `σ`: normal, an exception (with the state then), or the end of the execution.
The outcomes of the functions of dataframe/column.hpp:31-98 and dataframe/dataframe.hpp:77-296. -/
inductive SOut (σ β : Type) where
  | ok (b : β) (s : σ)
  | exn (e : Exn) (s : σ)
  | fail (f : Fail)

/-- Computations on a state.
Language semantics, for column.hpp:31-98 and dataframe.hpp:77-296. -/
def SM (σ β : Type) := σ → SOut σ β

/-- Normal return.
Language semantics, for column.hpp:31-98 and dataframe.hpp:77-296. -/
def SM.pure (b : β) : SM σ β := fun s => .ok b s

/-- Sequencing; exceptions propagate.
Language semantics, for column.hpp:31-98 and dataframe.hpp:77-296. -/
def SM.bind (x : SM σ β) (f : β → SM σ γ) : SM σ γ := fun s =>
  match x s with
  | .ok b s' => f b s'
  | .exn e s' => .exn e s'
  | .fail f => .fail f

instance : Monad (SM σ) where
  pure := SM.pure
  bind := SM.bind

/-- `throw e`.
Language semantics, for column.hpp:31-98 and dataframe.hpp:77-296. -/
def SM.throw (e : Exn) : SM σ β := fun s => .exn e s

/-- Undefined behaviour.
Language semantics, for column.hpp:31-98 and dataframe.hpp:77-296. -/
def SM.die (f : Fail) : SM σ β := fun _ => .fail f

/-- A computation that does not depend on the state.
Language semantics, for column.hpp:31-98 and dataframe.hpp:77-296. -/
def SM.lift (x : Res β) : SM σ β := fun s =>
  match x with
  | .ok b => .ok b s
  | .error (.exc e) => .exn e s
  | .error f => .fail f

/-- Destruction of local objects when an exception passes (`c`); destructors do not throw: an exception from `c` is the end.
Language semantics (stack unwinding, destruction of the members of an object under construction), for column.hpp:31-98 and dataframe.hpp:77-296. -/
def SM.cleanup (x : SM σ β) (c : SM σ Unit) : SM σ β := fun s =>
  match x s with
  | .exn e s' => match c s' with
    | .ok _ s'' => .exn e s''
    | .exn _ _ => .fail .terminate
    | .fail f => .fail f
  | r => r

/-- Did it throw?
Language semantics, for column.hpp:31-98 and dataframe.hpp:77-296. -/
def SM.try (x : SM σ β) : SM σ (Except Exn β) := fun s =>
  match x s with
  | .ok b s' => .ok (.ok b) s'
  | .exn e s' => .ok (.error e) s'
  | .fail f => .fail f

/-- A computation in a scope that has a local variable, which it does not use.
Language semantics, for column.hpp:31-98 and dataframe.hpp:77-296. -/
def SM.inner (x : SM σ β) : SM (σ × τ) β := fun s =>
  match x s.1 with
  | .ok b s' => .ok b (s', s.2)
  | .exn e s' => .exn e (s', s.2)
  | .fail f => .fail f

/-- base/async.hpp:11-32 `JULES_DEFER(act)` at the beginning of a scope with a local variable (initially `l`) that `act` captures by reference: `act` runs when the scope is left, by
return (after the result has been made) or by an exception. Its destructor (line 21) is implicitly `noexcept`. Lines 13, 26: `F` is the type of a closure; `defer` returns a
temporary that is constructed in place, so no copy or move of the helper (lines 15-19) runs the action again. -/
def deferred (l : τ) (body : SM (σ × τ) β) (act : SM (σ × τ) Unit) : SM σ β := fun s =>
  match body (s, l) with
  | .ok b st => match act st with
    | .ok _ st' => .ok b st'.1
    | .exn _ _ => .fail .terminate
    | .fail f => .fail f
  | .exn e st => match act st with
    | .ok _ st' => .exn e st'.1
    | .exn _ _ => .fail .terminate
    | .fail f => .fail f
  | .fail f => .fail f

/-- `std::exchange(local, v)`.
Called in column_model.hpp:135. -/
def exchange (v : τ) : SM (σ × τ) τ := fun s => .ok s.2 (s.1, v)

/-! ### The objects -/

/-- The `column_model` objects in the order of their creation, `none` after `delete`; the clock counts the events that may throw.
The objects made in column.hpp:33-44 and column_model.hpp:128, 223, 230. -/
structure CHeap (C : Coercion) where
  models : List (Option (Model C))
  clock : Nat

/-- Computations on these objects.
The functions of column.hpp:31-98, column_model.hpp:126-237 and dataframe.hpp:77-296 that work on them. -/
abbrev CM (C : Coercion) := SM (CHeap C)

/-- The object with this address, if it exists.
The objects of column_model.hpp:203-238. -/
def CHeap.get (h : CHeap C) (id : Nat) : Option (Model C) := (h.models[id]?).join

/-- An event that throws `std::bad_alloc` when the schedule says so.
Allocations in column.hpp:33-44, column_model.hpp:128-133, 223, 230, dataframe.hpp:31, 107-125, 243, 253-256. -/
def cEvent {C : Coercion} (S : Nat → Bool) : CM C Unit := fun h =>
  if S h.clock then .exn .badAlloc { h with clock := h.clock + 1 } else .ok () { h with clock := h.clock + 1 }

/-- So many of them.
The copies of the elements in column.hpp:33-44 and column_model.hpp:223, 230. -/
def cEvents {C : Coercion} (S : Nat → Bool) : Nat → CM C Unit
  | 0 => SM.pure ()
  | n + 1 => do
    cEvent S
    cEvents S n

/-- A new object.
`new` in column.hpp:33-44 and column_model.hpp:128, 223, 230. -/
def place {C : Coercion} (m : Model C) : CM C Nat := fun h => .ok h.models.length { h with models := h.models ++ [some m] }

/-- Access to an object; undefined if it does not exist (any more).
`*model_` in column.hpp:47-96. -/
def fetch {C : Coercion} (id : Nat) : CM C (Model C) := fun h =>
  match h.get id with
  | some m => .ok m h
  | none => .fail .ub

/-- Change of an object; undefined if it does not exist (any more).
`push_back` in column_model.hpp:132-133. -/
def store {C : Coercion} (id : Nat) (m : Model C) : CM C Unit := fun h =>
  match h.get id with
  | some _ => .ok () { h with models := h.models.set id (some m) }
  | none => .fail .ub

/-- `delete p`; undefined if there is no such object (any more), no effect on a null pointer.
The destructor of `model_` (column.hpp:101) and column_model.hpp:129. -/
def deleteModel {C : Coercion} (p : Option Nat) : CM C Unit := fun h =>
  match p with
  | none => .ok () h
  | some id => match h.get id with
    | some _ => .ok () { h with models := h.models.set id none }
    | none => .fail .ub

/-- A new object with elements: the object, its buffer and each element may fail to be created; what has been made by then is destroyed by `std::vector` and the new-expression.
column.hpp:33-44 `std::make_unique<model_t<T>>(…)`, column_model.hpp:223, 230. -/
def buildModel {C : Coercion} (S : Nat → Bool) (m : Model C) : CM C (Option Nat) := do
  cEvent S
  cEvent S
  cEvents S m.size
  let id ← place m
  SM.pure (some id)

/-- column_model.hpp:132-133 the conversion of the elements; a conversion may fail to allocate, or throw as its rule says. -/
def transformLoop {C : Coercion} (S : Nat → Bool) {s t : C.Ty} (f : C.Val s → Res (C.Val t)) (id : Nat) : List (C.Val s) → (done : List (C.Val t)) → CM C Unit
  | [], _ => SM.pure ()
  | x :: xs, done => do
    cEvent S
    let y ← SM.lift (f x)
    store id ⟨t, done ++ [y]⟩
    transformLoop S f id xs (done ++ [y])

/-- column_model.hpp:126-136 `coerce_`: `result` is the local variable; the deferred action deletes it unless it has been given away. -/
def coerceImpl {C : Coercion} (S : Nat → Bool) {s t : C.Ty} (f : C.Val s → Res (C.Val t)) (src : List (C.Val s)) : CM C (Option Nat) := do
  cEvent S
  let result ← place ⟨t, []⟩
  deferred (some result)
    (do
      SM.inner (cEvent S)
      SM.inner (transformLoop S f result src [])
      exchange none)
    (fun st => SM.inner (deleteModel st.2) st)

/-- column_model.hpp:81, 93, 106-109, 126-136, 158, 185 `coerce<T>()`. -/
def coercePtr {C : Coercion} (S : Nat → Bool) (id : Nat) (T : C.Ty) : CM C (Option Nat) := do
  let m ← fetch id
  if T ∈ C.targets then
    match C.rule m.ty T with
    | none => SM.throw .badCast
    | some f => coerceImpl S f m.vals
  else SM.throw .badCast

/-- column_model.hpp:221-224 `clone`. -/
def clonePtr {C : Coercion} (S : Nat → Bool) (id : Nat) : CM C (Option Nat) := do
  let m ← fetch id
  buildModel S m

/-- column_model.hpp:226-231 `partial_clone`. -/
def partialPtr {C : Coercion} (S : Nat → Bool) (A : Arith) (id first size : Nat) : CM C (Option Nat) := do
  let m ← fetch id
  let m' ← SM.lift (m.partialClone A first size)
  buildModel S m'

/-! ### column -/

/-- column.hpp:50 the copy constructor: the null pointer is not checked. -/
def copyP {C : Coercion} (S : Nat → Bool) (p : Option Nat) : CM C (Option Nat) :=
  match p with
  | none => SM.die .ub
  | some id => clonePtr S id

/-- column.hpp:46-48 the partial copy. -/
def partP {C : Coercion} (S : Nat → Bool) (p : Option Nat) (first size : Nat) : CM C (Option Nat) :=
  match p with
  | none => SM.die .ub
  | some id => partialPtr S Arith.u64 id first size

/-- column.hpp:54-58 copy assignment: the new pointer of the target. Assigning to a `unique_ptr` deletes what it had. -/
def assignP {C : Coercion} (S : Nat → Bool) (target src : Option Nat) : CM C (Option Nat) := do
  let q ← (match src with
    | none => SM.pure none
    | some id => clonePtr S id : CM C (Option Nat))
  deleteModel target
  SM.pure q

/-- column.hpp:62-67 `coerce<T>() &`: the new pointer of the column. -/
def coerceP {C : Coercion} (S : Nat → Bool) (p : Option Nat) (T : C.Ty) : CM C (Option Nat) :=
  match p with
  | none => SM.throw .logic
  | some id => do
    let q ← coercePtr S id T
    deleteModel (some id)
    SM.pure q

/-- column.hpp:71-76 `elements_type()`. -/
def typeP {C : Coercion} (p : Option Nat) : CM C C.Ty :=
  match p with
  | none => SM.throw .logic
  | some id => do
    let m ← fetch id
    SM.pure m.ty

/-- column.hpp:78 `size()`. -/
def sizeP {C : Coercion} (p : Option Nat) : CM C Nat :=
  match p with
  | none => SM.pure 0
  | some id => do
    let m ← fetch id
    SM.pure m.size

/-- numeric.hpp:12-16 `to_column<T>(const column&)`: the null pointer is not checked. -/
def toColumnP {C : Coercion} (S : Nat → Bool) (p : Option Nat) (T : C.Ty) : CM C (Option Nat) :=
  match p with
  | none => SM.die .ub
  | some id => coercePtr S id T

/-- numeric.hpp:18-23 `to_column<T>(column&&)`: the pointer of the result, which the argument then has lost. -/
def toColumnRvP {C : Coercion} (S : Nat → Bool) (p : Option Nat) (T : C.Ty) : CM C (Option Nat) := do
  let t ← typeP p
  if t ≠ T then coerceP S p T else SM.pure p

/-! ### dataframe -/

/-- dataframe.hpp:29-33 `named_column_type`. -/
structure PNamed where
  name : Txt
  ptr : Option Nat
  deriving DecidableEq

/-- dataframe.hpp:299-302 the data members; the capacity of the vector decides when it allocates. -/
structure PFrame where
  rows : Nat
  elems : List PNamed
  cap : Nat
  index : List (Txt × Nat)
  deriving DecidableEq

/-- dataframe.hpp:77 the default constructor; also what a moved-from data frame with `n` rows is (134, 137). -/
def PFrame.empty (n : Nat) : PFrame := ⟨n, [], 0, []⟩

/-- Destroying the elements of a vector of named columns. Simplification: from the first to the last (the order cannot be observed).
dataframe.hpp:301. -/
def destroyAll {C : Coercion} : List PNamed → CM C Unit
  | [] => SM.pure ()
  | e :: es => do
    deleteModel e.ptr
    destroyAll es

/-- The copy constructor of `named_column_type`: the name may fail to be copied, then the column.
dataframe.hpp:29-33, column.hpp:50. -/
def copyNamed {C : Coercion} (S : Nat → Bool) (e : PNamed) : CM C PNamed := do
  cEvent S
  let p ← copyP S e.ptr
  SM.pure ⟨e.name, p⟩

/-- Copying the elements of a vector into raw memory: if a copy throws, those made are destroyed.
The copy constructor of `elements_`, dataframe.hpp:133, and the copy assignment, 136. -/
def copyElems {C : Coercion} (S : Nat → Bool) : List PNamed → CM C (List PNamed)
  | [] => SM.pure []
  | e :: es => do
    let e' ← copyNamed S e
    let es' ← (copyElems S es).cleanup (deleteModel e'.ptr)
    SM.pure (e' :: es')

/-- The copy constructor of `elements_`.
dataframe.hpp:133. -/
def copyVector {C : Coercion} (S : Nat → Bool) (es : List PNamed) : CM C (List PNamed) :=
  if es = [] then SM.pure [] else do
    cEvent S
    copyElems S es

/-- dataframe.hpp:109-114 pushing the elements (there is room, line 107): stops after the first column of another size. -/
def pushSizedP {C : Coercion} (rows : Nat) : List (CM C PNamed) → (acc : List PNamed) → CM C (List PNamed × Bool)
  | [], acc => SM.pure (acc, true)
  | x :: xs, acc => do
    let e ← x.cleanup (destroyAll acc)
    let n ← sizeP e.ptr
    if n = rows then pushSizedP rows xs (acc ++ [e]) else SM.pure (acc ++ [e], false)

/-- dataframe.hpp:118-126 registering the names. -/
def registerP {C : Coercion} (S : Nat → Bool) : List PNamed → (i : Nat) → (index : List (Txt × Nat)) → CM C (List (Txt × Nat))
  | [], _, index => SM.pure index
  | e :: es, i, index =>
    if e.name ≠ [] then
      if (findName index e.name).isSome then SM.throw .logic
      else do
        cEvent S
        registerP S es (i + 1) ((e.name, i) :: index)
    else registerP S es i index

/-- dataframe.hpp:104-127 the constructor from iterators with the right size hint; `src`: what makes each element. If it throws, the members are destroyed. -/
def frameOfIter {C : Coercion} (S : Nat → Bool) (src : List (CM C PNamed)) : CM C PFrame :=
  match src with
  | [] => SM.die .ub
  | x :: xs => do
    cEvent S
    let e ← x
    let rows ← sizeP e.ptr
    let r ← pushSizedP rows xs [e]
    if r.2 then do
      let index ← (registerP S r.1 0 []).cleanup (destroyAll r.1)
      SM.pure ⟨rows, r.1, xs.length + 1, index⟩
    else do
      destroyAll r.1
      SM.throw .logic

/-- dataframe.hpp:79-81, the initializer list `{{name, column}, …}`: its elements are copied from the columns, then copied again into the data frame, then destroyed. -/
def frameOfList {C : Coercion} (S : Nat → Bool) (l : List PNamed) : CM C PFrame := do
  let tmp ← copyElems S l
  let d ← (frameOfIter S (tmp.map (copyNamed S))).cleanup (destroyAll tmp)
  destroyAll tmp
  SM.pure d

/-- dataframe.hpp:133 the copy constructor. -/
def frameCopy {C : Coercion} (S : Nat → Bool) (d : PFrame) : CM C PFrame := do
  let es ← copyVector S d.elems
  (cEvent S).cleanup (destroyAll es)
  SM.pure ⟨d.rows, es, d.elems.length, d.index⟩

/-- Copy assignment of the common elements of two vectors of named columns: the name, then the column; stops at the first exception.
dataframe.hpp:136 with column.hpp:54-58. -/
def assignElems {C : Coercion} (S : Nat → Bool) : List PNamed → List PNamed → CM C (Option Exn × List PNamed)
  | t :: ts, s :: ss => do
    let r ← SM.try (cEvent S)
    match r with
    | .error x => SM.pure (some x, t :: ts)
    | .ok () => do
      let r ← SM.try (assignP S t.ptr s.ptr)
      match r with
      | .error x => SM.pure (some x, ⟨s.name, t.ptr⟩ :: ts)
      | .ok p => do
        let q ← assignElems S ts ss
        SM.pure (q.1, ⟨s.name, p⟩ :: q.2)
  | ts, _ => SM.pure (none, ts)

/-- Copy assignment of `elements_`: with too little room all elements are copied first; otherwise the common ones are assigned, then the others destroyed or copied.
dataframe.hpp:136. -/
def assignVector {C : Coercion} (S : Nat → Bool) (cap : Nat) (ts ss : List PNamed) : CM C (Option Exn × List PNamed × Nat) :=
  if ss.length > cap then do
    let r ← SM.try (copyVector S ss)
    match r with
    | .error x => SM.pure (some x, ts, cap)
    | .ok es => do
      destroyAll ts
      SM.pure (none, es, ss.length)
  else do
    let q ← assignElems S ts ss
    match q.1 with
    | some x => SM.pure (some x, q.2, cap)
    | none =>
      if ss.length < ts.length then do
        destroyAll (q.2.drop ss.length)
        SM.pure (none, q.2.take ss.length, cap)
      else do
        let r ← SM.try (copyElems S (ss.drop ts.length))
        match r with
        | .error x => SM.pure (some x, q.2, cap)
        | .ok es => SM.pure (none, q.2 ++ es, cap)

/-- dataframe.hpp:136 copy assignment (default): the members in order. The target afterwards is returned also if it throws. `lostIndex`: what remains of the map of names if
copying it throws (the standard does not say). -/
def frameAssign {C : Coercion} (S : Nat → Bool) (lostIndex : List (Txt × Nat) → List (Txt × Nat) → List (Txt × Nat)) (t s : PFrame) : CM C (Option Exn × PFrame) := do
  let r ← assignVector S t.cap t.elems s.elems
  match r.1 with
  | some x => SM.pure (some x, ⟨s.rows, r.2.1, r.2.2, t.index⟩)
  | none => do
    let q ← SM.try (cEvent S)
    match q with
    | .error x => SM.pure (some x, ⟨s.rows, r.2.1, r.2.2, lostIndex t.index s.index⟩)
    | .ok () => SM.pure (none, ⟨s.rows, r.2.1, r.2.2, s.index⟩)

/-- dataframe.hpp:252-256 the loop of `bind`: the data frame and what remains of `other` (moved elements are null) are returned also if it throws. -/
def bindLoopP {C : Coercion} (S : Nat → Bool) : PFrame → List PNamed → CM C (Option Exn × PFrame × List PNamed)
  | d, [] => SM.pure (none, d, [])
  | d, e :: es => do
    let r ← SM.try (if e.name ≠ [] then cEvent S else SM.pure ())
    match r with
    | .error x => SM.pure (some x, d, e :: es)
    | .ok () => do
      let d := if e.name ≠ [] then { d with index := (e.name, d.elems.length) :: d.index } else d
      let r ← SM.try (if d.elems.length < d.cap then SM.pure () else cEvent S)
      match r with
      | .error x => SM.pure (some x, d, e :: es)
      | .ok () => bindLoopP S { d with elems := d.elems ++ [e], cap := if d.elems.length < d.cap then d.cap else 2 * d.elems.length + 1 } es

/-- dataframe.hpp:240-259 `bind`; the parameter `other` is not destroyed here. -/
def bindP {C : Coercion} (S : Nat → Bool) (d other : PFrame) : CM C (Option Exn × PFrame × List PNamed) := do
  let r ← SM.try (cEvent S)
  match r with
  | .error x => SM.pure (some x, d, other.elems)
  | .ok () =>
    if (other.elems.map PNamed.name).all (fun name => name.isEmpty || (findName d.index name).isNone) then
      if d.elems.length > 0 then
        if d.rows = other.rows then bindLoopP S d other.elems
        else SM.pure (some .logic, d, other.elems)
      else bindLoopP S { d with rows := other.rows } other.elems
    else SM.pure (some .logic, d, other.elems)

/-- dataframe.hpp:129 the constructor from one named column, which is moved into the vector; if that throws, the parameter is destroyed. -/
def frameOfNamed {C : Coercion} (S : Nat → Bool) (e : PNamed) : CM C PFrame := do
  let n ← sizeP e.ptr
  (cEvent S).cleanup (deleteModel e.ptr)
  SM.pure ⟨n, [e], 1, []⟩

/-- action.hpp:41-53 `df | head(n)`: the partial copies are made when they are read and moved into a temporary data frame, which is copied and destroyed. -/
def headP {C : Coercion} (S : Nat → Bool) (d : PFrame) (n : Nat) : CM C PFrame :=
  if n > d.rows then SM.throw .outOfRange
  else do
    let t ← frameOfIter S (d.elems.map fun e => do
      cEvent S
      let p ← partP S e.ptr 0 n
      SM.pure (⟨e.name, p⟩ : PNamed))
    let r ← (frameCopy S t).cleanup (destroyAll t.elems)
    destroyAll t.elems
    SM.pure r

/-- Destroying a vector of columns.
dataframe.hpp:205, numeric.hpp:70. -/
def destroyCols {C : Coercion} : List (Option Nat) → CM C Unit
  | [] => SM.pure ()
  | p :: ps => do
    deleteModel p
    destroyCols ps

/-- dataframe.hpp:213-220 and numeric.hpp:75-83 going through the columns: those of another type are converted into temporary columns `tmp` (moving those when the vector grows
does not change where their elements are); `data`: where the elements of each column are. -/
def gatherLoop {C : Coercion} (S : Nat → Bool) (T : C.Ty) : List (Option Nat) → (tmp : List (Option Nat)) → (data : List Nat) → CM C (List (Option Nat) × List Nat)
  | [], tmp, data => SM.pure (tmp, data)
  | p :: ps, tmp, data => do
    let t ← (typeP p).cleanup (destroyCols tmp)
    if t = T then do
      (cEvent S).cleanup (destroyCols tmp)
      gatherLoop S T ps tmp (data ++ p.toList)
    else do
      let q ← (toColumnP S p T).cleanup (destroyCols tmp)
      (cEvent S).cleanup (destroyCols (q :: tmp))
      (cEvent S).cleanup (destroyCols (tmp ++ [q]))
      gatherLoop S T ps (tmp ++ [q]) (data ++ q.toList)

/-- The elements at such an address.
`data[j][i]` in dataframe.hpp:230-232, numeric.hpp:88-92. -/
def valsAt {C : Coercion} (T : C.Ty) (id : Nat) : CM C (List (C.Val T)) := do
  let m ← fetch id
  if h : m.ty = T then SM.pure (h ▸ m.vals) else SM.die .ub

/-- All of them.
dataframe.hpp:229-234, numeric.hpp:87-92. -/
def valsAll {C : Coercion} (T : C.Ty) : List Nat → CM C (List (List (C.Val T)))
  | [] => SM.pure []
  | id :: ids => do
    let v ← valsAt T id
    let vs ← valsAll T ids
    SM.pure (v :: vs)

/-- The elements of all columns as `T`, as `write` (dataframe.hpp:198-237) and `to_matrix` (numeric.hpp:65-95) use them. Simplification: what is done with them (output, the
builder: Model/DataFrame.lean) is not repeated here. -/
def gather {C : Coercion} (S : Nat → Bool) (T : C.Ty) (d : PFrame) : CM C (List (List (C.Val T))) := do
  let r ← gatherLoop S T (d.elems.map PNamed.ptr) [] []
  let vs ← valsAll T r.2
  destroyCols r.1
  SM.pure vs

/-! ### Programs -/

/-- The state of a program: the objects, the columns and the data frames in scope (a column is its pointer).
The objects of column.hpp:101 and dataframe.hpp:299-302 that a user's program has. -/
structure CState (C : Coercion) where
  heap : CHeap C
  cols : Nat → Option (Option Nat)
  frames : Nat → Option PFrame

/-- Statements over columns and data frames. The first name is the one that is created or changed.
The members of column.hpp:31-67 and dataframe.hpp:77-259 as a user calls them. -/
inductive CStmt (C : Coercion) where
  /-- `column x{…};` -/
  | col (x : Nat) (T : C.Ty) (l : List (C.Val T))
  /-- `column x;` -/
  | colEmpty (x : Nat)
  /-- `column x{y};` -/
  | colCopy (x y : Nat)
  /-- `column x{y, first, size};` -/
  | colPart (x y first size : Nat)
  /-- `column x{std::move(y)};` -/
  | colMove (x y : Nat)
  /-- `x = y;` -/
  | colSet (x y : Nat)
  /-- `x = std::move(y);` -/
  | colMoveSet (x y : Nat)
  /-- `x.coerce<T>();` -/
  | coerce (x : Nat) (T : C.Ty)
  /-- `auto x = to_column<T>(y);` -/
  | toCol (x y : Nat) (T : C.Ty)
  /-- `auto x = to_column<T>(std::move(y));` -/
  | toColMove (x y : Nat) (T : C.Ty)
  /-- the end of the scope of `x` -/
  | colDrop (x : Nat)
  /-- `dataframe d;` -/
  | frame (d : Nat)
  /-- `dataframe d{{name, x}, …};` -/
  | frameOf (d : Nat) (l : List (Txt × Nat))
  /-- `dataframe d{s};` -/
  | frameCopy (d s : Nat)
  /-- `dataframe d{std::move(s)};` -/
  | frameMove (d s : Nat)
  /-- `d = s;` -/
  | frameSet (d s : Nat)
  /-- `d = std::move(s);` -/
  | frameMoveSet (d s : Nat)
  /-- `d.bind(s);` -/
  | bind (d s : Nat)
  /-- `d.bind(std::move(s));` -/
  | bindMove (d s : Nat)
  /-- `d.bind(named_column_type{name, std::move(x)});` -/
  | bindCol (d : Nat) (name : Txt) (x : Nat)
  /-- `column x{d.at(i).column};` -/
  | colAt (x d i : Nat)
  /-- `auto d = s | head(n);` -/
  | head (d s n : Nat)
  /-- `d.write(os);`, `to_matrix<T>(d);` -/
  | table (d : Nat) (T : C.Ty)
  /-- the end of the scope of `d` -/
  | frameDrop (d : Nat)

/-- A computation on the objects, in a program.
Language semantics, for column.hpp:31-98 and dataframe.hpp:77-296. -/
def onHeap {C : Coercion} (x : CM C β) : SM (CState C) β := fun s =>
  match x s.heap with
  | .ok b h => .ok b { s with heap := h }
  | .exn e h => .exn e { s with heap := h }
  | .fail f => .fail f

/-- The column with this name.
Language semantics (names in scope), for column.hpp:31-67 and dataframe.hpp:77-259. -/
def getCol {C : Coercion} (x : Nat) : SM (CState C) (Option Nat) := fun s =>
  match s.cols x with
  | some p => .ok p s
  | none => .fail .illFormed

/-- The data frame with this name.
Language semantics (names in scope), for column.hpp:31-67 and dataframe.hpp:77-259. -/
def getFrame {C : Coercion} (d : Nat) : SM (CState C) PFrame := fun s =>
  match s.frames d with
  | some D => .ok D s
  | none => .fail .illFormed

/-- The name must not be in scope.
Language semantics (names in scope), for column.hpp:31-67 and dataframe.hpp:77-259. -/
def newCol {C : Coercion} (x : Nat) : SM (CState C) Unit := fun s =>
  match s.cols x with
  | none => .ok () s
  | some _ => .fail .illFormed

/-- The name must not be in scope.
Language semantics (names in scope), for column.hpp:31-67 and dataframe.hpp:77-259. -/
def newFrame {C : Coercion} (d : Nat) : SM (CState C) Unit := fun s =>
  match s.frames d with
  | none => .ok () s
  | some _ => .fail .illFormed

/-- Two different names. Simplification: moving an object into itself is not modelled.
Language semantics (names), for column.hpp:60 and dataframe.hpp:137. -/
def differ {C : Coercion} (x y : Nat) : SM (CState C) Unit := fun s => if x = y then .fail .illFormed else .ok () s

/-- The column gets another pointer (`none`: it goes out of scope).
Language semantics (variables), for column.hpp:101 and dataframe.hpp:299-302. -/
def setCol {C : Coercion} (x : Nat) (p : Option (Option Nat)) : SM (CState C) Unit := fun s =>
  .ok () { s with cols := fun y => if y = x then p else s.cols y }

/-- The data frame gets another value (`none`: it goes out of scope).
Language semantics (variables), for column.hpp:101 and dataframe.hpp:299-302. -/
def setFrame {C : Coercion} (d : Nat) (D : Option PFrame) : SM (CState C) Unit := fun s =>
  .ok () { s with frames := fun y => if y = d then D else s.frames y }

/-- Rethrows what a member function has thrown after its object has been updated.
Language semantics, for column.hpp:31-98 and dataframe.hpp:77-296. -/
def orThrow {C : Coercion} : Option Exn → SM (CState C) Unit
  | none => SM.pure ()
  | some e => SM.throw e

/-- The columns named in an initializer list.
The initializer list of dataframe.hpp:79. -/
def getCols {C : Coercion} : List (Txt × Nat) → SM (CState C) (List PNamed)
  | [] => SM.pure []
  | (name, x) :: l => do
    let p ← getCol x
    let r ← getCols l
    SM.pure (⟨name, p⟩ :: r)

/-- Execution of a statement. column.hpp:31-67, dataframe.hpp:77-259, numeric.hpp:12-23, action.hpp:41-53, as said in `CStmt`. -/
def cstep {C : Coercion} (S : Nat → Bool) (lostIndex : List (Txt × Nat) → List (Txt × Nat) → List (Txt × Nat)) : CStmt C → SM (CState C) Unit
  | .col x T l => do
    newCol x
    let p ← onHeap (buildModel S ⟨T, l⟩)
    setCol x (some p)
  | .colEmpty x => do
    newCol x
    setCol x (some none)
  | .colCopy x y => do
    newCol x
    let q ← getCol y
    let p ← onHeap (copyP S q)
    setCol x (some p)
  | .colPart x y first size => do
    newCol x
    let q ← getCol y
    let p ← onHeap (partP S q first size)
    setCol x (some p)
  | .colMove x y => do
    newCol x
    let q ← getCol y
    setCol y (some none)
    setCol x (some q)
  | .colSet x y => do
    let t ← getCol x
    let q ← getCol y
    let p ← onHeap (assignP S t q)
    setCol x (some p)
  | .colMoveSet x y => do
    differ x y
    let t ← getCol x
    let q ← getCol y
    setCol y (some none)
    onHeap (deleteModel t)
    setCol x (some q)
  | .coerce x T => do
    let t ← getCol x
    let p ← onHeap (coerceP S t T)
    setCol x (some p)
  | .toCol x y T => do
    newCol x
    let q ← getCol y
    let p ← onHeap (toColumnP S q T)
    setCol x (some p)
  | .toColMove x y T => do
    newCol x
    let q ← getCol y
    let p ← onHeap (toColumnRvP S q T)
    setCol y (some none)
    setCol x (some p)
  | .colDrop x => do
    let t ← getCol x
    onHeap (deleteModel t)
    setCol x none
  | .frame d => do
    newFrame d
    setFrame d (some (.empty 0))
  | .frameOf d l => do
    newFrame d
    let es ← getCols l
    let D ← onHeap (frameOfList S es)
    setFrame d (some D)
  | .frameCopy d s => do
    newFrame d
    let D ← getFrame s
    let D' ← onHeap (frameCopy S D)
    setFrame d (some D')
  | .frameMove d s => do
    newFrame d
    let D ← getFrame s
    setFrame s (some (.empty D.rows))
    setFrame d (some D)
  | .frameSet d s => do
    let T ← getFrame d
    let D ← getFrame s
    if d = s then SM.pure () else do
      let r ← onHeap (frameAssign S lostIndex T D)
      setFrame d (some r.2)
      orThrow r.1
  | .frameMoveSet d s => do
    differ d s
    let T ← getFrame d
    let D ← getFrame s
    setFrame s (some (.empty D.rows))
    onHeap (destroyAll T.elems)
    setFrame d (some D)
  | .bind d s => do
    let T ← getFrame d
    let D ← getFrame s
    let o ← onHeap (frameCopy S D)
    let r ← onHeap (bindP S T o)
    onHeap (destroyAll r.2.2)
    setFrame d (some r.2.1)
    orThrow r.1
  | .bindMove d s => do
    differ d s
    let T ← getFrame d
    let D ← getFrame s
    setFrame s (some (.empty D.rows))
    let r ← onHeap (bindP S T D)
    onHeap (destroyAll r.2.2)
    setFrame d (some r.2.1)
    orThrow r.1
  | .bindCol d name x => do
    let T ← getFrame d
    let p ← getCol x
    onHeap (cEvent S)
    setCol x (some none)
    let o ← onHeap (frameOfNamed S ⟨name, p⟩)
    let r ← onHeap (bindP S T o)
    onHeap (destroyAll r.2.2)
    setFrame d (some r.2.1)
    orThrow r.1
  | .colAt x d i => do
    newCol x
    let D ← getFrame d
    match D.elems[i]? with
    | none => SM.throw .logic
    | some e => do
      let p ← onHeap (copyP S e.ptr)
      setCol x (some p)
  | .head d s n => do
    newFrame d
    let D ← getFrame s
    let D' ← onHeap (headP S D n)
    setFrame d (some D')
  | .table d T => do
    let D ← getFrame d
    let _ ← onHeap (gather S T D)
    SM.pure ()
  | .frameDrop d => do
    let D ← getFrame d
    onHeap (destroyAll D.elems)
    setFrame d none

/-- A program without handlers, and one that goes on after each exception (`handled`).
Language semantics, for column.hpp:31-98 and dataframe.hpp:77-296. -/
def crun {C : Coercion} (S : Nat → Bool) (lostIndex : List (Txt × Nat) → List (Txt × Nat) → List (Txt × Nat)) (handled : Bool) : List (CStmt C) → SM (CState C) Unit
  | [] => SM.pure ()
  | s :: p => if handled then do
      let _ ← SM.try (cstep S lostIndex s)
      crun S lostIndex handled p
    else do
      cstep S lostIndex s
      crun S lostIndex handled p

end Jules

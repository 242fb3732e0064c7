import Verif.Model.Column
import Verif.Model.Heap
/-
Model of dataframe/dataframe.hpp, dataframe/numeric.hpp and dataframe/action.hpp. Data frames are values; an operation that changes
one returns its outcome and the value afterwards.
-/
namespace Jules

/-- dataframe.hpp:29-33 `named_column_type`. -/
structure Named (C : Coercion) where
  name : Txt
  col : Column C

/-- dataframe.hpp:299-302 the data members of `base_dataframe`. The map from names to positions is an association list, the most
recent entry of a name counts. -/
structure DF (C : Coercion) where
  rows : Nat
  elems : List (Named C)
  index : List (Txt × Nat)

/-- dataframe.hpp:77 the default constructor. -/
def DF.empty {C : Coercion} : DF C := ⟨0, [], []⟩

/-- `indexes_.find(name)`.
`indexes_.find`, dataframe.hpp:270. -/
def findName (index : List (Txt × Nat)) (name : Txt) : Option Nat := (index.find? (fun p => p.1 == name)).map Prod.snd

/-- dataframe.hpp:109-114 pushing the elements: the first size sets the number of rows; stops after the first column of another
size. `src` is what dereferencing the iterator does at each position. -/
def pushSized {C : Coercion} (rows : Nat) : List (Res (Named C)) → (acc : List (Named C)) → Res (List (Named C) × Bool)
  | [], acc => .ok (acc, true)
  | x :: xs, acc => do
    let e ← x
    if Column.size e.col = rows then pushSized rows xs (acc ++ [e])
    else .ok (acc ++ [e], false)

/-- dataframe.hpp:118-126 registering the names; the counter advances only for non-empty names. -/
def registerNames {C : Coercion} : List (Named C) → (i : Nat) → (index : List (Txt × Nat)) → Res (List (Txt × Nat))
  | [], _, index => .ok index
  | e :: es, i, index =>
    if e.name ≠ [] then
      if (findName index e.name).isSome then .error (.exc .logic)
      else registerNames es (i + 1) ((e.name, i) :: index)
    else registerNames es i index

/-- dataframe.hpp:104-127 the constructor from iterators (and 79-102, which delegate to it). The first element is read without
checking that there is one. -/
def DF.ofIter {C : Coercion} (src : List (Res (Named C))) : Res (DF C) :=
  match src with
  | [] => .error .ub
  | x :: xs => do
    let e ← x
    let rows := Column.size e.col
    let r ← pushSized rows xs [e]
    if r.2 then do
      let index ← registerNames r.1 0 []
      .ok ⟨rows, r.1, index⟩
    else .error (.exc .logic)

/-- The copy constructor of `named_column_type` (implicit; copies the column, column.hpp:50). -/
def Named.copy {C : Coercion} (e : Named C) : Res (Named C) := do
  let c ← Column.copy e.col
  .ok ⟨e.name, c⟩

/-- dataframe.hpp:79-88 the constructors from an initializer list or a range of named columns: the elements are copied. -/
def DF.ofList {C : Coercion} (l : List (Named C)) : Res (DF C) := DF.ofIter (l.map Named.copy)

/-- dataframe.hpp:129 the constructor from one named column. -/
def DF.ofNamed {C : Coercion} (e : Named C) : DF C := ⟨Column.size e.col, [e], []⟩

/-- dataframe.hpp:131 the constructor from one column: it is copied out of the initializer list. -/
def DF.ofColumn {C : Coercion} (c : Column C) : Res (DF C) := do
  let c' ← Column.copy c
  .ok ⟨Column.size c, [⟨[], c'⟩], []⟩

/-- dataframe.hpp:133 the copy constructor (default): copies every named column. -/
def DF.copy {C : Coercion} (d : DF C) : Res (DF C) := do
  let es ← d.elems.mapM Named.copy
  .ok ⟨d.rows, es, d.index⟩

/-- dataframe.hpp:136 copy assignment (default), for a target with `n` elements and room for `cap`: `std::vector` assigns to the elements that
exist (which works for columns without data, column.hpp:54-58) and copy-constructs the others, or all of them when it needs more room. -/
def DF.copyAssign {C : Coercion} (n cap : Nat) (src : DF C) : Res (DF C) := do
  let assigned := if src.elems.length ≤ cap then n else 0
  let es ← (src.elems.drop assigned).mapM Named.copy
  .ok ⟨src.rows, src.elems.take assigned ++ es, src.index⟩

/-- dataframe.hpp:134, 137 moving (default): the new value of the target, and of the source (the number of rows is copied,
the containers are emptied). -/
def DF.move {C : Coercion} (d : DF C) : DF C × DF C := (d, ⟨d.rows, [], []⟩)

/-- dataframe.hpp:275 `operator bool`. -/
def DF.nonempty {C : Coercion} (d : DF C) : Bool := decide (d.elems.length > 0)

/-- dataframe.hpp:287-291 `names()`. -/
def DF.names {C : Coercion} (d : DF C) : List Txt := d.elems.map Named.name

/-- dataframe.hpp:280-285 `column_types()`. -/
def DF.columnTypes {C : Coercion} (d : DF C) : Res (List C.Ty) := d.elems.mapM fun e => Column.elementsType e.col

/-- dataframe.hpp:252-256 the loop of `bind`; `S k` tells whether the `k`-th allocation fails (`bad_alloc`): inserting into the map and
growing the vector may both allocate. -/
def bindLoop {C : Coercion} (S : Nat → Bool) : (k : Nat) → (d : DF C) → List (Named C) → Res Unit × DF C
  | _, d, [] => (.ok (), d)
  | k, d, e :: es =>
    if e.name ≠ [] then
      if S k then (.error (.exc .badAlloc), d)
      else
        let d := { d with index := (e.name, d.elems.length) :: d.index }
        if S (k + 1) then (.error (.exc .badAlloc), d)
        else bindLoop S (k + 2) { d with elems := d.elems ++ [e] } es
    else if S k then (.error (.exc .badAlloc), d)
    else bindLoop S (k + 1) { d with elems := d.elems ++ [e] } es

/-- dataframe.hpp:240-259 `bind`; allocation 0 is the one of `other.names()`. -/
def DF.bind {C : Coercion} (S : Nat → Bool) (d other : DF C) : Res Unit × DF C :=
  if S 0 then (.error (.exc .badAlloc), d)
  else if other.names.all (fun name => name.isEmpty || (findName d.index name).isNone) then
    if d.nonempty then
      if d.rows = other.rows then bindLoop S 1 d other.elems
      else (.error (.exc .logic), d)
    else bindLoop S 1 { d with rows := other.rows } other.elems
  else (.error (.exc .logic), d)

/-- dataframe.hpp:262-266 `at(index_t)`. -/
def DF.atPos {C : Coercion} (d : DF C) (pos : Nat) : Res (Named C) :=
  match d.elems[pos]? with
  | some e => .ok e
  | none => .error (.exc .logic)

/-- dataframe.hpp:268-273 `at(const string&)`: the element at the registered position, which is not checked. -/
def DF.atName {C : Coercion} (d : DF C) (name : Txt) : Res (Named C) :=
  match findName d.index name with
  | none => .error (.exc .logic)
  | some i =>
    match d.elems[i]? with
    | some e => .ok e
    | none => .error .ub

/-- action.hpp:41-53 `df | head(n)`: the constructor from a range, applied to the partial copies, made when they are
read; the result is copied out of the reference `decltype(df)`. -/
def DF.head {C : Coercion} (d : DF C) (n : Nat) : Res (DF C) :=
  if n > d.rows then .error (.exc .outOfRange)
  else do
    let t ← DF.ofIter (d.elems.map fun e => do
      let c ← Column.partialCopy Arith.u64 e.col 0 n
      .ok (⟨e.name, c⟩ : Named C))
    t.copy

/-! ### Reading and writing -/

/-- `ranges::views::tokenize(regex, -1)` (`std::regex_token_iterator`) for the regular expression that matches exactly the character `sep`
(dataframe.hpp:37, the defaults): the pieces between the matches; what follows the last match only if it is not empty. -/
def tokenize (sep : Char) (s : Txt) : List Txt :=
  let parts := s.splitOn sep
  if 2 ≤ parts.length ∧ parts.getLast? = some [] then parts.dropLast else parts

/-- dataframe.hpp:35-56 `read_options`: how lines and cells are separated, and whether the first line is a header. -/
structure ReadOpts where
  lines : Txt → List Txt := tokenize '\n'
  cells : Txt → List Txt := tokenize '\t'
  header : Bool := true

/-- dataframe.hpp:156-171 the loop over the lines: the number of columns and the cells so far. -/
def readLines (cells : Txt → List Txt) : List Txt → (ncol : Nat) → (data : List Txt) → Res (Nat × List Txt)
  | [], ncol, data => .ok (ncol, data)
  | line :: rest, ncol, data =>
    if line = [] then readLines cells rest ncol data
    else
      let cs := cells line
      let ncol := if ncol = 0 then cs.length else ncol
      if ncol = 0 ∨ cs.length = ncol then readLines cells rest ncol (data ++ cs)
      else .error (.exc .logic)

/-- `view::stride(n)`: every `n`-th element, from the first. (`fuel`: the length of the list.)
`view::stride`, dataframe.hpp:173-193. -/
def strideL (n : Nat) : (fuel : Nat) → List α → List α
  | 0, _ => []
  | _ + 1, [] => []
  | fuel + 1, x :: xs => x :: strideL n fuel (xs.drop (n - 1))

/-- Binding one named column (`df.bind(named_column_type{...})`). Simplification: without allocation failures.
The calls of `bind` in dataframe.hpp:173-193. -/
def bindNamed {C : Coercion} (d : DF C) (e : Named C) : Res (DF C) :=
  match d.bind (fun _ => false) (DF.ofNamed e) with
  | (.ok (), d') => .ok d'
  | (.error f, _) => .error f

/-- dataframe.hpp:139-196 `read`; `none` is a stream in a failed state. -/
def DF.read (fp : Fp) (opt : ReadOpts) (input : Option Txt) : Res (DF (julesRules fp)) :=
  match input with
  | none => .ok DF.empty
  | some raw => do
    let r ← readLines opt.cells (opt.lines raw) 0 []
    let ncol := r.1
    let data := r.2
    if ncol = 0 then .ok DF.empty
    else if opt.header ∧ data.length / ncol = 1 then
      (List.range ncol).foldlM (fun d j => bindNamed d ⟨data.getD j [], none⟩) DF.empty
    else
      (List.range ncol).foldlM (fun d j =>
        let sub := data.drop (j + if opt.header then ncol else 0)
        bindNamed d ⟨if opt.header then data.getD j [] else [], Column.ofList (C := julesRules fp) JTy.string (strideL ncol sub.length sub)⟩) DF.empty

/-- dataframe.hpp:312-316 `is >> df`: the data frame read is moved into `df` (dataframe.hpp:137); with the outcome, the new value of `df`. If `read` throws, the assignment is
not reached. -/
def DF.extract (fp : Fp) (input : Option Txt) (df : DF (julesRules fp)) : Res Unit × DF (julesRules fp) :=
  match DF.read fp {} input with
  | .ok d => (.ok (), d.move.1)
  | .error f => (.error f, df)

/-- dataframe.hpp:58-75 `write_options`. -/
structure WriteOpts where
  line : Txt := ['\n']
  cell : Txt := ['\t']
  header : Bool := true

/-- dataframe.hpp:213-220 the text of a column. -/
def columnText (fp : Fp) (c : Column (julesRules fp)) : Res (List Txt) := do
  let t ← Column.elementsType c
  if t = JTy.string then Column.data (C := julesRules fp) c JTy.string
  else do
    let c' ← toColumn (C := julesRules fp) c JTy.string
    Column.data (C := julesRules fp) c' JTy.string

/-- dataframe.hpp:222-227, 230-233 the items of a line, and the line separator. -/
def lineText (opt : WriteOpts) : List Txt → Txt
  | [] => opt.line
  | x :: xs => x ++ (xs.map fun y => opt.cell ++ y).flatten ++ opt.line

/-- dataframe.hpp:230, 232 reading a cell; beyond the end of a column it is undefined. -/
def cellAt (c : List Txt) (i : Nat) : Res Txt :=
  match c[i]? with
  | some x => .ok x
  | none => .error .ub

/-- dataframe.hpp:229-234 the rows. -/
def rowsText (opt : WriteOpts) (cols : List (List Txt)) : (i n : Nat) → Res Txt
  | _, 0 => .ok []
  | i, n + 1 => do
    let cells ← cols.mapM fun c => cellAt c i
    let rest ← rowsText opt cols (i + 1) n
    .ok (lineText opt cells ++ rest)

/-- dataframe.hpp:198-237 `write`: what is written. Everything that may throw happens before the first output. Simplification: the
stream does not fail. -/
def DF.write (fp : Fp) (opt : WriteOpts) (d : DF (julesRules fp)) : Res Txt :=
  if d.nonempty then do
    let cols ← d.elems.mapM fun e => columnText fp e.col
    let body ← rowsText opt cols 0 d.rows
    .ok ((if opt.header then lineText opt d.names else []) ++ body)
  else .ok []

/-! ### Conversion to arrays -/

/-- dataframe.hpp:307-310 `os << df`: what is written. -/
def DF.insert (fp : Fp) (d : DF (julesRules fp)) : Res Txt := d.write fp {}

/-- dataframe/numeric.hpp:75-83 the elements of a column as `T`. -/
def columnAs {C : Coercion} (T : C.Ty) (c : Column C) : Res (List (C.Val T)) := do
  let t ← Column.elementsType c
  if t = T then Column.data c T
  else do
    let c' ← toColumn c T
    Column.data c' T

/-- dataframe/numeric.hpp:88-92 pushing the elements `i, …, i + n - 1` of a column. -/
def pushColumn (S : Nat → Bool) (chk : Bool) (col : List α) : (i n : Nat) → Builder → HM α Builder
  | _, 0, b => pure b
  | i, n + 1, b => do
    let b' ← (match col[i]? with
      | some x => builderPush S chk b x
      | none => HM.die .ub : HM α Builder).cleanup (builderDtor b)
    pushColumn S chk col (i + 1) n b'

/-- dataframe/numeric.hpp:87 the loop over the columns. -/
def pushColumns (S : Nat → Bool) (chk : Bool) (nrow : Nat) : List (List α) → Builder → HM α Builder
  | [], b => pure b
  | c :: cs, b => do
    let b' ← pushColumn S chk c 0 nrow b
    pushColumns S chk nrow cs b'

/-- dataframe/numeric.hpp:65-95 `to_matrix<T>`. -/
def toMatrix {C : Coercion} (S : Nat → Bool) (chk : Bool) (T : C.Ty) (d : DF C) : HM (C.Val T) Own := do
  let cols ← HM.lift (d.elems.mapM fun e => columnAs T e.col)
  let b ← builderNew S [d.rows, d.elems.length]
  let b' ← pushColumns S chk d.rows cols b
  arrayFromBuilder chk b'

/-- dataframe/numeric.hpp:25-30 `to_view<T>(column&)`: the view, in terms of the column's own storage, and the column afterwards. -/
def toViewMut {C : Coercion} (T : C.Ty) (c : Column C) : Res Obj × Column C :=
  match Column.elementsType c with
  | .error e => (.error e, c)
  | .ok t =>
    let r := if t ≠ T then Column.coerce c T else (.ok (), c)
    match r.1 with
    | .error e => (.error e, r.2)
    | .ok () =>
      match Column.data r.2 T with
      | .error e => (.error e, r.2)
      | .ok _ => (.ok (.cref 0 [Column.size r.2]), r.2)

/-- dataframe/numeric.hpp:32-35 `to_view<T>(const column&)`. -/
def toViewConst {C : Coercion} (T : C.Ty) (c : Column C) : Res Obj := do
  let _ ← Column.data c T
  .ok (.cref 0 [Column.size c])

/-- The storage of a column of type `T` as memory: address `k` is `data<T>()[k]`.
The vector `column_model.hpp:203-238` of a column as memory. -/
def Column.storage {C : Coercion} (T : C.Ty) (c : Column C) : Mem (C.Val T) := fun k =>
  match Column.data c T with
  | .ok l => l[k]?
  | .error _ => none

/-- dataframe/numeric.hpp:39-51 `to_vector<T>(const column&)`: the array made from the elements of the column, or of its conversion. -/
def toVector {C : Coercion} (S : Nat → Bool) (T : C.Ty) (c : Column C) : HM (C.Val T) Own := do
  let n := Column.size c
  let l ← HM.lift (columnAs T c)
  iterArr S l [n]

/-- dataframe/numeric.hpp:53-63 `to_vector<T>(column&&)`: converts the argument in place first. Simplification: the elements are then
moved out; what remains of them in the argument is not modelled. -/
def toVectorRv {C : Coercion} (S : Nat → Bool) (T : C.Ty) (c : Column C) : HM (C.Val T) Own := do
  let n := Column.size c
  let t ← HM.lift (Column.elementsType c)
  let c' ← HM.lift (if t ≠ T then (match Column.coerce c T with
    | (.ok (), c') => .ok c'
    | (.error e, _) => .error e) else .ok c : Res (Column C))
  let l ← HM.lift (Column.data c' T)
  iterArr S l [n]

end Jules

# Formal model of verri/jules in Lean 4 — design and trusted base

The model is in `lean/Verif/`; it is a hand translation of the C++ headers in
`/repo/include/jules` read as text. Nothing of the C++ was compiled or run. Paths below are
relative to `/repo/include/jules`.

## Layout

* `Verif/Basic.lean` — outcome type (`Res`): normal result, debug-assertion failure,
  C++ exception, undefined behaviour, ill-formed (does not compile).
* `Verif/Spec/*` — small specifications, independent of the model (enumeration of
  multi-indices, abstract views, array values and programs over them, grids, ...).
* `Verif/Model/*` — the model; every definition cites the file and lines it models.
* `Verif/Lemmas/*` — helper lemmas.
* `Verif/Props/*` — the property theorems `Cxx_…` (namespace `Jules.Props`), each with a
  concrete case next to it. A property whose full statement is false of the code has a theorem
  proving the failure by a witness, and theorems with the suffix `_partial` for the part that
  holds.
* `properties.jsonl` — the properties in English; `MANIFEST.json` — theorems and status;
  `AXIOMS.md` — the axioms of each theorem; `seeded/LOG.jsonl` — wrong programs tried.

## Modelling decisions

* Template parameters (order N, argument packs) become lists; template recursion becomes
  structural recursion over these lists. A call that violates a `static_assert`, or that
  the compiler would reject, is the outcome `illFormed`; C61 states exactly which index chains
  these are.
* `DEBUG_ASSERT(cond, default_module, ...)` is `dbg chk cond`: when `chk` (checked build) a
  false condition yields the outcome `assert`; in an unchecked build the test is skipped.
  `throwing_module` asserts are active in all builds and yield a C++ exception.
* `index_t` (64-bit unsigned) is `Nat`. Functions whose behaviour can depend on wrap-around
  take an arithmetic parameter with two instances: exact and modulo 2^64. Theorems say which
  one they use; C55 relates them.
* Memory is a partial map from addresses to element values (`Mem`); reading or writing outside
  its domain is the outcome `ub`. Array lifetime (C23–C26) uses a finer heap with blocks,
  capacities and per-cell construction state.
* Iterator loops `for (it = begin; it != end; ++it)` are run with fuel; theorems show the fuel
  is not exhausted.
* Element types are an arbitrary Lean type; floating point arithmetic is replaced by exact
  arithmetic over an algebraic structure named in the theorem, except C34 and C70 (IEEE double rounding)
  and C30 (NaN).
* The base model of indexing and expressions is by value. What the C++ keeps by reference is
  modelled separately and compared with the base model: parameters and arguments held by proxies
  (C56, `Model/Proxy`), lists of indices borrowed by views (C57, `Model/Borrow`), descriptors and
  operations referred to by the iterators of stored expressions (C58, `Model/Stored`), value
  categories of the elements an iterator returns (C59, `Model/ExprDrop`).

## Per-property plan

The status in parentheses is that of `MANIFEST.json`: `partial` always means that the full
statement has been refuted for the code as it is, by a theorem with a witness, and that the
`_partial` theorems prove what holds.

- **C01 Column-major layout is a bijection** (proved) — Layout.lean: `Desc.pos` (three `if constexpr` branches). Equality with the spec sum, bound, injectivity, surjectivity, by induction on the extents list.
- **C02 View iteration visits every element once, in column-major order, and stops** (proved) — Layout.lean: iterator state machine (`incr`, begin, end, fuel loop). Induction on extents shows begin..end = the spec enumeration. Zero inner extents: the machine reaches modulo-by-zero (stated as a theorem).
- **C03 Chained scalar indexing reaches the addressed element and rejects out-of-range** (proved) — Indexing.lean: `Obj.index` on scalar indices; induction over the index tuple, refinement to the abstract view.
- **C04 Strided slicing selects exactly the addressed elements** (proved) — Slicing.lean: `doSlice`; induction over the argument list; the result denotes the abstract selection.
- **C05 Checked slicing never addresses memory outside the sliced array** (partial) — Invariant `Safe` over arbitrary indexing histories (exact arithmetic), carried to 64-bit by the simulation of C55; wrap-around acceptance refuted by a witness theorem; partial.
- **C06 Slicing composes** (proved) — Algebraic law about `doSlice` by induction on the argument list.
- **C07 Index-range slicing selects the listed elements in order** (partial) — `doSliceInd` (reverse processing, extents array mutated in place) equals the cartesian selection; signed negative index witness refutes the per-index check for signed element types.
- **C08 Re-slicing an index-mapped view** (proved) — `Mapper.vec` operations refine the same abstract view operations.
- **C09 Bounded slices clip to the array** (partial) — `boundedEval` against a counting specification.
- **C10 Checked and unchecked builds agree** (proved) — Monotonicity in the `chk` flag, by cases over every operation and induction over the history.
- **C11 Contiguous fast paths agree with the general path** (proved) — Refinement of both paths to the same abstract view; equality of enumerations.
- **C12 rows/columns/axis enumerate the array's slices** (partial) — axisAt as the code composes it; theorem for matrices; iterator difference law refuted (sign) and the negated law proved.
- **C13 Dropping unit dimensions preserves elements** (partial) — copy_if / loop models; elements and order preserved; scalar drop of strided views refuted by witness.
- **C14 Reshape and flatten preserve the element sequence** (proved) — Contiguous views only; equality of element sequences.
- **C15 Nested initialiser lists: accepted iff rectangular and nonempty, elements in place** (proved) — Nested lists as trees of depth N; fill + check recursion + construct_recursive; accept iff rectangular.
- **C16 Constructing from sequences lays elements out in column-major order** (proved) — Constructors as list operations; addresses through C01.
- **C17 Assigning a value to a view changes exactly the view's elements** (proved) — Memory is a partial map from addresses to values; the assignment loop walks the view's positions with its iterator. Frame and effect by induction over the positions, which are distinct (C02, C04).
- **C18 Assigning an array to a view copies element by element** (proved) — `arrayAssign` loop reading the source from the current memory.
- **C19 overlap(v) = e assigns the value e had before the assignment** (proved) — `overlap(v) = e` (overlap.hpp) builds a fresh array from `e` and assigns it to `v`: composition of C20 and C18 on memory with an allocator; the temporary is destroyed. Effect stated on the values before the statement, for arbitrary overlap.
- **C20 Lazy expressions evaluate elementwise** (proved) — Expression trees, iterators zipped, evaluated on memory.
- **C21 In-place operators update each element once** (partial) — In-place loop on memory, non-interference hypothesis stated on read positions.
- **C22 Array assignment gives the assigned value, including when the source mentions the target** (proved) — Both assignment paths (same size: element loop over the target; other size: new block, swap) on memory; exact frame.
- **C23 Array lifetime: no leak, no double free, no use after free** (partial) — Heap machine with blocks, capacities, constructed counts; invariant by induction over histories; moved-from reuse refuted by witness, partial excludes exactly this reuse.
- **C24 A throwing element constructor leaks nothing** (proved) — construct loops with a throw oracle (k-th construction throws); accounting theorem for all k.
- **C25 Assignment is exception safe** (partial) — Assignment with throw oracle; strong guarantee proved; leak refuted by witness.
- **C26 array_builder builds the pushed sequence and cleans up** (proved) — Builder state machine, invariant by induction.
- **C27 cat concatenates** (proved) — List model of cat's recursive copy.
- **C28 seq yields the arithmetic sequence from start to stop, inclusive** (proved) — `seq` as the code computes it, on 64-bit words and on signed steps; closed form by induction over the loop; inclusive upper bound.
- **C29 product is matrix multiplication** (proved) — Generic triple loop over a commutative semiring; gemm as an external contract.
- **C30 max/min/which_max/which_min agree with the specification** (proved) — Loop models over a linear order.
- **C31 sum/prod/mean/var agree with the mathematical definition** (partial) — Loop models over a field; integer mean overload difference refuted by witness.
- **C32 count/which/all/any/none/freq obey their laws** (proved) — Loop models; laws.
- **C33 nth returns the n-th order statistic without changing the input** (proved) — nth_element as an arbitrary permutation satisfying its contract.
- **C34 Sampling without replacement yields distinct in-range indices, uniformly** (proved) — Selection sampling loop with an arbitrary sequence of generator values; exact arithmetic (incl. uniformity by counting) and IEEE double arithmetic with any rounding to nearest (Spec/Double).
- **C35 Array output prints every element exactly once in row-major nested order with separators between siblings** (proved) — Recursive printer over character lists.
- **C36 Format setters touch only their own dimension** (proved) — List.set frame.
- **C37 Matrix text output parses back** (proved) — Split inverse on the printed text.
- **C38 const_vector is immutable and shared** (proved) — Reference-counted store machine, invariant over histories.
- **C39 Column coercion is elementwise, total or atomic** (partial) — Columns as tagged lists; coercion as a traversal in Except.
- **C40 Number/text coercions round-trip and reject negatives** (proved) — Decimal printing and strtol-like parsing as functions on characters.
- **C41 Partial column copy** (partial) — partial_clone with 64-bit check; wrap-around refuted.
- **C42 Data frames stay rectangular** (partial) — Data frame operations as a step function with failures; invariant.
- **C43 Column lookup by name returns the column of that name** (partial) — The name index is modelled as in the code (map from name to position, registered per constructor). Lookup proved for histories in which the index is built consistently; refuted for the constructors that mis-register.
- **C44 Column names are unique** (partial) — As C43.
- **C45 bind appends or changes nothing** (partial) — bind step.
- **C46 read accepts exactly rectangular text** (proved) — Tokeniser + line loop on characters.
- **C47 write then read is the identity** (partial) — write and read composed as functions on characters; exact side condition (iff): no line ends with an empty cell. Typed columns through C40.
- **C48 A table with only a header** (partial) — Null columns modelled explicitly; refuted (write throws / copy UB), partial.
- **C49 head(n) keeps the first n rows** (partial) — `head` as the code composes it (copy, partial_clone of each column, re-construction); refuted for empty and row-less data frames.
- **C50 Data frame to matrix** (proved) — to_matrix over the column model.
- **C51 to_view/to_vector give the column's elements** (proved) — View of a column as shared storage.
- **C52 Numeric narrowing is never silent** (partial) — Coercion values; index to unsigned narrowing refuted.
- **C53 Allocation size equals the product of the extents** (partial) — prod_args at width w versus 64-bit product; refuted for narrow widths, proved for 64-bit arguments without overflow.
- **C54 Relative slice bounds evaluate against the dimension** (partial) — Relative index expressions as an inductive type; 64-bit evaluation.
- **C55 64-bit index arithmetic agrees with mathematical arithmetic for allocatable arrays** (proved) — The indexing model is parametric in the arithmetic; simulation exact vs 64-bit by induction over histories.
- **C56 A chain of index expressions never depends on objects that have ceased to exist** (partial) — Proxies carry, per held argument, whether it is a member, a reference to a parameter or a reference to the caller's range; simulation against the by-value model; dangling refuted by a general theorem, partial.
- **C57 A view selected by a list of indices keeps selecting the indices listed when it was made** (partial) — Index memory as a separate state that may change between steps; borrowed views as pointers into it; exact characterisation of the borrowing histories by a small automaton; simulation against the by-value model; refuted for borrowed views, partial.
- **C58 A lazy expression can be kept and used later** (partial) — Iterators with the objects they point into (descriptor, index list, operation), stepped one `++`/`==`/`*` at a time against a store of live objects; trace relation `Runs` by induction over the expression; equality with the by-position model while everything is alive, undefined behaviour exactly when something referred to is gone; refuted in general, partial.
- **C59 Dropping unit dimensions of a lazy expression keeps its elements** (partial) — Iterators that give an lvalue, a temporary or a reference to a destroyed temporary; meaning of expressions with `drop` as an inductive relation (extents, elements in order); both directions by induction over it: correct where only elements are passed through, undefined where computed values are dropped; refuted in general, partial.
- **C60 Arithmetic of view iterators** (partial) — Model/IterArith adds `+`, `-` and difference to the iterators of Model/Stored (`std::next`/`std::prev`/`std::distance` of forward iterators as loops). Proof: the iterators of each kind of view form a sequence indexed by ℕ, closed under `++`, injective; mixed-radix digits for N-dimensional strided views. Backward arithmetic of strided views refuted.
- **C61 Static types of index chains** (proved) — Spec/Types gives a type system for chains (5 kinds with order); proof that the model respects it for every arithmetic and check mode (subject reduction by induction over the chain), and that `illFormed` occurs exactly for untypable chains.
- **C62 Conversions between view types keep the view** (partial) — Model/ToStrided; the strided descriptor inferred from the extents is the canonical column-major one, so the refinement lemmas for views apply to any further chain. Empty multi-dimensional views refuted.
- **C63 normal_pdf is the normal density** (partial) — Model/Pdf, generic in the operations; with real operations compared with Mathlib's `gaussianPDFReal` (the literal for π bounded by Mathlib's bounds on π); with integer operations refuted.
- **C64 Sampling from a distribution** (partial) — Model/Sample: distribution plus generator as a state machine, `generate_n` (cached element, calls on read or skip) and the vector loop; equality with repeated single draws by induction; `std::discrete_distribution` by contract. Refuted for an empty list of weights.
- **C65 Programs over arrays have value semantics** (proved) — Spec/Program: stores of array values (extents + element per multi-index, no layout), legality and effect of each of 13 kinds of statement; Model/Program: the same statements as compositions of the modelled functions over memory; `HoldsStore` relates them. Forward simulation per statement (reusing C17–C22, C04, C10, C61), then induction over programs; existence and uniqueness of effects.
- **C66 Arrays and data frames from a pair of iterators** (partial) — Iterators are state machines (distance, dereference, increment on possibly shared state); the constructors are modelled as the code sequences `ranges::distance` and copying. Proved for multi-pass iterators by induction; refuted for single-pass ones (the code measures the distance before copying).
- **C67 Exceptions thrown by user functions** (partial) — On the heap model with exceptions: expressions whose functions return a value or throw, the `noexcept` specifications of the code as an operator that turns exceptions into `std::terminate`. Construction and copying loops by induction over positions, for every outcome list; refuted (for all such cases) where the code declares `noexcept`.
- **C68 In checked builds no program damages memory, and compiled programs only fail by assertions** (proved) — Memory safety as an invariant (`Intact`) of the program model of C65, without any legality hypothesis; a separate type checker (orders of arrays, kinds of chains) in Spec/Sound.lean. One weakest-precondition style predicate (value with property, assertion, or does not compile and is rejected by the checker) goes through indexing, expressions, loops and statements; programs by induction.
- **C69 Where failed checks throw, a caught exception leaves every array unchanged** (partial) — The program model of C65 once more, with exceptions: fragments over memory that return, throw (keeping memory as it is at the throw, temporaries destroyed) or fail; `noexcept` functions turn a failed check into `std::terminate`. Proved against C68's model by a relation between the two runs that goes through indexing (same value, or assertion against termination, which needs an empty selection or zero extent), expressions, loops (no checks inside) and statements; programs by induction. The full claim is refuted by concrete programs that terminate.
- **C70 Sums, means, variances and matrix products of doubles stay within the classical rounding error bounds** (proved) — The numeric functions are modelled over an abstract element type; C70 instantiates it with rational numbers rounded after every operation (Model/Rounded.lean), the rounding being any function to nearest (Spec/Double.lean). Standard model of floating-point error (relative error u, absolute error below the normal range, none for sums) proved from 'nearest', then induction over the lists; integers by induction with exactness; counterexamples for every rounding by uniqueness of the nearest double.
- **C71 On a 64-bit machine programs over arrays behave as with unlimited integers as long as index expressions, extents and memory fit** (proved) — The same model (Model/Program.lean) run with `Arith.u64` and with `Arith.exact`. Conditions in Spec/Program64.lean are about extents and the written bounds only. A predicate `Agr` (same outcome, and a property of the result) goes through indexing (C55), iteration, expressions, loops and statements; the allocator is replaced on the exact side by one for unlimited memory that coincides with it within the budget; programs by induction.
- **C72 Threads may share arrays: reading the same elements or changing different ones is race-free and gives, in every interleaving, what each thread computes alone** (proved) — Model/Concurrent.lean gives every statement of Model/Program.lean as the sequence of its single accesses (read, write, allocate, construct, release); threads interleave access by access. A logic for one thread (`Act.Ok`: permissions to read and write cells, what it ends with) is proved for all statements from C65's `stmt_ok` plus footprints; its soundness for n threads is an invariant that splits memory into shared cells (written by at most one thread) and cells owned by one thread. Termination: lexicographic well-founded order. Counterexample: lost update.
- **C73 Numbers written as text and read again: never an exception, within one millionth, unchanged afterwards** (partial) — Model/Text.lean defines `std::to_string(double)` (`%f`: exact rational, half-even at the sixth decimal) and `std::stod` (white space, sign, decimal and hexadecimal numbers, exponents, inf, nan, range errors) over signed-zero doubles; the rounding to binary64 is any rounding to nearest. Proof: the text denotes round6(x); the double y nearest to it is no further from it than x; below 2^33 half an ulp is less than half a millionth, from 2^33 on the grid of doubles is coarser than a millionth, so round6(y) = round6(x). Columns and frames by C39 and C47.
- **C74 User functions in lazy expressions are called exactly once per element and evaluation** (partial) — Model/Calls.lean: a log of calls; user functions answer depending on the whole log (state), the order of the operands of a binary function is chosen by the environment. Dereferencing expression iterators, array construction, assignment to views and arrays, overlap, in-place apply with and without an expression, and the loops of the reductions, all with the log. Spec/Calls.lean says independently what computing an element once means (Round, Rounds, Stores, Updates, Search). Proved by induction on the iterator and the loops: the code's log is exactly that of one round per element, in order; counts of calls; with stateless functions everything equals the existing pure model (whatever the order of operands). Partial: max/min/which_* compute improving elements twice and var/sd/meansd everything twice (counterexamples proved).
- **C75 Programs with control flow, default-constructed and moved-from arrays have value semantics** (partial) — Model/Adaptive.lean extends the statements of C65 by default construction and move construction and tracks which arrays are null pointers that still report extents; programs are trees (Prog) whose continuation depends on what was read, run by MWorld.exec. Spec/Adaptive.lean gives, on values only, legality, effect of each statement and the results of programs (Computes). A simulation (MHolds) preserved by every statement (mstep_ok), then induction on the program: C75_computes_partial, C75_program_partial, C75_legal_partial (legal programs run), C75_determined; C75_demo_normalise applies it to a program with a reduction and a branch, for every vector. Partial: assigning a moved-from array a value of the size it reports is undefined (C75_moved_from_assign).
- **C76 Running out of memory is reported and changes nothing** (partial) — The statements of Model/Program.lean and Model/Adaptive.lean again in Model/NoMemory.lean, with each allocation at the place where the code makes it (elements, and lists of positions) and an arbitrary choice of the allocations that fail; programs may continue differently after a failure. A small logic (`Acts`/`Quiet`) shows that each fragment does what the model without failures does, or throws having changed nothing. The specification (`Ending`) works on array values: a statement is executed, or has no effect and was one that may need memory. Refuted in full: a plain index on a list-selected view of several dimensions allocates in a `noexcept` function (`C76_terminated`).
- **C77 Checked builds: programs with branches, moves and failing allocations never damage memory** (proved) — On the model of C75/C76 (Model/Adaptive.lean, Model/NoMemory.lean). Spec/SafeProg.lean: intact memory with moved-from arrays, a type checker that sees only orders, and a syntactic discipline (which names may be moved-from after each statement, along each branch). Every statement keeps this invariant or fails by assertion (mstep_fine, extending step_fine of C68), then Ends of C76 adds failing allocations (C77_step), then induction on the program (C77_run, C77_program, C77_no_leak); C77_undisciplined shows that the discipline is needed.
- **C78 Whole programs on a 64-bit machine** (partial) — Spec/Whole64 says which programs fit (per statement as in C71, along all effects and failures of the program). Lemmas/Whole64 proves that a step with moved-from arrays agrees with exact arithmetic (Agr), and then C75–C77's theorems are transferred along the execution tree by induction on the program.
- **C79 Columns and data frames own their storage: no leak, no double deletion, no sharing, whatever throws** (partial) — Model/ColumnHeap.lean: columns as pointers to column_model objects that are created with new and deleted; the functions of column.hpp, column_model.hpp, dataframe.hpp, numeric.hpp and action.hpp as programs on this heap, with stack unwinding (destructors of members and locals), JULES_DEFER and an arbitrary choice of throwing allocations. Spec/ColumnHeap.lean: the same statements on plain values, and `Represents` (each object has exactly one owner). A separation logic (`SP`, `Sep`) gives a rule for each function, then each statement is simulated (cstep_sim), then induction on programs. C79_not_rectangular and C79_moved_from_copy are the refutations.
- **C80 A view kept in a variable is another name for the index expression it was made with** (proved) — Model/Views.lean: states have array variables and view variables; a view variable is the pointer with extents or mapper that indexing gave, with no connection to its array; the statements of Model/Program.lean with operands that may be views, `auto v = x[h]…` and `auto y = std::move(x)`. Spec/Views.lean: a view is an alias (array name, index expressions) or dangling, and statements are those of C65 with the aliases written out. Proof: C80_alias (indexing composes) gives C80_inlined (the model's statement equals the statement without views), then the statement theorem of C65 and a lemma on which statements keep the blocks of arrays (`env_step`); dangling views by the memory freed in the statement.
- **C81 Programs with kept views are memory-safe in checked builds as long as no dangling view is used, also with 64-bit sizes** (proved) — Model of C80. Spec/ViewsSound.lean: the views after a statement as a function (`nextViews`), statements that compile and mention no dangling view (`Prudent`), and those for which 64 bits are enough (`VFits`). Proof: statements equal those without views (C80_inlined, in any arithmetic and build), so C68_step applies, and the invariant `Aliased` is kept (C80_followed); on 64 bits the two machines are compared statement by statement (C71's `same_unlimited`), with the invariant for both arithmetics. C81_undetected: the claim is false for programs that use dangling views (witness, checked build).
- **C82 const_vectors can be shared between threads** (proved) — Model/ConstVectorThreads.lean: threads with own variables and shared constant ones; each operation is local work followed by single steps on blocks (increment, decrement, free, read, compare). Spec/ConstVectorThreads.lean: a thread alone in terms of values (the specification of C38), and the variables that refer to a block. Proof: the invariant `SVInv` (use count + increments to do = references + decrements to do; a block with count 0 has exactly one thread freeing it; every thread is where the thread alone is) is kept by each step (inv_step); a lexicographic measure decreases (work_step).
- **C83 Kept views of columns follow the elements** (proved) — Model/ColumnPtr adds views (object number, type, size, const) to the columns and data frames of Model/ColumnHeap. Spec/ColumnPtr says where the elements of the column at a place are after each statement (movesTo, mayMove). Lemmas/ColumnGrow: no statement changes an existing object, it only deletes some and makes new ones; Lemmas/ColumnFlow: for each of the 24 statements, which pointers are where afterwards; Lemmas/ColumnPtr: single steps and programs by induction.
- **C84 What throwing functions leave behind** (proved) — Model/Fallible repeats the statements of Model/Program with functions that may throw (partial), in-place operators that may throw after changing their argument, and loops that stop; Spec/Fallible says with multi-indices only which elements have changed. Lemmas/Fallible: a stopping loop over distinct cells writes exactly a prefix (induction on the list of cells), sources yield the value of the expression or throw; Props/Fallible: one lemma per statement, programs by induction.
- **C85 Blocks, calls, exceptions and handlers: everything declared is destroyed, however a block is left** (proved) — Model/Scopes.lean: programs as trees over the statements of Model/Adaptive.lean and Model/Fallible.lean with blocks, calls, throw and try/catch; the state has the stack of declarations and counts lost blocks. Spec/Scopes.lean: big-step relation on stores of values, in which leaving a block keeps exactly the names in scope at its entry. Proof: induction on the relation with the invariant that the innermost frame grows by exactly the names added; leaving a block by induction on the frame.
- **C86 Whatever throws and whenever it throws, programs over arrays stay well-defined and destroy everything they construct** (proved) — Model/Blocks.lean: the programs of C85 over a pool of allocated blocks with single-element construct, destroy, assign and free, and a schedule saying which event throws, and an allocator that may refuse any request; catch clauses, destructors of temporaries, noexcept and JULES_DEFER as in the code; invalid destroy, free or access is undefined, elements whose storage is freed or reused alive are counted. Spec/Blocks.lean: the big-step relation May on array values with interruption of statements, and BHolds (which block belongs to which array, which are lost). Proof: each loop under a schedule behaves as the loop of C84 cut at one element; a ledger of blocks is kept by the statements; induction on the program.
- **C87 In checked builds, programs with blocks, calls, exceptions and handlers never damage memory, whatever throws and whatever they index** (proved) — Model/Blocks.lean in checked builds, without legality. Spec/SafeBlocks.lean: orders of arrays through blocks, calls and handlers (CompilesB), names that may be moved-from where a body ends with and without an exception (goneAt), what the library does not check (ProvidedB). Proof: every statement that passes its assertions is legal or stops before changing memory, so it falls back on the lemmas of C86; induction on the program with the set of possibly moved-from names as invariant. Counterexamples for release builds and moved-from arrays are evaluated.
- **C88 On a 64-bit machine with finite memory, programs over arrays behave as with unbounded numbers** (proved) — Model/Blocks.lean run with Arith.u64 instead of exact arithmetic, with allocators that refuse what does not fit below 2^62 (Spec/Blocks64.lean: GoodBlocks64, XFits, FitsAny, FitsRunB, Modest). Proof: step by step both arithmetics give the same outcome as long as all arrays are small (BelowB), which each step preserves because the allocator bounds new arrays; then C86 and C87 apply. Modest index expressions select no index twice, so views are no larger than the array. The counterexample is evaluated.
- **C89 Debug levels: raising the level only adds reports** (proved) — Model/Levels.lean: the functions of Model/Layout, Slicing, Fallible and Blocks that contain or reach assertions, again, with each assertion at its level (K : level -> compiled in). Proof: a relation 'fails an assertion, or is the same outcome' closed under sequencing, loops, handlers and destructors; for K constantly true or false the functions are those of the other models (Lemmas/LevelsSame.lean). Which violations are reported at which level: case analysis and induction over the dimensions.
- **C90 With JULES_DEBUG_THROWS a failed check is an exception that handlers can catch and that changes nothing** (proved) — Model/BlockThrows.lean: the statements and programs of Model/Blocks.lean again, with each failed assertion an exception (std::terminate inside noexcept functions). Proof: a relation between the two builds for each statement (the same, or failed and nothing changed, or failed inside a noexcept function), then induction over programs with the invariant of C87; zero extents are excluded by a second invariant for cautious programs.
- **C91 Parallel regions: threads that decide by what they read, created and joined again and again** (proved) — Model/Regions.lean: a thread's program is a tree (statements, reads of elements that decide); its accesses are one `Act` of Model/Concurrent.lean, so interleavings and races are those of C72. Proof: the logic `Act.Ok` for trees by induction on the run of the thread alone, the n-thread invariant of C72, then induction over the regions with a lemma that the state after a join holds the merged store. Concrete case: clamp a vector in parallel, then reverse it in parallel (a different division of the elements).

## Trusted base

* Lean 4.33.0's kernel. Axioms at most `propext`, `Classical.choice`, `Quot.sound`; per theorem
  in `AXIOMS.md`. No axioms of our own, no compiled evaluation.
* The fidelity of the hand translation (each definition cites the lines it translates), and the
  reading of the C++ standard behind it (what is undefined, when objects are destroyed, which
  overload is chosen).
* The contracts of external code, each stated where it is used:
  `cblas_*gemm` (reference semantics, C29), `std::nth_element` (an arbitrary function meeting its
  contract, C33), `std::shared_ptr` (reference counting, C38), `std::generate_canonical` and
  `std::uniform_real_distribution` (a value in [0,1), C34), `std::uniform_int_distribution` and
  `std::discrete_distribution` (a value of the support, C34, C64), `ranges::views::generate_n`
  (C64), `std::stod/stoul/stoi/to_string` in the C locale (integers in full; doubles as
  parameters in C39, C40, in full up to the choice of a nearest double in C73), `std::sregex_token_iterator` (an arbitrary tokenizer, or the split at a
  single character, C46, C47), `std::map`, `std::vector`, `std::string`, iostreams without errors.

## What is modelled, file by file

| File | Modelled in | Not modelled |
|---|---|---|
| array/allocator.hpp | Heap, Memory, Stored, NoMemory, Fallible, Blocks | — |
| array/array.hpp | Heap, Memory, Alloc, Stored, Program, Adaptive, NoMemory, IterPair, Throwing, Fallible, Scopes, Blocks | conversion operator spellings; `release()` is modelled as an operation of C23 |
| array/axis.hpp | Reshape | trivial wrappers returning `axis_array{ref(a)}` |
| array/binary_expr_array.hpp, unary_expr_array.hpp, expr_array.hpp, functional.hpp | Memory, Stored, ExprDrop, IterArith, Calls (with stateful user functions) | the operator *lists* of functional.hpp:97-129 (the model is parametric in the operation); `eval` (array construction, C20) |
| array/blas.hpp | Product | the gemm routine itself |
| array/builder.hpp | Heap, Cat, Throwing | — |
| array/descriptor.hpp, strided_descriptor.hpp | Layout, ToStrided, IterArith | compile-time helper traits |
| array/detail/common.hpp, detail/iterator.hpp | Memory, Stored, IterArith | iterator typedefs |
| array/drop.hpp, reshape.hpp | Reshape, ExprDrop | — |
| array/io.hpp | IO | stream state (width, errors), `std::basic_ostream` itself |
| array/mapper.hpp | Slicing, Borrow, IterArith, NoMemory | — |
| array/math.hpp, base/math.hpp | Pdf, Memory, Numeric | floating point rounding of exp, log, sqrt and normal_pdf |
| array/meta/*, core/meta.hpp, core/ranges.hpp, fwd.hpp | (static typing rules, C61) | the trait machinery |
| array/numeric.hpp, base/numeric.hpp | Cat, Product, Numeric, Calls, Rounded (`double` elements: every operation rounded) | signed zeros, the difference between infinities and NaN, fused operations |
| array/overlap.hpp | Memory, Program, NoMemory, Fallible, Blocks | — |
| array/ref_array.hpp, strided_ref_array.hpp | Slicing, Memory, Proxy, Borrow, ToStrided | defaulted members, accessors |
| array/slicing.hpp, slicing/absolute.hpp, slicing/bounded.hpp | Slicing, SignedRange, Proxy, Borrow, NoMemory | — |
| array/slicing/relative.hpp | Alloc (C54) | no `operator[]` accepts relative slices, so they are evaluated only directly |
| array/slicing/range.hpp | — | dead code: not included by any header and does not compile |
| base/async.hpp | ColumnHeap (`JULES_DEFER`: the action runs at scope exit, also on exceptions), Heap, Column (the deferred actions of array.hpp:293, 332 and column_model.hpp:129 run at scope exit, also on exceptions) | the macro itself |
| base/const_vector.hpp | ConstVector, NoMemory | — |
| base/index_view.hpp | Borrow, Slicing, NoMemory | — |
| base/random.hpp | Random, Sample | the default engine, `std::bernoulli_distribution` (covered by the generic `sample`, C64) |
| core/debug.hpp | Basic (`dbg`), Layout (`inNoexcept`), DebugThrows, BlockThrows (JULES_DEBUG_THROWS, for the programs of C65 and C85), Levels (JULES_DEBUG_LEVEL, for the programs of C86) | intermediate debug levels elsewhere than in the programs of C86; the text of the messages; JULES_DEBUG_THROWS outside these programs |
| core/detail/numbers.hpp | — | `number_iterator`, used nowhere (only included) |
| core/type.hpp | Column, Text, Layout, Heap, Rounded | — |
| dataframe/* | Column, DataFrame, Text, ColumnHeap (storage, ownership, exceptions) | the pure virtual declarations; the action wrapper is function application |

Other simplifications: threads appear only in C72 and C91 (Model/Concurrent.lean, Model/Regions.lean: interleaved single accesses, as
C++ guarantees for race-free programs; the only global object, the random engine, is thread-local and not part
of that model); allocation failure is modelled where a property is about it (C24, C25, C45, C67, C76–C79)
and otherwise absent; destructors of elements do not throw; element types copy by value.

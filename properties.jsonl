{"id": "C01", "title": "Column-major layout is a bijection", "statement": "For an array of order N with extents e, the position of the element with multi-index i (all i_k < e_k) is sum_k i_k * prod_{j<k} e_j; this position is < size(), distinct multi-indices have distinct positions, and every position < size() belongs to exactly one multi-index. The N=1 and N=2 fast paths agree with the general loop.", "quantifier": "all orders N>=1, all extents, all valid multi-indices", "why_tests_cant": "unbounded orders and extents; bijectivity quantifies over pairs of indices", "anchors": ["include/jules/array/descriptor.hpp: descriptor::operator(), descriptor::size"]}
{"id": "C02", "title": "View iteration visits every element once, in column-major order, and stops", "statement": "Iterating a strided view from begin() to end() terminates after exactly size() increments and yields the positions of all multi-indices in column-major order (first index fastest), each exactly once; for the 1-D specialisation likewise when the stride is positive.", "quantifier": "all orders, all extents without a zero extent (any extent for 1-D), all strides and starts", "why_tests_cant": "iterator state machine; must hold for every shape", "anchors": ["include/jules/array/strided_descriptor.hpp: strided_descriptor::iterator::operator++, cbegin, cend, end_index_impl"]}
{"id": "C03", "title": "Chained scalar indexing reaches the addressed element and rejects out-of-range", "statement": "a[i0][i1]...[iN-1] on an array or view refers to the element at multi-index (i0,...,iN-1) when all indices are in range, and in a checked build reports an assertion failure when any index is out of range.", "quantifier": "all orders, extents, views and index tuples", "why_tests_cant": "unbounded index tuples and view shapes", "anchors": ["include/jules/array/slicing.hpp: array_at", "include/jules/array/mapper.hpp: drop_first_dimension", "include/jules/array/descriptor.hpp", "include/jules/array/strided_descriptor.hpp: discard_dimension"]}
{"id": "C04", "title": "Strided slicing selects exactly the addressed elements", "statement": "Slicing an order-N view with N arguments that are indices or (start, extent, stride) slices gives a view whose k-th extent is the slice's extent (1 for an index), and whose element at multi-index j is the element of the original view at (start_k + j_k*stride_k)_k.", "quantifier": "all orders, views, and argument tuples accepted by the checks", "why_tests_cant": "every combination of arguments and view", "anchors": ["include/jules/array/slicing.hpp: do_slice, default_slicing, array_slice"]}
{"id": "C05", "title": "Checked slicing never addresses memory outside the sliced array", "statement": "In a checked build, every element of a view produced by an accepted sequence of indexing operations lies inside the memory of the array it was taken from.", "quantifier": "all histories of indexing operations (index, slice, strided slice, every, bounded slice, index range) starting from any array, all 64-bit arguments", "why_tests_cant": "needs induction over indexing histories; overflow cases are adversarial", "anchors": ["include/jules/array/slicing.hpp: do_slice, array_at, array_slice, strided_ref_array_proxy, ref_array_every_proxy", "include/jules/array/mapper.hpp"]}
{"id": "C06", "title": "Slicing composes", "statement": "Slicing a strided view v with s and the result with t addresses the same elements as slicing v once with the composed slice (start_s + start_t*stride_s, extent_t, stride_s*stride_t), in each dimension; and the once-sliced version is accepted whenever both steps are.", "quantifier": "all views, all pairs of accepted slice tuples", "why_tests_cant": "pairs of arbitrary slices on arbitrary views", "anchors": ["include/jules/array/slicing.hpp: do_slice, default_slicing"]}
{"id": "C07", "title": "Index-range slicing selects the listed elements in order", "statement": "Slicing with tuples where some arguments are ranges of indices gives a view whose k-th extent is the number of indices listed and whose element at multi-index j is the original element at (arg_k[j_k])_k, enumerated in column-major order; every listed index is checked against its extent.", "quantifier": "all orders, all index lists (possibly repeating), all mixes with indices and slices", "why_tests_cant": "arbitrary index lists", "anchors": ["include/jules/array/slicing.hpp: indirect_slicing, do_slice (indirect)", "include/jules/array/mapper.hpp: vector_mapper"]}
{"id": "C08", "title": "Re-slicing an index-mapped view", "statement": "A view obtained through an index range can itself be indexed and sliced by index, slice or range with the same meaning as for ordinary views, and never reads outside its own index list.", "quantifier": "all index-mapped views and all accepted arguments", "why_tests_cant": "arbitrary index lists and re-slicing", "anchors": ["include/jules/array/mapper.hpp: vector_mapper::map, drop_first_dimension", "include/jules/array/slicing.hpp: array_slice, array_at"]}
{"id": "C09", "title": "Bounded slices clip to the array", "statement": "slice(start, every), slice(start, at_most(m)) and their strided forms evaluated on a dimension d select min(m, number of positions start + j*stride < d) positions, never exceed the dimension, and select nothing when start >= d; `every` selects all of the dimension.", "quantifier": "all start, stride>0, m, d", "why_tests_cant": "all 64-bit values", "anchors": ["include/jules/array/slicing/bounded.hpp: bounded_index, eval", "include/jules/array/detail/common.hpp: seq_size"]}
{"id": "C10", "title": "Checked and unchecked builds agree", "statement": "If an indexing/slicing history runs without assertion failure in a checked build, the same history in an unchecked (NDEBUG) build produces the same view.", "quantifier": "all histories of indexing operations", "why_tests_cant": "all executions under two build modes", "anchors": ["include/jules/core/debug.hpp", "include/jules/array/slicing.hpp", "include/jules/array/mapper.hpp", "include/jules/array/strided_descriptor.hpp"]}
{"id": "C11", "title": "Contiguous fast paths agree with the general path", "statement": "Indexing a contiguous array with a leading chain of `every` followed by an index, slice or `every` in the last dimension (handled by a special proxy that returns a contiguous view) addresses the same elements in the same order, with the same extents, as the general strided path; likewise 1-D slices and 1-D index ranges.", "quantifier": "all orders, extents and accepted arguments", "why_tests_cant": "two code paths must coincide on every input", "anchors": ["include/jules/array/slicing.hpp: ref_array_every_proxy, array_at(descriptor)", "include/jules/array/ref_array.hpp: operator[]"]}
{"id": "C12", "title": "rows/columns/axis enumerate the array's slices", "statement": "rows(a) has row_count elements and its i-th element has, in order, the elements a[i][0], a[i][1], ...; columns(a) has column_count elements and its j-th element has the elements a[0][j], a[1][j], ...; axis iterators are random access: (it + n) - it = n.", "quantifier": "all matrices (any extents), all i, j, n", "why_tests_cant": "all shapes; iterator laws over all offsets", "anchors": ["include/jules/array/axis.hpp: axis_at, axis_iterator, axis_array, rows, columns"]}
{"id": "C13", "title": "Dropping unit dimensions preserves elements", "statement": "drop_to<D>(v) removes N-D dimensions of extent 1, keeps the remaining extents in order, addresses the same elements in the same order, fails the check iff fewer than N-D extents are 1; drop_to<0> of a one-element view refers to that element.", "quantifier": "all orders N, targets D<=N, views", "why_tests_cant": "all shapes and strides", "anchors": ["include/jules/array/strided_descriptor.hpp: drop_one_level_dimensions", "include/jules/array/detail/common.hpp: drop_one_level_extents", "include/jules/array/ref_array.hpp: drop_to", "include/jules/array/strided_ref_array.hpp: drop_to"]}
{"id": "C14", "title": "Reshape and flatten preserve the element sequence", "statement": "reshape/flatten of a contiguous array or view keeps the column-major sequence of elements and gives the requested extents; it is rejected in checked builds iff sizes differ; reshaping back restores the original view; it is implemented without copying.", "quantifier": "all orders, extents and element sequences", "why_tests_cant": "all shapes", "anchors": ["include/jules/array/reshape.hpp", "include/jules/array/ref_array.hpp: flatten, reshape_to", "include/jules/array/array.hpp: reshape_to"]}
{"id": "C15", "title": "Nested initialiser lists: accepted iff rectangular and nonempty, elements in place", "statement": "In a checked build, constructing an order-N array from nested initialiser lists is accepted iff the lists are rectangular (every sibling list has the same length at each level) and none of them is empty; then the extents are those lengths and a[i0]...[iN-1] is the value written at that position; otherwise it is reported by an assertion.", "quantifier": "all orders, all nested lists", "why_tests_cant": "unbounded nesting and lengths", "anchors": ["include/jules/array/array.hpp: array(recursive_initializer_list), calculate_descriptor_fill, calculate_descriptor_check", "include/jules/array/allocator.hpp: construct, construct_recursive"]}
{"id": "C16", "title": "Constructing from sequences lays elements out in column-major order", "statement": "Arrays built from an iterator plus extents, from a range, or from a fill value contain exactly those elements in column-major order; iterating an array yields exactly the sequence it was built from.", "quantifier": "all element sequences and extents", "why_tests_cant": "arbitrary sequences", "anchors": ["include/jules/array/array.hpp: constructors", "include/jules/array/numeric.hpp: to_vector, as_vector"]}
{"id": "C17", "title": "Assigning a value to a view changes exactly the view's elements", "statement": "After v = x, every element of v equals x, every memory cell not addressed by v is unchanged.", "quantifier": "all memories, all views (contiguous, strided, index-mapped), all values", "why_tests_cant": "frame condition over all memory and views", "anchors": ["include/jules/array/ref_array.hpp: operator=", "include/jules/array/strided_ref_array.hpp: operator=", "include/jules/array/detail/iterator.hpp"]}
{"id": "C18", "title": "Assigning an array to a view copies element by element", "statement": "After v = w with equal extents and no shared cells (or v and w addressing identical cells), each element of v equals the old element of w at the same multi-index, and cells outside v are unchanged; with different extents a checked build reports an error and changes nothing.", "quantifier": "all memories, all pairs of views", "why_tests_cant": "frame condition, all pairs of views", "anchors": ["include/jules/array/detail/common.hpp: array_assign"]}
{"id": "C19", "title": "overlap(v) = e assigns the value e had before the assignment", "statement": "After overlap(v) = e with equal extents, each element of v equals the element e had before the assignment at the same multi-index, however e's reads overlap v's cells; cells outside v are unchanged and nothing stays allocated; with different extents a checked build reports an error (view target) and a plain array target takes e's extents.", "quantifier": "all memories, all target views with distinct cells, all source views and expressions with arbitrary aliasing", "why_tests_cant": "aliasing patterns are unbounded", "anchors": ["include/jules/array/overlap.hpp: overlapping_array::operator=, overlap", "include/jules/array/detail/common.hpp: array_assign"]}
{"id": "C20", "title": "Lazy expressions evaluate elementwise", "statement": "For any expression built from arrays, views and scalars with unary and binary operators, the element of the result at each multi-index is the operator applied to the operands' elements at that index (scalars broadcast, operand order preserved), and the result has the operands' extents; mismatched extents are reported in checked builds.", "quantifier": "all expression trees, extents, operators and element values", "why_tests_cant": "unbounded expression trees", "anchors": ["include/jules/array/functional.hpp", "include/jules/array/unary_expr_array.hpp", "include/jules/array/binary_expr_array.hpp", "include/jules/array/expr_array.hpp", "include/jules/array/math.hpp"]}
{"id": "C21", "title": "In-place operators update each element once", "statement": "a op= b and a op= scalar replace each element x of a by x op (the corresponding element of b / the scalar), each exactly once, and change nothing else; if b reads a only at the position being written (e.g. a += a * a), the result is as if b had been computed first; the scalar is the value it had before the operation, also when it is an element of a.", "quantifier": "all views, expressions, operators", "why_tests_cant": "frame and aliasing, all expressions", "anchors": ["include/jules/array/functional.hpp: operators @=", "include/jules/array/detail/common.hpp"]}
{"id": "C22", "title": "Array assignment gives the assigned value, including when the source mentions the target", "statement": "After a = e (e an array, view or expression, possibly referring to a itself at the same index), a has e's extents and the elements e had before the assignment; other arrays are unchanged.", "quantifier": "all arrays and expressions, both the same-size and the reallocating path", "why_tests_cant": "aliasing and reallocation paths", "anchors": ["include/jules/array/array.hpp: operator="]}
{"id": "C23", "title": "Array lifetime: no leak, no double free, no use after free", "statement": "For every program built from construction, copy, move, assignment, element write, release and destruction of arrays, in any order: every allocation is freed exactly once, every element constructed is destroyed exactly once, and no freed or null memory is accessed; after destruction of all arrays nothing is left allocated.", "quantifier": "all histories of array operations on any number of arrays", "why_tests_cant": "unbounded histories", "anchors": ["include/jules/array/array.hpp: constructors, operator=, ~array, release, clear", "include/jules/array/allocator.hpp"]}
{"id": "C24", "title": "A throwing element constructor leaks nothing", "statement": "If constructing the k-th element throws during array construction (from value, range, copy, nested initialiser), the elements already constructed are destroyed exactly once, the memory is freed, and the exception propagates.", "quantifier": "all sizes, all throw points, all nesting shapes", "why_tests_cant": "every crash point", "anchors": ["include/jules/array/allocator.hpp: construct, construct_recursive, destroy_recursive", "include/jules/array/array.hpp: constructors"]}
{"id": "C25", "title": "Assignment is exception safe", "statement": "If copying an element throws during a = b with a different size, a keeps its old extents and elements and nothing is leaked; with the same size, a keeps its extents and no memory is lost.", "quantifier": "all arrays, all throw points", "why_tests_cant": "every crash point", "anchors": ["include/jules/array/array.hpp: operator="]}
{"id": "C26", "title": "array_builder builds the pushed sequence and cleans up", "statement": "A builder of capacity n accepts up to n push_back/emplace_back calls, release() yields a vector holding exactly the pushed elements in order (and requires all n to be pushed in checked builds); destroying an unreleased builder destroys exactly the constructed elements and frees the memory; pushing beyond the capacity is reported.", "quantifier": "all capacities and histories of pushes, release and destruction", "why_tests_cant": "unbounded histories", "anchors": ["include/jules/array/builder.hpp: array_builder"]}
{"id": "C27", "title": "cat concatenates", "statement": "cat(x1,...,xn) of scalars, vectors, views and expressions is the vector of all their elements in order; its length is the sum of the lengths.", "quantifier": "all argument lists", "why_tests_cant": "arbitrary number and lengths of arguments", "anchors": ["include/jules/array/numeric.hpp: cat"]}
{"id": "C28", "title": "seq yields the arithmetic sequence from start to stop, inclusive", "statement": "seq(start, stop, step) with bounds below 2^63 and a non-zero step leading from start towards stop is the list of exactly the numbers start + i*step (i = 0, 1, ...) lying between start and stop inclusive, in that order; it has floor(|stop-start|/|step|)+1 elements (one if start = stop); no wrap-around happens in the elements. In checked builds a zero step or one leading away from stop is reported.", "quantifier": "all bounds below 2^63 and all steps", "why_tests_cant": "all 64-bit triples including boundary wrap-around", "anchors": ["include/jules/array/numeric.hpp: seq", "include/jules/array/detail/common.hpp: seq_size"]}
{"id": "C29", "title": "product is matrix multiplication", "statement": "product(a,b) has extents (rows a, cols b) and element (i,j) = sum_k a(i,k)*b(k,j); it requires cols a = rows b (reported in checked builds); the BLAS-backed and the generic versions agree (exact arithmetic), and a scaled left operand alpha*a scales the result. The BLAS-backed version also requires extents of at most 2^31-1 (reported in checked builds; in builds without checks larger ones are silently reduced modulo 2^32, and the result is then wrong).", "quantifier": "all matrices over any commutative semiring, all extents including zero", "why_tests_cant": "all shapes and values", "anchors": ["include/jules/array/numeric.hpp: product", "include/jules/array/blas.hpp: product"]}
{"id": "C30", "title": "max/min/which_max/which_min agree with the specification", "statement": "max(rng, init) is the least upper bound of init and the elements; which_max is the first position of a maximal element; likewise min/which_min; results of position functions are valid positions for non-empty ranges.", "quantifier": "all sequences over any linear order", "why_tests_cant": "arbitrary sequences", "anchors": ["include/jules/base/numeric.hpp: max, min, which_max, which_min"]}
{"id": "C31", "title": "sum/prod/mean/var agree with the mathematical definition", "statement": "sum and prod are the sum and product of all elements (order-insensitive in exact arithmetic; exact for signed integers as long as no partial result overflows; modulo 2^64 for index_t); mean*n = sum; var*(n-1) is the sum of squared deviations from the mean (exact arithmetic, at least two elements); the iterator-pair and range overloads agree; meansd = (mean, sd).", "quantifier": "all sequences over a field", "why_tests_cant": "arbitrary sequences", "anchors": ["include/jules/base/numeric.hpp: sum, prod, mean, var, sd, meansd"]}
{"id": "C32", "title": "count/which/all/any/none/freq obey their laws", "statement": "count(p) = number of positions satisfying p = length of which(p); which(p) is strictly increasing and contains exactly the positions satisfying p; all/any/none are the quantifiers and satisfy none = not any, all p = none (not p); freq(p) is count(p) divided by the number of elements.", "quantifier": "all sequences and predicates", "why_tests_cant": "arbitrary sequences and predicates", "anchors": ["include/jules/base/numeric.hpp: count, which, all, any, none, freq"]}
{"id": "C33", "title": "nth returns the n-th order statistic without changing the input", "statement": "nth(rng, n) with n < size returns the n-th smallest element: the element at position n of the sorted range, so at most n elements are smaller and at least n+1 elements are <= it; it leaves the source range unchanged.", "quantifier": "all sequences over a linear order, all n", "why_tests_cant": "arbitrary sequences; relies on any nth_element permutation", "anchors": ["include/jules/base/numeric.hpp: nth"]}
{"id": "C34", "title": "Sampling without replacement yields distinct in-range indices, uniformly", "statement": "uniform_index_sample(no_replacement, n, end) with n <= end yields exactly n strictly increasing indices, all < end, for every outcome of the random generator, and terminates after at most end steps; in exact arithmetic with independent uniform generator values every n-subset is equally likely. Sampling with replacement from end > 0 yields n indices < end.", "quantifier": "all n <= end, all random sequences", "why_tests_cant": "all random outcomes", "anchors": ["include/jules/base/random.hpp: no_replacement_t / sampling"]}
{"id": "C35", "title": "Array output prints every element exactly once in row-major nested order with separators between siblings", "statement": "Streaming an array or view with no empty dimension (checked or unchecked build), a view whose first dimension is empty, or, in an unchecked build, any array, with a dimensions format writes the elements in lexicographic multi-index order, each level's elements separated by that level's separator and enclosed by its before/after strings; nothing else is written. In a checked build an array with an empty dimension after a nonempty first one is reported by an assertion instead of printed.", "quantifier": "all orders, extents, elements, formats and index chains building the view", "why_tests_cant": "arbitrary shapes and formats", "anchors": ["include/jules/array/io.hpp: array_ostream, operator<<"]}
{"id": "C36", "title": "Format setters touch only their own dimension", "statement": "Setting the format of dimension d changes exactly format d of the stream (missing ones in between become the default); on a stream with as many formats as the array has dimensions it changes exactly that dimension's strings; the named setters of comma/space/tab give the documented separators.", "quantifier": "all formats, dimensions and strings", "why_tests_cant": "frame over all dimensions", "anchors": ["include/jules/array/io.hpp: dimensions_format"]}
{"id": "C37", "title": "Matrix text output parses back", "statement": "Writing a non-empty matrix with single-character separators that do not occur in the element texts, or with arbitrary separators such that the first occurrence of a separator after each cell is the one written, and splitting the output by these separators recovers the matrix of element texts. For multi-character separators mere non-occurrence in the cells is not enough.", "quantifier": "all matrices and all element renderings free of the separators", "why_tests_cant": "all contents", "anchors": ["include/jules/array/io.hpp: array_ostream"]}
{"id": "C38", "title": "const_vector is immutable and shared", "statement": "Copies of a const_vector denote the same sequence for ever: no history of operations on any copy (copying, moving, assigning, destroying, converting) changes the elements observed through another live copy; storage is freed exactly when the last copy is gone.", "quantifier": "all histories over any number of handles", "why_tests_cant": "unbounded histories with sharing", "anchors": ["include/jules/base/const_vector.hpp"]}
{"id": "C39", "title": "Column coercion is elementwise, total or atomic", "statement": "Coercing a column to type U replaces each element by its conversion, keeps order, size and name, and either converts all or (if some element's conversion throws, or the conversion does not exist) leaves the column unchanged; can_coerce tells exactly whether the conversion exists; coercing to the present type is the identity.", "quantifier": "all columns, all target types, all conversion outcomes", "why_tests_cant": "all contents and failure points", "anchors": ["include/jules/dataframe/column.hpp: column::coerce, can_coerce", "include/jules/dataframe/detail/column_model.hpp: coerce_, can_coerce_", "include/jules/core/type.hpp: coercion rules"]}
{"id": "C40", "title": "Number/text coercions round-trip and reject negatives", "statement": "Converting an integer, unsigned or index to text and back is the identity; converting a negative integer to an index or unsigned is rejected, never silently wrapped.", "quantifier": "all representable integers", "why_tests_cant": "all 2^32 / 2^64 values", "anchors": ["include/jules/core/type.hpp: string_rule, integer_rule, uinteger_rule, index_rule"]}
{"id": "C41", "title": "Partial column copy", "statement": "partial_clone(first, size) of a column holds exactly elements first .. first+size-1 in order, is rejected when the interval is not inside the column, and leaves the source unchanged.", "quantifier": "all columns, all 64-bit first, size", "why_tests_cant": "all 64-bit pairs, wrap-around", "anchors": ["include/jules/dataframe/detail/column_model.hpp: partial_clone"]}
{"id": "C42", "title": "Data frames stay rectangular", "statement": "After any history of operations on data frames (construct, copy, move, assign, bind, read, head), also operations that failed, all columns of every data frame have the same number of elements, equal to row_count(), and column_count() is the number of columns. (Found false for a copy assignment that runs out of memory in the middle.)", "quantifier": "all histories", "why_tests_cant": "unbounded histories including failing operations", "anchors": ["include/jules/dataframe/dataframe.hpp: dataframe constructors, bind, read, row_count, column_count", "include/jules/dataframe/action.hpp: head"]}
{"id": "C43", "title": "Column lookup by name returns the column of that name", "statement": "at(name) returns the column bound under that name, with that column's position and contents; it throws iff no column has that name; lookup of a name is unaffected by binding other columns.", "quantifier": "all histories of construction and bind, all names", "why_tests_cant": "unbounded histories", "anchors": ["include/jules/dataframe/dataframe.hpp: at, bind, constructors"]}
{"id": "C44", "title": "Column names are unique", "statement": "No data frame ever has two columns with the same non-empty name; an attempt to create one is reported.", "quantifier": "all histories", "why_tests_cant": "unbounded histories", "anchors": ["include/jules/dataframe/dataframe.hpp: constructors, bind, read"]}
{"id": "C45", "title": "bind appends or changes nothing", "statement": "bind(column) with matching row count and fresh name appends the column at the right end, keeping all others; if it throws, the data frame is unchanged.", "quantifier": "all data frames and columns, both outcomes", "why_tests_cant": "all states and failure points", "anchors": ["include/jules/dataframe/dataframe.hpp: bind"]}
{"id": "C46", "title": "read accepts exactly rectangular text", "statement": "Reading a table succeeds iff every data line has as many cells as the header; on success cell (i,j) is the j-th cell of line i+1, the names are the header's cells; otherwise an error is reported.", "quantifier": "all character sequences", "why_tests_cant": "all inputs", "anchors": ["include/jules/dataframe/dataframe.hpp: read"]}
{"id": "C47", "title": "write then read is the identity", "statement": "For a data frame of text columns (at least one column and one row) whose cells and names contain no separators, reading what was written gives the same names and cells.", "quantifier": "all such data frames", "why_tests_cant": "all contents", "anchors": ["include/jules/dataframe/dataframe.hpp: read, write"]}
{"id": "C48", "title": "A table with only a header", "statement": "Reading a header with no data lines gives a data frame with these column names and zero rows, which can be written, copied and read again.", "quantifier": "all headers", "why_tests_cant": "all headers and follow-up operations", "anchors": ["include/jules/dataframe/dataframe.hpp: read, write", "include/jules/dataframe/column.hpp: column copy"]}
{"id": "C49", "title": "head(n) keeps the first n rows", "statement": "df | head(n), for n <= row_count(), has n rows, the same columns in order, and cell (i,j) equal to the source's cell (i,j); for n > row_count() it throws out_of_range; the source is unchanged.", "quantifier": "all data frames, all n", "why_tests_cant": "all contents and n", "anchors": ["include/jules/dataframe/action.hpp: head", "include/jules/dataframe/detail/column_model.hpp: partial_clone"]}
{"id": "C50", "title": "Data frame to matrix", "statement": "to_matrix<T>(df) has extents (rows, columns) and element (i,j) is the conversion to T of cell i of column j.", "quantifier": "all data frames with coercible columns", "why_tests_cant": "all contents", "anchors": ["include/jules/dataframe/numeric.hpp: to_matrix"]}
{"id": "C51", "title": "to_view/to_vector give the column's elements", "statement": "to_view<T>(column) on a non-const column coerces it and refers to its storage: writing through the view changes exactly the addressed element of the column and nothing else; to_vector returns an independent copy.", "quantifier": "all columns and write histories", "why_tests_cant": "aliasing over all histories", "anchors": ["include/jules/dataframe/numeric.hpp: to_view, to_vector"]}
{"id": "C52", "title": "Numeric narrowing is never silent", "statement": "A successful coercion between index, integer and unsigned preserves the numeric value.", "quantifier": "all representable values", "why_tests_cant": "all 64-bit values", "anchors": ["include/jules/core/type.hpp: index_rule, integer_rule, uinteger_rule"]}
{"id": "C53", "title": "Allocation size equals the product of the extents", "statement": "The number of elements allocated for an array equals the product of its extents as reported by size(), for every argument tuple of extents.", "quantifier": "all extent tuples of all unsigned argument widths", "why_tests_cant": "wrap-around in narrow types", "anchors": ["include/jules/base/numeric.hpp: prod_args, prod", "include/jules/array/array.hpp: constructors"]}
{"id": "C54", "title": "Relative slice bounds evaluate against the dimension", "statement": "slice(start, size), slice(start, size - k), slice(start, size / k) evaluated on dimension d yield extents d, d-k, d/k; for k > d the subtraction does not silently give a huge extent.", "quantifier": "all start, k, d, and arbitrarily nested expressions", "why_tests_cant": "all 64-bit values", "anchors": ["include/jules/array/slicing/relative.hpp"]}
{"id": "C55", "title": "64-bit index arithmetic agrees with mathematical arithmetic for allocatable arrays", "statement": "For any array with fewer than 2^62 elements and any chain of index expressions whose own bounds are 64-bit numbers and whose views have at most 2^62 elements (lists of indices may repeat), the chain has in 64-bit wrap-around arithmetic the outcome it has in exact arithmetic: the same assertion or the same view, whose iteration visits the same positions, all inside the array. The only further condition is that a strided slice selecting a single index does not have a stride beyond its dimension: there the 64-bit stride can wrap to 0, and iterating a view of size 1 then visits nothing.", "quantifier": "all arrays with fewer than 2^62 elements, all chains of index expressions of any length", "why_tests_cant": "all 64-bit values", "anchors": ["include/jules/array/descriptor.hpp", "include/jules/array/strided_descriptor.hpp", "include/jules/array/slicing.hpp", "include/jules/base/numeric.hpp: prod"]}
{"id": "C56", "title": "A chain of index expressions never depends on objects that have ceased to exist", "statement": "The value of a[i0][i1]...[ik] is determined by the array and the index expressions alone: it does not depend on whether the implementation destroys function parameters at the return of the function or at the end of the full expression, and a chain of named index expressions can be cut into several statements (auto p = a[i0]; p[i1]) without changing its result.", "quantifier": "all orders, extents, chains of index expressions, cuts into full expressions, both implementation choices for parameter lifetime", "why_tests_cant": "the outcome depends on an implementation-defined lifetime and on unbounded chains; a dangling reference usually still reads the old bytes in a test", "anchors": ["include/jules/array/slicing.hpp: detail::strided_ref_array_proxy, detail::ref_array_every_proxy, detail::at", "include/jules/array/ref_array.hpp: operator[]", "include/jules/array/strided_ref_array.hpp: operator[]"]}
{"id": "C57", "title": "A view selected by a list of indices keeps selecting the indices listed when it was made", "statement": "After v = a[idx] (any order, any chain), changing or destroying the list idx does not affect v: it keeps denoting the elements that were listed and checked when it was made. While the list is unmodified, the view behaves as one that owns a copy.", "quantifier": "all arrays, chains of index expressions, lists of indices, later changes of the memory in which lists live", "why_tests_cant": "depends on every later change of another object's memory; reading a freed list usually still gives the old values in a test", "anchors": ["include/jules/base/index_view.hpp", "include/jules/array/slicing.hpp: array_at(U*, const descriptor<M>&, const Rng&)", "include/jules/array/mapper.hpp: vector_mapper"]}
{"id": "C58", "title": "A lazy expression can be kept and used later", "statement": "After auto e = <array expression>;, as long as e and the arrays among its operands exist, constructing an array from e or assigning e to a view gives the operators applied to the operands' elements at that moment, i.e. what writing the expression there would give.", "quantifier": "all trees of operations over arrays and views, all memories at the time of use, all sets of objects destroyed in between", "why_tests_cant": "depends on the lifetime of every temporary of every expression; a dangling function object without state usually still works in a test", "anchors": ["include/jules/array/unary_expr_array.hpp: iterator", "include/jules/array/binary_expr_array.hpp: iterator", "include/jules/array/expr_array.hpp: operate", "include/jules/array/functional.hpp: apply", "include/jules/array/strided_descriptor.hpp: iterator", "include/jules/array/detail/common.hpp: array_assign"]}
{"id": "C59", "title": "Dropping unit dimensions of a lazy expression keeps its elements", "statement": "drop(e) and drop_to<D>(e) of an array expression e with at least N-D unit extents are an expression with the first N-D unit extents removed and the same elements in the same order; evaluating it, or an expression it is part of, gives those elements.", "quantifier": "all trees of operations over arrays and views of any order and extents, all D, all memories", "why_tests_cant": "the value read after the temporary is destroyed is often still there, so a test passes by luck; must hold for every expression", "anchors": ["include/jules/array/unary_expr_array.hpp: drop_to, drop, iterator::operator*", "include/jules/array/binary_expr_array.hpp: drop_to, drop", "include/jules/base/numeric.hpp: identity_t", "include/jules/array/detail/common.hpp: drop_one_level_extents"]}
{"id": "C60", "title": "Arithmetic of view iterators", "statement": "For every array or view with n elements: begin()+k (k<=n) refers to the k-th element in column-major order, begin()+n is end(), (it+k)+j is it+(k+j), ++it is it+1, equal iterators have equal positions, the difference of two iterators is the difference of their positions (also negative) and it-j undoes it+j.", "quantifier": "all extents, all chains of index expressions producing a view, all iterators in range, all offsets, both orders of a difference", "why_tests_cant": "A law over all shapes, views and pairs of positions; the failing direction (negative difference) does not terminate, which a test can only time out on", "anchors": ["include/jules/array/detail/iterator.hpp: iterator_from_indexes operator+, operator-, operator==", "include/jules/array/strided_descriptor.hpp: iterator::operator++, begin, end", "include/jules/array/mapper.hpp: index_begin, index_end", "include/jules/array/ref_array.hpp: begin, end"]}
{"id": "C61", "title": "Static types of index chains", "statement": "Whether a chain of index expressions compiles, and whether it yields an element, a contiguous view, a strided view, a list-selected view or an incomplete chain (and of which order), depends only on the order of the array and on the kinds of the index expressions, never on extents, index values or the build mode; a legal chain that compiles is accepted and yields an object of that type.", "quantifier": "all orders, all chains of any length, all extents and index values, checked and unchecked builds", "why_tests_cant": "A statement about all chains, values and builds; one test instantiates one type", "anchors": ["include/jules/array/slicing.hpp: array_at, array_slice, strided_ref_array_proxy, ref_array_every_proxy", "include/jules/array/ref_array.hpp: operator[]", "include/jules/array/strided_ref_array.hpp: operator[]", "include/jules/array/mapper.hpp"]}
{"id": "C62", "title": "Conversions between view types keep the view", "statement": "Implicitly converting a contiguous array or view to a strided view, or any view to a view of constant elements, is accepted and gives a view with the same extents, elements and order, on which every further chain of index expressions means the same.", "quantifier": "all extents, all chains producing the view, all further chains", "why_tests_cant": "Two representations must agree on every shape and every further history", "anchors": ["include/jules/array/ref_array.hpp: operator ref_array<const>, operator strided_ref_array", "include/jules/array/strided_ref_array.hpp: operator strided_ref_array<const>", "include/jules/array/strided_descriptor.hpp: strided_descriptor(start, extents)"]}
{"id": "C63", "title": "normal_pdf is the normal density", "statement": "normal_pdf(x, mu, sigma) is the density of the normal distribution with mean mu and standard deviation sigma at x: positive, symmetric about the mean, largest there, and of integral one; of an array it is a lazy array of the densities at the elements.", "quantifier": "all arguments with nonzero sigma, all arrays and array expressions", "why_tests_cant": "A test samples points; the claim is about the whole real line and an integral over it", "anchors": ["include/jules/base/math.hpp: normal_pdf, square, pi", "include/jules/array/math.hpp: normal_pdf"]}
{"id": "C64", "title": "Sampling from a distribution", "statement": "sample(n, dist, g) yields the values that n successive calls sample(dist, g) yield, in that order, and leaves the distribution and generator in the same state, so that samples can be split and reproduced; discrete_index_sample(n, weights) yields n positions of weights, each with positive weight.", "quantifier": "all distributions, generators and states, all n, all lists of weights", "why_tests_cant": "Tests see a few generator outcomes; the claim is for every generator and history of calls", "anchors": ["include/jules/base/random.hpp: sample, discrete_index_sample, bernoulli_sample"]}
{"id": "C65", "title": "Programs over arrays have value semantics", "statement": "Take any sequence of statements over any number of arrays: construction (fill, from an iterator, from an expression, copy), destruction, writing through views (view = scalar, view = expression, element = scalar), view op= expression, view op= scalar, apply(in_place), overlap(view) = expression, overlap(array) = expression, array = expression, array = array (also itself), array = std::move(array). If every statement is legal on array values (names in scope, index chains that compile and select existing elements, equal extents, written views without repeated elements, no element needed after it has been overwritten), the program runs without undefined behaviour or assertion failures in every build and with every allocator, and at the end every array has exactly the extents and elements that the statements give when arrays are plain values: no statement affects another array, arrays never share memory, and no memory is left over.", "quantifier": "all element types and operators, all programs (sequences of statements of any length), all numbers of arrays, orders, extents and index chains, both checked and unchecked builds, all allocators", "why_tests_cant": "quantifies over all programs and histories; aliasing and lifetime interactions between statements cannot be enumerated", "anchors": ["include/jules/array/array.hpp: array constructors, operator=, ~array", "include/jules/array/ref_array.hpp: operator=, operator[]", "include/jules/array/strided_ref_array.hpp", "include/jules/array/functional.hpp: apply, operators", "include/jules/array/overlap.hpp", "include/jules/array/detail/common.hpp: array_assign"]}
{"id": "C66", "title": "Arrays and data frames from a pair of iterators", "statement": "Constructing a vector from a pair of iterators [first, last), or an array of given extents from an iterator, yields exactly the elements the iterators traverse, in that order (column-major), whatever the iterators' category; a data frame constructed from a pair of iterators over columns has those columns.", "quantifier": "all iterators (given by what they refer to and how they move, multi-pass or single-pass, with shared state), all lengths, elements and extents", "why_tests_cant": "ranges over all iterator types, histories of shared state and lengths", "anchors": ["include/jules/array/array.hpp: array(Iter, Sent), array(Iter, dims...)", "include/jules/dataframe/dataframe.hpp: base_dataframe(Iter, Sent)"]}
{"id": "C67", "title": "Exceptions thrown by user functions", "statement": "If a user function (the function of apply or of an operator, a generator, an element's constructor) throws while an array is constructed from or assigned an expression or generator, or an element is moved into a builder, then the exception reaches the caller; nothing that existed before has been changed, except that with an assignment to an array of the same size the elements before the one whose computation threw have already been assigned. If none throws, the array has the expression's elements.", "quantifier": "all element types, all expressions over arrays and scalars with functions that may throw on any argument, all generators, all extents, all positions of the exception, all schedules of throwing element constructors and allocations", "why_tests_cant": "quantifies over every crash point of arbitrary user functions and every nothrow specification of the element type", "anchors": ["include/jules/array/allocator.hpp: construct", "include/jules/array/array.hpp: array(generated), array(expression), operator=", "include/jules/array/builder.hpp: push_back(T&&)", "include/jules/array/functional.hpp: apply"]}
{"id": "C68", "title": "In checked builds no program damages memory, and compiled programs only fail by assertions", "statement": "In a build with assertions, any sequence of statements that create, index, read, write, assign, move and destroy arrays - whatever the indices, extents, aliasing and order of statements - either runs to the end or stops at a failed assertion, never with undefined behaviour (provided no bounded slice has stride zero and iterators given to constructors have enough values). At every point each array owns its own live elements, arrays share none, nothing has leaked, and arrays that are not the target of a statement keep their extents, addresses and values. Whether a program compiles depends only on the orders of the arrays and the kinds of its index expressions.", "quantifier": "all programs of any length, all states with intact memory, all element types and operators, all allocators", "why_tests_cant": "Ranges over all programs, legal or not, including aliasing and repeated elements; tests try a few misuses", "anchors": ["include/jules/array/array.hpp", "include/jules/array/ref_array.hpp", "include/jules/array/strided_ref_array.hpp", "include/jules/array/slicing.hpp", "include/jules/array/functional.hpp", "include/jules/array/overlap.hpp", "include/jules/array/detail/common.hpp", "include/jules/core/debug.hpp"]}
{"id": "C69", "title": "Where failed checks throw, a caught exception leaves every array unchanged", "statement": "In a build with JULES_DEBUG_THROWS (the configuration of the test suite) every misuse of arrays is reported by an exception of type std::logic_error that can be caught; a statement that throws has changed no array and leaked no memory, statements that do not throw do exactly what they do in builds with fatal assertions, and a program that catches the exceptions and goes on never damages memory.", "quantifier": "all programs of any length, each statement in a try block or not, all states with intact memory, all element types and operators, all allocators", "why_tests_cant": "Ranges over all programs and all points at which a check can fail; the test suite catches a few exceptions but never looks at the arrays afterwards", "anchors": ["include/jules/core/debug.hpp", "include/jules/array/array.hpp", "include/jules/array/ref_array.hpp", "include/jules/array/strided_ref_array.hpp", "include/jules/array/slicing.hpp", "include/jules/array/strided_descriptor.hpp", "include/jules/array/mapper.hpp", "include/jules/array/detail/common.hpp", "include/jules/array/overlap.hpp"]}
{"id": "C70", "title": "Sums, means, variances and matrix products of doubles stay within the classical rounding error bounds", "statement": "With u = 2^-53 and element type double, on every machine that rounds to nearest and whatever the values: a finite sum(x) is within ((1+u)^(n-1)-1)*sum|x_i| of the exact sum (no underflow term); it is finite when (1+u)^n*sum|x_i| < 2^1024; sums, means and variances of up to 2^52 values of up to 2^430, and products of matrices of values of up to 2^480, are always finite; larger elements never give a smaller sum or mean, and a sum of values that are not negative is not below any of them; the mean of integers whose absolute values add up to at most 2^53 is the exact mean rounded once (so between the smallest and the largest), and the variance of equal integers is then 0; sums of integers whose absolute values add up to at most 2^53 are exact; a value that is not finite makes the sum not finite; prod(x) has relative error at most (1+u)^n-1 when no partial product is subnormal; mean(x) is within ((1+u)^n-1)*mean|x_i| + 2^-1075 of the exact mean, with both overloads; var(x) is never negative and within ((1+u)^(n+3)-1) of the exact variance relatively, plus the squared error of the mean, slightly enlarged; each finite element of product(a,b) is within ((1+u)^k-1)*sum|a_it||b_tj| (plus underflow) of the exact one; freq is rounded once, lies in [0,1], is 0 (1) exactly when nothing (everything) is counted. Not promised in general, and false on every such machine: that the mean lies between the smallest and the largest value, that the variance of equal values is 0, that the sum does not depend on the order.", "quantifier": "all lists of doubles (subnormal and large ones included), all lengths up to 2^53, all matrices, all roundings to nearest whatever the rule for ties", "why_tests_cant": "the values, lengths and tie rules are unbounded; tests compare a few sums with a tolerance", "anchors": ["include/jules/base/numeric.hpp: sum, prod, mean, var, freq", "include/jules/array/numeric.hpp: product", "include/jules/core/type.hpp: numeric"]}
{"id": "C71", "title": "On a 64-bit machine programs over arrays behave as with unlimited integers as long as index expressions, extents and memory fit", "statement": "All sizes, indices and addresses are 64-bit numbers computed without overflow checks. Nevertheless: if the bounds written in the index expressions are 64-bit numbers (the end of a slice, the last index of a strided slice, no over-long stride for a single index), no view and no extent exceeds 2^62 and the arrays in scope plus the one a statement creates fit into the memory the allocator manages, then every statement of a program, legal or not, has exactly the outcome it has with unlimited integers; so legal programs compute what their statements say in every build (C65), and any program in a checked build ends with intact memory, changing only what it names, or in an assertion (C68). Without these conditions it is false: v[slice(2^64-1, 2)] = 7 passes all checks and writes outside v, and an array of 2^32 x 2^32 elements is created without complaint and has no memory.", "quantifier": "all programs, arrays of all orders and extents, all allocators that return free blocks below 2^62, checked and unchecked builds", "why_tests_cant": "overflow only occurs for sizes and bounds no test has, anywhere in the arithmetic of a chain of index expressions", "anchors": ["include/jules/array/slicing/absolute.hpp: absolute_slice, absolute_strided_slice", "include/jules/base/numeric.hpp: prod_args", "include/jules/array/descriptor.hpp: descriptor", "include/jules/array/mapper.hpp: identity_mapper, vector_mapper", "include/jules/array/strided_descriptor.hpp: strided_descriptor", "include/jules/array/array.hpp: array constructors and assignment", "include/jules/array/allocator.hpp: allocate"]}
{"id": "C72", "title": "Threads may share arrays: reading the same elements or changing different ones is race-free and gives, in every interleaving, what each thread computes alone", "statement": "Any number of threads run programs over arrays (statements as in C65: indexing, views, expressions, assignments, in-place operators, overlap, new and destroyed local arrays, temporaries). They share some arrays; each creates, destroys and reassigns only arrays of its own. If no thread reads or changes an element of a shared array that another one changes, then whatever the interleaving of their single accesses to memory and whatever free memory the allocator returns: there is never a data race; no thread does anything undefined or trips an assertion; every thread that has not finished can go on; every execution ends; at the end each changed shared element has the value its thread computes when run alone, all other shared elements are unchanged, local arrays have the values computed alone, those of different threads are disjoint, and nothing else is left in memory. Indexing, views and expressions thus have no hidden shared state. Without the condition it is false: two threads executing v += 1 can lose an increment.", "quantifier": "all numbers of threads, all programs, all interleavings access by access, all allocator choices, arrays of all orders and extents, checked and unchecked builds", "why_tests_cant": "a test observes one of exponentially many interleavings; races in library code (caches, reference counts, writes to neighbouring elements) show up rarely or never", "anchors": ["include/jules/array/detail/iterator.hpp: iterator_from_indexes::operator*", "include/jules/array/detail/common.hpp: array_assign", "include/jules/array/functional.hpp: apply, in-place operators", "include/jules/array/array.hpp: array constructors, assignment, destructor", "include/jules/array/allocator.hpp: allocate, deallocate, construct, destroy", "include/jules/array/overlap.hpp: overlap", "include/jules/base/random.hpp: random_engine (thread_local)"]}
{"id": "C73", "title": "Numbers written as text and read again: never an exception, within one millionth, unchanged afterwards", "statement": "A numeric column coerced to string and back, or written to a text file and read again: no element makes reading throw; infinities, NaNs and signs (also of zero) come back; a finite double comes back within one millionth, and exactly if and only if it is the double nearest to a number with at most six decimals (so all integers, all multiples of 1/64, and all doubles from 2^33 on); the order of the numbers is kept; after the first round trip nothing changes any more: neither the text nor the number. Reading: any decimal number, with white space before it, is read as a nearest double with its sign, or out_of_range is thrown when it is too large (or underflow is reported); invalid_argument is thrown exactly for texts that do not start with a number. What fails: numbers do not all come back unchanged, 2^-22 is written as 0.000000.", "quantifier": "all doubles (finite, infinite, NaN, zeros), all texts, all numeric columns and data frames, all correct roundings and underflow conventions of the library", "why_tests_cant": "there are 2^64 doubles and the error depends on where the double lies between two six-decimal numbers and on the spacing of doubles there; idempotence needs both roundings to agree everywhere", "anchors": ["include/jules/core/type.hpp: numeric_rule::coerce_from, string_rule::coerce_from", "include/jules/dataframe/column.hpp: base_column::coerce", "include/jules/dataframe/dataframe.hpp: read, write"]}
{"id": "C74", "title": "User functions in lazy expressions are called exactly once per element and evaluation", "statement": "Building an expression with apply (or an operator) calls no user function. Each time the expression is evaluated - constructing an array, assigning to an array or view, overlap, in-place apply, a reduction - every function in it is called exactly once per element, the elements in column-major order, the calls of one element completed before those of the next, operands before the function that uses them, with exactly the operands' values as arguments; the element's value is what that call returned. all/any/none stop at the first deciding element. If the functions have no state, results do not depend on the order of operand evaluation or on how often they are called. (Refuted for max/min/which_max/which_min, which evaluate each new maximum twice, and for var/sd/meansd, which evaluate everything twice: with stateful functions max can return less than its starting value.)", "quantifier": "all expressions, shapes, memories, user functions with arbitrary (shared) state, and all orders of evaluation of operands left open by C++", "why_tests_cant": "a test fixes one expression and one stateful function; the claim is about call sequences for every expression, every history-dependent function and every evaluation order of the operands", "anchors": ["include/jules/array/functional.hpp: apply", "include/jules/array/unary_expr_array.hpp", "include/jules/array/binary_expr_array.hpp", "include/jules/array/detail/common.hpp: array_assign", "include/jules/array/array.hpp", "include/jules/base/numeric.hpp: max, which_max, min, which_min, var, sd, meansd, all, any, none"]}
{"id": "C75", "title": "Programs with control flow, default-constructed and moved-from arrays have value semantics", "statement": "Take any program that, between statements (those of C65, and also declaring an array without elements, `array<T,n> x;`, and `auto x = std::move(y);`), reads elements or goes through all elements of arrays, views and expressions (reductions, output) and decides with what it has read what to do next. If every statement is legal on array values, the program runs without undefined behaviour or assertion failures in every build and with every allocator, its result is the one the program has on plain values, and at the end every array has exactly the extents and elements it has on plain values. Moving takes the elements to the target; a moved-from array may be destroyed, moved, assigned to itself, replaced with overlap(x) = e, and assigned a value - (refuted in general: assigning a value with the number of elements the moved-from array still reports is undefined behaviour; any other number is fine.)", "quantifier": "all programs (trees branching on every value read, of any depth), all element types and operators, numbers of arrays, orders, extents, index chains, builds, allocators and starting states", "why_tests_cant": "quantifies over all programs with data-dependent control flow and all histories of moves; a test runs one", "anchors": ["include/jules/array/array.hpp: array(), array(array&&), operator=", "include/jules/array/ref_array.hpp", "include/jules/array/functional.hpp", "include/jules/array/overlap.hpp", "include/jules/base/numeric.hpp"]}
{"id": "C76", "title": "Running out of memory is reported and changes nothing", "statement": "If an allocation fails, the statement that needed it throws std::bad_alloc, all arrays have the values they had before, and nothing has leaked; a program that catches the exception goes on with those arrays and computes what it would compute on values. A statement that needs no new elements and no list of indices never throws, and with enough memory the handlers make no difference.", "quantifier": "all programs (statements, reads and control flow, with a handler for every failure), all starting states, all choices of which allocations fail, all legal allocators, checked and unchecked builds", "why_tests_cant": "Tests run with enough memory; each of the many points where an allocation may fail would have to be tried in every program, in every combination.", "anchors": ["include/jules/array/array.hpp: array::array, array::operator=", "include/jules/array/allocator.hpp: array_allocator::allocate", "include/jules/array/mapper.hpp: vector_mapper::map, vector_mapper::drop_first_dimension", "include/jules/array/slicing.hpp: indirect_slicing", "include/jules/base/index_view.hpp: index_view", "include/jules/base/const_vector.hpp: const_vector", "include/jules/array/overlap.hpp: overlap"]}
{"id": "C77", "title": "Checked builds: programs with branches, moves and failing allocations never damage memory", "statement": "In a build with assertions, any program - its statements, element reads, branches depending on values read, moves of arrays and handlers for std::bad_alloc - that compiles and touches no array after moving from it (except to destroy it, move it again or replace it with overlap) either ends normally, stops at a failed assertion, or is terminated after an allocation failed; never undefined behaviour, whatever the indices, extents and values are and whichever allocations fail. At every point each array owns its own live elements, nothing has leaked, a statement that throws has changed nothing, and arrays that a statement does not mention keep their values. (Provided no bounded slice has stride zero and iterators given to constructors have enough values.)", "quantifier": "all programs with control flow (legal or not in their indices and extents), all values read, all intact states, all choices of failing allocations, all legal allocators", "why_tests_cant": "Ranges over all programs including wrong ones, every branch, and every point where memory may run out; tests try a few misuses with enough memory", "anchors": ["include/jules/array/array.hpp: array::array, array::operator=", "include/jules/array/ref_array.hpp", "include/jules/array/strided_ref_array.hpp", "include/jules/array/slicing.hpp", "include/jules/array/functional.hpp", "include/jules/array/overlap.hpp", "include/jules/array/mapper.hpp: vector_mapper::drop_first_dimension", "include/jules/core/debug.hpp"]}
{"id": "C78", "title": "Whole programs on a 64-bit machine", "statement": "A program with branches and loops, moved-from arrays and handlers for failing allocations runs on a machine with 64-bit indices as it would with unlimited integers, as long as the bounds of its slices are 64-bit numbers, its views and extents have at most 2^62 elements and its memory suffices: legal programs end with a result and arrays their specification allows (in every build, whichever allocations fail), and any program that compiles and does not use what it moved from ends, in a checked build, with intact memory, in an assertion, or (only after a failed allocation) by std::terminate.", "quantifier": "all programs of the language of C75/C76 (any branching on values and on failures), all schedules of failing allocations, all allocators with room for B elements, both builds, all start states", "why_tests_cant": "Wrap-around appears only near 2^64 and with memory sizes no test machine has, combined with every schedule of failures.", "anchors": ["include/jules/array/array.hpp", "include/jules/array/ref_array.hpp", "include/jules/array/strided_ref_array.hpp", "include/jules/array/mapper.hpp", "include/jules/array/slicing/absolute.hpp", "include/jules/array/allocator.hpp"]}
{"id": "C79", "title": "Columns and data frames own their storage: no leak, no double deletion, no sharing, whatever throws", "statement": "In any program that makes, copies, moves, assigns, converts, binds, prints and drops columns and data frames, whichever allocations fail and whether or not exceptions are handled: every object allocated for a column belongs to exactly one column (or column of a data frame) that is in scope, nothing is used after deletion or deleted twice, and nothing is left when everything has gone out of scope. What columns and data frames then contain is what the same statements do on plain values; a failing allocation changes nothing except that bind may have appended only some columns and a column or data frame moved into it may be lost. (Found false in one case: copy assignment of data frames can be stopped in the middle and leave a data frame with the new number of rows and old columns. Copying a column that was moved from is undefined behaviour.)", "quantifier": "all programs over any number of columns and data frames, all element types and conversion rules, all values, all schedules of failing allocations, exceptions handled after each statement or not at all", "why_tests_cant": "Failure points are spread over every allocation of every statement; leaks and double deletions only appear for particular combinations of failure point and history.", "anchors": ["include/jules/dataframe/column.hpp: constructors, operator=, coerce, swap, destructor", "include/jules/dataframe/detail/column_model.hpp: clone, partial_clone, coerce_", "include/jules/dataframe/dataframe.hpp: constructors, operator=, bind, write", "include/jules/dataframe/numeric.hpp: to_column, to_matrix", "include/jules/dataframe/action.hpp: head", "include/jules/base/async.hpp: JULES_DEFER"]}
{"id": "C80", "title": "A view kept in a variable is another name for the index expression it was made with", "statement": "After auto v = x[..]...[..], v stands for that index expression on x: in any program, each later statement that reads, writes, indexes further or copies v does exactly what it does with the index expression written instead of v, and views of views likewise. This goes on as long as the elements of x exist: views follow x when it is moved to another variable or swapped with another array by move assignment, and they see assignments to x that keep its extents. When x is destroyed, replaced by overlap(x) = e, or assigned another number of elements, the elements of its views are gone and reading any of them is undefined behaviour; an assignment that changes the extents but not the number of elements leaves the views on the same places of the column-major sequence.", "quantifier": "all programs of statements on arrays and views (creation, indexing, element and whole assignments, in-place operators, overlap, moves, destruction), all element types, extents and index chains, all allocators, checked and unchecked builds", "why_tests_cant": "it is a statement about every sequence of statements between the creation and the use of a view, and about aliasing between any number of views and arrays", "anchors": ["include/jules/array/ref_array.hpp: ref_array, operator[], operator=", "include/jules/array/strided_ref_array.hpp: strided_ref_array, operator[], operator=", "include/jules/array/array.hpp: operator=, array(array&&), clear, ~array", "include/jules/array/functional.hpp: in place operators", "include/jules/array/overlap.hpp: overlap"]}
{"id": "C81", "title": "Programs with kept views are memory-safe in checked builds as long as no dangling view is used, also with 64-bit sizes", "statement": "In a checked build, a program that keeps views in variables, whether its index expressions and assignments are legal or not, ends with all memory intact (each array in scope owning its live elements, no element shared or leaked, every view that does not dangle having all its elements alive inside its array) and no array changed other than those written, directly or through a view; or an assertion reports an error. This needs that it uses no view whose array has been destroyed or replaced, no bounded slice with stride zero and no iterator with too few values. It holds with unlimited integers and on a 64-bit machine when index expressions and arrays fit; legal programs for which 64 bits are enough do in every build what they do with unlimited integers.", "quantifier": "all programs of statements on arrays and views, legal or not, all element types, extents, index chains and allocators; 64-bit and unbounded sizes", "why_tests_cant": "it quantifies over all wrong programs too, and over all interleavings of creating views, reassigning, moving and destroying arrays and using the views", "anchors": ["include/jules/array/ref_array.hpp: ref_array, operator[], operator=", "include/jules/array/strided_ref_array.hpp: strided_ref_array, operator[], operator=", "include/jules/array/array.hpp: operator=, array(array&&), ~array", "include/jules/core/debug.hpp: default_module, throwing_module"]}
{"id": "C82", "title": "const_vectors can be shared between threads", "statement": "Threads that each work on const_vector objects of their own (creating, copying, moving, assigning, destroying them) and copy and read const_vector objects that nobody changes never race with each other: no thread destroys a vector another thread is about to read, copy or drop. Each thread sees exactly what it sees when executed alone, whatever the other threads do; no thread ever has to wait, every execution ends, and when all have finished exactly the vectors some variable still refers to exist: each of the others was freed exactly once, by the thread that dropped the last reference.", "quantifier": "all numbers of threads, all programs on const_vectors, all divisions of the variables of any sequential history among the threads, all interleavings of their steps", "why_tests_cant": "the interleavings of reference counting, reading and freeing cannot be enumerated or forced by tests", "anchors": ["include/jules/base/const_vector.hpp: data_, copy and move constructors and assignments, destructor, operator[], size, operator=="]}
{"id": "C83", "title": "Kept views of columns follow the elements", "statement": "A view made with to_view<T>(column) is a name for the elements of that column. It stays valid through every statement that moves the column (move construction and assignment, binding it to a data frame, moving or binding that data frame): reads give, and writes change, exactly that element of the column at its present place, and nothing else. Statements that replace the elements or destroy the column (assignment to it, coerce, to_column of an rvalue with another type, to_view with another type, the end of the column or of its data frame) end the view; using it afterwards is undefined behaviour that no build detects. A failed allocation or conversion leaves views valid except those of a data frame that is being copy-assigned to, and those of the column or data frame that was being moved into a data frame.", "quantifier": "All programs over columns, data frames and views of columns, with and without exception handlers; all element values and types; all schedules of failing allocations; checked and unchecked builds; all points of the program at which views are used.", "why_tests_cant": "Whether a view is still valid depends on the whole sequence of moves, binds and conversions between making and using it, and on where exceptions happened; a dangling view often still reads the right values in a test.", "anchors": ["include/jules/dataframe/numeric.hpp: to_view", "include/jules/dataframe/column.hpp: column::data, column::coerce, operator=, move constructor", "include/jules/dataframe/detail/column_model.hpp: column_model", "include/jules/dataframe/dataframe.hpp: bind, at, operator=", "include/jules/array/ref_array.hpp: ref_array, operator[]"]}
{"id": "C84", "title": "What throwing functions leave behind", "statement": "In a program over arrays whose functions and operators throw on some values, with every exception caught after the statement it leaves: no statement causes undefined behaviour or a failed assertion; exceptions leave exactly the statements that come to a throwing element; and afterwards every array is valid. Creating an array, overlap(...) = e and assignments that change the number of elements are all-or-nothing: when they throw, every array is as it was and no element is left over. Assignments to views, in-place operators and apply(in_place, ...) visit the elements in column-major order and stop at the first that throws: the elements before have their new values, that element has whatever an in-place operator stored in it before it threw, the others, the rest of the array and all other arrays are unchanged. x = e with as many elements is half done in the same way, and x keeps its extents. If constructing an element cannot throw, an exception inside a construction of new elements (creating an array, overlap, changing the number of elements) terminates the program instead of reaching a handler, and nothing else does. With functions that never throw these are the programs of C65.", "quantifier": "all array values, legal programs, element types, partial functions and operators (also ones that change their argument before throwing), orders, extents, index expressions, builds and allocators", "why_tests_cant": "The state after an exception depends on the position of the throwing element in every expression, view and program; there are unboundedly many.", "anchors": ["include/jules/array/functional.hpp: apply, operators", "include/jules/array/detail/common.hpp: array_assign", "include/jules/array/array.hpp: array(const common_array_base&), array(It, Dims...), operator=", "include/jules/array/overlap.hpp: overlapping_array::operator=", "include/jules/array/allocator.hpp: construct"]}
{"id": "C85", "title": "Blocks, calls, exceptions and handlers: everything declared is destroyed, however a block is left", "statement": "A program with blocks, branches and loops, functions that return arrays, throwing functions, throw, try/catch, moves and default-constructed arrays, over arrays, views, expressions, in-place operators, overlap and whole-array assignments, behaves like the same program over array values: it ends with the same result or the same exception and with the same arrays, in every build and with every allocator, without undefined behaviour or failed assertions. Leaving a block, normally or by an exception, destroys exactly the arrays declared in it; at the end of the program every element has been destroyed once. The only blocks of raw memory lost are those of assignments `x = e` that change the number of elements of x and whose functions throw, one each. The only way a legal program is terminated is an exception while constructing elements of a type that claims not to throw on construction, and then no handler helps.", "quantifier": "all legal programs (trees of statements, reads, blocks, calls and try/catch of any depth), all functions and operators (throwing on any values), all array ranks, extents and contents, all states reachable or not that hold arrays, both builds, all allocators that return free memory, element types that can and cannot throw on construction", "why_tests_cant": "it quantifies over all programs, all places where an exception may be thrown and all nestings of blocks and handlers; a leak or double destruction on one path would not be seen by tests of other paths", "anchors": ["include/jules/array/array.hpp: constructors, destructor, operator=, clear", "include/jules/array/allocator.hpp: construct, destroy", "include/jules/array/overlap.hpp: overlapping_array", "include/jules/array/functional.hpp: apply, operators", "include/jules/array/ref_array.hpp", "include/jules/array/strided_ref_array.hpp: operator=, operator[]", "include/jules/base/async.hpp: JULES_DEFER"]}
{"id": "C86", "title": "Whatever throws and whenever it throws, programs over arrays stay well-defined and destroy everything they construct", "statement": "Take any program over arrays, views, expressions, in-place operators, overlap, whole-array assignments, moves, blocks, functions that return arrays, throw and try/catch, and let every allocation, every construction, copy and assignment of an element and every call of a function throw at any time. A legal program never has undefined behaviour and fails no assertion: nothing is read, destroyed or freed that is not there, nothing is destroyed or freed twice, no element is lost with its storage. It ends with a result or exception, and with arrays, that the same program over array values allows; each array owns exactly one block of exactly its size. A declaration, overlap(x) = e for a whole array, or an assignment that changes the number of elements leaves all arrays unchanged when it is interrupted; the others stop at an element. At the end of the program every element has been destroyed; the only blocks of memory not freed are those of whole-array assignments x = e that change the number of elements and are interrupted, at most one each; without such assignments everything is freed. The only way to be terminated is a function that throws while elements of a type that claims not to throw on construction are constructed.", "quantifier": "all legal programs of any size and nesting, all schedules of throwing events, all functions, ranks, extents and contents, both builds, all allocators that return free blocks or refuse (std::bad_alloc) as they like, element types that can and cannot throw on construction", "why_tests_cant": "it quantifies over all programs and all combinations of points at which an exception may be thrown, including out of memory; tests inject single faults into single statements", "anchors": ["include/jules/array/allocator.hpp: allocate, deallocate, construct, destroy", "include/jules/array/array.hpp: constructors and their catch clauses, destructor, operator=, clear", "include/jules/array/overlap.hpp: overlapping_array", "include/jules/array/functional.hpp: apply, operators", "include/jules/array/detail/common.hpp: array_assign", "include/jules/array/ref_array.hpp: operator=, operator[]", "include/jules/base/async.hpp: JULES_DEFER"]}
{"id": "C87", "title": "In checked builds, programs with blocks, calls, exceptions and handlers never damage memory, whatever throws and whatever they index", "statement": "Take any program that compiles, over arrays, views, expressions, in-place operators, overlap, whole-array assignments, moves, blocks, functions that return arrays, throw and try/catch. Let every allocation, construction, copy and assignment of an element and every call of a function throw at any time, and let the program index, slice and combine arrays with any numbers, also numbers it has read, without asking whether they are legal. If the program has no bounded slice with stride zero, gives its iterators enough values and does not use an array it may have moved from, then in a build with assertions it never has undefined behaviour: it fails an assertion, or (only with a type that cannot throw on construction) is terminated, or it ends, with a result or an exception, in a state in which every array owns exactly one block of its size, arrays a statement is not about have not changed, at the end of the program every element has been destroyed exactly once and, without whole-array assignments, every block has been freed. Without assertions, or with an array moved from in a block left by an exception, this is false.", "quantifier": "all programs that compile, of any size and nesting, legal or not; all indices and values; all schedules of throwing events; all functions, ranks, extents and contents; all allocators that return free blocks or refuse (std::bad_alloc) as they like; element types that can and cannot throw on construction", "why_tests_cant": "it quantifies over all programs, all indices, also illegal ones, and all combinations of points at which an exception may be thrown; tests try single illegal indices and single faults", "anchors": ["include/jules/core/debug.hpp: default_module", "include/jules/array/slicing/absolute.hpp: absolute_slice, absolute_strided_slice, eval", "include/jules/array/detail/common.hpp: array_assign", "include/jules/array/array.hpp: constructors, destructor, operator=", "include/jules/array/ref_array.hpp: operator=, operator[]", "include/jules/array/functional.hpp: apply, operators", "include/jules/array/overlap.hpp: overlapping_array", "include/jules/array/allocator.hpp: construct, destroy, deallocate"]}
{"id": "C88", "title": "On a 64-bit machine with finite memory, programs over arrays behave as with unbounded numbers", "statement": "Positions, extents and sizes are 64-bit unsigned numbers and memory is finite: a block lies below 2^62 elements or is refused with std::bad_alloc. Take any program of C86 (legal, any build) or C87 (any program that compiles, checked builds), with everything that may throw throwing at any time. If the index expressions have 64-bit bounds, no view has more than 2^62 elements and no strided slice selects a single index with an over-long stride, and the extents written in the program promise at most 2^62 elements each time, then the program does exactly what it would do with unbounded numbers on the same memory: no undefined behaviour, the results, exceptions and arrays of C86 and C87, every array in its own block below 2^62, everything destroyed at the end. Nothing has to be assumed about how many elements come together: what does not fit is refused. In particular this holds for every program without lists of indices, without huge literals and with stride-one bounded slices, whatever the states it goes through. Without the condition on extents it is false, in checked builds too: a 2^32 by 2^32 matrix gets no elements, nothing is refused, and reading one is undefined.", "quantifier": "all programs with blocks, calls, exceptions and handlers, of any size and nesting; all schedules of throwing events; all functions, ranks, extents and contents; all allocators that return free blocks below 2^62 or refuse as they like; both builds for legal programs, checked builds for any program", "why_tests_cant": "it quantifies over all programs, schedules and sizes up to 2^62; wrap-around needs arrays that no test can allocate", "anchors": ["include/jules/core/type.hpp: index_t, distance_t", "include/jules/array/array.hpp: constructors, operator=", "include/jules/base/numeric.hpp: prod_args", "include/jules/array/slicing/absolute.hpp: absolute_slice, absolute_strided_slice", "include/jules/array/descriptor.hpp: descriptor", "include/jules/array/strided_descriptor.hpp: strided_descriptor", "include/jules/array/allocator.hpp: allocate", "include/jules/array/overlap.hpp: overlapping_array"]}
{"id": "C89", "title": "Debug levels: raising the level only adds reports", "statement": "With -DJULES_DEBUG_LEVEL=n only the assertions of level at most n are compiled in (1 unreachable code, 2 invalid arguments and states, 3 bounds and extents). For every program over arrays with blocks, calls, exceptions and handlers, every schedule of throwing events and every allocator, and levels a <= b: the run at level b either fails an assertion or does exactly what the run at level a does - same result, exceptions, memory, undefined behaviour. So a failed assertion is never hidden by raising the level, and a program that fails none behaves the same at every lower level; legal programs behave the same at all levels. Level 3 and above is the build with all assertions, level 0 the build with none. Programs that compile have no undefined behaviour at level 3 and above (C87). Which violation is reported at which level: indices, slices and lists of indices outside the array, operands and assignments with other extents from level 3 on; strides and extents of zero and self move assignment from level 2 on. Each level adds something; in particular an out-of-range index is undefined at level 2, and the level 1 assertion of assignments fires only after too many elements were assigned and too late for too few.", "quantifier": "all programs, levels, schedules of exceptions, allocators, functions, ranks and extents; unbounded and 64-bit arithmetic", "why_tests_cant": "Tests run at one level; that no program whatsoever changes its behaviour between levels except by failing an assertion is a statement about all programs and pairs of levels.", "anchors": ["include/jules/core/debug.hpp: JULES_DEBUG_LEVEL, level, fatal_module_t", "include/jules/array/slicing.hpp: do_slice, array_at", "include/jules/array/strided_descriptor.hpp: strided_descriptor", "include/jules/array/mapper.hpp: vector_mapper", "include/jules/array/detail/common.hpp: array_assign", "include/jules/array/functional.hpp: apply", "include/jules/array/array.hpp: operator="]}
{"id": "C90", "title": "With JULES_DEBUG_THROWS a failed check is an exception that handlers can catch and that changes nothing", "statement": "In builds with JULES_DEBUG_THROWS a failed assertion throws std::logic_error. For every program that compiles, over arrays with blocks, calls, exceptions and handlers, uses no moved-from array and no bounded slice of stride 0, for every index it computes, every schedule of exceptions of its functions, constructors and allocations, and every allocator: nothing is undefined and nothing aborts; a statement whose check fails throws and leaves every array, element and block as it was (strong guarantee); arrays of the blocks left are destroyed, handlers run, and at the end of main (by a result or an exception) all elements are destroyed, once, and without assignments to whole arrays all blocks are freed. A program that fails no check does exactly what it does in a build where failed checks are fatal. The only other end is std::terminate, and only with an element type that cannot throw on construction, or for an index into an empty selection, an array with a zero extent in two or more dimensions, or a self-move (which are proved to be uncatchable); cautious programs, without these, always come to their end.", "quantifier": "all programs with blocks, calls and handlers, indices, values, functions, schedules of exceptions, allocators, ranks and extents; unbounded arithmetic", "why_tests_cant": "The test suite catches failed checks of single expressions; that the state is unchanged and that everything is destroyed whatever the program, the point of failure and the surrounding handlers are is a statement about all programs and executions.", "anchors": ["include/jules/core/debug.hpp: JULES_DEBUG_THROWS, fatal_module_t", "include/jules/array/array.hpp: base_array, operator=, clear", "include/jules/array/ref_array.hpp: operator=", "include/jules/array/detail/common.hpp: array_assign", "include/jules/array/overlap.hpp: overlap", "include/jules/array/functional.hpp: apply", "include/jules/array/slicing.hpp: array_at, array_slice"]}
{"id": "C91", "title": "Parallel regions: threads that decide by what they read, created and joined again and again", "statement": "A main program executes statements over arrays and parallel regions: in a region any number of threads is created, which execute statements and decide what to do next by the elements they read, and the main program waits for all of them. If in each region no thread reads or changes an element that another thread of the same region changes (which elements belong to which thread may differ from region to region), and threads create and destroy only arrays of their own, then for every interleaving of the single accesses of the threads and every allocator: there is no data race, no thread gets stuck or does anything undefined, every region ends, each thread takes the decisions it would take alone, and after each region the main program finds the elements changed by a thread as that thread alone would have left them, all others unchanged, and no other memory in use. Without the condition this is false: two threads can both find that no one has entered and both enter.", "quantifier": "all programs of statements and parallel regions, numbers of threads, programs of threads with control flow, interleavings, allocators, ranks, extents and values; unbounded arithmetic", "why_tests_cant": "The interleavings of even two threads cannot be enumerated by tests, and which statements a thread executes depends on the values it reads; the claim is about every schedule, every program and every sequence of regions.", "anchors": ["include/jules/array/detail/iterator.hpp: array iterators", "include/jules/array/allocator.hpp: array_allocator", "include/jules/array/array.hpp: array", "include/jules/array/functional.hpp", "include/jules/array/overlap.hpp", "include/jules/base/random.hpp: random_engine (thread_local)"]}

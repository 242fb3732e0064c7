{
 "claims": [
  {
   "property": "C01",
   "status": "proved",
   "theorems": [
    "Jules.Props.C01_position",
    "Jules.Props.C01_in_range",
    "Jules.Props.C01_bijection",
    "Jules.Props.C01_size",
    "Jules.Props.C01_fast_paths_agree"
   ],
   "note": ""
  },
  {
   "property": "C02",
   "status": "proved",
   "theorems": [
    "Jules.Props.C02_iteration",
    "Jules.Props.C02_each_once",
    "Jules.Props.C02_zero_inner_extent_never_ends",
    "Jules.Props.C02_zero_stride_visits_nothing"
   ],
   "note": ""
  },
  {
   "property": "C03",
   "status": "proved",
   "theorems": [
    "Jules.Props.C03_array_element",
    "Jules.Props.C03_array_reject",
    "Jules.Props.C03_view_element",
    "Jules.Props.C03_view_reject"
   ],
   "note": ""
  },
  {
   "property": "C04",
   "status": "proved",
   "theorems": [
    "Jules.Props.C04_history",
    "Jules.Props.C04_legal_accepted",
    "Jules.Props.C04_selection",
    "Jules.Props.C04_strided_slices",
    "Jules.Props.C04_strided_accepted"
   ],
   "note": ""
  },
  {
   "property": "C05",
   "status": "partial",
   "theorems": [
    "Jules.Props.C05_in_bounds_partial",
    "Jules.Props.C05_no_ub_partial",
    "Jules.Props.C05_wraparound_1d",
    "Jules.Props.C05_wraparound_strided",
    "Jules.Props.C05_in_bounds_64_partial"
   ],
   "note": "False as stated: the 64-bit bound check of a slice can wrap (C05_wraparound_1d, C05_wraparound_strided). Proved in exact arithmetic for all chains (C05_in_bounds_partial, C05_no_ub_partial) and in 64-bit arithmetic for all chains whose own bounds fit (C05_in_bounds_64_partial)."
  },
  {
   "property": "C06",
   "status": "proved",
   "theorems": [
    "Jules.Props.C06_composition"
   ],
   "note": ""
  },
  {
   "property": "C07",
   "status": "partial",
   "theorems": [
    "Jules.Props.C07_listed_indices_checked_partial",
    "Jules.Props.C07_lists",
    "Jules.Props.C07_signed_range",
    "Jules.Props.C07_signed_exact",
    "Jules.Props.C07_signed_unchecked"
   ],
   "note": "C07_lists (extents and elements), C07_listed_indices_checked_partial (all listed unsigned indices are checked); false for ranges of signed indices (C07_signed_range): C07_signed_exact and C07_signed_unchecked say what is checked and accepted there."
  },
  {
   "property": "C08",
   "status": "proved",
   "theorems": [
    "Jules.Props.C08_reslicing"
   ],
   "note": ""
  },
  {
   "property": "C09",
   "status": "partial",
   "theorems": [
    "Jules.Props.C09_bounded",
    "Jules.Props.C09_strided_inside",
    "Jules.Props.C09_in_chain",
    "Jules.Props.C09_strided_in_chain",
    "Jules.Props.C09_strided_count_partial",
    "Jules.Props.C09_strided_count_wrong",
    "Jules.Props.C09_zero_stride_ub"
   ],
   "note": "C09_bounded/C09_in_chain: plain bounded slices, full claim. Strided ones: never outside and at most the clipped count (C09_strided_inside, C09_strided_in_chain), exact count iff the remainder is 0 or t-1 (C09_strided_count_partial); false otherwise (C09_strided_count_wrong), and undefined for stride 0 (C09_zero_stride_ub)."
  },
  {
   "property": "C10",
   "status": "proved",
   "theorems": [
    "Jules.Props.C10_unchecked_agrees"
   ],
   "note": ""
  },
  {
   "property": "C11",
   "status": "proved",
   "theorems": [
    "Jules.Props.C11_fast_path_agrees",
    "Jules.Props.C11_both_accept"
   ],
   "note": ""
  },
  {
   "property": "C12",
   "status": "partial",
   "theorems": [
    "Jules.Props.C12_rows",
    "Jules.Props.C12_rows_of_empty_rejected",
    "Jules.Props.C12_columns",
    "Jules.Props.C12_elements",
    "Jules.Props.C12_difference_negated",
    "Jules.Props.C12_plus_minus_partial",
    "Jules.Props.C12_axis_shape_wrong",
    "Jules.Props.C12_inner_axes_ill_formed",
    "Jules.Props.C12_axis_partial",
    "Jules.Props.C12_matrix_accepted"
   ],
   "note": "Rows and columns of arrays (C12_rows, C12_columns, C12_elements) and of every strided or contiguous matrix view (C12_matrix_accepted); any axis of any view of any order, when it compiles (C12_axis_partial: elements and order always right, shape right unless an earlier extent is one). False: axis iterator differences have the wrong sign (C12_difference_negated), shapes for N >= 3 with unit extents (C12_axis_shape_wrong); axis 0 and inner axes of contiguous arrays of order >= 3 do not compile (C12_inner_axes_ill_formed). rows/columns/axis of a view object (not an array) do not compile in the library (axis.hpp:158, 174, 184 lack a default), axis_at does."
  },
  {
   "property": "C13",
   "status": "partial",
   "theorems": [
    "Jules.Props.C13_drop_partial",
    "Jules.Props.C13_accepted_iff",
    "Jules.Props.C13_accepted_iff_strided",
    "Jules.Props.C13_unchecked",
    "Jules.Props.C13_drop_to_scalar_wrong",
    "Jules.Props.C13_drop_to_scalar_iff",
    "Jules.Props.C13_drop_to_scalar_partial"
   ],
   "note": "Full claim for D >= 1. drop_to<0> of a strided view is right iff its start is 0 (C13_drop_to_scalar_iff), so the claim is false (C13_drop_to_scalar_wrong)."
  },
  {
   "property": "C14",
   "status": "proved",
   "theorems": [
    "Jules.Props.C14_reshape",
    "Jules.Props.C14_reshape_element",
    "Jules.Props.C14_roundtrip"
   ],
   "note": ""
  },
  {
   "property": "C15",
   "status": "proved",
   "theorems": [
    "Jules.Props.C15_accept_iff",
    "Jules.Props.C15_reject",
    "Jules.Props.C15_elements"
   ],
   "note": ""
  },
  {
   "property": "C16",
   "status": "proved",
   "theorems": [
    "Jules.Props.C16_from_sequence",
    "Jules.Props.C16_fill",
    "Jules.Props.C16_copy"
   ],
   "note": ""
  },
  {
   "property": "C17",
   "status": "proved",
   "theorems": [
    "Jules.Props.C17_fill"
   ],
   "note": ""
  },
  {
   "property": "C18",
   "status": "proved",
   "theorems": [
    "Jules.Props.C18_assign",
    "Jules.Props.C18_assign_disjoint",
    "Jules.Props.C18_assign_same",
    "Jules.Props.C18_mismatch",
    "Jules.Props.C18_alias_limit"
   ],
   "note": ""
  },
  {
   "property": "C19",
   "status": "proved",
   "theorems": [
    "Jules.Props.C19_overlap",
    "Jules.Props.C19_mismatch",
    "Jules.Props.C19_overlap_array"
   ],
   "note": ""
  },
  {
   "property": "C20",
   "status": "proved",
   "theorems": [
    "Jules.Props.C20_elementwise",
    "Jules.Props.C20_scalar_order",
    "Jules.Props.C20_mismatch"
   ],
   "note": ""
  },
  {
   "property": "C21",
   "status": "partial",
   "theorems": [
    "Jules.Props.C21_inplace",
    "Jules.Props.C21_mismatch",
    "Jules.Props.C21_inplace_scalar_partial",
    "Jules.Props.C21_scalar_alias",
    "Jules.Props.C21_scalar_alias_wrong",
    "Jules.Props.C21_apply"
   ],
   "note": "Everything but a scalar that is an element of the target is proved. For that case C21_scalar_alias says exactly what happens (later elements see the updated scalar), so the claim is false (C21_scalar_alias_wrong)."
  },
  {
   "property": "C22",
   "status": "proved",
   "theorems": [
    "Jules.Props.C22_assign",
    "Jules.Props.C22_copy",
    "Jules.Props.C22_mismatch_unchecked",
    "Jules.Props.C22_self"
   ],
   "note": ""
  },
  {
   "property": "C23",
   "status": "partial",
   "theorems": [
    "Jules.Props.C23_lifetime_partial",
    "Jules.Props.C23_all_freed_partial",
    "Jules.Props.C23_moved_from_assignment"
   ],
   "note": "moved-from arrays keep their extents with null data; same-size assignment into them is undefined behaviour (refuted by witness); proved for programs that do not do that"
  },
  {
   "property": "C24",
   "status": "proved",
   "theorems": [
    "Jules.Props.C24_constructors_leak_free"
   ],
   "note": ""
  },
  {
   "property": "C25",
   "status": "partial",
   "theorems": [
    "Jules.Props.C25_keeps_old_value_partial",
    "Jules.Props.C25_leak",
    "Jules.Props.C25_same_size"
   ],
   "note": "a throwing reallocating assignment leaks the new block (refuted by witness); the old value is kept (proved); same-size case proved"
  },
  {
   "property": "C26",
   "status": "proved",
   "theorems": [
    "Jules.Props.C26_new",
    "Jules.Props.C26_push",
    "Jules.Props.C26_over_push",
    "Jules.Props.C26_release",
    "Jules.Props.C26_destroy",
    "Jules.Props.C26_push_all",
    "Jules.Props.C26_move"
   ],
   "note": "move assignment of the builder is undefined behaviour (missing return); push_back(T&&) is noexcept, hence terminates when T's move throws"
  },
  {
   "property": "C27",
   "status": "proved",
   "theorems": [
    "Jules.Props.C27_cat"
   ],
   "note": "argument lengths are added exactly (no wrap-around)"
  },
  {
   "property": "C28",
   "status": "proved",
   "theorems": [
    "Jules.Props.C28_seq",
    "Jules.Props.C28_reject",
    "Jules.Props.C28_zero_step_unchecked",
    "Jules.Props.C28_overflow",
    "Jules.Props.C28_wrapped",
    "Jules.Props.C28_empty"
   ],
   "note": "statement corrected: stop is inclusive; allocation failure of the vector not modelled"
  },
  {
   "property": "C29",
   "status": "proved",
   "theorems": [
    "Jules.Props.C29_product",
    "Jules.Props.C29_dot_sum",
    "Jules.Props.C29_reject",
    "Jules.Props.C29_blas",
    "Jules.Props.C29_blas_scaled_product",
    "Jules.Props.C29_blas_reject",
    "Jules.Props.C29_blas_scaled_reject",
    "Jules.Props.C29_blas_truncates",
    "Jules.Props.C29_blas_wrong",
    "Jules.Props.C29_blas_scaled",
    "Jules.Props.C29_agree"
   ],
   "note": "gemm itself is specified by its reference semantics (trusted); right operand must not be index-mapped (does not compile); arithmetic exact for the agreement claims. Extents beyond int: reported with checks (C29_blas_reject), silently reduced modulo 2^32 without (C29_blas_truncates, C29_blas_wrong)"
  },
  {
   "property": "C30",
   "status": "proved",
   "theorems": [
    "Jules.Props.C30_max",
    "Jules.Props.C30_min",
    "Jules.Props.C30_which_max",
    "Jules.Props.C30_which_min",
    "Jules.Props.C30_which_max_start",
    "Jules.Props.C30_which_min_start",
    "Jules.Props.C30_max_nan",
    "Jules.Props.C30_which_max_empty",
    "Jules.Props.C30_min_nan",
    "Jules.Props.C30_which_max_nan",
    "Jules.Props.C30_which_min_nan"
   ],
   "note": "Linear orders; NaN elements covered for max. The doc comment's value for an empty range does not hold for positions (0 is returned; C30_which_max_empty)."
  },
  {
   "property": "C31",
   "status": "partial",
   "theorems": [
    "Jules.Props.C31_sum",
    "Jules.Props.C31_prod",
    "Jules.Props.C31_order_insensitive",
    "Jules.Props.C31_mean",
    "Jules.Props.C31_var",
    "Jules.Props.C31_boundary",
    "Jules.Props.C31_boundary_integers",
    "Jules.Props.C31_sum_signed",
    "Jules.Props.C31_mean_signed",
    "Jules.Props.C31_mean_signed_range_partial",
    "Jules.Props.C31_mean_range_negative",
    "Jules.Props.C31_mean_overloads_disagree",
    "Jules.Props.C31_var_integer_refuted",
    "Jules.Props.C31_unsigned",
    "Jules.Props.C31_mean_unsigned",
    "Jules.Props.C31_signed_limits",
    "Jules.Props.C31_prod_signed",
    "Jules.Props.C31_var_unsigned",
    "Jules.Props.C31_var_signed"
   ],
   "note": "Proved over fields of characteristic 0 and for integers where the exact value is computed. Refuted: the two overloads of mean disagree for every negative integer sum (C31_mean_range_negative, C31_mean_overloads_disagree); integer var uses a truncated mean (C31_var_integer_refuted). Floating-point rounding: C70."
  },
  {
   "property": "C32",
   "status": "proved",
   "theorems": [
    "Jules.Props.C32_which_count",
    "Jules.Props.C32_quantifiers",
    "Jules.Props.C32_laws",
    "Jules.Props.C32_freq"
   ],
   "note": "freq in exact arithmetic."
  },
  {
   "property": "C33",
   "status": "proved",
   "theorems": [
    "Jules.Props.C33_nth",
    "Jules.Props.C33_nth_out_of_range",
    "Jules.Props.C33_contract_satisfiable"
   ],
   "note": "For every std::nth_element meeting its contract. n >= size is undefined in every build (C33_nth_out_of_range)."
  },
  {
   "property": "C34",
   "status": "proved",
   "theorems": [
    "Jules.Props.C34_no_replacement",
    "Jules.Props.C34_no_replacement_exact",
    "Jules.Props.C34_no_replacement_double",
    "Jules.Props.C34_too_many",
    "Jules.Props.C34_canonical_one",
    "Jules.Props.C34_with_replacement",
    "Jules.Props.C34_with_replacement_empty",
    "Jules.Props.C34_uniform"
   ],
   "note": "Also in IEEE double arithmetic as the code computes it (C34_no_replacement_double), for every rounding to nearest; uniformity in exact arithmetic. n > end is not rejected and yields out-of-range indices (C34_too_many); end = 0 with replacement wraps (C34_with_replacement_empty)."
  },
  {
   "property": "C35",
   "status": "proved",
   "theorems": [
    "Jules.Props.C35_format",
    "Jules.Props.C35_plain",
    "Jules.Props.C35_array_unchecked",
    "Jules.Props.C35_inner_empty_reported",
    "Jules.Props.C35_empty",
    "Jules.Props.C35_order"
   ],
   "note": "Exact index arithmetic. Views without empty dimensions in both builds, views with an empty first dimension, any array in an unchecked build (C35_array_unchecked); inner-empty arrays assert in checked builds (C35_inner_empty_reported)."
  },
  {
   "property": "C36",
   "status": "proved",
   "theorems": [
    "Jules.Props.C36_setter",
    "Jules.Props.C36_own_dimension",
    "Jules.Props.C36_other_orders_refuted",
    "Jules.Props.C36_named"
   ],
   "note": "With another number of formats than dimensions the claim about dimensions fails (C36_other_orders_refuted): formats are aligned with the innermost dimension."
  },
  {
   "property": "C37",
   "status": "proved",
   "theorems": [
    "Jules.Props.C37_parse",
    "Jules.Props.C37_named",
    "Jules.Props.C37_separators",
    "Jules.Props.C37_not_occurring_insufficient"
   ],
   "note": "Single-character separators (C37_parse, C37_named), multi-character ones under the Clean condition (C37_separators); C37_not_occurring_insufficient shows why the condition is needed."
  },
  {
   "property": "C38",
   "status": "proved",
   "theorems": [
    "Jules.Props.C38_value_semantics",
    "Jules.Props.C38_immutable",
    "Jules.Props.C38_storage",
    "Jules.Props.C38_shared",
    "Jules.Props.C38_access"
   ],
   "note": "std::shared_ptr modelled by its contract. Not expressible: direct-initialising from a non-const lvalue const_vector selects the constructor template (line 76) and does not compile."
  },
  {
   "property": "C39",
   "status": "partial",
   "theorems": [
    "Jules.Props.C39_coerce_ok",
    "Jules.Props.C39_coerce_fails",
    "Jules.Props.C39_unchanged",
    "Jules.Props.C39_can_coerce",
    "Jules.Props.C39_can_coerce_table",
    "Jules.Props.C39_same_type",
    "Jules.Props.C39_move",
    "Jules.Props.C39_to_column_rvalue",
    "Jules.Props.C39_to_column",
    "Jules.Props.C39_defined_partial",
    "Jules.Props.C39_nan_to_index"
   ],
   "note": "Elementwise, first failure, unchanged on failure, can_coerce, identity: proved for all rule sets; definedness proved except numeric columns to integral types, where NaN/out-of-range is undefined behaviour (C39_nan_to_index refutes 'either converts or throws')."
  },
  {
   "property": "C40",
   "status": "proved",
   "theorems": [
    "Jules.Props.C40_roundtrip",
    "Jules.Props.C40_decimal",
    "Jules.Props.C40_negative"
   ],
   "note": "For all columns; to_string/stoul/stoi are modelled (C locale)."
  },
  {
   "property": "C41",
   "status": "partial",
   "theorems": [
    "Jules.Props.C41_partial_copy_partial",
    "Jules.Props.C41_empty_at_end",
    "Jules.Props.C41_wraps",
    "Jules.Props.C41_first_outside"
   ],
   "note": "Exactly the elements first..first+size-1, rejected iff outside, when first+size does not wrap; C41_first_outside for every size. False whenever the sum wraps and first is in the column (C41_wraps, undefined behaviour); the empty interval at the end is rejected (C41_empty_at_end)."
  },
  {
   "property": "C42",
   "status": "partial",
   "theorems": [
    "Jules.Props.C42_out_of_memory",
    "Jules.Props.C42_rectangular_partial",
    "Jules.Props.C42_cells",
    "Jules.Props.C42_empty_list"
   ],
   "note": "C42_rectangular_partial: induction over arbitrary histories of constructors, copy, assignment, move (target), bind (also failing), head and read; C42_cells states it in terms of the cells; with failing allocations see C79_rectangular_partial. C42_out_of_memory: a copy assignment of data frames that runs out of memory leaves a data frame with one row and a column of three elements (found defect). C42_empty_list: constructing from an empty list is undefined behaviour (found defect), excluded from the histories."
  },
  {
   "property": "C43",
   "status": "partial",
   "theorems": [
    "Jules.Props.C43_list_constructor",
    "Jules.Props.C43_lookup_partial",
    "Jules.Props.C43_bind_keeps",
    "Jules.Props.C43_wrong_column",
    "Jules.Props.C43_named_column"
   ],
   "note": "C43_lookup_partial: all histories in which lists have their unnamed columns after the named ones and single named columns are only used as arguments of bind; C43_bind_keeps: binding others does not affect lookup. False in general: C43_wrong_column (a list constructor registers wrong positions after an unnamed column; C43_list_constructor says exactly which), C43_named_column (the name of dataframe(named_column) is never registered)."
  },
  {
   "property": "C44",
   "status": "partial",
   "theorems": [
    "Jules.Props.C44_unique_partial",
    "Jules.Props.C44_bind_reports",
    "Jules.Props.C44_list_reports",
    "Jules.Props.C44_duplicates"
   ],
   "note": "Proved for bind (C44_bind_reports), list constructors (C44_list_reports) and histories in which the names of single-column data frames are registered; false in general: C44_duplicates gives a history of binds with two columns of the same name."
  },
  {
   "property": "C45",
   "status": "partial",
   "theorems": [
    "Jules.Props.C45_bind",
    "Jules.Props.C45_bind_names",
    "Jules.Props.C45_bind_out_of_memory_partial",
    "Jules.Props.C45_out_of_memory"
   ],
   "note": "C45_bind: complete description of bind without allocation failure. With allocation failures (C45_bind_out_of_memory_partial) the columns already bound are a prefix; C45_out_of_memory refutes the strong guarantee."
  },
  {
   "property": "C46",
   "status": "proved",
   "theorems": [
    "Jules.Props.C46_read",
    "Jules.Props.C46_failed_stream",
    "Jules.Props.C46_extract",
    "Jules.Props.C46_rows"
   ],
   "note": "C46_read describes read for every text and every tokenizer; C46_rows gives the rows for single-character separators."
  },
  {
   "property": "C47",
   "status": "partial",
   "theorems": [
    "Jules.Props.C47_written",
    "Jules.Props.C47_roundtrip_iff",
    "Jules.Props.C47_empty_last_cell",
    "Jules.Props.C47_streams_partial",
    "Jules.Props.C47_typed",
    "Jules.Props.C47_column_text",
    "Jules.Props.C47_number_cells"
   ],
   "note": "C47_roundtrip_iff: the round trip is the identity iff no line ends with an empty cell; C47_empty_last_cell: it fails otherwise (a row vanishes, or the text is rejected). C47_typed/C47_column_text/C47_number_cells extend this to number columns."
  },
  {
   "property": "C48",
   "status": "partial",
   "theorems": [
    "Jules.Props.C48_names_partial",
    "Jules.Props.C48_unusable"
   ],
   "note": "C48_names_partial: names and zero rows. C48_unusable refutes the rest: the result cannot be written (exception) nor copied or cut (undefined behaviour)."
  },
  {
   "property": "C49",
   "status": "partial",
   "theorems": [
    "Jules.Props.C49_head_partial",
    "Jules.Props.C49_head_head_partial",
    "Jules.Props.C49_too_many",
    "Jules.Props.C49_empty",
    "Jules.Props.C49_no_rows"
   ],
   "note": "C49_head_partial for data frames with columns, rows and distinct names; C49_too_many; refuted for empty data frames (C49_empty, undefined behaviour) and data frames without rows (C49_no_rows)."
  },
  {
   "property": "C50",
   "status": "proved",
   "theorems": [
    "Jules.Props.C50_to_matrix",
    "Jules.Props.C50_rejected"
   ],
   "note": "C50_to_matrix, C50_rejected."
  },
  {
   "property": "C51",
   "status": "proved",
   "theorems": [
    "Jules.Props.C51_to_view",
    "Jules.Props.C51_no_view",
    "Jules.Props.C51_to_view_const",
    "Jules.Props.C51_write_history",
    "Jules.Props.C51_write_part",
    "Jules.Props.C51_to_vector",
    "Jules.Props.C51_to_vector_rvalue"
   ],
   "note": "C51_to_view, C51_no_view, C51_to_view_const, C51_write_history, C51_write_part (any part of the view, via C18), C51_to_vector, C51_to_vector_rvalue."
  },
  {
   "property": "C52",
   "status": "partial",
   "theorems": [
    "Jules.Props.C52_preserves_partial",
    "Jules.Props.C52_silent_narrowing",
    "Jules.Props.C52_negative_text",
    "Jules.Props.C52_text",
    "Jules.Props.C52_numeric",
    "Jules.Props.C52_double_to_index",
    "Jules.Props.C52_double_to_unsigned",
    "Jules.Props.C52_double_to_integer"
   ],
   "note": "False in general (C52_silent_narrowing, C52_negative_text); C52_preserves_partial characterises exactly which conversions between integral types preserve the value; C52_double_to_index, C52_double_to_unsigned, C52_double_to_integer do so for doubles (out of range and NaN: undefined)."
  },
  {
   "property": "C53",
   "status": "partial",
   "theorems": [
    "Jules.Props.C53_index_extents",
    "Jules.Props.C53_allocation_partial",
    "Jules.Props.C53_small_types",
    "Jules.Props.C53_signed",
    "Jules.Props.C53_signed_exact"
   ],
   "note": "C53_index_extents proves it in full (mod 2^64, all ranks) when the last extent is an index_t; C53_allocation_partial for every mix of integer types whose partial products fit the type C++ computes them in. False in general: C53_small_types, C53_signed give calls that allocate 0 elements for 2^32 or are undefined."
  },
  {
   "property": "C54",
   "status": "partial",
   "theorems": [
    "Jules.Props.C54_meaning_partial",
    "Jules.Props.C54_examples_partial",
    "Jules.Props.C54_negative",
    "Jules.Props.C54_accepted"
   ],
   "note": "C54_meaning_partial: every relative extent that makes sense for the dimension is evaluated to its meaning. Those that do not make sense are not reported, even in checked builds: C54_negative, C54_accepted."
  },
  {
   "property": "C55",
   "status": "proved",
   "theorems": [
    "Jules.Props.C55_chain",
    "Jules.Props.C55_view",
    "Jules.Props.C55_unchecked",
    "Jules.Props.C55_ordinary",
    "Jules.Props.C55_lone_stride_wraps"
   ],
   "note": "Exact = 64-bit for all chains that fit (C55_chain), iteration and bounds (C55_view), unchecked builds (C55_unchecked), a condition-free form for legal chains of indices and slices (C55_ordinary); the excluded case is refuted by C55_lone_stride_wraps."
  },
  {
   "property": "C56",
   "status": "partial",
   "theorems": [
    "Jules.Props.C56_one_expression",
    "Jules.Props.C56_safe_chains_partial",
    "Jules.Props.C56_order_two",
    "Jules.Props.C56_dangling"
   ],
   "note": "Proved for all chains inside one full expression when parameters live to its end (C56_one_expression), and, whatever parameters do and wherever the chain is cut, for chains without a position/absolute slice strictly between the first and last index of a group (C56_safe_chains_partial), which covers every array of order at most 2 (C56_order_two). The full claim is false: proxies keep references to by-value parameters, C56_dangling proves undefined behaviour for every such accepted chain of order 3 or more."
  },
  {
   "property": "C57",
   "status": "partial",
   "theorems": [
    "Jules.Props.C57_snapshot_partial",
    "Jules.Props.C57_higher_order",
    "Jules.Props.C57_follows",
    "Jules.Props.C57_outside",
    "Jules.Props.C57_unmodified",
    "Jules.Props.C57_fill",
    "Jules.Props.C57_self_index"
   ],
   "note": "Proved for every history except a selection by a list of index_t in memory as the last step (but every) on a one-dimensional contiguous array (C57_snapshot_partial; exact characterisation Follows; all orders >= 2: C57_higher_order), and while lists are unmodified (C57_unmodified, C57_fill). False otherwise: the view keeps pointers into the list (C57_follows), can be made to leave the array after passing all checks (C57_outside), dangles when the list dies, and a[a]=x writes outside (C57_self_index)."
  },
  {
   "property": "C58",
   "status": "partial",
   "theorems": [
    "Jules.Props.C58_usable_partial",
    "Jules.Props.C58_same_as_immediate",
    "Jules.Props.C58_mismatch",
    "Jules.Props.C58_dangling",
    "Jules.Props.C58_nested",
    "Jules.Props.C58_single_partial",
    "Jules.Props.C58_statement"
   ],
   "note": "Refuted in general (C58_dangling, C58_nested): an expression refers to the objects of its inner operations and to multi-dimensional strided and index-mapped operand views, so auto e = -(a + b); cannot be used after that statement. Proved: while those objects are alive, at any later moment, it equals writing the expression there (C58_usable_partial, C58_same_as_immediate), which also discharges the 'positions are precomputed' simplification of Model/Memory.lean; one operation over arrays, contiguous or one-dimensional views is always usable (C58_single_partial). Missing: expressions whose temporaries are gone (false)."
  },
  {
   "property": "C59",
   "status": "partial",
   "theorems": [
    "Jules.Props.C59_drop_partial",
    "Jules.Props.C59_dangling",
    "Jules.Props.C59_drop_operator",
    "Jules.Props.C59_too_few",
    "Jules.Props.C59_without_drop"
   ],
   "note": "Refuted (C59_dangling, C59_drop_operator): the iterator of drop(e) returns a reference to the temporary that *it of the inner expression made and that is destroyed on return, so every use of drop of a computed expression with at least one element is undefined behaviour. Proved: expressions where drop/identity are applied only to expressions that pass elements of arrays through have exactly the meant extents and elements (C59_drop_partial); without drop the model coincides with that of C20 (C59_without_drop). Missing: drop of computed values (false)."
  },
  {
   "property": "C60",
   "status": "partial",
   "theorems": [
    "Jules.Props.C60_forward_partial",
    "Jules.Props.C60_backward_partial",
    "Jules.Props.C60_strided_backward"
   ],
   "note": "Forward arithmetic proved for every view of a checked build (C60_forward_partial), both directions for contiguous and list-selected views (C60_backward_partial). For strided views the full claim is false: C60_strided_backward (it - n is undefined because the iterators are forward iterators, and begin() - end() never terminates)."
  },
  {
   "property": "C61",
   "status": "proved",
   "theorems": [
    "Jules.Props.C61_type",
    "Jules.Props.C61_compiles",
    "Jules.Props.C61_values_irrelevant",
    "Jules.Props.C61_uniform",
    "Jules.Props.C61_legal_accepted",
    "Jules.Props.C61_not_compiling"
   ],
   "note": "For every arithmetic and with or without checks: C61_type, C61_compiles, C61_values_irrelevant, C61_uniform; exact set of chains that do not compile: C61_not_compiling (one of them, a plain index after leading every before the last dimension, is a defect of the library)."
  },
  {
   "property": "C62",
   "status": "partial",
   "theorems": [
    "Jules.Props.C62_same_view_partial",
    "Jules.Props.C62_chains_partial",
    "Jules.Props.C62_const",
    "Jules.Props.C62_zero_extent",
    "Jules.Props.C62_zero_extent_unchecked"
   ],
   "note": "Proved for views without a zero extent and for all one-dimensional views (C62_same_view_partial, C62_chains_partial), and for const conversions (C62_const). False for multi-dimensional empty views: C62_zero_extent (assertion failure in checked builds), C62_zero_extent_unchecked (iteration divides by zero)."
  },
  {
   "property": "C63",
   "status": "partial",
   "theorems": [
    "Jules.Props.C63_density_partial",
    "Jules.Props.C63_normalised_partial",
    "Jules.Props.C63_shape_partial",
    "Jules.Props.C63_array_partial",
    "Jules.Props.C63_integer"
   ],
   "note": "Proved for floating-point arguments, taken as real numbers: the value is Mathlib's gaussianPDFReal up to a factor within 1e-19 of 1 (the error of the literal for pi), positive, symmetric, strictly largest at the mean, integral within 1e-19 of 1; array version through the lazy-expression semantics. Missing: rounding. False for integer arguments (C63_integer): pi<int> is 3 and the exponent is an integer division, so normal_pdf(mu+sigma, mu, sigma) == normal_pdf(mu, mu, sigma)."
  },
  {
   "property": "C64",
   "status": "partial",
   "theorems": [
    "Jules.Props.C64_many_is_repeated",
    "Jules.Props.C64_split",
    "Jules.Props.C64_discrete_partial",
    "Jules.Props.C64_no_weights"
   ],
   "note": "Repetition and splitting proved in full (C64_many_is_repeated, C64_split); positions for every nonempty list of weights (C64_discrete_partial); false for an empty list (C64_no_weights): nothing is reported and index 0 comes out. generate_n and std::discrete_distribution by contract."
  },
  {
   "property": "C65",
   "status": "proved",
   "theorems": [
    "Jules.Props.C65_run",
    "Jules.Props.C65_program",
    "Jules.Props.C65_observed",
    "Jules.Props.C65_progress",
    "Jules.Props.C65_determined"
   ],
   "note": "Forward simulation between a layout-free store semantics (Spec/Program.lean) and the composed model (Model/Program.lean), for every statement and by induction for every program, in exact arithmetic (64-bit: C71); C65_progress and C65_determined show that the specification gives every legal statement exactly one effect. Arrays with null pointer (default-constructed, moved-from) are outside this model (see C23-C26)."
  },
  {
   "property": "C66",
   "status": "partial",
   "theorems": [
    "Jules.Props.C66_vector_partial",
    "Jules.Props.C66_extents",
    "Jules.Props.C66_istream_iterator",
    "Jules.Props.C66_istream_view",
    "Jules.Props.C66_dataframe_partial",
    "Jules.Props.C66_dataframe_istream",
    "Jules.Props.C66_dataframe_istream_view"
   ],
   "note": "Proved for multi-pass iterators (C66_vector_partial, C66_dataframe_partial) and for extents + iterator. False for single-pass iterators: the constructors measure the distance before copying (C66_istream_iterator, C66_istream_view, C66_dataframe_istream\u2026)."
  },
  {
   "property": "C67",
   "status": "partial",
   "theorems": [
    "Jules.Props.C67_construct_partial",
    "Jules.Props.C67_construct_terminates",
    "Jules.Props.C67_assign_same_size",
    "Jules.Props.C67_assign_resize_partial",
    "Jules.Props.C67_assign_resize_terminates",
    "Jules.Props.C67_generate_partial",
    "Jules.Props.C67_generate_terminates",
    "Jules.Props.C67_push_back_move"
   ],
   "note": "Proved for construction, generation, same-size and resizing assignment when element construction may throw or no function throws; same-size assignment without restriction. False for element types with nothrow construction (e.g. double): allocator.hpp:40 is then noexcept and an exception of the function calls std::terminate (C67_*_terminates, C67_push_back_move)."
  },
  {
   "property": "C68",
   "status": "proved",
   "theorems": [
    "Jules.Props.C68_step",
    "Jules.Props.C68_run",
    "Jules.Props.C68_program",
    "Jules.Props.C68_no_leak",
    "Jules.Props.C68_legal_compiles",
    "Jules.Props.C68_unchecked",
    "Jules.Props.C68_release"
   ],
   "note": "Every program, legal or not, on the program model of C65 (exact arithmetic; 64-bit: C71): outcome, intact memory, frame and the exact agreement with a type checker that only sees orders and kinds. The two unchecked preconditions are needed (C68_unchecked), and so are the assertions (C68_release)."
  },
  {
   "property": "C69",
   "status": "partial",
   "theorems": [
    "Jules.Props.C69_step_partial",
    "Jules.Props.C69_run_partial",
    "Jules.Props.C69_cautious",
    "Jules.Props.C69_empty_index",
    "Jules.Props.C69_empty_array",
    "Jules.Props.C69_self_move",
    "Jules.Props.C69_reshape"
   ],
   "note": "Full claim refuted: checks inside noexcept functions terminate the program (C69_empty_index, C69_empty_array, C69_self_move, C69_reshape). Proved: a statement that throws changes nothing and throws exactly when the fatal build asserts; termination only for the statements of Uncatchable; programs that avoid them (Cautious) are never terminated."
  },
  {
   "property": "C70",
   "status": "proved",
   "theorems": [
    "Jules.Props.C70_sum",
    "Jules.Props.C70_sum_finite",
    "Jules.Props.C70_sum_integers",
    "Jules.Props.C70_sum_infinite",
    "Jules.Props.C70_prod",
    "Jules.Props.C70_mean",
    "Jules.Props.C70_mean_overloads",
    "Jules.Props.C70_var",
    "Jules.Props.C70_dot",
    "Jules.Props.C70_product",
    "Jules.Props.C70_freq",
    "Jules.Props.C70_mean_not_within",
    "Jules.Props.C70_sum_order",
    "Jules.Props.C70_sum_bounded",
    "Jules.Props.C70_mean_bounded",
    "Jules.Props.C70_var_bounded",
    "Jules.Props.C70_prod_bounded",
    "Jules.Props.C70_dot_bounded",
    "Jules.Props.C70_product_bounded",
    "Jules.Props.C70_mean_integers",
    "Jules.Props.C70_mean_within_integers",
    "Jules.Props.C70_var_equal_integers",
    "Jules.Props.C70_sum_monotone",
    "Jules.Props.C70_mean_monotone",
    "Jules.Props.C70_sum_at_least"
   ],
   "note": "double arithmetic: exact operation followed by any rounding to nearest, not finite when too large; -0 = 0, infinities and NaN are one value, no fused operations, products in the order of C29's loop. The stronger expectations listed as false in the statement are refuted for every rounding to nearest (C70_mean_not_within, C70_sum_order)."
  },
  {
   "property": "C71",
   "status": "proved",
   "theorems": [
    "Jules.Props.C71_same",
    "Jules.Props.C71_run",
    "Jules.Props.C71_program",
    "Jules.Props.C71_any",
    "Jules.Props.C71_allocator",
    "Jules.Props.C71_wraparound",
    "Jules.Props.C71_size_wraps"
   ],
   "note": "Agreement statement by statement (C71_same), then C65 and C68 carried over (C71_run, C71_program, C71_any). Addresses in units of elements below 2^62; the allocator is any that finds free memory within a budget of B elements (C71_allocator: first fit meets it for 2^30). The fit conditions are needed: C71_wraparound, C71_size_wraps."
  },
  {
   "property": "C72",
   "status": "proved",
   "theorems": [
    "Jules.Props.C72_safe",
    "Jules.Props.C72_result",
    "Jules.Props.C72_terminates",
    "Jules.Props.C72_ends",
    "Jules.Props.C72_lost_update",
    "Jules.Props.C72_rows"
   ],
   "note": "C72_safe: no race, no undefined behaviour, no waiting at any point of any interleaving; C72_result: what memory holds at the end; C72_terminates: no infinite execution; C72_ends combines them; C72_rows: a family of programs (one thread per row of a matrix, any size) meeting the hypotheses. C72_lost_update: without separation the claim is false. Interleaving semantics (which C++ guarantees for race-free programs); arithmetic on unlimited integers (C71 for 64 bits); user-defined operators are pure."
  },
  {
   "property": "C73",
   "status": "partial",
   "theorems": [
    "Jules.Props.C73_text",
    "Jules.Props.C73_read",
    "Jules.Props.C73_close",
    "Jules.Props.C73_stable",
    "Jules.Props.C73_exact_iff",
    "Jules.Props.C73_exact",
    "Jules.Props.C73_monotone",
    "Jules.Props.C73_lossy",
    "Jules.Props.C73_contract",
    "Jules.Props.C73_column",
    "Jules.Props.C73_frame",
    "Jules.Props.C73_invalid_iff",
    "Jules.Props.C73_read_hex",
    "Jules.Props.C73_read_word"
   ],
   "note": "the full claim (numbers come back unchanged) is refuted by C73_lossy; proved: everything else in the statement, including exactly which numbers come back unchanged"
  },
  {
   "property": "C74",
   "status": "partial",
   "theorems": [
    "Jules.Props.C74_once",
    "Jules.Props.C74_value",
    "Jules.Props.C74_construct",
    "Jules.Props.C74_assign_view",
    "Jules.Props.C74_assign_array",
    "Jules.Props.C74_overlap",
    "Jules.Props.C74_in_place",
    "Jules.Props.C74_in_place_expr",
    "Jules.Props.C74_one_pass",
    "Jules.Props.C74_until",
    "Jules.Props.C74_max_partial",
    "Jules.Props.C74_var_partial",
    "Jules.Props.C74_pure_element",
    "Jules.Props.C74_pure_new",
    "Jules.Props.C74_pure_assign_view",
    "Jules.Props.C74_pure_assign_array",
    "Jules.Props.C74_pure_max",
    "Jules.Props.C74_pure_one_pass",
    "Jules.Props.C74_pure_until",
    "Jules.Props.C74_total",
    "Jules.Props.C74_build",
    "Jules.Props.C74_apply",
    "Jules.Props.C74_max_twice",
    "Jules.Props.C74_var_twice",
    "Jules.Props.C74_pure_in_place",
    "Jules.Props.C74_pure_in_place_expr",
    "Jules.Props.C74_pure_overlap",
    "Jules.Props.C74_mismatch"
   ],
   "note": "Proved for every expression, stateful user functions and operand order: construction, assignment, overlap, in-place apply and one-pass reductions compute each element exactly once, in order; all/any/none stop at the deciding element; building calls nothing; stateless functions give the pure model's results. 'Exactly once' is false for max/min/which_* (C74_max_twice) and var/sd/meansd (C74_var_twice): the _partial theorems say exactly how often and which value is used."
  },
  {
   "property": "C75",
   "status": "partial",
   "theorems": [
    "Jules.Props.C75_computes_partial",
    "Jules.Props.C75_program_partial",
    "Jules.Props.C75_determined",
    "Jules.Props.C75_legal_partial",
    "Jules.Props.C75_moved_from_assign",
    "Jules.Props.C75_moved_from_read",
    "Jules.Props.C75_moved_from_touched",
    "Jules.Props.C75_demo_normalise"
   ],
   "note": "Proved for all legal programs; legality forbids assigning a moved-from array a value with the number of elements it still reports, which is undefined behaviour (C75_moved_from_assign). Exact index arithmetic; using any element of a moved-from array counts as undefined."
  },
  {
   "property": "C76",
   "status": "partial",
   "theorems": [
    "Jules.Props.C76_program_partial",
    "Jules.Props.C76_survives_partial",
    "Jules.Props.C76_statement_partial",
    "Jules.Props.C76_enough_memory",
    "Jules.Props.C76_reported",
    "Jules.Props.C76_terminated"
   ],
   "note": "Full claim refuted: C76_terminated (a plain index on a list-selected view of two or more dimensions allocates inside a noexcept function, mapper.hpp:83, so the program is terminated instead of the exception being caught). Proved for all programs and all choices of failing allocations: the program ends with an outcome the specification allows, or is terminated and has such an index (C76_program_partial, C76_survives_partial, C76_statement_partial); with enough memory handlers make no difference (C76_enough_memory); missing memory is reported (C76_reported). Element types do not allocate or throw themselves (see C67)."
  },
  {
   "property": "C77",
   "status": "proved",
   "theorems": [
    "Jules.Props.C77_step",
    "Jules.Props.C77_run",
    "Jules.Props.C77_program",
    "Jules.Props.C77_no_leak",
    "Jules.Props.C77_undisciplined"
   ],
   "note": "Every program of the model of C75/C76, in checked builds: C77_step, C77_run, C77_program, C77_no_leak. The discipline about moved-from arrays is a syntactic condition on the program (Spec/SafeProg.lean) and is needed (C77_undisciplined). Termination is only possible after a failed allocation (C76_terminated shows it happens). Exact index arithmetic."
  },
  {
   "property": "C78",
   "status": "partial",
   "theorems": [
    "Jules.Props.C78_same",
    "Jules.Props.C78_statement_partial",
    "Jules.Props.C78_program_partial",
    "Jules.Props.C78_computes_partial",
    "Jules.Props.C78_safe",
    "Jules.Props.C78_whole_partial",
    "Jules.Props.C78_safe_whole",
    "Jules.Props.C78_wraparound"
   ],
   "note": "C78_same (one statement: same outcome in 64 bits), C78_safe/C78_safe_whole (any program) are the full claims. The theorems about legal programs are partial as in C76: a failing allocation inside mapper.hpp:83 (noexcept) terminates the program. C78_wraparound: without the condition on slice bounds a checked build writes outside."
  },
  {
   "property": "C79",
   "status": "partial",
   "theorems": [
    "Jules.Props.C79_statement_partial",
    "Jules.Props.C79_program_partial",
    "Jules.Props.C79_no_leak",
    "Jules.Props.C79_not_shared",
    "Jules.Props.C79_no_failure",
    "Jules.Props.C79_rectangular_partial",
    "Jules.Props.C79_not_rectangular",
    "Jules.Props.C79_not_strong",
    "Jules.Props.C79_moved_from_copy"
   ],
   "note": "C79_statement_partial (every statement does on objects what the value semantics says, with ownership kept) and C79_program_partial (all programs), C79_no_leak, C79_not_shared, C79_no_failure, C79_rectangular_partial (all frames rectangular unless frames are copy-assigned). Refuted in full: C79_not_rectangular/C79_not_strong (copy assignment of data frames out of memory), C79_moved_from_copy (copying a moved-from column is undefined)."
  },
  {
   "property": "C80",
   "status": "proved",
   "theorems": [
    "Jules.Props.C80_alias",
    "Jules.Props.C80_inlined",
    "Jules.Props.C80_followed",
    "Jules.Props.C80_statement",
    "Jules.Props.C80_run",
    "Jules.Props.C80_program",
    "Jules.Props.C80_observed",
    "Jules.Props.C80_progress",
    "Jules.Props.C80_determined",
    "Jules.Props.C80_dangling",
    "Jules.Props.C80_reshaped",
    "Jules.Props.C80_whole"
   ],
   "note": "Straight-line programs (the executed statements of any program); a ref_array of a whole array is the view kept from x[every]...[every] (C80_whole); index lists are owned (borrowed ones: C57) and chains of index expressions are not split over statements (kept proxies: C56). C80_alias, C80_inlined, C80_followed and C80_whole hold in unbounded and in 64-bit arithmetic; the other theorems are about unbounded numbers (64 bits: C81)."
  },
  {
   "property": "C81",
   "status": "proved",
   "theorems": [
    "Jules.Props.C81_step",
    "Jules.Props.C81_run",
    "Jules.Props.C81_program",
    "Jules.Props.C81_alive",
    "Jules.Props.C81_any64",
    "Jules.Props.C81_program64",
    "Jules.Props.C81_legal64",
    "Jules.Props.C81_legal_program64",
    "Jules.Props.C81_undetected"
   ],
   "note": "The property states the condition on dangling views; C81_undetected proves that it is needed: no check of the library finds a dangling view. That a program uses no dangling view is a condition on its execution (PrudentRun), since whether an assignment ends the views of an array depends on the extents at run time. Straight-line programs, as C80."
  },
  {
   "property": "C82",
   "status": "proved",
   "theorems": [
    "Jules.Props.C82_start",
    "Jules.Props.C82_no_race",
    "Jules.Props.C82_progress",
    "Jules.Props.C82_ends",
    "Jules.Props.C82_values",
    "Jules.Props.C82_storage",
    "Jules.Props.C82_alive",
    "Jules.Props.C82_completes"
   ],
   "note": "Small-step model of the std::shared_ptr inside const_vector (atomic count, separate freeing step, unsynchronised reads), all interleavings: no race (C82_no_race), no use of freed memory (C82_progress), termination (C82_ends, C82_completes), results as when executed alone (C82_values), no leak or double free (C82_storage, C82_alive). std::shared_ptr is taken by its contract; objects that one thread changes while another uses the same object are a race in C++ and outside the claim (shared variables are constant in the model)."
  },
  {
   "property": "C83",
   "status": "proved",
   "theorems": [
    "Jules.Props.C83_statement",
    "Jules.Props.C83_program",
    "Jules.Props.C83_denotes",
    "Jules.Props.C83_kept",
    "Jules.Props.C83_ended",
    "Jules.Props.C83_write",
    "Jules.Props.C83_write_elsewhere",
    "Jules.Props.C83_dangles_only"
   ],
   "note": "Every statement and program over columns, data frames and kept views behaves as the specification in which views are names of places (C83_statement, C83_program); views follow moves (C83_kept), are ended exactly by the listed statements (C83_dangles_only), after which reading is undefined in every build (C83_ended); reads and writes through views (C83_denotes, C83_write, C83_write_elsewhere). Not modelled: iterators into views of columns, views of views."
  },
  {
   "property": "C84",
   "status": "proved",
   "theorems": [
    "Jules.Props.C84_run",
    "Jules.Props.C84_program",
    "Jules.Props.C84_terminated",
    "Jules.Props.C84_progress",
    "Jules.Props.C84_determined",
    "Jules.Props.C84_basic",
    "Jules.Props.C84_strong",
    "Jules.Props.C84_total"
   ],
   "note": "C84_run, C84_program: any legal sequence of statements with throwing functions does what the layout-free specification says, exceptions included. C84_terminated: the noexcept of allocator.hpp:40 ends the program when elements cannot throw on construction (exactly for ConstructThrows). C84_basic, C84_strong: the two guarantees. C84_total: with functions that never throw, C65. Not modelled here: element copies that throw (C25, C67), the raw block leaked by a resizing assignment (C25)."
  },
  {
   "property": "C85",
   "status": "proved",
   "theorems": [
    "Jules.Props.C85_run",
    "Jules.Props.C85_block",
    "Jules.Props.C85_main",
    "Jules.Props.C85_aborts",
    "Jules.Props.C85_determined",
    "Jules.Props.C85_legal",
    "Jules.Props.C85_no_loss",
    "Jules.Props.C85_lost"
   ],
   "note": "C85_run: a big-step semantics on array values (names, values, exceptions; no memory, no list of declarations) is followed exactly; C85_block and C85_main: what is destroyed and what is left in memory, also when an exception passes; C85_legal: legal programs never have undefined behaviour; C85_aborts: termination; C85_no_loss and C85_lost: raw memory is lost by resizing assignments that throw (array.hpp:330-341), and only by them; C85_determined."
  },
  {
   "property": "C86",
   "status": "proved",
   "theorems": [
    "Jules.Props.C86_run",
    "Jules.Props.C86_main",
    "Jules.Props.C86_no_loss",
    "Jules.Props.C86_no_leak",
    "Jules.Props.C86_strong",
    "Jules.Props.C86_quiet",
    "Jules.Props.C86_same",
    "Jules.Props.C86_safe",
    "Jules.Props.C86_lost"
   ],
   "note": "C86_run: for every schedule of throwing events the run ends as the value-level specification May allows, in a state BHolds (one block per array, nothing else constructed, lost blocks counted); C86_main: what is left at the end of the program; C86_strong: statements that are all or nothing; C86_no_loss, C86_no_leak: programs without whole-array assignments free everything; C86_lost: a legal program that leaks without any function throwing (array.hpp:279-305, 318-344); C86_quiet, C86_same: without faults the model agrees with C85; C86_safe: legality when anything may throw is enough for every schedule."
  },
  {
   "property": "C87",
   "status": "proved",
   "theorems": [
    "Jules.Props.C87_step",
    "Jules.Props.C87_run",
    "Jules.Props.C87_main",
    "Jules.Props.C87_safe",
    "Jules.Props.C87_release",
    "Jules.Props.C87_moved",
    "Jules.Props.C87_terminates"
   ],
   "note": "Undisciplined programs of C86 in checked builds, exact arithmetic, every schedule of throwing events: every statement (C87_step), every program (C87_run), whole programs (C87_main, C87_safe). Needed: assertions (C87_release) and not using arrays that may have been moved from (C87_moved); std::terminate is possible with a noexcept element type (C87_terminates)."
  },
  {
   "property": "C88",
   "status": "proved",
   "theorems": [
    "Jules.Props.C88_run",
    "Jules.Props.C88_main",
    "Jules.Props.C88_no_leak",
    "Jules.Props.C88_checked",
    "Jules.Props.C88_checked_main",
    "Jules.Props.C88_modest",
    "Jules.Props.C88_modest_checked",
    "Jules.Props.C88_wraps"
   ],
   "note": "C88_run, C88_main, C88_no_leak: legal programs, both builds; C88_checked, C88_checked_main: any program that compiles, checked builds; C88_modest, C88_modest_checked: programs whose text is modest need no condition on states. C88_wraps: the condition on extents is needed."
  },
  {
   "property": "C89",
   "status": "proved",
   "theorems": [
    "Jules.Props.C89_levels",
    "Jules.Props.C89_kept",
    "Jules.Props.C89_lower",
    "Jules.Props.C89_ends",
    "Jules.Props.C89_zero",
    "Jules.Props.C89_legal",
    "Jules.Props.C89_run",
    "Jules.Props.C89_safe",
    "Jules.Props.C89_outcome",
    "Jules.Props.C89_strict",
    "Jules.Props.C89_short",
    "Jules.Props.C89_slicing",
    "Jules.Props.C89_index",
    "Jules.Props.C89_list",
    "Jules.Props.C89_slice",
    "Jules.Props.C89_last",
    "Jules.Props.C89_extents",
    "Jules.Props.C89_lists",
    "Jules.Props.C89_operands",
    "Jules.Props.C89_assign",
    "Jules.Props.C89_in_place",
    "Jules.Props.C89_self_move"
   ],
   "note": "Model/Levels.lean gives every function of the array programs its assertions at their levels; proved against the models with all and with no assertions (C89_ends)."
  },
  {
   "property": "C90",
   "status": "proved",
   "theorems": [
    "Jules.Props.C90_step",
    "Jules.Props.C90_strong",
    "Jules.Props.C90_same_step",
    "Jules.Props.C90_run",
    "Jules.Props.C90_main",
    "Jules.Props.C90_safe",
    "Jules.Props.C90_cautious",
    "Jules.Props.C90_same",
    "Jules.Props.C90_uncatchable",
    "Jules.Props.C90_terminates"
   ],
   "note": "Programs of C85-C87 under JULES_DEBUG_THROWS: one statement (C90_step, C90_strong, C90_same_step), programs (C90_run, C90_main, C90_safe, C90_same), cautious programs never terminate (C90_cautious); what cannot be caught (C90_uncatchable, C90_terminates). Unbounded arithmetic; moved-from arrays excluded as in C87 (C87_moved)."
  },
  {
   "property": "C91",
   "status": "proved",
   "theorems": [
    "Jules.Props.C91_region_safe",
    "Jules.Props.C91_region_result",
    "Jules.Props.C91_region_ends",
    "Jules.Props.C91_result",
    "Jules.Props.C91_ends",
    "Jules.Props.C91_safe",
    "Jules.Props.C91_clamp_reverse",
    "Jules.Props.C91_check_then_act"
   ],
   "note": "Exact arithmetic; loops without a bound on their length in a thread are not expressible (a thread's program is a tree, of unbounded depth, that always ends); C91_check_then_act is the counterexample without separation."
  }
 ]
}
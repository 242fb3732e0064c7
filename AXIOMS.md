# Axioms used by each theorem of MANIFEST.json

Generated with `#print axioms` from the built project; all theorems are in the namespace `Jules.Props`.

## propext, Classical.choice, Quot.sound (398 theorems)

C01_bijection, C02_iteration, C02_each_once, C03_array_element, C03_array_reject, C03_view_element, C03_view_reject, C04_history, C04_legal_accepted, C04_selection, C04_strided_slices, C04_strided_accepted, C05_in_bounds_partial, C05_no_ub_partial, C05_in_bounds_64_partial, C06_composition, C07_listed_indices_checked_partial, C07_lists, C07_signed_exact, C08_reslicing, C09_in_chain, C09_strided_in_chain, C11_fast_path_agrees, C11_both_accept, C12_axis_partial, C12_matrix_accepted, C13_drop_partial, C13_accepted_iff, C13_accepted_iff_strided, C13_unchecked, C13_drop_to_scalar_iff, C13_drop_to_scalar_partial, C14_reshape, C14_reshape_element, C14_roundtrip, C15_elements, C16_from_sequence, C16_fill, C16_copy, C18_assign, C18_assign_disjoint, C18_assign_same, C18_mismatch, C19_overlap, C19_mismatch, C19_overlap_array, C20_elementwise, C20_scalar_order, C20_mismatch, C21_inplace, C21_mismatch, C21_inplace_scalar_partial, C21_scalar_alias, C21_apply, C22_assign, C22_copy, C22_mismatch_unchecked, C23_lifetime_partial, C23_all_freed_partial, C24_constructors_leak_free, C25_keeps_old_value_partial, C25_leak, C25_same_size, C26_release, C26_destroy, C27_cat, C28_seq, C29_product, C29_dot_sum, C29_reject, C29_blas, C29_blas_scaled_product, C29_blas_reject, C29_blas_scaled_reject, C29_blas_wrong, C29_blas_scaled, C29_agree, C31_mean, C31_var, C31_boundary, C31_boundary_integers, C31_sum_signed, C31_mean_signed, C31_mean_signed_range_partial, C31_mean_range_negative, C31_var_integer_refuted, C31_mean_unsigned, C31_prod_signed, C31_var_unsigned, C31_var_signed, C32_which_count, C32_laws, C32_freq, C33_nth, C34_no_replacement_exact, C34_no_replacement_double, C34_too_many, C34_canonical_one, C34_with_replacement_empty, C34_uniform, C35_format, C35_plain, C35_array_unchecked, C35_inner_empty_reported, C35_empty, C36_setter, C36_own_dimension, C37_parse, C37_named, C37_separators, C37_not_occurring_insufficient, C38_value_semantics, C38_immutable, C38_storage, C39_coerce_ok, C39_can_coerce_table, C39_same_type, C39_defined_partial, C39_nan_to_index, C40_roundtrip, C40_decimal, C40_negative, C41_partial_copy_partial, C42_out_of_memory, C42_rectangular_partial, C42_cells, C43_list_constructor, C43_lookup_partial, C43_bind_keeps, C43_wrong_column, C44_unique_partial, C44_bind_reports, C44_list_reports, C45_bind, C45_bind_names, C45_bind_out_of_memory_partial, C45_out_of_memory, C46_read, C46_failed_stream, C46_extract, C47_written, C47_roundtrip_iff, C47_empty_last_cell, C47_streams_partial, C47_typed, C47_column_text, C47_number_cells, C48_names_partial, C48_unusable, C49_head_partial, C49_head_head_partial, C50_to_matrix, C50_rejected, C51_to_view, C51_no_view, C51_to_view_const, C51_write_history, C51_write_part, C51_to_vector, C51_to_vector_rvalue, C52_preserves_partial, C52_silent_narrowing, C52_negative_text, C52_numeric, C52_double_to_index, C52_double_to_unsigned, C52_double_to_integer, C53_allocation_partial, C53_signed_exact, C55_chain, C55_view, C55_unchecked, C55_ordinary, C56_safe_chains_partial, C56_order_two, C56_dangling, C57_snapshot_partial, C57_follows, C57_outside, C57_unmodified, C58_usable_partial, C58_same_as_immediate, C58_mismatch, C58_dangling, C58_nested, C58_statement, C59_drop_partial, C59_dangling, C59_drop_operator, C59_too_few, C60_forward_partial, C60_backward_partial, C60_strided_backward, C61_type, C61_compiles, C61_uniform, C61_legal_accepted, C62_same_view_partial, C62_chains_partial, C62_const, C62_zero_extent_unchecked, C63_density_partial, C63_normalised_partial, C63_shape_partial, C63_array_partial, C63_integer, C64_no_weights, C65_run, C65_program, C65_observed, C65_progress, C65_determined, C66_vector_partial, C66_extents, C66_istream_iterator, C66_istream_view, C66_dataframe_partial, C66_dataframe_istream, C66_dataframe_istream_view, C67_construct_partial, C67_construct_terminates, C67_assign_same_size, C67_assign_resize_partial, C67_assign_resize_terminates, C67_generate_partial, C67_generate_terminates, C68_step, C68_run, C68_program, C68_legal_compiles, C69_step_partial, C69_run_partial, C69_cautious, C70_sum, C70_sum_finite, C70_sum_integers, C70_sum_infinite, C70_prod, C70_mean, C70_mean_overloads, C70_var, C70_dot, C70_product, C70_freq, C70_mean_not_within, C70_sum_order, C70_sum_bounded, C70_mean_bounded, C70_var_bounded, C70_prod_bounded, C70_dot_bounded, C70_product_bounded, C70_mean_integers, C70_mean_within_integers, C70_var_equal_integers, C70_sum_monotone, C70_mean_monotone, C70_sum_at_least, C71_same, C71_run, C71_program, C71_any, C71_allocator, C72_safe, C72_result, C72_terminates, C72_ends, C72_rows, C73_text, C73_read, C73_close, C73_stable, C73_exact_iff, C73_exact, C73_monotone, C73_lossy, C73_contract, C73_column, C73_frame, C73_invalid_iff, C73_read_hex, C73_read_word, C74_until, C74_apply, C75_computes_partial, C75_program_partial, C75_determined, C75_legal_partial, C75_moved_from_assign, C75_demo_normalise, C76_program_partial, C76_survives_partial, C76_statement_partial, C76_enough_memory, C76_reported, C77_step, C77_run, C77_program, C78_same, C78_statement_partial, C78_program_partial, C78_computes_partial, C78_safe, C78_whole_partial, C78_safe_whole, C79_rectangular_partial, C79_not_rectangular, C79_not_strong, C79_moved_from_copy, C80_inlined, C80_followed, C80_statement, C80_run, C80_program, C80_observed, C80_progress, C80_determined, C80_dangling, C80_reshaped, C80_whole, C81_step, C81_run, C81_program, C81_alive, C81_any64, C81_program64, C81_legal64, C81_legal_program64, C82_start, C82_no_race, C82_progress, C82_ends, C82_values, C82_storage, C82_alive, C82_completes, C83_statement, C83_program, C83_denotes, C83_kept, C83_ended, C83_write, C83_write_elsewhere, C83_dangles_only, C84_run, C84_program, C84_terminated, C84_progress, C84_determined, C84_basic, C84_strong, C85_run, C85_block, C85_main, C85_aborts, C85_determined, C85_legal, C85_lost, C86_run, C86_main, C86_no_leak, C86_strong, C86_quiet, C86_same, C86_safe, C86_lost, C87_step, C87_run, C87_main, C87_safe, C88_run, C88_main, C88_no_leak, C88_checked, C88_checked_main, C88_modest, C88_modest_checked, C88_wraps, C89_legal, C89_run, C89_safe, C89_outcome, C89_list, C90_step, C90_strong, C90_same_step, C90_run, C90_main, C90_safe, C90_cautious, C90_same, C91_region_safe, C91_region_result, C91_region_ends, C91_result, C91_ends, C91_safe, C91_clamp_reverse

## propext, Quot.sound (112 theorems)

C01_position, C01_in_range, C01_size, C02_zero_inner_extent_never_ends, C07_signed_unchecked, C09_bounded, C09_strided_inside, C09_strided_count_partial, C10_unchecked_agrees, C12_rows, C12_rows_of_empty_rejected, C12_columns, C12_elements, C12_difference_negated, C12_plus_minus_partial, C12_inner_axes_ill_formed, C15_accept_iff, C15_reject, C17_fill, C23_moved_from_assignment, C26_new, C26_push, C26_over_push, C26_push_all, C28_reject, C28_zero_step_unchecked, C29_blas_truncates, C30_max, C30_min, C30_which_max, C30_which_min, C30_which_max_start, C30_which_min_start, C30_max_nan, C30_min_nan, C30_which_max_nan, C30_which_min_nan, C31_sum, C31_prod, C31_order_insensitive, C32_quantifiers, C33_nth_out_of_range, C33_contract_satisfiable, C34_no_replacement, C34_with_replacement, C35_order, C36_other_orders_refuted, C38_shared, C39_coerce_fails, C39_can_coerce, C39_to_column, C41_wraps, C44_duplicates, C46_rows, C49_no_rows, C52_text, C54_meaning_partial, C54_examples_partial, C54_negative, C56_one_expression, C57_fill, C57_self_index, C59_without_drop, C62_zero_extent, C64_discrete_partial, C67_push_back_move, C69_reshape, C72_lost_update, C74_construct, C74_assign_view, C74_assign_array, C74_overlap, C74_in_place, C74_in_place_expr, C74_one_pass, C74_max_partial, C74_var_partial, C74_pure_new, C74_pure_assign_array, C74_pure_max, C74_pure_one_pass, C74_pure_until, C74_total, C74_build, C74_pure_in_place_expr, C74_pure_overlap, C74_mismatch, C75_moved_from_read, C75_moved_from_touched, C79_statement_partial, C79_program_partial, C79_no_leak, C79_not_shared, C79_no_failure, C80_alias, C84_total, C89_levels, C89_kept, C89_lower, C89_ends, C89_zero, C89_slicing, C89_slice, C89_last, C89_extents, C89_lists, C89_operands, C89_assign, C89_in_place, C89_self_move, C90_terminates, C91_check_then_act

## propext (66 theorems)

C01_fast_paths_agree, C02_zero_stride_visits_nothing, C05_wraparound_1d, C05_wraparound_strided, C07_signed_range, C09_strided_count_wrong, C09_zero_stride_ub, C12_axis_shape_wrong, C13_drop_to_scalar_wrong, C18_alias_limit, C21_scalar_alias_wrong, C22_self, C26_move, C28_overflow, C28_wrapped, C28_empty, C30_which_max_empty, C31_mean_overloads_disagree, C31_unsigned, C31_signed_limits, C36_named, C38_access, C39_unchanged, C39_to_column_rvalue, C41_empty_at_end, C43_named_column, C53_index_extents, C53_small_types, C53_signed, C54_accepted, C55_lone_stride_wraps, C57_higher_order, C58_single_partial, C61_values_irrelevant, C61_not_compiling, C64_many_is_repeated, C64_split, C68_no_leak, C68_unchecked, C68_release, C69_empty_index, C69_empty_array, C69_self_move, C71_wraparound, C71_size_wraps, C74_once, C74_value, C74_pure_element, C74_pure_assign_view, C74_max_twice, C74_var_twice, C74_pure_in_place, C76_terminated, C77_no_leak, C77_undisciplined, C78_wraparound, C81_undetected, C85_no_loss, C86_no_loss, C87_release, C87_moved, C87_terminates, C89_strict, C89_short, C89_index, C90_uncatchable

## none (5 theorems)

C39_move, C41_first_outside, C42_empty_list, C49_too_many, C49_empty

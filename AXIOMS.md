# Axioms used by each property theorem

Output of `#print axioms`, grouped by the set of axioms.

## none

* C26_begin_add_size_counterexample
* C28_is_compatible_incomplete_counterexample
* C28_minus_nine_counterexample
* C47_max_counterexample
* C68_counterexample
* C79_const
* C83_shapes_counterexample
* C87_compare_counterexample

## propext

* C03_null_data
* C20_shape
* C59_iterator
* C64_reinterpret
* C87_compare
* C87_uninitialized_counterexample
* C88_readers
* C102_runtime
* C102_compile_time

## propext, Quot.sound

* C01_min_offset
* C02_flat_bounds_attained
* C03_negative_extents_counterexample
* C04_keeps
* C27_monotone
* C27_idempotent
* C28_static_arithmetic
* C28_static_max
* C28_construct
* C28_default
* C28_assign
* C28_set
* C28_crop_types
* C29_gap_counterexample
* AutoAlloc.C36_run
* AutoAlloc.C36_allocate
* AutoAlloc.C36_deallocate
* AutoAlloc.C36_equal_safe
* AutoAlloc.C36_inline_exclusive
* C37_disjoint_counterexample
* C38_order_asymm
* C39_order_asymm
* C42_no_repeat
* C44_mod_intMin_counterexample
* C50_order_asymm
* C59_equal_sound
* C59_dim_equal
* C59_shape_equal
* C59_shape_equal_mapping
* C59_construct
* C59_default
* C59_convert
* C59_assign
* C59_range_fixed
* C64_image_crop
* C71_new
* C71_clear
* C73_calls
* C73_calls_copy
* C73_row_counterexample
* C73_extent_one_counterexample
* C73_copy_counterexample
* C74_calls
* C81_fuse_min_counterexample
* C81_fuse_min_int_counterexample
* C83_interval
* C83_view_type
* C87_same_bytes
* C87_other_size
* C87_float_counterexample
* C88_equal
* C95_downward
* C96_epsilon
* C105_match
* C105_all
* C106_distinct

## propext, Classical.choice, Quot.sound

* C01_offset_formula
* C01_offset_step
* C02_offset_in_flat_range
* C02_flat_extent_exact
* C02_data
* C03_size_counts_indices
* C03_empty_iff
* C03_ref_empty
* C04_all_known
* C04_idempotent
* C05_strides
* C05_dense
* C06_nested
* C06_no_aliasing
* C07_least_admissible
* C08_false_means_aliasing
* C08_nested_decides
* C08_true_not_injective_counterexample
* C09_no_holes_compact
* C09_compact_no_holes
* C09_compact_with_hole_counterexample
* C10_subset_bounds
* C10_not_subset
* C10_not_set_inclusion_counterexample
* C10_set_shape
* C10_reinterpret_shape
* C11_dim_iteration
* C11_interval_iteration
* C11_negative_extent_diverges
* C12_for_each_index
* C12_unique
* C13_loop_order
* C13_subset_of_dims
* C14_for_each_value
* C14_calls
* C14_nodup
* C15_copy
* C15_copy_aliased
* C15_footprint
* C16_assert_iff
* C16_empty_noop
* C17_equal
* C18_operator_eq
* C19_fill
* C19_generate
* C19_transform_index
* C20_same_element
* C20_address
* C21_inside
* C21_inside_all
* C21_outside
* C21_placeholder_rejected_counterexample
* C22_transpose_shape
* C22_transpose_onto
* C22_transpose_ref
* C22_reorder_shape
* C22_reorder_ref
* C23_permutations_accepted
* C23_exact_up_to_4
* C23_non_permutation_accepted
* C24_partition
* C24_each_index_once
* C24_nonpositive_diverges
* C25_intervals
* C25_cover
* C25_empty
* C25_small_diverges
* C25_assertion
* C26_dynamic_random_access
* C26_static_random_access
* C26_dynamic_add_add
* C26_static_add_add
* C26_dynamic_difference
* C26_static_difference
* C26_dynamic_begin_add_size
* C26_static_begin_add_size
* C27_in_bounds
* C27_nearest
* C27_fixed
* C27_dim
* C28_convert
* C28_is_compatible
* C28_clamp_dims
* C28_clamp_shape
* C29_keeps
* C29_compact
* C29_dense_shape
* C29_dense_dim_no_aliasing
* C29_negative_stride_counterexample
* C29_fixed_dense
* C30_raise
* C30_lower
* C31_no_fault
* C31_release
* C31_once
* C31_empty_negative_stride_counterexample
* C31_hollow_counterexample
* C31_moved_from_source_counterexample
* C31_reshape_empty_counterexample
* C31_self_swap_counterexample
* C32_contents
* C32_copy
* C32_independent
* C32_independent_program
* C32_write
* C32_self
* C33_move_construct
* C33_moved_from_empty
* C33_moved_from_counterexample
* C33_move_assign
* C33_move_elements
* C34_swap
* C34_propagate
* C35_reshape
* C37_crop
* C37_zero
* C37_overlap
* C37_slice_channel
* C38_indices
* C38_padded
* C38_values
* C38_fused_order
* C38_general_order
* C39_indices
* C39_values
* C39_null_base
* C40_indices
* C40_order_asymm
* C40_ranges
* C40_empty_range_counterexample
* C41_fold
* C41_sum
* C41_sub
* C41_mul
* C41_assign
* C41_matrix_product
* C41_matrix_vector
* C41_dot
* C41_trace
* C41_diagonal
* C41_transpose
* C42_in_range
* C42_repeat_counterexample
* C43_shape
* C43_compact
* C43_value
* C44_div
* C44_mod
* C44_div_mod
* C45_gcd
* C45_make
* C45_ofInt
* C45_add
* C45_sub
* C45_mul
* C45_div
* C45_scalar
* C45_defined
* C45_compare
* C45_min_max
* C45_canonical_unique
* C45_floor
* C45_ceil
* C45_round
* C45_frac
* C45_negative_counterexample
* C46_kernels
* C46_sum_one
* C46_position
* C46_zero_kernel_counterexample
* C47_flat_offset
* C47_flat_min
* C47_flat_max
* C47_flat_range
* C47_flat_extent
* C47_size
* C47_max
* C47_in_range
* C47_resolve
* C47_empty_size_counterexample
* C47_flat_extent_counterexample
* C48_within
* C48_offset_zero
* C48_values
* C48_offset_counterexample
* C48_rejected_counterexample
* C48_moved_from_counterexample
* C48_set_shape
* C48_convert
* C49_move
* C49_move_broadcast_counterexample
* C50_in_order
* C50_in_order_pair
* C51_resample
* C51_constant
* C51_small_counterexample
* C52_reduce_cols
* C52_reduce_rows
* C52_reduce_matrix
* C52_ref
* C52_ein_reduce_cols
* C52_ein_reduce_rows
* C52_ein_reduce_matrix
* C52_reduce_tiles
* C52_ein_reduce_tiles
* C52_small_counterexample
* C53_z_order
* C53_product_partial
* C53_empty_counterexample
* C53_overlap_counterexample
* C54_naive
* C54_tiled
* C54_agree
* C54_small_counterexample
* C54_nan_counterexample
* C55_copy
* C55_copy_array
* C55_copy_same
* C55_compact_copy
* C55_move
* C55_rvalue_copies
* C55_rvalue_counterexample
* C56_constructor
* C56_agree_assign_fill
* C56_agree_assign
* C56_agree_copy
* C56_agree_new
* C56_new_leaks
* C56_copy_leaks
* C56_fill_faults
* C56_copy_faults
* C56_assign_faults
* C56_assign_fill_faults
* C56_no_memory_partial
* C56_new_no_memory_partial
* C56_retry_counterexample
* C56_no_exception
* C57_small_matrix
* C57_small_vector
* C57_where
* C57_exclusive
* C57_no_heap
* C57_move
* C57_reinterpret_counterexample
* C58_copy
* C58_copy_some
* C58_move
* C58_for_each
* C58_fill
* C58_transform
* C58_overlap_counterexample
* C59_equal_complete
* C59_equal_empty_counterexample
* C59_static_max
* C59_set_max
* C59_set_max_dynamic
* C59_range
* C59_is_in_range
* C59_clamp
* C59_iterator_equal
* C59_begin_end
* C60_interval
* C60_interval_bounds
* C60_dim
* C60_shape
* C61_bubble_sort
* C61_increasing_iff
* C61_consecutive
* C61_automatic
* C61_copy
* C61_backward_counterexample
* C62_box
* C62_box_counterexample
* C62_box_constants
* C62_linear
* C62_linear_reconstructs
* C62_quadratic_reconstructs
* C62_interpolating_quadratic
* C62_quadratic_bspline
* C62_cubic_constants
* C62_cubic_linear_iff
* C62_interpolating_cubic_reconstructs
* C62_interpolating_cubic
* C62_cubic_bspline
* C62_sum_positive
* C62_build
* C62_rate_one
* C62_copy
* C62_linear_continuous
* C62_quadratic_continuous
* C62_cubic_continuous
* C62_box_not_continuous
* C62_sinc
* C62_lanczos
* C62_lanczos_counterexample
* C62_lanczos_sum_positive
* C62_lanczos_build
* C63_statement
* C63_balance
* C63_all_destroyed
* C63_move_only
* C63_fill_static
* C63_swap_same_allocator
* C63_make_move_copies
* C64_crop_crop
* C64_crop_crop_check
* C64_crop_twice
* C64_slice_order
* C64_transpose_transpose
* C64_transpose_back
* C64_crop_transpose
* C65_rename
* C65_rewrite
* C65_transpose
* C65_self
* C65_max
* C65_add
* C65_neg
* C65_undo
* C65_trace_product
* C65_add_counterexample
* C65_order_counterexample
* C66_tile
* C66_assert
* C66_tiles
* C66_outermost
* C66_split
* C66_split_static
* C66_split_outermost
* C66_overlap_counterexample
* C67_chunky
* C67_planar
* C67_image
* C67_matrix
* C67_vector
* C67_assertion
* C68_strides
* C68_padded_partial
* C68_view
* C69_eq_views
* C69_equal_views
* C69_eq
* C69_equal
* C69_equivalence
* C69_copy
* C69_write
* C69_reshape_back
* C69_swap_twice
* C69_move_back
* C69_make_copy
* C69_compact_copy
* C69_moved_from_counterexample
* C70_related
* C70_map
* C70_control
* C70_provenance
* C70_no_junk
* C70_compare
* C70_compare_needs_injective
* C71_simulates
* C71_indeterminate
* C71_make_copy
* C71_fill
* C72_reduce
* C72_sum
* C72_make_sum
* C72_alias_counterexample
* C72_same_loops
* C72_product
* C72_assoc
* C72_identity
* C73_iff
* C73_contiguous
* C73_dense
* C73_array
* C73_view
* C73_copy_same
* C73_counterexample
* C74_apart
* C74_self
* C74_dense
* C74_program
* C74_counterexample
* C75_other
* C75_new
* C75_fill
* C75_own
* C75_own_counterexample
* C76_lost
* C76_kept
* C76_program
* C76_swap_counterexample
* C77_terminates
* C77_inside
* C77_cover
* C77_for_each_value
* C77_fill
* C77_transform_index
* C77_copy
* C77_copy_both
* C77_equal
* C77_update
* C77_update_counterexample
* C77_z_order
* C78_program
* C78_statement
* C78_definition
* C78_assignment
* C78_emptied
* C78_reshape
* C79_for_each_index
* C79_for_all_indices
* C79_ordered
* C79_for_each_value
* C79_for_each_value_moved
* C79_generate
* C79_generate_moved
* C79_transform_index
* C79_transform_indices
* C79_agree_transform_index
* C79_agree_generate
* C79_moved_from_counterexample
* C79_moved_from_empty_counterexample
* C80_view
* C80_injective
* C80_append
* C80_fill
* C80_transform_index
* C80_for_each_value
* C80_copy
* C80_make_copy
* C80_reorder_assert
* C80_reorder_empty_counterexample
* C81_flat_offset
* C81_optimize_shape
* C81_optimize_shape_zero_min
* C81_optimize_copy
* C81_copy_start
* C81_can_fuse_counterexample
* C81_split
* C81_split_size
* C81_split_static
* C81_split_counterexample
* C81_z_order
* C81_z_order_overflow
* C82_reduce
* C82_ein_reduce
* C82_tiles
* C82_ref
* C82_z_order
* C82_exact
* C82_simple
* C82_versions
* C82_rearranged
* C82_ein_sum
* C82_convolution
* C82_float
* C82_binary
* C82_example
* C82_attained
* C83_overloads
* C83_is_in_range
* C83_dim
* C83_shapes
* C83_loops
* C83_reconcile
* C83_reconcile_incomplete
* C84_resample
* C84_ideal_constant
* C84_ideal_range
* C84_simple
* C84_weight
* C84_position
* C84_float
* C84_linear
* C84_linear_weight
* C84_weight_counterexample
* C84_nonneg
* C84_kernel
* C84_example
* C85_copy
* C85_copy_undefined
* C85_program
* C85_placement
* C85_rounding
* C85_exact
* C85_placed
* C85_constant
* C85_identity
* C85_kernels
* C85_small_counterexample
* C85_float
* C85_8bit
* C85_constant_counterexample
* C85_quantum32_counterexample
* C86_unfusible
* C86_unfusible_copy
* C86_shortest
* C86_shortest_copy
* C86_one_loop
* C86_one_loop_copy
* C86_automatic
* C86_steps
* C86_unit_counterexample
* C87_get
* C87_reinterpret_get
* C87_reinterpret_set
* C87_values
* C87_views
* C87_crop
* C87_construct
* C87_misaligned
* C87_auto
* C87_auto_room
* C87_auto_small
* C87_defaults
* C87_types
* C87_reinterpret_const
* C88_schedule
* C88_call
* C88_calls
* C88_tiles
* C88_copy_tiles
* C88_ein_pieces
* C88_reduction_counterexample
* C88_static_split_counterexample
* C89_fold
* C89_sum
* C89_no_overflow
* C89_one_type
* C89_equal
* C89_dot
* C89_dot_tight
* C90_for_each_value
* C90_copy
* C90_equal
* C90_eq
* C90_transform_index
* C90_crop
* C90_transpose
* C90_reorder
* C90_reorder_counterexample
* C90_empty_counterexample
* C91_exact
* C91_error
* C91_weights
* C91_build
* C91_program
* C91_box_counterexample
* C92_reduce
* C92_make_sum
* C92_exact
* C92_operands
* C93_benchmark
* C93_benchmark_counterexample
* C93_check
* C93_blind_counterexample
* C93_matrix_sizes
* C93_matrix
* C93_convolution_sizes
* C93_convolution
* C94_fold
* C94_elementwise
* C94_copy
* C94_shift
* C94_transpose
* C94_product_counterexample
* C95_copy
* C95_move
* C95_exact
* C95_shift
* C95_repack
* C95_scroll
* C95_full_rows
* C96_cross
* C96_orthogonal
* C96_max
* C96_max_initial
* C96_outer
* C96_plane_sum
* C96_dft
* C96_dft_inverse
* C96_max_counterexample
* C96_dft_factors
* C97_statement
* C97_settled
* C97_statement_settled
* C97_held
* C97_all_returned
* C97_size
* C97_moves
* C97_same_place
* C97_same_place_fill
* C97_views
* C97_empty_memory
* C97_fill_static
* C97_swap_same_allocator
* C98_exact
* C98_fill
* C98_no_fill
* C98_assign
* C98_max
* C98_types
* C98_matrix_product
* C98_overlap_counterexample
* C99_weights
* C99_program
* C99_enlarged
* C99_same
* C100_run
* C100_exact
* C100_float
* C100_usage
* C100_zero_counterexample
* C100_small_counterexample
* C101_mirror_columns
* C101_mirror_rows
* C101_transpose
* C101_monotone
* C101_range
* C101_local
* C101_gradient
* C101_kernels
* C101_cubic_counterexample
* C101_float_counterexample
* C102_ends
* C102_pieces
* C102_innermost
* C102_merge
* C102_tiles
* C102_fill
* C102_copy
* C102_for_each_value
* C102_update
* C102_mixed_counterexample
* C103_exact
* C103_float
* C103_round_trip
* C103_float_round_trip
* C103_white_counterexample
* C103_steps_counterexample
* C104_fill
* C104_no_fill
* C104_runtime
* C104_matrix_product
* C104_remainder_counterexample
* C105_main
* C105_order
* C105_no_test_counterexample
* C106_two_dims
* C106_fill
* C106_check
* C106_fill_check
* C106_detects
* C106_copy
* C106_blind_counterexample
* C106_rank_counterexample
* C107_rows
* C107_chunky
* C107_loops
* C107_whole
* C107_repeat
* C107_test
* C107_for_each_value
* C107_dense_test
* C107_gap_counterexample
* C108_programs
* C108_queues
* C108_phases
* C108_fill
* C108_update
* C108_copy
* C108_reduce
* C108_wait_counterexample
* C109_for_each_value
* C109_fill
* C109_copy
* C109_transform_index
* C109_transpose
* C109_reverse_assert
* C109_reverse
* C109_equal
* C109_chain
* C109_round_trip
* C109_exchange
* C109_generate
* C109_generate_transpose
* C109_generate_counterexample

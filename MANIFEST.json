{
 "claims": [
  {
   "property": "C01",
   "status": "proved",
   "theorems": [
    "Nda.C01_offset_formula",
    "Nda.C01_min_offset",
    "Nda.C01_offset_step"
   ],
   "note": ""
  },
  {
   "property": "C02",
   "status": "proved",
   "theorems": [
    "Nda.C02_offset_in_flat_range",
    "Nda.C02_flat_bounds_attained",
    "Nda.C02_flat_extent_exact",
    "Nda.C02_data"
   ],
   "note": ""
  },
  {
   "property": "C03",
   "status": "proved",
   "theorems": [
    "Nda.C03_size_counts_indices",
    "Nda.C03_empty_iff",
    "Nda.C03_negative_extents_counterexample",
    "Nda.C03_ref_empty",
    "Nda.C03_null_data"
   ],
   "note": "Proved for shapes without negative extents; C03_negative_extents_counterexample proves that with two negative extents size() is positive although no index is in range."
  },
  {
   "property": "C04",
   "status": "proved",
   "theorems": [
    "Nda.C04_all_known",
    "Nda.C04_keeps",
    "Nda.C04_idempotent"
   ],
   "note": "Holds for every list of dims, without any size hypothesis."
  },
  {
   "property": "C05",
   "status": "proved",
   "theorems": [
    "Nda.C05_strides",
    "Nda.C05_dense"
   ],
   "note": ""
  },
  {
   "property": "C06",
   "status": "proved",
   "theorems": [
    "Nda.C06_nested",
    "Nda.C06_no_aliasing"
   ],
   "note": "FitsIndex is the no-overflow hypothesis of the property."
  },
  {
   "property": "C07",
   "status": "proved",
   "theorems": [
    "Nda.C07_least_admissible"
   ],
   "note": ""
  },
  {
   "property": "C08",
   "status": "proved",
   "theorems": [
    "Nda.C08_false_means_aliasing",
    "Nda.C08_nested_decides",
    "Nda.C08_true_not_injective_counterexample"
   ],
   "note": "Includes a proof that the documented converse is false."
  },
  {
   "property": "C09",
   "status": "proved",
   "theorems": [
    "Nda.C09_no_holes_compact",
    "Nda.C09_compact_no_holes",
    "Nda.C09_compact_with_hole_counterexample"
   ],
   "note": "Includes a counterexample for non-injective shapes."
  },
  {
   "property": "C10",
   "status": "proved",
   "theorems": [
    "Nda.C10_subset_bounds",
    "Nda.C10_not_subset",
    "Nda.C10_not_set_inclusion_counterexample",
    "Nda.C10_set_shape",
    "Nda.C10_reinterpret_shape"
   ],
   "note": "Includes a proof that the documented set inclusion is not what is computed."
  },
  {
   "property": "C11",
   "status": "proved",
   "theorems": [
    "Nda.C11_dim_iteration",
    "Nda.C11_interval_iteration",
    "Nda.C11_negative_extent_diverges"
   ],
   "note": "Includes a proof that a negative extent makes the range-for diverge."
  },
  {
   "property": "C12",
   "status": "proved",
   "theorems": [
    "Nda.C12_for_each_index",
    "Nda.C12_unique"
   ],
   "note": ""
  },
  {
   "property": "C13",
   "status": "proved",
   "theorems": [
    "Nda.C13_loop_order",
    "Nda.C13_subset_of_dims"
   ],
   "note": ""
  },
  {
   "property": "C14",
   "status": "proved",
   "theorems": [
    "Nda.C14_for_each_value",
    "Nda.C14_calls",
    "Nda.C14_nodup"
   ],
   "note": ""
  },
  {
   "property": "C15",
   "status": "proved",
   "theorems": [
    "Nda.C15_copy",
    "Nda.C15_copy_aliased",
    "Nda.C15_footprint"
   ],
   "note": "C15_copy for disjoint element sets, C15_copy_aliased gives the last-writer semantics in general."
  },
  {
   "property": "C16",
   "status": "proved",
   "theorems": [
    "Nda.C16_assert_iff",
    "Nda.C16_empty_noop"
   ],
   "note": ""
  },
  {
   "property": "C17",
   "status": "proved",
   "theorems": [
    "Nda.C17_equal"
   ],
   "note": ""
  },
  {
   "property": "C18",
   "status": "proved",
   "theorems": [
    "Nda.C18_operator_eq"
   ],
   "note": ""
  },
  {
   "property": "C19",
   "status": "proved",
   "theorems": [
    "Nda.C19_fill",
    "Nda.C19_generate",
    "Nda.C19_transform_index"
   ],
   "note": ""
  },
  {
   "property": "C20",
   "status": "proved",
   "theorems": [
    "Nda.C20_same_element",
    "Nda.C20_address",
    "Nda.C20_shape"
   ],
   "note": ""
  },
  {
   "property": "C21",
   "status": "proved",
   "theorems": [
    "Nda.C21_inside",
    "Nda.C21_inside_all",
    "Nda.C21_outside",
    "Nda.C21_placeholder_rejected_counterexample"
   ],
   "note": "Includes a proof that is_in_range(_) is false for a dim whose min is positive."
  },
  {
   "property": "C22",
   "status": "proved",
   "theorems": [
    "Nda.C22_transpose_shape",
    "Nda.C22_transpose_onto",
    "Nda.C22_transpose_ref",
    "Nda.C22_reorder_shape",
    "Nda.C22_reorder_ref"
   ],
   "note": ""
  },
  {
   "property": "C23",
   "status": "proved",
   "theorems": [
    "Nda.C23_permutations_accepted",
    "Nda.C23_exact_up_to_4",
    "Nda.C23_non_permutation_accepted"
   ],
   "note": "Exact up to rank 4; for every rank from 5 on C23_non_permutation_accepted proves that a non-permutation passes the check."
  },
  {
   "property": "C24",
   "status": "proved",
   "theorems": [
    "Nda.C24_partition",
    "Nda.C24_each_index_once",
    "Nda.C24_nonpositive_diverges"
   ],
   "note": "Includes a proof that a non-positive inner extent never terminates."
  },
  {
   "property": "C25",
   "status": "proved",
   "theorems": [
    "Nda.C25_intervals",
    "Nda.C25_cover",
    "Nda.C25_empty",
    "Nda.C25_small_diverges",
    "Nda.C25_assertion"
   ],
   "note": "Includes a proof that an interval smaller than N never terminates."
  },
  {
   "property": "C26",
   "status": "proved",
   "theorems": [
    "Nda.C26_dynamic_random_access",
    "Nda.C26_static_random_access",
    "Nda.C26_dynamic_add_add",
    "Nda.C26_static_add_add",
    "Nda.C26_dynamic_difference",
    "Nda.C26_static_difference",
    "Nda.C26_dynamic_begin_add_size",
    "Nda.C26_static_begin_add_size",
    "Nda.C26_begin_add_size_counterexample"
   ],
   "note": "Includes the exact condition under which begin()+size() equals end() and a counterexample."
  },
  {
   "property": "C27",
   "status": "proved",
   "theorems": [
    "Nda.C27_in_bounds",
    "Nda.C27_nearest",
    "Nda.C27_fixed",
    "Nda.C27_monotone",
    "Nda.C27_idempotent",
    "Nda.C27_dim"
   ],
   "note": ""
  },
  {
   "property": "C28",
   "status": "proved",
   "theorems": [
    "Nda.C28_static_arithmetic",
    "Nda.C28_static_max",
    "Nda.C28_construct",
    "Nda.C28_default",
    "Nda.C28_convert",
    "Nda.C28_is_compatible",
    "Nda.C28_is_compatible_incomplete_counterexample",
    "Nda.C28_assign",
    "Nda.C28_set",
    "Nda.C28_clamp_dims",
    "Nda.C28_clamp_shape",
    "Nda.C28_crop_types",
    "Nda.C28_minus_nine_counterexample"
   ],
   "note": "Includes proofs that a static parameter equal to -9 is taken for a run-time value (default min becomes 0), and that is_compatible is not necessary for an assertion-free conversion (unresolved strides)."
  },
  {
   "property": "C29",
   "status": "proved",
   "theorems": [
    "Nda.C29_keeps",
    "Nda.C29_compact",
    "Nda.C29_dense_shape",
    "Nda.C29_dense_dim_no_aliasing",
    "Nda.C29_gap_counterexample",
    "Nda.C29_negative_stride_counterexample",
    "Nda.C29_fixed_dense"
   ],
   "note": "Includes counterexamples: a gap after a compile-time dense inner dim, and aliasing with a compile-time negative stride."
  },
  {
   "property": "C30",
   "status": "proved",
   "theorems": [
    "Nda.C30_raise",
    "Nda.C30_lower"
   ],
   "note": "For refs whose strides are resolved (Known), which array_ref construction guarantees."
  },
  {
   "property": "C31",
   "status": "proved",
   "theorems": [
    "Nda.C31_no_fault",
    "Nda.C31_release",
    "Nda.C31_once",
    "Nda.C31_empty_negative_stride_counterexample",
    "Nda.C31_hollow_counterexample",
    "Nda.C31_moved_from_source_counterexample",
    "Nda.C31_reshape_empty_counterexample",
    "Nda.C31_self_swap_counterexample"
   ],
   "note": "Preconditions per statement are spelled out in Verif/Spec/Array.lean (Allowed; Plain for release builds). Includes five counterexamples for programs outside of them."
  },
  {
   "property": "C32",
   "status": "proved",
   "theorems": [
    "Nda.C32_contents",
    "Nda.C32_copy",
    "Nda.C32_independent",
    "Nda.C32_independent_program",
    "Nda.C32_write",
    "Nda.C32_self"
   ],
   "note": ""
  },
  {
   "property": "C33",
   "status": "proved",
   "theorems": [
    "Nda.C33_move_construct",
    "Nda.C33_moved_from_empty",
    "Nda.C33_moved_from_counterexample",
    "Nda.C33_move_assign",
    "Nda.C33_move_elements"
   ],
   "note": "Element-wise moves for shapes without aliasing; includes the counterexample for non-empty default shapes."
  },
  {
   "property": "C34",
   "status": "proved",
   "theorems": [
    "Nda.C34_swap",
    "Nda.C34_propagate"
   ],
   "note": "Element-wise swaps for shapes without aliasing."
  },
  {
   "property": "C35",
   "status": "proved",
   "theorems": [
    "Nda.C35_reshape"
   ],
   "note": "For shapes without aliasing (Injective)."
  },
  {
   "property": "C36",
   "status": "proved",
   "theorems": [
    "Nda.AutoAlloc.C36_run",
    "Nda.AutoAlloc.C36_allocate",
    "Nda.AutoAlloc.C36_deallocate",
    "Nda.AutoAlloc.C36_equal_safe",
    "Nda.AutoAlloc.C36_inline_exclusive"
   ],
   "note": "All auto_allocator objects of one type; element lifetimes are C31's subject. Base allocators are identified by the resource they allocate from."
  },
  {
   "property": "C37",
   "status": "proved",
   "theorems": [
    "Nda.C37_crop",
    "Nda.C37_zero",
    "Nda.C37_overlap",
    "Nda.C37_disjoint_counterexample",
    "Nda.C37_slice_channel"
   ],
   "note": "For refs whose strides are resolved, which array_ref construction guarantees. Includes the counterexample for rectangles disjoint in both directions."
  },
  {
   "property": "C38",
   "status": "proved",
   "theorems": [
    "Nda.C38_indices",
    "Nda.C38_order_asymm",
    "Nda.C38_padded",
    "Nda.C38_values",
    "Nda.C38_fused_order",
    "Nda.C38_general_order"
   ],
   "note": ""
  },
  {
   "property": "C39",
   "status": "proved",
   "theorems": [
    "Nda.C39_indices",
    "Nda.C39_values",
    "Nda.C39_order_asymm",
    "Nda.C39_null_base"
   ],
   "note": ""
  },
  {
   "property": "C40",
   "status": "proved",
   "theorems": [
    "Nda.C40_indices",
    "Nda.C40_order_asymm",
    "Nda.C40_ranges",
    "Nda.C40_empty_range_counterexample"
   ],
   "note": ""
  },
  {
   "property": "C41",
   "status": "proved",
   "theorems": [
    "Nda.C41_fold",
    "Nda.C41_sum",
    "Nda.C41_sub",
    "Nda.C41_mul",
    "Nda.C41_assign",
    "Nda.C41_matrix_product",
    "Nda.C41_matrix_vector",
    "Nda.C41_dot",
    "Nda.C41_trace",
    "Nda.C41_diagonal",
    "Nda.C41_transpose"
   ],
   "note": "Assignments at the top of the expression only; operators on the element type are total functions; the result shares no element with an operand (EinInput). += needs a commutative addition only for the order-free form; C41_fold is the ordered left fold for any operator."
  },
  {
   "property": "C42",
   "status": "proved",
   "theorems": [
    "Nda.C42_in_range",
    "Nda.C42_no_repeat",
    "Nda.C42_repeat_counterexample"
   ],
   "note": "OpConsistent is the no-repeat hypothesis in its weaker form (C42_no_repeat); C42_repeat_counterexample proves the parenthesis of the statement."
  },
  {
   "property": "C43",
   "status": "proved",
   "theorems": [
    "Nda.C43_shape",
    "Nda.C43_compact",
    "Nda.C43_value"
   ],
   "note": "The new buffer overlaps no operand element (hypothesis of C43_value); every result index is used by an array operand."
  },
  {
   "property": "C44",
   "status": "proved",
   "theorems": [
    "Nda.C44_div",
    "Nda.C44_mod",
    "Nda.C44_div_mod",
    "Nda.C44_mod_intMin_counterexample"
   ],
   "note": "For every width w > 0, on BitVec with signed overflow as an undefined outcome. Includes the counterexample for b = INT_MIN."
  },
  {
   "property": "C45",
   "status": "proved",
   "theorems": [
    "Nda.C45_gcd",
    "Nda.C45_make",
    "Nda.C45_ofInt",
    "Nda.C45_add",
    "Nda.C45_sub",
    "Nda.C45_mul",
    "Nda.C45_div",
    "Nda.C45_scalar",
    "Nda.C45_defined",
    "Nda.C45_compare",
    "Nda.C45_min_max",
    "Nda.C45_canonical_unique",
    "Nda.C45_floor",
    "Nda.C45_ceil",
    "Nda.C45_round",
    "Nda.C45_frac",
    "Nda.C45_negative_counterexample"
   ],
   "note": "On 64-bit integers with overflow as an undefined outcome: the C45 operator theorems say that a defined result is exact and canonical, C45_defined that small operands give a defined result. Includes the counterexample for negative divisors."
  },
  {
   "property": "C46",
   "status": "proved",
   "theorems": [
    "Nda.C46_kernels",
    "Nda.C46_sum_one",
    "Nda.C46_position",
    "Nda.C46_zero_kernel_counterexample"
   ],
   "note": "Floating point is abstract (FloatOps); C46_sum_one is for exact field arithmetic. Includes the counterexample for an all-zero kernel."
  },
  {
   "property": "C47",
   "status": "proved",
   "theorems": [
    "Nda.C47_flat_offset",
    "Nda.C47_flat_min",
    "Nda.C47_flat_max",
    "Nda.C47_flat_range",
    "Nda.C47_flat_extent",
    "Nda.C47_size",
    "Nda.C47_max",
    "Nda.C47_in_range",
    "Nda.C47_resolve",
    "Nda.C47_empty_size_counterexample",
    "Nda.C47_max_counterexample",
    "Nda.C47_flat_extent_counterexample"
   ],
   "note": "64-bit evaluation with overflow as an undefined outcome (Model/Checked.lean), related to the unbounded model. Includes counterexamples for size() of an empty shape, max() at the largest index_t and flat_extent() at the limit."
  },
  {
   "property": "C48",
   "status": "proved",
   "theorems": [
    "Nda.C48_within",
    "Nda.C48_offset_zero",
    "Nda.C48_values",
    "Nda.C48_offset_counterexample",
    "Nda.C48_rejected_counterexample",
    "Nda.C48_moved_from_counterexample",
    "Nda.C48_set_shape",
    "Nda.C48_convert"
   ],
   "note": "The full statement is refuted for offset != 0 by C48_offset_counterexample; proved for offset = 0, for the condition with the right sign, and for array::set_shape."
  },
  {
   "property": "C49",
   "status": "proved",
   "theorems": [
    "Nda.C49_move",
    "Nda.C49_move_broadcast_counterexample"
   ],
   "note": "Includes a counterexample for a broadcast source."
  },
  {
   "property": "C50",
   "status": "proved",
   "theorems": [
    "Nda.C50_in_order",
    "Nda.C50_in_order_pair",
    "Nda.C50_order_asymm"
   ],
   "note": ""
  },
  {
   "property": "C51",
   "status": "proved",
   "theorems": [
    "Nda.C51_resample",
    "Nda.C51_constant",
    "Nda.C51_small_counterexample"
   ],
   "note": "Whole function including kernels and temporaries in one memory; arithmetic is abstract (FloatOps), one value type for all images; where the allocator places kernels and temporaries is a parameter. Includes the negative result for fewer than 64 rows."
  },
  {
   "property": "C52",
   "status": "proved",
   "theorems": [
    "Nda.C52_reduce_cols",
    "Nda.C52_reduce_rows",
    "Nda.C52_reduce_matrix",
    "Nda.C52_ref",
    "Nda.C52_ein_reduce_cols",
    "Nda.C52_ein_reduce_rows",
    "Nda.C52_ein_reduce_matrix",
    "Nda.C52_reduce_tiles",
    "Nda.C52_ein_reduce_tiles",
    "Nda.C52_small_counterexample"
   ],
   "note": "Element type and arithmetic are abstract (ScalarOps), one type for all matrices; the local buffer is a block of the memory at a given address."
  },
  {
   "property": "C53",
   "status": "partial",
   "theorems": [
    "Nda.C53_z_order",
    "Nda.C53_product_partial",
    "Nda.C53_empty_counterexample",
    "Nda.C53_overlap_counterexample"
   ],
   "note": "The code violates the full statement: C53_overlap_counterexample and C53_empty_counterexample prove its negation; C53_z_order says exactly what is computed for at least one k and one tile; C53_product_partial gives the product where the tiles do not overlap or there is one block of k. Prefetches are not modelled."
  },
  {
   "property": "C54",
   "status": "proved",
   "theorems": [
    "Nda.C54_naive",
    "Nda.C54_tiled",
    "Nda.C54_agree",
    "Nda.C54_small_counterexample",
    "Nda.C54_nan_counterexample"
   ],
   "note": "Element type and arithmetic are abstract (ScalarOps), one type for all arrays; dims are given by their values only. Includes the negative results for few columns and for NaN."
  },
  {
   "property": "C55",
   "status": "proved",
   "theorems": [
    "Nda.C55_copy",
    "Nda.C55_copy_array",
    "Nda.C55_copy_same",
    "Nda.C55_compact_copy",
    "Nda.C55_move",
    "Nda.C55_rvalue_copies",
    "Nda.C55_rvalue_counterexample"
   ],
   "note": "One element type, rank and allocator type per program; `return dst` is the named variable itself (elision). make_compact_* for shapes with run-time parameters. Rvalue overload per C++14. Exceptions are not modelled."
  },
  {
   "property": "C56",
   "status": "partial",
   "theorems": [
    "Nda.C56_constructor",
    "Nda.C56_agree_assign_fill",
    "Nda.C56_agree_assign",
    "Nda.C56_agree_copy",
    "Nda.C56_agree_new",
    "Nda.C56_new_leaks",
    "Nda.C56_copy_leaks",
    "Nda.C56_fill_faults",
    "Nda.C56_copy_faults",
    "Nda.C56_assign_faults",
    "Nda.C56_assign_fill_faults",
    "Nda.C56_no_memory_partial",
    "Nda.C56_new_no_memory_partial",
    "Nda.C56_retry_counterexample",
    "Nda.C56_no_exception"
   ],
   "note": "The property is violated: the negation is proved for every shape and every element that throws (C56_new_leaks, C56_copy_leaks, C56_fill_faults, C56_copy_faults, C56_assign_faults, C56_assign_fill_faults). What holds: other arrays are never affected, and exceptions of the allocator are safe (C56_no_memory_partial, C56_new_no_memory_partial). The throwing versions of the functions are separate definitions that stop the element loop after k elements. C56_constructor is about all statements (Model/Exceptions.lean): an exception of a constructor always loses memory, or leaves an array that cannot be destroyed, or makes a destructor fault; C56_agree_assign, C56_agree_assign_fill, C56_agree_copy and C56_agree_new relate the two models. Exceptions of allocators and assignments in all other statements: C78."
  },
  {
   "property": "C57",
   "status": "proved",
   "theorems": [
    "Nda.C57_small_matrix",
    "Nda.C57_small_vector",
    "Nda.C57_where",
    "Nda.C57_exclusive",
    "Nda.C57_no_heap",
    "Nda.C57_move",
    "Nda.C57_reinterpret_counterexample"
   ],
   "note": "The arrays of a program have one allocator type; auto_allocator's own call sequences are C36. Includes the counterexample for move_reinterpret_shape."
  },
  {
   "property": "C58",
   "status": "proved",
   "theorems": [
    "Nda.C58_copy",
    "Nda.C58_copy_some",
    "Nda.C58_move",
    "Nda.C58_for_each",
    "Nda.C58_fill",
    "Nda.C58_transform",
    "Nda.C58_overlap_counterexample"
   ],
   "note": "C19 has the same algorithms on a single memory; here they are statements of array programs, with lifetimes and all other arrays. Includes a counterexample for overlapping views."
  },
  {
   "property": "C59",
   "status": "proved",
   "theorems": [
    "Nda.C59_equal_sound",
    "Nda.C59_equal_complete",
    "Nda.C59_equal_empty_counterexample",
    "Nda.C59_dim_equal",
    "Nda.C59_shape_equal",
    "Nda.C59_shape_equal_mapping",
    "Nda.C59_static_max",
    "Nda.C59_construct",
    "Nda.C59_default",
    "Nda.C59_convert",
    "Nda.C59_assign",
    "Nda.C59_set_max",
    "Nda.C59_set_max_dynamic",
    "Nda.C59_range",
    "Nda.C59_range_fixed",
    "Nda.C59_is_in_range",
    "Nda.C59_clamp",
    "Nda.C59_iterator",
    "Nda.C59_iterator_equal",
    "Nda.C59_begin_end"
   ],
   "note": "Includes the counterexample to the documented meaning of == for empty intervals."
  },
  {
   "property": "C60",
   "status": "proved",
   "theorems": [
    "Nda.C60_interval",
    "Nda.C60_interval_bounds",
    "Nda.C60_dim",
    "Nda.C60_shape"
   ],
   "note": "absl::Format and StrJoin are trusted to print integers in decimal and to join."
  },
  {
   "property": "C61",
   "status": "proved",
   "theorems": [
    "Nda.C61_bubble_sort",
    "Nda.C61_increasing_iff",
    "Nda.C61_consecutive",
    "Nda.C61_automatic",
    "Nda.C61_copy",
    "Nda.C61_backward_counterexample"
   ],
   "note": "Includes the counterexample for negative strides, and the exact condition for increasing addresses."
  },
  {
   "property": "C62",
   "status": "proved",
   "theorems": [
    "Nda.C62_box",
    "Nda.C62_box_counterexample",
    "Nda.C62_box_constants",
    "Nda.C62_linear",
    "Nda.C62_linear_reconstructs",
    "Nda.C62_quadratic_reconstructs",
    "Nda.C62_interpolating_quadratic",
    "Nda.C62_quadratic_bspline",
    "Nda.C62_cubic_constants",
    "Nda.C62_cubic_linear_iff",
    "Nda.C62_interpolating_cubic_reconstructs",
    "Nda.C62_interpolating_cubic",
    "Nda.C62_cubic_bspline",
    "Nda.C62_sum_positive",
    "Nda.C62_build",
    "Nda.C62_rate_one",
    "Nda.C62_copy",
    "Nda.C62_linear_continuous",
    "Nda.C62_quadratic_continuous",
    "Nda.C62_cubic_continuous",
    "Nda.C62_box_not_continuous",
    "Nda.C62_sinc",
    "Nda.C62_lanczos",
    "Nda.C62_lanczos_counterexample",
    "Nda.C62_lanczos_sum_positive",
    "Nda.C62_lanczos_build"
   ],
   "note": "Exact arithmetic; rounding of the weights is C84. `quadratic_family` and `cubic_family` with other parameters than those of the named kernels have no claim about the sum."
  },
  {
   "property": "C63",
   "status": "proved",
   "theorems": [
    "Nda.C63_statement",
    "Nda.C63_balance",
    "Nda.C63_all_destroyed",
    "Nda.C63_move_only",
    "Nda.C63_fill_static",
    "Nda.C63_swap_same_allocator",
    "Nda.C63_make_move_copies"
   ],
   "note": "Temporaries of element type in the caller's expressions are not counted. transform_index assigns an rvalue (move assignment), the statement for_each_value of the model assigns an lvalue (copy assignment) as fill does; generate, which assigns rvalues through the same loop, has no statement of its own."
  },
  {
   "property": "C64",
   "status": "proved",
   "theorems": [
    "Nda.C64_crop_crop",
    "Nda.C64_crop_crop_check",
    "Nda.C64_crop_twice",
    "Nda.C64_slice_order",
    "Nda.C64_transpose_transpose",
    "Nda.C64_transpose_back",
    "Nda.C64_crop_transpose",
    "Nda.C64_image_crop",
    "Nda.C64_reinterpret"
   ],
   "note": "transpose theorems assume known (not unresolved) strides; refs made by the library have them (C05). The exchange of crop and transpose is for arguments without indices."
  },
  {
   "property": "C65",
   "status": "proved",
   "theorems": [
    "Nda.C65_rename",
    "Nda.C65_rewrite",
    "Nda.C65_transpose",
    "Nda.C65_self",
    "Nda.C65_max",
    "Nda.C65_add",
    "Nda.C65_neg",
    "Nda.C65_undo",
    "Nda.C65_trace_product",
    "Nda.C65_add_counterexample",
    "Nda.C65_order_counterexample"
   ],
   "note": "For a result that does not share memory with the operands, except C65_self. C65_add_counterexample: r += a + b is not two reductions if a and b use different loop indices."
  },
  {
   "property": "C66",
   "status": "proved",
   "theorems": [
    "Nda.C66_tile",
    "Nda.C66_assert",
    "Nda.C66_tiles",
    "Nda.C66_outermost",
    "Nda.C66_split",
    "Nda.C66_split_static",
    "Nda.C66_split_outermost",
    "Nda.C66_overlap_counterexample"
   ],
   "note": "C66_overlap_counterexample: with overlapping intervals (split<N> with N not dividing the extent) values are added twice."
  },
  {
   "property": "C67",
   "status": "proved",
   "theorems": [
    "Nda.C67_chunky",
    "Nda.C67_planar",
    "Nda.C67_image",
    "Nda.C67_matrix",
    "Nda.C67_vector",
    "Nda.C67_assertion"
   ],
   "note": "find_stride is the stride search of the code; overflow excluded by the bound on the size."
  },
  {
   "property": "C68",
   "status": "partial",
   "theorems": [
    "Nda.C68_strides",
    "Nda.C68_padded_partial",
    "Nda.C68_counterexample",
    "Nda.C68_view"
   ],
   "note": "The full statement is violated (C68_counterexample). C68_strides says which stride y gets in every case, C68_view when a view of some channels is right, C68_padded_partial that the documented layout holds otherwise."
  },
  {
   "property": "C69",
   "status": "proved",
   "theorems": [
    "Nda.C69_eq_views",
    "Nda.C69_equal_views",
    "Nda.C69_eq",
    "Nda.C69_equal",
    "Nda.C69_equivalence",
    "Nda.C69_copy",
    "Nda.C69_write",
    "Nda.C69_reshape_back",
    "Nda.C69_swap_twice",
    "Nda.C69_move_back",
    "Nda.C69_make_copy",
    "Nda.C69_compact_copy",
    "Nda.C69_moved_from_counterexample"
   ],
   "note": "Element comparison is any function to Bool. For moved-from sources of copies see C69_moved_from_counterexample; the theorems ask for sources with contents."
  },
  {
   "property": "C70",
   "status": "proved",
   "theorems": [
    "Nda.C70_related",
    "Nda.C70_map",
    "Nda.C70_control",
    "Nda.C70_provenance",
    "Nda.C70_no_junk",
    "Nda.C70_compare",
    "Nda.C70_compare_needs_injective"
   ],
   "note": "Relation between values arbitrary; functions given to for_each_value have to respect it."
  },
  {
   "property": "C71",
   "status": "proved",
   "theorems": [
    "Nda.C71_new",
    "Nda.C71_clear",
    "Nda.C71_simulates",
    "Nda.C71_indeterminate",
    "Nda.C71_make_copy",
    "Nda.C71_fill"
   ],
   "note": "Copying an indeterminate value is modelled to give an indeterminate value."
  },
  {
   "property": "C72",
   "status": "proved",
   "theorems": [
    "Nda.C72_reduce",
    "Nda.C72_sum",
    "Nda.C72_make_sum",
    "Nda.C72_alias_counterexample",
    "Nda.C72_same_loops",
    "Nda.C72_product",
    "Nda.C72_assoc",
    "Nda.C72_identity"
   ],
   "note": "Results of make_ein_sum must have elements, and their number fit in index_t; element operations do not throw."
  },
  {
   "property": "C73",
   "status": "proved",
   "theorems": [
    "Nda.C73_calls",
    "Nda.C73_calls_copy",
    "Nda.C73_iff",
    "Nda.C73_contiguous",
    "Nda.C73_dense",
    "Nda.C73_array",
    "Nda.C73_view",
    "Nda.C73_copy_same",
    "Nda.C73_counterexample",
    "Nda.C73_row_counterexample",
    "Nda.C73_extent_one_counterexample",
    "Nda.C73_copy_counterexample"
   ],
   "note": "The property as stated is the exact condition; that all loops stay within is false for the code (C73_counterexample, finding 53). Copies between shapes that differ are covered by a counterexample only."
  },
  {
   "property": "C74",
   "status": "proved",
   "theorems": [
    "Nda.C74_calls",
    "Nda.C74_apart",
    "Nda.C74_self",
    "Nda.C74_dense",
    "Nda.C74_program",
    "Nda.C74_counterexample"
   ],
   "note": "The property as stated is what the code does; that every copy keeps the promise is false (C74_counterexample, finding 54)."
  },
  {
   "property": "C75",
   "status": "proved",
   "theorems": [
    "Nda.C75_other",
    "Nda.C75_new",
    "Nda.C75_fill",
    "Nda.C75_own",
    "Nda.C75_own_counterexample"
   ],
   "note": "The negative part is C75_own, for all arrays; C75_own_counterexample is a program (finding 55)."
  },
  {
   "property": "C76",
   "status": "proved",
   "theorems": [
    "Nda.C76_lost",
    "Nda.C76_kept",
    "Nda.C76_program",
    "Nda.C76_swap_counterexample"
   ],
   "note": "Swap is stated for allocators that exchange memory (SwapsMemory); C76_swap_counterexample shows that it is false for the others (finding 56)."
  },
  {
   "property": "C77",
   "status": "proved",
   "theorems": [
    "Nda.C77_terminates",
    "Nda.C77_inside",
    "Nda.C77_cover",
    "Nda.C77_for_each_value",
    "Nda.C77_fill",
    "Nda.C77_transform_index",
    "Nda.C77_copy",
    "Nda.C77_copy_both",
    "Nda.C77_equal",
    "Nda.C77_update",
    "Nda.C77_update_counterexample",
    "Nda.C77_z_order"
   ],
   "note": "The order of the tiles is any permutation of the nested loops' order. C77_update_counterexample shows that in-place updates need the hypothesis on overlap."
  },
  {
   "property": "C78",
   "status": "proved",
   "theorems": [
    "Nda.C78_program",
    "Nda.C78_statement",
    "Nda.C78_definition",
    "Nda.C78_assignment",
    "Nda.C78_emptied",
    "Nda.C78_reshape"
   ],
   "note": "Exceptions of constructors of elements are excluded: see C56. The value that a throwing assignment leaves is arbitrary. Destructors and deallocate do not throw."
  },
  {
   "property": "C79",
   "status": "proved",
   "theorems": [
    "Nda.C79_for_each_index",
    "Nda.C79_for_all_indices",
    "Nda.C79_ordered",
    "Nda.C79_for_each_value",
    "Nda.C79_for_each_value_moved",
    "Nda.C79_generate",
    "Nda.C79_generate_moved",
    "Nda.C79_transform_index",
    "Nda.C79_transform_indices",
    "Nda.C79_const",
    "Nda.C79_agree_transform_index",
    "Nda.C79_agree_generate",
    "Nda.C79_moved_from_counterexample",
    "Nda.C79_moved_from_empty_counterexample"
   ],
   "note": "Exceptions of function objects: C78. Which types of function objects compile is not modelled."
  },
  {
   "property": "C80",
   "status": "proved",
   "theorems": [
    "Nda.C80_view",
    "Nda.C80_injective",
    "Nda.C80_append",
    "Nda.C80_fill",
    "Nda.C80_transform_index",
    "Nda.C80_for_each_value",
    "Nda.C80_copy",
    "Nda.C80_make_copy",
    "Nda.C80_reorder_assert",
    "Nda.C80_reorder_empty_counterexample"
   ],
   "note": "make_copy only for views of the rank of the array type, because the model has one array type per program. reinterpret_shape with another offset is C10, move_reinterpret_shape C48."
  },
  {
   "property": "C81",
   "status": "proved",
   "theorems": [
    "Nda.C81_flat_offset",
    "Nda.C81_optimize_shape",
    "Nda.C81_optimize_shape_zero_min",
    "Nda.C81_optimize_copy",
    "Nda.C81_copy_start",
    "Nda.C81_fuse_min_counterexample",
    "Nda.C81_fuse_min_int_counterexample",
    "Nda.C81_can_fuse_counterexample",
    "Nda.C81_split",
    "Nda.C81_split_size",
    "Nda.C81_split_static",
    "Nda.C81_split_counterexample",
    "Nda.C81_z_order",
    "Nda.C81_z_order_overflow"
   ],
   "note": "Sufficient bounds, except for z-order where they are exact; counterexamples show that the bounds on mins and spans are needed. Pointer arithmetic is not bounded."
  },
  {
   "property": "C82",
   "status": "proved",
   "theorems": [
    "Nda.C82_reduce",
    "Nda.C82_ein_reduce",
    "Nda.C82_tiles",
    "Nda.C82_ref",
    "Nda.C82_z_order",
    "Nda.C82_exact",
    "Nda.C82_simple",
    "Nda.C82_versions",
    "Nda.C82_rearranged",
    "Nda.C82_ein_sum",
    "Nda.C82_convolution",
    "Nda.C82_float",
    "Nda.C82_binary",
    "Nda.C82_example",
    "Nda.C82_attained"
   ],
   "note": "For arithmetics that satisfy Rounds; shown for IEEE 754 binary formats (rounding to nearest, underflow, overflow; no signed zeros). C82_rearranged covers reordering and contraction by compilers with -ffast-math for one element of a product; the other theorems are about the order of the code."
  },
  {
   "property": "C83",
   "status": "proved",
   "theorems": [
    "Nda.C83_overloads",
    "Nda.C83_is_in_range",
    "Nda.C83_interval",
    "Nda.C83_dim",
    "Nda.C83_view_type",
    "Nda.C83_shapes",
    "Nda.C83_shapes_counterexample",
    "Nda.C83_loops",
    "Nda.C83_reconcile",
    "Nda.C83_reconcile_incomplete"
   ],
   "note": "Types with user-defined conversions to index_t, interval or dim are not modelled."
  },
  {
   "property": "C84",
   "status": "proved",
   "theorems": [
    "Nda.C84_resample",
    "Nda.C84_ideal_constant",
    "Nda.C84_ideal_range",
    "Nda.C84_simple",
    "Nda.C84_weight",
    "Nda.C84_position",
    "Nda.C84_float",
    "Nda.C84_linear",
    "Nda.C84_linear_weight",
    "Nda.C84_weight_counterexample",
    "Nda.C84_nonneg",
    "Nda.C84_kernel",
    "Nda.C84_example"
   ],
   "note": "The error of kernels is a hypothesis; it is proved for the linear kernel here and for the other polynomial kernels in C91. sin is not modelled."
  },
  {
   "property": "C85",
   "status": "proved",
   "theorems": [
    "Nda.C85_copy",
    "Nda.C85_copy_undefined",
    "Nda.C85_program",
    "Nda.C85_placement",
    "Nda.C85_rounding",
    "Nda.C85_exact",
    "Nda.C85_placed",
    "Nda.C85_constant",
    "Nda.C85_identity",
    "Nda.C85_kernels",
    "Nda.C85_small_counterexample",
    "Nda.C85_float",
    "Nda.C85_8bit",
    "Nda.C85_constant_counterexample",
    "Nda.C85_quantum32_counterexample"
   ],
   "note": "Magick++ itself is not modelled: its pixel cache is memory with four components per pixel. The Lanczos kernel of the program is a parameter. Negative parts: truncation makes constant images darker in binary32, 32-bit components give undefined conversions, new heights below 64 fail."
  },
  {
   "property": "C86",
   "status": "proved",
   "theorems": [
    "Nda.C86_unfusible",
    "Nda.C86_unfusible_copy",
    "Nda.C86_shortest",
    "Nda.C86_shortest_copy",
    "Nda.C86_one_loop",
    "Nda.C86_one_loop_copy",
    "Nda.C86_automatic",
    "Nda.C86_steps",
    "Nda.C86_unit_counterexample"
   ],
   "note": "Shortest among nests of counted loops over the same sequence of addresses; copies are treated for arrays of equal extents. Negative part: a dim of extent 1 may prevent fusing (performance only)."
  },
  {
   "property": "C87",
   "status": "proved",
   "theorems": [
    "Nda.C87_get",
    "Nda.C87_same_bytes",
    "Nda.C87_other_size",
    "Nda.C87_reinterpret_get",
    "Nda.C87_reinterpret_set",
    "Nda.C87_values",
    "Nda.C87_views",
    "Nda.C87_crop",
    "Nda.C87_construct",
    "Nda.C87_misaligned",
    "Nda.C87_auto",
    "Nda.C87_auto_room",
    "Nda.C87_auto_small",
    "Nda.C87_defaults",
    "Nda.C87_compare",
    "Nda.C87_types",
    "Nda.C87_reinterpret_const",
    "Nda.C87_float_counterexample",
    "Nda.C87_uninitialized_counterexample",
    "Nda.C87_compare_counterexample"
   ],
   "note": "Types are their sizes, alignments and aliasing classes; the accesses follow C++17 [basic.lval]. Counterexamples: int read as float (as in a test), uninitialized_auto_allocator for types whose size is not a power of two, comparing auto_allocators with another base allocator."
  },
  {
   "property": "C88",
   "status": "proved",
   "theorems": [
    "Nda.C88_schedule",
    "Nda.C88_call",
    "Nda.C88_calls",
    "Nda.C88_equal",
    "Nda.C88_readers",
    "Nda.C88_tiles",
    "Nda.C88_copy_tiles",
    "Nda.C88_ein_pieces",
    "Nda.C88_reduction_counterexample",
    "Nda.C88_static_split_counterexample"
   ],
   "note": "Every access is one step; callables given to the algorithms do not access the memory; generate is not included. Counterexamples: dividing a reduction along an index that the left-hand side does not have, and updating overlapping tiles of split<N>."
  },
  {
   "property": "C89",
   "status": "proved",
   "theorems": [
    "Nda.C89_fold",
    "Nda.C89_sum",
    "Nda.C89_no_overflow",
    "Nda.C89_one_type",
    "Nda.C89_equal",
    "Nda.C89_dot",
    "Nda.C89_dot_tight"
   ],
   "note": "Objects of different types are in different memories (no type punning; see C87 for reinterpret). The numeric rules of each operator are parameters; int addition and multiplication of 32 bits are used for the dot product."
  },
  {
   "property": "C90",
   "status": "proved",
   "theorems": [
    "Nda.C90_for_each_value",
    "Nda.C90_copy",
    "Nda.C90_equal",
    "Nda.C90_eq",
    "Nda.C90_transform_index",
    "Nda.C90_crop",
    "Nda.C90_transpose",
    "Nda.C90_reorder",
    "Nda.C90_reorder_counterexample",
    "Nda.C90_empty_counterexample"
   ],
   "note": "The shape traits of matrices and padded chunky images do not check for null (C39_null_base)."
  },
  {
   "property": "C91",
   "status": "proved",
   "theorems": [
    "Nda.C91_exact",
    "Nda.C91_error",
    "Nda.C91_weights",
    "Nda.C91_build",
    "Nda.C91_program",
    "Nda.C91_box_counterexample"
   ],
   "note": "Binary32, round to nearest even, no fused operations; lanczos is not covered (std::sin is not modelled), box only by its error and a counterexample. The sizes are sufficient, not necessary."
  },
  {
   "property": "C92",
   "status": "proved",
   "theorems": [
    "Nda.C92_reduce",
    "Nda.C92_make_sum",
    "Nda.C92_exact",
    "Nda.C92_operands"
   ],
   "note": "Operands as the C++ types provide them (OpTyped). C92_exact also needs that an operand with a repeated index is square along it; without it the assertions do not suffice (C41)."
  },
  {
   "property": "C93",
   "status": "proved",
   "theorems": [
    "Nda.C93_benchmark",
    "Nda.C93_benchmark_counterexample",
    "Nda.C93_check",
    "Nda.C93_blind_counterexample",
    "Nda.C93_matrix_sizes",
    "Nda.C93_matrix",
    "Nda.C93_convolution_sizes",
    "Nda.C93_convolution"
   ],
   "note": "For the arithmetic of the code as written (round to nearest, no reassociation, no contraction). The random numbers are arbitrary in [0, 1]; the generator is not modelled. Times of zero nanoseconds are excluded (C93_benchmark_counterexample)."
  },
  {
   "property": "C94",
   "status": "proved",
   "theorems": [
    "Nda.C94_fold",
    "Nda.C94_elementwise",
    "Nda.C94_copy",
    "Nda.C94_shift",
    "Nda.C94_transpose",
    "Nda.C94_product_counterexample"
   ],
   "note": "For the order of the generic loops (first index fastest), as in C41. C94_shift, C94_transpose and C94_copy are equivalences; the remaining theorems are sufficient conditions."
  },
  {
   "property": "C95",
   "status": "proved",
   "theorems": [
    "Nda.C95_copy",
    "Nda.C95_move",
    "Nda.C95_exact",
    "Nda.C95_downward",
    "Nda.C95_shift",
    "Nda.C95_repack",
    "Nda.C95_scroll",
    "Nda.C95_full_rows"
   ],
   "note": "C95_exact and C95_shift are equivalences. Destinations with negative strides or interleaved dims, where the order of the loops is not that of the addresses, are not covered; see C58 for these."
  },
  {
   "property": "C96",
   "status": "proved",
   "theorems": [
    "Nda.C96_epsilon",
    "Nda.C96_cross",
    "Nda.C96_orthogonal",
    "Nda.C96_max",
    "Nda.C96_max_initial",
    "Nda.C96_outer",
    "Nda.C96_plane_sum",
    "Nda.C96_dft",
    "Nda.C96_dft_inverse",
    "Nda.C96_max_counterexample",
    "Nda.C96_dft_factors"
   ],
   "note": "Elements are exact (a ring, a linear order, a field); the rounding of the Fourier matrix and of the sums in float is not covered here (see C67, C82 and C91 for sums)."
  },
  {
   "property": "C97",
   "status": "proved",
   "theorems": [
    "Nda.C97_statement",
    "Nda.C97_settled",
    "Nda.C97_statement_settled",
    "Nda.C97_held",
    "Nda.C97_all_returned",
    "Nda.C97_size",
    "Nda.C97_moves",
    "Nda.C97_same_place",
    "Nda.C97_same_place_fill",
    "Nda.C97_views",
    "Nda.C97_empty_memory",
    "Nda.C97_fill_static",
    "Nda.C97_swap_same_allocator"
   ],
   "note": "Allocations are counted, inline storage of auto_allocator included; that allocate can fail is C78. The number for swap assumes that both arrays own memory if their shapes need any, unless pointers are exchanged; C97_settled proves this when the default shape needs no memory."
  },
  {
   "property": "C98",
   "status": "proved",
   "theorems": [
    "Nda.C98_exact",
    "Nda.C98_fill",
    "Nda.C98_no_fill",
    "Nda.C98_assign",
    "Nda.C98_max",
    "Nda.C98_types",
    "Nda.C98_matrix_product",
    "Nda.C98_overlap_counterexample"
   ],
   "note": "The result is tiled, the operands are whole arrays, as in the README. The result has distinct indices and no stride 0; it shares no elements with operands (EinInput)."
  },
  {
   "property": "C99",
   "status": "proved",
   "theorems": [
    "Nda.C99_weights",
    "Nda.C99_program",
    "Nda.C99_enlarged",
    "Nda.C99_same"
   ],
   "note": "Sizes up to 2^18, new sizes up to 2^21; the tolerance of the positions is (20 n + 11) / 2^24 for n pixels. A size at which the assertion fails is C91_box_counterexample."
  },
  {
   "property": "C100",
   "status": "proved",
   "theorems": [
    "Nda.C100_run",
    "Nda.C100_exact",
    "Nda.C100_float",
    "Nda.C100_usage",
    "Nda.C100_zero_counterexample",
    "Nda.C100_small_counterexample"
   ],
   "note": "lanczos<3> in binary32 is a parameter with hypotheses on its weights; in exact arithmetic it is the function of C62."
  },
  {
   "property": "C101",
   "status": "proved",
   "theorems": [
    "Nda.C101_mirror_columns",
    "Nda.C101_mirror_rows",
    "Nda.C101_transpose",
    "Nda.C101_monotone",
    "Nda.C101_range",
    "Nda.C101_local",
    "Nda.C101_gradient",
    "Nda.C101_kernels",
    "Nda.C101_cubic_counterexample",
    "Nda.C101_float_counterexample"
   ],
   "note": "Exact arithmetic, except for the binary32 counterexample."
  },
  {
   "property": "C102",
   "status": "proved",
   "theorems": [
    "Nda.C102_ends",
    "Nda.C102_pieces",
    "Nda.C102_runtime",
    "Nda.C102_compile_time",
    "Nda.C102_innermost",
    "Nda.C102_merge",
    "Nda.C102_tiles",
    "Nda.C102_fill",
    "Nda.C102_copy",
    "Nda.C102_for_each_value",
    "Nda.C102_update",
    "Nda.C102_mixed_counterexample"
   ],
   "note": "The equivalence for termination assumes positive compile-time factors and a non-empty interval."
  },
  {
   "property": "C103",
   "status": "proved",
   "theorems": [
    "Nda.C103_exact",
    "Nda.C103_float",
    "Nda.C103_round_trip",
    "Nda.C103_float_round_trip",
    "Nda.C103_white_counterexample",
    "Nda.C103_steps_counterexample"
   ],
   "note": "The negation of exactness in float for other factors is C103_white_counterexample; C99 bounds the error for all factors."
  },
  {
   "property": "C104",
   "status": "proved",
   "theorems": [
    "Nda.C104_fill",
    "Nda.C104_no_fill",
    "Nda.C104_runtime",
    "Nda.C104_matrix_product",
    "Nda.C104_remainder_counterexample"
   ],
   "note": "C104_remainder_counterexample shows that the condition on the levels is needed."
  },
  {
   "property": "C105",
   "status": "proved",
   "theorems": [
    "Nda.C105_match",
    "Nda.C105_main",
    "Nda.C105_all",
    "Nda.C105_order",
    "Nda.C105_no_test_counterexample"
   ],
   "note": "Output is modelled as the list of test names with how each ended, and the three numbers."
  },
  {
   "property": "C106",
   "status": "proved",
   "theorems": [
    "Nda.C106_distinct",
    "Nda.C106_two_dims",
    "Nda.C106_fill",
    "Nda.C106_check",
    "Nda.C106_fill_check",
    "Nda.C106_detects",
    "Nda.C106_copy",
    "Nda.C106_blind_counterexample",
    "Nda.C106_rank_counterexample"
   ],
   "note": "C106_blind_counterexample and C106_rank_counterexample show where the condition on extents and the rank are needed."
  },
  {
   "property": "C107",
   "status": "proved",
   "theorems": [
    "Nda.C107_rows",
    "Nda.C107_chunky",
    "Nda.C107_loops",
    "Nda.C107_whole",
    "Nda.C107_repeat",
    "Nda.C107_test",
    "Nda.C107_for_each_value",
    "Nda.C107_dense_test",
    "Nda.C107_gap_counterexample"
   ],
   "note": "C107_gap_counterexample shows that the pixels have to be dense."
  },
  {
   "property": "C108",
   "status": "proved",
   "theorems": [
    "Nda.C108_programs",
    "Nda.C108_queues",
    "Nda.C108_phases",
    "Nda.C108_fill",
    "Nda.C108_update",
    "Nda.C108_copy",
    "Nda.C108_reduce",
    "Nda.C108_wait_counterexample"
   ],
   "note": "C108_wait_counterexample shows that waiting between phases is needed."
  },
  {
   "property": "C109",
   "status": "proved",
   "theorems": [
    "Nda.C109_for_each_value",
    "Nda.C109_fill",
    "Nda.C109_copy",
    "Nda.C109_transform_index",
    "Nda.C109_transpose",
    "Nda.C109_reverse_assert",
    "Nda.C109_reverse",
    "Nda.C109_equal",
    "Nda.C109_chain",
    "Nda.C109_round_trip",
    "Nda.C109_exchange",
    "Nda.C109_generate",
    "Nda.C109_generate_transpose",
    "Nda.C109_generate_counterexample"
   ],
   "note": "C109_generate_counterexample: generate of a reversed array numbers the elements from the other end."
  }
 ]
}
{
 "claims": [
  {
   "property": "C01",
   "status": "proved",
   "theorems": [
    "Verif.Props.C01_addressing",
    "Verif.Props.C01_cpp_strides_agree"
   ],
   "note": "Tensors with at least one element and a 64-bit element count. The C++ stride helper fails for scalars (C01_cpp_strides_scalar_fails)."
  },
  {
   "property": "C02",
   "status": "proved",
   "theorems": [
    "Verif.Props.C02_index_enumeration"
   ],
   "note": ""
  },
  {
   "property": "C03",
   "status": "proved",
   "theorems": [
    "Verif.Props.C03_no_double_free",
    "Verif.Props.C03_frees_only_owned",
    "Verif.Props.C03_no_leak",
    "Verif.Props.C03_owned_is_live"
   ],
   "note": "Allocation failures are not modelled."
  },
  {
   "property": "C04",
   "status": "proved",
   "theorems": [
    "Verif.Props.C04_list_access"
   ],
   "note": ""
  },
  {
   "property": "C05",
   "status": "proved",
   "theorems": [
    "Verif.Props.C05_close_iff"
   ],
   "note": "Exact arithmetic, non-integer element types."
  },
  {
   "property": "C06",
   "status": "proved",
   "theorems": [
    "Verif.Props.C06_quicksort_stable",
    "Verif.Props.C06_tensor_sort",
    "Verif.Props.C06_custom_meets_contract",
    "Verif.Props.C06_order_unique"
   ],
   "note": "Values of any linearly ordered type (no NaN). qsort_r is represented by its contract; the custom quicksort is proved to meet it."
  },
  {
   "property": "C07",
   "status": "proved",
   "theorems": [
    "Verif.Props.C07_stack_safe"
   ],
   "note": ""
  },
  {
   "property": "C08",
   "status": "partial",
   "theorems": [
    "Verif.Props.C08_topk_partial",
    "Verif.Props.C08_topk_distinct_partial",
    "Verif.Props.C08_topk_fullsort_partial",
    "Verif.Props.C08_tensor_topk_partial",
    "Verif.Props.C08_false"
   ],
   "note": "False in full: among equal candidates for the last place the heap evicts the lowest index. Proved: right values in stable order; exact for distinct values and for the full-sort path."
  },
  {
   "property": "C09",
   "status": "proved",
   "theorems": [
    "Verif.Props.C09_unique_flat",
    "Verif.Props.C09_unique_axis",
    "Verif.Props.C09_unique_axis_slices",
    "Verif.Props.C09_axis_row_major_order_false"
   ],
   "note": "Element types whose equality is byte equality. Sorted slices are ordered with the first dimension fastest, which differs from numpy's row-major order (C09_axis_row_major_order_false)."
  },
  {
   "property": "C10",
   "status": "partial",
   "theorems": [
    "Verif.Props.C10_find_index",
    "Verif.Props.C10_distinct_slots",
    "Verif.Props.C10_category_int_partial",
    "Verif.Props.C10_category_string_partial",
    "Verif.Props.C10_int_truncation_false",
    "Verif.Props.C10_duplicates_false",
    "Verif.Props.C10_string_prefix_false"
   ],
   "note": "The table is correct for every dictionary with values 0..size-1 whenever construction finishes. The full claim is false: integers at or below -10^18 are hashed differently at run time, string non-keys that extend a category are accepted, and repeated categories fail an assertion."
  },
  {
   "property": "C100",
   "status": "partial",
   "theorems": [
    "Verif.Props.C100_value_partial",
    "Verif.Props.C100_ring",
    "Verif.Props.C100_single_binary",
    "Verif.Props.C100_single_unary",
    "Verif.Props.C100_single_compare",
    "Verif.Props.C100_clip",
    "Verif.Props.C100_clip_unsigned",
    "Verif.Props.C100_clip_false",
    "Verif.Props.C100_chain_false",
    "Verif.Props.C100_cast_false",
    "Verif.Props.C100_fmod_false",
    "Verif.Props.C100_abs_false",
    "Verif.Props.C100_crash_false"
   ],
   "note": "For all widths and nested expressions. Holds for single operators, for expressions of ring operators, and wherever nothing wraps around below an operator that looks at high bits. False otherwise: intermediate results and casts are not cut to their type, Mod ignores fmod, Abs goes through double, and Clip without bounds uses the bounds of unsigned numbers."
  },
  {
   "property": "C101",
   "status": "partial",
   "theorems": [
    "Verif.Props.C101_round",
    "Verif.Props.C101_round_unique",
    "Verif.Props.C101_quantize",
    "Verif.Props.C101_no_zero_false",
    "Verif.Props.C101_scale_rank_false",
    "Verif.Props.C101_dequantize",
    "Verif.Props.C101_dequantize_axis_false",
    "Verif.Props.C101_round_trip",
    "Verif.Props.C101_dynamic",
    "Verif.Props.C101_dynamic_round_trip",
    "Verif.Props.C101_matmul_integer",
    "Verif.Props.C101_qlinear_partial",
    "Verif.Props.C101_saturate_false",
    "Verif.Props.C101_row_scale_false",
    "Verif.Props.C101_recompose_value",
    "Verif.Props.C101_recompose",
    "Verif.Props.C101_recompose_partial",
    "Verif.Props.C101_missing_zero_false",
    "Verif.Props.C101_recompose_axis_false"
   ],
   "note": "Over every ordered field with a floor, without floating-point rounding. Proved for QuantizeLinear with a scalar scale, DynamicQuantizeLinear, MatMulInteger, and QLinearMatMul where nothing saturates and the left scale is one number. False: QLinearMatMul wraps around where it ought to saturate and applies row scales to columns; the recomposition ignores axes and missing zero points; scales that are vectors of one element are rejected by an assertion."
  },
  {
   "property": "C102",
   "status": "partial",
   "theorems": [
    "Verif.Props.C102_value_partial",
    "Verif.Props.C102_accepts_two",
    "Verif.Props.C102_accepts_three",
    "Verif.Props.C102_cubic_border_partial",
    "Verif.Props.C102_cubic_border_false",
    "Verif.Props.C102_bilinear_three_false",
    "Verif.Props.C102_safe_border",
    "Verif.Props.C102_safe_linear_partial",
    "Verif.Props.C102_safe_nearest_partial",
    "Verif.Props.C102_zeros_safe_false"
   ],
   "note": "Values proved for all modes with zeros padding and for nearest and linear with border padding, over every ordered field with a floor. False: with zeros padding memory outside of the image is read, even for grids within [-1, 1]; cubic with border padding differs beyond the border; bilinear for three axes gives zeros. Reflection is refused."
  },
  {
   "property": "C103",
   "status": "partial",
   "theorems": [
    "Verif.Props.C103_unary",
    "Verif.Props.C103_unary_succeeds",
    "Verif.Props.C103_binary",
    "Verif.Props.C103_binary_succeeds",
    "Verif.Props.C103_softmax",
    "Verif.Props.C103_matmul",
    "Verif.Props.C103_matmul_bcast_false",
    "Verif.Props.C103_limits_unary",
    "Verif.Props.C103_limits_binary",
    "Verif.Props.C103_size_false",
    "Verif.Props.C103_zero_limit_false",
    "Verif.Props.C103_tile_shape_false",
    "Verif.Props.C103_omp_unary_partial",
    "Verif.Props.C103_omp_binary_partial",
    "Verif.Props.C103_omp_softmax",
    "Verif.Props.C103_omp_matmul_partial",
    "Verif.Props.C103_omp_status_false",
    "Verif.Props.C103_zero_threads_false",
    "Verif.Props.C103_omp_transpose_false"
   ],
   "note": "Sequential operations proved for all shapes and limits; parallel ones for every order of the tiles, the elementwise ones if the accelerator does not fail, the product if nothing is transposed. False: broadcasting the left matrix computes one stack only; a transposed right matrix is cut along the sum; elementwise parallel operations drop the status; limits of zero and zero threads divide by zero; the limit on the number of elements is not kept."
  },
  {
   "property": "C104",
   "status": "partial",
   "theorems": [
    "Verif.Props.C104_results",
    "Verif.Props.C104_chosen",
    "Verif.Props.C104_complete",
    "Verif.Props.C104_world_false",
    "Verif.Props.C104_same_value_false",
    "Verif.Props.C104_nested_false"
   ],
   "note": "Results proved for every function, run and order of uses whenever the pass goes through and operations write only to operands when they write to operands; the buffers chosen are the largest set that can be removed. False: a declared effect on no value in particular is lost; a value stored twice into a removed buffer is erased twice; a loop erased with the loop around it is looked at again."
  },
  {
   "property": "C105",
   "status": "partial",
   "theorems": [
    "Verif.Props.C105_finite_partial",
    "Verif.Props.C105_top_partial",
    "Verif.Props.C105_bottom_partial",
    "Verif.Props.C105_infinity_false",
    "Verif.Props.C105_nan_partial",
    "Verif.Props.C105_nan_false",
    "Verif.Props.C105_overflow_false",
    "Verif.Props.C105_round",
    "Verif.Props.C105_prelu",
    "Verif.Props.C105_variadic",
    "Verif.Props.C105_isinf_partial",
    "Verif.Props.C105_isinf_false",
    "Verif.Props.C105_mod",
    "Verif.Props.C105_fmod_false",
    "Verif.Props.C105_mod_min_false",
    "Verif.Props.C105_div",
    "Verif.Props.C105_neg_abs",
    "Verif.Props.C105_integers",
    "Verif.Props.C105_shift",
    "Verif.Props.C105_shift_false",
    "Verif.Props.C105_binarizer_partial",
    "Verif.Props.C105_binarizer_false",
    "Verif.Props.C105_string",
    "Verif.Props.C105_string_false"
   ],
   "note": "Finite numbers proved for 22 functions in exact arithmetic, limits at infinity where they are right, integers for every width. False: NaN at -inf for Mish, HardSwish, Gelu and at both ends for Softsign; NaN lost by Relu, Clip and others, Sign(NaN) = -1; Softplus overflows; IsInf with both attributes 0 and Binarizer with a fractional threshold on integers stop the compiler; fmod = 1 ignored on integers; shifts by the width; Equal on strings looks only at the length of the first one. Missing: rounding errors, signed zeros, Pow, Cast, Mod on floats."
  },
  {
   "property": "C106",
   "status": "partial",
   "theorems": [
    "Verif.Props.C106_cast_partial",
    "Verif.Props.C106_unsupported",
    "Verif.Props.C106_types_false",
    "Verif.Props.C106_nan_false",
    "Verif.Props.C106_round_trip"
   ],
   "note": "Proved for every value, width and rounding between supported types; the supported pairs are exactly those for which a value of the right type comes out. False: booleans and signed integers to unsigned integers of another width, unsigned integers to indices, f16 and bf16 into each other, bf16 to booleans; NaN becomes false."
  },
  {
   "property": "C107",
   "status": "partial",
   "theorems": [
    "Verif.Props.C107_fusion_partial",
    "Verif.Props.C107_erased_unused",
    "Verif.Props.C107_mean_false",
    "Verif.Props.C107_max_false",
    "Verif.Props.C107_sum_false",
    "Verif.Props.C107_bounds_false",
    "Verif.Props.C107_constant_false",
    "Verif.Props.C107_outer_constant_false",
    "Verif.Props.C107_dequantize_false"
   ],
   "note": "Proved for all blocks and chains under four conditions. False without them: a fused Mean is a sum, fused Max and Min ignore the third operand, fused Sum of three operands cannot be made, an argument with unknown last extent 1 is read out of bounds, constants after the first operation may be used before they are defined, constants of an enclosing block fail an assertion, DequantizeLinear with a scale per row uses it per column."
  },
  {
   "property": "C108",
   "status": "partial",
   "theorems": [
    "Verif.Props.C108_reuse_partial",
    "Verif.Props.C108_argument_false",
    "Verif.Props.C108_constant_false",
    "Verif.Props.C108_view_false",
    "Verif.Props.C108_type_false"
   ],
   "note": "Proved for one operation, for the result and the other buffers, in every order of the iterations. False for arguments, constants, and views, whose buffers are also taken; the type of the elements is not compared."
  },
  {
   "property": "C109",
   "status": "partial",
   "theorems": [
    "Verif.Props.C109_history_partial",
    "Verif.Props.C109_directory",
    "Verif.Props.C109_tag",
    "Verif.Props.C109_handlers_partial",
    "Verif.Props.C109_ill_false",
    "Verif.Props.C109_abort_false",
    "Verif.Props.C109_second_false",
    "Verif.Props.C109_environment_false",
    "Verif.Props.C109_entry_false",
    "Verif.Props.C109_destroy_false",
    "Verif.Props.C109_release",
    "Verif.Props.C109_leak_false"
   ],
   "note": "Proved for all histories of admissible calls where longjmp restores the mask. False without: the handler of SIGILL is replaced by SIGABRT's, SIGABRT's stays after a signal, a second crash kills the process on Linux, a failed load leaves OM_CONSTANT_PATH set, a failing setEntryPoint loses the entry point, a default-constructed session cannot be destroyed, and a failing constructor leaks the library."
  },
  {
   "property": "C11",
   "status": "partial",
   "theorems": [
    "Verif.Props.C11_no_collision_partial",
    "Verif.Props.C11_diverges",
    "Verif.Props.C11_false",
    "Verif.Props.C11_int_false"
   ],
   "note": "False: the search never ends for dictionaries such as {a, c} or {1, 3}. Proved when no first-level bucket is shared."
  },
  {
   "property": "C110",
   "status": "partial",
   "theorems": [
    "Verif.Props.C110_signature_partial",
    "Verif.Props.C110_json",
    "Verif.Props.C110_at_false",
    "Verif.Props.C110_name_false",
    "Verif.Props.C110_type_false",
    "Verif.Props.C110_escape_false"
   ],
   "note": "Proved for all models with the twelve known element types and names without at sign, quotation marks, and words that are element types. False otherwise: an at sign in a name leaves the input signature without end of string, a word like f32 in a name is quoted, other types such as bf16 are not quoted, quotation marks are not escaped."
  },
  {
   "property": "C111",
   "status": "partial",
   "theorems": [
    "Verif.Props.C111_parse",
    "Verif.Props.C111_report_partial",
    "Verif.Props.C111_container_partial",
    "Verif.Props.C111_prefix_false",
    "Verif.Props.C111_dashes_false",
    "Verif.Props.C111_directory_false",
    "Verif.Props.C111_tag_false",
    "Verif.Props.C111_constants_false",
    "Verif.Props.C111_empty_false",
    "Verif.Props.C111_container_false"
   ],
   "note": "Proved for all flags of the usual forms. False otherwise: any flag beginning with -o is taken for -o, --o and a tag in a separate argument are not seen, names of directories are treated differently, the constants file is looked for in the current directory, in a container flags are split at spaces."
  },
  {
   "property": "C112",
   "status": "partial",
   "theorems": [
    "Verif.Props.C112_shouldOwn_partial",
    "Verif.Props.C112_cpp_partial",
    "Verif.Props.C112_cpp_failure",
    "Verif.Props.C112_python_partial",
    "Verif.Props.C112_select_false",
    "Verif.Props.C112_join_false",
    "Verif.Props.C112_views_false",
    "Verif.Props.C112_twice_false",
    "Verif.Props.C112_argument_false",
    "Verif.Props.C112_entry_false",
    "Verif.Props.C112_python_failure_false"
   ],
   "note": "Proved for all models with outputs of the simple forms and all orders. False otherwise: choices between constants and buffers and values of other code blocks leak, shared buffers are freed twice in C++, an input returned in C++ is dangling, only the first entry point is analysed, failing runs in Python leak."
  },
  {
   "property": "C113",
   "status": "partial",
   "theorems": [
    "Verif.Props.C113_shape",
    "Verif.Props.C113_cast",
    "Verif.Props.C113_concat",
    "Verif.Props.C113_gather_partial",
    "Verif.Props.C113_slice_partial",
    "Verif.Props.C113_reshape",
    "Verif.Props.C113_constant_of_shape",
    "Verif.Props.C113_any_rewrites_partial",
    "Verif.Props.C113_gather_negative_false",
    "Verif.Props.C113_gather_negative_crash_false",
    "Verif.Props.C113_gather_rank_false",
    "Verif.Props.C113_gather_empty_false",
    "Verif.Props.C113_shape_empty_false",
    "Verif.Props.C113_reshape_input_false",
    "Verif.Props.C113_constant_of_shape_input_false",
    "Verif.Props.C113_slice_unrecorded_false"
   ],
   "note": "All seven patterns keep values whenever they apply, except Gather with negative indices (the rank of the data is added, not the number of dimensions) or indices of rank above 1. The compiler crashes on empty lists of dimensions, on shapes with function arguments as entries, and on Slices of lists of unrecorded length."
  },
  {
   "property": "C114",
   "status": "partial",
   "theorems": [
    "Verif.Props.C114_names",
    "Verif.Props.C114_cse",
    "Verif.Props.C114_same_names_partial",
    "Verif.Props.C114_same_names_false"
   ],
   "note": "Uniqueness, existence, stability of existing names and termination are proved for all programs and orders. Not true that names depend only on the model: with more than 32 unnamed operations they depend on addresses. MLIR's CSE is assumed to leave operations it keeps with their attributes."
  },
  {
   "property": "C115",
   "status": "partial",
   "theorems": [
    "Verif.Props.C115_program",
    "Verif.Props.C115_calls",
    "Verif.Props.C115_init_partial",
    "Verif.Props.C115_report_partial",
    "Verif.Props.C115_report_empty",
    "Verif.Props.C115_after_false",
    "Verif.Props.C115_branch_false",
    "Verif.Props.C115_loop_false",
    "Verif.Props.C115_report_after_false",
    "Verif.Props.C115_report_before_false",
    "Verif.Props.C115_report_nested_false",
    "Verif.Props.C115_report_repeated_false",
    "Verif.Props.C115_report_long_name_false"
   ],
   "note": "The program is unchanged and the calls are in the right places, for all programs and runs. Initialisation and report are right if the first selected operation is not nested, operations do not overlap, consecutive ones differ and names are short; the other cases are false, with examples."
  },
  {
   "property": "C116",
   "status": "proved",
   "theorems": [
    "Verif.Props.C116_safe",
    "Verif.Props.C116_results",
    "Verif.Props.C116_freed",
    "Verif.Props.C116_moved"
   ],
   "note": "For programs in which every interleaving is free of errors (out of bounds, use of a buffer that does not exist, read of a cell never written) before the pass. A thread without iterations, or whose condition does not hold, allocates after the pass although it did not before."
  },
  {
   "property": "C117",
   "status": "partial",
   "theorems": [
    "Verif.Props.C117_program_partial",
    "Verif.Props.C117_order",
    "Verif.Props.C117_merged"
   ],
   "note": "On top of the analysis of C85 and with its conditions: executions that are Plain, one block. With Dim operations in different blocks the pass asks for their order in a block, which is an assertion failure; this is not modelled."
  },
  {
   "property": "C118",
   "status": "partial",
   "theorems": [
    "Verif.Props.C118_hann_blackman_partial",
    "Verif.Props.C118_hamming_partial",
    "Verif.Props.C118_hamming_false",
    "Verif.Props.C118_int64_false",
    "Verif.Props.C118_one"
   ],
   "note": "Hann and Blackman agree with ONNX up to rounding. Disagreements: Hamming uses constants of five digits where ONNX has 25/46 and 21/46, so its first value is off by a relative 1.9e-4; a periodic window whose size is int64 cannot be compiled. Integer output types are not modelled."
  },
  {
   "property": "C119",
   "status": "partial",
   "theorems": [
    "Verif.Props.C119_simple",
    "Verif.Props.C119_regex",
    "Verif.Props.C119_history",
    "Verif.Props.C119_special",
    "Verif.Props.C119_mixed_false",
    "Verif.Props.C119_inside_false"
   ],
   "note": "Full for options of simple patterns, given that std::regex_match does what it should on characters, escapes, points and stars. Disagreements with the documentation: one pattern with a point before a star changes the meaning of the stars and points of all others; NONE and ALL are found inside of names. For options with other regular expressions the library's answer is a parameter, and expressions that are not valid are excluded."
  },
  {
   "property": "C12",
   "status": "partial",
   "theorems": [
    "Verif.Props.C12_read_exact",
    "Verif.Props.C12_read_succeeds",
    "Verif.Props.C12_mmap_partial",
    "Verif.Props.C12_mmap_short_false"
   ],
   "note": "Full claim for the reading variant. The mapping variant (default on Linux) succeeds on truncated files."
  },
  {
   "property": "C120",
   "status": "partial",
   "theorems": [
    "Verif.Props.C120_uniform_partial",
    "Verif.Props.C120_below_f64_partial",
    "Verif.Props.C120_below_f32_false",
    "Verif.Props.C120_normal_partial",
    "Verif.Props.C120_seed_partial",
    "Verif.Props.C120_seed_false",
    "Verif.Props.C120_nodes_false",
    "Verif.Props.C120_count",
    "Verif.Props.C120_uniform_like_false"
   ],
   "note": "Over the real numbers except for the conversion to float32. Disagreements: RandomNormal for float64 ignores its seed; two float32 operations without seeds that are compiled in the same second return the same values; RandomUniformLike of a tensor with an unknown dimension cannot be compiled; for float32 uniform values can be equal to high. The distribution of the values is not treated."
  },
  {
   "property": "C121",
   "status": "partial",
   "theorems": [
    "Verif.Props.C121_fused_partial",
    "Verif.Props.C121_matched",
    "Verif.Props.C121_end_false"
   ],
   "note": "Full for starts and ends that need no clamping. ONNX clamps them to the rank; the lowering does not, so that an end greater than the rank makes the compiler read outside of a vector."
  },
  {
   "property": "C122",
   "status": "partial",
   "theorems": [
    "Verif.Props.C122_named",
    "Verif.Props.C122_default_partial",
    "Verif.Props.C122_default_false",
    "Verif.Props.C122_options",
    "Verif.Props.C122_missing_false",
    "Verif.Props.C122_history",
    "Verif.Props.C122_store"
   ],
   "note": "Full but for the default file when an option with its value in a separate word stands before the model: then the directory of that value is searched. A named file that does not exist is ignored, whereas the documentation says that it is an error."
  },
  {
   "property": "C123",
   "status": "partial",
   "theorems": [
    "Verif.Props.C123_arguments",
    "Verif.Props.C123_result_partial",
    "Verif.Props.C123_success",
    "Verif.Props.C123_directory",
    "Verif.Props.C123_interrupted_false"
   ],
   "note": "Full but for a signal with a handler during the wait: the wait is not repeated and a status is read that was never set."
  },
  {
   "property": "C124",
   "status": "partial",
   "theorems": [
    "Verif.Props.C124_raw_partial",
    "Verif.Props.C124_field_partial",
    "Verif.Props.C124_external_partial",
    "Verif.Props.C124_below_partial",
    "Verif.Props.C124_link_false",
    "Verif.Props.C124_size_false",
    "Verif.Props.C124_octal_false"
   ],
   "note": "Full for data whose size agrees with the shape; the size is not tested, so that longer data is written outside of the buffer. Data stays below the directory unless a directory below it is a link. Strings are not modelled."
  },
  {
   "property": "C125",
   "status": "partial",
   "theorems": [
    "Verif.Props.C125_copy_partial",
    "Verif.Props.C125_read_false",
    "Verif.Props.C125_map_false"
   ],
   "note": "Full for copies of elements. Where tiles are copied: for maps that keep a tile together, which is not tested, and rows that the tiles divide when the input has none; otherwise the input is read past its end."
  },
  {
   "property": "C126",
   "status": "partial",
   "theorems": [
    "Verif.Props.C126_stats_partial",
    "Verif.Props.C126_keys",
    "Verif.Props.C126_unranked_false",
    "Verif.Props.C126_sequence_false"
   ],
   "note": "Full for operations without operands of unknown rank and without sequences or optionals of tensors with a rank; with those the pass asserts. Keys must have characters that stand for themselves in JSON."
  },
  {
   "property": "C127",
   "status": "proved",
   "theorems": [
    "Verif.Props.C127_effects",
    "Verif.Props.C127_names",
    "Verif.Props.C127_merged"
   ],
   "note": "For blocks of operations with one result and no regions. The elimination in between is MLIR's pass, which is modelled by what it does in one block; its removal of dead operations is left out."
  },
  {
   "property": "C128",
   "status": "partial",
   "theorems": [
    "Verif.Props.C128_read_partial",
    "Verif.Props.C128_sequence_false",
    "Verif.Props.C128_empty_false"
   ],
   "note": "Full for models with at least one input whose inputs are tensors with names without quotes. Signatures with sequences, or without inputs, are refused."
  },
  {
   "property": "C129",
   "status": "partial",
   "theorems": [
    "Verif.Props.C129_shapes_partial",
    "Verif.Props.C129_invalid",
    "Verif.Props.C129_rank_false"
   ],
   "note": "Full for the sizes: the shapes are made exactly when they are the only ones that fit. The option is already split into entries and numbers. Entries with more dimensions than the input has are accepted."
  },
  {
   "property": "C13",
   "status": "partial",
   "theorems": [
    "Verif.Props.C13_histories_partial",
    "Verif.Props.C13_retry_false",
    "Verif.Props.C13_double_unload_false",
    "Verif.Props.C13_reload_false",
    "Verif.Props.C13_early_get_false"
   ],
   "note": "Safe for constructor/destructor histories without a read error in the malloc variant; false otherwise, with witnesses."
  },
  {
   "property": "C130",
   "status": "partial",
   "theorems": [
    "Verif.Props.C130_rows_partial",
    "Verif.Props.C130_empty_rows_false"
   ],
   "note": "Full when the number of ones is given or rows are not empty. With random numbers of ones and empty rows the code writes outside of the tensor. Products of dimensions do not exceed 64 bits."
  },
  {
   "property": "C131",
   "status": "partial",
   "theorems": [
    "Verif.Props.C131_strings_partial",
    "Verif.Props.C131_cut_false"
   ],
   "note": "Full for strings without the character 0. Strings with it are cut there."
  },
  {
   "property": "C132",
   "status": "partial",
   "theorems": [
    "Verif.Props.C132_range_partial",
    "Verif.Props.C132_unsigned_false"
   ],
   "note": "Full for all types except unsigned ones of 32 and 64 bits, where both bounds have to be in the same half of the range; otherwise the behaviour is undefined. Floating-point types are not modelled."
  },
  {
   "property": "C133",
   "status": "partial",
   "theorems": [
    "Verif.Props.C133_made",
    "Verif.Props.C133_null_partial",
    "Verif.Props.C133_leak_false"
   ],
   "note": "Full except for failures to allocate the list after all inputs are made, when the inputs leak."
  },
  {
   "property": "C134",
   "status": "proved",
   "theorems": [
    "Verif.Props.C134_values",
    "Verif.Props.C134_invalid"
   ],
   "note": "The option is already split into entries, words and numbers."
  },
  {
   "property": "C14",
   "status": "proved",
   "theorems": [
    "Verif.Props.C14_bf16_rounding"
   ],
   "note": "portable C code on 32-bit patterns"
  },
  {
   "property": "C15",
   "status": "proved",
   "theorems": [
    "Verif.Props.C15_bf16_widen",
    "Verif.Props.C15_bf16_round_trip",
    "Verif.Props.C15_bf16_round_trip_bits"
   ],
   "note": "all bit patterns, NaN payloads included"
  },
  {
   "property": "C16",
   "status": "proved",
   "theorems": [
    "Verif.Props.C16_f16_widen"
   ],
   "note": "portable path; float multiplication is the IEEE operation written out in the model and proved to round to nearest even"
  },
  {
   "property": "C17",
   "status": "proved",
   "theorems": [
    "Verif.Props.C17_f16_rounding",
    "Verif.Props.C17_f16_round_trip"
   ],
   "note": "portable path; same float multiplication"
  },
  {
   "property": "C18",
   "status": "proved",
   "theorems": [
    "Verif.Props.C18_dlf16_widen",
    "Verif.Props.C18_dlf16_round_trip"
   ],
   "note": "every pattern except NINF"
  },
  {
   "property": "C19",
   "status": "proved",
   "theorems": [
    "Verif.Props.C19_strided_iteration",
    "Verif.Props.C19_restride"
   ],
   "note": "Any number of operands, signed strides."
  },
  {
   "property": "C20",
   "status": "proved",
   "theorems": [
    "Verif.Props.C20_transpose",
    "Verif.Props.C20_transpose_inverse",
    "Verif.Props.C20_untranspose"
   ],
   "note": "For every constant reachable by builder operations."
  },
  {
   "property": "C21",
   "status": "partial",
   "theorems": [
    "Verif.Props.C21_reshape_partial",
    "Verif.Props.C21_reshape_contiguous",
    "Verif.Props.C21_reshape_empty_false"
   ],
   "note": "Proved for every constant with elements and for contiguous ones; false for empty constants with other strides: the code's assertion fails."
  },
  {
   "property": "C22",
   "status": "proved",
   "theorems": [
    "Verif.Props.C22_expand"
   ],
   "note": "For every constant reachable by builder operations."
  },
  {
   "property": "C23",
   "status": "proved",
   "theorems": [
    "Verif.Props.C23_combine",
    "Verif.Props.C23_where"
   ],
   "note": "Element types are left out; the wide number type is arbitrary."
  },
  {
   "property": "C24",
   "status": "partial",
   "theorems": [
    "Verif.Props.C24_split_partial",
    "Verif.Props.C24_split_empty_false",
    "Verif.Props.C24_concat",
    "Verif.Props.C24_split_concat_partial"
   ],
   "note": "Holds for axes of positive extent and any number of pieces and inputs; splitting an axis of extent zero into two or more pieces divides by zero (proved)."
  },
  {
   "property": "C25",
   "status": "proved",
   "theorems": [
    "Verif.Props.C25_slice"
   ],
   "note": "Any view, any mix of step signs, under the hypothesis that every read coordinate is an index of the axis."
  },
  {
   "property": "C26",
   "status": "proved",
   "theorems": [
    "Verif.Props.C26_pad"
   ],
   "note": "All shapes and non-negative pads, including empty inputs and rank 0."
  },
  {
   "property": "C27",
   "status": "proved",
   "theorems": [
    "Verif.Props.C27_gather"
   ],
   "note": "All shapes, axes and index tensors with entries in [-A, A)."
  },
  {
   "property": "C28",
   "status": "partial",
   "theorems": [
    "Verif.Props.C28_scatterND_partial",
    "Verif.Props.C28_negative_false",
    "Verif.Props.C28_negative_wrong_element_false"
   ],
   "note": "Proved for non-negative indices, last update wins on duplicates; false for negative indices (proved)."
  },
  {
   "property": "C29",
   "status": "proved",
   "theorems": [
    "Verif.Props.C29_tiles",
    "Verif.Props.C29_transform",
    "Verif.Props.C29_reduce",
    "Verif.Props.C29_can_finish",
    "Verif.Props.C29_parallel_eq_sequential"
   ],
   "note": "Offsets are unbounded integers; the code keeps them in int, so more than 2^31-1 elements are outside the model. Threads interleave at the level of single element loads and stores."
  },
  {
   "property": "C30",
   "status": "proved",
   "theorems": [
    "Verif.Props.C30_used_constants_readable",
    "Verif.Props.C30_create",
    "Verif.Props.C30_garbage_collect",
    "Verif.Props.C30_scrub_close",
    "Verif.Props.C30_closed_holds_nothing",
    "Verif.Props.C30_closed_stays_closed"
   ],
   "note": "Clients may edit the program arbitrarily but only with constants that are still in the pool."
  },
  {
   "property": "C31",
   "status": "proved",
   "theorems": [
    "Verif.Props.C31_never_twice",
    "Verif.Props.C31_each_once",
    "Verif.Props.C31_terminates"
   ],
   "note": "Each mutex-protected section is one step; translating one constant is one step."
  },
  {
   "property": "C32",
   "status": "partial",
   "theorems": [
    "Verif.Props.C32_slice_partial",
    "Verif.Props.C32_omitted_axes",
    "Verif.Props.C32_bad_axis_rejected",
    "Verif.Props.C32_zero_step_rejected",
    "Verif.Props.C32_empty_dim_false",
    "Verif.Props.C32_huge_dim_false"
   ],
   "note": "All ranks, axes lists, and all starts, ends and non-zero 64-bit steps, known or unknown, compile time and run time, including the lowering's load index. Excluded because false of the code: negative step on an empty dimension; dimensions of 2^31 or more."
  },
  {
   "property": "C33",
   "status": "partial",
   "theorems": [
    "Verif.Props.C33_index_expressions_partial",
    "Verif.Props.C33_compile_time_is_run_time_partial",
    "Verif.Props.C33_parameters_exist",
    "Verif.Props.C33_sub_min_false",
    "Verif.Props.C33_mod_negative_false",
    "Verif.Props.C33_clamp_empty_false",
    "Verif.Props.C33_large_division_false"
   ],
   "note": "All expression trees over add, sub, mul, floorDiv, ceilDiv, mod, clamp, select, min, max, comparisons and logic; all valuations and all partial knowledge. False of the code and therefore excluded: subtracting a min/max, mod of negatives, clamp to an empty range, division of literals beyond double. Scopes and float index expressions not modelled."
  },
  {
   "property": "C34",
   "status": "partial",
   "theorems": [
    "Verif.Props.C34_broadcast_partial",
    "Verif.Props.C34_unidirectional",
    "Verif.Props.C34_conflict_rejected",
    "Verif.Props.C34_zero_extent_false"
   ],
   "note": "Inference and generated code give the true broadcast shape. Missing: an unknown extent that is 0 at run time against an unknown 1; the code computes 1 there (C34_zero_extent_false)."
  },
  {
   "property": "C35",
   "status": "partial",
   "theorems": [
    "Verif.Props.C35_reshape_partial",
    "Verif.Props.C35_empty_false"
   ],
   "note": "Missing: requests with an extent 0 after copying, where the generated code divides by zero (C35_empty_false), and more than 2^52 elements."
  },
  {
   "property": "C36",
   "status": "partial",
   "theorems": [
    "Verif.Props.C36_divisible_partial",
    "Verif.Props.C36_known_partial",
    "Verif.Props.C36_explicit",
    "Verif.Props.C36_axis_rejected",
    "Verif.Props.C36_old_rejected",
    "Verif.Props.C36_uneven_false",
    "Verif.Props.C36_unknown_false"
   ],
   "note": "Proved for extents that divide evenly and, for known extents, that the sizes sum to the extent. The ONNX rule for uneven extents is violated by the code (C36_uneven_false, C36_unknown_false)."
  },
  {
   "property": "C37",
   "status": "partial",
   "theorems": [
    "Verif.Props.C37_concat_partial",
    "Verif.Props.C37_all_empty_false"
   ],
   "note": "Missing: all operands known to be [0], for which the code infers a scalar (C37_all_empty_false)."
  },
  {
   "property": "C38",
   "status": "partial",
   "theorems": [
    "Verif.Props.C38_roundtrip",
    "Verif.Props.C38_unsqueeze_accepts",
    "Verif.Props.C38_squeeze_accepts",
    "Verif.Props.C38_squeeze_unsqueeze",
    "Verif.Props.C38_squeeze_omitted",
    "Verif.Props.C38_squeeze_false"
   ],
   "note": "The round trips and the exact sets of accepted axes are proved. Squeeze accepts duplicates and axes whose extent is not 1 (C38_squeeze_false)."
  },
  {
   "property": "C39",
   "status": "partial",
   "theorems": [
    "Verif.Props.C39_scales_partial",
    "Verif.Props.C39_sizes_partial",
    "Verif.Props.C39_constant",
    "Verif.Props.C39_identity",
    "Verif.Props.C39_rank3_false",
    "Verif.Props.C39_rank5_false"
   ],
   "note": "Proved for rank 4 against kernel interpolation. The code fixes the number of dimensions to 4, so other ranks are wrong (C39_rank3_false, C39_rank5_false)."
  },
  {
   "property": "C40",
   "status": "partial",
   "theorems": [
    "Verif.Props.C40_axis",
    "Verif.Props.C40_get_partial",
    "Verif.Props.C40_release_false"
   ],
   "note": "isAxisInRange is proved fully; getAxisInRange normalises inside an assertion, so in a build without assertions it does not (C40_release_false)."
  },
  {
   "property": "C41",
   "status": "partial",
   "theorems": [
    "Verif.Props.C41_cpp_offset_partial",
    "Verif.Props.C41_false"
   ],
   "note": "The full statement is false of the code: the accumulator is a 32-bit int. Proved for offsets below 2^31."
  },
  {
   "property": "C42",
   "status": "proved",
   "theorems": [
    "Verif.Props.C42_pack_read_back",
    "Verif.Props.C42_pack_disjoint",
    "Verif.Props.C42_pack_then_load"
   ],
   "note": "Bytes of each constant are given; the file system writes what it is asked to."
  },
  {
   "property": "C43",
   "status": "partial",
   "theorems": [
    "Verif.Props.C43_dlf16_rounding_partial",
    "Verif.Props.C43_dlf16_rounding_false"
   ],
   "note": "false for magnitudes between half the smallest number and 2^-31(1+2^-10), which are flushed to zero; proved elsewhere"
  },
  {
   "property": "C44",
   "status": "proved",
   "theorems": [
    "Verif.Props.C44_random_access",
    "Verif.Props.C44_splat",
    "Verif.Props.C44_transform"
   ],
   "note": ""
  },
  {
   "property": "C45",
   "status": "proved",
   "theorems": [
    "Verif.Props.C45_broadcast_access"
   ],
   "note": ""
  },
  {
   "property": "C46",
   "status": "proved",
   "theorems": [
    "Verif.Props.C46_collapse"
   ],
   "note": ""
  },
  {
   "property": "C47",
   "status": "partial",
   "theorems": [
    "Verif.Props.C47_nearest_partial",
    "Verif.Props.C47_round_false"
   ],
   "note": "Missing: round_prefer_floor for fractions between 0.5 and 0.500001, where the code rounds the wrong way (C47_round_false)."
  },
  {
   "property": "C48",
   "status": "proved",
   "theorems": [
    "Verif.Props.C48_reduce"
   ],
   "note": "The parallel path is C29."
  },
  {
   "property": "C49",
   "status": "proved",
   "theorems": [
    "Verif.Props.C49_matMul"
   ],
   "note": "For every addition and multiplication; the batch shape is any shape both operands broadcast to."
  },
  {
   "property": "C50",
   "status": "partial",
   "theorems": [
    "Verif.Props.C50_equal",
    "Verif.Props.C50_allEqual_partial",
    "Verif.Props.C50_allEqual_empty_false"
   ],
   "note": "Missing: constants without elements; C50_allEqual_empty_false shows that the claim is false there."
  },
  {
   "property": "C51",
   "status": "partial",
   "theorems": [
    "Verif.Props.C51_float_to_int",
    "Verif.Props.C51_unique",
    "Verif.Props.C51_special",
    "Verif.Props.C51_bool",
    "Verif.Props.C51_saturate",
    "Verif.Props.C51_int_partial",
    "Verif.Props.C51_int_chain_false"
   ],
   "note": "Missing: chains of integer casts, where C51_int_chain_false shows that the claim is false."
  },
  {
   "property": "C52",
   "status": "partial",
   "theorems": [
    "Verif.Props.C52_range",
    "Verif.Props.C52_range_int",
    "Verif.Props.C52_nonZero_partial",
    "Verif.Props.C52_rank0_false"
   ],
   "note": "Missing: rank 0, where the code divides by zero."
  },
  {
   "property": "C53",
   "status": "proved",
   "theorems": [
    "Verif.Props.C53_schedule_visits_once",
    "Verif.Props.C53_schedules_permute",
    "Verif.Props.C53_commuting_body_schedule_independent",
    "Verif.Props.C53_block_keeps_order",
    "Verif.Props.C53_block_same_execution",
    "Verif.Props.C53_tiles_partition",
    "Verif.Props.C53_recreated_loop_false"
   ],
   "note": "Block, permute and iterate. C53_recreated_loop_false shows that the recreation of loops for a nested iterate with carried values would repeat iterations if such a loop had been blocked twice; no lowering in the repository builds such a nest."
  },
  {
   "property": "C54",
   "status": "proved",
   "theorems": [
    "Verif.Props.C54_matmul_tile",
    "Verif.Props.C54_multi_reduction"
   ],
   "note": "Over any semiring, so exact arithmetic: rounding and overflow are not modelled. Overcompute mode (never requested by the lowerings) is not modelled."
  },
  {
   "property": "C55",
   "status": "partial",
   "theorems": [
    "Verif.Props.C55_matmul_tiled",
    "Verif.Props.C55_matmul_batched",
    "Verif.Props.C55_matmul_generic_partial",
    "Verif.Props.C55_matmul_empty_false",
    "Verif.Props.C55_generic_broadcast_false",
    "Verif.Props.C55_update_vector_false"
   ],
   "note": "Proved for the tiled and batched lowerings and for the generic lowering of operands of rank at least 2 without explicit unit-dimension broadcasting; the remaining cases are false: see the _false theorems. Rank 1 operands of the generic lowering are modelled, their values are not proved."
  },
  {
   "property": "C56",
   "status": "proved",
   "theorems": [
    "Verif.Props.C56_gemm_tiled",
    "Verif.Props.C56_gemm_generic",
    "Verif.Props.C56_gemm_schedules",
    "Verif.Props.C56_gemm_shape",
    "Verif.Props.C56_gemm_shape_complete"
   ],
   "note": "Exact arithmetic over any commutative semiring; both algorithms, with the loop schedules as executed, and the shape inference."
  },
  {
   "property": "C57",
   "status": "partial",
   "theorems": [
    "Verif.Props.C57_simd_loop",
    "Verif.Props.C57_simd_only",
    "Verif.Props.C57_output_padding",
    "Verif.Props.C57_flat_elementwise_partial",
    "Verif.Props.C57_overcompute_false"
   ],
   "note": "The loops and the choice of the vector length are proved. The full property fails for operands that are not padded when computing past the end is allowed: C57_overcompute_false."
  },
  {
   "property": "C58",
   "status": "partial",
   "theorems": [
    "Verif.Props.C58_axes",
    "Verif.Props.C58_scalar",
    "Verif.Props.C58_dynamic_axes",
    "Verif.Props.C58_horizontal",
    "Verif.Props.C58_shuffle",
    "Verif.Props.C58_full",
    "Verif.Props.C58_full_parallel_partial",
    "Verif.Props.C58_parallel_literal",
    "Verif.Props.C58_full_parallel_false",
    "Verif.Props.C58_absmax_parallel_false",
    "Verif.Props.C58_noop_false",
    "Verif.Props.C58_empty_axes_false",
    "Verif.Props.C58_mean_empty_false"
   ],
   "note": "All code paths are proved. False as stated: the parallel reduction of a tensor of run-time size can count elements twice or use an empty block (proved for sizes where every block starts inside the tensor, which includes every literal size for which the compiler chooses it); noop_with_empty_axes and repeated axes are ignored when the whole tensor is reduced with SIMD; an axes tensor of size 0 makes the scalar code write outside of the result; the mean with an empty result divides by zero."
  },
  {
   "property": "C59",
   "status": "partial",
   "theorems": [
    "Verif.Props.C59_gather",
    "Verif.Props.C59_gather_safe",
    "Verif.Props.C59_gather_safe_empty_false",
    "Verif.Props.C59_gather_elements",
    "Verif.Props.C59_gather_elements_safe",
    "Verif.Props.C59_gather_nd_partial",
    "Verif.Props.C59_gather_nd_negative_false"
   ],
   "note": "Gather and GatherElements in full; GatherND for non-negative indices, negative ones are read out of bounds (counterexample proved); safe code with an empty axis reads index -1 (counterexample proved)"
  },
  {
   "property": "C60",
   "status": "partial",
   "theorems": [
    "Verif.Props.C60_scatter_elements_partial",
    "Verif.Props.C60_reduction_false",
    "Verif.Props.C60_scatter_nd_partial",
    "Verif.Props.C60_scatter_nd_false",
    "Verif.Props.C60_scatter_nd_bounds_false",
    "Verif.Props.C60_scatter_nd_negative_false",
    "Verif.Props.C60_one_hot"
   ],
   "note": "OneHot in full; ScatterElements without reduction; ScatterND without reduction, for non-negative indices and indices.shape[-1] = rank(indices)-1, the other cases are wrong in the code (counterexamples proved)"
  },
  {
   "property": "C61",
   "status": "proved",
   "theorems": [
    "Verif.Props.C61_concat",
    "Verif.Props.C61_split",
    "Verif.Props.C61_split_overflow_false",
    "Verif.Props.C61_split_concat",
    "Verif.Props.C61_slice",
    "Verif.Props.C61_tile",
    "Verif.Props.C61_transpose",
    "Verif.Props.C61_reverse_sequence",
    "Verif.Props.C61_reverse_sequence_length_false"
   ],
   "note": "every element of the output for all shapes; the two _false theorems show that the hypotheses on split sizes and sequence lengths, which the code does not check, are needed"
  },
  {
   "property": "C62",
   "status": "partial",
   "theorems": [
    "Verif.Props.C62_constant_partial",
    "Verif.Props.C62_negative_false",
    "Verif.Props.C62_edge",
    "Verif.Props.C62_reflect_partial",
    "Verif.Props.C62_reflect_far_false",
    "Verif.Props.C62_wrap_false"
   ],
   "note": "edge mode fully; constant mode for amounts that are not negative; reflect mode for amounts below the dimension; negative constant padding, far reflection and wrap mode are refuted"
  },
  {
   "property": "C63",
   "status": "partial",
   "theorems": [
    "Verif.Props.C63_depth_to_space",
    "Verif.Props.C63_space_to_depth_partial",
    "Verif.Props.C63_space_to_depth_false",
    "Verif.Props.C63_roundtrip"
   ],
   "note": "DepthToSpace fully; SpaceToDepth follows ONNX for one channel only, refuted for two channels"
  },
  {
   "property": "C64",
   "status": "partial",
   "theorems": [
    "Verif.Props.C64_argmax",
    "Verif.Props.C64_argmin",
    "Verif.Props.C64_last_false",
    "Verif.Props.C64_unsigned_false",
    "Verif.Props.C64_hardmax"
   ],
   "note": "Proved for totally ordered elements without select_last_index. Two disagreements: select_last_index is ignored, unsigned elements are compared as signed."
  },
  {
   "property": "C65",
   "status": "partial",
   "theorems": [
    "Verif.Props.C65_cumsum_partial",
    "Verif.Props.C65_static_one_false"
   ],
   "note": "Missing: a dimension known to be 1 at compile time leaves the output unwritten (proved). Floating-point rounding not modelled."
  },
  {
   "property": "C66",
   "status": "partial",
   "theorems": [
    "Verif.Props.C66_nonzero_partial",
    "Verif.Props.C66_vector",
    "Verif.Props.C66_false"
   ],
   "note": "Exact for vectors and for the first row; the full property is false for matrices (proved)."
  },
  {
   "property": "C67",
   "status": "proved",
   "theorems": [
    "Verif.Props.C67_flat",
    "Verif.Props.C67_axis"
   ],
   "note": "Conditions no longer than the data, as ONNX requires; rank at least 1 without an axis."
  },
  {
   "property": "C68",
   "status": "partial",
   "theorems": [
    "Verif.Props.C68_trilu",
    "Verif.Props.C68_range_partial",
    "Verif.Props.C68_range_defined",
    "Verif.Props.C68_range_empty_false",
    "Verif.Props.C68_flatten",
    "Verif.Props.C68_flatten_onto",
    "Verif.Props.C68_size"
   ],
   "note": "Range: the empty range with run-time operands allocates a negative size (proved); integers are unbounded, float ranges not modelled."
  },
  {
   "property": "C69",
   "status": "proved",
   "theorems": [
    "Verif.Props.C69_conv",
    "Verif.Props.C69_channels"
   ],
   "note": "exact arithmetic in any semiring; the loop nest of convUnoptimized"
  },
  {
   "property": "C70",
   "status": "proved",
   "theorems": [
    "Verif.Props.C70_explicit",
    "Verif.Props.C70_ceil",
    "Verif.Props.C70_nonempty",
    "Verif.Props.C70_negative_false",
    "Verif.Props.C70_same",
    "Verif.Props.C70_same_explicit"
   ],
   "note": "a kernel larger than the padded input gives a negative dimension (C70_negative_false)"
  },
  {
   "property": "C71",
   "status": "partial",
   "theorems": [
    "Verif.Props.C71_maxpool_partial",
    "Verif.Props.C71_averagepool_partial",
    "Verif.Props.C71_averagepool_pad_partial",
    "Verif.Props.C71_pad_count",
    "Verif.Props.C71_pad_count_ceil_false",
    "Verif.Props.C71_dilation3_false",
    "Verif.Props.C71_misaligned_false",
    "Verif.Props.C71_mixed_false",
    "Verif.Props.C71_ceil_bounds_false"
   ],
   "note": "proved without dilation for all parameters, and for the dilated cases where the generated loops are right; the other dilated cases are disproved, and count_include_pad in ceil mode counts positions past the padding"
  },
  {
   "property": "C72",
   "status": "partial",
   "theorems": [
    "Verif.Props.C72_counted_partial",
    "Verif.Props.C72_while_partial",
    "Verif.Props.C72_trip_const",
    "Verif.Props.C72_trip_dyn_partial",
    "Verif.Props.C72_overwrite_false",
    "Verif.Props.C72_rows_false",
    "Verif.Props.C72_while_zero_false",
    "Verif.Props.C72_trip_dyn_false",
    "Verif.Props.C72_trip_f32_false"
   ],
   "note": "Both lowerings agree with ONNX when no loop-carried value is an argument overwritten before its copy; the while form needs one iteration. Missing: the claim is false otherwise (see the _false theorems); scan outputs of the while form are not modelled. The constant trip count rewrite is proved in full; the dynamic one is false for empty ranges and large counts."
  },
  {
   "property": "C73",
   "status": "partial",
   "theorems": [
    "Verif.Props.C73_scan_partial",
    "Verif.Props.C73_output_false"
   ],
   "note": "Proved when no state is an argument overwritten before its copy and no scan output is an argument; false otherwise."
  },
  {
   "property": "C74",
   "status": "partial",
   "theorems": [
    "Verif.Props.C74_at",
    "Verif.Props.C74_length",
    "Verif.Props.C74_insert_partial",
    "Verif.Props.C74_insert_false",
    "Verif.Props.C74_erase_partial",
    "Verif.Props.C74_erase_false"
   ],
   "note": "At and Length proved. Insert is right only for the empty sequence, Erase only for the first element; both proved wrong for every other case."
  },
  {
   "property": "C75",
   "status": "partial",
   "theorems": [
    "Verif.Props.C75_nms_partial",
    "Verif.Props.C75_overlap_test",
    "Verif.Props.C75_default_threshold_false"
   ],
   "note": "Proved for all inputs on which the overlap test agrees with ONNX's; C75_overlap_test says when it does. Missing: the test is >= instead of > and adds a constant to the divisor, so the claim is false for the default threshold 0. Rounding is left out."
  },
  {
   "property": "C76",
   "status": "proved",
   "theorems": [
    "Verif.Props.C76_softmax",
    "Verif.Props.C76_softmax11",
    "Verif.Props.C76_distribution",
    "Verif.Props.C76_masked_line_undefined"
   ],
   "note": "Real arithmetic; parallel execution of the outer loops is not modelled."
  },
  {
   "property": "C77",
   "status": "partial",
   "theorems": [
    "Verif.Props.C77_batchnorm",
    "Verif.Props.C77_instancenorm_partial",
    "Verif.Props.C77_lrn",
    "Verif.Props.C77_mvn_partial",
    "Verif.Props.C77_mvn_constant_false",
    "Verif.Props.C77_mvn_negative_axis_false",
    "Verif.Props.C77_lpnorm_1",
    "Verif.Props.C77_lpnorm_2"
   ],
   "note": "Full statement proved for BatchNormalization, LRN and LpNormalization. InstanceNormalization: spatial dimensions of positive size only. MeanVarianceNormalization: false on constant slices and negative axes, proved otherwise."
  },
  {
   "property": "C78",
   "status": "partial",
   "theorems": [
    "Verif.Props.C78_layernorm",
    "Verif.Props.C78_rmsnorm",
    "Verif.Props.C78_outputs_shapes",
    "Verif.Props.C78_rms_invstddev_false"
   ],
   "note": "Proved in full for the SIMD code on rows of positive length; allocation of the optional output of RMSLayerNormalization is wrong (negation proved). The generic code without SIMD is not modelled."
  },
  {
   "property": "C79",
   "status": "partial",
   "theorems": [
    "Verif.Props.C79_rnn",
    "Verif.Props.C79_lstm",
    "Verif.Props.C79_gru",
    "Verif.Props.C79_rnn_seqlens",
    "Verif.Props.C79_lstm_seqlens_false",
    "Verif.Props.C79_activations",
    "Verif.Props.C79_layout",
    "Verif.Props.C79_gru_layout1",
    "Verif.Props.C79_drop_seqlens_false",
    "Verif.Props.C79_drop_seqlens_partial"
   ],
   "note": "Proved without sequence_lens for RNN, LSTM and GRU and with them for GRU. RNN refuses them, LSTM ignores them and a rewrite drops them for a batch of one: both are wrong for shorter sequences (_false theorems). Rounding, clip and input_forget are not modelled (the lowerings ignore clip and input_forget)."
  },
  {
   "property": "C80",
   "status": "partial",
   "theorems": [
    "Verif.Props.C80_sorted",
    "Verif.Props.C80_complete",
    "Verif.Props.C80_smallest",
    "Verif.Props.C80_identity",
    "Verif.Props.C80_check_sound",
    "Verif.Props.C80_check_complete",
    "Verif.Props.C80_import",
    "Verif.Props.C80_import_complete",
    "Verif.Props.C80_check_false",
    "Verif.Props.C80_captures_false"
   ],
   "note": "Proved for the inputs of the nodes of the main graph. The sort does not see values used inside subgraphs and can put a node with subgraphs before the producer of such a value (C80_captures_false)."
  },
  {
   "property": "C81",
   "status": "partial",
   "theorems": [
    "Verif.Props.C81_import",
    "Verif.Props.C81_total",
    "Verif.Props.C81_import_total",
    "Verif.Props.C81_undefined_false",
    "Verif.Props.C81_shadow_false",
    "Verif.Props.C81_call_outputs_false",
    "Verif.Props.C81_call_shift_false",
    "Verif.Props.C81_call_fewer_false"
   ],
   "note": "Equal results proved for all graphs that import; success proved for graphs without function calls. Calls that leave out outputs or functions that do not compute all outputs are wrong (C81_call_*_false). Types, attributes and the handlers with special treatment (Cast, MaxPool, Dropout, Pad, Slice, CategoryMapper, custom operations) are not modelled."
  },
  {
   "property": "C82",
   "status": "partial",
   "theorems": [
    "Verif.Props.C82_version",
    "Verif.Props.C82_handler",
    "Verif.Props.C82_onto",
    "Verif.Props.C82_domain_false",
    "Verif.Props.C82_logsoftmax_false"
   ],
   "note": "Proved for the whole table, for models that import the opset under the name of the domain used by the nodes. Two versions of an operation that differ in meaning may share one version of the dialect (C82_logsoftmax_false)."
  },
  {
   "property": "C83",
   "status": "partial",
   "theorems": [
    "Verif.Props.C83_shape",
    "Verif.Props.C83_rank",
    "Verif.Props.C83_force",
    "Verif.Props.C83_names",
    "Verif.Props.C83_input_names",
    "Verif.Props.C83_output_names_partial",
    "Verif.Props.C83_dims",
    "Verif.Props.C83_output_names_false",
    "Verif.Props.C83_wide_false",
    "Verif.Props.C83_no_colon_false",
    "Verif.Props.C83_garbage_false",
    "Verif.Props.C83_comma_false"
   ],
   "note": "Proved for all documented values of the options. Names of output dimensions are attached to the wrong output when an earlier output has none (C83_output_names_false); dimensions above 2^31 are cut (C83_wide_false)."
  },
  {
   "property": "C84",
   "status": "partial",
   "theorems": [
    "Verif.Props.C84_verify",
    "Verif.Props.C84_emit",
    "Verif.Props.C84_string_false",
    "Verif.Props.C84_bound_input_false"
   ],
   "note": "Proved for all signatures, bounds and inputs; the element type of inputs of strings is not checked (C84_string_false). Strides are not part of the checks. The JSON text of the signature is not modelled."
  },
  {
   "property": "C85",
   "status": "partial",
   "theorems": [
    "Verif.Props.C85_same_dim_partial",
    "Verif.Props.C85_same_shape_partial",
    "Verif.Props.C85_broadcast_last_partial",
    "Verif.Props.C85_same_dyn_shape_partial",
    "Verif.Props.C85_offset_partial",
    "Verif.Props.C85_same_with_offset_partial",
    "Verif.Props.C85_index_partial",
    "Verif.Props.C85_three_operands_false",
    "Verif.Props.C85_rank_false",
    "Verif.Props.C85_expand_false",
    "Verif.Props.C85_expand_offset_false",
    "Verif.Props.C85_reshape_false",
    "Verif.Props.C85_empty_false",
    "Verif.Props.C85_sequence_lens_false",
    "Verif.Props.C85_add_constant_false",
    "Verif.Props.C85_cast_false",
    "Verif.Props.C85_index_false"
   ],
   "note": "Proved for all functions and executions under the conditions of Plain; for the cases left out the analysis is wrong (the _false theorems). What the shape helpers find is a hypothesis (Executes.helper)."
  },
  {
   "property": "C86",
   "status": "partial",
   "theorems": [
    "Verif.Props.C86_sets_end",
    "Verif.Props.C86_ends_partial",
    "Verif.Props.C86_steps",
    "Verif.Props.C86_dim_false",
    "Verif.Props.C86_cast_false"
   ],
   "note": "The first loop ends for every function. The second one does not for two functions (C86_dim_false, C86_cast_false); it ends if no Cast gives a static dimension and no first dimension is read of a tensor with a static dimension of 1."
  },
  {
   "property": "C87",
   "status": "partial",
   "theorems": [
    "Verif.Props.C87_fuse_transpose",
    "Verif.Props.C87_remove_identity_transpose",
    "Verif.Props.C87_negative_perm",
    "Verif.Props.C87_swap_transpose_concat",
    "Verif.Props.C87_fuse_transpose_unary_partial",
    "Verif.Props.C87_fuse_transpose_cast_partial",
    "Verif.Props.C87_squeeze_unsqueeze_partial",
    "Verif.Props.C87_unsqueeze_squeeze_partial",
    "Verif.Props.C87_fuse_reshape_allowzero",
    "Verif.Props.C87_fuse_reshape_partial",
    "Verif.Props.C87_identity_reshape_partial",
    "Verif.Props.C87_reshape_allowzero_partial",
    "Verif.Props.C87_any_rewrites_partial",
    "Verif.Props.C87_fuse_transpose_isnan_false",
    "Verif.Props.C87_fuse_transpose_cast_false",
    "Verif.Props.C87_fuse_transpose_null_false",
    "Verif.Props.C87_squeeze_unsqueeze_false",
    "Verif.Props.C87_unsqueeze_squeeze_false",
    "Verif.Props.C87_fuse_reshape_false",
    "Verif.Props.C87_identity_reshape_false",
    "Verif.Props.C87_reshape_allowzero_false"
   ],
   "note": "Some patterns are sound without conditions; the others are sound under a stated condition and wrong outside it (the _false theorems)."
  },
  {
   "property": "C88",
   "status": "partial",
   "theorems": [
    "Verif.Props.C88_identity",
    "Verif.Props.C88_cast",
    "Verif.Props.C88_cast_concat_partial",
    "Verif.Props.C88_cast_slice",
    "Verif.Props.C88_identity_tile",
    "Verif.Props.C88_pull_through_split",
    "Verif.Props.C88_nested_concat",
    "Verif.Props.C88_concat_zero_partial",
    "Verif.Props.C88_concat_empty_partial",
    "Verif.Props.C88_slice_concat",
    "Verif.Props.C88_dim_constant",
    "Verif.Props.C88_dim_reshape_partial",
    "Verif.Props.C88_dim_transpose",
    "Verif.Props.C88_shape_size_constant",
    "Verif.Props.C88_where_false_partial",
    "Verif.Props.C88_where_equal_partial",
    "Verif.Props.C88_expand_binary",
    "Verif.Props.C88_reshape_binary_partial",
    "Verif.Props.C88_unsqueeze_expand_partial",
    "Verif.Props.C88_slice_expand_partial",
    "Verif.Props.C88_any_rewrites_partial",
    "Verif.Props.C88_cast_concat_false",
    "Verif.Props.C88_concat_zero_false",
    "Verif.Props.C88_concat_zero_crash_false",
    "Verif.Props.C88_concat_zero_axis_false",
    "Verif.Props.C88_concat_empty_false",
    "Verif.Props.C88_dim_reshape_false",
    "Verif.Props.C88_dim_transpose_null_false",
    "Verif.Props.C88_where_false_false",
    "Verif.Props.C88_where_equal_false",
    "Verif.Props.C88_where_equal_zero_false",
    "Verif.Props.C88_where_equal_short_false",
    "Verif.Props.C88_reshape_binary_false",
    "Verif.Props.C88_unsqueeze_expand_false",
    "Verif.Props.C88_slice_expand_false"
   ],
   "note": "Some patterns are sound without conditions; the others are sound under a stated condition and wrong outside it (the _false theorems)."
  },
  {
   "property": "C89",
   "status": "partial",
   "theorems": [
    "Verif.Props.C89_gemm_partial",
    "Verif.Props.C89_gemm_add_partial",
    "Verif.Props.C89_commute",
    "Verif.Props.C89_conv_add_partial",
    "Verif.Props.C89_conv_add_bias_partial",
    "Verif.Props.C89_conv_mul",
    "Verif.Props.C89_matmul_scale_partial",
    "Verif.Props.C89_matmul_div_partial",
    "Verif.Props.C89_batchnorm_partial",
    "Verif.Props.C89_conv_batchnorm_partial",
    "Verif.Props.C89_clips_partial",
    "Verif.Props.C89_less_cast_partial",
    "Verif.Props.C89_pow_partial",
    "Verif.Props.C89_relu_maxpool",
    "Verif.Props.C89_reshape_matmul_partial",
    "Verif.Props.C89_layernorm_bias_partial",
    "Verif.Props.C89_instancenorm",
    "Verif.Props.C89_groupnorm_partial",
    "Verif.Props.C89_any_rewrites_partial",
    "Verif.Props.C89_gemm_false",
    "Verif.Props.C89_gemm_add_false",
    "Verif.Props.C89_conv_add_false",
    "Verif.Props.C89_conv_add_bias_false",
    "Verif.Props.C89_matmul_scale_false",
    "Verif.Props.C89_matmul_div_false",
    "Verif.Props.C89_batchnorm_types_false",
    "Verif.Props.C89_conv_batchnorm_false",
    "Verif.Props.C89_clips_false",
    "Verif.Props.C89_less_cast_false",
    "Verif.Props.C89_pow_false",
    "Verif.Props.C89_pow_zero_false",
    "Verif.Props.C89_reshape_matmul_false",
    "Verif.Props.C89_reshape_matmul_empty_false",
    "Verif.Props.C89_layernorm_bias_false",
    "Verif.Props.C89_groupnorm_false"
   ],
   "note": "Some patterns are sound without conditions; the others are sound under a stated condition and wrong outside it (the _false theorems). The laws of arithmetic are hypotheses: rounding of floating point is not modelled."
  },
  {
   "property": "C90",
   "status": "partial",
   "theorems": [
    "Verif.Props.C90_trip_count_partial",
    "Verif.Props.C90_constant_trip_count_partial",
    "Verif.Props.C90_constant_bounds_checked",
    "Verif.Props.C90_no_crash_partial",
    "Verif.Props.C90_start_at_bound_false",
    "Verif.Props.C90_falling_counter_false",
    "Verif.Props.C90_large_range_false",
    "Verif.Props.C90_overflow_false",
    "Verif.Props.C90_shared_trip_count_false",
    "Verif.Props.C90_outer_argument_false",
    "Verif.Props.C90_crash_false"
   ],
   "note": "Sound when the counter grows, begins below the bound and does not overflow, the range has at most 24 bits (53 for constants), and the trip count is used for nothing else; wrong or crashing otherwise (the _false theorems)."
  },
  {
   "property": "C91",
   "status": "partial",
   "theorems": [
    "Verif.Props.C91_layout",
    "Verif.Props.C91_seqlens_partial",
    "Verif.Props.C91_batch_one_partial",
    "Verif.Props.C91_seqlens_false",
    "Verif.Props.C91_seqlens_layout_false"
   ],
   "note": "The change of layout is right; giving up sequence_lens is right only for full sequences, and the test of the batch size only in layout 0."
  },
  {
   "property": "C92",
   "status": "partial",
   "theorems": [
    "Verif.Props.C92_conv_transpose_partial",
    "Verif.Props.C92_store_outside",
    "Verif.Props.C92_store_outside_false",
    "Verif.Props.C92_output_shape_false",
    "Verif.Props.C92_same_extent_false",
    "Verif.Props.C92_negative_total_false",
    "Verif.Props.C92_inferred_shape",
    "Verif.Props.C92_upsample_partial"
   ],
   "note": "Right when no padding at the beginning exceeds (k-1)*d and the paddings crop nothing beyond the kernel; otherwise stores leave the buffer. Odd paddings with output_shape, and SAME with a kernel shorter than the stride, are wrong."
  },
  {
   "property": "C93",
   "status": "partial",
   "theorems": [
    "Verif.Props.C93_im2col_conv_partial",
    "Verif.Props.C93_conv_1x1_partial",
    "Verif.Props.C93_im2col_partial",
    "Verif.Props.C93_empty_false"
   ],
   "note": "Proved for tensors without extents 0, in any arithmetic with commutative products; with an empty image the replacement fails."
  },
  {
   "property": "C94",
   "status": "proved",
   "theorems": [
    "Verif.Props.C94_einsum"
   ],
   "note": "Elements are those of a commutative ring; rounding and the order of additions are not modelled."
  },
  {
   "property": "C95",
   "status": "proved",
   "theorems": [
    "Verif.Props.C95_syntax",
    "Verif.Props.C95_signature",
    "Verif.Props.C95_types",
    "Verif.Props.C95_einsum"
   ],
   "note": "std::regex is modelled by the meaning of regular expressions. Ellipses of more than ten axes are rejected by the code."
  },
  {
   "property": "C96",
   "status": "partial",
   "theorems": [
    "Verif.Props.C96_same_partial",
    "Verif.Props.C96_ends",
    "Verif.Props.C96_gone",
    "Verif.Props.C96_left",
    "Verif.Props.C96_sum",
    "Verif.Props.C96_squeeze_false",
    "Verif.Props.C96_integers_false",
    "Verif.Props.C96_hardswish_type_false",
    "Verif.Props.C96_hardswish_rank_false",
    "Verif.Props.C96_clip_false",
    "Verif.Props.C96_empty_false"
   ],
   "note": "Over the real numbers. The same value and type are proved under the conditions Safe, which the patterns do not check; each is shown to be needed by a counterexample. An empty list in an attribute is read beyond its end."
  },
  {
   "property": "C97",
   "status": "partial",
   "theorems": [
    "Verif.Props.C97_same_partial",
    "Verif.Props.C97_no_crash_partial",
    "Verif.Props.C97_search",
    "Verif.Props.C97_order_false",
    "Verif.Props.C97_operands_false",
    "Verif.Props.C97_group_false",
    "Verif.Props.C97_role_false",
    "Verif.Props.C97_twice_false"
   ],
   "note": "Proved for one group, a common input that is no convolution's weights or bias, and a Concat whose operands are exactly the convolutions in the order of the list of users; without these the pattern is wrong (counterexamples). The test whether convolutions depend on each other is exact."
  },
  {
   "property": "C98",
   "status": "partial",
   "theorems": [
    "Verif.Props.C98_norm_partial",
    "Verif.Props.C98_gelu_partial",
    "Verif.Props.C98_gelu_error",
    "Verif.Props.C98_pass_partial",
    "Verif.Props.C98_layerNorm_recognised",
    "Verif.Props.C98_rmsNorm_recognised",
    "Verif.Props.C98_gelu_recognised",
    "Verif.Props.C98_gelu_tanh_recognised",
    "Verif.Props.C98_no_crash_partial",
    "Verif.Props.C98_epsilon_false",
    "Verif.Props.C98_scale_false",
    "Verif.Props.C98_gelu_shape_false",
    "Verif.Props.C98_crash_false"
   ],
   "note": "Over the real numbers. Proved for the default epsilon or one given by value_float, and operands that do not enlarge the result; without these the replacement is wrong, and it can abort (counterexamples). The error of Gelu's rounded constants is bounded for every input."
  },
  {
   "property": "C99",
   "status": "partial",
   "theorems": [
    "Verif.Props.C99_value_partial",
    "Verif.Props.C99_terminates",
    "Verif.Props.C99_one_constant",
    "Verif.Props.C99_matmul_integers",
    "Verif.Props.C99_unranked_false",
    "Verif.Props.C99_rounding_false"
   ],
   "note": "Over every commutative ring (so exactly for integers, which wrap around). Floating-point sums are reassociated, which changes their rounding, and zeros or ones that enlarge a value of unknown rank are dropped (counterexamples). Termination holds for every order and all side information."
  }
 ]
}

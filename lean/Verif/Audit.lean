import Verif.Props.Tensor
import Verif.Props.Ownership
import Verif.Props.Sort
import Verif.Props.Unique
import Verif.Props.Hash
import Verif.Props.Const
import Verif.Props.Float
import Verif.Props.Elems
import Verif.Props.ElemsOps
import Verif.Props.ElemsReduce
import Verif.Props.Par
import Verif.Props.Pool
import Verif.Props.IndexExpr
import Verif.Props.Slice
import Verif.Props.Broadcast
import Verif.Props.Reshape
import Verif.Props.Parts
import Verif.Props.Resize
import Verif.Props.Krnl
import Verif.Props.Gemm
import Verif.Props.Simd
import Verif.Props.Reduce
import Verif.Props.Gather
import Verif.Props.Move
import Verif.Props.Arg
import Verif.Props.Select
import Verif.Props.Conv
import Verif.Props.Loop
import Verif.Props.Nms
import Verif.Props.Softmax
import Verif.Props.Norm
import Verif.Props.LayerNorm
import Verif.Props.Rnn
import Verif.Props.ImportSort
import Verif.Props.Import
import Verif.Props.ImportVersion
import Verif.Props.InputShape
import Verif.Props.EntryPoint
import Verif.Props.DimAnalysis
import Verif.Props.DimAnalysisWrong
import Verif.Props.DimAnalysisEnds
import Verif.Props.RewriteShape
import Verif.Props.RewriteShapeWrong
import Verif.Props.RewriteConcat
import Verif.Props.RewriteConcatWrong
import Verif.Props.RewriteArith
import Verif.Props.RewriteArithWrong
import Verif.Props.LoopTrip
import Verif.Props.LoopTripWrong
import Verif.Props.RnnRewrite
import Verif.Props.ConvTranspose
import Verif.Props.ConvMatMul
import Verif.Props.Einsum
import Verif.Props.EinsumEquation
import Verif.Props.Decompose
import Verif.Props.ParallelConv
import Verif.Props.Recompose
import Verif.Props.ConstArith
import Verif.Props.FoldInt
import Verif.Props.Quant
import Verif.Props.GridSample
import Verif.Props.Zdnnx
import Verif.Props.WriteOnly
import Verif.Props.Scalar
import Verif.Props.Casts
import Verif.Props.Fusion
import Verif.Props.Reuse
import Verif.Props.Session
import Verif.Props.Signature
import Verif.Props.Driver
import Verif.Props.RunMemory
import Verif.Props.ShapeOps
import Verif.Props.NodeNames
import Verif.Props.Instrumentation
import Verif.Props.HoistBuffers
import Verif.Props.RemoveDims
import Verif.Props.Windows
import Verif.Props.OptionNames
import Verif.Props.RandomValues
import Verif.Props.ConcatFuse
import Verif.Props.ConfigFile
import Verif.Props.Commands
import Verif.Props.TensorImport
import Verif.Props.LayoutTransform
import Verif.Props.OpStats
import Verif.Props.CseNames
import Verif.Props.SignatureReading
import Verif.Props.InputShapes
import Verif.Props.Soz
import Verif.Props.StringBuffers
import Verif.Props.RandomIntegers
import Verif.Props.MakeInputs
import Verif.Props.InputValues

/-! # Axioms of the property theorems

Building this file prints the axioms of every theorem in `MANIFEST.json`. -/

#print axioms Verif.Props.C01_addressing
#print axioms Verif.Props.C01_cpp_strides_agree
#print axioms Verif.Props.C02_index_enumeration
#print axioms Verif.Props.C03_no_double_free
#print axioms Verif.Props.C03_frees_only_owned
#print axioms Verif.Props.C03_no_leak
#print axioms Verif.Props.C03_owned_is_live
#print axioms Verif.Props.C04_list_access
#print axioms Verif.Props.C05_close_iff
#print axioms Verif.Props.C06_quicksort_stable
#print axioms Verif.Props.C06_tensor_sort
#print axioms Verif.Props.C06_custom_meets_contract
#print axioms Verif.Props.C06_order_unique
#print axioms Verif.Props.C07_stack_safe
#print axioms Verif.Props.C08_topk_partial
#print axioms Verif.Props.C08_topk_distinct_partial
#print axioms Verif.Props.C08_topk_fullsort_partial
#print axioms Verif.Props.C08_tensor_topk_partial
#print axioms Verif.Props.C08_false
#print axioms Verif.Props.C09_unique_flat
#print axioms Verif.Props.C09_unique_axis
#print axioms Verif.Props.C09_unique_axis_slices
#print axioms Verif.Props.C09_axis_row_major_order_false
#print axioms Verif.Props.C10_find_index
#print axioms Verif.Props.C10_distinct_slots
#print axioms Verif.Props.C10_category_int_partial
#print axioms Verif.Props.C10_category_string_partial
#print axioms Verif.Props.C10_int_truncation_false
#print axioms Verif.Props.C10_duplicates_false
#print axioms Verif.Props.C10_string_prefix_false
#print axioms Verif.Props.C100_value_partial
#print axioms Verif.Props.C100_ring
#print axioms Verif.Props.C100_single_binary
#print axioms Verif.Props.C100_single_unary
#print axioms Verif.Props.C100_single_compare
#print axioms Verif.Props.C100_clip
#print axioms Verif.Props.C100_clip_unsigned
#print axioms Verif.Props.C100_clip_false
#print axioms Verif.Props.C100_chain_false
#print axioms Verif.Props.C100_cast_false
#print axioms Verif.Props.C100_fmod_false
#print axioms Verif.Props.C100_abs_false
#print axioms Verif.Props.C100_crash_false
#print axioms Verif.Props.C101_round
#print axioms Verif.Props.C101_round_unique
#print axioms Verif.Props.C101_quantize
#print axioms Verif.Props.C101_no_zero_false
#print axioms Verif.Props.C101_scale_rank_false
#print axioms Verif.Props.C101_dequantize
#print axioms Verif.Props.C101_dequantize_axis_false
#print axioms Verif.Props.C101_round_trip
#print axioms Verif.Props.C101_dynamic
#print axioms Verif.Props.C101_dynamic_round_trip
#print axioms Verif.Props.C101_matmul_integer
#print axioms Verif.Props.C101_qlinear_partial
#print axioms Verif.Props.C101_saturate_false
#print axioms Verif.Props.C101_row_scale_false
#print axioms Verif.Props.C101_recompose_value
#print axioms Verif.Props.C101_recompose
#print axioms Verif.Props.C101_recompose_partial
#print axioms Verif.Props.C101_missing_zero_false
#print axioms Verif.Props.C101_recompose_axis_false
#print axioms Verif.Props.C102_value_partial
#print axioms Verif.Props.C102_accepts_two
#print axioms Verif.Props.C102_accepts_three
#print axioms Verif.Props.C102_cubic_border_partial
#print axioms Verif.Props.C102_cubic_border_false
#print axioms Verif.Props.C102_bilinear_three_false
#print axioms Verif.Props.C102_safe_border
#print axioms Verif.Props.C102_safe_linear_partial
#print axioms Verif.Props.C102_safe_nearest_partial
#print axioms Verif.Props.C102_zeros_safe_false
#print axioms Verif.Props.C103_unary
#print axioms Verif.Props.C103_unary_succeeds
#print axioms Verif.Props.C103_binary
#print axioms Verif.Props.C103_binary_succeeds
#print axioms Verif.Props.C103_softmax
#print axioms Verif.Props.C103_matmul
#print axioms Verif.Props.C103_matmul_bcast_false
#print axioms Verif.Props.C103_limits_unary
#print axioms Verif.Props.C103_limits_binary
#print axioms Verif.Props.C103_size_false
#print axioms Verif.Props.C103_zero_limit_false
#print axioms Verif.Props.C103_tile_shape_false
#print axioms Verif.Props.C103_omp_unary_partial
#print axioms Verif.Props.C103_omp_binary_partial
#print axioms Verif.Props.C103_omp_softmax
#print axioms Verif.Props.C103_omp_matmul_partial
#print axioms Verif.Props.C103_omp_status_false
#print axioms Verif.Props.C103_zero_threads_false
#print axioms Verif.Props.C103_omp_transpose_false
#print axioms Verif.Props.C104_results
#print axioms Verif.Props.C104_chosen
#print axioms Verif.Props.C104_complete
#print axioms Verif.Props.C104_world_false
#print axioms Verif.Props.C104_same_value_false
#print axioms Verif.Props.C104_nested_false
#print axioms Verif.Props.C105_finite_partial
#print axioms Verif.Props.C105_top_partial
#print axioms Verif.Props.C105_bottom_partial
#print axioms Verif.Props.C105_infinity_false
#print axioms Verif.Props.C105_nan_partial
#print axioms Verif.Props.C105_nan_false
#print axioms Verif.Props.C105_overflow_false
#print axioms Verif.Props.C105_round
#print axioms Verif.Props.C105_prelu
#print axioms Verif.Props.C105_variadic
#print axioms Verif.Props.C105_isinf_partial
#print axioms Verif.Props.C105_isinf_false
#print axioms Verif.Props.C105_mod
#print axioms Verif.Props.C105_fmod_false
#print axioms Verif.Props.C105_mod_min_false
#print axioms Verif.Props.C105_div
#print axioms Verif.Props.C105_neg_abs
#print axioms Verif.Props.C105_integers
#print axioms Verif.Props.C105_shift
#print axioms Verif.Props.C105_shift_false
#print axioms Verif.Props.C105_binarizer_partial
#print axioms Verif.Props.C105_binarizer_false
#print axioms Verif.Props.C105_string
#print axioms Verif.Props.C105_string_false
#print axioms Verif.Props.C106_cast_partial
#print axioms Verif.Props.C106_unsupported
#print axioms Verif.Props.C106_types_false
#print axioms Verif.Props.C106_nan_false
#print axioms Verif.Props.C106_round_trip
#print axioms Verif.Props.C107_fusion_partial
#print axioms Verif.Props.C107_erased_unused
#print axioms Verif.Props.C107_mean_false
#print axioms Verif.Props.C107_max_false
#print axioms Verif.Props.C107_sum_false
#print axioms Verif.Props.C107_bounds_false
#print axioms Verif.Props.C107_constant_false
#print axioms Verif.Props.C107_outer_constant_false
#print axioms Verif.Props.C107_dequantize_false
#print axioms Verif.Props.C108_reuse_partial
#print axioms Verif.Props.C108_argument_false
#print axioms Verif.Props.C108_constant_false
#print axioms Verif.Props.C108_view_false
#print axioms Verif.Props.C108_type_false
#print axioms Verif.Props.C109_history_partial
#print axioms Verif.Props.C109_directory
#print axioms Verif.Props.C109_tag
#print axioms Verif.Props.C109_handlers_partial
#print axioms Verif.Props.C109_ill_false
#print axioms Verif.Props.C109_abort_false
#print axioms Verif.Props.C109_second_false
#print axioms Verif.Props.C109_environment_false
#print axioms Verif.Props.C109_entry_false
#print axioms Verif.Props.C109_destroy_false
#print axioms Verif.Props.C109_release
#print axioms Verif.Props.C109_leak_false
#print axioms Verif.Props.C11_no_collision_partial
#print axioms Verif.Props.C11_diverges
#print axioms Verif.Props.C11_false
#print axioms Verif.Props.C11_int_false
#print axioms Verif.Props.C110_signature_partial
#print axioms Verif.Props.C110_json
#print axioms Verif.Props.C110_at_false
#print axioms Verif.Props.C110_name_false
#print axioms Verif.Props.C110_type_false
#print axioms Verif.Props.C110_escape_false
#print axioms Verif.Props.C111_parse
#print axioms Verif.Props.C111_report_partial
#print axioms Verif.Props.C111_container_partial
#print axioms Verif.Props.C111_prefix_false
#print axioms Verif.Props.C111_dashes_false
#print axioms Verif.Props.C111_directory_false
#print axioms Verif.Props.C111_tag_false
#print axioms Verif.Props.C111_constants_false
#print axioms Verif.Props.C111_empty_false
#print axioms Verif.Props.C111_container_false
#print axioms Verif.Props.C112_shouldOwn_partial
#print axioms Verif.Props.C112_cpp_partial
#print axioms Verif.Props.C112_cpp_failure
#print axioms Verif.Props.C112_python_partial
#print axioms Verif.Props.C112_select_false
#print axioms Verif.Props.C112_join_false
#print axioms Verif.Props.C112_views_false
#print axioms Verif.Props.C112_twice_false
#print axioms Verif.Props.C112_argument_false
#print axioms Verif.Props.C112_entry_false
#print axioms Verif.Props.C112_python_failure_false
#print axioms Verif.Props.C113_shape
#print axioms Verif.Props.C113_cast
#print axioms Verif.Props.C113_concat
#print axioms Verif.Props.C113_gather_partial
#print axioms Verif.Props.C113_slice_partial
#print axioms Verif.Props.C113_reshape
#print axioms Verif.Props.C113_constant_of_shape
#print axioms Verif.Props.C113_any_rewrites_partial
#print axioms Verif.Props.C113_gather_negative_false
#print axioms Verif.Props.C113_gather_negative_crash_false
#print axioms Verif.Props.C113_gather_rank_false
#print axioms Verif.Props.C113_gather_empty_false
#print axioms Verif.Props.C113_shape_empty_false
#print axioms Verif.Props.C113_reshape_input_false
#print axioms Verif.Props.C113_constant_of_shape_input_false
#print axioms Verif.Props.C113_slice_unrecorded_false
#print axioms Verif.Props.C114_names
#print axioms Verif.Props.C114_cse
#print axioms Verif.Props.C114_same_names_partial
#print axioms Verif.Props.C114_same_names_false
#print axioms Verif.Props.C115_program
#print axioms Verif.Props.C115_calls
#print axioms Verif.Props.C115_init_partial
#print axioms Verif.Props.C115_report_partial
#print axioms Verif.Props.C115_report_empty
#print axioms Verif.Props.C115_after_false
#print axioms Verif.Props.C115_branch_false
#print axioms Verif.Props.C115_loop_false
#print axioms Verif.Props.C115_report_after_false
#print axioms Verif.Props.C115_report_before_false
#print axioms Verif.Props.C115_report_nested_false
#print axioms Verif.Props.C115_report_repeated_false
#print axioms Verif.Props.C115_report_long_name_false
#print axioms Verif.Props.C116_safe
#print axioms Verif.Props.C116_results
#print axioms Verif.Props.C116_freed
#print axioms Verif.Props.C116_moved
#print axioms Verif.Props.C117_program_partial
#print axioms Verif.Props.C117_order
#print axioms Verif.Props.C117_merged
#print axioms Verif.Props.C118_hann_blackman_partial
#print axioms Verif.Props.C118_hamming_partial
#print axioms Verif.Props.C118_hamming_false
#print axioms Verif.Props.C118_int64_false
#print axioms Verif.Props.C118_one
#print axioms Verif.Props.C119_simple
#print axioms Verif.Props.C119_regex
#print axioms Verif.Props.C119_history
#print axioms Verif.Props.C119_special
#print axioms Verif.Props.C119_mixed_false
#print axioms Verif.Props.C119_inside_false
#print axioms Verif.Props.C12_read_exact
#print axioms Verif.Props.C12_read_succeeds
#print axioms Verif.Props.C12_mmap_partial
#print axioms Verif.Props.C12_mmap_short_false
#print axioms Verif.Props.C120_uniform_partial
#print axioms Verif.Props.C120_below_f64_partial
#print axioms Verif.Props.C120_below_f32_false
#print axioms Verif.Props.C120_normal_partial
#print axioms Verif.Props.C120_seed_partial
#print axioms Verif.Props.C120_seed_false
#print axioms Verif.Props.C120_nodes_false
#print axioms Verif.Props.C120_count
#print axioms Verif.Props.C120_uniform_like_false
#print axioms Verif.Props.C121_fused_partial
#print axioms Verif.Props.C121_matched
#print axioms Verif.Props.C121_end_false
#print axioms Verif.Props.C122_named
#print axioms Verif.Props.C122_default_partial
#print axioms Verif.Props.C122_default_false
#print axioms Verif.Props.C122_options
#print axioms Verif.Props.C122_missing_false
#print axioms Verif.Props.C122_history
#print axioms Verif.Props.C122_store
#print axioms Verif.Props.C123_arguments
#print axioms Verif.Props.C123_result_partial
#print axioms Verif.Props.C123_success
#print axioms Verif.Props.C123_directory
#print axioms Verif.Props.C123_interrupted_false
#print axioms Verif.Props.C124_raw_partial
#print axioms Verif.Props.C124_field_partial
#print axioms Verif.Props.C124_external_partial
#print axioms Verif.Props.C124_below_partial
#print axioms Verif.Props.C124_link_false
#print axioms Verif.Props.C124_size_false
#print axioms Verif.Props.C124_octal_false
#print axioms Verif.Props.C125_copy_partial
#print axioms Verif.Props.C125_read_false
#print axioms Verif.Props.C125_map_false
#print axioms Verif.Props.C126_stats_partial
#print axioms Verif.Props.C126_keys
#print axioms Verif.Props.C126_unranked_false
#print axioms Verif.Props.C126_sequence_false
#print axioms Verif.Props.C127_effects
#print axioms Verif.Props.C127_names
#print axioms Verif.Props.C127_merged
#print axioms Verif.Props.C128_read_partial
#print axioms Verif.Props.C128_sequence_false
#print axioms Verif.Props.C128_empty_false
#print axioms Verif.Props.C129_shapes_partial
#print axioms Verif.Props.C129_invalid
#print axioms Verif.Props.C129_rank_false
#print axioms Verif.Props.C13_histories_partial
#print axioms Verif.Props.C13_retry_false
#print axioms Verif.Props.C13_double_unload_false
#print axioms Verif.Props.C13_reload_false
#print axioms Verif.Props.C13_early_get_false
#print axioms Verif.Props.C130_rows_partial
#print axioms Verif.Props.C130_empty_rows_false
#print axioms Verif.Props.C131_strings_partial
#print axioms Verif.Props.C131_cut_false
#print axioms Verif.Props.C132_range_partial
#print axioms Verif.Props.C132_unsigned_false
#print axioms Verif.Props.C133_made
#print axioms Verif.Props.C133_null_partial
#print axioms Verif.Props.C133_leak_false
#print axioms Verif.Props.C134_values
#print axioms Verif.Props.C134_invalid
#print axioms Verif.Props.C14_bf16_rounding
#print axioms Verif.Props.C15_bf16_widen
#print axioms Verif.Props.C15_bf16_round_trip
#print axioms Verif.Props.C15_bf16_round_trip_bits
#print axioms Verif.Props.C16_f16_widen
#print axioms Verif.Props.C17_f16_rounding
#print axioms Verif.Props.C17_f16_round_trip
#print axioms Verif.Props.C18_dlf16_widen
#print axioms Verif.Props.C18_dlf16_round_trip
#print axioms Verif.Props.C19_strided_iteration
#print axioms Verif.Props.C19_restride
#print axioms Verif.Props.C20_transpose
#print axioms Verif.Props.C20_transpose_inverse
#print axioms Verif.Props.C20_untranspose
#print axioms Verif.Props.C21_reshape_partial
#print axioms Verif.Props.C21_reshape_contiguous
#print axioms Verif.Props.C21_reshape_empty_false
#print axioms Verif.Props.C22_expand
#print axioms Verif.Props.C23_combine
#print axioms Verif.Props.C23_where
#print axioms Verif.Props.C24_split_partial
#print axioms Verif.Props.C24_split_empty_false
#print axioms Verif.Props.C24_concat
#print axioms Verif.Props.C24_split_concat_partial
#print axioms Verif.Props.C25_slice
#print axioms Verif.Props.C26_pad
#print axioms Verif.Props.C27_gather
#print axioms Verif.Props.C28_scatterND_partial
#print axioms Verif.Props.C28_negative_false
#print axioms Verif.Props.C28_negative_wrong_element_false
#print axioms Verif.Props.C29_tiles
#print axioms Verif.Props.C29_transform
#print axioms Verif.Props.C29_reduce
#print axioms Verif.Props.C29_can_finish
#print axioms Verif.Props.C29_parallel_eq_sequential
#print axioms Verif.Props.C30_used_constants_readable
#print axioms Verif.Props.C30_create
#print axioms Verif.Props.C30_garbage_collect
#print axioms Verif.Props.C30_scrub_close
#print axioms Verif.Props.C30_closed_holds_nothing
#print axioms Verif.Props.C30_closed_stays_closed
#print axioms Verif.Props.C31_never_twice
#print axioms Verif.Props.C31_each_once
#print axioms Verif.Props.C31_terminates
#print axioms Verif.Props.C32_slice_partial
#print axioms Verif.Props.C32_omitted_axes
#print axioms Verif.Props.C32_bad_axis_rejected
#print axioms Verif.Props.C32_zero_step_rejected
#print axioms Verif.Props.C32_empty_dim_false
#print axioms Verif.Props.C32_huge_dim_false
#print axioms Verif.Props.C33_index_expressions_partial
#print axioms Verif.Props.C33_compile_time_is_run_time_partial
#print axioms Verif.Props.C33_parameters_exist
#print axioms Verif.Props.C33_sub_min_false
#print axioms Verif.Props.C33_mod_negative_false
#print axioms Verif.Props.C33_clamp_empty_false
#print axioms Verif.Props.C33_large_division_false
#print axioms Verif.Props.C34_broadcast_partial
#print axioms Verif.Props.C34_unidirectional
#print axioms Verif.Props.C34_conflict_rejected
#print axioms Verif.Props.C34_zero_extent_false
#print axioms Verif.Props.C35_reshape_partial
#print axioms Verif.Props.C35_empty_false
#print axioms Verif.Props.C36_divisible_partial
#print axioms Verif.Props.C36_known_partial
#print axioms Verif.Props.C36_explicit
#print axioms Verif.Props.C36_axis_rejected
#print axioms Verif.Props.C36_old_rejected
#print axioms Verif.Props.C36_uneven_false
#print axioms Verif.Props.C36_unknown_false
#print axioms Verif.Props.C37_concat_partial
#print axioms Verif.Props.C37_all_empty_false
#print axioms Verif.Props.C38_roundtrip
#print axioms Verif.Props.C38_unsqueeze_accepts
#print axioms Verif.Props.C38_squeeze_accepts
#print axioms Verif.Props.C38_squeeze_unsqueeze
#print axioms Verif.Props.C38_squeeze_omitted
#print axioms Verif.Props.C38_squeeze_false
#print axioms Verif.Props.C39_scales_partial
#print axioms Verif.Props.C39_sizes_partial
#print axioms Verif.Props.C39_constant
#print axioms Verif.Props.C39_identity
#print axioms Verif.Props.C39_rank3_false
#print axioms Verif.Props.C39_rank5_false
#print axioms Verif.Props.C40_axis
#print axioms Verif.Props.C40_get_partial
#print axioms Verif.Props.C40_release_false
#print axioms Verif.Props.C41_cpp_offset_partial
#print axioms Verif.Props.C41_false
#print axioms Verif.Props.C42_pack_read_back
#print axioms Verif.Props.C42_pack_disjoint
#print axioms Verif.Props.C42_pack_then_load
#print axioms Verif.Props.C43_dlf16_rounding_partial
#print axioms Verif.Props.C43_dlf16_rounding_false
#print axioms Verif.Props.C44_random_access
#print axioms Verif.Props.C44_splat
#print axioms Verif.Props.C44_transform
#print axioms Verif.Props.C45_broadcast_access
#print axioms Verif.Props.C46_collapse
#print axioms Verif.Props.C47_nearest_partial
#print axioms Verif.Props.C47_round_false
#print axioms Verif.Props.C48_reduce
#print axioms Verif.Props.C49_matMul
#print axioms Verif.Props.C50_equal
#print axioms Verif.Props.C50_allEqual_partial
#print axioms Verif.Props.C50_allEqual_empty_false
#print axioms Verif.Props.C51_float_to_int
#print axioms Verif.Props.C51_unique
#print axioms Verif.Props.C51_special
#print axioms Verif.Props.C51_bool
#print axioms Verif.Props.C51_saturate
#print axioms Verif.Props.C51_int_partial
#print axioms Verif.Props.C51_int_chain_false
#print axioms Verif.Props.C52_range
#print axioms Verif.Props.C52_range_int
#print axioms Verif.Props.C52_nonZero_partial
#print axioms Verif.Props.C52_rank0_false
#print axioms Verif.Props.C53_schedule_visits_once
#print axioms Verif.Props.C53_schedules_permute
#print axioms Verif.Props.C53_commuting_body_schedule_independent
#print axioms Verif.Props.C53_block_keeps_order
#print axioms Verif.Props.C53_block_same_execution
#print axioms Verif.Props.C53_tiles_partition
#print axioms Verif.Props.C53_recreated_loop_false
#print axioms Verif.Props.C54_matmul_tile
#print axioms Verif.Props.C54_multi_reduction
#print axioms Verif.Props.C55_matmul_tiled
#print axioms Verif.Props.C55_matmul_batched
#print axioms Verif.Props.C55_matmul_generic_partial
#print axioms Verif.Props.C55_matmul_empty_false
#print axioms Verif.Props.C55_generic_broadcast_false
#print axioms Verif.Props.C55_update_vector_false
#print axioms Verif.Props.C56_gemm_tiled
#print axioms Verif.Props.C56_gemm_generic
#print axioms Verif.Props.C56_gemm_schedules
#print axioms Verif.Props.C56_gemm_shape
#print axioms Verif.Props.C56_gemm_shape_complete
#print axioms Verif.Props.C57_simd_loop
#print axioms Verif.Props.C57_simd_only
#print axioms Verif.Props.C57_output_padding
#print axioms Verif.Props.C57_flat_elementwise_partial
#print axioms Verif.Props.C57_overcompute_false
#print axioms Verif.Props.C58_axes
#print axioms Verif.Props.C58_scalar
#print axioms Verif.Props.C58_dynamic_axes
#print axioms Verif.Props.C58_horizontal
#print axioms Verif.Props.C58_shuffle
#print axioms Verif.Props.C58_full
#print axioms Verif.Props.C58_full_parallel_partial
#print axioms Verif.Props.C58_parallel_literal
#print axioms Verif.Props.C58_full_parallel_false
#print axioms Verif.Props.C58_absmax_parallel_false
#print axioms Verif.Props.C58_noop_false
#print axioms Verif.Props.C58_empty_axes_false
#print axioms Verif.Props.C58_mean_empty_false
#print axioms Verif.Props.C59_gather
#print axioms Verif.Props.C59_gather_safe
#print axioms Verif.Props.C59_gather_safe_empty_false
#print axioms Verif.Props.C59_gather_elements
#print axioms Verif.Props.C59_gather_elements_safe
#print axioms Verif.Props.C59_gather_nd_partial
#print axioms Verif.Props.C59_gather_nd_negative_false
#print axioms Verif.Props.C60_scatter_elements_partial
#print axioms Verif.Props.C60_reduction_false
#print axioms Verif.Props.C60_scatter_nd_partial
#print axioms Verif.Props.C60_scatter_nd_false
#print axioms Verif.Props.C60_scatter_nd_bounds_false
#print axioms Verif.Props.C60_scatter_nd_negative_false
#print axioms Verif.Props.C60_one_hot
#print axioms Verif.Props.C61_concat
#print axioms Verif.Props.C61_split
#print axioms Verif.Props.C61_split_overflow_false
#print axioms Verif.Props.C61_split_concat
#print axioms Verif.Props.C61_slice
#print axioms Verif.Props.C61_tile
#print axioms Verif.Props.C61_transpose
#print axioms Verif.Props.C61_reverse_sequence
#print axioms Verif.Props.C61_reverse_sequence_length_false
#print axioms Verif.Props.C62_constant_partial
#print axioms Verif.Props.C62_negative_false
#print axioms Verif.Props.C62_edge
#print axioms Verif.Props.C62_reflect_partial
#print axioms Verif.Props.C62_reflect_far_false
#print axioms Verif.Props.C62_wrap_false
#print axioms Verif.Props.C63_depth_to_space
#print axioms Verif.Props.C63_space_to_depth_partial
#print axioms Verif.Props.C63_space_to_depth_false
#print axioms Verif.Props.C63_roundtrip
#print axioms Verif.Props.C64_argmax
#print axioms Verif.Props.C64_argmin
#print axioms Verif.Props.C64_last_false
#print axioms Verif.Props.C64_unsigned_false
#print axioms Verif.Props.C64_hardmax
#print axioms Verif.Props.C65_cumsum_partial
#print axioms Verif.Props.C65_static_one_false
#print axioms Verif.Props.C66_nonzero_partial
#print axioms Verif.Props.C66_vector
#print axioms Verif.Props.C66_false
#print axioms Verif.Props.C67_flat
#print axioms Verif.Props.C67_axis
#print axioms Verif.Props.C68_trilu
#print axioms Verif.Props.C68_range_partial
#print axioms Verif.Props.C68_range_defined
#print axioms Verif.Props.C68_range_empty_false
#print axioms Verif.Props.C68_flatten
#print axioms Verif.Props.C68_flatten_onto
#print axioms Verif.Props.C68_size
#print axioms Verif.Props.C69_conv
#print axioms Verif.Props.C69_channels
#print axioms Verif.Props.C70_explicit
#print axioms Verif.Props.C70_ceil
#print axioms Verif.Props.C70_nonempty
#print axioms Verif.Props.C70_negative_false
#print axioms Verif.Props.C70_same
#print axioms Verif.Props.C70_same_explicit
#print axioms Verif.Props.C71_maxpool_partial
#print axioms Verif.Props.C71_averagepool_partial
#print axioms Verif.Props.C71_averagepool_pad_partial
#print axioms Verif.Props.C71_pad_count
#print axioms Verif.Props.C71_pad_count_ceil_false
#print axioms Verif.Props.C71_dilation3_false
#print axioms Verif.Props.C71_misaligned_false
#print axioms Verif.Props.C71_mixed_false
#print axioms Verif.Props.C71_ceil_bounds_false
#print axioms Verif.Props.C72_counted_partial
#print axioms Verif.Props.C72_while_partial
#print axioms Verif.Props.C72_trip_const
#print axioms Verif.Props.C72_trip_dyn_partial
#print axioms Verif.Props.C72_overwrite_false
#print axioms Verif.Props.C72_rows_false
#print axioms Verif.Props.C72_while_zero_false
#print axioms Verif.Props.C72_trip_dyn_false
#print axioms Verif.Props.C72_trip_f32_false
#print axioms Verif.Props.C73_scan_partial
#print axioms Verif.Props.C73_output_false
#print axioms Verif.Props.C74_at
#print axioms Verif.Props.C74_length
#print axioms Verif.Props.C74_insert_partial
#print axioms Verif.Props.C74_insert_false
#print axioms Verif.Props.C74_erase_partial
#print axioms Verif.Props.C74_erase_false
#print axioms Verif.Props.C75_nms_partial
#print axioms Verif.Props.C75_overlap_test
#print axioms Verif.Props.C75_default_threshold_false
#print axioms Verif.Props.C76_softmax
#print axioms Verif.Props.C76_softmax11
#print axioms Verif.Props.C76_distribution
#print axioms Verif.Props.C76_masked_line_undefined
#print axioms Verif.Props.C77_batchnorm
#print axioms Verif.Props.C77_instancenorm_partial
#print axioms Verif.Props.C77_lrn
#print axioms Verif.Props.C77_mvn_partial
#print axioms Verif.Props.C77_mvn_constant_false
#print axioms Verif.Props.C77_mvn_negative_axis_false
#print axioms Verif.Props.C77_lpnorm_1
#print axioms Verif.Props.C77_lpnorm_2
#print axioms Verif.Props.C78_layernorm
#print axioms Verif.Props.C78_rmsnorm
#print axioms Verif.Props.C78_outputs_shapes
#print axioms Verif.Props.C78_rms_invstddev_false
#print axioms Verif.Props.C79_rnn
#print axioms Verif.Props.C79_lstm
#print axioms Verif.Props.C79_gru
#print axioms Verif.Props.C79_rnn_seqlens
#print axioms Verif.Props.C79_lstm_seqlens_false
#print axioms Verif.Props.C79_activations
#print axioms Verif.Props.C79_layout
#print axioms Verif.Props.C79_gru_layout1
#print axioms Verif.Props.C79_drop_seqlens_false
#print axioms Verif.Props.C79_drop_seqlens_partial
#print axioms Verif.Props.C80_sorted
#print axioms Verif.Props.C80_complete
#print axioms Verif.Props.C80_smallest
#print axioms Verif.Props.C80_identity
#print axioms Verif.Props.C80_check_sound
#print axioms Verif.Props.C80_check_complete
#print axioms Verif.Props.C80_import
#print axioms Verif.Props.C80_import_complete
#print axioms Verif.Props.C80_check_false
#print axioms Verif.Props.C80_captures_false
#print axioms Verif.Props.C81_import
#print axioms Verif.Props.C81_total
#print axioms Verif.Props.C81_import_total
#print axioms Verif.Props.C81_undefined_false
#print axioms Verif.Props.C81_shadow_false
#print axioms Verif.Props.C81_call_outputs_false
#print axioms Verif.Props.C81_call_shift_false
#print axioms Verif.Props.C81_call_fewer_false
#print axioms Verif.Props.C82_version
#print axioms Verif.Props.C82_handler
#print axioms Verif.Props.C82_onto
#print axioms Verif.Props.C82_domain_false
#print axioms Verif.Props.C82_logsoftmax_false
#print axioms Verif.Props.C83_shape
#print axioms Verif.Props.C83_rank
#print axioms Verif.Props.C83_force
#print axioms Verif.Props.C83_names
#print axioms Verif.Props.C83_input_names
#print axioms Verif.Props.C83_output_names_partial
#print axioms Verif.Props.C83_dims
#print axioms Verif.Props.C83_output_names_false
#print axioms Verif.Props.C83_wide_false
#print axioms Verif.Props.C83_no_colon_false
#print axioms Verif.Props.C83_garbage_false
#print axioms Verif.Props.C83_comma_false
#print axioms Verif.Props.C84_verify
#print axioms Verif.Props.C84_emit
#print axioms Verif.Props.C84_string_false
#print axioms Verif.Props.C84_bound_input_false
#print axioms Verif.Props.C85_same_dim_partial
#print axioms Verif.Props.C85_same_shape_partial
#print axioms Verif.Props.C85_broadcast_last_partial
#print axioms Verif.Props.C85_same_dyn_shape_partial
#print axioms Verif.Props.C85_offset_partial
#print axioms Verif.Props.C85_same_with_offset_partial
#print axioms Verif.Props.C85_index_partial
#print axioms Verif.Props.C85_three_operands_false
#print axioms Verif.Props.C85_rank_false
#print axioms Verif.Props.C85_expand_false
#print axioms Verif.Props.C85_expand_offset_false
#print axioms Verif.Props.C85_reshape_false
#print axioms Verif.Props.C85_empty_false
#print axioms Verif.Props.C85_sequence_lens_false
#print axioms Verif.Props.C85_add_constant_false
#print axioms Verif.Props.C85_cast_false
#print axioms Verif.Props.C85_index_false
#print axioms Verif.Props.C86_sets_end
#print axioms Verif.Props.C86_ends_partial
#print axioms Verif.Props.C86_steps
#print axioms Verif.Props.C86_dim_false
#print axioms Verif.Props.C86_cast_false
#print axioms Verif.Props.C87_fuse_transpose
#print axioms Verif.Props.C87_remove_identity_transpose
#print axioms Verif.Props.C87_negative_perm
#print axioms Verif.Props.C87_swap_transpose_concat
#print axioms Verif.Props.C87_fuse_transpose_unary_partial
#print axioms Verif.Props.C87_fuse_transpose_cast_partial
#print axioms Verif.Props.C87_squeeze_unsqueeze_partial
#print axioms Verif.Props.C87_unsqueeze_squeeze_partial
#print axioms Verif.Props.C87_fuse_reshape_allowzero
#print axioms Verif.Props.C87_fuse_reshape_partial
#print axioms Verif.Props.C87_identity_reshape_partial
#print axioms Verif.Props.C87_reshape_allowzero_partial
#print axioms Verif.Props.C87_any_rewrites_partial
#print axioms Verif.Props.C87_fuse_transpose_isnan_false
#print axioms Verif.Props.C87_fuse_transpose_cast_false
#print axioms Verif.Props.C87_fuse_transpose_null_false
#print axioms Verif.Props.C87_squeeze_unsqueeze_false
#print axioms Verif.Props.C87_unsqueeze_squeeze_false
#print axioms Verif.Props.C87_fuse_reshape_false
#print axioms Verif.Props.C87_identity_reshape_false
#print axioms Verif.Props.C87_reshape_allowzero_false
#print axioms Verif.Props.C88_identity
#print axioms Verif.Props.C88_cast
#print axioms Verif.Props.C88_cast_concat_partial
#print axioms Verif.Props.C88_cast_slice
#print axioms Verif.Props.C88_identity_tile
#print axioms Verif.Props.C88_pull_through_split
#print axioms Verif.Props.C88_nested_concat
#print axioms Verif.Props.C88_concat_zero_partial
#print axioms Verif.Props.C88_concat_empty_partial
#print axioms Verif.Props.C88_slice_concat
#print axioms Verif.Props.C88_dim_constant
#print axioms Verif.Props.C88_dim_reshape_partial
#print axioms Verif.Props.C88_dim_transpose
#print axioms Verif.Props.C88_shape_size_constant
#print axioms Verif.Props.C88_where_false_partial
#print axioms Verif.Props.C88_where_equal_partial
#print axioms Verif.Props.C88_expand_binary
#print axioms Verif.Props.C88_reshape_binary_partial
#print axioms Verif.Props.C88_unsqueeze_expand_partial
#print axioms Verif.Props.C88_slice_expand_partial
#print axioms Verif.Props.C88_any_rewrites_partial
#print axioms Verif.Props.C88_cast_concat_false
#print axioms Verif.Props.C88_concat_zero_false
#print axioms Verif.Props.C88_concat_zero_crash_false
#print axioms Verif.Props.C88_concat_zero_axis_false
#print axioms Verif.Props.C88_concat_empty_false
#print axioms Verif.Props.C88_dim_reshape_false
#print axioms Verif.Props.C88_dim_transpose_null_false
#print axioms Verif.Props.C88_where_false_false
#print axioms Verif.Props.C88_where_equal_false
#print axioms Verif.Props.C88_where_equal_zero_false
#print axioms Verif.Props.C88_where_equal_short_false
#print axioms Verif.Props.C88_reshape_binary_false
#print axioms Verif.Props.C88_unsqueeze_expand_false
#print axioms Verif.Props.C88_slice_expand_false
#print axioms Verif.Props.C89_gemm_partial
#print axioms Verif.Props.C89_gemm_add_partial
#print axioms Verif.Props.C89_commute
#print axioms Verif.Props.C89_conv_add_partial
#print axioms Verif.Props.C89_conv_add_bias_partial
#print axioms Verif.Props.C89_conv_mul
#print axioms Verif.Props.C89_matmul_scale_partial
#print axioms Verif.Props.C89_matmul_div_partial
#print axioms Verif.Props.C89_batchnorm_partial
#print axioms Verif.Props.C89_conv_batchnorm_partial
#print axioms Verif.Props.C89_clips_partial
#print axioms Verif.Props.C89_less_cast_partial
#print axioms Verif.Props.C89_pow_partial
#print axioms Verif.Props.C89_relu_maxpool
#print axioms Verif.Props.C89_reshape_matmul_partial
#print axioms Verif.Props.C89_layernorm_bias_partial
#print axioms Verif.Props.C89_instancenorm
#print axioms Verif.Props.C89_groupnorm_partial
#print axioms Verif.Props.C89_any_rewrites_partial
#print axioms Verif.Props.C89_gemm_false
#print axioms Verif.Props.C89_gemm_add_false
#print axioms Verif.Props.C89_conv_add_false
#print axioms Verif.Props.C89_conv_add_bias_false
#print axioms Verif.Props.C89_matmul_scale_false
#print axioms Verif.Props.C89_matmul_div_false
#print axioms Verif.Props.C89_batchnorm_types_false
#print axioms Verif.Props.C89_conv_batchnorm_false
#print axioms Verif.Props.C89_clips_false
#print axioms Verif.Props.C89_less_cast_false
#print axioms Verif.Props.C89_pow_false
#print axioms Verif.Props.C89_pow_zero_false
#print axioms Verif.Props.C89_reshape_matmul_false
#print axioms Verif.Props.C89_reshape_matmul_empty_false
#print axioms Verif.Props.C89_layernorm_bias_false
#print axioms Verif.Props.C89_groupnorm_false
#print axioms Verif.Props.C90_trip_count_partial
#print axioms Verif.Props.C90_constant_trip_count_partial
#print axioms Verif.Props.C90_constant_bounds_checked
#print axioms Verif.Props.C90_no_crash_partial
#print axioms Verif.Props.C90_start_at_bound_false
#print axioms Verif.Props.C90_falling_counter_false
#print axioms Verif.Props.C90_large_range_false
#print axioms Verif.Props.C90_overflow_false
#print axioms Verif.Props.C90_shared_trip_count_false
#print axioms Verif.Props.C90_outer_argument_false
#print axioms Verif.Props.C90_crash_false
#print axioms Verif.Props.C91_layout
#print axioms Verif.Props.C91_seqlens_partial
#print axioms Verif.Props.C91_batch_one_partial
#print axioms Verif.Props.C91_seqlens_false
#print axioms Verif.Props.C91_seqlens_layout_false
#print axioms Verif.Props.C92_conv_transpose_partial
#print axioms Verif.Props.C92_store_outside
#print axioms Verif.Props.C92_store_outside_false
#print axioms Verif.Props.C92_output_shape_false
#print axioms Verif.Props.C92_same_extent_false
#print axioms Verif.Props.C92_negative_total_false
#print axioms Verif.Props.C92_inferred_shape
#print axioms Verif.Props.C92_upsample_partial
#print axioms Verif.Props.C93_im2col_conv_partial
#print axioms Verif.Props.C93_conv_1x1_partial
#print axioms Verif.Props.C93_im2col_partial
#print axioms Verif.Props.C93_empty_false
#print axioms Verif.Props.C94_einsum
#print axioms Verif.Props.C95_syntax
#print axioms Verif.Props.C95_signature
#print axioms Verif.Props.C95_types
#print axioms Verif.Props.C95_einsum
#print axioms Verif.Props.C96_same_partial
#print axioms Verif.Props.C96_ends
#print axioms Verif.Props.C96_gone
#print axioms Verif.Props.C96_left
#print axioms Verif.Props.C96_sum
#print axioms Verif.Props.C96_squeeze_false
#print axioms Verif.Props.C96_integers_false
#print axioms Verif.Props.C96_hardswish_type_false
#print axioms Verif.Props.C96_hardswish_rank_false
#print axioms Verif.Props.C96_clip_false
#print axioms Verif.Props.C96_empty_false
#print axioms Verif.Props.C97_same_partial
#print axioms Verif.Props.C97_no_crash_partial
#print axioms Verif.Props.C97_search
#print axioms Verif.Props.C97_order_false
#print axioms Verif.Props.C97_operands_false
#print axioms Verif.Props.C97_group_false
#print axioms Verif.Props.C97_role_false
#print axioms Verif.Props.C97_twice_false
#print axioms Verif.Props.C98_norm_partial
#print axioms Verif.Props.C98_gelu_partial
#print axioms Verif.Props.C98_gelu_error
#print axioms Verif.Props.C98_pass_partial
#print axioms Verif.Props.C98_layerNorm_recognised
#print axioms Verif.Props.C98_rmsNorm_recognised
#print axioms Verif.Props.C98_gelu_recognised
#print axioms Verif.Props.C98_gelu_tanh_recognised
#print axioms Verif.Props.C98_no_crash_partial
#print axioms Verif.Props.C98_epsilon_false
#print axioms Verif.Props.C98_scale_false
#print axioms Verif.Props.C98_gelu_shape_false
#print axioms Verif.Props.C98_crash_false
#print axioms Verif.Props.C99_value_partial
#print axioms Verif.Props.C99_terminates
#print axioms Verif.Props.C99_one_constant
#print axioms Verif.Props.C99_matmul_integers
#print axioms Verif.Props.C99_unranked_false
#print axioms Verif.Props.C99_rounding_false

c('C01','proved','Verif.Sched.C01_tasks_tile_rows Verif.Sched.C01_tasks_tile_rows_any_formula Verif.Sched.C01_static_rounds_down',
  'FISS with a single stage is C39; the any_formula theorem covers whatever value the conversion yields.')
c('C02','proved','Verif.Sched.C02_prepartition_tiles')
c('C03','proved','Verif.Sched.C03_distribute_balanced Verif.Sched.C03_broadcast_full Verif.Sched.C03_no_workers_undefined')
c('C04','proved','Verif.Sched.C04_output_rows_tiled Verif.Sched.C04_output_cols_tiled Verif.Sched.C04_other_combines_throw')
c('C05','proved','Verif.Queue.C05_fifo Verif.Queue.C05_outcomes')
c('C06','proved','Verif.Queue.C06_each_task_executed_once Verif.Queue.C06_never_executed_twice Verif.Queue.C06_starts_valid',
  'Start queue indices are C41. RANDOM policies assume at most 256 queues (size of eofWorkers).')
c('C07','proved','Verif.Queue.C07_no_deadlock Verif.Queue.C07_bounded_executions Verif.Queue.C07_final_reachable Verif.Queue.C07_engine_capacity Verif.Queue.C07_small_capacity_deadlock',
  'Capacity hypothesis is what the engine uses; for smaller capacities the queue can deadlock (C07_small_capacity_deadlock).')

c('C18','proved','Verif.Dense.C18_views_are_windows Verif.Dense.C18_equality_means_same_contents Verif.Dense.C18_shrunk_view_reads_wrong_row',
  'All histories of slice/get/set on the original and all views, plus shrinkNumRows on the original. shrinkNumRows on a view breaks get (finding C18_shrunk_view_reads_wrong_row).')
c('C19','proved','Verif.Dense.C19_append_in_order')
c('C20','proved','Verif.Dense.C20_sliceRow Verif.Dense.C20_sliceCol')
c('C21','proved','Verif.Dense.C21_colBind')
c('C22','proved','Verif.Dense.C22_filterRow Verif.Dense.C22_filterCol Verif.Dense.C22_filter_rejects Verif.Dense.C22_selection_value_two_exposes_junk')
c('C23','proved','Verif.Dense.C23_extractRow Verif.Dense.C23_extractCol','Strided selections are C40.')
c('C24','proved','Verif.Dense.C24_insertRow Verif.Dense.C24_insertCol Verif.Dense.C24_negative_range_to_zero_differs_from_slicing')
c('C25','proved','Verif.Dense.C25_transpose Verif.Dense.C25_transpose_twice')
c('C36','partial','Verif.Dense.C36_rowBind_partial Verif.Dense.C36_rowBind_column_view_wrong',
  'False of the code for column views (refuted by C36_rowBind_column_view_wrong); proved for operands whose rows are adjacent in memory.')
c('C37','partial','Verif.Dense.C37_append_all_cells_partial Verif.Dense.C37_column_view_gap_not_zeroed',
  'False of the code for sequences with gaps (refuted by C37_column_view_gap_not_zeroed); proved for sequences that append every cell.')

c('C08','proved','Verif.Vect.C08_rows_cols_combined Verif.Vect.C08_C09_completable Verif.Vect.C08_batch_size_positive Verif.Vect.C08_empty_input_undefined Verif.Vect.C08_batch_size_truncated_to_zero',
  'Tasks interleaved at the granularity of single cell writes; any tiling of the rows (C01), any batch sizes >= 1.')
c('C09','proved','Verif.Vect.C09_aggregated Verif.Vect.C09_allocated_output Verif.Vect.C08_C09_completable',
  'For associative and commutative operations (integers); floating-point addition is not associative.')
c('C38','partial','Verif.Dense.C38_ewBinaryMat_partial Verif.Dense.C38_ewBinaryMat_inPlace Verif.Dense.C38_ewBinaryObjSca Verif.Dense.C38_ewUnaryMat Verif.Dense.C38_left_vector_wrong Verif.Dense.C38_left_vector_empty_undefined',
  'False of the code when the left operand is the vector (refuted by C38_left_vector_wrong); proved for all other cases.')
c('C39','partial','Verif.Sched.C01_tasks_tile_rows Verif.Sched.C01_fiss_undefined','Refuted: with one stage the formula divides by zero (C01_fiss_undefined).')
c('C40','partial','Verif.Dense.C23_strided_selection_misread','Refuted by a concrete strided selection that is misread; nothing positive beyond C23 holds.')
c('C41','partial','Verif.Queue.C06_starts_valid Verif.Queue.C06_pergroup_index_out_of_range','Proved for CENTRALIZED and PERCPU; refuted for PERGROUP with non-contiguous physical ids.')

c('C12','proved','Verif.Csr.C12_C14_views_are_windows Verif.Csr.C12_C14_views_are_windows_any',
  'All call histories; capacity hypothesis as in the property; C42 is the carved-out case of clearing an entry of a full matrix.')
c('C13','proved','Verif.Csr.C13_append_in_order Verif.Csr.C13_append_through_view','C43/C44 are the carved-out cases.')
c('C14','proved','Verif.Csr.C12_C14_views_are_windows Verif.Csr.C12_C14_views_are_windows_any','All nestings of row views, all histories.')
c('C15','partial','Verif.Csr.C15_equality_partial Verif.Csr.C15_different_rows_compare_equal',
  'False of the code (row offsets are not compared: C15_different_rows_compare_equal). Proved: equal contents always compare equal (without explicit zeros) and the comparison is defined.')
c('C16','proved','Verif.Csr.C16_transpose','Originals and row views.')
c('C17','proved','Verif.Csr.C17_rowBind Verif.Csr.C17_colBind','Originals and direct row views; colBind also nested views; C45 is the carved-out case.')
c('C42','partial','Verif.Csr.C42_clear_full_matrix_undefined','Refuted by a concrete full matrix; with spare capacity see C12.')
c('C43','partial','Verif.Csr.C43_append_zero_rows_undefined','Refuted for every matrix without rows.')
c('C44','partial','Verif.Csr.C44_append_through_nested_view_corrupts','Refuted by a concrete nested view; direct views see C13.')
c('C45','partial','Verif.Csr.C45_rowBind_nested_view_wrong','Refuted by a concrete nested view; other views see C17.')
c('C10','proved','Verif.Csr.C10_sink_rows Verif.Csr.C10_pipeline_rows Verif.Csr.C10_C11_rejected','All tilings, all insertion orders; C46 is the carved-out case of view results.')
c('C11','proved','Verif.Csr.C11_sink_cols Verif.Csr.C11_pipeline_cols Verif.Csr.C10_C11_rejected','All tilings, all insertion orders.')
c('C46','partial','Verif.Csr.C46_row_view_result_wrong','Refuted by a concrete row view; other partial results see C10.')
c('C47','proved','Verif.Csr.C47_add Verif.Csr.C47_mul Verif.Csr.C47_mulDense','Value type abstract with the zero laws of + and *; for floats 0*inf and 0*nan are outside the hypotheses.')
c('C48','partial','Verif.Csr.C48_dense_result_partial Verif.Csr.C48_minimum_wrong Verif.Csr.C48_equality_wrong',
  'False of the code: sparsity preservation is tested only by 0 op 1 == 0, so MIN with a negative cell and EQ with a zero cell give 0. Proved for all operations where 0 op 1 == 0 implies 0 op b == 0 for all b.')
c('C27','proved','Verif.Obj.C27_calls_succeed Verif.Obj.C27_lifetime Verif.Obj.C27_remove_rejects Verif.Obj.C27_no_leak','All histories of list and reference operations; sequential.')
c('C28','proved','Verif.Front.C28_lookup Verif.Front.C28_pop_reports Verif.Front.C28_restores Verif.Front.C28_getSymbol','All histories of symbol-table operations.')
c('C29','proved','Verif.Col.C29_select Verif.Col.C29_selectCmp Verif.Col.C29_project Verif.Col.C29_select_project','All columns; comparison by code over integers, arbitrary predicate over any value type.')
c('C30','proved','Verif.Col.C30_intersect Verif.Col.C30_merge','')
c('C31','proved','Verif.Col.C31_semiJoin Verif.Col.C31_join','Duplicate right keys: C50.')
c('C32','proved','Verif.Col.C32_groupFirst Verif.Col.C32_groupNext Verif.Col.C32_groupBy','Any number of grouping columns.')
c('C33','proved','Verif.Col.C33_aggGrp Verif.Col.C33_split_sum Verif.Col.C33_split_equals_plain','Signed overflow modelled as two-complement wrap-around; boundary id: C49.')
c('C49','partial','Verif.Col.C49_boundary_id_undefined','Refuted for every number of groups and every aggregation.')
c('C50','partial','Verif.Col.C50_duplicate_keys_lost','Refuted by concrete columns; unique right keys: C31.')

c('C34','proved',' '.join('Verif.Ser.C34_'+x for x in 'dense_one_piece dense_file dense_any_order csr_one_piece csr_length csr_file csr_any_order'.split()),'Byte-level model. Frames are not supported by the serializer (it throws). Exceptions carved out as C51-C54.')
c('C51','partial','Verif.Ser.C51_row_skip_ignored Verif.Ser.C51_column_view_wrong_partial','Refuted; what is loaded instead is proved for every view.')
c('C52','partial','Verif.Ser.C52_dims_truncated_partial','Refuted: dimensions are kept modulo 2^32, for every dense matrix.')
c('C53','partial','Verif.Ser.C53_spare_capacity_endless_partial','Refuted for every such matrix and chunk size.')
c('C54','partial','Verif.Ser.C54_alloc_overflow_partial','Refuted for every sparse matrix.')

c('C35','proved','Verif.Io.C35_ints Verif.Io.C35_strings Verif.Io.C35_frame','atoi and printf as in glibc on x86-64. Floating-point columns not modelled. Exceptions: C55, C56.')
c('C55','partial','Verif.Io.C55_ints_modulo Verif.Io.C55_int64_wrong_partial','Refuted; what is read instead (value modulo 2^32) is proved for all values.')
c('C56','partial','Verif.Io.C56_carriage_return_lost_partial Verif.Io.C56_backslash_end_partial Verif.Io.C56_backslash_quote_partial','Refuted for every such string (with admissible first part).')
c('C57','proved','Verif.Io.C57_sorted Verif.Io.C57_unsorted Verif.Io.C57_unsorted_rejects','Priority queue modelled by sorting.')
c('C58','partial','Verif.Io.C58_sorted_row_out_of_bounds_partial','Refuted: undefined behaviour for every row outside the matrix.')

c('C59','proved','Verif.Front.script_accepted_iff','Type checks of the parser are not modelled.')
c('C60','proved','Verif.Front.script_translation_ends Verif.Front.script_translation_diverges Verif.Front.script_never_unbound Verif.Front.code_ends_unique Verif.Front.script_ends_unique','The meaning of scf.if, scf.while, scf.for is trusted. For-loops with bounds at the ends of the 64-bit range are left undefined here; see C61. Functions, early returns, imports are not modelled.')
c('C61','partial','Verif.Front.for_overflow_skips_partial','Refuted for every lower bound.')
c('C62','proved','Verif.Front.script_code_valid','')

c('C26','proved','Verif.Ref.C26_reference_counting','Vectorized pipelines are kernel calls; their bodies get the treatment of function bodies. References held by lists are the subject of C27. Values of unknown type, memref interop and the distributed worker are not modelled.')
c('C63','partial','Verif.Ref.C63_copies_freed_partial','Refuted: one program per case.')
c('C64','partial','Verif.Ref.C26_reference_counting Verif.Ref.C64_number_of_incs Verif.Ref.C64_three_copies_leak_partial','Holds for up to two copies (C26), refuted for three.')

c('C65','proved','Verif.Rel.C65_order_indexes Verif.Rel.C65_order_rows Verif.Rel.stable_sort_unique','std::stable_sort is modelled by merge sort; stable_sort_unique shows that every stable sort gives the same list. Column positions must exist (the kernel does not check them).')
c('C66','proved','Verif.Rel.C66_group_by Verif.Rel.C66_star_expansion','Cells and their operations (comparison, addition, ...) are abstract. The hypothesis on the array of sort directions is not guaranteed by the language, see C67.')
c('C67','partial','Verif.Rel.C67_group_heap_overflow_partial Verif.Rel.C67_group_sum_of_strings_partial Verif.Rel.C67_group_min_of_nothing_partial Verif.Rel.C67_group_default_label_partial','Refuted for every clause, for all frames.')
c('C68','partial','Verif.Rel.C68_order_nan_hangs_partial','Refuted: for every column with a NaN that is scanned for groups, the loop never ends.')
c('C69','proved','Verif.Rel.C69_create_labels Verif.Rel.C69_bind_labels Verif.Rel.C69_set_labels Verif.Rel.C69_from_matrices Verif.Rel.C69_select Verif.Rel.C69_select_throws','')
c('C70','partial','Verif.Rel.C69_select Verif.Rel.C70_duplicate_default_label_partial','Holds if no selected label has the form col_k (C69); refuted for every frame with a column col_1.')

c('C71','proved','Verif.Rel.C71_cartesian','Cells are abstract values.')
c('C72','proved','Verif.Rel.C72_inner_join Verif.Rel.C72_inner_join_throws','')
c('C73','proved','Verif.Rel.C73_theta_join','Conversion between value types is an abstract total function; in C++ it is undefined for floating-point values the integer type cannot represent. Raw access to column arrays is bounds-checked in the model.')
c('C74','partial','Verif.Rel.C71_cartesian Verif.Rel.C72_inner_join Verif.Rel.C74_cartesian_other_types_partial Verif.Rel.C74_inner_join_other_types_partial','Holds for the types in C71 and C72; refuted for all frames with columns of other types: their result columns are uninitialized.')
c('C75','partial','Verif.Rel.C75_theta_no_condition_partial Verif.Rel.C75_theta_mixed_types_partial','Both clauses refuted.')
c('C76','proved','Verif.Rel.C76_semi_join','')
c('C77','proved','Verif.Rel.C77_group_join','')
c('C78','partial','Verif.Rel.C76_semi_join Verif.Rel.C77_group_join Verif.Rel.C78_semi_join_types_partial Verif.Rel.C78_group_join_types_partial','Refuted for all other types.')

c('C79','proved','Verif.Agg.C79_all_dense Verif.Agg.C79_all_dense_uses_each_cell_once Verif.Agg.C79_all_rejects_positions Verif.Agg.C79_minimum_of_int64 Verif.Agg.C79_mean_of_ints Verif.Agg.int64_lawful Verif.Agg.rat_lawful','Arithmetic is a parameter; laws assumed where stated, proved for wrap-around int64 and for rational numbers. Signed overflow is not modelled as undefined behaviour.')
c('C80','proved','Verif.Agg.C80_all_sparse','')
c('C81','proved','Verif.Agg.C81_row_dense Verif.Agg.C81_row_dense_left_to_right Verif.Agg.C81_row_sparse','')
c('C82','proved','Verif.Agg.C82_col_dense Verif.Agg.C82_col_dense_top_to_bottom Verif.Agg.C82_col_sparse','')
c('C83','proved','Verif.Agg.C83_row_positions Verif.Agg.C83_col_positions Verif.Agg.C83_sparse_rejects_positions','The comparison must be a strict weak order (no NaN).')
c('C84','proved','Verif.Agg.C84_cumulative','')
c('C85','partial','Verif.Agg.C85_row_no_columns_partial Verif.Agg.C85_col_no_rows_partial Verif.Agg.C85_mean_of_nothing_partial','Refuted: out-of-bounds read (row-wise, column-wise, cumulative) or division by zero (full integer mean), for all such shapes.')
c('C86','partial','Verif.Agg.C86_infinite_neutral_partial','Refuted: undefined conversion of infinity for every non-empty matrix. Only reachable through the kernel interface; DaphneDSL casts the argument first.')
c('C87','partial','Verif.Agg.C87_integer_mean_of_negatives_partial','Refuted for every negative sum of at least two cells: the division is unsigned. Only reachable through the kernel interface; DaphneDSL computes means in floating point.')
c('C88','proved','Verif.Shape.C88_reshape','')
c('C89','proved','Verif.Shape.C89_reshape_sparse','')
c('C90','partial','Verif.Shape.C90_reshape_nested_view_partial','Refuted: a full slice of a row view is not recognised as a view; its reshape shows other rows.')
c('C91','proved','Verif.Shape.C91_reverse','')
c('C92','partial','Verif.Shape.C92_reverse_no_columns_partial','Refuted: out-of-bounds write for the zero-column view of a one-column matrix.')
c('C93','proved','Verif.Shape.C93_tri Verif.Shape.C93_tri_sparse','')
c('C94','proved','Verif.Shape.C94_diagMatrix Verif.Shape.C94_diagMatrix_sparse Verif.Shape.C94_diagMatrix_to_sparse Verif.Shape.C94_diagVector Verif.Shape.C94_diagVector_sparse Verif.Shape.C94_diag_round_trip','')
c('C95','proved','Verif.Shape.C95_fill Verif.Shape.C95_fill_sparse','')
c('C96','proved','Verif.Shape.C96_seq','Integers without overflow; floating-point sequences are not modelled.')
c('C97','proved','Verif.Shape.C97_outerBinary','')
c('C98','proved','Verif.Shape.C98_cond','')
c('C99','proved','Verif.Shape.C99_replace Verif.Shape.C99_replace_sparse','')
c('C100','partial','Verif.Shape.C100_replace_nothing_partial','Refuted for all such matrices: the kernel returns without creating a result (null pointer).')
c('C101','partial','Verif.Shape.C101_replace_row_view_partial','Refuted: entries are copied from the start of the shared arrays, offsets are copied unshifted.')
c('C102','proved','Verif.Shape.C102_cast_dense','')
c('C103','proved','Verif.Shape.C103_cast_to_dense Verif.Shape.C103_cast_to_sparse Verif.Shape.C103_cast_round_trip','')
c('C104','proved','Verif.Shape.C104_cast_sparse_square','')
c('C105','partial','Verif.Shape.C105_cast_sparse_rectangle_partial','Refuted for all sparse matrices that are not square: wrong shape or out-of-bounds write.')
c('C106','proved','Verif.Shape.C106_ctable Verif.Shape.C106_ctable_sparse','')
c('C107','proved','Verif.Shape.C107_posList_to_bitmap','')
c('C108','proved','Verif.Shape.C108_bitmap_to_posList Verif.Shape.C108_round_trip','')
c('C109','partial','Verif.Shape.C109_posList_boundary_partial','Refuted: position n passes the check and is written behind the end.')
c('C110','partial','Verif.Shape.C110_ctable_column_view_partial','Refuted: rowSkip is ignored.')
c('C111','partial','Verif.Shape.C111_ctable_coordinates_partial','Refuted: negative coordinates write elsewhere; no rows are read out of bounds.')
c('C112','proved','Verif.Shape.C112_oneHot','Dense numeric specialisation.')
c('C113','proved','Verif.Shape.C113_recode','')
c('C114','proved','Verif.Shape.C114_recode_ordered','')
c('C115','partial','Verif.Shape.C115_recode_nan_partial','Refuted: a NaN in the first row absorbs every other value.')
c('C116','proved','Verif.Shape.C116_bin','Exact arithmetic.')
c('C117','partial','Verif.Shape.C117_bin_overflow_partial Verif.Shape.C117_bin_int_partial','Refuted: v - min and max - min overflow; proved where they do not.')
c('C118','proved','Verif.Shape.C118_quantize','Exact arithmetic.')
c('C119','partial','Verif.Shape.C119_quantize_range_partial','Refuted for every range with min >= 0 >= max: scale 0, NaN converted to an integer.')
c('C120','proved','Verif.Ir.C120_fold_cast','')
c('C121','partial','Verif.Ir.C121_fold_cast_sign_partial Verif.Ir.C121_fold_compare_partial','Refuted for all such constants: extended with zeros.')
c('C122','proved','Verif.Ir.C122_fold_binary','')
c('C123','partial','Verif.Ir.C123_fold_mod_partial','Refuted: run time uses fmod on doubles.')
c('C124','partial','Verif.Ir.C124_fold_bool_add_partial','Refuted: addition modulo 2 in the compiler.')
c('C125','partial','Verif.Ir.C125_fold_minmax_partial','True unless exactly the right operand is NaN; refuted there.')
c('C126','proved','Verif.Ir.C126_fold_cast_float','Doubles as rationals.')
c('C127','partial','Verif.Ir.C127_fold_float_bool_partial','Refuted: low bit of the truncated value; int64_t conversion of values from 2^63 on.')
c('C128','proved','Verif.Ir.C128_dedup_preserves Verif.Ir.C128_no_duplicates','')
c('C129','partial','Verif.Ir.C129_dedup_confuses_splits_partial','Refuted: the split is looked up by a shifted position.')
c('C130','proved','Verif.Ir.C130_unused_results','')
c('C131','proved','Verif.Ir.C131_scalar_minus_matrix','')
c('C132','partial','Verif.Ir.C132_scalar_minus_matrix_partial','Refuted for every negative a with the smallest number, and for true - true.')
c('C133','partial','Verif.Ir.C133_scalar_div_matrix_partial','Proved (exact arithmetic with overflow) if 1/x is finite; refuted otherwise.')
c('C134','partial','Verif.Ir.C134_add_unknown_left_partial','Refuted for every matrix with two or more rows plus a row vector, if the type of the left operand is unknown.')
c('C135','proved','Verif.Ir.C135_bitmap_round_trip_iff','')
c('C136','proved','Verif.Ir.C136_extract_from_created','')
c('C137','partial','Verif.Ir.C137_extract_from_created_partial','Refuted: the frame is not created any more, so its errors vanish; a label x.* selects one column only.')
c('C138','proved','Verif.Ir.C138_extract_from_bound Verif.Ir.C138_extract_twice Verif.Ir.C138_same_labels','')
c('C139','proved','Verif.Ir.C139_cast_chain','')
c('C140','partial','Verif.Ir.C140_frame_round_trip_partial','Everything but the labels is preserved; the labels exactly if they are the default labels.')
c('C141','proved','Verif.Infer.C141_common_type_sound','')
c('C142','partial','Verif.Infer.C142_common_sparsity_partial','Refuted: sparsities are truncated to integers, so two sparsities strictly between 0 and 1 give 0.')
c('C143','proved','Verif.Infer.C143_dropped_casts_sound','')
c('C144','partial','Verif.Infer.C144_dropped_cast_representation_partial','Refuted: the cast from a sparse to a dense matrix type with fewer known properties is removed.')
c('C145','proved','Verif.Infer.C145_inference_sound','Soundness of single operations is a hypothesis; C148 provides it for shapes.')
c('C146','proved','Verif.Infer.C146_rounds_bounded_or_endless','')
c('C147','partial','Verif.Infer.C147_loop_inference_endless_partial','Refuted: X = [0]; while(c) { X = [1,2]; } is inferred for ever.')
c('C148','proved','Verif.Infer.C148_shape_inference_sound Verif.Infer.C148_constants_right Verif.Infer.C148_kernel_shapes','The result shapes are linked to the kernel models for transpose, cbind, slices, reshape, reverse, diag, fill, outer, cast; for the others they are read off the kernels.')
c('C149','proved','Verif.Infer.C149_seq_rows','')
c('C150','partial','Verif.Infer.C150_seq_rows_wrong_direction_partial','Refuted: at least one row is inferred for the empty sequence; increment 0 divides by zero in the compiler.')
c('C151','partial','Verif.Infer.C151_cartesian_rows_partial','Right if both sizes are known; otherwise the unknown size -1 is multiplied.')
c('C152','partial','Verif.Infer.C152_scalar_left_partial','Refuted for all matrices of known shape with more than one row: 1x1 is inferred.')
c('C153','partial','Verif.Infer.C153_other_shapes_partial','Refuted.')
c('C154','proved','Verif.Mm.C154_sparse_times_dense Verif.Mm.C154_no_races','Needs s + 0*w = s (no NaN or infinity in the dense operand). The addition order within a cell is fixed; a single += counts as one step because no two threads touch the same cell (C154_no_races).')
c('C155','proved','Verif.Mm.C155_dense_times_sparse','Needs s + v*0 = s.')
c('C156','proved','Verif.Mm.C156_any_times_any','')
c('C157','proved','Verif.Mm.C157_sparse_times_sparse','')
c('C158','proved','Verif.Mm.C158_dense_times_dense','BLAS and Eigen are modelled by their documented contract.')
c('C159','partial','Verif.Mm.C159_empty_inner_dimension_partial Verif.Mm.C159_integer_transposed_left_partial','Refuted for all such shapes.')
c('C160','proved','Verif.Mm.C160_syrk','BLAS by contract.')
c('C161','proved','Verif.Mm.C161_gemv','BLAS by contract.')
c('C162','proved','Verif.Mm.C162_physical_operator_choice','')
c('C163','partial','Verif.Mm.C163_sparse_gemv_partial Verif.Mm.C163_sparse_gemv_differs_partial Verif.Mm.C163_sparse_transb_partial Verif.Mm.C163_row_vector_partial Verif.Mm.C163_gemv_unchecked_partial','Refuted: the sparse gemv computes M @ v; the sparse product ignores transb; gemv on a row vector reads out of bounds; gemv does not check the length.')
c('C164','proved','Verif.Vect.C164_declared_splits_and_combines','Arithmetic: addition, min, max associative and commutative with the neutral elements of the type (Laws; shown for int64).')
c('C165','proved','Verif.Vect.C165_fused_pipeline','Kernels as modelled for C38, C79-C82, C97, C158, C160, C161, C21, C23, C25; one value type.')
c('C166','partial','Verif.Vect.C166_xxt_not_a_sum_over_rows_partial Verif.Vect.FusedExample.C166_xxt_fails_partial','Refuted for all X with at least two rows; concrete: the engine throws.')
c('C167','proved','Verif.Fuse.C167_vectorization_preserves_results Verif.Fuse.C167_single_use','Straight-line blocks, one result per operation; kernels as for C165. The conditions that the pass itself should establish but does not are C168-C172.')
c('C168','partial','Verif.Fuse.Example.C168_shared_result_body_order_partial','Refuted: a concrete program whose pipeline body is not in dependency order.')
c('C169','partial','Verif.Fuse.Example.C169_pipelines_use_each_other_partial','Refuted: a concrete program, for every plan.')
c('C170','partial','Verif.Fuse.Example.C170_user_left_before_pipeline_partial','Refuted: a concrete program, for every plan.')
c('C171','partial','Verif.Fuse.Example.C171_unsplit_operand_from_inside_partial','Refuted: a concrete program with two tasks.')
c('C172','partial','Verif.Fuse.Example.C172_row_vector_from_inside_partial','Refuted: a concrete program with two tasks.')
c('C173','partial','Verif.Fuse.Example.C173_side_effects_reordered_partial','Refuted: a concrete program.')
c('C174','proved','Verif.Rel.C174_filterRow Verif.Rel.C174_filterRow_invalid Verif.Rel.C174_extractRow','Byte level; a std::string is 32 opaque bytes. loadable_of_wf says when the padding condition holds.')
c('C175','partial','Verif.Rel.C175_filterRow_partial','Refuted for every frame with an unpadded column of a value type smaller than 8 bytes whose last row is selected.')
c('C176','partial','Verif.Rel.C176_filterRow_partial Verif.Rel.BytesExample.C176_filterRow_example_partial','Refuted: bytes 8-15 of every result value are what the fresh array contained.')
c('C177','partial','Verif.Rel.BytesExample.C177_filterRow_view_partial','Refuted on a concrete view.')
N='Verif.Columnar.'
c('C178','proved',N+'C178_compare','Both the rewritten sequence of kernels and the element-wise kernel give the same specified bitmap; any view.')
c('C179','proved',N+'C179_logical','')
c('C180','partial',N+'C180_several_columns_partial '+N+'C180_single_row_partial '+N+'C180_row_mismatch_partial','Refuted: && and || are rewritten without looking at the shapes of their operands.')
c('C181','proved',N+'C181_calc '+N+'C181_sum','The sum in exact (associative, commutative) arithmetic; rounding of floating-point sums may differ for strided views.')
c('C182','proved',N+'C182_filterRow '+N+'C182_extractRow','Against the byte-level model of the kernels on frames (C174).')
c('C183','partial',N+'C183_nonzero_values_partial '+N+'C183_short_bitmap_partial '+N+'C183_negative_positions_partial','Refuted for whole classes of inputs.')
c('C184','proved',N+'C184_inner_join','The join relation is that of C72 (JoinResult, equalPairs), with all column types supported.')
c('C185','proved',N+'C185_semi_join','')
c('C186','proved',N+'C186_group '+N+'C186_same_rows','C186_same_rows relates the kernel (C66) and the columnar operations: the groups are a permutation of each other.')
c('C187','partial',N+'C187_repeated_keys_partial','Refuted on concrete frames: the last row of each key wins.')
c('C188','partial',N+'C188_columns_partial','Refuted for every left frame with more than one column: the kernel returns the key column only.')
c('C189','partial',N+'C189_order_partial '+N+'C189_no_keys_partial '+N+'C189_star_partial','Refuted for whole classes of inputs.')
N='Verif.Rand.'
c('C190','proved',N+'C190_sample_distinct '+N+'C190_sample_with_replacement '+N+'C190_sample_rejects','Draws and shuffles are arbitrary; no assumption on the draws is needed without replacement.')
c('C191','partial',N+'C191_sample_float_distinct '+N+'C191_sample_float_diverges_partial','Proved if new values keep being drawn; refuted otherwise: with fewer than size possible values the kernel does not return.')
c('C192','proved',N+'C192_rand_dense '+N+'C192_rand_rejects','Sparsity in exact arithmetic; the draws keep producing non-zero values.')
c('C193','proved',N+'C193_rand_sparse','Sparsity in exact arithmetic; every row and column keeps being drawn.')
c('C194','partial',N+'C194_rand_many_cells_partial','Refuted for 2^31 < cells <= 2^32 (the bound of the index distribution is an int).')
c('C195','partial',N+'C195_rand_sparse_stored '+N+'C195_rand_sparse_zeros_partial','Refuted: drawn zeros are stored; the number of stored entries is the requested one.')
N='Verif.Dist.'
c('C196','proved',N+'C196_execute_correct '+N+'ex_correct','Splittability of the pipeline by rows is the assumption the compiler establishes; RPC failures are not modelled.')
c('C197','proved',N+'C197_place_again','')
c('C198','partial',N+'C198_one_row_add_partial','Refuted for all inputs: the result is multiplied by the number of workers.')
c('C199','partial',N+'C199_few_rows_partial','Refuted: an exception for every first row-split input with 2 <= rows < workers that has not been sent before.')
c('C200','partial',N+'C200_equal_scalars_partial','Refuted: an exception for every such pipeline.')
c('C201','partial',N+'C201_view_stale_partial','Refuted by a program; C196 covers views that start in the first row and have all columns, and views of matrices not at the workers.')
c('C202','partial',N+'C202_same_worker_partial','Refuted by a program; C196 covers lists without duplicates.')
N='Verif.Nn.'
c('C203','proved',N+'C203_conv2d_is_convolution','Sums in the order of the kernel for any + and *; contiguous operands; sizes below 2^32.')
c('C204','partial',N+'C204_conv2d_without_bias_partial','Refuted for all inputs: the filter is passed as the bias.')
c('C205','proved',N+'C205_avg_pool2d_is_mean','')
c('C206','proved',N+'C206_max_pool2d_is_max','')
c('C207','partial',N+'C207_max_pool2d_negative_partial','Refuted for all such inputs.')
c('C208','partial',N+'C208_pooling_strides_partial','Refuted: strides are interchanged.')
c('C209','partial',N+'C209_avg_pool2d_one_column_partial','Refuted: padding is ignored.')
c('C210','proved',N+'C210_biasAdd','')
c('C211','partial',N+'C211_biasAdd_views_partial','Refuted (three ways).')
c('C212','proved',N+'C212_inferred_shape','')
c('C213','partial',N+'C213_inferred_shape_partial','Refuted (four ways).')
c('C214','proved',N+'C214_avg_pool2d_backward','')
c('C215','proved',N+'C215_max_pool2d_backward','')
c('C216','partial',N+'C216_pooling_backward_strides_partial','Refuted on a concrete image.')
c('C217','proved',N+'C217_conv2d_backward_filter','Any non-unital non-associative semiring.')
c('C218','partial',N+'C218_conv2d_backward_filter_partial','Refuted on concrete filters.')
c('C219','proved',N+'C219_conv2d_backward_data','')
c('C220','partial',N+'C220_conv2d_backward_data_partial','Refuted on concrete filters.')
c('C221','proved',N+'C221_softmax '+N+'C221_softmax_rows_sum '+N+'real_isExp','real_isExp: the real exponential function is an instance.')
c('C222','partial',N+'C222_softmax_no_columns_partial','Refuted: the first cell is read.')
c('C223','proved',N+'C223_batch_norm_train','The statistics are returned in the first row of C x C matrices.')
c('C224','partial',N+'C224_batch_norm_inference_partial','Refuted: parameters are indexed by the image.')
c('C225','proved',N+'C225_batch_norm_backward','')
c('C226','proved','Verif.Labels.C226_inferred_labels','FExpr.Plain excludes the operations refuted in C227, C228.')
c('C227','partial','Verif.Labels.C227_join_labels_partial','Refuted: the labels of the known input alone are inferred.')
c('C228','partial','Verif.Labels.C228_group_labels_partial','Refuted for an aggregated column and for mixed keys.')
c('C229','partial','Verif.Labels.C229_label_inference_partial','Refuted: null pointers, rejected programs.')
c('C230','proved','Verif.Check.C230_is_symmetric_dense','')
c('C231','proved','Verif.Check.C231_is_symmetric_sparse','')
c('C232','partial','Verif.Check.C232_is_symmetric_sparse_partial','Refuted in both directions.')
c('C233','proved','Verif.Check.C233_has_special_value','')
c('C234','proved','Verif.Sql.C234_plain_queries','')
c('C235','proved','Verif.Sql.C235_grouped_queries','')
c('C236','proved','Verif.Sql.C236_aggregated_queries','')
c('C237','proved','Verif.Sql.C237_distinct','')
c('C238','partial','Verif.Sql.C238_distinct_group_by_partial','Refuted: duplicates remain.')
c('C239','partial','Verif.Sql.C239_distinct_order_by_partial','Refuted: the order is lost.')
c('C240','partial','Verif.Sql.C240_alias_names_partial','Refuted: wrong table, rejected clauses.')
c('C241','partial','Verif.Sql.C241_rejected_queries_partial','Refuted: null pointers, rejected queries.')
c('C242','partial','Verif.Sql.C242_star_group_by_partial','Refuted: columns are lost.')
c('C243','proved','Verif.Sql.Escape.C243_string_literals Verif.Sql.Escape.C243_sql_string_literals','')
c('C244','partial','Verif.Sql.Escape.C244_escaped_backslash_partial','Refuted.')
c('C245','proved','Verif.Call.C245_keyword_arguments Verif.Call.C245_positional_after_keyword','')
c('C246','proved','Verif.Call.C246_overloads','')
c('C247','partial','Verif.Call.C247_most_specific_partial','Refuted: an untyped definition that comes first takes all calls.')
c('C248','partial','Verif.Call.C248_rejected_calls_partial','Refuted: valid calls are rejected or dereference a null pointer.')
c('C249','proved','Verif.Special.C249_specialisation Verif.Special.C249_untyped_functions Verif.Special.C249_no_missing_function Verif.Special.C249_argument_types','Type inference and canonicalisation are parameters (any that preserve meaning).')
c('C250','partial','Verif.Special.C250_typed_functions_partial','Refuted: a function is removed although a call still refers to it.')
c('C251','partial','Verif.Special.C251_recursion_partial','Refuted: endless specialisation of recursive calls with a constant argument.')
c('C252','proved','Verif.Early.C252_early_returns Verif.Early.C252_kept','Returns in loops are rejected and not modelled.')
c('C253','partial','Verif.Early.C253_results_in_use_partial','Refuted: the if-operation is erased while its results are in use.')
c('C254','partial','Verif.Early.C254_copied_operations_partial','Refuted: copies of operations use values that are not defined where they are.')
c('C255','partial','Verif.Early.C255_no_return_at_the_end_partial','Refuted: rejected if the last statement is an if-statement with returns in both branches and one with a return precedes it.')
c('C256','proved','Verif.Hor.C256_same_effects','Under the conditions stated (structure Fusible); nested regions only through the values they use; duplicate inputs are removed by another pass. Example: Verif.Hor.Ex.good_fusible.')
c('C257','proved','Verif.Hor.C257_fused','')
c('C258','partial','Verif.Hor.Ex.C258_chain_partial','Refuted: the fused pipeline uses its own result.')
c('C259','partial','Verif.Hor.Ex.C259_cycle_partial','Refuted: walk past the end of the block.')
c('C260','partial','Verif.Hor.Ex.C260_needed_partial','Refuted: use before definition.')
c('C261','partial','Verif.Hor.Ex.C261_nested_partial','Refuted: values used in nested regions are not seen.')
c('C262','partial','Verif.Hor.Ex.C262_order_partial','Refuted: outputs are reordered.')
c('C263','proved','Verif.Mtx.C263_dense_coordinate','Text to number conversion is a parameter; instance for integers: reads_print. Non-trivial case: exCoord, exCoord_dense.')
c('C264','proved','Verif.Mtx.C264_dense_array','Non-trivial case: exArray.')
c('C265','proved','Verif.Mtx.C265_sparse','')
c('C266','proved','Verif.Mtx.C266_frame','')
c('C267','partial','Verif.Mtx.C267_blank_line_partial','Refuted: a cell is overwritten with zero (array), exception (coordinate).')
c('C268','partial','Verif.Mtx.C268_white_space_partial','Refuted: wrong values, read out of bounds.')
c('C269','partial','Verif.Mtx.C269_not_rejected_partial','Refuted: error codes are ignored.')
c('C270','partial','Verif.Mtx.C270_no_newline_partial','Refuted for files of patterns: read out of bounds.')
c('C271','partial','Verif.Mtx.C271_int64_partial','Refuted: values are converted with atoi.')
c('C272','partial','Verif.Mtx.C272_unchecked_partial','Refuted: no checks.')
c('C273','proved','Verif.FileMeta.C273_round_trip Verif.FileMeta.C273_round_trip_local','JSON values, not texts; labels are valid UTF-8. Value types of fixed-size strings: C277.')
c('C274','proved','Verif.FileMeta.C274_accepted','Non-trivial case: docDefault.')
c('C275','proved','Verif.FileMeta.C275_matrix Verif.FileMeta.C275_frame','Limits of the CSV format as in C35.')
c('C276','proved','Verif.FileMeta.C276_other_files Verif.FileMeta.C276_unsupported Verif.FileMeta.C276_describes','CSV branch only.')
c('C277','partial','Verif.FileMeta.C277_fixed_size_strings_partial','Refuted: written as null, not accepted when read.')
c('C278','partial','Verif.FileMeta.C278_empty_labels_partial','Refuted: throws for two or more columns.')
c('C279','partial','Verif.FileMeta.C279_short_schema_partial','Refuted: read out of bounds.')
c('C280','partial','Verif.FileMeta.C280_unknown_type_partial Verif.FileMeta.C280_numbers_partial','Refuted.')
c('C281','proved','Verif.FileMeta.C281_shape Verif.FileMeta.C281_frame','')
c('C282','partial','Verif.FileMeta.C282_write_then_read_partial','Refuted: the compiler uses the meta data from before the run.')
c('C283','proved','Verif.FrameBin.C283_round_trip Verif.FrameBin.C283_strings_rejected','Non-trivial case: sample.')
c('C284','partial','Verif.FrameBin.C284_labels_lost_partial','Refuted: always default labels.')
c('C285','partial','Verif.FrameBin.C285_long_label_partial','Refuted: read out of bounds.')
c('C286','partial','Verif.FrameBin.C286_other_kind_partial Verif.FrameBin.C286_short_file_partial','Refuted: null pointer, uninitialised memory.')
c('C287','proved','Verif.Approx.C287_fewer_than_K_exact','Non-trivial case: example with 3 distinct values of 4.')
c('C288','proved','Verif.Approx.C288_estimate','Non-trivial case: example with 4 values, K = 2.')
c('C289','partial','Verif.Approx.C289_order_dependent_partial','Refuted: inserting a value again removes the biggest one.')
c('C290','partial','Verif.Approx.C290_K_zero_undefined_partial','Refuted: K = 0 dereferences the end of an empty set.')
c('C291','proved','Verif.Tens.C291_element_access','Non-trivial case: example of rank 3.')
c('C292','proved','Verif.Tens.C292_create','Non-trivial case: example of rank 3.')
c('C293','proved','Verif.Tens.C293_dice','Non-trivial case: example of rank 3.')
c('C294','proved','Verif.Tens.C294_from_matrix','Non-trivial case: exView_is, used in C299.')
c('C295','proved','Verif.Tens.C295_to_matrix','Packed tensors: C292.')
c('C296','proved','Verif.Tens.C296_equality','Packed tensors: C292.')
c('C297','proved','Verif.Tens.C297_reduce_rank_last','Packed tensors: C292.')
c('C298','partial','Verif.Tens.C298_reduce_rank_undefined_partial','Refuted: the loop runs to the old rank.')
c('C299','partial','Verif.Tens.C299_view_forgotten_partial','Refuted: strides are ignored.')
c('C300','partial','Verif.Tens.C300_rank_zero_write_partial','Refuted: always refused.')
c('C301','proved','Verif.Str16.C301_fixed_string','Non-trivial case: "ab" and "abc".')
c('C302','partial','Verif.Str16.C302_print_padded_partial','Refuted: always 16 bytes.')
c('C303','partial','Verif.Str16.C303_embedded_nul_partial','Refuted: compared up to the first NUL only.')
c('C304','proved','Verif.Sp.C304_inferred_sparsity_valid','Non-trivial case: matrix multiplication with one known inner extent.')
c('C305','proved','Verif.Sp.C305_inferred_sparsity_exact','Non-trivial case: a column with sparsity one half.')
c('C306','partial','Verif.Sp.C306_invalid_sparsity_partial','Refuted: unknown or zero length for diagMatrix, constants and meta data.')
c('C307','proved','Verif.Sp.C307_inferred_symmetry','')
c('C308','proved','Verif.TyText.C308_type_text_roundtrip','Non-trivial case: a handle to a sparse symmetric matrix with one unknown extent.')
c('C309','partial','Verif.TyText.C309_zero_extents_partial','Refuted: 0x starts a hexadecimal number.')
c('C310','partial','Verif.TyText.C310_unreadable_types_partial','Refuted: the parser and the printer disagree on frames and do not know the other types.')
c('C311','proved','Verif.TyText.C311_type_as_requested','MLIR\'s hash set is a contract; a list satisfies it.')
c('C312','partial','Verif.TyText.C312_type_depends_on_history_partial','Refuted.')
c('C313','proved','Verif.Disp.C313_kernel_search','Non-trivial case: two kernels of the same highest priority.')
c('C314','proved','Verif.Disp.C314_lookup_types','')
c('C315','proved','Verif.Disp.C315_kernel_call Verif.Disp.libPaths_knows','Non-trivial case: a grouping with two key columns and no aggregates.')
c('C316','proved','Verif.Disp.C316_missing_operand','')
c('C317','partial','Verif.Disp.C317_hint_unchecked_partial','Refuted: hints are never checked.')
c('C318','partial','Verif.Disp.C318_mixed_list_partial','Refuted: only the first occurrence is checked.')
c('C319','proved','Verif.Disp.C319_type_names','')
c('C320','proved','Verif.Disp.C320_catalog_files','JSON parsing is not modelled.')
c('C321','proved','Verif.Disp.C321_kernel_ids','')
c('C322','partial','Verif.Disp.C322_missing_location_partial','Refuted: another location is reported, or a null location is read.')
c('C323','proved','Verif.Disp.C323_adapted_operands','Non-trivial case: a sparse integer matrix and a double.')
c('C324','partial','Verif.Disp.C324_list_operand_partial','Refuted: the cast has a matrix type.')
c('C325','proved','Verif.DataProp.C325_recorded_sparsity_exact','Exact rationals instead of doubles. Non-trivial case: a CSR matrix with a stored zero.')
c('C326','partial','Verif.DataProp.C326_recorded_sparsity_of_views_and_empty_partial','Refuted: the first values of the viewed matrix are counted; matrices without cells give null.')
c('C327','proved','Verif.DataProp.C327_recorded_properties_find_their_values','Non-trivial case: a program with a loop.')
c('C328','partial','Verif.DataProp.C328_inserted_properties_have_no_effect_partial','Refuted for every program: the casts are unused or of the same type.')
c('C329','partial','Verif.DataProp.C329_entries_behind_one_without_number_partial','Refuted: no later entry has an effect.')
c('C330','proved','Verif.Conf.C330_config_file','The JSON text and the conversion of values are a parameter. Non-trivial case: a file with two keys.')
c('C331','proved','Verif.Conf.C331_options_win','Non-trivial case: --num-threads=5 --vec --explain=llvm against a file that says otherwise.')
c('C332','proved','Verif.Conf.C332_file_settings_effective','Non-trivial case: a file with 3 threads.')
c('C333','partial','Verif.Conf.C333_file_settings_ineffective_partial','Refuted: 20 of the 53 keys are overwritten with the default value of the option.')
c('C334','partial','Verif.Conf.C334_explicit_defaults_partial','Refuted for --num-threads, --libdir, --cuda, HDFS and tile sizes.')
c('C335','partial','Verif.Conf.C335_missing_config_file_partial','Refuted: it is ignored.')
c('C336','proved','Verif.Conf.C336_script_arguments','Non-trivial case: a value with an equals sign.')
c('C337','proved','Verif.Conf.C337_kernel_extension','Non-trivial case: a path with a colon and a negative priority.')
c('C338','partial','Verif.Conf.C338_colon_in_path_partial','Refuted: refused, or another file is read.')
c('C339','proved','Verif.Conf.C339_library_directory','Non-trivial case: {exedir}/l.')
c('C340','partial','Verif.Conf.C340_absolute_rest_partial','Refuted: {exedir}//lib is /lib.')
c('C341','proved','Verif.Conf.C341_refused_options','The number of MPI ranks is not modelled.')
c('C342','proved','Verif.Lower.C342_kernel_calls Verif.Lower.C342_kernel_calls_run','Refinement of a big-step semantics, for arbitrary kernels. Non-trivial case: a loop with a pack and a call with two results.')
c('C343','proved','Verif.Lower.C343_string_constants','Non-trivial case: hi.')
c('C344','proved','Verif.Lower.C344_pipeline_inputs','Extending float to double and back is a parameter. Non-trivial case: a split matrix, a negative si8 and a double.')
c('C345','partial','Verif.Lower.C345_single_precision_cuda_partial','Refuted for every normal number.')
c('C346','partial','Verif.Lower.C346_strings_in_pipelines_partial','Refuted: the characters are used as an object.')
c('C347','partial','Verif.Lower.C347_pipeline_result_types_partial','Refuted, with the exact condition.')
c('C348','proved','Verif.Views.C348_views Verif.Views.C348_rejected','Simulation between the program as written and the program after the pass. Non-trivial case: demo, a name registered twice, queries in a loop and in a branch.')
c('C349','partial','Verif.Views.C349_control_flow_partial','Refuted for all frames: loops, branches not taken, unregistered views.')
c('C350','partial','Verif.Views.C350_second_program_partial','Refuted: the table is a variable of the process.')
c('C351','proved','Verif.StrRef.C351_freed Verif.StrRef.C351_last Verif.StrRef.C351_forgotten','Invariant over all legal histories. Non-trivial case: exHist, an address used twice.')
c('C352','proved','Verif.DistPipe.C352_distribute','Non-trivial case: exBody, where a constant is an operand and is returned.')
c('C353','proved','Verif.Interop.C353_receive Verif.Interop.C353_return Verif.Interop.C353_round_trip','Non-trivial case: exArr.')
c('C354','partial','Verif.Interop.C354_transposed_partial','Refuted for all square arrays that are not symmetric.')
c('C355','partial','Verif.Interop.C355_columns_partial','Refuted for all ranges of columns that do not end with the last one.')
c('C356','partial','Verif.Interop.C356_sixteen_bits_partial','Refuted for all non-empty arrays.')
c('C357','proved','Verif.Interop.C357_memref','Non-trivial case: exM.')
c('C358','partial','Verif.Interop.C358_columns_partial','Refuted for all ranges of columns that do not end with the last one.')
c('C359','proved','Verif.Interop.C359_sparse','Includes row views.')
c('C360','proved','Verif.Interop.C360_map Verif.Interop.C360_map_fails','Non-trivial case: a function numbering its calls on a view.')
c('C361','proved','Verif.Chunk.C361_create Verif.Chunk.C361_element_access Verif.Chunk.C361_other_chunks Verif.Chunk.C361_set','Positions are injective and inside the memory (mixed radix). Non-trivial case: exT, chunks that overhang in both dimensions.')
c('C362','partial','Verif.Chunk.C362_tryGet_out_of_range_partial','Refuted for all one-dimensional tensors and indexes behind the last chunk: the flag is read first.')
c('C363','partial','Verif.Chunk.C363_equal_compares_padding_partial Verif.Chunk.C363_padding_all_partial','Refuted, for all one-dimensional tensors with an overhanging chunk: the memory behind the last element is compared.')
c('C364','partial','Verif.Chunk.C364_trySetChunk_out_of_range_partial','Refuted for all one-dimensional tensors with fewer chunks than elements.')
c('C365','partial','Verif.Chunk.C365_from_matrix_partial','Refuted for all matrices with columns: an empty vector is read.')
c('C366','partial','Verif.Chunk.C366_set_rank_zero_partial','Refuted for all tensors of rank zero; the checked write works.')
c('C367','partial','Verif.Chunk.C367_reverse_bytes_partial','Refuted for every element of every memory: bytes are moved one too far, the byte behind the element is overwritten.')
c('C368','proved','Verif.Chunk.C368_trySetChunk','Non-trivial case: the chunk of exT that has not been loaded.')
c('C369','proved','Verif.Chunk.C369_equal','For overhanging chunks see C363. Non-trivial case: two tensors of two chunks that differ in the last element.')
c('C370','proved','Verif.Chunk.C370_rechunk','Unchecked reads always, checked reads if there are not more chunks than before (see C371). Non-trivial case: exR.')
c('C371','partial','Verif.Chunk.C371_rechunk_flags_partial','Refuted for all one-dimensional tensors that get more chunks: the flags keep their old size.')
c('C372','partial','Verif.Chunk.C372_dice_two_dimensions_partial','Refuted for all contents of a two-dimensional tensor: uninitialised memory is shown.')
c('C373','proved','Verif.Chunk.C373_dice_one_dimension','Non-trivial case: exR, old and new chunks that do not fit.')
c('C374','partial','Verif.Chunk.C374_dice_chunks_invisible_partial','Refuted for every result of rank at least one.')
c('C375','partial','Verif.Chunk.C375_dice_chunks_marks_partial','Refuted for all contents: a chunk that has not been loaded becomes visible.')
c('C376','proved','Verif.Chunk.C376_logical_equal','Both directions. Non-trivial case: an overhanging chunk.')

{
 "claims": [
  {
   "property": "C01",
   "status": "proved",
   "theorems": [
    "Verif.Sched.C01_tasks_tile_rows",
    "Verif.Sched.C01_tasks_tile_rows_any_formula",
    "Verif.Sched.C01_static_rounds_down"
   ],
   "note": "FISS with a single stage is C39; the any_formula theorem covers whatever value the conversion yields."
  },
  {
   "property": "C02",
   "status": "proved",
   "theorems": [
    "Verif.Sched.C02_prepartition_tiles"
   ],
   "note": ""
  },
  {
   "property": "C03",
   "status": "proved",
   "theorems": [
    "Verif.Sched.C03_distribute_balanced",
    "Verif.Sched.C03_broadcast_full",
    "Verif.Sched.C03_no_workers_undefined"
   ],
   "note": ""
  },
  {
   "property": "C04",
   "status": "proved",
   "theorems": [
    "Verif.Sched.C04_output_rows_tiled",
    "Verif.Sched.C04_output_cols_tiled",
    "Verif.Sched.C04_other_combines_throw"
   ],
   "note": ""
  },
  {
   "property": "C05",
   "status": "proved",
   "theorems": [
    "Verif.Queue.C05_fifo",
    "Verif.Queue.C05_outcomes"
   ],
   "note": ""
  },
  {
   "property": "C06",
   "status": "proved",
   "theorems": [
    "Verif.Queue.C06_each_task_executed_once",
    "Verif.Queue.C06_never_executed_twice",
    "Verif.Queue.C06_starts_valid"
   ],
   "note": "Start queue indices are C41. RANDOM policies assume at most 256 queues (size of eofWorkers)."
  },
  {
   "property": "C07",
   "status": "proved",
   "theorems": [
    "Verif.Queue.C07_no_deadlock",
    "Verif.Queue.C07_bounded_executions",
    "Verif.Queue.C07_final_reachable",
    "Verif.Queue.C07_engine_capacity",
    "Verif.Queue.C07_small_capacity_deadlock"
   ],
   "note": "Capacity hypothesis is what the engine uses; for smaller capacities the queue can deadlock (C07_small_capacity_deadlock)."
  },
  {
   "property": "C18",
   "status": "proved",
   "theorems": [
    "Verif.Dense.C18_views_are_windows",
    "Verif.Dense.C18_equality_means_same_contents",
    "Verif.Dense.C18_shrunk_view_reads_wrong_row"
   ],
   "note": "All histories of slice/get/set on the original and all views, plus shrinkNumRows on the original. shrinkNumRows on a view breaks get (finding C18_shrunk_view_reads_wrong_row)."
  },
  {
   "property": "C19",
   "status": "proved",
   "theorems": [
    "Verif.Dense.C19_append_in_order"
   ],
   "note": ""
  },
  {
   "property": "C20",
   "status": "proved",
   "theorems": [
    "Verif.Dense.C20_sliceRow",
    "Verif.Dense.C20_sliceCol"
   ],
   "note": ""
  },
  {
   "property": "C21",
   "status": "proved",
   "theorems": [
    "Verif.Dense.C21_colBind"
   ],
   "note": ""
  },
  {
   "property": "C22",
   "status": "proved",
   "theorems": [
    "Verif.Dense.C22_filterRow",
    "Verif.Dense.C22_filterCol",
    "Verif.Dense.C22_filter_rejects",
    "Verif.Dense.C22_selection_value_two_exposes_junk"
   ],
   "note": ""
  },
  {
   "property": "C23",
   "status": "proved",
   "theorems": [
    "Verif.Dense.C23_extractRow",
    "Verif.Dense.C23_extractCol"
   ],
   "note": "Strided selections are C40."
  },
  {
   "property": "C24",
   "status": "proved",
   "theorems": [
    "Verif.Dense.C24_insertRow",
    "Verif.Dense.C24_insertCol",
    "Verif.Dense.C24_negative_range_to_zero_differs_from_slicing"
   ],
   "note": ""
  },
  {
   "property": "C25",
   "status": "proved",
   "theorems": [
    "Verif.Dense.C25_transpose",
    "Verif.Dense.C25_transpose_twice"
   ],
   "note": ""
  },
  {
   "property": "C36",
   "status": "partial",
   "theorems": [
    "Verif.Dense.C36_rowBind_partial",
    "Verif.Dense.C36_rowBind_column_view_wrong"
   ],
   "note": "False of the code for column views (refuted by C36_rowBind_column_view_wrong); proved for operands whose rows are adjacent in memory."
  },
  {
   "property": "C37",
   "status": "partial",
   "theorems": [
    "Verif.Dense.C37_append_all_cells_partial",
    "Verif.Dense.C37_column_view_gap_not_zeroed"
   ],
   "note": "False of the code for sequences with gaps (refuted by C37_column_view_gap_not_zeroed); proved for sequences that append every cell."
  },
  {
   "property": "C08",
   "status": "proved",
   "theorems": [
    "Verif.Vect.C08_rows_cols_combined",
    "Verif.Vect.C08_C09_completable",
    "Verif.Vect.C08_batch_size_positive",
    "Verif.Vect.C08_empty_input_undefined",
    "Verif.Vect.C08_batch_size_truncated_to_zero"
   ],
   "note": "Tasks interleaved at the granularity of single cell writes; any tiling of the rows (C01), any batch sizes >= 1."
  },
  {
   "property": "C09",
   "status": "proved",
   "theorems": [
    "Verif.Vect.C09_aggregated",
    "Verif.Vect.C09_allocated_output",
    "Verif.Vect.C08_C09_completable"
   ],
   "note": "For associative and commutative operations (integers); floating-point addition is not associative."
  },
  {
   "property": "C38",
   "status": "partial",
   "theorems": [
    "Verif.Dense.C38_ewBinaryMat_partial",
    "Verif.Dense.C38_ewBinaryMat_inPlace",
    "Verif.Dense.C38_ewBinaryObjSca",
    "Verif.Dense.C38_ewUnaryMat",
    "Verif.Dense.C38_left_vector_wrong",
    "Verif.Dense.C38_left_vector_empty_undefined"
   ],
   "note": "False of the code when the left operand is the vector (refuted by C38_left_vector_wrong); proved for all other cases."
  },
  {
   "property": "C39",
   "status": "partial",
   "theorems": [
    "Verif.Sched.C01_tasks_tile_rows",
    "Verif.Sched.C01_fiss_undefined"
   ],
   "note": "Refuted: with one stage the formula divides by zero (C01_fiss_undefined)."
  },
  {
   "property": "C40",
   "status": "partial",
   "theorems": [
    "Verif.Dense.C23_strided_selection_misread"
   ],
   "note": "Refuted by a concrete strided selection that is misread; nothing positive beyond C23 holds."
  },
  {
   "property": "C41",
   "status": "partial",
   "theorems": [
    "Verif.Queue.C06_starts_valid",
    "Verif.Queue.C06_pergroup_index_out_of_range"
   ],
   "note": "Proved for CENTRALIZED and PERCPU; refuted for PERGROUP with non-contiguous physical ids."
  },
  {
   "property": "C12",
   "status": "proved",
   "theorems": [
    "Verif.Csr.C12_C14_views_are_windows",
    "Verif.Csr.C12_C14_views_are_windows_any"
   ],
   "note": "All call histories; capacity hypothesis as in the property; C42 is the carved-out case of clearing an entry of a full matrix."
  },
  {
   "property": "C13",
   "status": "proved",
   "theorems": [
    "Verif.Csr.C13_append_in_order",
    "Verif.Csr.C13_append_through_view"
   ],
   "note": "C43/C44 are the carved-out cases."
  },
  {
   "property": "C14",
   "status": "proved",
   "theorems": [
    "Verif.Csr.C12_C14_views_are_windows",
    "Verif.Csr.C12_C14_views_are_windows_any"
   ],
   "note": "All nestings of row views, all histories."
  },
  {
   "property": "C15",
   "status": "partial",
   "theorems": [
    "Verif.Csr.C15_equality_partial",
    "Verif.Csr.C15_different_rows_compare_equal"
   ],
   "note": "False of the code (row offsets are not compared: C15_different_rows_compare_equal). Proved: equal contents always compare equal (without explicit zeros) and the comparison is defined."
  },
  {
   "property": "C16",
   "status": "proved",
   "theorems": [
    "Verif.Csr.C16_transpose"
   ],
   "note": "Originals and row views."
  },
  {
   "property": "C17",
   "status": "proved",
   "theorems": [
    "Verif.Csr.C17_rowBind",
    "Verif.Csr.C17_colBind"
   ],
   "note": "Originals and direct row views; colBind also nested views; C45 is the carved-out case."
  },
  {
   "property": "C42",
   "status": "partial",
   "theorems": [
    "Verif.Csr.C42_clear_full_matrix_undefined"
   ],
   "note": "Refuted by a concrete full matrix; with spare capacity see C12."
  },
  {
   "property": "C43",
   "status": "partial",
   "theorems": [
    "Verif.Csr.C43_append_zero_rows_undefined"
   ],
   "note": "Refuted for every matrix without rows."
  },
  {
   "property": "C44",
   "status": "partial",
   "theorems": [
    "Verif.Csr.C44_append_through_nested_view_corrupts"
   ],
   "note": "Refuted by a concrete nested view; direct views see C13."
  },
  {
   "property": "C45",
   "status": "partial",
   "theorems": [
    "Verif.Csr.C45_rowBind_nested_view_wrong"
   ],
   "note": "Refuted by a concrete nested view; other views see C17."
  },
  {
   "property": "C10",
   "status": "proved",
   "theorems": [
    "Verif.Csr.C10_sink_rows",
    "Verif.Csr.C10_pipeline_rows",
    "Verif.Csr.C10_C11_rejected"
   ],
   "note": "All tilings, all insertion orders; C46 is the carved-out case of view results."
  },
  {
   "property": "C11",
   "status": "proved",
   "theorems": [
    "Verif.Csr.C11_sink_cols",
    "Verif.Csr.C11_pipeline_cols",
    "Verif.Csr.C10_C11_rejected"
   ],
   "note": "All tilings, all insertion orders."
  },
  {
   "property": "C46",
   "status": "partial",
   "theorems": [
    "Verif.Csr.C46_row_view_result_wrong"
   ],
   "note": "Refuted by a concrete row view; other partial results see C10."
  },
  {
   "property": "C47",
   "status": "proved",
   "theorems": [
    "Verif.Csr.C47_add",
    "Verif.Csr.C47_mul",
    "Verif.Csr.C47_mulDense"
   ],
   "note": "Value type abstract with the zero laws of + and *; for floats 0*inf and 0*nan are outside the hypotheses."
  },
  {
   "property": "C48",
   "status": "partial",
   "theorems": [
    "Verif.Csr.C48_dense_result_partial",
    "Verif.Csr.C48_minimum_wrong",
    "Verif.Csr.C48_equality_wrong"
   ],
   "note": "False of the code: sparsity preservation is tested only by 0 op 1 == 0, so MIN with a negative cell and EQ with a zero cell give 0. Proved for all operations where 0 op 1 == 0 implies 0 op b == 0 for all b."
  },
  {
   "property": "C27",
   "status": "proved",
   "theorems": [
    "Verif.Obj.C27_calls_succeed",
    "Verif.Obj.C27_lifetime",
    "Verif.Obj.C27_remove_rejects",
    "Verif.Obj.C27_no_leak"
   ],
   "note": "All histories of list and reference operations; sequential."
  },
  {
   "property": "C28",
   "status": "proved",
   "theorems": [
    "Verif.Front.C28_lookup",
    "Verif.Front.C28_pop_reports",
    "Verif.Front.C28_restores",
    "Verif.Front.C28_getSymbol"
   ],
   "note": "All histories of symbol-table operations."
  },
  {
   "property": "C29",
   "status": "proved",
   "theorems": [
    "Verif.Col.C29_select",
    "Verif.Col.C29_selectCmp",
    "Verif.Col.C29_project",
    "Verif.Col.C29_select_project"
   ],
   "note": "All columns; comparison by code over integers, arbitrary predicate over any value type."
  },
  {
   "property": "C30",
   "status": "proved",
   "theorems": [
    "Verif.Col.C30_intersect",
    "Verif.Col.C30_merge"
   ],
   "note": ""
  },
  {
   "property": "C31",
   "status": "proved",
   "theorems": [
    "Verif.Col.C31_semiJoin",
    "Verif.Col.C31_join"
   ],
   "note": "Duplicate right keys: C50."
  },
  {
   "property": "C32",
   "status": "proved",
   "theorems": [
    "Verif.Col.C32_groupFirst",
    "Verif.Col.C32_groupNext",
    "Verif.Col.C32_groupBy"
   ],
   "note": "Any number of grouping columns."
  },
  {
   "property": "C33",
   "status": "proved",
   "theorems": [
    "Verif.Col.C33_aggGrp",
    "Verif.Col.C33_split_sum",
    "Verif.Col.C33_split_equals_plain"
   ],
   "note": "Signed overflow modelled as two-complement wrap-around; boundary id: C49."
  },
  {
   "property": "C49",
   "status": "partial",
   "theorems": [
    "Verif.Col.C49_boundary_id_undefined"
   ],
   "note": "Refuted for every number of groups and every aggregation."
  },
  {
   "property": "C50",
   "status": "partial",
   "theorems": [
    "Verif.Col.C50_duplicate_keys_lost"
   ],
   "note": "Refuted by concrete columns; unique right keys: C31."
  },
  {
   "property": "C34",
   "status": "proved",
   "theorems": [
    "Verif.Ser.C34_dense_one_piece",
    "Verif.Ser.C34_dense_file",
    "Verif.Ser.C34_dense_any_order",
    "Verif.Ser.C34_csr_one_piece",
    "Verif.Ser.C34_csr_length",
    "Verif.Ser.C34_csr_file",
    "Verif.Ser.C34_csr_any_order"
   ],
   "note": "Byte-level model. Frames are not supported by the serializer (it throws). Exceptions carved out as C51-C54."
  },
  {
   "property": "C51",
   "status": "partial",
   "theorems": [
    "Verif.Ser.C51_row_skip_ignored",
    "Verif.Ser.C51_column_view_wrong_partial"
   ],
   "note": "Refuted; what is loaded instead is proved for every view."
  },
  {
   "property": "C52",
   "status": "partial",
   "theorems": [
    "Verif.Ser.C52_dims_truncated_partial"
   ],
   "note": "Refuted: dimensions are kept modulo 2^32, for every dense matrix."
  },
  {
   "property": "C53",
   "status": "partial",
   "theorems": [
    "Verif.Ser.C53_spare_capacity_endless_partial"
   ],
   "note": "Refuted for every such matrix and chunk size."
  },
  {
   "property": "C54",
   "status": "partial",
   "theorems": [
    "Verif.Ser.C54_alloc_overflow_partial"
   ],
   "note": "Refuted for every sparse matrix."
  },
  {
   "property": "C35",
   "status": "proved",
   "theorems": [
    "Verif.Io.C35_ints",
    "Verif.Io.C35_strings",
    "Verif.Io.C35_frame"
   ],
   "note": "atoi and printf as in glibc on x86-64. Floating-point columns not modelled. Exceptions: C55, C56."
  },
  {
   "property": "C55",
   "status": "partial",
   "theorems": [
    "Verif.Io.C55_ints_modulo",
    "Verif.Io.C55_int64_wrong_partial"
   ],
   "note": "Refuted; what is read instead (value modulo 2^32) is proved for all values."
  },
  {
   "property": "C56",
   "status": "partial",
   "theorems": [
    "Verif.Io.C56_carriage_return_lost_partial",
    "Verif.Io.C56_backslash_end_partial",
    "Verif.Io.C56_backslash_quote_partial"
   ],
   "note": "Refuted for every such string (with admissible first part)."
  },
  {
   "property": "C57",
   "status": "proved",
   "theorems": [
    "Verif.Io.C57_sorted",
    "Verif.Io.C57_unsorted",
    "Verif.Io.C57_unsorted_rejects"
   ],
   "note": "Priority queue modelled by sorting."
  },
  {
   "property": "C58",
   "status": "partial",
   "theorems": [
    "Verif.Io.C58_sorted_row_out_of_bounds_partial"
   ],
   "note": "Refuted: undefined behaviour for every row outside the matrix."
  },
  {
   "property": "C59",
   "status": "proved",
   "theorems": [
    "Verif.Front.script_accepted_iff"
   ],
   "note": "Type checks of the parser are not modelled."
  },
  {
   "property": "C60",
   "status": "proved",
   "theorems": [
    "Verif.Front.script_translation_ends",
    "Verif.Front.script_translation_diverges",
    "Verif.Front.script_never_unbound",
    "Verif.Front.code_ends_unique",
    "Verif.Front.script_ends_unique"
   ],
   "note": "The meaning of scf.if, scf.while, scf.for is trusted. For-loops with bounds at the ends of the 64-bit range are left undefined here; see C61. Functions, early returns, imports are not modelled."
  },
  {
   "property": "C61",
   "status": "partial",
   "theorems": [
    "Verif.Front.for_overflow_skips_partial"
   ],
   "note": "Refuted for every lower bound."
  },
  {
   "property": "C62",
   "status": "proved",
   "theorems": [
    "Verif.Front.script_code_valid"
   ],
   "note": ""
  },
  {
   "property": "C26",
   "status": "proved",
   "theorems": [
    "Verif.Ref.C26_reference_counting"
   ],
   "note": "Vectorized pipelines are kernel calls; their bodies get the treatment of function bodies. References held by lists are the subject of C27. Values of unknown type, memref interop and the distributed worker are not modelled."
  },
  {
   "property": "C63",
   "status": "partial",
   "theorems": [
    "Verif.Ref.C63_copies_freed_partial"
   ],
   "note": "Refuted: one program per case."
  },
  {
   "property": "C64",
   "status": "partial",
   "theorems": [
    "Verif.Ref.C26_reference_counting",
    "Verif.Ref.C64_number_of_incs",
    "Verif.Ref.C64_three_copies_leak_partial"
   ],
   "note": "Holds for up to two copies (C26), refuted for three."
  },
  {
   "property": "C65",
   "status": "proved",
   "theorems": [
    "Verif.Rel.C65_order_indexes",
    "Verif.Rel.C65_order_rows",
    "Verif.Rel.stable_sort_unique"
   ],
   "note": "std::stable_sort is modelled by merge sort; stable_sort_unique shows that every stable sort gives the same list. Column positions must exist (the kernel does not check them)."
  },
  {
   "property": "C66",
   "status": "proved",
   "theorems": [
    "Verif.Rel.C66_group_by",
    "Verif.Rel.C66_star_expansion"
   ],
   "note": "Cells and their operations (comparison, addition, ...) are abstract. The hypothesis on the array of sort directions is not guaranteed by the language, see C67."
  },
  {
   "property": "C67",
   "status": "partial",
   "theorems": [
    "Verif.Rel.C67_group_heap_overflow_partial",
    "Verif.Rel.C67_group_sum_of_strings_partial",
    "Verif.Rel.C67_group_min_of_nothing_partial",
    "Verif.Rel.C67_group_default_label_partial"
   ],
   "note": "Refuted for every clause, for all frames."
  },
  {
   "property": "C68",
   "status": "partial",
   "theorems": [
    "Verif.Rel.C68_order_nan_hangs_partial"
   ],
   "note": "Refuted: for every column with a NaN that is scanned for groups, the loop never ends."
  },
  {
   "property": "C69",
   "status": "proved",
   "theorems": [
    "Verif.Rel.C69_create_labels",
    "Verif.Rel.C69_bind_labels",
    "Verif.Rel.C69_set_labels",
    "Verif.Rel.C69_from_matrices",
    "Verif.Rel.C69_select",
    "Verif.Rel.C69_select_throws"
   ],
   "note": ""
  },
  {
   "property": "C70",
   "status": "partial",
   "theorems": [
    "Verif.Rel.C69_select",
    "Verif.Rel.C70_duplicate_default_label_partial"
   ],
   "note": "Holds if no selected label has the form col_k (C69); refuted for every frame with a column col_1."
  },
  {
   "property": "C71",
   "status": "proved",
   "theorems": [
    "Verif.Rel.C71_cartesian"
   ],
   "note": "Cells are abstract values."
  },
  {
   "property": "C72",
   "status": "proved",
   "theorems": [
    "Verif.Rel.C72_inner_join",
    "Verif.Rel.C72_inner_join_throws"
   ],
   "note": ""
  },
  {
   "property": "C73",
   "status": "proved",
   "theorems": [
    "Verif.Rel.C73_theta_join"
   ],
   "note": "Conversion between value types is an abstract total function; in C++ it is undefined for floating-point values the integer type cannot represent. Raw access to column arrays is bounds-checked in the model."
  },
  {
   "property": "C74",
   "status": "partial",
   "theorems": [
    "Verif.Rel.C71_cartesian",
    "Verif.Rel.C72_inner_join",
    "Verif.Rel.C74_cartesian_other_types_partial",
    "Verif.Rel.C74_inner_join_other_types_partial"
   ],
   "note": "Holds for the types in C71 and C72; refuted for all frames with columns of other types: their result columns are uninitialized."
  },
  {
   "property": "C75",
   "status": "partial",
   "theorems": [
    "Verif.Rel.C75_theta_no_condition_partial",
    "Verif.Rel.C75_theta_mixed_types_partial"
   ],
   "note": "Both clauses refuted."
  },
  {
   "property": "C76",
   "status": "proved",
   "theorems": [
    "Verif.Rel.C76_semi_join"
   ],
   "note": ""
  },
  {
   "property": "C77",
   "status": "proved",
   "theorems": [
    "Verif.Rel.C77_group_join"
   ],
   "note": ""
  },
  {
   "property": "C78",
   "status": "partial",
   "theorems": [
    "Verif.Rel.C76_semi_join",
    "Verif.Rel.C77_group_join",
    "Verif.Rel.C78_semi_join_types_partial",
    "Verif.Rel.C78_group_join_types_partial"
   ],
   "note": "Refuted for all other types."
  },
  {
   "property": "C79",
   "status": "proved",
   "theorems": [
    "Verif.Agg.C79_all_dense",
    "Verif.Agg.C79_all_dense_uses_each_cell_once",
    "Verif.Agg.C79_all_rejects_positions",
    "Verif.Agg.C79_minimum_of_int64",
    "Verif.Agg.C79_mean_of_ints",
    "Verif.Agg.int64_lawful",
    "Verif.Agg.rat_lawful"
   ],
   "note": "Arithmetic is a parameter; laws assumed where stated, proved for wrap-around int64 and for rational numbers. Signed overflow is not modelled as undefined behaviour."
  },
  {
   "property": "C80",
   "status": "proved",
   "theorems": [
    "Verif.Agg.C80_all_sparse"
   ],
   "note": ""
  },
  {
   "property": "C81",
   "status": "proved",
   "theorems": [
    "Verif.Agg.C81_row_dense",
    "Verif.Agg.C81_row_dense_left_to_right",
    "Verif.Agg.C81_row_sparse"
   ],
   "note": ""
  },
  {
   "property": "C82",
   "status": "proved",
   "theorems": [
    "Verif.Agg.C82_col_dense",
    "Verif.Agg.C82_col_dense_top_to_bottom",
    "Verif.Agg.C82_col_sparse"
   ],
   "note": ""
  },
  {
   "property": "C83",
   "status": "proved",
   "theorems": [
    "Verif.Agg.C83_row_positions",
    "Verif.Agg.C83_col_positions",
    "Verif.Agg.C83_sparse_rejects_positions"
   ],
   "note": "The comparison must be a strict weak order (no NaN)."
  },
  {
   "property": "C84",
   "status": "proved",
   "theorems": [
    "Verif.Agg.C84_cumulative"
   ],
   "note": ""
  },
  {
   "property": "C85",
   "status": "partial",
   "theorems": [
    "Verif.Agg.C85_row_no_columns_partial",
    "Verif.Agg.C85_col_no_rows_partial",
    "Verif.Agg.C85_mean_of_nothing_partial"
   ],
   "note": "Refuted: out-of-bounds read (row-wise, column-wise, cumulative) or division by zero (full integer mean), for all such shapes."
  },
  {
   "property": "C86",
   "status": "partial",
   "theorems": [
    "Verif.Agg.C86_infinite_neutral_partial"
   ],
   "note": "Refuted: undefined conversion of infinity for every non-empty matrix. Only reachable through the kernel interface; DaphneDSL casts the argument first."
  },
  {
   "property": "C87",
   "status": "partial",
   "theorems": [
    "Verif.Agg.C87_integer_mean_of_negatives_partial"
   ],
   "note": "Refuted for every negative sum of at least two cells: the division is unsigned. Only reachable through the kernel interface; DaphneDSL computes means in floating point."
  },
  {
   "property": "C88",
   "status": "proved",
   "theorems": [
    "Verif.Shape.C88_reshape"
   ],
   "note": ""
  },
  {
   "property": "C89",
   "status": "proved",
   "theorems": [
    "Verif.Shape.C89_reshape_sparse"
   ],
   "note": ""
  },
  {
   "property": "C90",
   "status": "partial",
   "theorems": [
    "Verif.Shape.C90_reshape_nested_view_partial"
   ],
   "note": "Refuted: a full slice of a row view is not recognised as a view; its reshape shows other rows."
  },
  {
   "property": "C91",
   "status": "proved",
   "theorems": [
    "Verif.Shape.C91_reverse"
   ],
   "note": ""
  },
  {
   "property": "C92",
   "status": "partial",
   "theorems": [
    "Verif.Shape.C92_reverse_no_columns_partial"
   ],
   "note": "Refuted: out-of-bounds write for the zero-column view of a one-column matrix."
  },
  {
   "property": "C93",
   "status": "proved",
   "theorems": [
    "Verif.Shape.C93_tri",
    "Verif.Shape.C93_tri_sparse"
   ],
   "note": ""
  },
  {
   "property": "C94",
   "status": "proved",
   "theorems": [
    "Verif.Shape.C94_diagMatrix",
    "Verif.Shape.C94_diagMatrix_sparse",
    "Verif.Shape.C94_diagMatrix_to_sparse",
    "Verif.Shape.C94_diagVector",
    "Verif.Shape.C94_diagVector_sparse",
    "Verif.Shape.C94_diag_round_trip"
   ],
   "note": ""
  },
  {
   "property": "C95",
   "status": "proved",
   "theorems": [
    "Verif.Shape.C95_fill",
    "Verif.Shape.C95_fill_sparse"
   ],
   "note": ""
  },
  {
   "property": "C96",
   "status": "proved",
   "theorems": [
    "Verif.Shape.C96_seq"
   ],
   "note": "Integers without overflow; floating-point sequences are not modelled."
  },
  {
   "property": "C97",
   "status": "proved",
   "theorems": [
    "Verif.Shape.C97_outerBinary"
   ],
   "note": ""
  },
  {
   "property": "C98",
   "status": "proved",
   "theorems": [
    "Verif.Shape.C98_cond"
   ],
   "note": ""
  },
  {
   "property": "C99",
   "status": "proved",
   "theorems": [
    "Verif.Shape.C99_replace",
    "Verif.Shape.C99_replace_sparse"
   ],
   "note": ""
  },
  {
   "property": "C100",
   "status": "partial",
   "theorems": [
    "Verif.Shape.C100_replace_nothing_partial"
   ],
   "note": "Refuted for all such matrices: the kernel returns without creating a result (null pointer)."
  },
  {
   "property": "C101",
   "status": "partial",
   "theorems": [
    "Verif.Shape.C101_replace_row_view_partial"
   ],
   "note": "Refuted: entries are copied from the start of the shared arrays, offsets are copied unshifted."
  },
  {
   "property": "C102",
   "status": "proved",
   "theorems": [
    "Verif.Shape.C102_cast_dense"
   ],
   "note": ""
  },
  {
   "property": "C103",
   "status": "proved",
   "theorems": [
    "Verif.Shape.C103_cast_to_dense",
    "Verif.Shape.C103_cast_to_sparse",
    "Verif.Shape.C103_cast_round_trip"
   ],
   "note": ""
  },
  {
   "property": "C104",
   "status": "proved",
   "theorems": [
    "Verif.Shape.C104_cast_sparse_square"
   ],
   "note": ""
  },
  {
   "property": "C105",
   "status": "partial",
   "theorems": [
    "Verif.Shape.C105_cast_sparse_rectangle_partial"
   ],
   "note": "Refuted for all sparse matrices that are not square: wrong shape or out-of-bounds write."
  },
  {
   "property": "C106",
   "status": "proved",
   "theorems": [
    "Verif.Shape.C106_ctable",
    "Verif.Shape.C106_ctable_sparse"
   ],
   "note": ""
  },
  {
   "property": "C107",
   "status": "proved",
   "theorems": [
    "Verif.Shape.C107_posList_to_bitmap"
   ],
   "note": ""
  },
  {
   "property": "C108",
   "status": "proved",
   "theorems": [
    "Verif.Shape.C108_bitmap_to_posList",
    "Verif.Shape.C108_round_trip"
   ],
   "note": ""
  },
  {
   "property": "C109",
   "status": "partial",
   "theorems": [
    "Verif.Shape.C109_posList_boundary_partial"
   ],
   "note": "Refuted: position n passes the check and is written behind the end."
  },
  {
   "property": "C110",
   "status": "partial",
   "theorems": [
    "Verif.Shape.C110_ctable_column_view_partial"
   ],
   "note": "Refuted: rowSkip is ignored."
  },
  {
   "property": "C111",
   "status": "partial",
   "theorems": [
    "Verif.Shape.C111_ctable_coordinates_partial"
   ],
   "note": "Refuted: negative coordinates write elsewhere; no rows are read out of bounds."
  },
  {
   "property": "C112",
   "status": "proved",
   "theorems": [
    "Verif.Shape.C112_oneHot"
   ],
   "note": "Dense numeric specialisation."
  },
  {
   "property": "C113",
   "status": "proved",
   "theorems": [
    "Verif.Shape.C113_recode"
   ],
   "note": ""
  },
  {
   "property": "C114",
   "status": "proved",
   "theorems": [
    "Verif.Shape.C114_recode_ordered"
   ],
   "note": ""
  },
  {
   "property": "C115",
   "status": "partial",
   "theorems": [
    "Verif.Shape.C115_recode_nan_partial"
   ],
   "note": "Refuted: a NaN in the first row absorbs every other value."
  },
  {
   "property": "C116",
   "status": "proved",
   "theorems": [
    "Verif.Shape.C116_bin"
   ],
   "note": "Exact arithmetic."
  },
  {
   "property": "C117",
   "status": "partial",
   "theorems": [
    "Verif.Shape.C117_bin_overflow_partial",
    "Verif.Shape.C117_bin_int_partial"
   ],
   "note": "Refuted: v - min and max - min overflow; proved where they do not."
  },
  {
   "property": "C118",
   "status": "proved",
   "theorems": [
    "Verif.Shape.C118_quantize"
   ],
   "note": "Exact arithmetic."
  },
  {
   "property": "C119",
   "status": "partial",
   "theorems": [
    "Verif.Shape.C119_quantize_range_partial"
   ],
   "note": "Refuted for every range with min >= 0 >= max: scale 0, NaN converted to an integer."
  },
  {
   "property": "C120",
   "status": "proved",
   "theorems": [
    "Verif.Ir.C120_fold_cast"
   ],
   "note": ""
  },
  {
   "property": "C121",
   "status": "partial",
   "theorems": [
    "Verif.Ir.C121_fold_cast_sign_partial",
    "Verif.Ir.C121_fold_compare_partial"
   ],
   "note": "Refuted for all such constants: extended with zeros."
  },
  {
   "property": "C122",
   "status": "proved",
   "theorems": [
    "Verif.Ir.C122_fold_binary"
   ],
   "note": ""
  },
  {
   "property": "C123",
   "status": "partial",
   "theorems": [
    "Verif.Ir.C123_fold_mod_partial"
   ],
   "note": "Refuted: run time uses fmod on doubles."
  },
  {
   "property": "C124",
   "status": "partial",
   "theorems": [
    "Verif.Ir.C124_fold_bool_add_partial"
   ],
   "note": "Refuted: addition modulo 2 in the compiler."
  },
  {
   "property": "C125",
   "status": "partial",
   "theorems": [
    "Verif.Ir.C125_fold_minmax_partial"
   ],
   "note": "True unless exactly the right operand is NaN; refuted there."
  },
  {
   "property": "C126",
   "status": "proved",
   "theorems": [
    "Verif.Ir.C126_fold_cast_float"
   ],
   "note": "Doubles as rationals."
  },
  {
   "property": "C127",
   "status": "partial",
   "theorems": [
    "Verif.Ir.C127_fold_float_bool_partial"
   ],
   "note": "Refuted: low bit of the truncated value; int64_t conversion of values from 2^63 on."
  },
  {
   "property": "C128",
   "status": "proved",
   "theorems": [
    "Verif.Ir.C128_dedup_preserves",
    "Verif.Ir.C128_no_duplicates"
   ],
   "note": ""
  },
  {
   "property": "C129",
   "status": "partial",
   "theorems": [
    "Verif.Ir.C129_dedup_confuses_splits_partial"
   ],
   "note": "Refuted: the split is looked up by a shifted position."
  },
  {
   "property": "C130",
   "status": "proved",
   "theorems": [
    "Verif.Ir.C130_unused_results"
   ],
   "note": ""
  },
  {
   "property": "C131",
   "status": "proved",
   "theorems": [
    "Verif.Ir.C131_scalar_minus_matrix"
   ],
   "note": ""
  },
  {
   "property": "C132",
   "status": "partial",
   "theorems": [
    "Verif.Ir.C132_scalar_minus_matrix_partial"
   ],
   "note": "Refuted for every negative a with the smallest number, and for true - true."
  },
  {
   "property": "C133",
   "status": "partial",
   "theorems": [
    "Verif.Ir.C133_scalar_div_matrix_partial"
   ],
   "note": "Proved (exact arithmetic with overflow) if 1/x is finite; refuted otherwise."
  },
  {
   "property": "C134",
   "status": "partial",
   "theorems": [
    "Verif.Ir.C134_add_unknown_left_partial"
   ],
   "note": "Refuted for every matrix with two or more rows plus a row vector, if the type of the left operand is unknown."
  },
  {
   "property": "C135",
   "status": "proved",
   "theorems": [
    "Verif.Ir.C135_bitmap_round_trip_iff"
   ],
   "note": ""
  },
  {
   "property": "C136",
   "status": "proved",
   "theorems": [
    "Verif.Ir.C136_extract_from_created"
   ],
   "note": ""
  },
  {
   "property": "C137",
   "status": "partial",
   "theorems": [
    "Verif.Ir.C137_extract_from_created_partial"
   ],
   "note": "Refuted: the frame is not created any more, so its errors vanish; a label x.* selects one column only."
  },
  {
   "property": "C138",
   "status": "proved",
   "theorems": [
    "Verif.Ir.C138_extract_from_bound",
    "Verif.Ir.C138_extract_twice",
    "Verif.Ir.C138_same_labels"
   ],
   "note": ""
  },
  {
   "property": "C139",
   "status": "proved",
   "theorems": [
    "Verif.Ir.C139_cast_chain"
   ],
   "note": ""
  },
  {
   "property": "C140",
   "status": "partial",
   "theorems": [
    "Verif.Ir.C140_frame_round_trip_partial"
   ],
   "note": "Everything but the labels is preserved; the labels exactly if they are the default labels."
  },
  {
   "property": "C141",
   "status": "proved",
   "theorems": [
    "Verif.Infer.C141_common_type_sound"
   ],
   "note": ""
  },
  {
   "property": "C142",
   "status": "partial",
   "theorems": [
    "Verif.Infer.C142_common_sparsity_partial"
   ],
   "note": "Refuted: sparsities are truncated to integers, so two sparsities strictly between 0 and 1 give 0."
  },
  {
   "property": "C143",
   "status": "proved",
   "theorems": [
    "Verif.Infer.C143_dropped_casts_sound"
   ],
   "note": ""
  },
  {
   "property": "C144",
   "status": "partial",
   "theorems": [
    "Verif.Infer.C144_dropped_cast_representation_partial"
   ],
   "note": "Refuted: the cast from a sparse to a dense matrix type with fewer known properties is removed."
  },
  {
   "property": "C145",
   "status": "proved",
   "theorems": [
    "Verif.Infer.C145_inference_sound"
   ],
   "note": "Soundness of single operations is a hypothesis; C148 provides it for shapes."
  },
  {
   "property": "C146",
   "status": "proved",
   "theorems": [
    "Verif.Infer.C146_rounds_bounded_or_endless"
   ],
   "note": ""
  },
  {
   "property": "C147",
   "status": "partial",
   "theorems": [
    "Verif.Infer.C147_loop_inference_endless_partial"
   ],
   "note": "Refuted: X = [0]; while(c) { X = [1,2]; } is inferred for ever."
  },
  {
   "property": "C148",
   "status": "proved",
   "theorems": [
    "Verif.Infer.C148_shape_inference_sound",
    "Verif.Infer.C148_constants_right",
    "Verif.Infer.C148_kernel_shapes"
   ],
   "note": "The result shapes are linked to the kernel models for transpose, cbind, slices, reshape, reverse, diag, fill, outer, cast; for the others they are read off the kernels."
  },
  {
   "property": "C149",
   "status": "proved",
   "theorems": [
    "Verif.Infer.C149_seq_rows"
   ],
   "note": ""
  },
  {
   "property": "C150",
   "status": "partial",
   "theorems": [
    "Verif.Infer.C150_seq_rows_wrong_direction_partial"
   ],
   "note": "Refuted: at least one row is inferred for the empty sequence; increment 0 divides by zero in the compiler."
  },
  {
   "property": "C151",
   "status": "partial",
   "theorems": [
    "Verif.Infer.C151_cartesian_rows_partial"
   ],
   "note": "Right if both sizes are known; otherwise the unknown size -1 is multiplied."
  },
  {
   "property": "C152",
   "status": "partial",
   "theorems": [
    "Verif.Infer.C152_scalar_left_partial"
   ],
   "note": "Refuted for all matrices of known shape with more than one row: 1x1 is inferred."
  },
  {
   "property": "C153",
   "status": "partial",
   "theorems": [
    "Verif.Infer.C153_other_shapes_partial"
   ],
   "note": "Refuted."
  },
  {
   "property": "C154",
   "status": "proved",
   "theorems": [
    "Verif.Mm.C154_sparse_times_dense",
    "Verif.Mm.C154_no_races"
   ],
   "note": "Needs s + 0*w = s (no NaN or infinity in the dense operand). The addition order within a cell is fixed; a single += counts as one step because no two threads touch the same cell (C154_no_races)."
  },
  {
   "property": "C155",
   "status": "proved",
   "theorems": [
    "Verif.Mm.C155_dense_times_sparse"
   ],
   "note": "Needs s + v*0 = s."
  },
  {
   "property": "C156",
   "status": "proved",
   "theorems": [
    "Verif.Mm.C156_any_times_any"
   ],
   "note": ""
  },
  {
   "property": "C157",
   "status": "proved",
   "theorems": [
    "Verif.Mm.C157_sparse_times_sparse"
   ],
   "note": ""
  },
  {
   "property": "C158",
   "status": "proved",
   "theorems": [
    "Verif.Mm.C158_dense_times_dense"
   ],
   "note": "BLAS and Eigen are modelled by their documented contract."
  },
  {
   "property": "C159",
   "status": "partial",
   "theorems": [
    "Verif.Mm.C159_empty_inner_dimension_partial",
    "Verif.Mm.C159_integer_transposed_left_partial"
   ],
   "note": "Refuted for all such shapes."
  },
  {
   "property": "C160",
   "status": "proved",
   "theorems": [
    "Verif.Mm.C160_syrk"
   ],
   "note": "BLAS by contract."
  },
  {
   "property": "C161",
   "status": "proved",
   "theorems": [
    "Verif.Mm.C161_gemv"
   ],
   "note": "BLAS by contract."
  },
  {
   "property": "C162",
   "status": "proved",
   "theorems": [
    "Verif.Mm.C162_physical_operator_choice"
   ],
   "note": ""
  },
  {
   "property": "C163",
   "status": "partial",
   "theorems": [
    "Verif.Mm.C163_sparse_gemv_partial",
    "Verif.Mm.C163_sparse_gemv_differs_partial",
    "Verif.Mm.C163_sparse_transb_partial",
    "Verif.Mm.C163_row_vector_partial",
    "Verif.Mm.C163_gemv_unchecked_partial"
   ],
   "note": "Refuted: the sparse gemv computes M @ v; the sparse product ignores transb; gemv on a row vector reads out of bounds; gemv does not check the length."
  },
  {
   "property": "C164",
   "status": "proved",
   "theorems": [
    "Verif.Vect.C164_declared_splits_and_combines"
   ],
   "note": "Arithmetic: addition, min, max associative and commutative with the neutral elements of the type (Laws; shown for int64)."
  },
  {
   "property": "C165",
   "status": "proved",
   "theorems": [
    "Verif.Vect.C165_fused_pipeline"
   ],
   "note": "Kernels as modelled for C38, C79-C82, C97, C158, C160, C161, C21, C23, C25; one value type."
  },
  {
   "property": "C166",
   "status": "partial",
   "theorems": [
    "Verif.Vect.C166_xxt_not_a_sum_over_rows_partial",
    "Verif.Vect.FusedExample.C166_xxt_fails_partial"
   ],
   "note": "Refuted for all X with at least two rows; concrete: the engine throws."
  },
  {
   "property": "C167",
   "status": "proved",
   "theorems": [
    "Verif.Fuse.C167_vectorization_preserves_results",
    "Verif.Fuse.C167_single_use"
   ],
   "note": "Straight-line blocks, one result per operation; kernels as for C165. The conditions that the pass itself should establish but does not are C168-C172."
  },
  {
   "property": "C168",
   "status": "partial",
   "theorems": [
    "Verif.Fuse.Example.C168_shared_result_body_order_partial"
   ],
   "note": "Refuted: a concrete program whose pipeline body is not in dependency order."
  },
  {
   "property": "C169",
   "status": "partial",
   "theorems": [
    "Verif.Fuse.Example.C169_pipelines_use_each_other_partial"
   ],
   "note": "Refuted: a concrete program, for every plan."
  },
  {
   "property": "C170",
   "status": "partial",
   "theorems": [
    "Verif.Fuse.Example.C170_user_left_before_pipeline_partial"
   ],
   "note": "Refuted: a concrete program, for every plan."
  },
  {
   "property": "C171",
   "status": "partial",
   "theorems": [
    "Verif.Fuse.Example.C171_unsplit_operand_from_inside_partial"
   ],
   "note": "Refuted: a concrete program with two tasks."
  },
  {
   "property": "C172",
   "status": "partial",
   "theorems": [
    "Verif.Fuse.Example.C172_row_vector_from_inside_partial"
   ],
   "note": "Refuted: a concrete program with two tasks."
  },
  {
   "property": "C173",
   "status": "partial",
   "theorems": [
    "Verif.Fuse.Example.C173_side_effects_reordered_partial"
   ],
   "note": "Refuted: a concrete program."
  },
  {
   "property": "C174",
   "status": "proved",
   "theorems": [
    "Verif.Rel.C174_filterRow",
    "Verif.Rel.C174_filterRow_invalid",
    "Verif.Rel.C174_extractRow"
   ],
   "note": "Byte level; a std::string is 32 opaque bytes. loadable_of_wf says when the padding condition holds."
  },
  {
   "property": "C175",
   "status": "partial",
   "theorems": [
    "Verif.Rel.C175_filterRow_partial"
   ],
   "note": "Refuted for every frame with an unpadded column of a value type smaller than 8 bytes whose last row is selected."
  },
  {
   "property": "C176",
   "status": "partial",
   "theorems": [
    "Verif.Rel.C176_filterRow_partial",
    "Verif.Rel.BytesExample.C176_filterRow_example_partial"
   ],
   "note": "Refuted: bytes 8-15 of every result value are what the fresh array contained."
  },
  {
   "property": "C177",
   "status": "partial",
   "theorems": [
    "Verif.Rel.BytesExample.C177_filterRow_view_partial"
   ],
   "note": "Refuted on a concrete view."
  },
  {
   "property": "C178",
   "status": "proved",
   "theorems": [
    "Verif.Columnar.C178_compare"
   ],
   "note": "Both the rewritten sequence of kernels and the element-wise kernel give the same specified bitmap; any view."
  },
  {
   "property": "C179",
   "status": "proved",
   "theorems": [
    "Verif.Columnar.C179_logical"
   ],
   "note": ""
  },
  {
   "property": "C180",
   "status": "partial",
   "theorems": [
    "Verif.Columnar.C180_several_columns_partial",
    "Verif.Columnar.C180_single_row_partial",
    "Verif.Columnar.C180_row_mismatch_partial"
   ],
   "note": "Refuted: && and || are rewritten without looking at the shapes of their operands."
  },
  {
   "property": "C181",
   "status": "proved",
   "theorems": [
    "Verif.Columnar.C181_calc",
    "Verif.Columnar.C181_sum"
   ],
   "note": "The sum in exact (associative, commutative) arithmetic; rounding of floating-point sums may differ for strided views."
  },
  {
   "property": "C182",
   "status": "proved",
   "theorems": [
    "Verif.Columnar.C182_filterRow",
    "Verif.Columnar.C182_extractRow"
   ],
   "note": "Against the byte-level model of the kernels on frames (C174)."
  },
  {
   "property": "C183",
   "status": "partial",
   "theorems": [
    "Verif.Columnar.C183_nonzero_values_partial",
    "Verif.Columnar.C183_short_bitmap_partial",
    "Verif.Columnar.C183_negative_positions_partial"
   ],
   "note": "Refuted for whole classes of inputs."
  },
  {
   "property": "C184",
   "status": "proved",
   "theorems": [
    "Verif.Columnar.C184_inner_join"
   ],
   "note": "The join relation is that of C72 (JoinResult, equalPairs), with all column types supported."
  },
  {
   "property": "C185",
   "status": "proved",
   "theorems": [
    "Verif.Columnar.C185_semi_join"
   ],
   "note": ""
  },
  {
   "property": "C186",
   "status": "proved",
   "theorems": [
    "Verif.Columnar.C186_group",
    "Verif.Columnar.C186_same_rows"
   ],
   "note": "C186_same_rows relates the kernel (C66) and the columnar operations: the groups are a permutation of each other."
  },
  {
   "property": "C187",
   "status": "partial",
   "theorems": [
    "Verif.Columnar.C187_repeated_keys_partial"
   ],
   "note": "Refuted on concrete frames: the last row of each key wins."
  },
  {
   "property": "C188",
   "status": "partial",
   "theorems": [
    "Verif.Columnar.C188_columns_partial"
   ],
   "note": "Refuted for every left frame with more than one column: the kernel returns the key column only."
  },
  {
   "property": "C189",
   "status": "partial",
   "theorems": [
    "Verif.Columnar.C189_order_partial",
    "Verif.Columnar.C189_no_keys_partial",
    "Verif.Columnar.C189_star_partial"
   ],
   "note": "Refuted for whole classes of inputs."
  },
  {
   "property": "C190",
   "status": "proved",
   "theorems": [
    "Verif.Rand.C190_sample_distinct",
    "Verif.Rand.C190_sample_with_replacement",
    "Verif.Rand.C190_sample_rejects"
   ],
   "note": "Draws and shuffles are arbitrary; no assumption on the draws is needed without replacement."
  },
  {
   "property": "C191",
   "status": "partial",
   "theorems": [
    "Verif.Rand.C191_sample_float_distinct",
    "Verif.Rand.C191_sample_float_diverges_partial"
   ],
   "note": "Proved if new values keep being drawn; refuted otherwise: with fewer than size possible values the kernel does not return."
  },
  {
   "property": "C192",
   "status": "proved",
   "theorems": [
    "Verif.Rand.C192_rand_dense",
    "Verif.Rand.C192_rand_rejects"
   ],
   "note": "Sparsity in exact arithmetic; the draws keep producing non-zero values."
  },
  {
   "property": "C193",
   "status": "proved",
   "theorems": [
    "Verif.Rand.C193_rand_sparse"
   ],
   "note": "Sparsity in exact arithmetic; every row and column keeps being drawn."
  },
  {
   "property": "C194",
   "status": "partial",
   "theorems": [
    "Verif.Rand.C194_rand_many_cells_partial"
   ],
   "note": "Refuted for 2^31 < cells <= 2^32 (the bound of the index distribution is an int)."
  },
  {
   "property": "C195",
   "status": "partial",
   "theorems": [
    "Verif.Rand.C195_rand_sparse_stored",
    "Verif.Rand.C195_rand_sparse_zeros_partial"
   ],
   "note": "Refuted: drawn zeros are stored; the number of stored entries is the requested one."
  },
  {
   "property": "C196",
   "status": "proved",
   "theorems": [
    "Verif.Dist.C196_execute_correct",
    "Verif.Dist.ex_correct"
   ],
   "note": "Splittability of the pipeline by rows is the assumption the compiler establishes; RPC failures are not modelled."
  },
  {
   "property": "C197",
   "status": "proved",
   "theorems": [
    "Verif.Dist.C197_place_again"
   ],
   "note": ""
  },
  {
   "property": "C198",
   "status": "partial",
   "theorems": [
    "Verif.Dist.C198_one_row_add_partial"
   ],
   "note": "Refuted for all inputs: the result is multiplied by the number of workers."
  },
  {
   "property": "C199",
   "status": "partial",
   "theorems": [
    "Verif.Dist.C199_few_rows_partial"
   ],
   "note": "Refuted: an exception for every first row-split input with 2 <= rows < workers that has not been sent before."
  },
  {
   "property": "C200",
   "status": "partial",
   "theorems": [
    "Verif.Dist.C200_equal_scalars_partial"
   ],
   "note": "Refuted: an exception for every such pipeline."
  },
  {
   "property": "C201",
   "status": "partial",
   "theorems": [
    "Verif.Dist.C201_view_stale_partial"
   ],
   "note": "Refuted by a program; C196 covers views that start in the first row and have all columns, and views of matrices not at the workers."
  },
  {
   "property": "C202",
   "status": "partial",
   "theorems": [
    "Verif.Dist.C202_same_worker_partial"
   ],
   "note": "Refuted by a program; C196 covers lists without duplicates."
  },
  {
   "property": "C203",
   "status": "proved",
   "theorems": [
    "Verif.Nn.C203_conv2d_is_convolution"
   ],
   "note": "Sums in the order of the kernel for any + and *; contiguous operands; sizes below 2^32."
  },
  {
   "property": "C204",
   "status": "partial",
   "theorems": [
    "Verif.Nn.C204_conv2d_without_bias_partial"
   ],
   "note": "Refuted for all inputs: the filter is passed as the bias."
  },
  {
   "property": "C205",
   "status": "proved",
   "theorems": [
    "Verif.Nn.C205_avg_pool2d_is_mean"
   ],
   "note": ""
  },
  {
   "property": "C206",
   "status": "proved",
   "theorems": [
    "Verif.Nn.C206_max_pool2d_is_max"
   ],
   "note": ""
  },
  {
   "property": "C207",
   "status": "partial",
   "theorems": [
    "Verif.Nn.C207_max_pool2d_negative_partial"
   ],
   "note": "Refuted for all such inputs."
  },
  {
   "property": "C208",
   "status": "partial",
   "theorems": [
    "Verif.Nn.C208_pooling_strides_partial"
   ],
   "note": "Refuted: strides are interchanged."
  },
  {
   "property": "C209",
   "status": "partial",
   "theorems": [
    "Verif.Nn.C209_avg_pool2d_one_column_partial"
   ],
   "note": "Refuted: padding is ignored."
  },
  {
   "property": "C210",
   "status": "proved",
   "theorems": [
    "Verif.Nn.C210_biasAdd"
   ],
   "note": ""
  },
  {
   "property": "C211",
   "status": "partial",
   "theorems": [
    "Verif.Nn.C211_biasAdd_views_partial"
   ],
   "note": "Refuted (three ways)."
  },
  {
   "property": "C212",
   "status": "proved",
   "theorems": [
    "Verif.Nn.C212_inferred_shape"
   ],
   "note": ""
  },
  {
   "property": "C213",
   "status": "partial",
   "theorems": [
    "Verif.Nn.C213_inferred_shape_partial"
   ],
   "note": "Refuted (four ways)."
  },
  {
   "property": "C214",
   "status": "proved",
   "theorems": [
    "Verif.Nn.C214_avg_pool2d_backward"
   ],
   "note": ""
  },
  {
   "property": "C215",
   "status": "proved",
   "theorems": [
    "Verif.Nn.C215_max_pool2d_backward"
   ],
   "note": ""
  },
  {
   "property": "C216",
   "status": "partial",
   "theorems": [
    "Verif.Nn.C216_pooling_backward_strides_partial"
   ],
   "note": "Refuted on a concrete image."
  },
  {
   "property": "C217",
   "status": "proved",
   "theorems": [
    "Verif.Nn.C217_conv2d_backward_filter"
   ],
   "note": "Any non-unital non-associative semiring."
  },
  {
   "property": "C218",
   "status": "partial",
   "theorems": [
    "Verif.Nn.C218_conv2d_backward_filter_partial"
   ],
   "note": "Refuted on concrete filters."
  },
  {
   "property": "C219",
   "status": "proved",
   "theorems": [
    "Verif.Nn.C219_conv2d_backward_data"
   ],
   "note": ""
  },
  {
   "property": "C220",
   "status": "partial",
   "theorems": [
    "Verif.Nn.C220_conv2d_backward_data_partial"
   ],
   "note": "Refuted on concrete filters."
  },
  {
   "property": "C221",
   "status": "proved",
   "theorems": [
    "Verif.Nn.C221_softmax",
    "Verif.Nn.C221_softmax_rows_sum",
    "Verif.Nn.real_isExp"
   ],
   "note": "real_isExp: the real exponential function is an instance."
  },
  {
   "property": "C222",
   "status": "partial",
   "theorems": [
    "Verif.Nn.C222_softmax_no_columns_partial"
   ],
   "note": "Refuted: the first cell is read."
  },
  {
   "property": "C223",
   "status": "proved",
   "theorems": [
    "Verif.Nn.C223_batch_norm_train"
   ],
   "note": "The statistics are returned in the first row of C x C matrices."
  },
  {
   "property": "C224",
   "status": "partial",
   "theorems": [
    "Verif.Nn.C224_batch_norm_inference_partial"
   ],
   "note": "Refuted: parameters are indexed by the image."
  },
  {
   "property": "C225",
   "status": "proved",
   "theorems": [
    "Verif.Nn.C225_batch_norm_backward"
   ],
   "note": ""
  },
  {
   "property": "C226",
   "status": "proved",
   "theorems": [
    "Verif.Labels.C226_inferred_labels"
   ],
   "note": "FExpr.Plain excludes the operations refuted in C227, C228."
  },
  {
   "property": "C227",
   "status": "partial",
   "theorems": [
    "Verif.Labels.C227_join_labels_partial"
   ],
   "note": "Refuted: the labels of the known input alone are inferred."
  },
  {
   "property": "C228",
   "status": "partial",
   "theorems": [
    "Verif.Labels.C228_group_labels_partial"
   ],
   "note": "Refuted for an aggregated column and for mixed keys."
  },
  {
   "property": "C229",
   "status": "partial",
   "theorems": [
    "Verif.Labels.C229_label_inference_partial"
   ],
   "note": "Refuted: null pointers, rejected programs."
  },
  {
   "property": "C230",
   "status": "proved",
   "theorems": [
    "Verif.Check.C230_is_symmetric_dense"
   ],
   "note": ""
  },
  {
   "property": "C231",
   "status": "proved",
   "theorems": [
    "Verif.Check.C231_is_symmetric_sparse"
   ],
   "note": ""
  },
  {
   "property": "C232",
   "status": "partial",
   "theorems": [
    "Verif.Check.C232_is_symmetric_sparse_partial"
   ],
   "note": "Refuted in both directions."
  },
  {
   "property": "C233",
   "status": "proved",
   "theorems": [
    "Verif.Check.C233_has_special_value"
   ],
   "note": ""
  },
  {
   "property": "C234",
   "status": "proved",
   "theorems": [
    "Verif.Sql.C234_plain_queries"
   ],
   "note": ""
  },
  {
   "property": "C235",
   "status": "proved",
   "theorems": [
    "Verif.Sql.C235_grouped_queries"
   ],
   "note": ""
  },
  {
   "property": "C236",
   "status": "proved",
   "theorems": [
    "Verif.Sql.C236_aggregated_queries"
   ],
   "note": ""
  },
  {
   "property": "C237",
   "status": "proved",
   "theorems": [
    "Verif.Sql.C237_distinct"
   ],
   "note": ""
  },
  {
   "property": "C238",
   "status": "partial",
   "theorems": [
    "Verif.Sql.C238_distinct_group_by_partial"
   ],
   "note": "Refuted: duplicates remain."
  },
  {
   "property": "C239",
   "status": "partial",
   "theorems": [
    "Verif.Sql.C239_distinct_order_by_partial"
   ],
   "note": "Refuted: the order is lost."
  },
  {
   "property": "C240",
   "status": "partial",
   "theorems": [
    "Verif.Sql.C240_alias_names_partial"
   ],
   "note": "Refuted: wrong table, rejected clauses."
  },
  {
   "property": "C241",
   "status": "partial",
   "theorems": [
    "Verif.Sql.C241_rejected_queries_partial"
   ],
   "note": "Refuted: null pointers, rejected queries."
  },
  {
   "property": "C242",
   "status": "partial",
   "theorems": [
    "Verif.Sql.C242_star_group_by_partial"
   ],
   "note": "Refuted: columns are lost."
  },
  {
   "property": "C243",
   "status": "proved",
   "theorems": [
    "Verif.Sql.Escape.C243_string_literals",
    "Verif.Sql.Escape.C243_sql_string_literals"
   ],
   "note": ""
  },
  {
   "property": "C244",
   "status": "partial",
   "theorems": [
    "Verif.Sql.Escape.C244_escaped_backslash_partial"
   ],
   "note": "Refuted."
  },
  {
   "property": "C245",
   "status": "proved",
   "theorems": [
    "Verif.Call.C245_keyword_arguments",
    "Verif.Call.C245_positional_after_keyword"
   ],
   "note": ""
  },
  {
   "property": "C246",
   "status": "proved",
   "theorems": [
    "Verif.Call.C246_overloads"
   ],
   "note": ""
  },
  {
   "property": "C247",
   "status": "partial",
   "theorems": [
    "Verif.Call.C247_most_specific_partial"
   ],
   "note": "Refuted: an untyped definition that comes first takes all calls."
  },
  {
   "property": "C248",
   "status": "partial",
   "theorems": [
    "Verif.Call.C248_rejected_calls_partial"
   ],
   "note": "Refuted: valid calls are rejected or dereference a null pointer."
  },
  {
   "property": "C249",
   "status": "proved",
   "theorems": [
    "Verif.Special.C249_specialisation",
    "Verif.Special.C249_untyped_functions",
    "Verif.Special.C249_no_missing_function",
    "Verif.Special.C249_argument_types"
   ],
   "note": "Type inference and canonicalisation are parameters (any that preserve meaning)."
  },
  {
   "property": "C250",
   "status": "partial",
   "theorems": [
    "Verif.Special.C250_typed_functions_partial"
   ],
   "note": "Refuted: a function is removed although a call still refers to it."
  },
  {
   "property": "C251",
   "status": "partial",
   "theorems": [
    "Verif.Special.C251_recursion_partial"
   ],
   "note": "Refuted: endless specialisation of recursive calls with a constant argument."
  },
  {
   "property": "C252",
   "status": "proved",
   "theorems": [
    "Verif.Early.C252_early_returns",
    "Verif.Early.C252_kept"
   ],
   "note": "Returns in loops are rejected and not modelled."
  },
  {
   "property": "C253",
   "status": "partial",
   "theorems": [
    "Verif.Early.C253_results_in_use_partial"
   ],
   "note": "Refuted: the if-operation is erased while its results are in use."
  },
  {
   "property": "C254",
   "status": "partial",
   "theorems": [
    "Verif.Early.C254_copied_operations_partial"
   ],
   "note": "Refuted: copies of operations use values that are not defined where they are."
  },
  {
   "property": "C255",
   "status": "partial",
   "theorems": [
    "Verif.Early.C255_no_return_at_the_end_partial"
   ],
   "note": "Refuted: rejected if the last statement is an if-statement with returns in both branches and one with a return precedes it."
  },
  {
   "property": "C256",
   "status": "proved",
   "theorems": [
    "Verif.Hor.C256_same_effects"
   ],
   "note": "Under the conditions stated (structure Fusible); nested regions only through the values they use; duplicate inputs are removed by another pass. Example: Verif.Hor.Ex.good_fusible."
  },
  {
   "property": "C257",
   "status": "proved",
   "theorems": [
    "Verif.Hor.C257_fused"
   ],
   "note": ""
  },
  {
   "property": "C258",
   "status": "partial",
   "theorems": [
    "Verif.Hor.Ex.C258_chain_partial"
   ],
   "note": "Refuted: the fused pipeline uses its own result."
  },
  {
   "property": "C259",
   "status": "partial",
   "theorems": [
    "Verif.Hor.Ex.C259_cycle_partial"
   ],
   "note": "Refuted: walk past the end of the block."
  },
  {
   "property": "C260",
   "status": "partial",
   "theorems": [
    "Verif.Hor.Ex.C260_needed_partial"
   ],
   "note": "Refuted: use before definition."
  },
  {
   "property": "C261",
   "status": "partial",
   "theorems": [
    "Verif.Hor.Ex.C261_nested_partial"
   ],
   "note": "Refuted: values used in nested regions are not seen."
  },
  {
   "property": "C262",
   "status": "partial",
   "theorems": [
    "Verif.Hor.Ex.C262_order_partial"
   ],
   "note": "Refuted: outputs are reordered."
  },
  {
   "property": "C263",
   "status": "proved",
   "theorems": [
    "Verif.Mtx.C263_dense_coordinate"
   ],
   "note": "Text to number conversion is a parameter; instance for integers: reads_print. Non-trivial case: exCoord, exCoord_dense."
  },
  {
   "property": "C264",
   "status": "proved",
   "theorems": [
    "Verif.Mtx.C264_dense_array"
   ],
   "note": "Non-trivial case: exArray."
  },
  {
   "property": "C265",
   "status": "proved",
   "theorems": [
    "Verif.Mtx.C265_sparse"
   ],
   "note": ""
  },
  {
   "property": "C266",
   "status": "proved",
   "theorems": [
    "Verif.Mtx.C266_frame"
   ],
   "note": ""
  },
  {
   "property": "C267",
   "status": "partial",
   "theorems": [
    "Verif.Mtx.C267_blank_line_partial"
   ],
   "note": "Refuted: a cell is overwritten with zero (array), exception (coordinate)."
  },
  {
   "property": "C268",
   "status": "partial",
   "theorems": [
    "Verif.Mtx.C268_white_space_partial"
   ],
   "note": "Refuted: wrong values, read out of bounds."
  },
  {
   "property": "C269",
   "status": "partial",
   "theorems": [
    "Verif.Mtx.C269_not_rejected_partial"
   ],
   "note": "Refuted: error codes are ignored."
  },
  {
   "property": "C270",
   "status": "partial",
   "theorems": [
    "Verif.Mtx.C270_no_newline_partial"
   ],
   "note": "Refuted for files of patterns: read out of bounds."
  },
  {
   "property": "C271",
   "status": "partial",
   "theorems": [
    "Verif.Mtx.C271_int64_partial"
   ],
   "note": "Refuted: values are converted with atoi."
  },
  {
   "property": "C272",
   "status": "partial",
   "theorems": [
    "Verif.Mtx.C272_unchecked_partial"
   ],
   "note": "Refuted: no checks."
  },
  {
   "property": "C273",
   "status": "proved",
   "theorems": [
    "Verif.FileMeta.C273_round_trip",
    "Verif.FileMeta.C273_round_trip_local"
   ],
   "note": "JSON values, not texts; labels are valid UTF-8. Value types of fixed-size strings: C277."
  },
  {
   "property": "C274",
   "status": "proved",
   "theorems": [
    "Verif.FileMeta.C274_accepted"
   ],
   "note": "Non-trivial case: docDefault."
  },
  {
   "property": "C275",
   "status": "proved",
   "theorems": [
    "Verif.FileMeta.C275_matrix",
    "Verif.FileMeta.C275_frame"
   ],
   "note": "Limits of the CSV format as in C35."
  },
  {
   "property": "C276",
   "status": "proved",
   "theorems": [
    "Verif.FileMeta.C276_other_files",
    "Verif.FileMeta.C276_unsupported",
    "Verif.FileMeta.C276_describes"
   ],
   "note": "CSV branch only."
  },
  {
   "property": "C277",
   "status": "partial",
   "theorems": [
    "Verif.FileMeta.C277_fixed_size_strings_partial"
   ],
   "note": "Refuted: written as null, not accepted when read."
  },
  {
   "property": "C278",
   "status": "partial",
   "theorems": [
    "Verif.FileMeta.C278_empty_labels_partial"
   ],
   "note": "Refuted: throws for two or more columns."
  },
  {
   "property": "C279",
   "status": "partial",
   "theorems": [
    "Verif.FileMeta.C279_short_schema_partial"
   ],
   "note": "Refuted: read out of bounds."
  },
  {
   "property": "C280",
   "status": "partial",
   "theorems": [
    "Verif.FileMeta.C280_unknown_type_partial",
    "Verif.FileMeta.C280_numbers_partial"
   ],
   "note": "Refuted."
  },
  {
   "property": "C281",
   "status": "proved",
   "theorems": [
    "Verif.FileMeta.C281_shape",
    "Verif.FileMeta.C281_frame"
   ],
   "note": ""
  },
  {
   "property": "C282",
   "status": "partial",
   "theorems": [
    "Verif.FileMeta.C282_write_then_read_partial"
   ],
   "note": "Refuted: the compiler uses the meta data from before the run."
  },
  {
   "property": "C283",
   "status": "proved",
   "theorems": [
    "Verif.FrameBin.C283_round_trip",
    "Verif.FrameBin.C283_strings_rejected"
   ],
   "note": "Non-trivial case: sample."
  },
  {
   "property": "C284",
   "status": "partial",
   "theorems": [
    "Verif.FrameBin.C284_labels_lost_partial"
   ],
   "note": "Refuted: always default labels."
  },
  {
   "property": "C285",
   "status": "partial",
   "theorems": [
    "Verif.FrameBin.C285_long_label_partial"
   ],
   "note": "Refuted: read out of bounds."
  },
  {
   "property": "C286",
   "status": "partial",
   "theorems": [
    "Verif.FrameBin.C286_other_kind_partial",
    "Verif.FrameBin.C286_short_file_partial"
   ],
   "note": "Refuted: null pointer, uninitialised memory."
  },
  {
   "property": "C287",
   "status": "proved",
   "theorems": [
    "Verif.Approx.C287_fewer_than_K_exact"
   ],
   "note": "Non-trivial case: example with 3 distinct values of 4."
  },
  {
   "property": "C288",
   "status": "proved",
   "theorems": [
    "Verif.Approx.C288_estimate"
   ],
   "note": "Non-trivial case: example with 4 values, K = 2."
  },
  {
   "property": "C289",
   "status": "partial",
   "theorems": [
    "Verif.Approx.C289_order_dependent_partial"
   ],
   "note": "Refuted: inserting a value again removes the biggest one."
  },
  {
   "property": "C290",
   "status": "partial",
   "theorems": [
    "Verif.Approx.C290_K_zero_undefined_partial"
   ],
   "note": "Refuted: K = 0 dereferences the end of an empty set."
  },
  {
   "property": "C291",
   "status": "proved",
   "theorems": [
    "Verif.Tens.C291_element_access"
   ],
   "note": "Non-trivial case: example of rank 3."
  },
  {
   "property": "C292",
   "status": "proved",
   "theorems": [
    "Verif.Tens.C292_create"
   ],
   "note": "Non-trivial case: example of rank 3."
  },
  {
   "property": "C293",
   "status": "proved",
   "theorems": [
    "Verif.Tens.C293_dice"
   ],
   "note": "Non-trivial case: example of rank 3."
  },
  {
   "property": "C294",
   "status": "proved",
   "theorems": [
    "Verif.Tens.C294_from_matrix"
   ],
   "note": "Non-trivial case: exView_is, used in C299."
  },
  {
   "property": "C295",
   "status": "proved",
   "theorems": [
    "Verif.Tens.C295_to_matrix"
   ],
   "note": "Packed tensors: C292."
  },
  {
   "property": "C296",
   "status": "proved",
   "theorems": [
    "Verif.Tens.C296_equality"
   ],
   "note": "Packed tensors: C292."
  },
  {
   "property": "C297",
   "status": "proved",
   "theorems": [
    "Verif.Tens.C297_reduce_rank_last"
   ],
   "note": "Packed tensors: C292."
  },
  {
   "property": "C298",
   "status": "partial",
   "theorems": [
    "Verif.Tens.C298_reduce_rank_undefined_partial"
   ],
   "note": "Refuted: the loop runs to the old rank."
  },
  {
   "property": "C299",
   "status": "partial",
   "theorems": [
    "Verif.Tens.C299_view_forgotten_partial"
   ],
   "note": "Refuted: strides are ignored."
  },
  {
   "property": "C300",
   "status": "partial",
   "theorems": [
    "Verif.Tens.C300_rank_zero_write_partial"
   ],
   "note": "Refuted: always refused."
  },
  {
   "property": "C301",
   "status": "proved",
   "theorems": [
    "Verif.Str16.C301_fixed_string"
   ],
   "note": "Non-trivial case: \"ab\" and \"abc\"."
  },
  {
   "property": "C302",
   "status": "partial",
   "theorems": [
    "Verif.Str16.C302_print_padded_partial"
   ],
   "note": "Refuted: always 16 bytes."
  },
  {
   "property": "C303",
   "status": "partial",
   "theorems": [
    "Verif.Str16.C303_embedded_nul_partial"
   ],
   "note": "Refuted: compared up to the first NUL only."
  },
  {
   "property": "C304",
   "status": "proved",
   "theorems": [
    "Verif.Sp.C304_inferred_sparsity_valid"
   ],
   "note": "Non-trivial case: matrix multiplication with one known inner extent."
  },
  {
   "property": "C305",
   "status": "proved",
   "theorems": [
    "Verif.Sp.C305_inferred_sparsity_exact"
   ],
   "note": "Non-trivial case: a column with sparsity one half."
  },
  {
   "property": "C306",
   "status": "partial",
   "theorems": [
    "Verif.Sp.C306_invalid_sparsity_partial"
   ],
   "note": "Refuted: unknown or zero length for diagMatrix, constants and meta data."
  },
  {
   "property": "C307",
   "status": "proved",
   "theorems": [
    "Verif.Sp.C307_inferred_symmetry"
   ],
   "note": ""
  },
  {
   "property": "C308",
   "status": "proved",
   "theorems": [
    "Verif.TyText.C308_type_text_roundtrip"
   ],
   "note": "Non-trivial case: a handle to a sparse symmetric matrix with one unknown extent."
  },
  {
   "property": "C309",
   "status": "partial",
   "theorems": [
    "Verif.TyText.C309_zero_extents_partial"
   ],
   "note": "Refuted: 0x starts a hexadecimal number."
  },
  {
   "property": "C310",
   "status": "partial",
   "theorems": [
    "Verif.TyText.C310_unreadable_types_partial"
   ],
   "note": "Refuted: the parser and the printer disagree on frames and do not know the other types."
  },
  {
   "property": "C311",
   "status": "proved",
   "theorems": [
    "Verif.TyText.C311_type_as_requested"
   ],
   "note": "MLIR's hash set is a contract; a list satisfies it."
  },
  {
   "property": "C312",
   "status": "partial",
   "theorems": [
    "Verif.TyText.C312_type_depends_on_history_partial"
   ],
   "note": "Refuted."
  },
  {
   "property": "C313",
   "status": "proved",
   "theorems": [
    "Verif.Disp.C313_kernel_search"
   ],
   "note": "Non-trivial case: two kernels of the same highest priority."
  },
  {
   "property": "C314",
   "status": "proved",
   "theorems": [
    "Verif.Disp.C314_lookup_types"
   ],
   "note": ""
  },
  {
   "property": "C315",
   "status": "proved",
   "theorems": [
    "Verif.Disp.C315_kernel_call",
    "Verif.Disp.libPaths_knows"
   ],
   "note": "Non-trivial case: a grouping with two key columns and no aggregates."
  },
  {
   "property": "C316",
   "status": "proved",
   "theorems": [
    "Verif.Disp.C316_missing_operand"
   ],
   "note": ""
  },
  {
   "property": "C317",
   "status": "partial",
   "theorems": [
    "Verif.Disp.C317_hint_unchecked_partial"
   ],
   "note": "Refuted: hints are never checked."
  },
  {
   "property": "C318",
   "status": "partial",
   "theorems": [
    "Verif.Disp.C318_mixed_list_partial"
   ],
   "note": "Refuted: only the first occurrence is checked."
  },
  {
   "property": "C319",
   "status": "proved",
   "theorems": [
    "Verif.Disp.C319_type_names"
   ],
   "note": ""
  },
  {
   "property": "C320",
   "status": "proved",
   "theorems": [
    "Verif.Disp.C320_catalog_files"
   ],
   "note": "JSON parsing is not modelled."
  },
  {
   "property": "C321",
   "status": "proved",
   "theorems": [
    "Verif.Disp.C321_kernel_ids"
   ],
   "note": ""
  },
  {
   "property": "C322",
   "status": "partial",
   "theorems": [
    "Verif.Disp.C322_missing_location_partial"
   ],
   "note": "Refuted: another location is reported, or a null location is read."
  },
  {
   "property": "C323",
   "status": "proved",
   "theorems": [
    "Verif.Disp.C323_adapted_operands"
   ],
   "note": "Non-trivial case: a sparse integer matrix and a double."
  },
  {
   "property": "C324",
   "status": "partial",
   "theorems": [
    "Verif.Disp.C324_list_operand_partial"
   ],
   "note": "Refuted: the cast has a matrix type."
  },
  {
   "property": "C325",
   "status": "proved",
   "theorems": [
    "Verif.DataProp.C325_recorded_sparsity_exact"
   ],
   "note": "Exact rationals instead of doubles. Non-trivial case: a CSR matrix with a stored zero."
  },
  {
   "property": "C326",
   "status": "partial",
   "theorems": [
    "Verif.DataProp.C326_recorded_sparsity_of_views_and_empty_partial"
   ],
   "note": "Refuted: the first values of the viewed matrix are counted; matrices without cells give null."
  },
  {
   "property": "C327",
   "status": "proved",
   "theorems": [
    "Verif.DataProp.C327_recorded_properties_find_their_values"
   ],
   "note": "Non-trivial case: a program with a loop."
  },
  {
   "property": "C328",
   "status": "partial",
   "theorems": [
    "Verif.DataProp.C328_inserted_properties_have_no_effect_partial"
   ],
   "note": "Refuted for every program: the casts are unused or of the same type."
  },
  {
   "property": "C329",
   "status": "partial",
   "theorems": [
    "Verif.DataProp.C329_entries_behind_one_without_number_partial"
   ],
   "note": "Refuted: no later entry has an effect."
  },
  {
   "property": "C330",
   "status": "proved",
   "theorems": [
    "Verif.Conf.C330_config_file"
   ],
   "note": "The JSON text and the conversion of values are a parameter. Non-trivial case: a file with two keys."
  },
  {
   "property": "C331",
   "status": "proved",
   "theorems": [
    "Verif.Conf.C331_options_win"
   ],
   "note": "Non-trivial case: --num-threads=5 --vec --explain=llvm against a file that says otherwise."
  },
  {
   "property": "C332",
   "status": "proved",
   "theorems": [
    "Verif.Conf.C332_file_settings_effective"
   ],
   "note": "Non-trivial case: a file with 3 threads."
  },
  {
   "property": "C333",
   "status": "partial",
   "theorems": [
    "Verif.Conf.C333_file_settings_ineffective_partial"
   ],
   "note": "Refuted: 20 of the 53 keys are overwritten with the default value of the option."
  },
  {
   "property": "C334",
   "status": "partial",
   "theorems": [
    "Verif.Conf.C334_explicit_defaults_partial"
   ],
   "note": "Refuted for --num-threads, --libdir, --cuda, HDFS and tile sizes."
  },
  {
   "property": "C335",
   "status": "partial",
   "theorems": [
    "Verif.Conf.C335_missing_config_file_partial"
   ],
   "note": "Refuted: it is ignored."
  },
  {
   "property": "C336",
   "status": "proved",
   "theorems": [
    "Verif.Conf.C336_script_arguments"
   ],
   "note": "Non-trivial case: a value with an equals sign."
  },
  {
   "property": "C337",
   "status": "proved",
   "theorems": [
    "Verif.Conf.C337_kernel_extension"
   ],
   "note": "Non-trivial case: a path with a colon and a negative priority."
  },
  {
   "property": "C338",
   "status": "partial",
   "theorems": [
    "Verif.Conf.C338_colon_in_path_partial"
   ],
   "note": "Refuted: refused, or another file is read."
  },
  {
   "property": "C339",
   "status": "proved",
   "theorems": [
    "Verif.Conf.C339_library_directory"
   ],
   "note": "Non-trivial case: {exedir}/l."
  },
  {
   "property": "C340",
   "status": "partial",
   "theorems": [
    "Verif.Conf.C340_absolute_rest_partial"
   ],
   "note": "Refuted: {exedir}//lib is /lib."
  },
  {
   "property": "C341",
   "status": "proved",
   "theorems": [
    "Verif.Conf.C341_refused_options"
   ],
   "note": "The number of MPI ranks is not modelled."
  },
  {
   "property": "C342",
   "status": "proved",
   "theorems": [
    "Verif.Lower.C342_kernel_calls",
    "Verif.Lower.C342_kernel_calls_run"
   ],
   "note": "Refinement of a big-step semantics, for arbitrary kernels. Non-trivial case: a loop with a pack and a call with two results."
  },
  {
   "property": "C343",
   "status": "proved",
   "theorems": [
    "Verif.Lower.C343_string_constants"
   ],
   "note": "Non-trivial case: hi."
  },
  {
   "property": "C344",
   "status": "proved",
   "theorems": [
    "Verif.Lower.C344_pipeline_inputs"
   ],
   "note": "Extending float to double and back is a parameter. Non-trivial case: a split matrix, a negative si8 and a double."
  },
  {
   "property": "C345",
   "status": "partial",
   "theorems": [
    "Verif.Lower.C345_single_precision_cuda_partial"
   ],
   "note": "Refuted for every normal number."
  },
  {
   "property": "C346",
   "status": "partial",
   "theorems": [
    "Verif.Lower.C346_strings_in_pipelines_partial"
   ],
   "note": "Refuted: the characters are used as an object."
  },
  {
   "property": "C347",
   "status": "partial",
   "theorems": [
    "Verif.Lower.C347_pipeline_result_types_partial"
   ],
   "note": "Refuted, with the exact condition."
  },
  {
   "property": "C348",
   "status": "proved",
   "theorems": [
    "Verif.Views.C348_views",
    "Verif.Views.C348_rejected"
   ],
   "note": "Simulation between the program as written and the program after the pass. Non-trivial case: demo, a name registered twice, queries in a loop and in a branch."
  },
  {
   "property": "C349",
   "status": "partial",
   "theorems": [
    "Verif.Views.C349_control_flow_partial"
   ],
   "note": "Refuted for all frames: loops, branches not taken, unregistered views."
  },
  {
   "property": "C350",
   "status": "partial",
   "theorems": [
    "Verif.Views.C350_second_program_partial"
   ],
   "note": "Refuted: the table is a variable of the process."
  },
  {
   "property": "C351",
   "status": "proved",
   "theorems": [
    "Verif.StrRef.C351_freed",
    "Verif.StrRef.C351_last",
    "Verif.StrRef.C351_forgotten"
   ],
   "note": "Invariant over all legal histories. Non-trivial case: exHist, an address used twice."
  },
  {
   "property": "C352",
   "status": "proved",
   "theorems": [
    "Verif.DistPipe.C352_distribute"
   ],
   "note": "Non-trivial case: exBody, where a constant is an operand and is returned."
  },
  {
   "property": "C353",
   "status": "proved",
   "theorems": [
    "Verif.Interop.C353_receive",
    "Verif.Interop.C353_return",
    "Verif.Interop.C353_round_trip"
   ],
   "note": "Non-trivial case: exArr."
  },
  {
   "property": "C354",
   "status": "partial",
   "theorems": [
    "Verif.Interop.C354_transposed_partial"
   ],
   "note": "Refuted for all square arrays that are not symmetric."
  },
  {
   "property": "C355",
   "status": "partial",
   "theorems": [
    "Verif.Interop.C355_columns_partial"
   ],
   "note": "Refuted for all ranges of columns that do not end with the last one."
  },
  {
   "property": "C356",
   "status": "partial",
   "theorems": [
    "Verif.Interop.C356_sixteen_bits_partial"
   ],
   "note": "Refuted for all non-empty arrays."
  },
  {
   "property": "C357",
   "status": "proved",
   "theorems": [
    "Verif.Interop.C357_memref"
   ],
   "note": "Non-trivial case: exM."
  },
  {
   "property": "C358",
   "status": "partial",
   "theorems": [
    "Verif.Interop.C358_columns_partial"
   ],
   "note": "Refuted for all ranges of columns that do not end with the last one."
  },
  {
   "property": "C359",
   "status": "proved",
   "theorems": [
    "Verif.Interop.C359_sparse"
   ],
   "note": "Includes row views."
  },
  {
   "property": "C360",
   "status": "proved",
   "theorems": [
    "Verif.Interop.C360_map",
    "Verif.Interop.C360_map_fails"
   ],
   "note": "Non-trivial case: a function numbering its calls on a view."
  },
  {
   "property": "C361",
   "status": "proved",
   "theorems": [
    "Verif.Chunk.C361_create",
    "Verif.Chunk.C361_element_access",
    "Verif.Chunk.C361_other_chunks",
    "Verif.Chunk.C361_set"
   ],
   "note": "Positions are injective and inside the memory (mixed radix). Non-trivial case: exT, chunks that overhang in both dimensions."
  },
  {
   "property": "C362",
   "status": "partial",
   "theorems": [
    "Verif.Chunk.C362_tryGet_out_of_range_partial"
   ],
   "note": "Refuted for all one-dimensional tensors and indexes behind the last chunk: the flag is read first."
  },
  {
   "property": "C363",
   "status": "partial",
   "theorems": [
    "Verif.Chunk.C363_equal_compares_padding_partial",
    "Verif.Chunk.C363_padding_all_partial"
   ],
   "note": "Refuted, for all one-dimensional tensors with an overhanging chunk: the memory behind the last element is compared."
  },
  {
   "property": "C364",
   "status": "partial",
   "theorems": [
    "Verif.Chunk.C364_trySetChunk_out_of_range_partial"
   ],
   "note": "Refuted for all one-dimensional tensors with fewer chunks than elements."
  },
  {
   "property": "C365",
   "status": "partial",
   "theorems": [
    "Verif.Chunk.C365_from_matrix_partial"
   ],
   "note": "Refuted for all matrices with columns: an empty vector is read."
  },
  {
   "property": "C366",
   "status": "partial",
   "theorems": [
    "Verif.Chunk.C366_set_rank_zero_partial"
   ],
   "note": "Refuted for all tensors of rank zero; the checked write works."
  },
  {
   "property": "C367",
   "status": "partial",
   "theorems": [
    "Verif.Chunk.C367_reverse_bytes_partial"
   ],
   "note": "Refuted for every element of every memory: bytes are moved one too far, the byte behind the element is overwritten."
  },
  {
   "property": "C368",
   "status": "proved",
   "theorems": [
    "Verif.Chunk.C368_trySetChunk"
   ],
   "note": "Non-trivial case: the chunk of exT that has not been loaded."
  },
  {
   "property": "C369",
   "status": "proved",
   "theorems": [
    "Verif.Chunk.C369_equal"
   ],
   "note": "For overhanging chunks see C363. Non-trivial case: two tensors of two chunks that differ in the last element."
  },
  {
   "property": "C370",
   "status": "proved",
   "theorems": [
    "Verif.Chunk.C370_rechunk"
   ],
   "note": "Unchecked reads always, checked reads if there are not more chunks than before (see C371). Non-trivial case: exR."
  },
  {
   "property": "C371",
   "status": "partial",
   "theorems": [
    "Verif.Chunk.C371_rechunk_flags_partial"
   ],
   "note": "Refuted for all one-dimensional tensors that get more chunks: the flags keep their old size."
  },
  {
   "property": "C372",
   "status": "partial",
   "theorems": [
    "Verif.Chunk.C372_dice_two_dimensions_partial"
   ],
   "note": "Refuted for all contents of a two-dimensional tensor: uninitialised memory is shown."
  },
  {
   "property": "C373",
   "status": "proved",
   "theorems": [
    "Verif.Chunk.C373_dice_one_dimension"
   ],
   "note": "Non-trivial case: exR, old and new chunks that do not fit."
  },
  {
   "property": "C374",
   "status": "partial",
   "theorems": [
    "Verif.Chunk.C374_dice_chunks_invisible_partial"
   ],
   "note": "Refuted for every result of rank at least one."
  },
  {
   "property": "C375",
   "status": "partial",
   "theorems": [
    "Verif.Chunk.C375_dice_chunks_marks_partial"
   ],
   "note": "Refuted for all contents: a chunk that has not been loaded becomes visible."
  },
  {
   "property": "C376",
   "status": "proved",
   "theorems": [
    "Verif.Chunk.C376_logical_equal"
   ],
   "note": "Both directions. Non-trivial case: an overhanging chunk."
  }
 ]
}
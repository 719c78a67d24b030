{
 "claims": [
  {
   "property": "C01",
   "status": "proved",
   "theorems": [
    "C01_never_twice",
    "C01_exactly_once"
   ],
   "note": ""
  },
  {
   "property": "C02",
   "status": "proved",
   "theorems": [
    "C02_barrier"
   ],
   "note": ""
  },
  {
   "property": "C03",
   "status": "proved",
   "theorems": [
    "C03_progress",
    "C03_caller_alone",
    "C03_no_deadlock"
   ],
   "note": ""
  },
  {
   "property": "C04",
   "status": "proved",
   "theorems": [
    "C04_chunks_exactly_once",
    "C04_tasks_exactly_once",
    "C04_barrier",
    "C04_chunk_progress"
   ],
   "note": "Whether the operation also finishes is C42."
  },
  {
   "property": "C05",
   "status": "partial",
   "theorems": [
    "C05_only_published_partial",
    "C05_violated"
   ],
   "note": "False of the code as it stands: C05_violated gives the run."
  },
  {
   "property": "C06",
   "status": "proved",
   "theorems": [
    "C06_threaded_equals_serial",
    "sequential_interleaving"
   ],
   "note": ""
  },
  {
   "property": "C07",
   "status": "proved",
   "theorems": [
    "C07_kernel_correct",
    "C07_kernel_correct_separate",
    "C07_in_bounds",
    "C07_aligned_access"
   ],
   "note": ""
  },
  {
   "property": "C08",
   "status": "partial",
   "theorems": [
    "C08_inplace_equals_fresh_partial",
    "C08_compareInt8_violated",
    "C08_partial_overlap_needs_copy"
   ],
   "note": "In-place 8-bit comparisons are wrong in the code (missing return)."
  },
  {
   "property": "C09",
   "status": "partial",
   "theorems": [
    "C09_threaded_equals_serial",
    "C09_numpy_contiguous_partial",
    "C09_strided_numpy_violated",
    "C09_subtract_violated",
    "C09_xor_violated",
    "reduce_returns"
   ],
   "note": "Violated for strided input, subtract/divide/power and xor with initial value."
  },
  {
   "property": "C10",
   "status": "partial",
   "theorems": [
    "C10_serial_partial",
    "C10_in_order_partial",
    "C10_in_sequence_partial",
    "C10_threaded_iff_partial",
    "C10_threaded_violated",
    "C10_out_of_order_violated"
   ],
   "note": "False of the code. C10_threaded_iff_partial: for every schedule, length, stride and interleaving of the single accesses, a threaded accumulate (int64 sums) is right for all contents if and only if the accesses of the blocks follow one another in ascending order, that is, exactly when nothing runs in parallel."
  },
  {
   "property": "C11",
   "status": "partial",
   "theorems": [
    "C11_covers_all",
    "C11_upcast_short_partial",
    "C11_upcast_strided_partial",
    "C11_upcast_violated"
   ],
   "note": "float32 sum/prod kernels read past their scratch in the horizontal step."
  },
  {
   "property": "C12",
   "status": "proved",
   "theorems": [
    "C12_mul_exact",
    "C12_vector_equals_scalar"
   ],
   "note": ""
  },
  {
   "property": "C13",
   "status": "proved",
   "theorems": [
    "C13_compare_correct"
   ],
   "note": ""
  },
  {
   "property": "C14",
   "status": "partial",
   "theorems": [
    "C14_int64_uint64",
    "C14_uint64_int64_partial",
    "C14_uint64_eq_violated",
    "C14_uint64_int64_iff_partial"
   ],
   "note": "uint64 == int64 (and !=) is wrong in the code, exactly for equal bit patterns with the sign bit set (C14_uint64_int64_iff_partial)."
  },
  {
   "property": "C15",
   "status": "proved",
   "theorems": [
    "C15_classify_correct",
    "C15_always_hooked"
   ],
   "note": ""
  },
  {
   "property": "C16",
   "status": "proved",
   "theorems": [
    "C16_add",
    "C16_sub",
    "C16_mul",
    "C16_add_unsigned",
    "C16_mul_unsigned",
    "C16_minmax",
    "C16_neg",
    "C16_abs",
    "C16_abs_exact",
    "C16_sign",
    "C16_bitwise",
    "C16_invert",
    "C16_invert_bool",
    "C16_not",
    "C16_floor_divide",
    "C16_floor_divide_unsigned"
   ],
   "note": ""
  },
  {
   "property": "C17",
   "status": "proved",
   "theorems": [
    "C17_sort_permutation"
   ],
   "note": ""
  },
  {
   "property": "C18",
   "status": "proved",
   "theorems": [
    "C18_sort_ascending",
    "C18_nan_last",
    "C18_merge_stable"
   ],
   "note": ""
  },
  {
   "property": "C19",
   "status": "proved",
   "theorems": [
    "C19_sort_stays_inside"
   ],
   "note": ""
  },
  {
   "property": "C20",
   "status": "partial",
   "theorems": [
    "C20_argsort_partial",
    "C20_argsort_permutation",
    "C20_merge_exact",
    "C20_merge_nan_violated"
   ],
   "note": "Violated by the merge argsort of more than 15 keys with a NaN; C20_merge_exact gives the result for every key list."
  },
  {
   "property": "C21",
   "status": "partial",
   "theorems": [
    "C21_argsort_stable_partial",
    "C21_nan_violated"
   ],
   "note": "Holds for keys without NaN; violated with NaN keys, even for the other keys (C21_nan_violated)."
  },
  {
   "property": "C22",
   "status": "partial",
   "theorems": [
    "C22_parallel_sort",
    "C22_parallel_equals_serial",
    "C22_same_values",
    "C22_no_deadlock",
    "C22_bounded_steps",
    "C22_completes",
    "C22_merge_after_halves",
    "C22_task_once",
    "C22_parallel_argsort_partial",
    "C22_parallel_argsort_stable_partial",
    "C22_parallel_argsort_equals_serial_partial",
    "C22_parallel_argsort_permutation",
    "C22_parallel_argsort_completes",
    "C22_parallel_argsort_deterministic",
    "C22_nan_violated"
   ],
   "note": "Sort: complete. Argsort: a permutation and the same result under every schedule for all keys; equal to the serial result for keys without NaN, different with NaN keys (C22_nan_violated)."
  },
  {
   "property": "C23",
   "status": "proved",
   "theorems": [
    "C23_disjoint",
    "C23_task_stays_inside",
    "C23_argsort_disjoint",
    "C23_argsort_task_stays_inside"
   ],
   "note": ""
  },
  {
   "property": "C42",
   "status": "partial",
   "theorems": [
    "C42_returns_partial",
    "C42_one_woken_violated",
    "C04_index_hangs_without_worker"
   ],
   "note": "Proved (Linux futex) for at least two woken workers, or one if there is only one, every earlier worker state, every futex choice and every fair schedule. Refuted: one woken worker out of two or more (the futex may wake a worker that may not take part) and no worker (ThreadWakeup 0)."
  },
  {
   "property": "C43",
   "status": "partial",
   "theorems": [
    "C43_minimum_partial",
    "C43_maximum_partial",
    "C43_minimum_violated",
    "C43_iff_partial"
   ],
   "note": "All bit patterns, vector part and tail, provided the first operand is not NaN (then a NaN second operand is returned). Refuted for the rest: with NaN first and a number second the number is returned."
  },
  {
   "property": "C44",
   "status": "partial",
   "theorems": [
    "C44_values_partial",
    "C44_same_bits_partial",
    "C44_same_bits_iff_partial",
    "C44_sign_of_zero_violated",
    "C44_sign"
   ],
   "note": "All bit patterns: values of negative/absolute/sign right in vector part and tail; same bits for everything but zeros and NaNs, and exactly which elements differ (negative: NaN and +0.0; absolute: NaN and -0.0 with the sign bit set). Refuted: the sign of a zero result depends on the position."
  },
  {
   "property": "C45",
   "status": "partial",
   "theorems": [
    "C45_rint_partial",
    "C45_rint_violated",
    "C45_rint_call_partial",
    "C45_rint_call_violated"
   ],
   "note": "Right for every double that is not exactly half-way between two integers. Refuted for positive half-way values above an even integer: np.rint calls round(), ties away from zero. The call theorems say it of whole np.rint calls on double arrays, on bit patterns, with an exact characterisation of the elements that are right."
  },
  {
   "property": "C46",
   "status": "partial",
   "theorems": [
    "C46_half_sort_violated",
    "C46_half_order_partial",
    "C46_nonneg_partial",
    "C46_half_iff_partial"
   ],
   "note": "False of the code (refuted): float16 is sorted as uint16. Proved exactly when the result is right: no signed number belongs before another element other than signed NaNs. Proved what it does for every array and schedule: non-negative numbers ascending, NaNs after them, then the negative ones descending; correct without negative elements."
  },
  {
   "property": "C26",
   "status": "partial",
   "theorems": [
    "C26_compare",
    "C26_sort",
    "C26_argsort",
    "C26_sort_argsort_agree",
    "C26_void_argsort_partial",
    "C26_void_order_violated",
    "C26_parallel_argsort_partial",
    "C26_parallel_argsort_violated",
    "C26_parallel_sort_partial",
    "C26_parallel_sort_violated"
   ],
   "note": "Serial sort/argsort of S and U arrays proved. The parallel paths are wrong in the code: ParMergeMergeString compares with the wrong key (violated for every n>=65536), par_sort merges single characters (violated for width 2, proved for width 1). Void follows a total order that is not the byte order (violated)."
  },
  {
   "property": "C24",
   "status": "partial",
   "theorems": [
    "C24_lexsort_partial",
    "C24_unique_partial",
    "C24_half_violated",
    "C24_kind_violated",
    "C24_strings_violated",
    "C24_ignores_half_partial"
   ],
   "note": "Proved for the default (merge) kind, any number of key columns, rows and schedules, without NaN/float16 and strings below 65536 rows. Outside that the code is wrong: float16 keys silently unsorted, kind=heapsort loses the earlier keys, parallel string passes wrong (all proved), NaN via C20_merge_nan_violated. C24_ignores_half_partial: NaN keys are right up to 15 rows, and float16 keys have no effect on the order by the others."
  },
  {
   "property": "C25",
   "status": "partial",
   "theorems": [
    "C25_cutoffs_partial",
    "C25_schedule",
    "C25_no_interference",
    "C25_completes",
    "C25_unsorted_violated"
   ],
   "note": "Order proved for ascending cutoffs ending with the row count and keys without NaN and float16; that the result exists, does not depend on the schedule and that partitions do not interfere for all keys. Unsorted cutoffs are accepted and write out of bounds (refuted)."
  },
  {
   "property": "C27",
   "status": "proved",
   "theorems": [
    "C27_is_sorted",
    "C27_is_sorted_strings",
    "C27_half_violated"
   ],
   "note": "All numeric/boolean types and strings, all lengths, chunkings and interleavings. float16 (checked as uint16) is refuted. Void not stated; long double not modelled. IsSorted is library code (not exported to Python)."
  },
  {
   "property": "C28",
   "status": "partial",
   "theorems": [
    "C28_group",
    "C28_group_bytes",
    "C28_group_distinct_partial",
    "C28_ids_iff_partial",
    "C28_lexsort_group_partial",
    "C28_lexsort_group_distinct_partial",
    "C28_signed_zero_violated",
    "C28_bytes_base0_violated",
    "C28_empty_violated"
   ],
   "note": "Proved for integer/boolean keys (base 0 and 1), byte strings (base 1) and floats without two bit patterns of the same number; C28_ids_iff_partial: for floats the ids are right exactly then (so never with both zeros or several kinds of NaN). False for strings with base 0 and empty arrays (refuted). The partitioned variant (cutoffs) is C92; the filter argument is ignored by the code."
  },
  {
   "property": "C29",
   "status": "partial",
   "theorems": [
    "C29_axis_partial",
    "C29_flat_violated",
    "C29_flat_iff_partial"
   ],
   "note": "False of the code for axis=None: the flattened array comes back unsorted (refuted for every input that is not already sorted). With an axis the call is ndarray.sort of a copy."
  },
  {
   "property": "C47",
   "status": "partial",
   "theorems": [
    "C47_sort_view_partial",
    "C47_strided_iff_partial",
    "C47_strided_violated"
   ],
   "note": "Proved for contiguous arrays and for every stride below 65536 elements or without threads. With threads a strided view is sorted rightly exactly if it happens to hold the same elements as the memory behind its first one (C47_strided_iff_partial)."
  },
  {
   "property": "C48",
   "status": "partial",
   "theorems": [
    "C48_byteswapped_violated",
    "C48_byteswapped_iff_partial",
    "C50_np_sort_partial"
   ],
   "note": "False of the code for swapped arrays (refuted for every length, kind and schedule; right exactly if reversing the bytes permutes the numbers); native arrays: C50_np_sort_partial. numpy's caller (_new_sortlike) is modelled from its documentation."
  },
  {
   "property": "C49",
   "status": "partial",
   "theorems": [
    "C49_writes_outside_iff_violated",
    "C49_accepted_violated",
    "C25_cutoffs_partial"
   ],
   "note": "False of the code: exactly the non-ascending accepted cutoffs write outside; ascending ones are handled correctly (C25_cutoffs_partial)."
  },
  {
   "property": "C50",
   "status": "partial",
   "theorems": [
    "C50_np_sort_partial",
    "C50_misaligned_iff_partial",
    "C50_misaligned_violated"
   ],
   "note": "Proved for native aligned 1-D arrays; misaligned arrays are copied with a stray stride: right exactly with threads on large arrays, or if the elements found with that stride are the array's (C50_misaligned_iff_partial)."
  },
  {
   "property": "C30",
   "status": "partial",
   "theorems": [
    "C30_mask_partial",
    "C30_tail_violated",
    "C30_mixed_passes_violated",
    "C30_two_dim_violated"
   ],
   "note": "Proved for all lengths, masks, strides and schedules except: item sizes other than 1/2/4/8 with strided values, a counting pass without and a copying pass with threads, and n-D masks; each exception is refuted."
  },
  {
   "property": "C31",
   "status": "partial",
   "theorems": [
    "C31_index_partial",
    "C31_unsigned_violated",
    "C31_unsigned_variable_violated",
    "C31_unsigned_variable_junk_violated",
    "C31_threaded_strided_violated",
    "C31_longdouble_default_violated",
    "C31_unsigned_iff_partial"
   ],
   "note": "Proved for signed indices of every width and value (threads: contiguous values) and for unsigned ones below half the range. Other unsigned indices (exactly those with the top bit set, C31_unsigned_iff_partial), threaded strided values and 16-byte defaults are refuted."
  },
  {
   "property": "C32",
   "status": "partial",
   "theorems": [
    "C32_columns_partial",
    "C32_wrapper_violated",
    "C32_offset_violated"
   ],
   "note": "The C conversion is proved for every layout with at least one field inside the record, all row counts, modes and schedules. The Python wrapper raises NameError for every record array (refuted); offsets are not validated (refuted)."
  },
  {
   "property": "C33",
   "status": "partial",
   "theorems": [
    "C33_returns_partial",
    "C33_iff_partial",
    "C33_no_fields_violated",
    "C33_zero_size_violated",
    "C33_no_worker_violated"
   ],
   "note": "Proved for at least one field and nonempty records, with a worker running when threaded; the other cases are refuted: endless loop without fields, division by zero for empty records, hang without workers."
  },
  {
   "property": "C34",
   "status": "partial",
   "theorems": [
    "C34_integers",
    "C34_serial",
    "C34_float_partial",
    "C34_threaded_exact_partial",
    "C34_schedule_iff_partial",
    "C34_rounding",
    "C34_second_violated",
    "C34_float_race_violated"
   ],
   "note": "All integer types, lengths and interleavings proved. Floats: proved when the difference of the first two values is exact (integral values); otherwise the second element changes (refuted) and for float32 the result depends on the schedule (refuted); C34_threaded_exact_partial gives exactly the arrays the threads can leave, C34_schedule_iff_partial when that is one array."
  },
  {
   "property": "C35",
   "status": "partial",
   "theorems": [
    "C35_settings_partial",
    "C35_workers_in_range",
    "C35_one_worker_violated",
    "C35_longlong_violated",
    "C35_shared_counts",
    "C35_shared_limit_partial",
    "C35_ledger_race_violated"
   ],
   "note": "All histories proved for 2..15 worker threads and dtypes with their own table entry. Refuted: one worker thread (clamp gives 0), long/long long share atop_setworkers (exactly what it returns: C35_shared_limit_partial), ledger_disable during a running operation is undone."
  },
  {
   "property": "C37",
   "status": "partial",
   "theorems": [
    "C37_round_trip",
    "C37_same_iff",
    "C37_in_bounds_partial",
    "C37_range_violated"
   ],
   "note": "Proved for every numpy dtype number. The range check accepts 24..95 and reads outside the table (refuted); numpy has no such numbers."
  },
  {
   "property": "C36",
   "status": "partial",
   "theorems": [
    "C36_disabled_is_numpy",
    "C36_enabled_is_pnumpy",
    "C36_deterministic",
    "C36_initialize_idempotent",
    "C36_saved_not_own_partial",
    "C36_pn_disable",
    "C36_getitem_hook",
    "C36_saved_is_pnumpy_violated",
    "C36_disable_keeps_getitem_violated",
    "C36_atop_disable_splits_violated",
    "C36_oldinit_violated",
    "C36_argsort_disabled",
    "C36_sort_disabled"
   ],
   "note": "All histories, any set of kernels and any failure point of initialize. Refuted parts: the saved original of bitwise_not is pnumpy's invert stub (calls still end in numpy), pn.disable() keeps the __getitem__ hook, atop_disable() alone still splits calls among threads, oldinit() cannot be undone."
  },
  {
   "property": "C38",
   "status": "partial",
   "theorems": [
    "C38_never_outside",
    "C38_kept_iff_partial",
    "C38_last_32_partial",
    "C38_overwritten_violated",
    "C38_capacity_violated",
    "C38_lost_violated",
    "C38_not_retrievable_violated"
   ],
   "note": "No store outside the ring, for every history. C38_kept_iff_partial says exactly which entries are kept; only the last 32 are certain to be, and never more than 2048 instead of 8096 (the mask is not a power of two minus one; refuted), and ledger_info returns None."
  },
  {
   "property": "C39",
   "status": "partial",
   "theorems": [
    "C39_blocks_partial",
    "C39_free_exact",
    "C39_counters",
    "C39_damaged_guard",
    "C39_overflow_violated"
   ],
   "note": "All histories of a caller that stores inside its blocks and frees its own blocks, any malloc meeting its contract, requests below 2^64-16 bytes. Larger requests wrap (refuted)."
  },
  {
   "property": "C41",
   "status": "partial",
   "theorems": [
    "C41_length",
    "C41_positions",
    "C41_positions_unique",
    "C41_row_major_partial",
    "C41_col_major_partial",
    "C41_reported_iff_partial",
    "C41_contiguous_recognised",
    "C41_fortran_violated",
    "C41_equal_strides_violated"
   ],
   "note": "Every shape and stride list of positive dimensions. A walk that stops at 0 in the C direction means the flat loop is right; arrays in Fortran order and arrays whose first and last strides coincide are also reported as one loop (refuted; C41_reported_iff_partial says exactly when the report is right)."
  },
  {
   "property": "C40",
   "status": "partial",
   "theorems": [
    "C40_slot_in_range",
    "C40_lock_exclusive",
    "C40_items_distinct",
    "C40_refused_iff",
    "C40_refused_complete",
    "C40_concurrent_chunks_partial",
    "C40_concurrent_tasks_partial",
    "C40_concurrent_ufuncs_partial",
    "C40_not_serial_violated",
    "C40_concurrent_sort_hangs_violated"
   ],
   "note": "Any number of threads, workers and steps. Each operation is processed exactly once if never 1024 operations start during one (items filled in one step of the model; C108 has the single stores). Refuted: an operation started during another one is not serial (the lock covers only the handing out), and a parallel sort overtaken by another thread's operation before a worker looks at it never returns."
  },
  {
   "property": "C51",
   "status": "proved",
   "theorems": [
    "C51_call_result",
    "C51_disabled_is_numpy",
    "C51_enabled_is_kernel",
    "C51_settings_never_matter",
    "C51_call_finishes",
    "C51_guard_is_numpy"
   ],
   "note": "Model of the element-wise paths of the four stubs; numpy's own loop is taken to be a sequential strided loop."
  },
  {
   "property": "C52",
   "status": "proved",
   "theorems": [
    "C52_small_or_disabled_serial",
    "C52_large_split",
    "C52_thread_limit",
    "C52_limit_reached"
   ],
   "note": ""
  },
  {
   "property": "C53",
   "status": "partial",
   "theorems": [
    "C53_lanes",
    "C53_types",
    "C53_element_size",
    "C53_integers",
    "C53_booleans_partial",
    "C53_floats",
    "C53_raw_bool_violated"
   ],
   "note": "Proved for integers, booleans stored as 0/1 and floats (float instructions a parameter). False of the code: minimum/maximum with a NaN first operand (C43) and boolean bytes other than 0/1; floor_divide of floats is not in this claim (see C56)."
  },
  {
   "property": "C54",
   "status": "proved",
   "theorems": [
    "C54_lanes",
    "C54_integers",
    "C54_booleans",
    "C54_start_values",
    "reduce_returns"
   ],
   "note": "float64 reductions: see C103."
  },
  {
   "property": "C55",
   "status": "partial",
   "theorems": [
    "C55_lanes",
    "C55_element_size",
    "C55_integers",
    "C55_logical_not",
    "C55_invert_bool_partial",
    "C55_floats",
    "C55_integral",
    "C55_raw_bool_violated"
   ],
   "note": "Float absolute/negative: see C44, rint: see C45. Boolean bytes other than 0/1 are inverted wrongly."
  },
  {
   "property": "C56",
   "status": "partial",
   "theorems": [
    "C56_floor_divide_partial",
    "C56_floor_divide_call_partial",
    "C56_floor_divide_violated",
    "ieeeDivide_exists"
   ],
   "note": "The result is the floor q or q + 1 (quotients up to 2^M); q exactly when the division does not round up to q + 1. False of the code in full: floor_divide(1.0, 0.1) is 10.0. Division and floor are IEEE-754's (hypothesis, shown satisfiable)."
  },
  {
   "property": "C57",
   "status": "proved",
   "theorems": [
    "C57_lanes",
    "C57_element_size",
    "C57_compare"
   ],
   "note": "For the one-byte kernels with an 8-byte vector step the output must not overlap an input."
  },
  {
   "property": "C58",
   "status": "proved",
   "theorems": [
    "C58_lanes",
    "C58_element_size",
    "C58_classify"
   ],
   "note": ""
  },
  {
   "property": "C59",
   "status": "proved",
   "theorems": [
    "C59_call_result",
    "C59_kernel",
    "C59_same_result",
    "C59_call_finishes",
    "C59_position_dependent_violated"
   ],
   "note": "Proved as stated. A consequence: the same argument can give different results at different positions (witness: nine float32 zeros, np.log)."
  },
  {
   "property": "C60",
   "status": "proved",
   "theorems": [
    "C60_symmetry",
    "C60_calls",
    "flipSign_value"
   ],
   "note": "The C library's symmetry is a hypothesis of the call-level theorem."
  },
  {
   "property": "C61",
   "status": "partial",
   "theorems": [
    "C61_log_nonpositive",
    "C61_sin_cos_special_partial",
    "C61_exp_clamped",
    "C61_log_zero_violated",
    "C61_exp_nan_violated",
    "C61_log_nan_violated"
   ],
   "note": "Vector part. Proved: sin/cos of NaN and infinities, log of negatives. False of the code: log(0) is NaN, exp clamps NaN and infinities to finite values, log(NaN) is the log of the smallest normal number."
  },
  {
   "property": "C62",
   "status": "partial",
   "theorems": [
    "C62_exp_zero_float_partial",
    "C62_sin_cos_zero",
    "C62_log_pow2_float_partial",
    "C62_exp_zero_double_violated",
    "C62_log_pow2_double_violated",
    "C62_log_one_violated",
    "C62_exp_call_violated",
    "ieeeArith_exists",
    "ieeeCvt_exists"
   ],
   "note": "Vector part, float32 and sin/cos of float64 proved for every IEEE-754 rounding. False of the code for float64 exp and log: the exponent bias constant is 0x7fe, so exp(0.0) is 2^1023 and log(1.0) is below -700. IEEE arithmetic is a hypothesis, shown satisfiable."
  },
  {
   "property": "C63",
   "status": "proved",
   "theorems": [
    "C63_references"
   ],
   "note": "For calls that do not crash. Reference counts of dtype descriptors are not modelled."
  },
  {
   "property": "C64",
   "status": "partial",
   "theorems": [
    "C64_refused_partial",
    "C64_zero_dim_violated",
    "C64_none_violated"
   ],
   "note": "Without keywords and when memory suffices: raises exactly when a key is unusable. False of the code: a 0-d array, lexsort(None) and a call without keys access memory outside the objects; views of fewer than two elements with another stride are refused."
  },
  {
   "property": "C65",
   "status": "partial",
   "theorems": [
    "C65_views_partial",
    "C65_views_wide_partial",
    "C65_wide_finishes_partial",
    "C65_finishes",
    "C65_pn_lexsort_partial",
    "C65_byte_order_violated"
   ],
   "note": "Every number of keys, length, strides, and schedule, for native byte order; floats without NaN, no float16 keys, string keys below 65536 rows, stable kinds (restrictions of C24). False of the code for byte-swapped keys, which are sorted by their raw bytes."
  },
  {
   "property": "C66",
   "status": "partial",
   "theorems": [
    "C66_index_partial",
    "C66_index_finishes",
    "C66_cutoffs_partial",
    "C66_cutoffs_finishes",
    "C66_index_and_cutoffs_partial",
    "C66_bad_cutoffs_refused",
    "C66_empty_index_violated",
    "C66_index_range_violated",
    "C66_strided_index_violated",
    "C66_short_index_cutoffs_violated"
   ],
   "note": "For packed index arrays of valid row numbers and ascending cutoffs. False of the code: an empty index array sorts uninitialised row numbers, row numbers are not range-checked, strides of index= and cutoffs= are ignored, an index shorter than the keys together with cutoffs is written past its end."
  },
  {
   "property": "C67",
   "status": "proved",
   "theorems": [
    "C67_np_argsort",
    "C67_served"
   ],
   "note": "numpy's own argsort functions (used for stable sorts of 1- and 2-byte types, with hooks disabled and when SortIndex64 fails) are hypotheses. C67_served: otherwise pnumpy serves the call itself."
  },
  {
   "property": "C68",
   "status": "partial",
   "theorems": [
    "C68_np_argsort_partial",
    "C68_short_partial",
    "C68_nan_violated"
   ],
   "note": "Every kind without NaN, quick and heap with NaN, stable with NaN up to 15 elements. The stable kind with NaN is wrong from 16 elements on (refuted)."
  },
  {
   "property": "C69",
   "status": "proved",
   "theorems": [
    "C69_np_sort",
    "C69_served"
   ],
   "note": "numpy's own sort functions are hypotheses. Allocation failure inside a leaf of the parallel merge sort is not modelled. Byte-swapped or misaligned contiguous 1-D arrays: C48, C50 (refuted)."
  },
  {
   "property": "C70",
   "status": "proved",
   "theorems": [
    "C70_np_lexsort_exact"
   ],
   "note": "numpy's own stable argsort is a hypothesis."
  },
  {
   "property": "C71",
   "status": "partial",
   "theorems": [
    "C71_np_lexsort_partial",
    "C71_short_partial",
    "C68_nan_violated"
   ],
   "note": "Float keys without NaN, or with at most 15 rows; with NaN and 16 rows wrong already for one key (C68_nan_violated)."
  },
  {
   "property": "C72",
   "status": "partial",
   "theorems": [
    "C72_worker_count_partial",
    "C72_iff_partial",
    "C72_numbers",
    "C72_high_cpus_violated"
   ],
   "note": "Exact count for every affinity mask and all start orders (Linux). CPUs from number 63 on are not seen: a process confined to them gets 5 workers whatever it may use (refuted)."
  },
  {
   "property": "C73",
   "status": "partial",
   "theorems": [
    "C73_sorts_return_partial",
    "C73_one_cpu_violated",
    "C73_two_cpus_violated"
   ],
   "note": "At least three CPUs seen and no request for fewer than two workers. With one CPU every parallel sort hangs, with two it may hang, after any settings history (refuted)."
  },
  {
   "property": "C74",
   "status": "partial",
   "theorems": [
    "C74_default_partial",
    "C74_other_index_type",
    "C74_string_default_violated",
    "C74_big_int_violated",
    "C74_np_uint64_violated",
    "C74_wraps_violated",
    "C74_half_violated",
    "C74_wide_violated",
    "castsOk_exists"
   ],
   "note": "Exact outcome of the call proved for every default the type holds (booleans, integers, floats, None). Refuted: bytes/str defaults give uninitialised memory; integers outside int64 are stored as -1.0 in float64 arrays, np.uint64 >= 2^63 as a negative number; integers out of range wrap; float16 arrays get 0.0 as invalid value; long double and complex128 read past an 8-byte variable."
  },
  {
   "property": "C75",
   "status": "partial",
   "theorems": [
    "C75_mask_partial",
    "C75_other_index",
    "C75_other_length",
    "C75_no_memory",
    "C75_two_dim_violated",
    "C75_shape_violated",
    "C75_column_violated",
    "C75_byte_order_violated",
    "C75_object_violated"
   ],
   "note": "Exact outcome proved for 1-D arrays and masks; every other index type, length mismatch and out-of-memory go to numpy. Refuted: a 2-D mask reads out of bounds, wrong shapes are accepted, results lose dimensions and byte order, object items are not counted."
  },
  {
   "property": "C76",
   "status": "proved",
   "theorems": [
    "C76_results_visible",
    "C76_published",
    "C76_old_or_new",
    "C76_returns"
   ],
   "note": "x86-TSO: first-in-first-out store buffers, Interlocked operations wait for the own buffer. One call; a worker that enters on a stale pool number is C05."
  },
  {
   "property": "C77",
   "status": "partial",
   "theorems": [
    "C77_converts_partial",
    "C77_rejects",
    "C77_not_array_violated",
    "C77_zero_dim_violated",
    "C77_no_memory_violated",
    "C77_short_output_violated",
    "C77_broadcast_violated",
    "C77_int32_offsets_violated",
    "C77_fortran_violated"
   ],
   "note": "Exact result proved for arguments as documented (any number of dimensions, any sizes, any schedule), and ValueError without change for the checked errors. Refuted: non-arrays and 0-d arrays are dereferenced, output lengths, offsets' type and higher strides are not checked (out-of-bounds writes and reads, wrong order), allocation failure crashes."
  },
  {
   "property": "C78",
   "status": "proved",
   "theorems": [
    "C78_code_sort_visible",
    "C78_code_merge_equals_serial",
    "C78_code_sort_completes",
    "C78_code_argsort_visible",
    "C78_code_argsort_sorted",
    "C78_code_argsort_completes",
    "C78_code_sort_race_free",
    "C78_code_argsort_race_free",
    "C78_sort_visible",
    "C78_merge_equals_serial",
    "C78_sort_completes",
    "C78_argsort_visible",
    "C78_argsort_sorted",
    "C78_argsort_completes"
   ],
   "note": "IsBuddyBitSet and the CompleteWorkBlock after it are one step; other cells (the work item's number) hold values of the array's element type; the C78_code_ theorems are about the sort and merge functions of sort.cpp as loads and stores (Model/SortCode, source level, not the compiled code), the others about every program that implements the functions of Model/Sort; keys of an indirect sort are read-only program data."
  },
  {
   "property": "C79",
   "status": "proved",
   "theorems": [
    "C79_child_elementwise",
    "C79_child_chunks"
   ],
   "note": "The worker pool and the ring are as in Model/Callers (an item's fields are written in one step; 64-bit indices do not overflow)."
  },
  {
   "property": "C80",
   "status": "partial",
   "theorems": [
    "C80_child_sort_hangs_violated",
    "C80_child_sort_serial_partial"
   ],
   "note": "False of the code: every parallel sort in a forked child hangs, unless the ring's lock happened to be held at the fork."
  },
  {
   "property": "C81",
   "status": "partial",
   "theorems": [
    "C81_plain_partial",
    "C81_method_partial",
    "C81_array_partial",
    "C81_iff_partial",
    "C81_wrap_violated"
   ],
   "note": "False of the code for array-likes with __array_wrap__ that lack the method (or whose method raises TypeError): NameError, because the name `mu` is not defined. C81_iff_partial says exactly when a call ends as numpy's."
  },
  {
   "property": "C82",
   "status": "partial",
   "theorems": [
    "C82_topology",
    "C82_cpuinfo_partial",
    "C82_usual",
    "C82_processor_lines",
    "C82_stat_violated",
    "C82_import_violated",
    "C82_last_section_violated"
   ],
   "note": "Counts proved right for every topology and every complete /proc/cpuinfo. False of the code: the last resort raises NameError (open_text is not defined) and an unexpected line raises ValueError; both prevent the import."
  },
  {
   "property": "C83",
   "status": "proved",
   "theorems": [
    "C83_lexsort_permutation",
    "C83_index_permutation",
    "C83_cutoffs_permutation",
    "C83_call",
    "C83_np_argsort"
   ],
   "note": "np.argsort assumes that numpy's own argsort returns permutations. Cutoffs ascending (others are C25_unsorted_violated)."
  },
  {
   "property": "C84",
   "status": "partial",
   "theorems": [
    "C84_serial",
    "C84_parallel_partial",
    "C84_strings_violated"
   ],
   "note": "False of the code for string keys in parallel after another key: ParMergeMergeString reads the string before row 0 (index -1) whenever row 0 comes first in a right half."
  },
  {
   "property": "C85",
   "status": "proved",
   "theorems": [
    "C85_overlap_in_order",
    "C85_kernel_alone_differs"
   ],
   "note": "Element-granular memory; scalar operand not overwritten by the output; threaded calls are C10_threaded_violated."
  },
  {
   "property": "C86",
   "status": "proved",
   "theorems": [
    "C86_worker_returns"
   ],
   "note": "The entry not being given to a new call meanwhile is part of the statement (see C05 for what happens otherwise)."
  },
  {
   "property": "C87",
   "status": "proved",
   "theorems": [
    "C87_as_if_serial",
    "C87_published",
    "C87_returns",
    "C87_chunk_work",
    "C87_take",
    "C87_mask",
    "C87_recarray",
    "C87_arange",
    "C87_arange_integers"
   ],
   "note": "x86-TSO as in C76. Index mode (record arrays) returns if a worker takes part (C87_index_returns_partial; without one it never does, C04). One call; a worker that enters on a stale pool number is C05. Float arange: only if elements 0 and 1 are recomputed exactly (otherwise C34_float_race_violated)."
  },
  {
   "property": "C88",
   "status": "partial",
   "theorems": [
    "C88_nobody_sleeps_partial",
    "C88_joins_partial",
    "C88_few_violated",
    "C88_comes_to_rest",
    "C88_elementwise_nobody_sleeps_partial",
    "C88_elementwise_joins_partial",
    "C88_elementwise_few_violated",
    "C88_elementwise_comes_to_rest"
   ],
   "note": "Holds when at least 3 threads are to be woken or there are no more threads than that. False for 1 or 2 out of more (C88_few_violated; e.g. 2 of 3, the default on a machine with three worker threads): the futex may wake threads outside the chosen ones instead. In index mode the thread that draws ticket 0 leaves at once (C04). Both for the calls that draw tickets from one counter and for element-wise calls (C88_elementwise_*; there the library comes to rest with any number of threads to wake). Linux only; one call."
  },
  {
   "property": "C89",
   "status": "proved",
   "theorems": [
    "C89_as_if_serial",
    "C89_published",
    "C89_old_or_stored",
    "C89_returns",
    "C89_call_result",
    "C89_same_as_unthreaded",
    "C89_old_or_new"
   ],
   "note": "One call in channel mode on x86-TSO as in C76 (a compiler that keeps the stores in order); each lane is one load or store; addresses are non-negative; the overlap conditions are those of C51 (outside them the code's result depends on the schedule, C38)."
  },
  {
   "property": "C90",
   "status": "partial",
   "theorems": [
    "C90_float32_accurate",
    "C90_call_float32",
    "C90_float64_partial",
    "C90_float64_violated",
    "C90_call_float64_violated",
    "C90_float32_large_violated"
   ],
   "note": "float32 up to |x| = 8192: within 8e-7 (about 13 units in the last place at 1; measured error is smaller). float64 up to 10^9: only within 4.142e-6, and the refutation shows that this is what the code does - np.sin(2.0) is off by more than 2.8e-6, so the full statement is false. Beyond 8192 float32 accuracy is lost (refuted at 6491234, off by more than 0.1). exp and log: C91. The library functions of the scalar tail are a hypothesis."
  },
  {
   "property": "C91",
   "status": "partial",
   "theorems": [
    "C91_exp_float32_partial",
    "C91_log_float32_partial",
    "C91_call_float32_partial",
    "C91_exp_float32_large_violated",
    "C91_exp_float32_small_violated",
    "C91_log_float32_subnormal_violated",
    "C91_float64_violated"
   ],
   "note": "float32: relative error at most 4e-7 for exp on -87.33 <= x <= 88.37 (practically the whole range of normal results) and for log on every positive normal number, including arguments next to 1. The full statement is false: float32 exp is clamped at 88.376 (88.5 and 88.625 give the same result, one of them off by more than 5%; likewise -89 and -90, off by more than 30%), log of a subnormal is log(2^-126), and the float64 versions scale by the wrong exponent bias (exp(0) is off by more than 10^6, log(1) by more than 699). The library functions of the scalar tail are a hypothesis."
  },
  {
   "property": "C92",
   "status": "partial",
   "theorems": [
    "C92_group_partial",
    "C92_group_distinct_partial",
    "C92_lexsort_group_partial",
    "C92_rejects",
    "C92_empty_partition_violated",
    "C92_outside_violated",
    "C92_no_cutoffs_violated",
    "C92_base_violated",
    "C92_bytes_violated"
   ],
   "note": "Proved for integer/boolean keys, and floats without two bit patterns of the same number, and nonempty partitions (also composed with lexsort's cutoffs, C25). False of the code for empty partitions, cutoffs not ascending, an empty cutoffs array, base_index=0 and strings of lengths other than 1, 2, 4, 8 (refuted). The function is compiled but not exported to Python in this commit; a task is one step of the model (its cells are disjoint from those of the others)."
  },
  {
   "property": "C93",
   "status": "proved",
   "theorems": [
    "C93_slots"
   ],
   "note": "For the array of channels. The thread handles, pools and thread numbers are C72."
  },
  {
   "property": "C94",
   "status": "partial",
   "theorems": [
    "C94_elementwise_ends_partial",
    "C94_chunks_end_partial",
    "C94_sort_ends_partial",
    "C94_failed_sort_violated"
   ],
   "note": "Proved for element-wise calls and for calls that work chunk by chunk; what they have done when they return is C40. For a parallel sort, proved when no other thread is in an operation meanwhile and no place of the ring it will take still holds a worker. Violated for sorts otherwise: another thread's failing sort is enough."
  },
  {
   "property": "C95",
   "status": "partial",
   "theorems": [
    "C95_once",
    "C95_inside",
    "C95_returns",
    "C95_alone_on_partial",
    "C95_alone_off_partial",
    "C95_op_names",
    "C95_type_names",
    "C95_disable_undone_violated",
    "C95_missed_violated",
    "C95_mixed_violated",
    "C95_nesting_violated",
    "C95_second_dimension_violated"
   ],
   "note": "Operations, memory, termination, single calls and names proved. Violated: disabling during a call, recording of overlapping calls, depth of the recursion, and the read of a second dimension numpy does not provide."
  },
  {
   "property": "C96",
   "status": "partial",
   "theorems": [
    "C96_add_partial",
    "C96_reduce_partial",
    "C96_multiply_violated",
    "C96_unary_violated"
   ],
   "note": "Proved for `add`. Violated for every other function: two-argument functions add, one-argument functions read a third operand that does not exist. (After hook_disable too: C36.)"
  },
  {
   "property": "C97",
   "status": "partial",
   "theorems": [
    "C97_sort_safe",
    "C97_sort_partial",
    "C97_failed_task_violated",
    "C97_np_sort_partial",
    "C97_pn_sort_partial",
    "C97_lexsort_safe",
    "C97_lexsort_partial",
    "C97_lexsort_violated",
    "C97_cutoffs",
    "C97_cutoffs_violated"
   ],
   "note": "Proved: no crash, no leak, always a permutation, failure leaves the data; correct when no task of a threaded merge sort is refused. Violated: a refused task of a threaded merge sort goes unnoticed (unsorted array returned with code 0); lexsort ignores refused keys and partitions."
  },
  {
   "property": "C98",
   "status": "partial",
   "theorems": [
    "C98_reduce_partial",
    "C98_reduce_violated",
    "C98_indexing",
    "C98_lexsort_partial",
    "C98_lexsort_violated"
   ],
   "note": "Indexing: proved. Violated: the threaded reduction and BuildArrayInfo use the block without a check and crash when it is refused."
  },
  {
   "property": "C99",
   "status": "partial",
   "theorems": [
    "C99_info",
    "C99_returns",
    "C99_limit_partial",
    "C99_threads_partial",
    "C99_invert_violated"
   ],
   "note": "Proved for every name but `invert`. Violated for `invert`: np.bitwise_not is the same object and hooked later, so atop_setworkers('invert', ...) is accepted without effect on np.invert. Limits are per element type (long and long long share one, see C35)."
  },
  {
   "property": "C100",
   "status": "proved",
   "theorems": [
    "C100_utc",
    "C100_utc_elapsed",
    "C100_tsc",
    "C100_ledger_cycles"
   ],
   "note": "C100_utc_overflow shows that from 2262 on the product overflows (undefined)."
  },
  {
   "property": "C101",
   "status": "partial",
   "theorems": [
    "C101_no_avx2",
    "C101_import_partial",
    "C101_os_violated",
    "C101_brand",
    "C101_brand_text",
    "C101_hex",
    "C101_cpustring"
   ],
   "note": "Proved where numpy has a truthful feature table. Violated with numpy 1.18 (no table): only the processor's bit is asked, OSXSAVE/XCR0 never. C101_brand needs an ordinary answer of leaf 80000000h (for FFFFFFFFh the loop has no end)."
  },
  {
   "property": "C102",
   "status": "partial",
   "theorems": [
    "C102_positions_while",
    "C102_positions_do",
    "C102_positions_reduce",
    "C102_elementwise_partial",
    "C102_unary_violated",
    "C102_reduce_partial",
    "C102_reduce_violated",
    "C102_getitem_partial",
    "C102_getitem_violated"
   ],
   "note": "Holds for binary operations, comparisons and boolean unary tests. Violated by UnaryOpFast and ReduceMathOpFast (plain dereference of __m256 pointers, needs 32) and by indexing 16-byte items (plain __m128 accesses, needs 16). Demands are those of the source; what the compiler emits is not modelled."
  },
  {
   "property": "C103",
   "status": "proved",
   "theorems": [
    "C103_serial",
    "C103_threaded",
    "C103_float64_sum",
    "C103_float64_integers",
    "C103_float64_product",
    "C103_float64_nan",
    "C103_float64_infinities",
    "C103_signed_zero_violated"
   ],
   "note": "F.add is assumed to round finite sums to a nearest float (IeeeArith, satisfiable) and to propagate NaN (IeeeSpecial). C103_signed_zero_violated: the stronger claim that the threaded and the serial sum have the same bits is false. Products: no bound when parts may underflow, zeros excluded. float32 sums use another kernel (C11)."
  },
  {
   "property": "C104",
   "status": "partial",
   "theorems": [
    "C104_first_call_partial",
    "C104_iff_partial",
    "C104_second_call_violated"
   ],
   "note": "Proved for the first call, and for every later one: its None is true exactly if no earlier call raised (C104_iff_partial). Violated by later calls: newinit sets Initialized before it starts, so after a failed first call every later one returns None with the rest not taken over (C104_second_call_violated). That the functions that were taken over keep working then is C36 (stop)."
  },
  {
   "property": "C105",
   "status": "partial",
   "theorems": [
    "C105_unchanged_partial",
    "C105_iff_partial",
    "C105_setworkers_partial",
    "C105_store_violated",
    "C105_before_init_violated"
   ],
   "note": "Proved for all histories in which no Python code stores into the dictionary (deleting is harmless); C105_iff_partial says exactly which stores do harm. Violated otherwise: atop_info() hands out the internal dictionary, whose values are addresses that are dereferenced later; and before initialize() atop_info() returns NULL without an exception."
  },
  {
   "property": "C106",
   "status": "partial",
   "theorems": [
    "C106_never_dropped_twice",
    "C106_balanced_partial",
    "C106_iff_partial",
    "C106_info_violated",
    "C106_getitem_violated",
    "C106_other_violated"
   ],
   "note": "Safety is proved for all histories. That nothing is lost is proved for histories without a first initialize, a successful atop_info(name, dtype), a successful oldinit and a getitem with a numpy-integer or str default; these lose references (refutations proved; C106_iff_partial: such histories are exactly those that lose). lexsort's arrays are C63, object elements copied without references are C75."
  },
  {
   "property": "C107",
   "status": "partial",
   "theorems": [
    "C107_unchanged_partial",
    "C107_iff_partial",
    "C107_import_violated"
   ],
   "note": "Proved for every thread and history except that the first initialize() sets 8388608 in the thread that runs it, where it stays until the user sets it again (refuted)."
  },
  {
   "property": "C108",
   "status": "partial",
   "theorems": [
    "C108_exactly_once_partial",
    "C108_ends_partial",
    "C108_hang_violated",
    "C108_out_of_bounds_violated"
   ],
   "note": "Proved for any number of threads and workers and any ring contents if no worker looks at an item while it is written (and no worker is still in an item 1024 calls old). Refuted otherwise: a worker delayed since the previous call claims a block before the end of its channel is stored, and the second of two calls of a single thread never returns; with leftover channel ends it calls the kernel beyond the end of the arrays."
  },
  {
   "property": "C109",
   "status": "partial",
   "theorems": [
    "C109_numbers",
    "C109_elementwise",
    "C109_chunks",
    "C109_sorts_return_partial",
    "C109_sorts_iff_partial",
    "C109_none_violated"
   ],
   "note": "Element-wise and chunk-wise calls: proved for any number of threads that exist. Parallel sorts: proved if at least one exists (three or more CPUs, no request for fewer than two workers); with none they never return (refuted)."
  },
  {
   "property": "C110",
   "status": "partial",
   "theorems": [
    "C110_elementwise",
    "C110_chunks",
    "C110_tasks",
    "C110_elementwise_ends",
    "C110_chunks_end",
    "C110_disabled_serial",
    "C110_workers",
    "C110_zigzag_partial",
    "C110_zigzag_violated",
    "C110_zigzag_on_violated"
   ],
   "note": "Results, termination, thread_disable and thread_setworkers: proved. thread_zigzag: proved if no call is between testing and storing the flag at that moment; refuted otherwise (the mode stays on after it was turned off, or is off after it was turned on). Calm histories only, as in C40; sorts: results, their termination is C42/C94."
  },
  {
   "property": "C111",
   "status": "partial",
   "theorems": [
    "C111_windows",
    "C111_mac_partial",
    "C111_chunks",
    "C111_mac_violated"
   ],
   "note": "Windows: proved in full. macOS: proved for work the calling thread takes part in, and for sorts if a thread that may take part is not just going to sleep at the wake-up; refuted otherwise."
  },
  {
   "property": "C112",
   "status": "partial",
   "theorems": [
    "C112_sorts_partial",
    "C112_ends_partial",
    "C112_early_look_violated",
    "C112_still_running_violated"
   ],
   "note": "Proved for any number of threads and workers and any ring contents if no worker looks at an item while it is written (and no worker is still in an item 1024 sorts old). Refuted otherwise: a sort returns with a part never sorted. Sorts end (C112_ends_partial) if moreover no other thread sorts meanwhile; without that condition see C42, C73 and C94."
  },
  {
   "property": "C113",
   "status": "partial",
   "theorems": [
    "C113_integers",
    "C113_booleans_partial",
    "C113_floats_partial",
    "C113_call_finishes",
    "C113_enabled_uses_kernel",
    "C113_unary_integers",
    "C113_unary_floats",
    "C113_unary_call_finishes",
    "C113_comparisons",
    "C113_comparison_finishes",
    "C113_reductions_partial",
    "C113_reduction_finishes",
    "C113_reductions_violated",
    "C113_logical_not",
    "C113_logical_not_finishes",
    "C113_invert",
    "C113_invert_booleans_partial",
    "C113_invert_finishes",
    "C113_rint_single",
    "C113_rint_partial",
    "C113_rint_finishes",
    "C113_rint_violated",
    "C113_bit_reductions_partial",
    "C113_bool_reductions_partial",
    "C113_subtract_reduction_violated",
    "C113_float_extremes_partial",
    "C113_float_extremes_violated",
    "C113_float64_sum",
    "C113_float64_product",
    "C113_float64_integers",
    "C113_float64_nan",
    "C113_float64_infinities"
   ],
   "note": "No parameter of the hook model is left open for these functions; numpy's own loops are assumed right. Partial because the code is wrong for minimum/maximum with a NaN first operand (C43), boolean bytes other than 0 and 1 (C53_raw_bool_violated), float absolute/negative (C44), and threaded reductions of strided arrays by numpy's saved loop (C113_reductions_violated: always so after atop_disable; C113_float_extremes_violated: for the smallest or largest of floats also while enabled), subtract.reduce with threads (C113_subtract_reduction_violated), bitwise_xor.reduce with initial= and threads (C09_xor_violated), and rint of half-way doubles while enabled (C113_rint_violated; right while disabled)."
  }
 ]
}
{"id": "C01", "title": "Threaded element-wise call processes every element exactly once", "statement": "While threading is enabled, a ufunc call on an array of n >= 65536 elements hands every index 0..n-1 to the kernel exactly once, no matter how many workers join, how their atomic operations interleave, which worker steals from which, or whether zigzag is on.", "quantifier": "every array length, every worker count, both zigzag phases and every interleaving of the workers' atomic steps", "why_tests_cant": "a race over block counters shows up only in particular interleavings; tests see a handful of schedules", "anchors": ["src/atop/threads.h: WorkMain, GetNextWorkBlockCore, GetNextWorkBlockCoreInternal", "src/pnumpy/_pnumpy.cpp: BinaryThreadCallbackStrided, UnaryThreadCallbackStrided"]}
{"id": "C02", "title": "A threaded call does not return before all its blocks are finished", "statement": "When a threaded ufunc / getitem / arange call returns to Python, every block of the call has been executed to completion by some thread; no worker is still inside a kernel of that call.", "quantifier": "every schedule of the caller and of all workers", "why_tests_cant": "the barrier is a spin on a shared counter; premature release needs a particular interleaving", "anchors": ["src/atop/threads.h: WorkMain, CompleteWorkBlock"]}
{"id": "C03", "title": "A threaded call makes progress even if workers never wake", "statement": "The calling thread alone finishes the whole call when no worker is scheduled, and when workers do take part the system can never reach a state where the caller waits for a block nobody holds; every fair run terminates.", "quantifier": "every schedule, including those in which any subset of workers is starved forever", "why_tests_cant": "absence of deadlock is a statement about all schedules", "anchors": ["src/atop/threads.h: GetNextWorkBlockCore, WorkMain", "src/atop/threads.cpp: WorkerThreadFunction"]}
{"id": "C04", "title": "Counter-style work (chunk callbacks, boolean masks, integer index) also covers exactly once", "statement": "Operations that take blocks from the single shared counter (arange, fancy indexing, counting a boolean mask, recarray conversion) see each 16384-element chunk exactly once and the chunk lengths add up to the array length.", "quantifier": "every length and every interleaving of the shared counter", "why_tests_cant": "same as C01 for the other dispatch path; last-block length depends on a bit mask", "anchors": ["src/atop/threads.h: GetNextWorkBlock, MultiThreadedChunkCallback, MultiThreadedCounterCallback, DoMultiThreadedWork"]}
{"id": "C05", "title": "Workers touch a call's work item only after it has been published", "statement": "A worker thread left over from the previous threaded call never executes part of the next call before that call's description (callback, block counts) is completely written.", "quantifier": "every interleaving of two consecutive threaded calls with the worker loop", "why_tests_cant": "the window between taking a ring slot and publishing it is a few instructions wide", "anchors": ["src/atop/threads.h: stWorkerRing::GetWorkItem, GetExistingWorkItem, SetWorkItem, WorkMain", "src/atop/threads.cpp: WorkerThreadFunction"]}
{"id": "C06", "title": "Threading does not change results of element-wise operations", "statement": "For every element-wise ufunc the output array produced with threading enabled equals the output with threading disabled, for any stride combination (contiguous, strided, scalar operand).", "quantifier": "all inputs, lengths, strides and schedules", "why_tests_cant": "needs to hold for every length modulo the chunk size and every schedule", "anchors": ["src/pnumpy/_pnumpy.cpp: AtopBinaryMathFunction, BinaryThreadCallbackStrided", "src/atop/threads.h: WorkMain"]}
{"id": "C07", "title": "SIMD kernels equal the scalar loop for every length", "statement": "An element-wise kernel that works on a vector of elements at a time and finishes with a scalar tail writes exactly out[i] = f(a[i], b[i]) for all i < n, reads nothing at or beyond index n and writes nothing outside out[0..n).", "quantifier": "every length (in particular every residue modulo the vector width) and all contents", "why_tests_cant": "off-by-one at vector boundaries hides in specific lengths", "anchors": ["src/atop/ops_binary.cpp: SimpleMathOpFast, SimpleMathOpFastSymmetric, SimpleMathOpFastDouble, SimpleMathOpSlow", "src/atop/ops_unary.cpp: UnaryOpFast"]}
{"id": "C08", "title": "In-place operation gives the same result as out-of-place", "statement": "np.add(a, b, out=a) (output exactly aliasing an input, or partially overlapping it as numpy views may) produces the same values as computing into a fresh array.", "quantifier": "every operation, length and overlap distance", "why_tests_cant": "overlap only matters for distances smaller than the vector width; tests rarely use shifted views", "anchors": ["src/pnumpy/_pnumpy.cpp: AtopBinaryMathFunction", "src/atop/ops_binary.cpp: SimpleMathOpFast", "src/atop/ops_compare.cpp: CompareInt8"]}
{"id": "C09", "title": "Threaded reduction equals serial reduction", "statement": "np.add.reduce, multiply, minimum, maximum, bitwise and/or/xor, logical and other reduce calls give the same result with threading as without, whatever the schedule (integer types, where the operation is exactly associative).", "quantifier": "all arrays, lengths, chunk boundaries, schedules", "why_tests_cant": "the combination order and the start value of each chunk depend on the number of chunks", "anchors": ["src/pnumpy/_pnumpy.cpp: AtopBinaryMathFunction, ReduceThreadCallbackStrided, GetReduceStartVal", "src/atop/ops_binary.cpp: ReduceMathOpFast"]}
{"id": "C10", "title": "Accumulate (cumsum-style) calls are not broken by threading", "statement": "np.add.accumulate on a large array returns prefix sums.", "quantifier": "all arrays of at least 65536 elements", "why_tests_cant": "loop-carried dependence is cut at chunk boundaries only for large inputs", "anchors": ["src/pnumpy/_pnumpy.cpp: AtopBinaryMathFunction"]}
{"id": "C11", "title": "SIMD reduction reads only the array and covers all elements", "statement": "A vectorised reduce (sum, prod, min, max) over n elements combines each of the n elements exactly once with the start value and never reads past the array.", "quantifier": "every length and element type", "why_tests_cant": "lengths around the vector width; upcasting float32 to double changes the lane count", "anchors": ["src/atop/ops_binary.cpp: ReduceMathOpFast, ReduceMathOpFastUpcast"]}
{"id": "C12", "title": "Emulated 64-bit multiply is the exact wrapped product", "statement": "Multiplication of int64/uint64 arrays yields x*y modulo 2^64 for every pair, vector part and tail alike.", "quantifier": "all 2^128 pairs", "why_tests_cant": "the domain cannot be enumerated", "anchors": ["src/atop/ops_binary.cpp: MUL_OP_256u64, MUL_OP_256i64"]}
{"id": "C13", "title": "Comparison ufuncs return one correct boolean per element in order", "statement": "For ==, !=, <, <=, >, >= on int8..int64, uint, float and double, output byte i is 1 exactly when the relation holds of elements i, else 0; the lane packing/shuffling neither permutes nor mixes lanes.", "quantifier": "all element values, all lengths, scalar or array on either side", "why_tests_cant": "packing uses saturating packs and cross-lane shuffles whose order is easy to get wrong for some lanes", "anchors": ["src/atop/ops_compare.cpp: COMP64i_EQ, COMP32i_EQS, COMP16i_EQ, COMP8i_EQ, CompareInt64, CompareInt32, CompareFloat, CompareDouble, CompareAny", "src/atop/atop.cpp: atop_init (gBooleanLUT64)"]}
{"id": "C14", "title": "Mixed int64/uint64 comparison is mathematically correct", "statement": "Comparing an int64 array with a uint64 array gives the answer of comparing the two mathematical integers, for all six relations in both operand orders.", "quantifier": "all pairs of 64-bit patterns", "why_tests_cant": "wrong answers occur only when sign bits differ", "anchors": ["src/atop/ops_compare.cpp: COMP_EQ_INT64, COMP_LT_UINT64, GetComparisonOpFast"]}
{"id": "C15", "title": "isnan/isfinite/isinf classify every bit pattern as IEEE prescribes", "statement": "np.isnan, np.isfinite, np.isinf return the IEEE-754 class of each float/double, in vector part and tail alike, and the constant answer for integers.", "quantifier": "all 2^32 / 2^64 bit patterns and all lengths", "why_tests_cant": "2^64 patterns cannot be enumerated", "anchors": ["src/atop/ops_unary.cpp: ISNAN_OP, ISFINITE, UnaryNanFastFloat, UnaryFiniteFastFloat, UnaryInfFastFloat, FillTrue, FillFalse"]}
{"id": "C16", "title": "Integer unary/binary scalar semantics", "statement": "abs, negative, sign, invert, floor_divide, minimum, maximum, shifts and bitwise operations on integers equal their two's-complement/wrap-around mathematical definitions, including division by zero and INT_MIN.", "quantifier": "all operand values of every integer width", "why_tests_cant": "corner values among 2^64", "anchors": ["src/atop/ops_binary.cpp: AddOp..FloorDivOp, MinOp, MaxOp", "src/atop/ops_unary.cpp: ABS_OP, SIGN_OP, NEG_OP, INVERT_OP"]}
{"id": "C17", "title": "In-place sort returns a permutation of its input", "statement": "sort(a) / a.sort with kind mergesort, quicksort or heapsort leaves in the array exactly the multiset of values it had.", "quantifier": "all arrays of every length and dtype", "why_tests_cant": "lost or duplicated elements arise only for particular size/partition patterns", "anchors": ["src/atop/sort.cpp: heapsort_, quicksort_, mergesort0_, mergesort0left_, mergesort_"]}
{"id": "C18", "title": "In-place sort returns an ascending array, NaNs last", "statement": "After sort(a) each element is <= the next one; for float dtypes every NaN is placed after every non-NaN.", "quantifier": "all arrays of every length, all float bit patterns incl. NaN, -0.0, inf", "why_tests_cant": "cannot sample all orders and NaN placements", "anchors": ["src/atop/sort.cpp: COMPARE_LT, FIND_NANS, heapsort_, quicksort_, mergesort0_"]}
{"id": "C19", "title": "Sorting never reads or writes outside the array and its workspace, and terminates", "statement": "No sort kind accesses memory outside the n elements and the allocated workspace (n/2 elements for merge), uses at most its fixed explicit stack, and always terminates.", "quantifier": "all arrays and lengths", "why_tests_cant": "memory errors for specific inputs; termination is a for-all claim", "anchors": ["src/atop/sort.cpp: heapsort_, quicksort_ (PYA_QS_STACK), mergesort0_, mergesort_ (workspace)"]}
{"id": "C20", "title": "argsort returns a permutation of 0..n-1 that sorts the keys", "statement": "argsort/lexsort32/lexsort64 return each index exactly once and indexing the input with the result gives a non-descending sequence with NaNs last.", "quantifier": "all arrays, lengths, dtypes", "why_tests_cant": "same as sort; NaN placement depends on run structure", "anchors": ["src/atop/sort.cpp: amergesort0_, amergesort0left_, aheapsort_, aquicksort_"]}
{"id": "C21", "title": "argsort with mergesort is stable", "statement": "Among equal keys the merge-based argsort keeps input order.", "quantifier": "all arrays", "why_tests_cant": "stability failures need specific tie patterns across merge boundaries", "anchors": ["src/atop/sort.cpp: amergesort0_, amergesort0left_"]}
{"id": "C22", "title": "Parallel sort equals serial sort under every schedule", "statement": "For arrays of at least 65536 elements the eight-segment parallel sort returns a sorted permutation whatever the order in which workers finish their segments and perform the pairwise merges; each merge is performed exactly once and only after both halves are ready.", "quantifier": "all interleavings of the eight segment tasks and all data", "why_tests_cant": "the buddy-bit protocol has 8! completion orders times interleavings", "anchors": ["src/atop/sort.cpp: par_sort, par_amergesort, ParMergeInPlaceThreadCallback, ParArgSortCallback, IsBuddyBitSet, MERGE_SPLITTER"]}
{"id": "C23", "title": "Parallel sort work areas never overlap or overflow", "statement": "Concurrent segment tasks use disjoint ranges of the array and of the workspace, all inside the allocation, for every array length.", "quantifier": "all n >= 65536", "why_tests_cant": "n/16+1 style bounds must hold for every n", "anchors": ["src/atop/sort.cpp: MERGE_SPLITTER::SetLevels, ParMergeInPlaceThreadCallback, par_sort"]}
{"id": "C24", "title": "lexsort orders rows lexicographically", "statement": "lexsort32/lexsort64([k0, ..., km]) returns indices ordering rows by km, then k(m-1), ... then k0, ties in original order.", "quantifier": "any number of keys, rows and values", "why_tests_cant": "unbounded number of keys; ties needed on all higher keys", "anchors": ["src/pnumpy/sorting.cpp: lexsort, CMultiListPrepare", "src/atop/sort.cpp: SortIndex"]}
{"id": "C25", "title": "lexsort with cutoffs sorts each partition independently", "statement": "With cutoffs= the result is, partition by partition, the partition-relative stable argsort; partitions do not influence each other and the result is the same for any processing order of the partitions.", "quantifier": "all cutoff arrays accepted by the call and all schedules", "why_tests_cant": "schedule and partition layouts unbounded", "anchors": ["src/atop/sort.cpp: par_amergesort", "src/pnumpy/sorting.cpp: GetCutOffs"]}
{"id": "C26", "title": "String/unicode/void sorting follows fixed-width byte / code-point order", "statement": "Sorting fixed-width byte strings orders them by unsigned byte comparison of all width bytes, unicode by code point; the order relation is a total order consistent between sort and argsort.", "quantifier": "all strings of every width", "why_tests_cant": "specific prefixes/word boundaries (8-byte compare)", "anchors": ["src/atop/sort.cpp: STRING_LT, UNICODE, BINARY_LT, mergesort0string_, ParMergeMergeString"]}
{"id": "C27", "title": "is_sorted answers exactly whether the array is ascending", "statement": "The parallel ascending check returns true iff each element is <= its successor (NaNs last), for any chunking and schedule.", "quantifier": "all arrays, chunk boundaries, schedules", "why_tests_cant": "violations straddling a chunk boundary", "anchors": ["src/atop/sort.cpp: IsSorted, IsSortedFloat, IsSortedString"]}
{"id": "C28", "title": "Group-by from lexsort assigns group ids consistently", "statement": "Grouping from a sorted index gives equal ids exactly to rows with equal keys, first-occurrence index per group and counts that sum to n.", "quantifier": "all arrays with any duplication pattern and filter", "why_tests_cant": "unbounded patterns", "anchors": ["src/atop/sort.cpp: GroupIndexStep2, GroupIndexStep2String", "src/pnumpy/sorting.cpp: GroupFromLexSort"]}
{"id": "C29", "title": "sort(a, axis=None) returns the sorted flattened array", "statement": "pnumpy.sort(a, axis=None) returns the flattened values of a in ascending order.", "quantifier": "all arrays", "why_tests_cant": "property over all inputs", "anchors": ["src/pnumpy/sort.py: sort"]}
{"id": "C30", "title": "Boolean mask indexing equals filtering", "statement": "getitem(a, mask) returns exactly the elements a[i] with mask[i] true, in order, for any length, item size, stride and chunking; the output length equals the number of true bytes.", "quantifier": "all masks and arrays of all lengths, every chunk schedule", "why_tests_cant": "8-byte-at-a-time fast paths and per-chunk prefix sums", "anchors": ["src/pnumpy/getitem.cpp: SumBooleanMask, BooleanCount, BooleanIndexInternal"]}
{"id": "C31", "title": "Integer fancy indexing equals element lookup", "statement": "getitem(a, idx) returns out[i] = a[idx[i]] for -n <= idx[i] < n (negative counts from the end) and the type's default/invalid value for any other index; no out-of-bounds memory access happens for any index value and any index dtype.", "quantifier": "all index arrays of all signed and unsigned integer dtypes", "why_tests_cant": "extreme index values among 2^64", "anchors": ["src/pnumpy/getitem.cpp: GetItemInt, GetItemUInt, GetItemIntVariable, GetItemUIntVariable, GetItemCallback"]}
{"id": "C32", "title": "recarray_to_colmajor transposes record fields exactly", "statement": "Each output column equals the corresponding field of all rows in order, for every row count, item size, field offset and field width, threaded or not.", "quantifier": "all record layouts and row counts", "why_tests_cant": "row-block size depends on item size; chunk boundaries", "anchors": ["src/atop/recarray.cpp: ConvertRecArray, RecArrayToColMajor"]}
{"id": "C33", "title": "recarray_to_colmajor terminates on every input", "statement": "The conversion returns for every record array, including arrays with no selected fields or zero-width records.", "quantifier": "all record arrays", "why_tests_cant": "termination", "anchors": ["src/atop/recarray.cpp: ConvertRecArray"]}
{"id": "C34", "title": "arange fills first + i*step", "statement": "Hooked np.arange returns first, first+step, ... for every length, with the same values whichever chunks are filled by whichever thread.", "quantifier": "all start/step and lengths; all schedules", "why_tests_cant": "chunk-based fill re-reads the first two elements concurrently", "anchors": ["src/atop/fill.cpp: ArangeFill, ArangeFillType", "src/pnumpy/_pnumpy.cpp: AtopArangeMathFunction"]}
{"id": "C35", "title": "Thread/worker/zigzag settings behave like simple variables with clamping", "statement": "thread_setworkers(k) clamps into the supported range, returns the previous value, and thread_getworkers returns the clamped value; zigzag toggles between off and on and reports its state; thread_enable/disable/isenabled agree - after any sequence of calls.", "quantifier": "all call sequences", "why_tests_cant": "unbounded histories", "anchors": ["src/atop/threads.h: SetFutexWakeup, GetFutexWakeup", "src/pnumpy/_pnumpy.cpp: thread_setworkers, thread_zigzag, atop_setworkers"]}
{"id": "C36", "title": "Disabling pnumpy restores numpy behaviour; enabling is idempotent", "statement": "After any sequence of initialize/atop_enable/atop_disable/ledger/recycler/hook calls, a ufunc runs pnumpy's implementation iff pnumpy is enabled; initialize twice is the same as once and the saved original numpy loop is never overwritten by pnumpy's own.", "quantifier": "all call sequences", "why_tests_cant": "unbounded histories", "anchors": ["src/pnumpy/_pnumpy.cpp: newinit, atop_enable, atop_disable, hook_enable, hook_disable, ledger_enable, recycler_enable"]}
{"id": "C37", "title": "dtype conversion tables are consistent", "statement": "Converting a numpy dtype number to pnumpy's type and back yields an equivalent dtype of the same item size, and no dtype number accepted by the range check reads outside the table.", "quantifier": "all dtype numbers", "why_tests_cant": "range check vs. table length", "anchors": ["src/pnumpy/_pnumpy.cpp: convert_dtype_to_atop, convert_atop_to_dtype, dtype_to_atop"]}
{"id": "C38", "title": "Ledger ring buffer never indexes outside and keeps recent entries", "statement": "Recording any number of calls never writes outside the ring, and the last entries recorded are retrievable.", "quantifier": "all histories", "why_tests_cant": "ring wrap happens after thousands of entries", "anchors": ["src/pnumpy/ledger.cpp: LedgerRecord, RING_BUFFER_MASK"]}
{"id": "C39", "title": "Aligned allocator returns aligned blocks and frees exactly what it allocated", "statement": "Every workspace allocation is aligned, lies within the underlying allocation, and freeing it frees exactly the underlying block.", "quantifier": "all sizes and base addresses", "why_tests_cant": "depends on address residues", "anchors": ["src/atop/atop.cpp: FmAlloc, FmFree"]}
{"id": "C40", "title": "Threaded calls do not nest incorrectly", "statement": "A threaded operation started while another one holds the ring runs serially and still returns the correct result; the ring slot index is always in range.", "quantifier": "all nesting depths and call histories", "why_tests_cant": "unbounded histories", "anchors": ["src/atop/threads.h: GetWorkItem, stWorkerRing"]}
{"id": "C41", "title": "Array flattening information is correct", "statement": "For a numpy array described by shape and strides, pnumpy's element count is the product of the dimensions and its contiguity / flat-stride classification is right: reading n elements at the reported stride visits the array's elements in C order.", "quantifier": "all shapes and strides", "why_tests_cant": "unbounded rank and strides", "anchors": ["src/pnumpy/common.cpp: CalcArrayLength, GetStridesAndContig"]}
{"id": "C42", "title": "A parallel sort returns on every machine configuration", "statement": "np.sort / np.argsort / lexsort of a large array returns for every number of CPUs in the process affinity mask and every worker-thread setting.", "quantifier": "all arrays, all values of the worker count and wake-up count, all schedules", "why_tests_cant": "the hang needs a configuration with no woken worker (one-CPU affinity) and cannot be observed by a terminating test", "anchors": ["src/atop/threads.h: WorkMain, GetNextWorkIndex, SetFutexWakeup", "src/atop/sort.cpp: par_sort, par_amergesort"]}
{"id": "C43", "title": "np.minimum / np.maximum propagate NaN", "statement": "np.minimum(a,b) and np.maximum(a,b) return NaN wherever a or b is NaN and otherwise the smaller/larger value, in vector part and tail.", "quantifier": "all pairs of float32/float64 bit patterns", "why_tests_cant": "2^128 operand pairs; NaN in first and second position behave differently", "anchors": ["src/atop/ops_binary.cpp: MinOp, MaxOp, MIN_OP_256f32, MAX_OP_256f32"]}
{"id": "C44", "title": "np.negative, np.abs, np.sign of floats do not depend on the position in the array", "statement": "The result for an element of np.negative, np.absolute and np.sign has the negated/absolute/sign value and the same bits whether the element falls in the vector part or in the scalar tail.", "quantifier": "all bit patterns, positions and lengths", "why_tests_cant": "needs every bit pattern, including signed zeros, at every offset", "anchors": ["src/atop/ops_unary.cpp: NEG_OP, NEG_OP_256, ABS_OP, ABS_OP_256, FLOATSIGN_OP"]}
{"id": "C45", "title": "np.rint rounds to nearest, ties to even", "statement": "np.rint of a double is the nearest integer, and the even one of two equally near integers, as numpy documents.", "quantifier": "all doubles", "why_tests_cant": "2^64 inputs; only the exact half-way values differ", "anchors": ["src/pnumpy/_pnumpy.cpp: gUnaryMapping", "src/atop/ops_unary.cpp: ROUND_OP, GetUnaryOpSlow"]}
{"id": "C46", "title": "Sorting a float16 array gives ascending numbers", "statement": "_pnumpy.sort of a float16 array returns its elements in ascending numeric order, negative numbers first and NaNs last. (np.sort and np.argsort leave float16 to numpy.)", "quantifier": "all float16 arrays, all sort kinds, lengths, thread settings and schedules", "why_tests_cant": "only arrays that contain negative numbers or NaNs show the wrong order, tests sort small positive ranges", "anchors": ["src/atop/sort.cpp:Sort", "src/atop/sort.cpp:COMPARE_LT", "src/atop/halffloat.h:atop_half"]}
{"id": "C47", "title": "Sorting a strided view sorts the elements of the view", "statement": "pnumpy.sort of a non-contiguous 1-D view returns the elements of this view in ascending order, for every length and stride.", "quantifier": "all lengths and strides, threaded or not", "why_tests_cant": "only views of at least 65536 elements take the threaded path that ignores the stride", "anchors": ["src/atop/sort.cpp: par_sort", "src/pnumpy/sorting.cpp: sort"]}
{"id": "C48", "title": "Sorting keeps the values of non-native byte order arrays", "statement": "np.sort of an array with non-native byte order returns the same numbers in ascending order.", "quantifier": "all arrays", "why_tests_cant": "property over all inputs and byte orders", "anchors": ["src/pnumpy/_pnumpy.cpp: AtopSortMathFunction"]}
{"id": "C49", "title": "Invalid lexsort arguments are rejected without touching memory", "statement": "lexsort with cutoffs that are not an ascending partition of the rows raises an error, and never writes outside the index array it returns.", "quantifier": "all cutoff arrays", "why_tests_cant": "quantifies over all argument arrays; out-of-bounds writes need not crash", "anchors": ["src/pnumpy/sorting.cpp: lexsort, GetCutOffs"]}
{"id": "C50", "title": "np.sort of a 1-D array sorts its elements, aligned or not", "statement": "With pnumpy's hooks installed, np.sort / ndarray.sort of a contiguous 1-D array returns its elements in ascending order, whether or not the data is aligned in memory.", "quantifier": "all element types, sort kinds, lengths, alignments, thread settings and schedules", "why_tests_cant": "the failure depends on memory next to the array header and on lengths and schedules", "anchors": ["src/pnumpy/_pnumpy.cpp:AtopSortMathFunction", "src/atop/sort.cpp:par_sort", "src/atop/sort.cpp:CopyData"]}
{"id": "C51", "title": "Settings never change what an element-wise ufunc call computes", "statement": "For one element-wise inner-loop call of a hooked ufunc (arithmetic, comparison or one-input function) whose output does not overlap its inputs, or is exactly one of them (except an 8-bit comparison done in place), the call finishes and leaves out[i] = op(in1[i], in2[i]) for every element and changes nothing else, whatever the settings are (pnumpy enabled or not, threads, ledger, zigzag, number of workers). With pnumpy disabled op is numpy's operation; enabled, it is the kernel's, except for a two-input arithmetic call whose output starts inside the 64 bytes after the start of an input, which is left to numpy. Where the two scalar operations agree, two calls under any two settings give the same memory.", "quantifier": "all settings, all lengths, strides and addresses (safe overlap), all schedules of the workers and all interleavings of the memory accesses, all table entries", "why_tests_cant": "The path taken depends on settings, length and overlap, and the threaded path on the schedule; tests sample a few lengths with one setting and one schedule.", "anchors": ["src/pnumpy/_pnumpy.cpp: AtopBinaryMathFunction, AtopCompareMathFunction, AtopUnaryMathFunction, AtopTrigMathFunction", "src/atop/threads.cpp", "src/atop/ops_binary.cpp: SimpleMathOpFast"]}
{"id": "C52", "title": "Which threads take part in a call", "statement": "With threading disabled, or for a call of fewer elements than the threading threshold, the whole call is done by the calling thread as one call over all elements; otherwise the call is split into chunks. No more worker threads take part than the operation's limit and the user's worker setting allow, and that limit can be reached.", "quantifier": "all settings, lengths, operation limits and schedules", "why_tests_cant": "Which worker thread executed a chunk is not visible in the result, and depends on the schedule.", "anchors": ["src/atop/threads.h: WorkMain, DoMultiThreadedChunkWork, GetWorkItem", "src/atop/threads.cpp: WorkerThreadFunction", "src/pnumpy/_pnumpy.cpp: AtopBinaryMathFunction"]}
{"id": "C53", "title": "Hooked two-input functions compute numpy's function on every element type", "statement": "np.add, subtract, multiply, true_divide, minimum, maximum, logical_and/or and bitwise_and/or/xor, when served by pnumpy, leave in every output element exactly numpy's result for that element type (wrapped for integers, boolean for booleans, the machine's rounding for floats) and change no other element, whether the element was handled by a vector lane or by the scalar tail, in one thread or several.", "quantifier": "every function/type pair in pnumpy's tables, all element values, lengths, strides, aliasing in place, thread counts, schedules", "why_tests_cant": "the table has about a hundred entries; a wrong instruction or element type in one entry only shows on some values and lengths", "anchors": ["src/atop/ops_binary.cpp: GetSimpleMathOpFast", "src/pnumpy/_pnumpy.cpp: gBinaryMapping, AtopBinaryMathFunction"]}
{"id": "C54", "title": "Reductions served by pnumpy return numpy's result", "statement": "add.reduce, multiply.reduce, minimum.reduce and maximum.reduce over integers return the wrapped sum or product, or the smallest or largest element (of the start value and the array), over booleans any/all, both serially and with threads.", "quantifier": "every function/type pair in the reduce table, all arrays, layouts, start values, thread counts, schedules", "why_tests_cant": "start values of blocks and the kernel's operation per type are table entries; the result depends on how many blocks there are", "anchors": ["src/atop/ops_binary.cpp: GetReduceMathOpFast, ReduceMathOpFast", "src/pnumpy/_pnumpy.cpp: GetReduceStartVal"]}
{"id": "C55", "title": "Hooked one-input functions compute numpy's function on every element type", "statement": "np.absolute, sign, negative, invert, logical_not, floor, ceil, trunc and sqrt, when served by pnumpy, leave numpy's result in every output element and change no other element.", "quantifier": "every function/type pair in pnumpy's unary tables, all element values, lengths, strides, schedules", "why_tests_cant": "entries fall through two tables (fast, slow); vector and scalar code differ", "anchors": ["src/atop/ops_unary.cpp: GetUnaryOpFast, GetUnaryOpSlow", "src/pnumpy/_pnumpy.cpp: gUnaryMapping, AtopUnaryMathFunction"]}
{"id": "C56", "title": "floor_divide of floats gives the floor of the quotient", "statement": "np.floor_divide(x, y) on float32/float64, when served by pnumpy, gives the largest integer not above the exact quotient x / y, as numpy's own loop does.", "quantifier": "all finite x, all finite non-zero y; all lengths, strides, thread counts, schedules", "why_tests_cant": "the result is wrong only when x / y rounds up across an integer, e.g. 1.0 // 0.1", "anchors": ["src/atop/ops_binary.cpp: FloorDivOp, GetSimpleMathOpFast MATH_OPERATION::FLOORDIV"]}
{"id": "C57", "title": "Hooked comparisons are right end to end", "statement": "==, !=, <, <=, >, >= on every element type, when served by pnumpy, store 1 in output byte i when the relation holds of the numbers at position i and 0 otherwise, and change nothing else, in one thread or several.", "quantifier": "every comparison/type pair, all element values incl. NaN and signed zeros, all lengths, strides, settings, schedules and interleavings (output not on an input)", "why_tests_cant": "66 table entries times vector lane, tail and strided loop, times thread splits", "anchors": ["src/atop/ops_compare.cpp: GetComparisonOpFast", "src/pnumpy/_pnumpy.cpp: gCompareMapping, AtopCompareMathFunction"]}
{"id": "C58", "title": "Hooked isnan/isinf/isfinite/signbit are right end to end", "statement": "np.isnan, isinf, isfinite and signbit, when served by pnumpy, store 1 in output byte i exactly when the class holds of element i, else 0, and change nothing else.", "quantifier": "every class/type pair in the unary tables, all bit patterns, lengths, strides, settings, schedules", "why_tests_cant": "2^64 bit patterns per element and three code paths per entry", "anchors": ["src/atop/ops_unary.cpp: GetUnaryOpFast, GetUnaryOpSlow", "src/pnumpy/_pnumpy.cpp: AtopUnaryMathFunction"]}
{"id": "C59", "title": "sin/cos/exp/log: which routine computes which element", "statement": "np.sin, cos, exp and log of float32/float64 arrays, when served by pnumpy, write element i from the original input element i and change nothing else; the vector routine is used exactly for elements in whole 32-byte vectors of contiguous operands and the C library for the others, so settings, thread counts and schedules never change a result.", "quantifier": "all lengths, addresses, strides (in place or not), settings, schedules, interleavings; any arithmetic", "why_tests_cant": "whether an element falls in a vector part depends on length, strides and the split among threads", "anchors": ["src/atop/ops_trig.cpp: GetTrigOpFast, UnaryOpFast", "src/pnumpy/_pnumpy.cpp: AtopTrigMathFunction"]}
{"id": "C60", "title": "sin is odd and cos is even", "statement": "np.sin(-x) == -np.sin(x) and np.cos(-x) == np.cos(x), bit for bit, when the C library has this symmetry.", "quantifier": "all bit patterns x, lengths, strides, settings, schedules; any rounding", "why_tests_cant": "2^64 arguments, including NaN, infinities and values far outside the range reduction", "anchors": ["src/atop/ops_trig.cpp, src/atop/avx_mathfun.h: sin256_ps, cos256_ps, sin256_pd, cos256_pd"]}
{"id": "C61", "title": "Special arguments of sin/cos/exp/log", "statement": "np.sin/cos of NaN and infinities is NaN; np.exp(NaN)=NaN, exp(inf)=inf, exp(-inf)=0; np.log(NaN)=NaN, log(inf)=inf, log(0)=-inf, log of a negative number is NaN.", "quantifier": "all NaN payloads, both infinities, both zeros, all negative numbers", "why_tests_cant": "many bit patterns per class, and the result depends on the position of the element", "anchors": ["src/atop/avx_mathfun.h: log256_ps, exp256_ps, log256_pd, exp256_pd"]}
{"id": "C62", "title": "Reference points of exp, log, sin and cos", "statement": "np.exp(0)=1, np.sin(0)=0, np.cos(0)=1, np.log(2^n) is about n ln 2 (within 2), for float32 and float64.", "quantifier": "both zeros; all powers of two in the format; all roundings allowed by IEEE-754", "why_tests_cant": "must hold at every exponent, for either rounding of every intermediate operation", "anchors": ["src/atop/avx_mathfun.h: _ps256_0x7f, _pd256 bias constants, exp256_pd, log256_pd"]}
{"id": "C63", "title": "lexsort leaks nothing", "statement": "After lexsort32/lexsort64 returns or raises, every array object that existed before has the same reference count (one more if it is the returned index array), temporary copies are released, and no argument has changed except the contents of the index= array.", "quantifier": "all argument tuples and lists (arrays of any shape, None, lists, other objects), keywords, allocation failures at any copy", "why_tests_cant": "every combination of views that need copies, a failing argument at any place, and memory running out at any copy", "anchors": ["src/pnumpy/common.cpp: BuildArrayInfo, FreeArrayInfo, EnsureContiguousArray", "src/pnumpy/sorting.cpp: lexsort, CMultiListPrepare"]}
{"id": "C64", "title": "lexsort refuses bad arguments", "statement": "lexsort32/lexsort64 raise for keys that are not 1-D arrays of one common length and a sortable type, and never crash.", "quantifier": "all lists of arguments, all dtypes, shapes and strides", "why_tests_cant": "unbounded combinations of argument kinds and shapes; a bad argument may be at any place", "anchors": ["src/pnumpy/common.cpp: BuildArrayInfo", "src/pnumpy/sorting.cpp: lexsort, CMultiListPrepare", "src/pnumpy/sort.py: lexsort"]}
{"id": "C65", "title": "lexsort of arbitrary 1-D views", "statement": "pn.lexsort, lexsort32 and lexsort64 of 1-D arrays of one length (contiguous or not, any strides, also reversed) return a packed array with the stable lexicographic order of the rows, last key first.", "quantifier": "all numbers of keys, lengths, strides, element types, contents, schedules", "why_tests_cant": "all strides and contents, all schedules of the threads", "anchors": ["src/pnumpy/sorting.cpp: lexsort", "src/pnumpy/common.cpp: EnsureContiguousArray", "src/pnumpy/sort.py: lexsort"]}
{"id": "C66", "title": "index= and cutoffs= of lexsort", "statement": "With index= the given row numbers are returned, in the given array, in stable lexicographic order; with cutoffs= every partition is sorted on its own; wrong index or cutoffs arrays raise.", "quantifier": "all keys, all index and cutoffs arrays, all schedules", "why_tests_cant": "all lists of row numbers and all partitions", "anchors": ["src/pnumpy/sorting.cpp: lexsort, GetCutOffs, GetKwargIndex"]}
{"id": "C67", "title": "np.argsort of booleans and integers with the hooks installed", "statement": "With pnumpy initialised, np.argsort(a, axis, kind) of a boolean or integer array gives for every line along the axis each of 0..n-1 once, in an order along which the elements ascend; with kind='stable' equal elements keep their order.", "quantifier": "all shapes, strides, axes, byte orders, alignments, kinds, settings (enabled, ledger, threads), schedules and failing allocations", "why_tests_cant": "all arrays and schedules", "anchors": ["src/pnumpy/_pnumpy.cpp: AtopArgSortMathFunction, newinit", "src/pnumpy/stubs.h: g_UFuncArgSortLUT", "src/atop/sort.cpp: SortIndex64, par_amergesort"]}
{"id": "C68", "title": "np.argsort of floats with the hooks installed", "statement": "The same for float32 and float64 arrays, NaNs last.", "quantifier": "all arrays, kinds, settings, schedules", "why_tests_cant": "all arrays, NaN placements and schedules", "anchors": ["src/pnumpy/_pnumpy.cpp: AtopArgSortMathFunction, newinit", "src/pnumpy/stubs.h: g_UFuncArgSortLUT", "src/atop/sort.cpp: SortIndex64, par_amergesort"]}
{"id": "C69", "title": "np.sort with the hooks installed", "statement": "With pnumpy initialised, np.sort / ndarray.sort of a boolean, integer or float array leaves every line along the axis in ascending order, NaNs last, with the same elements, if the array is aligned and in native byte order (or is not a contiguous 1-D array).", "quantifier": "all shapes, strides, axes, kinds, settings, schedules and failing workspace allocations", "why_tests_cant": "all arrays and schedules", "anchors": ["src/pnumpy/_pnumpy.cpp: AtopSortMathFunction, newinit", "src/pnumpy/stubs.h: g_UFuncSortLUT", "src/atop/sort.cpp: Sort, par_sort"]}
{"id": "C70", "title": "np.lexsort of booleans, integers and unhooked types with the hooks installed", "statement": "With pnumpy initialised, np.lexsort of boolean and integer keys, mixed with keys of types pnumpy does not hook, returns each row once, sorted by the last key, then by the one before it, and so on; rows that agree in all keys keep their order.", "quantifier": "any number of keys, all arrays, settings (also changing between keys), schedules", "why_tests_cant": "all tables and schedules", "anchors": ["src/pnumpy/_pnumpy.cpp: AtopArgSortMathFunction, newinit", "src/pnumpy/stubs.h: g_UFuncArgSortLUT", "src/atop/sort.cpp: SortIndex64, par_amergesort"]}
{"id": "C71", "title": "np.lexsort with float keys with the hooks installed", "statement": "The same with float32 and float64 keys.", "quantifier": "any number of keys, all arrays, settings, schedules", "why_tests_cant": "all tables, NaN placements and schedules", "anchors": ["src/pnumpy/_pnumpy.cpp: AtopArgSortMathFunction, newinit", "src/pnumpy/stubs.h: g_UFuncArgSortLUT", "src/atop/sort.cpp: SortIndex64, par_amergesort"]}
{"id": "C72", "title": "Number and numbering of worker threads", "statement": "A process gets one worker thread per CPU it may run on, at most 15 and at least one; however the threads start, each has its own number between 1 and that count, and numbers, pools and thread handles stay inside the tables made for them.", "quantifier": "every affinity mask and every order in which the threads start", "why_tests_cant": "depends on the machine's affinity mask and on the start order", "anchors": ["src/atop/threads.cpp: GetProcCount, GetProcessAffinityMask, WorkerThreadFunction", "src/atop/threads.h: CMathWorker, StartWorkerThreads"]}
{"id": "C73", "title": "Parallel sorts return on every machine", "statement": "Whatever CPUs the process may use and whatever settings calls came before, a parallel sort or record conversion returns, having done each of its tasks exactly once, provided its threads keep being scheduled.", "quantifier": "every affinity mask, settings history, worker state, futex choice and fair schedule", "why_tests_cant": "liveness over schedules and machines", "anchors": ["src/atop/threads.h: StartWorkerThreads, SetFutexWakeup, SetWorkItem, DoMultiThreadedWork", "src/atop/threads.cpp: GetProcCount"]}
{"id": "C74", "title": "getitem stores the default argument for indices out of range", "statement": "getitem(a, idx, default) returns, for every index that denotes no item, the given default converted to the type of a (without a default, or with None: the type's invalid value - least signed, greatest unsigned integer, NaN, False, empty string); a default the type cannot hold does not silently become another value. All other indices give the item. An index array that holds neither booleans nor integers is an error.", "quantifier": "all arrays, index arrays, default scalars (Python and numpy booleans, integers of any size, floats, strings), schedules", "why_tests_cant": "integers of unbounded size, 12 element types, uninitialised memory in the result", "anchors": ["src/pnumpy/getitem.cpp: getitem", "src/pnumpy/common.cpp: ConvertScalarObject, GetDefaultForType"]}
{"id": "C75", "title": "a[index] after hook_enable is numpy's a[index]", "statement": "After hook_enable(), a[index] for an index array gives the same array (shape, type, byte order, elements, references) or error as numpy's own subscript: boolean masks select the items at true elements in order, any other index type gives numpy's result.", "quantifier": "all arrays, shapes, strides, masks and index arrays, schedules, memory exhaustion", "why_tests_cant": "all shapes, masks and schedules; failures are out-of-bounds reads and reference counts that a result comparison does not show", "anchors": ["src/pnumpy/_pnumpy.cpp: GetItemHook, hook_enable", "src/pnumpy/getitem.cpp: BooleanIndexInternal", "src/pnumpy/common.cpp: AllocateLikeResize"]}
{"id": "C76", "title": "Results are in memory when a threaded call returns, also on processors with store buffers", "statement": "When a threaded element-wise ufunc call returns, every output element holds the operation applied to the inputs as the caller saw them when it made the call (including values the caller had stored just before), every other memory cell is unchanged, and no thread has a store of this call still on its way; a worker that enters the call sees everything the caller stored before; during the call an output cell only ever holds its old value or its result; and the call returns if the caller keeps running, no thread is suspended for ever inside a block, and stores reach memory eventually.", "quantifier": "every array length, number of threads, zigzag phase, operation, input/output layout where no element reads another element's output (in place allowed), every set of caller stores still buffered, every interleaving of single elements, and every delay of every store (x86 total store order)", "why_tests_cant": "store-buffer delays and element-level interleavings are not controllable from a test, and a missing barrier shows up once in billions of runs", "anchors": ["src/atop/threads.h: CompleteWorkBlock, GetNextWorkBlockCoreInternal, GetNextWorkBlockCore, WorkMain, SetWorkItem", "src/atop/common_inc.h: InterlockedIncrement64", "src/atop/threads.cpp: WorkerThreadFunction", "src/pnumpy/_pnumpy.cpp: UnaryThreadCallbackStrided, BinaryThreadCallbackStrided"]}
{"id": "C77", "title": "recarray_to_colmajor converts valid arguments and rejects the others", "statement": "Called with a record array, an array of field offsets and an object array of preallocated arrays, the compiled recarray_to_colmajor returns None with every element of every output equal to the field of the record at the same (C order) position and no other byte of memory changed, or raises an exception and changes nothing; it never touches memory outside the arrays.", "quantifier": "all argument tuples of any objects, all dimensions, strides, item sizes, offsets and output arrays, threaded or not", "why_tests_cant": "the argument space is unbounded and an out-of-bounds write usually goes unnoticed in a test", "anchors": ["src/pnumpy/conversions.cpp: recarray_to_colmajor", "src/atop/recarray.cpp: RecArrayToColMajor, ConvertRecArray", "src/pnumpy/common.cpp: ArrayLength"]}
{"id": "C78", "title": "Parallel sorts are complete in memory when they return, also on processors with store buffers", "statement": "Let an array of at least 65536 elements be sorted (in place or into another array), or argsorted, by np.sort / np.argsort with pnumpy enabled, with worker threads, on a processor whose stores go through per-core buffers (x86-TSO). When the call has returned, the array in memory (not only in some core's buffer) is a sorted permutation of what the caller last stored in it, the merge sort's bits are those of the serial merge sort; an argsort's index array holds each index exactly once, the keys ascend along it and equal keys keep their order with kind='stable' (a stable argsort: keys without NaN, C20); no worker's store is still on its way, and nothing outside the array and the sort's own workspace has changed. At no time do two threads work on the same array or workspace element, not even through a store that is still in a buffer, and none of them touches anything else. A call that has not finished can always be finished.", "quantifier": "every element type, sort kind, length from 65536 to 2^63, array content (also still in the caller's store buffer when the call is made), any number of threads, every interleaving of single loads and stores and every delay of a buffered store", "why_tests_cant": "the delay of a buffered store depends on the core's memory traffic; a missing fence shows up once in millions of runs on particular hardware and cannot be provoked", "anchors": ["src/atop/sort.cpp: ParArgSortCallback, ParMergeInPlaceThreadCallback, MERGE_SPLITTER::IsBuddyBitSet, par_sort, par_amergesort", "src/atop/threads.h: GetNextWorkIndex, CompleteWorkBlock, stMATH_WORKER_ITEM", "src/atop/threads.cpp: WorkerThreadFunction"]}
{"id": "C79", "title": "Element-wise and indexing calls work in a forked child process", "statement": "Let a process that uses pnumpy fork (os.fork, multiprocessing) from a thread that is not itself inside a pnumpy call, at any moment, while any number of other threads and workers are anywhere in threaded operations. In the child (which has a copy of the memory but neither workers nor the other threads) every hooked ufunc call, boolean or integer indexing, arange or is_sorted call still returns and has processed every element exactly once.", "quantifier": "every history of any number of calling threads and workers before the fork, every fork point, every array length and thread setting, any number of calls in the child", "why_tests_cant": "the fork point relative to the other threads' steps is not controllable; a lock or counter left behind by a vanished thread shows only for particular interleavings", "anchors": ["src/atop/threads.h: CMathWorker::GetWorkItem, WorkMain, stWorkerRing", "src/atop/threads.cpp: WorkerThreadFunction", "src/pnumpy/_pnumpy.cpp: AtopBinaryMathFunction, AtopUnaryMathFunction"]}
{"id": "C80", "title": "Sorting works in a forked child process", "statement": "In a forked child as in C79, np.sort / np.argsort / lexsort of large arrays and recarray_to_colmajor return.", "quantifier": "every history before the fork, every fork point, array length, sort kind and number of workers", "why_tests_cant": "depends on the fork point and on the state of the lock at that point", "anchors": ["src/atop/threads.h: GetNextWorkIndex, WorkMain, DoMultiThreadedWork", "src/atop/sort.cpp: par_sort, par_amergesort", "src/atop/recarray.cpp"]}
{"id": "C81", "title": "pnumpy.argsort, argmin, argmax and searchsorted end as numpy's functions of the same name", "statement": "pn.argsort(a, ...), pn.argmin(a, ...), pn.argmax(a, ...) and pn.searchsorted(a, ...) return the same value or raise the same exception, with the same effects, as np.argsort(a, ...) etc.", "quantifier": "every object passed as array (arrays, lists, objects with or without the method, with or without __array_wrap__), all further arguments, every behaviour of the object's methods, including exceptions and side effects", "why_tests_cant": "the behaviours of user-defined array-likes are unbounded", "anchors": ["src/pnumpy/sort.py: _wrapit, _wrapfunc, argsort, argmin, argmax, searchsorted"]}
{"id": "C82", "title": "cpu_count_linux reports processors and cores, and the import does not depend on it", "statement": "cpu_count_linux returns the number of logical processors and the number of physical cores: the number of distinct cores according to /sys, otherwise the sum of the cores of all packages according to /proc/cpuinfo (each package once), None if unknown; importing pnumpy, which calls it and drops the result, succeeds on every Linux system.", "quantifier": "every assignment of processors to cores and packages, every number of processors, every content of the files, sysconf present or not", "why_tests_cant": "a test sees the topology of the machine it runs on only", "anchors": ["src/pnumpy/cpu.py: cpu_physical_linux, cpu_count_linux, init", "src/pnumpy/__init__.py"]}
{"id": "C83", "title": "Index arrays returned by argsort and lexsort are permutations, whatever the keys", "statement": "np.argsort with pnumpy's hooks, lexsort32 and lexsort64 return each row number exactly once (with index=: exactly the given row numbers; with cutoffs=: each number from 0 to the length of the partition - 1 once per partition), so indexing with the result neither fails nor drops or repeats rows.", "quantifier": "all keys (NaN, float16, strings, booleans of any byte, mixed columns), any number of keys and rows, every kind, every number of threads and schedule, every strided view, hooks, ledger and threads on or off", "why_tests_cant": "wrongly ordered results (NaN, parallel strings, float16) are known to occur; that even then no row is lost has to hold for every key content and schedule", "anchors": ["src/atop/sort.cpp: amergesort0_, ParMergeMerge, ParMergeMergeString, par_amergesort", "src/pnumpy/sorting.cpp: lexsort", "src/pnumpy/_pnumpy.cpp: AtopArgSortMathFunction"]}
{"id": "C84", "title": "Sorting by several keys never reads or writes outside the arrays and comes to an end", "statement": "Whatever the keys, every pass of lexsort stays inside the key arrays, the index array and the workspace, and can always be completed.", "quantifier": "all key contents, any start order of the row numbers, every number of threads and schedule", "why_tests_cant": "out-of-range accesses depend on the order left by the previous key and on the schedule", "anchors": ["src/atop/sort.cpp: ParMergeMergeString, ParMergeMerge, par_amergesort", "src/pnumpy/sorting.cpp: lexsort"]}
{"id": "C85", "title": "Overlapping operands: a non-threaded binary arithmetic call behaves as the in-order element loop", "statement": "When a binary arithmetic inner loop that is not split over threads is called with an output that starts anywhere relative to its two inputs (before, inside, between or after them, as numpy does for accumulate), memory afterwards is what computing out[i] = f(in1[i], in2[i]) one element after the other in index order leaves, whether pnumpy's vector kernel or numpy's own loop ran.", "quantifier": "all addresses, strides and lengths, all arithmetic kernels with equal input and output element size, kernels enabled or disabled", "why_tests_cant": "the vector kernel is correct only for certain distances between output and inputs; every distance, stride and length must be covered", "anchors": ["src/pnumpy/_pnumpy.cpp AtopBinaryMathFunction (overlap guard)", "src/atop/ops_binary.cpp SimpleMathOpFast, SimpleMathOpFastSymmetric, SimpleMathOpSlow, SimpleMathOpFastDouble"]}
{"id": "C86", "title": "A worker thread that entered an operation comes out again by its own steps", "statement": "While several Python threads run threaded operations, a pool thread that is inside an operation returns to looking for work after a bounded number of its own steps, however its steps are interleaved with the callers', the other workers' and later calls; it cannot be kept inside by what the others do (as long as its ring entry is not given to a new call meanwhile).", "quantifier": "all histories of calls and schedules before and after, all operations (chunked, task and ufunc), all workers, no bound on threads or sizes", "why_tests_cant": "a worker stuck inside only under a particular interleaving of claims by the other threads cannot be excluded by running some", "anchors": ["src/atop/threads.cpp WorkerThreadFunction", "src/atop/threads.h stMATH_WORKER_ITEM::DoWork, GetNextWorkBlock, CMathWorker::DoWorkerFunc"]}
{"id": "C87", "title": "Threaded indexing, arange and record conversion give the serial result on a processor with store buffers", "statement": "When a threaded indexing, arange or record-array call returns, memory holds exactly what one thread would have produced doing the tasks one after the other on what the caller saw when it made the call - including stores of the caller that had not reached memory yet - and no store of any worker is still on its way; a worker inside the call sees everything the caller stored before it. Indexing and arange calls return in every fair run.", "quantifier": "all numbers of tasks, elements and threads, all task codes that do not change each other's cells (a store of the value already there is allowed), all interleavings of single loads and stores, all delays of stores, all stores pending at the call", "why_tests_cant": "which stores are delayed past which steps of other threads is up to the hardware; a missing fence shows only in rare interleavings", "anchors": ["src/atop/threads.h MultiThreadedChunkCallback, MultiThreadedCounterCallback, GetNextWorkBlock, GetNextWorkIndex, CompleteWorkBlock, WorkMain", "src/pnumpy/getitem.cpp GetItemCallback, BooleanCount, BooleanIndexInternal", "src/atop/fill.cpp ArangeFill", "src/atop/recarray.cpp RecArrayToColMajor"]}
{"id": "C88", "title": "No lost wake-up: the threads chosen for a call take part, and afterwards all sleep", "statement": "As soon as a threaded call has woken its threads, and as long as some part of its work has not been started, none of the worker threads chosen for the call (the first k, k being the number to wake up) is asleep: each is inside the call or enters it within two steps of its own - whatever the workers were doing when the call was made, including one just about to go to sleep. After the call, if sleepers do not wake up by themselves, all workers go to sleep and stay asleep: none spins between calls.", "quantifier": "all numbers of tasks, of worker threads (up to the 15 the library creates) and of threads to wake, all states in which earlier calls leave the workers, all choices of the futex, all schedules", "why_tests_cant": "a wake-up is lost only if a worker goes to sleep between two particular steps of the caller; whom the futex wakes is up to the kernel", "anchors": ["src/atop/threads.h SetWorkItem, WakeupWorkItem, WorkMain", "src/atop/threads.cpp WorkerThreadFunction"]}
{"id": "C89", "title": "Threaded element-wise calls with the actual kernels are right on a processor that delays stores", "statement": "On a processor with per-core store buffers (x86-TSO), for every element-wise call (binary, unary, comparison; vector or scalar kernel; contiguous, strided or broadcast arguments) whose operands overlap the output in no other way than element for element: when the threaded call has returned, every output element is the operation on what the caller saw in the operands when it made the call - even stores of the caller that had not yet reached memory -, no other cell has changed, no store of any thread is still pending, and memory equals what the same call leaves with threading off. Every fair run returns, a thread inside the call sees what the caller stored before it, and once the call is published each output element is at every moment either its old or its final value.", "quantifier": "all lengths, strides, kernels, operations, numbers of threads, interleavings down to single loads and stores, delays of every store, stores of the caller still on their way", "why_tests_cant": "a missing ordering shows only when a store is delayed past another core's load, in one interleaving of many", "anchors": ["src/atop/threads.h DoWorkItem, GetNextWorkBlock, CompleteWorkBlock, WorkMain", "src/pnumpy/_pnumpy.cpp AtopBinaryMathStub, AtopUnaryStub, AtopCompareStub", "src/atop/ops_binary.cpp, ops_unary.cpp, ops_compare.cpp"]}
{"id": "C90", "title": "np.sin and np.cos are accurate", "statement": "Every element of the result of np.sin or np.cos on a float32 or float64 array is the mathematical sine or cosine of the input element up to the precision of the type, wherever the element lies in the array (whole vectors use pnumpy's polynomial code, the rest the C library).", "quantifier": "all finite arguments, lengths, layouts, thread counts, schedules, and every way IEEE-754 arithmetic may break rounding ties", "why_tests_cant": "an error bound is a statement about 2^32 or 2^64 arguments, and the error of a range reduction is largest at arguments nobody samples", "anchors": ["src/atop/avx_mathfun.h sin256_ps, cos256_ps, sin256_pd, cos256_pd, double_to_int64, int64_to_double", "src/atop/ops_trig.cpp UnaryOpFast, GetTrigOpFast"]}
{"id": "C91", "title": "np.exp and np.log are accurate", "statement": "Every element of the result of np.exp or np.log on a float32 or float64 array is the mathematical exponential or logarithm of the input element up to a relative error of a few units in the last place, for every argument whose result is representable, wherever the element lies in the array.", "quantifier": "all finite (for log: positive) arguments, lengths, layouts, thread counts, schedules, and every way IEEE-754 arithmetic may break rounding ties", "why_tests_cant": "an error bound is a statement about 2^32 or 2^64 arguments; the relative error of a logarithm is critical in a neighbourhood of 1 that samples miss", "anchors": ["src/atop/avx_mathfun.h exp256_ps, log256_ps, exp256_pd, log256_pd", "src/atop/ops_trig.cpp UnaryOpFast, GetTrigOpFast"]}
{"id": "C92", "title": "Group-by in partitions groups each partition, whatever the threads do", "statement": "Grouping a lexsort index with `cutoffs` numbers the rows so that two rows get the same number exactly if they lie in the same partition and hold equal keys, returns the first row and the size of every group and the running number of groups per partition, and touches no memory outside the arrays, in whatever order the threads process the partitions.", "quantifier": "all arrays, duplication patterns, lists of cutoffs, and orders of the two rounds of tasks", "why_tests_cant": "the partitions are processed concurrently and write into shared arrays; the result must not depend on the schedule for any division into partitions", "anchors": ["src/pnumpy/sorting.cpp GroupFromLexSortInternal (cutoffs), GetCutOffs", "src/atop/sort.cpp GroupIndex, GroupIndexStep2"]}
{"id": "C93", "title": "No settings and no request make a threaded call use more per-thread slots than exist", "statement": "Whatever the machine's CPU mask, the calls of `thread_setworkers` and `atop_setworkers` (which accepts up to 63), the array length and the schedule, every access of a threaded call to the work item's per-thread array stays inside its 16 entries.", "quantifier": "all affinity masks, histories of settings calls, requested thread counts, lengths, modes and schedules", "why_tests_cant": "the marker behind the last channel lands in the last entry exactly when the process has 15 workers and the limit is reached; a machine with fewer CPUs, or a schedule without stealing, never shows an overrun", "anchors": ["src/atop/threads.h stMATH_WORKER_ITEM::WorkerChannel, CMathWorker::WorkMain, SetFutexWakeup, GetNextWorkBlockCore", "src/atop/threads.cpp GetProcCount"]}
{"id": "C94", "title": "Calls from several threads, some of which fail for lack of memory, all come to an end", "statement": "Several Python threads call threaded operations at the same time, and some sorts get no workspace and raise MemoryError. As long as every thread and worker keeps running and never 1024 operations start while one is in progress, every call comes to an end; a failing sort disturbs nobody else.", "quantifier": "all numbers of threads and workers, operations, lengths, thread counts, failures and infinite fair schedules", "why_tests_cant": "a call that never returns needs one particular overlap of two calls, and a liveness claim is about infinite runs", "anchors": ["src/atop/threads.h CMathWorker::GetWorkItem, GetWorkItemCount, WorkMain", "src/atop/threads.cpp WorkerThreadFunction", "src/atop/sort.cpp ParallelSort 2016-2036, ParallelArgSort 2140-2160"]}
{"id": "C95", "title": "The ledger observes calls without disturbing them, also when several threads make calls", "statement": "With the ledger on, off, or switched while calls run, and any number of threads making hooked calls: each operation is carried out exactly once, no call waits for another, nothing is stored outside the ring, a call that no other call overlaps is recorded exactly if the ledger is on, overlapping calls are each recorded once, operation and type are named as in numpy, and ledger_disable switches the ledger off.", "quantifier": "all numbers of threads and calls, orders of their steps and moments of ledger_enable/ledger_disable", "why_tests_cant": "the flag is cleared and set again around every recorded call and the tail is advanced by a separate load and store, so what goes wrong depends on how two calls interleave", "anchors": ["src/pnumpy/_pnumpy.cpp LEDGER_START, LEDGER_END, AtopBinaryMathFunction, ledger_enable, ledger_disable, gOpCategory", "src/pnumpy/ledger.cpp LedgerRecord, LedgerRecord2, LedgerInit, stLedgerRing::GetNextEntry"]}
{"id": "C96", "title": "oldinit(name) leaves what the function computes unchanged", "statement": "After `oldinit(name)` for a numpy function `name` that it accepts, the function still stores the same results for int32 arrays, whatever their lengths, positions and strides, and in a reduction, and stores nothing else.", "quantifier": "all accepted functions, lengths, strides (also 0 and negative), positions and contents", "why_tests_cant": "the loop is used with every combination of strides and with aliased operands; which functions are accepted depends on how many operand types numpy compares", "anchors": ["src/pnumpy/_pnumpy.cpp add_T, oldinit", "src/pnumpy/common.h IS_BINARY_REDUCE"]}
{"id": "C97", "title": "A sort that runs out of memory says so or sorts anyway", "statement": "Whatever requests for workspace are refused during np.sort, `_pnumpy.sort` or lexsort: the call does not crash, gives back every block it got, and either raises or falls back to numpy with the data unchanged, or returns a correctly sorted result.", "quantifier": "all patterns of refused requests, arrays, dtypes, kinds, keys, cutoffs, lengths and schedules of the threads", "why_tests_cant": "an allocation failure cannot be provoked at a chosen point of a threaded call; there are as many failure points as tasks", "anchors": ["src/atop/sort.cpp mergesort_, par_sort, par_amergesort, single_amergesort, ParMergeInPlaceThreadCallback", "src/pnumpy/_pnumpy.cpp AtopSortMathFunction", "src/pnumpy/sorting.cpp lexsort, sort", "src/atop/common_inc.h POSSIBLY_STACK_ALLOC", "src/atop/atop.cpp FmAlloc, FmFree"]}
{"id": "C98", "title": "Running out of memory in a reduction, an index operation or lexsort's arguments", "statement": "When memory is refused, a threaded reduction, `getitem`, indexing by a mask or a lexsort call either raises (or is done by numpy) or gives its ordinary result; it does not crash, and all temporary memory is given back.", "quantifier": "all patterns of refused requests, array lengths, item sizes, reductions and schedules", "why_tests_cant": "an allocation failure cannot be provoked at a chosen request; the limit from which on a heap buffer is used depends on length and item size", "anchors": ["src/pnumpy/_pnumpy.cpp AtopBinaryMathFunction", "src/atop/common_inc.h POSSIBLY_STACK_ALLOC", "src/pnumpy/getitem.cpp BooleanCount, BooleanIndexInternal, getitem", "src/pnumpy/common.cpp AllocArrayInfo, BuildArrayInfo, FreeArrayInfo"]}
{"id": "C99", "title": "atop_setworkers limits the threads of calls of that function", "statement": "`atop_setworkers(name, dtype, k)` returns the limit in force and from then on, for k > 0, no more than k worker threads take part in a call of the numpy function of that name on elements of that type; `atop_info(name, dtype)` shows the limit. Limits of other functions and types are not touched, and a refused call (pnumpy disabled, function not taken over, k outside 0..63) returns False and changes nothing.", "quantifier": "all histories of initialisation, enable/disable and atop_setworkers calls, all function names and dtype numbers, all selections of kernels, array lengths, global worker settings and schedules", "why_tests_cant": "the limit is only visible in which threads run; histories, names and types are unbounded combinations, and two names can denote one function object", "anchors": ["src/pnumpy/_pnumpy.cpp AddToDict, GetFromDict, atop_info, atop_setworkers, newinit, AtopBinaryMathFunction, AtopUnaryMathFunction"]}
{"id": "C100", "title": "timer_getutc and timer_gettsc report the clocks exactly", "statement": "`timer_getutc()` is the time since 1970 in nanoseconds, exactly, up to the year 2262, so differences are elapsed nanoseconds and later readings are larger; `timer_gettsc()` is the processor's 64-bit counter; the cycles of a ledger line are the difference of the two counter readings.", "quantifier": "all clock readings (seconds, nanoseconds) up to 2262 and all counter values", "why_tests_cant": "a test sees only the clock values of the moment; halves of the counter and sign bits differ later", "anchors": ["src/pnumpy/ledger.cpp GetTimeStamp, rdtsc, timer_gettsc, timer_getutc, LedgerRecord", "src/pnumpy/_pnumpy.cpp LEDGER_START, LEDGER_END"]}
{"id": "C101", "title": "Import succeeds only where AVX2 can be used; cpustring reports the processor", "statement": "`import pnumpy` raises, without touching any numpy loop, on a machine where AVX2 instructions cannot be executed (processor without them, or an operating system that has not enabled their registers), and otherwise installs the loops. `cpustring()` ends, stays inside its buffers and returns, uncut, the processor's brand text, whether AVX2 and BMI2 are present, and the feature registers.", "quantifier": "all answers of the cpuid instruction (all leaves, all register values), numpy with and without a table of processor features, all states of the operating system", "why_tests_cant": "a test runs on the processors at hand; the answers of cpuid range over all register values", "anchors": ["src/atop/threads.cpp ATOP_cpuid, PrintCPUInfo, g_avx2", "src/atop/threads.h CPUString", "src/pnumpy/_pnumpy.cpp cpustring, newinit", "src/pnumpy/__init__.py"]}
{"id": "C102", "title": "No operation needs more alignment than the arrays have", "statement": "Element-wise operations, comparisons, reductions and indexing by integers work on every array that numpy considers aligned (each element at a multiple of its type's alignment): none of them makes an access that faults unless the address is a multiple of a larger power of two.", "quantifier": "all element addresses allowed by numpy, all lengths, strides, operations, element types, divisions into thread blocks", "why_tests_cant": "allocators return addresses at multiples of 16 or 64, so the failing addresses occur in a test only by accident; they range over all residues", "anchors": ["src/atop/ops_binary.cpp SimpleMathOpFast, SimpleMathOpFastSymmetric, ReduceMathOpFast, MUL_OP_256u64", "src/atop/ops_unary.cpp UnaryOpFast", "src/pnumpy/getitem.cpp GetItemInt, GetItemUInt"]}
{"id": "C103", "title": "Float64 sums and products use every item once, are reproducible, and the sum is accurate", "statement": "np.add.reduce and np.multiply.reduce over float64 combine the start value and every item exactly once; with threads, the result has the same bits whatever the thread limit and the scheduling. A sum of n <= 2^51 finite items that cannot overflow differs from the exact sum by at most p/2^52 times the sum of the absolute values, where p = n/8 + 12 for a contiguous array on one thread, n for a strided one, and at most 2060 (contiguous) or 16384 (strided) + n/131072 + 13 with threads. Sums of integers whose absolute values add up to at most 2^53 are exact. A product of nonzero finite items no part of which can overflow or underflow is within n/2^52 of the exact product, relatively (plus 1/2^52 per block with threads). One NaN makes the result NaN; a sum with infinities of one sign is that infinity, with both signs NaN.", "quantifier": "all arrays of float64, lengths, layouts, start values, thread limits, wake-up settings and schedules; every arithmetic unit that rounds to a nearest float", "why_tests_cant": "the order of the additions depends on the length, the layout and the division into blocks; reproducibility is over all schedules and the error bound over all values", "anchors": ["src/atop/ops_binary.cpp ReduceMathOpFast, GetReduceMathOpFast", "src/pnumpy/_pnumpy.cpp AtopBinaryMathFunction (reduce), ReduceThreadCallbackStrided, GetReduceStartVal"]}
{"id": "C104", "title": "initialize() returns None only when every function is taken over", "statement": "A call of initialize() (and so `import pnumpy`) returns None only if afterwards every function and element type that pnumpy provides is taken over and listed by atop_info; otherwise it raises.", "quantifier": "all histories of calls of initialize, atop_enable/disable, atop_info, atop_setworkers, all changes of the returned dictionary, and every point at which the installation can fail", "why_tests_cant": "the failure can happen at each of several hundred replacements, and the answer of a later call depends on the whole history", "anchors": ["src/pnumpy/_pnumpy.cpp newinit, AddToDict, GetFromDict, atop_info", "src/pnumpy/__init__.py"]}
{"id": "C105", "title": "atop_info and atop_setworkers touch only pnumpy's own tables", "statement": "Whatever Python code did before, atop_info(name, dtype) and atop_setworkers(name, dtype, k) read and write only pnumpy's tables of functions, and atop_info() returns a dictionary; atop_setworkers returns the old limit of that function and type and changes that limit only, or answers False and changes nothing.", "quantifier": "all histories of calls and of changes to the dictionary returned by atop_info(), all names, numbers and stored values", "why_tests_cant": "the claim is about every value that Python code can store and every history", "anchors": ["src/pnumpy/_pnumpy.cpp atop_info, atop_setworkers, GetFromDict, AddToDict, gpUnaryDict"]}
{"id": "C106", "title": "References to Python objects are neither dropped twice nor lost", "statement": "At every moment of every history of calls, the reference count of every Python object covers the references held by containers, by Python code and by the module (pnumpy gives up no reference it does not own); and after a call every reference it made or took is either handed over (returned, stored) or released.", "quantifier": "all histories of calls of the module's functions (each with its outcome: success, argument error, failed look-up), every moment inside a call, all objects: those made in a call, None/True/False, numpy, the ufuncs, the type objects", "why_tests_cant": "reference counts are not observable through return values; an unbalanced count shows up only after an unbounded number of calls or as a use after free in unrelated code", "anchors": ["src/pnumpy/_pnumpy.cpp newinit, oldinit, atop_info, atop_setworkers, AddToDict, GetFromDict", "src/pnumpy/common.cpp ConvertScalarObject", "src/pnumpy/getitem.cpp getitem", "src/pnumpy/sorting.cpp sort, argsort, lexsort32, lexsort64"]}
{"id": "C107", "title": "pnumpy leaves numpy's buffer size alone", "statement": "np.getbufsize() in any thread returns the size that thread set last (numpy's default if it set none), whatever pnumpy functions were called, the import of pnumpy included.", "quantifier": "all histories of np.setbufsize calls, imports/initialisations and pnumpy calls by any number of threads", "why_tests_cant": "the answer depends on the order of events in several threads over the whole history", "anchors": ["src/pnumpy/_pnumpy.cpp newinit", "src/pnumpy/__init__.py"]}
{"id": "C108", "title": "The work of a call is not seen before it is described", "statement": "Element-wise calls made one after another, or by several threads at the same time, come to an end and each calls its kernel for every element of its arrays exactly once, at whatever moment between the writing of the fields of the call's description the worker threads look for work, and whatever the ring's memory held before.", "quantifier": "all initial contents of the ring, numbers of threads, workers and calls, lengths, thread settings and interleavings of the single stores with the steps of the workers", "why_tests_cant": "the bad moment is between two stores of the calling thread, and a worker must have been preempted since the previous call", "anchors": ["src/atop/threads.h WorkMain", "src/atop/threads.h GetWorkItem", "src/atop/threads.h stWorkerRing::Init", "src/atop/threads.cpp WorkerThreadFunction", "src/pnumpy/_pnumpy.cpp AtopBinaryMathFunction"]}
{"id": "C109", "title": "pnumpy works when the system refuses to create worker threads", "statement": "If some or all of the worker threads cannot be created at import (a limit on processes or memory), every operation still returns with the right result.", "quantifier": "all sets of failing thread creations, numbers of CPUs, settings histories, lengths, schedules and choices of the futex", "why_tests_cant": "the creations must fail in every combination, and the claim is about every schedule of the threads that are left", "anchors": ["src/atop/threads.cpp StartThread", "src/atop/threads.h StartWorkerThreads", "src/atop/threads.h DoWork"]}
{"id": "C110", "title": "Settings may be changed while other threads compute", "statement": "thread_enable, thread_disable, thread_setworkers and thread_zigzag may be called at any moment while other threads are inside threaded operations: the operations still process every element exactly once and come to an end, a call begun after thread_disable() is not shared with workers, and the settings keep what was last asked for (thread_zigzag answers True and False in turn).", "quantifier": "all numbers of threads and workers, all interleavings of their steps with the settings calls, all lengths and request sizes", "why_tests_cant": "the settings are read at different points of a call; the claim is about every moment at which they can change", "anchors": ["src/pnumpy/_pnumpy.cpp thread_enable", "src/pnumpy/_pnumpy.cpp thread_zigzag", "src/atop/threads.h GetWorkItem", "src/atop/threads.h SetWorkItem", "src/atop/threads.h WorkMain", "src/atop/threads.h SetFutexWakeup"]}
{"id": "C111", "title": "Operations return on macOS and on Windows", "statement": "On the macOS and Windows builds too, every operation that is shared with worker threads (element-wise calls, masks, parallel sorts, record conversion) returns after all its work was done once, if there is a worker thread and one is to be woken.", "quantifier": "all numbers of tasks, worker threads and threads to be woken, all states in which earlier calls left the worker threads, all schedules in which the threads keep running", "why_tests_cant": "a lost wake-up needs a thread to be interrupted between its decision to sleep and the sleep, for all worker threads at once", "anchors": ["src/atop/threads.h WakeupWorkItem", "src/atop/threads.h SetWorkItem", "src/atop/threads.cpp WorkerThreadFunction"]}
{"id": "C112", "title": "A parallel sort has sorted every part when it returns, whenever the workers look", "statement": "Parallel sorts made one after another, or by several threads at the same time, have sorted (and merged) each part of the array exactly once when they return, and no worker thread is still at work on the array, at whatever moment between the writing of the fields of the sort's description the worker threads look for work, and whatever the ring's memory held before. Every such sort comes to an end if all threads keep running.", "quantifier": "all initial contents of the ring, numbers of threads, workers, parts and sorts, thread settings and interleavings of the single stores with the steps of the workers", "why_tests_cant": "the bad moment is between two stores of the calling thread, and workers must have been preempted since the previous sort", "anchors": ["src/atop/threads.h WorkMain", "src/atop/threads.h GetNextWorkIndex", "src/atop/threads.cpp WorkerThreadFunction", "src/atop/sort.cpp par_argsort", "src/atop/sort.cpp par_sort"]}
{"id": "C113", "title": "Element-wise results do not depend on the calls made before", "statement": "After any sequence of initialize, enable, disable, thread_enable, thread_disable and indexing-hook calls, with whatever loops initialize managed to replace, np.add, subtract, multiply, true_divide, minimum, maximum, the logical and bitwise functions, the six comparisons, absolute, sign, negative, floor, ceil, trunc, sqrt, rint, invert and logical_not leave numpy's result for the arrays' element type in every output element and change no other, and the sum, product, difference, minimum, maximum and bitwise reductions of an integer array, the minimum and maximum reductions of a float array, and the reductions of a boolean array to any or all (add.reduce, logical_or.reduce and so on), are numpy's; float64 sums and products while pnumpy is enabled are as accurate as C103 says; the call always ends, and it is pnumpy's kernel for that function and type that computes if pnumpy is enabled and has one.", "quantifier": "all call histories, all points at which initialize may stop, all dtypes, element values, lengths, strides, in-place aliasing, thread counts and schedules", "why_tests_cant": "histories, lengths and schedules are unbounded; a wrong row, column or saved pointer shows only for one function, one dtype and one order of calls", "anchors": ["src/pnumpy/_pnumpy.cpp newinit", "src/pnumpy/_pnumpy.cpp AtopBinaryMathFunction", "src/pnumpy/_pnumpy.cpp AtopUnaryMathFunction", "src/atop/ops_binary.cpp GetSimpleMathOpFast", "src/atop/ops_unary.cpp GetUnaryOpFast", "src/atop/ops_unary.cpp GetUnaryOpSlow", "src/atop/ops_binary.cpp GetReduceMathOpFast"]}


## Findings (behaviour of the code the proofs or the reading brought out)

Theorem names of proved refutations are in MANIFEST.json.

* Threads. C05: a worker delayed across the end of a call may execute an unpublished or stale slot.
  C40: an operation started during another one is not serial (the lock covers only the handing out of
  items); a parallel sort overtaken by another thread's operation before a worker looks never returns
  (workers look only at the item at `MainWorkIndex`); realistic since numpy releases the GIL in ufunc
  loops and sorts. C42: ticket 0 means "no work" in `GetNextWorkIndex`; with ThreadWakeup 0 (one
  worker) parallel sorts of 65536 elements and recarray conversions of 16384 rows hang; with
  ThreadWakeup 1 the futex may wake a worker that may not take part.
* Reductions: threaded fallback to numpy's loop uses the original stride for a packed buffer;
  subtract/divide/power and xor with an initial value are wrong when threaded; accumulate is wrong
  when threaded; float32 sum/prod read outside the scratch vector. `atop_disable()` alone still
  splits numpy's loops.
* Comparisons: `CompareInt8` lacks a `return` after the array-array branch: in-place 8-bit compares
  are wrong. `uint64 == int64` wrong (C14).
* Floats: minimum/maximum and NaN (C43); sign of zero (C44); rint of double is C `round` (C45), and
  the second rint entry hooks nothing; floor_divide is floor of the rounded quotient (C56). ISNOTFINITE of integers fills True (not hooked).
* Boolean kernels work on raw bytes: bytes other than 0/1 give wrong results.
* Hooks: the saved original of bitwise_not is pnumpy's own stub; long/long long share a table slot;
  `oldinit` cannot be undone; `pn.disable()` keeps the getitem hook.
* Sorting: final merge of the argsort uses raw `<` (NaN wrong for n > 15); float16 sorted as uint16;
  float16 keys ignored by lexsort; `ParMergeMergeString` uses the wrong key; parallel string sort
  merges characters; strided input ignored when threaded; byte-swapped and misaligned np.sort wrong;
  MERGE_SPLITTER cases 2 and 4 wrong but unused; cutoffs not validated, cutoffs mode ignores kind;
  `lexsort(index=)` ignored when of the wrong type and sorted in place otherwise; mismatched row
  counts return None with an exception set; void order is little-endian chunk order;
  `sort(axis=None)` returns the array unsorted; `_wrapit` in sort.py refers to an undefined name.
* Group: empty array reads index[0]; the two zeros are grouped apart; string counts with base 0 are
  shifted; the filter is ignored; the partitioned variant changes the caller's index array.
* getitem: default-size tail advances the output by the value stride; a serial count followed by a
  threaded copy uses uninitialised offsets; unsigned index types treated as signed; threaded strided
  values use the wrong output offset; 16-byte defaults over-read.
* recarray: the Python wrapper raises NameError for every record array; no fields → endless loop;
  record size 0 → division by zero; offsets not validated.
* arange of floats: the second element is rewritten; float32 depends on the schedule.
* Settings: one-worker machine clamps to 0 workers; ledger flag race; ledger mask 8095; ledger_info
  returns None. dtype_to_atop's range check counts bytes. FmAlloc size wraps.
* GetStridesAndContig reports Fortran arrays and equal first/last strides as one loop.
* floor_divide of floats is floor(x / y): 1.0 // 0.1 is 10 instead of 9 (C56).
* cpu.py refers to the undefined name `open_text` (dead path).
* Trig: the double versions of exp/log use exponent bias 0x7fe: exp(0.0) = 2^1023, log(1.0) < -700,
  log(inf) <= 2; exp(NaN) = exp(inf) = exp(88.376); log(0) = NaN; log(NaN) = log(tiny); results depend
  on the position of the element in the array (vector part or tail) (C59, C61, C62).
* lexsort arguments (C63-C66): a 0-d key, `lexsort32(None)`, `lexsort32([])` and `lexsort32()` access
  memory outside the objects; byte-swapped keys are sorted by raw bytes; non-packed views of fewer than
  two elements are refused; empty `index=` sorts uninitialised row numbers; row numbers of `index=` are
  not checked; strides of `index=`/`cutoffs=` are ignored; `index=` shorter than the rows together with
  `cutoffs=` writes past its end (`C66_short_index_cutoffs_violated`); a failure in BuildArrayInfo returns None with an exception set
  (SystemError; `pn.lexsort` then falls back to numpy).
* np.argsort/np.lexsort hooks: the stable kind misplaces NaNs from 16 float elements on, so np.lexsort
  and np.argsort(kind='stable') of float arrays with NaN change their results when pnumpy is
  initialised (C68, C71). float16 is never served by the np.sort/np.argsort hooks.
* Parallel merge sort: the leaves ignore a failed workspace allocation (mergesort_ returns -1) and the
  segment stays unsorted (not modelled).
* Worker count (C72, C73): CPUs from 63 on are not counted and the fallback mask is assigned to the wrong variable (5
  workers instead). On a process with one CPU every parallel sort or record conversion hangs, with two CPUs it may hang
  (one worker is woken, possibly the one that may not take part), whatever thread_setworkers is called with.
* getitem's default (C74): bytes and str defaults are never stored (uninitialised stack memory instead); integers outside int64
  become -1.0 in float arrays, np.uint64 values from 2^63 on negative numbers; out-of-range integers wrap; float16 arrays use 0.0
  as invalid value; `getitem(a, i, default=x)` ignores the keyword (registered with METH_KEYWORDS, keywords never read).
* __getitem__ hook (C75): the integer path is dead (getitem gets the index array as its argument tuple and always fails, then
  numpy runs); 2-D masks read out of bounds; a mask is only checked for its total length; the result is 1-D, in native byte order
  and without field names; items of object arrays are copied without Py_INCREF.
* recarray_to_colmajor's arguments (C77): objects that are no arrays are cast unchecked; a 0-d record array is read through NULL; only the first
  stride is checked (broadcast records are read past the end, Fortran order comes out permuted); lengths and strides of the outputs and the type
  of the offsets are not checked (short outputs: write past the end); workspace allocation is not checked.
* Merge argsort with NaN keys: not stable even for the other keys (C21_nan_violated), and from 65536 keys on the index array depends on
  whether the sort ran in parallel (C22_nan_violated), though not on the schedule (C22_parallel_argsort_deterministic).
* Fork: after `fork` the child's parallel sorts (and `recarray_to_colmajor`) never return: `GetNextWorkIndex` hands the caller ticket 0, which means "no work", and there are no workers (`C80_child_sort_hangs_violated`). There is no `pthread_atfork` handler. Element-wise calls and indexing are unaffected (C79).
* `pn.argsort`, `argmin`, `argmax`, `searchsorted` raise NameError for array-likes with `__array_wrap__` but without the method, where numpy returns the wrapped result (`mu` is not
  defined in sort.py; C81_wrap_violated); on a TypeError the method is run twice.
* `cpu_count_linux`: the /proc/stat fallback raises NameError (`open_text` is not defined), a `physical id` line without a tab raises ValueError; `init()` at import calls it without need, so the
  import fails (C82_stat_violated, C82_import_violated). A last section without a blank line after it is not counted.
* lexsort with a string key after another key, 65536 rows or more, threads on: ParMergeMergeString compares the key of row r with that of row r - 1 without checking r; when the previous keys put row 0 at the start of a right half it reads before the key array (C84_strings_violated).
* **C88** When one or two threads are to be woken and more exist (default: workers - 1, so 2 of 3 on a machine with three worker
  threads), `FUTEX_WAKE` may wake a thread with a higher number, which goes back to sleep, while a chosen one sleeps through the
  call (`C88_few_violated`): the call runs on fewer threads than asked for (with 1 of 2 in index mode it hangs, C42).
* np.sin and np.cos of float64 arrays have only about five correct decimals (C90): `double_to_int64` (avx_mathfun.h 111-117) rounds to nearest while the float version
  truncates, so after `(j+1)&~1` the reduced argument reaches 3*pi/8 instead of pi/4, where the (float-precision) polynomials are off by up to 4.1e-6.
  np.sin(2.0) in a contiguous array of at least 4 elements differs from the library's value by more than 2.8e-6; in a strided array the library is used, so the
  result of an element depends on the layout and length of its array.  For float32, accuracy is lost beyond |x| of some thousands (numpy switches to a different reduction): sin(6491234) is off by more than 0.1.
* np.exp and np.log of float32 are accurate to 4e-7 relative (C91) except at the ends of the range: exp clamps its argument at 88.376 (avx_mathfun.h), below the overflow limit 88.72, so
  exp(88.5) and exp(88.625) are the same number (and so are exp(-89) and exp(-90)); log of every positive subnormal is log(2^-126), off by up to 16.  The float64 versions are off by a factor 2^1023 resp. by some -709
  (the bias constant is 0x7fe instead of 0x3ff; see C62), here proved against the real functions.
* Grouping with cutoffs (C92; compiled, not exported): an empty partition is counted as one group and takes cells of the next partition; an empty last partition, descending cutoffs and an
  empty cutoffs array access memory outside the arrays; `base_index` is ignored; for strings the counts are read one cell off and neighbouring partitions overwrite each other's
  cells; the caller's index array is changed in place.
* The channel array (C93) is exactly large enough: the marker WorkMain writes behind the last channel lands in the 16th and last entry when the process has 15 workers; it is the limit
  `WorkerThreadCount - 1`, not FUTEX_WAKE_MAX = 15, that keeps it inside.
* A sort that fails for lack of memory in one thread (C94) has by then moved `MainWorkIndex`, so the workers look at its item instead of the one another thread's sort has just published:
  that sort never returns (until the 1024th later operation), although the failing one raised MemoryError and released everything.
* The ledger (C95) switches itself off during a recorded call and on again afterwards: calls of other threads in between are not recorded, a `ledger_disable` in between is undone, two
  calls ending together write one mixed entry, and a call whose flag test is overtaken by another call's end calls itself again, without bound. It also reads `dimensions[1]`, of which numpy
  passes only `[0]` to element-wise loops.
* `oldinit` (C96) accepts one-argument functions with an int32 loop (numpy compares only as many types as the function has operands): `oldinit("negative")` makes every later
  `np.negative` of int32 read a third pointer and stride behind the ones numpy passes. If no loop matches, it compares the uninitialised `oldfunc` and returns a string with the exception set.
* Out of memory (C97): the tasks of a threaded `kind='mergesort'` sort ignore the -1 of mergesort_ (sort.cpp 1811-1817), so np.sort returns an array that is not sorted when a task gets no
  workspace; lexsort ignores SortIndex's -1 (sorting.cpp 466-471), so a key whose workspace is refused is silently left out - with none granted, the result is 0 .. n-1; the same
  holds for single partitions with cutoffs (sort.cpp 1990-1997).
* Out of memory (C98): the threaded reduction writes through an unchecked pointer (_pnumpy.cpp:671; beyond 1024 bytes of cells, that is from 2097153 8-byte elements on); BuildArrayInfo
  writes through AllocArrayInfo's unchecked result (common.cpp:644).
* atop_setworkers('invert', dtype, k) (C99) is accepted and shown by atop_info, but np.invert uses the limit stored under 'bitwise_not': both names denote one
  function object and gUnaryMapping hooks it twice (_pnumpy.cpp:124, 143).
* timer_getutc (C100): the product tv_sec * 10^9 overflows a signed 64-bit integer from the year 2262 on.
* The test for AVX2 (C101) looks at leaf 7 of cpuid only, never at OSXSAVE/XCR0: with a numpy that has no __cpu_features__ table the AVX2 loops are installed even
  if the operating system has not enabled the registers. The brand loop `for (i = 0x80000000; i <= nExIds; ++i)` never ends for nExIds = 0xFFFFFFFF (threads.cpp:627).
* Three places dereference pointers to vector types at addresses that need not be aligned (C102): UnaryOpFast reads `*pIn1_256` (ops_unary.cpp:358), ReduceMathOpFast
  reads `pDataIn256[0]`, `[1]` (ops_binary.cpp:212-213), GetItemInt/GetItemUInt handle 16-byte items as __m128 (getitem.cpp:940-1013). Where the compiler does not fold
  the load into an arithmetic instruction (`np.prod` of uint64: the operand is used twice; every __m128 copy) it uses an aligned move, and the process dies by a general protection fault:
  `np.prod` of 16 uint64 at 16 modulo 32, indexing `np.zeros(21)[1:].view(complex)`.
* A float64 sum of negative zeros is -0.0 on one thread and +0.0 with threads (C103): every block starts from +0.0 (_pnumpy.cpp:609). In general the two results differ in
  rounding; both satisfy the bounds of C103, and the threaded one is the more accurate (at most 2072 additions per item plus one per 131072 items, against n/8).
* If `initialize()` fails part-way (it raises), every later `initialize()` and a second `import pnumpy` return None, with only part of numpy's functions taken over (C104):
  `g_Settings.Initialized` is set first (_pnumpy.cpp:1298), not last.
* `atop_info()` returns pnumpy's internal dictionary, whose values are raw addresses (C105): after `d = atop_info(); d[("add", 5)] = 1`, `atop_info("add", 5)` reads and
  `atop_setworkers("add", 5, 2)` writes at address 1 (_pnumpy.cpp:1797-1799, 1252-1267). Called before `initialize()` it fails with SystemError (NULL without exception).
* Lost references (C106): a successful `atop_info(name, dtype)` leaks the six integers it puts into the dictionary (_pnumpy.cpp:1806-1813: PyDict_SetItemString does not
  steal); `initialize()` leaks its 13 temporary arrays, numpy, setbufsize, every ufunc and, per function and type, the key tuple and the address integer; each successful
  `oldinit(name)` leaks a reference to the ufunc; `getitem` leaks the descriptor of a numpy-integer default (common.cpp:318) and the UCS4 copy of a str default (common.cpp:432).
* `import pnumpy` sets numpy's buffer size to 8388608 in the importing thread, whatever the user had chosen; `disable()` does not restore it (C107, _pnumpy.cpp:1306-1314).
* **C108: a worker thread can look at a half-written work item.** A worker that saw `WorkIndex > WorkIndexCompleted` of the previous call and was delayed reads `MainWorkIndex` of the next call, whose item is filled in field by field without a lock (threads.h:1086-1133, threads.cpp:111-122). One thread calling twice is enough: the worker takes a position of a channel whose `LastBlock` is not stored yet, the block is lost, and the second call waits forever. With leftovers in the channels (the ring is not cleared, and items are reused after 1024 calls) it calls the kernel beyond the end of the arrays.
* C109: StartThread only logs a failed `pthread_create` (threads.cpp:227-239). If no worker thread could be created every parallel sort hangs, although the caller could do all the work.
* C110: `if (ZigZag) ZigZag ^= 1` (threads.h:532-533) is not atomic: a call running in another thread while `thread_zigzag()` is called undoes it (the mode stays on after the answer False; after two such races it can also be off after the answer True). Results are not affected.
* C111: on macOS the worker threads wait for a condition variable without testing anything under its mutex (threads.cpp:169-171), and the caller broadcasts without taking the mutex (threads.h:515). A worker between its look at the pool and the wait misses the broadcast; if all do, a parallel sort or a record conversion never returns. On Linux and Windows the kernel compares the pool's index before sleeping.
* C112: WorkMain stores BlockLast before it sets BlocksCompleted and BlockNext to 0 (threads.h:1113-1117). Two workers delayed since the previous sort that look in between draw the tickets 0 and 1; the counters are then set back, so part 0 is sorted twice, by two threads at the same time, and counted twice: np.sort returns while the last part is not sorted, frees the workspace, and a worker goes on with the last part afterwards. (Stores of the counters before BlockLast would not be enough; the item must not be visible - MainWorkIndex incremented - before it is written.)
* C113: (composition) the exclusions are those of C43, C44, C45 and C53; and after initialize and atop_disable every two-input reduction of 65536 or more elements that are
  not adjacent reads outside the buffer of partial results (C113_reductions_violated: the threaded path of the saved loop, C09, is then the only one).
  For np.min/np.max of float arrays this happens while pnumpy is enabled too (no kernel; C113_float_extremes_violated).
  np.subtract.reduce of 65536 or more contiguous elements is wrong whether pnumpy is enabled or not (C113_subtract_reduction_violated: every block starts from the
  first element again, and the partial results are subtracted from it; also C09).

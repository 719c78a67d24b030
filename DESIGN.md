# Formal model of pnumpy in Lean 4 — design

Layout: `lean/Verif/Spec` (small specifications that do not mention the model),
`lean/Verif/Model` (functions and transition systems; every definition cites file and lines in
/repo), `lean/Verif/Proofs` (helper lemmas), `lean/Verif/Props` (the property theorems and, beside
each, a concrete case meeting the hypotheses). `MANIFEST.json` names the theorems of each property;
`seeded/LOG.jsonl` records the wrong programs the theorems were tested against (tool:
`tools/mutate.py`). This file is written by `tools/design.py` from `tools/design_head.md` and
`tools/design_table.py`.

Theorem suffixes: `_partial` = proved under a restriction that the full property does not have;
`_violated` = a proved refutation: the model of the code does what the property forbids. A property
that is false of the code is listed as `partial`: the restricted theorem says where it holds, the
refutation shows that the restriction is needed.

## Trusted base

* Lean 4.33.0's kernel. Axioms the theorems depend on: `propext`, `Classical.choice`, `Quot.sound`
  at most. No axioms of our own, no `native_decide`/`bv_decide`.
* The reading of the C++/Python source into the model. Nothing of the code is executed.
* Atomicity of the `Interlocked*` operations. Concurrent models are interleavings of atomic steps
  under sequential consistency; C76 (element-wise calls), the TsoSort model (parallel sorts) and C87
  (indexing, arange, record arrays) drop this assumption and prove the results for x86-TSO store
  buffers and kernels interleaved load by load and store by store.
* SIMD intrinsics behave lane by lane as Intel's documentation says (Model/Simd).
* numpy's side of the interface: a ufunc inner loop is a sequential strided loop over its elements;
  `_new_sortlike`, `_new_argsortlike` and `PyArray_LexSort` (the callers of the hooked sorts) are
  modelled from knowledge of numpy, which is not in /repo.

## What is modelled

| part of the code | model |
|---|---|
| work item, channels, tickets, completion (threads.h, threads.cpp) | WorkItem, WorkCounter, Ring, Callers, Fill, FillTasks, Futex, OtherOs (macOS, Windows), Chunks, Slots; with store buffers: Tso, TsoCounter, TsoTasks, TsoWork, TsoSort |
| thread start, affinity mask, worker numbering, limits (threads.cpp) | ThreadSetup, WorkerLimit |
| ufunc stubs and hook tables (_pnumpy.cpp) | Dispatch, Hooks, Settings, OldInit, InfoDict, BufSize, Refs |
| ledger, clocks (ledger.cpp) | Ledger, LedgerCalls, Timers |
| CPU detection (cpuid in atop.cpp/common, cpu.py) | CpuId, CpuCount |
| Python wrappers (sort.py, recarray.py, \_\_init\_\_.py) | PyWrap, RecEntry |
| failing allocations | OutOfMemory |
| alignment demands of loads and stores | Align |
| sort / argsort / lexsort hooks under numpy's callers (_pnumpy.cpp) | SortHooks |
| element-wise kernels (ops_binary/unary/compare) | Elementwise, Simd, IntOps, Compare, Classify, FloatOps, OpTables, BoolTables |
| sin/cos/exp/log kernels (ops_trig.cpp, ops_log.cpp, avx_mathfun.h) | Trig |
| reductions and accumulate | Reduce, Accumulate, OpTables |
| sort, argsort, parallel sort, lexsort, group, is_sorted (sort.cpp, sorting.cpp) | Sort, SortApi, SortCode, ParSort, Strings, LexSort, LexEntry, Group, GroupPart, IsSorted |
| getitem, `__getitem__` hook, recarray, arange | GetItem, GetItemEntry, RecArray, RecEntry, Arange |
| allocator, strides, dtype tables (common.cpp) | Alloc, Strides, Dtypes |

## Simplifications

* numpy's original loop (`pOldFunc`) is taken to be a sequential loop over the elements.
* Memory cells are elements keyed by address; alignment faults of `*pIn1_256` style loads are not a
  failure of the model (C07 states the alignment of the accesses separately). The `FIND_NANS` read
  for integer kernels is harmless and left out.
* A vector operation is taken lane by lane as the scalar operation; C53_lanes, C54_lanes, C55_lanes
  prove this for the registers and table entries used.
* Floats are IEEE bit patterns. Comparison, NaN/Inf classes, sign operations, min/max selection and
  rounding to integers are modelled on bits; add, subtract, multiply, divide, sqrt are a parameter
  (`FloatUnit`: one function used by scalar and vector instruction alike). `std::isnan` is read as
  the test on the fields. `0.0 - x` has IEEE semantics. long double is not modelled.
* Parallel sort: a task is an atomic commit of its result, preceded by arbitrary scribbling on its
  own footprint only. Strings are elements. The IsSorted callback is two atomic steps.
* `SumBooleanMask`'s horizontal sum is the plain sum. Chunk writes and recarray writes happen in any
  order. int64 products of recarray sizes are unbounded integers.
* arange: element reads and writes are atomic, float values are integral with a p-bit
  round-to-nearest-even; int64 overflow wraps.
* Settings hold unbounded integers. Ufunc loops are identified by (object, dtype); the set of kernels
  and the failure point of initialisation are parameters; `np.bitwise_not` is `np.invert`.
* Ledger: recorded calls are one at a time (C95's LedgerCalls has the concurrent, non-atomic `Tail++`). Allocator memory is 8-byte words; overlapping
  stores leave junk.
* Callers: the fields of a work item are written in one step (C108's Fill and C112's FillTasks have the single stores), one pool, and `CalmHistory` = never
  1024 operations start during one. Futex: pools are written/woken in one step, workers start in any
  state.

## Not modelled

CPython reference counting other than in C63 and C106, numpy internals, OS scheduling beyond fairness,
timing, Windows/macOS branches other than the sleeping and waking of workers (C111), code that is compiled but never reached (PArange, item_selection.cpp, GetLogOpFast,
GetTrigOpSlow).

## Properties

| id | property | model (Verif/Model) | proof | status |
|---|---|---|---|---|
| C01 | Threaded element-wise call processes every element exactly once | WorkItem | invariant over all reachable states of the channel/ticket system: executed blocks are duplicate-free, decoding (channel, position) -> block is injective and onto | proved |
| C02 | A threaded call does not return before all its blocks are finished | WorkItem | same invariant; the caller leaves its wait loop only when the completed counter equals the number of blocks | proved |
| C03 | A threaded call makes progress even if workers never wake | WorkItem | decreasing measure plus no-stuck-state; a schedule of the caller alone always completes | proved |
| C04 | Counter-style work (chunk callbacks, boolean masks, integer index) also covers exactly once | WorkCounter | invariant on the ticket counter of both shared-counter modes | proved |
| C05 | Workers touch a call's work item only after it has been published | Ring | explicit run refuting the claim; invariant under the publish-first hypothesis | partial |
| C06 | Threading does not change results of element-wise operations | Elementwise, WorkItem | chunk writes commute (disjoint), every interleaving of partial chunk executions has the memory of the serial call | proved |
| C07 | SIMD kernels equal the scalar loop for every length | Elementwise, Simd | loop invariants of vector loop + tail over memory keyed by address; separate statement about every address accessed and its alignment | proved |
| C08 | In-place operation gives the same result as out-of-place | Elementwise, Compare | same loops with aliasing; witnesses for CompareInt8 and for partial overlap | partial |
| C09 | Threaded reduction equals serial reduction | Reduce | monoid folding over any chunk partition and order; witnesses | partial |
| C10 | Accumulate (cumsum-style) calls are not broken by threading | Accumulate | serial loop invariant; blocks in ascending order by induction on the number of blocks; single accesses interleaved in any way: sorted by block they are the blocks one after another, otherwise some block b+1 starts before block b is finished, and the cell after the border is computed from the old output | partial |
| C100 | timer_getutc and timer_gettsc report the clocks exactly | Timers: the arithmetic on the clock values, signed overflow as undefined | integer arithmetic, bit-wise extensionality | proved |
| C101 | Import succeeds only where AVX2 can be used; cpustring reports the processor | CpuId: cpuid as an arbitrary function, the feature bits, the brand loop over a 64-byte buffer, snprintf into 512 bytes, the two gates of the import over the hook model | bit-wise extensionality; the loop over the leaves by induction on the leaf range; lengths of the printed parts | partial |
| C102 | No operation needs more alignment than the arrays have | Align: list of accesses that demand an alignment (aligned intrinsics, plain dereferences of vector pointers), over the kernels of Elementwise, the loop of Reduce and 16-byte indexing | induction over the loop positions, tied by C102_positions_* to the loops of the kernel models; congruences | partial |
| C103 | Float64 sums and products use every item once, are reproducible, and the sum is accurate | Reduce, OpTables (as C09, C54); specification Combines: a tree of combinations over a permutation of the items with a bound on its depth | induction over the vector loop with a list of items per lane; block results substituted into the outer reduction; induction over the combination tree for the error, rounding lemma without absolute term for sums | proved |
| C104 | initialize() returns None only when every function is taken over | InfoDict: initialize with its outcome, the dictionary with the addresses, the failure point (Hooks.Cfg.stop) | invariant on the initialised flag over all histories; induction over the replacements for the dictionary; C104_iff_partial: which loops are pnumpy's after any history, and no two first entries of the tables share a loop | partial |
| C105 | atop_info and atop_setworkers touch only pnumpy's own tables | InfoDict: the dictionary as a Python object that Python code can change; values are integers or other objects; a layout of the tables in memory | invariant (every value in the dictionary is the address of a table position) over all histories without a store; direct evaluation for the violations; C105_iff_partial: an invariant that ties each entry to the last store or deletion under its key | partial |
| C106 | References to Python objects are neither dropped twice nor lost | Refs: per call the list of its actions on references (new, take, drop, steal, store, release, give), object by object; counts are sums over the history (Spec/Refs) | every call's actions are checked against the multiset of references the C code owns; induction over the history and over the prefixes of a call; the functions taken over by initialize by induction over their list | partial |
| C107 | pnumpy leaves numpy's buffer size alone | BufSize: numpy's per-thread size and the Initialized flag over histories of events | induction over the history; the flag is set exactly if an initialisation is in the history | partial |
| C108 | The work of a call is not seen before it is described | Fill: each field of an item is a store of its own; callers, workers, ring of 1024 with arbitrary contents | forward simulation into Callers (C40, C94) for histories in which no worker looks at an item while it is written; explicit history plus invariant for the hang, explicit run for the overrun | partial |
| C109 | pnumpy works when the system refuses to create worker threads | ThreadSetup (created), Work, Counter and Futex with as many workers as exist, the call counting on more | boot invariant for the numbers; liveness proofs of C03, C04 and C42 with workers that never run; invariant for the hang | partial |
| C11 | SIMD reduction reads only the array and covers all elements | Reduce | loop invariants of unrolled reduce kernels; witness for the float32 horizontal step | partial |
| C110 | Settings may be changed while other threads compute | LiveSettings: every read of NoThreading, FutexWakeCount and ZigZag and both halves of `ZigZag ^= 1` are steps of their own, on top of Callers | prophecy: a run is a run of Callers in which every call starts with the settings it is going to read; C40 and C94 carry over; invariants for the settings; two runs for the refutations | partial |
| C111 | Operations return on macOS and on Windows | OtherOs: the macOS branch (one condition variable, no predicate), the Windows branches (WaitOnAddress/WakeByAddressAll; Sleep where they do not exist); every pool is written and woken in its own step | invariant (who will look for work), progress as for C42; an explicit schedule and an invariant of it for the refutation | partial |
| C112 | A parallel sort has sorted every part when it returns, whenever the workers look | FillTasks: the stores of a sort's item one by one, tickets drawn and compared in two steps, any number of threads and workers, any memory | simulation by Callers for histories and infinite runs in which no worker looks at an item being written (fairness carries over because a thread takes at most seven steps in a row that stand for none); an explicit history for the refutation | partial |
| C113 | Element-wise results do not depend on the calls made before | Takeover: newinit's choices computed from the getters of OpTables, the loop a call reaches from Hooks, its execution from Dispatch, reductions from Reduce | invariant of the hook state, uniqueness of the operation code per function, then C53, C55 and C51 | partial |
| C12 | Emulated 64-bit multiply is the exact wrapped product | IntOps, Simd | bit-vector arithmetic modulo 2^64 | proved |
| C13 | Comparison ufuncs return one correct boolean per element in order | Compare, Simd | lane shuffles as functions, lifted to arbitrary operand values | proved |
| C14 | Mixed int64/uint64 comparison is mathematically correct | Compare | order of toInt/toNat; witness | partial |
| C15 | isnan/isfinite/isinf classify every bit pattern as IEEE prescribes | Classify, Ieee | field arithmetic of the IEEE formats | proved |
| C16 | Integer unary/binary scalar semantics | IntOps | toInt / toNat arithmetic with bmod | proved |
| C17 | In-place sort returns a permutation of its input | Sort | array versions of heap/quick/merge sort, permutation invariant | proved |
| C18 | In-place sort returns an ascending array, NaNs last | Sort | sortedness invariants for any total preorder, instantiated per type incl. NaN-last | proved |
| C19 | Sorting never reads or writes outside the array and its workspace, and terminates | Sort | the model returns `none` on any access outside; theorem: never `none`, termination by construction | proved |
| C20 | argsort returns a permutation of 0..n-1 that sorts the keys | Sort | argsort loops; NaN witness for the final merge comparison; exact result of the merge argsort (Spec/ArgMerge) | partial |
| C21 | argsort with mergesort is stable | Sort | stability via lexicographic (key, index) order; NaN counterexample evaluated on Spec/ArgMerge | partial |
| C22 | Parallel sort equals serial sort under every schedule | ParSort | transition system of eight-segment tasks and buddy bits, invariant + measure; argsort result for arbitrary keys = Spec argPar | partial |
| C23 | Parallel sort work areas never overlap or overflow | ParSort | segment arithmetic | proved |
| C24 | lexsort orders rows lexicographically | LexSort | induction on keys over the stable argsort | partial |
| C25 | lexsort with cutoffs sorts each partition independently | LexSort | partition by partition; frame lemmas | partial |
| C26 | String/unicode/void sorting follows fixed-width byte / code-point order | Strings, ParSort | list order; witnesses | partial |
| C27 | is_sorted answers exactly whether the array is ascending | IsSorted | chunks overlap by one element; interleavings of callbacks | proved |
| C28 | Group-by from lexsort assigns group ids consistently | Group | loop invariant; equal ids always mean equal bits, so for floats right exactly if no two bit patterns are the same number | partial |
| C29 | sort(a, axis=None) returns the sorted flattened array | SortApi | witness and reduction to ndarray.sort | partial |
| C30 | Boolean mask indexing equals filtering | GetItem | count pass, prefix sums and copy pass refine filter | partial |
| C31 | Integer fancy indexing equals element lookup | GetItem | index loops refine lookup with default | partial |
| C32 | recarray_to_colmajor transposes record fields exactly | RecArray | row-block loops refine column extraction | partial |
| C33 | recarray_to_colmajor terminates on every input | RecArray | measure; divergence witnesses | partial |
| C34 | arange fills first + i*step | Arange | wrap-around arithmetic over all interleavings of element steps | partial |
| C35 | Thread/worker/zigzag settings behave like simple variables with clamping | Settings | induction over histories | partial |
| C36 | Disabling pnumpy restores numpy behaviour; enabling is idempotent | Hooks | state machine of ufunc loop table and hooks, induction over histories | partial |
| C37 | dtype conversion tables are consistent | Dtypes | complete tables (finite domain, all values) plus out-of-range witness | partial |
| C38 | Ledger ring buffer never indexes outside and keeps recent entries | Ledger | ring arithmetic with the real mask 8095; contents of every place by induction on the history | partial |
| C39 | Aligned allocator returns aligned blocks and frees exactly what it allocated | Alloc | address arithmetic, invariant over allocation histories | partial |
| C40 | Threaded calls do not nest incorrectly | Callers, Ring | any number of callers/workers; invariant plus explicit runs | partial |
| C41 | Array flattening information is correct | Strides | induction on the rank | partial |
| C42 | A parallel sort returns on every machine configuration | Futex | fair schedules; ranking argument; hanging runs | partial |
| C43 | np.minimum / np.maximum propagate NaN | FloatOps | minmaxpd selection semantics | partial |
| C44 | np.negative, np.abs, np.sign of floats do not depend on the position in the array | FloatOps | bit-level sign operations vs scalar expressions | partial |
| C45 | np.rint rounds to nearest, ties to even | FloatOps | round-half-away vs ties-to-even | partial |
| C46 | Sorting a float16 array gives ascending numbers | SortApi | unsigned order split by sign; witness | partial |
| C47 | Sorting a strided view sorts the elements of the view | SortApi | frame + stride lemmas, witness | partial |
| C48 | Sorting keeps the values of non-native byte order arrays | SortApi | reduction to C50 / witness | partial |
| C49 | Invalid lexsort arguments are rejected without touching memory | LexSort | exact characterisation | partial |
| C50 | np.sort of a 1-D array sorts its elements, aligned or not | SortApi | composition of hook wrapper and C17/C18/C22 | partial |
| C51 | Settings never change what an element-wise ufunc call computes | Dispatch | simulation of the stub's choice of kernel and split; uses C06/C07 | proved |
| C52 | Which threads take part in a call | Dispatch | case analysis of the stub | proved |
| C53 | Hooked two-input functions compute numpy's function on every element type | OpTables | lane lemma for every table entry + C07 + C51 | partial |
| C54 | Reductions served by pnumpy return numpy's result | OpTables, Reduce | lane lemma + C09/C11 | proved |
| C55 | Hooked one-input functions compute numpy's function on every element type | OpTables | lane lemma + C07 + C51 | partial |
| C56 | floor_divide of floats gives the floor of the quotient | OpTables.floorDivOp | integers are floats, so a nearest float lies between floor and floor + 1; divisibility of large floats for the counterexample | partial |
| C57 | Hooked comparisons are right end to end | BoolTables, Compare | C13/C14 per element + C51 end to end | proved |
| C58 | Hooked isnan/isinf/isfinite/signbit are right end to end | BoolTables, Classify | C15 per element + C51 end to end | proved |
| C59 | sin/cos/exp/log: which routine computes which element | Trig | simulation with a per-element routine mark; block starts are multiples of the vector length, so the split among threads does not move vector positions | proved |
| C60 | sin is odd and cos is even | Trig.sinLane, cosLane | bit-level: the sign enters only by xor (sin) or not at all (cos) | proved |
| C61 | Special arguments of sin/cos/exp/log | Trig lanes | NaN propagation through the polynomial; the exceptions are refuted | partial |
| C62 | Reference points of exp, log, sin and cos | Trig lanes over an IEEE-754 machine | exact or bracketed evaluation of every operation; double exp/log refuted (bias 0x7fe) | partial |
| C63 | lexsort leaks nothing | LexEntry (array descriptors, reference counts, allocation failures) | invariant of the collecting loop: every copy is recorded; FreeArrayInfo gives every recorded copy back | proved |
| C64 | lexsort refuses bad arguments | LexEntry.checks, prepare | case analysis of every stage of the argument handling: raises iff some key is unusable; crashes refuted by theorems for None, 0-d arrays and no keys | partial |
| C65 | lexsort of arbitrary 1-D views | LexEntry + LexSort | what a key array denotes (by strides) is the column of the packed copy; then C24; byte order refuted | partial |
| C66 | index= and cutoffs= of lexsort | LexEntry.planIndex, cutoffsOf + LexSort | passes_order from the caller's row numbers; C25 for partitions; unchecked inputs refuted | partial |
| C67 | np.argsort of booleans and integers with the hooks installed | SortHooks (hook conditions, type switch, numpy's per-line caller on byte memory) | line = column the hook sees, then C20/C21/C22 | proved |
| C68 | np.argsort of floats with the hooks installed | SortHooks | as C67; up to 15 elements with NaN by insertion (LexShort); witness (16 float64) | partial |
| C69 | np.sort with the hooks installed | SortHooks | hook conditions imply in-place native data, then C18/C22 | proved |
| C70 | np.lexsort of booleans, integers and unhooked types with the hooks installed | SortHooks | composition of stable reorderings | proved |
| C71 | np.lexsort with float keys with the hooks installed | SortHooks | as C70 | partial |
| C72 | Number and numbering of worker threads | Model/ThreadSetup: affinity mask loop, bit count, thread numbering | bit-level induction on the two loops; invariant over start orders; pigeonhole for surjectivity | partial |
| C73 | Parallel sorts return on every machine | Model/ThreadSetup with Settings and Futex | worker count -> wake count after any history -> C42/C04 theorems | partial |
| C74 | getitem stores the default argument for indices out of range | Model/GetItemEntry: the whole entry point getitem (checks, index type switch, 128-byte uninitialised buffer, GetDefaultForType, ConvertScalarObject with its three switches), on bytes; C casts int->float, float->int are parameters with their C meaning as hypothesis (Spec/GetItemDefault) | the default's bytes by cases over type and scalar, then C31_index_partial; the exact set of outcomes as an iff; refutations for strings, big integers, float16, 16-byte types | partial |
| C75 | a[index] after hook_enable is numpy's a[index] | Model/GetItemEntry: Hook and BoolIndex (checks of BooleanIndexInternal), numpy's own subscript a parameter; reference counts of object arrays | iff-characterisation of the outcomes; mask case from C30_mask_partial; refutations for 2-D arrays, shapes, byte order, object arrays | partial |
| C76 | Results are in memory when a threaded call returns, also on processors with store buffers | Model/Tso: Work.step with a store buffer per thread, kernels one element per step, the caller's earlier stores and the publishing store still buffered at the start | invariant over all action sequences (issued / buffered / in memory); progress by projecting on Work.trace with stutter steps | proved |
| C77 | recarray_to_colmajor converts valid arguments and rejects the others | Model/RecEntry: buffers, array objects, the checks and loads of the entry point, writes through the output pointers; conversion from Model/RecArray | outcome determined by prepare; heap lemma (pieces, disjoint regions, frame) on top of the C32 coverage lemmas; refutations for unchecked arguments | partial |
| C78 | Parallel sorts are complete in memory when they return, also on processors with store buffers | Model/TsoSort: the eight-segment sort of Model/ParSort down to single loads and stores of each node's code, per-thread store buffers, `lock` instructions that wait for an empty own buffer, a caller whose earlier stores may still be buffered. Model/SortCode: quicksort_, heapsort_, mergesort0_, amergesort0_ (and their left versions) and the parallel merges as code, load by load and store by store, with a bound on every loop; the `C78_code_` theorems are about these programs. The other C78 theorems hold for any program of loads and stores that, executed alone, accesses only the node's own cells and computes what the sort / merge function of Model/Sort computes. | Proofs/TsoSort: simulation relation between machine states and the invariant of Proofs/ParSort (each running node belongs to one thread, whose view of its own cells is the node's partial result; a buffered store belongs to a running node); every machine step keeps it; at eight complete blocks no thread runs, so all buffers are empty and memory is the sorted array. Liveness: from every state a schedule leads to eight complete blocks (progress measure of Proofs/ParSortLive). Props/TsoSort exhibits code that meets the hypotheses and a completed run. Proofs/SortCode: each piece of code computes what the function of Model/Sort computes and never runs out of rounds; Proofs/SortCodeNode, SortCodeIso: executed at a node it accesses the node's cells only. Race freedom: what a thread is about to access, or has buffered, belongs to its node; nodes at work are disjoint. | proved |
| C79 | Element-wise and indexing calls work in a forked child process | Model/Callers: the child's history is any history of the parent followed only by steps of the one thread. | Props/Fork: with an item the caller alone drives it to the end (C03, C04), for the item at the index the counter has reached, whatever the other slots hold; without one (lock left behind) the call is serial; by first-return induction on the caller's steps. | proved |
| C80 | Sorting works in a forked child process | Model/Callers, as for C79. | Props/Fork: the caller of a counter-style operation draws ticket 0, which means 'no work', and nobody draws another one; refuted for every history with the lock free. With the lock left behind the call is serial. | partial |
| C81 | pnumpy.argsort, argmin, argmax and searchsorted end as numpy's functions of the same name | Model/PyWrap: the two helper functions over an arbitrary interpreter state, arbitrary methods, conversion and __array_wrap__. Spec/PyCall: numpy's documented wrapper. | Props/PyWrap: case analysis over how each call ends; equality with numpy's wrapper for objects without __array_wrap__, for methods that do not raise TypeError, and for arrays whose TypeErrors have no effects; refuted for objects with __array_wrap__ and without the method. | partial |
| C82 | cpu_count_linux reports processors and cores, and the import does not depend on it | Model/CpuCount: both functions on the bytes of the files (strip, lower, split, dicts); Python's int is a parameter. | Props/CpuCount: number of distinct contents = number of distinct cores (two processors' files agree iff their cores do); induction over lines and sections of /proc/cpuinfo with the dict as invariant; witnesses for the failures. | partial |
| C83 | Index arrays returned by argsort and lexsort are permutations, whatever the keys | Model/LexSort, Model/SortHooks, Model/LexEntry as before. | Proofs/LexPerm, Props/LexPerm: permutation contracts for serial and parallel passes from any index array; a total version of ParMergeMergeString covers all runs that come to an end; induction over the keys; partition invariant with an abstract effect. | proved |
| C84 | Sorting by several keys never reads or writes outside the arrays and comes to an end | Model/LexSort, Model/ParSort, Model/Strings as before; a read outside an array ends a function without result. | Props/LexPerm: serial passes total; parallel number passes: body contract and completion from any index array; counterexample for strings by an invariant over all runs (equal strings keep every node unchanged, the first merge is never finished). | partial |
| C85 | Overlapping operands: a non-threaded binary arithmetic call behaves as the in-order element loop | Model/Accumulate (overlap guard, serial call) and Model/Elementwise (access programs of the kernels); Spec/Overlap: the in-order loop as a recursive definition on memory | a vector step commutes into the scalar loop when no lane writes a cell a later lane of the step reads; outside the guard this holds for every kernel shape; induction over the vector loops. `C85_kernel_alone_differs`: without the guard the vector kernel is wrong. Limits: element-granular memory, scalar operand not overwritten, equal element sizes | proved |
| C86 | A worker thread that entered an operation comes out again by its own steps | Model/Callers (ring, callers, workers) over Model/WorkCounter and Model/WorkItem | a measure (remaining claims, lexicographically with the worker's position) that every own step decreases and no foreign step increases; invariant: a worker inside is neither asleep nor at the caller's barrier. Limit: no refill of the entry while the worker is inside (part of the statement; C05 and C40 show what a refill does) | proved |
| C87 | Threaded indexing, arange and record conversion give the serial result on a processor with store buffers | Model/TsoCounter: Counter.step with a store buffer per thread, the code of a task as any sequence of loads and stores, the caller's stores and the publishing store still buffered at the start; chunk loops, the indexing kernel and the arange kernel as such code; Model/TsoTasks: both passes of boolean-mask indexing and the record conversion, with the caller's sums between the passes | invariant with a ghost memory per running task (what the task would see if it ran alone), silent stores allowed; progress by mapping runs to Model/WorkCounter runs | proved |
| C88 | No lost wake-up: the threads chosen for a call take part, and afterwards all sleep | Model/Futex (counter-mode call, pools, futex queue) as for C42; Model/FutexWork, the same around an element-wise call | invariant: a participating worker that sleeps after the wake-up has a reason (no ticket left, or it drew the empty ticket 0); two own steps lead into the call; a per-worker distance to sleep that only its own steps lower | partial |
| C89 | Threaded element-wise calls with the actual kernels are right on a processor that delays stores | Model/TsoWork: the block code is the kernel's own list of lane loads and stores (Model/Elementwise, Model/Dispatch), the control is Model/WorkItem, the memory Model/Tso (store buffers, lock-prefixed instructions wait for an empty buffer) | invariant over all runs: what a busy thread has done so far is a prefix of its block's own run on the caller's view; finished blocks' stores are in memory; kernel stores determined by loads of cells no other block writes (C51's separation) | proved |
| C90 | np.sin and np.cos are accurate | Trig lanes instruction by instruction on bit patterns; arithmetic is any IEEE-754 round-to-nearest; the reference is Mathlib's Real.sin/Real.cos | forward error analysis: rounding error of each instruction (Proofs/Round), exact Cody-Waite reduction with the code's three parts of pi/4 (Mathlib's 20 digits of pi), Taylor remainder plus Bernstein bounds for the polynomials, quadrant selection by bits; refutations by the same bounds at concrete arguments | partial |
| C91 | np.exp and np.log are accurate | Trig lanes instruction by instruction on bit patterns; arithmetic is any IEEE-754 round-to-nearest; the reference is Mathlib's Real.exp/Real.log | forward error analysis with relative errors: exponent/mantissa split by bits (exact), Cody-Waite reduction with the code's two parts of ln 2 (Mathlib's ln 2 bounds), truncated series plus interval bounds of the difference polynomials proved by a reflective checker for rational polynomials; refutations at concrete arguments | partial |
| C92 | Group-by in partitions groups each partition, whatever the threads do | GroupPart: task per partition on the shared arrays, prefix sums, second task per partition; tasks in any order | locality of the grouping loop (it works the same inside longer arrays), invariants over the set of finished tasks, assembly of the per-partition groupings | partial |
| C93 | No settings and no request make a threaded call use more per-thread slots than exist | Slots: entries written by the set-up, and entry accessed by a thread's next step in every state of WorkItem; settings and CPU count from Settings and ThreadSetup | bounds of the wake count over settings histories, invariant on claimed channels | proved |
| C94 | Calls from several threads, some of which fail for lack of memory, all come to an end | Callers (several threads and workers on the ring, with the failure path of a sort) and the items of WorkItem and WorkCounter | projection of a fair run of the whole system to a fair run of one item, then C03 and C04 progress; refutation by the stuck item of C40 | partial |
| C95 | The ledger observes calls without disturbing them, also when several threads make calls | LedgerCalls: every access to the flag, the tail and the seven fields of an entry as one step; the name tables | invariant over all histories (operations asked for = carried out + pending), measure for a thread running alone, symbolic run of a whole call; refutations by concrete schedules; the tables by evaluation of all their entries | partial |
| C96 | oldinit(name) leaves what the function computes unchanged | OldInit: the loop on a memory of int32 cells, reading the operand arrays with bounds | induction on the length | partial |
| C97 | A sort that runs out of memory says so or sorts anyway | OutOfMemory: an oracle says which requests are granted; the workspaces are heap blocks or on the stack; the parallel sort, the passes of lexsort and the partition tasks with tasks that may be refused | invariant of the merge tree (NodeQ: the part of a refused task stays a subsequence of the result), lemmas on allocate-use-free code | partial |
| C98 | Running out of memory in a reduction, an index operation or lexsort's arguments | OutOfMemory: the buffers as blocks of a heap with an arbitrary oracle; the values come from the models of reduction (C54) | case analysis on the oracle, C54 for the value | partial |
| C99 | atop_setworkers limits the threads of calls of that function | WorkerLimit: the dictionary (name, dtype) -> table position built by newinit over the hook model, the limits of the positions, the limit a call of a loop passes to WorkMain | invariant over histories; the last replacement of a loop has the highest rank, so dictionary and loop agree; C52 for the threads | partial |

## Findings (behaviour of the code the proofs or the reading brought out)

Theorem names of proved refutations are in MANIFEST.json.

* Threads. C05: a worker delayed across the end of a call may execute an unpublished or stale slot.
  C40: an operation started during another one is not serial (the lock covers only the handing out of
  items); a parallel sort overtaken by another thread's operation before a worker looks never returns
  (workers look only at the item at `MainWorkIndex`); realistic since numpy releases the GIL in ufunc
  loops and sorts. C42: ticket 0 means "no work" in `GetNextWorkIndex`; with ThreadWakeup 0 (one
  worker) parallel sorts of 65536 elements and recarray conversions of 16384 rows hang; with
  ThreadWakeup 1 the futex may wake a worker that may not take part.
* Reductions: threaded fallback to numpy's loop uses the original stride for a packed buffer;
  subtract/divide/power and xor with an initial value are wrong when threaded; accumulate is wrong
  when threaded; float32 sum/prod read outside the scratch vector. `atop_disable()` alone still
  splits numpy's loops.
* Comparisons: `CompareInt8` lacks a `return` after the array-array branch: in-place 8-bit compares
  are wrong. `uint64 == int64` wrong (C14).
* Floats: minimum/maximum and NaN (C43); sign of zero (C44); rint of double is C `round` (C45), and
  the second rint entry hooks nothing; floor_divide is floor of the rounded quotient (C56). ISNOTFINITE of integers fills True (not hooked).
* Boolean kernels work on raw bytes: bytes other than 0/1 give wrong results.
* Hooks: the saved original of bitwise_not is pnumpy's own stub; long/long long share a table slot;
  `oldinit` cannot be undone; `pn.disable()` keeps the getitem hook.
* Sorting: final merge of the argsort uses raw `<` (NaN wrong for n > 15); float16 sorted as uint16;
  float16 keys ignored by lexsort; `ParMergeMergeString` uses the wrong key; parallel string sort
  merges characters; strided input ignored when threaded; byte-swapped and misaligned np.sort wrong;
  MERGE_SPLITTER cases 2 and 4 wrong but unused; cutoffs not validated, cutoffs mode ignores kind;
  `lexsort(index=)` ignored when of the wrong type and sorted in place otherwise; mismatched row
  counts return None with an exception set; void order is little-endian chunk order;
  `sort(axis=None)` returns the array unsorted; `_wrapit` in sort.py refers to an undefined name.
* Group: empty array reads index[0]; the two zeros are grouped apart; string counts with base 0 are
  shifted; the filter is ignored; the partitioned variant changes the caller's index array.
* getitem: default-size tail advances the output by the value stride; a serial count followed by a
  threaded copy uses uninitialised offsets; unsigned index types treated as signed; threaded strided
  values use the wrong output offset; 16-byte defaults over-read.
* recarray: the Python wrapper raises NameError for every record array; no fields → endless loop;
  record size 0 → division by zero; offsets not validated.
* arange of floats: the second element is rewritten; float32 depends on the schedule.
* Settings: one-worker machine clamps to 0 workers; ledger flag race; ledger mask 8095; ledger_info
  returns None. dtype_to_atop's range check counts bytes. FmAlloc size wraps.
* GetStridesAndContig reports Fortran arrays and equal first/last strides as one loop.
* floor_divide of floats is floor(x / y): 1.0 // 0.1 is 10 instead of 9 (C56).
* cpu.py refers to the undefined name `open_text` (dead path).
* Trig: the double versions of exp/log use exponent bias 0x7fe: exp(0.0) = 2^1023, log(1.0) < -700,
  log(inf) <= 2; exp(NaN) = exp(inf) = exp(88.376); log(0) = NaN; log(NaN) = log(tiny); results depend
  on the position of the element in the array (vector part or tail) (C59, C61, C62).
* lexsort arguments (C63-C66): a 0-d key, `lexsort32(None)`, `lexsort32([])` and `lexsort32()` access
  memory outside the objects; byte-swapped keys are sorted by raw bytes; non-packed views of fewer than
  two elements are refused; empty `index=` sorts uninitialised row numbers; row numbers of `index=` are
  not checked; strides of `index=`/`cutoffs=` are ignored; `index=` shorter than the rows together with
  `cutoffs=` writes past its end (`C66_short_index_cutoffs_violated`); a failure in BuildArrayInfo returns None with an exception set
  (SystemError; `pn.lexsort` then falls back to numpy).
* np.argsort/np.lexsort hooks: the stable kind misplaces NaNs from 16 float elements on, so np.lexsort
  and np.argsort(kind='stable') of float arrays with NaN change their results when pnumpy is
  initialised (C68, C71). float16 is never served by the np.sort/np.argsort hooks.
* Parallel merge sort: the leaves ignore a failed workspace allocation (mergesort_ returns -1) and the
  segment stays unsorted (not modelled).
* Worker count (C72, C73): CPUs from 63 on are not counted and the fallback mask is assigned to the wrong variable (5
  workers instead). On a process with one CPU every parallel sort or record conversion hangs, with two CPUs it may hang
  (one worker is woken, possibly the one that may not take part), whatever thread_setworkers is called with.
* getitem's default (C74): bytes and str defaults are never stored (uninitialised stack memory instead); integers outside int64
  become -1.0 in float arrays, np.uint64 values from 2^63 on negative numbers; out-of-range integers wrap; float16 arrays use 0.0
  as invalid value; `getitem(a, i, default=x)` ignores the keyword (registered with METH_KEYWORDS, keywords never read).
* __getitem__ hook (C75): the integer path is dead (getitem gets the index array as its argument tuple and always fails, then
  numpy runs); 2-D masks read out of bounds; a mask is only checked for its total length; the result is 1-D, in native byte order
  and without field names; items of object arrays are copied without Py_INCREF.
* recarray_to_colmajor's arguments (C77): objects that are no arrays are cast unchecked; a 0-d record array is read through NULL; only the first
  stride is checked (broadcast records are read past the end, Fortran order comes out permuted); lengths and strides of the outputs and the type
  of the offsets are not checked (short outputs: write past the end); workspace allocation is not checked.
* Merge argsort with NaN keys: not stable even for the other keys (C21_nan_violated), and from 65536 keys on the index array depends on
  whether the sort ran in parallel (C22_nan_violated), though not on the schedule (C22_parallel_argsort_deterministic).
* Fork: after `fork` the child's parallel sorts (and `recarray_to_colmajor`) never return: `GetNextWorkIndex` hands the caller ticket 0, which means "no work", and there are no workers (`C80_child_sort_hangs_violated`). There is no `pthread_atfork` handler. Element-wise calls and indexing are unaffected (C79).
* `pn.argsort`, `argmin`, `argmax`, `searchsorted` raise NameError for array-likes with `__array_wrap__` but without the method, where numpy returns the wrapped result (`mu` is not
  defined in sort.py; C81_wrap_violated); on a TypeError the method is run twice.
* `cpu_count_linux`: the /proc/stat fallback raises NameError (`open_text` is not defined), a `physical id` line without a tab raises ValueError; `init()` at import calls it without need, so the
  import fails (C82_stat_violated, C82_import_violated). A last section without a blank line after it is not counted.
* lexsort with a string key after another key, 65536 rows or more, threads on: ParMergeMergeString compares the key of row r with that of row r - 1 without checking r; when the previous keys put row 0 at the start of a right half it reads before the key array (C84_strings_violated).
* **C88** When one or two threads are to be woken and more exist (default: workers - 1, so 2 of 3 on a machine with three worker
  threads), `FUTEX_WAKE` may wake a thread with a higher number, which goes back to sleep, while a chosen one sleeps through the
  call (`C88_few_violated`): the call runs on fewer threads than asked for (with 1 of 2 in index mode it hangs, C42).
* np.sin and np.cos of float64 arrays have only about five correct decimals (C90): `double_to_int64` (avx_mathfun.h 111-117) rounds to nearest while the float version
  truncates, so after `(j+1)&~1` the reduced argument reaches 3*pi/8 instead of pi/4, where the (float-precision) polynomials are off by up to 4.1e-6.
  np.sin(2.0) in a contiguous array of at least 4 elements differs from the library's value by more than 2.8e-6; in a strided array the library is used, so the
  result of an element depends on the layout and length of its array.  For float32, accuracy is lost beyond |x| of some thousands (numpy switches to a different reduction): sin(6491234) is off by more than 0.1.
* np.exp and np.log of float32 are accurate to 4e-7 relative (C91) except at the ends of the range: exp clamps its argument at 88.376 (avx_mathfun.h), below the overflow limit 88.72, so
  exp(88.5) and exp(88.625) are the same number (and so are exp(-89) and exp(-90)); log of every positive subnormal is log(2^-126), off by up to 16.  The float64 versions are off by a factor 2^1023 resp. by some -709
  (the bias constant is 0x7fe instead of 0x3ff; see C62), here proved against the real functions.
* Grouping with cutoffs (C92; compiled, not exported): an empty partition is counted as one group and takes cells of the next partition; an empty last partition, descending cutoffs and an
  empty cutoffs array access memory outside the arrays; `base_index` is ignored; for strings the counts are read one cell off and neighbouring partitions overwrite each other's
  cells; the caller's index array is changed in place.
* The channel array (C93) is exactly large enough: the marker WorkMain writes behind the last channel lands in the 16th and last entry when the process has 15 workers; it is the limit
  `WorkerThreadCount - 1`, not FUTEX_WAKE_MAX = 15, that keeps it inside.
* A sort that fails for lack of memory in one thread (C94) has by then moved `MainWorkIndex`, so the workers look at its item instead of the one another thread's sort has just published:
  that sort never returns (until the 1024th later operation), although the failing one raised MemoryError and released everything.
* The ledger (C95) switches itself off during a recorded call and on again afterwards: calls of other threads in between are not recorded, a `ledger_disable` in between is undone, two
  calls ending together write one mixed entry, and a call whose flag test is overtaken by another call's end calls itself again, without bound. It also reads `dimensions[1]`, of which numpy
  passes only `[0]` to element-wise loops.
* `oldinit` (C96) accepts one-argument functions with an int32 loop (numpy compares only as many types as the function has operands): `oldinit("negative")` makes every later
  `np.negative` of int32 read a third pointer and stride behind the ones numpy passes. If no loop matches, it compares the uninitialised `oldfunc` and returns a string with the exception set.
* Out of memory (C97): the tasks of a threaded `kind='mergesort'` sort ignore the -1 of mergesort_ (sort.cpp 1811-1817), so np.sort returns an array that is not sorted when a task gets no
  workspace; lexsort ignores SortIndex's -1 (sorting.cpp 466-471), so a key whose workspace is refused is silently left out - with none granted, the result is 0 .. n-1; the same
  holds for single partitions with cutoffs (sort.cpp 1990-1997).
* Out of memory (C98): the threaded reduction writes through an unchecked pointer (_pnumpy.cpp:671; beyond 1024 bytes of cells, that is from 2097153 8-byte elements on); BuildArrayInfo
  writes through AllocArrayInfo's unchecked result (common.cpp:644).
* atop_setworkers('invert', dtype, k) (C99) is accepted and shown by atop_info, but np.invert uses the limit stored under 'bitwise_not': both names denote one
  function object and gUnaryMapping hooks it twice (_pnumpy.cpp:124, 143).
* timer_getutc (C100): the product tv_sec * 10^9 overflows a signed 64-bit integer from the year 2262 on.
* The test for AVX2 (C101) looks at leaf 7 of cpuid only, never at OSXSAVE/XCR0: with a numpy that has no __cpu_features__ table the AVX2 loops are installed even
  if the operating system has not enabled the registers. The brand loop `for (i = 0x80000000; i <= nExIds; ++i)` never ends for nExIds = 0xFFFFFFFF (threads.cpp:627).
* Three places dereference pointers to vector types at addresses that need not be aligned (C102): UnaryOpFast reads `*pIn1_256` (ops_unary.cpp:358), ReduceMathOpFast
  reads `pDataIn256[0]`, `[1]` (ops_binary.cpp:212-213), GetItemInt/GetItemUInt handle 16-byte items as __m128 (getitem.cpp:940-1013). Where the compiler does not fold
  the load into an arithmetic instruction (`np.prod` of uint64: the operand is used twice; every __m128 copy) it uses an aligned move, and the process dies by a general protection fault:
  `np.prod` of 16 uint64 at 16 modulo 32, indexing `np.zeros(21)[1:].view(complex)`.
* A float64 sum of negative zeros is -0.0 on one thread and +0.0 with threads (C103): every block starts from +0.0 (_pnumpy.cpp:609). In general the two results differ in
  rounding; both satisfy the bounds of C103, and the threaded one is the more accurate (at most 2072 additions per item plus one per 131072 items, against n/8).
* If `initialize()` fails part-way (it raises), every later `initialize()` and a second `import pnumpy` return None, with only part of numpy's functions taken over (C104):
  `g_Settings.Initialized` is set first (_pnumpy.cpp:1298), not last.
* `atop_info()` returns pnumpy's internal dictionary, whose values are raw addresses (C105): after `d = atop_info(); d[("add", 5)] = 1`, `atop_info("add", 5)` reads and
  `atop_setworkers("add", 5, 2)` writes at address 1 (_pnumpy.cpp:1797-1799, 1252-1267). Called before `initialize()` it fails with SystemError (NULL without exception).
* Lost references (C106): a successful `atop_info(name, dtype)` leaks the six integers it puts into the dictionary (_pnumpy.cpp:1806-1813: PyDict_SetItemString does not
  steal); `initialize()` leaks its 13 temporary arrays, numpy, setbufsize, every ufunc and, per function and type, the key tuple and the address integer; each successful
  `oldinit(name)` leaks a reference to the ufunc; `getitem` leaks the descriptor of a numpy-integer default (common.cpp:318) and the UCS4 copy of a str default (common.cpp:432).
* `import pnumpy` sets numpy's buffer size to 8388608 in the importing thread, whatever the user had chosen; `disable()` does not restore it (C107, _pnumpy.cpp:1306-1314).
* **C108: a worker thread can look at a half-written work item.** A worker that saw `WorkIndex > WorkIndexCompleted` of the previous call and was delayed reads `MainWorkIndex` of the next call, whose item is filled in field by field without a lock (threads.h:1086-1133, threads.cpp:111-122). One thread calling twice is enough: the worker takes a position of a channel whose `LastBlock` is not stored yet, the block is lost, and the second call waits forever. With leftovers in the channels (the ring is not cleared, and items are reused after 1024 calls) it calls the kernel beyond the end of the arrays.
* C109: StartThread only logs a failed `pthread_create` (threads.cpp:227-239). If no worker thread could be created every parallel sort hangs, although the caller could do all the work.
* C110: `if (ZigZag) ZigZag ^= 1` (threads.h:532-533) is not atomic: a call running in another thread while `thread_zigzag()` is called undoes it (the mode stays on after the answer False; after two such races it can also be off after the answer True). Results are not affected.
* C111: on macOS the worker threads wait for a condition variable without testing anything under its mutex (threads.cpp:169-171), and the caller broadcasts without taking the mutex (threads.h:515). A worker between its look at the pool and the wait misses the broadcast; if all do, a parallel sort or a record conversion never returns. On Linux and Windows the kernel compares the pool's index before sleeping.
* C112: WorkMain stores BlockLast before it sets BlocksCompleted and BlockNext to 0 (threads.h:1113-1117). Two workers delayed since the previous sort that look in between draw the tickets 0 and 1; the counters are then set back, so part 0 is sorted twice, by two threads at the same time, and counted twice: np.sort returns while the last part is not sorted, frees the workspace, and a worker goes on with the last part afterwards. (Stores of the counters before BlockLast would not be enough; the item must not be visible - MainWorkIndex incremented - before it is written.)
* C113: (composition) the exclusions are those of C43, C44, C45 and C53; and after initialize and atop_disable every two-input reduction of 65536 or more elements that are
  not adjacent reads outside the buffer of partial results (C113_reductions_violated: the threaded path of the saved loop, C09, is then the only one).
  For np.min/np.max of float arrays this happens while pnumpy is enabled too (no kernel; C113_float_extremes_violated).
  np.subtract.reduce of 65536 or more contiguous elements is wrong whether pnumpy is enabled or not (C113_subtract_reduction_violated: every block starts from the
  first element again, and the partial results are subtracted from it; also C09).

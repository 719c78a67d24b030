# Formal model of pnumpy in Lean 4 — design

Layout: `lean/Verif/Spec` (small specifications that do not mention the model),
`lean/Verif/Model` (functions and transition systems; every definition cites file and lines in
/repo), `lean/Verif/Proofs` (helper lemmas), `lean/Verif/Props` (the property theorems and, beside
each, a concrete case meeting the hypotheses). `MANIFEST.json` names the theorems of each property;
`seeded/LOG.jsonl` records the wrong programs the theorems were tested against (tool:
`tools/mutate.py`). This file is written by `tools/design.py` from `tools/design_head.md` and
`tools/design_table.py`.

Theorem suffixes: `_partial` = proved under a restriction that the full property does not have;
`_violated` = a proved refutation: the model of the code does what the property forbids. A property
that is false of the code is listed as `partial`: the restricted theorem says where it holds, the
refutation shows that the restriction is needed.

## Trusted base

* Lean 4.33.0's kernel. Axioms the theorems depend on: `propext`, `Classical.choice`, `Quot.sound`
  at most. No axioms of our own, no `native_decide`/`bv_decide`.
* The reading of the C++/Python source into the model. Nothing of the code is executed.
* Atomicity of the `Interlocked*` operations. Concurrent models are interleavings of atomic steps
  under sequential consistency; C76 (element-wise calls), the TsoSort model (parallel sorts) and C87
  (indexing, arange, record arrays) drop this assumption and prove the results for x86-TSO store
  buffers and kernels interleaved load by load and store by store.
* SIMD intrinsics behave lane by lane as Intel's documentation says (Model/Simd).
* numpy's side of the interface: a ufunc inner loop is a sequential strided loop over its elements;
  `_new_sortlike`, `_new_argsortlike` and `PyArray_LexSort` (the callers of the hooked sorts) are
  modelled from knowledge of numpy, which is not in /repo.

## What is modelled

| part of the code | model |
|---|---|
| work item, channels, tickets, completion (threads.h, threads.cpp) | WorkItem, WorkCounter, Ring, Callers, Fill, FillTasks, Futex, OtherOs (macOS, Windows), Chunks, Slots; with store buffers: Tso, TsoCounter, TsoTasks, TsoWork, TsoSort |
| thread start, affinity mask, worker numbering, limits (threads.cpp) | ThreadSetup, WorkerLimit |
| ufunc stubs and hook tables (_pnumpy.cpp) | Dispatch, Hooks, Settings, OldInit, InfoDict, BufSize, Refs |
| ledger, clocks (ledger.cpp) | Ledger, LedgerCalls, Timers |
| CPU detection (cpuid in atop.cpp/common, cpu.py) | CpuId, CpuCount |
| Python wrappers (sort.py, recarray.py, \_\_init\_\_.py) | PyWrap, RecEntry |
| failing allocations | OutOfMemory |
| alignment demands of loads and stores | Align |
| sort / argsort / lexsort hooks under numpy's callers (_pnumpy.cpp) | SortHooks |
| element-wise kernels (ops_binary/unary/compare) | Elementwise, Simd, IntOps, Compare, Classify, FloatOps, OpTables, BoolTables |
| sin/cos/exp/log kernels (ops_trig.cpp, ops_log.cpp, avx_mathfun.h) | Trig |
| reductions and accumulate | Reduce, Accumulate, OpTables |
| sort, argsort, parallel sort, lexsort, group, is_sorted (sort.cpp, sorting.cpp) | Sort, SortApi, SortCode, ParSort, Strings, LexSort, LexEntry, Group, GroupPart, IsSorted |
| getitem, `__getitem__` hook, recarray, arange | GetItem, GetItemEntry, RecArray, RecEntry, Arange |
| allocator, strides, dtype tables (common.cpp) | Alloc, Strides, Dtypes |

## Simplifications

* numpy's original loop (`pOldFunc`) is taken to be a sequential loop over the elements.
* Memory cells are elements keyed by address; alignment faults of `*pIn1_256` style loads are not a
  failure of the model (C07 states the alignment of the accesses separately). The `FIND_NANS` read
  for integer kernels is harmless and left out.
* A vector operation is taken lane by lane as the scalar operation; C53_lanes, C54_lanes, C55_lanes
  prove this for the registers and table entries used.
* Floats are IEEE bit patterns. Comparison, NaN/Inf classes, sign operations, min/max selection and
  rounding to integers are modelled on bits; add, subtract, multiply, divide, sqrt are a parameter
  (`FloatUnit`: one function used by scalar and vector instruction alike). `std::isnan` is read as
  the test on the fields. `0.0 - x` has IEEE semantics. long double is not modelled.
* Parallel sort: a task is an atomic commit of its result, preceded by arbitrary scribbling on its
  own footprint only. Strings are elements. The IsSorted callback is two atomic steps.
* `SumBooleanMask`'s horizontal sum is the plain sum. Chunk writes and recarray writes happen in any
  order. int64 products of recarray sizes are unbounded integers.
* arange: element reads and writes are atomic, float values are integral with a p-bit
  round-to-nearest-even; int64 overflow wraps.
* Settings hold unbounded integers. Ufunc loops are identified by (object, dtype); the set of kernels
  and the failure point of initialisation are parameters; `np.bitwise_not` is `np.invert`.
* Ledger: recorded calls are one at a time (C95's LedgerCalls has the concurrent, non-atomic `Tail++`). Allocator memory is 8-byte words; overlapping
  stores leave junk.
* Callers: the fields of a work item are written in one step (C108's Fill and C112's FillTasks have the single stores), one pool, and `CalmHistory` = never
  1024 operations start during one. Futex: pools are written/woken in one step, workers start in any
  state.

## Not modelled

CPython reference counting other than in C63 and C106, numpy internals, OS scheduling beyond fairness,
timing, Windows/macOS branches other than the sleeping and waking of workers (C111), code that is compiled but never reached (PArange, item_selection.cpp, GetLogOpFast,
GetTrigOpSlow).


ROWS = {
"C01":("WorkItem","invariant over all reachable states of the channel/ticket system: executed blocks are duplicate-free, decoding (channel, position) -> block is injective and onto"),
"C02":("WorkItem","same invariant; the caller leaves its wait loop only when the completed counter equals the number of blocks"),
"C03":("WorkItem","decreasing measure plus no-stuck-state; a schedule of the caller alone always completes"),
"C04":("WorkCounter","invariant on the ticket counter of both shared-counter modes"),
"C05":("Ring","explicit run refuting the claim; invariant under the publish-first hypothesis"),
"C06":("Elementwise, WorkItem","chunk writes commute (disjoint), every interleaving of partial chunk executions has the memory of the serial call"),
"C07":("Elementwise, Simd","loop invariants of vector loop + tail over memory keyed by address; separate statement about every address accessed and its alignment"),
"C08":("Elementwise, Compare","same loops with aliasing; witnesses for CompareInt8 and for partial overlap"),
"C09":("Reduce","monoid folding over any chunk partition and order; witnesses"),
"C10":("Accumulate","serial loop invariant; blocks in ascending order by induction on the number of blocks; single accesses interleaved in any way: sorted by block they are the blocks one after another, otherwise some block b+1 starts before block b is finished, and the cell after the border is computed from the old output"),
"C11":("Reduce","loop invariants of unrolled reduce kernels; witness for the float32 horizontal step"),
"C12":("IntOps, Simd","bit-vector arithmetic modulo 2^64"),
"C13":("Compare, Simd","lane shuffles as functions, lifted to arbitrary operand values"),
"C14":("Compare","order of toInt/toNat; witness"),
"C15":("Classify, Ieee","field arithmetic of the IEEE formats"),
"C16":("IntOps","toInt / toNat arithmetic with bmod"),
"C17":("Sort","array versions of heap/quick/merge sort, permutation invariant"),
"C18":("Sort","sortedness invariants for any total preorder, instantiated per type incl. NaN-last"),
"C19":("Sort","the model returns `none` on any access outside; theorem: never `none`, termination by construction"),
"C20":("Sort","argsort loops; NaN witness for the final merge comparison; exact result of the merge argsort (Spec/ArgMerge)"),
"C21":("Sort","stability via lexicographic (key, index) order; NaN counterexample evaluated on Spec/ArgMerge"),
"C22":("ParSort","transition system of eight-segment tasks and buddy bits, invariant + measure; argsort result for arbitrary keys = Spec argPar"),
"C23":("ParSort","segment arithmetic"),
"C24":("LexSort","induction on keys over the stable argsort"),
"C25":("LexSort","partition by partition; frame lemmas"),
"C26":("Strings, ParSort","list order; witnesses"),
"C27":("IsSorted","chunks overlap by one element; interleavings of callbacks"),
"C28":("Group","loop invariant; equal ids always mean equal bits, so for floats right exactly if no two bit patterns are the same number"),
"C29":("SortApi","witness and reduction to ndarray.sort"),
"C30":("GetItem","count pass, prefix sums and copy pass refine filter"),
"C31":("GetItem","index loops refine lookup with default"),
"C32":("RecArray","row-block loops refine column extraction"),
"C33":("RecArray","measure; divergence witnesses"),
"C34":("Arange","wrap-around arithmetic over all interleavings of element steps"),
"C35":("Settings","induction over histories"),
"C36":("Hooks","state machine of ufunc loop table and hooks, induction over histories"),
"C37":("Dtypes","complete tables (finite domain, all values) plus out-of-range witness"),
"C38":("Ledger","ring arithmetic with the real mask 8095; contents of every place by induction on the history"),
"C39":("Alloc","address arithmetic, invariant over allocation histories"),
"C40":("Callers, Ring","any number of callers/workers; invariant plus explicit runs"),
"C41":("Strides","induction on the rank"),
"C42":("Futex","fair schedules; ranking argument; hanging runs"),
"C43":("FloatOps","minmaxpd selection semantics"),
"C44":("FloatOps","bit-level sign operations vs scalar expressions"),
"C45":("FloatOps","round-half-away vs ties-to-even"),
"C46":("SortApi","unsigned order split by sign; witness"),
"C47":("SortApi","frame + stride lemmas, witness"),
"C48":("SortApi","reduction to C50 / witness"),
"C49":("LexSort","exact characterisation"),
"C50":("SortApi","composition of hook wrapper and C17/C18/C22"),
"C51":("Dispatch","simulation of the stub's choice of kernel and split; uses C06/C07"),
"C52":("Dispatch","case analysis of the stub"),
"C53":("OpTables","lane lemma for every table entry + C07 + C51"),
"C54":("OpTables, Reduce","lane lemma + C09/C11"),
"C55":("OpTables","lane lemma + C07 + C51"),
"C56":("OpTables.floorDivOp","integers are floats, so a nearest float lies between floor and floor + 1; divisibility of large floats for the counterexample"),
"C57":("BoolTables, Compare","C13/C14 per element + C51 end to end"),
"C58":("BoolTables, Classify","C15 per element + C51 end to end"),
"C59":("Trig","simulation with a per-element routine mark; block starts are multiples of the vector length, so the split among threads does not move vector positions"),
"C60":("Trig.sinLane, cosLane","bit-level: the sign enters only by xor (sin) or not at all (cos)"),
"C61":("Trig lanes","NaN propagation through the polynomial; the exceptions are refuted"),
"C62":("Trig lanes over an IEEE-754 machine","exact or bracketed evaluation of every operation; double exp/log refuted (bias 0x7fe)"),
"C63":("LexEntry (array descriptors, reference counts, allocation failures)","invariant of the collecting loop: every copy is recorded; FreeArrayInfo gives every recorded copy back"),
"C64":("LexEntry.checks, prepare","case analysis of every stage of the argument handling: raises iff some key is unusable; crashes refuted by theorems for None, 0-d arrays and no keys"),
"C65":("LexEntry + LexSort","what a key array denotes (by strides) is the column of the packed copy; then C24; byte order refuted"),
"C66":("LexEntry.planIndex, cutoffsOf + LexSort","passes_order from the caller's row numbers; C25 for partitions; unchecked inputs refuted"),
"C67":("SortHooks (hook conditions, type switch, numpy's per-line caller on byte memory)","line = column the hook sees, then C20/C21/C22"),
"C68":("SortHooks","as C67; up to 15 elements with NaN by insertion (LexShort); witness (16 float64)"),
"C69":("SortHooks","hook conditions imply in-place native data, then C18/C22"),
"C70":("SortHooks","composition of stable reorderings"),
"C71":("SortHooks","as C70"),
"C72": ("Model/ThreadSetup: affinity mask loop, bit count, thread numbering", "bit-level induction on the two loops; invariant over start orders; pigeonhole for surjectivity"),
"C73": ("Model/ThreadSetup with Settings and Futex", "worker count -> wake count after any history -> C42/C04 theorems"),
"C74": ("Model/GetItemEntry: the whole entry point getitem (checks, index type switch, 128-byte uninitialised buffer, GetDefaultForType, ConvertScalarObject with its three switches), on bytes; C casts int->float, float->int are parameters with their C meaning as hypothesis (Spec/GetItemDefault)", "the default's bytes by cases over type and scalar, then C31_index_partial; the exact set of outcomes as an iff; refutations for strings, big integers, float16, 16-byte types"),
"C75": ("Model/GetItemEntry: Hook and BoolIndex (checks of BooleanIndexInternal), numpy's own subscript a parameter; reference counts of object arrays", "iff-characterisation of the outcomes; mask case from C30_mask_partial; refutations for 2-D arrays, shapes, byte order, object arrays"),
    "C76": ("Model/Tso: Work.step with a store buffer per thread, kernels one element per step, the caller's earlier stores and the publishing store still buffered at the start",
            "invariant over all action sequences (issued / buffered / in memory); progress by projecting on Work.trace with stutter steps"),
    "C77": ("Model/RecEntry: buffers, array objects, the checks and loads of the entry point, writes through the output pointers; conversion from Model/RecArray",
            "outcome determined by prepare; heap lemma (pieces, disjoint regions, frame) on top of the C32 coverage lemmas; refutations for unchecked arguments"),
    "C78": ("Model/TsoSort: the eight-segment sort of Model/ParSort down to single loads and stores of each node's code, per-thread store buffers, `lock` instructions that wait for an empty own buffer, a caller whose earlier stores may still be buffered. Model/SortCode: quicksort_, heapsort_, mergesort0_, amergesort0_ (and their left versions) and the parallel merges as code, load by load and store by store, with a bound on every loop; the `C78_code_` theorems are about these programs. The other C78 theorems hold for any program of loads and stores that, executed alone, accesses only the node's own cells and computes what the sort / merge function of Model/Sort computes.",
            "Proofs/TsoSort: simulation relation between machine states and the invariant of Proofs/ParSort (each running node belongs to one thread, whose view of its own cells is the node's partial result; a buffered store belongs to a running node); every machine step keeps it; at eight complete blocks no thread runs, so all buffers are empty and memory is the sorted array. Liveness: from every state a schedule leads to eight complete blocks (progress measure of Proofs/ParSortLive). Props/TsoSort exhibits code that meets the hypotheses and a completed run. Proofs/SortCode: each piece of code computes what the function of Model/Sort computes and never runs out of rounds; Proofs/SortCodeNode, SortCodeIso: executed at a node it accesses the node's cells only. Race freedom: what a thread is about to access, or has buffered, belongs to its node; nodes at work are disjoint."),
    "C79": ("Model/Callers: the child's history is any history of the parent followed only by steps of the one thread.",
            "Props/Fork: with an item the caller alone drives it to the end (C03, C04), for the item at the index the counter has reached, whatever the other slots hold; without one (lock left behind) the call is serial; by first-return induction on the caller's steps."),
    "C80": ("Model/Callers, as for C79.",
            "Props/Fork: the caller of a counter-style operation draws ticket 0, which means 'no work', and nobody draws another one; refuted for every history with the lock free. With the lock left behind the call is serial."),
    "C81": ("Model/PyWrap: the two helper functions over an arbitrary interpreter state, arbitrary methods, conversion and __array_wrap__. Spec/PyCall: numpy's documented wrapper.",
            "Props/PyWrap: case analysis over how each call ends; equality with numpy's wrapper for objects without __array_wrap__, for methods that do not raise TypeError, and for arrays whose TypeErrors have no effects; refuted for objects with __array_wrap__ and without the method."),
    "C82": ("Model/CpuCount: both functions on the bytes of the files (strip, lower, split, dicts); Python's int is a parameter.",
            "Props/CpuCount: number of distinct contents = number of distinct cores (two processors' files agree iff their cores do); induction over lines and sections of /proc/cpuinfo with the dict as invariant; witnesses for the failures."),
    "C83": ("Model/LexSort, Model/SortHooks, Model/LexEntry as before.",
            "Proofs/LexPerm, Props/LexPerm: permutation contracts for serial and parallel passes from any index array; a total version of ParMergeMergeString covers all runs that come to an end; induction over the keys; partition invariant with an abstract effect."),
    "C84": ("Model/LexSort, Model/ParSort, Model/Strings as before; a read outside an array ends a function without result.",
            "Props/LexPerm: serial passes total; parallel number passes: body contract and completion from any index array; counterexample for strings by an invariant over all runs (equal strings keep every node unchanged, the first merge is never finished)."),
    "C85": ("Model/Accumulate (overlap guard, serial call) and Model/Elementwise (access programs of the kernels); Spec/Overlap: the in-order loop as a recursive definition on memory",
            "a vector step commutes into the scalar loop when no lane writes a cell a later lane of the step reads; outside the guard this holds for every kernel shape; induction over the vector loops. `C85_kernel_alone_differs`: without the guard the vector kernel is wrong. Limits: element-granular memory, scalar operand not overwritten, equal element sizes"),
    "C86": ("Model/Callers (ring, callers, workers) over Model/WorkCounter and Model/WorkItem",
            "a measure (remaining claims, lexicographically with the worker's position) that every own step decreases and no foreign step increases; invariant: a worker inside is neither asleep nor at the caller's barrier. Limit: no refill of the entry while the worker is inside (part of the statement; C05 and C40 show what a refill does)"),
    "C87": ("Model/TsoCounter: Counter.step with a store buffer per thread, the code of a task as any sequence of loads and stores, the caller's stores and the publishing store still buffered at the start; chunk loops, the indexing kernel and the arange kernel as such code; Model/TsoTasks: both passes of boolean-mask indexing and the record conversion, with the caller's sums between the passes",
            "invariant with a ghost memory per running task (what the task would see if it ran alone), silent stores allowed; progress by mapping runs to Model/WorkCounter runs"),
    "C88": ("Model/Futex (counter-mode call, pools, futex queue) as for C42; Model/FutexWork, the same around an element-wise call",
            "invariant: a participating worker that sleeps after the wake-up has a reason (no ticket left, or it drew the empty ticket 0); two own steps lead into the call; a per-worker distance to sleep that only its own steps lower"),
    "C89": ("Model/TsoWork: the block code is the kernel's own list of lane loads and stores (Model/Elementwise, Model/Dispatch), the control is Model/WorkItem, the memory Model/Tso (store buffers, lock-prefixed instructions wait for an empty buffer)",
            "invariant over all runs: what a busy thread has done so far is a prefix of its block's own run on the caller's view; finished blocks' stores are in memory; kernel stores determined by loads of cells no other block writes (C51's separation)"),
    "C90": ("Trig lanes instruction by instruction on bit patterns; arithmetic is any IEEE-754 round-to-nearest; the reference is Mathlib's Real.sin/Real.cos",
            "forward error analysis: rounding error of each instruction (Proofs/Round), exact Cody-Waite reduction with the code's three parts of pi/4 (Mathlib's 20 digits of pi), Taylor remainder plus Bernstein bounds for the polynomials, quadrant selection by bits; refutations by the same bounds at concrete arguments"),
    "C91": ("Trig lanes instruction by instruction on bit patterns; arithmetic is any IEEE-754 round-to-nearest; the reference is Mathlib's Real.exp/Real.log",
            "forward error analysis with relative errors: exponent/mantissa split by bits (exact), Cody-Waite reduction with the code's two parts of ln 2 (Mathlib's ln 2 bounds), truncated series plus interval bounds of the difference polynomials proved by a reflective checker for rational polynomials; refutations at concrete arguments"),
    "C92": ("GroupPart: task per partition on the shared arrays, prefix sums, second task per partition; tasks in any order",
            "locality of the grouping loop (it works the same inside longer arrays), invariants over the set of finished tasks, assembly of the per-partition groupings"),
    "C93": ("Slots: entries written by the set-up, and entry accessed by a thread's next step in every state of WorkItem; settings and CPU count from Settings and ThreadSetup",
            "bounds of the wake count over settings histories, invariant on claimed channels"),
    "C94": ("Callers (several threads and workers on the ring, with the failure path of a sort) and the items of WorkItem and WorkCounter",
            "projection of a fair run of the whole system to a fair run of one item, then C03 and C04 progress; refutation by the stuck item of C40"),
    "C95": ("LedgerCalls: every access to the flag, the tail and the seven fields of an entry as one step; the name tables",
            "invariant over all histories (operations asked for = carried out + pending), measure for a thread running alone, symbolic run of a whole call; refutations by concrete schedules; the tables by evaluation of all their entries"),
    "C96": ("OldInit: the loop on a memory of int32 cells, reading the operand arrays with bounds",
            "induction on the length"),
    "C97": ("OutOfMemory: an oracle says which requests are granted; the workspaces are heap blocks or on the stack; the parallel sort, the passes of lexsort and the partition tasks with tasks that may be refused",
            "invariant of the merge tree (NodeQ: the part of a refused task stays a subsequence of the result), lemmas on allocate-use-free code"),
    "C98": ("OutOfMemory: the buffers as blocks of a heap with an arbitrary oracle; the values come from the models of reduction (C54)",
            "case analysis on the oracle, C54 for the value"),
    "C99": ("WorkerLimit: the dictionary (name, dtype) -> table position built by newinit over the hook model, the limits of the positions, the limit a call of a loop passes to WorkMain",
            "invariant over histories; the last replacement of a loop has the highest rank, so dictionary and loop agree; C52 for the threads"),
    "C100": ("Timers: the arithmetic on the clock values, signed overflow as undefined",
            "integer arithmetic, bit-wise extensionality"),
    "C101": ("CpuId: cpuid as an arbitrary function, the feature bits, the brand loop over a 64-byte buffer, snprintf into 512 bytes, the two gates of the import over the hook model",
            "bit-wise extensionality; the loop over the leaves by induction on the leaf range; lengths of the printed parts"),
    "C102": ("Align: list of accesses that demand an alignment (aligned intrinsics, plain dereferences of vector pointers), over the kernels of Elementwise, the loop of Reduce and 16-byte indexing",
            "induction over the loop positions, tied by C102_positions_* to the loops of the kernel models; congruences"),
    "C103": ("Reduce, OpTables (as C09, C54); specification Combines: a tree of combinations over a permutation of the items with a bound on its depth",
            "induction over the vector loop with a list of items per lane; block results substituted into the outer reduction; induction over the combination tree for the error, rounding lemma without absolute term for sums"),
    "C104": ("InfoDict: initialize with its outcome, the dictionary with the addresses, the failure point (Hooks.Cfg.stop)",
            "invariant on the initialised flag over all histories; induction over the replacements for the dictionary; C104_iff_partial: which loops are pnumpy's after any history, and no two first entries of the tables share a loop"),
    "C105": ("InfoDict: the dictionary as a Python object that Python code can change; values are integers or other objects; a layout of the tables in memory",
            "invariant (every value in the dictionary is the address of a table position) over all histories without a store; direct evaluation for the violations; C105_iff_partial: an invariant that ties each entry to the last store or deletion under its key"),
    "C106": ("Refs: per call the list of its actions on references (new, take, drop, steal, store, release, give), object by object; counts are sums over the history (Spec/Refs)",
            "every call's actions are checked against the multiset of references the C code owns; induction over the history and over the prefixes of a call; the functions taken over by initialize by induction over their list"),
    "C107": ("BufSize: numpy's per-thread size and the Initialized flag over histories of events",
            "induction over the history; the flag is set exactly if an initialisation is in the history"),
    "C108": ("Fill: each field of an item is a store of its own; callers, workers, ring of 1024 with arbitrary contents",
            "forward simulation into Callers (C40, C94) for histories in which no worker looks at an item while it is written; explicit history plus invariant for the hang, explicit run for the overrun"),
    "C109": ("ThreadSetup (created), Work, Counter and Futex with as many workers as exist, the call counting on more",
            "boot invariant for the numbers; liveness proofs of C03, C04 and C42 with workers that never run; invariant for the hang"),
    "C110": ("LiveSettings: every read of NoThreading, FutexWakeCount and ZigZag and both halves of `ZigZag ^= 1` are steps of their own, on top of Callers",
            "prophecy: a run is a run of Callers in which every call starts with the settings it is going to read; C40 and C94 carry over; invariants for the settings; two runs for the refutations"),
    "C111": ("OtherOs: the macOS branch (one condition variable, no predicate), the Windows branches (WaitOnAddress/WakeByAddressAll; Sleep where they do not exist); every pool is written and woken in its own step",
            "invariant (who will look for work), progress as for C42; an explicit schedule and an invariant of it for the refutation"),
    "C112": ("FillTasks: the stores of a sort's item one by one, tickets drawn and compared in two steps, any number of threads and workers, any memory",
            "simulation by Callers for histories and infinite runs in which no worker looks at an item being written (fairness carries over because a thread takes at most seven steps in a row that stand for none); an explicit history for the refutation"),
    "C113": ("Takeover: newinit's choices computed from the getters of OpTables, the loop a call reaches from Hooks, its execution from Dispatch, reductions from Reduce",
            "invariant of the hook state, uniqueness of the operation code per function, then C53, C55 and C51"),
}

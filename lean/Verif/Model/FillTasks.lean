import Verif.Model.WorkCounter
/-
Parallel sorts with the item of a sort written field by field: `GetWorkItem`, the sort (src/atop/sort.cpp 2008-2062, 2135-2175), `WorkMain`
(src/atop/threads.h:1086-1133), while the worker threads run (src/atop/threads.cpp:104-122). Any number of calling threads and workers;
memory is sequentially consistent. `Verif.Model.Callers` writes the item in one step; `Verif.Model.Fill` has the element-wise calls.
Simplifications: stores happen in the order of the source; the stores of WorkIndex and DoWorkCallback (the same for all sorts of one kind)
and those into fields that sorts do not read (ZigZag, the channels) are left out; the workspace is granted; one pool; a sleeping worker may
look for work again at any time; `int64_t` values are natural numbers.
-/
namespace Pnumpy.FillTasks
open Pnumpy.Work (upd)

/-- `RING_BUFFER_SIZE` (threads.h:430). -/
def RING : Nat := 1024

/-- A `stMATH_WORKER_ITEM` (src/atop/threads.h:165-252). `arg` is WorkCallbackArg: the number of the sort whose array it describes. -/
structure Slot where
  arg : Nat
  total : Nat
  wakeup : Nat
  blockLast : Nat
  completed : Nat
  next : Nat
  blockSize : Nat
deriving DecidableEq

/-- A store into an item (sort.cpp:2028, threads.h:1087-1118). -/
inductive Store where
  | arg (n : Nat)
  | total (n : Nat)
  | wakeup (n : Nat)
  | blockLast (n : Nat)
  | completed
  | next
  | blockSize (n : Nat)
deriving DecidableEq

/-- The effect of a store (sort.cpp:2028, threads.h:1087-1118). -/
def Slot.put (s : Slot) : Store → Slot
  | .arg n => { s with arg := n }
  | .total n => { s with total := n }
  | .wakeup n => { s with wakeup := n }
  | .blockLast n => { s with blockLast := n }
  | .completed => { s with completed := 0 }
  | .next => { s with next := 0 }
  | .blockSize n => { s with blockSize := n }

/-- A sort: the number of parts it is cut into (MergeSplitter.NumCores) and GetFutexWakeup() (sort.cpp:2011, 2062, threads.h:1089). -/
structure Job where
  n : Nat
  maxWakeup : Nat
deriving DecidableEq

/-- ThreadWakeup: NumCores - 1 threads are asked for, at most GetFutexWakeup(); if none, GetFutexWakeup() (sort.cpp:2062, threads.h:1095-1104). -/
def Job.wakeup (j : Job) : Nat := if (j.n : Int) - 1 ≤ 0 then j.maxWakeup else min (j.n - 1) j.maxWakeup

/-- The stores after the lock is released, in their order: sort.cpp:2028 (2157), threads.h:1087, 1104, 1113, 1116, 1117, 1118. -/
def stores (i : Nat) (j : Job) : List Store :=
  [.arg i, .total j.n, .wakeup j.wakeup, .blockLast (j.n + 1), .completed, .next, .blockSize 1]

/-- Where a thread is inside the callback (sort.cpp:1691-1790 and 1794-1855: about to draw a ticket, `did`: it has done a part; the ticket
drawn, about to compare it; sorting a part; about to count it; leaving) and, for the caller, at the barrier (threads.h:1152-1160). -/
inductive PC where
  | enter
  | fetch (did : Bool)
  | test (k : Nat) (did : Bool)
  | run (b : Nat)
  | complete (b : Nat)
  | ret (did : Bool)
  | wait
  | returned
deriving DecidableEq

/-- One step of a thread inside an item (`caller`: number of parts if it is the calling thread's barrier; threads.h:254-282, 1152-1160, and
the loops sort.cpp:1698-1789, 1804-1853). The ticket 0 counts as no work (threads.h:276). -/
def go (s : Slot) (n : Nat) : PC → Slot × PC
  | .enter => (s, .fetch false)
  | .fetch did => ({ s with next := s.next + 1 }, .test s.next did)
  | .test k did => (s, if k < s.blockLast then (if k = 0 then .ret did else .run (k - 1)) else .ret did)
  | .run b => (s, .complete b)
  | .complete _ => ({ s with completed := s.completed + 1 }, .fetch true)
  | .ret _ => (s, .wait)
  | .wait => (s, if s.completed < n then .wait else .returned)
  | .returned => (s, .returned)

/-- The part that is finished by a step: of which sort, which part (sort.cpp:1698-1789). -/
def ran (arg : Nat) : PC → List (Nat × Nat)
  | .run b => [(arg, b)]
  | _ => []

/-- Where a calling thread is (threads.h:1056-1170): before the interlocked or; about to increment MainWorkIndex; about to release the lock
(1069); storing (`todo` still to come); about to store Pool.WorkIndex (537); inside the callback and at the barrier, with the argument
pointer it read; at `CompleteWorkItem` (562-578); sorting by itself. -/
inductive Thread where
  | idle
  | want (j : Job)
  | take (j : Job)
  | unlock (i : Nat) (j : Job)
  | fill (i : Nat) (j : Job) (todo : List Store)
  | publish (i : Nat) (j : Job)
  | inCall (i : Nat) (j : Job) (arg : Nat) (pc : PC)
  | finish (i : Nat) (j : Job)
  | serial (j : Job)
deriving DecidableEq

/-- A worker thread (threads.cpp:104-122): at the top; Pool.WorkIndex read; found larger than WorkIndexCompleted, about to look at the item
of MainWorkIndex; inside the callback for slot `k`, with the argument pointer it read first (in `enter`: not yet). -/
inductive Worker where
  | top
  | cmp (wi : Nat)
  | look
  | inside (k arg : Nat) (pc : PC)
deriving DecidableEq

/-- The ring (src/atop/threads.h:428-445), the calling threads, the workers and the parts finished so far (sort, part; newest first). -/
structure St where
  lock : Bool
  main : Nat
  poolIdx : Nat
  poolDone : Nat
  slot : Nat → Slot
  thread : Nat → Thread
  worker : Nat → Worker
  runs : List (Nat × Nat)

/-- `stWorkerRing::Init` (threads.h:446-468): ThreadWakeup and WorkCallbackArg keep what the memory held (`mem`). -/
def init (mem : Nat → Slot) : St :=
  { lock := false, main := 0, poolIdx := 0, poolDone := 0,
    slot := fun k => { mem k with blockSize := 0, blockLast := 0, total := 0, next := 0, completed := 0 },
    thread := fun _ => .idle, worker := fun _ => .top, runs := [] }

/-- What can happen next: thread `t` starts a parallel sort, thread `t` or worker `w` takes its next step (threads.h:1056-1170,
threads.cpp:104-122). -/
inductive Act where
  | start (t : Nat) (j : Job)
  | thread (t : Nat)
  | worker (w : Nat)
deriving DecidableEq

/-- One atomic step (src/atop/threads.h:472-578, 1056-1170, src/atop/threads.cpp:104-122). -/
def step (s : St) : Act → St
  | .start t j =>
    match s.thread t with
    | .idle => { s with thread := upd s.thread t (.want j) }
    | _ => s
  | .thread t =>
    match s.thread t with
    | .idle => s
    | .want j =>
      if s.lock then { s with thread := upd s.thread t (.serial j) }
      else { s with lock := true, thread := upd s.thread t (.take j) }
    | .take j => { s with main := s.main + 1, thread := upd s.thread t (.unlock (s.main + 1) j) }
    | .unlock i j => { s with lock := false, thread := upd s.thread t (.fill i j (stores i j)) }
    | .fill i j [] => { s with thread := upd s.thread t (.publish i j) }
    | .fill i j (x :: todo) =>
      { s with slot := upd s.slot (i % RING) ((s.slot (i % RING)).put x),
               thread := upd s.thread t (if todo.isEmpty then .publish i j else .fill i j todo) }
    | .publish i j => { s with poolIdx := i, thread := upd s.thread t (.inCall i j (s.slot (i % RING)).arg (.fetch false)) }
    | .inCall i j arg pc =>
      if pc = .returned then { s with thread := upd s.thread t (.finish i j) }
      else
        { s with slot := upd s.slot (i % RING) (go (s.slot (i % RING)) j.n pc).1,
                 thread := upd s.thread t (.inCall i j arg (go (s.slot (i % RING)) j.n pc).2),
                 runs := ran arg pc ++ s.runs }
    | .finish i _ => { s with poolDone := i, thread := upd s.thread t .idle }
    | .serial _ => { s with thread := upd s.thread t .idle }
  | .worker w =>
    if w = 0 then s else
    match s.worker w with
    | .top => { s with worker := upd s.worker w (.cmp s.poolIdx) }
    | .cmp wi => { s with worker := upd s.worker w (if wi > s.poolDone then .look else .top) }
    | .look =>
      let k := s.main % RING
      { s with worker := upd s.worker w (if w ≤ (s.slot k).wakeup then .inside k 0 .enter else .top) }
    | .inside k arg pc =>
      match pc with
      | .enter => { s with worker := upd s.worker w (.inside k (s.slot k).arg (.fetch false)) }
      | .ret _ => { s with worker := upd s.worker w .top }
      | pc =>
        { s with slot := upd s.slot k (go (s.slot k) 0 pc).1, worker := upd s.worker w (.inside k arg (go (s.slot k) 0 pc).2),
                 runs := ran arg pc ++ s.runs }

/-- The state after a history (of src/atop/threads.h:428-578, 1056-1170). -/
def exec (mem : Nat → Slot) (l : List Act) : St := l.foldl step (init mem)

end Pnumpy.FillTasks

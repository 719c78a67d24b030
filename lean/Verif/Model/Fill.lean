import Verif.Model.WorkItem
/-
Element-wise calls with the item of a call written field by field: `GetWorkItem`, the stub (e.g. _pnumpy.cpp:775-789), `WorkMain`
(src/atop/threads.h:1086-1133), while the worker threads run (src/atop/threads.cpp:104-122). Any number of calling threads and workers;
memory is sequentially consistent. `Verif.Model.Callers` writes the item in one step.
Simplifications: stores happen in the order of the source; the store of -1 into the channel after the last one (threads.h:1131) and the
stores of WorkIndex and DoWorkCallback (the same for all element-wise calls) are left out; one pool; a sleeping worker may look for work
again at any time; `int64_t` values are natural numbers.
-/
namespace Pnumpy.Fill
open Pnumpy.Work (upd CHUNK MASK BIG)

/-- `RING_BUFFER_SIZE` (threads.h:430). -/
def RING : Nat := 1024

/-- A `stMATH_WORKER_ITEM` (src/atop/threads.h:165-252). `arg` is WorkCallbackArg: the number of the call whose arrays it describes. -/
structure Slot where
  zigzag : Bool
  arg : Nat
  total : Nat
  wakeup : Nat
  blockLast : Nat
  completed : Nat
  next : Nat
  blockSize : Nat
  cur : Nat → Nat
  chanLast : Nat → Nat

/-- A store into an item (threads.h:476, 1087-1129; _pnumpy.cpp:786). -/
inductive Store where
  | zigzag (b : Bool)
  | arg (n : Nat)
  | total (n : Nat)
  | wakeup (n : Nat)
  | blockLast (n : Nat)
  | completed
  | next
  | blockSize (n : Nat)
  | cur (c : Nat)
  | chanLast (c n : Nat)
deriving DecidableEq

/-- The effect of a store (threads.h:476, 1087-1129; _pnumpy.cpp:786). -/
def Slot.put (s : Slot) : Store → Slot
  | .zigzag b => { s with zigzag := b }
  | .arg n => { s with arg := n }
  | .total n => { s with total := n }
  | .wakeup n => { s with wakeup := n }
  | .blockLast n => { s with blockLast := n }
  | .completed => { s with completed := 0 }
  | .next => { s with next := 0 }
  | .blockSize n => { s with blockSize := n }
  | .cur c => { s with cur := upd s.cur c 0 }
  | .chanLast c n => { s with chanLast := upd s.chanLast c n }

/-- A call: number of elements, MaxThreads of the function, GetFutexWakeup(), the ZigZag word (threads.h:472-478, 1079-1100). -/
structure Job where
  len : Nat
  req : Int
  maxWakeup : Nat
  zz : Nat
deriving DecidableEq

/-- The values `WorkMain` computes (threads.h:1090-1129). -/
def Job.item (j : Job) : Work.Item := Work.workMainSetup j.len j.req j.maxWakeup CHUNK true j.zz

/-- The stores for the channels (threads.h:1127-1130). -/
def chanStores (it : Work.Item) : List Store :=
  (List.range (it.wakeup + 1)).flatMap fun c => [.cur c, .chanLast c (it.chanLast c)]

/-- The stores after the lock is released, in their order: _pnumpy.cpp:786, threads.h:1087, 1104, 1108, 1116, 1117, 1118, 1127-1130. -/
def stores (i : Nat) (j : Job) : List Store :=
  [.arg i, .total j.item.total, .wakeup j.item.wakeup, .blockLast j.item.blockLast, .completed, .next, .blockSize j.item.blockSize] ++
    chanStores j.item

/-- Where a thread is inside `DoWork` and, for the caller, at the barrier (threads.h:319-389, 1143-1150; as `Work.PC`). -/
inductive PC where
  | enter
  | own
  | bump (ch pos : Nat)
  | check
  | scan (i : Nat)
  | run (b len : Nat)
  | complete (b : Nat)
  | ret
  | wait
  | returned
deriving DecidableEq

/-- A kernel call: of which call, from which element on, how many elements (_pnumpy.cpp:463-473). -/
structure Run where
  call : Nat
  start : Nat
  len : Nat
deriving DecidableEq

/-- The interlocked increment of channel `i` by thread `c` (threads.h:324-328). -/
def claim (s : Slot) (i : Nat) (fail : PC) : Slot × PC :=
  ({ s with cur := upd s.cur i (s.cur i + 1) }, if s.cur i < s.chanLast i then .bump i (s.cur i) else fail)

/-- Length of block `b` (threads.h:340-352). -/
def Slot.blockLen (s : Slot) (b : Nat) : Nat :=
  if b + 1 = s.blockLast then if s.total &&& MASK ≠ 0 then s.total &&& MASK else s.blockSize else s.blockSize

/-- Block for position `pos` of channel `ch` (threads.h:331-340). -/
def Slot.logical (s : Slot) (ch pos : Nat) : Nat :=
  (if s.zigzag then s.chanLast ch - pos - 1 else pos) * (s.wakeup + 1) + ch

/-- One step of thread `c` inside an item (threads.h:319-389, 260-265, 1147, and the loop of the callback _pnumpy.cpp:449-482). A block of
length 0 counts as no block (threads.h:369, 382). -/
def go (s : Slot) (c : Nat) : PC → Slot × PC
  | .enter => (s, .own)
  | .own => claim s c .check
  | .bump ch pos =>
    let b := s.logical ch pos
    ({ s with next := s.next + 1 }, if s.blockLen b = 0 then (if ch = c then .check else .scan (ch + 1)) else .run b (s.blockLen b))
  | .check => (s, if s.blockLast ≤ s.next then .ret else .scan 0)
  | .scan i => if s.wakeup < i then (s, .ret) else if i = c then (s, .scan (i + 1)) else claim s i (.scan (i + 1))
  | .run b _ => (s, .complete b)
  | .complete _ => ({ s with completed := s.completed + 1 }, .own)
  | .ret => (s, .wait)
  | .wait => (s, if s.completed < s.blockLast then .wait else .returned)
  | .returned => (s, .returned)

/-- The kernel call a step makes: with the arguments the thread holds, and BlockSize as it is now (_pnumpy.cpp:463-473). -/
def ran (s : Slot) (arg : Nat) : PC → List Run
  | .run b len => [{ call := arg, start := s.blockSize * b, len }]
  | _ => []

/-- Where a calling thread is (threads.h:1056-1170): before the interlocked or; about to increment MainWorkIndex; about to store
ZigZag (476); about to release the lock (1069); storing (`todo` still to come); about to store Pool.WorkIndex (537); inside
`DoWork(0)` and the barrier, with the argument pointer it read; at `CompleteWorkItem` (562-578); doing everything itself. -/
inductive Thread where
  | idle
  | want (j : Job)
  | take (j : Job)
  | zig (i : Nat) (j : Job)
  | unlock (i : Nat) (j : Job)
  | fill (i : Nat) (j : Job) (todo : List Store)
  | publish (i : Nat) (j : Job)
  | inCall (i : Nat) (j : Job) (arg : Nat) (pc : PC)
  | finish (i : Nat) (j : Job)
  | serial (j : Job)
deriving DecidableEq

/-- A worker thread (threads.cpp:104-122): at the top; Pool.WorkIndex read; found larger than WorkIndexCompleted, about to look at the item
of MainWorkIndex; inside `DoWork` of slot `k`, with the argument pointer it read first (in `enter`: not yet). -/
inductive Worker where
  | top
  | cmp (wi : Nat)
  | look
  | inside (k arg : Nat) (pc : PC)
deriving DecidableEq

/-- The ring (src/atop/threads.h:428-445), the calling threads, the workers and the kernel calls made so far (newest first). -/
structure St where
  lock : Bool
  main : Nat
  poolIdx : Nat
  poolDone : Nat
  slot : Nat → Slot
  thread : Nat → Thread
  worker : Nat → Worker
  runs : List Run

/-- `stWorkerRing::Init` (threads.h:446-468): ThreadWakeup, ZigZag, WorkCallbackArg and the channels keep what the memory held (`mem`). -/
def init (mem : Nat → Slot) : St :=
  { lock := false, main := 0, poolIdx := 0, poolDone := 0,
    slot := fun k => { mem k with blockSize := 0, blockLast := 0, total := 0, next := 0, completed := 0 },
    thread := fun _ => .idle, worker := fun _ => .top, runs := [] }

/-- What can happen next: thread `t` starts an element-wise call, thread `t` or worker `w` takes its next step (threads.h:1056-1170,
threads.cpp:104-122). -/
inductive Act where
  | start (t : Nat) (j : Job)
  | thread (t : Nat)
  | worker (w : Nat)

/-- One atomic step (src/atop/threads.h:472-578, 1056-1170, src/atop/threads.cpp:104-122). -/
def step (s : St) : Act → St
  | .start t j =>
    match s.thread t with
    | .idle => { s with thread := upd s.thread t (.want j) }
    | _ => s
  | .thread t =>
    match s.thread t with
    | .idle => s
    | .want j =>
      if s.lock then { s with thread := upd s.thread t (.serial j) }
      else { s with lock := true, thread := upd s.thread t (.take j) }
    | .take j => { s with main := s.main + 1, thread := upd s.thread t (.zig (s.main + 1) j) }
    | .zig i j =>
      { s with slot := upd s.slot (i % RING) ((s.slot (i % RING)).put (.zigzag (j.zz &&& 1 == 1))), thread := upd s.thread t (.unlock i j) }
    | .unlock i j => { s with lock := false, thread := upd s.thread t (.fill i j (stores i j)) }
    | .fill i j [] => { s with thread := upd s.thread t (.publish i j) }
    | .fill i j (x :: todo) =>
      { s with slot := upd s.slot (i % RING) ((s.slot (i % RING)).put x),
               thread := upd s.thread t (if todo.isEmpty then .publish i j else .fill i j todo) }
    | .publish i j => { s with poolIdx := i, thread := upd s.thread t (.inCall i j (s.slot (i % RING)).arg .own) }
    | .inCall i j arg pc =>
      if pc = .returned then { s with thread := upd s.thread t (.finish i j) }
      else
        { s with slot := upd s.slot (i % RING) (go (s.slot (i % RING)) 0 pc).1,
                 thread := upd s.thread t (.inCall i j arg (go (s.slot (i % RING)) 0 pc).2),
                 runs := ran (s.slot (i % RING)) arg pc ++ s.runs }
    | .finish i _ => { s with poolDone := i, thread := upd s.thread t .idle }
    | .serial _ => { s with thread := upd s.thread t .idle }
  | .worker w =>
    if w = 0 then s else
    match s.worker w with
    | .top => { s with worker := upd s.worker w (.cmp s.poolIdx) }
    | .cmp wi => { s with worker := upd s.worker w (if wi > s.poolDone then .look else .top) }
    | .look =>
      let k := s.main % RING
      { s with worker := upd s.worker w (if w ≤ (s.slot k).wakeup then .inside k 0 .enter else .top) }
    | .inside k arg pc =>
      if pc = .enter then { s with worker := upd s.worker w (.inside k (s.slot k).arg .own) }
      else if pc = .ret then { s with worker := upd s.worker w .top }
      else
        { s with slot := upd s.slot k (go (s.slot k) w pc).1, worker := upd s.worker w (.inside k arg (go (s.slot k) w pc).2),
                 runs := ran (s.slot k) arg pc ++ s.runs }

/-- The state after a history (of src/atop/threads.h:428-578, 1056-1170). -/
def exec (mem : Nat → Slot) (l : List Act) : St := l.foldl step (init mem)

end Pnumpy.Fill

/-
Model of pnumpy's work distribution: `stMATH_WORKER_ITEM` and `CMathWorker::WorkMain`
(src/atop/threads.h) with any number of worker threads, as an interleaving of atomic steps.
-/
namespace Pnumpy.Work

/-- `WORK_ITEM_CHUNK` = 0x4000 (src/atop/threads.h:196). -/
def CHUNK : Nat := 0x4000
/-- `WORK_ITEM_BIG` = 4 chunks (src/atop/threads.h:199). -/
def BIG : Nat := CHUNK * 4
/-- `WORK_ITEM_MASK` (src/atop/threads.h:200). -/
def MASK : Nat := CHUNK - 1

/-- The fields of `stMATH_WORKER_ITEM` that do not change while a call is running
(src/atop/threads.h:158-252).  `chanLast i` is `WorkerChannel[i].LastBlock`.
`int64_t` quantities are unbounded naturals (counters stay far below 2^63). -/
structure Item where
  total : Nat
  blockSize : Nat
  blockLast : Nat
  wakeup : Nat
  zigzag : Bool
  chanLast : Nat → Nat

/-- Number of channels, `threads = ThreadWakeup + 1` (threads.h:322, 1122). -/
def Item.threads (it : Item) : Nat := it.wakeup + 1

/-- The set-up part of `CMathWorker::WorkMain` (src/atop/threads.h:1079-1133).
`req` is the requested wake-up count, `maxWakeup` is `GetFutexWakeup()` (kept `≥ 0`, see the
settings model), `zz` is the item's `ZigZag` word. -/
def workMainSetup (len : Nat) (req : Int) (maxWakeup blockSize : Nat) (generic : Bool) (zz : Nat) :
    Item :=
  let wakeup := if req ≤ 0 then maxWakeup else min req.toNat maxWakeup
  let blockLast := if generic then (len + (blockSize - 1)) / blockSize else len + 1
  let threads := wakeup + 1
  { total := len, blockSize := blockSize, blockLast := blockLast, wakeup := wakeup,
    zigzag := zz &&& 1 == 1,
    chanLast := fun i => blockLast / threads + if i < blockLast % threads then 1 else 0 }

/-- Length of logical block `b` (src/atop/threads.h:295-309 and 340-352). -/
def Item.blockLen (it : Item) (b : Nat) : Nat :=
  if b + 1 = it.blockLast then
    if it.total &&& MASK ≠ 0 then it.total &&& MASK else it.blockSize
  else it.blockSize

/-- The logical block for position `pos` of channel `ch`, with the zigzag reversal
(src/atop/threads.h:330-340). -/
def Item.logical (it : Item) (ch pos : Nat) : Nat :=
  (if it.zigzag then it.chanLast ch - pos - 1 else pos) * it.threads + ch

/-- Where a thread is inside `DoWork` / `GetNextWorkBlockCore` / `WorkMain` (src/atop/threads.h:319-389, 1139-1165). -/
inductive PC where
  /-- worker not (yet) inside `DoWork` (threads.cpp:104-122) -/
  | idle
  /-- about to fetch-and-add its own channel (threads.h:367 → 324) -/
  | own
  /-- got position `pos` of channel `ch`, about to increment `BlockNext` (threads.h:338) -/
  | bump (ch pos : Nat)
  /-- own channel exhausted, about to read `BlockNext` (threads.h:372) -/
  | check
  /-- about to try channel `i` in the stealing loop (threads.h:378-386) -/
  | scan (i : Nat)
  /-- the kernel is running on logical block `b` (e.g. _pnumpy.cpp:460-475) -/
  | run (b : Nat)
  /-- kernel finished block `b`, about to increment `BlocksCompleted` (threads.h:260-265) -/
  | complete (b : Nat)
  /-- `DoWork` returned -/
  | ret
  /-- caller only: spinning on `BlocksCompleted` (threads.h:1145-1151) -/
  | wait
  /-- caller only: `WorkMain` returned -/
  | returned
deriving DecidableEq, Repr

/-- Shared and per-thread state.  `bumped` and `doneL` are history variables (which blocks account
for the increments of `BlockNext` / `BlocksCompleted`); no step reads them.
`log` is the list of logical blocks on which a kernel has run, newest first (src/atop/threads.h:165-252). -/
structure St where
  cur : Nat → Nat
  blockNext : Nat
  completed : Nat
  pc : Nat → PC
  log : List Nat
  bumped : List Nat
  doneL : List Nat

/-- Change of one entry, e.g. of `WorkerChannel[]` (src/atop/threads.h:155-163). -/
def upd {β : Type} (f : Nat → β) (i : Nat) (v : β) : Nat → β := fun j => if j = i then v else f j

/-- State when `WorkMain` has published the item and enters `DoWork(0)` (threads.h:1117-1142). -/
def init : St :=
  { cur := fun _ => 0, blockNext := 0, completed := 0,
    pc := fun c => if c = 0 then .own else .idle, log := [], bumped := [], doneL := [] }

/-- Fetch-and-add on channel `i` by thread `c`; go to `fail` if it is exhausted
(src/atop/threads.h:319-328, 356-358). -/
def tryClaim (it : Item) (s : St) (c i : Nat) (fail : PC) : St :=
  { s with
    cur := upd s.cur i (s.cur i + 1)
    pc := upd s.pc c (if s.cur i < it.chanLast i then .bump i (s.cur i) else fail) }

/-- One atomic step of thread `c` (0 is the caller).  Threads with `core > ThreadWakeup` do not
take part (src/atop/threads.cpp:116).  Models src/atop/threads.h:319-389, the callback loops such as
src/pnumpy/_pnumpy.cpp:449-482, and the end of `WorkMain` (threads.h:1139-1165).
A worker whose `DoWork` returned may call it again at any time (over-approximating
threads.cpp:104-140). -/
def step (it : Item) (s : St) (c : Nat) : St :=
  if it.wakeup < c then s else
  match s.pc c with
  | .idle => { s with pc := upd s.pc c .own }
  | .own => tryClaim it s c c .check
  | .bump ch pos =>
      { s with
        blockNext := s.blockNext + 1
        pc := upd s.pc c (.run (it.logical ch pos))
        bumped := it.logical ch pos :: s.bumped }
  | .check =>
      { s with pc := upd s.pc c (if it.blockLast ≤ s.blockNext then .ret else .scan 0) }
  | .scan i =>
      if it.wakeup < i then { s with pc := upd s.pc c .ret }
      else if i = c then { s with pc := upd s.pc c (.scan (i + 1)) }
      else tryClaim it s c i (.scan (i + 1))
  | .run b => { s with pc := upd s.pc c (.complete b), log := b :: s.log }
  | .complete b =>
      { s with completed := s.completed + 1, pc := upd s.pc c .own, doneL := b :: s.doneL }
  | .ret => { s with pc := upd s.pc c (if c = 0 then .wait else .idle) }
  | .wait =>
      if s.completed < it.blockLast then s else { s with pc := upd s.pc c .returned }
  | .returned => s

/-- The state after a finite schedule (list of thread ids, in order) (of src/atop/threads.h:319-389). -/
def exec (it : Item) (sched : List Nat) : St := sched.foldl (step it) init

/-- The state after `t` steps of an infinite schedule (of src/atop/threads.h:319-389). -/
def trace (it : Item) (σ : Nat → Nat) : Nat → St
  | 0 => init
  | t + 1 => step it (trace it σ t) (σ t)

/-- Kernel invocations so far as (first element, number of elements): the callbacks offset every
pointer by `BlockSize * workBlock` elements (src/pnumpy/_pnumpy.cpp:463-473). -/
def kernelCalls (it : Item) (s : St) : List (Nat × Nat) :=
  s.log.map fun b => (it.blockSize * b, it.blockLen b)

end Pnumpy.Work

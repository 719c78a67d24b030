import Verif.Model.WorkCounter
/-
Several threads that call threaded operations at the same time (numpy releases the GIL inside ufunc loops and sorts, and a
kernel may itself start an operation): `CMathWorker::GetWorkItem`, `GetWorkItemCount`, `WorkMain`, `stWorkerRing`
(src/atop/threads.h) and the worker loop (src/atop/threads.cpp).
What happens inside an item is `Verif.Model.WorkCounter` (chunks and tasks) or `Verif.Model.WorkItem` (ufuncs).
Simplifications: the fields of an item are written in one step; one pool; a sleeping worker may look for work again at
any time (futex and spurious wake-ups); `int64_t` indices do not overflow.
-/
namespace Pnumpy.Callers
open Pnumpy.Work (upd)

/-- `RING_BUFFER_SIZE` (threads.h:430). -/
def RING : Nat := 1024

/-- What a call asks for: counter mode (threads.h:926-1006, sort.cpp:1690-1855) or ufunc mode (threads.h:319-389). -/
inductive Job where
  | counter (g : Counter.Cfg)
  | ufunc (it : Work.Item)

/-- A `stMATH_WORKER_ITEM`: the description and the running state (src/atop/threads.h:165-252). -/
inductive Item where
  | counter (g : Counter.Cfg) (st : Counter.St)
  | ufunc (it : Work.Item) (st : Work.St)

/-- The state after `WorkMain` has filled the item in (threads.h:1086-1133). -/
def Job.fresh : Job → Item
  | .counter g => .counter g Counter.init
  | .ufunc it => .ufunc it Work.init

/-- `ThreadWakeup` of the item (src/atop/threads.h:208). -/
def Item.wakeup : Item → Nat
  | .counter g _ => g.wakeup
  | .ufunc it _ => it.wakeup

/-- A step of the item's thread `c` (0: the calling thread) (src/atop/threads.h:319-389 or 926-1006). -/
def Item.go (c : Nat) : Item → Item
  | .counter g st => .counter g (Counter.step g st (.go c))
  | .ufunc it st => .ufunc it (Work.step it st c)

/-- Worker `c` enters `DoWork` (again) (src/atop/threads.cpp:111-122). -/
def Item.enter (c : Nat) : Item → Item
  | .counter g st => .counter g (Counter.step g st (.wake c))
  | .ufunc it st => .ufunc it st

/-- The caller's barrier is passed (threads.h:1144-1160). -/
def Item.returned : Item → Prop
  | .counter _ st => st.pc 0 = .returned
  | .ufunc _ st => st.pc 0 = .returned

instance (i : Item) : Decidable i.returned := by cases i <;> exact inferInstanceAs (Decidable (_ = _))

/-- Worker `c`'s `DoWork` is about to return (src/atop/threads.cpp:118-122). -/
def Item.leaving (c : Nat) : Item → Bool
  | .counter _ st => match st.pc c with | .ret _ => true | _ => false
  | .ufunc _ st => st.pc c == .ret

/-- Where a calling thread is.  `want`: in `GetWorkItem` before the interlocked or (threads.h:1065); `take lk`: about to
increment `MainWorkIndex` (threads.h:473), with (`lk`) or without (`GetWorkItemCount`, threads.h:1048) the lock; `got`:
incremented, lock not yet released (threads.h:1069); `fill`, `publish`: threads.h:1086-1139; `inCall`: `DoWork(0)` and the
barrier; `finish`: `CompleteWorkItem` (threads.h:562-578); `serial`: no item, the caller does everything itself
(threads.h:1030-1034). -/
inductive Thread where
  | idle
  | want (j : Job)
  | take (lk : Bool) (j : Job)
  | got (lk : Bool) (i : Nat) (j : Job)
  | fill (i : Nat) (j : Job)
  | publish (i : Nat) (j : Job)
  | inCall (i : Nat) (j : Job)
  | finish (i : Nat) (j : Job)
  | serial (j : Job)

/-- A worker thread: threads.cpp:104-122. `cmp`: `Pool.WorkIndex` read; `look`: about to read `MainWorkIndex`; `item k`:
inside `DoWork` of slot `k`. -/
inductive Worker where
  | top
  | cmp (wi : Nat)
  | look
  | item (k : Nat)

/-- The ring (src/atop/threads.h:428-445), the calling threads and the worker threads. -/
structure St where
  lock : Bool
  main : Nat
  poolIdx : Nat
  poolDone : Nat
  slot : Nat → Item
  thread : Nat → Thread
  worker : Nat → Worker

/-- `stWorkerRing::Init` (threads.h:446-468). -/
def init : St :=
  { lock := false, main := 0, poolIdx := 0, poolDone := 0,
    slot := fun _ => .counter { n := 0, skip0 := false, wakeup := 0 } Counter.init,
    thread := fun _ => .idle, worker := fun _ => .top }

/-- What can happen next: thread `t` starts a threaded operation (`lock`: through `GetWorkItem`; not `lock`: through
`GetWorkItemCount`), thread `t` or worker `w` takes its next step, thread `t` has its item but gets no workspace for the sort and
gives up, leaving the item as it is (src/atop/sort.cpp 2022-2024, 2151-2153).  Worker ids are `1, 2, …` as in threads.cpp:80. -/
inductive Act where
  | start (t : Nat) (lock : Bool) (j : Job)
  | thread (t : Nat)
  | worker (w : Nat)
  | giveUp (t : Nat)

/-- One atomic step (src/atop/threads.h:472-578, 1041-1076, 1079-1170 and src/atop/threads.cpp:104-122; src/atop/sort.cpp 2022-2024, 2151-2153). -/
def step (s : St) : Act → St
  | .start t lock j =>
    match s.thread t with
    | .idle => { s with thread := upd s.thread t (if lock then .want j else .take false j) }
    | _ => s
  | .thread t =>
    match s.thread t with
    | .idle => s
    | .want j =>
      if s.lock then { s with thread := upd s.thread t (.serial j) }
      else { s with lock := true, thread := upd s.thread t (.take true j) }
    | .take lk j => { s with main := s.main + 1, thread := upd s.thread t (.got lk (s.main + 1) j) }
    | .got lk i j => { s with lock := if lk then false else s.lock, thread := upd s.thread t (.fill i j) }
    | .fill i j => { s with slot := upd s.slot (i % RING) j.fresh, thread := upd s.thread t (.publish i j) }
    | .publish i j => { s with poolIdx := i, thread := upd s.thread t (.inCall i j) }
    | .inCall i j =>
      if (s.slot (i % RING)).returned then { s with thread := upd s.thread t (.finish i j) }
      else { s with slot := upd s.slot (i % RING) ((s.slot (i % RING)).go 0) }
    | .finish i _ => { s with poolDone := i, thread := upd s.thread t .idle }
    | .serial _ => { s with thread := upd s.thread t .idle }
  | .worker w =>
    if w = 0 then s else
    match s.worker w with
    | .top => { s with worker := upd s.worker w (.cmp s.poolIdx) }
    | .cmp wi => { s with worker := upd s.worker w (if wi > s.poolDone then .look else .top) }
    | .look =>
      let k := s.main % RING
      if w ≤ (s.slot k).wakeup then
        { s with slot := upd s.slot k ((s.slot k).enter w), worker := upd s.worker w (.item k) }
      else { s with worker := upd s.worker w .top }
    | .item k =>
      { s with slot := upd s.slot k ((s.slot k).go w),
               worker := upd s.worker w (if (s.slot k).leaving w then .top else .item k) }
  | .giveUp t =>
    match s.thread t with
    | .fill _ _ => { s with thread := upd s.thread t .idle }
    | _ => s

/-- The state after a history (of src/atop/threads.h:428-578, 1041-1170). -/
def exec (l : List Act) : St := l.foldl step init

end Pnumpy.Callers

import Verif.Model.Callers
/-
Settings that are changed by one Python thread (`thread_enable`, `thread_disable`, `thread_setworkers`, `thread_zigzag`,
src/pnumpy/_pnumpy.cpp:1849-1884, 1955-1966) while other threads are inside threaded operations (numpy releases the GIL there): every read of
`NoThreading`, `GlobalWorkerParams.FutexWakeCount` and `GlobalWorkerParams.ZigZag` by an operation is a step of its own, and so are the two halves of
`ZigZag ^= 1`.  The rest is `Verif.Model.Callers`: items, ring and workers.
Simplifications: those of `Verif.Model.Callers`; `FutexWakeCount` and `ZigZag` are natural numbers (they never become negative: there is at least one worker
thread, threads.cpp:662-686).
-/
namespace Pnumpy.LiveSettings
open Pnumpy.Work (upd)
open Pnumpy.Callers (Job Item Worker RING)

/-- What an operation asks for: an element-wise call of `n` elements with the function's `MaxThreads` (src/atop/threads.h:1079-1084), or `n` chunks or tasks
(threads.h:926-1034; `skip0` as in `Verif.Model.WorkCounter`). -/
inductive Call where
  | ufunc (n : Nat) (req : Int)
  | counter (n : Nat) (skip0 : Bool) (req : Int)
deriving DecidableEq

/-- `ThreadWakeup` from the request and `GetFutexWakeup()` (src/atop/threads.h:1088-1105). -/
def wakeup (req : Int) (w : Nat) : Nat := if req ≤ 0 then w else min req.toNat w

/-- The item `WorkMain` fills in, given the values read of `FutexWakeCount` and `ZigZag` (src/atop/threads.h:476, 1086-1133). -/
def Call.job (w z : Nat) : Call → Job
  | .ufunc n req => .ufunc (Work.workMainSetup n req w Work.CHUNK true z)
  | .counter n skip0 req => .counter { n := n, skip0 := skip0, wakeup := wakeup req w }

/-- Where a calling thread is.  `test`: before reading `NoThreading` (threads.h:1043, 1058); `alone`: it was set, the caller does everything itself; `want`: before
the interlocked or (1065); `take`: about to increment `MainWorkIndex` (473); `zig`: about to read `ZigZag` (476); `got`: about to release the lock (1069); `size`:
about to read `FutexWakeCount` (1088); `fill`: about to store the fields (1105-1133); `ztest`, `zload`, `zstore`: the three accesses of
`if (ZigZag) ZigZag ^= 1` (532-533); `publish`: about to store `Pool.WorkIndex` (536); `inCall`, `finish`, `serial`: as in `Verif.Model.Callers`. -/
inductive Thread where
  | idle
  | test (lk : Bool) (c : Call)
  | alone (c : Call)
  | want (c : Call)
  | take (lk : Bool) (c : Call)
  | zig (lk : Bool) (i : Nat) (c : Call)
  | got (lk : Bool) (i : Nat) (c : Call) (z : Nat)
  | size (i : Nat) (c : Call) (z : Nat)
  | fill (i : Nat) (c : Call) (w z : Nat)
  | ztest (i : Nat) (c : Call) (w z : Nat)
  | zload (i : Nat) (c : Call) (w z : Nat)
  | zstore (i : Nat) (c : Call) (w z v : Nat)
  | publish (i : Nat) (c : Call) (w z : Nat)
  | inCall (i : Nat) (c : Call) (w z : Nat)
  | finish (i : Nat) (c : Call) (w z : Nat)
  | serial (c : Call)
deriving DecidableEq

/-- The ring, the threads (src/atop/threads.h:428-445) and the settings (threads.h:414-417, 665).  `toggle`: a thread is inside `thread_zigzag` and has found the
flag zero or not (src/pnumpy/_pnumpy.cpp:1958); `answers`: what the `thread_zigzag` calls have returned, the latest first. -/
structure St where
  lock : Bool
  main : Nat
  poolIdx : Nat
  poolDone : Nat
  slot : Nat → Item
  thread : Nat → Thread
  worker : Nat → Worker
  noThreading : Bool
  wake : Nat
  zigzag : Nat
  toggle : Option Bool
  answers : List Bool

/-- After `import pnumpy` with `W` worker threads (src/atop/threads.h:414-417, 446-468, 685, 891-894). -/
def init (W : Nat) : St :=
  { lock := false, main := 0, poolIdx := 0, poolDone := 0, slot := Callers.init.slot, thread := fun _ => .idle, worker := fun _ => .top,
    noThreading := false, wake := min 11 (W - 1), zigzag := 0, toggle := none, answers := [] }

/-- What can happen: `thread_enable`/`thread_disable` (src/pnumpy/_pnumpy.cpp:1849-1858), `thread_setworkers(k)` (1872-1884), the read and the write of
`thread_zigzag` (1958-1963; the GIL is held, so there is one such call at a time); thread `t` starts an operation, takes its next step, or gives up for lack of
memory; worker `w` takes its next step. -/
inductive Act where
  | enable
  | disable
  | setWorkers (k : Int)
  | zigRead
  | zigWrite
  | start (t : Nat) (lock : Bool) (c : Call)
  | thread (t : Nat)
  | worker (w : Nat)
  | giveUp (t : Nat)
deriving DecidableEq

/-- `SetFutexWakeup` (src/atop/threads.h:852-872). -/
def clamp (W : Nat) (k : Int) : Nat := min (min (max k 1).toNat 15) (W - 1)

/-- One step of a calling thread (src/atop/threads.h:472-537, 1041-1170). -/
def stepThread (s : St) (t : Nat) : St :=
  match s.thread t with
  | .idle => s
  | .test lk c => { s with thread := upd s.thread t (if s.noThreading then .alone c else if lk then .want c else .take false c) }
  | .alone _ => { s with thread := upd s.thread t .idle }
  | .want c =>
    if s.lock then { s with thread := upd s.thread t (.serial c) }
    else { s with lock := true, thread := upd s.thread t (.take true c) }
  | .take lk c => { s with main := s.main + 1, thread := upd s.thread t (.zig lk (s.main + 1) c) }
  | .zig lk i c => { s with thread := upd s.thread t (.got lk i c s.zigzag) }
  | .got lk i c z => { s with lock := if lk then false else s.lock, thread := upd s.thread t (.size i c z) }
  | .size i c z => { s with thread := upd s.thread t (.fill i c s.wake z) }
  | .fill i c w z => { s with slot := upd s.slot (i % RING) (c.job w z).fresh, thread := upd s.thread t (.ztest i c w z) }
  | .ztest i c w z => { s with thread := upd s.thread t (if s.zigzag ≠ 0 then .zload i c w z else .publish i c w z) }
  | .zload i c w z => { s with thread := upd s.thread t (.zstore i c w z (s.zigzag ^^^ 1)) }
  | .zstore i c w z v => { s with zigzag := v, thread := upd s.thread t (.publish i c w z) }
  | .publish i c w z => { s with poolIdx := i, thread := upd s.thread t (.inCall i c w z) }
  | .inCall i c w z =>
    if (s.slot (i % RING)).returned then { s with thread := upd s.thread t (.finish i c w z) }
    else { s with slot := upd s.slot (i % RING) ((s.slot (i % RING)).go 0) }
  | .finish i _ _ _ => { s with poolDone := i, thread := upd s.thread t .idle }
  | .serial _ => { s with thread := upd s.thread t .idle }

/-- One step of a worker thread (src/atop/threads.cpp:104-122). -/
def stepWorker (s : St) (w : Nat) : St :=
  if w = 0 then s else
  match s.worker w with
  | .top => { s with worker := upd s.worker w (.cmp s.poolIdx) }
  | .cmp wi => { s with worker := upd s.worker w (if wi > s.poolDone then .look else .top) }
  | .look =>
    let k := s.main % RING
    if w ≤ (s.slot k).wakeup then
      { s with slot := upd s.slot k ((s.slot k).enter w), worker := upd s.worker w (.item k) }
    else { s with worker := upd s.worker w .top }
  | .item k =>
    { s with slot := upd s.slot k ((s.slot k).go w),
             worker := upd s.worker w (if (s.slot k).leaving w then .top else .item k) }

/-- One step (src/pnumpy/_pnumpy.cpp:1849-1884, 1955-1966; src/atop/threads.h:1041-1170; src/atop/sort.cpp 2022-2024, 2151-2153 for `giveUp`). -/
def step (W : Nat) (s : St) : Act → St
  | .enable => { s with noThreading := false }
  | .disable => { s with noThreading := true }
  | .setWorkers k => { s with wake := clamp W k }
  | .zigRead => match s.toggle with
    | none => { s with toggle := some (s.zigzag == 0) }
    | some _ => s
  | .zigWrite => match s.toggle with
    | none => s
    | some b => { s with zigzag := if b then 3 else 0, toggle := none, answers := b :: s.answers }
  | .start t lk c =>
    match s.thread t with
    | .idle => { s with thread := upd s.thread t (.test lk c) }
    | _ => s
  | .thread t => stepThread s t
  | .worker w => stepWorker s w
  | .giveUp t =>
    match s.thread t with
    | .size _ _ _ => { s with thread := upd s.thread t .idle }
    | _ => s

/-- The state after a history (of the calls of src/pnumpy/_pnumpy.cpp:1849-1966 and src/atop/threads.h:1041-1170). -/
def exec (W : Nat) (l : List Act) : St := l.foldl (step W) (init W)

end Pnumpy.LiveSettings

import Verif.Model.WorkItem
/-
Model of the hand-over of work items between the calling thread and the workers through the ring
(`stWorkerRing`, src/atop/threads.h:426-578, and `WorkerThreadFunction`, src/atop/threads.cpp:75-191).
Only the hand-over is modelled here: which call a worker executes, and whether that call had been
published.  What happens inside a published call is `Verif.Model.WorkItem`.
-/
namespace Pnumpy.Ring
open Pnumpy.Work (upd)

/-- `RING_BUFFER_SIZE` (threads.h:430). -/
def RING : Nat := 1024

/-- Where the calling thread is.  `taken`: `GetWorkItem` handed out the slot (threads.h:472-478).
`filled`: callback, arguments and all fields of the slot are written (e.g. _pnumpy.cpp:775-790 and
threads.h:1086-1133).  `published`: `Pool[..].WorkIndex` stored (threads.h:537).  After the barrier
`CompleteWorkItem` stores `WorkIndexCompleted` (threads.h:562-578) and the caller is `idle` again. -/
inductive Caller where
  | idle | taken | filled | published
deriving DecidableEq, Repr

/-- Where a worker is in its loop (threads.cpp:104-122): about to read `Pool.WorkIndex`; about to
read `WorkIndexCompleted` holding the first value; about to look at
`WorkerQueue[MainWorkIndex & MASK]`.  `epoch` is a history variable: the value of
`WorkIndexCompleted` when the iteration began. -/
inductive Worker where
  | top
  | cmp (wi epoch : Nat)
  | get (epoch : Nat)
deriving DecidableEq, Repr

/-- One execution of a slot by a worker: `call` is the call whose description was found in the slot
(0: the slot was never written), `main` the value of `MainWorkIndex`, `pub` whether the slot's call
was published, `epoch`/`doneNow` history: completed calls when the iteration began / now (src/atop/threads.cpp:111-122). -/
structure Run where
  call : Nat
  main : Nat
  pub : Bool
  epoch : Nat
  doneNow : Nat
deriving DecidableEq, Repr

/-- The ring, the calling thread and the workers (src/atop/threads.h:428-445). -/
structure St where
  caller : Caller
  mainIdx : Nat
  poolIdx : Nat
  poolDone : Nat
  slot : Nat → Nat
  worker : Nat → Worker
  runs : List Run

/-- `stWorkerRing::Init` (threads.h:446-468). -/
def init : St :=
  { caller := .idle, mainIdx := 0, poolIdx := 0, poolDone := 0, slot := fun _ => 0,
    worker := fun _ => .top, runs := [] }

/-- Who takes the next step (src/atop/threads.h:472-578, src/atop/threads.cpp:104-165). -/
inductive Act where
  | caller
  | worker (w : Nat)
deriving DecidableEq, Repr

/-- One atomic step.  `workIndex & RING_BUFFER_MASK` is `% 1024`.  A worker for which the comparison
fails sleeps and later starts over (threads.cpp:133-165). -/
def step (s : St) : Act → St
  | .caller =>
    match s.caller with
    | .idle => { s with caller := .taken, mainIdx := s.mainIdx + 1 }
    | .taken => { s with caller := .filled, slot := upd s.slot (s.mainIdx % RING) s.mainIdx }
    | .filled => { s with caller := .published, poolIdx := s.mainIdx }
    | .published => { s with caller := .idle, poolDone := s.mainIdx }
  | .worker w =>
    match s.worker w with
    | .top => { s with worker := upd s.worker w (.cmp s.poolIdx s.poolDone) }
    | .cmp wi e =>
        { s with worker := upd s.worker w (if wi > s.poolDone then .get e else .top) }
    | .get e =>
        { s with
          worker := upd s.worker w .top
          runs := { call := s.slot (s.mainIdx % RING), main := s.mainIdx,
                    pub := s.caller == .published || s.caller == .idle, epoch := e,
                    doneNow := s.poolDone } :: s.runs }

/-- The state after a history of these steps (src/atop/threads.h:472-578, src/atop/threads.cpp:104-165). -/
def exec (l : List Act) : St := l.foldl step init

end Pnumpy.Ring

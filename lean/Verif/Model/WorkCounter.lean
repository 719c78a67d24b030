import Verif.Model.WorkItem
/-
Model of the second dispatch path: all threads draw tickets from the one shared counter
`BlockNext` (`GetNextWorkBlock`, `GetNextWorkIndex`; src/atop/threads.h:254-313), used by
`MultiThreadedChunkCallback`, `MultiThreadedCounterCallback` (threads.h:926-1006), `GetItemCallback`
(src/pnumpy/getitem.cpp:881-924) and the parallel sort callbacks (src/atop/sort.cpp:1690-1855).
-/
namespace Pnumpy.Counter
open Pnumpy.Work (upd)

/-- A call in counter mode.  `n` tasks; `skip0 = false` is chunk mode (`GetNextWorkBlock`,
`BlockLast = n`), `skip0 = true` is index mode (`GetNextWorkIndex`, `BlockLast = n + 1`,
threads.h:1112-1116).  `wakeup` is `ThreadWakeup`. -/
structure Cfg where
  n : Nat
  skip0 : Bool
  wakeup : Nat

/-- What drawing ticket `k` yields.  Chunk mode: block `k` if `k < BlockLast` (threads.h:288-313).
Index mode: `GetNextWorkIndex` returns the ticket itself, so ticket 0 is indistinguishable from
"no work" (threads.h:271-282), and the callbacks subtract one (threads.h:935-937, sort.cpp:1699-1701). -/
def Cfg.task (g : Cfg) (k : Nat) : Option Nat :=
  if g.skip0 then
    if k < g.n + 1 then (if k = 0 then none else some (k - 1)) else none
  else if k < g.n then some k else none

/-- Where a thread is: in the callback loops (threads.h:926-948, 986-1006), asleep (threads.cpp:133-165), at the barrier (threads.h:1144-1160). -/
inductive PC where
  | idle
  | fetch (did : Bool)
  | run (b : Nat)
  | complete (b : Nat)
  | ret (did : Bool)
  | asleep
  | wait
  | returned
deriving DecidableEq, Repr

/-- Shared state; `log`, `doneL`, `zeroBy` are history variables (threads.h:165-252). -/
structure St where
  next : Nat
  completed : Nat
  pc : Nat → PC
  log : List Nat
  doneL : List Nat
  zeroBy : Option Nat

/-- State when the call is published (threads.h:1105-1142). -/
def init : St :=
  { next := 0, completed := 0, pc := fun c => if c = 0 then .fetch false else .idle,
    log := [], doneL := [], zeroBy := none }

/-- Scheduler actions: thread `c` takes its next atomic step, or a worker sleeping on the futex is
woken spuriously (threads.h:926-1006, threads.cpp:104-165). -/
inductive Act where
  | go (c : Nat)
  | wake (c : Nat)
deriving DecidableEq, Repr

/-- One atomic step.  Loops: threads.h:926-948, 986-1006.  `BlocksCompleted` barrier:
threads.h:1144-1160 (target `BlockLast` in chunk mode, `len` in index mode: `n` both times).
A worker that did some work re-enters, one that did none sleeps on the futex
(src/atop/threads.cpp:104-165).  Threads with `core > ThreadWakeup` take no part (threads.cpp:116). -/
def step (g : Cfg) (s : St) : Act → St
  | .wake c => if s.pc c = .asleep ∧ c ≠ 0 then { s with pc := upd s.pc c .idle } else s
  | .go c =>
    if g.wakeup < c then s else
    match s.pc c with
    | .idle => { s with pc := upd s.pc c (.fetch false) }
    | .fetch did =>
        { s with
          next := s.next + 1
          zeroBy := if s.next = 0 then some c else s.zeroBy
          pc := upd s.pc c (match g.task s.next with
                            | some b => .run b
                            | none => .ret did) }
    | .run b => { s with pc := upd s.pc c (.complete b), log := b :: s.log }
    | .complete b =>
        { s with completed := s.completed + 1, pc := upd s.pc c (.fetch true), doneL := b :: s.doneL }
    | .ret did =>
        { s with pc := upd s.pc c (if c = 0 then .wait else if did then .fetch false else .asleep) }
    | .asleep => s
    | .wait => if s.completed < g.n then s else { s with pc := upd s.pc c .returned }
    | .returned => s

/-- The state after a finite schedule (threads.h:926-1006, 1144-1160). -/
def exec (g : Cfg) (sched : List Act) : St := sched.foldl (step g) init

/-- The state after `t` steps of an infinite schedule (threads.h:926-1006, 1144-1160). -/
def trace (g : Cfg) (σ : Nat → Act) : Nat → St
  | 0 => init
  | t + 1 => step g (trace g σ t) (σ t)

end Pnumpy.Counter

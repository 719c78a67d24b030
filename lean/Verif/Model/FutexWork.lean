import Verif.Model.Futex
import Verif.Model.WorkItem
/-
Waking of the worker threads on Linux around one element-wise call (the ufuncs; `Verif.Model.WorkItem`): `SetWorkItem`,
`WakeupWorkItem` (src/atop/threads.h:485-556) and the sleeping part of `WorkerThreadFunction` (src/atop/threads.cpp:75-191).
Like `Verif.Model.Futex`, which does the same for the calls that draw tickets from one counter.  `didSomeWork` of the callback
(src/pnumpy/_pnumpy.cpp:449-482) is kept per worker.  Same simplifications: the pools are written in one step and woken in one
step; `Cancelled` is not set; a worker still leaving an earlier call counts as `top`.
-/
namespace Pnumpy.FutexWork
open Pnumpy.Work (upd)
open Pnumpy.Futex (Worker Phase Act notified Before)

/-- `workers`: `WorkerThreadCount`; `it`: the call; `it.wakeup` is `ThreadWakeup` (src/atop/threads.h:208, 652). -/
structure Cfg where
  workers : Nat
  it : Work.Item

/-- Caller phase, workers, what each has done since it entered, and the work item (src/atop/threads.h:428-556,
src/pnumpy/_pnumpy.cpp:450). -/
structure St where
  phase : Phase
  worker : Nat → Worker
  did : Nat → Bool
  item : Work.St

/-- `Pool[pool].WorkIndex` is the new index, for worker `c` (src/atop/threads.h:536-555, threads.cpp:83). -/
def fresh (k : Cfg) (s : St) (c : Nat) : Bool := s.phase != .publish && notified k.it.wakeup (c / 4)

/-- The sleeping workers of pool 0 (cores 1, 2, 3) (src/atop/threads.cpp:83, 159-165). -/
def sleepers0 (k : Cfg) (s : St) : List Nat := [1, 2, 3].filter fun c => c ≤ k.workers && s.worker c == .asleep

/-- What `FUTEX_WAKE` may do: as `Futex.Legal` (src/atop/threads.h:536-555). -/
def Legal (k : Cfg) (s : St) (S : Nat → Bool) : Prop :=
  (∀ c, S c = true → 1 ≤ c ∧ c ≤ k.workers ∧ s.worker c = .asleep ∧ notified k.it.wakeup (c / 4) = true) ∧
  ((sleepers0 k s).filter fun c => S c).length = min (min k.it.wakeup 3) (sleepers0 k s).length ∧
  ∀ c, 4 ≤ c → c ≤ k.workers → s.worker c = .asleep → notified k.it.wakeup (c / 4) = true → S c = true

/-- The callback has counted this step of the thread (`didSomeWork++`, src/pnumpy/_pnumpy.cpp:470). -/
def counted : Work.PC → Bool
  | .complete _ => true
  | _ => false

/-- One atomic step.  An illegal choice of `S` is no step (src/atop/threads.h:526-556, src/atop/threads.cpp:104-170). -/
noncomputable def step (k : Cfg) (s : St) : Act → St
  | .caller S =>
    match s.phase with
    | .publish => { s with phase := .wake }
    | .wake =>
      open Classical in
      if Legal k s S then { s with phase := .work, worker := fun c => if S c then .top else s.worker c } else s
    | .work => { s with item := Work.step k.it s.item 0 }
  | .worker c =>
    if c = 0 ∨ k.workers < c then s else
    match s.worker c with
    | .top =>
      if fresh k s c then
        if c ≤ k.it.wakeup then
          { s with worker := upd s.worker c .work, did := upd s.did c false, item := Work.step k.it s.item c }
        else { s with worker := upd s.worker c (.wait true) }
      else { s with worker := upd s.worker c (.wait false) }
    | .wait f => { s with worker := upd s.worker c (if f = fresh k s c then .asleep else .top) }
    | .asleep => s
    | .work =>
      { s with
        item := Work.step k.it s.item c
        did := upd s.did c (s.did c || counted (s.item.pc c))
        worker := upd s.worker c (if s.item.pc c = .ret then (if s.did c then .top else .wait true) else .work) }
  | .spurious c =>
    if c ≠ 0 ∧ s.worker c = .asleep then { s with worker := upd s.worker c .top } else s

/-- The state when the item is filled in but not published; `w`: where the workers are (src/atop/threads.h:1086-1137). -/
def start (w : Nat → Worker) : St := { phase := .publish, worker := w, did := fun _ => false, item := Work.init }

/-- The state after a finite schedule (src/atop/threads.h:526-556, src/atop/threads.cpp:104-170). -/
noncomputable def exec (k : Cfg) (w : Nat → Worker) (l : List Act) : St := l.foldl (step k) (start w)

/-- The state after `t` steps of an infinite schedule (same lines: src/atop/threads.h:526-556, src/atop/threads.cpp:104-170). -/
noncomputable def trace (k : Cfg) (w : Nat → Worker) (σ : Nat → Act) : Nat → St
  | 0 => start w
  | t + 1 => step k (trace k w σ t) (σ t)

end Pnumpy.FutexWork

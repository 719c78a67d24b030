import Verif.Model.WorkCounter
/-
Waking of the worker threads on Linux: `SetWorkItem`, `WakeupWorkItem` (src/atop/threads.h:485-556) and the sleeping part of
`WorkerThreadFunction` (src/atop/threads.cpp:75-191), around one call in counter mode (`Verif.Model.WorkCounter`).
The workers start in any state in which earlier calls can leave them.  A worker still leaving an earlier call counts as
`top`.  Simplifications: the pools are written in one step and woken in one step; `Cancelled` is not set.
-/
namespace Pnumpy.Futex
open Pnumpy.Work (upd)

/-- `workers`: `WorkerThreadCount`, `g`: the call; `g.wakeup` is `ThreadWakeup` (src/atop/threads.h:208, 652). -/
structure Cfg where
  workers : Nat
  g : Counter.Cfg

/-- Where a worker is in its loop.  `top`: about to read `Pool.WorkIndex` (threads.cpp:108); `wait fresh`: about to call
`FUTEX_WAIT` (threads.cpp:162), having read the index of the new call (`fresh`) or an older one; `asleep`: in the futex queue;
`work`: inside `DoWork`. -/
inductive Worker where
  | top
  | wait (fresh : Bool)
  | asleep
  | work
deriving DecidableEq, Repr

/-- The caller: before `Pool[..].WorkIndex = workIndex` (threads.h:537), before the wake-up, in `DoWork(0)` and the barrier. -/
inductive Phase where
  | publish
  | wake
  | work
deriving DecidableEq, Repr

/-- Caller phase, workers and the work item (src/atop/threads.h:428-556). -/
structure St where
  phase : Phase
  worker : Nat → Worker
  item : Counter.St

/-- `SetWorkItem` tells the pool about the call (threads.h:536-555): pool 0 always, the others when `ThreadWakeup` exceeds
3, 7, 11. -/
def notified (T pool : Nat) : Bool := pool == 0 || (pool == 1 && 3 < T) || (pool == 2 && 7 < T) || (pool == 3 && 11 < T)

/-- `Pool[pool].WorkIndex` is the new index, for worker `c` (pool `core / MAX_WORKER_CHANNEL`, threads.cpp:83). -/
def fresh (k : Cfg) (s : St) (c : Nat) : Bool := s.phase != .publish && notified k.g.wakeup (c / 4)

/-- The sleeping workers of pool 0 (cores 1, 2, 3) (src/atop/threads.cpp:83, 159-165). -/
def sleepers0 (k : Cfg) (s : St) : List Nat := [1, 2, 3].filter fun c => c ≤ k.workers && s.worker c == .asleep

/-- What `FUTEX_WAKE` may do: it wakes only sleepers, of pool 0 as many as asked for (`ThreadWakeup` if at most 3, else 3;
threads.h:538, 554) or all if there are fewer, whichever the kernel picks; of a further pool 4, i.e. all. -/
def Legal (k : Cfg) (s : St) (S : Nat → Bool) : Prop :=
  (∀ c, S c = true → 1 ≤ c ∧ c ≤ k.workers ∧ s.worker c = .asleep ∧ notified k.g.wakeup (c / 4) = true) ∧
  ((sleepers0 k s).filter fun c => S c).length = min (min k.g.wakeup 3) (sleepers0 k s).length ∧
  ∀ c, 4 ≤ c → c ≤ k.workers → s.worker c = .asleep → notified k.g.wakeup (c / 4) = true → S c = true

/-- Who takes a step; `S`: whom the futex wakes, if the caller is about to wake. `spurious`: a sleeper wakes up by itself
(allowed by the futex interface) (src/atop/threads.h:500-556). -/
inductive Act where
  | caller (S : Nat → Bool)
  | worker (c : Nat)
  | spurious (c : Nat)

/-- One atomic step.  An illegal choice of `S` is no step (src/atop/threads.h:526-556, src/atop/threads.cpp:104-170). -/
noncomputable def step (k : Cfg) (s : St) : Act → St
  | .caller S =>
    match s.phase with
    | .publish => { s with phase := .wake }
    | .wake =>
      open Classical in
      if Legal k s S then { s with phase := .work, worker := fun c => if S c then .top else s.worker c } else s
    | .work => { s with item := Counter.step k.g s.item (.go 0) }
  | .worker c =>
    if c = 0 ∨ k.workers < c then s else
    match s.worker c with
    | .top =>
      if fresh k s c then
        if c ≤ k.g.wakeup then { s with worker := upd s.worker c .work, item := Counter.step k.g s.item (.wake c) }
        else { s with worker := upd s.worker c (.wait true) }
      else { s with worker := upd s.worker c (.wait false) }
    | .wait f => { s with worker := upd s.worker c (if f = fresh k s c then .asleep else .top) }
    | .asleep => s
    | .work =>
      { s with
        item := Counter.step k.g s.item (.go c)
        worker := upd s.worker c (match s.item.pc c with
                                  | .ret true => .top
                                  | .ret false => .wait true
                                  | _ => .work) }
  | .spurious c =>
    if c ≠ 0 ∧ s.worker c = .asleep then { s with worker := upd s.worker c .top } else s

/-- The state when the item is filled in but not published; `w`: where the workers are (src/atop/threads.h:1086-1137). -/
def start (w : Nat → Worker) : St := { phase := .publish, worker := w, item := Counter.init }

/-- Where earlier calls can leave the workers (src/atop/threads.cpp:104-170). -/
def Before (w : Nat → Worker) : Prop := ∀ c, w c = .top ∨ w c = .wait false ∨ w c = .asleep

/-- The state after a finite schedule (src/atop/threads.h:526-556, src/atop/threads.cpp:104-170). -/
noncomputable def exec (k : Cfg) (w : Nat → Worker) (l : List Act) : St := l.foldl (step k) (start w)

/-- The state after `t` steps of an infinite schedule (same lines: src/atop/threads.h:526-556, src/atop/threads.cpp:104-170). -/
noncomputable def trace (k : Cfg) (w : Nat → Worker) (σ : Nat → Act) : Nat → St
  | 0 => start w
  | t + 1 => step k (trace k w σ t) (σ t)

end Pnumpy.Futex

import Verif.Model.Futex
/-
Waking of the worker threads on macOS and Windows: the other branches of `WakeupWorkItem` (src/atop/threads.h:485-518), `SetWorkItem`
(src/atop/threads.h:526-556) and of the sleeping part of `WorkerThreadFunction` (src/atop/threads.cpp:75-191), around one call in
counter mode (`Verif.Model.WorkCounter`).  The workers start in any state in which earlier calls can leave them (`Futex.Before`).
A worker still leaving an earlier call counts as `top`.  Simplifications: `Cancelled` is not set; the mutex of the condition variable is
held only around the wait itself, so that locking it, waiting and unlocking it after waking are one step each with their neighbours.
-/
namespace Pnumpy.OtherOs
open Pnumpy.Work (upd)
open Pnumpy.Futex (Worker)

/-- The branches: macOS (src/atop/threads.h:511-515, src/atop/threads.cpp:166-171), Windows with `WaitOnAddress`
(threads.h:487-504, threads.cpp:143-156), Windows without it (`g_WaitAddress == NULL`, threads.cpp:138-141). -/
inductive Os where
  | mac
  | windows
  | windows7
deriving DecidableEq, Repr

/-- `workers`: `WorkerThreadCount`, `g`: the call; `g.wakeup` is `ThreadWakeup` (src/atop/threads.h:208, 652). -/
structure Cfg where
  os : Os
  workers : Nat
  g : Counter.Cfg

/-- The pools `SetWorkItem` notifies: pool 0 always, the others when `ThreadWakeup` exceeds 3, 7, 11 (src/atop/threads.h:536-555). -/
def pools (T : Nat) : Nat := 1 + (if 3 < T then 1 else 0) + (if 7 < T then 1 else 0) + (if 11 < T then 1 else 0)

/-- `phase`: the steps the caller has made in `SetWorkItem`: `2 * p` before `Pool[p].WorkIndex = workIndex`, `2 * p + 1` before
`WakeupWorkItem(p, ..)`, `2 * pools` in `DoWork(0)` and the barrier (src/atop/threads.h:536-555, 1137-1160). -/
structure St where
  phase : Nat
  worker : Nat → Worker
  item : Counter.St

/-- `Pool[core / MAX_WORKER_CHANNEL].WorkIndex` is the new index (src/atop/threads.cpp:83, 108). -/
def fresh (s : St) (c : Nat) : Bool := decide (c / 4 < (s.phase + 1) / 2)

/-- Whom `WakeupWorkItem(s.phase / 2, ..)` wakes: on macOS everybody who waits for the one condition variable (src/atop/threads.h:515), on Windows
everybody who waits at the address of this pool (threads.h:502), without `WaitOnAddress` nobody (threads.h:489). -/
def woken (k : Cfg) (s : St) (c : Nat) : Bool :=
  s.worker c == .asleep && (match k.os with
    | .mac => true
    | .windows => c / 4 == s.phase / 2
    | .windows7 => false)

/-- Who takes a step. `spurious`: a sleeper wakes up by itself: a spurious wake-up of the condition variable, the timeout of `WaitOnAddress`,
the end of `Sleep` (src/atop/threads.cpp:138-171). -/
inductive Act where
  | caller
  | worker (c : Nat)
  | spurious (c : Nat)
deriving DecidableEq, Repr

/-- What a worker about to wait does: `WaitOnAddress` sleeps if the value is still the one it has seen, the other two sleep in any case
(src/atop/threads.cpp:138-171). -/
def goSleep (k : Cfg) (s : St) (c : Nat) (f : Bool) : Worker :=
  match k.os with
  | .windows => if f = fresh s c then .asleep else .top
  | _ => .asleep

/-- One atomic step (src/atop/threads.h:526-556, src/atop/threads.cpp:104-171). -/
def step (k : Cfg) (s : St) : Act → St
  | .caller =>
    if s.phase < 2 * pools k.g.wakeup then
      if s.phase % 2 = 0 then { s with phase := s.phase + 1 }
      else { s with phase := s.phase + 1, worker := fun c => if woken k s c then .top else s.worker c }
    else { s with item := Counter.step k.g s.item (.go 0) }
  | .worker c =>
    if c = 0 ∨ k.workers < c then s else
    match s.worker c with
    | .top =>
      if fresh s c then
        if c ≤ k.g.wakeup then { s with worker := upd s.worker c .work, item := Counter.step k.g s.item (.wake c) }
        else { s with worker := upd s.worker c (.wait true) }
      else { s with worker := upd s.worker c (.wait false) }
    | .wait f => { s with worker := upd s.worker c (goSleep k s c f) }
    | .asleep => s
    | .work =>
      { s with
        item := Counter.step k.g s.item (.go c)
        worker := upd s.worker c (match s.item.pc c with
                                  | .ret true => .top
                                  | .ret false => .wait true
                                  | _ => .work) }
  | .spurious c =>
    if c ≠ 0 ∧ s.worker c = .asleep then { s with worker := upd s.worker c .top } else s

/-- The state when the item is filled in but not published; `w`: where the workers are (src/atop/threads.h:1086-1137). -/
def start (w : Nat → Worker) : St := { phase := 0, worker := w, item := Counter.init }

/-- The state after a finite schedule (src/atop/threads.h:526-556, src/atop/threads.cpp:104-171). -/
def exec (k : Cfg) (w : Nat → Worker) (l : List Act) : St := l.foldl (step k) (start w)

/-- The state after `t` steps of an infinite schedule (same lines: src/atop/threads.h:526-556, src/atop/threads.cpp:104-171). -/
def trace (k : Cfg) (w : Nat → Worker) (σ : Nat → Act) : Nat → St
  | 0 => start w
  | t + 1 => step k (trace k w σ t) (σ t)

end Pnumpy.OtherOs

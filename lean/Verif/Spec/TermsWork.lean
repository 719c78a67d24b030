import Verif.Model.WorkItem
import Verif.Model.WorkCounter
import Verif.Model.Futex
import Verif.Model.Callers
import Verif.Model.Tso
/-
Words used in the property statements about threaded calls: who is in the middle of a task, fair schedules, progress.
-/
namespace Pnumpy.Work

/-- The thread is between claiming a block and reporting it complete. -/
def PC.busy : PC → Bool
  | .bump _ _ => true
  | .run _ => true
  | .complete _ => true
  | _ => false

end Pnumpy.Work

namespace Pnumpy.Counter

/-- between drawing a task and reporting it complete -/
def PC.busy : PC → Bool
  | .run _ => true
  | .complete _ => true
  | _ => false

/-- Fairness: the caller keeps running and a thread in the middle of a task eventually runs. -/
def Fair (g : Cfg) (σ : Nat → Act) : Prop :=
  (∀ t, ∃ t', t ≤ t' ∧ σ t' = .go 0) ∧
  (∀ t c, ((trace g σ t).pc c).busy = true → ∃ t', t ≤ t' ∧ σ t' = .go c)

end Pnumpy.Counter

namespace Pnumpy.Futex

/-- A run in which the caller and every worker keep being scheduled and the futex wakes as it must. -/
structure Fair (k : Cfg) (w : Nat → Worker) (σ : Nat → Act) : Prop where
  caller : ∀ t, ∃ t', t ≤ t' ∧ ∃ S, σ t' = .caller S ∧ ((trace k w σ t').phase = .wake → Legal k (trace k w σ t') S)
  worker : ∀ c, 1 ≤ c → c ≤ k.workers → ∀ t, ∃ t', t ≤ t' ∧ σ t' = .worker c

end Pnumpy.Futex

namespace Pnumpy.Callers

/-- The thread owns the lock. -/
def Thread.holds : Thread → Prop
  | .take lk _ => lk = true
  | .got lk _ _ => lk = true
  | _ => False

/-- The work index a thread has been given. -/
def Thread.idx : Thread → Option Nat
  | .got _ i _ => some i
  | .fill i _ => some i
  | .publish i _ => some i
  | .inCall i _ => some i
  | .finish i _ => some i
  | _ => none

/-- Fewer than 1024 operations have been started since each one in progress. -/
def Calm (s : St) : Prop := ∀ t i, (s.thread t).idx = some i → s.main < i + RING

/-- A history in which never 1024 operations are started while one is in progress. -/
def CalmHistory (l : List Act) : Prop := ∀ p, p <+: l → Calm (exec p)

/-- The states of an infinite run: any number of threads and workers, steps in the order `σ`. -/
def states (σ : Nat → Act) : Nat → St
  | 0 => init
  | n + 1 => step (states σ n) (σ n)

/-- The operation a thread is in the middle of. -/
def Thread.job : Thread → Option Job
  | .idle => none
  | .want j => some j
  | .take _ j => some j
  | .got _ _ j => some j
  | .fill _ j => some j
  | .publish _ j => some j
  | .inCall _ j => some j
  | .finish _ j => some j
  | .serial j => some j

end Pnumpy.Callers

namespace Pnumpy.Tso
open Work
variable {V : Type} [DecidableEq V]

/-- The state after `t` steps of an infinite schedule. -/
def trace (it : Item) (job : Job V) (mem0 : Nat → V) (before : List (Nat × V)) (flag : Nat × V) (σ : Nat → Act) : Nat → St V
  | 0 => init mem0 before flag
  | t + 1 => step it job flag (trace it job mem0 before flag σ t) (σ t)

end Pnumpy.Tso

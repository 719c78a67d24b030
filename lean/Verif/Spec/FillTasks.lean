import Verif.Model.FillTasks
/-
Words for C112: the finished parts of a sort, undisturbed writing of items, fewer than 1024 sorts during one.
-/
namespace Pnumpy.FillTasks

/-- The parts of sort number `i` that some thread has finished, one entry for each time. -/
def St.parts (s : St) (i : Nat) : List Nat := (s.runs.filter fun r => r.1 == i).map fun r => r.2

/-- Worker `w` is in the middle of sorting or merging a part of sort number `i`. -/
def St.busy (s : St) (i w : Nat) : Prop := ∃ k b, s.worker w = .inside k i (.run b)

/-- The sort a thread is in the middle of (its number), once it has one. -/
def Thread.idx : Thread → Option Nat
  | .unlock i _ => some i
  | .fill i _ _ => some i
  | .publish i _ => some i
  | .inCall i _ _ _ => some i
  | .finish i _ => some i
  | _ => none

/-- The sort whose item the thread is writing: it has the number, and not all stores are done. -/
def Thread.writing : Thread → Option Nat
  | .unlock i _ => some i
  | .fill i _ _ => some i
  | _ => none

/-- The step is not one of a worker that looks at the newest item while that item is being written, and not one of a thread that takes a
place of the ring in which a worker still is. -/
def Undisturbed (s : St) : Act → Prop
  | .worker w => s.worker w = .look → ∀ t, (s.thread t).writing ≠ some s.main
  | .thread t => ∀ j, s.thread t = .take j → ∀ w k arg pc, s.worker w = .inside k arg pc → k ≠ (s.main + 1) % 1024
  | .start _ _ => True

/-- Fewer than 1024 sorts have been started since each one in progress. -/
def Calm (s : St) : Prop := ∀ t i, (s.thread t).idx = some i → s.main < i + 1024

/-- The states of an infinite run. -/
def states (mem : Nat → Slot) (σ : Nat → Act) : Nat → St
  | 0 => init mem
  | n + 1 => step (states mem σ n) (σ n)

/-- A finite history in which both hold all the time. -/
def Quiet (mem : Nat → Slot) (l : List Act) : Prop :=
  (∀ p a, p ++ [a] <+: l → Undisturbed (exec mem p) a) ∧ ∀ p, p <+: l → Calm (exec mem p)

/-- An infinite run in which both hold all the time. -/
def QuietRun (mem : Nat → Slot) (σ : Nat → Act) : Prop :=
  (∀ n, Undisturbed (states mem σ n) (σ n)) ∧ ∀ n, Calm (states mem σ n)

end Pnumpy.FillTasks

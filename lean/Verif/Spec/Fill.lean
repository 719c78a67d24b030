import Verif.Model.Fill
import Verif.Spec.Work
/-
Words for C108: the kernel calls made for a call, undisturbed writing of items, fewer than 1024 calls during one.
-/
namespace Pnumpy.Fill

/-- The kernel calls made so far for call number `i`: first element and number of elements. -/
def St.calls (s : St) (i : Nat) : List (Nat × Nat) := (s.runs.filter fun r => r.call == i).map fun r => (r.start, r.len)

/-- The call a thread is in the middle of (its number), once it has one. -/
def Thread.idx : Thread → Option Nat
  | .zig i _ => some i
  | .unlock i _ => some i
  | .fill i _ _ => some i
  | .publish i _ => some i
  | .inCall i _ _ _ => some i
  | .finish i _ => some i
  | _ => none

/-- The call whose item the thread is writing: it has the number, and not all stores are done. -/
def Thread.writing : Thread → Option Nat
  | .zig i _ => some i
  | .unlock i _ => some i
  | .fill i _ _ => some i
  | _ => none

/-- The step is not one of a worker that looks at the newest item while that item is being written, and not one of a thread that takes a
place of the ring in which a worker still is. -/
def Undisturbed (s : St) : Act → Prop
  | .worker w => s.worker w = .look → ∀ t, (s.thread t).writing ≠ some s.main
  | .thread t => ∀ j, s.thread t = .take j → ∀ w k arg pc, s.worker w = .inside k arg pc → k ≠ (s.main + 1) % 1024
  | .start _ _ => True

/-- Fewer than 1024 calls have been started since each one in progress. -/
def Calm (s : St) : Prop := ∀ t i, (s.thread t).idx = some i → s.main < i + 1024

/-- The states of an infinite run. -/
def states (mem : Nat → Slot) (σ : Nat → Act) : Nat → St
  | 0 => init mem
  | n + 1 => step (states mem σ n) (σ n)

/-- A finite history in which both hold all the time. -/
def Quiet (mem : Nat → Slot) (l : List Act) : Prop :=
  (∀ p a, p ++ [a] <+: l → Undisturbed (exec mem p) a) ∧ ∀ p, p <+: l → Calm (exec mem p)

/-- An infinite run in which both hold all the time. -/
def QuietRun (mem : Nat → Slot) (σ : Nat → Act) : Prop :=
  (∀ n, Undisturbed (states mem σ n) (σ n)) ∧ ∀ n, Calm (states mem σ n)

end Pnumpy.Fill

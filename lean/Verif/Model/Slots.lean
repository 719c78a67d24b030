import Verif.Model.WorkItem
/-
The array `WorkerChannel[MAX_WORKER_HANDLES]` of a work item (src/atop/threads.h:64, 251; MAX_WORKER_HANDLES = 16): which of its entries WorkMain and DoWork access.
The array is the last member of the item, and the items of a ring lie one after the other (threads.h:444), so an access past it changes the next item.
-/
namespace Pnumpy.Slots
open Work

/-- MAX_WORKER_HANDLES, the length of WorkerChannel (src/atop/threads.h:56-64, 251; 4 * 4 * 1). -/
def handles : Nat := 16

/-- The entries WorkMain writes: one per channel, and then the marker behind them, `WorkerChannel[threads].CurrentBlock = -1`
(src/atop/threads.h:1127-1133). -/
def setup (it : Item) : List Nat := List.range it.threads ++ [it.threads]

/-- The entry thread `c` accesses in its next step, if any: its own channel (threads.h:367 → 321-324), the channel it has claimed a block of
(threads.h:334), or the channel it is about to steal from (threads.h:378-386 → 321-324). A thread with core > ThreadWakeup does not enter DoWork
(src/atop/threads.cpp:116). -/
def next (it : Item) (s : St) (c : Nat) : Option Nat :=
  if it.wakeup < c then none else
  match s.pc c with
  | .own => some c
  | .bump ch _ => some ch
  | .scan i => if it.wakeup < i then none else if i = c then none else some i
  | _ => none

end Pnumpy.Slots

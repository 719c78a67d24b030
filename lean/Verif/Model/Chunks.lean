import Verif.Model.WorkCounter
import Verif.Model.WorkItem
import Verif.Model.Sort
/-
Helper for operations that fill an output array chunk by chunk: which calls DoMultiThreadedChunkWork (threads.h 1013-1035)
and GetItemCallback make, and the memory writes of these calls in any order.
-/
namespace Pnumpy.Chunks

/-- The calls of a chunk kernel `(start, length)`: without a work item one call for everything (threads.h 1030-1034),
otherwise (`threaded`) the blocks that were handed out by the time WorkMain returned, under any schedule of the counter
protocol (threads.h 983-1003). -/
inductive Calls (n : Nat) : Bool → List (Nat × Nat) → Prop where
  | serial : Calls n false [(0, n)]
  | threaded (wakeup : Nat) (sched : List Counter.Act) (hn : 65536 ≤ n)
      (hret : (Counter.exec { n := (n + 16383) / 16384, skip0 := false, wakeup } sched).pc 0 = .returned) :
      Calls n true ((Counter.exec { n := (n + 16383) / 16384, skip0 := false, wakeup } sched).log.map fun b =>
        (Work.CHUNK * b, (Work.workMainSetup n 0 0 Work.CHUNK true 0).blockLen b))

variable {β : Type}

/-- A write of the bytes `x` at the byte offset `off` of the output (checked) (memory of the kernels started by src/atop/threads.h:1013-1035). -/
def write (out : List β) (off : Int) (x : List β) : Option (List β) :=
  if 0 ≤ off ∧ off + x.length ≤ out.length then
    some (out.take off.toNat ++ x ++ out.drop (off.toNat + x.length))
  else none

/-- All writes, in the order given (src/atop/threads.h:986-1006). -/
def runWrites (out : List β) : List (Int × List β) → Option (List β)
  | [] => some out
  | (off, x) :: ws => do runWrites (← write out off x) ws

/-- The writes of all calls, `none` if one of them reads outside its inputs (src/atop/threads.h:986-1006). -/
def allWrites (prog : Nat × Nat → Option (List (Int × List β))) : List (Nat × Nat) → Option (List (Int × List β))
  | [] => some []
  | c :: cs => do
    let ws ← prog c
    let rest ← allWrites prog cs
    some (ws ++ rest)

/-- `out'` can be the output after the calls: the writes happen in any order (in particular in any interleaving of the
threads; the inputs are not written to) (src/atop/threads.h:1013-1035). -/
def Result (prog : Nat × Nat → Option (List (Int × List β))) (calls : List (Nat × Nat)) (out out' : List β) : Prop :=
  ∃ ws ws', allWrites prog calls = some ws ∧ ws'.Perm ws ∧ runWrites out ws' = some out'

/-- The calls touch memory outside: a read outside the inputs, or a write outside the output in some order (src/atop/threads.h:1013-1035). -/
def Faults (prog : Nat × Nat → Option (List (Int × List β))) (calls : List (Nat × Nat)) (out : List β) : Prop :=
  allWrites prog calls = none ∨ ∃ ws ws', allWrites prog calls = some ws ∧ ws'.Perm ws ∧ runWrites out ws' = none

end Pnumpy.Chunks

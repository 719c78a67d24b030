/-
What a user expects of numpy's buffer size (`np.setbufsize`, `np.getbufsize`): it is what this thread set last.  numpy keeps one size per thread.
-/
namespace Pnumpy.Spec.BufSize

/-- What happens in a program: a thread sets the size itself (`np.setbufsize(k)` outside pnumpy), a thread calls `initialize()` (also through `import pnumpy`), any
other call of pnumpy. -/
inductive Event where
  | userSets (thread : Nat) (size : Nat)
  | initialize_ (thread : Nat)
  | other (thread : Nat)
deriving DecidableEq, Repr

/-- The size the thread set last (history newest first); `dflt` is numpy's default. -/
def lastSet (dflt : Nat) (t : Nat) : List Event → Nat
  | [] => dflt
  | .userSets t' k :: older => if t' = t then k else lastSet dflt t older
  | .initialize_ _ :: older => lastSet dflt t older
  | .other _ :: older => lastSet dflt t older

/-- The thread has set the size since the first `initialize()` of the process, or the first `initialize()` was another thread's, or there was none. -/
def Untouched (t : Nat) : List Event → Prop
  | [] => True
  | .userSets t' _ :: older => t' = t ∨ Untouched t older
  | .initialize_ t' :: older => (t' = t → ∃ u, Event.initialize_ u ∈ older) ∧ Untouched t older
  | .other _ :: older => Untouched t older

end Pnumpy.Spec.BufSize

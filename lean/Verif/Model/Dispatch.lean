import Verif.Model.Elementwise
/-
The element-wise paths of the four ufunc stubs that numpy calls once the hooks are installed
(`AtopBinaryMathFunction`, `AtopCompareMathFunction`, `AtopUnaryMathFunction`, `AtopTrigMathFunction`,
src/pnumpy/_pnumpy.cpp:632-985): which implementation runs, on which arguments, split or not.
The reduce path of the binary stub is `Verif.Model.Reduce`.
-/
namespace Pnumpy.Dispatch
open Pnumpy.Elem

/-- What a stub sees when it is called: `g_Settings.AtopEnabled`, `g_Settings.LedgerEnabled`,
`THREADER->NoThreading`, whether another thread is just inside the ring's exclusive lock, and
`GetFutexWakeup()` and the zigzag word (src/pnumpy/_pnumpy.cpp:348, src/atop/threads.h:406-419, 1053-1076). -/
structure World where
  atop : Bool
  ledger : Bool
  noThreading : Bool
  lockHeld : Bool
  maxWakeup : Nat
  zigzag : Nat

/-- `CMathWorker::GetWorkItem(n)` returns an item (src/atop/threads.h:1053-1076). -/
def World.getsItem (w : World) (n : Nat) : Bool :=
  if n < Work.BIG ∨ w.noThreading = true then false else !w.lockHeld

/-- The four stubs; the trigonometric one is a copy of the unary one (_pnumpy.cpp:872-985). -/
inductive Stub where
  | binary | compare | unary
deriving DecidableEq

/-- The part of `stUFunc` (_pnumpy.cpp:239-253) used here. -/
structure Entry where
  kernel : Option Kernel
  maxThreads : Int

/-- `pBinaryFunc` / `pUnaryFunc` after the guards: an output that starts less than 64 bytes after an
input (_pnumpy.cpp:738-745, binary stub only), a zero output stride (_pnumpy.cpp:884-888, unary stub). -/
def Stub.guarded (st : Stub) (e : Entry) (A : Args) : Option Kernel :=
  match st with
  | .binary =>
    if (A.po > A.p1 ∧ A.po < A.p1 + 64) ∨ (A.po > A.p2 ∧ A.po < A.p2 + 64) then none else e.kernel
  | .compare => e.kernel
  | .unary => if A.so = 0 then none else e.kernel

/-- The kernel that runs, `none` for numpy's saved loop (`AtopEnabled && pBinaryFunc`,
_pnumpy.cpp:748-758, 772-787). -/
def Stub.chosen (st : Stub) (e : Entry) (w : World) (A : Args) : Option Kernel :=
  if w.atop then st.guarded e A else none

/-- numpy's saved loop as a sequential loop over the given pointers and steps (an assumption about
numpy: `pOldFunc` is not pnumpy's code) (called at src/pnumpy/_pnumpy.cpp:756, 822, 894). -/
def oldLoop (A : Args) (n : Nat) : List Acc :=
  scalarLoop (strided A.p1 A.s1) (strided A.p2 A.s2) (strided A.po A.so) 0 n

/-- One call of the implementation (src/pnumpy/_pnumpy.cpp:749-791, 816-824, 889-896). -/
def implProg (k : Option Kernel) (A : Args) (n : Nat) : List Acc :=
  match k with
  | some k => k.prog A n
  | none => oldLoop A n

/-- The accesses (tagged with the kernel call making them) that a stub call may perform.
With the ledger on, the stub switches it off and calls itself (_pnumpy.cpp:801-805).
`serial`: one call with numpy's own arguments.  `threaded`: `WorkMain(pWorkItem, n, MaxThreads)`; one
call for every block handed out, pointers advanced by `BlockSize * workBlock * itemSize`
(_pnumpy.cpp:447-590), the accesses of the calls interleaved in any way. -/
inductive Exec (st : Stub) (e : Entry) (A : Args) (n : Nat) : World → List (Nat × Acc) → Prop where
  | ledgered {w} (h : w.ledger = true) {evs} (hr : Exec st e A n { w with ledger := false } evs) : Exec st e A n w evs
  | serial {w} (hl : w.ledger = false) (h : w.getsItem n = false) :
      Exec st e A n w ((implProg (st.chosen e w A) A n).map fun a => (0, a))
  | threaded {w} (hl : w.ledger = false) (h : w.getsItem n = true) (sched : List Nat)
      (hret : (Work.exec (Work.workMainSetup n e.maxThreads w.maxWakeup Work.CHUNK true w.zigzag) sched).pc 0 = .returned)
      (evs : List (Nat × Acc))
      (hint : Interleaving
        ((Work.kernelCalls (Work.workMainSetup n e.maxThreads w.maxWakeup Work.CHUNK true w.zigzag)
          (Work.exec (Work.workMainSetup n e.maxThreads w.maxWakeup Work.CHUNK true w.zigzag) sched)).map
            fun c => implProg (st.chosen e w A) (A.at c.1) c.2) evs) :
      Exec st e A n w evs

end Pnumpy.Dispatch

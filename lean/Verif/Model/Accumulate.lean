import Verif.Model.Elementwise
/-
`ufunc.accumulate` as pnumpy sees it.  numpy stores `out[0] = in[0]` itself and then calls the inner
loop once with `n-1` elements, first input `out`, second input `in+1`, output `out+1`.
-/
namespace Pnumpy.Accum
open Pnumpy.Elem

/-- The inner-loop arguments numpy passes for an accumulate over `in` (address `pin`, stride `si`)
into `out` (address `po`, stride `so`) (src/pnumpy/_pnumpy.cpp:638-650: the `args`/`steps` the stub receives; the values are numpy's accumulate). -/
def accArgs (pin si po so : Int) : Args :=
  { p1 := po, s1 := so, p2 := pin + si, s2 := si, po := po + so, so := so }

/-- The overlap guard of `AtopBinaryMathFunction` (/repo/src/pnumpy/_pnumpy.cpp 738-745): the vector
function is dropped when the output starts less than 64 bytes after an input. -/
def overlapGuard (A : Args) : Bool :=
  (decide (A.po > A.p1) && decide (A.po < A.p1 + 64)) ||
  (decide (A.po > A.p2) && decide (A.po < A.p2 + 64))

/-- The loop run on `n` elements by a binary call: pnumpy's kernel, or numpy's loop if the guard fires or
pnumpy is disabled (/repo/src/pnumpy/_pnumpy.cpp 749-791; per block through
`BinaryThreadCallbackStrided`/`BinaryThreadCallbackNumpy`, 447-512).  numpy's own loop is assumed to
process the elements one by one in order (numpy checks for overlap before vectorising). -/
def binaryLoop (enabled : Bool) (k : Kernel) (guard : Bool) (A : Args) (n : Nat) : List Acc :=
  if enabled && !guard then k.prog A n
  else scalarLoop (strided A.p1 A.s1) (strided A.p2 A.s2) (strided A.po A.so) 0 n

/-- Binary arithmetic kernels (`GetSimpleMathOpFast`, /repo/src/atop/ops_binary.cpp 872-1058). -/
def isArith : Kernel → Bool
  | .slow _ | .fast _ | .symmetric _ | .fastDouble _ => true
  | _ => false

/-- Accesses of a call that is not threaded (src/pnumpy/_pnumpy.cpp:749-758). -/
def serialAcc (enabled : Bool) (k : Kernel) (A : Args) (n : Nat) : List (Nat × Acc) :=
  (binaryLoop enabled k (overlapGuard A) A n).map fun e => (0, e)

/-- Accesses of a threaded call whose blocks are executed one after the other in the given order (one of
the possible executions: a block's accesses happen between claiming and completing it). The guard is
evaluated once, on the whole call (src/pnumpy/_pnumpy.cpp:447-512, 760-791). -/
def blocksInOrder (enabled : Bool) (k : Kernel) (A : Args) (calls : List (Nat × Nat)) :
    List (Nat × Acc) :=
  (calls.zipIdx).flatMap fun c =>
    (binaryLoop enabled k (overlapGuard A) (A.at c.1.1) c.1.2).map fun e => (c.2, e)

end Pnumpy.Accum

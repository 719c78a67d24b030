import Verif.Model.ParSort
import Verif.Model.Sort
import Verif.Model.WorkItem
import Verif.Spec.Value
/-
The entry points of sorting: `Sort`/par_sort with a separate source (sort.cpp 1617-1683, 2122-2200), the exported
`_pnumpy.sort` (sorting.cpp 515-577), the np.sort hook (_pnumpy.cpp 1012-1055) together with numpy's caller, and
`pnumpy.sort` (sort.py 48-206).

Memory is a function from byte offsets (relative to the data pointer) to the element whose first byte is there.
-/
namespace Pnumpy.SortApi
open Pnumpy.Sort Pnumpy.ParSort

variable {α : Type}

/-- The strided branches of CopyData, sort.cpp 1636-1681: the loop over `n` elements; `p` is pDataIn. All branches differ
only in the width of the move. -/
def copyStrided (rd : Int → α) (strideIn : Int) : Nat → Int → List α
  | 0, _ => []
  | n + 1, p => rd p :: copyStrided rd strideIn n (p + strideIn)

/-- CopyData, sort.cpp 1617-1683, with stridesOut = itemSize (both call sites): the contents of pOut afterwards. -/
def copyData (rd : Int → α) (n : Nat) (strideIn itemSize : Int) : List α :=
  if strideIn = itemSize then (List.range n).map fun (i : Nat) => rd (i * itemSize)
  else copyStrided rd strideIn n 0

/-- The elements that the leaves of the parallel sort copy: CopyData from `pSrcData + pFirst * itemSize` with stride
TypeSizeInput = itemSize (sort.cpp 1806-1809, 2168), whatever the stride of the array is. -/
def threadedSource (rd : Int → α) (n : Nat) (itemSize : Int) : List α :=
  (List.range n).map fun (i : Nat) => rd (i * itemSize)

/-- Possible results of par_sort (sort.cpp 2122-2200). `inPlace` is `pValues == pOut`; `threads` says whether GetWorkItem
gives a work item (threading on, no other threaded call active); it gives none below 65536 elements (threads.h
1056-1074). `w`, `f` and `out` are uninitialised memory. -/
inductive SortRun (o : Ops α) (k : Kind) (inPlace threads : Bool) (rd : Int → α) (n : Nat) (stride itemSize : Int) :
    List α → Prop where
  | serial (w r : List α) (h : threads = false ∨ n < 65536) (hw : w.length = n / 2)
      (hr : sortSerial o k (if inPlace then threadedSource rd n itemSize else copyData rd n stride itemSize) w = some r) :
      SortRun o k inPlace threads rd n stride itemSize r
  | parallel (f : Nat → List α) (hf : ∀ m, (f m).length = m) (w out : List α) (s : PS α)
      (h : threads = true) (hn : 65536 ≤ n) (hw : w.length = 8 * (n / 16 + 1)) (hout : out.length = n)
      (hr : Reach (leafSort o k f) (parMerge (direct o.lt)) n
        (if inPlace then none else some (threadedSource rd n itemSize))
        (init (if inPlace then threadedSource rd n itemSize else out) w) s)
      (h8 : s.completed = 8) :
      SortRun o k inPlace threads rd n stride itemSize s.a

/-- `_pnumpy.sort` of a 1-D array, sorting.cpp 515-577: the result array is a new one; GetStridesAndContig gives the stride of
the only dimension (common.cpp 487-535). -/
def PnSort (o : Ops α) (k : Kind) (threads : Bool) (rd : Int → α) (n : Nat) (stride itemSize : Int) : List α → Prop :=
  SortRun o k false threads rd n stride itemSize

/-- Reversal of the bytes of an element (numpy's byteswap, see numpy's `_new_sortlike` around the hook _pnumpy.cpp:1012-1055). -/
def bswap {b : Nat} (x : BitVec b) : BitVec b :=
  BitVec.ofNat b ((List.range (b / 8)).foldl (fun acc i => acc * 256 + x.toNat / 256 ^ i % 256) 0)

/-- np.sort of a 1-D contiguous array `rd` of `n ≥ 2` elements through the hook. The caller is numpy's `_new_sortlike`: if the
array is misaligned or byte-swapped, numpy copies the (native order) elements to a buffer, sorts the buffer and copies it
back, swapped again; otherwise it sorts in place. AtopSortMathFunction (_pnumpy.cpp 1012-1055) sorts the *array's* raw data
into that buffer, with the stride `PyArray_STRIDE(array, 1)`, which is outside the strides of a 1-D array (`stride1`,
any number). -/
def NpSort {t : Nat} (o : Ops (BitVec t)) (k : Kind) (threads swapped aligned : Bool) (rd : Int → BitVec t) (n : Nat)
    (stride1 itemSize : Int) (r : List (BitVec t)) : Prop :=
  ∃ b, SortRun o k (!swapped && aligned) threads rd n stride1 itemSize b ∧ r = if swapped then b.map bswap else b

/-- `pnumpy.sort(a, axis, kind, order)`, sort.py 194-206. `method` is `ndarray.sort` of a copy (`none`: it raises). The name
`sort` inside the function is the function itself (the module imports only getitem, lexsort32 and lexsort64 from
_pnumpy), so `sort(a, kind=kind)` is a call with `axis = -1`, whose result is dropped. -/
def pySort {Axis : Type} (flatten : List α → List α) (last : Axis) (method : Axis → List α → Option (List α)) :
    Option Axis → List α → Option (List α)
  | some ax, a => method ax a
  | none, a =>
    let flat := flatten a
    match method last flat with
    | some _ => some flat
    | none => method last flat

end Pnumpy.SortApi

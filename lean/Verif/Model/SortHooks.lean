import Verif.Model.SortApi
import Verif.Model.LexSort
import Verif.Model.Dtypes
import Verif.Spec.NpSort
/-
The hooks of np.sort and np.argsort: AtopSortMathFunction and AtopArgSortMathFunction (_pnumpy.cpp 1012-1096), their
installation (1288, 1549-1590), the stubs (stubs.h 497-620), and numpy's callers (`_new_sortlike`, `_new_argsortlike`,
`PyArray_LexSort`), which hand over one line of the array at a time.

numpy's own sort functions, to which the hooks fall back, are relations `np`; what they do is a hypothesis of the theorems.
An allocation failure inside a leaf of the parallel merge sort (sort.cpp 1810-1812, result ignored) is modelled in OutOfMemory (C97).
-/
namespace Pnumpy.SortHooks
open Pnumpy.Sort Pnumpy.ParSort Pnumpy.Lex Pnumpy.SortApi Spec

/-- The types whose sort and argsort functions are replaced (_pnumpy.cpp:1288, loop 1549-1590). -/
def hookedDtypes : List Int := [0, 1, 2, 3, 4, 5, 6, 7, 8, 9, 10, 11, 12]

/-- The type the stub in a slot passes on: g_UFuncSortLUT[k][atype] / g_UFuncArgSortLUT[k][atype] is stored into the slots
of `dtype` with atype = convert_dtype_to_atop[dtype] (_pnumpy.cpp 1551-1584, stubs.h 497-620). -/
def stubAtype (dtype : Int) : Option Int :=
  if dtype ∈ hookedDtypes then Dtypes.dtypeToAtop[dtype.toNat]? else none

/-- The switch of SortIndex (sort.cpp 2304-2338); `none`: -1 is returned. Long double and void are left out. -/
def sortIndexType (atype : Int) : Option ColType :=
  if atype = 0 then some (.num .bool) else if atype = 1 then some (.num .i8) else if atype = 2 then some (.num .u8)
  else if atype = 3 then some (.num .i16) else if atype = 4 then some (.num .u16) else if atype = 5 then some (.num .i32)
  else if atype = 6 then some (.num .u32) else if atype = 7 then some (.num .i64) else if atype = 8 then some (.num .u64)
  else if atype = 12 then some (.num .f32) else if atype = 13 then some (.num .f64)
  else if atype = 19 then some .bytes else if atype = 20 then some .unicode else none

/-- The switches of GetSortFunction and Sort (sort.cpp 2376-2480) for numbers; `none`: another type (float16 is sorted as
uint16). -/
def sortType (atype : Int) : Option DT :=
  if atype = 0 then some .bool else if atype = 1 then some .i8 else if atype = 2 then some .u8
  else if atype = 3 then some .i16 else if atype = 4 then some .u16 else if atype = 5 then some .i32
  else if atype = 6 then some .u32 else if atype = 7 then some .i64 else if atype = 8 then some .u64
  else if atype = 11 then some .u16 else if atype = 12 then some .f32 else if atype = 13 then some .f64 else none

/-- convert_atop_to_itemsize[atype] (_pnumpy.cpp 44-54). -/
def atypeSize (atype : Int) : Nat := Dtypes.atopItemsize.getD atype.toNat 0

/-! ### argsort -/

/-- The conditions of AtopArgSortMathFunction (_pnumpy.cpp 1062-1071) for trying SortIndex64. -/
def servedArg (atop : Bool) (dtype atype : Int) (k : Kind) : Bool :=
  atop && decide (dtype ≤ 19) && decide (dtype ≠ 17) && (decide (4 < atype) || decide (k ≠ .merge))

/-- AtopArgSortMathFunction (_pnumpy.cpp 1057-1096) on the `n` values at `buf` and the index buffer. `failed`: SortIndex64
could not allocate its workspace (sort.cpp 2020-2022, 2083-2085, before any change) or does not know the type. -/
inductive ArgStub (np : Kind → (Nat → Nat → Prop) → List Nat → List Nat → Prop) (atop : Bool) (dtype atype : Int) (ct : ColType)
    (itemsize : Nat) (k : Kind) (buf : Int → BitVec 8) (n : Nat) : Bool → List Nat → List Nat → Prop where
  | served {ix0 ix : List Nat} {c : ColType} (h : servedArg atop dtype atype k = true) (hc : sortIndexType atype = some c)
      (hp : Pass k (columnWith (littleEndian buf) c 0 itemsize itemsize n) ix0 ix) : ArgStub np atop dtype atype ct itemsize k buf n false ix0 ix
  | failed {ix0 ix : List Nat} (h : servedArg atop dtype atype k = true)
      (hn : np k (columnWith (littleEndian buf) ct 0 itemsize itemsize n).before ix0 ix) :
      ArgStub np atop dtype atype ct itemsize k buf n false ix0 ix
  | punted {ix0 ix : List Nat} (h : servedArg atop dtype atype k = false)
      (hn : np k (columnWith (littleEndian buf) ct 0 itemsize itemsize n).before ix0 ix) :
      ArgStub np atop dtype atype ct itemsize k buf n false ix0 ix
  | ledgered {ix0 ix : List Nat} (h : ArgStub np atop dtype atype ct itemsize k buf n false ix0 ix) :
      ArgStub np atop dtype atype ct itemsize k buf n true ix0 ix

/-- numpy's test for working on a copy (the caller of the hooks _pnumpy.cpp:1012, 1057). -/
def needcopy (aligned : Bool) (a : Arr) (s : Int) : Bool := !aligned || a.swapped || decide (s ≠ a.itemsize)

/-- The buffer numpy hands over instead of the line: packed, native byte order (caller of _pnumpy.cpp:1012, 1057). -/
def laneBuffer (a : Arr) (p s : Int) : Int → BitVec 8 := fun q =>
  a.mem (p + s * (q / a.itemsize) + if a.swapped then a.itemsize - 1 - q % a.itemsize else q % a.itemsize)

/-- What the data pointer of the call points to (caller of _pnumpy.cpp:1012, 1057). -/
def laneData (aligned : Bool) (a : Arr) (p s : Int) : Int → BitVec 8 :=
  if needcopy aligned a s then laneBuffer a p s else fun q => a.mem (p + q)

/-- Settings and circumstances of a call: ledger on (_pnumpy.cpp:1059), hooks enabled (1061), data aligned, a work item can be
had (threads.h 1056-1074). -/
structure Env where
  ledger : Bool
  atop : Bool
  aligned : Bool
  threads : Bool

/-- One key on a line of an array with a hooked type, through the hook (_pnumpy.cpp 1057-1096 as called by
`_new_argsortlike` and `PyArray_LexSort`). -/
def ArgLane (np : Kind → (Nat → Nat → Prop) → List Nat → List Nat → Prop) (e : Env) (a : Arr) (k : Kind) (p s : Int) (n : Nat)
    (ix0 ix : List Nat) : Prop :=
  ∃ atype ct, stubAtype a.dtype = some atype ∧ colType a.dtype = some ct ∧
    ArgStub np e.atop a.dtype atype ct a.itemsize k (laneData e.aligned a p s) n e.ledger ix0 ix

/-- np.argsort of one line of an array with a hooked type: numpy fills the index buffer with 0 .. n-1 and calls the hook;
lines with fewer than two elements are not sorted (caller of _pnumpy.cpp:1057). -/
def NpArgsort (np : Kind → (Nat → Nat → Prop) → List Nat → List Nat → Prop) (e : Env) (a : Arr) (k : Kind) (p s : Int) (n : Nat)
    (ix : List Nat) : Prop :=
  if n < 2 then ix = List.range n else ArgLane np e a k p s n (List.range n) ix

/-- A key of np.lexsort: a line of an array of a hooked type (with the circumstances of this call), or of another type
(given by its order), for which numpy's own function runs (_pnumpy.cpp 1549-1590 does not touch it). -/
inductive LexKey where
  | hooked (e : Env) (a : Arr) (p s : Int)
  | other (before : Nat → Nat → Prop)

/-- One key of np.lexsort: the stable argsort of the key's type, on the index buffer left by the key before it
(caller of _pnumpy.cpp:1057). -/
def LexStep (np : Kind → (Nat → Nat → Prop) → List Nat → List Nat → Prop) (n : Nat) : LexKey → List Nat → List Nat → Prop
  | .hooked e a p s, ix0, ix => ArgLane np e a .merge p s n ix0 ix
  | .other before, ix0, ix => np .merge before ix0 ix

/-- np.lexsort on one line of every key, first key first (caller of _pnumpy.cpp:1057). -/
inductive LexSteps (np : Kind → (Nat → Nat → Prop) → List Nat → List Nat → Prop) (n : Nat) : List LexKey → List Nat → List Nat → Prop where
  | nil (ix : List Nat) : LexSteps np n [] ix ix
  | cons {key : LexKey} {keys : List LexKey} {ix0 ix1 ix2 : List Nat} (h : LexStep np n key ix0 ix1) (hs : LexSteps np n keys ix1 ix2) :
      LexSteps np n (key :: keys) ix0 ix2

/-- np.lexsort of one line, starting from 0 .. n-1 (caller of _pnumpy.cpp:1057). -/
def NpLexsort (np : Kind → (Nat → Nat → Prop) → List Nat → List Nat → Prop) (n : Nat) (keys : List LexKey) (ix : List Nat) : Prop :=
  LexSteps np n keys (List.range n) ix

/-! ### sort -/

/-- The conditions of AtopSortMathFunction (_pnumpy.cpp 1019-1033) for trying Sort. `stride0` is PyArray_STRIDE(arr, 0). -/
def servedSort (atop : Bool) (dtype atype : Int) (ndim itemsize : Nat) (stride0 : Int) (k : Kind) : Bool :=
  atop && decide (dtype ≤ 19) && decide (dtype ≠ 17) && decide (ndim = 1) && (decide (4 < atype) || decide (k ≠ .merge)) &&
    decide (itemsize = atypeSize atype) && decide (stride0 = (atypeSize atype : Int))

/-- Element at byte `q` of the array's data, as the sort loads it (native byte order; sort.cpp 1617-1683). -/
def rawAt (a : Arr) (t : DT) (q : Int) : BitVec t.bits := BitVec.ofNat t.bits (littleEndian a.mem q (t.bits / 8))

/-- AtopSortMathFunction (_pnumpy.cpp 1012-1055): from the contents `l` of pDest to its new contents. pDest is the array's own
data unless numpy made a buffer. The hook sorts the array's data, not pDest. `failed`: the workspace of the parallel sort
(sort.cpp 2150-2152) or of an in-place merge sort could not be allocated; `failedCopy`: that of the merge sort, after the
array's data were copied to pDest (2176-2191); `otherSize`: elements of another size would be sorted, with any effect
(the switch sort.cpp 2376-2480 excludes it). `stride1` is the stray PyArray_STRIDE(arr, 1). -/
inductive SortStub (t : DT) (np : Kind → List (BitVec t.bits) → List (BitVec t.bits) → Prop) (e : Env) (a : Arr) (atype : Int) (k : Kind)
    (inPlace : Bool) (n : Nat) (stride0 stride1 : Int) : Bool → List (BitVec t.bits) → List (BitVec t.bits) → Prop where
  | served {l : List (BitVec t.bits)} {t' : DT} {r : List (BitVec t'.bits)}
      (h : servedSort e.atop a.dtype atype a.dims.length a.itemsize stride0 k = true)
      (ht : sortType atype = some t') (hb : t'.bits = t.bits) (hr : SortRun (ops t') k inPlace e.threads (rawAt a t') n stride1 a.itemsize r) :
      SortStub t np e a atype k inPlace n stride0 stride1 false l (r.map (BitVec.cast hb))
  | otherSize {l r : List (BitVec t.bits)} {t' : DT} (h : servedSort e.atop a.dtype atype a.dims.length a.itemsize stride0 k = true)
      (ht : sortType atype = some t') (hb : t'.bits ≠ t.bits) : SortStub t np e a atype k inPlace n stride0 stride1 false l r
  | failed {l r : List (BitVec t.bits)} (h : servedSort e.atop a.dtype atype a.dims.length a.itemsize stride0 k = true) (hn : np k l r) :
      SortStub t np e a atype k inPlace n stride0 stride1 false l r
  | failedCopy {l r : List (BitVec t.bits)} (h : servedSort e.atop a.dtype atype a.dims.length a.itemsize stride0 k = true)
      (hp : inPlace = false) (hn : np k (copyData (rawAt a t) n stride1 a.itemsize) r) :
      SortStub t np e a atype k inPlace n stride0 stride1 false l r
  | punted {l r : List (BitVec t.bits)} (h : servedSort e.atop a.dtype atype a.dims.length a.itemsize stride0 k = false) (hn : np k l r) :
      SortStub t np e a atype k inPlace n stride0 stride1 false l r
  | ledgered {l r : List (BitVec t.bits)} (h : SortStub t np e a atype k inPlace n stride0 stride1 false l r) :
      SortStub t np e a atype k inPlace n stride0 stride1 true l r

/-- np.sort / ndarray.sort of one line of an array of a hooked type: the new elements of the line. A buffer is copied back in
the array's byte order, so the elements of the line are those of the buffer (caller of _pnumpy.cpp:1012). -/
def NpSortLane (t : DT) (np : Kind → List (BitVec t.bits) → List (BitVec t.bits) → Prop) (e : Env) (a : Arr) (k : Kind) (p s : Int) (n : Nat)
    (stride1 : Int) (r : List (BitVec t.bits)) : Prop :=
  if n < 2 then r = a.lane t p s n
  else ∃ atype, stubAtype a.dtype = some atype ∧
    SortStub t np e a atype k (!needcopy e.aligned a s) n (a.strides.headD 0) stride1 e.ledger
      ((List.range n).map fun (i : Nat) => BitVec.ofNat t.bits (littleEndian (laneData e.aligned a p s) ((t.bits / 8 : Nat) * i) (t.bits / 8))) r

end Pnumpy.SortHooks

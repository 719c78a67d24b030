import Verif.Model.GetItem
import Verif.Model.Strides
import Verif.Spec.GetItemDefault
/-
The entry point getitem(a, index[, default]) (getitem.cpp 1040-1192): argument checks, the default value
(GetDefaultForType, common.cpp 38-74; ConvertScalarObject, common.cpp 228-466), BooleanIndexInternal's checks
(getitem.cpp 222-250), and the __getitem__ hook (_pnumpy.cpp 1678-1763).

The third argument is a `Spec.Scalar`, by the order of the tests of ConvertScalarObject (common.cpp 254-461).
Memory is bytes. Linux: the 64-bit types are 7 and 9 / 8 and 10, the 32-bit ones 5 / 6 (common.h 140-144).
-/
namespace Pnumpy.GetItem
open Pnumpy.Strides Spec

/-- An array argument: type number, item size, shape, strides, the C_CONTIGUOUS flag, whether its byte order is
not the native one, and its memory relative to the data
pointer (the PyArrayObject of getitem.cpp 1042-1043). -/
structure Arg where
  dtype : Nat
  itemsize : Nat
  dims : List Nat
  strides : List Int
  contig : Bool
  swapped : Bool
  mem : Int → Option (BitVec 8)

/-- The C casts between numbers that ConvertScalarObject uses (common.cpp 291-295, 378-382, 392-426). -/
structure Casts where
  intF32 : BitVec 64 → BitVec 32
  intF64 : BitVec 64 → BitVec 64
  narrow : BitVec 64 → BitVec 32
  toSigned : (w : Nat) → BitVec 64 → BitVec w
  toUnsigned : (w : Nat) → BitVec 64 → BitVec w

/-- The first `k` bytes of a number in memory (the stores through pDest, common.cpp 266-426; little-endian). -/
def leBytes (k : Nat) {w : Nat} (x : BitVec w) : List (BitVec 8) := (List.range k).map fun i => x.extractLsb' (8 * i) 8

/-- GetDefaultForType (common.cpp 38-74): the bytes of the static variable pDefault points to. -/
def sentinel (dtype : Nat) : List (BitVec 8) :=
  if dtype = 11 then leBytes 4 (0x7FC00000 : BitVec 32)
  else if dtype = 12 ∨ dtype = 13 then leBytes 8 (0x7FF8000000000000 : BitVec 64)
  else if dtype = 0 then leBytes 1 (0 : BitVec 8)
  else if dtype = 1 then leBytes 1 (0x80 : BitVec 8)
  else if dtype = 3 then leBytes 2 (0x8000 : BitVec 16)
  else if dtype = 5 then leBytes 4 (0x80000000 : BitVec 32)
  else if dtype = 7 ∨ dtype = 9 then leBytes 8 (0x8000000000000000 : BitVec 64)
  else if dtype = 2 then leBytes 1 (0xFF : BitVec 8)
  else if dtype = 4 then leBytes 2 (0xFFFF : BitVec 16)
  else if dtype = 6 then leBytes 4 (0xFFFFFFFF : BitVec 32)
  else if dtype = 8 ∨ dtype = 10 then leBytes 8 (0xFFFFFFFFFFFFFFFF : BitVec 64)
  else if dtype = 18 ∨ dtype = 19 then List.replicate 1024 0
  else leBytes 8 (0x8000000000000000 : BitVec 64)

/-- _mm256_set1_*: 32 bytes, the same number again and again (common.cpp 266-426), over the memory `raw`. -/
def set1 {w : Nat} (x : BitVec w) (raw : List (BitVec 8)) : List (BitVec 8) :=
  (List.replicate (32 / (w / 8)) (leBytes (w / 8) x)).flatten ++ raw.drop 32

/-- The switches for booleans (common.cpp 264-300, with value2 = value) and integers (350-387); `none`: FALSE. -/
def setInt (cv : Casts) (dtype : Nat) (value value2 : BitVec 64) (raw : List (BitVec 8)) : Option (List (BitVec 8)) :=
  if dtype = 0 ∨ dtype = 1 then some (set1 (value.setWidth 8) raw)
  else if dtype = 2 then some (set1 (value2.setWidth 8) raw)
  else if dtype = 3 then some (set1 (value.setWidth 16) raw)
  else if dtype = 4 then some (set1 (value2.setWidth 16) raw)
  else if dtype = 5 then some (set1 (value.setWidth 32) raw)
  else if dtype = 6 then some (set1 (value2.setWidth 32) raw)
  else if dtype = 7 ∨ dtype = 9 then some (set1 value raw)
  else if dtype = 8 ∨ dtype = 10 then some (set1 value2 raw)
  else if dtype = 11 then some (set1 (cv.intF32 value) raw)
  else if dtype = 12 then some (set1 (cv.intF64 value) raw)
  else none

/-- The switch for floats (common.cpp 393-431). -/
def setFloat (cv : Casts) (dtype : Nat) (value : BitVec 64) (raw : List (BitVec 8)) : Option (List (BitVec 8)) :=
  if dtype = 0 ∨ dtype = 1 then some (set1 (cv.toSigned 8 value) raw)
  else if dtype = 2 then some (set1 (cv.toUnsigned 8 value) raw)
  else if dtype = 3 then some (set1 (cv.toSigned 16 value) raw)
  else if dtype = 4 then some (set1 (cv.toUnsigned 16 value) raw)
  else if dtype = 6 then some (set1 (cv.toUnsigned 32 value) raw)
  else if dtype = 5 then some (set1 (cv.toSigned 32 value) raw)
  else if dtype = 8 ∨ dtype = 10 then some (set1 (cv.toUnsigned 64 value) raw)
  else if dtype = 7 ∨ dtype = 9 then some (set1 (cv.toSigned 64 value) raw)
  else if dtype = 11 then some (set1 (cv.narrow value) raw)
  else if dtype = 12 ∨ dtype = 13 then some (set1 value raw)
  else none

/-- value and value2 for a Python integer (common.cpp 316-331): PyLong_AsLongLongAndOverflow gives -1 on overflow. -/
def pyLong (z : Int) : BitVec 64 × BitVec 64 :=
  if z ≥ 2 ^ 63 then (BitVec.ofInt 64 (-1), BitVec.ofInt 64 z)
  else if z < -2 ^ 63 then (BitVec.ofInt 64 (-1), BitVec.ofInt 64 (-1))
  else (BitVec.ofInt 64 z, BitVec.ofInt 64 z)

/-- ConvertScalarObject (common.cpp 228-466) as getitem calls it (getitem.cpp 1123-1134): the contents of tempDefault (128
uninitialised bytes `raw` before), `none` for FALSE. For bytes and str, only pTempData is set, which getitem ignores. -/
def convertScalar (cv : Casts) (dtype : Nat) (raw : List (BitVec 8)) : Scalar → Option (List (BitVec 8))
  | .pyBool b | .npBool b => setInt cv dtype (if b then 1 else 0) (if b then 1 else 0) raw
  | .pyInt z => setInt cv dtype (pyLong z).1 (pyLong z).2 raw
  | .npInt z => setInt cv dtype (BitVec.ofInt 64 z) (BitVec.ofInt 64 z) raw
  | .float x => setFloat cv dtype x raw
  | .bytes _ | .str _ => some raw
  | .none | .npTime | .other => none

/-- What pDefault points to (getitem.cpp 1117-1135). -/
def defaultMem (cv : Casts) (dtype : Nat) (raw : List (BitVec 8)) (d : Scalar) : List (BitVec 8) :=
  match d with
  | .none => sentinel dtype
  | d => (convertScalar cv dtype raw d).getD (sentinel dtype)

/-- Width in bytes and unsignedness of an index type that GetItemFunction knows (getitem.cpp 931-1018). -/
def indexType (dtype : Nat) : Option (Nat × Bool) :=
  if dtype = 1 then some (1, false) else if dtype = 2 then some (1, true)
  else if dtype = 3 then some (2, false) else if dtype = 4 then some (2, true)
  else if dtype = 5 then some (4, false) else if dtype = 6 then some (4, true)
  else if dtype = 7 ∨ dtype = 9 then some (8, false) else if dtype = 8 ∨ dtype = 10 then some (8, true)
  else none

/-- An item of `k` bytes (the reads of getitem.cpp 328-556, 629-857). -/
def readItem (mem : Int → Option (BitVec 8)) (k : Nat) (p : Int) : Option (List (BitVec 8)) :=
  (List.range k).mapM fun (j : Nat) => mem (p + j)

/-- An index of `k` bytes, always read as a signed number (getitem.cpp 931-1018 instantiates the signed types only). -/
def readIndex (mem : Int → Option (BitVec 8)) (k : Nat) (p : Int) : Option Int :=
  (readItem mem k p).map fun bs => (BitVec.ofNat (8 * k) (bs.foldr (fun b acc => b.toNat + 256 * acc) 0)).toInt

/-- Result of a call: an exception, or a new array (in native byte order, of the plain type of that number: AllocateLikeResize,
common.cpp 157-166, passes on type number and item size only); `fault`: memory outside the arrays is touched (getitem.cpp 1040-1192). -/
inductive Outcome where
  | error
  | array (dtype itemsize : Nat) (dims : List Nat) (bytes : List (BitVec 8))
  | fault

/-- BooleanIndexInternal (getitem.cpp 222-579). `t1`, `t2`: threads are used in the counting and in the copying pass;
`room`: the memory for the counts and the result can be had. -/
inductive BoolIndex (v i : Arg) (room t1 t2 : Bool) : Outcome → Prop where
  | badIndex (h : i.dims.length ≠ 1 ∧ i.contig = false) : BoolIndex v i room t1 t2 .error
  | badValues (h : v.dims.length ≠ 1 ∧ v.contig = false) : BoolIndex v i room t1 t2 .error
  | badLength (h : calcArrayLength i.dims ≠ calcArrayLength v.dims) : BoolIndex v i room t1 t2 .error
  | noMemory (h : room = false) : BoolIndex v i room t1 t2 .error
  | ok {total : Nat} {out : List (BitVec 8)} (hm : room = true) (hi : i.dims.length = 1 ∨ i.contig = true) (hv : v.dims.length = 1 ∨ v.contig = true)
      (hl : calcArrayLength i.dims = calcArrayLength v.dims)
      (h : BoolResult i.mem (readItem v.mem v.itemsize) (calcArrayLength v.dims) (i.strides.getD 0 0) (v.strides.getD 0 0) v.itemsize t1 t2 out)
      (ht : out.length = total * v.itemsize) : BoolIndex v i room t1 t2 (.array v.dtype v.itemsize [total] out)
  | fault {raw : List Nat} {out : List (BitVec 8)} (hm : room = true) (hi : i.dims.length = 1 ∨ i.contig = true) (hv : v.dims.length = 1 ∨ v.contig = true)
      (hl : calcArrayLength i.dims = calcArrayLength v.dims) (hr : raw.length = (max (calcArrayLength v.dims) 1 + 16383) / 16384)
      (h : BoolFault i.mem (readItem v.mem v.itemsize) (calcArrayLength v.dims) (i.strides.getD 0 0) (v.strides.getD 0 0) v.itemsize t1 t2 raw out) :
      BoolIndex v i room t1 t2 .fault

/-- The checks of getitem on one argument (getitem.cpp 1087-1101): GetStridesAndContig says one loop does, or C-contiguous. -/
def usable (a : Arg) : Prop := (getStridesAndContig a.itemsize a.dims a.strides).1 = 0 ∨ a.contig = true

/-- strideValue, strideIndex (getitem.cpp 1083-1084). -/
def strideOf (a : Arg) : Int := (getStridesAndContig a.itemsize a.dims a.strides).2

/-- getitem(v, i, d) (getitem.cpp 1040-1192). `t1`: threads used (counting pass of a mask, or the index loop); `t2`: in the copying
pass of a mask; `room`: the memory for the result can be had. -/
inductive GetItem (cv : Casts) (v i : Arg) (d : Scalar) (room t1 t2 : Bool) : Outcome → Prop where
  | badType (h : 13 < i.dtype) : GetItem cv v i d room t1 t2 .error
  | mask {o : Outcome} (h : i.dtype = 0) (hb : BoolIndex v i room t1 t2 o) : GetItem cv v i d room t1 t2 o
  | badShape (h : i.dtype ≤ 13) (h0 : i.dtype ≠ 0) (hs : ¬ usable v ∨ ¬ usable i) : GetItem cv v i d room t1 t2 .error
  | badKind (h : i.dtype ≤ 13) (h0 : i.dtype ≠ 0) (hk : indexType i.dtype = none) : GetItem cv v i d room t1 t2 .error
  | noMemory (hm : room = false) (h : i.dtype ≤ 13) (h0 : i.dtype ≠ 0) : GetItem cv v i d room t1 t2 .error
  | ok {w : Nat} {u : Bool} {raw out : List (BitVec 8)} (hm : room = true) (h : i.dtype ≤ 13) (h0 : i.dtype ≠ 0) (hk : indexType i.dtype = some (w, u))
      (hv : usable v) (hi : usable i) (hraw : raw.length = 128)
      (hr : IntResult (readItem v.mem v.itemsize) (readIndex i.mem w) u (calcArrayLength v.dims) (calcArrayLength i.dims) (strideOf v) (strideOf i)
        v.itemsize (defaultMem cv v.dtype raw d) t1 out) : GetItem cv v i d room t1 t2 (.array v.dtype v.itemsize [calcArrayLength i.dims] out)
  | fault {w : Nat} {u : Bool} {raw : List (BitVec 8)} (hm : room = true) (h : i.dtype ≤ 13) (h0 : i.dtype ≠ 0) (hk : indexType i.dtype = some (w, u))
      (hv : usable v) (hi : usable i) (hraw : raw.length = 128)
      (hr : IntFault (readItem v.mem v.itemsize) (readIndex i.mem w) u (calcArrayLength v.dims) (calcArrayLength i.dims) (strideOf v) (strideOf i)
        v.itemsize (defaultMem cv v.dtype raw d) t1) : GetItem cv v i d room t1 t2 .fault

/-- What v[i] gives once hook_enable has run (GetItemHook, _pnumpy.cpp 1678-1703), for an index that is an array. `np`: what
numpy's own subscript gives. An index of another type goes to `getitem(aValues, aIndex)`, which takes the index array for
its tuple of arguments: PyTuple_Size is -1, PyArg_ParseTuple fails (getitem.cpp 1046-1067), and numpy is called. -/
inductive Hook {R : Type} (np : R → Prop) (v i : Arg) (room t1 t2 : Bool) : Outcome ⊕ R → Prop where
  | mask {dtype itemsize : Nat} {dims : List Nat} {out : List (BitVec 8)} (h : i.dtype = 0)
      (hb : BoolIndex v i room t1 t2 (.array dtype itemsize dims out)) : Hook np v i room t1 t2 (.inl (.array dtype itemsize dims out))
  | maskFault (h : i.dtype = 0) (hb : BoolIndex v i room t1 t2 .fault) : Hook np v i room t1 t2 (.inl .fault)
  | maskError {r : R} (h : i.dtype = 0) (hb : BoolIndex v i room t1 t2 .error) (hn : np r) : Hook np v i room t1 t2 (.inr r)
  | other {r : R} (h : i.dtype ≠ 0) (hn : np r) : Hook np v i room t1 t2 (.inr r)

/-- Reference counts of the objects in an object array after BooleanIndexInternal: the pointers are copied like any 8 bytes
(getitem.cpp 418-446), no Py_INCREF. -/
def refsAfterMask (refs : BitVec 64 → Int) (_selected : List (BitVec 64)) : BitVec 64 → Int := refs

/-- Reference counts after an object array with these items is freed (numpy releases each item of the array that
getitem.cpp:275 allocated with the object type). -/
def refsAfterFree (refs : BitVec 64 → Int) (items : List (BitVec 64)) : BitVec 64 → Int := fun p => refs p - items.count p

end Pnumpy.GetItem

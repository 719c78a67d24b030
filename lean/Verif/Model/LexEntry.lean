import Verif.Model.LexSort
import Verif.Model.Dtypes
import Verif.Spec.LexEntry
/-
The entry of lexsort32 / lexsort64: BuildArrayInfo and its helpers (common.cpp 540-772), CMultiListPrepare (sorting.cpp
296-349), keyword handling (164-277), lexsort (368-478) and `pnumpy.lexsort` (sort.py 214-294).

The heap gives every array object its descriptor and its reference count. Reads of the interpreter's own structures
(tuple and list items) are not modelled, only which objects they hold.
-/
namespace Pnumpy.LexEntry
open Pnumpy.Sort Pnumpy.Lex Spec

/-- Array objects: descriptors, reference counts, first unused name (the PyArrayObject fields and Py_IncRef/Py_DecRef used
in common.cpp 540-772, sorting.cpp 368-478). -/
structure Heap where
  arr : Nat → Arr
  refs : Nat → Int
  next : Nat

/-- Py_DecRef (common.cpp:556). -/
def Heap.decref (h : Heap) (id : Nat) : Heap := { h with refs := Function.update h.refs id (h.refs id - 1) }
/-- Py_IncRef (sorting.cpp:428). -/
def Heap.incref (h : Heap) (id : Nat) : Heap := { h with refs := Function.update h.refs id (h.refs id + 1) }
/-- A new array object with one reference (PyArray_FromAny, common.cpp:595; PyArray_New / PyArray_NewLikeArray,
common.cpp 136-144, 205). -/
def Heap.new (h : Heap) (a : Arr) : Heap :=
  { arr := Function.update h.arr h.next a, refs := Function.update h.refs h.next 1, next := h.next + 1 }

/-- Memory after writing the integers `ix` of `w` bytes one after the other from the data pointer on (pDataOut of sorting.cpp 434-473; SortIndex
writes UINDEX values there). -/
def storeInts (w : Nat) (ix : List Nat) (mem : Int → BitVec 8) : Int → BitVec 8 := fun p =>
  if 0 ≤ p ∧ p < (w * ix.length : Nat) then BitVec.ofNat 8 ((ix[(p / w).toNat]?.getD 0) / 256 ^ (p % w).toNat) else mem p

/-- Writing the result into array `id` (sorting.cpp 434-473). -/
def Heap.store (h : Heap) (id w : Nat) (ix : List Nat) : Heap :=
  { h with arr := Function.update h.arr id { h.arr id with mem := storeInts w ix (h.arr id).mem } }

/-- ArrayInfo (common.h 63-85), without pData and NumBytes, which follow from the object. -/
structure Info where
  obj : Option Nat
  orig : Option Nat
  itemSize : Nat
  len : Nat
  dtype : Int
  ndim : Nat

/-- FreeArrayInfo (common.cpp 540-561): releases the copies. -/
def freeInfo : List Info → Heap → Heap
  | [], h => h
  | i :: is, h => freeInfo is (match i.orig, i.obj with
    | some _, some o => h.decref o
    | _, _ => h)

/-- ArrayLength (common.cpp 83-104). -/
def arrayLength (a : Arr) : Nat := a.dims.foldl (· * ·) 1

/-- The copy PyArray_FromAny makes with NPY_ARRAY_ENSURECOPY (common.cpp:595): the same elements, packed. (For more than one
dimension the layout of the copy is simplified: such arrays are refused in the next step.) -/
def packedCopy (a : Arr) : Arr :=
  match a.strides with
  | [s] => { a with strides := [(a.itemsize : Int)], mem := fun p => a.mem (s * (p / a.itemsize) + p % a.itemsize) }
  | _ => a

/-- EnsureContiguousArray (common.cpp 583-603): the object to use, or failure. `fails`: numpy cannot make the copy. -/
def ensureContiguous (fails : Bool) (id : Nat) (h : Heap) : Heap × Option Nat :=
  if (h.arr id).contiguous then (h, some id)
  else if fails then (h, none)
  else (h.new (packedCopy (h.arr id)), some h.next)

/-- How the loop of BuildArrayInfo ends (common.cpp 650-744). `fault`: an access outside an object. -/
inductive Stop where
  | done
  | error
  | fault
deriving DecidableEq

/-- One array of BuildArrayInfo (common.cpp 676-737) with checkrows and convert set (the defaults, used by lexsort). -/
def addArray (fails : Bool) (id : Nat) (h : Heap) : Heap × Option Info × Stop :=
  match ensureContiguous fails id h with
  | (h, none) => (h, some { obj := some id, orig := none, itemSize := 0, len := 0, dtype := 0, ndim := 0 }, .error)
  | (h, some o) =>
    let a := h.arr o
    let info : Info := { obj := some o, orig := (if o = id then none else some id), itemSize := a.itemsize, len := arrayLength a,
                         dtype := a.dtype, ndim := a.dims.length }
    match a.strides with
    | [] => (h, some info, .fault)
    | stride0 :: _ =>
      if info.ndim ≠ 1 then (h, some info, .error)
      else if (info.itemSize : Int) ≠ stride0 then (h, some info, .error)
      else (h, some info, .done)

/-- The loop of BuildArrayInfo (common.cpp 650-744); `fails i`: copying object `i` fails. -/
def buildLoop (fails : Nat → Bool) : Nat → List PyObj → List Info → Heap → Heap × List Info × Stop
  | _, [], is, h => (h, is, .done)
  | i, x :: xs, is, h =>
    match x with
    | .none => buildLoop fails (i + 1) xs (is ++ [{ obj := none, orig := none, itemSize := 0, len := 0, dtype := 0, ndim := 0 }]) h
    | .array id =>
      match addArray (fails i) id h with
      | (h, info, .done) => buildLoop fails (i + 1) xs (is ++ info.toList) h
      | (h, info, s) => (h, is ++ info.toList, s)
    | _ => (h, is, .error)

/-- Result of BuildArrayInfo (common.cpp 610-772). -/
inductive Built where
  | ok (is : List Info)
  | null
  | fault

/-- BuildArrayInfo (common.cpp 610-772) of a list or tuple (a single array never comes here: lexsort passes its argument
tuple). -/
def buildArrayInfo (fails : Nat → Bool) (xs : List PyObj) (h : Heap) : Heap × Built :=
  match buildLoop fails 0 xs [] h with
  | (h, _, .fault) => (h, .fault)
  | (h, is, .error) => (freeInfo is h, .null)
  | (h, is, .done) =>
    if is.all fun i => i.len == (is.headD i).len then (h, .ok is) else (freeInfo is h, .null)

/-- CMultiListPrepare (sorting.cpp 307-341): a list as first argument replaces the arguments; reads `aInfo[0]`, which for no
arrays lies outside the allocation. -/
def prepare (fails : Nat → Bool) (args : List PyObj) (h : Heap) : Heap × Built :=
  let xs := match args with
    | .list ys :: _ => ys
    | _ => args
  match buildArrayInfo fails xs h with
  | (h, .ok []) => (h, .fault)
  | r => r

/-- A keyword argument: an array, something else, or absent (GetKwarg and GetKwargIndex, sorting.cpp 164-178, 249-277). -/
inductive KwArg where
  | absent
  | array (id : Nat)
  | notArray

/-- The keywords lexsort looks at (sorting.cpp 379-381, 403). -/
structure Kw where
  cutoffs : KwArg
  index : KwArg
  kind : Option (List Char)

/-- GetKind (sorting.cpp 216-243) with default mergesort (381): the first letter decides. -/
def getKind : Option (List Char) → Kind
  | some ('q' :: _) => .quick
  | some ('m' :: _) => .merge
  | some ('h' :: _) => .heap
  | some ('s' :: _) => .merge
  | _ => .merge

/-- The `n` integers of `w` bytes at the data pointer, one after the other (the index and cutoffs arrays are read without
looking at their strides, sorting.cpp 193, 434). -/
def ints (w n : Nat) (a : Arr) : List Int :=
  (List.range n).map fun (i : Nat) => (BitVec.ofNat (8 * w) (littleEndian a.mem (w * i) w)).toInt

/-- CASE_NPY_INT64 (common.h / sorting.cpp 191, 262). -/
def isInt64 (dtype : Int) : Bool := dtype == 7 || dtype == 9
/-- CASE_NPY_INT32 (sorting.cpp 265). -/
def isInt32 (dtype : Int) : Bool := dtype == 5

/-- What a call comes to (sorting.cpp 368-478). `sorted o ix`: object `o` is returned; `ix` has been
written to its data. `noneAndError`: Py_None is
returned although an exception is set (the interpreter raises SystemError). -/
inductive Out where
  | sorted (o : Nat) (ix : List Nat)
  | none
  | error
  | noneAndError
  | fault

/-- GetCutOffs (sorting.cpp 183-206) and the checks on it (382-389): no cutoffs, the cutoffs, or how the call ends. -/
def cutoffsOf (h : Heap) (n : Nat) : KwArg → Out ⊕ Option (List Int)
  | .array id =>
    let a := h.arr id
    if isInt64 a.dtype then
      match (ints 8 (arrayLength a) a).getLast? with
      | none => .inl .fault
      | some l => if l ≠ n then .inl .error else .inr (some (ints 8 (arrayLength a) a))
    else .inl .error
  | _ => .inr none

/-- The type check, sorting.cpp 392-399 (ATOP_LONGDOUBLE = 14, ATOP_STRING = 19, ATOP_UNICODE = 20). -/
def sortable (dtype : Int) : Option Bool :=
  match Dtypes.dtypeToAtopFn dtype with
  | .outside => none
  | .val a => some (!(a == -1 || (decide (a > 14) && (a != 19 && a != 20))))

/-- How the index array starts (sorting.cpp 436-459). -/
inductive Start where
  /-- 0, 1, 2, ... -/
  | arange
  /-- the caller's values -/
  | given (ix : List Int)
  /-- whatever is in the new array -/
  | uninitialised
deriving DecidableEq

/-- What is decided before sorting (sorting.cpp 401-434): the returned object (`none`: a new one), the number of indices, and
their start values. -/
structure Plan where
  obj : Option Nat
  n : Nat
  start : Start

/-- The `index=` handling, sorting.cpp 401-434; `w` is sizeof(UINDEX). -/
def planIndex (w : Nat) (h : Heap) (n : Nat) : KwArg → Out ⊕ Plan
  | .array id =>
    let a := h.arr id
    if isInt64 a.dtype || isInt32 a.dtype then
      if arrayLength a > 0 then
        if arrayLength a > n then .inl .error
        else if w = 8 ∧ isInt64 a.dtype = false then .inl .error
        else if w = 4 ∧ isInt32 a.dtype = false then .inl .error
        else .inr ⟨some id, arrayLength a, .given (ints w (arrayLength a) a)⟩
      else .inr ⟨none, n, .uninitialised⟩
    else .inl .error
  | _ => .inr ⟨none, n, .arange⟩

/-- The column SortIndex reads for a key: elements side by side from the data pointer, in the machine's byte order
(sorting.cpp 466-471, sort.cpp 2291-2340). A None entry has no elements. -/
def keyCol (h : Heap) (i : Info) : Option Col :=
  match i.obj with
  | none => some (.num .bool [])
  | some o => (colType i.dtype).map fun ct => columnWith (littleEndian (h.arr o).mem) ct 0 i.itemSize i.itemSize i.len

/-- All natural numbers, if there is no negative one (an index into the keys, sort.cpp 2291-2340). -/
def naturals (xs : List Int) : Option (List Nat) := if xs.all (0 ≤ ·) then some (xs.map Int.toNat) else none

/-- The sorting part, sorting.cpp 436-473, on index array contents `ix0`: possible final contents. -/
def SortPart (k : Kind) (cs : List Col) (cut : Option (List Int)) (ix0 ix : List Nat) : Prop :=
  match cut with
  | none => Passes k cs ix0 ix
  | some cut => ∃ c, naturals cut = some c ∧ ∃ ix1, prep c ix0 = some ix1 ∧ CutPasses c cs ix1 ix

/-- The loop over the types, sorting.cpp 392-399: how the call ends, if it does. -/
def typeCheck : List Info → Option Out
  | [] => none
  | i :: is =>
    match sortable i.dtype with
    | none => some .fault
    | some false => some .error
    | some true => typeCheck is

/-- Number of rows: that of the first key (sorting.cpp 327, 377). -/
def rowsOf (is : List Info) : Nat := (is.head?.map (·.len)).getD 0

/-- All decisions before the result array is made (sorting.cpp 376-429): how the call ends, or cutoffs and plan. -/
def checks (w : Nat) (is : List Info) (kw : Kw) (h : Heap) : Out ⊕ (Option (List Int) × Plan) :=
  match cutoffsOf h (rowsOf is) kw.cutoffs with
  | .inl o => .inl o
  | .inr cut =>
    match typeCheck is with
    | some o => .inl o
    | none =>
      match planIndex w h (rowsOf is) kw.index with
      | .inl o => .inl o
      | .inr p => .inr (cut, p)

/-- What the index array may hold when the preparation begins (sorting.cpp 436-459): 0, 1, 2, ... or the caller's values; with
cutoffs everything is overwritten, so it does not matter; else whatever is in the new array. -/
def Contents (p : Plan) (cut : Option (List Int)) (ix0 : List Nat) : Prop :=
  ix0.length = p.n ∧ (cut = none → match p.start with
    | .arange => ix0 = List.range p.n
    | .given g => naturals g = some ix0
    | .uninitialised => True)

/-- lexsort after the keys have been collected (sorting.cpp 376-478). `allocFails`: no memory for the result array. Long double
keys are not modelled (`keyCol` is `none`). A call whose sort would have to read or write outside its arrays is a fault. -/
inductive Body (w : Nat) (allocFails : Bool) (is : List Info) (kw : Kw) (h : Heap) : Heap → Out → Prop where
  | stop {o : Out} (hc : checks w is kw h = .inl o) : Body w allocFails is kw h h o
  | noPrototype {cut} {p : Plan} (hc : checks w is kw h = .inr (cut, p)) (hp : p.obj = none)
      (hn : is.head?.bind (·.obj) = none) : Body w allocFails is kw h h .fault
  | noMemory {cut} {p : Plan} {o : Nat} (hc : checks w is kw h = .inr (cut, p)) (hp : p.obj = none)
      (hn : is.head?.bind (·.obj) = some o) (ha : allocFails = true) : Body w allocFails is kw h h .noneAndError
  | fresh {cut} {p : Plan} {o : Nat} {cs : List Col} {ix0 ix : List Nat} (a : Arr)
      (hc : checks w is kw h = .inr (cut, p)) (hp : p.obj = none)
      (hn : is.head?.bind (·.obj) = some o) (ha : allocFails = false)
      (hd : a.dims = (h.arr o).dims ∧ a.strides = [(w : Int)] ∧ a.itemsize = w ∧ a.swapped = false)
      (hcs : is.map (keyCol h) = cs.map some) (h0 : Contents p cut ix0)
      (hs : SortPart (getKind kw.kind) cs cut ix0 ix) : Body w allocFails is kw h ((h.new a).store h.next w ix) (.sorted h.next ix)
  | inPlace {cut} {p : Plan} {o : Nat} {cs : List Col} {ix0 ix : List Nat}
      (hc : checks w is kw h = .inr (cut, p)) (hp : p.obj = some o)
      (hcs : is.map (keyCol h) = cs.map some) (h0 : Contents p cut ix0)
      (hs : SortPart (getKind kw.kind) cs cut ix0 ix) : Body w allocFails is kw h ((h.incref o).store o w ix) (.sorted o ix)
  | negative {p : Plan} {g : List Int} (hc : checks w is kw h = .inr (none, p)) (hst : p.start = .given g)
      (hg : naturals g = none) : Body w allocFails is kw h h .fault
  | sortFault {cut} {p : Plan} {cs : List Col} {ix0 : List Nat} (hc : checks w is kw h = .inr (cut, p))
      (hcs : is.map (keyCol h) = cs.map some) (h0 : Contents p cut ix0)
      (hs : ¬ ∃ ix, SortPart (getKind kw.kind) cs cut ix0 ix) : Body w allocFails is kw h h .fault

/-- lexsort<UINDEX> (sorting.cpp 368-478): prepare, the body, and CMultiListPrepare's destructor (343-348). -/
inductive Lexsort (w : Nat) (fails : Nat → Bool) (allocFails : Bool) (args : List PyObj) (kw : Kw) (h : Heap) : Heap → Out → Prop where
  | fault {h1} (hp : prepare fails args h = (h1, .fault)) : Lexsort w fails allocFails args kw h h1 .fault
  | null {h1} (hp : prepare fails args h = (h1, .null)) : Lexsort w fails allocFails args kw h h1 .noneAndError
  | body {h1 h2 is o} (hp : prepare fails args h = (h1, .ok is)) (hb : Body w allocFails is kw h1 h2 o) :
      Lexsort w fails allocFails args kw h (freeInfo is h2) o

/-- What Python code sees (sort.py 291-294). -/
inductive PyResult (α : Type) where
  | value (v : α)
  | none
  | raised
  | crash

/-- `pnumpy.lexsort` (sort.py 291-294): lexsort32, and np.lexsort (`numpy`) if it raises anything. -/
def pyLexsort {α : Type} (val : Nat → List Nat → α) (numpy : PyResult α) : Out → PyResult α
  | .sorted o ix => .value (val o ix)
  | .none => .none
  | .error => numpy
  | .noneAndError => numpy
  | .fault => .crash

end Pnumpy.LexEntry

import Verif.Model.RecArray
import Verif.Model.Strides
/-
Model of the C entry point recarray_to_colmajor (src/pnumpy/conversions.cpp): what it reads from its arguments, what it checks, and what
it hands to RecArrayToColMajor (Model/RecArray.lean).

Memory is a list of buffers of bytes; an array object says in which buffer and where its data starts. The pointers stored in
an object array are kept apart from the bytes, as `slots`. An object is the number of an array, or `none` for an object that is not an
array. Simplifications: object arrays are aligned to 8 bytes; the conversion reads the record array as it was on entry (the
output arrays do not overlap it); memory before the data pointer of the record array counts as outside it; int64 arithmetic
does not wrap.
-/
namespace Pnumpy.RecEntry
open RecArray

/-- A byte (src/pnumpy/conversions.cpp:71-84). -/
abbrev Byte := BitVec 8

/-- The fields of PyArrayObject read at src/pnumpy/conversions.cpp:46-84. -/
structure Arr where
  typenum : Nat
  itemsize : Nat
  dims : List Nat
  strides : List Int
  buf : Nat
  start : Nat
  slots : List (Option Nat) := []

/-- The memory and the array objects (src/pnumpy/conversions.cpp:46-86). -/
structure World where
  bufs : List (List Byte)
  arrays : List Arr

/-- NPY_OBJECT and NPY_VOID (for src/pnumpy/conversions.cpp:53-60). -/
def NPY_OBJECT : Nat := 17
/-- See NPY_OBJECT (for src/pnumpy/conversions.cpp:53-60). -/
def NPY_VOID : Nat := 20

/-- The cast `(PyArrayObject*)` followed by a field access, conversions.cpp 38-40: not checked, so undefined (`none`) for another object. -/
def World.arr? (w : World) (o : Option Nat) : Option Arr := o.bind (w.arrays[·]?)

/-- The bytes from PyArray_BYTES on, to the end of the buffer (conversions.cpp 71-72, 86). -/
def World.data (w : World) (a : Arr) : List Byte := (w.bufs.getD a.buf []).drop a.start

/-- A little-endian number. (the int64_t load of conversions.cpp 82) -/
def leNat : List Byte → Nat
  | [] => 0
  | b :: bs => b.toNat + 256 * leNat bs

/-- `pOffsets[i]`, conversions.cpp 82: eight bytes, whatever the type and the strides of the offsets array. -/
def int64At (bytes : List Byte) (i : Nat) : Option Int :=
  if 8 * i + 8 ≤ bytes.length then some (BitVec.ofNat 64 (leNat ((bytes.drop (8 * i)).take 8))).toInt else none

/-- Iteration `i` of the loop at conversions.cpp 79-84: the column, and where its output starts. -/
def colAt (w : World) (offs : List Byte) (slots : List (Option Nat)) (i : Nat) : Option (Col × Nat × Nat) := do
  let o ← slots[i]?
  let a ← w.arr? o
  let off ← int64At offs i
  some (⟨off, a.itemsize⟩, a.buf, a.start)

/-- The loop, conversions.cpp 79-84: iterations 0 .. n - 1. -/
def colsUpTo (w : World) (offs : List Byte) (slots : List (Option Nat)) : Nat → Option (List (Col × Nat × Nat))
  | 0 => some []
  | n + 1 => do
    let cs ← colsUpTo w offs slots n
    let c ← colAt w offs slots n
    some (cs ++ [c])

/-- Where the part before the call of RecArrayToColMajor ends (conversions.cpp 37-88). -/
inductive Prep where
  | raises (msg : String)
  | crash
  | convert (rec : List Byte) (itemSize rows : Nat) (cols : List (Col × Nat × Nat))

/-- conversions.cpp 37-86. `alloc`: WORKSPACE_ALLOC (line 77) gives memory; its result is not checked. -/
def prepare (w : World) (alloc : Bool) (args : List (Option Nat)) : Prep :=
  match args with
  | [o1, o2, o3] =>
    match w.arr? o1 with
    | none => .crash
    | some inArr =>
      match inArr.strides with
      | [] => .crash
      | stride0 :: _ =>
        if (inArr.itemsize : Int) ≠ stride0 then .raises "recarray_to_colmajor cannot yet handle strides"
        else if inArr.typenum ≠ NPY_VOID then .raises "recarray_to_colmajor must be void type"
        else
          match w.arr? o3 with
          | none => .crash
          | some arrArr =>
            if arrArr.typenum ≠ NPY_OBJECT then .raises "recarray_to_colmajor third param must be object array"
            else
              match w.arr? o2 with
              | none => .crash
              | some offsetArr =>
                let numArrays := Strides.calcArrayLength arrArr.dims
                if numArrays ≠ Strides.calcArrayLength offsetArr.dims then .raises "recarray_to_colmajor inputs do not match"
                else if alloc = false ∧ 0 < numArrays then .crash
                else
                  match colsUpTo w (w.data offsetArr) arrArr.slots numArrays with
                  | none => .crash
                  | some cols => .convert (w.data inArr) inArr.itemsize (Strides.calcArrayLength inArr.dims) cols
  | _ => .raises "recarray_to_colmajor must input 3 numpy arrays"

/-- The writes of the conversion (recarray.cpp 63-139), at the places the output pointers give: `dests i` is the buffer and the position where the
data of output `i` starts. -/
def runHeap (dests : List (Nat × Nat)) (bufs : List (List Byte)) : List (Write Byte) → Option (List (List Byte))
  | [] => some bufs
  | (i, off, x) :: ws => do
    let (b, p) ← dests[i]?
    let buf ← bufs[b]?
    let buf' ← Chunks.write buf (p + off) x
    runHeap dests (bufs.set b buf') ws

/-- How a call ends: ValueError, None, or an access outside the arrays (or division by zero). (conversions.cpp 42-101) -/
inductive Outcome where
  | raised (msg : String) (bufs : List (List Byte))
  | returned (bufs : List (List Byte))
  | crashed

/-- recarray_to_colmajor, conversions.cpp 24-102, under any schedule of the threads. No outcome: the call never ends. -/
inductive Call (w : World) (alloc : Bool) (args : List (Option Nat)) : Outcome → Prop where
  | raised {msg : String} : prepare w alloc args = .raises msg → Call w alloc args (.raised msg w.bufs)
  | crash : prepare w alloc args = .crash → Call w alloc args .crashed
  | divide {rec : List Byte} {isz rows : Nat} {cols : List (Col × Nat × Nat)} : prepare w alloc args = .convert rec isz rows cols →
      chunkRows isz = none → Call w alloc args .crashed
  | reads {rec : List Byte} {isz rows chunk : Nat} {cols : List (Col × Nat × Nat)} {calls : List (Nat × Nat)} {c : Nat × Nat} :
      prepare w alloc args = .convert rec isz rows cols → chunkRows isz = some chunk → Calls rows calls → c ∈ calls →
      Conv rec isz chunk (cols.map Prod.fst) c.2 c.1 none → Call w alloc args .crashed
  | writes {rec : List Byte} {isz rows chunk : Nat} {cols : List (Col × Nat × Nat)} {calls : List (Nat × Nat)} {ws ws' : List (Write Byte)} :
      prepare w alloc args = .convert rec isz rows cols → chunkRows isz = some chunk → Calls rows calls →
      AllConv rec isz chunk (cols.map Prod.fst) calls ws → ws'.Perm ws →
      runHeap (cols.map Prod.snd) w.bufs ws' = none → Call w alloc args .crashed
  | returned {rec : List Byte} {isz rows chunk : Nat} {cols : List (Col × Nat × Nat)} {calls : List (Nat × Nat)} {ws ws' : List (Write Byte)}
      {bufs' : List (List Byte)} :
      prepare w alloc args = .convert rec isz rows cols → chunkRows isz = some chunk → Calls rows calls →
      AllConv rec isz chunk (cols.map Prod.fst) calls ws → ws'.Perm ws →
      runHeap (cols.map Prod.snd) w.bufs ws' = some bufs' → Call w alloc args (.returned bufs')

end Pnumpy.RecEntry

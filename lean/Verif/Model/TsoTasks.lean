import Verif.Model.TsoCounter
import Verif.Model.RecArray
/-
Task code, as loads and stores on a machine with store buffers (Model/TsoCounter), of the two threaded passes of indexing with a boolean mask (src/pnumpy/getitem.cpp)
and of the record array conversion (src/atop/recarray.cpp).

Simplifications: record array: every byte is a cell, and is loaded and stored by itself (the code moves 1, 2, 4, 8 or 32 bytes at a time; Model/RecArray has those
loops). Mask: a mask byte, a count and an item are one cell each (in the code an item of another size than 1, 2, 4, 8 is copied byte by byte, and the mask is
read 8 or 32 bytes at a time; the values are the same, Model/GetItem has those loops); both passes run with a work item.
-/
namespace Pnumpy.TsoCounter

variable {V : Type}

/-- The arrays of the call, as cells: mask, per-chunk counts (src/pnumpy/getitem.cpp:171, 184-186), values, result; how a mask byte is read as a truth value (getitem.cpp:126,
329), and how counts are stored and read. -/
structure MaskCells (V : Type) where
  isSet : V → Bool
  num : Nat → V
  toNat : V → Nat
  mask : Nat → Nat
  cnt : Nat → Nat
  val : Nat → Nat
  out : Nat → Nat

/-- SumBooleanMask of `k` mask bytes from `i` on, with `s` counted so far, then the store of the chunk's count (src/pnumpy/getitem.cpp:192-196, 121-138). -/
def countCode (M : MaskCells V) (b i : Nat) : Nat → Nat → Prog V
  | 0, s => .store (M.cnt b) (M.num s) .done
  | k + 1, s => .load (M.mask i) fun v => countCode M b (i + 1) k (if M.isSet v then s + 1 else s)

/-- Task `b` of the counting pass, lambdaBSCallback (src/pnumpy/getitem.cpp:182-198, src/atop/threads.h:994-999). -/
def countTask (n : Nat) (M : MaskCells V) (b : Nat) : Prog V :=
  countCode M b (Work.CHUNK * b) ((Work.workMainSetup n 0 0 Work.CHUNK true 0).blockLen b) 0

/-- What the calling thread stores between the passes: each count is replaced by the sum of the ones before (src/pnumpy/getitem.cpp:264-271). `m` is memory after the
counting pass; a cell is read before it is overwritten. -/
def cumStores (M : MaskCells V) (m : Nat → V) (b : Nat) : Nat → Nat → List (Nat × V)
  | 0, _ => []
  | k + 1, total => (M.cnt b, M.num total) :: cumStores M m (b + 1) k (total + M.toNat (m (M.cnt b)))

/-- The loop of the copying pass on `k` elements from `i` on, `o` the next result element (src/pnumpy/getitem.cpp:323-347). -/
def pickCode (M : MaskCells V) (i : Nat) : Nat → Nat → Prog V
  | 0, _ => .done
  | k + 1, o => .load (M.mask i) fun v =>
    if M.isSet v then .load (M.val i) fun x => .store (M.out o) x (pickCode M (i + 1) k (o + 1))
    else pickCode M (i + 1) k o

/-- Task `b` of the copying pass, lambdaBICallback2 (src/pnumpy/getitem.cpp:293-347, src/atop/threads.h:994-999): it starts at the result element found in the
chunk's count cell. -/
def pickTask (n : Nat) (M : MaskCells V) (b : Nat) : Prog V :=
  .load (M.cnt b) fun o => pickCode M (Work.CHUNK * b) ((Work.workMainSetup n 0 0 Work.CHUNK true 0).blockLen b) (M.toNat o)

/-- A sequence of copies `destination := source` (for src/atop/recarray.cpp:63-139). -/
def copyCode : List (Nat × Nat) → Prog V
  | [] => .done
  | (a, d) :: l => .load a fun x => .store d x (copyCode l)

/-- The cells of the record array (`src`, by byte) and of output array number `i` (`out i`, by byte) (src/atop/common_inc.h:432-440). -/
structure RecCells where
  src : Nat → Nat
  out : Nat → Nat → Nat

/-- Column `i` for the rows `s .. e - 1`: the bytes of the field, row after row (src/atop/recarray.cpp:64-138). -/
def columnCopies (R : RecCells) (itemSize i : Nat) (c : RecArray.Col) (s e : Nat) : List (Nat × Nat) :=
  (List.range' s (e - s)).flatMap fun r => (List.range c.itemsize).map fun k => (R.src (r * itemSize + c.readoffset.toNat + k), R.out i (r * c.itemsize + k))

/-- ConvertRecArray for the rows `s .. e - 1`, `chunk` rows at a time, for these rows column after column (src/atop/recarray.cpp:51-140). -/
def convCopies (R : RecCells) (itemSize chunk : Nat) (cols : List RecArray.Col) (s e : Nat) : List (Nat × Nat) :=
  (List.range ((e - s + (chunk - 1)) / chunk)).flatMap fun q => cols.zipIdx.flatMap fun ci =>
    columnCopies R itemSize ci.2 ci.1 (s + q * chunk) (min (s + q * chunk + chunk) e)

/-- Work item `b`, lambdaConvertRecCallback (src/atop/recarray.cpp:189-208). -/
def recTask (R : RecCells) (itemSize chunk : Nat) (cols : List RecArray.Col) (rows b : Nat) : Prog V :=
  copyCode (convCopies R itemSize chunk cols (RecArray.rowBlock rows b).1 (RecArray.rowBlock rows b).2)

end Pnumpy.TsoCounter

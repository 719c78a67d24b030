import Verif.Spec.LexSort
/-
numpy arrays as the caller of lexsort sees them: shape, strides, element type, byte order and bytes.
-/
namespace Pnumpy.Spec

/-- The number stored in the `k` bytes from `p` on, lowest byte first. -/
def littleEndian (mem : Int → BitVec 8) (p : Int) : Nat → Nat
  | 0 => 0
  | k + 1 => (mem p).toNat + 256 * littleEndian mem (p + 1) k

/-- The number stored in the `k` bytes from `p` on, highest byte first. -/
def bigEndian (mem : Int → BitVec 8) (p : Int) : Nat → Nat
  | 0 => 0
  | k + 1 => (mem p).toNat * 256 ^ k + bigEndian mem (p + 1) k

/-- What the elements of a key array are. -/
inductive ColType where
  | num (t : DT)
  | half
  | bytes
  | unicode
deriving DecidableEq

/-- numpy's type numbers (64-bit Linux); `none`: not a type of key considered here. -/
def colType (dtype : Int) : Option ColType :=
  [some (.num .bool), some (.num .i8), some (.num .u8), some (.num .i16), some (.num .u16), some (.num .i32), some (.num .u32),
   some (.num .i64), some (.num .u64), some (.num .i64), some (.num .u64), some (.num .f32), some (.num .f64), none, none, none,
   none, none, some .bytes, some .unicode, none, none, none, some .half].getD dtype.toNat none

/-- Bytes per element, where the type fixes it. -/
def ColType.size : ColType → Option Nat
  | .num t => some (t.bits / 8)
  | .half => some 2
  | .bytes => none
  | .unicode => none

/-- The column of `n` elements that begin at `p`, `p + step`, `p + 2 step`, ...; `load p k` is the number in `k` bytes. -/
def columnWith (load : Int → Nat → Nat) (ct : ColType) (p step : Int) (itemsize n : Nat) : Col :=
  match ct with
  | .num t => .num t ((List.range n).map fun (i : Nat) => BitVec.ofNat t.bits (load (p + step * i) (t.bits / 8)))
  | .half => .half ((List.range n).map fun (i : Nat) => BitVec.ofNat 16 (load (p + step * i) 2))
  | .bytes => .str 8 itemsize ((List.range n).map fun (i : Nat) => (List.range itemsize).map fun (j : Nat) => BitVec.ofNat 8 (load (p + step * i + j) 1))
  | .unicode => .str 32 (itemsize / 4)
      ((List.range n).map fun (i : Nat) => (List.range (itemsize / 4)).map fun (j : Nat) => BitVec.ofNat 32 (load (p + step * i + 4 * j) 4))

/-- A numpy array. `mem p` is the byte at distance `p` from the data pointer. -/
structure Arr where
  dims : List Nat
  strides : List Int
  itemsize : Nat
  dtype : Int
  swapped : Bool
  mem : Int → BitVec 8

/-- Number of elements. -/
def Arr.size (a : Arr) : Nat := a.dims.foldl (· * ·) 1

/-- `a` is a 1-D array with `n` elements denoting the column `c`. -/
def Arr.Denotes (a : Arr) (n : Nat) (c : Col) : Prop :=
  ∃ s ct, a.dims = [n] ∧ a.strides = [s] ∧ colType a.dtype = some ct ∧ (∀ k, ct.size = some k → a.itemsize = k) ∧
    c = columnWith (if a.swapped then bigEndian a.mem else littleEndian a.mem) ct 0 s a.itemsize n

/-- Walk over dimensions (fastest first): every stride (of a dimension other than 1) is the size of what is below it. -/
def packed (unit : Int) : List (Nat × Int) → Bool
  | [] => true
  | (d, s) :: r => if d = 1 then packed unit r else decide (s = unit) && packed (unit * d) r

/-- numpy's flags C_CONTIGUOUS and F_CONTIGUOUS (numpy's `_UpdateContiguousFlags`; arrays without elements are contiguous). -/
def Arr.contiguous (a : Arr) : Bool :=
  a.dims.contains 0 || packed a.itemsize (a.dims.zip a.strides).reverse || packed a.itemsize (a.dims.zip a.strides)

/-- Python objects as far as lexsort distinguishes them; arrays are named by numbers. -/
inductive PyObj where
  | none
  | array (id : Nat)
  | list (xs : List PyObj)
  | tuple (xs : List PyObj)
  | other

end Pnumpy.Spec

namespace Pnumpy.Spec

/-- The numpy types lexsort takes: booleans, integers, floats (also float16 and long double), byte strings and unicode. -/
def KeyType (dtype : Int) : Prop := (0 ≤ dtype ∧ dtype ≤ 13) ∨ dtype = 18 ∨ dtype = 19 ∨ dtype = 23

instance (d : Int) : Decidable (KeyType d) := by unfold KeyType; infer_instance

/-- Numbers numpy gives to types: the builtin ones, and those of user-defined types. -/
def TypeNumber (dtype : Int) : Prop := (0 ≤ dtype ∧ dtype < 24) ∨ 256 ≤ dtype

/-- `ix` is `ix0` in ascending order; among rows with equal keys every relation that the order of `ix0` obeys is kept. -/
def IsStableReorder (before : Nat → Nat → Prop) (ix0 ix : List Nat) : Prop :=
  ix.Perm ix0 ∧ ∀ R : Nat → Nat → Prop, ix0.Pairwise R →
    ix.Pairwise fun i j => ¬ before j i ∧ (¬ before i j → R i j)

/-- The integers a packed native array of `w`-byte signed integers holds. -/
def Arr.HoldsInts (a : Arr) (w : Nat) (xs : List Int) : Prop :=
  a.dims = [xs.length] ∧ a.strides = [(w : Int)] ∧ a.swapped = false ∧
  ∀ i : Nat, ∀ x, xs[i]? = some x → x = (BitVec.ofNat (8 * w) (littleEndian a.mem ((w : Int) * i) w)).toInt

end Pnumpy.Spec

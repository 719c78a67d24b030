import Verif.Model.RecEntry
import Verif.Spec.Shape
/-
What an element of an array in memory is, and what "contiguous" and "an array of int64 values" mean, for C77.
-/
namespace Pnumpy.Spec
open RecEntry

/-- The bytes of the element with index tuple `idx`. -/
def elemBytes (bufs : List (List Byte)) (a : Arr) (idx : List Nat) : List Byte :=
  ((bufs.getD a.buf []).drop (a.start + offset a.strides idx).toNat).take a.itemsize

/-- C-contiguous: the elements follow each other in C order. -/
def CContig (a : Arr) : Prop := ∀ idx, inBounds a.dims idx → offset a.strides idx = posC a.dims idx * a.itemsize

/-- The elements of a contiguous array lie in its buffer. -/
def InBuffer (bufs : List (List Byte)) (a : Arr) : Prop :=
  ∃ buf, bufs[a.buf]? = some buf ∧ a.start + count a.dims * a.itemsize ≤ buf.length

/-- Byte `q` of buffer `b` belongs to the contiguous array `a`. -/
def Owns (a : Arr) (b q : Nat) : Prop := b = a.buf ∧ a.start ≤ q ∧ q < a.start + count a.dims * a.itemsize

/-- The `k` bytes of `n`, least significant first. -/
def le : Nat → Nat → List Byte
  | 0, _ => []
  | k + 1, n => BitVec.ofNat 8 n :: le k (n / 256)

end Pnumpy.Spec

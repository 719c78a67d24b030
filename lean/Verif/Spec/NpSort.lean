import Verif.Spec.LexEntry
/-
A line of an array along one axis, as np.sort, np.argsort and np.lexsort see it.
-/
namespace Pnumpy.Spec

/-- The `n` elements of type `t` that begin at byte `p` of the array, `s` bytes apart, read in the array's byte order. -/
def Arr.lane (a : Arr) (t : DT) (p s : Int) (n : Nat) : List (BitVec t.bits) :=
  (List.range n).map fun (i : Nat) =>
    BitVec.ofNat t.bits ((if a.swapped then bigEndian a.mem else littleEndian a.mem) (p + s * i) (t.bits / 8))

/-- There is a line of `n` elements along some axis of the array that begins at byte `p`, with `s` bytes from element to
element: all coordinates but one are fixed (`c`, with 0 for the axis). -/
def Arr.IsLane (a : Arr) (p s : Int) (n : Nat) : Prop :=
  a.strides.length = a.dims.length ∧
  ∃ ax : Nat, a.dims[ax]? = some n ∧ a.strides[ax]? = some s ∧
    ∃ c : List Nat, c.length = a.dims.length ∧ c[ax]? = some 0 ∧ (∀ i x d : Nat, i ≠ ax → c[i]? = some x → a.dims[i]? = some d → x < d) ∧
      p = (List.zipWith (fun (x : Nat) (y : Int) => x * y) c a.strides).sum

/-- The array has elements of type `t`. -/
def Arr.HasType (a : Arr) (t : DT) : Prop := 0 ≤ a.dtype ∧ colType a.dtype = some (.num t) ∧ a.itemsize = t.bits / 8

/-- The array is one numpy could have made, as far as the line goes: booleans are stored as 0 or 1. -/
def ProperBools (t : DT) (l : List (BitVec t.bits)) : Prop := t = .bool → ∀ x ∈ l, x.toNat ≤ 1

/-- The order of a sorted float16 array: ascending numbers, NaNs last. -/
def halfBefore (x y : BitVec 16) : Prop :=
  (floatValue 5 10 x).lt (floatValue 5 10 y) ∨ (floatValue 5 10 y = .nan ∧ floatValue 5 10 x ≠ .nan)

instance : DecidableRel halfBefore := fun x y => by unfold halfBefore; infer_instance

end Pnumpy.Spec

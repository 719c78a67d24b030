import Verif.Spec.Shape
/-
Array length and the "one loop can process all data" classification of src/pnumpy/common.cpp.
Dimensions and strides as numpy stores them; int64 products are not wrapped (numpy guarantees that the
byte size of an array fits).
-/
namespace Pnumpy.Strides

/-- `CalcArrayLength`, common.cpp:83-97. -/
def calcArrayLength (dims : List Nat) : Nat := dims.foldl (fun length d => length * d) 1

/-- The C walk, common.cpp:507-515: from dimension `k` down while the strides continue. -/
def rowWalk (dims : List Nat) (strides : List Int) : Nat → Int → Nat
  | 0, _ => 0
  | k + 1, cur =>
    let cur' := cur * (dims.getD (k + 1) 0 : Nat)
    if strides.getD k 0 ≠ cur' then k + 1 else rowWalk dims strides k cur'

/-- The Fortran walk, common.cpp:521-529: from dimension `k` up, `left` dimensions remain. -/
def colWalk (dims : List Nat) (strides : List Int) : Nat → Nat → Int → Nat
  | 0, k, _ => k
  | left + 1, k, cur =>
    let cur' := cur * (dims.getD k 0 : Nat)
    if strides.getD (k + 1) 0 ≠ cur' then k else colWalk dims strides left (k + 1) cur'

/-- `GetStridesAndContig`, common.cpp:487-537: (direction, stride). -/
def getStridesAndContig (itemsize : Int) (dims : List Nat) (strides : List Int) : Int × Int :=
  let nd := dims.length
  if nd = 0 then (0, itemsize)
  else
    let stride := strides.getD 0 0
    if nd ≤ 1 then (0, stride)
    else
      let last := strides.getD (nd - 1) 0
      if last = stride then (0, stride)
      else if last.natAbs < stride.natAbs then ((rowWalk dims strides (nd - 1) last : Nat), last)
      else ((colWalk dims strides (nd - 1) 0 stride : Nat) - ((nd - 1 : Nat) : Int), stride)

end Pnumpy.Strides

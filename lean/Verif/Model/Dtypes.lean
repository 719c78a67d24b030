/-
The dtype conversion tables of src/pnumpy/_pnumpy.cpp (Linux, gcc: the non-MSVC branch; LP64, so
NPY_INT64 = 7, NPY_UINT64 = 8; sizeof(long double) = 16).
-/
namespace Pnumpy.Dtypes

/-- `convert_dtype_to_atop`, _pnumpy.cpp:7-26, with the values of the enum in src/atop/atop.h. -/
def dtypeToAtop : List Int :=
  [0, 1, 2, 3, 4, 5, 6, 7, 8, 7, 8, 12, 13, 14, 16, 17, 18, -1, 19, 20, 21, -1, -1, 11]

/-- `convert_atop_to_dtype`, _pnumpy.cpp:29-41. -/
def atopToDtype : List Int :=
  [0, 1, 2, 3, 4, 5, 6, 7, 8, 9, 10, 23, 11, 12, 13, 23, 14, 15, 16, 18, 19, 20]

/-- `convert_atop_to_itemsize`, _pnumpy.cpp:44-54. -/
def atopItemsize : List Nat :=
  [1, 1, 1, 2, 2, 4, 4, 8, 8, 16, 16, 2, 4, 8, 16, 4, 8, 16, 32, 1, 4, 0]

/-- Result of reading a C array: a value, or an access outside the array (the table accesses of src/pnumpy/_pnumpy.cpp:58-63). -/
inductive Read where
  | val (v : Int)
  | outside
deriving DecidableEq, Repr

/-- Reading `a[i]` (bounds checked in the model) (src/pnumpy/_pnumpy.cpp:58-63). -/
def rd (a : List Int) (i : Nat) : Read := match a[i]? with
  | some v => .val v
  | none => .outside

/-- `sizeof(int)` (in the range check of src/pnumpy/_pnumpy.cpp:58-63). -/
def sizeofInt : Nat := 4

/-- `dtype_to_atop`, _pnumpy.cpp:58-63: the bound is `sizeof` of the array in bytes. -/
def dtypeToAtopFn (dtype : Int) : Read :=
  if 0 ≤ dtype ∧ dtype < (dtypeToAtop.length * sizeofInt : Nat) then rd dtypeToAtop dtype.toNat else .val (-1)

end Pnumpy.Dtypes

/-
IEEE-754 bit patterns with `E` exponent and `M` fraction bits (float: 8, 23; double: 11, 52), and the
comparison predicates of the CPU (`_mm256_cmp_ps/pd` and the C++ operators on float/double).
-/
namespace Pnumpy.Ieee

/-- The pattern without its sign bit (operand type of src/atop/ops_compare.cpp:453-782 and src/atop/ops_unary.cpp:190-212; IEEE-754). -/
def mag (E M : Nat) {k : Nat} (x : BitVec k) : Nat := x.toNat % 2 ^ (E + M)
/-- The sign bit (operand type of src/atop/ops_compare.cpp:453-782 and src/atop/ops_unary.cpp:190-212; IEEE-754). -/
def neg (E M : Nat) {k : Nat} (x : BitVec k) : Bool := x.toNat.testBit (E + M)
/-- Pattern of +infinity (exponent all ones, fraction 0) (operand type of src/atop/ops_compare.cpp:453-782 and src/atop/ops_unary.cpp:190-212; IEEE-754). -/
def infMag (E M : Nat) : Nat := (2 ^ E - 1) * 2 ^ M

/-- Quiet or signalling NaN: exponent all ones, fraction nonzero (operand type of src/atop/ops_compare.cpp:453-782 and src/atop/ops_unary.cpp:190-212; IEEE-754). -/
def isNaN (E M : Nat) {k : Nat} (x : BitVec k) : Bool := infMag E M < mag E M x
/-- Sign-magnitude integer of the pattern; both zeros give 0 (operand type of src/atop/ops_compare.cpp:453-782 and src/atop/ops_unary.cpp:190-212; IEEE-754). -/
def key (E M : Nat) {k : Nat} (x : BitVec k) : Int :=
  if neg E M x then -(mag E M x : Int) else (mag E M x : Int)

/-- `x == y` in C++, `_CMP_EQ_OQ` (src/atop/ops_compare.cpp:366, 1303). -/
def feq (E M : Nat) {k : Nat} (x y : BitVec k) : Bool :=
  !isNaN E M x && !isNaN E M y && (key E M x == key E M y)
/-- `x != y` in C++, `_CMP_NEQ_UQ` (src/atop/ops_compare.cpp:1304). -/
def fne (E M : Nat) {k : Nat} (x y : BitVec k) : Bool := !feq E M x y
/-- `_CMP_NEQ_OQ`: false if either operand is NaN (src/atop/ops_unary.cpp:634-719). -/
def fneOrdered (E M : Nat) {k : Nat} (x y : BitVec k) : Bool :=
  !isNaN E M x && !isNaN E M y && (key E M x != key E M y)
/-- `x < y` in C++, `_CMP_LT_OQ` (src/atop/ops_compare.cpp:1305-1310). -/
def flt (E M : Nat) {k : Nat} (x y : BitVec k) : Bool :=
  !isNaN E M x && !isNaN E M y && decide (key E M x < key E M y)
/-- `x <= y` in C++, `_CMP_LE_OQ` (src/atop/ops_compare.cpp:1305-1310). -/
def fle (E M : Nat) {k : Nat} (x y : BitVec k) : Bool :=
  !isNaN E M x && !isNaN E M y && decide (key E M x ≤ key E M y)

end Pnumpy.Ieee

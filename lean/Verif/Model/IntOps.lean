/-
Scalar and per-lane integer operations of the kernels.  An integer element of `k` bits is a
`BitVec k`; signed types are read in two's complement.  C++ signed overflow is taken to wrap (the
vector instructions do; the scalar loops are compiled that way).
-/
namespace Pnumpy.IntOps
variable {k : Nat}

/-- `AddOp` (/repo/src/atop/ops_binary.cpp 59); `_mm256_add_epi*` per lane (119-122). -/
def addOp (x y : BitVec k) : BitVec k := x + y
/-- `SubOp` (/repo/src/atop/ops_binary.cpp 60); `_mm256_sub_epi*` (126-129). -/
def subOp (x y : BitVec k) : BitVec k := x - y
/-- `MulOp` (/repo/src/atop/ops_binary.cpp 61); `_mm256_mullo_epi16/32` (133-134). -/
def mulOp (x y : BitVec k) : BitVec k := x * y
/-- `MinOp` on a signed type (/repo/src/atop/ops_binary.cpp 62); `_mm256_min_epi*` (140-145). -/
def sminOp (x y : BitVec k) : BitVec k := if x.slt y then x else y
/-- `MaxOp` on a signed type (/repo/src/atop/ops_binary.cpp 63). -/
def smaxOp (x y : BitVec k) : BitVec k := if y.slt x then x else y
/-- `MinOp` on an unsigned type (/repo/src/atop/ops_binary.cpp 62). -/
def uminOp (x y : BitVec k) : BitVec k := if x.ult y then x else y
/-- `MaxOp` on an unsigned type (/repo/src/atop/ops_binary.cpp 63). -/
def umaxOp (x y : BitVec k) : BitVec k := if y.ult x then x else y

/-- `FloorDivOp` on a signed type (/repo/src/atop/ops_binary.cpp 68-79); `/` and `%` truncate
(`INT_MIN / -1` is undefined in C++, here it wraps). Not hooked for integers at this commit
(the table 940-950 requires a floating type). -/
def sfloorDivOp (x y : BitVec k) : BitVec k :=
  if y ≠ 0 then
    if x.slt 0 = y.slt 0 then x.sdiv y
    else if x.srem y ≠ 0 then x.sdiv y - 1 else x.sdiv y
  else 0

/-- `FloorDivOp` on an unsigned type (same lines: `x < 0`, `y < 0` are false) (/repo/src/atop/ops_binary.cpp 68-79). -/
def ufloorDivOp (x y : BitVec k) : BitVec k := if y ≠ 0 then x.udiv y else 0

/-- `AndOp`, `OrOp`, `XorOp`, `AndNotOp` (/repo/src/atop/ops_binary.cpp 85-89, 176-182). -/
def andOp (x y : BitVec k) : BitVec k := x &&& y
/-- `OrOp` (/repo/src/atop/ops_binary.cpp 85-89). -/
def orOp (x y : BitVec k) : BitVec k := x ||| y
/-- `XorOp` (/repo/src/atop/ops_binary.cpp 85-89). -/
def xorOp (x y : BitVec k) : BitVec k := x ^^^ y
/-- `AndNotOp` (/repo/src/atop/ops_binary.cpp 85-89, 176-182). -/
def andNotOp (x y : BitVec k) : BitVec k := ~~~x &&& y

/-- One 64-bit lane of `MUL_OP_256u64` (/repo/src/atop/ops_binary.cpp 163-175).
`_mm256_mul_epu32` multiplies the low 32 bits of each operand into 64 bits. -/
def mulEpu32 (x y : BitVec 64) : BitVec 64 := (x.setWidth 32).setWidth 64 * (y.setWidth 32).setWidth 64
/-- `MUL_OP_256u64`, one lane (/repo/src/atop/ops_binary.cpp 163-175). -/
def mulU64 (x y : BitVec 64) : BitVec 64 :=
  let lo1 := x &&& 0xFFFFFFFF#64
  let lo2 := y &&& 0xFFFFFFFF#64
  let hi1 := x >>> 32
  let hi2 := y >>> 32
  let add1 := mulEpu32 lo1 lo2
  let add2 := mulEpu32 lo1 hi2 <<< 32
  let add3 := mulEpu32 lo2 hi1 <<< 32
  add1 + (add2 + add3)

/-! ### Unary operations (/repo/src/atop/ops_unary.cpp 182-199, 265-290) -/

/-- `ABS_OP` on a signed type: `x < 0 ? -x : x`; `_mm256_abs_epi*` per lane (/repo/src/atop/ops_unary.cpp 183, 274-276). -/
def absOp (x : BitVec k) : BitVec k := if x.slt 0 then -x else x
/-- `NEG_OP` (/repo/src/atop/ops_unary.cpp 192). -/
def negOp (x : BitVec k) : BitVec k := -x
/-- `NEG_OP_256i*`: `0 - x` per lane (/repo/src/atop/ops_unary.cpp 290-293). -/
def negVecOp (x : BitVec k) : BitVec k := 0 - x
/-- `SIGN_OP` on a signed type (/repo/src/atop/ops_unary.cpp 187). -/
def signOp (x : BitVec k) : BitVec k := if (0 : BitVec k).slt x then 1 else if x.slt 0 then -1 else 0
/-- `INVERT_OP` / `BITWISE_NOT_OP` (/repo/src/atop/ops_unary.cpp 193-194). -/
def invertOp (x : BitVec k) : BitVec k := ~~~x
/-- `INVERT_OP_BOOL`: `x ^ 1` on a boolean byte (/repo/src/atop/ops_unary.cpp 195). -/
def invertBoolOp (x : BitVec 8) : BitVec 8 := x ^^^ 1
/-- `NOT_OP`: boolean `x == 0` (/repo/src/atop/ops_unary.cpp 197). -/
def notOp (x : BitVec k) : Bool := x == 0

end Pnumpy.IntOps

import Verif.Model.Ieee
import Verif.Spec.Value
/-
Float element operations that pnumpy implements without a library call, on bit patterns, and the
C library function behind np.rint.
-/
namespace Pnumpy.FloatOps
open Pnumpy.Ieee Pnumpy.Spec

/-- `MinOp` (/repo/src/atop/ops_binary.cpp 62) on float/double; `_mm256_min_ps/pd` (146-147)
(MIN_OP_256, the vector part) is documented by Intel as the same `x < y ? x : y`. -/
def fmin (E M : Nat) {k : Nat} (x y : BitVec k) : BitVec k := if flt E M x y then x else y
/-- `MaxOp` (/repo/src/atop/ops_binary.cpp 63) and `_mm256_max_ps/pd`. -/
def fmax (E M : Nat) {k : Nat} (x y : BitVec k) : BitVec k := if flt E M y x then x else y

/-- The sign bit alone (the constant of src/atop/ops_unary.cpp:278-288). -/
def signMask (E M : Nat) (k : Nat) : BitVec k := BitVec.ofNat k (2 ^ (E + M))

/-- `-x` on float/double, `NEG_OP` (/repo/src/atop/ops_unary.cpp 192): the sign bit is flipped. -/
def negTail (E M : Nat) {k : Nat} (x : BitVec k) : BitVec k := x ^^^ signMask E M k
/-- `NEG_OP_256` (/repo/src/atop/ops_unary.cpp 295-306): `0.0 - x` in round to nearest: exact for
nonzero `x`, `+0.0` for both zeros, `x` with the quiet bit set for a NaN. -/
def negVec (E M : Nat) {k : Nat} (x : BitVec k) : BitVec k :=
  if isNaN E M x then x ||| BitVec.ofNat k (2 ^ (M - 1))
  else if mag E M x = 0 then 0
  else x ^^^ signMask E M k

/-- `ABS_OP_256` (/repo/src/atop/ops_unary.cpp 278-288): clear the sign bit. -/
def absVec (E M : Nat) {k : Nat} (x : BitVec k) : BitVec k := x &&& BitVec.ofNat k (2 ^ (E + M) - 1)
/-- `ABS_OP` (/repo/src/atop/ops_unary.cpp 183): `x < 0 ? -x : x`. -/
def absTail (E M : Nat) {k : Nat} (x : BitVec k) : BitVec k := if flt E M x 0 then negTail E M x else x

/-- The pattern of 1.0 (`(T)(1.0)` in src/atop/ops_unary.cpp:190). -/
def fone (E M : Nat) (k : Nat) : BitVec k := BitVec.ofNat k ((2 ^ (E - 1) - 1) * 2 ^ M)
/-- `FLOATSIGN_OP` (/repo/src/atop/ops_unary.cpp 190). -/
def floatSign (E M : Nat) {k : Nat} (x : BitVec k) : BitVec k :=
  if flt E M 0 x then fone E M k
  else if flt E M x 0 then negTail E M (fone E M k)
  else if feq E M x x then 0 else x

/-- C `round` (`ROUND_OP<double>`, /repo/src/atop/ops_unary.cpp 212), to which np.rint of a double is
mapped (/repo/src/pnumpy/_pnumpy.cpp 128; /repo/src/atop/ops_unary.cpp 1585-1590): nearest integer, ties
away from zero. On values: a finite number is given as `v/unit`. The later entry `rint -> RINT` (132) finds
no function and hooks nothing. -/
def cRound (unit : Int) : Value → Value
  | .fin v => .fin (if v < 0 then -(unit * ((2 * -v + unit) / (2 * unit))) else unit * ((2 * v + unit) / (2 * unit)))
  | x => x

end Pnumpy.FloatOps

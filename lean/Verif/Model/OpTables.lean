import Verif.Model.IntOps
import Verif.Model.FloatOps
import Verif.Model.Simd
import Verif.Model.Elementwise
import Verif.Model.Hooks
import Verif.Spec.Ops
/-
The operation tables: which kernel (template, scalar operation, register operation) serves which operation
code and element type.  `GetSimpleMathOpFast`, `GetReduceMathOpFast` (/repo/src/atop/ops_binary.cpp
872-1140), `GetReduceStartVal` (/repo/src/pnumpy/_pnumpy.cpp 604-632), `GetUnaryOpFast`, `GetUnaryOpSlow`
(/repo/src/atop/ops_unary.cpp 1252-1770).  long double entries are not modelled.  The float
instructions (`FloatUnit`) are a parameter; the packed instruction is the scalar one in every lane.
-/
namespace Pnumpy.OpTables
open Pnumpy.Simd Pnumpy.IntOps Pnumpy.FloatOps Pnumpy.Elem Pnumpy.Ieee
open Pnumpy.Spec (DT FloatUnit)
open Pnumpy.Hooks (Op)

/-- A packed two-operand instruction with lanes of `w` bits, as used in /repo/src/atop/ops_binary.cpp 109-181. -/
def lanes2 (w : Nat) (f : BitVec w → BitVec w → BitVec w) (x y : BitVec 256) : BitVec 256 :=
  ofLanes 256 w fun d => f (lane w x d) (lane w y d)
/-- A packed one-operand instruction with lanes of `w` bits, as used in /repo/src/atop/ops_unary.cpp 215-310. -/
def lanes1 (w : Nat) (f : BitVec w → BitVec w) (x : BitVec 256) : BitVec 256 :=
  ofLanes 256 w fun d => f (lane w x d)

/-- A `MATH_OP256` argument of the templates (/repo/src/atop/ops_binary.cpp 186, 398, 576). -/
abbrev Reg2 := BitVec 256 → BitVec 256 → BitVec 256

/-- `ADD_OP_256i8/16/32/64` (/repo/src/atop/ops_binary.cpp 119-122). -/
def ADD256 (w : Nat) : Reg2 := lanes2 w (· + ·)
/-- `SUB_OP_256i8/16/32/64` (/repo/src/atop/ops_binary.cpp 126-129). -/
def SUB256 (w : Nat) : Reg2 := lanes2 w (· - ·)
/-- `MUL_OP_256i16/32` (/repo/src/atop/ops_binary.cpp 133-134). -/
def MUL256 (w : Nat) : Reg2 := lanes2 w (· * ·)
/-- `ADD_OP_256f32/f64` (/repo/src/atop/ops_binary.cpp 110-118). -/
def FADD256 (F : FloatUnit) (w : Nat) : Reg2 := lanes2 w (F.add w)
/-- `SUB_OP_256f32/f64` (/repo/src/atop/ops_binary.cpp 124-125). -/
def FSUB256 (F : FloatUnit) (w : Nat) : Reg2 := lanes2 w (F.sub w)
/-- `MUL_OP_256f32/f64` (/repo/src/atop/ops_binary.cpp 131-132). -/
def FMUL256 (F : FloatUnit) (w : Nat) : Reg2 := lanes2 w (F.mul w)
/-- `DIV_OP_256f32/f64` (/repo/src/atop/ops_binary.cpp 136-137). -/
def FDIV256 (F : FloatUnit) (w : Nat) : Reg2 := lanes2 w (F.div w)
/-- `MIN_OP_256i8/16/32` (/repo/src/atop/ops_binary.cpp 140-145): per lane the signed minimum as documented by Intel. -/
def SMIN256 (w : Nat) : Reg2 := lanes2 w fun a b => if a.toInt < b.toInt then a else b
/-- `MAX_OP_256i8/16/32` (/repo/src/atop/ops_binary.cpp 149-154). -/
def SMAX256 (w : Nat) : Reg2 := lanes2 w fun a b => if b.toInt < a.toInt then a else b
/-- `MIN_OP_256u8/16/32` (/repo/src/atop/ops_binary.cpp 140-145). -/
def UMIN256 (w : Nat) : Reg2 := lanes2 w fun a b => if a.toNat < b.toNat then a else b
/-- `MAX_OP_256u8/16/32` (/repo/src/atop/ops_binary.cpp 149-154). -/
def UMAX256 (w : Nat) : Reg2 := lanes2 w fun a b => if b.toNat < a.toNat then a else b
/-- `MIN_OP_256f32/f64` (/repo/src/atop/ops_binary.cpp 146-147): `MINPS(a, b) = a < b ? a : b`. -/
def FMIN256 (E M w : Nat) : Reg2 := lanes2 w fun a b => if flt E M a b then a else b
/-- `MAX_OP_256f32/f64` (/repo/src/atop/ops_binary.cpp 155-156). -/
def FMAX256 (E M w : Nat) : Reg2 := lanes2 w fun a b => if flt E M b a then a else b
/-- `AND_OP_256` (/repo/src/atop/ops_binary.cpp 179) on the whole register. -/
def AND256 : Reg2 := fun x y => x &&& y
/-- `OR_OP_256` (/repo/src/atop/ops_binary.cpp 180). -/
def OR256 : Reg2 := fun x y => x ||| y
/-- `XOR_OP_256` (/repo/src/atop/ops_binary.cpp 181). -/
def XOR256 : Reg2 := fun x y => x ^^^ y
/-- `MUL_OP_256u64` (/repo/src/atop/ops_binary.cpp 159-177) with its register instructions. -/
def MUL256u64 : Reg2 := fun x y =>
  let masklo := set1 256 0xFFFFFFFF#64
  let srl := lanes1 64 (· >>> 32)
  let sll := lanes1 64 (· <<< 32)
  let mulEpu := lanes2 64 mulEpu32
  let lo1 := x &&& masklo
  let lo2 := y &&& masklo
  let hi1 := srl x
  let hi2 := srl y
  let add1 := mulEpu lo1 lo2
  let add2 := sll (mulEpu lo1 hi2)
  let add3 := sll (mulEpu lo2 hi1)
  lanes2 64 (· + ·) add1 (lanes2 64 (· + ·) add2 add3)

/-- A two-input kernel (/repo/src/atop/ops_binary.cpp 349-793): template, bits of `T`, `MATH_OP`, `MATH_OP256`. -/
structure TwoFunc where
  kernel : Kernel
  bits : Nat
  op : BitVec bits → BitVec bits → BitVec bits
  vec : Option Reg2

/-- An entry `SimpleMathOpFastSymmetric<T, ...>` (/repo/src/atop/ops_binary.cpp 577-793). -/
def symmOf (bits : Nat) (op : BitVec bits → BitVec bits → BitVec bits) (vec : Reg2) : TwoFunc :=
  ⟨.symmetric (bits / 8), bits, op, some vec⟩
/-- An entry `SimpleMathOpFast<T, ...>` (/repo/src/atop/ops_binary.cpp 399-571). -/
def fastOf (bits : Nat) (op : BitVec bits → BitVec bits → BitVec bits) (vec : Reg2) : TwoFunc :=
  ⟨.fast (bits / 8), bits, op, some vec⟩
/-- An entry `SimpleMathOpSlow<T, ...>` (/repo/src/atop/ops_binary.cpp 350-393). -/
def slowOf (bits : Nat) (op : BitVec bits → BitVec bits → BitVec bits) : TwoFunc :=
  ⟨.slow (bits / 8), bits, op, none⟩

/-- What a getter (/repo/src/atop/ops_binary.cpp 872; /repo/src/atop/ops_unary.cpp 1252, 1629) returns: `wantedOutType` (`none` = left at -1, the loop is not replaced) and the
function (`none` = NULL). -/
structure Got (α : Type) where
  wanted : Option DT
  func : Option α

/-- `FloorDivOp` on float/double (/repo/src/atop/ops_binary.cpp 81-82). -/
def floorDivOp (F : FloatUnit) (E M k : Nat) (x y : BitVec k) : BitVec k :=
  if feq E M y y then F.floor k (F.div k x y) else BitVec.ofNat k ((2 ^ E - 1) * 2 ^ M + 2 ^ (M - 1))

/-- `GetSimpleMathOpFast(func, t, t, &wantedOutType)` (/repo/src/atop/ops_binary.cpp 872-1066). -/
def mathOpFast (F : FloatUnit) : Op → DT → Got TwoFunc
  | .ADD, t => ⟨some t, match t with
    | .bool => some (symmOf 8 orOp OR256)
    | .f32 => some (symmOf 32 (F.add 32) (FADD256 F 32))
    | .f64 => some (symmOf 64 (F.add 64) (FADD256 F 64))
    | .i32 => some (symmOf 32 addOp (ADD256 32))
    | .i64 => some (symmOf 64 addOp (ADD256 64))
    | .i16 => some (symmOf 16 addOp (ADD256 16))
    | .i8 => some (symmOf 8 addOp (ADD256 8))
    | _ => none⟩
  | .MUL, t => ⟨some t, match t with
    | .bool => some (symmOf 8 andOp AND256)
    | .f32 => some (symmOf 32 (F.mul 32) (FMUL256 F 32))
    | .f64 => some (symmOf 64 (F.mul 64) (FMUL256 F 64))
    | .i32 => some (symmOf 32 mulOp (MUL256 32))
    | .i16 => some (symmOf 16 mulOp (MUL256 16))
    | .u64 => some (symmOf 64 mulOp MUL256u64)
    | _ => none⟩
  | .SUB, t => match t with
    | .bool => ⟨none, none⟩
    | .f32 => ⟨some .f32, some (fastOf 32 (F.sub 32) (FSUB256 F 32))⟩
    | .f64 => ⟨some .f64, some (fastOf 64 (F.sub 64) (FSUB256 F 64))⟩
    | .i32 => ⟨some .i32, some (fastOf 32 subOp (SUB256 32))⟩
    | .i64 => ⟨some .i64, some (fastOf 64 subOp (SUB256 64))⟩
    | .i16 => ⟨some .i16, some (fastOf 16 subOp (SUB256 16))⟩
    | .i8 => ⟨some .i8, some (fastOf 8 subOp (SUB256 8))⟩
    | t => ⟨some t, none⟩
  | .DIV, t => match t with
    | .f32 => ⟨some .f32, some (fastOf 32 (F.div 32) (FDIV256 F 32))⟩
    | .f64 => ⟨some .f64, some (fastOf 64 (F.div 64) (FDIV256 F 64))⟩
    | _ => ⟨none, none⟩
  | .FLOORDIV, t => match t with
    | .f32 => ⟨some .f32, some (slowOf 32 (floorDivOp F 8 23 32))⟩
    | .f64 => ⟨some .f64, some (slowOf 64 (floorDivOp F 11 52 64))⟩
    | _ => ⟨none, none⟩
  | .MIN, t => ⟨some t, match t with
    | .i8 => some (fastOf 8 sminOp (SMIN256 8))
    | .i16 => some (fastOf 16 sminOp (SMIN256 16))
    | .i32 => some (fastOf 32 sminOp (SMIN256 32))
    | .f32 => some (fastOf 32 (fmin 8 23) (FMIN256 8 23 32))
    | .f64 => some (fastOf 64 (fmin 11 52) (FMIN256 11 52 64))
    | _ => none⟩
  | .MAX, t => ⟨some t, match t with
    | .i8 => some (fastOf 8 smaxOp (SMAX256 8))
    | .i16 => some (fastOf 16 smaxOp (SMAX256 16))
    | .i32 => some (fastOf 32 smaxOp (SMAX256 32))
    | .f32 => some (fastOf 32 (fmax 8 23) (FMAX256 8 23 32))
    | .f64 => some (fastOf 64 (fmax 11 52) (FMAX256 11 52 64))
    | _ => none⟩
  | .LOGICAL_AND, t => match t with
    | .bool => ⟨some .bool, some (symmOf 8 andOp AND256)⟩
    | _ => ⟨none, none⟩
  | .LOGICAL_OR, t => match t with
    | .bool => ⟨some .bool, some (symmOf 8 orOp OR256)⟩
    | _ => ⟨none, none⟩
  | .BITWISE_AND, t => match t with
    | .i8 | .u8 | .bool => ⟨some t, some (symmOf 8 andOp AND256)⟩
    | .u16 | .i16 => ⟨some t, some (symmOf 16 andOp AND256)⟩
    | .u32 | .i32 => ⟨some t, some (symmOf 32 andOp AND256)⟩
    | .u64 | .i64 => ⟨some t, some (symmOf 64 andOp AND256)⟩
    | .f32 | .f64 => ⟨none, none⟩
  | .BITWISE_OR, t => match t with
    | .i8 | .u8 | .bool => ⟨some t, some (symmOf 8 orOp OR256)⟩
    | .u16 | .i16 => ⟨some t, some (symmOf 16 orOp OR256)⟩
    | .u32 | .i32 => ⟨some t, some (symmOf 32 orOp OR256)⟩
    | .u64 | .i64 => ⟨some t, some (symmOf 64 orOp OR256)⟩
    | .f32 | .f64 => ⟨none, none⟩
  | .BITWISE_XOR, t => match t with
    | .i8 | .u8 | .bool => ⟨some t, some (symmOf 8 xorOp XOR256)⟩
    | .u16 | .i16 => ⟨some t, some (symmOf 16 xorOp XOR256)⟩
    | .u32 | .i32 => ⟨some t, some (symmOf 32 xorOp XOR256)⟩
    | .u64 | .i64 => ⟨some t, some (symmOf 64 xorOp XOR256)⟩
    | .f32 | .f64 => ⟨none, none⟩
  | .BITWISE_LSHIFT, t => match t with
    | .bool | .f32 | .f64 => ⟨none, none⟩
    | t => ⟨some t, none⟩
  | .BITWISE_RSHIFT, t => match t with
    | .bool | .f32 | .f64 => ⟨none, none⟩
    | t => ⟨some t, none⟩
  | _, _ => ⟨none, none⟩

/-- A reduce kernel `ReduceMathOpFast<T, U256, MATH_OP, MATH_OP256>` (/repo/src/atop/ops_binary.cpp 186-254): bits of `T` and the operations. -/
structure RedFunc where
  bits : Nat
  op : BitVec bits → BitVec bits → BitVec bits
  vec : Reg2

/-- `GetReduceMathOpFast(func, t)` (/repo/src/atop/ops_binary.cpp 1061-1127) for the integer and boolean
types and float64; float32 uses the widening kernel (`Model.Reduce.reduceFastUpcast`). -/
def reduceOpFast (F : FloatUnit) : Op → DT → Option RedFunc
  | .ADD, t => match t with
    | .bool => some ⟨8, orOp, OR256⟩
    | .f64 => some ⟨64, F.add 64, FADD256 F 64⟩
    | .i32 => some ⟨32, addOp, ADD256 32⟩
    | .i64 => some ⟨64, addOp, ADD256 64⟩
    | .i16 => some ⟨16, addOp, ADD256 16⟩
    | .i8 => some ⟨8, addOp, ADD256 8⟩
    | _ => none
  | .MUL, t => match t with
    | .bool => some ⟨8, andOp, AND256⟩
    | .f64 => some ⟨64, F.mul 64, FMUL256 F 64⟩
    | .i32 => some ⟨32, mulOp, MUL256 32⟩
    | .i16 => some ⟨16, mulOp, MUL256 16⟩
    | .u64 => some ⟨64, mulOp, MUL256u64⟩
    | _ => none
  | .MIN, t => match t with
    | .bool => some ⟨8, sminOp, SMIN256 8⟩
    | .i8 => some ⟨8, sminOp, SMIN256 8⟩
    | .i16 => some ⟨16, sminOp, SMIN256 16⟩
    | .i32 => some ⟨32, sminOp, SMIN256 32⟩
    | .u8 => some ⟨8, uminOp, UMIN256 8⟩
    | .u16 => some ⟨16, uminOp, UMIN256 16⟩
    | .u32 => some ⟨32, uminOp, UMIN256 32⟩
    | _ => none
  | .MAX, t => match t with
    | .bool => some ⟨8, smaxOp, SMAX256 8⟩
    | .i8 => some ⟨8, smaxOp, SMAX256 8⟩
    | .i16 => some ⟨16, smaxOp, SMAX256 16⟩
    | .i32 => some ⟨32, smaxOp, SMAX256 32⟩
    | .u8 => some ⟨8, umaxOp, UMAX256 8⟩
    | .u16 => some ⟨16, umaxOp, UMAX256 16⟩
    | .u32 => some ⟨32, umaxOp, UMAX256 32⟩
    | _ => none
  | _, _ => none

/-- `GetReduceStartVal(funcop, atype)` (/repo/src/pnumpy/_pnumpy.cpp 604-632) read as an element of `k` bits;
`g_startval_zero`, `g_startval_one` (little endian), `g_startval_one_float/double`. -/
def reduceStartVal : Op → (t : DT) → (k : Nat) → Option (BitVec k)
  | .ADD, _, k => some (BitVec.ofNat k 0)
  | .MUL, .f32, k => some (BitVec.ofNat k 0x3f800000)
  | .MUL, .f64, k => some (BitVec.ofNat k 0x3ff0000000000000)
  | .MUL, _, k => some (BitVec.ofNat k 1)
  | _, _, _ => none

/-- A one-input kernel (/repo/src/atop/ops_unary.cpp 328-375, 935-985); `inBits`, `outBits` are the sizes of the input and output elements. -/
structure OneFunc where
  kernel : Kernel
  inBits : Nat
  outBits : Nat
  op : BitVec inBits → BitVec outBits
  vec : Option (BitVec 256 → BitVec 256)

/-- An entry `UnaryOpFast<T, ...>` (/repo/src/atop/ops_unary.cpp 327-375). -/
def ufast (bits : Nat) (op : BitVec bits → BitVec bits) (vec : BitVec 256 → BitVec 256) : OneFunc :=
  ⟨.unaryFast (bits / 8), bits, bits, op, some vec⟩
/-- An entry `UnaryOpSlow<T>` (/repo/src/atop/ops_unary.cpp 934-947). -/
def uslow (bits : Nat) (op : BitVec bits → BitVec bits) : OneFunc := ⟨.unarySlow, bits, bits, op, none⟩
/-- `UnaryOpSlowBool` (/repo/src/atop/ops_unary.cpp 972-985): the result is stored as a C++ `bool`. -/
def uslowBool (bits : Nat) (op : BitVec bits → Bool) : OneFunc :=
  ⟨.unarySlow, bits, 8, fun x => if op x then 1 else 0, none⟩

/-- `NOT_OP` on float/double: `x == 0.0` (/repo/src/atop/ops_unary.cpp 199). -/
def fnotOp (E M : Nat) {k : Nat} (x : BitVec k) : Bool := feq E M x 0

/-- `NEG_OP_256i*` (/repo/src/atop/ops_unary.cpp 283-286): `0 - x`. -/
def NEG256 (w : Nat) : BitVec 256 → BitVec 256 := fun x => lanes2 w (· - ·) 0 x
/-- `ABS_OP_256i*` (/repo/src/atop/ops_unary.cpp 265-268): `_mm256_abs_epi*`. -/
def ABS256 (w : Nat) : BitVec 256 → BitVec 256 := lanes1 w fun a => if a.toInt < 0 then -a else a

/-- `GetUnaryOpFast`, and if that returns NULL `GetUnaryOpSlow` (/repo/src/pnumpy/_pnumpy.cpp 1459-1462;
/repo/src/atop/ops_unary.cpp 1629-1770, 1252-1626).  isnan, isinf, isfinite and signbit are in
`Model.Classify`.  `wanted` is the value left after both calls. -/
def unaryOp (F : FloatUnit) : Op → DT → Got OneFunc
  | .ABS, t => ⟨some t, match t with
    | .f32 => some (ufast 32 (absTail 8 23) (lanes1 32 (absVec 8 23)))
    | .f64 => some (ufast 64 (absTail 11 52) (lanes1 64 (absVec 11 52)))
    | .i32 => some (ufast 32 absOp (ABS256 32))
    | .i16 => some (ufast 16 absOp (ABS256 16))
    | .i8 => some (ufast 8 absOp (ABS256 8))
    | .i64 => some (uslow 64 absOp)
    | _ => none⟩
  | .SIGN, t => match t with
    | .f32 => ⟨some .f32, some (uslow 32 (floatSign 8 23))⟩
    | .f64 => ⟨some .f64, some (uslow 64 (floatSign 11 52))⟩
    | .i32 => ⟨some .i32, some (uslow 32 signOp)⟩
    | .i64 => ⟨some .i64, some (uslow 64 signOp)⟩
    | .i8 => ⟨some .i8, some (uslow 8 signOp)⟩
    | .i16 => ⟨some .i16, some (uslow 16 signOp)⟩
    | _ => ⟨none, none⟩
  | .NEGATIVE, t => match t with
    | .bool => ⟨none, none⟩
    | .f32 => ⟨some .f32, some (ufast 32 (negTail 8 23) (lanes1 32 (negVec 8 23)))⟩
    | .f64 => ⟨some .f64, some (ufast 64 (negTail 11 52) (lanes1 64 (negVec 11 52)))⟩
    | .i64 => ⟨some .i64, some (ufast 64 negOp (NEG256 64))⟩
    | .i32 => ⟨some .i32, some (ufast 32 negOp (NEG256 32))⟩
    | .i16 => ⟨some .i16, some (ufast 16 negOp (NEG256 16))⟩
    | .i8 => ⟨some .i8, some (ufast 8 negOp (NEG256 8))⟩
    | t => ⟨some t, none⟩
  | .LOGICAL_NOT, t => ⟨some .bool, match t with
    | .u8 | .i8 | .bool => some (uslowBool 8 notOp)
    | .i16 | .u16 => some (uslowBool 16 notOp)
    | .i32 | .u32 => some (uslowBool 32 notOp)
    | .i64 | .u64 => some (uslowBool 64 notOp)
    | .f32 => some (uslowBool 32 (fnotOp 8 23))
    | .f64 => some (uslowBool 64 (fnotOp 11 52))⟩
  | .INVERT, t | .BITWISE_NOT, t => match t with
    | .i32 | .u32 => ⟨some t, some (uslow 32 invertOp)⟩
    | .i64 | .u64 => ⟨some t, some (uslow 64 invertOp)⟩
    | .bool => ⟨some t, some (uslow 8 invertBoolOp)⟩
    | .i8 | .u8 => ⟨some t, some (uslow 8 invertOp)⟩
    | .i16 | .u16 => ⟨some t, some (uslow 16 invertOp)⟩
    | .f32 | .f64 => ⟨none, none⟩
  | .FLOOR, t => match t with
    | .f32 => ⟨some .f32, some (ufast 32 (F.floor 32) (lanes1 32 (F.floor 32)))⟩
    | .f64 => ⟨some .f64, some (ufast 64 (F.floor 64) (lanes1 64 (F.floor 64)))⟩
    | _ => ⟨none, none⟩
  | .CEIL, t => match t with
    | .f32 => ⟨some .f32, some (ufast 32 (F.ceil 32) (lanes1 32 (F.ceil 32)))⟩
    | .f64 => ⟨some .f64, some (ufast 64 (F.ceil 64) (lanes1 64 (F.ceil 64)))⟩
    | _ => ⟨none, none⟩
  | .TRUNC, t => match t with
    | .f32 => ⟨some .f32, some (ufast 32 (F.trunc 32) (lanes1 32 (F.trunc 32)))⟩
    | .f64 => ⟨some .f64, some (ufast 64 (F.trunc 64) (lanes1 64 (F.trunc 64)))⟩
    | _ => ⟨none, none⟩
  | .ROUND, t => match t with
    | .f32 => ⟨some .f32, none⟩
    | .f64 => ⟨some .f64, some (uslow 64 (F.round 64))⟩
    | _ => ⟨none, none⟩
  | .SQRT, t => match t with
    | .f32 => ⟨some .f32, some (ufast 32 (F.sqrt 32) (lanes1 32 (F.sqrt 32)))⟩
    | .f64 => ⟨some .f64, some (ufast 64 (F.sqrt 64) (lanes1 64 (F.sqrt 64)))⟩
    | _ => ⟨none, none⟩
  | _, _ => ⟨none, none⟩

end Pnumpy.OpTables

import Verif.Model.Simd
import Verif.Model.Ieee
import Verif.Spec.Value
/-
Comparison kernels: the vector step (compare, pack, shuffle, mask) and the scalar step, per type and
operation, and the dispatch table.  Only the element type names and operation names (`DT`, `CmpOp`)
are taken from the specification.
-/
namespace Pnumpy.Compare
open Pnumpy.Simd Pnumpy.Ieee Pnumpy.Spec

/-- `g_shuffle1..4` (/repo/src/atop/ops_compare.cpp 89-100). -/
def g_shuffle1 : BitVec 256 := setEpi8 [0x80,0x80,0x80,0x80,0x80,0x80,0x80,0x80,0x80,0x80,0x80,0x80,12,8,4,0,
  0x80,0x80,0x80,0x80,0x80,0x80,0x80,0x80,0x80,0x80,0x80,0x80,12,8,4,0]
/-- `g_shuffle2` (src/atop/ops_compare.cpp:93-95). -/
def g_shuffle2 : BitVec 256 := setEpi8 [0x80,0x80,0x80,0x80,0x80,0x80,0x80,0x80,12,8,4,0,0x80,0x80,0x80,0x80,
  0x80,0x80,0x80,0x80,0x80,0x80,0x80,0x80,12,8,4,0,0x80,0x80,0x80,0x80]
/-- `g_shuffle3` (src/atop/ops_compare.cpp:95-98). -/
def g_shuffle3 : BitVec 256 := setEpi8 [0x80,0x80,0x80,0x80,12,8,4,0,0x80,0x80,0x80,0x80,0x80,0x80,0x80,0x80,
  0x80,0x80,0x80,0x80,12,8,4,0,0x80,0x80,0x80,0x80,0x80,0x80,0x80,0x80]
/-- `g_shuffle4` (src/atop/ops_compare.cpp:98-100). -/
def g_shuffle4 : BitVec 256 := setEpi8 [12,8,4,0,0x80,0x80,0x80,0x80,0x80,0x80,0x80,0x80,0x80,0x80,0x80,0x80,
  12,8,4,0,0x80,0x80,0x80,0x80,0x80,0x80,0x80,0x80,0x80,0x80,0x80,0x80]
/-- `g_shuffle64_spec` (/repo/src/atop/ops_compare.cpp 111-115). -/
def g_shuffle64_spec : BitVec 256 := setEpi8 [0x80,0x80,0x80,0x80,0x80,0x80,0x80,0x80,0x80,12,0x80,8,0x80,4,0x80,0,
  0x80,0x80,0x80,0x80,0x80,0x80,0x80,0x80,0x80,12,0x80,8,0x80,4,0x80,0]
/-- `g_permute`, `g_permutelo` (/repo/src/atop/ops_compare.cpp 118-119). -/
def g_permute : BitVec 256 := setEpi32 [7, 3, 6, 2, 5, 1, 4, 0]
/-- `g_ones`, `g_ones128` (/repo/src/atop/ops_compare.cpp 120-121). -/
def g_ones (N : Nat) : BitVec N := set1 N (1 : BitVec 8)

/-- `COMP32i_EQS` (/repo/src/atop/ops_compare.cpp 125-135) on the four compare results;
`COMP32i_GTS`, `COMP32i_LTS` (153-181, not used by the dispatch) have the same tail. -/
def comb32S (c1 c2 c3 c4 : BitVec 256) : BitVec 256 :=
  let m4 := (shuffle8 c1 g_shuffle1 ||| shuffle8 c2 g_shuffle2) |||
            (shuffle8 c3 g_shuffle3 ||| shuffle8 c4 g_shuffle4)
  permute32 m4 g_permute &&& g_ones 256

/-- Boolean lookup tables (/repo/src/atop/atop.cpp 73-95): byte `j` of entry `i` is bit `j` of `i`. -/
def lut64 (m : BitVec 8) : BitVec 64 := ofLanes 64 8 fun j => if m.getLsbD j then 1 else 0
/-- `gBooleanLUT32` (src/atop/atop.cpp:73-95). -/
def lut32 (m : BitVec 4) : BitVec 32 := ofLanes 32 8 fun j => if m.getLsbD j then 1 else 0
/-- `gBooleanLUT64Inverse` (src/atop/atop.cpp:73-95). -/
def lut64Inverse (m : BitVec 8) : BitVec 64 := lut64 m ^^^ 0x0101010101010101#64

/-- `COMP32i_{EQ,NE,GT,LT,GE,LE}` (/repo/src/atop/ops_compare.cpp 184-189): 8 dwords to 8 booleans. -/
def comp32i : CmpOp → BitVec 256 → BitVec 256 → BitVec 64
  | .eq, x, y => lut64 (movemask 32 8 (cmpeq 32 x y))
  | .ne, x, y => lut64Inverse (movemask 32 8 (cmpeq 32 x y))
  | .gt, x, y => lut64 (movemask 32 8 (cmpgt 32 x y))
  | .lt, x, y => lut64 (movemask 32 8 (cmpgt 32 y x))
  | .ge, x, y => lut64Inverse (movemask 32 8 (cmpgt 32 y x))
  | .le, x, y => lut64Inverse (movemask 32 8 (cmpgt 32 x y))

/-- The packing tail of `COMP64i_EQ`, `COMP64i_GT`, `COMP64i_LT`
(/repo/src/atop/ops_compare.cpp 210-227, 245-256, 259-270) on the four compare results. -/
def comb64 (c1 c2 c3 c4 : BitVec 256) : BitVec 256 :=
  let m0 := permute32 (shuffle8 (packs32 c1 c2) g_shuffle64_spec) g_permute
  let m1 := permute32 (shuffle8 (packs32 c3 c4) g_shuffle64_spec) g_permute
  packs16 m0 m1 &&& g_ones 256

/-- `COMP64i_{EQ,NE,GT,LT,GE,LE}` (/repo/src/atop/ops_compare.cpp 192-300): 16 int64 to 16 booleans.
`x k`, `y k` (k < 4) are the registers loaded by the kernel from its first and second operand; `LT`
and `GE` name their parameters `y1, x1, ...`, which swaps the operands of `cmpgt`. -/
def comp64i (op : CmpOp) (x y : Nat → BitVec 256) : BitVec 128 :=
  match op with
  | .eq => extract128 (comb64 (cmpeq 64 (x 0) (y 0)) (cmpeq 64 (x 1) (y 1)) (cmpeq 64 (x 2) (y 2)) (cmpeq 64 (x 3) (y 3))) 0
  | .ne => extract128 (comb64 (cmpeq 64 (x 0) (y 0)) (cmpeq 64 (x 1) (y 1)) (cmpeq 64 (x 2) (y 2)) (cmpeq 64 (x 3) (y 3)) ^^^ g_ones 256) 0
  | .gt => extract128 (comb64 (cmpgt 64 (x 0) (y 0)) (cmpgt 64 (x 1) (y 1)) (cmpgt 64 (x 2) (y 2)) (cmpgt 64 (x 3) (y 3))) 0
  | .lt => extract128 (comb64 (cmpgt 64 (y 0) (x 0)) (cmpgt 64 (y 1) (x 1)) (cmpgt 64 (y 2) (x 2)) (cmpgt 64 (y 3) (x 3))) 0
  | .ge => extract128 (comb64 (cmpgt 64 (y 0) (x 0)) (cmpgt 64 (y 1) (x 1)) (cmpgt 64 (y 2) (x 2)) (cmpgt 64 (y 3) (x 3)) ^^^ g_ones 256) 0
  | .le => extract128 (comb64 (cmpgt 64 (x 0) (y 0)) (cmpgt 64 (x 1) (y 1)) (cmpgt 64 (x 2) (y 2)) (cmpgt 64 (x 3) (y 3)) ^^^ g_ones 256) 0

/-- `COMP8i_*` (/repo/src/atop/ops_compare.cpp 310-315), `mask1` = ones. -/
def comp8i : CmpOp → BitVec 256 → BitVec 256 → BitVec 256
  | .eq, x, y => cmpeq 8 x y &&& g_ones 256
  | .ne, x, y => (cmpeq 8 x y &&& g_ones 256) ^^^ g_ones 256
  | .gt, x, y => cmpgt 8 x y &&& g_ones 256
  | .lt, x, y => cmpgt 8 y x &&& g_ones 256
  | .ge, x, y => (cmpgt 8 y x &&& g_ones 256) ^^^ g_ones 256
  | .le, x, y => (cmpgt 8 x y &&& g_ones 256) ^^^ g_ones 256

/-- `COMPBool_*` (/repo/src/atop/ops_compare.cpp 318-323): operands clamped to 0/1 first. -/
def compBool (op : CmpOp) (x y : BitVec 256) : BitVec 256 :=
  comp8i op (minEpu8 x (g_ones 256)) (minEpu8 y (g_ones 256))

/-- `_mm256_set1_epi16(1)` in `CompareInt16`. -/
def ones16 : BitVec 256 := set1 256 (1 : BitVec 16)

/-- The packing tail of `COMP16i_*` (/repo/src/atop/ops_compare.cpp 327-362). -/
def comb16 (m0 : BitVec 256) : BitVec 128 :=
  let m1 := insert128 m0 (extract128 m0 1) 0
  extract128 (packs16 m0 m1) 0

/-- `COMP16i_*` (/repo/src/atop/ops_compare.cpp 327-362). -/
def comp16i : CmpOp → BitVec 256 → BitVec 256 → BitVec 128
  | .eq, x, y => comb16 (cmpeq 16 x y &&& ones16)
  | .ne, x, y => comb16 ((cmpeq 16 x y &&& ones16) ^^^ ones16)
  | .gt, x, y => comb16 (cmpgt 16 x y &&& ones16)
  | .lt, x, y => comb16 (cmpgt 16 y x &&& ones16)
  | .ge, x, y => comb16 ((cmpgt 16 y x &&& ones16) ^^^ ones16)
  | .le, x, y => comb16 ((cmpgt 16 x y &&& ones16) ^^^ ones16)

/-- The packing tail of `CompareFloat` (/repo/src/atop/ops_compare.cpp 466-475, 499-508, 533-542, 565-577). -/
def combFloat (c0 c1 c2 c3 : BitVec 256) : BitVec 256 :=
  permute32 (packs16 (packs32 c0 c1) (packs32 c2 c3)) g_permute &&& g_ones 256

/-- The packing tail of `CompareDouble` (/repo/src/atop/ops_compare.cpp 626-638, 662-674, 700-711, 737-753): low 8 bytes stored. -/
def combDouble (c0 c1 c2 c3 : BitVec 128) : BitVec 128 :=
  let m0 := packs16 (packs32 c0 c1) (packs32 c2 c3)
  packs16 m0 m0 &&& g_ones 128

/-- The float predicate of a dispatch entry: `_CMP_EQ_OQ`, `_CMP_NEQ_UQ`, `_CMP_GT_OQ`, ...
(/repo/src/atop/ops_compare.cpp 1300-1320); also the scalar `COMP_*` templates on float/double. -/
def fpred (E M : Nat) {k : Nat} : CmpOp → BitVec k → BitVec k → Bool
  | .eq, x, y => feq E M x y
  | .ne, x, y => fne E M x y
  | .gt, x, y => flt E M y x
  | .ge, x, y => fle E M y x
  | .lt, x, y => flt E M x y
  | .le, x, y => fle E M x y

/-- Scalar `COMP_*` on a signed type (/repo/src/atop/ops_compare.cpp 366-371). -/
def spred {k : Nat} : CmpOp → BitVec k → BitVec k → Bool
  | .eq, x, y => x == y
  | .ne, x, y => x != y
  | .gt, x, y => y.slt x
  | .ge, x, y => y.sle x
  | .lt, x, y => x.slt y
  | .le, x, y => x.sle y

/-- Scalar `COMP_*` on an unsigned type (same lines) (src/atop/ops_compare.cpp:366-371). -/
def upred {k : Nat} : CmpOp → BitVec k → BitVec k → Bool
  | .eq, x, y => x == y
  | .ne, x, y => x != y
  | .gt, x, y => y.ult x
  | .ge, x, y => y.ule x
  | .lt, x, y => x.ult y
  | .le, x, y => x.ule y

/-- Scalar `COMPB_*` (/repo/src/atop/ops_compare.cpp 373-378): `X`, `Y` as truth values. -/
def bpred (op : CmpOp) (x y : BitVec 8) : Bool :=
  let X := x != 0
  let Y := y != 0
  match op with
  | .eq => (X && Y) || (!X && !Y)
  | .gt => X && !Y
  | .ge => if Y && !X then false else true
  | .lt => Y && !X
  | .le => if X && !Y then false else true
  | .ne => if (X && Y) || (!X && !Y) then false else true

/-- A kernel returned by the dispatch: scalar only (`CompareAny`), or vector steps of `L` elements
(`step xs ys p` = the bytes stored for elements `p .. p+L-1`) and a scalar tail (`CompareAny` 396-450, the vector kernels 453-1262 of src/atop/ops_compare.cpp). -/
inductive Kernel (k : Nat) where
  | any (sca : BitVec k → BitVec k → Bool)
  | vec (L : Nat) (step : (Nat → BitVec k) → (Nat → BitVec k) → Nat → Nat → BitVec 8)
      (sca : BitVec k → BitVec k → Bool)

/-- `CompareFloat<op>` (/repo/src/atop/ops_compare.cpp 453-605). -/
def compareFloat (op : CmpOp) : Kernel 32 :=
  .vec 32 (fun xs ys p j =>
    let c := fun i => cmpLanes 32 (fpred 8 23 op) (load 256 xs (p + 8 * i)) (load 256 ys (p + 8 * i))
    lane 8 (combFloat (c 0) (c 1) (c 2) (c 3)) j) (fpred 8 23 op)

/-- `CompareDouble<op>` (/repo/src/atop/ops_compare.cpp 610-782). -/
def compareDouble (op : CmpOp) : Kernel 64 :=
  .vec 8 (fun xs ys p j =>
    let c := fun i => cmpLanes 64 (fpred 11 52 op) (load 128 xs (p + 2 * i)) (load 128 ys (p + 2 * i))
    lane 8 (combDouble (c 0) (c 1) (c 2) (c 3)) j) (fpred 11 52 op)

/-- `CompareInt64<COMP64i_op, COMP_op>` (/repo/src/atop/ops_compare.cpp 788-905). -/
def compareInt64 (op : CmpOp) : Kernel 64 :=
  .vec 16 (fun xs ys p j =>
    lane 8 (comp64i op (fun i => load 256 xs (p + 4 * i)) (fun i => load 256 ys (p + 4 * i))) j) (spred op)

/-- `CompareInt32S<COMP32i_EQS, COMP_EQ>` (/repo/src/atop/ops_compare.cpp 910-1012). -/
def compareInt32S : Kernel 32 :=
  .vec 32 (fun xs ys p j =>
    let c := fun i => cmpeq 32 (load 256 xs (p + 8 * i)) (load 256 ys (p + 8 * i))
    lane 8 (comb32S (c 0) (c 1) (c 2) (c 3)) j) (spred .eq)

/-- `CompareInt32<COMP32i_op, COMP_op>` (/repo/src/atop/ops_compare.cpp 1015-1093). -/
def compareInt32 (op : CmpOp) : Kernel 32 :=
  .vec 8 (fun xs ys p j => lane 8 (comp32i op (load 256 xs p) (load 256 ys p)) j) (spred op)

/-- `CompareInt16<COMP16i_op, COMP_op>` (/repo/src/atop/ops_compare.cpp 1097-1175). -/
def compareInt16 (op : CmpOp) : Kernel 16 :=
  .vec 16 (fun xs ys p j => lane 8 (comp16i op (load 256 xs p) (load 256 ys p)) j) (spred op)

/-- `CompareInt8<COMP8i_op, COMP_op>` (/repo/src/atop/ops_compare.cpp 1179-1262). -/
def compareInt8 (op : CmpOp) : Kernel 8 :=
  .vec 32 (fun xs ys p j => lane 8 (comp8i op (load 256 xs p) (load 256 ys p)) j) (spred op)

/-- `CompareInt8<COMPBool_op, COMPB_op>` (src/atop/ops_compare.cpp:1179-1262). -/
def compareBool (op : CmpOp) : Kernel 8 :=
  .vec 32 (fun xs ys p j => lane 8 (compBool op (load 256 xs p) (load 256 ys p)) j) (bpred op)

/-- `GetComparisonOpFast` for two operands of the same type
(/repo/src/atop/ops_compare.cpp 1267-1440). -/
def dispatch : (t : DT) → CmpOp → Kernel t.bits
  | .f32, op => compareFloat op
  | .f64, op => compareDouble op
  | .i32, .eq => compareInt32S
  | .i32, op => compareInt32 op
  | .u32, .eq => compareInt32 .eq
  | .u32, .ne => compareInt32 .ne
  | .u32, op => .any (upred op)
  | .i64, op => compareInt64 op
  | .u64, .eq => compareInt64 .eq
  | .u64, .ne => compareInt64 .ne
  | .u64, op => .any (upred op)
  | .bool, op => compareBool op
  | .i8, op => compareInt8 op
  | .u8, .eq => compareInt8 .eq
  | .u8, .ne => compareInt8 .ne
  | .u8, op => .any (upred op)
  | .i16, op => compareInt16 op
  | .u16, .eq => compareInt16 .eq
  | .u16, .ne => compareInt16 .ne
  | .u16, op => .any (upred op)

/-- C++ `bool` stored into an `int8_t` (the stores `pDataOut[i] = COMP_OP(...)`, e.g. src/atop/ops_compare.cpp:396-450). -/
def boolByte (b : Bool) : BitVec 8 := if b then 1 else 0

/-- Output byte `i` when the kernel makes `blocks` vector steps followed by the scalar loop
(`len/L` steps in most kernels, one fewer for some lengths in `CompareInt64`, none for strided
operands). A scalar operand is a constant element function. -/
def Kernel.out {k : Nat} (K : Kernel k) (blocks : Nat) (xs ys : Nat → BitVec k) (i : Nat) : BitVec 8 :=
  match K with
  | .any sca => boolByte (sca (xs i) (ys i))
  | .vec L step sca =>
    if i < L * blocks then step xs ys (L * (i / L)) (i % L) else boolByte (sca (xs i) (ys i))

/-! ### Mixed int64 / uint64 (/repo/src/atop/ops_compare.cpp 381-392, 1343-1354, 1368-1380) -/

/-- `(X | Y) & 0x8000000000000000`. -/
def signSet (x y : BitVec 64) : Bool := ((x ||| y) &&& 0x8000000000000000#64) != 0

/-- Kernel element function for first operand int64, second uint64: `CompareAny<int64_t,
COMP_{EQ,NE}_UINT64 / COMP_*_INT64>`. -/
def mixedIU : CmpOp → BitVec 64 → BitVec 64 → Bool
  | .eq, x, y => if signSet x y then false else x == y
  | .ne, x, y => if signSet x y then true else x != y
  | .gt, x, y => if signSet x y then false else y.slt x
  | .ge, x, y => if signSet x y then false else y.sle x
  | .lt, x, y => if signSet x y then true else x.slt y
  | .le, x, y => if signSet x y then true else x.sle y

/-- First operand uint64, second int64: `CompareAny<int64_t, COMP_EQ/NE>`, `CompareAny<uint64_t,
COMP_*_UINT64>`. -/
def mixedUI : CmpOp → BitVec 64 → BitVec 64 → Bool
  | .eq, x, y => x == y
  | .ne, x, y => x != y
  | .gt, x, y => if signSet x y then true else y.ult x
  | .ge, x, y => if signSet x y then true else y.ule x
  | .lt, x, y => if signSet x y then false else x.ult y
  | .le, x, y => if signSet x y then false else x.ule y

end Pnumpy.Compare

import Verif.Model.Classify
import Verif.Model.Elementwise
import Verif.Model.Hooks
/-
The comparison and classification tables: which loop template (`Verif.Model.Elementwise`) goes with the
vector step and the scalar operation of `Verif.Model.Compare` and `Verif.Model.Classify`, and which
operation code serves which numpy function.
-/
namespace Pnumpy.BoolTables
open Pnumpy.Elem (Kernel)
open Pnumpy.Spec (DT CmpOp)
open Pnumpy.Classify (ClsOp)
open Pnumpy.Hooks (Op)

/-- `COMP_OPERATION` codes (/repo/src/atop/common_inc.h 250-262) as the `func` argument of `GetComparisonOpFast`
(/repo/src/atop/ops_compare.cpp 1300-1440). -/
def cmpOf : Op → Option CmpOp
  | .CMP_EQ => some .eq
  | .CMP_NE => some .ne
  | .CMP_GT => some .gt
  | .CMP_GTE => some .ge
  | .CMP_LT => some .lt
  | .CMP_LTE => some .le
  | _ => none

/-- The loop template of each entry of `GetComparisonOpFast` (/repo/src/atop/ops_compare.cpp 1299-1440). -/
def cmpTemplate : DT → CmpOp → Kernel
  | .f32, _ => .cmpVec 4 32
  | .f64, _ => .cmpVec 8 8
  | .i32, .eq => .cmpVec 4 32
  | .i32, _ => .cmpVec 4 8
  | .u32, .eq => .cmpVec 4 8
  | .u32, .ne => .cmpVec 4 8
  | .u32, _ => .cmpAny 4
  | .i64, _ => .cmpInt64
  | .u64, .eq => .cmpInt64
  | .u64, .ne => .cmpInt64
  | .u64, _ => .cmpAny 8
  | .bool, _ => .cmpInt8
  | .i8, _ => .cmpInt8
  | .u8, .eq => .cmpInt8
  | .u8, .ne => .cmpInt8
  | .u8, _ => .cmpAny 1
  | .i16, _ => .cmpVec 2 16
  | .u16, .eq => .cmpVec 2 16
  | .u16, .ne => .cmpVec 2 16
  | .u16, _ => .cmpAny 2

/-- Operation codes of the classification functions (`UNARY_OPERATION`, /repo/src/atop/common_inc.h 264-310). -/
def clsOf : Op → Option ClsOp
  | .ISNAN => some .isnan
  | .ISINF => some .isinf
  | .ISFINITE => some .isfinite
  | .SIGNBIT => some .signbit
  | _ => none

/-- The loop template of the classification kernels: `GetUnaryOpFast` (/repo/src/atop/ops_unary.cpp
1647-1690), then `GetUnaryOpSlow` (1345-1375, 1405-1440, 1480-1505, 1615-1624).  `UnaryOpSlow_FillTrue/False`
(987-1014: `memset` for stride 1, otherwise a strided loop) are the element loop with a constant operation. -/
def clsTemplate : DT → ClsOp → Option Kernel
  | .f32, .isnan => some (.unaryNan 4 32 0)
  | .f64, .isnan => some (.unaryNan 8 8 4)
  | .f32, .isfinite => some (.unaryMask 4 8)
  | .f64, .isfinite => some (.unaryMask 8 4)
  | .f32, .isinf => some (.unaryNan 4 32 0)
  | .f64, .isinf => some (.unaryMask 8 4)
  | .f32, .signbit => some .unarySlow
  | .f64, .signbit => some .unarySlow
  | _, .signbit => none
  | _, _ => some .unarySlow

/-- Number of elements of one vector step of a template, 0 if it has none (/repo/src/atop/ops_compare.cpp 396-1262,
/repo/src/atop/ops_unary.cpp 436-985). -/
def width : Kernel → Nat
  | .cmpVec _ w => w
  | .cmpInt64 => 16
  | .cmpInt8 => 32
  | .unaryNan _ w _ => w
  | .unaryMask _ w => w
  | _ => 0

end Pnumpy.BoolTables

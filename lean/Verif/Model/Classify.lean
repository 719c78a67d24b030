import Verif.Model.Compare
/-
np.isnan, np.isinf, np.isfinite, np.signbit: vector step, scalar tail and strided loop, per type.
-/
namespace Pnumpy.Classify
open Pnumpy.Simd Pnumpy.Ieee Pnumpy.Spec Pnumpy.Compare

/-- The four classification ufuncs that pnumpy hooks (/repo/src/pnumpy/_pnumpy.cpp 121-143). -/
inductive ClsOp where
  | isnan | isinf | isfinite | signbit
deriving DecidableEq, Repr

/-- `std::isnan`, `std::isinf`, `std::isfinite`, `std::signbit` as used by `ISNAN_OP`, `ISINF_OP`,
`ISFINITE_OP`, `SIGNBIT_OP` (/repo/src/atop/ops_unary.cpp 201-206, 268-270). The library functions are
taken to classify by exponent and fraction field. -/
def stdCls (E M : Nat) {k : Nat} : ClsOp → BitVec k → Bool
  | .isnan, x => isNaN E M x
  | .isinf, x => mag E M x == infMag E M
  | .isfinite, x => decide (mag E M x < infMag E M)
  | .signbit, x => neg E M x

/-- A classification kernel (the kernel templates of src/atop/ops_unary.cpp:436-833, 940-985). -/
inductive UKernel (k : Nat) where
  /-- `UnaryOpSlow_FillTrue` / `UnaryOpSlow_FillFalse`. -/
  | fill (b : Bool)
  /-- element loop only (`UnaryOpSlowBool`, /repo/src/atop/ops_unary.cpp 971-985). -/
  | slow (sca : BitVec k → Bool)
  /-- steps of `L` elements, the loop for the rest, and the loop for strided data. -/
  | vec (L : Nat) (step : (Nat → BitVec k) → Nat → Nat → BitVec 8) (tail strided : BitVec k → Bool)

/-- `UnaryNanFastFloat` (/repo/src/atop/ops_unary.cpp 436-487): `_CMP_NEQ_UQ` of `x` with itself; the
tail is `*p != *p`. -/
def nanF32 : UKernel 32 :=
  .vec 32 (fun xs p j =>
    let c := fun i => cmpLanes 32 (fne 8 23) (load 256 xs (p + 8 * i)) (load 256 xs (p + 8 * i))
    lane 8 (combFloat (c 0) (c 1) (c 2) (c 3)) j) (fun x => fne 8 23 x x) (stdCls 8 23 .isnan)

/-- `UnaryNanFastDouble` (/repo/src/atop/ops_unary.cpp 491-548). -/
def nanF64 : UKernel 64 :=
  .vec 8 (fun xs p j =>
    let c := fun i => cmpLanes 64 (fne 11 52) (load 128 xs (p + 2 * i)) (load 128 xs (p + 2 * i))
    lane 8 (combDouble (c 0) (c 1) (c 2) (c 3)) j) (fun x => fne 11 52 x x) (stdCls 11 52 .isnan)

/-- `__f32vec8_finite_compare` (/repo/src/atop/ops_unary.cpp 102). -/
def finite32 : BitVec 256 := set1 256 0x7f800000#32
/-- `__f64vec4_finite_compare` (/repo/src/atop/ops_unary.cpp 144). -/
def finite64 : BitVec 256 := set1 256 0x7ff0000000000000#64

/-- `UnaryFiniteFastFloat` (/repo/src/atop/ops_unary.cpp 634-674): exponent bits differ from all ones,
by `_CMP_NEQ_OQ`, `movemask` and the table. -/
def finiteF32 : UKernel 32 :=
  .vec 8 (fun xs p j =>
    lane 8 (lut64 (movemask 32 8 (cmpLanes 32 (fneOrdered 8 23) finite32 (load 256 xs p &&& finite32)))) j)
    (stdCls 8 23 .isfinite) (stdCls 8 23 .isfinite)

/-- `UnaryFiniteFastDouble` (/repo/src/atop/ops_unary.cpp 681-719). -/
def finiteF64 : UKernel 64 :=
  .vec 4 (fun xs p j =>
    lane 8 (lut32 (movemask 64 4 (cmpLanes 64 (fneOrdered 11 52) finite64 (load 256 xs p &&& finite64)))) j)
    (stdCls 11 52 .isfinite) (stdCls 11 52 .isfinite)

/-- `UnaryInfFastFloat` (/repo/src/atop/ops_unary.cpp 726-782): equal to +inf or to -inf. -/
def infF32 : UKernel 32 :=
  .vec 32 (fun xs p j =>
    let c := fun i => cmpLanes 32 (feq 8 23) (load 256 xs (p + 8 * i)) (set1 256 0x7F800000#32) |||
                      cmpLanes 32 (feq 8 23) (load 256 xs (p + 8 * i)) (set1 256 0xFF800000#32)
    lane 8 (combFloat (c 0) (c 1) (c 2) (c 3)) j) (stdCls 8 23 .isinf) (stdCls 8 23 .isinf)

/-- `UnaryInfFastDouble` (/repo/src/atop/ops_unary.cpp 789-833). -/
def infF64 : UKernel 64 :=
  .vec 4 (fun xs p j =>
    let m1 := cmpLanes 64 (feq 11 52) (load 256 xs p) (set1 256 0x7FF0000000000000#64)
    let m2 := cmpLanes 64 (feq 11 52) (load 256 xs p) (set1 256 0xFFF0000000000000#64)
    lane 8 (lut32 (movemask 64 4 (m1 ||| m2))) j) (stdCls 11 52 .isinf) (stdCls 11 52 .isinf)

/-- `GetUnaryOpFast`, then `GetUnaryOpSlow` (/repo/src/atop/ops_unary.cpp 1647-1690, 1345-1375,
1405-1440, 1480-1505, 1615-1624; /repo/src/pnumpy/_pnumpy.cpp 1459-1462). `none`: the ufunc is not
hooked for that type. -/
def clsDispatch : (t : DT) → ClsOp → Option (UKernel t.bits)
  | .f32, .isnan => some nanF32
  | .f64, .isnan => some nanF64
  | .f32, .isfinite => some finiteF32
  | .f64, .isfinite => some finiteF64
  | .f32, .isinf => some infF32
  | .f64, .isinf => some infF64
  | .f32, .signbit => some (.slow (stdCls 8 23 .signbit))
  | .f64, .signbit => some (.slow (stdCls 11 52 .signbit))
  | _, .signbit => none
  | _, .isnan => some (.fill false)
  | _, .isinf => some (.fill false)
  | _, .isfinite => some (.fill true)

/-- Output byte `i`. `contig`: the fast path was taken, with `blocks` vector steps; otherwise the
strided loop (input element `i` is `xs i` in either case) (the loops of src/atop/ops_unary.cpp:436-833). -/
def UKernel.out {k : Nat} (K : UKernel k) (contig : Bool) (blocks : Nat) (xs : Nat → BitVec k) (i : Nat) :
    BitVec 8 :=
  match K with
  | .fill b => boolByte b
  | .slow sca => boolByte (sca (xs i))
  | .vec L step tail strided =>
    if contig then
      if i < L * blocks then step xs (L * (i / L)) (i % L) else boolByte (tail (xs i))
    else boolByte (strided (xs i))

end Pnumpy.Classify

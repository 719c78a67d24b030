import Verif.Model.LedgerCalls
import Verif.Spec.Dtypes
/- Terms used by C95: numpy's names, and a thread's own calls. -/
namespace Pnumpy.Spec
open Pnumpy.Hooks (Obj)

/-- The function object numpy knows under a name (`np.abs` is `np.absolute`, `np.bitwise_not` is `np.invert`). -/
def npFunc : String → Option Obj
  | "add" => some .add | "subtract" => some .subtract | "multiply" => some .multiply | "true_divide" => some .trueDivide
  | "floor_divide" => some .floorDivide | "minimum" => some .minimum | "maximum" => some .maximum | "power" => some .power | "remainder" => some .remainder
  | "logical_and" => some .logicalAnd | "logical_or" => some .logicalOr | "bitwise_and" => some .bitwiseAnd | "bitwise_or" => some .bitwiseOr
  | "bitwise_xor" => some .bitwiseXor | "left_shift" => some .leftShift | "right_shift" => some .rightShift
  | "equal" => some .equal | "not_equal" => some .notEqual | "greater" => some .greater | "greater_equal" => some .greaterEqual | "less" => some .less
  | "less_equal" => some .lessEqual
  | "abs" => some .absolute | "absolute" => some .absolute | "signbit" => some .signbit | "fabs" => some .fabs | "invert" => some .invert
  | "bitwise_not" => some .invert | "floor" => some .floor | "ceil" => some .ceil | "trunc" => some .trunc | "rint" => some .rint
  | "negative" => some .negative | "positive" => some .positive | "sign" => some .sign | "sqrt" => some .sqrt | "square" => some .square
  | "reciprocal" => some .reciprocal | "logical_not" => some .logicalNot | "isinf" => some .isinf | "isnan" => some .isnan | "isfinite" => some .isfinite
  | "sin" => some .sin | "cos" => some .cos | "tan" => some .tan | "arcsin" => some .arcsin | "arccos" => some .arccos | "arctan" => some .arctan
  | "sinh" => some .sinh | "cosh" => some .cosh | "tanh" => some .tanh | "arcsinh" => some .arcsinh | "arccosh" => some .arccosh | "arctanh" => some .arctanh
  | "cbrt" => some .cbrt | "exp" => some .exp | "exp2" => some .exp2 | "expm1" => some .expm1 | "log" => some .log | "log2" => some .log2
  | "log10" => some .log10 | "log1p" => some .log1p
  | _ => none

/-- numpy's name of an element type. -/
def npTypeName : Kind × Nat → Option String
  | (.bool, 1) => some "bool"
  | (.int, 1) => some "int8" | (.int, 2) => some "int16" | (.int, 4) => some "int32" | (.int, 8) => some "int64"
  | (.uint, 1) => some "uint8" | (.uint, 2) => some "uint16" | (.uint, 4) => some "uint32" | (.uint, 8) => some "uint64"
  | (.float, 2) => some "float16" | (.float, 4) => some "float32" | (.float, 8) => some "float64"
  | _ => none

/-- Thread `t`'s part of a history of (thread, call) pairs. -/
def own (t : Nat) (h : List (Nat × Nat)) : List (Nat × Nat) := h.filter fun p => p.1 = t

/-- How deep the call of a thread is nested in itself: the number of ledger records it still has to make. -/
def depth : LedgerCalls.Thread → Nat
  | .idle => 0
  | .test d _ => d
  | .on d _ => d
  | .work d _ => d
  | .unwind d _ => d
  | .tail d _ => d
  | .inc d _ _ => d
  | .fill d _ _ _ => d

end Pnumpy.Spec

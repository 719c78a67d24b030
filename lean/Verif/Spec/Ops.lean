import Verif.Spec.FloatOps
/-
What numpy documents for the arithmetic, bitwise and logical ufuncs, element by element.
-/
namespace Pnumpy.Spec

/-- Two-input numpy functions of one element type. -/
inductive BinFn where
  | add | subtract | multiply | trueDivide | floorDivide | minimum | maximum | logicalAnd | logicalOr
  | bitwiseAnd | bitwiseOr | bitwiseXor | leftShift | rightShift
deriving DecidableEq, Repr

def DT.isInt : DT → Bool
  | .bool | .f32 | .f64 => false
  | _ => true

/-- The integer an element of an integer type stands for. -/
def intVal (t : DT) (x : BitVec t.bits) : Int := match value t x with | .fin v => v | _ => 0

/-- `r` is the integer `v` wrapped into the range of type `t`: they differ by a multiple of `2^bits`. -/
def Wraps (t : DT) (v : Int) (r : BitVec t.bits) : Prop := ∃ q : Int, intVal t r = v + q * 2 ^ t.bits

/-- numpy's result for integer types. -/
def IntResult (t : DT) (x y r : BitVec t.bits) : BinFn → Prop
  | .add => Wraps t (intVal t x + intVal t y) r
  | .subtract => Wraps t (intVal t x - intVal t y) r
  | .multiply => Wraps t (intVal t x * intVal t y) r
  | .minimum => intVal t r = min (intVal t x) (intVal t y)
  | .maximum => intVal t r = max (intVal t x) (intVal t y)
  | .bitwiseAnd => ∀ i, i < t.bits → r.getLsbD i = (x.getLsbD i && y.getLsbD i)
  | .bitwiseOr => ∀ i, i < t.bits → r.getLsbD i = (x.getLsbD i || y.getLsbD i)
  | .bitwiseXor => ∀ i, i < t.bits → r.getLsbD i = (x.getLsbD i ^^ y.getLsbD i)
  | _ => False

/-- A boolean byte as numpy itself stores it. -/
def boolElem (b : Bool) : BitVec 8 := if b then 1 else 0

/-- numpy's result for booleans, `True + True` is `True`. -/
def boolFn (x y : Bool) : BinFn → Option Bool
  | .add | .logicalOr | .bitwiseOr | .maximum => some (x || y)
  | .multiply | .logicalAnd | .bitwiseAnd | .minimum => some (x && y)
  | .bitwiseXor => some (x ^^ y)
  | _ => none

/-- The float instructions and C library functions of the machine, on patterns of `k` bits. -/
structure FloatUnit where
  add : (k : Nat) → BitVec k → BitVec k → BitVec k
  sub : (k : Nat) → BitVec k → BitVec k → BitVec k
  mul : (k : Nat) → BitVec k → BitVec k → BitVec k
  div : (k : Nat) → BitVec k → BitVec k → BitVec k
  floor : (k : Nat) → BitVec k → BitVec k
  ceil : (k : Nat) → BitVec k → BitVec k
  trunc : (k : Nat) → BitVec k → BitVec k
  sqrt : (k : Nat) → BitVec k → BitVec k
  round : (k : Nat) → BitVec k → BitVec k

/-- numpy's result for floats; `SameFloat` because NaNs are not told apart. -/
def SameFloat (t : DT) (r s : BitVec t.bits) : Prop := r = s ∨ (value t r = .nan ∧ value t s = .nan)

def FloatResult (F : FloatUnit) (t : DT) (x y r : BitVec t.bits) : BinFn → Prop
  | .add => SameFloat t r (F.add t.bits x y)
  | .subtract => SameFloat t r (F.sub t.bits x y)
  | .multiply => SameFloat t r (F.mul t.bits x y)
  | .trueDivide => SameFloat t r (F.div t.bits x y)
  | .minimum => IsMinimum (value t x) (value t y) (value t r)
  | .maximum => IsMaximum (value t x) (value t y) (value t r)
  | _ => False

/-- `r` is numpy's reduction of the integer elements `xs` starting from `init` (`initial=`, or the first element): the sum or
product wrapped into the type, the smallest or largest element. -/
def IntReduction (t : DT) (init : BitVec t.bits) (xs : List (BitVec t.bits)) (r : BitVec t.bits) : BinFn → Prop
  | .add => Wraps t (intVal t init + (xs.map (intVal t)).sum) r
  | .multiply => Wraps t (intVal t init * (xs.map (intVal t)).prod) r
  | .minimum => r ∈ init :: xs ∧ ∀ x ∈ init :: xs, intVal t r ≤ intVal t x
  | .maximum => r ∈ init :: xs ∧ ∀ x ∈ init :: xs, intVal t x ≤ intVal t r
  | _ => False

/-- Reduction of booleans. -/
def boolReduction (init : Bool) (xs : List Bool) : BinFn → Option Bool
  | .add | .maximum => some (init || xs.any id)
  | .multiply | .minimum => some (init && xs.all id)
  | _ => none

/-- One-input numpy functions. -/
inductive UnFn where
  | absolute | sign | negative | logicalNot | invert | floor | ceil | trunc | rint | sqrt
deriving DecidableEq, Repr

/-- numpy's result for integer types; `r` has the input type except for logical_not. -/
def IntResult1 (t : DT) (x r : BitVec t.bits) : UnFn → Prop
  | .absolute => Wraps t (intVal t x).natAbs r
  | .sign => intVal t r = (intVal t x).sign
  | .negative => Wraps t (-intVal t x) r
  | .invert => ∀ i, i < t.bits → r.getLsbD i = !x.getLsbD i
  | _ => False

/-- 1.0 as a value (see `floatValue` for the scaling). -/
def oneVal : DT → Value
  | .f32 => .fin (2 ^ 149)
  | .f64 => .fin (2 ^ 1074)
  | _ => .fin 1

/-- numpy's result for floats; rounding functions are the machine's or the C library's. -/
def FloatResult1 (F : FloatUnit) (t : DT) (x r : BitVec t.bits) : UnFn → Prop
  | .floor => r = F.floor t.bits x
  | .ceil => r = F.ceil t.bits x
  | .trunc => r = F.trunc t.bits x
  | .sqrt => r = F.sqrt t.bits x
  | .sign => (value t x = .nan → r = x) ∧ (Value.lt (.fin 0) (value t x) → value t r = oneVal t) ∧
      (Value.lt (value t x) (.fin 0) → value t r = (oneVal t).neg) ∧ (value t x = .fin 0 → value t r = .fin 0)
  | _ => False

end Pnumpy.Spec

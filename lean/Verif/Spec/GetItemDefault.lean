import Verif.Spec.Value
/-
What the `default` argument of getitem should store for indices that are out of range.
-/
namespace Pnumpy.Spec

/-- A scalar passed as `default`. `npInt` is a numpy integer (int8 .. uint64), `npTime` a numpy timedelta64; `float` a Python or numpy float, as a
double; `other`: any other object. -/
inductive Scalar where
  | none
  | pyBool (b : Bool)
  | npBool (b : Bool)
  | pyInt (z : Int)
  | npInt (z : Int)
  | npTime
  | float (x : BitVec 64)
  | bytes (s : List (BitVec 8))
  | str (s : List (BitVec 32))
  | other

/-- numpy's type numbers (Linux) of booleans, integers, float32 and float64. -/
def numType : Nat → Option DT
  | 0 => some .bool | 1 => some .i8 | 2 => some .u8 | 3 => some .i16 | 4 => some .u16 | 5 => some .i32 | 6 => some .u32
  | 7 => some .i64 | 8 => some .u64 | 9 => some .i64 | 10 => some .u64 | 11 => some .f32 | 12 => some .f64
  | _ => none

/-- The integers a type holds (for booleans 0 and 1); every integer has a nearest float. -/
def HoldsInt (t : DT) (z : Int) : Prop :=
  match t with
  | .bool => z = 0 ∨ z = 1
  | .i8 => -2 ^ 7 ≤ z ∧ z < 2 ^ 7
  | .i16 => -2 ^ 15 ≤ z ∧ z < 2 ^ 15
  | .i32 => -2 ^ 31 ≤ z ∧ z < 2 ^ 31
  | .i64 => -2 ^ 63 ≤ z ∧ z < 2 ^ 63
  | .u8 => 0 ≤ z ∧ z < 2 ^ 8
  | .u16 => 0 ≤ z ∧ z < 2 ^ 16
  | .u32 => 0 ≤ z ∧ z < 2 ^ 32
  | .u64 => 0 ≤ z ∧ z < 2 ^ 64
  | .f32 | .f64 => True

/-- Conversion to the nearest float (how ties are broken does not matter here). -/
structure Rounding where
  f32 : Int → BitVec 32
  f64 : Int → BitVec 64
  narrow : BitVec 64 → BitVec 32

/-- `x` is the integer `z` as an element of type `t`. -/
def MeansInt (r : Rounding) : (t : DT) → Int → BitVec t.bits → Prop
  | .f32, z, x => x = r.f32 z
  | .f64, z, x => x = r.f64 z
  | t, z, x => value t x = .fin z

/-- `x` is the double `f` as an element of type `t`: rounded to float32, truncated to an integer. -/
def MeansFloat (r : Rounding) : (t : DT) → BitVec 64 → BitVec t.bits → Prop
  | .f32, f, x => x = r.narrow f
  | .f64, f, x => x = f
  | t, f, x => ∃ v, floatValue 11 52 f = .fin v ∧ value t x = .fin (v.tdiv (2 ^ 1074))

/-- The invalid value of a type: False, the least signed, the greatest unsigned number, NaN. -/
def IsInvalid : (t : DT) → BitVec t.bits → Prop
  | .bool, x => x = 0
  | .i8, x => x.toInt = -2 ^ 7 | .i16, x => x.toInt = -2 ^ 15 | .i32, x => x.toInt = -2 ^ 31 | .i64, x => x.toInt = -2 ^ 63
  | .u8, x => x.toNat = 2 ^ 8 - 1 | .u16, x => x.toNat = 2 ^ 16 - 1 | .u32, x => x.toNat = 2 ^ 32 - 1 | .u64, x => x.toNat = 2 ^ 64 - 1
  | .f32, x => floatValue 8 23 x = .nan
  | .f64, x => floatValue 11 52 x = .nan

/-- `x` is what a scalar stands for as an element of type `t`. -/
def Means (r : Rounding) (t : DT) (x : BitVec t.bits) : Scalar → Prop
  | .none => IsInvalid t x
  | .pyBool b | .npBool b => MeansInt r t (if b then 1 else 0) x
  | .pyInt z | .npInt z => MeansInt r t z x
  | .float f => MeansFloat r t f x
  | .npTime | .bytes _ | .str _ | .other => False

/-- A scalar that a type can hold. -/
def Holds (t : DT) : Scalar → Prop
  | .none | .pyBool _ | .npBool _ => True
  | .pyInt z | .npInt z => HoldsInt t z
  | .float f => (t = .f32 ∨ t = .f64) ∨ ∃ v, floatValue 11 52 f = .fin v ∧ HoldsInt t (v.tdiv (2 ^ 1074)) ∧ (t = .bool → v = 0 ∨ v = 2 ^ 1074)
  | .npTime | .bytes _ | .str _ | .other => False

end Pnumpy.Spec

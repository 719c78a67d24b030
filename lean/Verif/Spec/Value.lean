/-
What the bits of an array element mean: the element types and their numeric values.
-/
namespace Pnumpy.Spec

/-- Element types that pnumpy compares. -/
inductive DT where
  | bool | i8 | u8 | i16 | u16 | i32 | u32 | i64 | u64 | f32 | f64
deriving DecidableEq, Repr

/-- Size in bits. -/
def DT.bits : DT → Nat
  | .bool | .i8 | .u8 => 8
  | .i16 | .u16 => 16
  | .i32 | .u32 | .f32 => 32
  | .i64 | .u64 | .f64 => 64

/-- A numeric value: not a number, an infinity, or a finite number (a fixed multiple of it, see
`floatValue`). -/
inductive Value where
  | nan
  | ninf
  | fin (v : Int)
  | pinf
deriving DecidableEq, Repr

/-- `x < y` on values; nothing is less than, or greater than, NaN. -/
def Value.lt : Value → Value → Prop
  | .ninf, .fin _ | .ninf, .pinf | .fin _, .pinf => True
  | .fin a, .fin b => a < b
  | _, _ => False

/-- `x = y` on values; NaN equals nothing, not even itself. -/
def Value.eq : Value → Value → Prop
  | .nan, _ => False
  | x, y => x = y

instance : DecidableRel Value.lt := fun a b => by cases a <;> cases b <;> unfold Value.lt <;> infer_instance
instance : DecidableRel Value.eq := fun a b => by cases a <;> cases b <;> unfold Value.eq <;> infer_instance

/-- IEEE-754 value of a bit pattern with `E` exponent bits and `M` fraction bits.  The finite number
`(-1)^sign * 0.f * 2^(1-bias)` (exponent field 0) or `(-1)^sign * 1.f * 2^(e-bias)` is given
multiplied by `2^(bias-1+M)`, which makes it an integer. -/
def floatValue (E M : Nat) {k : Nat} (x : BitVec k) : Value :=
  let f := x.toNat % 2 ^ M
  let e := x.toNat / 2 ^ M % 2 ^ E
  let s := x.toNat / 2 ^ (E + M) % 2
  if e = 2 ^ E - 1 then
    if f ≠ 0 then .nan else if s = 1 then .ninf else .pinf
  else
    let m : Nat := if e = 0 then f else (2 ^ M + f) * 2 ^ (e - 1)
    .fin (if s = 1 then -(m : Int) else m)

/-- Numeric value of an element of type `t`. A boolean byte is true when nonzero. -/
def value : (t : DT) → BitVec t.bits → Value
  | .bool, x => .fin (if x = 0 then 0 else 1)
  | .i8, x => .fin x.toInt
  | .i16, x => .fin x.toInt
  | .i32, x => .fin x.toInt
  | .i64, x => .fin x.toInt
  | .u8, x => .fin x.toNat
  | .u16, x => .fin x.toNat
  | .u32, x => .fin x.toNat
  | .u64, x => .fin x.toNat
  | .f32, x => floatValue 8 23 x
  | .f64, x => floatValue 11 52 x

/-- The six comparison ufuncs. -/
inductive CmpOp where
  | eq | ne | gt | ge | lt | le
deriving DecidableEq, Repr

/-- The mathematical relation of a comparison ufunc. -/
def CmpOp.holds : CmpOp → Value → Value → Prop
  | .eq, a, b => a.eq b
  | .ne, a, b => ¬ a.eq b
  | .gt, a, b => b.lt a
  | .ge, a, b => b.lt a ∨ a.eq b
  | .lt, a, b => a.lt b
  | .le, a, b => a.lt b ∨ a.eq b

instance (op : CmpOp) : DecidableRel op.holds := fun a b => by
  cases op <;> unfold CmpOp.holds <;> infer_instance

end Pnumpy.Spec

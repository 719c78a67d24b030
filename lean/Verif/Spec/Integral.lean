import Verif.Spec.FloatOps
/-
What numpy documents for floor, ceil and trunc, and what the C standard says of `round`.  Numbers are given multiplied by
`unit`: `w` is an integer when it is a multiple of `unit`.
-/
namespace Pnumpy.Spec

/-- `w` is the largest integer not above `v`. -/
def IsFloor (unit v w : Int) : Prop := (∃ n : Int, w = unit * n) ∧ w ≤ v ∧ v < w + unit
/-- `w` is the smallest integer not below `v`. -/
def IsCeil (unit v w : Int) : Prop := (∃ n : Int, w = unit * n) ∧ v ≤ w ∧ w - unit < v
/-- `w` is the nearest integer to `v` that is not farther from zero. -/
def IsTrunc (unit v w : Int) : Prop := (0 ≤ v → IsFloor unit v w) ∧ (v ≤ 0 → IsCeil unit v w)
/-- `w` is an integer nearest to `v`, half-way cases away from zero (C11 7.12.9.6). -/
def IsRoundAway (unit v w : Int) : Prop :=
  (∃ n : Int, w = unit * n) ∧ -unit ≤ 2 * (v - w) ∧ 2 * (v - w) ≤ unit ∧
    (2 * (v - w) = unit → v < 0) ∧ (2 * (v - w) = -unit → 0 < v)

/-- numpy's floor, ceil, trunc and rint of one element: exact on numbers, infinities and NaN stay. -/
def RoundsTo (R : Int → Int → Int → Prop) (unit : Int) (x r : Value) : Prop :=
  match x with
  | .fin v => ∃ w, r = .fin w ∧ R unit v w
  | x => r = x

end Pnumpy.Spec

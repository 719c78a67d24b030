import Verif.Spec.Value
/-
What numpy documents for minimum, maximum, negative, absolute, sign and rint.
-/
namespace Pnumpy.Spec

/-- `r` is the minimum of `a` and `b`; NaN if either is. -/
def IsMinimum (a b r : Value) : Prop :=
  if a = .nan ∨ b = .nan then r = .nan else (r = a ∨ r = b) ∧ ¬ a.lt r ∧ ¬ b.lt r
/-- `r` is the maximum of `a` and `b`; NaN if either is. -/
def IsMaximum (a b r : Value) : Prop :=
  if a = .nan ∨ b = .nan then r = .nan else (r = a ∨ r = b) ∧ ¬ r.lt a ∧ ¬ r.lt b

def Value.neg : Value → Value
  | .nan => .nan | .ninf => .pinf | .pinf => .ninf | .fin v => .fin (-v)
def Value.abs : Value → Value
  | .nan => .nan | .ninf => .pinf | .pinf => .pinf | .fin v => .fin v.natAbs

/-- `w` is `v/unit` rounded to the nearest integer, ties to even (both given multiplied by `unit`). -/
def IsRint (unit v w : Int) : Prop :=
  ∃ n : Int, w = unit * n ∧ -unit ≤ 2 * (v - w) ∧ 2 * (v - w) ≤ unit ∧
    ((2 * (v - w) = unit ∨ 2 * (v - w) = -unit) → n % 2 = 0)

/-- The factor by which `floatValue` multiplies a number: 1.0 is `.fin (floatUnit E M)`. -/
def floatUnit (E M : Nat) : Int := 2 ^ (2 ^ (E - 1) - 2 + M)

/-- `r` is (times the unit) a float nearest to the quotient `x / y`: no float is closer. -/
def NearestQuotient (E M k : Nat) (x y r : Int) : Prop :=
  ∀ (s : BitVec k) (v : Int), floatValue E M s = .fin v →
    (x * floatUnit E M - r * y).natAbs ≤ (x * floatUnit E M - v * y).natAbs

/-- `r` is a float nearest to the number `num / den` (`den` positive; both sides in the units of `floatValue`): no float is closer. -/
def NearestTo (E M k : Nat) (num den r : Int) : Prop :=
  ∀ (s : BitVec k) (v : Int), floatValue E M s = .fin v → (num - r * den).natAbs ≤ (num - v * den).natAbs

/-- `q` is the largest integer not above the quotient `x / y`. -/
def FloorQuotient (x y q : Int) : Prop :=
  (0 < y ∧ q * y ≤ x ∧ x < (q + 1) * y) ∨ (y < 0 ∧ x ≤ q * y ∧ (q + 1) * y < x)

end Pnumpy.Spec

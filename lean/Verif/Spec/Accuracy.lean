import Verif.Spec.Trig
import Mathlib.Analysis.SpecialFunctions.Trigonometric.Basic
import Mathlib.Analysis.SpecialFunctions.Log.Basic
/-
Accuracy of a floating-point result.
-/
namespace Pnumpy.Spec

/-- The pattern `x` is a finite float whose value is within `ε` of the real number `t`. -/
def Close (E M : Nat) {k : Nat} (x : BitVec k) (t ε : ℝ) : Prop :=
  ∃ v : Int, floatValue E M x = .fin v ∧ |(v : ℝ) / (floatUnit E M : ℝ) - t| ≤ ε

/-- The pattern `x` is a finite float of value `a`. -/
def IsReal (E M : Nat) {k : Nat} (x : BitVec k) (a : ℝ) : Prop :=
  ∃ v : Int, floatValue E M x = .fin v ∧ (v : ℝ) / (floatUnit E M : ℝ) = a

/-- The mathematical functions. -/
noncomputable def exactFn : TFn → ℝ → ℝ
  | .sin => Real.sin
  | .cos => Real.cos
  | .exp => Real.exp
  | .log => Real.log

end Pnumpy.Spec

import Verif.Spec.Accuracy
import Verif.Spec.Trig
/-
Specification for C103: the sum of numbers some of which are infinite.
-/
namespace Pnumpy.Spec
/-- IEEE-754: a sum with a NaN, or with infinities of both signs, is NaN; with infinities of one sign it is that infinity
(`none`: all items are finite). -/
def sumSpecial (vs : List Value) : Option Value :=
  if .nan ∈ vs ∨ (.pinf ∈ vs ∧ .ninf ∈ vs) then some .nan
  else if .pinf ∈ vs then some .pinf
  else if .ninf ∈ vs then some .ninf
  else none

/-- The real number a finite float64 stands for; 0 for NaNs and infinities. -/
noncomputable def realOf (x : BitVec 64) : ℝ :=
  match floatValue 11 52 x with
  | .fin v => (v : ℝ) / (floatUnit 11 52 : ℝ)
  | _ => 0
end Pnumpy.Spec

/-
What np.arange returns.
-/
namespace Pnumpy.Spec

/-- first, first + step, first + 2 step, ... in the arithmetic modulo 2^w. -/
def arangeInt (w : Nat) (first step : BitVec w) (n : Nat) : List (BitVec w) := (List.range n).map fun i => first + BitVec.ofNat w i * step

end Pnumpy.Spec

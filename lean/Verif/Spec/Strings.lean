import Verif.Spec.Sort
/-
The order of fixed-width strings.
-/
namespace Pnumpy.Spec

/-- Lexicographic order on strings of code units: at the first unit where the strings differ, `s` has the smaller
one. -/
def LexBefore {u : Nat} (s t : List (BitVec u)) : Prop :=
  ∃ (p : List (BitVec u)) (x y : BitVec u) (s' t' : List (BitVec u)), s = p ++ x :: s' ∧ t = p ++ y :: t' ∧ x.toNat < y.toNat

end Pnumpy.Spec

import Verif.Spec.Ops
/-
What numpy's reductions of booleans, and bitwise reductions of integers, mean.
-/
namespace Pnumpy.Spec

/-- `r` is the bitwise reduction of the elements `xs` starting from `init`: bit by bit all, any, or an odd number of them. -/
def BitReduction {k : Nat} (init : BitVec k) (xs : List (BitVec k)) (r : BitVec k) : BinFn → Prop
  | .bitwiseAnd => ∀ i, i < k → r.getLsbD i = (init :: xs).all fun x => x.getLsbD i
  | .bitwiseOr => ∀ i, i < k → r.getLsbD i = (init :: xs).any fun x => x.getLsbD i
  | .bitwiseXor => ∀ i, i < k → r.getLsbD i = decide (((init :: xs).countP fun x => x.getLsbD i) % 2 = 1)
  | _ => False

/-- numpy's reduction of booleans: any, all, or an odd number of them. -/
def logicReduction (init : Bool) (xs : List Bool) : BinFn → Option Bool
  | .add | .maximum | .logicalOr | .bitwiseOr => some ((init :: xs).any id)
  | .multiply | .minimum | .logicalAnd | .bitwiseAnd => some ((init :: xs).all id)
  | .bitwiseXor => some (decide ((init :: xs).countP id % 2 = 1))
  | _ => none

end Pnumpy.Spec

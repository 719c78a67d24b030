import Verif.Spec.LexSort
/-
Columns with NaNs, columns of float16.
-/
namespace Pnumpy.Spec

/-- The column holds float16 numbers. -/
def Col.isHalf : Col → Bool
  | .half _ => true
  | _ => false

/-- A column numpy could have made, NaN included: booleans stored as 0 or 1, strings of the stated width, no float16. -/
def Col.Proper : Col → Prop
  | .num t v => t = .bool → ∀ x ∈ v, x.toNat ≤ 1
  | .str _ len v => ∀ s ∈ v, s.length = len
  | .half _ => False

end Pnumpy.Spec

import Verif.Spec.Sort
import Verif.Spec.Strings
/-
What a sort by several keys means.
-/
namespace Pnumpy.Spec

/-- Row `i` comes before row `j`: the last key decides, then the one before it, ... (as for `np.lexsort`). Each key is
given by its relation "row `i` has the smaller key". -/
def RowBefore : List (Nat → Nat → Prop) → Nat → Nat → Prop
  | [], _, _ => False
  | k :: ks, i, j => RowBefore ks i j ∨ (¬ RowBefore ks j i ∧ k i j)

/-- A key column of a table. -/
inductive Col where
  /-- numbers, booleans -/
  | num (t : DT) (v : List (BitVec t.bits))
  /-- strings of `len` code units of `u` bits -/
  | str (u len : Nat) (v : List (List (BitVec u)))
  /-- float16 -/
  | half (v : List (BitVec 16))

/-- Number of rows. -/
def Col.rows : Col → Nat
  | .num _ v => v.length
  | .str _ _ v => v.length
  | .half v => v.length

/-- Row `i` has the smaller key than row `j`. (float16: by sign and magnitude of the pattern; only used to show what is
not sorted.) -/
def Col.before : Col → Nat → Nat → Prop
  | .num t v, i, j => Spec.before t (v[i]?.getD 0) (v[j]?.getD 0)
  | .str _ _ v, i, j => LexBefore (v[i]?.getD []) (v[j]?.getD [])
  | .half v, i, j =>
    let m := fun i => (if (v[i]?.getD 0).msb then -(((v[i]?.getD 0).toNat % 2 ^ 15 : Nat) : Int) else (((v[i]?.getD 0).toNat : Nat) : Int))
    m i < m j

/-- Rows `lo .. hi - 1`. -/
def Col.slice (lo hi : Nat) : Col → Col
  | .num t v => .num t ((v.drop lo).take (hi - lo))
  | .str u len v => .str u len ((v.drop lo).take (hi - lo))
  | .half v => .half ((v.drop lo).take (hi - lo))

/-- A column numpy could have made, without NaN: booleans stored as 0 or 1, strings of the stated width, no float16. -/
def Col.Good : Col → Prop
  | .num t v => (t = .bool → ∀ x ∈ v, x.toNat ≤ 1) ∧ ∀ x ∈ v, value t x ≠ .nan
  | .str _ len v => ∀ s ∈ v, s.length = len
  | .half _ => False

/-- A column as numpy stores it: the strings have the stated width. Numbers may be anything, NaN included. -/
def Col.Sized : Col → Prop
  | .num _ _ => True
  | .str _ len v => ∀ s ∈ v, s.length = len
  | .half _ => True

end Pnumpy.Spec

/-
What grouping means.
-/
namespace Pnumpy.Spec

/-- `ids` numbers the rows of `v` by value with `u` numbers from `base` on; `firsts` and `counts` have one entry per
number: the first row with it and how many rows have it. -/
structure IsGrouping {α : Type} (v : List α) (base u : Nat) (ids firsts counts : List Nat) : Prop where
  length : ids.length = v.length
  lengths : firsts.length = u ∧ counts.length = u
  range : ∀ g ∈ ids, base ≤ g ∧ g < base + u
  same : ∀ i j, i < v.length → j < v.length → (ids[i]? = ids[j]? ↔ v[i]? = v[j]?)
  first : ∀ g, g < u → ∃ i, firsts[g]? = some i ∧ ids[i]? = some (base + g) ∧ ∀ j, ids[j]? = some (base + g) → i ≤ j
  count : ∀ g, g < u → counts[g]? = some (ids.count (base + g))
  total : counts.sum = v.length

/-- A relation that orders the elements of `v`. -/
structure Orders {α : Type} (r : α → α → Prop) (v : List α) : Prop where
  irrefl : ∀ x ∈ v, ¬ r x x
  total : ∀ x ∈ v, ∀ y ∈ v, x ≠ y → r x y ∨ r y x

end Pnumpy.Spec

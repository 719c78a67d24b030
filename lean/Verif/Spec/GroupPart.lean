import Verif.Spec.Group
import Verif.Spec.Sort
/-
What grouping in partitions means.
-/
namespace Pnumpy.Spec

/-- The partitions as pairs (start, end): the first starts at 0, each other one where the one before ends. -/
def parts (cuts : List Nat) : List (Nat × Nat) := (0 :: cuts).zip cuts

/-- The elements of a partition. -/
def slice {α : Type} (l : List α) (p : Nat × Nat) : List α := (l.drop p.1).take (p.2 - p.1)

/-- The cutoffs divide `n` rows into nonempty partitions. -/
structure Cuts (cuts : List Nat) (n : Nat) : Prop where
  nonempty : ∀ p ∈ parts cuts, p.1 < p.2
  last : cuts.getLast? = some n

/-- The number of the partition of row `i`: how many partitions end at or before it. -/
def partOf (cuts : List Nat) (i : Nat) : Nat := cuts.countP (· ≤ i)

/-- Each value together with the number of its partition. -/
def tagged {α : Type} (cuts : List Nat) (v : List α) : List (Nat × α) := v.mapIdx fun i x => (partOf cuts i, x)

end Pnumpy.Spec

import Verif.Model.ParSort
import Mathlib.Algebra.BigOperators.Group.Finset.Basic
import Mathlib.Data.Finset.Prod
/-
Words used in the property statements about parallel sorting: progress of the merge tree.
-/
namespace Pnumpy.ParSort
variable {α : Type}

/-- The fifteen nodes. -/
def nodes : Finset (Nat × Nat) := (Finset.range 4 ×ˢ Finset.range 8).filter fun p => p.2 < 2 ^ (3 - p.1)

/-- How far a node has got. -/
def rank : NodeSt α → Nat
  | .idle => 0
  | .running _ => 1
  | .finished => 2
  | .flagged => 3

/-- How far the whole sort has got: leaves handed out plus the progress of the fifteen nodes. -/
def progress (s : PS α) : Nat := s.next + ∑ p ∈ nodes, rank (s.st p)

end Pnumpy.ParSort

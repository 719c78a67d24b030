/-
Specification vocabulary for threaded calls.  Independent of the model.
A *kernel call* is a pair (first element, number of elements).
-/
namespace Pnumpy.Spec

/-- Kernel call `c` processes element `i`. -/
def covers (i : Nat) (c : Nat × Nat) : Bool := decide (c.1 ≤ i) && decide (i < c.1 + c.2)

/-- How many of the kernel calls process element `i`. -/
def timesProcessed (calls : List (Nat × Nat)) (i : Nat) : Nat := calls.countP (covers i)

/-- Every element of an `n`-element array is processed exactly once and nothing else is. -/
def ExactlyOnce (n : Nat) (calls : List (Nat × Nat)) : Prop :=
  ∀ i, timesProcessed calls i = if i < n then 1 else 0

/-- The elements processed by the calls, call by call. -/
def elements (calls : List (Nat × Nat)) : List Nat :=
  calls.flatMap fun c => (List.range c.2).map (c.1 + ·)

end Pnumpy.Spec

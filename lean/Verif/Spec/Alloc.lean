/-
What malloc guarantees and what a caller of the workspace allocator may do.
-/
namespace Pnumpy.Spec

/-- Two address ranges do not meet. -/
def apart (a n b m : Nat) : Prop := a + n ≤ b ∨ b + m ≤ a

/-- malloc's contract: 16-byte aligned, not null, and apart from every live region. -/
def mallocOk (heap : List (Nat × Nat)) (base size : Nat) : Prop :=
  base % 16 = 0 ∧ 0 < base ∧ ∀ r ∈ heap, apart base size r.1 r.2

end Pnumpy.Spec

/-
Specification of an element-wise call: what the memory must be afterwards.
-/
namespace Pnumpy.Spec

/-- `m'` is `m` after `out[i] = f(in1[i], in2[i])` for all `i < n`, all inputs read from the original
memory, and nothing else changed. Operand `k` has element `i` at address `pk + sk*i`. -/
def ElementwiseResult {α : Type} (f : α → α → α) (n : Nat) (p1 s1 p2 s2 po so : Int)
    (m m' : Int → α) : Prop :=
  (∀ i : Nat, i < n → m' (po + so * i) = f (m (p1 + s1 * i)) (m (p2 + s2 * i))) ∧
  (∀ a : Int, (∀ i : Nat, i < n → a ≠ po + so * i) → m' a = m a)

/-- The output elements are distinct and an output element may coincide only with the input elements
of the same position (fresh output, or output exactly aliasing an input). -/
def SafeOverlap (n : Nat) (p1 s1 p2 s2 po so : Int) : Prop :=
  ∀ i j : Nat, i < n → j < n → i ≠ j →
    po + so * i ≠ po + so * j ∧ po + so * i ≠ p1 + s1 * j ∧ po + so * i ≠ p2 + s2 * j

/-- The output does not touch any input element at all. -/
def NoOverlap (n : Nat) (p1 s1 p2 s2 po so : Int) : Prop :=
  ∀ i j : Nat, i < n → j < n →
    (i ≠ j → po + so * i ≠ po + so * j) ∧ po + so * i ≠ p1 + s1 * j ∧ po + so * i ≠ p2 + s2 * j

end Pnumpy.Spec

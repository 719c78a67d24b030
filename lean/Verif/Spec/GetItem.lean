/-
What indexing means.
-/
namespace Pnumpy.Spec

/-- `a[mask]`: the items whose mask byte is not zero, in order. -/
def maskSelect {α : Type} (m : Nat → BitVec 8) (v : Nat → α) (n : Nat) : List α :=
  ((List.range n).filter fun i => m i ≠ 0).map v

/-- The position a Python index denotes in a sequence of `n` items, if any: negative numbers count from the end. -/
def pyIndex (n : Nat) (i : Int) : Option Nat :=
  if 0 ≤ i ∧ i < n then some i.toNat
  else if -(n : Int) ≤ i ∧ i < 0 then some (i + n).toNat
  else none

/-- The number an element of an integer index array stands for. -/
def indexValue {w : Nat} (unsigned : Bool) (x : BitVec w) : Int := if unsigned then x.toNat else x.toInt

/-- `a[idx]`, with `dflt` for indices that denote no item. -/
def indexSelect {α : Type} (v : Nat → α) (n : Nat) (dflt : α) (k : Nat) (idx : Nat → Int) : List α :=
  (List.range k).map fun j => match pyIndex n (idx j) with
    | some i => v i
    | none => dflt

end Pnumpy.Spec

/-
Combining a list of items with an operation that need not be associative or commutative (floating-point addition).
-/
namespace Pnumpy.Spec

/-- `Combines op d l r`: `r` is obtained from the items of `l`, each used exactly once and in some order, by combining two partial results at a
time with `op`, and no item passes through more than `d` combinations. -/
inductive Combines {α : Type} (op : α → α → α) : Nat → List α → α → Prop where
  | item (d : Nat) (x : α) : Combines op d [x] x
  | both {d : Nat} {l l' : List α} {x y : α} : Combines op d l x → Combines op d l' y → Combines op (d + 1) (l ++ l') (op x y)
  | reorder {d : Nat} {l l' : List α} {x : α} : l.Perm l' → Combines op d l x → Combines op d l' x

end Pnumpy.Spec

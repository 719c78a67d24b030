import Verif.Spec.Value
/-
What sorting means.
-/
namespace Pnumpy.Spec

/-- The order of a sorted array: `x` has to come before `y` if its number is smaller, or if `y` is NaN
and `x` is not. -/
def before (t : DT) (x y : BitVec t.bits) : Prop :=
  (value t x).lt (value t y) ∨ (value t y = .nan ∧ value t x ≠ .nan)

instance (t : DT) : DecidableRel (before t) := fun x y => by unfold before; infer_instance

/-- No element has to come before an element that stands to its left. -/
def Ascending {α : Type} (before : α → α → Prop) (l : List α) : Prop := l.Pairwise fun x y => ¬ before y x

/-- `l'` is `l` in ascending order. -/
def IsSortOf {α : Type} (before : α → α → Prop) (l' l : List α) : Prop := l'.Perm l ∧ Ascending before l'

/-- `ix` is an argsort of the keys: a permutation of `0 .. n-1` along which the keys ascend. -/
def IsArgsort {α : Type} (before : α → α → Prop) (key : Nat → α) (n : Nat) (ix : List Nat) : Prop :=
  ix.Perm (List.range n) ∧ Ascending (fun i j => before (key i) (key j)) ix

/-- ... and equal keys keep their original order. -/
def IsStableArgsort {α : Type} (before : α → α → Prop) (key : Nat → α) (n : Nat) (ix : List Nat) : Prop :=
  ix.Perm (List.range n) ∧
  ix.Pairwise fun i j => ¬ before (key j) (key i) ∧ (¬ before (key i) (key j) → i < j)

/-- `l'` is the stable sort of `l`: elements that are equivalent in the order (such as -0.0 and 0.0, or
NaNs with different bits) keep their relative order: for every class of equivalent elements, the
subsequence of its members is the same in `l'` and `l`. -/
def IsStableSortOf {α : Type} (before : α → α → Prop) [DecidableRel before] (l' l : List α) : Prop :=
  IsSortOf before l' l ∧
  ∀ c, l'.filter (fun x => ¬ before x c ∧ ¬ before c x) = l.filter (fun x => ¬ before x c ∧ ¬ before c x)

end Pnumpy.Spec

/- Specification of a reduction. -/
namespace Pnumpy.Spec

/-- numpy's definition: start from `init` and combine with each element from left to right. -/
def reduceSpec {α : Type} (op : α → α → α) (init : α) (xs : List α) : α := xs.foldl op init

structure AssocComm {α : Type} (op : α → α → α) : Prop where
  assoc : ∀ x y z, op (op x y) z = op x (op y z)
  comm : ∀ x y, op x y = op y x

end Pnumpy.Spec

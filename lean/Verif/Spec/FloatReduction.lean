import Verif.Spec.Ops
/-
What numpy's `minimum.reduce` and `maximum.reduce` of floats mean.
-/
namespace Pnumpy.Spec

/-- `r` is numpy's smallest (largest) of the values: NaN if one of them is, otherwise one of them than which none is smaller (larger).
Other functions have no such result. -/
def FloatExtreme (vals : List Value) (r : Value) : BinFn → Prop
  | .minimum => if .nan ∈ vals then r = .nan else r ∈ vals ∧ ∀ v ∈ vals, ¬ v.lt r
  | .maximum => if .nan ∈ vals then r = .nan else r ∈ vals ∧ ∀ v ∈ vals, ¬ r.lt v
  | _ => False

end Pnumpy.Spec

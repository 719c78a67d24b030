/- Specification of accumulate: `accSpec f a i` is `f (... f (f a0 a1) a2 ...) ai`. -/
namespace Pnumpy.Spec

def accSpec {α : Type} (f : α → α → α) (a : Nat → α) : Nat → α
  | 0 => a 0
  | i + 1 => f (accSpec f a i) (a (i + 1))

end Pnumpy.Spec

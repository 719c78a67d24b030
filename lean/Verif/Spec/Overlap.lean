/- Specification of an element-wise binary call on overlapping operands: the elements are computed one
after the other in index order, each store visible to the following loads (what numpy's own inner
loop does). -/
namespace Pnumpy.Spec

/-- Memory after computing elements `0 .. n-1` in order: `out[i] = f (in1[i], in2[i])`. -/
def inOrder {α : Type} (f : α → α → α) (in1 in2 out : Nat → Int) (m : Int → α) : Nat → Int → α
  | 0 => m
  | i + 1 => fun a =>
    let m' := inOrder f in1 in2 out m i
    if a = out i then f (m' (in1 i)) (m' (in2 i)) else m' a

end Pnumpy.Spec

/-
Specification vocabulary: what a program that has made a list of stores reads back.
-/
namespace Pnumpy.Spec

variable {A V : Type} [DecidableEq A]

/-- The contents of address `a` for somebody who started from memory `mem` and has since made the stores `stores`, the first one first: the last value
stored at `a`, or what memory held. -/
def lastStored (mem : A → V) (stores : List (A × V)) (a : A) : V :=
  ((stores.reverse.find? fun p => decide (p.1 = a)).map Prod.snd).getD (mem a)

end Pnumpy.Spec

/-
A merge sort on lists, as a reference for what the merge argsort returns for arbitrary keys: `lt` is the comparison that puts NaN last,
`raw` is plain `<`.
-/
namespace Pnumpy.Spec

/-- The usual merge of two lists: the head of the right list goes first exactly if it is less than the head of the left one. -/
def mergeRef {β : Type} (less : β → β → Bool) : List β → List β → List β
  | [], R => R
  | l :: L, [] => l :: L
  | l :: L, r :: R => if less r l then r :: mergeRef less (l :: L) R else l :: mergeRef less L (r :: R)
termination_by L R => L.length + R.length

/-- Insertion of the elements one after the other. -/
def smallRef (lt : Nat → Nat → Bool) (S : List Nat) : List Nat := S.foldl (fun acc x => mergeRef lt acc [x]) []

/-- The first of the right list is less than the last of the left list. -/
def needsMerge (lt : Nat → Nat → Bool) (L R : List Nat) : Bool :=
  match R.head?, L.getLast? with
  | some x, some y => lt x y
  | _, _ => false

mutual
/-- Halves sorted and merged by `raw` (only if they overlap, or if the left half went through a merge itself); up to 15 elements by insertion with `lt`. The number is the depth of recursion left (any number from the
length on gives the same). -/
def argMs (lt raw : Nat → Nat → Bool) : Nat → List Nat → List Nat
  | 0, S => S
  | f + 1, S =>
    if 15 < S.length then
      if (argMsL lt raw f (S.take (S.length / 2))).2 || needsMerge lt (argMsL lt raw f (S.take (S.length / 2))).1 (argMs lt raw f (S.drop (S.length / 2))) then
        mergeRef raw (argMsL lt raw f (S.take (S.length / 2))).1 (argMs lt raw f (S.drop (S.length / 2)))
      else (argMsL lt raw f (S.take (S.length / 2))).1 ++ argMs lt raw f (S.drop (S.length / 2))
    else smallRef lt S
/-- The left half: the same, but merged by `lt`; and whether it was merged. -/
def argMsL (lt raw : Nat → Nat → Bool) : Nat → List Nat → List Nat × Bool
  | 0, S => (S, false)
  | f + 1, S =>
    if 15 < S.length then
      if needsMerge lt (argMs lt raw f (S.take (S.length / 2))) (argMs lt raw f (S.drop (S.length / 2))) then
        (mergeRef lt (argMs lt raw f (S.take (S.length / 2))) (argMs lt raw f (S.drop (S.length / 2))), true)
      else (argMs lt raw f (S.take (S.length / 2)) ++ argMs lt raw f (S.drop (S.length / 2)), false)
    else (smallRef lt S, false)
end

/-- The parallel variant: the list is halved `k` times, the pieces go through the serial sort, the results are merged pairwise by `lt`
(only if they overlap). -/
def argPar (lt raw : Nat → Nat → Bool) : Nat → List Nat → List Nat
  | 0, S => argMs lt raw S.length S
  | k + 1, S =>
    if needsMerge lt (argPar lt raw k (S.take (S.length / 2))) (argPar lt raw k (S.drop (S.length / 2))) then
      mergeRef lt (argPar lt raw k (S.take (S.length / 2))) (argPar lt raw k (S.drop (S.length / 2)))
    else argPar lt raw k (S.take (S.length / 2)) ++ argPar lt raw k (S.drop (S.length / 2))

end Pnumpy.Spec

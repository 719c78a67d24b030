import Verif.Model.Group
/-
The partitioned half of GroupFromLexSortInternal (sorting.cpp 626-965): one task per partition, run by the threads, groups
its part of the index; after sums over the numbers of groups a second task per partition renumbers.

Simplifications: a task is executed as a whole; the tasks of a phase in any order (they are handed out by
DoMultiThreadedWork, see Model/WorkItem; `task1_eq`, `addAll_get` and `copyAll_get` in Proofs/GroupPart show that a task touches only the cells of
its own nonempty partition, so that an interleaving of the accesses gives the same).  Numbers are natural numbers (int32 or int64 in the code; lengths are below 2^31 or 2^63, so nothing
overflows).  Allocations succeed.
-/
namespace Pnumpy.GroupPart
open Pnumpy.Sort Pnumpy.Str Pnumpy.Group

section
variable {α : Type} (eq : α → α → Option Bool)

/-- GroupIndex on the rest of the arrays from the start of a partition on, with the partition's length: the first index is
read whatever the length is; the loop runs over the positions 1, ..., len-1 (src/atop/sort.cpp:2580-2746). -/
def groupAt (v : List α) (base sh len : Nat) (ix group first count : List Nat) : Option (Nat × List Nat × List Nat × List Nat) := do
  let c0 ← ix[0]?
  let val ← v[c0]?
  let count ← zeroBin sh count
  let first ← put first 0 c0
  let group ← put group c0 base
  if len ≤ ix.length then do
    let s ← loop eq v base sh { group, first, count, cur := 0, cnt := 1, val } (ix.take len).tail
    let count ← put s.count (s.cur + sh) s.cnt
    some (s.cur + 1, s.group, s.first, count)
  else none

/-- The arrays of the call: the index (an argument, changed in place), keys, first, count, uniqueCounts (src/pnumpy/sorting.cpp:650-690). -/
structure St where
  ix : List Nat
  keys : List Nat
  first : List Nat
  count : List Nat
  uniq : List Nat

/-- `partStart`: 0 or the previous cutoff (src/pnumpy/sorting.cpp:734-739, 831-838). -/
def start (cuts : List Nat) (t : Nat) : Option Nat := if t = 0 then some 0 else cuts[t - 1]?

/-- lambdaPSCallback, src/pnumpy/sorting.cpp:728-763: group one partition; group numbers from 0 (`base_index` is not passed on).
A negative length (cutoffs that go down) is a loop of no turns, as the length 0. -/
def task1 (v : List α) (sh : Nat) (cuts : List Nat) (s : St) (t : Nat) : Option St := do
  let a ← start cuts t
  let b ← cuts[t]?
  let r ← groupAt eq (v.drop a) 0 sh (b - a) (s.ix.drop a) (s.keys.drop a) (s.first.drop a) (s.count.drop a)
  let uniq ← put s.uniq t r.1
  some { s with keys := s.keys.take a ++ r.2.1, first := s.first.take a ++ r.2.2.1, count := s.count.take a ++ r.2.2.2, uniq }
end

/-- The sums `totalUniques += pUniqueCounts[i]; pUniqueCounts[i] = totalUniques` (src/pnumpy/sorting.cpp:768-772). -/
def sums (tot : Nat) : List Nat → List Nat
  | [] => []
  | u :: us => (tot + u) :: sums (tot + u) us

/-- `for i < len: p[i] += d` at position `a` on (src/pnumpy/sorting.cpp:865-868, 873-875). -/
def addAll (d a : Nat) : Nat → List Nat → Option (List Nat)
  | 0, l => some l
  | n + 1, l => do
    let x ← l[a]?
    let l ← put l a (x + d)
    addAll d (a + 1) n l

/-- `for i < len: dst[b + i] = src[a + i] + d` (src/pnumpy/sorting.cpp:889-893). -/
def copyAll (d a b : Nat) (src : List Nat) : Nat → List Nat → Option (List Nat)
  | 0, dst => some dst
  | n + 1, dst => do
    let x ← src[a]?
    let dst ← put dst b (x + d)
    copyAll d (a + 1) (b + 1) src n dst

/-- The arrays of the second phase: index and keys are changed in place, firstReduced and countReduced filled (src/pnumpy/sorting.cpp:776-822). -/
structure St2 where
  ix : List Nat
  keys : List Nat
  firstR : List Nat
  countR : List Nat

/-- lambdaPGADDCallback, src/pnumpy/sorting.cpp:825-947 (the 4 and the 8 byte version are the same). `first`, `count`, `uniq` (now the
sums) are only read; `countR` is shifted by the reserved cell 0. -/
def task2 (first count uniq cuts : List Nat) (s : St2) (t : Nat) : Option St2 := do
  let a ← start cuts t
  let before ← start uniq t
  let b ← cuts[t]?
  let keys ← addAll ((if t = 0 then a else before) + 1) a (b - a) s.keys
  let ix ← (if t = 0 then some s.ix else addAll a a (b - a) s.ix)
  let u ← uniq[t]?
  let firstR ← copyAll a a before first (u - before) s.firstR
  let countR ← copyAll 0 a (before + 1) count (u - before) s.countR
  some { ix, keys, firstR, countR }

/-- How a call ends (src/pnumpy/sorting.cpp:641-650, 955-964). -/
inductive Out where
  /-- keys, iFirstKey, nCountGroup, uniqueCounts; the index array after the call -/
  | ok (keys firstR countR uniq ix : List Nat)
  | valueError
  /-- memory outside the arrays is accessed -/
  | outside
deriving DecidableEq

/-- GroupFromLexSortInternal with cutoffs, src/pnumpy/sorting.cpp:636-965. `sh` is 1 for items of other sizes than 1, 2, 4, 8 (see `Group.step`); `base` is
the `base_index` argument, which is stored (706, 824) and not used; `o1`, `o2` are the orders in which the tasks are executed; `fresh k n` is the
content of the k-th array allocated, of length n. -/
def call {α : Type} (eq : α → α → Option Bool) (v : List α) (sh : Nat) (_base : Nat) (cuts ix : List Nat) (fresh : Nat → Nat → List Nat) (o1 o2 : List Nat) : Out :=
  match cuts.getLast? with
  | none => .outside
  | some c =>
    if c ≠ ix.length then .valueError else
    match o1.foldlM (task1 eq v sh cuts)
        { ix, keys := fresh 0 v.length, first := fresh 1 ix.length, count := fresh 2 (ix.length + 1 + cuts.length), uniq := fresh 3 cuts.length } with
    | none => .outside
    | some s =>
      let tot := s.uniq.sum
      match o2.foldlM (task2 s.first s.count (sums 0 s.uniq) cuts)
          { ix := s.ix, keys := s.keys, firstR := fresh 4 tot, countR := 0 :: fresh 5 tot } with
      | none => .outside
      | some r => .ok r.keys r.firstR r.countR (sums 0 s.uniq) r.ix

/-- The call for items of 1, 2, 4 or 8 bytes (GroupIndex, src/atop/sort.cpp:2722-2738). -/
def callNum {k : Nat} (v : List (BitVec k)) (base : Nat) (cuts ix : List Nat) (fresh : Nat → Nat → List Nat) (o1 o2 : List Nat) : Out :=
  call (fun x y => some (x == y)) v 0 base cuts ix fresh o1 o2

/-- The call for items of any other size (GroupIndex, src/atop/sort.cpp:2739-2742). -/
def callBytes (len : Nat) (v : List (List (BitVec 8))) (base : Nat) (cuts ix : List Nat) (fresh : Nat → Nat → List Nat) (o1 o2 : List Nat) : Out :=
  call (binEq len) v 1 base cuts ix fresh o1 o2

end Pnumpy.GroupPart

import Verif.Model.Sort
import Mathlib.Logic.Function.Basic
/-
The eight-segment parallel sort: MERGE_SPLITTER, IsBuddyBitSet, ParMergeInPlaceThreadCallback and
ParArgSortCallback (sort.cpp 1458-1605, 1690-1855) as used by par_sort and par_amergesort.

The eight leaf segments and the seven merges form a binary tree: node `(k, j)` is the segment `j` of level `k`
(`k = 0` leaves, `k = 3` the whole array). Any number of threads work on it. A node is worked on by one thread;
while it is `running` the memory it owns may hold anything (`Step.scribble`), and when it is done the result is
what its function computes from the contents the segment had when the node was started (`Step.commit`).
-/
namespace Pnumpy.ParSort
open Pnumpy.Sort

/-- MERGE_SPLITTER::EndPositions for NumLevels = 3, sort.cpp 1515-1529 (both callers ask for 8 cores). -/
def endPos (n : Nat) : Nat → Nat
  | 0 => 0
  | 1 => n / 2 / 2 / 2
  | 2 => n / 2 / 2
  | 3 => n / 2 / 2 + (n / 2 - n / 2 / 2) / 2
  | 4 => n / 2
  | 5 => n / 2 + (n / 2 + (n - n / 2) / 2 - n / 2) / 2
  | 6 => n / 2 + (n - n / 2) / 2
  | 7 => (n / 2 + (n - n / 2) / 2) + (n - (n / 2 + (n - n / 2) / 2)) / 2
  | _ => n

/-- `allocChunk`, sort.cpp 2014 and 2141: elements of workspace per leaf. -/
def chunk (n : Nat) : Nat := n / 16 + 1

/-- `pFirst` of a node: EndPositions[index * 2^k], sort.cpp 1703, 1733, 1748, 1760. -/
def nodeLo (n k j : Nat) : Nat := endPos n (j * 2 ^ k)
/-- `pSecond` of a node (EndPositions[(index + 1) * 2^k], sort.cpp 1703, 1733, 1748, 1760). -/
def nodeHi (n k j : Nat) : Nat := endPos n ((j + 1) * 2 ^ k)
/-- `pWorkSpace1` of a node: `index * 2^k * AllocChunk`, sort.cpp 1714, 1731, 1746, 1760. -/
def nodeWs (n k j : Nat) : Nat := j * 2 ^ k * chunk n

/-- What has happened to a node (sort.cpp 1698-1768). -/
inductive NodeSt (α : Type) where
  /-- not started -/
  | idle
  /-- a thread is executing its sort / merge function; `snap` is what the segment contained at the start -/
  | running (snap : List α)
  /-- the function has returned; IsBuddyBitSet has not been called yet -/
  | finished
  /-- the bit of this node has been set -/
  | flagged

/-- Shared state: array, workspace, number of leaf indices handed out, `Level[]` masks, node states and number of
completed work blocks (MERGE_STEP_ONE_CALLBACK, sort.cpp 1459-1480, 1545-1578). -/
structure PS (α : Type) where
  a : List α
  w : List α
  next : Nat
  lvl : Nat → BitVec 64
  st : Nat × Nat → NodeSt α
  completed : Nat

variable {α : Type}

/-- Contents of `a[lo, hi)` (the memory between two EndPositions, sort.cpp 1703-1715). -/
def seg (a : List α) (lo hi : Nat) : List α := (a.drop lo).take (hi - lo)

/-- `a` with `snap` at `lo` (same memory, sort.cpp 1703-1715). -/
def splice (a : List α) (lo : Nat) (snap : List α) : List α := a.take lo ++ snap ++ a.drop (lo + snap.length)

/-- `a'` differs from `a` at most inside `[lo, hi)` (footprint of a node, sort.cpp 1703-1760). -/
def Within (lo hi : Nat) (a' a : List α) : Prop :=
  a'.length = a.length ∧ ∀ p, ¬ (lo ≤ p ∧ p < hi) → a'[p]? = a[p]?

/-- The sort function of the leaves and the merge function of the inner nodes (array, workspace, start, length,
workspace offset) (the function pointer types of sort.cpp 1424-1436). -/
abbrev LeafFn (α : Type) := List α → List α → Nat → Nat → Nat → Option (List α × List α)

/-- What a node executes: the sort function on a leaf, the merge on an inner node; sort.cpp 1716-1722, 1738, 1755,
1760 and 1811-1817, 1829, 1843, 1848. -/
def body (leaf : LeafFn α) (mrg : LeafFn α) (n k j : Nat) (a w : List α) : Option (List α × List α) :=
  if k = 0 then leaf a w (nodeLo n 0 j) (nodeHi n 0 j - nodeLo n 0 j) (nodeWs n 0 j)
  else mrg a w (nodeLo n k j) (nodeHi n k j - nodeLo n k j) (nodeWs n k j)

/-- The buddy bit of IsBuddyBitSet, sort.cpp 1588-1596. -/
def buddy (j : Nat) : BitVec 64 := if j % 2 = 1 then 1#64 <<< (j - 1) else 1#64 <<< (j + 1)

/-- Atomic steps. `src` is the separate source array of an out-of-place sort: a thread that gets a leaf first
copies the segment from it (sort.cpp 1806-1809). -/
inductive Step (leaf : LeafFn α) (mrg : LeafFn α) (n : Nat) (src : Option (List α)) : PS α → PS α → Prop where
  /-- GetNextWorkIndex hands out leaf `next` (sort.cpp 1698-1700, 1783-1785). -/
  | claim (s : PS α) (h : s.next < 8) :
      Step leaf mrg n src s
        { s with
          next := s.next + 1
          st := Function.update s.st (0, s.next) (.running (seg (src.getD s.a) (nodeLo n 0 s.next) (nodeHi n 0 s.next))) }
  /-- A running node writes anything into its own segment and its own workspace. -/
  | scribble (s : PS α) (k j : Nat) (snap a' w' : List α) (h : s.st (k, j) = .running snap)
      (ha : Within (nodeLo n k j) (nodeHi n k j) a' s.a)
      (hw : Within (nodeWs n k j) (nodeWs n k (j + 1)) w' s.w) :
      Step leaf mrg n src s { s with a := a', w := w' }
  /-- A running node completes its function. The thread of the last merge then completes its block
  (CompleteWorkBlock, sort.cpp 1768, 1852). -/
  | commit (s : PS α) (k j : Nat) (snap a' w' : List α) (h : s.st (k, j) = .running snap)
      (hrun : body leaf mrg n k j (splice s.a (nodeLo n k j) snap) s.w = some (a', w')) :
      Step leaf mrg n src s
        { s with
          a := a', w := w'
          st := Function.update s.st (k, j) .finished
          completed := if k = 3 then s.completed + 1 else s.completed }
  /-- IsBuddyBitSet (atomic OR of the own bit), buddy bit was set: go on with the parent. -/
  | goUp (s : PS α) (k j : Nat) (hk : k < 3) (h : s.st (k, j) = .finished) (hb : s.lvl k &&& buddy j = buddy j) :
      Step leaf mrg n src s
        { s with
          lvl := Function.update s.lvl k (s.lvl k ||| 1#64 <<< j)
          st := Function.update (Function.update s.st (k, j) .flagged) (k + 1, j / 2)
            (.running (seg s.a (nodeLo n (k + 1) (j / 2)) (nodeHi n (k + 1) (j / 2)))) }
  /-- IsBuddyBitSet, buddy bit was not set: this block is complete (CompleteWorkBlock). -/
  | wait (s : PS α) (k j : Nat) (hk : k < 3) (h : s.st (k, j) = .finished) (hb : s.lvl k &&& buddy j ≠ buddy j) :
      Step leaf mrg n src s
        { s with
          lvl := Function.update s.lvl k (s.lvl k ||| 1#64 <<< j)
          st := Function.update s.st (k, j) .flagged
          completed := s.completed + 1 }

/-- Start of the sort: SetLevels clears the masks, the workspace of `8 * allocChunk` elements is uninitialised (sort.cpp 2011-2040, 2139-2165). -/
def init (a w : List α) : PS α :=
  { a := a, w := w, next := 0, lvl := fun _ => 0, st := fun _ => .idle, completed := 0 }

/-- States that can occur (of the callbacks sort.cpp 1690-1855). -/
inductive Reach (leaf : LeafFn α) (mrg : LeafFn α) (n : Nat) (src : Option (List α)) (s0 : PS α) : PS α → Prop where
  | start : Reach leaf mrg n src s0 s0
  | step {s s' : PS α} : Reach leaf mrg n src s0 s → Step leaf mrg n src s s' → Reach leaf mrg n src s0 s'

/-- Leaves of the in-place sorts: SortCallbackOne, with the temporary workspace that mergesort_ allocates itself
(contents `f`) (sort.cpp 1811-1817, 2203-2226). -/
def leafSort (o : Ops α) (k : Kind) (f : Nat → List α) : LeafFn α :=
  fun a w start len _ => (sortFn o k a start len (f (len / 2))).map (·, w)

/-- Leaves of the indirect sorts: ArgSortCallbackOne (sort.cpp 1716-1722, 2253-2285). -/
def leafArg (o : Ops α) (k : Kind) (v : List α) : LeafFn Nat :=
  fun a w start len pw => argsortFn o k v a w start len pw

end Pnumpy.ParSort

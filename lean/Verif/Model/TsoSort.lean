import Verif.Model.ParSort
import Verif.Model.Tso
/-
The eight-segment parallel sort (Model/ParSort) on a machine with store buffers (x86-TSO), down to single loads and stores.

The code of a node (the leaf's sort function, the merge function) is a sequence of plain loads and stores; a thread's stores go through its own
first-in-first-out buffer (Model/Tso). GetNextWorkIndex, IsBuddyBitSet and CompleteWorkBlock are `lock` instructions (src/atop/threads.h 253-266,
src/atop/sort.cpp 1603) and wait until the thread's own buffer is empty. Thread-local variables, memory only one thread knows (the temporary buffer of
mergesort_), and arrays nobody writes to (the keys of an indirect sort) are part of the program `Prog`.
IsBuddyBitSet and the CompleteWorkBlock that follows it when the buddy is missing are one step here, as in Model/ParSort.
-/
namespace Pnumpy.TsoSort
open ParSort

/-- Memory cells: elements of the sorted array, of the workspace, and everything else (src/atop/sort.cpp:1459-1480). -/
inductive Loc where
  | arr (i : Nat)
  | ws (i : Nat)
  | other (i : Nat)
  deriving DecidableEq

/-- Straight execution of sequential code: what it loads and stores, in order; each load's value determines how it goes on
(the sort and merge functions called at src/atop/sort.cpp:1716-1760, 1806-1848). -/
inductive Prog (V : Type) where
  | done
  | load (l : Loc) (k : V → Prog V)
  | store (l : Loc) (v : V) (k : Prog V)

/-- Where a thread is in ParArgSortCallback / ParMergeInPlaceThreadCallback (src/atop/sort.cpp:1692-1855). -/
inductive PC (V : Type) where
  /-- has not seen the work item yet -/
  | out
  /-- about to call GetNextWorkIndex -/
  | ready
  /-- executes node `j` of level `k`, `p` is what is left of it -/
  | run (k j : Nat) (p : Prog V)
  /-- has left the loop: no segments left -/
  | left

/-- Memory, store buffers (oldest first), threads, and the variables that are only changed by `lock` instructions
(src/atop/threads.h:165-252, src/atop/sort.cpp:1545-1578). -/
structure St (V : Type) where
  mem : Loc → V
  buf : Nat → List (Loc × V)
  pc : Nat → PC V
  next : Nat
  lvl : Nat → BitVec 64
  completed : Nat

/-- A plain load: the newest own buffered store to the cell, else memory (any load in src/atop/sort.cpp:1692-1855). -/
def load {V : Type} (mem : Loc → V) : List (Loc × V) → Loc → V
  | [], a => mem a
  | (b, v) :: l, a => load (fun x => if x = b then v else mem x) l a

/-- What a step is: the next instruction of a thread, or its oldest buffered store reaching memory (for src/atop/sort.cpp:1692-1855). -/
inductive Act where
  | go (c : Nat)
  | drain (c : Nat)

/-- What follows when the code of node `(k, j)` is through and the thread's buffer is empty: CompleteWorkBlock after the last merge; otherwise
IsBuddyBitSet, and then the parent's merge or CompleteWorkBlock (src/atop/sort.cpp:1725-1770, 1819-1855). -/
def sync {V : Type} (prog : Nat → Nat → Prog V) (s : St V) (c k j : Nat) : St V :=
  if k = 3 then { s with completed := s.completed + 1, pc := Function.update s.pc c .ready }
  else if s.lvl k &&& buddy j = buddy j then
    { s with lvl := Function.update s.lvl k (s.lvl k ||| 1#64 <<< j), pc := Function.update s.pc c (.run (k + 1) (j / 2) (prog (k + 1) (j / 2))) }
  else
    { s with lvl := Function.update s.lvl k (s.lvl k ||| 1#64 <<< j), completed := s.completed + 1, pc := Function.update s.pc c .ready }

/-- One step. `flag` is the cell and value by which a worker knows of the work item (src/atop/threads.cpp:104-122); `prog k j` is the code of a node
(src/atop/sort.cpp:1692-1855). -/
def step {V : Type} [DecidableEq V] (prog : Nat → Nat → Prog V) (flag : Loc × V) (s : St V) : Act → St V
  | .drain c =>
    match s.buf c with
    | [] => s
    | (a, v) :: l => { s with mem := fun x => if x = a then v else s.mem x, buf := Function.update s.buf c l }
  | .go c =>
    match s.pc c with
    | .out => if load s.mem (s.buf c) flag.1 = flag.2 then { s with pc := Function.update s.pc c .ready } else s
    | .left => s
    | .ready =>
      if s.buf c ≠ [] then s
      else if s.next < 8 then { s with next := s.next + 1, pc := Function.update s.pc c (.run 0 s.next (prog 0 s.next)) }
      else { s with pc := Function.update s.pc c .left }
    | .run k j (.load l f) => { s with pc := Function.update s.pc c (.run k j (f (load s.mem (s.buf c) l))) }
    | .run k j (.store l v p) =>
      { s with buf := Function.update s.buf c (s.buf c ++ [(l, v)]), pc := Function.update s.pc c (.run k j p) }
    | .run k j .done => if s.buf c ≠ [] then s else sync prog s c k j

/-- The caller (thread 0) has just stored the number of the work item; that store and its earlier ones `before` (the array, the callback's fields, the
cleared masks) need not have reached memory (src/atop/sort.cpp:2011-2055, 2139-2190, src/atop/threads.h:1117-1142). -/
def start {V : Type} (mem : Loc → V) (before : List (Loc × V)) (flag : Loc × V) : St V :=
  { mem := mem, buf := fun c => if c = 0 then before ++ [flag] else [], pc := fun c => if c = 0 then .ready else .out,
    next := 0, lvl := fun _ => 0, completed := 0 }

/-- The state after a finite sequence of steps (of src/atop/sort.cpp:1692-1855). -/
def exec {V : Type} [DecidableEq V] (prog : Nat → Nat → Prog V) (mem : Loc → V) (before : List (Loc × V)) (flag : Loc × V) (acts : List Act) : St V :=
  acts.foldl (step prog flag) (start mem before flag)

/-- The code executed alone: final memory (for src/atop/sort.cpp:1716-1760, 1806-1848). -/
def seqRun {V : Type} : Prog V → (Loc → V) → Loc → V
  | .done, m => m
  | .load l k, m => seqRun (k (m l)) m
  | .store l v k, m => seqRun k (fun x => if x = l then v else m x)

/-- The code executed alone: the cells it accesses (for src/atop/sort.cpp:1716-1760, 1806-1848). -/
def seqAcc {V : Type} : Prog V → (Loc → V) → List Loc
  | .done, _ => []
  | .load l k, m => l :: seqAcc (k (m l)) m
  | .store l v k, m => l :: seqAcc k (fun x => if x = l then v else m x)

/-- The cells of node `(k, j)`: its segment and its workspace (src/atop/sort.cpp:1703-1715, 1728-1760). -/
def Own (n k j : Nat) : Loc → Prop
  | .arr i => nodeLo n k j ≤ i ∧ i < nodeHi n k j
  | .ws i => nodeWs n k j ≤ i ∧ i < nodeWs n k (j + 1)
  | .other _ => False

/-- What a node sorts or merges: its segment of the array; a leaf of an out-of-place sort first copies it from the source (src/atop/sort.cpp:1806-1809). -/
def snapOf {V : Type} (n : Nat) (src : Option (List V)) (k j : Nat) (m : Loc → V) : List V :=
  match (if k = 0 then src else none) with
  | some v => seg v (nodeLo n k j) (nodeHi n k j)
  | none => (List.range' (nodeLo n k j) (nodeHi n k j - nodeLo n k j)).map fun i => m (.arr i)

/-- `prog` is code for the functions `leaf` and `mrg` of Model/ParSort: executed alone on a node whose elements satisfy `P` it accesses only the node's cells
and leaves in the segment what the function computes from it and from the workspace (for src/atop/sort.cpp:1716-1760, 1806-1848). -/
def CodeFor {V : Type} (leaf mrg : LeafFn V) (n : Nat) (src : Option (List V)) (P : V → Prop) (prog : Nat → Nat → Prog V) : Prop :=
  ∀ (k j : Nat) (a w a' w' : List V) (m : Loc → V), k ≤ 3 → j < 2 ^ (3 - k) → a.length = n → w.length = 8 * chunk n →
    (∀ x ∈ snapOf n src k j m, P x) → (∀ i, nodeWs n k j ≤ i → i < nodeWs n k (j + 1) → w[i]? = some (m (.ws i))) →
    body leaf mrg n k j (splice a (nodeLo n k j) (snapOf n src k j m)) w = some (a', w') →
    (∀ l ∈ seqAcc (prog k j) m, Own n k j l) ∧
    ∀ i, nodeLo n k j ≤ i → i < nodeHi n k j → a'[i]? = some (seqRun (prog k j) m (.arr i))

end Pnumpy.TsoSort

import Verif.Model.Strings
import Verif.Spec.LexSort
/-
lexsort32 / lexsort64 (sorting.cpp 368-483), SortIndex (sort.cpp 2291-2340) and par_amergesort (1917-2105).

Index arrays are lists of natural numbers (int32 resp. int64 in the code; lexsort32 is meant for fewer than 2^31 rows).
-/
namespace Pnumpy.Lex
open Pnumpy.Sort Pnumpy.ParSort Pnumpy.Str Spec

/-- SortIndex for one key column, without threads: dispatch on the type (sort.cpp 2304-2338), then the serial path of
par_amergesort (2069-2091). float16 is not in the switch: SortIndex returns -1 and lexsort ignores the result
(sorting.cpp 466-471), so nothing happens. -/
def passSerial (k : Kind) : Col → List Nat → List Nat → Option (List Nat)
  | .num t v, ix, w => argsortSerial (opsArg t) k v ix w
  | .str _ len v, ix, w => argsortStr (strLt len) v ix w
  | .half _, ix, _ => some ix

/-- What one call of SortIndex may do to the index array: serial, or, from 65536 indices on, the parallel sort with any
schedule (sort.cpp 2007-2067). -/
inductive Pass (k : Kind) : Col → List Nat → List Nat → Prop where
  | serial (c : Col) (ix ix' w : List Nat) (hw : w.length = ix.length / 2) (h : passSerial k c ix w = some ix') : Pass k c ix ix'
  | threaded (t : DT) (v : List (BitVec t.bits)) (ix w : List Nat) (s : PS Nat) (hn : 65536 ≤ ix.length)
      (hw : w.length = 8 * (ix.length / 16 + 1))
      (h : Reach (leafArg (opsArg t) k v) (parMerge (indirect (opsArg t).lt v)) ix.length none (init ix w) s)
      (h8 : s.completed = 8) : Pass k (.num t v) ix s.a
  | threadedStr (u len : Nat) (v : List (List (BitVec u))) (ix w : List Nat) (s : PS Nat) (hn : 65536 ≤ ix.length)
      (hw : w.length = 8 * (ix.length / 16 + 1))
      (h : Reach (leafArgStr (byIndex (strLt len) v)) (parMergeStr (byIndex (strLt len) v)) ix.length none (init ix w) s)
      (h8 : s.completed = 8) : Pass k (.str u len v) ix s.a

/-- The loop over the key arrays, sorting.cpp 463-473: first array first. -/
inductive Passes (k : Kind) : List Col → List Nat → List Nat → Prop where
  | nil (ix : List Nat) : Passes k [] ix ix
  | cons {c : Col} {cs : List Col} {ix ix' ix'' : List Nat} (h : Pass k c ix ix') (hs : Passes k cs ix' ix'') :
      Passes k (c :: cs) ix ix''

/-- lexsort without `cutoffs` and without `index`: the index array starts as `0 .. n-1` (ARangeCallback,
sorting.cpp 281-293, 455-459). -/
def LexRun (k : Kind) (cs : List Col) (n : Nat) (ix : List Nat) : Prop := Passes k cs (List.range n) ix

/-! ### Partitions (`cutoffs=`) -/

/-- The check of lexsort on cutoffs, sorting.cpp 382-385: only the last entry is looked at. -/
def cutoffsAccepted (cut : List Nat) (n : Nat) : Prop := cut.getLast? = some n

/-- Start and end of partition `t`, sort.cpp 1973-1982. -/
def partLo (cut : List Nat) (t : Nat) : Nat := if t = 0 then 0 else (cut[t - 1]?).getD 0
/-- End of partition `t`, sort.cpp 1973-1982. -/
def partHi (cut : List Nat) (t : Nat) : Nat := (cut[t]?).getD 0

/-- The loop that writes `0 .. len-1` for every partition, sorting.cpp 438-452; `p` is pCounter, `start` startPos.
A negative partition length writes nothing. -/
def prepLoop (out : List Nat) (p start : Nat) : List Nat → Option (List Nat)
  | [] => some out
  | e :: cut => do
    let out ← blit (List.range (e - start)) 0 out p (e - start)
    prepLoop out (p + (e - start)) e cut

/-- The prepared index array; `out` is what AllocateLikeNumpyArray returned (sorting.cpp 430-452). -/
def prep (cut out : List Nat) : Option (List Nat) := prepLoop out 0 0 cut

/-- State of one partition (a task of sort.cpp 1965-1995). -/
inductive TaskSt where
  | idle
  | running (snap : List Nat)
  | done

/-- The index array and the tasks of sort.cpp 1930-2004. -/
structure CS where
  a : List Nat
  st : Nat → TaskSt

/-- One SortIndex call with cutoffs (sort.cpp 1930-2004): partition tasks handed out by DoMultiThreadedWork (each once,
C04) run concurrently on their own parts of the index array. `kind` is not looked at: single_amergesort (1870-1905)
always is the merge sort, with a fresh workspace of half the length. -/
inductive CStep (c : Col) (cut : List Nat) : CS → CS → Prop where
  | start (s : CS) (t : Nat) (ht : t < cut.length) (h : s.st t = .idle) :
      CStep c cut s { s with st := Function.update s.st t (.running (seg s.a (partLo cut t) (partHi cut t))) }
  | scribble (s : CS) (t : Nat) (snap a' : List Nat) (h : s.st t = .running snap)
      (ha : Within (partLo cut t) (partHi cut t) a' s.a) : CStep c cut s { s with a := a' }
  | commit (s : CS) (t : Nat) (snap S' w : List Nat) (h : s.st t = .running snap) (hw : w.length = snap.length / 2)
      (hrun : passSerial .merge (c.slice (partLo cut t) (partHi cut t)) snap w = some S') :
      CStep c cut s { a := splice s.a (partLo cut t) S', st := Function.update s.st t .done }

/-- States of the tasks (sort.cpp 1930-2004) under any interleaving. -/
inductive CReach (c : Col) (cut : List Nat) (s0 : CS) : CS → Prop where
  | start : CReach c cut s0 s0
  | step {s s' : CS} : CReach c cut s0 s → CStep c cut s s' → CReach c cut s0 s'

/-- One key with cutoffs: all partitions are done when DoMultiThreadedWork returns (C04). -/
def CutPass (c : Col) (cut ix ix' : List Nat) : Prop :=
  ∃ s, CReach c cut { a := ix, st := fun _ => .idle } s ∧ (∀ t, t < cut.length → s.st t = .done) ∧ s.a = ix'

/-- The loop over the key arrays with cutoffs, sorting.cpp 463-473. -/
inductive CutPasses (cut : List Nat) : List Col → List Nat → List Nat → Prop where
  | nil (ix : List Nat) : CutPasses cut [] ix ix
  | cons {c : Col} {cs : List Col} {ix ix' ix'' : List Nat} (h : CutPass c cut ix ix') (hs : CutPasses cut cs ix' ix'') :
      CutPasses cut (c :: cs) ix ix''

/-- lexsort with cutoffs (sorting.cpp 368-483). -/
def CutRun (cs : List Col) (cut out ix : List Nat) : Prop := ∃ ix0, prep cut out = some ix0 ∧ CutPasses cut cs ix0 ix

end Pnumpy.Lex

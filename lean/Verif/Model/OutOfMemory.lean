import Verif.Model.LexSort
import Verif.Model.SortApi
/-
Running out of memory in the sorts: the workspaces of mergesort_, mergesortstring_, single_amergesort, par_amergesort and
par_sort (sort.cpp 955-998, 1870-2200), what their callers do with a failure (_pnumpy.cpp 1012-1055, sorting.cpp 463-473,
515-577), and the threaded reduction (_pnumpy.cpp 664-730).

`ok i` says whether the `i`-th request for memory is granted; it is arbitrary, so any pattern of failures is covered. `none`
is a crash: an access through a null pointer, an access outside the arrays (the sorting functions), or a free of something
that is no live block.
-/
namespace Pnumpy.OutOfMemory
open Pnumpy.Sort Pnumpy.ParSort Pnumpy.Lex Pnumpy.SortApi Spec

/-- What an allocation gives: no memory, the stack (alloca), or a heap block (common_inc.h 411-428). -/
inductive Ptr where
  | null
  | stack
  | block (id : Nat)
deriving DecidableEq

/-- The live workspace blocks, and how many requests there have been (FmAlloc, atop.cpp 25-41). -/
structure Heap where
  live : List Nat
  asked : Nat

/-- A piece of code that may allocate and may crash (the functions of sort.cpp 955-998, 1870-2200). -/
abbrev M (β : Type) := Heap → Option (β × Heap)

/-- Sequencing (the `;` of sort.cpp 955-998). -/
def andThen {β γ : Type} (x : M β) (f : β → M γ) : M γ := fun h => (x h).bind fun r => f r.1 r.2

/-- Code that does not allocate (the sorting functions themselves, sort.cpp 400-950). -/
def lift {β : Type} (x : Option β) : M β := fun h => x.map (·, h)

/-- A result (the `return`s of sort.cpp 955-998). -/
def ret {β : Type} (x : β) : M β := fun h => some (x, h)

/-- WORKSPACE_ALLOC = FmAlloc (common_inc.h 411-415, atop.cpp 25-41). -/
def wsAlloc (ok : Nat → Bool) : M Ptr := fun h =>
  if ok h.asked then some (.block h.asked, ⟨h.asked :: h.live, h.asked + 1⟩) else some (.null, ⟨h.live, h.asked + 1⟩)

/-- WORKSPACE_FREE = FmFree: null is ignored (atop.cpp 43-63). -/
def wsFree : Ptr → M Unit
  | .null => fun h => some ((), h)
  | .stack => fun _ => none
  | .block id => fun h => if id ∈ h.live then some ((), ⟨h.live.erase id, h.asked⟩) else none

/-- MAX_STACK_ALLOC (common_inc.h:418). -/
abbrev MAX_STACK : Nat := 1024

/-- POSSIBLY_STACK_ALLOC (common_inc.h 425-426). -/
def maybeAlloc (ok : Nat → Bool) (bytes : Nat) : M Ptr := if bytes > MAX_STACK then wsAlloc ok else ret .stack

/-- POSSIBLY_STACK_FREE (common_inc.h:428). -/
def maybeFree (bytes : Nat) (p : Ptr) : M Unit := if bytes > MAX_STACK then wsFree p else ret ()

variable {α : Type}

/-- mergesort_ (sort.cpp 955-973): return code and contents of the array. `junk` is what fresh memory contains. -/
def mergesortM (ok : Nat → Bool) (o : Ops α) (size : Nat) (junk : Nat → List α) (a : List α) (start len : Nat) : M (Int × List α) :=
  let allocSize := len / 2 * size
  andThen (maybeAlloc ok allocSize) fun pw =>
    if pw = .null then ret (-1, a)
    else andThen (lift (sortFn o .merge a start len (junk (len / 2)))) fun a =>
      andThen (maybeFree allocSize pw) fun _ => ret (0, a)

/-- The function SortInPlace chooses (sort.cpp 2205-2226); quicksort_ and heapsort_ allocate nothing and return 0. -/
def sortM (ok : Nat → Bool) (o : Ops α) (k : Kind) (size : Nat) (junk : Nat → List α) (a : List α) (start len : Nat) : M (Int × List α) :=
  match k with
  | .merge => mergesortM ok o size junk a start len
  | k => andThen (lift (sortFn o k a start len (junk (len / 2)))) fun a => ret (0, a)

/-- A leaf of the parallel sort (sort.cpp 1811-1817): the return code is ignored. `fails start`: the leaf that starts at `start`
gets no workspace. (Each leaf is run on a heap of its own: what the others hold does not matter to it, `sortM_heap`.) -/
def leafM (fails : Nat → Bool) (o : Ops α) (k : Kind) (size : Nat) (junk : Nat → List α) : LeafFn α :=
  fun a w start len _ => (sortM (fun _ => !fails start) o k size junk a start len ⟨[], 0⟩).map fun r => (r.1.2, w)

/-- par_sort (sort.cpp 2122-2200): return code, contents of pOut, heap. Arguments as in `SortApi.SortRun`; `out` is what pOut
holds before when it is not the array itself. Between allocation and release of the parallel sort's workspace the leaves have
made `m` requests of their own, and have given back what they got. -/
inductive ParSortM (ok fails : Nat → Bool) (o : Ops α) (k : Kind) (inPlace threads : Bool) (rd : Int → α) (n : Nat)
    (stride : Int) (size : Nat) (out : List α) (h : Heap) : Int → List α → Heap → Prop where
  | noWorkspace {h1 : Heap} (ht : threads = true) (hn : 65536 ≤ n) (hp : wsAlloc ok h = some (.null, h1)) :
      ParSortM ok fails o k inPlace threads rd n stride size out h (-1) (if inPlace then threadedSource rd n size else out) h1
  | parallel {p : Ptr} {h1 h2 : Heap} (m : Nat) (junk : Nat → List α) (hj : ∀ m, (junk m).length = m) (w : List α) (s : PS α)
      (ht : threads = true) (hn : 65536 ≤ n) (hp : wsAlloc ok h = some (p, h1)) (hnn : p ≠ .null)
      (hw : w.length = 8 * (n / 16 + 1))
      (hr : Reach (leafM fails o k size junk) (parMerge (direct o.lt)) n
        (if inPlace then none else some (threadedSource rd n size))
        (init (if inPlace then threadedSource rd n size else out) w) s)
      (h8 : s.completed = 8) (hf : wsFree p ⟨h1.live, h1.asked + m⟩ = some ((), h2)) :
      ParSortM ok fails o k inPlace threads rd n stride size out h 0 s.a h2
  | serial {rc : Int} {r : List α} {h2 : Heap} (junk : Nat → List α) (hj : ∀ m, (junk m).length = m)
      (ht : threads = false ∨ n < 65536)
      (hr : sortM ok o k size junk (if inPlace then threadedSource rd n size else copyData rd n stride size) 0 n h = some ((rc, r), h2)) :
      ParSortM ok fails o k inPlace threads rd n stride size out h rc r h2

/-- The end of the np.sort hook (_pnumpy.cpp 1036-1049): numpy's own sort `np` runs on pDest if the return code is negative. -/
inductive HookM (np : List α → List α → Prop) (ok fails : Nat → Bool) (o : Ops α) (k : Kind) (inPlace threads : Bool) (rd : Int → α)
    (n : Nat) (stride : Int) (size : Nat) (out : List α) (h : Heap) : List α → Heap → Prop where
  | done {rc : Int} {r : List α} {h1 : Heap} (hr : ParSortM ok fails o k inPlace threads rd n stride size out h rc r h1) (hrc : 0 ≤ rc) :
      HookM np ok fails o k inPlace threads rd n stride size out h r h1
  | numpy {rc : Int} {b r : List α} {h1 : Heap} (hr : ParSortM ok fails o k inPlace threads rd n stride size out h rc b h1) (hrc : rc < 0)
      (hn : np b r) : HookM np ok fails o k inPlace threads rd n stride size out h r h1

/-- `_pnumpy.sort` (sorting.cpp 557-574): the new array, or `none`, ValueError ("out of memory or cannot sort"), after the array
was released. `out` is what AllocateLikeNumpyArray's array contains; it got one. -/
inductive PnSortM (ok fails : Nat → Bool) (o : Ops α) (k : Kind) (threads : Bool) (rd : Int → α) (n : Nat) (stride : Int) (size : Nat)
    (out : List α) (h : Heap) : Option (List α) → Heap → Prop where
  | done {rc : Int} {r : List α} {h1 : Heap} (hr : ParSortM ok fails o k false threads rd n stride size out h rc r h1) (hrc : 0 ≤ rc) :
      PnSortM ok fails o k threads rd n stride size out h (some r) h1
  | raises {rc : Int} {r : List α} {h1 : Heap} (hr : ParSortM ok fails o k false threads rd n stride size out h rc r h1) (hrc : rc < 0) :
      PnSortM ok fails o k threads rd n stride size out h none h1

/-! ### Indirect sorts and lexsort -/

/-- par_amergesort without cutoffs and threads (sort.cpp 2069-2091): merge sorts and strings ask for a workspace, the others
do not; SortIndex does not know float16 (2291-2340). -/
def passM (ok : Nat → Bool) (k : Kind) (junk : Nat → List Nat) (c : Col) (ix : List Nat) : M (Int × List Nat) :=
  match c, k with
  | .half _, _ => ret (-1, ix)
  | .num _ _, .quick => andThen (lift (passSerial .quick c ix (junk (ix.length / 2)))) fun ix => ret (0, ix)
  | .num _ _, .heap => andThen (lift (passSerial .heap c ix (junk (ix.length / 2)))) fun ix => ret (0, ix)
  | _, _ => andThen (wsAlloc ok) fun pw =>
      if pw = .null then ret (-1, ix)
      else andThen (lift (passSerial k c ix (junk (ix.length / 2)))) fun ix => andThen (wsFree pw) fun _ => ret (0, ix)

/-- par_amergesort without cutoffs (sort.cpp 2007-2095): return code, index array, heap. The parallel sort's leaves and merges
use parts of its workspace and ask for nothing (1716-1722, 2024-2066), so a parallel pass is one of `Lex.Pass`. -/
inductive PassM (ok : Nat → Bool) (k : Kind) (threads : Bool) (c : Col) (ix : List Nat) (h : Heap) : Int → List Nat → Heap → Prop where
  | serial {rc : Int} {ix' : List Nat} {h' : Heap} (junk : Nat → List Nat) (hj : ∀ m, (junk m).length = m)
      (ht : threads = false ∨ ix.length < 65536) (hr : passM ok k junk c ix h = some ((rc, ix'), h')) : PassM ok k threads c ix h rc ix' h'
  | noWorkspace {h1 : Heap} (ht : threads = true) (hn : 65536 ≤ ix.length) (hp : wsAlloc ok h = some (.null, h1)) :
      PassM ok k threads c ix h (-1) ix h1
  | parallel {p : Ptr} {ix' : List Nat} {h1 h2 : Heap} (ht : threads = true) (hn : 65536 ≤ ix.length)
      (hp : wsAlloc ok h = some (p, h1)) (hnn : p ≠ .null) (hr : Lex.Pass k c ix ix') (hf : wsFree p h1 = some ((), h2)) :
      PassM ok k threads c ix h 0 ix' h2

/-- The loop of lexsort over the keys (sorting.cpp 463-473): the return codes are ignored; they are kept here only to speak
about them. -/
inductive PassesM (ok : Nat → Bool) (k : Kind) (threads : Bool) : List Col → List Nat → Heap → List Int → List Nat → Heap → Prop where
  | nil (ix : List Nat) (h : Heap) : PassesM ok k threads [] ix h [] ix h
  | cons {c : Col} {cs : List Col} {ix ix1 ix2 : List Nat} {h h1 h2 : Heap} {rc : Int} {rcs : List Int}
      (hp : PassM ok k threads c ix h rc ix1 h1) (hs : PassesM ok k threads cs ix1 h1 rcs ix2 h2) :
      PassesM ok k threads (c :: cs) ix h (rc :: rcs) ix2 h2

/-- single_amergesort (sort.cpp 1870-1912), the sort of one partition. -/
def partM (ok : Nat → Bool) (junk : Nat → List Nat) (c : Col) (ix : List Nat) : M (Int × List Nat) :=
  match c with
  | .half _ => ret (-1, ix)
  | _ => andThen (wsAlloc ok) fun pw =>
      if pw = .null then ret (-1, ix)
      else andThen (lift (passSerial .merge c ix (junk (ix.length / 2)))) fun ix => andThen (wsFree pw) fun _ => ret (0, ix)

/-- One key with cutoffs (sort.cpp 1930-2004), as `Lex.CStep`; `fails t`: partition `t` gets no workspace. The return code `rc`
of the partition's sort is dropped (1990-1997), par_amergesort returns 0. -/
inductive CStepM (fails : Nat → Bool) (c : Col) (cut : List Nat) : CS → CS → Prop where
  | start (s : CS) (t : Nat) (ht : t < cut.length) (h : s.st t = .idle) :
      CStepM fails c cut s { s with st := Function.update s.st t (.running (seg s.a (partLo cut t) (partHi cut t))) }
  | scribble (s : CS) (t : Nat) (snap a' : List Nat) (h : s.st t = .running snap)
      (ha : Within (partLo cut t) (partHi cut t) a' s.a) : CStepM fails c cut s { s with a := a' }
  | commit (s : CS) (t : Nat) (snap S' : List Nat) {rc : Int} {h' : Heap} (junk : Nat → List Nat) (hj : ∀ m, (junk m).length = m)
      (h : s.st t = .running snap)
      (hrun : partM (fun _ => !fails t) junk (c.slice (partLo cut t) (partHi cut t)) snap ⟨[], 0⟩ = some ((rc, S'), h')) :
      CStepM fails c cut s { a := splice s.a (partLo cut t) S', st := Function.update s.st t .done }

/-- States of the partition tasks under any interleaving (sort.cpp 1930-2004). -/
inductive CReachM (fails : Nat → Bool) (c : Col) (cut : List Nat) (s0 : CS) : CS → Prop where
  | start : CReachM fails c cut s0 s0
  | step {s s' : CS} : CReachM fails c cut s0 s → CStepM fails c cut s s' → CReachM fails c cut s0 s'

/-- One key with cutoffs, when all partitions are done (sort.cpp 1930-2004). -/
def CutPassM (fails : Nat → Bool) (c : Col) (cut ix ix' : List Nat) : Prop :=
  ∃ s, CReachM fails c cut { a := ix, st := fun _ => .idle } s ∧ (∀ t, t < cut.length → s.st t = .done) ∧ s.a = ix'

/-! ### The threaded reduction -/

/-- An access through a pointer (those of _pnumpy.cpp 664-730). -/
def touch : Ptr → M Unit
  | .null => fun _ => none
  | _ => ret ()

/-- The threaded branch of the binary reduce (_pnumpy.cpp 664-730): the buffer, which is not checked, the reduction itself (`x`,
`Reduce.threadedFast` or `threadedNumpy`), which writes and reads the buffer, and the release. `n ≥ 1` elements of `itemsize`
bytes, WORK_ITEM_CHUNK = 16384. -/
def reduceM {β : Type} (ok : Nat → Bool) (n itemsize : Nat) (x : Option β) : M β :=
  let chunks := 1 + (n - 1) / 16384
  let allocsize := chunks * itemsize
  andThen (maybeAlloc ok allocsize) fun p =>
    andThen (touch p) fun _ => andThen (lift x) fun r => andThen (maybeFree allocsize p) fun _ => ret r

/-! ### Masks, index arrays, lexsort's arguments -/

/-- BooleanIndexInternal after its checks (getitem.cpp 246-578): the counts of BooleanCount (170-213), the result array (274; the
array is a block too) and the copy; `x` are the bytes it puts there. `none` as a value: ValueError. -/
def boolIndexM {β : Type} (ok : Nat → Bool) (x : Option β) : M (Option (Nat × β)) :=
  andThen (wsAlloc ok) fun counts =>
    if counts = .null then ret none
    else andThen (wsAlloc ok) fun arr =>
      match arr with
      | .block id => andThen (lift x) fun bytes => andThen (wsFree counts) fun _ => ret (some (id, bytes))
      | _ => andThen (wsFree counts) fun _ => ret none

/-- getitem with an index array after its checks (getitem.cpp 1114-1187). -/
def getItemM {β : Type} (ok : Nat → Bool) (x : Option β) : M (Option (Nat × β)) :=
  andThen (wsAlloc ok) fun arr =>
    match arr with
    | .block id => andThen (lift x) fun bytes => ret (some (id, bytes))
    | _ => ret none

/-- BuildArrayInfo for `tupleSize` arrays (common.cpp 643-728) as far as its block is concerned: AllocArrayInfo's result (566-582) is not
checked, every array's entry is written. -/
def arrayInfoM (ok : Nat → Bool) (tupleSize : Nat) : M Ptr :=
  andThen (wsAlloc ok) fun p => if tupleSize = 0 then ret p else andThen (touch p) fun _ => ret p

/-- lexsort's use of it (sorting.cpp 298-348, 368-483), reduced to the block: `x` is the rest of the call; FreeArrayInfo (common.cpp
544-561) at the end. -/
def lexArgsM {β : Type} (ok : Nat → Bool) (tupleSize : Nat) (x : Option β) : M β :=
  andThen (arrayInfoM ok tupleSize) fun p => andThen (lift x) fun r => andThen (wsFree p) fun _ => ret r

end Pnumpy.OutOfMemory

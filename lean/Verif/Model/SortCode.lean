import Verif.Model.TsoSort
/-
The sort and merge functions of src/atop/sort.cpp once more, now as code: sequences of single loads and stores (`Code`), each load's value deciding how it
goes on. Model/Sort describes the same functions as functions on whole lists. Here they become the programs the threads of a parallel sort execute on
a machine with store buffers (Model/TsoSort).

Positions count from the first element of the segment the function works on, and from the first element of its part of the workspace.
Every loop carries a number of rounds it may make at most; a loop that used them up would be `stuck` (as would an access before the segment) - the proofs
show that this never happens. The keys of an indirect sort are not written by anybody during the sort; comparing two of them is not a step of its own.
memcpy is a loop over elements.
-/
namespace Pnumpy.SortCode
open Pnumpy.Sort Pnumpy.ParSort Pnumpy.TsoSort

/-- The cells a sort function uses: the segment and the workspace (src/atop/sort.cpp:704-1423, parameters `pl`, `pr`, `pw`). -/
inductive Cell where
  | arr (i : Nat)
  | ws (i : Nat)

/-- Code with a result (the bodies of the functions src/atop/sort.cpp:413-1423). -/
inductive Code (V A : Type) where
  | ret (x : A)
  | stuck
  | load (c : Cell) (k : V → Code V A)
  | store (c : Cell) (v : V) (k : Code V A)

/-- One piece of code after the other (`;` in src/atop/sort.cpp:413-1423). -/
def Code.bind {V A B : Type} : Code V A → (A → Code V B) → Code V B
  | .ret x, f => f x
  | .stuck, _ => .stuck
  | .load c k, f => .load c fun v => (k v).bind f
  | .store c v k, f => .store c v (k.bind f)

instance {V : Type} : Monad (Code V) where
  pure := .ret
  bind := Code.bind

/-- `*p` (any load of src/atop/sort.cpp:413-1423). -/
def rd {V : Type} (c : Cell) : Code V V := .load c .ret

/-- `*p = v` (any store of src/atop/sort.cpp:413-1423). -/
def wr {V : Type} (c : Cell) (v : V) : Code V Unit := .store c v (.ret ())

/-- The result of a comparison (Model/Sort `direct`, `indirect`; src/atop/sort.cpp:121-150). -/
def val {V A : Type} : Option A → Code V A
  | some x => .ret x
  | none => .stuck

/-- `std::swap(*p, *q)`, src/atop/sort.cpp:79-81. -/
def swapC {V : Type} (i j : Nat) : Code V Unit := do
  let x ← rd (.arr i)
  let y ← rd (.arr j)
  wr (.arr i) y
  wr (.arr j) x

section
variable {α : Type} (cmp : α → α → Option Bool)

/-! ### Insertion sort -/

/-- `while (pj > pl && LT(vp, *pk)) *pj-- = *pk--;`, src/atop/sort.cpp:770-772, 885-887, 1112-1114, 1185-1187, 582-584, 667-669. -/
def shiftC (vp : α) (pl : Nat) : Nat → Nat → Code α Nat
  | 0, _ => .stuck
  | n + 1, pj =>
    if pj > pl then do
      let y ← rd (.arr (pj - 1))
      let b ← val (cmp vp y)
      if b then do
        wr (.arr pj) y
        shiftC vp pl n (pj - 1)
      else pure pj
    else pure pj

/-- `for (pi = ...; pi < pr; ++pi) { vp = *pi; ...; *pj = vp; }`, src/atop/sort.cpp:766-774 and the other insertion sorts. -/
def insertC (pl pr : Nat) : Nat → Nat → Code α Unit
  | 0, _ => .stuck
  | n + 1, pi =>
    if pi < pr then do
      let vp ← rd (.arr pi)
      let pj ← shiftC cmp vp pl (pi + 1) pi
      wr (.arr pj) vp
      insertC pl pr n (pi + 1)
    else pure ()

/-! ### Merging -/

/-- Left run in the workspace, right run in the segment, result to the segment; src/atop/sort.cpp:818-832, 854-868, 1164-1172, 1355-1362, 1405-1412. -/
def mergeArrC (tr : α → α → Option Bool) (pwEnd pr : Nat) : Nat → Nat → Nat → Nat → Code α (Nat × Nat)
  | 0, _, _, _ => .stuck
  | n + 1, pw, pm, d =>
    if pw < pwEnd ∧ pm < pr then do
      let r ← rd (.arr pm)
      let l ← rd (.ws pw)
      let b ← val (tr r l)
      if b then do
        wr (.arr d) r
        mergeArrC tr pwEnd pr n pw (pm + 1) (d + 1)
      else do
        wr (.arr d) l
        mergeArrC tr pwEnd pr n (pw + 1) pm (d + 1)
    else pure (pw, d)

/-- `while (p < pEnd) *d++ = *p++;` from the workspace to the segment, src/atop/sort.cpp:833-835, 869-871, 1173-1175, 1363-1365, 1414-1416; also the memcpy 841. -/
def copyBackC (pEnd : Nat) : Nat → Nat → Nat → Code α Unit
  | 0, _, _ => .stuck
  | n + 1, p, d =>
    if p < pEnd then do
      let x ← rd (.ws p)
      wr (.arr d) x
      copyBackC pEnd n (p + 1) (d + 1)
    else pure ()

/-- The same from the segment to the workspace, src/atop/sort.cpp:746-754, 1092-1099; also the memcpy 849, 1146, 1348, 1400. -/
def copyOutC (pEnd : Nat) : Nat → Nat → Nat → Code α Unit
  | 0, _, _ => .stuck
  | n + 1, p, d =>
    if p < pEnd then do
      let x ← rd (.arr p)
      wr (.ws d) x
      copyOutC pEnd n (p + 1) (d + 1)
    else pure ()

/-- Both runs in the segment, result to the workspace, src/atop/sort.cpp:731-745, 1083-1091. -/
def mergeWsC (tr : α → α → Option Bool) (plEnd pr : Nat) : Nat → Nat → Nat → Nat → Code α (Nat × Nat × Nat)
  | 0, _, _, _ => .stuck
  | n + 1, pl, pm, d =>
    if pl < plEnd ∧ pm < pr then do
      let r ← rd (.arr pm)
      let l ← rd (.arr pl)
      let b ← val (tr r l)
      if b then do
        wr (.ws d) r
        mergeWsC tr plEnd pr n pl (pm + 1) (d + 1)
      else do
        wr (.ws d) l
        mergeWsC tr plEnd pr n (pl + 1) pm (d + 1)
    else pure (pl, pm, d)

/-- FIND_NANS, src/atop/sort.cpp:136-141. -/
def findNansC (isNaN : α → Bool) (pm : Nat) : Nat → Nat → Code α Nat
  | 0, _ => .stuck
  | n + 1, pr =>
    if pr = 0 then .stuck
    else do
      let x ← rd (.arr (pr - 1))
      if isNaN x then
        if pm < pr - 1 then findNansC isNaN pm n (pr - 1) else pure (pr - 1)
      else pure pr

end

/-! ### mergesort0_, mergesort0left_ -/

section
variable {α : Type} (o : Ops α)

mutual
/-- mergesort0_, src/atop/sort.cpp:782-892. -/
def mergesortC : Nat → Nat → Nat → Nat → Code α Unit
  | 0, _, _, _ => .stuck
  | n + 1, pl, pr, pw =>
    if pr - pl > 15 then do
      let pm := pl + (pr - pl) / 2
      mergesortC n pm pr pw
      let t ← mergesortLeftC n pl pm pw
      let pwEnd := pw + (pm - pl)
      if t then do
        let x ← rd (.arr pm)
        let y ← rd (.ws (pwEnd - 1))
        if o.lt x y then do
          let pr ← findNansC o.isNaN pm (pr + 1) pr
          let m ← mergeArrC (fun r l => some (!o.le l r)) pwEnd pr (pwEnd + pr + 1) pw pm pl
          copyBackC pwEnd (pwEnd + 1) m.1 m.2
        else copyBackC pwEnd (pwEnd + 1) pw pl
      else do
        let x ← rd (.arr pm)
        let y ← rd (.arr (pm - 1))
        if o.lt x y then do
          let pr ← findNansC o.isNaN pm (pr + 1) pr
          copyOutC pm (pm + 1) pl pw
          let m ← mergeArrC (fun r l => some (!o.le l r)) pwEnd pr (pwEnd + pr + 1) pw pm pl
          copyBackC pwEnd (pwEnd + 1) m.1 m.2
        else pure ()
    else insertC (direct o.lt) pl pr (pr + 1) (pl + 1)

/-- mergesort0left_, src/atop/sort.cpp:704-777. -/
def mergesortLeftC : Nat → Nat → Nat → Nat → Code α Bool
  | 0, _, _, _ => .stuck
  | n + 1, pl, pr, pw =>
    if pr - pl > 15 then do
      let pm := pl + (pr - pl) / 2
      mergesortC n pm pr pw
      mergesortC n pl pm pw
      let x ← rd (.arr pm)
      let y ← rd (.arr (pm - 1))
      if o.lt x y then do
        let pr' ← findNansC o.isNaN pm (pr + 1) pr
        let m ← mergeWsC (fun r l => some (!o.le l r)) pm pr' (pm + pr' + 1) pl pm pw
        copyOutC pm (pm + 1) m.1 m.2.2
        copyOutC pr (pr + 1) m.2.1 (m.2.2 + (pm - m.1))
        pure true
      else pure false
    else do
      insertC (direct o.lt) pl pr (pr + 1) (pl + 1)
      pure false
end

/-! ### amergesort0_, amergesort0left_ -/

mutual
/-- amergesort0_, src/atop/sort.cpp:1124-1191: indices are sorted by their keys `v`. -/
def amergesortC (v : List α) : Nat → Nat → Nat → Nat → Code Nat Unit
  | 0, _, _, _ => .stuck
  | n + 1, pl, pr, pw =>
    if pr - pl > 15 then do
      let pm := pl + (pr - pl) / 2
      amergesortC v n pm pr pw
      let t ← amergesortLeftC v n pl pm pw
      let pwEnd := pw + (pm - pl)
      if t then do
        let m ← mergeArrC (indirect o.rawLt v) pwEnd pr (pwEnd + pr + 1) pw pm pl
        copyBackC pwEnd (pwEnd + 1) m.1 m.2
      else do
        let x ← rd (.arr pm)
        let y ← rd (.arr (pm - 1))
        let b ← val (indirect o.lt v x y)
        if b then do
          copyOutC pm (pm + 1) pl pw
          let m ← mergeArrC (indirect o.rawLt v) pwEnd pr (pwEnd + pr + 1) pw pm pl
          copyBackC pwEnd (pwEnd + 1) m.1 m.2
        else pure ()
    else insertC (indirect o.lt v) pl pr (pr + 1) (pl + 1)

/-- amergesort0left_, src/atop/sort.cpp:1062-1117. -/
def amergesortLeftC (v : List α) : Nat → Nat → Nat → Nat → Code Nat Bool
  | 0, _, _, _ => .stuck
  | n + 1, pl, pr, pw =>
    if pr - pl > 15 then do
      let pm := pl + (pr - pl) / 2
      amergesortC v n pm pr pw
      amergesortC v n pl pm pw
      let x ← rd (.arr pm)
      let y ← rd (.arr (pm - 1))
      let b ← val (indirect o.lt v x y)
      if b then do
        let m ← mergeWsC (indirect o.lt v) pm pr (pm + pr + 1) pl pm pw
        copyOutC pm (pm + 1) m.1 m.2.2
        copyOutC pr (pr + 1) m.2.1 (m.2.2 + (pm - m.1))
        pure true
      else pure false
    else do
      insertC (indirect o.lt v) pl pr (pr + 1) (pl + 1)
      pure false
end

end

section
variable {α : Type} (cmp : α → α → Option Bool)

/-- ParInPlaceMerge / ParMergeMerge, src/atop/sort.cpp:1327-1372, 1382-1423. -/
def parMergeC (len : Nat) : Code α Unit := do
  let pm := len / 2
  if pm = 0 then .stuck
  else
    let x ← rd (.arr pm)
    let y ← rd (.arr (pm - 1))
    let b ← val (cmp x y)
    if b then do
      copyOutC pm (pm + 1) 0 0
      let m ← mergeArrC cmp pm len (pm + len + 1) 0 pm 0
      copyBackC pm (pm + 1) m.1 m.2
    else pure ()

/-! ### Heapsort -/

/-- `if (j < n && LT(a[j], a[j + 1])) j += 1;`, src/atop/sort.cpp:426-428, 445-447. -/
def largerChildC (base n j : Nat) : Code α Nat :=
  if j < n then do
    let x ← rd (.arr (base + j - 1))
    let y ← rd (.arr (base + (j + 1) - 1))
    let b ← val (cmp x y)
    pure (if b then j + 1 else j)
  else pure j

/-- The sift-down loop, src/atop/sort.cpp:425-436, 444-455. -/
def siftDownC (base n : Nat) (tmp : α) : Nat → Nat → Nat → Code α Nat
  | 0, _, _ => .stuck
  | m + 1, i, j =>
    if j ≤ n then do
      let j ← largerChildC cmp base n j
      let x ← rd (.arr (base + j - 1))
      let b ← val (cmp tmp x)
      if b then do
        wr (.arr (base + i - 1)) x
        siftDownC base n tmp m j (j + j)
      else pure i
    else pure i

/-- First loop of heapsort_, src/atop/sort.cpp:423-438. -/
def heapifyC (base n : Nat) : Nat → Nat → Code α Unit
  | 0, _ => .stuck
  | m + 1, l =>
    if l > 0 then do
      let tmp ← rd (.arr (base + l - 1))
      let i ← siftDownC cmp base n tmp (n + 1) l (l * 2)
      wr (.arr (base + i - 1)) tmp
      heapifyC base n m (l - 1)
    else pure ()

/-- Second loop of heapsort_, src/atop/sort.cpp:440-457. -/
def heapPopC (base : Nat) : Nat → Nat → Code α Unit
  | 0, _ => .stuck
  | m + 1, n =>
    if n > 1 then do
      let tmp ← rd (.arr (base + n - 1))
      let x ← rd (.arr (base + 1 - 1))
      wr (.arr (base + n - 1)) x
      let i ← siftDownC cmp base (n - 1) tmp (n + 1) 1 2
      wr (.arr (base + i - 1)) tmp
      heapPopC base m (n - 1)
    else pure ()

/-- heapsort_, aheapsort_, src/atop/sort.cpp:413-461, 469-521. -/
def heapsortC (base n : Nat) : Code α Unit := do
  heapifyC cmp base n (n + 1) (n / 2)
  heapPopC cmp base (n + 1) n

/-! ### Quicksort -/

/-- `do ++pi; while (LT(*pi, vp));`, src/atop/sort.cpp:555. -/
def scanUpC (vp : α) : Nat → Nat → Code α Nat
  | 0, _ => .stuck
  | n + 1, pi => do
    let x ← rd (.arr (pi + 1))
    let b ← val (cmp x vp)
    if b then scanUpC vp n (pi + 1) else pure (pi + 1)

/-- `do --pj; while (LT(vp, *pj));`, src/atop/sort.cpp:556. -/
def scanDownC (vp : α) : Nat → Nat → Code α Nat
  | 0, _ => .stuck
  | n + 1, pj =>
    if pj = 0 then .stuck
    else do
      let x ← rd (.arr (pj - 1))
      let b ← val (cmp vp x)
      if b then scanDownC vp n (pj - 1) else pure (pj - 1)

/-- The partition loop, src/atop/sort.cpp:554-561. `N` is the length of the whole segment. -/
def partLoopC (N : Nat) (vp : α) : Nat → Nat → Nat → Code α Nat
  | 0, _, _ => .stuck
  | n + 1, pi, pj => do
    let pi ← scanUpC cmp vp (N + 1) pi
    let pj ← scanDownC cmp vp (N + 1) pj
    if pi ≥ pj then pure pi
    else do
      swapC pi pj
      partLoopC N vp n pi pj

/-- `if (LT(*p, *q)) swap(*p, *q)`, src/atop/sort.cpp:547-549. -/
def condSwapC (p q : Nat) : Code α Unit := do
  let x ← rd (.arr p)
  let y ← rd (.arr q)
  let b ← val (cmp x y)
  if b then swapC p q else pure ()

/-- Pivot choice and partition, src/atop/sort.cpp:546-563. -/
def partitionC (N pl pr : Nat) : Code α Nat := do
  let pm := pl + (pr - pl) / 2
  condSwapC cmp pm pl
  condSwapC cmp pr pm
  condSwapC cmp pm pl
  let vp ← rd (.arr pm)
  swapC pm (pr - 1)
  let i ← partLoopC cmp N vp (N + 1) pl (pr - 1)
  swapC i (pr - 1)
  pure i

/-- `while ((pr - pl) > SMALL_QUICKSORT) { ... }`, src/atop/sort.cpp:544-575; `stack[]` and `depth[]` are local variables. -/
def qsWhileC (N : Nat) : Nat → Nat → Nat → Int → QStack → Code α (Nat × Nat × Int × QStack)
  | 0, _, _, _, _ => .stuck
  | n + 1, pl, e, cdepth, st =>
    if e > pl + 31 then do
      let pr := e - 1
      let pi ← partitionC cmp N pl pr
      let cdepth := cdepth - 1
      if pi - pl < pr - pi then do
        let st ← val (push st (pi + 1, e, cdepth))
        qsWhileC N n pl pi cdepth st
      else do
        let st ← val (push st (pl, pi, cdepth))
        qsWhileC N n (pi + 1) e cdepth st
    else pure (pl, e, cdepth, st)

/-- One round of the outer `for (;;)`, src/atop/sort.cpp:543-589, 632-677. At most 64 partitions fit on the stack. -/
def qsRoundC (N pl e : Nat) (cdepth : Int) (st : QStack) : Code α QStack :=
  if cdepth ≥ 0 then do
    let r ← qsWhileC cmp N 66 pl e cdepth st
    insertC cmp r.1 r.2.1 (r.2.1 + 1) (r.1 + 1)
    pure r.2.2.2
  else do
    heapsortC cmp pl (e - pl)
    pure st

/-- The outer `for (;;)`, src/atop/sort.cpp:542-601, 630-683. -/
def qsMainC (N : Nat) : Nat → Nat → Nat → Int → QStack → Code α Unit
  | 0, _, _, _, _ => .stuck
  | n + 1, pl, e, cdepth, st => do
    let st ← qsRoundC cmp N pl e cdepth st
    match st with
    | [] => pure ()
    | t :: st => qsMainC N n t.1 t.2.1 t.2.2 st

/-- quicksort_, aquicksort_, src/atop/sort.cpp:527-605, 611-690. -/
def quicksortC (N : Nat) : Code α Unit :=
  qsMainC cmp N (N + 2) 0 N (getMsb N * 2) []

end

/-! ### The code of a node -/

/-- The function chosen by SortInPlace on `len` elements (src/atop/sort.cpp:2205-2223). -/
def sortC {α : Type} (o : Ops α) (k : Kind) (len : Nat) : Code α Unit :=
  match k with
  | .quick => quicksortC (direct o.lt) len
  | .heap => heapsortC (direct o.lt) 0 len
  | .merge => mergesortC o (len + 1) 0 len 0

/-- The function chosen by SortIndex on `len` indices (src/atop/sort.cpp:2253-2285). -/
def argsortC {α : Type} (o : Ops α) (k : Kind) (v : List α) (len : Nat) : Code Nat Unit :=
  match k with
  | .quick => quicksortC (indirect o.lt v) len
  | .heap => heapsortC (indirect o.lt v) 0 len
  | .merge => amergesortC o v (len + 1) 0 len 0

/-- Where a cell is when the segment starts at `lo` and the workspace at `wlo` (src/atop/sort.cpp:1703-1715, 1728-1760). -/
def place (lo wlo : Nat) : Cell → Loc
  | .arr i => .arr (lo + i)
  | .ws i => .ws (wlo + i)

/-- Code as a thread's program: segment at `lo`, shared workspace at `wlo` (src/atop/sort.cpp:1716-1760, 1829-1848). -/
def Code.prog {V A : Type} (lo wlo : Nat) : Code V A → Prog V
  | .ret _ => .done
  | .stuck => .done
  | .load c k => .load (place lo wlo c) fun v => (k v).prog lo wlo
  | .store c v k => .store (place lo wlo c) v (k.prog lo wlo)

/-- Code as a thread's program, its workspace being memory only this thread knows, now holding `w`: the buffer mergesort_ allocates
(src/atop/sort.cpp:955-973, 1811-1817). -/
def Code.progOwn {V A : Type} (lo : Nat) : List V → Code V A → Prog V
  | _, .ret _ => .done
  | _, .stuck => .done
  | w, .load (.arr i) k => .load (.arr (lo + i)) fun v => (k v).progOwn lo w
  | w, .load (.ws i) k => match w[i]? with
    | some v => (k v).progOwn lo w
    | none => .done
  | w, .store (.arr i) v k => .store (.arr (lo + i)) v (k.progOwn lo w)
  | w, .store (.ws i) v k => if i < w.length then k.progOwn lo (w.set i v) else .done

/-- `memcpy` of a leaf's elements from the separate source array (src/atop/sort.cpp:1806-1809), then `p`. -/
def storeAll {V : Type} : Nat → List V → Prog V → Prog V
  | _, [], p => p
  | i, x :: xs, p => .store (.arr i) x (storeAll (i + 1) xs p)

/-- The program of a node of a parallel in-place sort; `f` gives the contents of the buffers mergesort_ allocates, `src` is the source of an
out-of-place sort (ParMergeInPlaceThreadCallback, src/atop/sort.cpp:1776-1855). -/
def sortProg {α : Type} (o : Ops α) (kind : Kind) (f : Nat → List α) (n : Nat) (src : Option (List α)) (k j : Nat) : Prog α :=
  if k = 0 then
    let lo := nodeLo n 0 j
    let len := nodeHi n 0 j - lo
    let p := (sortC o kind len).progOwn lo (f (len / 2))
    match src with
    | none => p
    | some v => storeAll lo (seg v lo (nodeHi n 0 j)) p
  else (parMergeC (direct o.lt) (nodeHi n k j - nodeLo n k j)).prog (nodeLo n k j) (nodeWs n k j)

/-- The program of a node of a parallel indirect sort (ParArgSortCallback, src/atop/sort.cpp:1690-1770). -/
def argsortProg {α : Type} (o : Ops α) (kind : Kind) (v : List α) (n : Nat) (k j : Nat) : Prog Nat :=
  if k = 0 then (argsortC o kind v (nodeHi n 0 j - nodeLo n 0 j)).prog (nodeLo n 0 j) (nodeWs n 0 j)
  else (parMergeC (indirect o.lt v) (nodeHi n k j - nodeLo n k j)).prog (nodeLo n k j) (nodeWs n k j)

end Pnumpy.SortCode

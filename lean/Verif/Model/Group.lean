import Verif.Model.Strings
/-
Grouping of a sorted index: GroupIndexStep2 (sort.cpp 2514-2640), GroupIndexStep2String (2643-2694), GroupIndex
(2701-2746) and the unpartitioned half of GroupFromLexSortInternal (sorting.cpp 960-1005).

The compared values are given as elements of a type: integers of 1, 2, 4, 8 bytes for items of that size (also for
floating point items, which are compared as integers), byte strings otherwise.
-/
namespace Pnumpy.Group
open Pnumpy.Sort Pnumpy.Str

/-- BINARY_LT (sort.cpp 322-400), the pieces of the `switch`: returns "different". -/
def binTail (c1 c2 : List (BitVec 8)) (off : Nat) : List Nat → Option Bool
  | [] => some false
  | k :: ks => do
    let x ← rd c1 off k
    let y ← rd c2 off k
    if x ≠ y then some true else binTail c1 c2 (off + k) ks

/-- The loop `while (len > 8)` of BINARY_LT, sort.cpp 329-336. -/
def binLoop (c1 c2 : List (BitVec 8)) (off len : Nat) : Option Bool :=
  if len > 8 then do
    let x ← rd c1 off 8
    let y ← rd c2 off 8
    if x ≠ y then some true else binLoop c1 c2 (off + 8) (len - 8)
  else binTail c1 c2 off (tailSizes len)
termination_by len

/-- `BINARY_LT(val1, val2, strlen) == 0` (src/atop/sort.cpp:323-400, 2679). -/
def binEq (len : Nat) (c1 c2 : List (BitVec 8)) : Option Bool := (binLoop c1 c2 0 len).map (!·)

/-- Local variables and output arrays of the loop (src/atop/sort.cpp:2580-2592, 2614-2622, 2660-2673). -/
structure GS (α : Type) where
  group : List Nat
  first : List Nat
  count : List Nat
  /-- `curGroup` -/
  cur : Nat
  /-- `curCount` -/
  cnt : Nat
  /-- `val1` -/
  val : α

section
variable {α : Type} (eq : α → α → Option Bool) (v : List α) (base sh : Nat)

/-- One turn of the loop. `base` is what is added to the group number. `sh = 0`: the count of a group is stored before
`curGroup++` (GroupIndexStep2 with base_index 0, sort.cpp 2594-2610); `sh = 1`: after it (2623-2638 and the string
version 2674-2690). -/
def step (s : GS α) (ci : Nat) : Option (GS α) := do
  let val2 ← v[ci]?
  let b ← eq s.val val2
  if b then do
    let group ← put s.group ci (s.cur + base)
    some { s with group, cnt := s.cnt + 1 }
  else do
    let count ← put s.count (s.cur + sh) s.cnt
    let first ← put s.first (s.cur + 1) ci
    let group ← put s.group ci (s.cur + 1 + base)
    some { group, first, count, cur := s.cur + 1, cnt := 1, val := val2 }

/-- The loop of GroupIndexStep2, src/atop/sort.cpp:2594-2610, 2623-2638, 2674-2690. -/
def loop (s : GS α) : List Nat → Option (GS α)
  | [] => some s
  | ci :: l => do
    let s ← step eq v base sh s ci
    loop s l

/-- `pCountOut[0] = 0`, sort.cpp 2615 and 2664. -/
def zeroBin (sh : Nat) (count : List Nat) : Option (List Nat) := if sh = 1 then put count 0 0 else some count

/-- GroupIndex: returns the number of groups and the arrays pGroupOut, pFirstOut, pCountOut. It reads the first index
before looking at the length (src/atop/sort.cpp:2580-2700). -/
def groupIndex (ix group first count : List Nat) : Option (Nat × List Nat × List Nat × List Nat) := do
  let c0 ← ix[0]?
  let val ← v[c0]?
  let count ← zeroBin sh count
  let first ← put first 0 c0
  let group ← put group c0 base
  let s ← loop eq v base sh { group, first, count, cur := 0, cnt := 1, val } ix.tail
  let count ← put s.count (s.cur + sh) s.cnt
  some (s.cur + 1, s.group, s.first, count)

end

/-- GroupIndex for items of 1, 2, 4 or 8 bytes (sort.cpp 2722-2738); `base` is 0 or 1 (GetBaseIndex, sorting.cpp
605-621). -/
def groupNum {k : Nat} (v : List (BitVec k)) (base : Nat) (ix group first count : List Nat) :=
  groupIndex (fun x y => some (x == y)) v base base ix group first count

/-- GroupIndex for items of any other size (sort.cpp 2739-2742): the counts are shifted whatever `base` is. -/
def groupBytes (len : Nat) (v : List (List (BitVec 8))) (base : Nat) (ix group first count : List Nat) :=
  groupIndex (binEq len) v base 1 ix group first count

end Pnumpy.Group

import Verif.Model.ParSort
/-
Sorting of fixed-width strings: STRING_LT and the sorts and merges that use it (sort.cpp).

An array element is a string of code units: bytes for dtype 'S' and for void (`u = 8`), uint32 code points for
dtype 'U' (`u = 32`). Addresses are counted in whole elements, as in `Sort.lean`.
-/
namespace Pnumpy.Str
open Pnumpy.Sort Pnumpy.ParSort

/-- The loop of STRING_LT for `unsigned char` (sort.cpp 204-213) and for `uint32_t` (219-230, where the number of
units is `len / 4`); `none` when a unit outside the string is read. -/
def strLtLoop {u : Nat} (c1 c2 : List (BitVec u)) (len i : Nat) : Option Bool :=
  if i < len then do
    let x ← c1[i]?
    let y ← c2[i]?
    if x ≠ y then some (x.ult y) else strLtLoop c1 c2 len (i + 1)
  else some false
termination_by len - i

/-- STRING_LT on two strings of `len` units (sort.cpp 204-230). -/
def strLt {u : Nat} (len : Nat) (c1 c2 : List (BitVec u)) : Option Bool := strLtLoop c1 c2 len 0

/-- The number stored little-endian in some bytes (the casts to `uint16_t*`, `uint32_t*`, `uint64_t*`). -/
def le : List (BitVec 8) → Nat
  | [] => 0
  | b :: l => b.toNat + 256 * le l

/-- A `k`-byte read at offset `off` (sort.cpp 234-318). -/
def rd (s : List (BitVec 8)) (off k : Nat) : Option Nat :=
  if off + k ≤ s.length then some (le ((s.drop off).take k)) else none

/-- The reads of the `switch` in STRING_LT(const char*), sort.cpp 250-316. -/
def tailSizes : Nat → List Nat
  | 1 => [1] | 2 => [2] | 3 => [2, 1] | 4 => [4] | 5 => [4, 1] | 6 => [4, 2] | 7 => [4, 2, 1] | 8 => [8]
  | _ => []

/-- The `switch`: compare piece by piece (sort.cpp 250-316). -/
def voidTail (c1 c2 : List (BitVec 8)) (off : Nat) : List Nat → Option Bool
  | [] => some false
  | k :: ks => do
    let x ← rd c1 off k
    let y ← rd c2 off k
    if x ≠ y then some (decide (x < y)) else voidTail c1 c2 (off + k) ks

/-- STRING_LT(const char*), sort.cpp 234-318: 8 bytes at a time as little-endian numbers. -/
def voidLtLoop (c1 c2 : List (BitVec 8)) (off len : Nat) : Option Bool :=
  if len > 8 then do
    let x ← rd c1 off 8
    let y ← rd c2 off 8
    if x ≠ y then some (decide (x < y)) else voidLtLoop c1 c2 (off + 8) (len - 8)
  else voidTail c1 c2 off (tailSizes len)
termination_by len

/-- STRING_LT on two void items of `len` bytes (sort.cpp 234-318). -/
def voidLt (len : Nat) (c1 c2 : List (BitVec 8)) : Option Bool := voidLtLoop c1 c2 0 len

/-- `STRING_LT(strItem + i * strLen, strItem + j * strLen, strLen)` (sort.cpp 1180-1190). -/
def byIndex {α : Type} (cmp : α → α → Option Bool) (v : List α) (i j : Nat) : Option Bool := do
  let x ← v[i]?
  let y ← v[j]?
  cmp x y

/-- mergesortstring_, sort.cpp 978-998, the only in-place string sort (SortInPlaceString, 2229-2247); `w` is the
workspace of `length / 2` strings. -/
def sortStr {α : Type} (cmp : α → α → Option Bool) (a w : List α) : Option (List α) :=
  (mergesortStr cmp true a w 0 a.length 0).map (·.1)

/-- The serial string argsort: par_amergesort without a work item (sort.cpp 2069-2091) calls ParMergeString
(1238-1253), i.e. amergesort0_string. -/
def argsortStr {α : Type} (cmp : α → α → Option Bool) (v : List α) (tosort w : List Nat) : Option (List Nat) :=
  (mergesortStr (byIndex cmp v) false tosort w 0 tosort.length 0).map (·.1)

/-- ParMergeMergeString, sort.cpp 1273-1318, with its check `key[*pm] < key[*pm - 1]`: the right operand is the key
whose *index* is one less, not the key of the previous entry. Index 0 would read before the array. -/
def parMergeStr (cmp : Nat → Nat → Option Bool) : LeafFn Nat := fun a w pl len pw => do
  let pr := pl + len
  let pm := pl + len / 2
  let x ← a[pm]?
  if x = 0 then none
  else
    let b ← cmp x (x - 1)
    if b then do
      let w ← blit a pl w pw (pm - pl)
      let pi := pw + (pm - pl)
      let m ← mergeToArr cmp w pi pr a pw pm pl
      let a ← copyLoop w pi m.1 m.2.1 m.2.2
      some (a, w)
    else some (a, w)

/-- First step of the parallel string argsort: ParMergeString on a segment (sort.cpp 1720-1722). -/
def leafArgStr (cmp : Nat → Nat → Option Bool) : LeafFn Nat :=
  fun a w start len pw => mergesortStr cmp false a w start (start + len) pw

/-- First step of the parallel in-place string sort: mergesortstring_ on a segment, with its own workspace
(contents `f`), sort.cpp 1815. -/
def leafSortStr {α : Type} (cmp : α → α → Option Bool) (f : Nat → List α) : LeafFn α :=
  fun a w start len _ => (mergesortStr cmp true a (f (len / 2)) start (start + len) 0).map fun r => (r.1, w)

/-- A string of exactly `len` units (an element of an array of itemsize `len` units) (elements moved by sort.cpp 978-998). -/
abbrev FStr (u len : Nat) := Fin len → BitVec u

/-- STRING_LT on such strings (sort.cpp 204-230). -/
def fstrLt {u len : Nat} (c1 c2 : FStr u len) : Option Bool := strLt len (List.ofFn c1) (List.ofFn c2)

/-- An array of strings as the units that lie in memory (memory of sort.cpp 1382-1423). -/
def toMem {u len : Nat} (a : List (FStr u len)) : List (BitVec u) := a.flatMap List.ofFn

/-- Memory read as an array of `n` strings (memory of sort.cpp 1382-1423). -/
def ofMem {u : Nat} (len n : Nat) (m : List (BitVec u)) : List (FStr u len) :=
  (List.range n).map fun i k => m[i * len + k]?.getD 0

/-- Second step of the parallel in-place string sort, `SortCallbackTwo = ParInPlaceMerge<DATATYPE>` with DATATYPE
`unsigned char` / `uint32_t` (sort.cpp 2155, 2477-2480): it is given the address of the segment and its length in
*strings*, but merges that many single code units (1382-1423). (The copy to the workspace moves `strlen` times as
many bytes as needed; the surplus is inside the workspace and is not read.) -/
def parMergeChars {u len : Nat} : LeafFn (FStr u len) := fun a w pl n pw => do
  let r ← parMerge (direct BitVec.ult) (toMem a) (toMem w) (pl * len) n (pw * len)
  some (ofMem len a.length r.1, ofMem len w.length r.2)

end Pnumpy.Str

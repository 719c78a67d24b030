import Verif.Model.Ieee
import Verif.Spec.Value
/-
Model of the serial sorting routines of /repo/src/atop/sort.cpp.

Memory: an array (or a workspace) is a `List α` of fixed length; a pointer is an index into it.  Every
read and write is checked, and the result of a function is `none` if one of them falls outside the
array - so `some` means: no access outside the memory *and* the function returned.  Loops and
recursion are `partial_fixpoint` definitions: termination is not built into the model either, a run
that never ends is `none` as well.
-/
namespace Pnumpy.Sort

/-- `*p = x` (checked) (every store of sort.cpp 410-1430). -/
def put {α : Type} (m : List α) (i : Nat) (x : α) : Option (List α) :=
  if i < m.length then some (m.set i x) else none

/-- `memcpy(dst + d, src + s, n)` with `n` counted in elements (checked). sort.cpp 44-45 (MEMCPYR). -/
def blit {α : Type} (src : List α) (s : Nat) (dst : List α) (d n : Nat) : Option (List α) :=
  if s + n ≤ src.length ∧ d + n ≤ dst.length then
    some (dst.take d ++ (src.drop s).take n ++ dst.drop (d + n))
  else none

/-- `std::swap(*p, *q)`, sort.cpp 79-81 (T_SWAP, INTP_SWAP). -/
def swap {α : Type} (m : List α) (i j : Nat) : Option (List α) := do
  let x ← m[i]?
  let y ← m[j]?
  let m ← put m i y
  put m j x

/-- What a template instance knows about its element type `T` (sort.cpp 122-150): `COMPARE_LT`, the
raw operators `<=` and `<`, and `x != x` (the NaN test of FIND_NANS; constantly false for integers,
where the code's FIND_NANS returns its argument without reading). -/
structure Ops (α : Type) where
  lt : α → α → Bool
  le : α → α → Bool
  rawLt : α → α → Bool
  isNaN : α → Bool

/-! ### Comparisons as they are executed

The in-place routines compare the elements themselves, the indirect ones compare `v[i]` and `v[j]`;
the latter can read outside `v`, so a comparison is a partial function. -/

/-- A comparison of elements in place (sort.cpp 124-131). -/
def direct {α : Type} (lt : α → α → Bool) (x y : α) : Option Bool := some (lt x y)

/-- `LT(v[i], v[j])` (e.g. sort.cpp 484, 636, 1085). -/
def indirect {α : Type} (lt : α → α → Bool) (v : List α) (i j : Nat) : Option Bool := do
  let x ← v[i]?
  let y ← v[j]?
  some (lt x y)

section
variable {α : Type} (cmp : α → α → Option Bool)

/-! ### Insertion sort -/

/-- `while (pj > pl && LT(vp, *pk)) *pj-- = *pk--;` with `pk = pj - 1`; sort.cpp 764-766, 867-869,
1026-1028, 1104-1106, 1186-1188, 582-584, 667-669, string: 928-932. -/
def shiftLoop (vp : α) (pl : Nat) (a : List α) (pj : Nat) : Option (List α × Nat) :=
  if pj > pl then do
    let y ← a[pj - 1]?
    let b ← cmp vp y
    if b then do
      let a ← put a pj y
      shiftLoop vp pl a (pj - 1)
    else some (a, pj)
  else some (a, pj)
partial_fixpoint

/-- `for (pi = ...; pi < pr; ++pi) { vp = *pi; ...; *pj = vp; }`; sort.cpp 760-768 and the other
insertion sorts. (`quicksort_` writes `pi <= pr` for an inclusive `pr`.) -/
def insertLoop (pl pr : Nat) (a : List α) (pi : Nat) : Option (List α) :=
  if pi < pr then do
    let vp ← a[pi]?
    let r ← shiftLoop cmp vp pl a pi
    let a ← put r.1 r.2 vp
    insertLoop pl pr a (pi + 1)
  else some a
partial_fixpoint

/-! ### Merging -/

/-- `while (pw < pwEnd && pm < pr) { if (right first) *d++ = *pm++; else *d++ = *pw++; }`: left run in
the workspace, right run in the array, result to the array; sort.cpp 815-829, 847-860, 1161-1169,
908-919, 1011-1018, 1299-1306, 1351-1358, 1407-1414. `tr r l` is the code's test "take the right one".
Returns the array, the final `pw` and the final `d`. -/
def mergeToArr (tr : α → α → Option Bool) (w : List α) (pwEnd pr : Nat) (a : List α) (pw pm d : Nat) :
    Option (List α × Nat × Nat) :=
  if pw < pwEnd ∧ pm < pr then do
    let r ← a[pm]?
    let l ← w[pw]?
    let b ← tr r l
    if b then do
      let a ← put a d r
      mergeToArr tr w pwEnd pr a pw (pm + 1) (d + 1)
    else do
      let a ← put a d l
      mergeToArr tr w pwEnd pr a (pw + 1) pm (d + 1)
  else some (a, pw, d)
partial_fixpoint

/-- `while (p < pEnd) *d++ = *p++;` between two different arrays. Returns the destination (e.g. sort.cpp 829-832, 1171-1174). -/
def copyLoop (src : List α) (pEnd : Nat) (dst : List α) (p d : Nat) : Option (List α) :=
  if p < pEnd then do
    let x ← src[p]?
    let dst ← put dst d x
    copyLoop src pEnd dst (p + 1) (d + 1)
  else some dst
partial_fixpoint

/-- The same merge with both runs in the array and the workspace as destination; sort.cpp 733-748,
1076-1085. Returns the workspace, the final `pw`, `pm`, `d`. -/
def mergeToWs (tr : α → α → Option Bool) (a : List α) (plEnd pr : Nat) (w : List α) (pl pm d : Nat) :
    Option (List α × Nat × Nat × Nat) :=
  if pl < plEnd ∧ pm < pr then do
    let r ← a[pm]?
    let l ← a[pl]?
    let b ← tr r l
    if b then do
      let w ← put w d r
      mergeToWs tr a plEnd pr w pl (pm + 1) (d + 1)
    else do
      let w ← put w d l
      mergeToWs tr a plEnd pr w (pl + 1) pm (d + 1)
  else some (w, pl, pm, d)
partial_fixpoint

end

/-- FIND_NANS, sort.cpp 136-141: `do { if (*(pr-1) is not NaN) return pr; --pr; } while (pm < pr)`. -/
def findNans {α : Type} (isNaN : α → Bool) (a : List α) (pm pr : Nat) : Option Nat := do
  if pr = 0 then none
  else
    let x ← a[pr - 1]?
    if isNaN x then
      if pm < pr - 1 then findNans isNaN a pm (pr - 1) else some (pr - 1)
    else some pr
partial_fixpoint

/-! ### mergesort0_ / mergesort0left_ (in place, numbers) -/

section
variable {α : Type} (o : Ops α)

mutual
/-- mergesort0_, sort.cpp 782-892. Sorts `a[pl, pr)` with workspace `w[pw ..)`; returns both memories. -/
def mergesort0 (a w : List α) (pl pr pw : Nat) : Option (List α × List α) :=
  if pr - pl > 15 then do
    let pm := pl + (pr - pl) / 2
    -- Solve right first
    let s ← mergesort0 a w pm pr pw
    -- Now the left hand side can use the full workspace
    let t ← mergesort0left s.1 s.2 pl pm pw
    let a := t.1
    let w := t.2.1
    if t.2.2 then do
      let pwEnd := pw + (pm - pl)
      let x ← a[pm]?
      let y ← w[pwEnd - 1]?
      if o.lt x y then do
        let pr ← findNans o.isNaN a pm pr
        let m ← mergeToArr (fun r l => some (!o.le l r)) w pwEnd pr a pw pm pl
        let a ← copyLoop w pwEnd m.1 m.2.1 m.2.2
        some (a, w)
      else do
        let a ← blit w pw a pl (pm - pl)
        some (a, w)
    else do
      let x ← a[pm]?
      let y ← a[pm - 1]?
      if o.lt x y then do
        let pr ← findNans o.isNaN a pm pr
        let w ← blit a pl w pw (pm - pl)
        let pwEnd := pw + (pm - pl)
        let m ← mergeToArr (fun r l => some (!o.le l r)) w pwEnd pr a pw pm pl
        let a ← copyLoop w pwEnd m.1 m.2.1 m.2.2
        some (a, w)
      else some (a, w)
  else do
    let a ← insertLoop (direct o.lt) pl pr a (pl + 1)
    some (a, w)
partial_fixpoint

/-- mergesort0left_, sort.cpp 704-777. The third component of the result is the return value: 1 (true) if
the sorted data are in the workspace, 0 if they are in place. -/
def mergesort0left (a w : List α) (pl pr pw : Nat) : Option (List α × List α × Bool) :=
  if pr - pl > 15 then do
    let pm := pl + (pr - pl) / 2
    let s ← mergesort0 a w pm pr pw
    let s ← mergesort0 s.1 s.2 pl pm pw
    let a := s.1
    let w := s.2
    let x ← a[pm]?
    let y ← a[pm - 1]?
    if o.lt x y then do
      let origpr := pr
      let pr ← findNans o.isNaN a pm pr
      let m ← mergeToWs (fun r l => some (!o.le l r)) a pm pr w pl pm pw
      -- left rest, then right rest including the NaNs
      let w ← copyLoop a pm m.1 m.2.1 m.2.2.2
      let w ← copyLoop a origpr w m.2.2.1 (m.2.2.2 + (pm - m.2.1))
      some (a, w, true)
    else some (a, w, false)
  else do
    let a ← insertLoop (direct o.lt) pl pr a (pl + 1)
    some (a, w, false)
partial_fixpoint
end

/-- mergesort_, sort.cpp 955-973: sorts `length` elements at `start` with a fresh workspace of
`length / 2` elements, whose initial contents `w` are arbitrary. -/
def mergesort (a : List α) (start length : Nat) (w : List α) : Option (List α) := do
  let s ← mergesort0 o a w start (start + length) 0
  some s.1

/-! ### amergesort0_ / amergesort0left_ (indirect, numbers) -/

mutual
/-- amergesort0_, sort.cpp 1124-1191: sorts the indices `a[pl, pr)` by their keys `v`. -/
def amergesort0 (v : List α) (a w : List Nat) (pl pr pw : Nat) : Option (List Nat × List Nat) :=
  if pr - pl > 15 then do
    let pm := pl + (pr - pl) / 2
    let s ← amergesort0 v a w pm pr pw
    let t ← amergesort0left v s.1 s.2 pl pm pw
    let a := t.1
    let w := t.2.1
    if t.2.2 then do
      let pwEnd := pw + (pm - pl)
      let m ← mergeToArr (indirect o.rawLt v) w pwEnd pr a pw pm pl
      let a ← copyLoop w pwEnd m.1 m.2.1 m.2.2
      some (a, w)
    else do
      let x ← a[pm]?
      let y ← a[pm - 1]?
      let b ← indirect o.lt v x y
      if b then do
        let w ← blit a pl w pw (pm - pl)
        let pwEnd := pw + (pm - pl)
        let m ← mergeToArr (indirect o.rawLt v) w pwEnd pr a pw pm pl
        let a ← copyLoop w pwEnd m.1 m.2.1 m.2.2
        some (a, w)
      else some (a, w)
  else do
    let a ← insertLoop (indirect o.lt v) pl pr a (pl + 1)
    some (a, w)
partial_fixpoint

/-- amergesort0left_, sort.cpp 1062-1117. -/
def amergesort0left (v : List α) (a w : List Nat) (pl pr pw : Nat) : Option (List Nat × List Nat × Bool) :=
  if pr - pl > 15 then do
    let pm := pl + (pr - pl) / 2
    let s ← amergesort0 v a w pm pr pw
    let s ← amergesort0 v s.1 s.2 pl pm pw
    let a := s.1
    let w := s.2
    let x ← a[pm]?
    let y ← a[pm - 1]?
    let b ← indirect o.lt v x y
    if b then do
      let m ← mergeToWs (indirect o.lt v) a pm pr w pl pm pw
      let w ← copyLoop a pm m.1 m.2.1 m.2.2.2
      let w ← copyLoop a pr w m.2.2.1 (m.2.2.2 + (pm - m.2.1))
      some (a, w, true)
    else some (a, w, false)
  else do
    let a ← insertLoop (indirect o.lt v) pl pr a (pl + 1)
    some (a, w, false)
partial_fixpoint
end

end

/-! ### Merge sort with a comparison only (strings) -/

section
variable {α : Type} (cmp : α → α → Option Bool)

/-- amergesort0_string (sort.cpp 1000-1047, elements are indices), and mergesort0string_ (sort.cpp 896-950,
elements are whole strings; its insertion sort keeps the string being inserted in the first slot of the
workspace, `temp`, instead of a local variable). -/
def mergesortStr (temp : Bool) (a w : List α) (pl pr pw : Nat) : Option (List α × List α) :=
  if pr - pl > 15 then do
    let pm := pl + (pr - pl) / 2
    let s ← mergesortStr temp a w pl pm pw
    let s ← mergesortStr temp s.1 s.2 pm pr pw
    let a := s.1
    let w := s.2
    let x ← a[pm]?
    let y ← a[pm - 1]?
    let b ← cmp x y
    if b then do
      let w ← blit a pl w pw (pm - pl)
      let pwEnd := pw + (pm - pl)
      let m ← mergeToArr cmp w pwEnd pr a pw pm pl
      let a ← copyLoop w pwEnd m.1 m.2.1 m.2.2
      some (a, w)
    else some (a, w)
  else if temp then do
    -- the buffer must exist as soon as one element is inserted
    if pl + 1 < pr ∧ ¬ pw < w.length then none
    else do
      let a ← insertLoop cmp pl pr a (pl + 1)
      some (a, w)
  else do
    let a ← insertLoop cmp pl pr a (pl + 1)
    some (a, w)
partial_fixpoint

/-- ParInPlaceMerge / ParMergeMerge, sort.cpp 1327-1372, 1382-1423: merges the two sorted halves of
`a[pl, pl+len)` (second half starts at `len >> 1`). -/
def parMerge (a w : List α) (pl len pw : Nat) : Option (List α × List α) := do
  let pr := pl + len
  let pm := pl + len / 2
  if pm = 0 then none
  else
    let x ← a[pm]?
    let y ← a[pm - 1]?
    let b ← cmp x y
    if b then do
      let w ← blit a pl w pw (pm - pl)
      let pi := pw + (pm - pl)
      let m ← mergeToArr cmp w pi pr a pw pm pl
      let a ← copyLoop w pi m.1 m.2.1 m.2.2
      some (a, w)
    else some (a, w)

/-! ### Heapsort -/

/-- `if (j < n && LT(a[j], a[j + 1])) j += 1;` sort.cpp 423-425: the larger child. 1-based positions,
position `k` is `a[base + k - 1]`. -/
def largerChild (base n : Nat) (a : List α) (j : Nat) : Option Nat :=
  if j < n then do
    let x ← a[base + j - 1]?
    let y ← a[base + (j + 1) - 1]?
    let b ← cmp x y
    some (if b then j + 1 else j)
  else some j

/-- The sift-down loop, sort.cpp 422-435 and 443-455: `i` is the hole, `j` its left child. -/
def siftDown (base n : Nat) (tmp : α) (a : List α) (i j : Nat) : Option (List α × Nat) :=
  if j ≤ n then do
    let j ← largerChild cmp base n a j
    let x ← a[base + j - 1]?
    let b ← cmp tmp x
    if b then do
      let a ← put a (base + i - 1) x
      siftDown base n tmp a j (j + j)
    else some (a, i)
  else some (a, i)
partial_fixpoint

/-- First loop of heapsort_, sort.cpp 419-437: build the heap. -/
def heapify (base n : Nat) (a : List α) (l : Nat) : Option (List α) :=
  if l > 0 then do
    let tmp ← a[base + l - 1]?
    let r ← siftDown cmp base n tmp a l (l * 2)
    let a ← put r.1 (base + r.2 - 1) tmp
    heapify base n a (l - 1)
  else some a
partial_fixpoint

/-- Second loop of heapsort_, sort.cpp 439-457: move the maximum to the end. -/
def heapPop (base : Nat) (a : List α) (n : Nat) : Option (List α) :=
  if n > 1 then do
    let tmp ← a[base + n - 1]?
    let x ← a[base + 1 - 1]?
    let a ← put a (base + n - 1) x
    let n := n - 1
    let r ← siftDown cmp base n tmp a 1 2
    let a ← put r.1 (base + r.2 - 1) tmp
    heapPop base a n
  else some a
partial_fixpoint

/-- heapsort_ (sort.cpp 413-461) and aheapsort_ (469-521, with `cmp = indirect`): sorts
`a[base, base+n)`. -/
def heapsort (a : List α) (base n : Nat) : Option (List α) := do
  let a ← heapify cmp base n a (n / 2)
  heapPop cmp base a n

/-! ### Quicksort -/

/-- `do ++pi; while (LT(*pi, vp));` sort.cpp 555. -/
def scanUp (vp : α) (a : List α) (pi : Nat) : Option Nat := do
  let x ← a[pi + 1]?
  let b ← cmp x vp
  if b then scanUp vp a (pi + 1) else some (pi + 1)
partial_fixpoint

/-- `do --pj; while (LT(vp, *pj));` sort.cpp 556. -/
def scanDown (vp : α) (a : List α) (pj : Nat) : Option Nat := do
  if pj = 0 then none
  else
    let x ← a[pj - 1]?
    let b ← cmp vp x
    if b then scanDown vp a (pj - 1) else some (pj - 1)
partial_fixpoint

/-- The partition loop, sort.cpp 554-561; returns the array and the final `pi`. -/
def partLoop (vp : α) (a : List α) (pi pj : Nat) : Option (List α × Nat) := do
  let pi ← scanUp cmp vp a pi
  let pj ← scanDown cmp vp a pj
  if pi ≥ pj then some (a, pi)
  else do
    let a ← swap a pi pj
    partLoop vp a pi pj
partial_fixpoint

/-- `if (LT(*p, *q)) swap(*p, *q)`, sort.cpp 547-549. -/
def condSwap (a : List α) (p q : Nat) : Option (List α) := do
  let x ← a[p]?
  let y ← a[q]?
  let b ← cmp x y
  if b then swap a p q else some a

/-- Pivot choice and partition, sort.cpp 546-563. `pr` is the last position (inclusive). -/
def partition (a : List α) (pl pr : Nat) : Option (List α × Nat) := do
  let pm := pl + (pr - pl) / 2
  let a ← condSwap cmp a pm pl
  let a ← condSwap cmp a pr pm
  let a ← condSwap cmp a pm pl
  let vp ← a[pm]?
  let a ← swap a pm (pr - 1)
  let r ← partLoop cmp vp a pl (pr - 1)
  let a ← swap r.1 r.2 (pr - 1)
  some (a, r.2)

/-- Pending partitions: `stack[]` (two pointers each) and `depth[]` move together, sort.cpp 534-539. -/
abbrev QStack := List (Nat × Nat × Int)

/-- Pushing writes `stack[2k], stack[2k+1]` and `depth[k]`; both arrays have PYA_QS_STACK = 128 entries. -/
def push (st : QStack) (x : Nat × Nat × Int) : Option QStack :=
  if 2 * st.length + 2 ≤ 128 then some (x :: st) else none

/-- `while ((pr - pl) > SMALL_QUICKSORT) { ... }`, sort.cpp 544-575. `e = pr + 1` is the end of the
current partition (exclusive, so that an empty partition needs no pointer before the array). -/
def qsWhile (a : List α) (pl e : Nat) (cdepth : Int) (st : QStack) :
    Option (List α × Nat × Nat × Int × QStack) :=
  if e > pl + 31 then do
    let pr := e - 1
    let r ← partition cmp a pl pr
    let a := r.1
    let pi := r.2
    let cdepth := cdepth - 1
    if pi - pl < pr - pi then do
      let st ← push st (pi + 1, e, cdepth)
      qsWhile a pl pi cdepth st
    else do
      let st ← push st (pl, pi, cdepth)
      qsWhile a (pi + 1) e cdepth st
  else some (a, pl, e, cdepth, st)
partial_fixpoint

/-- One round of the outer `for (;;)` up to the test `sptr == stack`; sort.cpp 543-589 and 632-677. -/
def qsRound (a : List α) (pl e : Nat) (cdepth : Int) (st : QStack) : Option (List α × QStack) :=
  if cdepth ≥ 0 then do
    let r ← qsWhile cmp a pl e cdepth st
    let a ← insertLoop cmp r.2.1 r.2.2.1 r.1 (r.2.1 + 1)
    some (a, r.2.2.2.2)
  else do
    let a ← heapsort cmp a pl (e - pl)
    some (a, st)

/-- The outer `for (;;)`: `if (sptr == stack) break; pr = *(--sptr); pl = *(--sptr); cdepth = *(--psdepth);`
sort.cpp 542-601 and 630-683. -/
def qsMain (a : List α) (pl e : Nat) (cdepth : Int) (st : QStack) : Option (List α) := do
  let r ← qsRound cmp a pl e cdepth st
  if r.2 = [] then some r.1
  else do
    let t ← r.2.head?
    qsMain r.1 t.1 t.2.1 t.2.2 r.2.tail
partial_fixpoint

/-- npy_get_msb, sort.cpp 32-41. -/
def getMsb (n : Nat) : Nat := if n / 2 = 0 then 0 else getMsb (n / 2) + 1
termination_by n

/-- quicksort_ (sort.cpp 527-605) and aquicksort_ (611-690, with `cmp = indirect`; it keeps `v[*pm]` in a
local instead of reading it again): sorts `a[start, start+length)`. -/
def quicksort (a : List α) (start length : Nat) : Option (List α) :=
  qsMain cmp a start (start + length) (getMsb length * 2) []

end


/-! ### Element types -/

open Spec in
/-- The template instances: `COMPARE_LT`, `<=`, `<` and `x != x` of each element type, sort.cpp 121-150 (a `bool`
is promoted to `int`, so it compares as 0 or 1). `long double` is not modelled. -/
def ops : (t : DT) → Ops (BitVec t.bits)
  | .bool =>
    { lt := fun x y => x == 0 && y != 0, le := fun x y => x == 0 || y != 0, rawLt := fun x y => x == 0 && y != 0,
      isNaN := fun _ => false }
  | .i8 | .i16 | .i32 | .i64 =>
    { lt := fun x y => x.slt y, le := fun x y => x.sle y, rawLt := fun x y => x.slt y, isNaN := fun _ => false }
  | .u8 | .u16 | .u32 | .u64 =>
    { lt := fun x y => x.ult y, le := fun x y => x.ule y, rawLt := fun x y => x.ult y, isNaN := fun _ => false }
  | .f32 =>
    { lt := fun x y => Ieee.flt 8 23 x y || (Ieee.fne 8 23 y y && Ieee.feq 8 23 x x), le := fun x y => Ieee.fle 8 23 x y,
      rawLt := fun x y => Ieee.flt 8 23 x y, isNaN := fun x => Ieee.fne 8 23 x x }
  | .f64 =>
    { lt := fun x y => Ieee.flt 11 52 x y || (Ieee.fne 11 52 y y && Ieee.feq 11 52 x x), le := fun x y => Ieee.fle 11 52 x y,
      rawLt := fun x y => Ieee.flt 11 52 x y, isNaN := fun x => Ieee.fne 11 52 x x }

/-- The template instance for `ATOP_HALF_FLOAT`: `atop_half` is a typedef of `uint16_t` (halffloat.h 10), so the
overload `COMPARE_LT(uint16_t, uint16_t)` is used; sort.cpp 2411-2412, 2479-2480. (`HALF_LT`, sort.cpp 184-198,
is not used by the sorts.) -/
def opsHalf : Ops (BitVec 16) := ops .u16

/-- The template instance of the indirect sorts: booleans are sorted as `uint8_t`, sort.cpp 2305-2306. -/
def opsArg : (t : Spec.DT) → Ops (BitVec t.bits)
  | .bool => ops .u8
  | t => ops t

/-- Sort kinds, common_inc.h 447-451. -/
inductive Kind where
  | quick | heap | merge
deriving DecidableEq, Repr

/-- The function chosen by SortInPlace (sort.cpp 2205-2223), applied to `a[start, start+len)`. `w` is the (arbitrary)
initial contents of the workspace that mergesort_ allocates. -/
def sortFn {α : Type} (o : Ops α) (k : Kind) (a : List α) (start len : Nat) (w : List α) : Option (List α) :=
  match k with
  | .quick => quicksort (direct o.lt) a start len
  | .heap => heapsort (direct o.lt) a start len
  | .merge => mergesort o a start len w

/-- The function chosen by SortIndex (sort.cpp 2253-2285), applied to the indices `a[start, start+len)`, with the
caller's workspace from position `pw` on. -/
def argsortFn {α : Type} (o : Ops α) (k : Kind) (v : List α) (a w : List Nat) (start len pw : Nat) :
    Option (List Nat × List Nat) :=
  match k with
  | .quick => (quicksort (indirect o.lt v) a start len).map (·, w)
  | .heap => (heapsort (indirect o.lt v) a start len).map (·, w)
  | .merge => amergesort0 o v a w start (start + len) pw

/-- `Sort` without threads (par_sort, sort.cpp 2185-2200): sorts the whole array. -/
def sortSerial {α : Type} (o : Ops α) (k : Kind) (a w : List α) : Option (List α) := sortFn o k a 0 a.length w

/-- `SortIndex64` without cutoffs and threads (par_amergesort, sort.cpp 2063-2095); `tosort` is what the caller
put into the index array (`0 .. n-1` for np.argsort), `w` the fresh workspace of `n / 2` indices. -/
def argsortSerial {α : Type} (o : Ops α) (k : Kind) (v : List α) (tosort w : List Nat) : Option (List Nat) :=
  (argsortFn o k v tosort w 0 tosort.length 0).map (·.1)

end Pnumpy.Sort

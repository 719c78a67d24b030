import Verif.Model.Chunks
/-
getitem(a, mask) and getitem(a, idx): getitem.cpp.

Memory is a function from byte offsets (relative to the data pointer) to what lies there, `none` outside the array:
mask bytes for the mask, items (`itemSize` bytes) for the value array, index values for the index array. The output is
a list of bytes.
-/
namespace Pnumpy.GetItem
open Pnumpy.Chunks

variable {β : Type}

/-! ### Boolean masks -/

/-- `_mm256_min_epu8`, one lane (src/pnumpy/getitem.cpp:80). -/
def minEpu8 (a b : BitVec 8) : BitVec 8 := if b.toNat < a.toNat then b else a

/-- Byte counter of lane `lane` after `iters` consecutive vectors from byte `p`: SumBooleanMask's inner loop, getitem.cpp 72-85
(_mm256_min_epu8 with ones, _mm256_add_epi8: modulo 256). -/
def laneCount (rdM : Int → Option (BitVec 8)) (p : Int) (lane : Nat) : Nat → Option (BitVec 8)
  | 0 => some 0
  | iters + 1 => do
    let c ← laneCount rdM p lane iters
    let b ← rdM (p + 32 * iters + lane)
    some (c + minEpu8 1 b)

/-- The byte counters of the first `lanes` lanes, lowest lane first (getitem.cpp 72-85); the register has 32. -/
def laneCounts (rdM : Int → Option (BitVec 8)) (p : Int) (iters : Nat) : Nat → Option (List (BitVec 8))
  | 0 => some []
  | lanes + 1 => do
    let cs ← laneCounts rdM p iters lanes
    let c ← laneCount rdM p lanes iters
    some (cs ++ [c])

/-- The lanes `_mm256_unpacklo_epi*` takes from an operand: the lower half of each 128-bit half (src/pnumpy/getitem.cpp:93, 98, 103). -/
def loLanes {α : Type} (l : List α) : List α := (l.take (l.length / 2)).take (l.length / 4) ++ (l.drop (l.length / 2)).take (l.length / 4)
/-- The lanes `_mm256_unpackhi_epi*` takes from an operand: the upper half of each 128-bit half (src/pnumpy/getitem.cpp:94, 99, 104). -/
def hiLanes {α : Type} (l : List α) : List α := (l.take (l.length / 2)).drop (l.length / 4) ++ (l.drop (l.length / 2)).drop (l.length / 4)
/-- Interleaving two operands and reading the result as lanes of twice the width: the second operand supplies the high part
(little-endian) (src/pnumpy/getitem.cpp:88-90). -/
def interleave {w : Nat} (a b : List (BitVec w)) : List (BitVec (w + w)) := List.zipWith (fun x y => y ++ x) a b
/-- `_mm256_add_epi16/32/64(unpacklo(a, zeros), unpackhi(a, zeros))` (getitem.cpp 92-105); lanes add modulo their width. -/
def widen {w : Nat} (a : List (BitVec w)) : List (BitVec (w + w)) :=
  let zeros := List.replicate a.length (0 : BitVec w)
  List.zipWith (· + ·) (interleave (loLanes a) (loLanes zeros)) (interleave (hiLanes a) (hiLanes zeros))

/-- Sum of the 32 byte counters: three widening steps to four 64-bit lanes, then `result += horizontal[j]` (getitem.cpp 87-115).
Simplification: `result` is an unbounded natural number (at most the length of the mask). -/
def horizontal (cs : List (BitVec 8)) : Nat := ((widen (widen (widen cs))).map (·.toNat)).sum

/-- Outer loop of SumBooleanMask, getitem.cpp 62-119: at most 255 vectors per round. `v` vectors are left, `p` is the byte
position. -/
def sumVectors (rdM : Int → Option (BitVec 8)) (p : Int) (v : Nat) : Option Nat :=
  if _h : v = 0 then some 0
  else do
    let iters := min v 255
    let cs ← laneCounts rdM p iters 32
    let s := horizontal cs
    let rest ← sumVectors rdM (p + 32 * iters) (v - iters)
    some (s + rest)
termination_by v
decreasing_by omega

/-- The scalar loops of SumBooleanMask, getitem.cpp 121-130 and 132-138. -/
def sumLoop (rdM : Int → Option (BitVec 8)) (stride : Int) : Nat → Int → Option Nat
  | 0, _ => some 0
  | n + 1, p => do
    let b ← rdM p
    let r ← sumLoop rdM stride n (p + stride)
    some ((if b = 0 then 0 else 1) + r)

/-- SumBooleanMask, getitem.cpp 23-144; `p` is the byte offset of pData. -/
def sumBooleanMask (rdM : Int → Option (BitVec 8)) (p : Int) (len : Nat) (stride : Int) : Option Nat :=
  if stride = 1 then do
    let s ← sumVectors rdM p (len / 32)
    let r ← sumLoop rdM 1 (len - 32 * (len / 32)) (p + 32 * (len / 32 : Nat))
    some (s + r)
  else sumLoop rdM stride len p

/-- The counts BooleanCount leaves in pChunkCount (getitem.cpp 151-213): `raw` is the uninitialised allocation of
`(max n 1 + 16383) / 16384` entries; every call stores its sum at entry `start / 16384`. -/
def countCalls (rdM : Int → Option (BitVec 8)) (stride : Int) : List (Nat × Nat) → List Nat → Option (List Nat)
  | [], cnt => some cnt
  | (start, len) :: cs, cnt => do
    let s ← sumBooleanMask rdM (start * stride) len stride
    let cnt ← Pnumpy.Sort.put cnt (start / 16384) s
    countCalls rdM stride cs cnt

/-- The cumulative sum over the first `chunks` entries, getitem.cpp 264-271: entry `i` becomes the sum of the counts before
it; returns the total. -/
def cumulate : Nat → List Nat → Nat → List Nat × Nat
  | 0, cnt, total => (cnt, total)
  | _ + 1, [], total => ([], total)
  | chunks + 1, c :: cnt, total =>
    let (rest, t) := cumulate chunks cnt (total + c)
    (total :: rest, t)

/-- One pass over the mask bytes `bs`, getitem.cpp 328-334, 341-347 and the same code for the other item sizes: a nonzero byte
copies the item at pV to pO and advances pO by `so`; pV always advances. -/
def pick (rdV : Int → Option (List β)) (sv so : Int) : List (BitVec 8) → Int → Int → Option (List (Int × List β) × Int × Int)
  | [], pV, pO => some ([], pV, pO)
  | b :: bs, pV, pO =>
    if b = 0 then pick rdV sv so bs (pV + sv) pO
    else do
      let x ← rdV pV
      let (ws, pV', pO') ← pick rdV sv so bs (pV + sv) (pO + so)
      some ((pO, x) :: ws, pV', pO')

/-- `n` mask bytes from `p` on (the mask reads of src/pnumpy/getitem.cpp:323-343). -/
def maskBytes (rdM : Int → Option (BitVec 8)) (sb : Int) : Nat → Int → Option (List (BitVec 8))
  | 0, _ => some []
  | n + 1, p => do
    let b ← rdM p
    let bs ← maskBytes rdM sb n (p + sb)
    some (b :: bs)

/-- The loop over groups of eight booleans, getitem.cpp 323-337 (and 356-370, 388-402, 420-434, 448-470): a zero group is skipped. -/
def pick8 (rdM : Int → Option (BitVec 8)) (rdV : Int → Option (List β)) (sv isz : Int) :
    Nat → Int → Int → Int → Option (List (Int × List β) × Int × Int × Int)
  | 0, pM, pV, pO => some ([], pM, pV, pO)
  | g + 1, pM, pV, pO => do
    let bs ← maskBytes rdM 1 8 pM
    if bs.all (· == 0) then pick8 rdM rdV sv isz g (pM + 8) (pV + 8 * sv) pO
    else do
      let (ws, pV, pO) ← pick rdV sv isz bs pV pO
      let (ws', r) ← pick8 rdM rdV sv isz g (pM + 8) pV pO
      some (ws ++ ws', r)

/-- Output step of the loop over the last `length & 7` booleans: the item size for the sizes 1, 2, 4 and 8 (getitem.cpp 345, 377,
409, 441), but `strideValues` for all other sizes (478). -/
def tailStep (isz sv : Int) : Int := if isz = 1 ∨ isz = 2 ∨ isz = 4 ∨ isz = 8 then isz else sv

/-- lambdaBICallback2, getitem.cpp 293-556, for one call `(start, len)`; `offs` are the cumulative counts. -/
def boolKernel (rdM : Int → Option (BitVec 8)) (rdV : Int → Option (List β)) (sb sv isz : Int) (offs : List Nat) :
    Nat × Nat → Option (List (Int × List β))
  | (start, len) => do
    let off ← offs[start / 16384]?
    let pM : Int := start * sb
    let pV : Int := start * sv
    let pO : Int := off * isz
    if sb = 1 then do
      let (ws, pM, pV, pO) ← pick8 rdM rdV sv isz (len / 8) pM pV pO
      let bs ← maskBytes rdM 1 (len % 8) pM
      let (ws', _) ← pick rdV sv (tailStep isz sv) bs pV pO
      some (ws ++ ws')
    else do
      let bs ← maskBytes rdM sb len pM
      let (ws, _) ← pick rdV sv isz bs pV pO
      some ws

/-- The counting phase of BooleanIndexInternal, getitem.cpp 250-275: offsets and total. -/
def boolOffsets (rdM : Int → Option (BitVec 8)) (sb : Int) (threaded : Bool) (calls : List (Nat × Nat)) (raw : List Nat) :
    Option (List Nat × Nat) := do
  let cnt ← countCalls rdM sb calls raw
  some (cumulate (if threaded then cnt.length else 1) cnt 0)

/-- What getitem(a, mask) may return for arrays of `n` elements (getitem.cpp 222-579), given the state of the threads during the
counting pass (`t1`) and the copying pass (`t2`): GetWorkItem can give a work item in one pass and none in the other.
`raw` and `out` are uninitialised memory. -/
def BoolResult (rdM : Int → Option (BitVec 8)) (rdV : Int → Option (List β)) (n : Nat) (sb sv : Int) (isz : Nat) (t1 t2 : Bool)
    (out' : List β) : Prop :=
  ∃ calls1 calls2 raw offs total out, Calls n t1 calls1 ∧ Calls n t2 calls2 ∧ raw.length = (max n 1 + 16383) / 16384 ∧
    boolOffsets rdM sb t1 calls1 raw = some (offs, total) ∧ out.length = total * isz ∧
    if total = 0 then out' = out else Result (boolKernel rdM rdV sb sv isz offs) calls2 out out'

/-- ... and when it touches memory outside the arrays (src/pnumpy/getitem.cpp:222-579). -/
def BoolFault (rdM : Int → Option (BitVec 8)) (rdV : Int → Option (List β)) (n : Nat) (sb sv : Int) (isz : Nat) (t1 t2 : Bool)
    (raw : List Nat) (out : List β) : Prop :=
  ∃ calls1 calls2, Calls n t1 calls1 ∧ Calls n t2 calls2 ∧
    (boolOffsets rdM sb t1 calls1 raw = none ∨
      ∃ offs total, boolOffsets rdM sb t1 calls1 raw = some (offs, total) ∧ total ≠ 0 ∧ out.length = total * isz ∧
        Faults (boolKernel rdM rdV sb sv isz offs) calls2 out)

/-! ### Integer indices -/

/-- `isz` bytes at pDefault; the static default values are 1, 2, 4, 8 or 1024 bytes long (common.cpp 20-34). -/
def readDefault (dflt : List β) (isz : Nat) : Option (List β) := if isz ≤ dflt.length then some (dflt.take isz) else none

/-- The item GetItemInt / GetItemIntVariable copies for one index, getitem.cpp 632-640, 650-660, 744-752, 773-781. -/
def lookupInt (rdV : Int → Option (List β)) (n : Nat) (sv : Int) (isz : Nat) (dflt : List β) (index : Int) : Option (List β) :=
  if -(n : Int) ≤ index ∧ index < n then rdV ((if 0 ≤ index then index else index + n) * sv)
  else readDefault dflt isz

/-- The item GetItemUInt / GetItemUIntVariable copies: getitem.cpp 693-697, 708-714, 810-815, 837-842. -/
def lookupUInt (rdV : Int → Option (List β)) (n : Nat) (sv : Int) (isz : Nat) (dflt : List β) (index : Int) : Option (List β) :=
  if index < n then rdV (index * sv) else readDefault dflt isz

/-- The loops of GetItemInt, GetItemUInt and GetItemIntVariable: `len` items, the index pointer advances by `si`, the output by
the item size (src/pnumpy/getitem.cpp:629-662, 690-716, 741-783). -/
def itemLoop (look : Int → Option (List β)) (rdI : Int → Option Int) (si : Int) (isz : Nat) :
    Nat → Int → Int → Option (List (Int × List β))
  | 0, _, _ => some []
  | len + 1, pI, pO => do
    let x ← look (← rdI pI)
    let ws ← itemLoop look rdI si isz len (pI + si) (pO + isz)
    some ((pO, x) :: ws)

/-- The loop of GetItemUIntVariable, getitem.cpp 807-832 and 836-857: the copy loop has already advanced pDataOut when line 831
(857) advances it again, and the loop stops only if pDataOut hits the end exactly. `m` is the size of the whole output; a
write behind it is reported as `none`. -/
def uintVarLoop (look : Int → Option (List β)) (rdI : Int → Option Int) (si : Int) (isz m fin pO : Nat) (pI : Int) :
    Option (List (Int × List β)) :=
  if pO = fin then some []
  else if _h : pO + isz ≤ m ∧ 0 < isz then do
    let x ← look (← rdI pI)
    let ws ← uintVarLoop look rdI si isz m fin (pO + isz + isz) (pI + si)
    some (((pO : Int), x) :: ws)
  else none
termination_by m - pO
decreasing_by omega

/-- The function chosen by GetItemFunction (getitem.cpp 932-1018) and GetItemCallback (881-924), for one call `(start, len)`:
the output pointer is advanced by `start * strideValue`. `n` is the number of values, `m` the size of the output in bytes.
Reading the default at the beginning: 621, 681 (`VALUE defaultVal = *(VALUE*)pDefault`, sizes 1, 2, 4, 8, 16 only).
The unsigned index types use the kernels instantiated with the *signed* type of the same size, so an index is
`rdI` = the two's complement value in both cases. -/
def intKernel (rdV : Int → Option (List β)) (rdI : Int → Option Int) (unsigned : Bool) (n : Nat) (sv si : Int) (isz m : Nat)
    (dflt : List β) : Nat × Nat → Option (List (Int × List β))
  | (start, len) =>
    let pI : Int := start * si
    let pO : Int := start * sv
    let fixed : Bool := isz = 1 ∨ isz = 2 ∨ isz = 4 ∨ isz = 8 ∨ isz = 16
    if fixed then do
      let _ ← readDefault dflt isz
      if unsigned then itemLoop (lookupUInt rdV n sv isz dflt) rdI si isz len pI pO
      else itemLoop (lookupInt rdV n sv isz dflt) rdI si isz len pI pO
    else if unsigned then
      if 0 ≤ pO then uintVarLoop (lookupUInt rdV n sv isz dflt) rdI si isz m (pO.toNat + len * isz) pO.toNat pI
      else none
    else itemLoop (lookupInt rdV n sv isz dflt) rdI si isz len pI pO

/-- What getitem(a, idx) may return for `k` indices, getitem.cpp 1040-1192. -/
def IntResult (rdV : Int → Option (List β)) (rdI : Int → Option Int) (unsigned : Bool) (n k : Nat) (sv si : Int) (isz : Nat)
    (dflt : List β) (threaded : Bool) (out' : List β) : Prop :=
  ∃ calls out, Calls k threaded calls ∧ out.length = k * isz ∧
    Result (intKernel rdV rdI unsigned n sv si isz (k * isz) dflt) calls out out'

/-- ... and when it touches memory outside (src/pnumpy/getitem.cpp:1040-1192). -/
def IntFault (rdV : Int → Option (List β)) (rdI : Int → Option Int) (unsigned : Bool) (n k : Nat) (sv si : Int) (isz : Nat)
    (dflt : List β) (threaded : Bool) : Prop :=
  ∃ calls out, Calls k threaded calls ∧ out.length = k * isz ∧
    Faults (intKernel rdV rdI unsigned n sv si isz (k * isz) dflt) calls out

end Pnumpy.GetItem

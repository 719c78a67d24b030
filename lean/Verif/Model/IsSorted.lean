import Verif.Model.Strings
/-
IsSorted (sort.cpp 2778-2970): is the array in ascending order? Checked in chunks by several threads.
-/
namespace Pnumpy.IsSorted
open Pnumpy.Sort Pnumpy.ParSort Pnumpy.Str Spec

section
variable {α : Type}

/-- `while ((i > 0) && (pData[i] != pData[i])) i--;` (IsSortedFloat, sort.cpp 2789-2791). The integer and string versions
do not have this loop: `nan` is constantly false for them. -/
def skipNaN (nan : α → Bool) (a : List α) : Nat → Option Nat
  | 0 => some 0
  | i + 1 => do
    let x ← a[i + 1]?
    if nan x then skipNaN nan a i else some (i + 1)

/-- `while ((i > 0) && pData[i] >= pData[i - 1]) i--;` (sort.cpp 2793-2795, 2811-2813, 2827-2829, 2843-2845, 2859-2861);
`ok x y` stands for `x >= y`, and `!(STRING_LT(x, y))` for strings. -/
def descend (ok : α → α → Option Bool) (a : List α) : Nat → Option Nat
  | 0 => some 0
  | i + 1 => do
    let x ← a[i + 1]?
    let y ← a[i]?
    let b ← ok x y
    if b then descend ok a i else some (i + 1)

/-- IsSortedFloat, IsSorted<T>, IsSortedString, IsSortedUnicode, IsSortedVoid: `i` starts at `arraySize1 - 1` (which is
-1 for the empty array: no loop runs and the answer is true, as here with 0) and the answer is `i <= 0` (sort.cpp 2782-2870). -/
def isSortedFn (nan : α → Bool) (ok : α → α → Option Bool) (a : List α) : Option Bool := do
  let i ← skipNaN nan a (a.length - 1)
  let i ← descend ok a i
  some (decide (i = 0))

/-- State of one chunk (a call of the callback of sort.cpp 2936-2958). -/
inductive ChSt where
  | idle | running | done
deriving DecidableEq

/-- The shared flag `cb->IsSorted` and the states of the chunks (sort.cpp 2925-2958). -/
structure IS where
  flag : Bool
  st : Nat → ChSt

/-- Elements of chunk `t` as the callback looks at them: `start = 16384 * t`, `length` up to the end of the array; if
not the first chunk, one element back (sort.cpp 2942-2947). -/
def chunk (a : List α) (t : Nat) : List α :=
  let start := 16384 * t
  let len := min 16384 (a.length - start)
  let s := if start ≠ 0 then start - 1 else start
  let l := if start ≠ 0 then len + 1 else len
  (a.drop s).take l

/-- The callback (sort.cpp 2936-2958) on chunk `t`, in two atomic steps: the test of the flag, and the end with the
possible write of the flag; other threads run in between. -/
inductive IStep (f : List α → Option Bool) (a : List α) : IS → IS → Prop where
  | skip (s : IS) (t : Nat) (ht : t < (a.length + 16383) / 16384) (h : s.st t = .idle) (hf : s.flag = false) :
      IStep f a s { s with st := Function.update s.st t .done }
  | enter (s : IS) (t : Nat) (ht : t < (a.length + 16383) / 16384) (h : s.st t = .idle) (hf : s.flag = true) :
      IStep f a s { s with st := Function.update s.st t .running }
  | leave (s : IS) (t : Nat) (r : Bool) (h : s.st t = .running) (hr : f (chunk a t) = some r) :
      IStep f a s { flag := if r then s.flag else false, st := Function.update s.st t .done }

/-- States of the callbacks (sort.cpp 2936-2958) under any interleaving. -/
inductive IReach (f : List α → Option Bool) (a : List α) : IS → Prop where
  | start : IReach f a { flag := true, st := fun _ => .idle }
  | step {s s' : IS} : IReach f a s → IStep f a s s' → IReach f a s'

/-- What IsSorted may return: one call on the whole array when DoMultiThreadedChunkWork does not use threads, or else
the flag after every chunk was processed once (C04). -/
inductive Run (f : List α → Option Bool) (a : List α) : Bool → Prop where
  | serial (b : Bool) (h : f a = some b) : Run f a b
  | threaded (s : IS) (h : IReach f a s) (hd : ∀ t, t < (a.length + 16383) / 16384 → s.st t = .done) : Run f a s.flag

end

/-- `x >= y` of the template instance: booleans are compared as `int8_t` (sort.cpp 2886-2888). -/
def ge : (t : DT) → BitVec t.bits → BitVec t.bits → Bool
  | .bool, x, y => (ops .i8).le y x
  | t, x, y => (ops t).le y x

/-- The function chosen for numeric types, sort.cpp 2885-2919. -/
def numFn (t : DT) : List (BitVec t.bits) → Option Bool := isSortedFn (ops t).isNaN (fun x y => some (ge t x y))

/-- ... for strings of `len` units, 2925-2930. -/
def strFn {u : Nat} (len : Nat) : List (List (BitVec u)) → Option Bool :=
  isSortedFn (fun _ => false) (fun x y => (strLt len x y).map (!·))

/-- ... for float16, 2931-2933: `atop_half` is `uint16_t`. -/
def halfFn : List (BitVec 16) → Option Bool := numFn .u16

end Pnumpy.IsSorted

import Verif.Model.Chunks
/-
Model of src/atop/recarray.cpp and src/pnumpy/conversions.cpp (recarray_to_colmajor), and of the Python function of the same
name (src/pnumpy/recarray.py).

The record array is its list of bytes (`rows * itemSize` of them), each output array its list of bytes. int64 products of row
numbers and sizes are taken as unbounded.
-/
namespace Pnumpy.RecArray

variable {β : Type}

/-- stRecarrayOffsets (common_inc.h): where a field starts in a record, and its size; the destination is the output array with
the same number as the column (src/atop/common_inc.h:432-440). -/
structure Col where
  readoffset : Int
  itemsize : Nat

/-- `len` bytes of the record array from byte `p` on (checked) (the reads of recarray.cpp 63-139). -/
def rd (rec : List β) (p : Int) (len : Nat) : Option (List β) :=
  if 0 ≤ p ∧ p + len ≤ rec.length then some ((rec.drop p.toNat).take len) else none

/-- CHUNKROWS, recarray.cpp 42-46: division by zero (`none`) for records of size 0. -/
def chunkRows (itemSize : Nat) : Option Nat :=
  if itemSize = 0 then none
  else some (if 32768 / (itemSize * 2) < 1 then 1 else 32768 / (itemSize * 2))

/-- The loops `while (startRow < endRow)` that move one item per row: recarray.cpp 77-81, 84-88, 99-103, 115-119. Returns the writes and the
final startRow. -/
def rowLoop (rec : List β) (itemSize : Nat) (c : Col) (e : Nat) (s : Nat) : Option (List (Int × List β) × Nat) :=
  if _h : s < e then do
    let x ← rd rec (c.readoffset + s * itemSize) c.itemsize
    let (ws, s') ← rowLoop rec itemSize c e (s + 1)
    some (((s * c.itemsize : Nat), x) :: ws, s')
  else some ([], s)
termination_by e - s
decreasing_by omega

/-- Lane `l` of vindex, recarray.cpp 48-49: 32 bit product, sign-extended by the gather. -/
def vindex (itemSize l : Nat) : Int := (BitVec.ofNat 32 itemSize * BitVec.ofNat 32 l).toInt

/-- `_mm256_i32gather_epi32` / `_mm256_i32gather_epi64` with scale 1, recarray.cpp 94, 110: lanes 0 .. `lanes - 1`. -/
def gather (rec : List β) (itemSize : Nat) (base : Int) (w : Nat) : Nat → Option (List β)
  | 0 => some []
  | l + 1 => do
    let xs ← gather rec itemSize base w l
    let x ← rd rec (base + vindex itemSize l) w
    some (xs ++ x)

/-- The loops `while (startRow < endSubRow)`, recarray.cpp 92-97 (8 lanes of 4 bytes) and 108-113 (4 lanes of 8 bytes); `sub` is
endSubRow = endRow - lanes, which may be negative. -/
def gatherLoop (rec : List β) (itemSize : Nat) (c : Col) (lanes : Nat) (sub : Int) (s : Nat) : Option (List (Int × List β) × Nat) :=
  if _h : (s : Int) < sub ∧ 0 < lanes then do
    let x ← gather rec itemSize (c.readoffset + s * itemSize) c.itemsize lanes
    let (ws, s') ← gatherLoop rec itemSize c lanes sub (s + lanes)
    some (((s * c.itemsize : Nat), x) :: ws, s')
  else some ([], s)
termination_by (sub - s).toNat
decreasing_by omega

/-- Copy of one item byte by byte, recarray.cpp 132-134. -/
def copyBytes (rec : List β) : Nat → Int → Int → Option (List (Int × List β))
  | 0, _, _ => some []
  | n + 1, src, dst => do
    let x ← rd rec src 1
    let ws ← copyBytes rec n (src + 1) (dst + 1)
    some ((dst, x) :: ws)

/-- Copy of one item of any size, recarray.cpp 124-134: eight bytes at a time while *more* than eight are left, then single bytes. -/
def copyItem (rec : List β) (n : Nat) (src dst : Int) : Option (List (Int × List β)) :=
  if _h : 8 < n then do
    let x ← rd rec src 8
    let ws ← copyItem rec (n - 8) (src + 8) (dst + 8)
    some ((dst, x) :: ws)
  else copyBytes rec n src dst
termination_by n
decreasing_by omega

/-- The default case, recarray.cpp 122-137. -/
def itemLoop (rec : List β) (itemSize : Nat) (c : Col) (e : Nat) (s : Nat) : Option (List (Int × List β) × Nat) :=
  if _h : s < e then do
    let xs ← copyItem rec c.itemsize (c.readoffset + s * itemSize) (s * c.itemsize : Nat)
    let (ws, s') ← itemLoop rec itemSize c e (s + 1)
    some (xs ++ ws, s')
  else some ([], s)
termination_by e - s
decreasing_by omega

/-- One column for the rows `s .. e - 1`, recarray.cpp 63-139. -/
def column (rec : List β) (itemSize : Nat) (c : Col) (s e : Nat) : Option (List (Int × List β) × Nat) :=
  if c.itemsize = 1 ∨ c.itemsize = 2 then rowLoop rec itemSize c e s
  else if c.itemsize = 4 ∨ c.itemsize = 8 then do
    let lanes := if c.itemsize = 4 then 8 else 4
    let (ws, s') ← gatherLoop rec itemSize c lanes (e - lanes) s
    let (ws', s'') ← rowLoop rec itemSize c e s'
    some (ws ++ ws', s'')
  else itemLoop rec itemSize c e s

/-- A write into output array number `i` (recarray.cpp 63-139). -/
abbrev Write (β : Type) := Nat × Int × List β

/-- The loop over the columns, recarray.cpp 62-139, from column number `i` on: `startRow` is set back to `orig` for every column and keeps
the value of the last one. -/
def columns (rec : List β) (itemSize orig e : Nat) : Nat → List Col → Nat → Option (List (Write β) × Nat)
  | _, [], s => some ([], s)
  | i, c :: cs, _ => do
    let (ws, s') ← column rec itemSize c orig e
    let (ws', s'') ← columns rec itemSize orig e (i + 1) cs s'
    some (ws.map (fun w => (i, w)) ++ ws', s'')

/-- ConvertRecArray's outer loop, recarray.cpp 51-140: `Conv .. s r` if the loop started with startRow = s ends, with the writes `r`, or
with an access outside the record array (`none`). No `r` at all: it runs for ever. -/
inductive Conv (rec : List β) (itemSize chunk : Nat) (cols : List Col) (total : Nat) : Nat → Option (List (Write β)) → Prop where
  | done {s : Nat} : ¬ s < total → Conv rec itemSize chunk cols total s (some [])
  | fault {s : Nat} : s < total → columns rec itemSize s (min (s + chunk) total) 0 cols s = none → Conv rec itemSize chunk cols total s none
  | step {s s' : Nat} {ws : List (Write β)} {r : Option (List (Write β))} : s < total →
      columns rec itemSize s (min (s + chunk) total) 0 cols s = some (ws, s') → Conv rec itemSize chunk cols total s' r →
      Conv rec itemSize chunk cols total s (r.map (ws ++ ·))

/-- Work item `b` of RecArrayToColMajor, recarray.cpp 187-193: `(startRow, totalRows)`. -/
def rowBlock (rows b : Nat) : Nat × Nat := (b * 16384, if rows < b * 16384 + 16384 then rows else b * 16384 + 16384)

/-- The calls of ConvertRecArray that RecArrayToColMajor makes, recarray.cpp 165-214, with DoMultiThreadedWork (threads.h 953-978): all at
once up to 16384 rows; otherwise per work item, in a loop if threading is off, else as handed out by the counter (index mode)
under any schedule in which WorkMain has returned. -/
inductive Calls (rows : Nat) : List (Nat × Nat) → Prop where
  | small : ¬ 16384 < rows → Calls rows [(0, rows)]
  | unthreaded : 16384 < rows → Calls rows ((List.range ((rows + 16383) / 16384)).map (rowBlock rows))
  | threaded (wakeup : Nat) (sched : List Counter.Act) : 16384 < rows →
      (Counter.exec { n := (rows + 16383) / 16384, skip0 := true, wakeup } sched).pc 0 = .returned →
      Calls rows ((Counter.exec { n := (rows + 16383) / 16384, skip0 := true, wakeup } sched).log.map (rowBlock rows))

/-- The writes of all the calls, if all of them end without leaving the record array (recarray.cpp 165-214). -/
inductive AllConv (rec : List β) (itemSize chunk : Nat) (cols : List Col) : List (Nat × Nat) → List (Write β) → Prop where
  | nil : AllConv rec itemSize chunk cols [] []
  | cons {s e : Nat} {cs : List (Nat × Nat)} {ws ws' : List (Write β)} : Conv rec itemSize chunk cols e s (some ws) →
      AllConv rec itemSize chunk cols cs ws' → AllConv rec itemSize chunk cols ((s, e) :: cs) (ws ++ ws')

/-- Writes into the output arrays (recarray.cpp 63-139). -/
def runWrites (outs : List (List β)) : List (Write β) → Option (List (List β))
  | [] => some outs
  | (i, off, x) :: ws => do
    let out ← outs[i]?
    let out' ← Chunks.write out off x
    runWrites (outs.set i out') ws

/-- `outs'` can be the contents of the output arrays when the C function has returned (writes of different calls in any order) (recarray.cpp 147-220). -/
def Result (rec : List β) (itemSize : Nat) (cols : List Col) (rows : Nat) (outs outs' : List (List β)) : Prop :=
  ∃ chunk calls ws ws', chunkRows itemSize = some chunk ∧ Calls rows calls ∧ AllConv rec itemSize chunk cols calls ws ∧ ws'.Perm ws ∧
    runWrites outs ws' = some outs'

/-- The C function can leave its arrays, or divide by zero (recarray.cpp 147-220). -/
def Faults (rec : List β) (itemSize : Nat) (cols : List Col) (rows : Nat) (outs : List (List β)) : Prop :=
  chunkRows itemSize = none ∨ ∃ chunk calls, chunkRows itemSize = some chunk ∧ Calls rows calls ∧
    ((∃ c ∈ calls, Conv rec itemSize chunk cols c.2 c.1 none) ∨
      ∃ ws ws', AllConv rec itemSize chunk cols calls ws ∧ ws'.Perm ws ∧ runWrites outs ws' = none)

/-! ### The Python function -/

/-- What evaluating a Python name gives in a function body where the names `bound` are bound (locals and globals) (for src/pnumpy/recarray.py:40-63). -/
def pyName (bound : List String) (name : String) : Except String Unit :=
  if name ∈ bound then .ok () else .error s!"NameError: name '{name}' is not defined"

/-- The part of pnumpy.recarray_to_colmajor up to the call of the C function, recarray.py 26-39, for a record array (`V`) with the given field
type characters: the local names bound when the test on line 39 is reached, and the name it evaluates first. `ok true`: goes on to the
C function. -/
def pyToColmajor (fields : List Char) (parallel : Bool) : Except String Bool :=
  let success := fields.all fun t => t ≠ 'O' ∧ t ≠ 'V'
  let bound := ["warnings", "np", "_recarray_to_colmajor", "recarray_to_colmajor", "item", "parallel", "list_types", "success", "t", "val", "d"]
  do
    pyName bound "successs"
    .ok (success && parallel)

end Pnumpy.RecArray

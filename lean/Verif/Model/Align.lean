import Verif.Model.Elementwise
import Verif.Model.GetItem
/-
Alignment demanded by the accesses of the kernels.

A `Demand` is an access of the compiled code whose address must be a multiple of `align`: an aligned vector intrinsic (`LOADA`,
`STOREA`), or a plain dereference of a pointer to a vector type (`*pIn1_256`, `pDataIn256[0]`, `*(__m128*)p`), which lets the
compiler use an aligned load or store (a processor fault at other addresses).  `LOADU`, `STOREU`, `_mm_storeu_si128`,
`_mm_storel_epi64`, gathers and accesses of plain integers and floats demand nothing on x86-64.
Simplification: what the compiler actually emits is not modelled; a demand is what the source entitles it to assume (compilers
may fold a load into an instruction that tolerates any address).  The Microsoft branches (`RT_COMPILER_MSVC`) are not modelled.
-/
namespace Pnumpy.Align
open Pnumpy.Elem

/-- An access of `addr` that requires `align ∣ addr` (`LOADA`, `STOREA`, src/atop/ops_binary.cpp:48-56). -/
structure Demand where
  addr : Int
  align : Nat
deriving DecidableEq, Repr

/-- Element positions at which `while (p < pEnd) { step; p += w; }` makes its steps (src/atop/ops_binary.cpp:515-519). -/
def whileStarts (w pEnd p : Nat) : List Nat :=
  if p < pEnd ∧ 0 < w then p :: whileStarts w pEnd (p + w) else []
termination_by pEnd - p
decreasing_by omega

/-- Element positions at which `do { step; p += w; } while (p < pEnd)` makes its steps (src/atop/ops_unary.cpp:355-362). -/
def doStarts (w pEnd p : Nat) : List Nat :=
  if p + w < pEnd ∧ 0 < w then p :: doStarts w pEnd (p + w) else [p]
termination_by pEnd - p
decreasing_by omega

/-- The vector loop of the in-place branch with a scalar second operand: aligned load (or dereference) and aligned store of 32
bytes at every step (src/atop/ops_binary.cpp:508-520, 733-742). -/
def inplaceDemands (size : Nat) (addr : Int) (n : Nat) : List Demand :=
  let w := 32 / size
  let pre := inplacePre size addr n
  let rest := n - pre
  if rest ≥ w then (whileStarts w (pre + w * (rest / w)) pre).map fun p => ⟨addr + size * (p : Nat), 32⟩ else []

/-- The aligned accesses of an element-wise kernel.  `SimpleMathOpFast`, `SimpleMathOpFastSymmetric` (src/atop/ops_binary.cpp:399-793): only
in the in-place branch, all others use `LOADU`/`STOREU`.  `SimpleMathOpFastDouble`: `CONV_INT32_DOUBLE` dereferences `__m128i*`
(138, 811-823; not in any dispatch table).  `UnaryOpFast`: `MATH_OP256(*pIn1_256)` (src/atop/ops_unary.cpp:358).
All the other kernels use unaligned intrinsics (src/atop/ops_unary.cpp:440-985, src/atop/ops_compare.cpp:396-1264). -/
def demands : Kernel → Args → Nat → List Demand
  | .fast size, A, n =>
    if A.so = size then
      if (A.s1 ≠ 0 ∧ A.s2 ≠ 0) ∧ (A.s2 = size ∧ A.s1 = size) then []
      else if A.s1 = 0 ∧ A.s2 = size then []
      else if A.s2 = 0 ∧ A.s1 = size ∧ A.po = A.p1 then inplaceDemands size A.p1 n
      else []
    else []
  | .symmetric size, A, n =>
    if A.so = size then
      if A.s2 = size ∧ A.s1 = size then []
      else if A.s1 = 0 ∧ A.s2 = size then []
      else if A.s2 = 0 ∧ A.s1 = size ∧ A.po = A.p1 then inplaceDemands size A.p1 n
      else []
    else []
  | .fastDouble size, A, n =>
    if A.so = 8 ∧ (size : Int) = A.s1 ∧ A.s1 = A.s2 ∧ n ≥ 4 then
      (whileStarts 4 (4 * (n / 4)) 0).flatMap fun p =>
        [⟨A.p1 + size * (p : Nat), 16⟩, ⟨A.p2 + size * (p : Nat), 16⟩]
    else []
  | .unaryFast size, A, n =>
    if (size : Int) = A.so ∧ (size : Int) = A.s1 ∧ n ≥ 32 / size then
      (doStarts (32 / size) (32 / size * (n / (32 / size))) 0).map fun p => ⟨A.p1 + size * (p : Nat), 32⟩
    else []
  | _, _, _ => []

/-- The aligned accesses of `ReduceMathOpFast` over `n` elements of `size` bytes at `addr`: the first two registers are read with
`LOADU`, the following ones by dereferencing `pDataIn256[0]`, `pDataIn256[1]` (src/atop/ops_binary.cpp:202-217). -/
def reduceDemands (size : Nat) (addr stride : Int) (n : Nat) : List Demand :=
  let w := 32 / size
  let chunk := 2 * w
  if stride = size ∧ n ≥ chunk then
    (whileStarts chunk (chunk * (n / chunk)) chunk).flatMap fun p =>
      [⟨addr + size * (p : Nat), 32⟩, ⟨addr + size * ((p + w : Nat) : Int), 32⟩]
  else []

/-- Address of the element `GetItemInt`/`GetItemUInt` reads for `index` (src/pnumpy/getitem.cpp:628-660, 689-717); `none`: out of
range, the default is used. -/
def source (values stride : Int) (n : Nat) (index : Int) : Option Int :=
  if -n ≤ index ∧ index < n then some (values + stride * (if index ≥ 0 then index else index + n)) else none

/-- The aligned accesses of indexing an array of 16-byte items (`GetItemInt<__m128, …>`, src/pnumpy/getitem.cpp:616-664, chosen at 940-1013):
the default is read once, each selected item is read and written as `__m128`. -/
def getItem16Demands (values stride dflt out : Int) (n : Nat) (idx : List Int) : List Demand :=
  ⟨dflt, 16⟩ :: (idx.zipIdx.flatMap fun (ix, i) =>
    (match source values stride n ix with | some a => [⟨a, 16⟩] | none => []) ++ [⟨out + 16 * (i : Nat), 16⟩])

end Pnumpy.Align

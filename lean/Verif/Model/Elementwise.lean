import Verif.Model.WorkItem
/-
Element-wise kernels as programs of lane accesses.

A kernel call emits a list of accesses.  `load l x y` reads the cells at addresses `x` and `y`,
applies the scalar operation and keeps the result in the register of lane `l`;
`store l a` writes the register of lane `l` to address `a`.  A vector step of width `w` is `w` loads
followed by `w` stores (one vector load, one vector operation, one vector store); one iteration of a
scalar loop is a load directly followed by its store.  A store from a register never loaded is an
explicit failure (`none`).

Simplifications: memory is a map from addresses to element values, so two accesses either hit the
same element or do not interact (arrays whose element boundaries interleave are not modelled); a
scalar operand is read at every lane instead of once before the loop, which is unobservable
as long as the output does not overwrite it (the hypothesis under which every theorem is stated);
the vector operation is taken lane by lane to be the scalar operation (proved separately for the
operations where this is not immediate).
-/
namespace Pnumpy.Elem

/-- One lane access (one lane of the loads and stores of the kernels in src/atop/ops_binary.cpp:405-861). -/
inductive Acc where
  | load (lane : Nat) (x y : Int)
  | store (lane : Nat) (a : Int)
deriving DecidableEq, Repr

/-- Memory and the registers of each running kernel call (`reg c l` = lane `l` of call `c`) (memory and local variables of the kernels in src/atop/ops_binary.cpp:405-861). -/
structure MState (α : Type) where
  mem : Int → α
  reg : Nat → Nat → Option α

/-- Effect of one access made by kernel call `c` (e.g. src/atop/ops_binary.cpp:432-445). -/
def stepAcc {α : Type} (f : α → α → α) (s : MState α) (c : Nat) : Acc → Option (MState α)
  | .load l x y => some { s with
      reg := fun c' l' => if c' = c ∧ l' = l then some (f (s.mem x) (s.mem y)) else s.reg c' l' }
  | .store l a =>
    match s.reg c l with
    | none => none
    | some v => some { s with mem := fun a' => if a' = a then v else s.mem a' }

/-- Run a sequence of accesses, each tagged with the kernel call that makes it (the kernels of src/atop/ops_binary.cpp:405-861, src/atop/ops_unary.cpp:325-985, src/atop/ops_compare.cpp:396-1262). -/
def run {α : Type} (f : α → α → α) : MState α → List (Nat × Acc) → Option (MState α)
  | s, [] => some s
  | s, (c, e) :: es => (stepAcc f s c e).bind fun s' => run f s' es

/-- The memory after running accesses from memory `m` with empty registers (same kernels, src/atop/ops_binary.cpp:405-861). -/
def runMem {α : Type} (f : α → α → α) (m : Int → α) (es : List (Nat × Acc)) : Option (Int → α) :=
  (run f ⟨m, fun _ _ => none⟩ es).map (·.mem)

/-- Memory after a single kernel call (src/pnumpy/_pnumpy.cpp:753). -/
def runKernel {α : Type} (f : α → α → α) (m : Int → α) (es : List Acc) : Option (Int → α) :=
  runMem f m (es.map fun e => (0, e))

/-! ### Loop shapes -/

/-- `for (i = 0; i < cnt; i++) out[start+i] = OP(in1[start+i], in2[start+i])` (e.g. src/atop/ops_binary.cpp:440-450). -/
def scalarLoop (a1 a2 o : Nat → Int) (start cnt : Nat) : List Acc :=
  (List.range cnt).flatMap fun i =>
    [.load (start + i) (a1 (start + i)) (a2 (start + i)), .store (start + i) (o (start + i))]

/-- One vector step on lanes `p .. p+w-1`: `STOREU(pOut, OP256(LOADU(pIn1), LOADU(pIn2)))`. -/
def vecStep (a1 a2 o : Nat → Int) (w p : Nat) : List Acc :=
  (List.range w).map (fun j => .load (p + j) (a1 (p + j)) (a2 (p + j))) ++
  (List.range w).map (fun j => .store (p + j) (o (p + j)))

/-- `do { step; p += w; } while (p < pEnd)`: accesses and the final position (e.g. src/atop/ops_binary.cpp:425-440). -/
def vecDo (a1 a2 o : Nat → Int) (w pEnd p : Nat) : List Acc × Nat :=
  if p + w < pEnd ∧ 0 < w then
    let r := vecDo a1 a2 o w pEnd (p + w)
    (vecStep a1 a2 o w p ++ r.1, r.2)
  else (vecStep a1 a2 o w p, p + w)
termination_by pEnd - p
decreasing_by omega

/-- `while (p < pEnd) { step; p += w; }` (e.g. src/atop/ops_binary.cpp:508-520). -/
def vecWhile (a1 a2 o : Nat → Int) (w pEnd p : Nat) : List Acc × Nat :=
  if p < pEnd ∧ 0 < w then
    let r := vecWhile a1 a2 o w pEnd (p + w)
    (vecStep a1 a2 o w p ++ r.1, r.2)
  else ([], p)
termination_by pEnd - p
decreasing_by omega

/-- `for (i = 0; i < cnt; i++) { step at i*w }` and `while (p != pStart + cnt)` loops (e.g. src/atop/ops_compare.cpp:462-480). -/
def vecFor (a1 a2 o : Nat → Int) (w cnt : Nat) : List Acc :=
  (List.range cnt).flatMap fun i => vecStep a1 a2 o w (w * i)

/-! ### Kernels -/

/-- Pointers and byte strides passed to a two-input kernel
(`pDataIn1X, pDataIn2X, pDataOutX, strideIn1, strideIn2, strideOut`) (typedef of the two-input kernels, src/atop/atop.h and src/atop/ops_binary.cpp:411-416). -/
structure Args where
  p1 : Int
  s1 : Int
  p2 : Int
  s2 : Int
  po : Int
  so : Int

/-- Address of element `i` at a stride: `STRIDE_NEXT` applied `i` times
(/repo/src/atop/common.h, macro `STRIDE_NEXT`) (src/atop/common_inc.h:394). -/
def strided (p s : Int) (i : Nat) : Int := p + s * i

/-- The vector-then-tail shape shared by the contiguous branches
(/repo/src/atop/ops_binary.cpp 419-451, 461-488, 538-562; 602-656).
`v1 v2` are the operand addresses of the vector part, `a1 a2` of the tail. -/
def vecTail (v1 v2 a1 a2 o : Nat → Int) (w n : Nat) : List Acc :=
  if n ≥ w then
    let pEnd := w * (n / w)
    let r := vecDo v1 v2 o w pEnd 0
    r.1 ++ scalarLoop a1 a2 o r.2 (n &&& (w - 1))
  else scalarLoop a1 a2 o 0 n

/-- Number of scalar steps made to reach a 32-byte boundary before the aligned vector loop of the
in-place scalar branch (/repo/src/atop/ops_binary.cpp 496-507, 720-731): `babylen = (32 - (addr & 31)) /
sizeof(T)`, skipped if the address is aligned or if it exceeds the length.  `size` = sizeof(T). -/
def inplacePre (size : Nat) (addr : Int) (n : Nat) : Nat :=
  let off := (addr % 32).toNat
  let baby := (32 - off) / size
  if off ≠ 0 ∧ baby ≤ n then baby else 0

/-- In-place with a scalar second operand (`pDataOut == pDataIn1`): scalar steps up to a 32-byte
boundary, aligned vector steps, scalar tail (/repo/src/atop/ops_binary.cpp 493-530; with the vector
operands swapped 717-760 `MATH_OP256(m1, *pIn1_256)`). -/
def inplaceScalar (v1 v2 a1 a2 o : Nat → Int) (size w : Nat) (addr : Int) (n : Nat) : List Acc :=
  let pre := inplacePre size addr n
  let rest := n - pre
  scalarLoop a1 a2 o 0 pre ++
  (if rest ≥ w then
    let r := vecWhile v1 v2 o w (pre + w * (rest / w)) pre
    r.1 ++ scalarLoop a1 a2 o r.2 (rest &&& (w - 1))
  else scalarLoop a1 a2 o pre rest)

/-- `SimpleMathOpSlow` (/repo/src/atop/ops_binary.cpp 350-393). -/
def simpleMathOpSlow (size : Nat) (A : Args) (n : Nat) : List Acc :=
  let g1 := strided A.p1 A.s1
  let g2 := strided A.p2 A.s2
  let go := strided A.po A.so
  let c1 := strided A.p1 size
  let c2 := strided A.p2 size
  let co := strided A.po size
  if A.so = size then
    if A.s1 ≠ 0 ∧ A.s2 ≠ 0 then
      if A.s2 = size ∧ A.s1 = size then scalarLoop c1 c2 co 0 n else scalarLoop g1 g2 go 0 n
    else if A.s1 = 0 ∧ A.s2 = size then scalarLoop (fun _ => A.p1) c2 co 0 n
    else if A.s2 = 0 ∧ A.s1 = size then scalarLoop c1 (fun _ => A.p2) co 0 n
    else scalarLoop g1 g2 go 0 n
  else scalarLoop g1 g2 go 0 n

/-- `SimpleMathOpFast` (/repo/src/atop/ops_binary.cpp 399-571); `w = sizeof(U256)/sizeof(T)`. -/
def simpleMathOpFast (size : Nat) (A : Args) (n : Nat) : List Acc :=
  let w := 32 / size
  let g1 := strided A.p1 A.s1
  let g2 := strided A.p2 A.s2
  let go := strided A.po A.so
  let c1 := strided A.p1 size
  let c2 := strided A.p2 size
  let co := strided A.po size
  let k1 : Nat → Int := fun _ => A.p1
  let k2 : Nat → Int := fun _ => A.p2
  if A.so = size then
    if (A.s1 ≠ 0 ∧ A.s2 ≠ 0) ∧ (A.s2 = size ∧ A.s1 = size) then vecTail c1 c2 c1 c2 co w n
    else if A.s1 = 0 ∧ A.s2 = size then vecTail k1 c2 k1 c2 co w n
    else if A.s2 = 0 ∧ A.s1 = size then
      if A.po = A.p1 then inplaceScalar c1 k2 c1 k2 c1 size w A.p1 n
      else vecTail c1 k2 c1 k2 co w n
    else scalarLoop g1 g2 go 0 n
  else scalarLoop g1 g2 go 0 n

/-- `SimpleMathOpFastSymmetric` (/repo/src/atop/ops_binary.cpp 577-793): with a scalar second operand
the vector part passes the operands swapped; with `pDataIn1 == pDataIn2` only the first is loaded. -/
def simpleMathOpFastSymmetric (size : Nat) (A : Args) (n : Nat) : List Acc :=
  let w := 32 / size
  let g1 := strided A.p1 A.s1
  let g2 := strided A.p2 A.s2
  let go := strided A.po A.so
  let c1 := strided A.p1 size
  let c2 := strided A.p2 size
  let co := strided A.po size
  let k1 : Nat → Int := fun _ => A.p1
  let k2 : Nat → Int := fun _ => A.p2
  if A.so = size then
    if A.s2 = size ∧ A.s1 = size then
      if A.p1 ≠ A.p2 then vecTail c1 c2 c1 c2 co w n else vecTail c1 c1 c1 c1 co w n
    else if A.s1 = 0 ∧ A.s2 = size then vecTail k1 c2 k1 c2 co w n
    else if A.s2 = 0 ∧ A.s1 = size then
      if A.po = A.p1 then inplaceScalar k2 c1 c1 k2 c1 size w A.p1 n
      else vecTail k2 c1 c1 k2 co w n
    else scalarLoop g1 g2 go 0 n
  else scalarLoop g1 g2 go 0 n

/-- `SimpleMathOpFastDouble` (/repo/src/atop/ops_binary.cpp 797-861): inputs of `size` bytes,
8-byte output, 4 lanes per step. -/
def simpleMathOpFastDouble (size : Nat) (A : Args) (n : Nat) : List Acc :=
  let g1 := strided A.p1 A.s1
  let g2 := strided A.p2 A.s2
  let go := strided A.po A.so
  let c1 := strided A.p1 size
  let c2 := strided A.p2 size
  let co := strided A.po 8
  if A.so = 8 then
    if (size : Int) = A.s1 ∧ A.s1 = A.s2 then
      if n ≥ 4 then
        let r := vecWhile c1 c2 co 4 (4 * (n / 4)) 0
        r.1 ++ scalarLoop c1 c2 co r.2 (n &&& 3)
      else scalarLoop c1 c2 co 0 n
    else if (size : Int) = A.s2 ∧ A.s1 = 0 then scalarLoop (fun _ => A.p1) c2 co 0 n
    else if (size : Int) = A.s1 ∧ A.s2 = 0 then scalarLoop c1 (fun _ => A.p2) co 0 n
    else scalarLoop g1 g2 go 0 n
  else scalarLoop g1 g2 go 0 n

/-- Slow loop of the unary kernels, `while (pOut != pLastOut)` with `pLastOut = pDataOut +
strideOut*len`, started at lane `p` (/repo/src/atop/ops_unary.cpp 370-374 and alike).
For a nonzero stride the pointer meets `pLastOut` exactly at lane `n`; for stride 0 it is equal from
the start and the loop does nothing. -/
def unarySlow (a o : Nat → Int) (so : Int) (n p : Nat) : List Acc :=
  if so = 0 then [] else scalarLoop a a o p (n - p)

/-- `UnaryOpFast` (/repo/src/atop/ops_unary.cpp 327-375; `UnaryOpFastStrided` 382-432 has the same
access pattern because its vector branch also requires `strideIn == sizeof(T)`).
A unary operation is a binary one reading the same cell twice. -/
def unaryOpFast (size : Nat) (p s po so : Int) (n : Nat) : List Acc :=
  let w := 32 / size
  let c := strided p size
  let co := strided po size
  if (size : Int) = so ∧ (size : Int) = s ∧ n ≥ w then
    let r := vecDo c c co w (w * (n / w)) 0
    r.1 ++ unarySlow (strided p s) (strided po so) so n r.2
  else unarySlow (strided p s) (strided po so) so n 0

/-- `UnaryOpSlow`, `UnaryOpSlowDouble`, `UnaryOpSlowBool` (/repo/src/atop/ops_unary.cpp 934-986). -/
def unaryOpSlow (p s po so : Int) (n : Nat) : List Acc :=
  unarySlow (strided p s) (strided po so) so n 0

/-- `UnaryNanFastFloat` (/repo/src/atop/ops_unary.cpp 440-487, `minLen = 0`, 32 lanes) and
`UnaryNanFastDouble` (494-548, `minLen = 4`, 8 lanes): boolean output. -/
def unaryNanFast (size w minLen : Nat) (p s po so : Int) (n : Nat) : List Acc :=
  if (1 : Int) = so ∧ (size : Int) = s ∧ n ≥ minLen then
    vecFor (strided p size) (strided p size) (strided po 1) w (n / w) ++
    scalarLoop (strided p size) (strided p size) (strided po 1) (w * (n / w)) (n - w * (n / w))
  else unarySlow (strided p s) (strided po so) so n 0

/-- The movemask kernels `UnaryNotNan*`, `UnaryFinite*`, `UnaryInfFastDouble`, `UnaryNotFinite*` (`UnaryInfFastFloat` has the shape `unaryNanFast 4 32 0`)
(/repo/src/atop/ops_unary.cpp 554-926): `w` lanes per step (8 floats / 4 doubles), boolean output. -/
def unaryMaskFast (size w : Nat) (p s po so : Int) (n : Nat) : List Acc :=
  if (1 : Int) = so ∧ (size : Int) = s ∧ n ≥ w then
    let r := vecWhile (strided p size) (strided p size) (strided po 1) w (w * (n / w)) 0
    r.1 ++ unarySlow (strided p s) (strided po so) so n r.2
  else unarySlow (strided p s) (strided po so) so n 0

/-- `CompareAny` (/repo/src/atop/ops_compare.cpp 396-448). -/
def compareAny (size : Nat) (A : Args) (n : Nat) : List Acc :=
  let g1 := strided A.p1 A.s1
  let g2 := strided A.p2 A.s2
  let c1 := strided A.p1 size
  let c2 := strided A.p2 size
  if A.so = 1 then
    if A.s1 = 0 then
      if A.s2 = size then scalarLoop (fun _ => A.p1) c2 (strided A.po 1) 0 n
      else scalarLoop g1 g2 (strided A.po A.so) 0 n
    else if A.s2 = 0 then
      if A.s1 = size then scalarLoop c1 (fun _ => A.p2) (strided A.po 1) 0 n
      else scalarLoop g1 g2 (strided A.po A.so) 0 n
    else if A.s2 = size ∧ A.s1 = size then scalarLoop c1 c2 (strided A.po 1) 0 n
    else scalarLoop g1 g2 (strided A.po A.so) 0 n
  else scalarLoop g1 g2 (strided A.po A.so) 0 n

/-- `CompareFloat` (454-603, w=32), `CompareDouble` (607-781, w=8), `CompareInt32S` (w=32),
`CompareInt32` (w=8), `CompareInt16` (w=16) of /repo/src/atop/ops_compare.cpp: `len/w` vector steps,
then a scalar tail. -/
def compareVec (size w : Nat) (A : Args) (n : Nat) : List Acc :=
  let g1 := strided A.p1 A.s1
  let g2 := strided A.p2 A.s2
  let c1 := strided A.p1 size
  let c2 := strided A.p2 size
  let k1 : Nat → Int := fun _ => A.p1
  let k2 : Nat → Int := fun _ => A.p2
  let co := strided A.po 1
  let body (a b : Nat → Int) : List Acc :=
    vecFor a b co w (n / w) ++ scalarLoop a b co (n / w * w) (n - n / w * w)
  if A.so = 1 then
    if A.s1 = 0 then
      if A.s2 = size then body k1 c2 else scalarLoop g1 g2 (strided A.po A.so) 0 n
    else if A.s2 = 0 then
      if A.s1 = size then body c1 k2 else scalarLoop g1 g2 (strided A.po A.so) 0 n
    else if A.s1 = size ∧ A.s2 = size then body c1 c2
    else scalarLoop g1 g2 (strided A.po A.so) 0 n
  else scalarLoop g1 g2 (strided A.po A.so) 0 n

/-- `CompareInt64` (/repo/src/atop/ops_compare.cpp 786-898): 16 lanes while
`pDestFast < pDataOut + len - 16`, then a scalar tail up to `pDataOut + len`. -/
def compareInt64 (A : Args) (n : Nat) : List Acc :=
  let g1 := strided A.p1 A.s1
  let g2 := strided A.p2 A.s2
  let c1 := strided A.p1 8
  let c2 := strided A.p2 8
  let k1 : Nat → Int := fun _ => A.p1
  let k2 : Nat → Int := fun _ => A.p2
  let co := strided A.po 1
  let body (a b : Nat → Int) : List Acc :=
    let r := vecWhile a b co 16 (n - 16) 0
    r.1 ++ scalarLoop a b co r.2 (n - r.2)
  if A.so = 1 then
    if A.s1 = 0 then
      if A.s2 = 8 then body k1 c2 else scalarLoop g1 g2 (strided A.po A.so) 0 n
    else if A.s2 = 0 then
      if A.s1 = 8 then body c1 k2 else scalarLoop g1 g2 (strided A.po A.so) 0 n
    else if A.s1 = 8 ∧ A.s2 = 8 then body c1 c2
    else scalarLoop g1 g2 (strided A.po A.so) 0 n
  else scalarLoop g1 g2 (strided A.po A.so) 0 n

/-- `CompareInt8` (/repo/src/atop/ops_compare.cpp 1190-1264): as `compareVec` with 32 lanes, except
that the array-array branch lacks the `return`: with `len` already reduced to `len % 32` control
falls into the generic loop, which recomputes the first `len % 32` elements. -/
def compareInt8 (A : Args) (n : Nat) : List Acc :=
  let g1 := strided A.p1 A.s1
  let g2 := strided A.p2 A.s2
  let c1 := strided A.p1 1
  let c2 := strided A.p2 1
  let k1 : Nat → Int := fun _ => A.p1
  let k2 : Nat → Int := fun _ => A.p2
  let co := strided A.po 1
  let go := strided A.po A.so
  let len := n - n / 32 * 32
  let body (a b : Nat → Int) : List Acc :=
    vecFor a b co 32 (n / 32) ++ scalarLoop a b co (n / 32 * 32) len
  if A.so = 1 then
    if A.s1 = 0 then
      if A.s2 = 1 then body k1 c2 else scalarLoop g1 g2 go 0 n
    else if A.s2 = 0 then
      if A.s1 = 1 then body c1 k2 else scalarLoop g1 g2 go 0 n
    else if A.s1 = 1 ∧ A.s2 = 1 then body c1 c2 ++ scalarLoop g1 g2 go 0 len
    else scalarLoop g1 g2 go 0 n
  else scalarLoop g1 g2 go 0 n

/-! ### Threaded call -/

/-- Arguments of the kernel call for the block that starts at element `first`:
`pDataIn + BlockSize*workBlock*itemSizeIn` etc.
(`BinaryThreadCallbackStrided`, /repo/src/pnumpy/_pnumpy.cpp 447-480; unary 520-550). -/
def Args.at (A : Args) (first : Nat) : Args :=
  { A with p1 := A.p1 + A.s1 * first, p2 := A.p2 + A.s2 * first, po := A.po + A.so * first }

/-- `evs` is an interleaving of the programs `progs` (program `c` is `progs[c]`): the accesses tagged
`c` are, in order, exactly the accesses of program `c` (the threads of src/atop/threads.h:319-389 running callbacks of src/pnumpy/_pnumpy.cpp:447-590). -/
def Interleaving (progs : List (List Acc)) (evs : List (Nat × Acc)) : Prop :=
  ∀ c, (evs.filter (fun e => e.1 == c)).map (·.2) = progs.getD c []

end Pnumpy.Elem

namespace Pnumpy.Elem

/-- The kernel templates modelled above, with their template parameters (src/atop/ops_binary.cpp:405-861, src/atop/ops_unary.cpp:325-985, src/atop/ops_compare.cpp:396-1262). -/
inductive Kernel where
  | slow (size : Nat)
  | fast (size : Nat)
  | symmetric (size : Nat)
  | fastDouble (size : Nat)
  | unaryFast (size : Nat)
  | unarySlow
  | unaryNan (size w minLen : Nat)
  | unaryMask (size w : Nat)
  | cmpAny (size : Nat)
  | cmpVec (size w : Nat)
  | cmpInt64
  | cmpInt8

/-- Accesses of a call of kernel `k` (unary kernels use the first input only) (the kernels of src/atop/ops_binary.cpp:405-861, src/atop/ops_unary.cpp:325-985, src/atop/ops_compare.cpp:396-1262). -/
def Kernel.prog : Kernel → Args → Nat → List Acc
  | .slow size, A, n => simpleMathOpSlow size A n
  | .fast size, A, n => simpleMathOpFast size A n
  | .symmetric size, A, n => simpleMathOpFastSymmetric size A n
  | .fastDouble size, A, n => simpleMathOpFastDouble size A n
  | .unaryFast size, A, n => unaryOpFast size A.p1 A.s1 A.po A.so n
  | .unarySlow, A, n => unaryOpSlow A.p1 A.s1 A.po A.so n
  | .unaryNan size w ml, A, n => unaryNanFast size w ml A.p1 A.s1 A.po A.so n
  | .unaryMask size w, A, n => unaryMaskFast size w A.p1 A.s1 A.po A.so n
  | .cmpAny size, A, n => compareAny size A n
  | .cmpVec size w, A, n => compareVec size w A n
  | .cmpInt64, A, n => compareInt64 A n
  | .cmpInt8, A, n => compareInt8 A n

/-- Kernels with one input (src/atop/ops_unary.cpp:325-985). -/
def Kernel.isUnary : Kernel → Bool
  | .unaryFast _ | .unarySlow | .unaryNan .. | .unaryMask .. => true
  | _ => false

/-- Template parameters that are instantiated: element sizes 1, 2, 4, 8 for the 256-bit kernels, a
nonzero number of lanes for the others. -/
def Kernel.Valid : Kernel → Prop
  | .fast size | .symmetric size | .unaryFast size => size = 1 ∨ size = 2 ∨ size = 4 ∨ size = 8
  | .unaryNan _ w _ | .unaryMask _ w | .cmpVec _ w => 0 < w
  | _ => True

/-- Calling convention: a unary kernel is called with a nonzero output stride
(`AtopUnaryMathFunction`, /repo/src/pnumpy/_pnumpy.cpp 882-887), and its "second" operand is the
first; the symmetric kernel is only instantiated with commutative operations
(/repo/src/atop/ops_binary.cpp 872-1040). -/
def Kernel.Callable {α : Type} (k : Kernel) (f : α → α → α) (A : Args) : Prop :=
  (k.isUnary = true → A.so ≠ 0 ∧ A.p2 = A.p1 ∧ A.s2 = A.s1) ∧
  ((∃ size, k = .symmetric size) → ∀ x y, f x y = f y x)

end Pnumpy.Elem

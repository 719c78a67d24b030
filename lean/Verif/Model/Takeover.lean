import Verif.Model.Hooks
import Verif.Model.OpTables
import Verif.Model.Dispatch
import Verif.Model.BoolTables
import Verif.Model.Reduce
/-
From a Python history to the loop that computes: `newinit` fills the tables from the getters of the atop library
(src/pnumpy/_pnumpy.cpp:1318-1490), a call runs whatever the function pointer inside numpy now is (740-793, 872-900).
`Model.Hooks` leaves the getters open; here they are `Model.OpTables`.
-/
namespace Pnumpy.Takeover
open Pnumpy.Hooks Pnumpy.OpTables Pnumpy.Elem Pnumpy.Dispatch Pnumpy.Spec

/-- The atop type numbers of the element types (the enum of src/atop/common_inc.h:236-248) that the getters distinguish. -/
def atopDT : Int → Option DT
  | 0 => some .bool | 1 => some .i8 | 2 => some .u8 | 3 => some .i16 | 4 => some .u16 | 5 => some .i32 | 6 => some .u32
  | 7 => some .i64 | 8 => some .u64 | 12 => some .f32 | 13 => some .f64
  | _ => none

/-- The one-input functions whose getters are in `Model.Classify` instead (src/atop/ops_unary.cpp 1347-1376, 1407-1437, 1487-1505, 1612-1622). -/
def classifies : Op → Bool
  | .SIGNBIT | .ISINF | .ISNAN | .ISFINITE => true
  | _ => false

/-- `signature[2] != -1`, `signature[1] != -1` (src/pnumpy/_pnumpy.cpp:1341-1346, 1458-1463): the loop is replaced.  Comparisons,
trigonometric functions, sorts, argmin/argmax and fill are left open (`other`). -/
def selects (F : FloatUnit) (other : Hook → Bool) (h : Hook) : Bool :=
  match h.1.tbl, atopDT (atype h.2) with
  | .binary, some t => (mathOpFast F h.1.op t).wanted.isSome
  | .unary, some t => if classifies h.1.op then other h else (unaryOp F h.1.op t).wanted.isSome
  | _, _ => other h

/-- `pBinaryFunc != NULL`, `pUnaryFunc != NULL` (src/pnumpy/_pnumpy.cpp:1368-1369, 1482-1483). -/
def hasKernel (F : FloatUnit) (other : Key → Bool) (k : Key) : Bool :=
  match k.tbl, atopDT k.atype with
  | .binary, some t => (mathOpFast F k.op t).func.isSome
  | .unary, some t => if classifies k.op then other k else (unaryOp F k.op t).func.isSome
  | _, _ => other k

/-- The machine and the tables (src/pnumpy/_pnumpy.cpp:1287-1676). `stop`: a replacement numpy refuses ends `initialize` there. -/
def config (F : FloatUnit) (avx2 : Bool) (stop : Option Nat) (otherSel : Hook → Bool) (otherKernel : Key → Bool) : Cfg :=
  { avx2 := avx2, sel := selects F otherSel, stop := stop, kernel := hasKernel F otherKernel }

/-- `pBinaryFunc` of a table position (src/pnumpy/_pnumpy.cpp:1341, 1368). -/
def binaryFunc (F : FloatUnit) (k : Key) (t : DT) : Option TwoFunc :=
  if k.tbl = .binary ∧ atopDT k.atype = some t then (mathOpFast F k.op t).func else none

/-- The settings the stub reads are those of the state (`g_Settings` in src/pnumpy/_pnumpy.cpp:744-768, src/atop/threads.h:1056). -/
def worldOf (s : St) (w : World) : World := { w with atop := s.atop, noThreading := s.noThreading }

/-- A call of the two-input function object `o` on dtype `d` (elements of type `t`): the scalar operation that is carried
out and the memory accesses (the branch `NOT a binary reduce` of `AtopBinaryMathFunction`, src/pnumpy/_pnumpy.cpp:728-805; reductions are
`Model.Reduce`).  `np o d` is the operation of numpy's own loop.  A stub whose
saved loop is NULL would crash: no outcome. -/
inductive Call2 (F : FloatUnit) (s : St) (o : Obj) (d : Nat) (t : DT) (np : Obj → Nat → BitVec t.bits → BitVec t.bits → BitVec t.bits)
    (w : World) (A : Args) (n : Nat) : (BitVec t.bits → BitVec t.bits → BitVec t.bits) → List (Nat × Acc) → Prop
  /-- numpy's own loop is in place -/
  | unhooked (o' d') (hl : s.loops o d = .numpy o' d') : Call2 F s o d t np w A n (np o' d') ((oldLoop A n).map fun a => (0, a))
  /-- the stub runs the kernel -/
  | kernel (k e) (hl : s.loops o d = .stub k) (he : binaryFunc F k t = some e) (hb : e.bits = t.bits) (mt : Int) (evs)
      (hc : (Stub.binary.chosen ⟨some e.kernel, mt⟩ (worldOf s w) A).isSome = true)
      (hx : Exec .binary ⟨some e.kernel, mt⟩ A n (worldOf s w) evs) :
      Call2 F s o d t np w A n (fun x y => (e.op (x.cast hb.symm) (y.cast hb.symm)).cast hb) evs
  /-- the stub calls the saved loop (`pOldFunc`), in one piece or once per block -/
  | saved (k o' d') (hl : s.loops o d = .stub k) (ho : s.old k = some (.numpy o' d')) (mt : Int) (evs)
      (hc : Stub.binary.chosen ⟨(binaryFunc F k t).map (·.kernel), mt⟩ (worldOf s w) A = none)
      (hx : Exec .binary ⟨(binaryFunc F k t).map (·.kernel), mt⟩ A n (worldOf s w) evs) :
      Call2 F s o d t np w A n (np o' d') evs

/-- `pUnaryFunc` of a table position (src/pnumpy/_pnumpy.cpp:1458-1462, 1483). -/
def unaryFunc (F : FloatUnit) (k : Key) (t : DT) : Option OneFunc :=
  if k.tbl = .unary ∧ atopDT k.atype = some t then (unaryOp F k.op t).func else none

/-- A call of the one-input function object `o` on dtype `d` (elements of type `t`, results of the same size): as `Call2`
(AtopUnaryMathFunction, src/pnumpy/_pnumpy.cpp:872-932).  A saved loop that is itself a stub (np.invert, see C36) is not followed. -/
inductive Call1 (F : FloatUnit) (s : St) (o : Obj) (d : Nat) (t : DT) (np : Obj → Nat → BitVec t.bits → BitVec t.bits)
    (w : World) (p sp po so : Int) (n : Nat) : (BitVec t.bits → BitVec t.bits) → List (Nat × Acc) → Prop
  /-- numpy's own loop is in place -/
  | unhooked (o' d') (hl : s.loops o d = .numpy o' d') :
      Call1 F s o d t np w p sp po so n (np o' d') ((oldLoop ⟨p, sp, p, sp, po, so⟩ n).map fun a => (0, a))
  /-- the stub runs the kernel -/
  | kernel (k e) (hl : s.loops o d = .stub k) (he : unaryFunc F k t = some e) (hb : e.inBits = t.bits) (hb' : e.outBits = t.bits) (mt : Int) (evs)
      (hc : (Stub.unary.chosen ⟨some e.kernel, mt⟩ (worldOf s w) ⟨p, sp, p, sp, po, so⟩).isSome = true)
      (hx : Exec .unary ⟨some e.kernel, mt⟩ ⟨p, sp, p, sp, po, so⟩ n (worldOf s w) evs) :
      Call1 F s o d t np w p sp po so n (fun x => (e.op (x.cast hb.symm)).cast hb') evs
  /-- the stub calls the saved loop (`pOldFunc`), in one piece or once per block -/
  | saved (k o' d') (hl : s.loops o d = .stub k) (ho : s.old k = some (.numpy o' d')) (mt : Int) (evs)
      (hc : Stub.unary.chosen ⟨(unaryFunc F k t).map (·.kernel), mt⟩ (worldOf s w) ⟨p, sp, p, sp, po, so⟩ = none)
      (hx : Exec .unary ⟨(unaryFunc F k t).map (·.kernel), mt⟩ ⟨p, sp, p, sp, po, so⟩ n (worldOf s w) evs) :
      Call1 F s o d t np w p sp po so n (np o' d') evs

/-- `pBinaryFunc` of a position of the comparison table: which comparison of elements of type `t` it makes (src/pnumpy/_pnumpy.cpp:1411, 1436). -/
def compareFunc (k : Key) (t : DT) : Option CmpOp :=
  if k.tbl = .compare ∧ atopDT k.atype = some t then BoolTables.cmpOf k.op else none

/-- The byte the kernel's scalar comparison stores, on cells holding the bits of the element that starts there (the stores of
src/atop/ops_compare.cpp:396-450; that the vector steps store the same is C57_lanes). -/
def storedByte (t : DT) (op : CmpOp) (a b : Nat) : Nat :=
  let s := match Compare.dispatch t op with
    | .any s => s
    | .vec _ _ s => s
  (Compare.boolByte (s (BitVec.ofNat _ a) (BitVec.ofNat _ b))).toNat

/-- A call of the comparison `o` on dtype `d` (elements of type `t`, results of one byte): as `Call2`
(AtopCompareMathFunction, src/pnumpy/_pnumpy.cpp:807-867). -/
inductive CallCmp (s : St) (o : Obj) (d : Nat) (t : DT) (np : Obj → Nat → Nat → Nat → Nat) (w : World) (A : Args) (n : Nat) :
    (Nat → Nat → Nat) → List (Nat × Acc) → Prop
  /-- numpy's own loop is in place -/
  | unhooked (o' d') (hl : s.loops o d = .numpy o' d') : CallCmp s o d t np w A n (np o' d') ((oldLoop A n).map fun a => (0, a))
  /-- the stub runs the kernel -/
  | kernel (k c) (hl : s.loops o d = .stub k) (he : compareFunc k t = some c) (mt : Int) (evs)
      (hc : (Stub.compare.chosen ⟨some (BoolTables.cmpTemplate t c), mt⟩ (worldOf s w) A).isSome = true)
      (hx : Exec .compare ⟨some (BoolTables.cmpTemplate t c), mt⟩ A n (worldOf s w) evs) : CallCmp s o d t np w A n (storedByte t c) evs
  /-- the stub calls the saved loop (`pOldFunc`), in one piece or once per block -/
  | saved (k o' d') (hl : s.loops o d = .stub k) (ho : s.old k = some (.numpy o' d')) (mt : Int) (evs)
      (hc : Stub.compare.chosen ⟨(compareFunc k t).map (BoolTables.cmpTemplate t), mt⟩ (worldOf s w) A = none)
      (hx : Exec .compare ⟨(compareFunc k t).map (BoolTables.cmpTemplate t), mt⟩ A n (worldOf s w) evs) : CallCmp s o d t np w A n (np o' d') evs

/-- The byte the logical_not kernel stores, on cells holding the bits of the element that starts there (the stores of src/atop/ops_unary.cpp:935-985). -/
def storedNot (e : OneFunc) (a : Nat) : Nat := (e.op (BitVec.ofNat _ a)).toNat

/-- A call of the one-input function object `o` on dtype `d` (elements of type `t`) whose results are bytes: as `Call1`, on cells
(AtopUnaryMathFunction, src/pnumpy/_pnumpy.cpp:872-932). -/
inductive CallNot (F : FloatUnit) (s : St) (o : Obj) (d : Nat) (t : DT) (np : Obj → Nat → Nat → Nat) (w : World) (p sp po so : Int) (n : Nat) :
    (Nat → Nat) → List (Nat × Acc) → Prop
  /-- numpy's own loop is in place -/
  | unhooked (o' d') (hl : s.loops o d = .numpy o' d') :
      CallNot F s o d t np w p sp po so n (np o' d') ((oldLoop ⟨p, sp, p, sp, po, so⟩ n).map fun a => (0, a))
  /-- the stub runs the kernel -/
  | kernel (k e) (hl : s.loops o d = .stub k) (he : unaryFunc F k t = some e) (mt : Int) (evs)
      (hc : (Stub.unary.chosen ⟨some e.kernel, mt⟩ (worldOf s w) ⟨p, sp, p, sp, po, so⟩).isSome = true)
      (hx : Exec .unary ⟨some e.kernel, mt⟩ ⟨p, sp, p, sp, po, so⟩ n (worldOf s w) evs) :
      CallNot F s o d t np w p sp po so n (storedNot e) evs
  /-- the stub calls the saved loop (`pOldFunc`), in one piece or once per block -/
  | saved (k o' d') (hl : s.loops o d = .stub k) (ho : s.old k = some (.numpy o' d')) (mt : Int) (evs)
      (hc : Stub.unary.chosen ⟨(unaryFunc F k t).map (·.kernel), mt⟩ (worldOf s w) ⟨p, sp, p, sp, po, so⟩ = none)
      (hx : Exec .unary ⟨(unaryFunc F k t).map (·.kernel), mt⟩ ⟨p, sp, p, sp, po, so⟩ n (worldOf s w) evs) :
      CallNot F s o d t np w p sp po so n (np o' d') evs

/-- A call of a one-input loop on elements that stay in one piece (a block of another call: 16384 elements): whatever the pointer is, stub or saved loop, until a
kernel or numpy's own loop is reached (src/pnumpy/_pnumpy.cpp:886-896, 503-531).  np.invert has two stubs on top of each other (see C36). -/
inductive Piece1 (F : FloatUnit) (s : St) (t : DT) (np : Obj → Nat → BitVec t.bits → BitVec t.bits) (w : World) (A : Args) (n : Nat) :
    Loop → (BitVec t.bits → BitVec t.bits) → List Acc → Prop
  | numpy (o d) : Piece1 F s t np w A n (.numpy o d) (np o d) (oldLoop A n)
  | kernel (k e) (he : unaryFunc F k t = some e) (hb : e.inBits = t.bits) (hb' : e.outBits = t.bits)
      (hc : (Stub.unary.chosen ⟨some e.kernel, 0⟩ (worldOf s w) A).isSome = true) :
      Piece1 F s t np w A n (.stub k) (fun x => (e.op (x.cast hb.symm)).cast hb') (implProg (some e.kernel) A n)
  | saved (k l) (ho : s.old k = some l) (hc : Stub.unary.chosen ⟨(unaryFunc F k t).map (·.kernel), 0⟩ (worldOf s w) A = none)
      (op acc) (hr : Piece1 F s t np w A n l op acc) : Piece1 F s t np w A n (.stub k) op acc

/-- A call of a one-input loop: the saved loop may be a stub again, which decides by itself whether to split, with what it then finds (`w'`)
(src/pnumpy/_pnumpy.cpp:872-932; the ledger only calls the stub again). -/
inductive Loop1 (F : FloatUnit) (s : St) (t : DT) (np : Obj → Nat → BitVec t.bits → BitVec t.bits) (A : Args) (n : Nat) :
    World → Loop → (BitVec t.bits → BitVec t.bits) → List (Nat × Acc) → Prop
  | numpy (w o d) : Loop1 F s t np A n w (.numpy o d) (np o d) ((oldLoop A n).map fun a => (0, a))
  | kernel (w k e) (he : unaryFunc F k t = some e) (hb : e.inBits = t.bits) (hb' : e.outBits = t.bits) (mt : Int) (evs)
      (hc : (Stub.unary.chosen ⟨some e.kernel, mt⟩ (worldOf s w) A).isSome = true)
      (hx : Exec .unary ⟨some e.kernel, mt⟩ A n (worldOf s w) evs) :
      Loop1 F s t np A n w (.stub k) (fun x => (e.op (x.cast hb.symm)).cast hb') evs
  | savedSerial (w k l) (ho : s.old k = some l) (hc : Stub.unary.chosen ⟨(unaryFunc F k t).map (·.kernel), 0⟩ (worldOf s w) A = none)
      (hg : (worldOf s w).getsItem n = false) (w' op evs) (hr : Loop1 F s t np A n w' l op evs) : Loop1 F s t np A n w (.stub k) op evs
  | savedThreaded (w k l) (ho : s.old k = some l) (hc : Stub.unary.chosen ⟨(unaryFunc F k t).map (·.kernel), 0⟩ (worldOf s w) A = none)
      (hg : (worldOf s w).getsItem n = true) (mt : Int) (sched : List Nat)
      (hret : (Work.exec (Work.workMainSetup n mt w.maxWakeup Work.CHUNK true w.zigzag) sched).pc 0 = .returned)
      (op) (prog : Nat × Nat → List Acc)
      (hr : ∀ c ∈ Work.kernelCalls (Work.workMainSetup n mt w.maxWakeup Work.CHUNK true w.zigzag)
          (Work.exec (Work.workMainSetup n mt w.maxWakeup Work.CHUNK true w.zigzag) sched), Piece1 F s t np w (A.at c.1) c.2 l op (prog c))
      (evs) (hint : Interleaving ((Work.kernelCalls (Work.workMainSetup n mt w.maxWakeup Work.CHUNK true w.zigzag)
          (Work.exec (Work.workMainSetup n mt w.maxWakeup Work.CHUNK true w.zigzag) sched)).map prog) evs) :
      Loop1 F s t np A n w (.stub k) op evs

/-- `pReduceFunc` of a table position (src/pnumpy/_pnumpy.cpp:1370-1372). -/
def reduceFunc (F : FloatUnit) (k : Key) (t : DT) : Option RedFunc :=
  if k.tbl = .binary ∧ atopDT k.atype = some t then reduceOpFast F k.op t else none

/-- The layout a reduce kernel sees (the tests of src/atop/ops_binary.cpp:202, 239, 275, 327); `sr` is `steps[1]` in elements. -/
def layoutOf (sr : Int) : Reduce.Layout := if sr = 1 then .contiguous else if sr = 0 then .zero else .strided

/-- `<o>.reduce` on the elements `xs`, `sr` elements apart, of dtype `d` (type `t`), starting from `init`: the value left in the output, or `none` if memory
outside the buffers is read (the branch `IS_BINARY_REDUCE` of `AtopBinaryMathFunction`, src/pnumpy/_pnumpy.cpp:645-727; the ledger only calls it again).
`np o d` is the operation of numpy's own loop. -/
inductive CallRed (F : FloatUnit) (s : St) (o : Obj) (d : Nat) (t : DT) (np : Obj → Nat → BitVec t.bits → BitVec t.bits → BitVec t.bits)
    (w : World) (sr : Int) (xs : List (BitVec t.bits)) (init : BitVec t.bits) : Option (BitVec t.bits) → Prop
  /-- numpy's own loop is in place -/
  | unhooked (o' d') (hl : s.loops o d = .numpy o' d') : CallRed F s o d t np w sr xs init (some (Reduce.numpyReduce (np o' d') xs init))
  /-- the kernel, in one piece -/
  | kernelSerial (k e) (hl : s.loops o d = .stub k) (hw : (worldOf s w).getsItem xs.length = false) (hat : s.atop = true)
      (he : reduceFunc F k t = some e) (hb : e.bits = t.bits) :
      CallRed F s o d t np w sr xs init (Reduce.reduceFast (fun x y => (e.op (x.cast hb.symm) (y.cast hb.symm)).cast hb) (256 / e.bits) (layoutOf sr) xs init)
  /-- the kernel, once per block, then over the results -/
  | kernelThreaded (k e) (hl : s.loops o d = .stub k) (hw : (worldOf s w).getsItem xs.length = true) (hat : s.atop = true)
      (he : reduceFunc F k t = some e) (hb : e.bits = t.bits) (mt : Int) (sched : List Nat)
      (hret : (Work.exec (Work.workMainSetup xs.length mt w.maxWakeup Work.CHUNK true w.zigzag) sched).pc 0 = .returned) :
      CallRed F s o d t np w sr xs init
        (Reduce.threadedFast (fun x y => (e.op (x.cast hb.symm) (y.cast hb.symm)).cast hb) (256 / e.bits) (layoutOf sr)
          ((reduceStartVal k.op t e.bits).map (BitVec.cast hb)) xs init
          (Work.kernelCalls (Work.workMainSetup xs.length mt w.maxWakeup Work.CHUNK true w.zigzag)
            (Work.exec (Work.workMainSetup xs.length mt w.maxWakeup Work.CHUNK true w.zigzag) sched)))
  /-- the saved loop, in one piece -/
  | savedSerial (k o' d') (hl : s.loops o d = .stub k) (hw : (worldOf s w).getsItem xs.length = false)
      (hno : s.atop = false ∨ reduceFunc F k t = none) (ho : s.old k = some (.numpy o' d')) :
      CallRed F s o d t np w sr xs init (some (Reduce.numpyReduce (np o' d') xs init))
  /-- the saved loop, once per block, then over the results -/
  | savedThreaded (k o' d') (hl : s.loops o d = .stub k) (hw : (worldOf s w).getsItem xs.length = true)
      (hno : s.atop = false ∨ reduceFunc F k t = none) (ho : s.old k = some (.numpy o' d')) (mt : Int) (sched : List Nat)
      (hret : (Work.exec (Work.workMainSetup xs.length mt w.maxWakeup Work.CHUNK true w.zigzag) sched).pc 0 = .returned) :
      CallRed F s o d t np w sr xs init
        (Reduce.threadedNumpy (np o' d') (reduceStartVal k.op t t.bits) sr xs init
          (Work.kernelCalls (Work.workMainSetup xs.length mt w.maxWakeup Work.CHUNK true w.zigzag)
            (Work.exec (Work.workMainSetup xs.length mt w.maxWakeup Work.CHUNK true w.zigzag) sched)))

end Pnumpy.Takeover
